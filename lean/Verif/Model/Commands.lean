import Verif.Model.CubeFile
/-!
# Reading and writing by format, and the command line

Model of `Grid.from_dynamic` and `Grid.write` (`src/baderkit/core/toolkit/grid.py:1503-1644`), the constructors `from_vasp` and `from_dynamic` of
`Bader`, `Badelf`, `SpinBadelf`, `ElfLabeler` and `SpinElfLabeler`, and the commands `run`, `badelf`, `label`, `split` and `regrid`
(`src/baderkit/command_line/base.py`).

Simplifications.
* A disk maps paths to files; readers, writers and the splitting of spins are given (`GridLib`).  An exception is `none`.
* A command ends with the arguments with which the analysis is created; the analysis itself is modelled elsewhere.
* Keyword arguments are a list of names and values; a named parameter takes the value given for its name or its default, all others go to
  `**kwargs`.
* `int` knows an optional minus and digits; `strip` without argument removes blanks, tabs and line ends.
* The suffix of a path is that of Python before 3.14.
-/
namespace BaderKit
variable {F G K : Type}

/-! ### Formats -/

/-- The argument `format`: nothing, a member of `Format` or a string. For `grid.py:1503-1546`. -/
inductive FmtArg where
  | none | member (f : FileFormat) | text (s : String)
  deriving DecidableEq

/-- The readers, writers and other operations of `Grid` that the commands use. For `file_parsers.py:32-38`. -/
structure GridLib (F G : Type) where
  /-- `detect_format` -/
  detect : F → Option FileFormat
  /-- `from_vasp`; the flag is `total_only` -/
  readVasp : Bool → F → Option G
  /-- `from_cube` -/
  readCube : F → Option G
  /-- `from_hdf5` -/
  readHdf5 : F → Option G
  /-- `source_format` -/
  source : G → FileFormat
  /-- the writer of a format -/
  write : FileFormat → G → Option F
  /-- `is_spin_polarized` -/
  polarized : G → Bool
  /-- `split_to_spin` -/
  split : G → Option (G × G)

/-- Files by path. For `grid.py:1503-1546`. -/
abbrev Disk (F : Type) := String → Option F

/-- `Format(value)` for a string, `file_parsers.py:19-22`. -/
def formatOf (s : String) : Option FileFormat :=
  if s = "vasp" then some .vasp else if s = "cube" then some .cube else if s = "hdf5" then some .hdf5 else none

/-- The reader of a format; `from_cube` and `from_hdf5` ignore `total_only` (it ends in the `**kwargs` of `Grid`), `file_parsers.py:32-38`. -/
def readAs (lib : GridLib F G) (totalOnly : Bool) : FileFormat → F → Option G
  | .vasp, f => lib.readVasp totalOnly f
  | .cube, f => lib.readCube f
  | .hdf5, f => lib.readHdf5 f

/-- `Grid.from_dynamic`, `grid.py:1503-1546`.  A string has no attribute `reader`. -/
def gridDynamic (lib : GridLib F G) (disk : Disk F) (path : String) (fmt : FmtArg) (totalOnly : Bool) : Option G :=
  (disk path).bind fun f =>
    (match fmt with
      | .none => lib.detect f
      | .member m => some m
      | .text _ => none).bind fun m => readAs lib totalOnly m f

/-- `Grid.write`, `grid.py:1612-1644`. -/
def gridWrite (lib : GridLib F G) (g : G) (path : String) (fmt : FmtArg) (disk : Disk F) : Option (Disk F) :=
  (match fmt with
    | .none => some (lib.source g)
    | .member m => some m
    | .text s => formatOf s).bind fun m => (lib.write m g).map fun f => Function.update disk path (some f)

/-! ### Keyword arguments -/

/-- Values of keyword arguments. For `grid.py:1299-1355`. -/
inductive PyVal (K : Type) where
  | path (s : String) | text (s : String) | num (x : K) | flag (b : Bool) | nothing | opts (l : List (String × String))

/-- Keyword arguments. For `grid.py:1299-1355`. -/
abbrev Kw (K : Type) := List (String × PyVal K)

/-- The value of a named parameter. For `grid.py:1299-1355`. -/
def kwGet (kw : Kw K) (name : String) (default : PyVal K) : PyVal K := (kw.lookup name).getD default

/-- What remains for `**kwargs`. For `badelf.py:1150-1179`, `badelf_spin.py:577-606`. -/
def kwRest (kw : Kw K) (names : List String) : Kw K := kw.filter fun x => x.1 ∉ names

/-- `Grid.from_vasp` called with a path and keyword arguments, `grid.py:1299-1355`; other keywords end in the `**kwargs` of `Grid`. -/
def gridVaspKw (lib : GridLib F G) (disk : Disk F) (file : PyVal K) (kw : Kw K) : Option G :=
  match file with
  | .path p => (disk p).bind fun f =>
    match kwGet kw "total_only" (.flag true) with
    | .flag b => lib.readVasp b f
    | _ => none
  | _ => none

/-! ### The analyses -/

/-- With what a `Badelf` or `SpinBadelf` is created. For `badelf.py:103-160`, `badelf_spin.py:29-126`. -/
structure BadelfCall (G : Type) where
  spin : Bool
  reference : G
  charge : G
  method : String
  splitting : String
  labeler : List (String × String)
  deriving DecidableEq

/-- `Badelf.__init__` and `SpinBadelf.__init__`, `badelf.py:103-160`, `badelf_spin.py:29-126`: unknown keywords are swallowed by `**kwargs`. -/
def badelfInit (lib : GridLib F G) (spin : Bool) (reference charge : G) (kw : Kw K) : Option (BadelfCall G) :=
  if spin = true ∧ lib.polarized reference = false then none else
  match kwGet kw "method" (.text "zero-flux"), kwGet kw "shared_feature_splitting_method" (.text "weighted_dist"),
    kwGet kw "elf_labeler" (.opts []) with
  | .text m, .text s, .opts l =>
    if m = "badelf" ∨ m = "voronelf" ∨ m = "zero-flux" then some ⟨spin, reference, charge, m, s, l⟩ else none
  | _, _, _ => none

/-- `Badelf.from_vasp`, `badelf.py:1150-1179`, and `SpinBadelf.from_vasp`, `badelf_spin.py:577-606`. -/
def badelfFromVasp (lib : GridLib F G) (disk : Disk F) (spin : Bool) (kw : Kw K) : Option (BadelfCall G) :=
  let ref := kwGet kw "reference_file" (.path "ELFCAR")
  let chg := kwGet kw "charge_file" (.path "CHGCAR")
  let rest := kwRest kw ["reference_file", "charge_file"]
  let readKw : Kw K := if spin then [("total_only", .flag false)] else rest
  (gridVaspKw lib disk ref readKw).bind fun r => (gridVaspKw lib disk chg readKw).bind fun c => badelfInit lib spin r c rest

/-- The command `badelf`, `command_line/base.py:431-524`. -/
def badelfCommand (K : Type) (lib : GridLib F G) (disk : Disk F) (chargeFile referenceFile method baderMethod : String) (spin : Bool) :
    Option (BadelfCall G) :=
  badelfFromVasp lib disk spin ([("charge_filename", .path chargeFile), ("reference_filename", .path referenceFile),
    ("method", .text method), ("elf_labeler", .opts [("method", baderMethod)])] : Kw K)

/-- With what an `ElfLabeler` or `SpinElfLabeler` is created. For `command_line/base.py:527-605`, `elf_labeler.py:1564-1601`. -/
structure LabelCall (G : Type) where
  spin : Bool
  charge : G
  reference : G
  method : String
  deriving DecidableEq

/-- The command `label` with `ElfLabeler.from_vasp` and `SpinElfLabeler.from_vasp`, `command_line/base.py:527-605`, `elf_labeler.py:1564-1601`,
`elf_labeler_spin.py:602-639`. -/
def labelCommand (lib : GridLib F G) (disk : Disk F) (chargeFile referenceFile method : String) (spin : Bool) : Option (LabelCall G) :=
  (disk chargeFile).bind fun fc => (lib.readVasp (!spin) fc).bind fun c =>
    (disk referenceFile).bind fun fr => (lib.readVasp (!spin) fr).map fun r => ⟨spin, c, r, method⟩

/-- A tolerance on the command line or in Python: a number, or whether to use a vacuum at all. For `command_line/base.py:47-60`. -/
inductive VacArg (K : Type) where
  | flag (b : Bool) | num (x : K)
  deriving DecidableEq

/-- `float_or_bool`, `command_line/base.py:47-60`; `parse` is Python's `float`. -/
def floatOrBool (parse : Text → Option K) (t : Text) : Option (VacArg K) :=
  let l := t.map Char.toLower
  if l ∈ ["true".toList, "t".toList, "yes".toList, "y".toList] then some (.flag true)
  else if l ∈ ["false".toList, "f".toList, "no".toList, "n".toList] then some (.flag false)
  else (parse t).map .num

/-- With what a `Bader` is created. For `bader.py:56-101,958-1007`. -/
structure BaderCall (G K : Type) where
  charge : G
  reference : Option G
  method : String
  vacuum : VacArg K
  basinTol : K
  deriving DecidableEq

/-- `True` stands for the default tolerance, `bader.py:90-94`. -/
def vacDefault (dflt : K) : VacArg K → VacArg K
  | .flag true => .num dflt
  | v => v

/-- `Bader.from_dynamic` and `Bader.__init__`, `bader.py:56-101,958-1007`; the keyword `normalize_vacuum` is swallowed by `**kwargs`. -/
def baderDynamic (lib : GridLib F G) (disk : Disk F) (chargeFile : String) (referenceFile : Option String) (fmt : FmtArg) (method : String)
    (vac : VacArg K) (_normalize : Bool) (basinTol dflt : K) : Option (BaderCall G K) :=
  (gridDynamic lib disk chargeFile fmt true).bind fun c =>
    (match referenceFile with
      | none => some none
      | some r => (gridDynamic lib disk r fmt true).map some).map fun r =>
        ⟨c, r, method, vacDefault dflt vac, basinTol⟩

/-- The command `run` up to the creation of the `Bader`, `command_line/base.py:64-133`: the tolerance arrives as text. -/
def runCommand (parse : Text → Option K) (lib : GridLib F G) (disk : Disk F) (chargeFile : String) (referenceFile : Option String) (fmt : FmtArg)
    (method : String) (vacText : Text) (normalize : Bool) (basinTol dflt : K) : Option (BaderCall G K) :=
  (floatOrBool parse vacText).bind fun vac => baderDynamic lib disk chargeFile referenceFile fmt method vac normalize basinTol dflt

/-! ### Selections -/

/-- `text.split(c)`: always at least one part. For `command_line/base.py:140-144,501-505,591-595`. -/
def splitAt (c : Char) : Text → List Text
  | [] => [[]]
  | a :: t =>
    if a = c then [] :: splitAt c t
    else match splitAt c t with
      | [] => [[a]]
      | l :: ls => (a :: l) :: ls

/-- `text.strip(chars)`. For `command_line/base.py:140-144,501-505,591-595`. -/
def stripSet (p : Char → Bool) (t : Text) : Text := ((t.dropWhile p).reverse.dropWhile p).reverse

/-- The selection given to an exporter. For `command_line/base.py:140-144,501-505,591-595`. -/
inductive Selection where
  | ints (l : List ℤ) | words (l : List Text)
  deriving DecidableEq

/-- `indices` of the commands, `command_line/base.py:140-144,501-505,591-595`. -/
def parseSelection (t : Text) : Selection :=
  let parts := splitAt ',' (stripSet (fun c => c = '[' || c = ']' || c = ' ') t)
  match parts.mapM fun x => parseInt (strip x) with
  | some l => .ints l
  | none => .words (parts.map strip)

/-! ### Names of files -/

/-- `Path.suffix` of a name: from the last dot, if it is neither first nor last. For `command_line/base.py:343-349`. -/
def suffixOf (name : Text) : Text :=
  let s := name.reverse.takeWhile (· ≠ '.')
  if s.length + 1 < name.length ∧ s ≠ [] then '.' :: s.reverse else []

/-- The names written by `split`, `command_line/base.py:343-349`: relative to the current directory, whatever the directory of the file. -/
def splitNames (name : Text) : Text × Text :=
  let suf := suffixOf name
  let base := stripSet (fun c => c ∈ suf) name
  (base ++ "_up".toList ++ suf, base ++ "_down".toList ++ suf)

/-- The name written by `regrid` next to the file, `command_line/base.py:277-278`. -/
def regridName (name : Text) : Text := name.take (name.length - (suffixOf name).length) ++ "_regrid".toList

/-- The command `split` for a file in a directory, `command_line/base.py:320-355`. -/
def splitCommand (lib : GridLib F G) (disk : Disk F) (dir : String) (name : Text) (up down : Option String) (inFmt outFmt : FmtArg) :
    Option (Disk F) :=
  (gridDynamic lib disk (dir ++ String.ofList name) inFmt false).bind fun g =>
    if lib.polarized g then
      (lib.split g).bind fun s =>
        (gridWrite lib s.1 (up.getD (String.ofList (splitNames name).1)) outFmt disk).bind fun d =>
          gridWrite lib s.2 (down.getD (String.ofList (splitNames name).2)) outFmt d
    else none

end BaderKit
