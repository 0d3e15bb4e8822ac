import Verif.Model.GridOps
/-!
# Writing feature volumes to files

Model of the exporters of `ElfLabeler` (`src/baderkit/core/labelers/elf_labeler/elf_labeler.py:1630-1858`), of `SpinElfLabeler`
(`elf_labeler_spin.py:780-1027`) and of `SpinBadelf` (`src/baderkit/core/badelf/badelf_spin.py:608-918`).

Simplifications.
* The file system is a map from a directory and a file name to a content.  A prefix with a path separator is not treated.  Every directory
  exists and can be written.
* What a file contains is the array given to `Grid.write`, the features whose dummy atoms are in the structure, the data type and the requested
  format; the text format is the subject of `Model/VaspFile` and `Model/CubeFile`.
* Feature indices are natural numbers (a negative index would be taken from the end).
* An exception ends the call; the files written so far stay.
-/
namespace BaderKit

/-- Files by directory and name. For `elf_labeler.py:1630-1701`. -/
abbrev Files (C : Type) := String × String → Option C

/-- The argument `directory`: `None`, a `Path` or a `str`. For `elf_labeler.py:1673-1674`. -/
inductive Dir where
  | none_ | path (p : String) | str (p : String)
  deriving DecidableEq

/-- `if directory is None: directory = Path(".")`, e.g. `elf_labeler.py:1673-1674`. -/
def Dir.default : Dir → Dir
  | .none_ => .path "."
  | d => d

/-- `directory / name`: only a `Path` has this operator, `None` and `str` raise a `TypeError`. For `elf_labeler.py:1630-1701`. -/
def Dir.base : Dir → Option String
  | .path p => some p
  | _ => none

/-- The result of a call: the files afterwards, and `false` if it ended with an exception. For `elf_labeler.py:1630-1701`. -/
abbrev Wrote (C : Type) := Files C × Bool

/-- Two calls after each other. For `elf_labeler.py:1828-1841`. -/
def Wrote.andThen {C : Type} (r : Wrote C) (f : Files C → Wrote C) : Wrote C := if r.2 then f r.1 else r

/-- A `for` loop. For `elf_labeler.py:1630-1701`. -/
def forEach {α C : Type} (f : α → Files C → Wrote C) : List α → Files C → Wrote C
  | [], fs => (fs, true)
  | a :: l, fs => (f a fs).andThen (forEach f l)

/-- `grid.write(directory / name)`. For `elf_labeler.py:1630-1701`. -/
def fwrite {C : Type} (dir : Option String) (name : String) (c : C) (fs : Files C) : Wrote C :=
  match dir with
  | none => (fs, false)
  | some d => (Function.update fs (d, name) (some c), true)

/-- `os.rename(directory / a, directory / b)`: raises if the first does not exist, replaces the second if it exists.
For `elf_labeler.py:1828-1841`. -/
def frename {C : Type} (dir : Option String) (a b : String) (fs : Files C) : Wrote C :=
  match dir with
  | none => (fs, false)
  | some d =>
    match fs (d, a) with
    | none => (fs, false)
    | some c => (Function.update (Function.update fs (d, a) none) (d, b) (some c), true)

/-- What is written to a file. For `elf_labeler.py:1686-1700,1766-1776`. -/
structure GridFile (K : Type) where
  data : ℕ → K
  /-- the data type is that of the reference -/
  isRef : Bool
  /-- `include_dummy_atoms`: the features added to the structure -/
  dummies : Option (List ℕ)
  /-- `output_format` -/
  fmt : Option String

/-- What the exporters use of an `ElfLabeler`. For `elf_labeler.py:1665-1671,1740-1746`. -/
structure Exporter (K : Type) where
  ref : ℕ → K
  chg : ℕ → K
  refPrefix : String
  chgPrefix : String
  /-- `bader.basin_labels` -/
  labels : ℕ → ℤ
  /-- type and basins of the features -/
  feats : List (String × List ℕ)

/-- The arguments of the exporters. For `elf_labeler.py:1682-1684,1757-1759,1820-1827`. -/
structure ExpOpts where
  dir : Dir
  /-- `write_reference` -/
  useRef : Bool
  /-- `include_dummy_atoms` -/
  dummies : Bool
  fmt : Option String
  /-- `prefix_override` -/
  pre : Option String

section
variable {K : Type} [Zero K]

/-- `data_array`, `elf_labeler.py:1665-1671,1740-1746`. -/
def Exporter.data (L : Exporter K) (useRef : Bool) : ℕ → K := if useRef then L.ref else L.chg

/-- `prefix_override`, `elf_labeler.py:1682-1684,1757-1759,1820-1827`. -/
def Exporter.prefix (L : Exporter K) (o : ExpOpts) : String := o.pre.getD (if o.useRef then L.refPrefix else L.chgPrefix)

/-- The file of a list of basins, `elf_labeler.py:1686-1700,1766-1776`. -/
def Exporter.file (L : Exporter K) (o : ExpOpts) (idxs : List ℕ) (basins : List ℕ) : GridFile K :=
  ⟨exportSum (L.data o.useRef) L.labels (basins.map fun (b : ℕ) => (b : ℤ)), o.useRef, if o.dummies then some idxs else none, o.fmt⟩

/-- `get_feature_structure_by_index` raises for a feature that does not exist. For `elf_labeler.py:1630-1701`. -/
def Exporter.badDummies (L : Exporter K) (o : ExpOpts) (idxs : List ℕ) : Bool := o.dummies && idxs.any fun i => decide (L.feats.length ≤ i)

/-- `write_feature_basins`, `elf_labeler.py:1630-1701`. -/
def writeFeatureBasins (L : Exporter K) (o : ExpOpts) (idxs : List ℕ) (fs : Files (GridFile K)) : Wrote (GridFile K) :=
  if L.badDummies o idxs then (fs, false) else
  forEach (fun i fs =>
    match L.feats[i]? with
    | none => (fs, false)
    | some f => fwrite o.dir.default.base (L.prefix o ++ "_f" ++ Nat.repr i) (L.file o idxs f.2) fs) idxs fs

/-- `basin_list`, `elf_labeler.py:1761-1764`. -/
def Exporter.basinsOf (L : Exporter K) : List ℕ → Option (List ℕ)
  | [] => some []
  | i :: l => match L.feats[i]?, L.basinsOf l with
    | some f, some bs => some (f.2 ++ bs)
    | _, _ => none

/-- `write_feature_basins_sum`, `elf_labeler.py:1703-1776`. -/
def writeFeatureSum (L : Exporter K) (o : ExpOpts) (idxs : List ℕ) (fs : Files (GridFile K)) : Wrote (GridFile K) :=
  if L.badDummies o idxs then (fs, false) else
  match L.basinsOf idxs with
  | none => (fs, false)
  | some bs => fwrite o.dir.default.base (L.prefix o ++ "_fsum") (L.file o idxs bs) fs

/-- `write_all_features`, `elf_labeler.py:1778-1790`. -/
def writeAllFeatures (L : Exporter K) (o : ExpOpts) : Files (GridFile K) → Wrote (GridFile K) :=
  writeFeatureBasins L o (List.range L.feats.length)

/-- The values of `FeatureType`, `enum_and_styling.py:109-121`. -/
def featureValues : List String :=
  ["unknown", "shell", "core", "covalent", "covalent-metallic", "shallow covalent-metallic", "metallic", "lone-pair", "multi-centered",
   "electride", "bare electron"]

/-- `FEATURE_DUMMY_ATOMS` and `dummy_species`, `enum_and_styling.py:37-50,196-205`. -/
def dummySpecies (t : String) : String :=
  if t = "shell" then "Xs" else if t = "core" then "Xc" else if t = "covalent" then "Z" else if t = "covalent-metallic" then "Z"
  else if t = "shallow covalent-metallic" then "Z" else if t = "metallic" then "M" else if t = "lone-pair" then "Lp"
  else if t = "multi-centered" then "Zm" else if t = "electride" then "E" else if t = "bare electron" then "E" else "X"

/-- `feature_indices_by_type`, `elf_labeler.py:985-1003`. -/
def Exporter.ofTypes (L : Exporter K) (types : List String) : List ℕ :=
  (List.range L.feats.length).filter fun i => L.feats[i]?.elim false fun f => decide (f.1 ∈ types)

/-- One type in `write_features_by_type`, `elf_labeler.py:1828-1841`: `write_reference` is not passed on, the default of the callee is `True`;
`directory` may still be `None` when the file is renamed. -/
def writeOneType (L : Exporter K) (o : ExpOpts) (t : String) (fs : Files (GridFile K)) : Wrote (GridFile K) :=
  if t ∉ featureValues then (fs, false) else
  let p := L.prefix o ++ "_" ++ dummySpecies t
  (writeFeatureSum L { o with useRef := true, pre := some p } (L.ofTypes [t]) fs).andThen (frename o.dir.base (p ++ "_fsum") p)

/-- `write_features_by_type`, `elf_labeler.py:1792-1841`. -/
def writeByType (L : Exporter K) (o : ExpOpts) : List String → Files (GridFile K) → Wrote (GridFile K) := forEach (writeOneType L o)

/-- `write_features_by_type_sum`, `elf_labeler.py:1843-1858`. -/
def writeByTypeSum (L : Exporter K) (o : ExpOpts) (types : List String) : Files (GridFile K) → Wrote (GridFile K) :=
  writeFeatureSum L o (L.ofTypes types)

/-- What the exporters use of a `SpinElfLabeler`, `elf_labeler_spin.py:44-96`; with equal channels `down` is the object `up`. -/
structure SpinExporter (K : Type) where
  up : Exporter K
  down : Exporter K
  equal : Bool
  refPrefix : String
  chgPrefix : String

/-- `prefix_override`, `elf_labeler_spin.py:807-812,893-898,981-986`. -/
def SpinExporter.prefix (S : SpinExporter K) (o : ExpOpts) : String := o.pre.getD (if o.useRef then S.refPrefix else S.chgPrefix)

/-- `temp_prefix`, `elf_labeler_spin.py:814-818,900-904,988-992`. -/
def SpinExporter.temp (S : SpinExporter K) (o : ExpOpts) : String := if S.equal then S.prefix o ++ "_temp" else S.prefix o

/-- The arguments passed to the channels. For `elf_labeler_spin.py:820-838,842-856`. -/
def SpinExporter.opts (S : SpinExporter K) (o : ExpOpts) : ExpOpts := { o with dir := o.dir.default, pre := some (S.temp o) }

/-- One feature of one channel, `elf_labeler_spin.py:820-838,842-856`. -/
def spinOneFeature (S : SpinExporter K) (o : ExpOpts) (L : Exporter K) (suffix : String) (i : ℕ) (fs : Files (GridFile K)) : Wrote (GridFile K) :=
  (writeFeatureBasins L (S.opts o) [i] fs).andThen
    (frename o.dir.default.base (S.temp o ++ "_f" ++ Nat.repr i) (S.prefix o ++ "_f" ++ Nat.repr i ++ suffix))

/-- `SpinElfLabeler.write_all_features`, `elf_labeler_spin.py:780-857`. -/
def spinWriteAll (S : SpinExporter K) (o : ExpOpts) (fs : Files (GridFile K)) : Wrote (GridFile K) :=
  (forEach (spinOneFeature S o S.up (if S.equal then "" else "_up")) (List.range S.up.feats.length) fs).andThen fun fs =>
    if S.equal then (fs, true) else forEach (spinOneFeature S o S.down "_down") (List.range S.down.feats.length) fs

/-- One type of one channel, `elf_labeler_spin.py:909-928,933-944`. -/
def spinOneType (S : SpinExporter K) (o : ExpOpts) (L : Exporter K) (suffix t : String) (fs : Files (GridFile K)) : Wrote (GridFile K) :=
  (writeByType L (S.opts o) [t] fs).andThen
    (frename o.dir.default.base (S.temp o ++ "_" ++ dummySpecies t) (S.prefix o ++ "_" ++ dummySpecies t ++ suffix))

/-- `SpinElfLabeler.write_features_by_type`, `elf_labeler_spin.py:859-944`: with equal channels the method returns after the first type. -/
def spinWriteByType (S : SpinExporter K) (o : ExpOpts) : List String → Files (GridFile K) → Wrote (GridFile K)
  | [], fs => (fs, true)
  | t :: ts, fs =>
    if t ∉ featureValues then (fs, false) else
    if S.equal then spinOneType S o S.up "" t fs
    else ((spinOneType S o S.up "_up" t fs).andThen (spinOneType S o S.down "_down" t)).andThen (spinWriteByType S o ts)

/-- One channel of `write_features_by_type_sum`, `elf_labeler_spin.py:994-1011,1015-1027`. -/
def spinOneSum (S : SpinExporter K) (o : ExpOpts) (L : Exporter K) (suffix : String) (types : List String) (fs : Files (GridFile K)) :
    Wrote (GridFile K) :=
  (writeByTypeSum L (S.opts o) types fs).andThen (frename o.dir.default.base (S.temp o ++ "_fsum") (S.prefix o ++ "_fsum" ++ suffix))

/-- `SpinElfLabeler.write_features_by_type_sum`, `elf_labeler_spin.py:946-1027`. -/
def spinWriteByTypeSum (S : SpinExporter K) (o : ExpOpts) (types : List String) (fs : Files (GridFile K)) : Wrote (GridFile K) :=
  if S.equal then spinOneSum S o S.up "" types fs
  else (spinOneSum S o S.up "_up" types fs).andThen (spinOneSum S o S.down "_down" types)

end

/-! ### `SpinBadelf` -/

section
variable {C : Type}

/-- One atom of `SpinBadelf.write_atom_volumes` and `write_all_atom_volumes`, `badelf_spin.py:659-689,739-769`.  `up i fmt` is what the spin-up
object writes for atom `i` in the format `fmt`; `output_format` is not passed on. -/
def spinBadelfAtom (equal : Bool) (dir : Dir) (pre : String) (up down : ℕ → Option String → C) (_fmt : Option String) (i : ℕ) (fs : Files C) :
    Wrote C :=
  let temp := if equal then pre ++ "_temp" else pre
  (fwrite dir.default.base (temp ++ "_a" ++ Nat.repr i) (up i none) fs).andThen fun fs =>
    if equal then (fs, true) else
    ((frename dir.default.base (temp ++ "_a" ++ Nat.repr i) (pre ++ "_a" ++ Nat.repr i ++ "_up") fs).andThen
      (fwrite dir.default.base (temp ++ "_a" ++ Nat.repr i) (down i none))).andThen
      (frename dir.default.base (temp ++ "_a" ++ Nat.repr i) (pre ++ "_a" ++ Nat.repr i ++ "_down"))

/-- `SpinBadelf.write_atom_volumes`, `badelf_spin.py:608-689`. -/
def spinBadelfAtoms (equal : Bool) (dir : Dir) (pre : String) (up down : ℕ → Option String → C) (fmt : Option String) (idxs : List ℕ) :
    Files C → Wrote C :=
  forEach (spinBadelfAtom equal dir pre up down fmt) idxs

/-- `SpinBadelf.write_species_volume`, `badelf_spin.py:848-918`. -/
def spinBadelfSpecies (equal : Bool) (dir : Dir) (pre species : String) (up down : Option String → C) (_fmt : Option String) (fs : Files C) :
    Wrote C :=
  (fwrite dir.default.base (pre ++ "_" ++ species) (up none) fs).andThen fun fs =>
    if equal then (fs, true) else
    ((frename dir.default.base (pre ++ "_" ++ species) (pre ++ "_" ++ species ++ "_up") fs).andThen
      (fwrite dir.default.base (pre ++ "_" ++ species) (down none))).andThen
      (frename dir.default.base (pre ++ "_" ++ species) (pre ++ "_" ++ species ++ "_down"))

/-- `SpinBadelf.write_atom_volumes_sum`, `badelf_spin.py:771-846`: the temporary prefix is always used and never replaced with equal channels. -/
def spinBadelfSum (equal : Bool) (dir : Dir) (pre : String) (up down : Option String → C) (_fmt : Option String) (fs : Files C) : Wrote C :=
  (fwrite dir.default.base (pre ++ "_temp_asum") (up none) fs).andThen fun fs =>
    if equal then (fs, true) else
    ((frename dir.default.base (pre ++ "_temp_asum") (pre ++ "_asum_up") fs).andThen
      (fwrite dir.default.base (pre ++ "_temp_asum") (down none))).andThen
      (frename dir.default.base (pre ++ "_temp_asum") (pre ++ "_asum_down"))
end

end BaderKit
