import Verif.Model.TextFormat
/-!
# VASP files

Model of the grid part of `src/baderkit/core/utilities/file_parsers.py:146-315,353-435`: everything from the line with
the grid dimensions on.  A grid is a function of three indices.
-/
namespace BaderKit

/-- A three dimensional array, for `file_parsers.py:357`. -/
abbrev Grid3 (K : Type*) := ℕ → ℕ → ℕ → K

section field
variable {K : Type*} [Field K]

/-- `arr.ravel(order="F")`, `file_parsers.py:357`. -/
def ravelF (s : Shape) (g : Grid3 K) : List K :=
  (List.range s.nz).flatMap fun k => (List.range s.ny).flatMap fun j => (List.range s.nx).map fun i => g i j k

/-- `arr.reshape((nx, ny, nz), order="F")`, `file_parsers.py:239`. -/
def unravelF (s : Shape) (l : List K) : Grid3 K := fun i j k => l.getD (i + s.nx * (j + s.ny * k)) 0

end field

/-- `f"{n:6d}"`, `file_parsers.py:424`. -/
def padInt (w n : ℕ) : Text := List.replicate (w - (strNat n).length) ' ' ++ strNat n

/-- The line with the dimensions, `file_parsers.py:423-424`. -/
def dimsLine (s : Shape) : Text := padInt 6 s.nx ++ padInt 6 s.ny ++ padInt 6 s.nz ++ ['\n']

/-- The augmentation lines, `file_parsers.py:430-435`; `items` are the elements of `data_aug[key]` as iterated over:
the lines of a list, the characters of a string. -/
def augText (items : List Text) : Text :=
  items.flatMap fun ln => if ln.getLast? = some '\n' then ln else ln ++ ['\n']

/-- The sets of data of a file, `file_parsers.py:418-435`. -/
def writeSets {K : Type*} [Field K] [LinearOrder K] [FloorRing K] (s : Shape) (sets : List (Grid3 K × List Text)) : Text :=
  sets.flatMap fun p => dimsLine s ++ writeData 50 5 (ravelF s p.1) ++ augText p.2

/-- The keys of the data, `file_parsers.py:418`. -/
inductive DKey
  | total | diff | diffX | diffY | diffZ
  deriving DecidableEq

/-- `write_vasp` without the header, `file_parsers.py:414-435`. -/
def writeVasp {K : Type*} [Field K] [LinearOrder K] [FloorRing K] (s : Shape) (data : DKey → Option (Grid3 K))
    (aug : DKey → List Text) : Text :=
  writeSets s ([DKey.total, DKey.diff, DKey.diffX, DKey.diffY, DKey.diffZ].filterMap fun k =>
    (data k).map fun g => (g, aug k))

/-! ### Reading -/

/-- `readline()`: the line with its end, and the rest. For `file_parsers.py:174-271`. -/
def readLine : Text → Text × Text
  | [] => ([], [])
  | c :: cs => if c = '\n' then (['\n'], cs) else (c :: (readLine cs).1, (readLine cs).2)

/-- All lines with their ends. For `file_parsers.py:247-267`. -/
def linesOf : Text → List Text
  | [] => []
  | c :: cs =>
    if c = '\n' then ['\n'] :: linesOf cs
    else match linesOf cs with
      | [] => [[c]]
      | l :: ls => (c :: l) :: ls

/-- `line.strip()`. For `file_parsers.py:247-267`. -/
def strip (t : Text) : Text := ((t.dropWhile isWs).reverse.dropWhile isWs).reverse

/-- `nbytes_per_block` from the first line of data, `file_parsers.py:194-217`. -/
def blockBytes (first : Text) (nvals : ℕ) : ℕ :=
  let perLine := (words first).length
  let extra := first.length % perLine
  let perEntry := (first.length - extra) / perLine
  perEntry * nvals + (nvals + perLine - 1) / perLine * extra

/-- The loop that collects the augmentation lines, `file_parsers.py:247-267`. -/
def readAug (dims : Text) (t : Text) : Text × Text :=
  let p : Text → Bool := fun l => decide (strip l ≠ dims)
  (((linesOf t).takeWhile p).flatten, (((linesOf t).dropWhile p).drop 1).flatten)

/-- The loop over the sets, `file_parsers.py:219-269`; `fuel` bounds the number of sets. -/
def readSets {K : Type*} [Field K] (s : Shape) (dims : Text) (nbytes : ℕ) (totalOnly : Bool) :
    ℕ → ℕ → Text → List (Grid3 K × Text)
  | 0, _, _ => []
  | fuel + 1, n, t =>
    if t = [] then []
    else if totalOnly = true ∧ n = 1 then []
    else
      let arr : List K := fromString (s.nx * s.ny * s.nz) (t.take nbytes)
      if arr.length < s.nx * s.ny * s.nz then []
      else
        let r := readAug dims (t.drop nbytes)
        (unravelF s arr, r.1) :: readSets s dims nbytes totalOnly fuel (n + 1) r.2

/-- `read_vasp` from the line with the dimensions on, `file_parsers.py:174-271`; `none` is an exception. -/
def readVaspSets {K : Type*} [Field K] (totalOnly : Bool) (fuel : ℕ) (t : Text) : Option (Shape × List (Grid3 K × Text)) :=
  match (words (readLine t).1).map parseNat with
  | [some nx, some ny, some nz] =>
    let s : Shape := ⟨nx, ny, nz⟩
    let rest := (readLine t).2
    let first := (readLine rest).1
    if (words first).length = 0 then none
    else some (s, readSets s (strip (readLine t).1) (blockBytes first (nx * ny * nz)) totalOnly fuel 0 rest)
  | _ => none

/-- The data dictionary, `file_parsers.py:273-310`; `root` is the square root. -/
def dataDict {K : Type*} [Field K] [LinearOrder K] (root : K → K) (sets : List (Grid3 K)) : Option (DKey → Option (Grid3 K)) :=
  match sets with
  | [t, x, y, z] => some fun k => match k with
    | .total => some t
    | .diffX => some x
    | .diffY => some y
    | .diffZ => some z
    | .diff => some fun i j l =>
      let d := 101 / 100 * x i j l + 102 / 100 * y i j l + 103 / 100 * z i j l
      root (x i j l ^ 2 + y i j l ^ 2 + z i j l ^ 2) * (if 0 < d then 1 else if d < 0 then -1 else 0)
  | [t, d] => some fun k => match k with
    | .total => some t
    | .diff => some d
    | _ => none
  | t :: _ => some fun k => match k with
    | .total => some t
    | _ => none
  | [] => none

end BaderKit
