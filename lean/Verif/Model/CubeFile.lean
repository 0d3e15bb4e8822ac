import Verif.Model.VaspFile
/-!
# Cube files, the header of VASP files and format detection

Model of `src/baderkit/core/utilities/file_parsers.py:41-143,146-191,401-412,438-615`.  A file is its text; the byte
offsets of the memory map are positions in it.
-/
namespace BaderKit

/-! ### Number formats of Python -/

/-- Blanks on the left up to a width. For `file_parsers.py:606-618`. -/
def padLeft (w : ℕ) (t : Text) : Text := List.replicate (w - t.length) ' ' ++ t

/-- Blanks on the right up to a width, `f"{s:5}"`, `file_parsers.py:404`. -/
def padRight (w : ℕ) (t : Text) : Text := t ++ List.replicate (w - t.length) ' '

/-- Zeros on the left up to a width. For `bader.py:1483-1485`. -/
def zeroPad (k n : ℕ) : Text := List.replicate (k - (strNat n).length) '0' ++ strNat n

section field
variable {K : Type*} [Field K] [LinearOrder K] [FloorRing K]

/-- `f"{x:.6f}"`. For `file_parsers.py:590-604`. -/
def fixedBody (x : K) : Text :=
  let r := (roundHE (x * 10 ^ 6)).natAbs
  (if x < 0 then ['-'] else []) ++ (strNat (r / 10 ^ 6) ++ '.' :: zeroPad 6 (r % 10 ^ 6))

/-- Mantissa (six digits) and exponent of `f"{x:.5E}"`. For `file_parsers.py:606-618`. -/
def sci5 (x : K) : ℕ × ℤ :=
  if x = 0 then (0, 0)
  else
    let e := Int.log 10 |x|
    let m := (roundHE (|x| / 10 ^ e * 10 ^ 5)).natAbs
    if m = 10 ^ 6 then (10 ^ 5, e + 1) else (m, e)

/-- `f"{x:.5E}"`. For `file_parsers.py:606-618`. -/
def sciBody (x : K) : Text :=
  let p := sci5 x
  (if x < 0 then ['-'] else []) ++ (strNat (p.1 / 10 ^ 5) ++ '.' :: (zeroPad 5 (p.1 % 10 ^ 5) ++
    'E' :: (if decide (p.2 < 0) then '-' else '+') :: zeroPad 2 p.2.natAbs))

/-- A line of right-justified fields. For `file_parsers.py:590-604`. -/
def lineOf (fs : List (ℕ × Text)) : Text := (fs.flatMap fun f => padLeft f.1 f.2) ++ ['\n']

/-- The three fields of a vector. For `file_parsers.py:590-604`. -/
def vecFields (w : ℕ) (v : V3 K) : List (ℕ × Text) :=
  [(w, fixedBody v.1), (w, fixedBody v.2.1), (w, fixedBody v.2.2)]

/-! ### Significant figures -/

/-- `round_to_sig_figs` for one value, `file_parsers.py:41-62`. -/
def roundSig (n : ℕ) (x : K) : K :=
  if x = 0 then 0
  else
    let f : K := 10 ^ ((n : ℤ) - 1 - Int.log 10 |x|)
    (roundHE (x * f) : K) / f

/-- `infer_significant_figures`, `file_parsers.py:65-106`; `pick` is `np.random.choice(values, 1000, replace=False)`. -/
def inferSig (pick : List K → List K) (values : List K) : ℕ :=
  let vs := values.filter fun x => decide (x ≠ 0)
  if vs.length = 0 then 20
  else
    let vs := if vs.length > 1000 then pick vs else vs
    match (List.range 20).find? fun n => vs.all fun x => decide (|roundSig (n + 1) x - x| < 1 / 10 ^ 15) with
    | some n => n + 1
    | none => 20

/-! ### Cube files -/

/-- The factor between Angstrom and Bohr as written in the code. For `file_parsers.py:590-604`. -/
def bohr : K := 188973 / 100000

/-- `structure.volume`. For `file_parsers.py:606-618`. -/
def cellVol (L : M3 K) : K :=
  |(L.1.2.1 * L.2.1.2.2 - L.1.2.2 * L.2.1.2.1) * L.2.2.1 + (L.1.2.2 * L.2.1.1 - L.1.1 * L.2.1.2.2) * L.2.2.2.1 +
    (L.1.1 * L.2.1.2.1 - L.1.2.1 * L.2.1.1) * L.2.2.2.2|

/-- A vector times a number, for `file_parsers.py:590-604`. -/
def scaleV (a : K) (v : V3 K) : V3 K := (a * v.1, a * v.2.1, a * v.2.2)

/-- What `write_cube` takes from the grid: shape, lattice, atomic numbers with Cartesian coordinates, and the data.
For `file_parsers.py:590-604`. -/
structure CubeIn (K : Type*) where
  shape : Shape
  lattice : M3 K
  atoms : List (ℕ × V3 K)
  total : Grid3 K

/-- The header, `file_parsers.py:590-604`. -/
def cubeHeader (g : CubeIn K) (charges : List K) (origin : V3 K) : List Text :=
  [" Gaussian cube file\n".toList, " Bader charge\n".toList,
   lineOf ((5, strNat g.atoms.length) :: vecFields 12 origin),
   lineOf ((5, strNat g.shape.nx) :: vecFields 12 (scaleV (bohr / (g.shape.nx : K)) g.lattice.1)),
   lineOf ((5, strNat g.shape.ny) :: vecFields 12 (scaleV (bohr / (g.shape.ny : K)) g.lattice.2.1)),
   lineOf ((5, strNat g.shape.nz) :: vecFields 12 (scaleV (bohr / (g.shape.nz : K)) g.lattice.2.2))] ++
  (g.atoms.zip charges).map fun p =>
    lineOf ((5, strNat p.1.1) :: (12, fixedBody p.2) :: vecFields 12 (scaleV bohr p.1.2))

/-- The data, `file_parsers.py:606-618`. -/
def cubeData (g : CubeIn K) : Text :=
  (slices g.shape.nz ((ravelF g.shape g.total).map fun x => x / (cellVol g.lattice * bohr ^ 3))).flatMap fun line =>
    joinRows (slices 6 (line.map fun x => padLeft 13 (sciBody x)))

/-- `write_cube`, `file_parsers.py:543-618`: the text of the file, and the caller's origin afterwards (scaled in place,
line 584). -/
def writeCube (g : CubeIn K) (charges : Option (List K)) (origin : Option (V3 K)) : Text × Option (V3 K) :=
  let q := charges.getD (List.replicate g.atoms.length 0)
  let o := scaleV bohr (origin.getD (0, 0, 0))
  ((cubeHeader g q o).flatten ++ cubeData g, origin.map fun _ => o)

/-- `int(word)`. For `file_parsers.py:452-470`. -/
def parseInt : Text → Option ℤ
  | '-' :: t => (parseNat t).map fun n : ℕ => -(n : ℤ)
  | t => (parseNat t).map fun n : ℕ => (n : ℤ)

/-- `np.array(words, dtype=float)` for three words. For `file_parsers.py:452-470`. -/
def parseV3 (ws : List Text) : Option (V3 K) :=
  match ws with
  | [a, b, c] =>
    match (parseNum a : Option K), (parseNum b : Option K), (parseNum c : Option K) with
    | some x, some y, some z => some (x, y, z)
    | _, _, _ => none
  | _ => none

/-- `n` lines and the rest. For `file_parsers.py:438-540`. -/
def readLines : ℕ → Text → List Text × Text
  | 0, t => ([], t)
  | n + 1, t => let r := readLines n (readLine t).2; ((readLine t).1 :: r.1, r.2)

/-- A line with an integer and a vector, `file_parsers.py:452-470`. -/
def parseCount (line : Text) : Option (ℤ × V3 K) :=
  match words line with
  | w :: ws =>
    match parseInt w, (parseV3 ws : Option (V3 K)) with
    | some n, some v => some (n, v)
    | _, _ => none
  | [] => none

/-- The line of an atom, `file_parsers.py:480-483`. -/
def parseAtom (line : Text) : Option (ℕ × K × V3 K) :=
  match words line with
  | z :: q :: ws =>
    match parseNat z, (parseNum q : Option K), (parseV3 ws : Option (V3 K)) with
    | some n, some x, some v => some (n, x, v)
    | _, _, _ => none
  | _ => none

/-- What `read_cube` returns: shape and lattice, atomic numbers with charges and Cartesian coordinates, origin, data,
significant figures. For `file_parsers.py:471-473,487-540`. -/
structure CubeOut (K : Type*) where
  shape : Shape
  lattice : M3 K
  atoms : List (ℕ × K × V3 K)
  origin : V3 K
  total : Grid3 K
  sig : ℕ

/-- The part of `read_cube` after the text has been parsed, `file_parsers.py:471-473,487-540`. -/
def cubeFinish (pick : List K → List K) (origin : V3 K) (nx ny nz : ℤ) (v1 v2 v3 : V3 K) (atoms : List (ℕ × K × V3 K))
    (data : Text) : Option (CubeOut K) :=
  let isBohr : Bool := decide (¬(nx < 0 ∨ ny < 0 ∨ nz < 0))
  let s : Shape := ⟨nx.natAbs, ny.natAbs, nz.natAbs⟩
  let u : K := if isBohr then bohr else 1
  let lattice : M3 K := (scaleV (s.nx / u) v1, scaleV (s.ny / u) v2, scaleV (s.nz / u) v3)
  let o := scaleV (1 / u) origin
  let arr : List K := fromString (s.nx * s.ny * s.nz) data
  if arr.length < s.nx * s.ny * s.nz then none
  else
    let n := inferSig pick arr
    let vol := cellVol lattice * u ^ 3
    some ⟨s, lattice, atoms.map fun a => (a.1, a.2.1, subV (scaleV (1 / u) a.2.2) o), o,
      fun i j k => roundSig n (unravelF s arr i j k * vol), n⟩

/-- `read_cube`, `file_parsers.py:438-540`; `none` is an exception. -/
def readCube (pick : List K → List K) (t : Text) : Option (CubeOut K) :=
  let h := readLines 6 t
  match h.1.drop 2 with
  | [l0, l1, l2, l3] =>
    match (parseCount l0 : Option (ℤ × V3 K)), (parseCount l1 : Option (ℤ × V3 K)), (parseCount l2 : Option (ℤ × V3 K)),
        (parseCount l3 : Option (ℤ × V3 K)) with
    | some (n, o), some (nx, v1), some (ny, v2), some (nz, v3) =>
      if n < 0 then none
      else
        let a := readLines n.toNat h.2
        match a.1.mapM fun l => (parseAtom l : Option (ℕ × K × V3 K)) with
        | some atoms => cubeFinish pick o nx ny nz v1 v2 v3 atoms a.2
        | none => none
    | _, _, _, _ => none
  | _ => none

/-! ### The header of VASP files -/

/-- What `write_vasp` takes from the structure: lattice, species symbols and fractional coordinates. For `file_parsers.py:394-412`. -/
structure VaspIn (K : Type*) where
  lattice : M3 K
  atoms : List (Text × V3 K)

/-- The runs of equal neighbours: `Poscar.site_symbols` and `Poscar.natoms` of pymatgen. For `file_parsers.py:394-412`. -/
def runs : List Text → List (Text × ℕ)
  | [] => []
  | a :: l =>
    match runs l with
    | [] => [(a, 1)]
    | (b, n) :: r => if a = b then (b, n + 1) :: r else (a, 1) :: (b, n) :: r

/-- The header, `file_parsers.py:394-412`. -/
def vaspHeader (vasp4 : Bool) (g : VaspIn K) : List Text :=
  ["Written by BaderKit\n".toList, "   1.00000000000000\n".toList,
   ' ' :: lineOf (vecFields 12 g.lattice.1), ' ' :: lineOf (vecFields 12 g.lattice.2.1),
   ' ' :: lineOf (vecFields 12 g.lattice.2.2)] ++
  (if vasp4 then [] else [((runs (g.atoms.map fun a => a.1)).flatMap fun p => padRight 5 p.1) ++ ['\n']]) ++
  [lineOf ((runs (g.atoms.map fun a => a.1)).map fun p => (6, strNat p.2)), "Direct\n".toList] ++
  (g.atoms.map fun a => lineOf (vecFields 10 a.2)) ++ [" \n".toList]

/-- `write_vasp`, `file_parsers.py:378-435`. -/
def writeVaspFile (vasp4 : Bool) (g : VaspIn K) (s : Shape) (data : DKey → Option (Grid3 K)) (aug : DKey → List Text) : Text :=
  (vaspHeader vasp4 g).flatten ++ writeVasp s data aug

/-- The structure part of `read_vasp`, `file_parsers.py:146-190`; also the text that follows. -/
def readVaspHeader (t : Text) : Option (VaspIn K × Text) :=
  let h := readLines 8 t
  match h.1 with
  | [_, sc, a, b, c, types, counts, _] =>
    match words sc, (parseV3 (words a) : Option (V3 K)), (parseV3 (words b) : Option (V3 K)),
        (parseV3 (words c) : Option (V3 K)), (words counts).mapM parseNat with
    | [w], some v1, some v2, some v3, some ns =>
      match (parseNum w : Option K) with
      | some k =>
        let species := ((words types).zip ns).flatMap fun p => List.replicate p.2 p.1
        let r := readLines ns.sum h.2
        match r.1.mapM fun l => (parseV3 ((words l).take 3) : Option (V3 K)) with
        | some coords =>
          if species.length ≠ coords.length then none
          else some (⟨(scaleV k v1, scaleV k v2, scaleV k v3), species.zip coords⟩, (readLine r.2).2)
        | none => none
      | none => none
    | _, _, _, _, _ => none
  | _ => none

/-- `read_vasp`, `file_parsers.py:146-271`. -/
def readVaspFile (totalOnly : Bool) (fuel : ℕ) (t : Text) : Option (VaspIn K × Shape × List (Grid3 K × Text)) :=
  match (readVaspHeader t : Option (VaspIn K × Text)) with
  | some (g, rest) => (readVaspSets totalOnly fuel rest).map fun r => (g, r.1, r.2)
  | none => none

end field

/-! ### Format detection -/

/-- The formats a file can have, for `file_parsers.py:109-143`. -/
inductive FileFormat
  | vasp | cube | hdf5
  deriving DecidableEq

/-- `detect_format`, `file_parsers.py:109-143`; `content` is the decoded text, `none` if it cannot be decoded, and
`signature` whether the first eight bytes are those of HDF5. -/
def detectFormat (content : Option Text) (signature : Bool) : Option FileFormat :=
  match content.map linesOf with
  | some (_ :: _ :: l :: _) =>
    if (words l).length = 3 then some .vasp else if (words l).length = 4 then some .cube else none
  | _ => if signature then some .hdf5 else none

end BaderKit
