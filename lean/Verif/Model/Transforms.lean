import Verif.Model.Merge
import Verif.Model.Vec
import Mathlib.Data.Nat.Digits.Defs
import Mathlib.Data.List.Sort
/-!
# Transformation tables, site labels and Miller indices
-/
namespace BaderKit

/-- `range(-m, m + 1)`. For `basic.py:200-273`. -/
def symRange (m : ℤ) : List ℤ := (List.range (2 * m + 1).toNat).map fun (i : ℕ) => (i : ℤ) - m

section field
variable {K : Type*} [Field K] [LinearOrder K] [FloorRing K]

/-- `grid2cart`, `basic.py:244-247`. -/
def gridMat (s : Shape) (L : M3 K) : M3 K :=
  let row (r : V3 K) (n : ℕ) : V3 K := (r.1 / (n : K), r.2.1 / (n : K), r.2.2 / (n : K))
  (row L.1 s.nx, row L.2.1 s.ny, row L.2.2 s.nz)

/-- `nmax` for one axis, `basic.py:237-241`. -/
def nmaxAxis (root : K → K) (r : K) (a : V3 K) (n : ℕ) : ℤ := ⌈r / root (norm2 a) * (n : K)⌉

/-- The rounded length of a transformation, `basic.py:255-261`. -/
def transDist (root : K → K) (s : Shape) (L : M3 K) (t : Coord) : K :=
  roundDec 12 (root (norm2 (vecMat ((t.1 : K), (t.2.1 : K), (t.2.2 : K)) (gridMat s L))))

/-- `get_transforms_in_radius`, `basic.py:200-273`; `sort` is the sort by `np.argsort(dists)`. -/
def radiusTransforms (root : K → K) (sort : List (Coord × K) → List (Coord × K)) (r : K) (s : Shape) (L : M3 K) :
    List (Coord × K) :=
  let box : List Coord := (symRange (nmaxAxis root r L.1 s.nx)).flatMap fun i =>
    (symRange (nmaxAxis root r L.2.1 s.ny)).flatMap fun j =>
      (symRange (nmaxAxis root r L.2.2 s.nz)).map fun k => (i, j, k)
  sort ((box.filter fun t => decide (transDist root s L t ≤ r)).map fun t => (t, transDist root s L t))

/-! ### Miller indices -/

/-- `np.cross`. For `structure.py:105-173`. -/
def crossV (a b : V3 K) : V3 K :=
  (a.2.1 * b.2.2 - a.2.2 * b.2.1, a.2.2 * b.1 - a.1 * b.2.2, a.1 * b.2.1 - a.2.1 * b.1)

/-- The three points of the plane, `structure.py:131-163`; `none` when all indices are zero (`None.copy()`). -/
def millerPoints (h k l : ℤ) : Option (V3 K × V3 K × V3 K) :=
  let a1 : Option (V3 K) := if h ≠ 0 then some (1 / (h : K), 0, 0) else none
  let a2 : Option (V3 K) := if k ≠ 0 then some (0, 1 / (k : K), 0) else none
  let a3 : Option (V3 K) := if l ≠ 0 then some (0, 0, 1 / (l : K)) else none
  let a1' := a1 <|> (a2 <|> a3).map fun (p : V3 K) => (p.1 + 1, p.2.1, p.2.2)
  let a2' := a2 <|> (a1' <|> a3).map fun (p : V3 K) => (p.1, p.2.1 + 1, p.2.2)
  let a3' := a3 <|> (a1' <|> a2').map fun (p : V3 K) => (p.1, p.2.1, p.2.2 + 1)
  match a1', a2', a3' with
  | some p, some q, some r => some (p, q, r)
  | _, _, _ => none

/-- `get_cart_from_miller`, `structure.py:105-173`. -/
def millerNormal (root : K → K) (L : M3 K) (h k l : ℤ) : Option (V3 K) :=
  (millerPoints h k l).map fun p =>
    let v1 := subV (vecMat p.2.1 L) (vecMat p.1 L)
    let v2 := subV (vecMat p.2.2 L) (vecMat p.1 L)
    let n := crossV v1 v2
    let m := root (norm2 n)
    (n.1 / m, n.2.1 / m, n.2.2 / m)

end field

/-! ### Labels of sites -/

/-- Decimal digits of a number as characters (`f"{idx + 1}"`). For `structure.py:209`. -/
def decimal (n : ℕ) : List Char := ((Nat.digits 10 n).map fun d => Char.ofNat (48 + d)).reverse

/-- `f"{label}_{idx + 1}"`, `structure.py:209`. -/
def suffixed (l : List Char) (i : ℕ) : List Char := l ++ '_' :: decimal (i + 1)

/-- `relabel_sites`, `structure.py:175-211`: the group of a label is in the order of the sites, so the index of a site
in its group is the number of earlier sites with the same label. -/
def relabel (ignoreUniq : Bool) (labels : List (List Char)) : List (List Char) :=
  labels.zipIdx.map fun p =>
    if labels.count p.1 = 1 ∧ ignoreUniq = true then p.1 else suffixed p.1 ((labels.take p.2).count p.1)

/-! ### Encodings of small shifts -/

/-- `trans_to_idx`, `bifurcation_base.py:83-85`. -/
def transToIdx (i j k size : ℤ) : ℤ :=
  let r := size * 2 + 1
  (i + size) * r ^ 2 + (j + size) * r + (k + size)

/-- `shift_to_index`, `bifurcation_base.py:89-92`. -/
def shiftToIndex (c : Coord) : ℤ := (c.1 + 2) * 25 + (c.2.1 + 2) * 5 + (c.2.2 + 2)

/-- `index_to_shift`, `bifurcation_base.py:96-100`. -/
def indexToShift (n : ℤ) : Coord := (n / 25 - 2, n % 25 / 5 - 2, n % 5 - 2)

/-- The shifts of `get_connections_in_box`, `bifurcation_base.py:108-111`. -/
def boxShifts (size : ℤ) : List Coord :=
  (symRange size).flatMap fun i => (symRange size).flatMap fun j => (symRange size).map fun k => (i, j, k)

/-- The offsets `-1, 0, 1` without the centre, `bifurcation_base.py:113-118`. -/
def unitOffsets : List Coord :=
  ((symRange 1).flatMap fun i => (symRange 1).flatMap fun j => (symRange 1).map fun k => (i, j, k)).filter
    fun t => ¬ (t.1 = 0 ∧ t.2.1 = 0 ∧ t.2.2 = 0)

/-- The connections of `get_connections_in_box`, `bifurcation_base.py:104-137`. -/
def boxConnections (size : ℤ) : List (ℤ × ℤ) :=
  (boxShifts size).flatMap fun c => unitOffsets.filterMap fun t =>
    let p : Coord := (c.1 + t.1, c.2.1 + t.2.1, c.2.2 + t.2.2)
    if |p.1| > size ∨ |p.2.1| > size ∨ |p.2.2| > size then none
    else if transToIdx p.1 p.2.1 p.2.2 size < transToIdx c.1 c.2.1 c.2.2 size then none
    else some (transToIdx c.1 c.2.1 c.2.2 size, transToIdx p.1 p.2.1 p.2.2 size)

/-! ### Translations to the neighbouring cells -/

/-- `grid_neighbor_transforms`, `grid.py:466-487`. -/
def gridNbrTransforms (a b c : ℤ) : List Coord :=
  let all : List Coord := [-a, 0, a].flatMap fun t => [-b, 0, b].flatMap fun u => [-c, 0, c].map fun v => (t, u, v)
  let first := all.filter fun t => (t.1 ≤ 0 ∧ t.2.1 ≤ 0 ∧ t.2.2 ≤ 0) ∨ (0 ≤ t.1 ∧ 0 ≤ t.2.1 ∧ 0 ≤ t.2.2)
  let sorted := all.foldl (fun (acc : List Coord) t => if t ∈ acc then acc else acc ++ [t]) first
  sorted.getD 7 (0, 0, 0) :: sorted.eraseIdx 7

/-- `point_neighbor_face_tranforms`, `grid.py:433-452`. -/
def faceTransforms : List Coord := neighbors26.filter fun t => |t.1| + |t.2.1| + |t.2.2| = 1

end BaderKit
