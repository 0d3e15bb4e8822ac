import Mathlib.Data.Int.Basic
import Mathlib.Tactic.Ring
import Mathlib.Tactic.Linarith
/-!
# Voxel indices

Model of the index helpers of `src/baderkit/core/utilities/basic.py`.
Numpy `int64` is modelled by unbounded `Int`.
-/

namespace BaderKit

/-- Shape of a 3D grid: `nx, ny, nz = data.shape`
(e.g. `basic.py:26`, `shared_numba.py:59`). -/
structure Shape where
  nx : ℕ
  ny : ℕ
  nz : ℕ
deriving DecidableEq, Repr

/-- Number of voxels, `nx * ny * nz` (e.g. `shared_numba.py:155,257`). -/
def Shape.size (s : Shape) : ℕ := s.nx * s.ny * s.nz

/-- A voxel coordinate triple `(i, j, k)` (`int64` values, may be out of range before wrapping). For `basic.py:25-66`. -/
abbrev Coord := ℤ × ℤ × ℤ

/-- One axis of `wrap_point`, `basic.py:54-65`:
`if i >= nx: i -= nx elif i < 0: i += nx`. -/
def wrapAxis (i n : ℤ) : ℤ :=
  if i ≥ n then i - n else if i < 0 then i + n else i

/-- `wrap_point`, `basic.py:25-66`. -/
def wrapPoint (s : Shape) (c : Coord) : Coord :=
  (wrapAxis c.1 s.nx, wrapAxis c.2.1 s.ny, wrapAxis c.2.2 s.nz)

/-- One axis of `wrap_point_w_shift`, `basic.py:72-90`: wrapped index and shift. -/
def wrapAxisShift (i n : ℤ) : ℤ × ℤ :=
  if i ≥ n then (i - n, 1) else if i < 0 then (i + n, -1) else (i, 0)

/-- `wrap_point_w_shift`, `basic.py:70-91`: the wrapped point and the image shift. -/
def wrapPointShift (s : Shape) (c : Coord) : Coord × Coord :=
  (((wrapAxisShift c.1 s.nx).1, (wrapAxisShift c.2.1 s.ny).1, (wrapAxisShift c.2.2 s.nz).1),
   ((wrapAxisShift c.1 s.nx).2, (wrapAxisShift c.2.1 s.ny).2, (wrapAxisShift c.2.2 s.nz).2))

/-- `flat_to_coords`, `basic.py:95-99` (`ny_nz = ny * nz`). Python `//` and `%` are floor division
and floor modulus, i.e. `Int.fdiv`/`Int.fmod`. -/
def flatToCoords (s : Shape) (idx : ℤ) : Coord :=
  (Int.fdiv idx (s.ny * s.nz), Int.fdiv (Int.fmod idx (s.ny * s.nz)) s.nz, Int.fmod idx s.nz)

/-- `coords_to_flat`, `basic.py:103-104`. -/
def coordsToFlat (s : Shape) (c : Coord) : ℤ :=
  c.1 * (s.ny * s.nz) + c.2.1 * s.nz + c.2.2

/-- Componentwise sum of a coordinate and a transform, the `i + si, j + sj, k + sk` in every
neighbour loop (e.g. `shared_numba.py:76`). -/
def addC (a b : Coord) : Coord := (a.1 + b.1, a.2.1 + b.2.1, a.2.2 + b.2.2)

/-- The flat index of the periodic neighbour of flat voxel `v` reached by transform `t`:
`wrap_point(i + si, j + sj, k + sk, nx, ny, nz)` followed by `coords_to_flat`
(e.g. `shared_numba.py:375-376`, `weight_numba.py:70,77`).  Arrays are addressed by flat index in
the model (see `C02_flat_bijection`), so `data[ii, jj, kk]` becomes `data (nbr s v t)`. -/
def nbr (s : Shape) (v : ℕ) (t : Coord) : ℕ :=
  (coordsToFlat s (wrapPoint s (addC (flatToCoords s v) t))).toNat

/-- The C-order triple loop `for i in range(nx): for j in range(ny): for k in range(nz)`
(e.g. `shared_numba.py:162-164`) as the list of coordinates visited. -/
def tripleLoop (s : Shape) : List Coord :=
  (List.range s.nx).flatMap fun (i : ℕ) =>
    (List.range s.ny).flatMap fun (j : ℕ) =>
      (List.range s.nz).map fun (k : ℕ) => ((i : ℤ), (j : ℤ), (k : ℤ))

/-- `[i for i in itertools.product([-1, 0, 1], repeat=3) if i != (0, 0, 0)]`,
`grid.py:424-426` (`Grid.point_neighbor_transforms`). -/
def neighbors26 : List Coord :=
  (([-1, 0, 1] : List ℤ).flatMap fun i => ([-1, 0, 1] : List ℤ).flatMap fun j =>
    ([-1, 0, 1] : List ℤ).map fun k => (i, j, k)).filter fun t => t ≠ (0, 0, 0)

end BaderKit
