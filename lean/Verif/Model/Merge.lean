import Verif.Model.Index
import Mathlib.Algebra.Order.Floor.Ring
import Mathlib.Algebra.Order.Field.Basic
/-!
# Rounding and merging of fractional coordinates

Model of `merge_frac_coords` and `merge_frac_coords_weighted`, `basic.py:108-196`.
-/
namespace BaderKit
variable {K : Type*} [Field K] [LinearOrder K] [FloorRing K]

/-- Python / numba `round(x)`: round half to even. For `basic.py:135-137,187-189`. -/
def roundHE (x : K) : ℤ :=
  if x - ⌊x⌋ < 1 / 2 then ⌊x⌋
  else if 1 / 2 < x - ⌊x⌋ then ⌊x⌋ + 1
  else if ⌊x⌋ % 2 = 0 then ⌊x⌋ else ⌊x⌋ + 1

/-- `round(x, nd)`: round half to even at `nd` decimals (exact arithmetic). For `basic.py:112-154`. -/
def roundDec (nd : ℕ) (x : K) : K := (roundHE (x * 10 ^ nd) : K) / 10 ^ nd

/-- `x % 1.0` for floats: the fractional part (floor modulus). For `basic.py:112-154`. -/
def mod1 (x : K) : K := x - ⌊x⌋

/-- Unwrapping of a coordinate relative to the reference, `basic.py:135-137,187-189`. -/
def unwrapTo (ref c : K) : K := c - (roundHE (c - ref) : K)

/-- One axis of `merge_frac_coords`, `basic.py:112-154`: the three axes are handled independently
by the code.  The first coordinate is the reference. -/
def mergeAxis (cs : List K) : K :=
  match cs with
  | [] => mod1 (roundDec 12 (0 / 0))
  | ref :: _ =>
    let total := cs.foldl (fun t c => t + unwrapTo ref c) 0
    if cs.length = 1 then mod1 ref
    else mod1 (roundDec 12 (total / (cs.length : K)))

/-- `merge_frac_coords`, `basic.py:108-154`. -/
def mergeFrac (cs : List (K × K × K)) : K × K × K :=
  (mergeAxis (cs.map fun c => c.1), mergeAxis (cs.map fun c => c.2.1),
   mergeAxis (cs.map fun c => c.2.2))

/-- One axis of `merge_frac_coords_weighted`, `basic.py:162-196`; `zip` stops at the shorter list,
the weights are normalised over all `values`. -/
def mergeAxisW (cs values : List K) : K :=
  let ws := values.map fun v => v / values.sum
  match cs with
  | [] => mod1 0
  | ref :: _ => mod1 ((cs.zip ws).foldl (fun t cw => t + unwrapTo ref cw.1 * cw.2) 0)

/-- `merge_frac_coords_weighted`, `basic.py:158-196`. -/
def mergeFracW (cs : List (K × K × K)) (values : List K) : K × K × K :=
  (mergeAxisW (cs.map fun c => c.1) values, mergeAxisW (cs.map fun c => c.2.1) values,
   mergeAxisW (cs.map fun c => c.2.2) values)

/-- `maxima_vox / shape`, `shared_numba.py:264`. -/
def voxFrac (s : Shape) (v : ℕ) : K × K × K :=
  let c := flatToCoords s v
  ((c.1 : K) / (s.nx : K), (c.2.1 : K) / (s.ny : K), (c.2.2 : K) / (s.nz : K))

/-- The voxel closest to the merged coordinate of a group of maxima, `shared_numba.py:489-524`:
the coordinates of flat false maxima are left out, their values are not. -/
def mergedVoxel (s : Shape) (data : ℕ → K) (isFlat : ℕ → Bool) (group : List ℕ) : ℕ :=
  let m := mergeFracW ((group.filter fun v => !isFlat v).map (voxFrac s)) (group.map data)
  (coordsToFlat s (roundHE (m.1 * s.nx) % s.nx, roundHE (m.2.1 * s.ny) % s.ny,
    roundHE (m.2.2 * s.nz) % s.nz)).toNat

end BaderKit
