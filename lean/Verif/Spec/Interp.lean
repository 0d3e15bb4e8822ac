import Verif.Model.GridOps
import Mathlib.Algebra.BigOperators.Group.Finset.Basic
import Mathlib.Data.Finset.Insert
/-!
# Independent specification of interpolation
-/
namespace BaderKit
variable {K : Type*} [Field K]

/-- The data repeated periodically over all integer points. -/
def Arr3.periodic {α : Type*} (a : Arr3 α) (i j k : ℤ) : α :=
  a.val (i % a.nx).toNat (j % a.ny).toNat (k % a.nz).toNat

/-- No empty axis. -/
def Arr3.NonEmpty {α : Type*} (a : Arr3 α) : Prop := 0 < a.nx ∧ 0 < a.ny ∧ 0 < a.nz

/-- Linear interpolation between `u` (at 0) and `v` (at 1). -/
def lerp (u v t : K) : K := u + t * (v - u)

/-- Trilinear interpolation of the periodic data in the cell with lowest corner `(i, j, k)`. -/
def trilinear (a : Arr3 K) (i j k : ℤ) (x y z : K) : K :=
  lerp
    (lerp (lerp (a.periodic i j k) (a.periodic (i + 1) j k) x)
      (lerp (a.periodic i (j + 1) k) (a.periodic (i + 1) (j + 1) k) x) y)
    (lerp (lerp (a.periodic i j (k + 1)) (a.periodic (i + 1) j (k + 1)) x)
      (lerp (a.periodic i (j + 1) (k + 1)) (a.periodic (i + 1) (j + 1) (k + 1)) x) y) z

/-- The cubic cardinal B-spline. -/
def bspline [LinearOrder K] (x : K) : K :=
  if |x| ≤ 1 then 2 / 3 - x ^ 2 + |x| ^ 3 / 2 else if |x| ≤ 2 then (2 - |x|) ^ 3 / 6 else 0

end BaderKit
