import Verif.Model.InitLabels
import Mathlib.Algebra.Order.Field.Basic
import Mathlib.Data.List.GetD
/-!
# When two nearby maxima count as one

The test of `initialize_labels_from_maxima`, `src/baderkit/core/bader/methods/shared_numba.py:410-470`, on the interpolated values between two maxima.
The values are those of `linear_slice` (`Model/Interp`).

* Reading an element of an empty array is not checked by numba; here it gives `none`, and so does the division by zero, which raises.
-/
namespace BaderKit
variable {K : Type*} [Field K] [LinearOrder K]

/-- `minima`, `shared_numba.py:437-440`. -/
def dips (v : List K) : List ℕ :=
  (List.range v.length).filter fun i => decide (0 < i ∧ i + 1 < v.length ∧ v.getD i 0 < v.getD (i - 1) 0 ∧ v.getD i 0 ≤ v.getD (i + 1) 0)

/-- `maxima` before the ends are added, `shared_numba.py:441-444`. -/
def tops (v : List K) : List ℕ :=
  (List.range v.length).filter fun i => decide (0 < i ∧ i + 1 < v.length ∧ v.getD (i - 1) 0 < v.getD i 0 ∧ v.getD (i + 1) 0 ≤ v.getD i 0)

/-- `maxima`, `shared_numba.py:441-450`; there are at least two values here (`dips` is empty otherwise, and `maxima` is not used). -/
def peaks (v : List K) : List ℕ :=
  (if v.getD 1 0 ≤ v.getD 0 0 then [0] else []) ++ tops v ++ if v.getD (v.length - 2) 0 < v.getD (v.length - 1) 0 then [v.length - 1] else []

/-- Whether the minimum at `m` is significant, `shared_numba.py:453-463`. -/
def deepDip (tol : K) (v : List K) (m : ℕ) : Option Bool :=
  match ((peaks v).filter fun i => decide (i < m)).getLast?, ((peaks v).filter fun i => decide (m < i)).head? with
  | some l, some r =>
    let top := max (v.getD l 0) (v.getD r 0)
    if top = 0 then none else some (decide (tol < (top - v.getD m 0) / top))
  | _, _ => none

/-- The test of a pair of maxima by the values between them, `shared_numba.py:434-470`: `true` means that they are united. -/
def sameTest (tol : K) (v : List K) : Option Bool := ((dips v).mapM (deepDip tol v)).map fun l => l.all fun b => !b

/-- The whole test of two maxima, `shared_numba.py:410-470`: the distance, then the values between the two positions; `none` does not unite. -/
def sameMax (cut tol : K) (dist : ℕ → ℕ → K) (vals : ℕ → ℕ → List K) (a b : ℕ) : Bool :=
  if cut < dist a b then false else (sameTest tol (vals a b)).getD false

end BaderKit
