import Verif.Model.Merge
import Verif.Model.Vec
import Mathlib.Data.List.Basic
import Mathlib.Data.Nat.Bitwise
import Mathlib.Algebra.BigOperators.Group.List.Basic
/-!
# The part of a cube under a plane

Model of `cube_fraction_under_plane`, `src/baderkit/core/utilities/voronoi.py:100-171`, in exact arithmetic.
-/
namespace BaderKit
variable {K : Type*} [Field K] [LinearOrder K] [FloorRing K]

/-- First loop, `voronoi.py:123-127`: negative coefficients change sign and are added to `d`. -/
def flipAxes (p : List K) (d : K) : List K × K :=
  p.foldl (fun (st : List K × K) a => if a < 0 then (st.1 ++ [-a], st.2 + -a) else (st.1 ++ [a], st.2)) ([], d)

/-- State of the second loop: coefficients, denominator and count. For `voronoi.py:130-137`. -/
structure Coeffs (K : Type*) where
  coeffs : List K
  denom : K
  n : ℕ

/-- Second loop, `voronoi.py:130-137`; `none` is the early `return 0.0`. -/
def collectCoeffs (d : K) : List K → Coeffs K → Option (Coeffs K)
  | [], st => some st
  | a :: p, st =>
    if a = 0 then (if d < 0 then none else collectCoeffs d p st)
    else collectCoeffs d p ⟨st.coeffs ++ [a], st.denom * (((st.n + 1 : ℕ) : K) * a), st.n + 1⟩

/-- The table of vertices, `voronoi.py:148-151`. -/
def vertexTable (n : ℕ) : List (List ℕ) :=
  (List.range (1 <<< n)).map fun (i : ℕ) => (List.range n).map fun (j : ℕ) => (i >>> (n - 1 - j)) &&& 1

/-- The loop over the vertices, `voronoi.py:153-166`. -/
def vertexSum (n : ℕ) (coeffs : List K) (d : K) : K :=
  (vertexTable n).foldl (fun (vol : K) v =>
    let dot := (v.zip coeffs).foldl (fun (s : K) (ij : ℕ × K) => s + (ij.1 : K) * ij.2) 0
    let base := d - dot
    if base > 0 then
      (if v.sum % 2 = 1 then vol - base ^ n else vol + base ^ n)
    else vol) 0

/-- `cube_fraction_under_plane`, `voronoi.py:101-171`. -/
def cubeFraction (p : V3 K) (d : K) : K :=
  let st := flipAxes [p.1, p.2.1, p.2.2] (-d)
  match collectCoeffs st.2 st.1 ⟨[], 1, 0⟩ with
  | none => 0
  | some c =>
    if c.n = 0 then (if st.2 ≤ 0 then 1 else 0)
    else min 1 (max 0 |roundDec 12 (vertexSum c.n c.coeffs st.2 / c.denom)|)

end BaderKit
