import Mathlib.Algebra.Order.Field.Basic
import Mathlib.Tactic.Ring
import Mathlib.Tactic.Linarith
/-!
# Three-component vectors and lattice matrices

Only the arithmetic that numpy performs on arrays of shape `(3,)` and `(3, 3)`.
-/
namespace BaderKit
variable {K : Type*} [Field K]

/-- An array of shape `(3,)`. For `bader.py:758`, `shared_numba.py:580-582`. -/
abbrev V3 (K : Type*) := K × K × K

/-- An array of shape `(3, 3)` by rows; for a lattice matrix the rows are the lattice vectors
(`structure.lattice.matrix`). For `bader.py:758`, `shared_numba.py:580-582`. -/
abbrev M3 (K : Type*) := V3 K × V3 K × V3 K

/-- `a + b`. For `elf_radii_numba.py:208-241`. -/
def addV (a b : V3 K) : V3 K := (a.1 + b.1, a.2.1 + b.2.1, a.2.2 + b.2.2)

/-- `a - b`. For `bader.py:752-759`. -/
def subV (a b : V3 K) : V3 K := (a.1 - b.1, a.2.1 - b.2.1, a.2.2 - b.2.2)

/-- `d @ L`: row vector times matrix, e.g. `np.einsum("bij,jk->bik", diffs, L)`, `bader.py:758`, and
`shared_numba.py:580-582`. -/
def vecMat (d : V3 K) (L : M3 K) : V3 K :=
  (d.1 * L.1.1 + d.2.1 * L.2.1.1 + d.2.2 * L.2.2.1,
   d.1 * L.1.2.1 + d.2.1 * L.2.1.2.1 + d.2.2 * L.2.2.2.1,
   d.1 * L.1.2.2 + d.2.1 * L.2.1.2.2 + d.2.2 * L.2.2.2.2)

/-- Squared Euclidean length. For `bader.py:752-759`. -/
def norm2 (c : V3 K) : K := c.1 ^ 2 + c.2.1 ^ 2 + c.2.2 ^ 2

/-- Dot product. For `interpolation.py:319,351`. -/
def dotV (a b : V3 K) : K := a.1 * b.1 + a.2.1 * b.2.1 + a.2.2 * b.2.2

end BaderKit
