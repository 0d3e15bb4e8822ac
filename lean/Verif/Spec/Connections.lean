import Verif.Model.Connections
import Verif.Spec.Voxels
import Verif.Spec.DomainTree
import Verif.Spec.Saddle
/-!
# Specification of the connections between basins
-/
namespace BaderKit
variable {K : Type} [Field K] [LinearOrder K]

/-- The connection is one between the basins `a` and `b`. -/
def ConnOf (c : Conn K) (a b : ℕ) : Prop := c.i = min a b ∧ c.j = max a b

/-- The values at which the voxel `v` meets the basin `b`: the lower of the two values of `v` and of a neighbour in `b`. -/
def MeetVals (s : Shape) (data : ℕ → K) (labels : ℕ → ℤ) (ts : List Coord) (v b : ℕ) : Set K :=
  {x | ∃ w, IsNbr s ts v w ∧ labels w = b ∧ x = min (data v) (data w)}

/-- The values at which the basins `a` and `b` meet, seen from the edge voxels of `a`. -/
def EdgeVals (s : Shape) (data : ℕ → K) (labels : ℕ → ℤ) (ts : List Coord) (edge vac : ℕ → Bool) (a b : ℕ) : Set K :=
  {x | ∃ v < s.size, edge v = true ∧ vac v = false ∧ labels v = a ∧ x ∈ MeetVals s data labels ts v b}

end BaderKit
