import Verif.Spec.Index
import Mathlib.Data.Finset.Prod
/-!
# Specification of the contacts between voids and domains
-/
namespace BaderKit

/-- All contacts between the solid and the rest: a voxel of the solid that is not vacuum, and a direction to a neighbour that is not in the
solid. -/
def contactPairs (s : Shape) (nbrs : List Coord) (solid vac : ℕ → Bool) : Finset (ℕ × Coord) :=
  (Finset.range s.size ×ˢ nbrs.toFinset).filter fun x => solid x.1 = true ∧ vac x.1 = false ∧ solid (nbr s x.1 x.2) = false

/-- The number of contacts between the voxels `P` of the solid and the voxels `Q` outside. -/
noncomputable def contactNumber (s : Shape) (nbrs : List Coord) (solid vac : ℕ → Bool) (P Q : ℕ → Prop) : ℕ :=
  open Classical in ((contactPairs s nbrs solid vac).filter fun x => P x.1 ∧ Q (nbr s x.1 x.2)).card

end BaderKit
