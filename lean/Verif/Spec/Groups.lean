import Verif.Spec.Index
import Mathlib.Logic.Relation
import Mathlib.Algebra.Group.Prod
import Mathlib.Algebra.Group.Int.Defs
/-!
# Independent specification of connected groups in the infinite crystal
-/
namespace BaderKit

/-- The voxel of the cell to which a point of the infinite crystal belongs. -/
def voxelOf (s : Shape) (a : Coord) : ℕ := (coordsToFlat s (a.1 % s.nx, a.2.1 % s.ny, a.2.2 % s.nz)).toNat

/-- The copy of a voxel in the cell `t`. -/
def voxImage (s : Shape) (v : ℕ) (t : Coord) : Coord :=
  ((flatToCoords s v).1 + t.1 * s.nx, (flatToCoords s v).2.1 + t.2.1 * s.ny, (flatToCoords s v).2.2 + t.2.2 * s.nz)

/-- Two neighbouring points of the infinite crystal, both in the solid. -/
def SolidAdj (s : Shape) (nbrs : List Coord) (solid : ℕ → Bool) (a b : Coord) : Prop :=
  solid (voxelOf s a) = true ∧ solid (voxelOf s b) = true ∧ ∃ d ∈ nbrs, b = addC a d

/-- `v` in the home cell is connected to `w` in the cell `t` through the solid. -/
def ConnTo (s : Shape) (nbrs : List Coord) (solid : ℕ → Bool) (v w : ℕ) (t : Coord) : Prop :=
  Relation.ReflTransGen (SolidAdj s nbrs solid) (voxImage s v 0) (voxImage s w t)

end BaderKit
