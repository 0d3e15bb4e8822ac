import Verif.Model.BadelfDim
import Mathlib.Logic.Relation
/-!
# Specification: connectivity in the doubled cell
-/
namespace BaderKit

/-- The voxel of the cell below a voxel of the supercell. -/
def cellOf (s : Shape) (a : Coord) : Coord := (a.1 % s.nx, a.2.1 % s.ny, a.2.2 % s.nz)

/-- A voxel of the 2x2x2 supercell that carries the mask. -/
def InSuper (s : Shape) (mask : Coord → Bool) (a : Coord) : Prop :=
  (0 ≤ a.1 ∧ a.1 < 2 * s.nx) ∧ (0 ≤ a.2.1 ∧ a.2.1 < 2 * s.ny) ∧ (0 ≤ a.2.2 ∧ a.2.2 < 2 * s.nz) ∧
    mask (cellOf s a) = true

instance (s : Shape) (mask : Coord → Bool) (a : Coord) : Decidable (InSuper s mask a) := by
  unfold InSuper; infer_instance

/-- Voxels of the masked supercell that touch in a face, edge or corner. -/
def SuperAdj (s : Shape) (mask : Coord → Bool) (a b : Coord) : Prop :=
  InSuper s mask a ∧ InSuper s mask b ∧ |a.1 - b.1| ≤ 1 ∧ |a.2.1 - b.2.1| ≤ 1 ∧ |a.2.2 - b.2.2| ≤ 1

instance (s : Shape) (mask : Coord → Bool) (a b : Coord) : Decidable (SuperAdj s mask a b) := by
  unfold SuperAdj; infer_instance

/-- Connected by a path of touching voxels. -/
def SuperConn (s : Shape) (mask : Coord → Bool) : Coord → Coord → Prop := Relation.ReflTransGen (SuperAdj s mask)

/-- What `scipy.ndimage.label` returns: equal labels exactly for connected voxels of the mask. -/
def IsLabelling (s : Shape) (mask : Coord → Bool) (lbl : Coord → ℕ) : Prop :=
  ∀ a b, InSuper s mask a → InSuper s mask b → (lbl a = lbl b ↔ SuperConn s mask a b)

end BaderKit
