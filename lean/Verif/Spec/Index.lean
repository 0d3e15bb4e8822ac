import Verif.Model.Index
/-!
# Independent specification of periodic indexing
-/
namespace BaderKit

/-- The coordinate is inside the grid. -/
def InRange (s : Shape) (c : Coord) : Prop :=
  (0 ≤ c.1 ∧ c.1 < s.nx) ∧ (0 ≤ c.2.1 ∧ c.2.1 < s.ny) ∧ (0 ≤ c.2.2 ∧ c.2.2 < s.nz)

/-- Two coordinates denote the same point of the periodic crystal: they differ by integer
multiples of the grid shape. -/
def SamePoint (s : Shape) (c d : Coord) : Prop :=
  (∃ a : ℤ, c.1 = d.1 + a * s.nx) ∧ (∃ a : ℤ, c.2.1 = d.2.1 + a * s.ny) ∧
    (∃ a : ℤ, c.2.2 = d.2.2 + a * s.nz)

/-- The window in which `wrap_point` is meant to be used. -/
def InWindow (s : Shape) (c : Coord) : Prop :=
  (-(s.nx : ℤ) ≤ c.1 ∧ c.1 < 2 * s.nx) ∧ (-(s.ny : ℤ) ≤ c.2.1 ∧ c.2.1 < 2 * s.ny) ∧
    (-(s.nz : ℤ) ≤ c.2.2 ∧ c.2.2 < 2 * s.nz)

/-- A step of at most one voxel along each axis. -/
def UnitStep (t : Coord) : Prop :=
  (-1 ≤ t.1 ∧ t.1 ≤ 1) ∧ (-1 ≤ t.2.1 ∧ t.2.1 ≤ 1) ∧ (-1 ≤ t.2.2 ∧ t.2.2 ≤ 1)

/-- A step that is at most one cell long along each axis (the neighbour lists of the library use
steps of one voxel, or of two voxels for the Voronoi neighbours). -/
def StepFits (s : Shape) (t : Coord) : Prop :=
  (-(s.nx : ℤ) ≤ t.1 ∧ t.1 ≤ s.nx) ∧ (-(s.ny : ℤ) ≤ t.2.1 ∧ t.2.1 ≤ s.ny) ∧
    (-(s.nz : ℤ) ≤ t.2.2 ∧ t.2.2 ≤ s.nz)

/-- All sides of the grid are positive. -/
def Shape.Pos (s : Shape) : Prop := 0 < s.nx ∧ 0 < s.ny ∧ 0 < s.nz

/-- Negated transform. -/
def negC (t : Coord) : Coord := (-t.1, -t.2.1, -t.2.2)

end BaderKit
