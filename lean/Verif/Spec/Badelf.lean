import Verif.Model.Badelf
import Mathlib.Algebra.BigOperators.Group.List.Basic
import Mathlib.Algebra.Order.Field.Basic
/-!
# Specification of the Badelf assignment

A region is a site (and the transformation of its image) with the planes that bound it.
-/
namespace BaderKit
variable {K : Type*} [Field K] [LinearOrder K] [FloorRing K]

/-- A region: site, number of the image, bounding planes (normal and offset). -/
structure Region (K : Type*) where
  site : ℕ
  image : ℕ
  planes : List (V3 K × K)

/-- The rows of the arrays that describe a list of regions, one after the other. -/
def regionRows (gs : List (Region K)) : List (PRow K) :=
  gs.flatMap fun g => g.planes.map fun p => ⟨g.site, g.image, p.1, p.2⟩

/-- A point is inside a region if it is below each of its planes by at least the given distance. -/
def InRegion (minDist : K) (x : V3 K) (g : Region K) : Prop := ∀ p ∈ g.planes, planeDist x p.1 p.2 ≤ -minDist

/-- The part of a voxel given to site `l` by a list of fractions. -/
def share (fr : List (ℕ × K)) (l : ℕ) : K := ((fr.filter fun p => p.1 = l).map fun p => p.2).sum

/-- The weight of site `l` among neighbours given with their distances: the sum of the inverse distances of those
that carry the label `l`. -/
def weightOf (labels : ℕ → ℤ) (ns : List (ℕ × K)) (l : ℕ) : K :=
  (ns.map fun n => if labels n.1 = (l : ℤ) then 1 / n.2 else 0).sum

/-- The weight of all neighbours that carry a label of a site. -/
def weightAll (labels : ℕ → ℤ) (maxLabel : ℕ) (ns : List (ℕ × K)) : K :=
  (ns.map fun n => if labels n.1 ≠ -1 ∧ labels n.1 < maxLabel then 1 / n.2 else 0).sum

end BaderKit
