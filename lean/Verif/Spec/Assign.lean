import Verif.Model.Assign
/-!
# Independent specification of periodic distances
-/
namespace BaderKit
variable {K : Type*} [Field K] [LinearOrder K]

/-- The lattice vectors are mutually orthogonal. -/
def Orthogonal (L : M3 K) : Prop := dotV L.1 L.2.1 = 0 ∧ dotV L.1 L.2.2 = 0 ∧ dotV L.2.1 L.2.2 = 0

/-- The periodic image of the fractional coordinate `a` in the cell `t`. -/
def image (a : V3 K) (t : ℤ × ℤ × ℤ) : V3 K := (a.1 + t.1, a.2.1 + t.2.1, a.2.2 + t.2.2)

/-- Squared Cartesian distance of two fractional coordinates (no periodicity). -/
def dist2 (L : M3 K) (a b : V3 K) : K := norm2 (vecMat (subV a b) L)

/-- `root` orders the non-negative numbers like the square root does. -/
def RootLike (root : K → K) : Prop := ∀ x y, 0 ≤ x → 0 ≤ y → (root x ≤ root y ↔ x ≤ y)

/-- `d` is the distance from `b` to a nearest periodic image of `a`. -/
def IsNearest (root : K → K) (L : M3 K) (a b : V3 K) (d : K) : Prop :=
  (∃ t, d = root (dist2 L (image a t) b)) ∧ ∀ t, d ≤ root (dist2 L (image a t) b)

/-- The components of two coordinates differ by less than one and a half cells (for instance because both
lie in the unit cell). -/
def CloseBy (a b : V3 K) : Prop :=
  |a.1 - b.1| < 3 / 2 ∧ |a.2.1 - b.2.1| < 3 / 2 ∧ |a.2.2 - b.2.2| < 3 / 2

end BaderKit
