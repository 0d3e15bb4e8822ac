import Verif.Model.DomainTree
import Mathlib.Logic.Relation
/-!
# Specification of the domains

The basins with their connections are a graph whose edges disappear as the value rises. The domains at a value are the connected components
of what is left.
-/
namespace BaderKit
variable {K : Type} [Field K] [LinearOrder K]

/-- The basin takes part in a connection at or above the value. -/
def BasinAt (conns : List (Conn K)) (t : K) (b : ℕ) : Prop := ∃ c ∈ conns, t ≤ c.val ∧ (b = c.i ∨ b = c.j)

/-- The basins are connected by connections at or above the value. -/
def JoinedAt (conns : List (Conn K)) (t : K) : ℕ → ℕ → Prop :=
  Relation.EqvGen fun a b => ∃ c ∈ conns, t ≤ c.val ∧ c.i = a ∧ c.j = b

/-- `B` is a connected component at the value, listed in increasing order. -/
def IsDomainAt (conns : List (Conn K)) (t : K) (B : List ℕ) : Prop :=
  B ≠ [] ∧ B.Pairwise (· < ·) ∧ ∀ b ∈ B, ∀ c, c ∈ B ↔ BasinAt conns t c ∧ JoinedAt conns t b c

/-- The values at which a row of the result exists: above its minimum (a root exists from below) and not above its maximum. -/
def RowAlive (r : DomainRow K) (t : K) : Prop := (r.parent ≠ none → r.minV < t) ∧ ∀ M, r.maxV = some M → t ≤ M

end BaderKit
