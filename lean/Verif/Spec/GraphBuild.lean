import Verif.Spec.AtomRows
import Verif.Spec.BifTree
/-! # Specification of the tree of domains that enters the graph -/
namespace BaderKit
variable {K : Type} [LinearOrder K]

/-- Every domain lists its basins once; the basins of a child are basins of its parent; a domain with children is divided among them. -/
structure SplitTree (inp : List (DomIn K)) : Prop where
  nodup : ∀ r ∈ inp, r.basins.Nodup
  sub : ∀ (e : ℕ) (t s : DomIn K) (d : ℕ), inp[e]? = some t → t.parent = some d → inp[d]? = some s → ∀ b ∈ t.basins, b ∈ s.basins
  split : ∀ (d : ℕ) (s : DomIn K), inp[d]? = some s → (∃ t ∈ inp, t.parent = some d) → ∀ b ∈ s.basins,
    ∃! e : ℕ, ∃ t, inp[e]? = some t ∧ t.parent = some d ∧ b ∈ t.basins

/-- Every basin below `nb` is in exactly one root, and nothing else is. -/
def RootsCover (inp : List (DomIn K)) (nb : ℕ) : Prop :=
  (∀ b < nb, ∃! d : ℕ, ∃ s, inp[d]? = some s ∧ s.parent = none ∧ b ∈ s.basins) ∧ ∀ s ∈ inp, s.parent = none → ∀ b ∈ s.basins, b < nb

/-- What kind of change a reducible node stands for, by comparison with its parent. -/
def TypeOk (own : ARow K) (par : Option (ARow K)) (name : Option String) : Prop :=
  (par = none → name = some "reducible - root") ∧
  ∀ p, par = some p →
    (p.basins.length ≠ own.basins.length → name = some "reducible - domain") ∧
    (p.basins.length = own.basins.length → p.dim ≠ own.dim → name = some "reducible - dimensionality") ∧
    (p.basins.length = own.basins.length → p.dim = own.dim → p.atoms.length ≠ own.atoms.length → name = some "reducible - contained atoms")

end BaderKit
