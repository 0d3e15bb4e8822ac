import Verif.Model.Marking
import Verif.Spec.BifTree
import Mathlib.Order.Bounds.Basic
/-!
# The rules for the types of features
-/
namespace BaderKit
variable {K : Type} [Field K] [LinearOrder K]

/-- A finite domain that surrounds exactly one atom, has no child domain that surrounds exactly one atom, and makes up more than the given part
of the range of values from its lowest value to the highest value in it. -/
def ShellRule (env : MarkEnv K) (g : BGraph K) (k : ℕ) : Prop :=
  (g.node k).dim = 0 ∧ (g.node k).atoms.length = 1 ∧ (∀ c ∈ g.nodes, (g.node c).parent = some k → (g.node c).atoms.length ≠ 1) ∧
    ∃ hi, IsGreatest ({0} ∪ {x | ∃ c ∈ g.nodes, Below g c k ∧ x = (g.node c).maxV}) hi ∧ hi ≠ (g.node k).minV ∧
      env.shellRatio < ((g.node k).maxV - (g.node k).minV) / (hi - (g.node k).minV)

/-- The first domain around `k` whose atoms meet a condition. -/
def FirstAround (g : BGraph K) (k : ℕ) (P : List ℕ → Prop) (p : ℕ) : Prop :=
  Below g k p ∧ P (g.node p).atoms ∧ ∀ b, Below g k b → Below g b p → ¬ P (g.node b).atoms

/-- A bond between the atoms `a` and `b`: the feature lies between them, the domains that contain both exist almost up to the value up to which those
with at least one of them exist, and it has two neighbours. -/
def BondRule (env : MarkEnv K) (g : BGraph K) (k a b : ℕ) : Prop :=
  env.bond (g.node k).basins = some (a, b) ∧
    (∃ p q, FirstAround g k (fun l => a ∈ l ∨ b ∈ l) p ∧ FirstAround g k (fun l => a ∈ l ∧ b ∈ l) q ∧
      env.bondRatio ≤ (g.node q).maxV / (g.node p).maxV) ∧
    (env.cnn (g.node k).basins).length = 2

/-- The types of features without a type or with a provisional one when lone pairs are looked for. -/
def Open (f : String) : Prop := f = "unknown" ∨ f = "shallow covalent-metallic"

/-- The types of covalent features. -/
def Cov (f : String) : Prop := f = "covalent" ∨ f = "covalent-metallic"

/-- The types of features of atoms. -/
def Atomic (f : String) : Prop := f = "shell" ∨ f = "core" ∨ f = "lone-pair"

/-- The reasons for a lone pair in the domain `n`, given the types before (`f`) and after (`f'`) and the neighbours `nb` of the feature: the domain is
finite, surrounds one atom, and has a feature of the atom but no covalent one; or it has a covalent feature, and at most one neighbour is in it. -/
def LonePairRule (g : BGraph K) (f f' : ℕ → String) (nb : List ℕ) (n : ℕ) : Prop :=
  ((g.node n).dim = 0 ∧ (g.node n).atoms.length = 1 ∧ (∃ c, IsLeaf g c ∧ Below g c n ∧ Atomic (f' c)) ∧ ∀ c, IsLeaf g c → Below g c n → ¬ Cov (f c)) ∨
    ((∃ c, IsLeaf g c ∧ Below g c n ∧ Cov (f c)) ∧ (nb.filter fun i => decide (i ∈ (g.node n).atoms)).length ≤ 1)

/-- The depth of a feature: zero if it is infinite; otherwise the difference to the value up to which the first infinite domain around it exists, or the
outermost one, if none is infinite. -/
def Openness (g : BGraph K) (k : ℕ) (d : K) : Prop :=
  (0 < (g.node k).dim ∧ d = 0) ∨ ((g.node k).dim = 0 ∧ ∃ a, Below g k a ∧ d = (g.node k).maxV - (g.node a).maxV ∧
    ((0 < (g.node a).dim ∧ ∀ b, Below g k b → Below g b a → (g.node b).dim = 0) ∨
      ((∀ b, Below g k b → (g.node b).dim = 0) ∧ (g.node a).parent = none)))

/-- The smallest distance to the surface of an atom: distance to the atom less its radius. -/
def ClosestSurface (env : MarkEnv K) (basins : List ℕ) (b : K) : Prop :=
  IsLeast {x | ∃ (i : ℕ) (d r : K), (env.atomDists basins)[i]? = some d ∧ env.radii[i]? = some r ∧ x = d - r} b

/-- All five quantities of a bare electron exceed their limits. -/
def BareRule (env : MarkEnv K) (g : BGraph K) (k : ℕ) (depth beyond : K) : Prop :=
  env.minElf < (g.node k).maxV ∧ env.minDepth < depth ∧ env.minCharge < ((g.node k).basins.map env.basinCharge).sum ∧
    env.minVolume < ((g.node k).basins.map env.basinVolume).sum ∧ env.minBeyond < beyond

end BaderKit
