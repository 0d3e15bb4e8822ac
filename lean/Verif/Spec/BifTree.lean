import Verif.Model.BifTree
import Mathlib.Logic.Relation
/-!
# What a well formed bifurcation graph is

Only the data of the graph (lists of nodes and roots, parent and child links) is used, no operation of the model.
-/
namespace BaderKit

variable {K : Type}

/-- A forest with consistent links in both directions.  The nodes are listed parents first (`rank`), so that there are no cycles. -/
structure Forest (g : BGraph K) : Prop where
  nodup : g.nodes.Nodup
  rootsNodup : g.roots.Nodup
  roots_iff : ∀ k, k ∈ g.roots ↔ k ∈ g.nodes ∧ (g.node k).parent = none
  parent_ok : ∀ k ∈ g.nodes, ∀ p, (g.node k).parent = some p → p ∈ g.nodes ∧ (g.node p).red = true
  child_iff : ∀ p ∈ g.nodes, ∀ c, c ∈ (g.node p).children ↔ c ∈ g.nodes ∧ (g.node c).parent = some p
  childNodup : ∀ p ∈ g.nodes, (g.node p).children.Nodup
  order : ∃ rank : ℕ → ℕ, g.nodes.Pairwise (fun a b => rank a < rank b) ∧
    ∀ k ∈ g.nodes, ∀ p, (g.node k).parent = some p → rank p < rank k

/-- `a` is below `b`: `b` is the parent, grandparent, ... of `a`. -/
def Below (g : BGraph K) : ℕ → ℕ → Prop := Relation.TransGen (fun a b => (g.node a).parent = some b)

/-- The irreducible nodes. -/
def IsLeaf (g : BGraph K) (k : ℕ) : Prop := k ∈ g.nodes ∧ (g.node k).red = false

/-- The basins of a reducible node are those of its children, each once. -/
def BasinsSplit (g : BGraph K) : Prop :=
  ∀ p ∈ g.nodes, (g.node p).red = true → ((g.node p).children.flatMap (fun c => (g.node c).basins)).Perm (g.node p).basins

/-- All attributes except the links and the values that change with them. -/
def SameContent (a b : TNode K) : Prop :=
  a.red = b.red ∧ a.basins = b.basins ∧ a.dim = b.dim ∧ a.atoms = b.atoms ∧ a.minV = b.minV ∧ a.subtype = b.subtype ∧
    a.feature = b.feature ∧ a.beyond = b.beyond ∧ a.minSurf = b.minSurf ∧ a.avgSurf = b.avgSurf

/-- Basins of the irreducible nodes, with repetitions. -/
def leafBasins (g : BGraph K) : List ℕ := (g.nodes.filter (fun k => !(g.node k).red)).flatMap (fun k => (g.node k).basins)

/-- The value at which a reducible node splits is the lowest value of its children. -/
def MaxOk [LinearOrder K] (g : BGraph K) : Prop :=
  ∀ p ∈ g.nodes, (g.node p).red = true → (∀ c ∈ (g.node p).children, (g.node p).maxV ≤ (g.node c).minV) ∧
    ∃ c ∈ (g.node p).children, (g.node p).maxV = (g.node c).minV

/-- What a written and read node `a` keeps of the node `b`. -/
def Restored (a b : TNode K) : Prop :=
  a.red = b.red ∧ a.basins = b.basins ∧ a.dim = b.dim ∧ a.atoms = b.atoms ∧ a.minV = b.minV ∧ a.maxV = b.maxV ∧ a.parent = b.parent ∧
    a.subtype = b.subtype ∧ (b.red = false → a.minSurf = b.minSurf ∧ a.avgSurf = b.avgSurf)

end BaderKit
