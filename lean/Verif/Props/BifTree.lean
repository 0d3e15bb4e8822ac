import Verif.Lemmas.BifOps3
import Mathlib.Data.Rat.Floor
import Mathlib.Tactic.NormNum
/-!
# C44, C45: bifurcation graphs
-/
namespace BaderKit

variable {K : Type} [Field K] [LinearOrder K]

/-- The public operations: create a node with an automatic key, `remove`, `make_irreducible`, read `depth`. -/
inductive TreeOp (K : Type) where
  | add (parent : Option ℕ) (t : TNode K)
  | remove (k : ℕ)
  | collapse (k : ℕ)
  | depth (k : ℕ)

/-- Run one operation; `none` is an exception. -/
def runTree (shape : List ℕ → ℕ) (g : BGraph K) : TreeOp K → Option (BGraph K)
  | .add p t => addNode g none p t
  | .remove k => removeNode g k
  | .collapse k => makeIrreducible shape g (g.nodes.length + 1) k
  | .depth k => some (readDepth g k).2

/-- **C44.** Every graph obtained by any sequence of operations is a forest with consistent links in both directions, unique keys, the
list of roots consisting of exactly the parentless nodes, and without cycles. -/
theorem C44_forest (shape : List ℕ → ℕ) (ops : List (TreeOp K)) :
    ∀ (g g' : BGraph K), Forest g → ops.foldlM (runTree shape) g = some g' → Forest g' := by
  induction ops with
  | nil => intro g g' hF h; cases h; exact hF
  | cons o ops ih =>
    intro g g' hF h
    rw [List.foldlM_cons] at h
    cases e : runTree shape g o with
    | none => rw [e] at h; cases h
    | some g1 =>
      rw [e] at h
      refine ih g1 g' ?_ h
      cases o with
      | add p t =>
        have e' : addNode g none p t = some g1 := e
        have hp : ∀ q, p = some q → q ∈ g.nodes ∧ (g.node q).red = true := by
          rintro q rfl
          by_contra hq
          rw [addNode_none hq] at e'
          cases e'
        obtain ⟨g2, e2, hF2, -⟩ := addNode_spec (t := t) hF (key := none) (parent := p) (freshKey_not_mem g) hp
        rw [e2] at e'
        cases e'
        exact hF2
      | remove k => exact (removeNode_nodes hF e).2.1
      | collapse k => exact (makeIrreducible_some shape hF e).2.2.1
      | depth k =>
        have e' : some (readDepth g k).2 = some g1 := e
        cases e'
        exact (readDepth_same g k).forest hF

/-- From nothing. -/
theorem C44_reachable (shape : List ℕ → ℕ) (ops : List (TreeOp K)) {g' : BGraph K}
    (h : ops.foldlM (runTree shape) emptyGraph = some g') : Forest g' := C44_forest shape ops _ _ emptyGraph_forest h

/-- **C44.** A new node gets an unused key, is listed last among its parent's children or as a root; nothing else changes.  Creation fails
exactly if the parent is not a reducible node of the graph. -/
theorem C44_add {g : BGraph K} (hF : Forest g) (parent : Option ℕ) (t : TNode K) :
    ((∀ p, parent = some p → p ∈ g.nodes ∧ (g.node p).red = true) →
      ∃ g' k, addNode g none parent t = some g' ∧ k ∉ g.nodes ∧ g'.nodes = g.nodes ++ [k] ∧ (g'.node k).parent = parent ∧
        SameContent (g'.node k) t ∧ (g'.node k).maxV = t.maxV ∧
        ∀ x ∈ g.nodes, (g'.node x).parent = (g.node x).parent ∧ SameContent (g'.node x) (g.node x) ∧ (g'.node x).maxV = (g.node x).maxV) ∧
    (∀ p, parent = some p → ¬ (p ∈ g.nodes ∧ (g.node p).red = true) → addNode g none parent t = none) := by
  constructor
  · intro hp
    obtain ⟨g', e, -, h1, h2, h3⟩ := addNode_spec (t := t) hF (key := none) (parent := parent) (freshKey_not_mem g) hp
    simp only [Option.getD_none] at h1 h2
    refine ⟨g', freshKey g, e, freshKey_not_mem g, h1, by rw [h2], ?_, by rw [h2], fun x hx => ⟨(h3 x hx).1, (h3 x hx).2.1, (h3 x hx).2.2.1⟩⟩
    rw [h2]; exact ⟨rfl, rfl, rfl, rfl, rfl, rfl, rfl, rfl, rfl, rfl⟩
  · rintro p rfl hp
    exact addNode_none hp

/-- **C44.** Removing a node hands its children to its parent (they become roots if it has none) and changes no other link and no other
node's attributes, except that the parent of a removed reducible node gets a new highest value.  Removing an irreducible root raises. -/
theorem C44_remove {g : BGraph K} (hF : Forest g) {k : ℕ} (hk : k ∈ g.nodes) :
    (((g.node k).red = true ∨ (g.node k).parent ≠ none) →
      ∃ g', removeNode g k = some g' ∧ (∀ x, x ∈ g'.nodes ↔ x ∈ g.nodes ∧ x ≠ k) ∧
        (∀ x ∈ g'.nodes, (g'.node x).parent = if (g.node x).parent = some k then (g.node k).parent else (g.node x).parent) ∧
        (∀ x ∈ g'.nodes, SameContent (g'.node x) (g.node x) ∧
          ((g.node k).red = false ∨ (g.node k).parent ≠ some x → (g'.node x).maxV = (g.node x).maxV))) ∧
    ((g.node k).red = false → (g.node k).parent = none → removeNode g k = none) := by
  constructor
  · intro hok
    obtain ⟨g', e, -, hR⟩ := removeNode_spec hF hk hok
    refine ⟨g', e, hR.mem, fun x hx => hR.parent x ((hR.mem x).mp hx).1, fun x hx => ⟨hR.content x ((hR.mem x).mp hx).1, hR.maxV x ((hR.mem x).mp hx).1⟩⟩
  · intro h1 h2
    unfold removeNode removeLeaf
    rw [if_pos hk, h1, h2]
    rfl

/-- **C44.** If every reducible node splits at the lowest value of its children, this is still so after removing a reducible node. -/
theorem C44_remove_keeps_max {g g' : BGraph K} (hF : Forest g) (hM : MaxOk g) {k : ℕ} (hred : (g.node k).red = true)
    (h : removeNode g k = some g') : MaxOk g' := by
  obtain ⟨hk, hF', hR⟩ := removeNode_nodes hF h
  intro p hp hpr
  obtain ⟨hpn, hpk⟩ := (hR.mem p).mp hp
  have hmin : ∀ c ∈ (g'.node p).children, (g'.node c).minV = (g.node c).minV := fun c hc =>
    (hR.content c ((hR.mem c).mp ((hF'.child_iff p hp c).mp hc).1).1).2.2.2.2.1
  by_cases hkp : (g.node k).parent = some p
  · obtain ⟨-, h2, h3⟩ := hR.newMax p hred hkp
    refine ⟨h2, ?_⟩
    rcases h3 with h3 | h3
    · obtain ⟨-, c, hc, e⟩ := hM k hk hred
      obtain ⟨hcn, hcp⟩ := (hF.child_iff k hk c).mp hc
      have hck : c ≠ k := by rintro rfl; exact hF.parent_ne hcn hcp
      have hc' : c ∈ (g'.node p).children := by
        rw [hF'.child_iff p hp]
        refine ⟨(hR.mem c).mpr ⟨hcn, hck⟩, ?_⟩
        rw [hR.parent c hcn, if_pos hcp, hkp]
      exact ⟨c, hc', by rw [h3, hmin c hc', e]⟩
    · exact h3
  · have hch := hR.oldChildren p hp hkp
    rw [hR.maxV p hpn (.inr hkp), hch]
    rw [hch] at hmin
    obtain ⟨h1, c, hc, e⟩ := hM p hpn (by rw [← (hR.content p hpn).1]; exact hpr)
    exact ⟨fun d hd => by rw [hmin d hd]; exact h1 d hd, c, hc, by rw [hmin c hc]; exact e⟩

/-- **C44.** Collapsing a reducible node removes exactly the nodes below it; the node itself stays in place as an irreducible node with
the same key, parent, basins, dimensionality, atoms and lowest value, and the highest value found among the irreducible nodes below it.  All
other links and attributes stay, except the highest value of the parent. -/
theorem C44_collapse (shape : List ℕ → ℕ) {g : BGraph K} (hF : Forest g) {k fuel : ℕ} (hk : k ∈ g.nodes) (hred : (g.node k).red = true)
    (hfuel : g.nodes.length < fuel) :
    ∃ g', makeIrreducible shape g fuel k = some g' ∧ (∀ x, x ∈ g'.nodes ↔ x ∈ g.nodes ∧ ¬ Below g x k) ∧ IsLeaf g' k ∧
      (∀ x ∈ g'.nodes, (g'.node x).parent = (g.node x).parent) ∧
      (g'.node k).basins = (g.node k).basins ∧ (g'.node k).dim = (g.node k).dim ∧ (g'.node k).atoms = (g.node k).atoms ∧
      (g'.node k).minV = (g.node k).minV ∧ (g'.node k).subtype = some (combinedType shape (g.node k).basins) ∧
      (∀ c ∈ g.nodes, Below g c k → (g.node c).red = false → (g.node c).maxV ≤ (g'.node k).maxV) ∧
      ((∃ c ∈ g.nodes, Below g c k ∧ (g.node c).red = false ∧ lowestK < (g.node c).maxV) →
        ∃ c ∈ g.nodes, Below g c k ∧ (g.node c).red = false ∧ (g'.node k).maxV = (g.node c).maxV) ∧
      (∀ x ∈ g'.nodes, x ≠ k → SameContent (g'.node x) (g.node x) ∧ ((g.node k).parent ≠ some x → (g'.node x).maxV = (g.node x).maxV)) := by
  obtain ⟨g', e, -, hC⟩ := makeIrreducible_spec shape hF hk hred hfuel
  refine ⟨g', e, hC.nodes, ⟨(hC.nodes k).mpr ⟨hk, hF.below_irrefl hk⟩, hC.leaf⟩, hC.parent, hC.basins, hC.dim, hC.atoms, hC.minV, hC.subtype,
    hC.maxV.2.1, ?_, fun x hx hxk => ⟨(hC.others x hx hxk).1, (hC.others x hx hxk).2.2⟩⟩
  rintro ⟨c, hc, hb, hr, hlt⟩
  rcases hC.maxV.2.2 with h | h
  · exact absurd (hC.maxV.2.1 c hc hb hr) (by rw [h]; exact not_le.mpr hlt)
  · exact h

/-- **C44.** Ancestor and descendant queries terminate, list exactly the nodes above and below, each once, and are inverse. -/
theorem C44_queries {g : BGraph K} (hF : Forest g) {fuel : ℕ} (hfuel : g.nodes.length < fuel) :
    (∀ k ∈ g.nodes, ∃ l, ancestors g fuel k = some l ∧ l.Nodup ∧ ∀ a, a ∈ l ↔ Below g k a) ∧
    (∀ k ∈ g.nodes, ∃ l, deepChildren g fuel k = some l ∧ l.Nodup ∧ ∀ x, x ∈ l ↔ x ∈ g.nodes ∧ Below g x k) ∧
    (∀ a ∈ g.nodes, ∀ k ∈ g.nodes, ∀ la ld, ancestors g fuel k = some la → deepChildren g fuel a = some ld → (a ∈ la ↔ k ∈ ld)) ∧
    (∀ k ∈ g.nodes, ∀ x, x ∈ siblings g k ↔ x ∈ g.nodes ∧ x ≠ k ∧ ∃ p, (g.node k).parent = some p ∧ (g.node x).parent = some p) := by
  obtain ⟨rank, -, hr⟩ := hF.order
  have hA : ∀ k ∈ g.nodes, ∃ l, ancestors g fuel k = some l ∧ l.Nodup ∧ ∀ a, a ∈ l ↔ Below g k a := by
    intro k hk
    obtain ⟨l, e, h1, h2⟩ := hF.ancestors_spec hr fuel k hk ((lowCount_le rank k).trans_lt hfuel)
    exact ⟨l, e, h2, h1⟩
  have hD : ∀ k ∈ g.nodes, ∃ l, deepChildren g fuel k = some l ∧ l.Nodup ∧ ∀ x, x ∈ l ↔ x ∈ g.nodes ∧ Below g x k := by
    intro k hk
    obtain ⟨l, e, h1, h2, -⟩ := hF.deepChildren_spec hk hfuel
    exact ⟨l, e, h2, h1⟩
  refine ⟨hA, hD, ?_, ?_⟩
  · intro a ha k hk la ld h1 h2
    obtain ⟨la', e1, -, m1⟩ := hA k hk
    obtain ⟨ld', e2, -, m2⟩ := hD a ha
    rw [h1] at e1; rw [h2] at e2
    cases e1; cases e2
    rw [m1, m2]
    exact ⟨fun h => ⟨hk, h⟩, fun h => h.2⟩
  · intro k hk x
    unfold siblings
    cases hp : (g.node k).parent with
    | none => simp
    | some p =>
      simp only [List.mem_filter, hF.child_iff p (hF.parent_ok k hk p hp).1, decide_eq_true_eq, Option.some.injEq, exists_eq_left']
      tauto

/-- **C44.** In a graph whose reducible nodes split their basins among their children, the irreducible nodes together have the basins
of the roots, each as often. -/
theorem C44_leaves_cover {g : BGraph K} (hF : Forest g) (hB : BasinsSplit g) :
    (leafBasins g).Perm (g.roots.flatMap (fun c => (g.node c).basins)) := leafBasins_roots hF hB

/-- **C44.** Removing reducible nodes and collapsing nodes lose no basin and keep the splitting of the basins. -/
theorem C44_basins_kept (shape : List ℕ → ℕ) {g g' : BGraph K} (hF : Forest g) (hB : BasinsSplit g) {k fuel : ℕ}
    (h : ((g.node k).red = true ∧ removeNode g k = some g') ∨ makeIrreducible shape g fuel k = some g') :
    BasinsSplit g' ∧ (leafBasins g').Perm (leafBasins g) := by
  rcases h with ⟨hr, h⟩ | h
  · obtain ⟨hk, hF', hR⟩ := removeNode_nodes hF h
    obtain ⟨h1, h2⟩ := hR.split hF hk hr hF' hB
    exact ⟨h1, Kept.leaves hF hB ⟨hF', h1, h2⟩⟩
  · obtain ⟨hk, -, hF', hC⟩ := makeIrreducible_some shape hF h
    obtain ⟨h1, h2⟩ := hC.split hF hk hF' hB
    exact ⟨h1, Kept.leaves hF hB ⟨hF', h1, h2⟩⟩

/-! ### Clean-up of a new graph -/

theorem shallowStep_kept {cutoff : K} {g g' : BGraph K} {k : ℕ} (hF : Forest g) (hB : BasinsSplit g) (hred : (g.node k).red = true)
    (h : shallowStep cutoff g k = some g') : Kept g g' ∧ ∀ x, x ≠ k → (g'.node x).red = (g.node x).red ∨ x ∉ g.nodes := by
  unfold shallowStep at h
  cases hp : (g.node k).parent with
  | none => rw [hp] at h; cases h
  | some p =>
    rw [hp] at h
    simp only at h
    have hS : SameTree g (readDepth (readDepth g k).2 p).2 := (readDepth_same g k).trans (readDepth_same _ p)
    split_ifs at h with h1 h2
    · cases h
      exact ⟨hS.kept hF hB, fun x _ => .inl (hS.red x)⟩
    · have hK := hS.kept hF hB
      obtain ⟨hk, hF', hR⟩ := removeNode_nodes hK.forest h
      obtain ⟨b1, b2⟩ := hR.split hK.forest hk (by rw [hS.red]; exact hred) hF' hK.split
      refine ⟨hK.trans ⟨hF', b1, b2⟩, fun x hx => ?_⟩
      by_cases hxn : x ∈ g.nodes
      · left
        rw [(hR.content x (by rw [hS.nodes]; exact hxn)).1, hS.red]
      · exact .inr hxn

theorem shallowStep_nodes {cutoff : K} {g g' : BGraph K} {k : ℕ} (hF : Forest g) (h : shallowStep cutoff g k = some g') :
    ∀ x, x ≠ k → (x ∈ g'.nodes ↔ x ∈ g.nodes) := by
  unfold shallowStep at h
  cases hp : (g.node k).parent with
  | none => rw [hp] at h; cases h
  | some p =>
    rw [hp] at h
    simp only at h
    have hS : SameTree g (readDepth (readDepth g k).2 p).2 := (readDepth_same g k).trans (readDepth_same _ p)
    intro x hx
    split_ifs at h with h1 h2
    · cases h
      rw [hS.nodes]
    · obtain ⟨hk, hF', hR⟩ := removeNode_nodes (hS.forest hF) h
      rw [hR.mem, hS.nodes]
      exact ⟨fun h => h.1, fun h => ⟨h, hx⟩⟩

theorem shallowFold_kept {cutoff : K} : ∀ (l : List ℕ) (g g' : BGraph K), l.Nodup → Forest g → BasinsSplit g →
    (∀ k ∈ l, k ∈ g.nodes ∧ (g.node k).red = true) → l.foldlM (shallowStep cutoff) g = some g' → Kept g g' := by
  intro l
  induction l with
  | nil => intro g g' _ hF hB _ h; cases h; exact (SameTree.refl g).kept hF hB
  | cons k l ih =>
    intro g g' hnd hF hB hl h
    obtain ⟨hkl, hnd'⟩ := List.nodup_cons.mp hnd
    rw [List.foldlM_cons] at h
    cases e : shallowStep cutoff g k with
    | none => rw [e] at h; cases h
    | some g1 =>
      rw [e] at h
      obtain ⟨hK, hr⟩ := shallowStep_kept hF hB (hl k (by simp)).2 e
      refine hK.trans (ih g1 g' hnd' hK.forest hK.split ?_ h)
      intro x hx
      have hxk : x ≠ k := by rintro rfl; exact hkl hx
      obtain ⟨a, b⟩ := hl x (by simp [hx])
      refine ⟨(shallowStep_nodes hF e x hxk).mpr a, ?_⟩
      rcases hr x hxk with h | h
      · rw [h]; exact b
      · exact absurd a h

theorem combineStep_kept {shape : List ℕ → ℕ} {cutoff : K} {fuel : ℕ} {g g' : BGraph K} {k : ℕ} (hF : Forest g) (hB : BasinsSplit g)
    (h : combineStep shape cutoff fuel g k = some g') : Kept g g' := by
  unfold combineStep at h
  split_ifs at h with hd
  · cases h; exact (SameTree.refl g).kept hF hB
  · have hS1 := readDepth_same g k
    simp only [Option.bind_eq_bind] at h
    cases e1 : deepChildren (readDepth g k).2 fuel k with
    | none => rw [e1] at h; cases h
    | some l =>
      rw [e1] at h
      simp only [Option.bind_some] at h
      cases e2 : shallowScan cutoff (readDepth g k).1 (readDepth g k).2 l with
      | none => rw [e2] at h; cases h
      | some s =>
        obtain ⟨b, g2⟩ := s
        rw [e2] at h
        simp only [Option.bind_some] at h
        have hK := (hS1.trans (shallowScan_same _ _ l _ _ _ e2)).kept hF hB
        split_ifs at h with hb
        · obtain ⟨hk, -, hF', hC⟩ := makeIrreducible_some shape hK.forest h
          obtain ⟨b1, b2⟩ := hC.split hK.forest hk hF' hK.split
          exact hK.trans ⟨hF', b1, b2⟩
        · cases h; exact hK

/-- **C44.** The clean-up of a new graph (removing shallow reducible nodes, then combining shallow irreducible ones), whenever it does not
raise, leaves a forest whose reducible nodes split their basins, and the irreducible nodes together have the same basins as before. -/
theorem C44_cleanup (shape : List ℕ → ℕ) (argsort : List (ℕ × K) → List (ℕ × K)) (hsort : ∀ l, (argsort l).Perm l)
    (cut1 cut2 : K) (fuel : ℕ) {g g1 g2 : BGraph K} (hF : Forest g) (hB : BasinsSplit g)
    (h1 : removeShallow argsort cut1 g = some g1) (h2 : combineShallow shape argsort cut2 fuel g1 = some g2) :
    Forest g2 ∧ BasinsSplit g2 ∧ (leafBasins g2).Perm (leafBasins g) := by
  have hperm : (sortedReducible argsort g).Perm (g.nodes.filter (fun k => (g.node k).red)) := by
    unfold sortedReducible
    refine ((hsort _).map Prod.fst).trans ?_
    rw [List.map_map]
    have : (Prod.fst ∘ fun k => (k, (g.node k).minV)) = (id : ℕ → ℕ) := rfl
    rw [this, List.map_id]
  have K1 : Kept g g1 := by
    refine shallowFold_kept _ g g1 ?_ hF hB ?_ h1
    · exact ((hperm.nodup_iff.mpr (hF.nodup.filter _))).sublist (List.tail_sublist _)
    · intro k hk
      exact List.mem_filter.mp (hperm.mem_iff.mp (List.mem_of_mem_tail hk))
  have K2 : Kept g1 g2 := by
    unfold combineShallow at h2
    revert h2
    generalize (sortedReducible argsort g1).reverse = l
    have : ∀ (l : List ℕ) (a b : BGraph K), Forest a → BasinsSplit a → l.foldlM (combineStep shape cut2 fuel) a = some b → Kept a b := by
      intro l
      induction l with
      | nil => intro a b hF hB h; cases h; exact (SameTree.refl a).kept hF hB
      | cons k l ih =>
        intro a b hF hB h
        rw [List.foldlM_cons] at h
        cases e : combineStep shape cut2 fuel a k with
        | none => rw [e] at h; cases h
        | some c =>
          rw [e] at h
          have hK := combineStep_kept hF hB e
          exact hK.trans (ih c b hK.forest hK.split h)
    exact this l g1 g2 K1.forest K1.split
  have := K1.trans K2
  exact ⟨this.forest, this.split, this.leaves hF hB⟩

/-- **C44, not for every graph.** With two reducible roots (two molecules separated by vacuum) the clean-up raises, for every cutoff and
order: the second root has no parent to compare with. -/
theorem C44_two_roots_raise (argsort : List (ℕ × K) → List (ℕ × K)) (hsort : ∀ l, (argsort l).Perm l) (cutoff : K) {g : BGraph K}
    (hF : Forest g) {a b : ℕ} (hab : a ≠ b) (ha : a ∈ g.roots) (hb : b ∈ g.roots) (har : (g.node a).red = true) (hbr : (g.node b).red = true) :
    removeShallow argsort cutoff g = none := by
  have hperm : (sortedReducible argsort g).Perm (g.nodes.filter (fun k => (g.node k).red)) := by
    unfold sortedReducible
    refine ((hsort _).map Prod.fst).trans ?_
    rw [List.map_map]
    have : (Prod.fst ∘ fun k => (k, (g.node k).minV)) = (id : ℕ → ℕ) := rfl
    rw [this, List.map_id]
  have hmem : ∀ x, x ∈ sortedReducible argsort g ↔ x ∈ g.nodes ∧ (g.node x).red = true := by
    intro x; rw [hperm.mem_iff, List.mem_filter]
  have key : ∀ (l : List ℕ) (g : BGraph K) (r : ℕ), Forest g → l.Nodup → (∀ x ∈ l, x ∈ g.nodes ∧ (g.node x).red = true) → r ∈ l →
      (g.node r).parent = none → l.foldlM (shallowStep cutoff) g = none := by
    intro l
    induction l with
    | nil => intro g r _ _ _ h; cases h
    | cons k l ih =>
      intro g r hF hnd hl hr hrp
      obtain ⟨hkl, hnd'⟩ := List.nodup_cons.mp hnd
      rw [List.foldlM_cons]
      cases e : shallowStep cutoff g k with
      | none => rfl
      | some g1 =>
        have hrk : r ≠ k := by
          rintro rfl
          unfold shallowStep at e
          rw [hrp] at e
          cases e
        have hnod := shallowStep_nodes hF e
        have hstep : Forest g1 ∧ (∀ x ∈ g.nodes, x ≠ k → (g1.node x).red = (g.node x).red) ∧ (g1.node r).parent = none := by
          unfold shallowStep at e
          cases hp : (g.node k).parent with
          | none => rw [hp] at e; cases e
          | some p =>
            rw [hp] at e
            simp only at e
            have hS : SameTree g (readDepth (readDepth g k).2 p).2 := (readDepth_same g k).trans (readDepth_same _ p)
            split_ifs at e with h1 h2
            · cases e
              exact ⟨hS.forest hF, fun x _ _ => hS.red x, by rw [hS.parent]; exact hrp⟩
            · obtain ⟨hk, hF', hR⟩ := removeNode_nodes (hS.forest hF) e
              refine ⟨hF', fun x hx _ => ?_, ?_⟩
              · rw [(hR.content x (by rw [hS.nodes]; exact hx)).1, hS.red]
              · rw [hR.parent r (by rw [hS.nodes]; exact (hl r hr).1), hS.parent, hrp]
                rfl
        have hrl : r ∈ l := by
          rcases List.mem_cons.mp hr with h | h
          · exact absurd h hrk
          · exact h
        show l.foldlM (shallowStep cutoff) g1 = none
        refine ih g1 r hstep.1 hnd' ?_ hrl hstep.2.2
        intro x hx
        have hxk : x ≠ k := by rintro rfl; exact hkl hx
        obtain ⟨c, d⟩ := hl x (by simp [hx])
        exact ⟨(hnod x hxk).mpr c, by rw [hstep.2.1 x c hxk]; exact d⟩
  obtain ⟨han, hap⟩ := (hF.roots_iff a).mp ha
  obtain ⟨hbn, hbp⟩ := (hF.roots_iff b).mp hb
  have hnd : (sortedReducible argsort g).Nodup := hperm.nodup_iff.mpr (hF.nodup.filter _)
  unfold removeShallow
  have h1 := (hmem a).mpr ⟨han, har⟩
  have h2 := (hmem b).mpr ⟨hbn, hbr⟩
  cases hl : sortedReducible argsort g with
  | nil => rw [hl] at h1; cases h1
  | cons c l =>
    rw [hl] at h1 h2 hnd hmem
    have hl' : ∀ x ∈ l, x ∈ g.nodes ∧ (g.node x).red = true := fun x hx => (hmem x).mp (by simp [hx])
    rw [List.tail_cons]
    rcases List.mem_cons.mp h1 with rfl | h1
    · rcases List.mem_cons.mp h2 with h | h2
      · exact absurd h.symm hab
      · exact key l g b hF (List.nodup_cons.mp hnd).2 hl' h2 hbp
    · exact key l g a hF (List.nodup_cons.mp hnd).2 hl' h1 hap

/-- **C44, not for every operation.** Giving a node a parent from its own subtree (or itself) is accepted, and then the ancestors of the
node can not be listed in any number of steps. -/
theorem C44_parent_cycle {g : BGraph K} (hF : Forest g) {k p q : ℕ} (hk : k ∈ g.nodes) (hq : (g.node k).parent = some q)
    (hp : p = k ∨ (p ∈ g.nodes ∧ Below g p k)) (hr : (g.node p).red = true) :
    ∃ g', setParent g k p = some g' ∧ ∀ fuel, ancestors g' fuel k = none := by
  have hqk : q ≠ k := by rintro rfl; exact hF.parent_ne hk hq
  unfold setParent
  rw [hq]
  simp only
  rw [if_pos ?_]
  · refine ⟨_, rfl, ?_⟩
    generalize hg' : modNode (modNode (modNode g q _) k _) p _ = g'
    have hpar : ∀ x, (g'.node x).parent = if x = k then some p else (g.node x).parent := by
      intro x
      rw [← hg']
      simp only [modNode_node]
      by_cases h1 : x = p
      · subst h1
        by_cases h2 : x = k
        · subst h2; simp
        · by_cases h3 : x = q
          · subst h3; simp [h2]
          · simp [h2, h3]
      · by_cases h2 : x = k
        · subst h2; simp [h1]
        · by_cases h3 : x = q
          · subst h3; simp [h1, h2]
          · simp [h1, h2, h3]
    have key : ∀ fuel x, (x = k ∨ Below g x k) → ancestors g' fuel x = none := by
      intro fuel
      induction fuel with
      | zero => intro x _; rfl
      | succ fuel ih =>
        intro x hx
        unfold ancestors
        rw [hpar]
        by_cases hxk : x = k
        · rw [if_pos hxk]
          simp only
          rw [ih p (hp.imp_right (fun h => h.2))]
          rfl
        · rw [if_neg hxk]
          rcases hx with hx | hx
          · exact absurd hx hxk
          rcases below_cases hx with h | ⟨y, h, hy⟩
          · rw [h]
            simp only
            rw [ih k (.inl rfl)]
            rfl
          · rw [h]
            simp only
            rw [ih y (.inr hy)]
            rfl
    exact fun fuel => key fuel k (.inl rfl)
  · simp only [modNode_node]
    by_cases h2 : p = k
    · subst h2; simp [hqk.symm, hr]
    · by_cases h3 : p = q
      · subst h3; simp [h2, hr]
      · simp [h2, h3, hr]

/-! ### Depths -/

/-- **C44.** `depth_to_infinite` is the difference to the closest infinite ancestor, if there is one. -/
theorem C44_depth_to_infinite {g : BGraph K} (hF : Forest g) {k a fuel : ℕ} (hk : k ∈ g.nodes) (hfuel : g.nodes.length < fuel)
    (h0 : (g.node k).dim = 0) (ha : Below g k a) (hinf : 0 < (g.node a).dim) (hfirst : ∀ b, Below g k b → Below g b a → (g.node b).dim = 0) :
    depthToInfinite g fuel k = some ((g.node k).maxV - (g.node a).maxV) := by
  have key : ∀ (fuel k : ℕ) (l : List ℕ), k ∈ g.nodes → ancestors g fuel k = some l → Below g k a →
      (∀ b, Below g k b → Below g b a → (g.node b).dim = 0) → l.find? (fun a => decide (0 < (g.node a).dim)) = some a := by
    intro fuel
    induction fuel with
    | zero => intro k l _ h; cases h
    | succ fuel ih =>
      intro k l hk h hb hf
      unfold ancestors at h
      cases hp : (g.node k).parent with
      | none => rcases below_cases hb with h' | ⟨p, h', -⟩ <;> rw [hp] at h' <;> cases h'
      | some p =>
        rw [hp] at h
        simp only [Option.map_eq_some_iff] at h
        obtain ⟨l', e, rfl⟩ := h
        rcases below_cases hb with h' | ⟨p', h', hp'⟩
        · rw [hp] at h'
          obtain rfl : p = a := Option.some.inj h'
          rw [List.find?_cons_of_pos (by simpa using hinf)]
        · rw [hp] at h'
          obtain rfl : p = p' := Option.some.inj h'
          rw [List.find?_cons_of_neg (by rw [hf p (.single hp) hp']; simp)]
          exact ih p l' (hF.parent_ok k hk p hp).1 e hp' (fun b hb' hba => hf b (.head hp hb') hba)
  obtain ⟨l, e, -, -⟩ := (C44_queries hF hfuel).1 k hk
  unfold depthToInfinite
  rw [if_neg (by omega), e]
  simp only [Option.bind_eq_bind, Option.bind_some]
  rw [key fuel k l hk e ha hfirst]

/-- **C44, not for every node.** For a finite root the property raises. -/
theorem C44_depth_to_infinite_root {g : BGraph K} {k : ℕ} (h0 : (g.node k).dim = 0) (hp : (g.node k).parent = none) (fuel : ℕ) :
    depthToInfinite g fuel k = none := by
  unfold depthToInfinite
  rw [if_neg (by omega)]
  cases fuel with
  | zero => rfl
  | succ f => unfold ancestors; rw [hp]; rfl

/-- **C44, not for every history.** A depth that has been read stays the same although the highest value changes: after reading the depth of
the parent of a reducible node and removing the node, the depth is still the old one. -/
theorem C44_depth_stale {g g' : BGraph K} (hF : Forest g) {k p : ℕ} (hp : (g.node k).parent = some p) (hk : k ∈ g.nodes)
    (h : removeNode (readDepth g p).2 k = some g') : (readDepth g' p).1 = (readDepth g p).1 := by
  have hS := readDepth_same g p
  obtain ⟨hk', -, hR⟩ := removeNode_nodes (hS.forest hF) h
  have hpn : p ∈ (readDepth g p).2.nodes := by rw [hS.nodes]; exact (hF.parent_ok k hk p hp).1
  have h1 : ((readDepth g p).2.node p).depthC = some (readDepth g p).1 := by
    unfold readDepth
    cases e : (g.node p).depthC with
    | some d => simp [e]
    | none => simp [modNode_node]
  have h2 := hR.depthC p hpn
  rw [h1] at h2
  rw [readDepth, h2]

/-! ### Examples -/

/-- A node for the examples. -/
def exNode (red : Bool) (dim : ℕ) (basins : List ℕ) (lo hi : ℚ) : TNode ℚ :=
  ⟨red, basins, dim, [], lo, hi, none, [], none, "unknown", none, none, none, none⟩

/-- An infinite root with one finite reducible child, which splits in two. -/
def exOps : List (TreeOp ℚ) :=
  [.add none (exNode true 3 [0, 1] 0 1), .add (some 0) (exNode true 0 [0, 1] 1 5), .add (some 1) (exNode false 0 [0] 5 9),
   .add (some 1) (exNode false 0 [1] 5 8)]

/-- Its last operation can be a removal or a collapse. -/
def exRun (ops : List (TreeOp ℚ)) : Option (BGraph ℚ) := (exOps ++ ops).foldlM (runTree (fun _ => 0)) emptyGraph

set_option maxRecDepth 100000 in
/-- The example can be built, cleaned, collapsed and queried. -/
example : (exRun []).map (fun g => (g.nodes, g.roots, (g.node 1).children)) = some ([0, 1, 2, 3], [0], [2, 3]) ∧
    (exRun []).bind (fun g => ancestors g 5 3) = some [1, 0] ∧ (exRun []).bind (fun g => deepChildren g 5 0) = some [1, 2, 3] ∧
    (exRun [.remove 1]).map (fun g => (g.nodes, (g.node 0).children, (g.node 0).maxV, (g.node 2).parent)) = some ([0, 2, 3], [2, 3], 5, some 0) ∧
    (exRun [.collapse 1]).map (fun g => (g.nodes, (g.node 0).children, (g.node 1).maxV, (g.node 1).basins)) = some ([0, 1], [1], 9, [0, 1]) ∧
    (exRun [.remove 2, .remove 3, .remove 1, .add none (exNode false 0 [7] 0 1)]).map (fun g => (g.nodes, g.roots)) = some ([0, 1], [0, 1]) := by
  refine ⟨?_, ?_, ?_, ?_, ?_, ?_⟩ <;> decide +kernel

set_option maxRecDepth 100000 in
/-- **C44, not for every collapse.** The example splits its basins and its highest values are right.  After collapsing the only child of the
root the highest value of the root is that of the former child, 5, above the lowest value 1 of its only child; the leaf, which reaches 9,
reports a depth to infinity of 4 instead of 8. -/
theorem C44_collapse_breaks_max :
    (exRun []).map (fun g => (decide ((g.node 0).maxV = (g.node 1).minV), decide ((g.node 1).maxV = (g.node 2).minV),
      depthToInfinite g 5 2)) = some (true, true, some 8) ∧
    (exRun [.collapse 1]).map (fun g => ((g.node 0).children, (g.node 0).maxV, (g.node 1).minV, (g.node 1).maxV, depthToInfinite g 5 1)) =
      some ([1], 5, 1, 9, some 4) := by
  decide +kernel

set_option maxRecDepth 100000 in
/-- The stale depth of `C44_depth_stale` is wrong: after removing node 1 the root extends from 0 to 5, but its depth is still 1. -/
theorem C44_depth_stale_wrong :
    (exRun [.depth 0, .remove 1]).map (fun g => ((g.node 0).minV, (g.node 0).maxV, (readDepth g 0).1)) = some (0, 5, 1) := by
  decide +kernel

set_option maxRecDepth 100000 in
/-- Two reducible roots: the hypotheses of `C44_two_roots_raise` hold. -/
example : ((([.add none (exNode true 0 [0] 0 1), .add none (exNode true 0 [1] 0 1)] : List (TreeOp ℚ)).foldlM (runTree (fun _ => 0))
    emptyGraph).map (fun g => (g.roots, (g.node 0).red, (g.node 1).red))) = some ([0, 1], true, true) := by
  decide +kernel

set_option maxRecDepth 100000 in
/-- The clean-up runs on the example: with cutoff 1/2 nothing is shallow in the first step, in the second the leaves are not. -/
example : ((exRun []).bind (removeShallow (fun l => l) (1 / 2))).map (fun g => g.nodes) = some [0, 1, 2, 3] ∧
    ((exRun []).bind (removeShallow (fun l => l) 4)).map (fun g => g.nodes) = some [0, 2, 3] ∧
    ((exRun []).bind (combineShallow (fun _ => 0) (fun l => l) 1 5)).map (fun g => g.nodes) = some [0, 1] := by
  decide +kernel

/-! ### C45 -/

theorem SameContent.restored {a b c : TNode K} (h : SameContent a b) (hm : a.maxV = b.maxV) (hp : a.parent = b.parent) (hr : Restored b c) :
    Restored a c := by
  obtain ⟨a1, a2, a3, a4, a5, a6, a7, a8, a9, a10⟩ := h
  obtain ⟨b1, b2, b3, b4, b5, b6, b7, b8, b9⟩ := hr
  exact ⟨a1.trans b1, a2.trans b2, a3.trans b3, a4.trans b4, a5.trans b5, hm.trans b6, hp.trans b7, a6.trans b8,
    fun h => ⟨a9.trans (b9 h).1, a10.trans (b9 h).2⟩⟩

theorem fromDict_fold {g : BGraph K} (hF : Forest g) : ∀ (l2 l1 : List ℕ) (h : BGraph K), l1 ++ l2 = g.nodes → Forest h → h.nodes = l1 →
    (∀ x ∈ l1, Restored (h.node x) (g.node x) ∧ (h.node x).feature = "unknown" ∧ (h.node x).beyond = none) →
    ∃ g', (l2.map (nodeDict g)).foldlM nodeFromDict h = some g' ∧ Forest g' ∧ g'.nodes = g.nodes ∧
      ∀ x ∈ g.nodes, Restored (g'.node x) (g.node x) ∧ (g'.node x).feature = "unknown" ∧ (g'.node x).beyond = none := by
  intro l2
  induction l2 with
  | nil =>
    intro l1 h hl hFh hn hall
    rw [List.append_nil] at hl
    exact ⟨h, rfl, hFh, hn.trans hl, by rw [← hl]; exact hall⟩
  | cons k l2 ih =>
    intro l1 h hl hFh hn hall
    obtain ⟨rank, hr1, hr2⟩ := hF.order
    have hk : k ∈ g.nodes := by rw [← hl]; simp
    have hk1 : k ∉ h.nodes := by
      rw [hn]
      intro hk1
      have hnd := hF.nodup
      rw [← hl, List.nodup_append] at hnd
      exact hnd.2.2 k hk1 k (by simp) rfl
    have hpar : ∀ p, (g.node k).parent = some p → p ∈ h.nodes ∧ (h.node p).red = true := by
      intro p hp
      obtain ⟨a, b⟩ := hF.parent_ok k hk p hp
      have hlt := hr2 k hk p hp
      have hpl : p ∈ l1 := by
        rw [← hl] at a hr1
        rcases List.mem_append.mp a with a | a
        · exact a
        · exfalso
          rcases List.mem_cons.mp a with rfl | a
          · exact lt_irrefl _ hlt
          · have := (List.pairwise_cons.mp (List.pairwise_append.mp hr1).2.1).1 p a
            omega
      refine ⟨by rw [hn]; exact hpl, ?_⟩
      rw [(hall p hpl).1.1]; exact b
    obtain ⟨h1, e1, hF1, hn1, hnew, hold⟩ := addNode_spec hFh (key := some k) (parent := (g.node k).parent)
      (t := { red := (g.node k).red, basins := (g.node k).basins, dim := (g.node k).dim, atoms := (g.node k).atoms, minV := (g.node k).minV, maxV := (g.node k).maxV, parent := none, children := [], subtype := (g.node k).subtype, feature := "unknown", beyond := none, minSurf := (nodeDict g k).minSurf, avgSurf := (nodeDict g k).avgSurf, depthC := none })
      hk1 hpar
    simp only [Option.getD_some] at hn1 hnew
    obtain ⟨g', e', hF', hn', hall'⟩ := ih (l1 ++ [k]) h1 (by rw [← hl]; simp) hF1 (by rw [hn1, hn]) (by
      intro x hx
      rcases List.mem_append.mp hx with hx | hx
      · obtain ⟨c1, c2, c3, -⟩ := hold x (by rw [hn]; exact hx)
        obtain ⟨d1, d2, d3⟩ := hall x hx
        exact ⟨c2.restored c3 c1 d1, c2.2.2.2.2.2.2.1.trans d2, c2.2.2.2.2.2.2.2.1.trans d3⟩
      · rw [List.mem_singleton] at hx
        subst hx
        rw [hnew]
        refine ⟨⟨rfl, rfl, rfl, rfl, rfl, rfl, rfl, rfl, ?_⟩, rfl, rfl⟩
        intro hr
        simp [nodeDict, hr])
    refine ⟨g', ?_, hF', hn', hall'⟩
    rw [List.map_cons, List.foldlM_cons]
    have : nodeFromDict h (nodeDict g k) = some h1 := e1
    rw [this]
    exact e'

/-- **C45.** Writing a graph to a dictionary and reading it back succeeds for every forest.  The result has the same nodes in the same order,
the same roots, parents, children and attributes; writing it again gives the same dictionary.  The feature type and the distance beyond the
atoms of every node are not written: they come back unset. -/
theorem C45_round_trip {g : BGraph K} (hF : Forest g) :
    ∃ g', graphFromDict (graphDict g) = some g' ∧ Forest g' ∧ g'.nodes = g.nodes ∧ g'.roots.Perm g.roots ∧
      (∀ x ∈ g.nodes, Restored (g'.node x) (g.node x) ∧ (g'.node x).children.Perm (g.node x).children) ∧
      graphDict g' = graphDict g ∧
      (∀ x ∈ g.nodes, (g'.node x).feature = "unknown" ∧ (g'.node x).beyond = none) := by
  obtain ⟨g', e, hF', hn, hall⟩ := fromDict_fold hF g.nodes [] emptyGraph rfl emptyGraph_forest rfl (by simp)
  have hpar : ∀ x ∈ g.nodes, (g'.node x).parent = (g.node x).parent := fun x hx => (hall x hx).1.2.2.2.2.2.2.1
  refine ⟨g', e, hF', hn, ?_, ?_, ?_, fun x hx => (hall x hx).2⟩
  · rw [List.perm_ext_iff_of_nodup hF'.rootsNodup hF.rootsNodup]
    intro x
    rw [hF'.roots_iff, hF.roots_iff, hn]
    exact and_congr_right (fun hx => by rw [hpar x hx])
  · intro x hx
    refine ⟨(hall x hx).1, ?_⟩
    rw [List.perm_ext_iff_of_nodup (hF'.childNodup x (by rw [hn]; exact hx)) (hF.childNodup x hx)]
    intro c
    rw [hF'.child_iff x (by rw [hn]; exact hx), hF.child_iff x hx, hn]
    exact and_congr_right (fun hc => by rw [hpar c hc])
  · unfold graphDict
    rw [hn]
    apply List.map_congr_left
    intro x hx
    obtain ⟨b1, b2, b3, b4, b5, b6, b7, b8, b9⟩ := (hall x hx).1
    unfold nodeDict
    simp only [b1, b2, b3, b4, b5, b6, b7, b8]
    cases hr : (g.node x).red with
    | true => simp
    | false => simp [b9 hr]

/-- **C45, not the feature type.** A labelled leaf is not restored: its feature type is different after the round trip. -/
theorem C45_feature_type_lost {g g' : BGraph K} (hF : Forest g) {k : ℕ} (hk : k ∈ g.nodes) (hf : (g.node k).feature ≠ "unknown")
    (h : graphFromDict (graphDict g) = some g') : (g'.node k).feature ≠ (g.node k).feature := by
  obtain ⟨g'', e, -, -, -, -, -, h2⟩ := C45_round_trip hF
  rw [h] at e
  cases e
  rw [(h2 k hk).1]
  exact hf.symm

set_option maxRecDepth 100000 in
/-- The order of children and roots need not be restored: after removing the first root its children are listed after the second one. -/
example :
    (((([.add none (exNode true 0 [0] 0 1), .add (some 0) (exNode false 0 [0] 1 2), .add none (exNode true 0 [1] 0 1), .remove 0] :
      List (TreeOp ℚ)).foldlM (runTree (fun _ => 0)) emptyGraph).bind (fun g => (graphFromDict (graphDict g)).map (fun h => (g.roots, h.roots, h.nodes)))) =
    some ([2, 1], [1, 2], [1, 2])) := by
  decide +kernel

end BaderKit
