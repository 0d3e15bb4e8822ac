import Verif.Props.BifTree
/-!
# When the clean-up of a bifurcation graph removes or combines nodes
-/
namespace BaderKit
variable {K : Type} [Field K] [LinearOrder K]

/-- No cached depth is out of date. -/
def DepthFresh (g : BGraph K) : Prop :=
  ∀ x, (g.node x).depthC = none ∨ (g.node x).depthC = some ((g.node x).maxV - (g.node x).minV)

/-- The two graphs have the same nodes, links and attributes; cached depths are not compared. -/
def SameGraph (g h : BGraph K) : Prop :=
  h.nodes = g.nodes ∧ h.roots = g.roots ∧ ∀ x, SameContent (h.node x) (g.node x) ∧ (h.node x).parent = (g.node x).parent ∧
    (h.node x).children = (g.node x).children ∧ (h.node x).maxV = (g.node x).maxV

theorem SameTree.sameGraph {g h : BGraph K} (hS : SameTree g h) : SameGraph g h := by
  refine ⟨hS.nodes, hS.roots, fun x => ?_⟩
  rw [hS.node x]
  exact ⟨⟨rfl, rfl, rfl, rfl, rfl, rfl, rfl, rfl, rfl, rfl⟩, rfl, rfl, rfl⟩

theorem readDepth_fresh {g : BGraph K} (h : DepthFresh g) (k : ℕ) :
    (readDepth g k).1 = (g.node k).maxV - (g.node k).minV ∧ DepthFresh (readDepth g k).2 := by
  unfold readDepth
  rcases h k with e | e
  · rw [e]
    refine ⟨rfl, fun x => ?_⟩
    simp only [modNode, Function.update_apply]
    by_cases hx : x = k
    · subst hx; simp
    · rw [if_neg hx]; exact h x
  · rw [e]; exact ⟨rfl, h⟩

theorem shallowScan_spec {cutoff depth : K} (hd : depth ≠ 0) : ∀ (l : List ℕ) (g : BGraph K), DepthFresh g →
    ∃ b h, shallowScan cutoff depth g l = some (b, h) ∧ SameTree g h ∧
      (b = true ↔ ∀ c ∈ l, (g.node c).red = false → ((g.node c).maxV - (g.node c).minV) / depth ≤ cutoff) := by
  intro l
  induction l with
  | nil => intro g _; exact ⟨true, g, rfl, SameTree.refl g, by simp⟩
  | cons c l ih =>
    intro g hg
    rw [shallowScan]
    by_cases h1 : (g.node c).red = true
    · rw [if_pos h1]
      obtain ⟨b, h, e, hS, hb⟩ := ih g hg
      refine ⟨b, h, e, hS, ?_⟩
      rw [hb]
      simp [h1]
    · rw [if_neg h1]
      obtain ⟨e1, hf⟩ := readDepth_fresh hg c
      have hS1 := readDepth_same g c
      simp only [if_neg hd]
      by_cases h3 : cutoff < (readDepth g c).1 / depth
      · rw [if_pos h3]
        refine ⟨false, _, rfl, hS1, ?_⟩
        simp only [Bool.false_eq_true, false_iff]
        intro hh
        have := hh c (by simp) (by simpa using h1)
        rw [e1] at h3
        exact absurd this (not_le.mpr h3)
      · rw [if_neg h3]
        obtain ⟨b, h, e, hS, hb⟩ := ih _ hf
        refine ⟨b, h, e, hS1.trans hS, ?_⟩
        rw [hb]
        simp only [List.mem_cons, forall_eq_or_imp]
        have : ∀ x, ((readDepth g c).2.node x).maxV = (g.node x).maxV ∧ ((readDepth g c).2.node x).minV = (g.node x).minV ∧
            ((readDepth g c).2.node x).red = (g.node x).red := fun x => by rw [hS1.node x]; exact ⟨rfl, rfl, rfl⟩
        constructor
        · intro hh
          refine ⟨fun _ => by rw [← e1]; exact not_lt.mp h3, fun x hx hr => ?_⟩
          have hq := hh x hx (by rw [(this x).2.2]; exact hr)
          rwa [(this x).1, (this x).2.1] at hq
        · rintro ⟨-, hh⟩ x hx hr
          rw [(this x).1, (this x).2.1]
          exact hh x hx (by rw [← (this x).2.2]; exact hr)

theorem SameTree.below {g h : BGraph K} (hS : SameTree g h) {a b : ℕ} : Below h a b ↔ Below g a b := by
  unfold Below
  have : (fun a b => (h.node a).parent = some b) = fun a b => (g.node a).parent = some b := by
    funext a b; rw [hS.parent]
  rw [this]

/-- **C44.** Whether a reducible node is combined into one irreducible node: an infinite one never; a finite one exactly if every
irreducible node below it is shallow compared with it.  A combined node takes the place of everything below it and is named a point, a ring
or a cage by its shape; otherwise the graph stays as it is. -/
theorem C44_combine_rule (shape : List ℕ → ℕ) (cutoff : K) {g : BGraph K} (hF : Forest g) (hfresh : DepthFresh g) {k fuel : ℕ}
    (hk : k ∈ g.nodes) (hred : (g.node k).red = true) (hfuel : g.nodes.length < fuel) :
    (0 < (g.node k).dim → combineStep shape cutoff fuel g k = some g) ∧
    ((g.node k).dim = 0 → (g.node k).maxV ≠ (g.node k).minV →
      ((∀ c, IsLeaf g c → Below g c k → ((g.node c).maxV - (g.node c).minV) / ((g.node k).maxV - (g.node k).minV) ≤ cutoff) →
        ∃ g', combineStep shape cutoff fuel g k = some g' ∧ IsLeaf g' k ∧ (∀ x, x ∈ g'.nodes ↔ x ∈ g.nodes ∧ ¬ Below g x k) ∧
          (g'.node k).basins = (g.node k).basins ∧
          (shape (g.node k).basins = 0 → (g'.node k).subtype = some "irreducible - point") ∧
          (shape (g.node k).basins = 1 → (g'.node k).subtype = some "irreducible - ring") ∧
          (shape (g.node k).basins = 2 → (g'.node k).subtype = some "irreducible - cage")) ∧
      ((∃ c, IsLeaf g c ∧ Below g c k ∧ cutoff < ((g.node c).maxV - (g.node c).minV) / ((g.node k).maxV - (g.node k).minV)) →
        ∃ g', combineStep shape cutoff fuel g k = some g' ∧ SameGraph g g')) := by
  constructor
  · intro h; unfold combineStep; rw [if_pos h]
  intro hdim hne
  obtain ⟨e1, hf1⟩ := readDepth_fresh hfresh k
  have hS1 := readDepth_same g k
  obtain ⟨l, el, hmem, -, -⟩ := (hS1.forest hF).deepChildren_spec (fuel := fuel) (by rw [hS1.nodes]; exact hk) (by rw [hS1.nodes]; exact hfuel)
  obtain ⟨b, h, e2, hS2, hb⟩ := shallowScan_spec (cutoff := cutoff) (depth := (readDepth g k).1) (by rw [e1]; exact sub_ne_zero.mpr hne) l _ hf1
  have hS := hS1.trans hS2
  have hcs : combineStep shape cutoff fuel g k = if b = true then makeIrreducible shape h fuel k else some h := by
    unfold combineStep
    rw [if_neg (by omega)]
    simp only [Option.bind_eq_bind, el, e2, Option.bind_some]
  have hb' : b = true ↔ ∀ c, IsLeaf g c → Below g c k → ((g.node c).maxV - (g.node c).minV) / ((g.node k).maxV - (g.node k).minV) ≤ cutoff := by
    rw [hb]
    have : ∀ x, ((readDepth g k).2.node x).maxV = (g.node x).maxV ∧ ((readDepth g k).2.node x).minV = (g.node x).minV ∧
        ((readDepth g k).2.node x).red = (g.node x).red := fun x => by rw [hS1.node x]; exact ⟨rfl, rfl, rfl⟩
    rw [← e1]
    constructor
    · intro hh c hc hbel
      have hq := hh c ((hmem c).mpr ⟨by rw [hS1.nodes]; exact hc.1, hS1.below.mpr hbel⟩) (by rw [(this c).2.2]; exact hc.2)
      rwa [(this c).1, (this c).2.1] at hq
    · intro hh c hc hr
      obtain ⟨h1, h2⟩ := (hmem c).mp hc
      rw [(this c).1, (this c).2.1]
      exact hh c ⟨by rw [← hS1.nodes]; exact h1, by rw [← (this c).2.2]; exact hr⟩ (hS1.below.mp h2)
  constructor
  · intro hall
    rw [hcs, if_pos (hb'.mpr hall)]
    obtain ⟨g', e, hF', hC⟩ := makeIrreducible_spec shape (hS.forest hF) (k := k) (fuel := fuel) (by rw [hS.nodes]; exact hk)
      (by rw [hS.red]; exact hred) (by rw [hS.nodes]; exact hfuel)
    have hx : ∀ x, x ∈ g'.nodes ↔ x ∈ g.nodes ∧ ¬ Below g x k := fun x => by rw [hC.nodes, hS.nodes, hS.below]
    have hsub := hC.subtype
    rw [hS.basins] at hsub
    refine ⟨g', e, ⟨(hx k).mpr ⟨hk, hF.below_irrefl hk⟩, hC.leaf⟩, hx, by rw [hC.basins, hS.basins], ?_, ?_, ?_⟩ <;> intro h0 <;>
      rw [hsub] <;> simp [combinedType, h0]
  · rintro ⟨c, h1, h2, h3⟩
    rw [hcs, if_neg (fun h => absurd (hb'.mp h c h1 h2) (not_le.mpr h3))]
    exact ⟨h, rfl, hS.sameGraph⟩

/-- **C44.** Whether a reducible node is removed: exactly if it is shallow compared with its parent; otherwise the graph stays as it is. -/
theorem C44_remove_rule (cutoff : K) {g : BGraph K} (hF : Forest g) (hfresh : DepthFresh g) {k p : ℕ}
    (hk : k ∈ g.nodes) (hred : (g.node k).red = true) (hp : (g.node k).parent = some p) (hne : (g.node p).maxV ≠ (g.node p).minV) :
    (((g.node k).maxV - (g.node k).minV) / ((g.node p).maxV - (g.node p).minV) ≤ cutoff →
      ∃ g', shallowStep cutoff g k = some g' ∧ ∀ x, x ∈ g'.nodes ↔ x ∈ g.nodes ∧ x ≠ k) ∧
    (cutoff < ((g.node k).maxV - (g.node k).minV) / ((g.node p).maxV - (g.node p).minV) →
      ∃ g', shallowStep cutoff g k = some g' ∧ SameGraph g g') := by
  obtain ⟨e1, hf1⟩ := readDepth_fresh hfresh k
  have hS1 := readDepth_same g k
  obtain ⟨e2, hf2⟩ := readDepth_fresh hf1 p
  have hS2 := readDepth_same (readDepth g k).2 p
  have hv : ((readDepth g k).2.node p).maxV = (g.node p).maxV ∧ ((readDepth g k).2.node p).minV = (g.node p).minV := by
    rw [hS1.node p]; exact ⟨rfl, rfl⟩
  rw [hv.1, hv.2] at e2
  have hS := hS1.trans hS2
  have hst : shallowStep cutoff g k = if cutoff < ((g.node k).maxV - (g.node k).minV) / ((g.node p).maxV - (g.node p).minV) then
      some (readDepth (readDepth g k).2 p).2 else removeNode (readDepth (readDepth g k).2 p).2 k := by
    unfold shallowStep
    rw [hp]
    simp only [e1, e2]
    rw [if_neg (sub_ne_zero.mpr hne)]
  constructor
  · intro h
    rw [hst, if_neg (not_lt.mpr h)]
    obtain ⟨g', e, -, hR⟩ := removeNode_spec (hS.forest hF) (k := k) (by rw [hS.nodes]; exact hk) (.inl (by rw [hS.red]; exact hred))
    exact ⟨g', e, fun x => by rw [hR.mem, hS.nodes]⟩
  · intro h
    rw [hst, if_pos h]
    exact ⟨_, rfl, hS.sameGraph⟩

set_option maxRecDepth 100000 in
/-- Both sides of both rules occur: the finite node 1 extends over 4, the leaves below it over 4 and 3, the root over 1. -/
example : (exRun []).bind (fun g => (combineStep (fun _ => 1) 1 5 g 1).map fun h => (h.nodes, (h.node 1).subtype)) =
      some ([0, 1], some "irreducible - ring") ∧
    (exRun []).bind (fun g => (combineStep (fun _ => 1) (9 / 10) 5 g 1).map fun h => h.nodes) = some [0, 1, 2, 3] ∧
    (exRun []).bind (fun g => (combineStep (fun _ => 1) 100 5 g 0).map fun h => h.nodes) = some [0, 1, 2, 3] ∧
    (exRun []).bind (fun g => (shallowStep 4 g 1).map fun h => h.nodes) = some [0, 2, 3] ∧
    (exRun []).bind (fun g => (shallowStep 3 g 1).map fun h => h.nodes) = some [0, 1, 2, 3] ∧
    (exRun []).map (fun g => g.nodes.all fun x => decide ((g.node x).depthC = none)) = some true := by
  refine ⟨?_, ?_, ?_, ?_, ?_, ?_⟩ <;> decide +kernel

end BaderKit
