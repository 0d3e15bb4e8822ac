import Verif.Lemmas.BifOps
import Mathlib.Data.List.Perm.Basic
import Mathlib.Data.List.Perm.Lattice
/-!
# Removing subtrees of a bifurcation graph
-/
namespace BaderKit

variable {K : Type} [Field K] [LinearOrder K] {g : BGraph K}

theorem Removed.mem {g' : BGraph K} {k : ℕ} (h : Removed g k g') (x : ℕ) : x ∈ g'.nodes ↔ x ∈ g.nodes ∧ x ≠ k := by
  rw [h.nodes, List.mem_filter]; simp

theorem SameContent.trans {a b c : TNode K} (h1 : SameContent a b) (h2 : SameContent b c) : SameContent a c := by
  obtain ⟨a1, a2, a3, a4, a5, a6, a7, a8, a9, a10⟩ := h1
  obtain ⟨b1, b2, b3, b4, b5, b6, b7, b8, b9, b10⟩ := h2
  exact ⟨a1.trans b1, a2.trans b2, a3.trans b3, a4.trans b4, a5.trans b5, a6.trans b6, a7.trans b7, a8.trans b8, a9.trans b9, a10.trans b10⟩

theorem SameContent.refl (a : TNode K) : SameContent a a := ⟨rfl, rfl, rfl, rfl, rfl, rfl, rfl, rfl, rfl, rfl⟩

/-- Removing the nodes of a downward closed list, children first. -/
theorem removeList_spec : ∀ (l : List ℕ) (g : BGraph K), Forest g → l.Nodup → (∀ x ∈ l, x ∈ g.nodes ∧ (g.node x).parent ≠ none) →
    (∀ x ∈ l, ∀ c ∈ g.nodes, (g.node c).parent = some x → c ∈ l) → l.Pairwise (fun a b => (g.node b).parent ≠ some a) →
    ∃ g', l.foldlM removeNode g = some g' ∧ Forest g' ∧ g'.nodes = g.nodes.filter (fun x => decide (x ∉ l)) ∧
      ∀ x ∈ g.nodes, x ∉ l → (g'.node x).parent = (g.node x).parent ∧ SameContent (g'.node x) (g.node x) ∧ (g'.node x).depthC = (g.node x).depthC ∧
        ((∀ a ∈ l, (g.node a).parent ≠ some x) → (g'.node x).maxV = (g.node x).maxV) := by
  intro l
  induction l with
  | nil =>
    intro g hF _ _ _ _
    exact ⟨g, rfl, hF, by simp, fun x _ _ => ⟨rfl, SameContent.refl _, rfl, fun _ => rfl⟩⟩
  | cons a l ih =>
    intro g hF hnd hl hcl hpw
    obtain ⟨ha, hnd'⟩ := List.nodup_cons.mp hnd
    obtain ⟨hpw1, hpw2⟩ := List.pairwise_cons.mp hpw
    obtain ⟨han, hap⟩ := hl a (by simp)
    have hnoc : ∀ c ∈ g.nodes, (g.node c).parent ≠ some a := by
      intro c hc h
      rcases List.mem_cons.mp (hcl a (by simp) c hc h) with rfl | h'
      · exact hF.parent_ne hc h
      · exact hpw1 c h' h
    obtain ⟨g1, e1, hF1, hR⟩ := removeNode_spec hF han (.inr hap)
    have hpar : ∀ x ∈ g.nodes, (g1.node x).parent = (g.node x).parent := by
      intro x hx; rw [hR.parent x hx, if_neg (hnoc x hx)]
    have hln : ∀ x ∈ l, x ∈ g.nodes := fun x hx => (hl x (by simp [hx])).1
    obtain ⟨g2, e2, hF2, hn2, hall⟩ := ih g1 hF1 hnd'
      (fun x hx => by
        refine ⟨(hR.mem x).mpr ⟨hln x hx, by rintro rfl; exact ha hx⟩, ?_⟩
        rw [hpar x (hln x hx)]; exact (hl x (by simp [hx])).2)
      (fun x hx c hc h => by
        obtain ⟨hcn, hca⟩ := (hR.mem c).mp hc
        rw [hpar c hcn] at h
        rcases List.mem_cons.mp (hcl x (by simp [hx]) c hcn h) with rfl | h'
        · exact absurd rfl hca
        · exact h')
      (hpw2.imp_of_mem (fun {x y} _ hy h => by rw [hpar y (hln y hy)]; exact h))
    refine ⟨g2, ?_, hF2, ?_, ?_⟩
    · rw [List.foldlM_cons, e1]; exact e2
    · rw [hn2, hR.nodes, List.filter_filter]
      apply List.filter_congr
      intro x _
      by_cases h1 : x = a <;> by_cases h2 : x ∈ l <;> simp [h1, h2]
    · intro x hx
      intro hxl
      simp only [List.mem_cons, not_or] at hxl
      obtain ⟨hxa, hxl⟩ := hxl
      obtain ⟨b1, b2, b3, b4⟩ := hall x ((hR.mem x).mpr ⟨hx, hxa⟩) hxl
      refine ⟨b1.trans (hpar x hx), b2.trans (hR.content x hx), b3.trans (hR.depthC x hx), fun h => ?_⟩
      rw [b4 (fun y hy => by rw [hpar y (hln y hy)]; exact h y (by simp [hy])), hR.maxV x hx (.inr (h a (by simp)))]

/-- Removing nodes never adds one. -/
theorem removeNode_nodes {g g' : BGraph K} {k : ℕ} (hF : Forest g) (h : removeNode g k = some g') : k ∈ g.nodes ∧ Forest g' ∧ Removed g k g' := by
  have hk : k ∈ g.nodes := by
    by_contra hk
    unfold removeNode at h
    rw [if_neg hk] at h
    cases h
  have hok : (g.node k).red = true ∨ (g.node k).parent ≠ none := by
    by_contra hok
    push Not at hok
    unfold removeNode at h
    rw [if_pos hk, if_neg hok.1] at h
    unfold removeLeaf at h
    rw [hok.2] at h
    cases h
  obtain ⟨g1, e, hF1, hR⟩ := removeNode_spec hF hk hok
  rw [e] at h
  cases h
  exact ⟨hk, hF1, hR⟩

theorem removeList_nodes : ∀ (l : List ℕ) (g g' : BGraph K), Forest g → l.foldlM removeNode g = some g' → ∀ x ∈ g'.nodes, x ∈ g.nodes := by
  intro l
  induction l with
  | nil => intro g g' _ h x hx; cases h; exact hx
  | cons a l ih =>
    intro g g' hF h x hx
    rw [List.foldlM_cons] at h
    cases e : removeNode g a with
    | none => rw [e] at h; cases h
    | some g1 =>
      rw [e] at h
      obtain ⟨_, hF1, hR⟩ := removeNode_nodes hF e
      exact ((hR.mem x).mp (ih g1 g' hF1 h x hx)).1

theorem deepLoop_mono (g : BGraph K) : ∀ (fuel : ℕ) (cur l : List ℕ), deepLoop g fuel cur = some l → ∀ fuel', fuel ≤ fuel' → deepLoop g fuel' cur = some l := by
  intro fuel
  induction fuel with
  | zero => intro cur l h; cases h
  | succ fuel ih =>
    intro cur l h fuel' hle
    obtain ⟨f, rfl⟩ : ∃ f, fuel' = f + 1 := ⟨fuel' - 1, by omega⟩
    unfold deepLoop at h ⊢
    split_ifs at h ⊢ with hn
    · exact h
    · cases e : deepLoop g fuel (nextLevel g cur) with
      | none => rw [e] at h; cases h
      | some l' =>
        rw [e] at h
        rw [ih _ _ e f (by omega)]
        exact h

theorem deepChildren_mono {g : BGraph K} {fuel k : ℕ} {l : List ℕ} (h : deepChildren g fuel k = some l) {fuel' : ℕ} (hle : fuel ≤ fuel') :
    deepChildren g fuel' k = some l := deepLoop_mono g fuel _ l h fuel' hle

/-- Highest value of the irreducible nodes of a list, at least `-1e300`. -/
theorem leafMax_spec (g : BGraph K) (l : List ℕ) :
    lowestK ≤ leafMax g l ∧ (∀ c ∈ l, (g.node c).red = false → (g.node c).maxV ≤ leafMax g l) ∧
      (leafMax g l = lowestK ∨ ∃ c ∈ l, (g.node c).red = false ∧ leafMax g l = (g.node c).maxV) := by
  unfold leafMax
  generalize (lowestK : K) = b
  induction l generalizing b with
  | nil => simp
  | cons c l ih =>
    simp only [List.foldl_cons]
    by_cases hc : (g.node c).red = true
    · rw [if_pos hc]
      obtain ⟨h1, h2, h3⟩ := ih b
      refine ⟨h1, ?_, ?_⟩
      · intro d hd hr
        rcases List.mem_cons.mp hd with rfl | hd
        · rw [hc] at hr; cases hr
        · exact h2 d hd hr
      · rcases h3 with h | ⟨d, hd, hr, h⟩
        · exact .inl h
        · exact .inr ⟨d, by simp [hd], hr, h⟩
    · rw [if_neg hc]
      have hcf : (g.node c).red = false := by simpa using hc
      obtain ⟨h1, h2, h3⟩ := ih (if b < (g.node c).maxV then (g.node c).maxV else b)
      have hb : b ≤ (if b < (g.node c).maxV then (g.node c).maxV else b) ∧ (g.node c).maxV ≤ (if b < (g.node c).maxV then (g.node c).maxV else b) := by
        split_ifs with h
        · exact ⟨h.le, le_refl _⟩
        · exact ⟨le_refl _, not_lt.mp h⟩
      refine ⟨hb.1.trans h1, ?_, ?_⟩
      · intro d hd hr
        rcases List.mem_cons.mp hd with rfl | hd
        · exact hb.2.trans h1
        · exact h2 d hd hr
      · rcases h3 with h | ⟨d, hd, hr, h⟩
        · by_cases hlt : b < (g.node c).maxV
          · right; refine ⟨c, by simp, hcf, ?_⟩; rw [h, if_pos hlt]
          · left; rw [h, if_neg hlt]
        · exact .inr ⟨d, by simp [hd], hr, h⟩

/-- Effect of collapsing a reducible node. -/
structure Collapsed (shape : List ℕ → ℕ) (g : BGraph K) (k : ℕ) (g' : BGraph K) : Prop where
  nodes : ∀ x, x ∈ g'.nodes ↔ x ∈ g.nodes ∧ ¬ Below g x k
  parent : ∀ x ∈ g'.nodes, (g'.node x).parent = (g.node x).parent
  others : ∀ x ∈ g'.nodes, x ≠ k → SameContent (g'.node x) (g.node x) ∧ (g'.node x).depthC = (g.node x).depthC ∧
    ((g.node k).parent ≠ some x → (g'.node x).maxV = (g.node x).maxV)
  leaf : (g'.node k).red = false
  basins : (g'.node k).basins = (g.node k).basins
  dim : (g'.node k).dim = (g.node k).dim
  atoms : (g'.node k).atoms = (g.node k).atoms
  minV : (g'.node k).minV = (g.node k).minV
  subtype : (g'.node k).subtype = some (combinedType shape (g.node k).basins)
  fresh : (g'.node k).feature = "unknown" ∧ (g'.node k).beyond = none ∧ (g'.node k).minSurf = none ∧ (g'.node k).avgSurf = none ∧ (g'.node k).depthC = none
  maxV : lowestK ≤ (g'.node k).maxV ∧ (∀ c ∈ g.nodes, Below g c k → (g.node c).red = false → (g.node c).maxV ≤ (g'.node k).maxV) ∧
      ((g'.node k).maxV = lowestK ∨ ∃ c ∈ g.nodes, Below g c k ∧ (g.node c).red = false ∧ (g'.node k).maxV = (g.node c).maxV)

theorem makeIrreducible_spec (shape : List ℕ → ℕ) (hF : Forest g) {k fuel : ℕ} (hk : k ∈ g.nodes) (hred : (g.node k).red = true)
    (hfuel : g.nodes.length < fuel) : ∃ g', makeIrreducible shape g fuel k = some g' ∧ Forest g' ∧ Collapsed shape g k g' := by
  obtain ⟨l, el, hmem, hnd, hord⟩ := hF.deepChildren_spec hk hfuel
  have hkl : k ∉ l := fun h => hF.below_irrefl hk ((hmem k).mp h).2
  obtain ⟨g1, e1, hF1, hn1, hall⟩ := removeList_spec l.reverse g hF (List.nodup_reverse.mpr hnd)
    (fun x hx => by
      rw [List.mem_reverse] at hx
      refine ⟨((hmem x).mp hx).1, ?_⟩
      rcases below_cases ((hmem x).mp hx).2 with h | ⟨p, h, _⟩ <;> simp [h])
    (fun x hx c hc h => by
      rw [List.mem_reverse] at hx ⊢
      exact (hmem c).mpr ⟨hc, .head h ((hmem x).mp hx).2⟩)
    (List.pairwise_reverse.mpr (hord.imp (fun h => h)))
  have hm1 : ∀ x, x ∈ g1.nodes ↔ x ∈ g.nodes ∧ x ∉ l := by
    intro x; rw [hn1, List.mem_filter]; simp
  have hk1 : k ∈ g1.nodes := (hm1 k).mpr ⟨hk, hkl⟩
  obtain ⟨hkp, hkc, -, -⟩ := hall k hk (by simpa using hkl)
  obtain ⟨g2, e2, hF2, hR⟩ := removeNode_spec hF1 hk1 (.inl (hkc.1.trans hred))
  have hk2 : k ∉ g2.nodes := fun h => ((hR.mem k).mp h).2 rfl
  have hc2 := (hR.content k hk1).trans hkc
  have hp2 : (g2.node k).parent = (g.node k).parent := by
    rw [hR.parent k hk1, if_neg (hF1.parent_ne hk1), hkp]
  have hnoc : ∀ x ∈ g1.nodes, (g1.node x).parent ≠ some k := by
    intro x hx h
    obtain ⟨hxn, hxl⟩ := (hm1 x).mp hx
    rw [(hall x hxn (by simpa using hxl)).1] at h
    exact hxl ((hmem x).mpr ⟨hxn, .single h⟩)
  have hpar2 : ∀ x ∈ g2.nodes, (g2.node x).parent = (g.node x).parent := by
    intro x hx
    obtain ⟨hx1, hxk⟩ := (hR.mem x).mp hx
    obtain ⟨hxn, hxl⟩ := (hm1 x).mp hx1
    rw [hR.parent x hx1, if_neg (hnoc x hx1), (hall x hxn (by simpa using hxl)).1]
  have hpok : ∀ p, (g2.node k).parent = some p → p ∈ g2.nodes ∧ (g2.node p).red = true := by
    intro p hp
    rw [hp2] at hp
    obtain ⟨a, b⟩ := hF.parent_ok k hk p hp
    have hpl : p ∉ l := by
      intro h
      exact hF.below_irrefl hk (.head hp ((hmem p).mp h).2)
    have hp1 : p ∈ g1.nodes := (hm1 p).mpr ⟨a, hpl⟩
    refine ⟨(hR.mem p).mpr ⟨hp1, by rintro rfl; exact hF.parent_ne hk hp⟩, ?_⟩
    rw [(hR.content p hp1).1, (hall p a (by simpa using hpl)).2.1.1, b]
  set t : TNode K := { red := false, basins := (g2.node k).basins, dim := (g2.node k).dim, atoms := (g2.node k).atoms, minV := (g2.node k).minV, maxV := leafMax g l, parent := none, children := [], subtype := some (combinedType shape (g2.node k).basins), feature := "unknown", beyond := none, minSurf := none, avgSurf := none, depthC := none } with ht
  obtain ⟨g3, e3, hF3, hn3, hnew, hold⟩ := addNode_spec (t := t) hF2 (key := some k) (parent := (g2.node k).parent) hk2 hpok
  simp only [Option.getD_some] at hn3 hnew
  have hmem3 : ∀ x, x ∈ g3.nodes ↔ x ∈ g.nodes ∧ ¬ Below g x k := by
    intro x
    rw [hn3, List.mem_append, List.mem_singleton, hR.mem, hm1]
    constructor
    · rintro (⟨⟨a, b⟩, c⟩ | rfl)
      · exact ⟨a, fun h => b ((hmem x).mpr ⟨a, h⟩)⟩
      · exact ⟨hk, hF.below_irrefl hk⟩
    · rintro ⟨a, b⟩
      by_cases hxk : x = k
      · exact .inr hxk
      · exact .inl ⟨⟨a, fun h => b ((hmem x).mp h).2⟩, hxk⟩
  refine ⟨g3, ?_, hF3, ?_⟩
  · unfold makeIrreducible
    rw [if_neg (by rw [hred]; simp), el]
    simp only [Option.bind_eq_bind, Option.bind_some]
    rw [e1]
    simp only [Option.bind_some]
    rw [e2]
    simp only [Option.bind_some]
    exact e3
  · constructor
    · exact hmem3
    · intro x hx
      by_cases hxk : x = k
      · subst hxk; rw [hnew]; exact hp2
      · have hx2 : x ∈ g2.nodes := by
          rw [hn3] at hx; simpa [hxk] using hx
        rw [(hold x hx2).1, hpar2 x hx2]
    · intro x hx hxk
      have hx2 : x ∈ g2.nodes := by
        rw [hn3] at hx; simpa [hxk] using hx
      obtain ⟨hx1, -⟩ := (hR.mem x).mp hx2
      obtain ⟨hxn, hxl⟩ := (hm1 x).mp hx1
      obtain ⟨-, c1, c2, c3⟩ := hall x hxn (by simpa using hxl)
      obtain ⟨-, d1, d2, d3⟩ := hold x hx2
      refine ⟨(d1.trans (hR.content x hx1)).trans c1, (d3.trans (hR.depthC x hx1)).trans c2, ?_⟩
      intro hne
      rw [d2, hR.maxV x hx1 (.inr (by rw [hkp]; exact hne)), c3 ?_]
      intro a ha h
      rw [List.mem_reverse] at ha
      rcases below_cases ((hmem a).mp ha).2 with h' | ⟨p, h', hb⟩
      · rw [h] at h'; exact hxk (Option.some.inj h')
      · rw [h] at h'
        obtain rfl : x = p := Option.some.inj h'
        exact ((hmem3 x).mp hx).2 hb
    all_goals rw [hnew]
    · exact hc2.2.1
    · exact hc2.2.2.1
    · exact hc2.2.2.2.1
    · exact hc2.2.2.2.2.1
    · show some (combinedType shape (g2.node k).basins) = _
      rw [hc2.2.1]
    · exact ⟨rfl, rfl, rfl, rfl, rfl⟩
    · obtain ⟨m1, m2, m3⟩ := leafMax_spec g l
      refine ⟨m1, fun c hc hb hr => m2 c ((hmem c).mpr ⟨hc, hb⟩) hr, ?_⟩
      rcases m3 with h | ⟨c, hc, hr, h⟩
      · exact .inl h
      · exact .inr ⟨c, ((hmem c).mp hc).1, ((hmem c).mp hc).2, hr, h⟩

/-- Collapsing succeeds only on reducible nodes of the graph, and then for every bound on the number of steps has the same effect. -/
theorem makeIrreducible_some (shape : List ℕ → ℕ) (hF : Forest g) {k fuel : ℕ} {g' : BGraph K} (h : makeIrreducible shape g fuel k = some g') :
    k ∈ g.nodes ∧ (g.node k).red = true ∧ Forest g' ∧ Collapsed shape g k g' := by
  have h0 := h
  unfold makeIrreducible at h
  split_ifs at h with hr
  have hred : (g.node k).red = true := by simpa using hr
  cases e : deepChildren g fuel k with
  | none => rw [e] at h; cases h
  | some l =>
    rw [e] at h
    simp only [Option.bind_eq_bind, Option.bind_some] at h
    cases e1 : l.reverse.foldlM removeNode g with
    | none => rw [e1] at h; cases h
    | some g1 =>
      rw [e1] at h
      simp only [Option.bind_some] at h
      cases e2 : removeNode g1 k with
      | none => rw [e2] at h; cases h
      | some g2 =>
        have hk1 : k ∈ g1.nodes := by
          by_contra hk
          unfold removeNode at e2
          rw [if_neg hk] at e2
          cases e2
        have hk := removeList_nodes _ _ _ hF e1 k hk1
        obtain ⟨g'', e'', hF'', hC⟩ := makeIrreducible_spec shape hF hk hred (fuel := max fuel (g.nodes.length + 1)) (by omega)
        have : makeIrreducible shape g (max fuel (g.nodes.length + 1)) k = some g' := by
          rw [← h0]
          unfold makeIrreducible
          rw [e, deepChildren_mono e (le_max_left _ _)]
        rw [this] at e''
        cases e''
        exact ⟨hk, hred, hF'', hC⟩

end BaderKit
