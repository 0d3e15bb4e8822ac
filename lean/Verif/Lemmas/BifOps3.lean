import Verif.Lemmas.BifOps2
/-!
# Basins and caches under the operations of a bifurcation graph
-/
namespace BaderKit

variable {K : Type} [Field K] [LinearOrder K] {g : BGraph K}

theorem flatMap_replace {L L' C : List ℕ} {f : ℕ → List ℕ} {k : ℕ} (hL : L.Nodup) (hL' : L'.Nodup) (hC : C.Nodup) (hk : k ∈ L)
    (hdisj : ∀ c ∈ C, c ∉ L) (hmem : ∀ x, x ∈ L' ↔ (x ∈ L ∧ x ≠ k) ∨ x ∈ C) (hs : (C.flatMap f).Perm (f k)) :
    (L'.flatMap f).Perm (L.flatMap f) := by
  have h1 : L'.Perm (L.erase k ++ C) := by
    rw [List.perm_ext_iff_of_nodup hL' ?_]
    · intro x
      rw [hmem, List.mem_append, hL.mem_erase_iff]
      tauto
    · rw [List.nodup_append]
      refine ⟨hL.erase k, hC, ?_⟩
      rintro a ha b hb rfl
      exact hdisj a hb (List.mem_of_mem_erase ha)
  have h2 : L.Perm (k :: L.erase k) := List.perm_cons_erase hk
  refine (h1.flatMap_right f).trans (.trans ?_ (h2.flatMap_right f).symm)
  rw [List.flatMap_append, List.flatMap_cons]
  exact (List.Perm.append_left _ hs).trans List.perm_append_comm

theorem flatMap_basins_congr {h : BGraph K} (l : List ℕ) (hl : ∀ x ∈ l, (h.node x).basins = (g.node x).basins) :
    l.flatMap (fun c => (h.node c).basins) = l.flatMap (fun c => (g.node c).basins) := by
  induction l with
  | nil => rfl
  | cons a l ih =>
    rw [List.flatMap_cons, List.flatMap_cons, hl a (by simp), ih (fun x hx => hl x (by simp [hx]))]

/-- Removing a reducible node keeps the splitting of the basins, and the basins of the roots together. -/
theorem Removed.split {g' : BGraph K} {k : ℕ} (hF : Forest g) (hk : k ∈ g.nodes) (hred : (g.node k).red = true) (hF' : Forest g')
    (hR : Removed g k g') (hB : BasinsSplit g) :
    BasinsSplit g' ∧ (g'.roots.flatMap (fun c => (g'.node c).basins)).Perm (g.roots.flatMap (fun c => (g.node c).basins)) := by
  have hch : ∀ c, c ∈ (g.node k).children ↔ c ∈ g.nodes ∧ (g.node c).parent = some k := hF.child_iff k hk
  constructor
  · intro p hp hpr
    obtain ⟨hpn, hpk⟩ := (hR.mem p).mp hp
    have hpr' : (g.node p).red = true := by rw [← (hR.content p hpn).1]; exact hpr
    have hbp := hB p hpn hpr'
    rw [(hR.content p hpn).2.1]
    refine List.Perm.trans ?_ hbp
    rw [flatMap_basins_congr (g := g) (h := g') _ (fun x hx => (hR.content x ((hR.mem x).mp ((hF'.child_iff p hp x).mp hx).1).1).2.1)]
    by_cases hkp : (g.node k).parent = some p
    · refine flatMap_replace (hF.childNodup p hpn) (hF'.childNodup p hp) (hF.childNodup k hk) ((hF.child_iff p hpn k).mpr ⟨hk, hkp⟩) ?_ ?_ (hB k hk hred)
      · intro c hc h
        have h1 := ((hch c).mp hc).2
        rw [((hF.child_iff p hpn c).mp h).2] at h1
        exact hpk (Option.some.inj h1)
      · intro x
        rw [hF'.child_iff p hp, hF.child_iff p hpn, hch, hR.mem]
        constructor
        · rintro ⟨⟨a, b⟩, c⟩
          rw [hR.parent x a] at c
          split_ifs at c with h
          · exact .inr ⟨a, h⟩
          · exact .inl ⟨⟨a, c⟩, b⟩
        · rintro (⟨⟨a, b⟩, c⟩ | ⟨a, b⟩)
          · refine ⟨⟨a, c⟩, ?_⟩
            rw [hR.parent x a, if_neg, b]
            rw [b]; intro h; exact hpk (Option.some.inj h)
          · refine ⟨⟨a, ?_⟩, ?_⟩
            · rintro rfl; exact hF.parent_ne a b
            · rw [hR.parent x a, if_pos b, hkp]
    · rw [hR.oldChildren p hp hkp]
  · rw [flatMap_basins_congr (g := g) (h := g') _ (fun x hx => (hR.content x ((hR.mem x).mp ((hF'.roots_iff x).mp hx).1).1).2.1)]
    by_cases hkp : (g.node k).parent = none
    · refine flatMap_replace hF.rootsNodup hF'.rootsNodup (hF.childNodup k hk) ((hF.roots_iff k).mpr ⟨hk, hkp⟩) ?_ ?_ (hB k hk hred)
      · intro c hc h
        have h1 := ((hF.child_iff k hk c).mp hc).2
        rw [((hF.roots_iff c).mp h).2] at h1
        cases h1
      · intro x
        rw [hF'.roots_iff, hF.roots_iff, hch, hR.mem]
        constructor
        · rintro ⟨⟨a, b⟩, c⟩
          rw [hR.parent x a] at c
          split_ifs at c with h
          · exact .inr ⟨a, h⟩
          · exact .inl ⟨⟨a, c⟩, b⟩
        · rintro (⟨⟨a, b⟩, c⟩ | ⟨a, b⟩)
          · refine ⟨⟨a, c⟩, ?_⟩
            rw [hR.parent x a, if_neg, b]
            rw [b]; intro h; cases h
          · refine ⟨⟨a, ?_⟩, ?_⟩
            · rintro rfl; exact hF.parent_ne a b
            · rw [hR.parent x a, if_pos b, hkp]
    · refine List.Perm.flatMap_right _ ?_
      rw [List.perm_ext_iff_of_nodup hF'.rootsNodup hF.rootsNodup]
      intro x
      rw [hF'.roots_iff, hF.roots_iff, hR.mem]
      constructor
      · rintro ⟨⟨a, b⟩, c⟩
        rw [hR.parent x a] at c
        split_ifs at c with h
        · exact absurd c hkp
        · exact ⟨a, c⟩
      · rintro ⟨a, b⟩
        refine ⟨⟨a, by rintro rfl; exact hkp b⟩, ?_⟩
        rw [hR.parent x a, if_neg (by rw [b]; simp), b]

/-- The basins of the irreducible nodes are those of the roots. -/
theorem leafBasins_perm : ∀ (n : ℕ) (g : BGraph K), (g.nodes.filter (fun k => (g.node k).red)).length = n → Forest g → BasinsSplit g →
    (leafBasins g).Perm (g.roots.flatMap (fun c => (g.node c).basins)) := by
  intro n
  induction n with
  | zero =>
    intro g hn hF _
    have hno : ∀ x ∈ g.nodes, (g.node x).red = false := by
      intro x hx
      by_contra h
      have : x ∈ g.nodes.filter (fun k => (g.node k).red) := List.mem_filter.mpr ⟨hx, by simpa using h⟩
      rw [List.length_eq_zero_iff.mp hn] at this
      cases this
    unfold leafBasins
    rw [List.filter_eq_self.mpr (fun x hx => by rw [hno x hx]; rfl)]
    refine List.Perm.flatMap_right _ ?_
    rw [List.perm_ext_iff_of_nodup hF.nodup hF.rootsNodup]
    intro x
    rw [hF.roots_iff]
    constructor
    · intro hx
      refine ⟨hx, ?_⟩
      cases hp : (g.node x).parent with
      | none => rfl
      | some p =>
        obtain ⟨a, b⟩ := hF.parent_ok x hx p hp
        rw [hno p a] at b; cases b
    · exact fun h => h.1
  | succ n ih =>
    intro g hn hF hB
    obtain ⟨k, hk⟩ := List.exists_mem_of_length_pos (l := g.nodes.filter (fun k => (g.node k).red)) (by omega)
    obtain ⟨hkn, hkr⟩ := List.mem_filter.mp hk
    obtain ⟨g', -, hF', hR⟩ := removeNode_spec hF hkn (.inl hkr)
    obtain ⟨hB', hroots⟩ := hR.split hF hkn hkr hF' hB
    have hfil : g'.nodes.filter (fun x => (g'.node x).red) = (g.nodes.filter (fun x => (g.node x).red)).filter (fun x => decide (x ≠ k)) := by
      rw [hR.nodes, List.filter_filter, List.filter_filter]
      apply List.filter_congr
      intro x hx
      rw [(hR.content x hx).1, Bool.and_comm]
    have hlen : (g'.nodes.filter (fun x => (g'.node x).red)).length = n := by
      rw [hfil]
      have : (g.nodes.filter (fun x => (g.node x).red)).filter (fun x => decide (x ≠ k)) = (g.nodes.filter (fun x => (g.node x).red)).erase k := by
        rw [(hF.nodup.filter _).erase_eq_filter]
        apply List.filter_congr
        intro x _
        simp [bne, beq_eq_decide]
      rw [this, List.length_erase_of_mem hk, hn]
      rfl
    have hleaf : leafBasins g' = leafBasins g := by
      unfold leafBasins
      have : g'.nodes.filter (fun x => !(g'.node x).red) = g.nodes.filter (fun x => !(g.node x).red) := by
        rw [hR.nodes, List.filter_filter]
        apply List.filter_congr
        intro x hx
        rw [(hR.content x hx).1]
        by_cases hxk : x = k
        · subst hxk; rw [hkr]; rfl
        · simp [hxk]
      rw [this]
      exact flatMap_basins_congr _ (fun x hx => (hR.content x (List.mem_filter.mp hx).1).2.1)
    rw [← hleaf]
    exact (ih g' hlen hF' hB').trans hroots

theorem leafBasins_roots (hF : Forest g) (hB : BasinsSplit g) : (leafBasins g).Perm (g.roots.flatMap (fun c => (g.node c).basins)) :=
  leafBasins_perm _ g rfl hF hB

/-- Collapsing a node keeps the splitting of the basins, and the basins of the roots. -/
theorem Collapsed.split {shape : List ℕ → ℕ} {g' : BGraph K} {k : ℕ} (hF : Forest g) (hk : k ∈ g.nodes) (hF' : Forest g')
    (hC : Collapsed shape g k g') (hB : BasinsSplit g) :
    BasinsSplit g' ∧ (g'.roots.flatMap (fun c => (g'.node c).basins)).Perm (g.roots.flatMap (fun c => (g.node c).basins)) := by
  have hbas : ∀ x ∈ g'.nodes, (g'.node x).basins = (g.node x).basins := by
    intro x hx
    by_cases hxk : x = k
    · subst hxk; exact hC.basins
    · exact (hC.others x hx hxk).1.2.1
  have hup : ∀ x ∈ g.nodes, ∀ p ∈ g'.nodes, p ≠ k → (g.node x).parent = some p → x ∈ g'.nodes := by
    intro x hx p hp hpk h
    refine (hC.nodes x).mpr ⟨hx, fun hb => ?_⟩
    rcases below_cases hb with h' | ⟨q, h', hq⟩
    · rw [h] at h'; exact hpk (Option.some.inj h')
    · rw [h] at h'
      obtain rfl : p = q := Option.some.inj h'
      exact ((hC.nodes p).mp hp).2 hq
  constructor
  · intro p hp hpr
    have hpk : p ≠ k := by
      rintro rfl
      rw [hC.leaf] at hpr; cases hpr
    have hpn := ((hC.nodes p).mp hp).1
    rw [hbas p hp]
    refine List.Perm.trans ?_ (hB p hpn (by rw [← (hC.others p hp hpk).1.1]; exact hpr))
    rw [flatMap_basins_congr (g := g) (h := g') _ (fun x hx => hbas x ((hF'.child_iff p hp x).mp hx).1)]
    refine List.Perm.flatMap_right _ ?_
    rw [List.perm_ext_iff_of_nodup (hF'.childNodup p hp) (hF.childNodup p hpn)]
    intro x
    rw [hF'.child_iff p hp, hF.child_iff p hpn]
    constructor
    · rintro ⟨a, b⟩; exact ⟨((hC.nodes x).mp a).1, by rw [← hC.parent x a]; exact b⟩
    · rintro ⟨a, b⟩
      have hx := hup x a p hp hpk b
      exact ⟨hx, by rw [hC.parent x hx]; exact b⟩
  · rw [flatMap_basins_congr (g := g) (h := g') _ (fun x hx => hbas x ((hF'.roots_iff x).mp hx).1)]
    refine List.Perm.flatMap_right _ ?_
    rw [List.perm_ext_iff_of_nodup hF'.rootsNodup hF.rootsNodup]
    intro x
    rw [hF'.roots_iff, hF.roots_iff]
    constructor
    · rintro ⟨a, b⟩; exact ⟨((hC.nodes x).mp a).1, by rw [← hC.parent x a]; exact b⟩
    · rintro ⟨a, b⟩
      have hx : x ∈ g'.nodes := (hC.nodes x).mpr ⟨a, fun hb => by
        rcases below_cases hb with h' | ⟨q, h', -⟩ <;> rw [b] at h' <;> cases h'⟩
      exact ⟨hx, by rw [hC.parent x hx]; exact b⟩

/-! ### Reading the cached depth -/

/-- The graphs agree except for cached depths. -/
structure SameTree (g h : BGraph K) : Prop where
  nodes : h.nodes = g.nodes
  roots : h.roots = g.roots
  node : ∀ x, h.node x = { g.node x with depthC := (h.node x).depthC }

theorem SameTree.refl (g : BGraph K) : SameTree g g := ⟨rfl, rfl, fun _ => rfl⟩

theorem SameTree.trans {a b c : BGraph K} (h1 : SameTree a b) (h2 : SameTree b c) : SameTree a c := by
  refine ⟨h2.nodes.trans h1.nodes, h2.roots.trans h1.roots, fun x => ?_⟩
  rw [h2.node x, h1.node x]

theorem SameTree.parent {h : BGraph K} (hS : SameTree g h) (x : ℕ) : (h.node x).parent = (g.node x).parent := by rw [hS.node x]
theorem SameTree.children {h : BGraph K} (hS : SameTree g h) (x : ℕ) : (h.node x).children = (g.node x).children := by rw [hS.node x]
theorem SameTree.red {h : BGraph K} (hS : SameTree g h) (x : ℕ) : (h.node x).red = (g.node x).red := by rw [hS.node x]
theorem SameTree.basins {h : BGraph K} (hS : SameTree g h) (x : ℕ) : (h.node x).basins = (g.node x).basins := by rw [hS.node x]

theorem SameTree.forest {h : BGraph K} (hS : SameTree g h) (hF : Forest g) : Forest h := by
  obtain ⟨a1, a2, a3, a4, a5, a6, a7⟩ := hF
  constructor
  · rw [hS.nodes]; exact a1
  · rw [hS.roots]; exact a2
  · intro k; rw [hS.roots, hS.nodes, hS.parent]; exact a3 k
  · intro k; rw [hS.nodes, hS.parent]; intro hk p hp; rw [hS.red]; exact a4 k hk p hp
  · intro p; rw [hS.nodes, hS.children]; intro hp c; rw [hS.parent]; exact a5 p hp c
  · intro p; rw [hS.nodes, hS.children]; exact a6 p
  · obtain ⟨rank, h1, h2⟩ := a7
    refine ⟨rank, by rw [hS.nodes]; exact h1, ?_⟩
    intro k; rw [hS.nodes, hS.parent]; exact h2 k

theorem SameTree.split {h : BGraph K} (hS : SameTree g h) (hB : BasinsSplit g) : BasinsSplit h := by
  intro p hp hr
  rw [hS.nodes] at hp
  rw [hS.red] at hr
  rw [hS.children, hS.basins, flatMap_basins_congr (g := g) (h := h) _ (fun x _ => hS.basins x)]
  exact hB p hp hr

theorem readDepth_same (g : BGraph K) (k : ℕ) : SameTree g (readDepth g k).2 := by
  unfold readDepth
  cases h : (g.node k).depthC with
  | some d => exact SameTree.refl g
  | none =>
    refine ⟨rfl, rfl, fun x => ?_⟩
    simp only [modNode_node]
    by_cases hx : x = k
    · subst hx; simp
    · simp [hx]

theorem shallowScan_same (cutoff depth : K) : ∀ (l : List ℕ) (g : BGraph K) (b : Bool) (h : BGraph K),
    shallowScan cutoff depth g l = some (b, h) → SameTree g h := by
  intro l
  induction l with
  | nil => intro g b h e; simp only [shallowScan, Option.some.injEq, Prod.mk.injEq] at e; rw [← e.2]; exact SameTree.refl g
  | cons c l ih =>
    intro g b h e
    rw [shallowScan] at e
    by_cases h1 : (g.node c).red = true
    · rw [if_pos h1] at e; exact ih g b h e
    · rw [if_neg h1] at e
      by_cases h2 : depth = 0
      · simp only [h2, if_true] at e; cases e
      · simp only [if_neg h2] at e
        by_cases h3 : cutoff < (readDepth g c).1 / depth
        · rw [if_pos h3] at e
          simp only [Option.some.injEq, Prod.mk.injEq] at e; rw [← e.2]; exact readDepth_same g c
        · rw [if_neg h3] at e
          exact (readDepth_same g c).trans (ih _ b h e)

/-- What the clean-up of a graph keeps. -/
structure Kept (g g' : BGraph K) : Prop where
  forest : Forest g'
  split : BasinsSplit g'
  roots : (g'.roots.flatMap (fun c => (g'.node c).basins)).Perm (g.roots.flatMap (fun c => (g.node c).basins))

theorem Kept.trans {a b c : BGraph K} (h1 : Kept a b) (h2 : Kept b c) : Kept a c := ⟨h2.forest, h2.split, h2.roots.trans h1.roots⟩

theorem SameTree.kept {h : BGraph K} (hS : SameTree g h) (hF : Forest g) (hB : BasinsSplit g) : Kept g h := by
  refine ⟨hS.forest hF, hS.split hB, ?_⟩
  rw [hS.roots, flatMap_basins_congr (g := g) (h := h) _ (fun x _ => hS.basins x)]

theorem Kept.leaves {g' : BGraph K} (hF : Forest g) (hB : BasinsSplit g) (h : Kept g g') : (leafBasins g').Perm (leafBasins g) :=
  (leafBasins_roots h.forest h.split).trans (h.roots.trans (leafBasins_roots hF hB).symm)

end BaderKit
