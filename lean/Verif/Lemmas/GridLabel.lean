import Verif.Model.GridLabel
import Verif.Spec.GridLabel
import Mathlib.Data.List.TakeDrop
/-! # Lemmas on labels of connected regions -/
namespace BaderKit

theorem mem_boxOf {s : Shape} {c : Coord} : c ∈ boxOf s ↔ InRange s c := by
  unfold boxOf InRange
  rw [Finset.mem_product, Finset.mem_product, Finset.mem_Ico, Finset.mem_Ico, Finset.mem_Ico]

theorem sort_lt (t : Finset ℕ) : (t.sort (· ≤ ·)).Pairwise (· < ·) := by
  have h1 := Finset.pairwise_sort t (· ≤ ·)
  have h2 : (t.sort (· ≤ ·)).Pairwise (· ≠ ·) := Finset.sort_nodup t (· ≤ ·)
  exact (h1.and h2).imp (fun h => lt_of_le_of_ne h.1 h.2)

theorem mem_uniqueVals {s : Shape} {f : Coord → ℕ} {x : ℕ} : x ∈ uniqueVals s f ↔ ∃ c, InRange s c ∧ f c = x := by
  unfold uniqueVals
  rw [Finset.mem_sort, Finset.mem_image]
  simp only [mem_boxOf]

theorem mem_featuresOf {s : Shape} {P R : Coord → ℕ} {i x : ℕ} :
    x ∈ featuresOf s P R i ↔ ∃ c, InRange (padShape s) c ∧ R c = i ∧ P c = x := by
  unfold featuresOf
  rw [Finset.mem_sort, Finset.mem_image]
  simp only [Finset.mem_filter, mem_boxOf]
  constructor
  · rintro ⟨c, ⟨h1, h2⟩, h3⟩; exact ⟨c, h1, h2, h3⟩
  · rintro ⟨c, h1, h2, h3⟩; exact ⟨c, ⟨h1, h2⟩, h3⟩

/-! ## Connections -/

theorem addFeatures_aux (fs : List ℕ) : ∀ (l : List ℕ) (conns : List (Finset ℕ)), (∀ j ∈ l, j < conns.length) →
    ∃ conns', l.foldlM (fun conns j => match conns[j]? with
        | none => none
        | some c => some (conns.set j (c ∪ (fs.filter fun k => k ≠ j).toFinset))) conns = some conns' ∧
      conns'.length = conns.length ∧ ∀ j < conns.length, ∀ x, x ∈ conns'.getD j ∅ ↔
        x ∈ conns.getD j ∅ ∨ (j ∈ l ∧ x ∈ fs ∧ x ≠ j) := by
  intro l
  induction l with
  | nil => intro conns _; exact ⟨conns, rfl, rfl, by simp⟩
  | cons a l ih =>
    intro conns hl
    have ha : a < conns.length := hl a (by simp)
    have hget : conns[a]? = some (conns.getD a ∅) := by
      rw [List.getD_eq_getElem?_getD, List.getElem?_eq_getElem ha]; rfl
    obtain ⟨c', e, hlen, hmem⟩ := ih (conns.set a (conns.getD a ∅ ∪ (fs.filter fun k => k ≠ a).toFinset))
      (fun j hj => by rw [List.length_set]; exact hl j (by simp [hj]))
    refine ⟨c', ?_, by rw [hlen, List.length_set], ?_⟩
    · rw [List.foldlM_cons, hget]; exact e
    · intro j hj x
      rw [hmem j (by rw [List.length_set]; exact hj)]
      have hset : (conns.set a (conns.getD a ∅ ∪ (fs.filter fun k => k ≠ a).toFinset)).getD j ∅ =
          if j = a then conns.getD a ∅ ∪ (fs.filter fun k => k ≠ a).toFinset else conns.getD j ∅ := by
        rw [List.getD_eq_getElem?_getD, List.getElem?_set]
        by_cases hja : j = a
        · subst hja; simp [hj]
        · rw [if_neg (fun e => hja e.symm), if_neg hja, List.getD_eq_getElem?_getD]
      rw [hset]
      by_cases hja : j = a
      · subst hja
        simp
        tauto
      · simp [hja]

theorem addFeatures_spec (fs : List ℕ) (conns : List (Finset ℕ)) (h : ∀ j ∈ fs, j < conns.length) :
    ∃ conns', addFeatures conns fs = some conns' ∧ conns'.length = conns.length ∧
      ∀ j < conns.length, ∀ x, x ∈ conns'.getD j ∅ ↔ x ∈ conns.getD j ∅ ∨ (j ∈ fs ∧ x ∈ fs ∧ x ≠ j) :=
  addFeatures_aux fs fs conns h

theorem featureConns_aux (s : Shape) (P R : Coord → ℕ) : ∀ (l : List ℕ) (conns : List (Finset ℕ)),
    (∀ i ∈ l, ∀ j ∈ featuresOf s P R i, j < conns.length) →
    ∃ conns', l.foldlM (fun conns i => addFeatures conns (featuresOf s P R i)) conns = some conns' ∧
      conns'.length = conns.length ∧ ∀ j < conns.length, ∀ x, x ∈ conns'.getD j ∅ ↔
        x ∈ conns.getD j ∅ ∨ ∃ i ∈ l, j ∈ featuresOf s P R i ∧ x ∈ featuresOf s P R i ∧ x ≠ j := by
  intro l
  induction l with
  | nil => intro conns _; exact ⟨conns, rfl, rfl, by simp⟩
  | cons a l ih =>
    intro conns hl
    obtain ⟨c1, e1, l1, m1⟩ := addFeatures_spec (featuresOf s P R a) conns (hl a (by simp))
    obtain ⟨c2, e2, l2, m2⟩ := ih c1 (fun i hi j hj => by rw [l1]; exact hl i (by simp [hi]) j hj)
    refine ⟨c2, by rw [List.foldlM_cons, e1]; exact e2, by rw [l2, l1], ?_⟩
    intro j hj x
    rw [m2 j (by rw [l1]; exact hj), m1 j hj]
    simp only [List.mem_cons, exists_eq_or_imp]
    tauto

/-- The connections of a feature are the other features in the same region of the padded array. -/
theorem featureConns_spec (s : Shape) (k : ℕ) (P R : Coord → ℕ) (hP : ∀ c, InRange (padShape s) c → P c < k) :
    ∃ conns, featureConns s k P R = some conns ∧ conns.length = k ∧ ∀ j < k, ∀ x, x ∈ conns.getD j ∅ ↔
      ∃ p q, InRange (padShape s) p ∧ InRange (padShape s) q ∧ R p = R q ∧ P p = j ∧ P q = x ∧ x ≠ j := by
  obtain ⟨c, e, hl, hm⟩ := featureConns_aux s P R (uniqueVals (padShape s) R) (List.replicate k ∅) (by
    intro i _ j hj
    obtain ⟨p, hp, _, rfl⟩ := mem_featuresOf.mp hj
    simpa using hP p hp)
  rw [List.length_replicate] at hl hm
  refine ⟨c, e, hl, fun j hj x => ?_⟩
  rw [hm j hj]
  have h0 : (List.replicate k (∅ : Finset ℕ)).getD j ∅ = ∅ := by
    rw [List.getD_eq_getElem?_getD, List.getElem?_replicate]; split_ifs <;> rfl
  rw [h0]
  simp only [Finset.notMem_empty, false_or]
  constructor
  · rintro ⟨i, _, h1, h2, h3⟩
    obtain ⟨p, hp, hp1, hp2⟩ := mem_featuresOf.mp h1
    obtain ⟨q, hq, hq1, hq2⟩ := mem_featuresOf.mp h2
    exact ⟨p, q, hp, hq, hp1.trans hq1.symm, hp2, hq2, h3⟩
  · rintro ⟨p, q, hp, hq, h1, h2, h3, h4⟩
    exact ⟨R p, mem_uniqueVals.mpr ⟨p, hp, rfl⟩, mem_featuresOf.mpr ⟨p, hp, rfl, h2⟩,
      mem_featuresOf.mpr ⟨q, hq, h1.symm, h3⟩, h4⟩

/-! ## Closure -/

/-- Connected in one step. -/
def ConnE (conns : List (Finset ℕ)) (j x : ℕ) : Prop := x ∈ conns.getD j ∅

theorem closeConns_spec (conns : List (Finset ℕ)) (k i : ℕ) (hk : ∀ j x, ConnE conns j x → x < k) (al0 : Finset ℕ) :
    ∀ (fuel : ℕ) (cur new al : Finset ℕ), cur ⊆ new → (∀ j ∈ cur, ∀ x, ConnE conns j x → x ∈ new) →
    (∀ x ∈ new, Relation.TransGen (ConnE conns) i x) → (∀ x, ConnE conns i x → x ∈ new) → al = al0 ∪ cur →
    k + 1 ≤ fuel + cur.card →
    ∃ grp, closeConns conns fuel cur new al = some (grp, al0 ∪ grp) ∧ ∀ x, x ∈ grp ↔ Relation.TransGen (ConnE conns) i x := by
  intro fuel
  induction fuel with
  | zero =>
    intro cur new al h1 h2 h3 h4 h5 h6
    exfalso
    have hb : ∀ x, Relation.TransGen (ConnE conns) i x → x < k := by
      intro x hx
      cases hx with
      | single h => exact hk _ _ h
      | tail _ h => exact hk _ _ h
    have : cur ⊆ Finset.range k := fun x hx => Finset.mem_range.mpr (hb x (h3 x (h1 hx)))
    have := Finset.card_le_card this
    rw [Finset.card_range] at this
    omega
  | succ fuel ih =>
    intro cur new al h1 h2 h3 h4 h5 h6
    unfold closeConns
    by_cases hc : cur = new
    · subst hc
      rw [if_pos rfl]
      refine ⟨cur, by rw [h5], fun x => ⟨h3 x, fun hx => ?_⟩⟩
      induction hx with
      | single h => exact h4 _ h
      | tail _ h hh => exact h2 _ hh _ h
    · rw [if_neg hc]
      have hlt : cur.card < new.card := Finset.card_lt_card (Finset.ssubset_iff_subset_ne.mpr ⟨h1, hc⟩)
      refine ih new _ _ Finset.subset_union_left ?_ ?_ ?_ ?_ (by omega)
      · intro j hj x hx
        exact Finset.mem_union_right _ (Finset.mem_biUnion.mpr ⟨j, hj, hx⟩)
      · intro x hx
        rcases Finset.mem_union.mp hx with hx | hx
        · exact h3 x hx
        · obtain ⟨j, hj, hx⟩ := Finset.mem_biUnion.mp hx
          exact (h3 j hj).tail hx
      · intro x hx
        exact Finset.mem_union_left _ (h4 x hx)
      · rw [h5]
        ext x
        simp only [Finset.mem_union]
        constructor
        · rintro ((h | h) | h)
          · exact Or.inl h
          · exact Or.inr (h1 h)
          · exact Or.inr h
        · rintro (h | h)
          · exact Or.inl (Or.inl h)
          · exact Or.inr h

/-- A list that is the sorted closure of some feature. -/
def IsGroup (conns : List (Finset ℕ)) (g : List ℕ) : Prop :=
  g ≠ [] ∧ g.Pairwise (· < ·) ∧ ∃ i, ∀ x, x ∈ g ↔ Relation.TransGen (ConnE conns) i x

theorem reduceConns_aux (conns : List (Finset ℕ)) (fuel : ℕ)
    (hk : ∀ j x, ConnE conns j x → x < conns.length) (hsym : ∀ j x, ConnE conns j x → ConnE conns x j)
    (hf : conns.length + 1 ≤ fuel) : ∀ (l : List ℕ) (x : Finset ℕ × List (List ℕ)),
    (∀ g ∈ x.2, IsGroup conns g) → (∀ y ∈ x.1, ∃ g ∈ x.2, y ∈ g) →
    ∃ x', l.foldlM (fun (x : Finset ℕ × List (List ℕ)) i =>
        if i ∈ x.1 then some x
        else do
          let (grp, already) ← closeConns conns fuel ∅ (conns.getD i ∅) x.1
          some (already, if grp = ∅ then x.2 else x.2 ++ [grp.sort (· ≤ ·)])) x = some x' ∧
      (∀ g ∈ x'.2, IsGroup conns g) ∧ (∀ y ∈ x'.1, ∃ g ∈ x'.2, y ∈ g) ∧ (∀ g ∈ x.2, g ∈ x'.2) ∧
      ∀ i ∈ l, ∀ y, ConnE conns i y → ∃ g ∈ x'.2, i ∈ g := by
  intro l
  induction l with
  | nil => intro x h1 h2; exact ⟨x, rfl, h1, h2, fun g hg => hg, by simp⟩
  | cons i l ih =>
    intro x h1 h2
    by_cases hi : i ∈ x.1
    · obtain ⟨x', e, g1, g2, g3, g4⟩ := ih x h1 h2
      refine ⟨x', ?_, g1, g2, g3, ?_⟩
      · rw [List.foldlM_cons]
        simp only [if_pos hi]
        exact e
      · intro j hj y hy
        rcases List.mem_cons.mp hj with rfl | hj
        · obtain ⟨g, hg, hjg⟩ := h2 j hi
          exact ⟨g, g3 g hg, hjg⟩
        · exact g4 j hj y hy
    · obtain ⟨grp, e, hgrp⟩ := closeConns_spec conns conns.length i hk x.1 fuel ∅ (conns.getD i ∅) x.1 (Finset.empty_subset _)
        (by simp) (fun x hx => .single hx) (fun x hx => hx) (by simp) (by simpa using hf)
      set x1 : Finset ℕ × List (List ℕ) := (x.1 ∪ grp, if grp = ∅ then x.2 else x.2 ++ [grp.sort (· ≤ ·)]) with hx1
      have hin : ∀ y ∈ grp, ∃ g ∈ x1.2, y ∈ g := by
        intro y hy
        have : grp ≠ ∅ := by rintro rfl; simp at hy
        refine ⟨grp.sort (· ≤ ·), ?_, (Finset.mem_sort _).mpr hy⟩
        rw [hx1]; simp only [if_neg this]; simp
      have hold : ∀ g ∈ x.2, g ∈ x1.2 := by
        intro g hg
        rw [hx1]; simp only
        split_ifs
        · exact hg
        · exact List.mem_append_left _ hg
      have k1 : ∀ g ∈ x1.2, IsGroup conns g := by
        intro g hg
        rw [hx1] at hg
        simp only at hg
        split_ifs at hg with hgr
        · exact h1 g hg
        · rcases List.mem_append.mp hg with hg | hg
          · exact h1 g hg
          · simp only [List.mem_singleton] at hg
            subst hg
            refine ⟨?_, sort_lt grp, i, fun x => by rw [Finset.mem_sort]; exact hgrp x⟩
            intro h0
            apply hgr
            rw [← Finset.card_eq_zero, ← Finset.length_sort (r := (· ≤ ·)), h0]; rfl
      have k2 : ∀ y ∈ x1.1, ∃ g ∈ x1.2, y ∈ g := by
        intro y hy
        rw [hx1] at hy
        rcases Finset.mem_union.mp hy with hy | hy
        · obtain ⟨g, hg, hyg⟩ := h2 y hy
          exact ⟨g, hold g hg, hyg⟩
        · exact hin y hy
      obtain ⟨x', e', g1, g2, g3, g4⟩ := ih x1 k1 k2
      refine ⟨x', ?_, g1, g2, fun g hg => g3 g (hold g hg), ?_⟩
      · rw [List.foldlM_cons]
        simp only [if_neg hi, e]
        exact e'
      · intro j hj y hy
        rcases List.mem_cons.mp hj with rfl | hj
        · obtain ⟨g, hg, hjg⟩ := hin j ((hgrp j).mpr (.tail (.single hy) (hsym _ _ hy)))
          exact ⟨g, g3 g hg, hjg⟩
        · exact g4 j hj y hy

theorem reduceConns_spec (conns : List (Finset ℕ)) (hk : ∀ j x, ConnE conns j x → x < conns.length)
    (hsym : ∀ j x, ConnE conns j x → ConnE conns x j) :
    ∃ al groups, reduceConns (conns.length + 2) conns = some (al, groups) ∧ (∀ g ∈ groups, IsGroup conns g) ∧
      ∀ i < conns.length, ∀ y, ConnE conns i y → ∃ g ∈ groups, i ∈ g := by
  obtain ⟨x', e, h1, _, _, h4⟩ := reduceConns_aux conns (conns.length + 2) hk hsym (by omega) (List.range conns.length) (∅, [])
    (by simp) (by simp)
  exact ⟨x'.1, x'.2, e, h1, fun i hi => h4 i (List.mem_range.mpr hi)⟩

/-! ## Merging labels -/

/-- The value a label gets from one group. -/
def collapse (g : List ℕ) (x : ℕ) : ℕ := match g with
  | [] => x
  | low :: rest => if x ∈ rest then low else x

theorem replace_fold (low : ℕ) : ∀ (rest : List ℕ) (f : Coord → ℕ), low ∉ rest →
    ∀ c, (rest.foldl (fun f h => replaceVal f h low) f) c = if f c ∈ rest then low else f c := by
  intro rest
  induction rest with
  | nil => intro f _ c; simp
  | cons h rest ih =>
    intro f hl c
    simp only [List.mem_cons, not_or] at hl
    rw [List.foldl_cons, ih _ hl.2]
    unfold replaceVal
    by_cases h1 : f c = h
    · simp [h1, hl.2]
    · simp [h1]

theorem mergeGroups_eq : ∀ (groups : List (List ℕ)) (f : Coord → ℕ), (∀ g ∈ groups, g.Pairwise (· < ·)) →
    ∀ c, mergeGroups groups f c = groups.foldl (fun x g => collapse g x) (f c) := by
  intro groups
  induction groups with
  | nil => intro f _ c; rfl
  | cons g groups ih =>
    intro f hg c
    rw [List.foldl_cons]
    cases g with
    | nil => exact ih f (fun g hg' => hg g (by simp [hg'])) c
    | cons low rest =>
      have hp := hg (low :: rest) (by simp)
      refine (ih (rest.foldl (fun f h => replaceVal f h low) f) (fun g hg' => hg g (by simp [hg'])) c).trans ?_
      congr 1
      exact replace_fold low rest f (fun h => lt_irrefl _ (List.rel_of_pairwise_cons hp h)) c

section groups
variable {conns : List (Finset ℕ)}

theorem trans_symm (hsym : ∀ j x, ConnE conns j x → ConnE conns x j) {a b : ℕ} (h : Relation.TransGen (ConnE conns) a b) :
    Relation.TransGen (ConnE conns) b a := by
  induction h with
  | single h => exact .single (hsym _ _ h)
  | tail _ h ih => exact .head (hsym _ _ h) ih

theorem rtg_symm {α : Type*} {r : α → α → Prop} (hsym : ∀ j x, r j x → r x j) {a b : α} (h : Relation.ReflTransGen r a b) :
    Relation.ReflTransGen r b a := by
  induction h with
  | refl => exact .refl
  | tail _ h ih => exact .head (hsym _ _ h) ih

/-- Members of a group: all of its members and only those are connected to each. -/
theorem IsGroup.mem_iff (hsym : ∀ j x, ConnE conns j x → ConnE conns x j) {g : List ℕ} (h : IsGroup conns g) {x : ℕ} (hx : x ∈ g)
    (y : ℕ) : y ∈ g ↔ Relation.ReflTransGen (ConnE conns) x y := by
  obtain ⟨_, _, i, hi⟩ := h
  constructor
  · intro hy
    exact ((trans_symm hsym ((hi x).mp hx)).trans ((hi y).mp hy)).to_reflTransGen
  · intro hxy
    exact (hi y).mpr (((hi x).mp hx).trans_left hxy)

/-- The lowest member of a group of which the label is a member, the label itself if there is none. -/
theorem collapse_fold (hsym : ∀ j x, ConnE conns j x → ConnE conns x j) : ∀ (groups : List (List ℕ)),
    (∀ g ∈ groups, IsGroup conns g) → ∀ x low, Relation.ReflTransGen (ConnE conns) x low →
    (∀ y, Relation.ReflTransGen (ConnE conns) x y → low ≤ y) → ∀ z, (z = x ∨ z = low) →
    (groups.foldl (fun x g => collapse g x) z = low ∨ (groups.foldl (fun x g => collapse g x) z = x ∧ ∀ g ∈ groups, x ∉ g)) := by
  intro groups
  induction groups with
  | nil => intro _ x low _ _ z hz; rcases hz with rfl | rfl <;> simp
  | cons g groups ih =>
    intro hg x low h1 h2 z hz
    rw [List.foldl_cons]
    have hG := hg g (by simp)
    have hcol : collapse g z = low ∨ (collapse g z = x ∧ x ∉ g) := by
      obtain ⟨hne, hp, _⟩ := id hG
      obtain ⟨a, rest, rfl⟩ := List.exists_cons_of_ne_nil hne
      have hz' : Relation.ReflTransGen (ConnE conns) x z := by rcases hz with rfl | rfl; exacts [.refl, h1]
      by_cases hx : x ∈ a :: rest
      · left
        have ha : a = low := by
          apply le_antisymm
          · have hl : low ∈ a :: rest := (hG.mem_iff hsym hx low).mpr h1
            rcases List.mem_cons.mp hl with h | h
            · exact h.ge
            · exact (List.rel_of_pairwise_cons hp h).le
          · exact h2 a ((hG.mem_iff hsym hx a).mp (by simp))
        have hzm : z ∈ a :: rest := (hG.mem_iff hsym hx z).mpr hz'
        simp only [collapse]
        rcases List.mem_cons.mp hzm with h | h
        · split_ifs
          · exact ha
          · rw [h, ha]
        · rw [if_pos h, ha]
      · have hzn : z ∉ a :: rest := by
          intro hzm
          refine hx ((hG.mem_iff hsym hzm x).mpr ?_)
          exact rtg_symm hsym hz'
        have : collapse (a :: rest) z = z := by
          simp only [collapse]
          rw [if_neg (fun h => hzn (List.mem_cons_of_mem _ h))]
        rw [this]
        rcases hz with rfl | rfl
        · exact Or.inr ⟨rfl, hx⟩
        · exact Or.inl rfl
    rcases hcol with h | ⟨h, hx⟩
    · rw [h]
      rcases ih (fun g hg' => hg g (by simp [hg'])) x low h1 h2 low (Or.inr rfl) with h3 | ⟨h3, h4⟩
      · exact Or.inl h3
      · -- the lowest member keeps its label
        left
        have : ∀ (gs : List (List ℕ)), (∀ g ∈ gs, IsGroup conns g) → gs.foldl (fun x g => collapse g x) low = low := by
          intro gs
          induction gs with
          | nil => intro _; rfl
          | cons g gs ih2 =>
            intro hgs
            rw [List.foldl_cons]
            have hc : collapse g low = low := by
              have hG2 := hgs g (by simp)
              obtain ⟨hne, hp, _⟩ := id hG2
              obtain ⟨a, rest, rfl⟩ := List.exists_cons_of_ne_nil hne
              simp only [collapse]
              split_ifs with hm
              · have hm' : low ∈ a :: rest := List.mem_cons_of_mem _ hm
                have := h2 a (h1.trans ((hG2.mem_iff hsym hm' a).mp (by simp)))
                have := List.rel_of_pairwise_cons hp hm
                omega
              · rfl
            rw [hc]
            exact ih2 (fun g hg' => hgs g (by simp [hg']))
        exact this groups (fun g hg' => hg g (by simp [hg']))
    · rw [h]
      rcases ih (fun g hg' => hg g (by simp [hg'])) x low h1 h2 x (Or.inl rfl) with h3 | ⟨h3, h4⟩
      · exact Or.inl h3
      · right
        refine ⟨h3, fun g' hg' => ?_⟩
        rcases List.mem_cons.mp hg' with rfl | hg'
        · exact hx
        · exact h4 g' hg'

/-- Two labels are merged exactly when they are connected; each becomes the lowest label connected to it. -/
theorem collapse_low (hsym : ∀ j x, ConnE conns j x → ConnE conns x j) (hk : ∀ j x, ConnE conns j x → x < conns.length)
    {groups : List (List ℕ)} (hg : ∀ g ∈ groups, IsGroup conns g)
    (hall : ∀ i < conns.length, ∀ y, ConnE conns i y → ∃ g ∈ groups, i ∈ g) (x : ℕ) :
    Relation.ReflTransGen (ConnE conns) x (groups.foldl (fun x g => collapse g x) x) ∧
      ∀ y, Relation.ReflTransGen (ConnE conns) x y → groups.foldl (fun x g => collapse g x) x ≤ y := by
  classical
  have hex : ∃ n, Relation.ReflTransGen (ConnE conns) x n := ⟨x, .refl⟩
  obtain ⟨low, h1, h2⟩ : ∃ low, Relation.ReflTransGen (ConnE conns) x low ∧
      ∀ y, Relation.ReflTransGen (ConnE conns) x y → low ≤ y := ⟨Nat.find hex, Nat.find_spec hex, fun y hy => Nat.find_min' hex hy⟩
  rcases collapse_fold hsym groups hg x low h1 h2 x (Or.inl rfl) with h | ⟨h, hx⟩
  · rw [h]; exact ⟨h1, h2⟩
  · rw [h]
    refine ⟨.refl, fun y hy => ?_⟩
    rcases Relation.ReflTransGen.cases_head hy with rfl | ⟨z, hz, _⟩
    · exact le_refl _
    · have hxk : x < conns.length := hk _ _ (hsym _ _ hz)
      obtain ⟨g, hg', hxg⟩ := hall x hxk z hz
      exact absurd hxg (hx g hg')

end groups

/-! ## Renumbering -/

theorem renumber_fold : ∀ (u : List ℕ) (n : ℕ), u.Pairwise (· < ·) → (∀ x ∈ u, n ≤ x) → ∀ (f : Coord → ℕ) (c : Coord),
    ((u.zipIdx n).foldl (fun f p => replaceVal f p.1 p.2) f) c =
      if f c ∈ u then n + (u.filter fun x => decide (x < f c)).length else f c := by
  intro u
  induction u with
  | nil => intro n _ _ f c; simp
  | cons a u ih =>
    intro n hp hn f c
    rw [List.zipIdx_cons, List.foldl_cons]
    have hlt : ∀ x ∈ u, a < x := fun x hx => List.rel_of_pairwise_cons hp hx
    have hna := hn a (by simp)
    rw [ih (n + 1) hp.of_cons (fun x hx => by have := hlt x hx; omega)]
    unfold replaceVal
    simp only
    by_cases h1 : f c = a
    · rw [if_pos h1]
      have : n ∉ u := fun h => by have := hlt n h; omega
      rw [if_neg this, if_pos (by simp [h1]), h1]
      have h0 : (List.filter (fun x => decide (x < a)) (a :: u)) = [] := by
        rw [List.filter_eq_nil_iff]
        intro x hx
        rcases List.mem_cons.mp hx with rfl | hx
        · simp
        · have := hlt x hx; simp; omega
      rw [h0]; rfl
    · rw [if_neg h1]
      by_cases h2 : f c ∈ u
      · rw [if_pos h2, if_pos (by simp [h2]), List.filter_cons_of_pos (by simpa using hlt _ h2), List.length_cons]
        omega
      · rw [if_neg h2, if_neg (by simp [h1, h2])]

/-- The new label is the number of smaller labels. -/
theorem renumber_eq (s : Shape) (f : Coord → ℕ) {c : Coord} (hc : InRange s c) :
    renumber s f c = ((uniqueVals s f).filter fun x => decide (x < f c)).length := by
  unfold renumber
  have := renumber_fold (uniqueVals s f) 0 (sort_lt _) (fun x _ => Nat.zero_le x) f c
  rw [show (uniqueVals s f).zipIdx = (uniqueVals s f).zipIdx 0 from rfl, this, if_pos (mem_uniqueVals.mpr ⟨c, hc, rfl⟩), Nat.zero_add]

theorem filter_lt_length {u : List ℕ} (hp : u.Pairwise (· < ·)) {x y : ℕ} (hx : x ∈ u) (h : x < y) :
    (u.filter fun z => decide (z < x)).length < (u.filter fun z => decide (z < y)).length := by
  induction u with
  | nil => simp at hx
  | cons a u ih =>
    by_cases hax : a < x
    · rw [List.filter_cons_of_pos (by simpa using hax), List.filter_cons_of_pos (by simp; omega)]
      have : x ∈ u := by
        rcases List.mem_cons.mp hx with h | h
        · omega
        · exact h
      have := ih hp.of_cons this
      simp only [List.length_cons]; omega
    · have hxa : x = a := by
        rcases List.mem_cons.mp hx with h | h
        · exact h
        · have := List.rel_of_pairwise_cons hp h; omega
      subst hxa
      have h0 : (List.filter (fun z => decide (z < x)) (x :: u)) = [] := by
        rw [List.filter_eq_nil_iff]
        intro z hz
        rcases List.mem_cons.mp hz with rfl | hz
        · simp
        · have := List.rel_of_pairwise_cons hp hz; simp; omega
      rw [h0, List.filter_cons_of_pos (by simpa using h)]
      simp

/-- Renumbering keeps apart what was apart, and keeps the order. -/
theorem renumber_lt_iff (s : Shape) (f : Coord → ℕ) {c d : Coord} (hc : InRange s c) (hd : InRange s d) :
    renumber s f c < renumber s f d ↔ f c < f d := by
  rw [renumber_eq s f hc, renumber_eq s f hd]
  have hp : (uniqueVals s f).Pairwise (· < ·) := sort_lt _
  have hcm : f c ∈ uniqueVals s f := mem_uniqueVals.mpr ⟨c, hc, rfl⟩
  have hdm : f d ∈ uniqueVals s f := mem_uniqueVals.mpr ⟨d, hd, rfl⟩
  constructor
  · intro h
    by_contra hle
    push Not at hle
    rcases lt_or_eq_of_le hle with h1 | h1
    · have := filter_lt_length hp hdm h1; omega
    · rw [h1] at h; omega
  · exact fun h => filter_lt_length hp hcm h

theorem renumber_eq_iff (s : Shape) (f : Coord → ℕ) {c d : Coord} (hc : InRange s c) (hd : InRange s d) :
    renumber s f c = renumber s f d ↔ f c = f d := by
  have h1 := renumber_lt_iff s f hc hd
  have h2 := renumber_lt_iff s f hd hc
  omega

theorem exists_sorted_rank {u : List ℕ} (hp : u.Pairwise (· < ·)) {m : ℕ} (hm : m < u.length) :
    ∃ x ∈ u, (u.filter fun z => decide (z < x)).length = m := by
  induction u generalizing m with
  | nil => simp at hm
  | cons a u ih =>
    cases m with
    | zero =>
      refine ⟨a, by simp, ?_⟩
      rw [List.length_eq_zero_iff, List.filter_eq_nil_iff]
      intro z hz
      rcases List.mem_cons.mp hz with rfl | hz
      · simp
      · have := List.rel_of_pairwise_cons hp hz; simp; omega
    | succ m =>
      obtain ⟨x, hx, e⟩ := ih hp.of_cons (m := m) (by simpa using hm)
      refine ⟨x, by simp [hx], ?_⟩
      rw [List.filter_cons_of_pos (by simpa using List.rel_of_pairwise_cons hp hx), List.length_cons, e]

/-- The new labels have no gaps. -/
theorem renumber_dense (s : Shape) (f : Coord → ℕ) {c : Coord} (hc : InRange s c) {m : ℕ} (hm : m ≤ renumber s f c) :
    ∃ d, InRange s d ∧ renumber s f d = m := by
  rw [renumber_eq s f hc] at hm
  have hp : (uniqueVals s f).Pairwise (· < ·) := sort_lt _
  have hcm : f c ∈ uniqueVals s f := mem_uniqueVals.mpr ⟨c, hc, rfl⟩
  have hlt : ((uniqueVals s f).filter fun x => decide (x < f c)).length < (uniqueVals s f).length := by
    rw [List.length_filter_lt_length_iff_exists]
    exact ⟨f c, hcm, by simp⟩
  obtain ⟨x, hx, e⟩ := exists_sorted_rank hp (m := m) (by omega)
  obtain ⟨d, hd, rfl⟩ := mem_uniqueVals.mp hx
  exact ⟨d, hd, by rw [renumber_eq s f hd, e]⟩

end BaderKit
