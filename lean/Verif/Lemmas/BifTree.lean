import Verif.Spec.BifTree
import Mathlib.Data.Finset.Card
import Mathlib.Data.Finset.Filter
import Mathlib.Data.List.Dedup
import Mathlib.Data.List.Nodup
import Mathlib.Data.Finset.Dedup
/-!
# Lemmas on the bifurcation graph
-/
namespace BaderKit

variable {K : Type}

section basic
variable {g : BGraph K}

theorem Forest.below_rank (hF : Forest g) {rank : ℕ → ℕ}
    (hr : ∀ k ∈ g.nodes, ∀ p, (g.node k).parent = some p → rank p < rank k) {a b : ℕ} (ha : a ∈ g.nodes) (h : Below g a b) :
    b ∈ g.nodes ∧ rank b < rank a := by
  induction h with
  | single h => exact ⟨(hF.parent_ok _ ha _ h).1, hr _ ha _ h⟩
  | tail _ h ih => exact ⟨(hF.parent_ok _ ih.1 _ h).1, (hr _ ih.1 _ h).trans ih.2⟩

theorem Forest.below_irrefl (hF : Forest g) {a : ℕ} (ha : a ∈ g.nodes) : ¬ Below g a a := by
  intro h
  obtain ⟨rank, _, hr⟩ := hF.order
  exact lt_irrefl _ (hF.below_rank hr ha h).2

theorem Forest.parent_ne (hF : Forest g) {a : ℕ} (ha : a ∈ g.nodes) : (g.node a).parent ≠ some a := fun h =>
  hF.below_irrefl ha (.single h)

theorem Forest.leaf_children (hF : Forest g) {p : ℕ} (hp : p ∈ g.nodes) (h : (g.node p).red = false) : (g.node p).children = [] := by
  rw [List.eq_nil_iff_forall_not_mem]
  intro c hc
  obtain ⟨h1, h2⟩ := (hF.child_iff p hp c).mp hc
  rw [(hF.parent_ok c h1 p h2).2] at h
  cases h

theorem Forest.mem_nextLevel (hF : Forest g) {cur : List ℕ} (hcur : ∀ x ∈ cur, x ∈ g.nodes) {c : ℕ} :
    c ∈ nextLevel g cur ↔ c ∈ g.nodes ∧ ∃ x ∈ cur, (g.node c).parent = some x := by
  unfold nextLevel
  rw [List.mem_flatMap]
  constructor
  · rintro ⟨x, hx, hc⟩
    split_ifs at hc with hr
    · obtain ⟨h1, h2⟩ := (hF.child_iff x (hcur x hx) c).mp hc
      exact ⟨h1, x, hx, h2⟩
    · simp at hc
  · rintro ⟨h1, x, hx, h2⟩
    refine ⟨x, hx, ?_⟩
    rw [if_pos (hF.parent_ok c h1 x h2).2]
    exact (hF.child_iff x (hcur x hx) c).mpr ⟨h1, h2⟩

theorem Forest.nextLevel_nodup (hF : Forest g) {cur : List ℕ} (hcur : ∀ x ∈ cur, x ∈ g.nodes) (hnd : cur.Nodup) :
    (nextLevel g cur).Nodup := by
  unfold nextLevel
  rw [List.nodup_flatMap]
  constructor
  · intro x hx
    split_ifs
    · exact hF.childNodup x (hcur x hx)
    · exact List.nodup_nil
  · refine hnd.imp_of_mem ?_
    intro a b ha hb hab
    simp only [Function.onFun]
    intro c hc1 hc2
    split_ifs at hc1 hc2
    · have e1 := ((hF.child_iff a (hcur a ha) c).mp hc1).2
      have e2 := ((hF.child_iff b (hcur b hb) c).mp hc2).2
      rw [e1] at e2
      exact hab (Option.some.inj e2)
    all_goals simp at hc1 hc2

/-- Number of nodes of higher rank. -/
def highCount (g : BGraph K) (rank : ℕ → ℕ) (x : ℕ) : ℕ := (g.nodes.toFinset.filter (fun y => rank x < rank y)).card
/-- Number of nodes of lower rank. -/
def lowCount (g : BGraph K) (rank : ℕ → ℕ) (x : ℕ) : ℕ := (g.nodes.toFinset.filter (fun y => rank y < rank x)).card

theorem highCount_le (rank : ℕ → ℕ) (x : ℕ) : highCount g rank x ≤ g.nodes.length :=
  (Finset.card_filter_le _ _).trans (List.toFinset_card_le _)
theorem lowCount_le (rank : ℕ → ℕ) (x : ℕ) : lowCount g rank x ≤ g.nodes.length :=
  (Finset.card_filter_le _ _).trans (List.toFinset_card_le _)

theorem highCount_lt {rank : ℕ → ℕ} {x c : ℕ} (hc : c ∈ g.nodes) (h : rank x < rank c) : highCount g rank c < highCount g rank x := by
  unfold highCount
  apply Finset.card_lt_card
  rw [Finset.ssubset_iff_of_subset]
  · exact ⟨c, by simp [hc, h], by simp⟩
  · intro y hy
    simp only [Finset.mem_filter] at hy ⊢
    exact ⟨hy.1, h.trans hy.2⟩

theorem lowCount_lt {rank : ℕ → ℕ} {x p : ℕ} (hp : p ∈ g.nodes) (h : rank p < rank x) : lowCount g rank p < lowCount g rank x := by
  unfold lowCount
  apply Finset.card_lt_card
  rw [Finset.ssubset_iff_of_subset]
  · exact ⟨p, by simp [hp, h], by simp⟩
  · intro y hy
    simp only [Finset.mem_filter] at hy ⊢
    exact ⟨hy.1, hy.2.trans h⟩

theorem below_cases {a b : ℕ} (h : Below g a b) : (g.node a).parent = some b ∨ ∃ p, (g.node a).parent = some p ∧ Below g p b := by
  rcases Relation.TransGen.head'_iff.mp h with ⟨c, hc, hcb⟩
  rcases Relation.reflTransGen_iff_eq_or_transGen.mp hcb with h1 | h1
  · left; rw [hc, h1]
  · right; exact ⟨c, hc, h1⟩

theorem below_tail_cases {a b : ℕ} (h : Below g a b) : (g.node a).parent = some b ∨ ∃ p, Below g a p ∧ (g.node p).parent = some b := by
  cases h with
  | single h => exact .inl h
  | tail h1 h2 => exact .inr ⟨_, h1, h2⟩

theorem Forest.ancestors_spec (hF : Forest g) {rank : ℕ → ℕ}
    (hr : ∀ k ∈ g.nodes, ∀ p, (g.node k).parent = some p → rank p < rank k) :
    ∀ (fuel k : ℕ), k ∈ g.nodes → lowCount g rank k < fuel → ∃ l, ancestors g fuel k = some l ∧ (∀ a, a ∈ l ↔ Below g k a) ∧ l.Nodup := by
  intro fuel
  induction fuel with
  | zero => intro k _ h; omega
  | succ fuel ih =>
    intro k hk hlt
    unfold ancestors
    cases hp : (g.node k).parent with
    | none =>
      refine ⟨[], rfl, ?_, List.nodup_nil⟩
      intro a
      simp only [List.not_mem_nil, false_iff]
      intro h
      rcases below_cases h with h | ⟨p, h, _⟩ <;> rw [hp] at h <;> cases h
    | some p =>
      have hpn := (hF.parent_ok k hk p hp).1
      obtain ⟨l, e, hl, hnd⟩ := ih p hpn (by have := lowCount_lt hpn (hr k hk p hp); omega)
      refine ⟨p :: l, by simp [e], ?_, ?_⟩
      · intro a
        rw [List.mem_cons, hl]
        constructor
        · rintro (rfl | h)
          · exact .single hp
          · exact Relation.TransGen.head hp h
        · intro h
          rcases below_cases h with h | ⟨q, h, h'⟩
          · left; rw [hp] at h; exact (Option.some.inj h).symm
          · right; rw [hp] at h; rw [Option.some.inj h]; exact h'
      · rw [List.nodup_cons]
        exact ⟨fun h => hF.below_irrefl hpn ((hl p).mp h), hnd⟩

/-- What the search for the nodes below a level returns. -/
structure DeepOk (g : BGraph K) (cur l : List ℕ) : Prop where
  mem : ∀ x, x ∈ l ↔ x ∈ cur ∨ (x ∈ g.nodes ∧ ∃ y ∈ cur, Below g x y)
  nodup : l.Nodup
  order : l.Pairwise (fun a b => (g.node a).parent ≠ some b)

theorem Forest.deepLoop_spec (hF : Forest g) {rank : ℕ → ℕ}
    (hr : ∀ k ∈ g.nodes, ∀ p, (g.node k).parent = some p → rank p < rank k) :
    ∀ (fuel : ℕ) (cur : List ℕ), (∀ x ∈ cur, x ∈ g.nodes) → cur.Nodup → (∀ x ∈ cur, ∀ y ∈ cur, ¬ Below g x y) → 0 < fuel →
      (∀ x ∈ cur, highCount g rank x < fuel) → ∃ l, deepLoop g fuel cur = some l ∧ DeepOk g cur l := by
  intro fuel
  induction fuel with
  | zero => intro cur _ _ _ h; omega
  | succ fuel ih =>
    intro cur hcur hnd hanti _ hlt
    have hne : ∀ x ∈ cur, ∀ y ∈ cur, (g.node x).parent ≠ some y := fun x hx y hy h => hanti x hx y hy (.single h)
    have hpw : cur.Pairwise (fun a b => (g.node a).parent ≠ some b) := by
      refine List.Pairwise.imp_of_mem ?_ hnd
      intro a b ha hb _
      exact hne a ha b hb
    unfold deepLoop
    split_ifs with hnil
    · refine ⟨cur, rfl, ?_, hnd, hpw⟩
      intro x
      refine ⟨Or.inl, ?_⟩
      rintro (h | ⟨hx, y, hy, h⟩)
      · exact h
      · exfalso
        -- the last step into `y` gives an element of the next level
        rcases below_tail_cases h with h1 | ⟨p, h1, h2⟩
        · have : x ∈ nextLevel g cur := (hF.mem_nextLevel hcur).mpr ⟨hx, y, hy, h1⟩
          rw [hnil] at this; simp at this
        · have : p ∈ nextLevel g cur := (hF.mem_nextLevel hcur).mpr ⟨(hF.below_rank hr hx h1).1, y, hy, h2⟩
          rw [hnil] at this; simp at this
    · have hn := fun c => (hF.mem_nextLevel hcur (c := c))
      have hnext : ∀ c ∈ nextLevel g cur, highCount g rank c < fuel := by
        intro c hc
        obtain ⟨hcn, x, hx, hp⟩ := (hn c).mp hc
        have := highCount_lt hcn (hr c hcn x hp)
        have := hlt x hx
        omega
      have hf : 0 < fuel := by
        obtain ⟨c, hc⟩ := List.exists_mem_of_ne_nil _ hnil
        have := hnext c hc
        omega
      obtain ⟨l, e, h1, h2, h3⟩ := ih (nextLevel g cur) (fun c hc => ((hn c).mp hc).1) (hF.nextLevel_nodup hcur hnd) (by
        intro x hx y hy hb
        obtain ⟨hxn, a, ha, hxa⟩ := (hn x).mp hx
        obtain ⟨hyn, b, hb', hyb⟩ := (hn y).mp hy
        rcases below_cases hb with h | ⟨p, h, h'⟩
        · rw [hxa] at h
          have : a = y := Option.some.inj h
          subst this
          exact hne a ha b hb' hyb
        · rw [hxa] at h
          have : a = p := Option.some.inj h
          subst this
          exact hanti a ha b hb' (h'.tail hyb)) hf hnext
      have hbelow : ∀ x ∈ l, x ∈ g.nodes ∧ ∃ y ∈ cur, Below g x y := by
        intro x hx
        rcases (h1 x).mp hx with h | ⟨h, y, hy, hb⟩
        · obtain ⟨hxn, y, hy, hp⟩ := (hn x).mp h
          exact ⟨hxn, y, hy, .single hp⟩
        · obtain ⟨_, z, hz, hp⟩ := (hn y).mp hy
          exact ⟨h, z, hz, hb.tail hp⟩
      refine ⟨cur ++ l, by rw [e]; rfl, ?_, ?_, ?_⟩
      · intro x
        rw [List.mem_append]
        constructor
        · rintro (h | h)
          · exact .inl h
          · exact .inr (hbelow x h)
        · rintro (h | ⟨hx, y, hy, hb⟩)
          · exact .inl h
          · right
            rw [h1]
            rcases below_tail_cases hb with hp | ⟨p, hb', hp⟩
            · exact .inl ((hn x).mpr ⟨hx, y, hy, hp⟩)
            · exact .inr ⟨hx, p, (hn p).mpr ⟨(hF.below_rank hr hx hb').1, y, hy, hp⟩, hb'⟩
      · rw [List.nodup_append]
        refine ⟨hnd, h2, ?_⟩
        rintro x hx y hy rfl
        obtain ⟨_, z, hz, hb⟩ := hbelow x hy
        exact hanti x hx z hz hb
      · rw [List.pairwise_append]
        refine ⟨hpw, h3, ?_⟩
        intro a ha b hb hp
        obtain ⟨_, z, hz, hbz⟩ := hbelow b hb
        exact hanti a ha z hz (Relation.TransGen.head hp hbz)

/-- `deep_children` finds exactly the nodes below, parents before children. -/
theorem Forest.deepChildren_spec (hF : Forest g) {k fuel : ℕ} (hk : k ∈ g.nodes) (hfuel : g.nodes.length < fuel) :
    ∃ l, deepChildren g fuel k = some l ∧ (∀ x, x ∈ l ↔ x ∈ g.nodes ∧ Below g x k) ∧ l.Nodup ∧
      l.Pairwise (fun a b => (g.node a).parent ≠ some b) := by
  obtain ⟨rank, _, hr⟩ := hF.order
  have hc := hF.child_iff k hk
  obtain ⟨l, e, h1, h2, h3⟩ := hF.deepLoop_spec hr fuel (g.node k).children (fun x hx => ((hc x).mp hx).1) (hF.childNodup k hk) (by
    intro x hx y hy hb
    obtain ⟨hxn, hxk⟩ := (hc x).mp hx
    obtain ⟨hyn, hyk⟩ := (hc y).mp hy
    rcases below_cases hb with h | ⟨p, h, h'⟩
    · rw [hxk] at h
      have : k = y := Option.some.inj h
      subst this
      exact hF.parent_ne hyn hyk
    · rw [hxk] at h
      have : k = p := Option.some.inj h
      subst this
      exact hF.below_irrefl hk (h'.tail hyk)) (by omega) (fun x _ => lt_of_le_of_lt (highCount_le rank x) hfuel)
  refine ⟨l, e, ?_, h2, h3⟩
  intro x
  rw [h1]
  constructor
  · rintro (h | ⟨h, y, hy, hb⟩)
    · exact ⟨((hc x).mp h).1, .single ((hc x).mp h).2⟩
    · exact ⟨h, hb.tail ((hc y).mp hy).2⟩
  · rintro ⟨hx, hb⟩
    rcases below_tail_cases hb with h | ⟨p, h, h'⟩
    · exact .inl ((hc x).mpr ⟨hx, h⟩)
    · exact .inr ⟨hx, p, (hc p).mpr ⟨(hF.below_rank hr hx h).1, h'⟩, h⟩

end basic
end BaderKit
