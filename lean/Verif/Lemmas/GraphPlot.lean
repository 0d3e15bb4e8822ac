import Verif.Model.GraphPlot
import Verif.Lemmas.BifTree
import Mathlib.Algebra.Order.BigOperators.Group.List
import Mathlib.Tactic.Ring
import Mathlib.Tactic.FieldSimp
import Mathlib.Tactic.Linarith
/-!
# Lemmas on the heights in the picture of a bifurcation graph
-/
set_option linter.unusedSectionVars false
namespace BaderKit

variable {K : Type} [Field K] [LinearOrder K] [IsStrictOrderedRing K]

/-- `x` is the node `a` or is below it. -/
def TreeWithin (g : BGraph K) (x a : ℕ) : Prop := x ∈ g.nodes ∧ (x = a ∨ Below g x a)

section
variable {g : BGraph K}

theorem within_refl {a : ℕ} (ha : a ∈ g.nodes) : TreeWithin g a a := ⟨ha, .inl rfl⟩

theorem TreeWithin.rtg {x a : ℕ} (h : TreeWithin g x a) : Relation.ReflTransGen (fun a b => (g.node a).parent = some b) x a :=
  Relation.reflTransGen_iff_eq_or_transGen.mpr (h.2.imp Eq.symm id)

theorem within_of_rtg {x a : ℕ} (hx : x ∈ g.nodes) (h : Relation.ReflTransGen (fun a b => (g.node a).parent = some b) x a) : TreeWithin g x a :=
  ⟨hx, (Relation.reflTransGen_iff_eq_or_transGen.mp h).imp Eq.symm id⟩

theorem Forest.within_mem (hF : Forest g) {x a : ℕ} (h : TreeWithin g x a) : a ∈ g.nodes := by
  obtain ⟨hx, rfl | hb⟩ := h
  · exact hx
  · obtain ⟨rank, _, hr⟩ := hF.order
    exact (hF.below_rank hr hx hb).1

theorem TreeWithin.trans {x a b : ℕ} (h1 : TreeWithin g x a) (h2 : TreeWithin g a b) : TreeWithin g x b := within_of_rtg h1.1 (h1.rtg.trans h2.rtg)

theorem Forest.within_antisymm (hF : Forest g) {a b : ℕ} (h1 : TreeWithin g a b) (h2 : TreeWithin g b a) : a = b := by
  obtain ⟨ha, rfl | h1⟩ := h1
  · rfl
  · obtain ⟨_, rfl | h2⟩ := h2
    · rfl
    · exact absurd (h1.trans h2) (hF.below_irrefl ha)

theorem Forest.within_total (hF : Forest g) {x a b : ℕ} (h1 : TreeWithin g x a) (h2 : TreeWithin g x b) : TreeWithin g a b ∨ TreeWithin g b a := by
  have U : Relator.RightUnique (fun a b : ℕ => (g.node a).parent = some b) := by
    intro a b c h1 h2
    rw [h1] at h2
    exact Option.some.inj h2
  rcases Relation.ReflTransGen.total_of_right_unique U h1.rtg h2.rtg with h | h
  · exact .inl (within_of_rtg (hF.within_mem h1) h)
  · exact .inr (within_of_rtg (hF.within_mem h2) h)

theorem Forest.within_child (hF : Forest g) {k c : ℕ} (hk : k ∈ g.nodes) (hc : c ∈ (g.node k).children) : TreeWithin g c k := by
  obtain ⟨h1, h2⟩ := (hF.child_iff k hk c).mp hc
  exact ⟨h1, .inr (.single h2)⟩

theorem Forest.child_ne (hF : Forest g) {k c : ℕ} (hk : k ∈ g.nodes) (hc : c ∈ (g.node k).children) : ¬ TreeWithin g k c := by
  intro h
  obtain ⟨h1, h2⟩ := (hF.child_iff k hk c).mp hc
  obtain ⟨_, rfl | h⟩ := h
  · exact hF.parent_ne hk h2
  · exact hF.below_irrefl hk (h.tail h2)

theorem Forest.within_iff (hF : Forest g) {k x : ℕ} (hk : k ∈ g.nodes) :
    TreeWithin g x k ↔ x = k ∨ ∃ c ∈ (g.node k).children, TreeWithin g x c := by
  constructor
  · rintro ⟨hx, h | h⟩
    · exact .inl h
    · right
      rcases below_tail_cases h with h | ⟨p, h1, h2⟩
      · exact ⟨x, (hF.child_iff k hk x).mpr ⟨hx, h⟩, within_refl hx⟩
      · have hp : p ∈ g.nodes := by
          obtain ⟨rank, _, hr⟩ := hF.order
          exact (hF.below_rank hr hx h1).1
        exact ⟨p, (hF.child_iff k hk p).mpr ⟨hp, h2⟩, hx, .inr h1⟩
  · rintro (rfl | ⟨c, hc, h⟩)
    · exact within_refl hk
    · exact h.trans (hF.within_child hk hc)

theorem Forest.siblings_apart (hF : Forest g) {k a b : ℕ} (hk : k ∈ g.nodes) (ha : a ∈ (g.node k).children) (hb : b ∈ (g.node k).children)
    (hab : a ≠ b) : ¬ TreeWithin g a b := by
  rintro ⟨_, h | h⟩
  · exact hab h
  · rcases below_cases h with h | ⟨p, h, h'⟩
    · rw [((hF.child_iff k hk a).mp ha).2] at h
      cases h
      exact hF.child_ne hk hb (within_refl hk)
    · rw [((hF.child_iff k hk a).mp ha).2] at h
      cases h
      exact hF.child_ne hk hb ⟨hk, .inr h'⟩

theorem Forest.roots_apart (hF : Forest g) {a b : ℕ} (ha : a ∈ g.roots) (hab : a ≠ b) : ¬ TreeWithin g a b := by
  rintro ⟨_, h | h⟩
  · exact hab h
  · rcases below_cases h with h | ⟨p, h, h'⟩ <;> rw [((hF.roots_iff a).mp ha).2] at h <;> cases h

theorem Forest.exists_root (hF : Forest g) {x : ℕ} (hx : x ∈ g.nodes) : ∃ r ∈ g.roots, TreeWithin g x r := by
  obtain ⟨rank, _, hr⟩ := hF.order
  generalize hn : rank x = n
  induction n using Nat.strong_induction_on generalizing x with
  | _ n ih =>
    cases hp : (g.node x).parent with
    | none => exact ⟨x, (hF.roots_iff x).mpr ⟨hx, hp⟩, within_refl hx⟩
    | some p =>
      have hpn := (hF.parent_ok x hx p hp).1
      obtain ⟨r, h1, h2⟩ := ih (rank p) (hn ▸ hr x hx p hp) hpn rfl
      exact ⟨r, h1, TreeWithin.trans ⟨hx, .inr (.single hp)⟩ h2⟩

end

/-- The value of a height, zero where there is none. -/
def YState.val (st : YState K) (x : ℕ) : K := (st.y x).getD 0

/-- What holds after the nodes of `S` got their heights. -/
structure Placed (g : BGraph K) (st st' : YState K) (S : ℕ → Prop) : Prop where
  le : st.next ≤ st'.next
  other : ∀ x, ¬ S x → st'.y x = st.y x
  val : ∀ x, S x → ∃ v, st'.y x = some v ∧ (st.next : K) ≤ v ∧ v + 1 ≤ (st'.next : K)
  leaves : ∃ L : List ℕ, L.Nodup ∧ (∀ x, x ∈ L ↔ S x ∧ (g.node x).red = false) ∧ st'.next = st.next + L.length ∧
    ∀ i (h : i < L.length), st'.y L[i] = some ((st.next : K) + (i : K))
  mean : ∀ x, S x → (g.node x).red = true → st'.y x = some (meanY ((g.node x).children.map st'.val))
  sep : ∀ a b, S a → S b → ¬ TreeWithin g a b → ¬ TreeWithin g b a →
    (∀ x z, TreeWithin g x a → TreeWithin g z b → st'.val x < st'.val z) ∨ (∀ x z, TreeWithin g x a → TreeWithin g z b → st'.val z < st'.val x)
  nodes : ∀ x, S x → x ∈ g.nodes
  closed : ∀ x z, S x → TreeWithin g z x → S z

theorem placed_nil (g : BGraph K) (st : YState K) : Placed g st st (fun _ => False) where
  le := le_refl _
  other := fun _ _ => rfl
  val := fun _ h => h.elim
  leaves := ⟨[], by simp, by simp, by simp, by simp⟩
  mean := fun _ h => h.elim
  sep := fun _ _ h => h.elim
  nodes := fun _ h => h.elim
  closed := fun _ _ h => h.elim

theorem YState.val_eq {st : YState K} {x : ℕ} {v : K} (h : st.y x = some v) : st.val x = v := by simp [YState.val, h]

theorem placed_append {g : BGraph K} (hF : Forest g) {st st1 st2 : YState K} {S T : ℕ → Prop} (h1 : Placed g st st1 S) (h2 : Placed g st1 st2 T)
    (hST : ∀ a b, S a → T b → ¬ TreeWithin g a b ∧ ¬ TreeWithin g b a) : Placed g st st2 (fun x => S x ∨ T x) := by
  have hd : ∀ x, S x → ¬ T x := fun x hS hT => (hST x x hS hT).1 (within_refl (h1.nodes x hS))
  have hy : ∀ x, S x → st2.y x = st1.y x := fun x hS => h2.other x (hd x hS)
  have hv : ∀ x, S x → st2.val x = st1.val x := fun x hS => by simp [YState.val, hy x hS]
  have hlt : ∀ x z, S x → T z → st2.val x < st2.val z := by
    intro x z hx hz
    obtain ⟨v, e1, _, e3⟩ := h1.val x hx
    obtain ⟨w, f1, f2, _⟩ := h2.val z hz
    rw [hv x hx, YState.val_eq e1, YState.val_eq f1]
    linarith
  have c1 : (st.next : K) ≤ (st1.next : K) := by exact_mod_cast h1.le
  have c2 : (st1.next : K) ≤ (st2.next : K) := by exact_mod_cast h2.le
  refine ⟨h1.le.trans h2.le, ?_, ?_, ?_, ?_, ?_, ?_, ?_⟩
  · intro x hx
    rw [h2.other x (fun h => hx (.inr h)), h1.other x (fun h => hx (.inl h))]
  · rintro x (hx | hx)
    · obtain ⟨v, e1, e2, e3⟩ := h1.val x hx
      exact ⟨v, by rw [hy x hx, e1], e2, e3.trans c2⟩
    · obtain ⟨v, e1, e2, e3⟩ := h2.val x hx
      exact ⟨v, e1, c1.trans e2, e3⟩
  · obtain ⟨L, a1, a2, a3, a4⟩ := h1.leaves
    obtain ⟨M, b1, b2, b3, b4⟩ := h2.leaves
    refine ⟨L ++ M, ?_, ?_, ?_, ?_⟩
    · rw [List.nodup_append]
      refine ⟨a1, b1, ?_⟩
      rintro x hx y hy rfl
      exact hd x ((a2 x).mp hx).1 ((b2 x).mp hy).1
    · intro x
      rw [List.mem_append, a2, b2]
      tauto
    · rw [b3, a3, List.length_append]; omega
    · intro i hi
      rw [List.length_append] at hi
      by_cases h : i < L.length
      · rw [List.getElem_append_left h, hy _ ((a2 _).mp (List.getElem_mem h)).1, a4 i h]
      · rw [List.getElem_append_right (by omega), b4 (i - L.length) (by omega), a3, Nat.cast_add, Nat.cast_sub (by omega)]
        congr 1
        ring
  · rintro x (hx | hx) hr
    · rw [hy x hx, h1.mean x hx hr]
      congr 2
      refine List.map_congr_left ?_
      intro c hc
      exact (hv c (h1.closed x c hx (hF.within_child (h1.nodes x hx) hc))).symm
    · exact h2.mean x hx hr
  · rintro a b (ha | ha) (hb | hb) n1 n2
    · rcases h1.sep a b ha hb n1 n2 with h | h
      · left
        intro x z hx hz
        rw [hv x (h1.closed a x ha hx), hv z (h1.closed b z hb hz)]
        exact h x z hx hz
      · right
        intro x z hx hz
        rw [hv x (h1.closed a x ha hx), hv z (h1.closed b z hb hz)]
        exact h x z hx hz
    · left
      exact fun x z hx hz => hlt x z (h1.closed a x ha hx) (h2.closed b z hb hz)
    · right
      exact fun x z hx hz => hlt z x (h1.closed b z hb hz) (h2.closed a x ha hx)
    · exact h2.sep a b ha hb n1 n2
  · rintro x (hx | hx)
    · exact h1.nodes x hx
    · exact h2.nodes x hx
  · rintro x z (hx | hx) hz
    · exact .inl (h1.closed x z hx hz)
    · exact .inr (h2.closed x z hx hz)

theorem Placed.congr {g : BGraph K} {st st' : YState K} {S T : ℕ → Prop} (h : Placed g st st' S) (hST : ∀ x, S x ↔ T x) : Placed g st st' T := by
  have : S = T := funext fun x => propext (hST x)
  rwa [← this]

theorem meanY_bounds {l : List K} (hl : l ≠ []) {a b : K} (h : ∀ x ∈ l, a ≤ x ∧ x ≤ b) : a ≤ meanY l ∧ meanY l ≤ b := by
  have hpos : (0 : K) < (l.length : K) := by exact_mod_cast List.length_pos_iff.mpr hl
  have h1 : (l.length : K) * a ≤ l.sum := by
    have := List.card_nsmul_le_sum l a (fun x hx => (h x hx).1)
    rwa [nsmul_eq_mul] at this
  have h2 : l.sum ≤ (l.length : K) * b := by
    have := List.sum_le_card_nsmul l b (fun x hx => (h x hx).2)
    rwa [nsmul_eq_mul] at this
  unfold meanY
  constructor
  · rw [le_div_iff₀ hpos]; linarith
  · rw [div_le_iff₀ hpos]; linarith

theorem mapM_option_some {α β : Type} (f : α → Option β) (g : α → β) : ∀ l : List α, (∀ x ∈ l, f x = some (g x)) → l.mapM f = some (l.map g) := by
  intro l
  induction l with
  | nil => intro _; rfl
  | cons a l ih =>
    intro h
    rw [List.mapM_cons, h a (by simp), ih (fun x hx => h x (by simp [hx]))]
    rfl

/-- A fold over independent subtrees. -/
theorem placed_fold {g : BGraph K} (hF : Forest g) (f : YState K → ℕ → Option (YState K))
    (cs : List ℕ) (hnd : cs.Nodup) (hap : ∀ a ∈ cs, ∀ b ∈ cs, a ≠ b → ¬ TreeWithin g a b)
    (hf : ∀ c ∈ cs, ∀ st, ∃ st', f st c = some st' ∧ Placed g st st' (fun x => TreeWithin g x c)) :
    ∀ st, ∃ st', cs.foldlM f st = some st' ∧ Placed g st st' (fun x => ∃ c ∈ cs, TreeWithin g x c) := by
  induction cs with
  | nil => intro st; exact ⟨st, rfl, (placed_nil g st).congr (by simp)⟩
  | cons c cs ih =>
    intro st
    obtain ⟨st1, e1, p1⟩ := hf c (by simp) st
    rw [List.nodup_cons] at hnd
    obtain ⟨st2, e2, p2⟩ := ih hnd.2 (fun a ha b hb => hap a (by simp [ha]) b (by simp [hb])) (fun a ha => hf a (by simp [ha])) st1
    refine ⟨st2, by rw [List.foldlM_cons, e1]; exact e2, ?_⟩
    refine (placed_append hF p1 p2 ?_).congr ?_
    · rintro a b ha ⟨d, hd, hb⟩
      have hcd : c ≠ d := by rintro rfl; exact hnd.1 hd
      have k1 := hap c (by simp) d (by simp [hd]) hcd
      have k2 := hap d (by simp [hd]) c (by simp) (Ne.symm hcd)
      constructor
      · intro h
        rcases hF.within_total ha (h.trans hb) with h | h
        · exact k1 h
        · exact k2 h
      · intro h
        rcases hF.within_total (h.trans ha) hb with h | h
        · exact k1 h
        · exact k2 h
    · intro x
      simp

theorem placed_node {g : BGraph K} (hF : Forest g) (hkids : ∀ k ∈ g.nodes, (g.node k).red = true → (g.node k).children ≠ []) {rank : ℕ → ℕ}
    (hr : ∀ k ∈ g.nodes, ∀ p, (g.node k).parent = some p → rank p < rank k) :
    ∀ (fuel : ℕ) (k : ℕ), k ∈ g.nodes → highCount g rank k < fuel → ∀ st : YState K,
      ∃ st', assignY g fuel st k = some st' ∧ Placed g st st' (fun x => TreeWithin g x k) := by
  intro fuel
  induction fuel with
  | zero => intro k _ h; omega
  | succ fuel ih =>
    intro k hk hlt st
    unfold assignY
    by_cases hred : (g.node k).red = false
    · rw [if_pos hred]
      refine ⟨_, rfl, ?_⟩
      have honly : ∀ x, TreeWithin g x k ↔ x = k := by
        intro x
        rw [hF.within_iff hk, hF.leaf_children hk hred]
        simp
      refine Placed.congr (S := fun x => x = k) ?_ (fun x => (honly x).symm)
      refine ⟨by simp, ?_, ?_, ?_, ?_, ?_, ?_, ?_⟩
      · intro x hx
        exact Function.update_of_ne hx _ _
      · rintro x rfl
        exact ⟨(st.next : K), by simp, le_refl _, by simp⟩
      · refine ⟨[k], by simp, ?_, by simp, ?_⟩
        · intro x
          simp only [List.mem_singleton]
          exact ⟨fun h => ⟨h, h ▸ hred⟩, fun h => h.1⟩
        · intro i hi
          simp only [List.length_singleton, Nat.lt_one_iff] at hi
          subst hi
          simp
      · rintro x rfl h
        rw [hred] at h; cases h
      · rintro a b rfl rfl h
        exact absurd (within_refl hk) h
      · rintro x rfl
        exact hk
      · rintro x z rfl h
        exact (honly z).mp h
    · rw [if_neg hred]
      have hred' : (g.node k).red = true := by simpa using hred
      have hne := hkids k hk hred'
      obtain ⟨st1, e1, p1⟩ := placed_fold hF (fun s c => assignY g fuel s c) (g.node k).children (hF.childNodup k hk)
        (fun a ha b hb hab => hF.siblings_apart hk ha hb hab) (by
          intro c hc st
          obtain ⟨hcn, hcp⟩ := (hF.child_iff k hk c).mp hc
          exact ih c hcn (by have := highCount_lt (g := g) hcn (hr c hcn k hcp); omega) st) st
      have hSk : ¬ ∃ c ∈ (g.node k).children, TreeWithin g k c := by
        rintro ⟨c, hc, h⟩
        exact hF.child_ne hk hc h
      have hSc : ∀ c ∈ (g.node k).children, ∃ d ∈ (g.node k).children, TreeWithin g c d := fun c hc => ⟨c, hc, within_refl (((hF.child_iff k hk c).mp hc).1)⟩
      have hys : (g.node k).children.mapM st1.y = some ((g.node k).children.map st1.val) := by
        refine mapM_option_some _ _ _ ?_
        intro c hc
        obtain ⟨v, e, _⟩ := p1.val c (hSc c hc)
        rw [e, YState.val_eq e]
      have hb := meanY_bounds (l := (g.node k).children.map st1.val) (a := (st.next : K)) (b := (st1.next : K) - 1) (by simpa using hne) (by
        intro x hx
        obtain ⟨c, hc, rfl⟩ := List.mem_map.mp hx
        obtain ⟨v, e, h1, h2⟩ := p1.val c (hSc c hc)
        rw [YState.val_eq e]
        exact ⟨h1, by linarith⟩)
      refine ⟨{ st1 with y := Function.update st1.y k (some (meanY ((g.node k).children.map st1.val))) }, ?_, ?_⟩
      · rw [e1]
        simp only [Option.bind_eq_bind, Option.bind_some, hys]
        rw [if_neg (by simpa using hne)]
      · have hy : ∀ x, x ≠ k → Function.update st1.y k (some (meanY ((g.node k).children.map st1.val))) x = st1.y x := fun x hx =>
          Function.update_of_ne hx _ _
        have hv : ∀ x, x ≠ k → (YState.mk st1.next (Function.update st1.y k (some (meanY ((g.node k).children.map st1.val))))).val x = st1.val x := by
          intro x hx
          simp [YState.val, hy x hx]
        refine Placed.congr (S := fun x => x = k ∨ ∃ c ∈ (g.node k).children, TreeWithin g x c) ?_ (fun x => (hF.within_iff hk).symm)
        refine ⟨p1.le, ?_, ?_, ?_, ?_, ?_, ?_, ?_⟩
        · intro x hx
          push Not at hx
          exact (hy x hx.1).trans (p1.other x (by push Not; exact hx.2))
        · rintro x (rfl | hx)
          · exact ⟨_, Function.update_self _ _ _, hb.1, by linarith [hb.2]⟩
          · obtain ⟨v, e, h1, h2⟩ := p1.val x hx
            exact ⟨v, (hy x (by rintro rfl; exact hSk hx)).trans e, h1, h2⟩
        · obtain ⟨L, a1, a2, a3, a4⟩ := p1.leaves
          refine ⟨L, a1, ?_, a3, ?_⟩
          · intro x
            rw [a2]
            constructor
            · exact fun h => ⟨.inr h.1, h.2⟩
            · rintro ⟨rfl | h, h'⟩
              · rw [hred'] at h'; cases h'
              · exact ⟨h, h'⟩
          · intro i hi
            refine (hy _ ?_).trans (a4 i hi)
            intro h
            exact hSk (h ▸ ((a2 _).mp (List.getElem_mem hi)).1)
        · intro x hx hxr
          have hmap : ∀ l : List ℕ, (∀ c ∈ l, c ≠ k) →
              l.map (YState.mk st1.next (Function.update st1.y k (some (meanY ((g.node k).children.map st1.val))))).val = l.map st1.val :=
            fun l hl => List.map_congr_left (fun c hc => hv c (hl c hc))
          rcases hx with rfl | hx
          · rw [hmap _ (fun c hc h => by subst h; exact hF.child_ne hk hc (within_refl hk))]
            exact Function.update_self _ _ _
          · rw [hmap _ (fun c hc h => by
              obtain ⟨d, hd, hxd⟩ := hx
              exact hSk ⟨d, hd, h ▸ (hF.within_child hxd.1 hc).trans hxd⟩)]
            exact (hy x (by rintro rfl; exact hSk hx)).trans (p1.mean x hx hxr)
        · intro a b ha hb' n1 n2
          rcases ha with rfl | ha
          · exact absurd ((hF.within_iff hk).mpr hb') n2
          rcases hb' with rfl | hb'
          · exact absurd ((hF.within_iff hk).mpr (.inr ha)) n1
          have ne : ∀ x y, (∃ c ∈ (g.node k).children, TreeWithin g y c) → TreeWithin g x y → x ≠ k := by
            rintro x y h hxy rfl
            exact hSk (p1.closed y _ h hxy)
          rcases p1.sep a b ha hb' n1 n2 with h | h
          · left
            intro x z hx hz
            rw [hv x (ne x a ha hx), hv z (ne z b hb' hz)]
            exact h x z hx hz
          · right
            intro x z hx hz
            rw [hv x (ne x a ha hx), hv z (ne z b hb' hz)]
            exact h x z hx hz
        · rintro x (rfl | hx)
          · exact hk
          · exact p1.nodes x hx
        · rintro x z (rfl | hx) hz
          · exact (hF.within_iff hk).mp hz
          · exact .inr (p1.closed x z hx hz)

/-- All nodes get a height. -/
theorem placed_all {g : BGraph K} (hF : Forest g) (hkids : ∀ k ∈ g.nodes, (g.node k).red = true → (g.node k).children ≠ []) {fuel : ℕ}
    (hfuel : g.nodes.length < fuel) : ∃ st', assignAll g fuel = some st' ∧ Placed g ⟨0, fun _ => none⟩ st' (fun x => x ∈ g.nodes) := by
  obtain ⟨rank, _, hr⟩ := hF.order
  obtain ⟨st', e, p⟩ := placed_fold hF (fun s c => assignY g fuel s c) g.roots hF.rootsNodup (fun a ha b _ hab => hF.roots_apart ha hab) (by
    intro c hc st
    exact placed_node hF hkids hr fuel c ((hF.roots_iff c).mp hc).1 (lt_of_le_of_lt (highCount_le rank c) hfuel) st) ⟨0, fun _ => none⟩
  refine ⟨st', e, p.congr ?_⟩
  intro x
  constructor
  · rintro ⟨c, _, h⟩
    exact h.1
  · intro h
    exact hF.exists_root h

end BaderKit
