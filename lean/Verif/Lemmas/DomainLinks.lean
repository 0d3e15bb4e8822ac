import Verif.Spec.DomainTree
import Verif.Props.UnionFind
import Verif.Lemmas.UnionFind
import Mathlib.Data.List.Sort
import Mathlib.Data.List.Range
import Mathlib.Tactic.Linarith
/-! # Connections of basins: groups are the connected components -/
set_option linter.unusedSectionVars false
namespace BaderKit
variable {K : Type} [Field K] [LinearOrder K]

theorem BasinAt.mono {conns : List (Conn K)} {t u : K} (h : t ≤ u) {b : ℕ} (hb : BasinAt conns u b) : BasinAt conns t b := by
  obtain ⟨c, hc, h1, h2⟩ := hb
  exact ⟨c, hc, h.trans h1, h2⟩

theorem JoinedAt.mono {conns : List (Conn K)} {t u : K} (h : t ≤ u) {a b : ℕ} (hb : JoinedAt conns u a b) : JoinedAt conns t a b := by
  induction hb with
  | rel a b hab => obtain ⟨c, hc, h1, h2⟩ := hab; exact .rel _ _ ⟨c, hc, h.trans h1, h2⟩
  | refl a => exact .refl _
  | symm _ _ _ ih => exact .symm _ _ ih
  | trans _ _ _ _ _ ih1 ih2 => exact .trans _ _ _ ih1 ih2

theorem JoinedAt.basin {conns : List (Conn K)} {t : K} {a b : ℕ} (h : JoinedAt conns t a b) : BasinAt conns t a ↔ BasinAt conns t b := by
  induction h with
  | rel a b hab =>
    obtain ⟨c, hc, h1, h2, h3⟩ := hab
    exact ⟨fun _ => ⟨c, hc, h1, Or.inr h3.symm⟩, fun _ => ⟨c, hc, h1, Or.inl h2.symm⟩⟩
  | refl a => rfl
  | symm _ _ _ ih => exact ih.symm
  | trans _ _ _ _ _ ih1 ih2 => exact ih1.trans ih2

/-- State of the connections after all those at or above `t`. -/
structure LinkOk (conns : List (Conn K)) (t : K) (D : ℕ) (st : LinkState) : Prop where
  uf : ∃ l : List (ℕ × ℕ), (∀ a b, (a, b) ∈ l ↔ ∃ c ∈ conns, t ≤ c.val ∧ c.i = a ∧ c.j = b) ∧ UFInv l D st.parent
  seen : ∀ b, st.seen b = true ↔ BasinAt conns t b

theorem UFInv.skip {l : List (ℕ × ℕ)} {D : ℕ} {p : ℕ → ℕ} (h : UFInv l D p) {x y r : ℕ} (hx : RootOf p x r) (hy : RootOf p y r) :
    UFInv (l ++ [(x, y)]) D p := by
  refine ⟨h.total, fun a b => ?_⟩
  rw [h.conn]
  constructor
  · exact connected_mono (by intro e he; simp [he])
  · intro hc
    induction hc with
    | rel a b hab =>
      rcases List.mem_append.mp hab with hab | hab
      · exact .rel _ _ hab
      · simp only [List.mem_singleton, Prod.mk.injEq] at hab
        obtain ⟨rfl, rfl⟩ := hab
        exact (h.conn _ _).mp ⟨r, hx, hy⟩
    | refl a => exact .refl _
    | symm _ _ _ ih => exact .symm _ _ ih
    | trans _ _ _ _ _ ih1 ih2 => exact .trans _ _ _ ih1 ih2

theorem RootIn.weaken {l : List (ℕ × ℕ)} {D D' : ℕ} {p : ℕ → ℕ} (h : UFInv l D p) (hd : D ≤ D') : UFInv l D' p :=
  ⟨fun x => by obtain ⟨r, hr⟩ := h.total x; exact ⟨r, hr.mono hd⟩, h.conn⟩

/-- Part of the connections of a level have been done. -/
theorem linkFold {conns : List (Conn K)} (fuel : ℕ) (cs : List (Conn K)) : ∀ {l : List (ℕ × ℕ)} {D : ℕ} {st : LinkState},
    UFInv l D st.parent → D + cs.length < fuel → ∃ st', cs.foldlM (linkOne fuel) st = some st' ∧
      UFInv (l ++ cs.map fun c => (c.i, c.j)) (D + cs.length) st'.parent ∧
      ∀ b, st'.seen b = true ↔ st.seen b = true ∨ ∃ c ∈ cs, b = c.i ∨ b = c.j := by
  induction cs with
  | nil => intro l D st h hf; exact ⟨st, rfl, by simpa using h, by simp⟩
  | cons c cs ih =>
    intro l D st h hf
    simp only [List.length_cons] at hf
    obtain ⟨ri, hi⟩ := h.total c.i
    obtain ⟨p1, e1, c1⟩ := findRoot_spec D st.parent c.i ri hi fuel (by omega)
    obtain ⟨rj, hj⟩ := h.total c.j
    obtain ⟨p2, e2, c2⟩ := findRoot_spec D p1 c.j rj (c1.roots _ _ _ hj) fuel (by omega)
    have h2 := h.compress (c1.trans c2)
    have hone : ∃ q, linkOne fuel st c = some ⟨q, Function.update (Function.update st.seen c.i true) c.j true⟩ ∧
        UFInv (l ++ [(c.i, c.j)]) (D + 1) q := by
      by_cases hr : ri = rj
      · refine ⟨p2, by simp [linkOne, e1, e2, hr], ?_⟩
        subst hr
        exact RootIn.weaken (h2.skip ((c1.trans c2).rootOf hi.rootOf) ((c1.trans c2).rootOf hj.rootOf)) (by omega)
      · obtain ⟨q2, rx, ry, _, _, _, eu, hu, _⟩ := union_spec h2 c.i c.j fuel (by omega)
        exact ⟨_, by simp [linkOne, e1, e2, hr, eu], hu⟩
    obtain ⟨q, eq, hq⟩ := hone
    obtain ⟨st', e', h', hs⟩ := ih (st := ⟨q, Function.update (Function.update st.seen c.i true) c.j true⟩) hq (by omega)
    refine ⟨st', by simp [List.foldlM_cons, eq, e'], ?_, ?_⟩
    · have : D + 1 + cs.length = D + (c :: cs).length := by simp; omega
      rw [this] at h'
      simpa using h'
    · intro b
      rw [hs b]
      simp only [Function.update_apply, List.mem_cons, exists_eq_or_imp]
      split_ifs with h1 h2 <;> simp_all

/-- The compressed array has chains of length at most one, and two basins the same entry iff they are connected. -/
theorem linkLevel_spec {conns : List (Conn K)} {prev value : K} {st : LinkState} {fuel nb : ℕ}
    (hnb : ∀ c ∈ conns, c.i < nb ∧ c.j < nb) (hf : conns.length + 2 < fuel) (hv : value < prev) (hst : LinkOk conns prev 1 st) :
    ∃ st', linkLevel fuel nb conns prev value st = some st' ∧ LinkOk conns value 1 st' ∧
      ∀ a b, (st'.parent a = st'.parent b ↔ JoinedAt conns value a b) := by
  obtain ⟨l, hl, hu⟩ := hst.uf
  have hlen : (conns.filter fun c => decide (value ≤ c.val ∧ c.val < prev)).length ≤ conns.length := List.length_filter_le _ _
  obtain ⟨st1, e1, h1, hs1⟩ := linkFold (conns := conns) fuel _ hu
    (show 1 + (conns.filter fun c => decide (value ≤ c.val ∧ c.val < prev)).length < fuel by omega)
  obtain ⟨p', new, e2, hc, hin, hout⟩ := compressRoots_spec fuel (by omega) (List.range nb) (new := fun x => x) h1
  have hmem : ∀ a b, (a, b) ∈ l ++ (conns.filter fun c => decide (value ≤ c.val ∧ c.val < prev)).map (fun c => (c.i, c.j)) ↔
      ∃ c ∈ conns, value ≤ c.val ∧ c.i = a ∧ c.j = b := by
    intro a b
    simp only [List.mem_append, hl, List.mem_map, List.mem_filter, decide_eq_true_eq, Prod.mk.injEq]
    constructor
    · rintro (⟨c, hc, h, h3⟩ | ⟨c, ⟨hc, h⟩, h3⟩)
      · exact ⟨c, hc, hv.le.trans h, h3⟩
      · exact ⟨c, hc, h.1, h3⟩
    · rintro ⟨c, hc, h, h3⟩
      by_cases hp : prev ≤ c.val
      · exact Or.inl ⟨c, hc, hp, h3⟩
      · exact Or.inr ⟨c, ⟨hc, h, lt_of_not_ge hp⟩, h3⟩
  have hjoin : ∀ a b, Connected (l ++ (conns.filter fun c => decide (value ≤ c.val ∧ c.val < prev)).map (fun c => (c.i, c.j))) a b ↔
      JoinedAt conns value a b := by
    intro a b
    have : (fun a b => (a, b) ∈ l ++ (conns.filter fun c => decide (value ≤ c.val ∧ c.val < prev)).map (fun c => (c.i, c.j))) =
        fun a b => ∃ c ∈ conns, value ≤ c.val ∧ c.i = a ∧ c.j = b := by
      funext a b; exact propext (hmem a b)
    unfold Connected JoinedAt
    rw [this]
  have hjout : ∀ a b, JoinedAt conns value a b → (a < nb ↔ b < nb) := by
    intro a b h
    induction h with
    | rel a b hab => obtain ⟨c, hc, _, rfl, rfl⟩ := hab; have := hnb c hc; omega
    | refl a => rfl
    | symm _ _ _ ih => exact ih.symm
    | trans _ _ _ _ _ ih1 ih2 => exact ih1.trans ih2
  have hroot : ∀ a, RootOf st1.parent a (new a) := by
    intro a
    by_cases ha : a < nb
    · exact hin a (by simpa using ha)
    · rw [hout a (by simpa using ha)]
      obtain ⟨r, hr⟩ := h1.total a
      have hra : JoinedAt conns value a r := (hjoin a r).mp ((h1.conn a r).mp ⟨r, hr.rootOf, .base hr.rootOf.fix⟩)
      have : a = r := by
        have key : ∀ x y, JoinedAt conns value x y → nb ≤ x → x = y := by
          intro x y h
          induction h with
          | rel x y hab => obtain ⟨c, hc, _, rfl, rfl⟩ := hab; have := hnb c hc; intro; omega
          | refl a => intro; rfl
          | symm x y hxy ih => intro hx; exact (ih (by have := hjout _ _ hxy; omega)).symm
          | trans x y z h1 h2 ih1 ih2 => intro hx; have := ih1 hx; subst this; exact ih2 hx
        exact key a r hra (by omega)
      subst this; exact hr.rootOf
  have hsame : ∀ a b, new a = new b ↔ JoinedAt conns value a b := by
    intro a b
    rw [← hjoin, ← h1.conn]
    constructor
    · intro h; exact ⟨new a, hroot a, h ▸ hroot b⟩
    · rintro ⟨r, ha, hb⟩; rw [(hroot a).unique ha, (hroot b).unique hb]
  have hfix : ∀ a, new (new a) = new a := by
    intro a
    exact (hroot (new a)).of_fix (hroot a).fix
  refine ⟨⟨new, st1.seen⟩, by unfold linkLevel; rw [e1]; simp [e2], ⟨⟨_, hmem, ?_⟩, ?_⟩, hsame⟩
  · refine ⟨fun x => ⟨new x, .step (.base (hfix x))⟩, fun a b => ?_⟩
    rw [hjoin, ← hsame]
    constructor
    · rintro ⟨r, ha, hb⟩
      have ea : RootOf new a (new a) := .step (.base (hfix a))
      have eb : RootOf new b (new b) := .step (.base (hfix b))
      rw [ea.unique ha, eb.unique hb]
    · intro h; exact ⟨new a, .step (.base (hfix a)), h ▸ .step (.base (hfix b))⟩
  · intro b
    show st1.seen b = true ↔ _
    rw [hs1 b, hst.seen b]
    simp only [BasinAt, List.mem_filter, decide_eq_true_eq]
    constructor
    · rintro (⟨c, hc, h, h3⟩ | ⟨c, ⟨hc, h⟩, h3⟩)
      · exact ⟨c, hc, hv.le.trans h, h3⟩
      · exact ⟨c, hc, h.1, h3⟩
    · rintro ⟨c, hc, h, h3⟩
      by_cases hp : prev ≤ c.val
      · exact Or.inl ⟨c, hc, hp, h3⟩
      · exact Or.inr ⟨c, ⟨hc, h, lt_of_not_ge hp⟩, h3⟩

/-! ### Groups -/

/-- What the loop over the basins has found after the first `n`. -/
structure GroupScan (st : LinkState) (n : ℕ) (x : (ℕ → Option ℕ) × List (List ℕ)) : Prop where
  idx : ∀ r k, x.1 r = some k ↔ ∃ g, x.2[k]? = some g ∧ ∃ b ∈ g, st.parent b = r
  class' : ∀ (k : ℕ) (g : List ℕ), x.2[k]? = some g → ∀ b ∈ g, ∀ c, c ∈ g ↔ c < n ∧ st.seen c = true ∧ st.parent c = st.parent b
  ne : ∀ g ∈ x.2, g ≠ []
  sorted : ∀ g ∈ x.2, g.Pairwise (· < ·)
  cover : ∀ b < n, st.seen b = true → ∃ g ∈ x.2, b ∈ g

theorem groupScan (st : LinkState) (n : ℕ) : GroupScan st n ((List.range n).foldl (groupBasin st) (fun _ => none, [])) := by
  induction n with
  | zero => exact ⟨by simp, by simp, by simp, by simp, by simp⟩
  | succ n ih =>
    rw [List.range_succ, List.foldl_append, List.foldl_cons, List.foldl_nil]
    set x := (List.range n).foldl (groupBasin st) (fun _ => none, []) with hx
    clear_value x
    unfold groupBasin
    by_cases hs : st.seen n = false
    · rw [if_pos hs]
      refine ⟨ih.idx, ?_, ih.ne, ih.sorted, ?_⟩
      · intro k g hg b hb c
        rw [ih.class' k g hg b hb c]
        constructor
        · rintro ⟨h1, h2⟩; exact ⟨by omega, h2⟩
        · rintro ⟨h1, h2, h3⟩
          refine ⟨?_, h2, h3⟩
          rcases Nat.lt_succ_iff_lt_or_eq.mp h1 with h | rfl
          · exact h
          · simp [hs] at h2
      · intro b hb hsb
        rcases Nat.lt_succ_iff_lt_or_eq.mp hb with h | rfl
        · exact ih.cover b h hsb
        · simp [hs] at hsb
    · rw [if_neg hs]
      have hs' : st.seen n = true := by simpa using hs
      rcases hk : x.1 (st.parent n) with _ | k
      · have hnone : ∀ g ∈ x.2, ∀ b ∈ g, st.parent b ≠ st.parent n := by
          intro g hg b hb e
          obtain ⟨k, hk'⟩ := List.getElem?_of_mem hg
          have := (ih.idx (st.parent n) k).mpr ⟨g, hk', b, hb, e⟩
          rw [hk] at this; cases this
        have hget : ∀ (k : ℕ) g, (x.2 ++ [[n]])[k]? = some g → x.2[k]? = some g ∨ (k = x.2.length ∧ g = [n]) := by
          intro k g h
          rcases Nat.lt_trichotomy k x.2.length with hlt | rfl | hgt
          · rw [List.getElem?_append_left hlt] at h; exact Or.inl h
          · simp at h; exact Or.inr ⟨rfl, h.symm⟩
          · rw [List.getElem?_append_right hgt.le] at h
            have : 1 ≤ k - x.2.length := by omega
            rw [List.getElem?_eq_none (by simpa using this)] at h; cases h
        have hget' : ∀ (k : ℕ) g, x.2[k]? = some g → (x.2 ++ [[n]])[k]? = some g := by
          intro k g h
          have : k < x.2.length := (List.getElem?_eq_some_iff.mp h).1
          rw [List.getElem?_append_left this]; exact h
        refine ⟨?_, ?_, ?_, ?_, ?_⟩
        · intro r k
          show Function.update x.1 (st.parent n) (some x.2.length) r = some k ↔ _
          by_cases hr : r = st.parent n
          · subst hr
            rw [Function.update_self]
            constructor
            · intro h
              obtain rfl : x.2.length = k := by simpa using h
              exact ⟨[n], by simp, n, by simp, rfl⟩
            · rintro ⟨g, hg, b, hb, e⟩
              rcases hget k g hg with h | ⟨h, _⟩
              · exact absurd e (hnone g (List.mem_of_getElem? h) b hb)
              · rw [h]
          · rw [Function.update_of_ne hr, ih.idx]
            constructor
            · rintro ⟨g, hg, h⟩; exact ⟨g, hget' k g hg, h⟩
            · rintro ⟨g, hg, b, hb, e⟩
              rcases hget k g hg with h | ⟨_, h⟩
              · exact ⟨g, h, b, hb, e⟩
              · subst h
                obtain rfl : b = n := by simpa using hb
                exact absurd e.symm hr
        · intro k g hg b hb c
          rcases hget k g hg with h | ⟨_, rfl⟩
          · rw [ih.class' k g h b hb c]
            constructor
            · rintro ⟨h1, h2⟩; exact ⟨by omega, h2⟩
            · rintro ⟨h1, h2, h3⟩
              refine ⟨?_, h2, h3⟩
              rcases Nat.lt_succ_iff_lt_or_eq.mp h1 with h' | rfl
              · exact h'
              · exact absurd h3.symm (hnone g (List.mem_of_getElem? h) b hb)
          · obtain rfl : b = n := by simpa using hb
            constructor
            · intro hc
              obtain rfl : c = b := by simpa using hc
              exact ⟨by omega, hs', rfl⟩
            · rintro ⟨h1, h2, h3⟩
              rcases Nat.lt_succ_iff_lt_or_eq.mp h1 with h' | rfl
              · obtain ⟨g, hg', hc⟩ := ih.cover c h' h2
                exact absurd h3 (hnone g hg' c hc)
              · simp
        · intro g hg
          rcases List.mem_append.mp hg with h | h
          · exact ih.ne g h
          · simp at h; simp [h]
        · intro g hg
          rcases List.mem_append.mp hg with h | h
          · exact ih.sorted g h
          · simp at h; simp [h]
        · intro b hb hsb
          rcases Nat.lt_succ_iff_lt_or_eq.mp hb with h | rfl
          · obtain ⟨g, hg, h'⟩ := ih.cover b h hsb
            exact ⟨g, by simp [hg], h'⟩
          · exact ⟨[b], by simp, by simp⟩
      · obtain ⟨g0, hg0, b0, hb0, e0⟩ := (ih.idx _ _).mp hk
        have hget : ∀ (i : ℕ) g, (x.2.modify k fun g => g ++ [n])[i]? = some g ↔
            (i = k ∧ g = g0 ++ [n]) ∨ (i ≠ k ∧ x.2[i]? = some g) := by
          intro i g
          rw [List.getElem?_modify]
          by_cases hi : k = i
          · subst hi
            simp [hg0, eq_comm]
          · simp [hi, Ne.symm hi]
        have hlt : ∀ (i : ℕ) g, x.2[i]? = some g → ∀ b ∈ g, b < n := fun i g hg b hb => ((ih.class' i g hg b hb b).mp hb).1
        have hmem : ∀ g, g ∈ (x.2.modify k fun g => g ++ [n]) ↔ g = g0 ++ [n] ∨ ∃ i, i ≠ k ∧ x.2[i]? = some g := by
          intro g
          rw [List.mem_iff_getElem?]
          simp only [hget]
          constructor
          · rintro ⟨i, ⟨_, h⟩ | h⟩
            · exact Or.inl h
            · exact Or.inr ⟨i, h⟩
          · rintro (h | ⟨i, h⟩)
            · exact ⟨k, Or.inl ⟨rfl, h⟩⟩
            · exact ⟨i, Or.inr h⟩
        refine ⟨?_, ?_, ?_, ?_, ?_⟩
        · intro r i
          show x.1 r = some i ↔ _
          rw [ih.idx]
          constructor
          · rintro ⟨g, hg, b, hb, e⟩
            by_cases hi : i = k
            · subst hi
              obtain rfl : g = g0 := by rw [hg] at hg0; simpa using hg0
              exact ⟨g ++ [n], (hget _ _).mpr (Or.inl ⟨rfl, rfl⟩), b, by simp [hb], e⟩
            · exact ⟨g, (hget _ _).mpr (Or.inr ⟨hi, hg⟩), b, hb, e⟩
          · rintro ⟨g, hg, b, hb, e⟩
            rcases (hget _ _).mp hg with ⟨rfl, rfl⟩ | ⟨hi, hg⟩
            · rcases List.mem_append.mp hb with h | h
              · exact ⟨g0, hg0, b, h, e⟩
              · obtain rfl : b = n := by simpa using h
                exact ⟨g0, hg0, b0, hb0, e0.trans e⟩
            · exact ⟨g, hg, b, hb, e⟩
        · intro i g hg b hb c
          rcases (hget _ _).mp hg with ⟨rfl, rfl⟩ | ⟨hi, hg1⟩
          · have hbp : st.parent b = st.parent n := by
              rcases List.mem_append.mp hb with h | h
              · exact (((ih.class' _ _ hg0 b0 hb0 b).mp h).2.2).trans e0
              · obtain rfl : b = n := by simpa using h
                rfl
            rw [hbp, List.mem_append, ih.class' _ _ hg0 b0 hb0 c, e0]
            simp only [List.mem_singleton]
            constructor
            · rintro (⟨h1, h2⟩ | rfl)
              · exact ⟨by omega, h2⟩
              · exact ⟨by omega, hs', rfl⟩
            · rintro ⟨h1, h2⟩
              rcases Nat.lt_succ_iff_lt_or_eq.mp h1 with h' | rfl
              · exact Or.inl ⟨h', h2⟩
              · exact Or.inr rfl
          · rw [ih.class' _ _ hg1 b hb c]
            constructor
            · rintro ⟨h1, h2⟩; exact ⟨by omega, h2⟩
            · rintro ⟨h1, h2, h3⟩
              refine ⟨?_, h2, h3⟩
              rcases Nat.lt_succ_iff_lt_or_eq.mp h1 with h' | rfl
              · exact h'
              · have := (ih.idx (st.parent c) i).mpr ⟨g, hg1, b, hb, h3.symm⟩
                rw [hk] at this
                exact absurd (by simpa using this.symm) hi
        · intro g hg
          rcases (hmem g).mp hg with rfl | ⟨i, _, h⟩
          · simp
          · exact ih.ne g (List.mem_of_getElem? h)
        · intro g hg
          rcases (hmem g).mp hg with rfl | ⟨i, _, h⟩
          · rw [List.pairwise_append]
            refine ⟨ih.sorted g0 (List.mem_of_getElem? hg0), by simp, fun a ha b hb => ?_⟩
            obtain rfl : b = n := by simpa using hb
            exact hlt _ _ hg0 a ha
          · exact ih.sorted g (List.mem_of_getElem? h)
        · intro b hb hsb
          rcases Nat.lt_succ_iff_lt_or_eq.mp hb with h | rfl
          · obtain ⟨g, hg, h'⟩ := ih.cover b h hsb
            obtain ⟨i, hi⟩ := List.getElem?_of_mem hg
            by_cases hik : i = k
            · subst hik
              obtain rfl : g = g0 := by rw [hi] at hg0; simpa using hg0
              exact ⟨g ++ [n], (hmem _).mpr (Or.inl rfl), by simp [h']⟩
            · exact ⟨g, (hmem _).mpr (Or.inr ⟨i, hik, hi⟩), h'⟩
          · exact ⟨g0 ++ [b], (hmem _).mpr (Or.inl rfl), by simp⟩

/-- The groups at a value are exactly the domains. -/
theorem groupsOf_spec {conns : List (Conn K)} {t : K} {st : LinkState} {nb : ℕ} (hnb : ∀ c ∈ conns, c.i < nb ∧ c.j < nb)
    (hseen : ∀ b, st.seen b = true ↔ BasinAt conns t b) (hp : ∀ a b, st.parent a = st.parent b ↔ JoinedAt conns t a b) (g : List ℕ) :
    g ∈ groupsOf nb st ↔ IsDomainAt conns t g := by
  have h := groupScan st nb
  have hlt : ∀ b, BasinAt conns t b → b < nb := by
    rintro b ⟨c, hc, _, rfl | rfl⟩
    · exact (hnb c hc).1
    · exact (hnb c hc).2
  have hdom : ∀ g ∈ groupsOf nb st, IsDomainAt conns t g := by
    intro g hg
    refine ⟨h.ne g hg, h.sorted g hg, fun b hb c => ?_⟩
    obtain ⟨k, hk⟩ := List.getElem?_of_mem hg
    rw [h.class' k g hk b hb c, hseen, eq_comm, hp]
    exact ⟨fun h => h.2, fun h => ⟨hlt c h.1, h⟩⟩
  refine ⟨hdom g, fun hg => ?_⟩
  obtain ⟨b, hb⟩ := List.exists_mem_of_ne_nil g hg.1
  have hbp := ((hg.2.2 b hb b).mp hb).1
  obtain ⟨g', hg', hb'⟩ := h.cover b (hlt b hbp) ((hseen b).mpr hbp)
  have hd := hdom g' hg'
  have : g = g' := by
    apply List.Perm.eq_of_pairwise (le := (· < ·)) (fun a b _ _ h1 h2 => absurd h1 (by omega)) hg.2.1 hd.2.1
    rw [List.perm_ext_iff_of_nodup (hg.2.1.imp (fun h => by omega)) (hd.2.1.imp (fun h => by omega))]
    intro c
    rw [hg.2.2 b hb c, hd.2.2 b hb' c]
  rw [this]; exact hg'

theorem IsDomainAt.eq {conns : List (Conn K)} {t : K} {g g' : List ℕ} (h : IsDomainAt conns t g) (h' : IsDomainAt conns t g') {b : ℕ}
    (hb : b ∈ g) (hb' : b ∈ g') : g = g' := by
  apply List.Perm.eq_of_pairwise (le := (· < ·)) (fun a b _ _ h1 h2 => absurd h1 (by omega)) h.2.1 h'.2.1
  rw [List.perm_ext_iff_of_nodup (h.2.1.imp (fun h => by omega)) (h'.2.1.imp (fun h => by omega))]
  intro c
  rw [h.2.2 b hb c, h'.2.2 b hb' c]

/-- A domain at a higher value lies in the one at a lower value. -/
theorem IsDomainAt.sub {conns : List (Conn K)} {t u : K} (htu : t ≤ u) {g g' : List ℕ} (h : IsDomainAt conns t g)
    (h' : IsDomainAt conns u g') {b : ℕ} (hb : b ∈ g) (hb' : b ∈ g') : ∀ c ∈ g', c ∈ g := by
  intro c hc
  have := (h'.2.2 b hb' c).mp hc
  exact (h.2.2 b hb c).mpr ⟨this.1.mono htu, this.2.mono htu⟩

end BaderKit
