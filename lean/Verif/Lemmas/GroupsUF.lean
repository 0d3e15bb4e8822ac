import Verif.Lemmas.ShiftUF
import Mathlib.Data.Finset.Card
import Mathlib.Tactic.Linarith
/-! # Offsets of the union-find are realised by paths, and are bounded by the size of the group -/
set_option linter.unusedSectionVars false
namespace BaderKit
section
variable {α : Type*} {G : Type*} [AddCommGroup G] [DecidableEq α]

/-- A relation with composition and inverses. -/
structure Groupoid (R : α → α → G → Prop) : Prop where
  refl : ∀ x, R x x 0
  symm : ∀ {x y t}, R x y t → R y x (-t)
  trans : ∀ {x y z t u}, R x y t → R y z u → R x z (t + u)

/-- The stored offsets are realised by `R`. -/
def TreeInv (R : α → α → G → Prop) (st : ShiftUF α G) : Prop :=
  ∀ n x r c, RootC st.parent st.off n x r c → R x r c

theorem TreeInv.compress {R : α → α → G → Prop} {l : List (α × α)} {D : ℕ} {st : ShiftUF α G}
    (h : TreeInv R st) (hi : UFInv l D st.parent) {p2 : α → α} {o2 : α → G}
    (hC : CompressesS st.parent st.off p2 o2) :
    TreeInv R { st with parent := p2, off := o2 } := by
  intro n x r c hr
  obtain ⟨m, hm⟩ := (hC.rootC_iff hi).mp ⟨n, hr⟩
  exact h m x r c hm

theorem TreeInv.union {R : α → α → G → Prop} (hR : Groupoid R) {m0 : α → Bool} {l : List (α × α × G)} {D : ℕ}
    {st st' : ShiftUF α G} (hp : TreeInv R st) (h : SInv m0 l D st) (a b : α) (s : G) (fuel : ℕ)
    (hf : D < fuel) (e : unionShift fuel st a b s = some st') (hres : R a b s) : TreeInv R st' := by
  obtain ⟨ra, rb, ca, cb, p2, o2, ha, hb, hC, st'', e', hcase⟩ :=
    unionShift_spec h.uf a b s fuel hf
  obtain rfl : st'' = st' := by rw [e'] at e; simpa using e
  have hp2 := hp.compress h.uf hC
  have hi2 := h.uf.compress hC.comp
  have hfa := hC.comp.fix _ ha.rootIn.rootOf.fix
  have hfb := hC.comp.fix _ hb.rootIn.rootOf.fix
  have hpa := hp _ _ _ _ ha
  have hpb := hp _ _ _ _ hb
  have hab : R ra rb (s + cb - ca) := by
    have := hR.trans (hR.trans (hR.symm hpa) hres) hpb
    have e : -ca + s + cb = s + cb - ca := by abel
    rwa [e] at this
  rcases hcase with ⟨_, rfl⟩ | ⟨hr, e1, e2, _⟩ | ⟨hr, e1, e2, _⟩
  · exact hp2
  · intro n x r c hx
    rw [e1, e2] at hx
    obtain ⟨r0, c0, h0, rfl, rfl⟩ := attach_inv hi2 ra rb _ hfa hfb hr hx
    have := hp2 _ _ _ _ h0
    split_ifs with hra
    · subst hra; exact hR.trans this hab
    · exact this
  · intro n x r c hx
    rw [e1, e2] at hx
    obtain ⟨r0, c0, h0, rfl, rfl⟩ := attach_inv hi2 rb ra _ hfb hfa (Ne.symm hr) hx
    have := hp2 _ _ _ _ h0
    split_ifs with hra
    · subst hra; exact hR.trans this (hR.symm hab)
    · exact this

/-- A size of shifts. -/
structure ShiftNorm (ν : G → ℕ) : Prop where
  zero : ν 0 = 0
  neg : ∀ a, ν (-a) = ν a
  add : ∀ a b, ν (a + b) ≤ ν a + ν b

open Classical in
/-- Two members of a group differ by less than the number of its members. -/
def DiamInv (ν : G → ℕ) (V : Finset α) (st : ShiftUF α G) : Prop :=
  ∀ n m x y r cx cy, x ∈ V → y ∈ V → RootC st.parent st.off n x r cx → RootC st.parent st.off m y r cy →
    ν (cx - cy) + 1 ≤ (V.filter fun z => RootOf st.parent z r).card

theorem DiamInv.compress {ν : G → ℕ} {V : Finset α} {l : List (α × α)} {D : ℕ} {st : ShiftUF α G}
    (h : DiamInv ν V st) (hi : UFInv l D st.parent) {p2 : α → α} {o2 : α → G}
    (hC : CompressesS st.parent st.off p2 o2) :
    DiamInv ν V { st with parent := p2, off := o2 } := by
  intro n m x y r cx cy hx hy h1 h2
  obtain ⟨n', h1'⟩ := (hC.rootC_iff hi).mp ⟨n, h1⟩
  obtain ⟨m', h2'⟩ := (hC.rootC_iff hi).mp ⟨m, h2⟩
  have := h n' m' x y r cx cy hx hy h1' h2'
  refine this.trans (Finset.card_le_card fun z hz => ?_)
  simp only [Finset.mem_filter] at hz ⊢
  exact ⟨hz.1, (hC.comp.rootOf_iff hi).mpr hz.2⟩

theorem DiamInv.attach {ν : G → ℕ} (hν : ShiftNorm ν) {V : Finset α} {l : List (α × α)} {D : ℕ}
    {p : α → α} {o : α → G} {sz : α → ℕ} {mk : α → Bool} (h : DiamInv ν V ⟨p, o, sz, mk⟩) (hi : UFInv l D p)
    {a b ra rb : α} {ca cb d s : G} {na nb : ℕ} (ha : RootC p o na a ra ca) (hb : RootC p o nb b rb cb)
    (hd : d = s + cb - ca) (hs : ν s ≤ 1) (hr : ra ≠ rb) (hav : a ∈ V) (hbv : b ∈ V) {sz' : α → ℕ} {mk' : α → Bool} :
    DiamInv ν V ⟨Function.update p ra rb, Function.update o ra d, sz', mk'⟩ := by
  classical
  have hfa := ha.rootIn.rootOf.fix
  have hfb := hb.rootIn.rootOf.fix
  have hset : ∀ z r, RootOf (Function.update p ra rb) z r ↔
      ∃ r0, RootOf p z r0 ∧ r = if r0 = ra then rb else r0 := by
    intro z r
    constructor
    · intro hz
      obtain ⟨r0, hr0⟩ := hi.total z
      exact ⟨r0, hr0.rootOf, hz.unique (attach_rootIn p ra rb hfa hfb hr0).rootOf⟩
    · rintro ⟨r0, h0, rfl⟩
      obtain ⟨n, hn⟩ := h0.rootIn
      exact (attach_rootIn p ra rb hfa hfb hn).rootOf
  have hcard : (V.filter fun z => RootOf p z ra).card + (V.filter fun z => RootOf p z rb).card ≤
      (V.filter fun z => RootOf (Function.update p ra rb) z rb).card := by
    rw [← Finset.card_union_of_disjoint]
    · apply Finset.card_le_card
      intro z hz
      simp only [Finset.mem_union, Finset.mem_filter] at hz ⊢
      rcases hz with ⟨hz, h1⟩ | ⟨hz, h1⟩
      · exact ⟨hz, (hset _ _).mpr ⟨ra, h1, by simp⟩⟩
      · exact ⟨hz, (hset _ _).mpr ⟨rb, h1, by simp [hr.symm]⟩⟩
    · rw [Finset.disjoint_filter]
      intro z _ h1 h2
      exact hr (h1.unique h2)
  have hother : ∀ r, r ≠ ra → r ≠ rb → (V.filter fun z => RootOf p z r) ⊆
      (V.filter fun z => RootOf (Function.update p ra rb) z r) := by
    intro r h1 _ z hz
    simp only [Finset.mem_filter] at hz ⊢
    exact ⟨hz.1, (hset _ _).mpr ⟨r, hz.2, by simp [h1]⟩⟩
  have hsub : ∀ u v : G, ν (u - v) ≤ ν u + ν v := by
    intro u v; rw [sub_eq_add_neg]; exact (hν.add _ _).trans (by rw [hν.neg])
  have cross : ∀ n m x y cx cy, x ∈ V → y ∈ V → RootC p o n x ra cx → RootC p o m y rb cy →
      ν (cx + d - cy) + 1 ≤ (V.filter fun z => RootOf (Function.update p ra rb) z rb).card := by
    intro n m x y cx cy hx hy h1 h2
    have b1 := h n na x a ra cx ca hx hav h1 ha
    have b2 := h nb m b y rb cb cy hbv hy hb h2
    have e : cx + d - cy = (cx - ca) + (s + (cb - cy)) := by rw [hd]; abel
    simp only at b1 b2
    have b3 := hν.add (cx - ca) (s + (cb - cy))
    have b4 := hν.add s (cb - cy)
    rw [e]
    omega
  have cross' : ∀ n m x y cx cy, x ∈ V → y ∈ V → RootC p o n x rb cx → RootC p o m y ra cy →
      ν (cx - (cy + d)) + 1 ≤ (V.filter fun z => RootOf (Function.update p ra rb) z rb).card := by
    intro n m x y cx cy hx hy h1 h2
    have := cross m n y x cy cx hy hx h2 h1
    rw [show cx - (cy + d) = -(cy + d - cx) by abel, hν.neg]
    exact this
  intro n m x y r cx cy hx hy h1 h2
  simp only at h1 h2 ⊢
  obtain ⟨r0, c0, k1, e1, rfl⟩ := attach_inv hi ra rb d hfa hfb hr h1
  obtain ⟨r1, c1, k2, e2, rfl⟩ := attach_inv hi ra rb d hfa hfb hr h2
  by_cases q0 : r0 = ra
  · subst q0
    rw [if_pos rfl] at e1
    subst e1
    rw [if_pos rfl]
    by_cases q1 : r1 = r0
    · subst q1
      rw [if_pos rfl]
      have := h _ _ x y r1 c0 c1 hx hy k1 k2
      simp only at this
      rw [add_sub_add_right_eq_sub]
      omega
    · rw [if_neg q1] at e2 ⊢
      subst e2
      exact cross _ _ x y c0 c1 hx hy k1 k2
  · rw [if_neg q0] at e1 ⊢
    subst e1
    by_cases q1 : r1 = ra
    · subst q1
      rw [if_pos rfl] at e2 ⊢
      subst e2
      exact cross' _ _ x y c0 c1 hx hy k1 k2
    · rw [if_neg q1] at e2 ⊢
      subst e2
      have := h _ _ x y r c0 c1 hx hy k1 k2
      simp only at this
      by_cases q : r = rb
      · subst q; omega
      · exact this.trans (Finset.card_le_card (hother r q0 q))

theorem DiamInv.union {ν : G → ℕ} (hν : ShiftNorm ν) {V : Finset α} {m0 : α → Bool} {l : List (α × α × G)} {D : ℕ}
    {st st' : ShiftUF α G} (hp : DiamInv ν V st) (h : SInv m0 l D st) (a b : α) (s : G) (fuel : ℕ)
    (hf : D < fuel) (e : unionShift fuel st a b s = some st') (hs : ν s ≤ 1) (ha' : a ∈ V) (hb' : b ∈ V) :
    DiamInv ν V st' := by
  obtain ⟨ra, rb, ca, cb, p2, o2, ha, hb, hC, st'', e', hcase⟩ :=
    unionShift_spec h.uf a b s fuel hf
  obtain rfl : st'' = st' := by rw [e'] at e; simpa using e
  have hp2 := hp.compress h.uf hC
  have hi2 := h.uf.compress hC.comp
  have ha2 := hC.roots _ _ _ _ ha
  have hb2 := hC.roots _ _ _ _ hb
  rcases hcase with ⟨_, rfl⟩ | ⟨hr, e1, e2, _⟩ | ⟨hr, e1, e2, _⟩
  · exact hp2
  · have := DiamInv.attach hν hp2 hi2 ha2 hb2 rfl hs hr ha' hb' (sz' := st''.size) (mk' := st''.mask)
    rw [← e1, ← e2] at this
    exact this
  · have := DiamInv.attach hν hp2 hi2 hb2 ha2 (d := -(s + cb - ca)) (s := -s) (by abel) (by rw [hν.neg]; exact hs)
      (Ne.symm hr) hb' ha' (sz' := st''.size) (mk' := st''.mask)
    rw [← e1, ← e2] at this
    exact this

theorem runShift_tree {R : α → α → G → Prop} (hR : Groupoid R) {ν : G → ℕ} (hν : ShiftNorm ν) {V : Finset α}
    (m0 : α → Bool) (os : List (ShiftOp α G))
    (hos : ∀ e ∈ requestsOf os, R e.1 e.2.1 e.2.2 ∧ ν e.2.2 ≤ 1 ∧ e.1 ∈ V ∧ e.2.1 ∈ V) :
    ∀ {l : List (α × α × G)} {D : ℕ} {st : ShiftUF α G}, SInv m0 l D st →
    ∀ fuel, D + os.length < fuel → ∃ st' D', runShift fuel os st = some st' ∧
      SInv m0 (l ++ requestsOf os) D' st' ∧ D' ≤ D + os.length ∧
      (TreeInv R st → TreeInv R st') ∧ (DiamInv ν V st → DiamInv ν V st') := by
  induction os with
  | nil =>
    intro l D st h fuel hf
    exact ⟨st, D, rfl, by simpa [requestsOf] using h, by simp, fun h => h, fun h => h⟩
  | cons op os ih =>
    intro l D st h fuel hf
    simp only [List.length_cons] at hf
    cases op with
    | find x =>
      obtain ⟨p2, o2, r, c, e, hC, _, h2⟩ := h.find x fuel (by omega)
      obtain ⟨st', D', e', hi, hD, ht, hd⟩ := ih (fun e he => hos e (by simpa [requestsOf] using he)) h2 fuel (by omega)
      exact ⟨st', D', by simp [runShift, ShiftOp.run, e, e'], by simpa [requestsOf] using hi,
        by simp only [List.length_cons]; omega, fun k => ht (k.compress h.uf hC), fun k => hd (k.compress h.uf hC)⟩
    | union a b s =>
      obtain ⟨q1, q2, q3, q4⟩ := hos (a, b, s) (by simp [requestsOf])
      obtain ⟨st1, e, h1⟩ := h.union a b s fuel (by omega)
      obtain ⟨st', D', e', hi, hD, ht, hd⟩ := ih (fun e he => hos e (by simp [requestsOf, he])) h1 fuel (by omega)
      exact ⟨st', D', by simp [runShift, ShiftOp.run, e, e'], by simpa [requestsOf] using hi,
        by simp only [List.length_cons]; omega, fun k => ht (k.union hR h a b s fuel (by omega) e q1),
        fun k => hd (k.union hν h a b s fuel (by omega) e q2 q3 q4)⟩

theorem DiamInv.init {ν : G → ℕ} (hν : ShiftNorm ν) (V : Finset α) : DiamInv ν V (ShiftUF.init : ShiftUF α G) := by
  classical
  intro n m x y r cx cy hx hy h1 h2
  cases h1 with
  | base e1 =>
    cases h2 with
    | base e2 =>
      rw [sub_zero, hν.zero]
      exact Finset.card_pos.mpr ⟨_, Finset.mem_filter.mpr ⟨hx, .base rfl⟩⟩
    | step h _ => exact absurd rfl h
  | step h _ => exact absurd rfl h

theorem TreeInv.init {R : α → α → G → Prop} (hR : Groupoid R) : TreeInv R (ShiftUF.init : ShiftUF α G) := by
  intro n x r c h
  cases h with
  | base _ => exact hR.refl _
  | step h _ => exact absurd rfl h

end
end BaderKit
