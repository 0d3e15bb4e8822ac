import Verif.Lemmas.GridLabel
import Mathlib.Logic.Encodable.Basic
/-!
# C53: labels of connected regions are the periodic components
-/
namespace BaderKit

/-- A structuring element as scipy accepts it: inside the 3 × 3 × 3 cube and symmetric. -/
structure StructOk (st : List Coord) : Prop where
  unit : ∀ d ∈ st, UnitStep d
  neg : ∀ d ∈ st, negC d ∈ st

/-- What a caller expects: zero where the array is zero, equal labels exactly for points connected in the infinite
crystal, labels without gaps. -/
structure IsPeriodicLabeling (st : List Coord) (s : Shape) (f g : Coord → ℕ) : Prop where
  zero : ∀ a, InRange s a → (g a = 0 ↔ f a = 0)
  same : ∀ a b, InRange s a → InRange s b → f a ≠ 0 → f b ≠ 0 → (g a = g b ↔ PeriodicConn st s f a b)
  dense : ∀ a, InRange s a → ∀ m, 0 < m → m ≤ g a → ∃ b, InRange s b ∧ g b = m

section
variable {st : List Coord} {s : Shape} {f : Coord → ℕ}

theorem homePoint_range (hs : s.Pos) (a : Coord) : InRange s (homePoint s a) := by
  obtain ⟨h1, h2, h3⟩ := hs
  refine ⟨⟨?_, ?_⟩, ⟨?_, ?_⟩, ⟨?_, ?_⟩⟩ <;> simp only [homePoint]
  · exact Int.emod_nonneg _ (by omega)
  · exact Int.emod_lt_of_pos _ (by omega)
  · exact Int.emod_nonneg _ (by omega)
  · exact Int.emod_lt_of_pos _ (by omega)
  · exact Int.emod_nonneg _ (by omega)
  · exact Int.emod_lt_of_pos _ (by omega)

theorem homePoint_self {a : Coord} (h : InRange s a) : homePoint s a = a := by
  obtain ⟨⟨h1, h2⟩, ⟨h3, h4⟩, ⟨h5, h6⟩⟩ := h
  unfold homePoint
  rw [Int.emod_eq_of_lt h1 h2, Int.emod_eq_of_lt h3 h4, Int.emod_eq_of_lt h5 h6]

theorem samePoint_iff {a b : Coord} : SamePoint s a b ↔ homePoint s a = homePoint s b := by
  have key : ∀ x y n : ℤ, (∃ k, x = y + k * n) ↔ x % n = y % n := by
    intro x y n
    constructor
    · rintro ⟨k, rfl⟩; exact Int.add_mul_emod_self_right y k n
    · intro h
      have hd : n ∣ x - y := Int.dvd_of_emod_eq_zero (Int.emod_eq_emod_iff_emod_sub_eq_zero.mp h)
      obtain ⟨k, hk⟩ := hd
      exact ⟨k, by rw [mul_comm]; linarith⟩
  unfold SamePoint homePoint
  rw [key, key, key]
  constructor
  · rintro ⟨h1, h2, h3⟩; rw [h1, h2, h3]
  · intro h
    simp only [Prod.mk.injEq] at h
    exact h

theorem homePoint_add {a b : Coord} (h : homePoint s a = homePoint s b) (d : Coord) :
    homePoint s (addC a d) = homePoint s (addC b d) := by
  unfold homePoint at *
  simp only [Prod.mk.injEq, addC] at *
  refine ⟨?_, ?_, ?_⟩
  · rw [Int.add_emod, h.1, ← Int.add_emod]
  · rw [Int.add_emod, h.2.1, ← Int.add_emod]
  · rw [Int.add_emod, h.2.2, ← Int.add_emod]

/-- A path can be started at any image of its first point. -/
theorem crystal_translate {a a' b : Coord} (h : homePoint s a = homePoint s a')
    (hp : Relation.ReflTransGen (CrystalStep st s f) a b) :
    ∃ b', homePoint s b' = homePoint s b ∧ Relation.ReflTransGen (CrystalStep st s f) a' b' := by
  induction hp with
  | refl => exact ⟨a', h.symm, .refl⟩
  | tail _ hs ih =>
    obtain ⟨b', e, hb⟩ := ih
    obtain ⟨h1, h2, d, hd, rfl⟩ := hs
    refine ⟨addC b' d, homePoint_add e d, hb.tail ⟨by rw [e]; exact h1, ?_, d, hd, rfl⟩⟩
    rw [homePoint_add e d]; exact h2

theorem PeriodicConn.trans {a b c : Coord} (h1 : PeriodicConn st s f a b) (h2 : PeriodicConn st s f b c) :
    PeriodicConn st s f a c := by
  obtain ⟨b', hb, p1⟩ := h1
  obtain ⟨c', hc, p2⟩ := h2
  obtain ⟨c2, e, p3⟩ := crystal_translate (samePoint_iff.mp hb).symm p2
  exact ⟨c2, samePoint_iff.mpr (e.trans (samePoint_iff.mp hc)), p1.trans p3⟩

theorem boxConn_crystal {a b : Coord} (h : Relation.ReflTransGen (BoxNbr st s f) a b) :
    Relation.ReflTransGen (CrystalStep st s f) a b := by
  refine Relation.ReflTransGen.mono (p := CrystalStep st s f) ?_ _ _ h
  rintro x y ⟨h1, h2, h3, h4, d, hd, e⟩
  exact ⟨by rw [homePoint_self h1]; exact h3, by rw [homePoint_self h2]; exact h4, d, hd, e⟩

theorem boxConn_periodic {a b : Coord} (h : Relation.ReflTransGen (BoxNbr st s f) a b) : PeriodicConn st s f a b :=
  ⟨b, samePoint_iff.mpr rfl, boxConn_crystal h⟩

/-- One back along every axis. -/
def backC (c : Coord) : Coord := (c.1 - 1, c.2.1 - 1, c.2.2 - 1)
/-- One forward along every axis. -/
def fwdC (c : Coord) : Coord := (c.1 + 1, c.2.1 + 1, c.2.2 + 1)

theorem padWrap_eq (L : Coord → ℕ) (c : Coord) : padWrap s L c = L (homePoint s (backC c)) := rfl

theorem fwd_range {a d : Coord} (ha : InRange s a) (hd : UnitStep d) : InRange (padShape s) (fwdC (addC a d)) := by
  obtain ⟨⟨h1, h2⟩, ⟨h3, h4⟩, ⟨h5, h6⟩⟩ := ha
  obtain ⟨⟨d1, d2⟩, ⟨d3, d4⟩, ⟨d5, d6⟩⟩ := hd
  unfold InRange padShape fwdC addC
  push_cast
  refine ⟨⟨?_, ?_⟩, ⟨?_, ?_⟩, ⟨?_, ?_⟩⟩ <;> omega

/-- The values of a labelling are fewer than its different values if there is background. -/
theorem label_lt {g : Coord → ℕ} (h : IsLabeling st s f g) {a0 : Coord} (h0 : InRange s a0) (hb : f a0 = 0) {a : Coord}
    (ha : InRange s a) : g a < (uniqueVals s g).length := by
  unfold uniqueVals
  rw [Finset.length_sort]
  have : Finset.range (g a + 1) ⊆ (boxOf s).image g := by
    intro m hm
    rw [Finset.mem_image]
    rw [Finset.mem_range] at hm
    rcases Nat.eq_zero_or_pos m with rfl | hp
    · exact ⟨a0, mem_boxOf.mpr h0, (h.zero a0 h0).mpr hb⟩
    · obtain ⟨b, hb, e⟩ := h.dense a ha m hp (by omega)
      exact ⟨b, mem_boxOf.mpr hb, e⟩
  have := Finset.card_le_card this
  rw [Finset.card_range] at this
  omega

theorem mergeLabels_spec (hs : s.Pos) (hst : StructOk st) {lab : Shape → (Coord → ℕ) → Coord → ℕ}
    (hlab : ∀ t f, IsLabeling st t f (lab t f)) (f : Coord → ℕ) {a0 : Coord} (h0 : InRange s a0) (hb : f a0 = 0) :
    ∃ M, mergeLabels lab s (lab s f) = some M ∧ IsPeriodicLabeling st s f M := by
  set L := lab s f with hL
  have hLf := hlab s f
  rw [← hL] at hLf
  set P := padWrap s L with hP
  set R := lab (padShape s) P with hR
  have hRP := hlab (padShape s) P
  rw [← hR] at hRP
  have hLne : ∀ a, InRange s a → (L a ≠ 0 ↔ f a ≠ 0) := fun a ha => (hLf.zero a ha).not
  obtain ⟨conns, e1, hlen, hmem⟩ := featureConns_spec s (uniqueVals s L).length P R
    (fun c _ => label_lt hLf h0 hb (homePoint_range hs (backC c)))
  have hlt : ∀ c, P c < conns.length := fun c => by
    rw [hlen]; exact label_lt hLf h0 hb (homePoint_range hs (backC c))
  have hE : ∀ j x, ConnE conns j x ↔ ∃ p q, InRange (padShape s) p ∧ InRange (padShape s) q ∧ R p = R q ∧ P p = j ∧ P q = x ∧ x ≠ j := by
    intro j x
    by_cases hj : j < (uniqueVals s L).length
    · exact hmem j hj x
    · constructor
      · intro h
        unfold ConnE at h
        rw [List.getD_eq_getElem?_getD, List.getElem?_eq_none (by omega)] at h
        simp at h
      · rintro ⟨p, q, _, _, _, h4, _⟩
        have := hlt p
        omega
  have hsym : ∀ j x, ConnE conns j x → ConnE conns x j := by
    intro j x h
    obtain ⟨p, q, h1, h2, h3, h4, h5, h6⟩ := (hE j x).mp h
    exact (hE x j).mpr ⟨q, p, h2, h1, h3.symm, h5, h4, h6.symm⟩
  have hk : ∀ j x, ConnE conns j x → x < conns.length := by
    intro j x h
    obtain ⟨p, q, _, _, _, _, h5, _⟩ := (hE j x).mp h
    rw [← h5]; exact hlt q
  have hne0 : ∀ j x, ConnE conns j x → j ≠ 0 := by
    rintro j x h rfl
    obtain ⟨p, q, h1, h2, h3, h4, h5, h6⟩ := (hE 0 x).mp h
    have := (hRP.zero p h1).mpr h4
    rw [h3] at this
    exact h6 (h5.symm.trans ((hRP.zero q h2).mp this))
  obtain ⟨al, groups, e2, hg, hall⟩ := reduceConns_spec conns hk hsym
  set low : ℕ → ℕ := fun x => groups.foldl (fun x g => collapse g x) x with hlow
  have hL1 : ∀ c, mergeGroups groups L c = low (L c) := mergeGroups_eq groups L (fun g h => (hg g h).2.1)
  have hl := collapse_low hsym hk hg hall
  have hlow_iff : ∀ x y, low x = low y ↔ Relation.ReflTransGen (ConnE conns) x y := by
    intro x y
    constructor
    · intro h
      have h1 := (hl x).1
      have h2 := (hl y).1
      have : Relation.ReflTransGen (ConnE conns) x (low y) := h ▸ h1
      exact this.trans (rtg_symm hsym h2)
    · intro h
      apply le_antisymm
      · exact (hl x).2 _ (h.trans (hl y).1)
      · exact (hl y).2 _ ((rtg_symm hsym h).trans (hl x).1)
  -- steps of the padded array are steps of the crystal
  have hpad : ∀ {p q}, Relation.ReflTransGen (BoxNbr st (padShape s) P) p q →
      Relation.ReflTransGen (CrystalStep st s f) (backC p) (backC q) := by
    intro p q h
    induction h with
    | refl => exact .refl
    | tail _ hs' ih =>
      obtain ⟨_, _, h3, h4, d, hd, rfl⟩ := hs'
      refine ih.tail ⟨(hLne _ (homePoint_range hs _)).mp h3, (hLne _ (homePoint_range hs _)).mp h4, d, hd, ?_⟩
      simp only [backC, addC]
      refine Prod.ext ?_ (Prod.ext ?_ ?_) <;> simp only <;> ring
  have hconn : ∀ a b, InRange s a → InRange s b → f a ≠ 0 → f b ≠ 0 →
      (Relation.ReflTransGen (ConnE conns) (L a) (L b) ↔ PeriodicConn st s f a b) := by
    intro a b ha hb' hfa hfb
    constructor
    · intro h
      have key : ∀ x, Relation.ReflTransGen (ConnE conns) (L a) x → ∀ b, InRange s b → f b ≠ 0 → L b = x → PeriodicConn st s f a b := by
        intro x hx
        induction hx with
        | refl =>
          intro b hb' hfb e
          exact boxConn_periodic ((hLf.same a b ha hb' hfa hfb).mp e.symm)
        | @tail y x _ hyx ih =>
          intro b hb' hfb e
          obtain ⟨p, q, h1, h2, h3, h4, h5, h6⟩ := (hE y x).mp hyx
          have hy0 := hne0 _ _ hyx
          have hx0 := hne0 _ _ (hsym _ _ hyx)
          have hp := (hLne (homePoint s (backC p)) (homePoint_range hs _)).mp (by change P p ≠ 0; rw [h4]; exact hy0)
          have hq := (hLne (homePoint s (backC q)) (homePoint_range hs _)).mp (by change P q ≠ 0; rw [h5]; exact hx0)
          have c1 := ih (homePoint s (backC p)) (homePoint_range hs _) hp h4
          have c2 : PeriodicConn st s f (homePoint s (backC p)) (homePoint s (backC q)) := by
            have hpath := hpad ((hRP.same p q h1 h2 (by rw [h4]; exact hy0) (by rw [h5]; exact hx0)).mp h3)
            obtain ⟨q', e', hq'⟩ := crystal_translate (a' := homePoint s (backC p))
              (by rw [homePoint_self (homePoint_range hs _)]) hpath
            exact ⟨q', samePoint_iff.mpr (by rw [e', homePoint_self (homePoint_range hs (backC q))]), hq'⟩
          have c3 := boxConn_periodic ((hLf.same (homePoint s (backC q)) b (homePoint_range hs _) hb' hq hfb).mp
            (by change P q = L b; rw [h5, e]))
          exact (c1.trans c2).trans c3
      exact key _ h b hb' hfb rfl
    · rintro ⟨b', hbb, hpath⟩
      have e : homePoint s b' = b := by rw [samePoint_iff.mp hbb, homePoint_self hb']
      have key : ∀ c, Relation.ReflTransGen (CrystalStep st s f) a c → Relation.ReflTransGen (ConnE conns) (L a) (L (homePoint s c)) := by
        intro c hc
        induction hc with
        | refl => rw [homePoint_self ha]
        | @tail y z _ hyz ih =>
          refine ih.trans ?_
          obtain ⟨h1, h2, d, hd, rfl⟩ := hyz
          set y0 := homePoint s y with hy0
          have hy0r : InRange s y0 := homePoint_range hs y
          have hback : ∀ c, backC (fwdC c) = c := by intro c; simp [backC, fwdC]
          have hp0 : InRange (padShape s) (fwdC y0) := by
            have := fwd_range hy0r (d := (0, 0, 0)) ⟨by decide, by decide, by decide⟩
            simpa [addC] using this
          have hq0 := fwd_range hy0r (hst.unit d hd)
          have hPp : P (fwdC y0) = L y0 := by rw [hP, padWrap_eq, hback, homePoint_self hy0r]
          have hPq : P (fwdC (addC y0 d)) = L (homePoint s (addC y d)) := by
            rw [hP, padWrap_eq, hback]
            rw [homePoint_add (a := y0) (b := y) (homePoint_self hy0r)]
          have n1 : P (fwdC y0) ≠ 0 := by rw [hPp]; exact (hLne _ hy0r).mpr h1
          have n2 : P (fwdC (addC y0 d)) ≠ 0 := by rw [hPq]; exact (hLne _ (homePoint_range hs _)).mpr h2
          have hRR : R (fwdC y0) = R (fwdC (addC y0 d)) := by
            refine (hRP.same _ _ hp0 hq0 n1 n2).mpr (.single ⟨hp0, hq0, n1, n2, d, hd, ?_⟩)
            simp only [fwdC, addC]
            refine Prod.ext ?_ (Prod.ext ?_ ?_) <;> simp only <;> ring
          by_cases heq : L (homePoint s (addC y d)) = L y0
          · rw [heq]
          · exact .single ((hE _ _).mpr ⟨_, _, hp0, hq0, hRR, hPp, hPq, heq⟩)
      have := key b' hpath
      rwa [e] at this
  refine ⟨renumber s (mergeGroups groups L), ?_, ?_, ?_, ?_⟩
  · unfold mergeLabels
    simp only [← hP, ← hR]
    rw [e1]
    simp only [Option.bind_eq_bind, Option.bind_some, e2]
  · intro a ha
    have hLa0 : L a0 = 0 := (hLf.zero a0 h0).mpr hb
    have hz : ∀ x, Relation.ReflTransGen (ConnE conns) 0 x → x = 0 := by
      intro x hx
      rcases Relation.ReflTransGen.cases_head hx with h | ⟨y, hy, _⟩
      · exact h.symm
      · exact absurd rfl (hne0 _ _ hy)
    have hlow0 : low 0 = 0 := hz _ (hl 0).1
    have hM0 : renumber s (mergeGroups groups L) a0 = 0 := by
      rw [renumber_eq s _ h0, hL1, hLa0, hlow0, List.length_eq_zero_iff, List.filter_eq_nil_iff]
      intro x _
      simp
    rw [← hLf.zero a ha]
    have hM : renumber s (mergeGroups groups L) a = 0 ↔ renumber s (mergeGroups groups L) a = renumber s (mergeGroups groups L) a0 := by
      rw [hM0]
    rw [hM, renumber_eq_iff s _ ha h0, hL1, hL1, hLa0, hlow_iff]
    constructor
    · intro h; exact hz _ (rtg_symm hsym h)
    · intro h; rw [h]
  · intro a b ha hb' hfa hfb
    rw [renumber_eq_iff s _ ha hb', hL1, hL1, hlow_iff]
    exact hconn a b ha hb' hfa hfb
  · intro a ha m _ hm
    exact renumber_dense s _ ha hm

/-- A labelling with one value only is already right. -/
theorem constant_label {g : Coord → ℕ} (h : IsLabeling st s f g) (h1 : (uniqueVals s g).length = 1) :
    IsPeriodicLabeling st s f g := by
  refine ⟨h.zero, ?_, h.dense⟩
  intro a b ha hb hfa hfb
  have hc : g a = g b := by
    obtain ⟨x, hx⟩ := List.length_eq_one_iff.mp h1
    have h2 : g a ∈ uniqueVals s g := mem_uniqueVals.mpr ⟨a, ha, rfl⟩
    have h3 : g b ∈ uniqueVals s g := mem_uniqueVals.mpr ⟨b, hb, rfl⟩
    rw [hx] at h2 h3
    simp only [List.mem_singleton] at h2 h3
    rw [h2, h3]
  exact ⟨fun h' => boxConn_periodic ((h.same a b ha hb hfa hfb).mp h'), fun _ => hc⟩

/-- The structuring element contains the neighbours across the faces. -/
def HasFaces (st : List Coord) : Prop := (1, 0, 0) ∈ st ∧ (0, 1, 0) ∈ st ∧ (0, 0, 1) ∈ st

theorem box_connected (hst : StructOk st) (hf : HasFaces st) (hall : ∀ a, InRange s a → f a ≠ 0) {a b : Coord} (ha : InRange s a)
    (hb : InRange s b) : Relation.ReflTransGen (BoxNbr st s f) a b := by
  have hsym : ∀ x y, BoxNbr st s f x y → BoxNbr st s f y x := by
    rintro x y ⟨h1, h2, h3, h4, d, hd, rfl⟩
    refine ⟨h2, h1, h4, h3, negC d, hst.neg d hd, ?_⟩
    simp [addC, negC]
  have key : ∀ c, InRange s c → Relation.ReflTransGen (BoxNbr st s f) (0, 0, 0) c := by
    rintro ⟨x, y, z⟩ ⟨⟨x0, x1⟩, ⟨y0, y1⟩, ⟨z0, z1⟩⟩
    simp only at x0 x1 y0 y1 z0 z1
    have hx : ∀ n : ℕ, (n : ℤ) < s.nx → Relation.ReflTransGen (BoxNbr st s f) (0, 0, 0) (n, 0, 0) := by
      intro n
      induction n with
      | zero => intro _; exact .refl
      | succ n ih =>
        intro hn
        push_cast at hn
        refine (ih (by omega)).tail ?_
        have r1 : InRange s ((n : ℤ), 0, 0) := ⟨⟨by simp, by simp only; omega⟩, ⟨by simp, by simp only; omega⟩, ⟨by simp, by simp only; omega⟩⟩
        have r2 : InRange s (((n + 1 : ℕ) : ℤ), 0, 0) :=
          ⟨⟨by simp only; omega, by simp only; omega⟩, ⟨by simp, by simp only; omega⟩, ⟨by simp, by simp only; omega⟩⟩
        exact ⟨r1, r2, hall _ r1, hall _ r2, _, hf.1, by simp [addC]⟩
    have hy : ∀ n : ℕ, (n : ℤ) < s.ny → Relation.ReflTransGen (BoxNbr st s f) (x, 0, 0) (x, n, 0) := by
      intro n
      induction n with
      | zero => intro _; exact .refl
      | succ n ih =>
        intro hn
        push_cast at hn
        refine (ih (by omega)).tail ?_
        have r1 : InRange s (x, (n : ℤ), 0) := ⟨⟨by simp only; omega, by simp only; omega⟩, ⟨by simp, by simp only; omega⟩, ⟨by simp, by simp only; omega⟩⟩
        have r2 : InRange s (x, ((n + 1 : ℕ) : ℤ), 0) :=
          ⟨⟨by simp only; omega, by simp only; omega⟩, ⟨by simp only; omega, by simp only; omega⟩, ⟨by simp, by simp only; omega⟩⟩
        exact ⟨r1, r2, hall _ r1, hall _ r2, _, hf.2.1, by simp [addC]⟩
    have hz : ∀ n : ℕ, (n : ℤ) < s.nz → Relation.ReflTransGen (BoxNbr st s f) (x, y, 0) (x, y, n) := by
      intro n
      induction n with
      | zero => intro _; exact .refl
      | succ n ih =>
        intro hn
        push_cast at hn
        refine (ih (by omega)).tail ?_
        have r1 : InRange s (x, y, (n : ℤ)) := ⟨⟨by simp only; omega, by simp only; omega⟩, ⟨by simp only; omega, by simp only; omega⟩, ⟨by simp, by simp only; omega⟩⟩
        have r2 : InRange s (x, y, ((n + 1 : ℕ) : ℤ)) :=
          ⟨⟨by simp only; omega, by simp only; omega⟩, ⟨by simp only; omega, by simp only; omega⟩, ⟨by simp only; omega, by simp only; omega⟩⟩
        exact ⟨r1, r2, hall _ r1, hall _ r2, _, hf.2.2, by simp [addC]⟩
    have a1 := hx x.toNat (by omega)
    have a2 := hy y.toNat (by omega)
    have a3 := hz z.toNat (by omega)
    rw [Int.toNat_of_nonneg x0] at a1
    rw [Int.toNat_of_nonneg y0] at a2
    rw [Int.toNat_of_nonneg z0] at a3
    exact (a1.trans a2).trans a3
  exact (rtg_symm hsym (key a ha)).trans (key b hb)

theorem full_constant (hs : s.Pos) (hst : StructOk st) (hf : HasFaces st) (hall : ∀ a, InRange s a → f a ≠ 0) {g : Coord → ℕ}
    (h : IsLabeling st s f g) : (boxOf s).image g = {1} := by
  have hsame : ∀ a b, InRange s a → InRange s b → g a = g b := fun a b ha hb =>
    (h.same a b ha hb (hall a ha) (hall b hb)).mpr (box_connected hst hf hall ha hb)
  have h1 : ∀ a, InRange s a → g a = 1 := by
    intro a ha
    have h0 : g a ≠ 0 := fun e => hall a ha ((h.zero a ha).mp e)
    obtain ⟨b, hb, e⟩ := h.dense a ha 1 (by omega) (by omega)
    rw [hsame a b ha hb, e]
  ext x
  rw [Finset.mem_image, Finset.mem_singleton]
  constructor
  · rintro ⟨a, ha, rfl⟩; exact h1 a (mem_boxOf.mp ha)
  · rintro rfl
    have := homePoint_range hs (0, 0, 0)
    exact ⟨_, mem_boxOf.mpr this, h1 _ this⟩

/-- `Grid.label` returns the labels of the periodic components, for every array, shape and symmetric structuring element that
contains the face neighbours (as the default does). -/
theorem C53_label (hs : s.Pos) (hst : StructOk st) (hf : HasFaces st) {lab : Shape → (Coord → ℕ) → Coord → ℕ}
    (hlab : ∀ t f, IsLabeling st t f (lab t f)) (f : Coord → ℕ) :
    ∃ M, gridLabel lab s f = some M ∧ IsPeriodicLabeling st s f M := by
  unfold gridLabel
  by_cases h1 : (uniqueVals s (lab s f)).length = 1
  · simp only [if_pos h1]
    exact ⟨_, rfl, constant_label (hlab s f) h1⟩
  · simp only [if_neg h1]
    by_cases hb : ∃ a, InRange s a ∧ f a = 0
    · obtain ⟨a0, h0, hb⟩ := hb
      exact mergeLabels_spec hs hst hlab f h0 hb
    · push Not at hb
      exfalso
      apply h1
      unfold uniqueVals
      rw [Finset.length_sort, full_constant hs hst hf hb (hlab s f)]
      rfl

/-- The same holds for any symmetric structuring element if the array has at least one zero. -/
theorem C53_label_background (hs : s.Pos) (hst : StructOk st) {lab : Shape → (Coord → ℕ) → Coord → ℕ}
    (hlab : ∀ t f, IsLabeling st t f (lab t f)) (f : Coord → ℕ) {a0 : Coord} (h0 : InRange s a0) (hb : f a0 = 0) :
    (∃ M, gridLabel lab s f = some M ∧ IsPeriodicLabeling st s f M) ∧
    (∃ M, gridLabelNone lab s f = some M ∧ IsPeriodicLabeling st s f M) := by
  refine ⟨?_, mergeLabels_spec hs hst hlab f h0 hb⟩
  unfold gridLabel
  by_cases h1 : (uniqueVals s (lab s f)).length = 1
  · simp only [if_pos h1]
    exact ⟨_, rfl, constant_label (hlab s f) h1⟩
  · simp only [if_neg h1]
    exact mergeLabels_spec hs hst hlab f h0 hb

/-- With `structure=None` an array without a zero raises an `IndexError`, whatever its shape. -/
theorem C53_none_full_fails (hs : s.Pos) (hst : StructOk st) (hf : HasFaces st) {lab : Shape → (Coord → ℕ) → Coord → ℕ}
    (hlab : ∀ t f, IsLabeling st t f (lab t f)) (f : Coord → ℕ) (hall : ∀ a, InRange s a → f a ≠ 0) :
    gridLabelNone lab s f = none := by
  have h1 := full_constant hs hst hf hall (hlab s f)
  have hlen : (uniqueVals s (lab s f)).length = 1 := by unfold uniqueVals; rw [Finset.length_sort, h1]; rfl
  have hP : ∀ c, padWrap s (lab s f) c = 1 := by
    intro c
    rw [padWrap_eq]
    have : lab s f (homePoint s (backC c)) ∈ (boxOf s).image (lab s f) :=
      Finset.mem_image.mpr ⟨_, mem_boxOf.mpr (homePoint_range hs _), rfl⟩
    rw [h1] at this
    exact Finset.mem_singleton.mp this
  unfold gridLabelNone mergeLabels
  simp only [hlen]
  have hnone : featureConns s 1 (padWrap s (lab s f)) (lab (padShape s) (padWrap s (lab s f))) = none := by
    unfold featureConns
    set R := lab (padShape s) (padWrap s (lab s f))
    obtain ⟨i, l, hil⟩ : ∃ i l, uniqueVals (padShape s) R = i :: l := by
      apply List.exists_cons_of_ne_nil
      intro h
      have hr : InRange (padShape s) (homePoint (padShape s) (0, 0, 0)) :=
        homePoint_range ⟨by simp [padShape], by simp [padShape], by simp [padShape]⟩ _
      have : R (homePoint (padShape s) (0, 0, 0)) ∈ uniqueVals (padShape s) R := mem_uniqueVals.mpr ⟨_, hr, rfl⟩
      rw [h] at this
      simp at this
    rw [hil, List.foldlM_cons]
    have hfi : addFeatures (List.replicate 1 ∅) (featuresOf s (padWrap s (lab s f)) R i) = none := by
      have hi : i ∈ uniqueVals (padShape s) R := by rw [hil]; simp
      obtain ⟨c, hc, hRc⟩ := mem_uniqueVals.mp hi
      have hm : 1 ∈ featuresOf s (padWrap s (lab s f)) R i := mem_featuresOf.mpr ⟨c, hc, hRc, hP c⟩
      have hall1 : ∀ x ∈ featuresOf s (padWrap s (lab s f)) R i, x = 1 := by
        intro x hx
        obtain ⟨c, _, _, rfl⟩ := mem_featuresOf.mp hx
        exact hP c
      obtain ⟨x, r, hxr⟩ := List.exists_cons_of_ne_nil (List.ne_nil_of_mem hm)
      have hx1 := hall1 x (by rw [hxr]; simp)
      unfold addFeatures
      rw [hxr, List.foldlM_cons, hx1]
      rfl
    rw [hfi]
    rfl
  rw [hnone]
  rfl

end

/-! ## A labelling exists, so that the theorems are not empty -/

theorem exists_labeling (st : List Coord) (hst : StructOk st) (s : Shape) (f : Coord → ℕ) : ∃ g, IsLabeling st s f g := by
  classical
  have hsym : ∀ x y, BoxNbr st s f x y → BoxNbr st s f y x := by
    rintro x y ⟨h1, h2, h3, h4, d, hd, rfl⟩
    refine ⟨h2, h1, h4, h3, negC d, hst.neg d hd, ?_⟩
    simp [addC, negC]
  -- any injective numbering of the points
  obtain ⟨num, hnum⟩ : ∃ num : Coord → ℕ, Function.Injective num :=
    ⟨Encodable.encode, Encodable.encode_injective⟩
  have hex : ∀ a, ∃ n, ∃ b, Relation.ReflTransGen (BoxNbr st s f) a b ∧ num b = n := fun a => ⟨num a, a, .refl, rfl⟩
  let key : Coord → ℕ := fun a => if f a = 0 then 0 else Nat.find (hex a) + 1
  have hkey : ∀ a b, f a ≠ 0 → f b ≠ 0 → (key a = key b ↔ Relation.ReflTransGen (BoxNbr st s f) a b) := by
    intro a b ha hb
    simp only [key, if_neg ha, if_neg hb, Nat.add_right_cancel_iff]
    constructor
    · intro h
      obtain ⟨c, hc, e⟩ := Nat.find_spec (hex a)
      obtain ⟨d, hd, e'⟩ := Nat.find_spec (hex b)
      have : c = d := hnum (by rw [e, e', h])
      subst this
      exact hc.trans (rtg_symm hsym hd)
    · intro h
      apply le_antisymm
      · obtain ⟨d, hd, e'⟩ := Nat.find_spec (hex b)
        exact Nat.find_min' _ ⟨d, h.trans hd, e'⟩
      · obtain ⟨d, hd, e'⟩ := Nat.find_spec (hex a)
        exact Nat.find_min' _ ⟨d, (rtg_symm hsym h).trans hd, e'⟩
  let u : List ℕ := (insert 0 ((boxOf s).image key)).sort (· ≤ ·)
  have hp : u.Pairwise (· < ·) := sort_lt _
  have hm : ∀ a, InRange s a → key a ∈ u := fun a ha =>
    (Finset.mem_sort _).mpr (Finset.mem_insert_of_mem (Finset.mem_image.mpr ⟨a, mem_boxOf.mpr ha, rfl⟩))
  have h0u : 0 ∈ u := (Finset.mem_sort _).mpr (Finset.mem_insert_self _ _)
  have hinj : ∀ x ∈ u, ∀ y ∈ u, ((u.filter fun z => decide (z < x)).length = (u.filter fun z => decide (z < y)).length ↔ x = y) := by
    intro x hx y hy
    constructor
    · intro h
      rcases lt_trichotomy x y with h1 | h1 | h1
      · have := filter_lt_length hp hx h1; omega
      · exact h1
      · have := filter_lt_length hp hy h1; omega
    · rintro rfl; rfl
  have hz : (u.filter fun z => decide (z < 0)).length = 0 := by simp
  refine ⟨fun a => (u.filter fun z => decide (z < key a)).length, ?_, ?_, ?_⟩
  · intro a ha
    rw [← hz, hinj _ (hm a ha) _ h0u]
    simp only [key]
    split_ifs with h <;> simp [h]
  · intro a b ha hb hfa hfb
    rw [hinj _ (hm a ha) _ (hm b hb)]
    exact hkey a b hfa hfb
  · intro a ha m hm0 hmle
    have hlt : (u.filter fun z => decide (z < key a)).length < u.length := by
      rw [List.length_filter_lt_length_iff_exists]
      exact ⟨key a, hm a ha, by simp⟩
    obtain ⟨x, hx, e⟩ := exists_sorted_rank hp (m := m) (lt_of_le_of_lt hmle hlt)
    rcases Finset.mem_insert.mp ((Finset.mem_sort _).mp hx) with h | h
    · subst h; rw [hz] at e; omega
    · obtain ⟨b, hb, rfl⟩ := Finset.mem_image.mp h
      exact ⟨b, mem_boxOf.mp hb, e⟩

/-- The default structuring element, `np.ones([3, 3, 3])`, without its centre. -/
theorem neighbors26_struct : StructOk neighbors26 ∧ HasFaces neighbors26 := by
  refine ⟨⟨?_, by decide⟩, by decide, by decide, by decide⟩
  have : ∀ t ∈ neighbors26, (-1 ≤ t.1 ∧ t.1 ≤ 1) ∧ (-1 ≤ t.2.1 ∧ t.2.1 ≤ 1) ∧ (-1 ≤ t.2.2 ∧ t.2.2 ≤ 1) := by decide
  exact this

/-- A row of four voxels with a gap: the two ends are one region because of the periodic boundary. -/
example : ∃ (lab : Shape → (Coord → ℕ) → Coord → ℕ) (M : Coord → ℕ),
    gridLabel lab ⟨1, 1, 4⟩ (fun c => if c.2.2 = 1 ∨ c.2.2 = 2 then 0 else 1) = some M ∧ M (0, 0, 0) = M (0, 0, 3) ∧ M (0, 0, 1) = 0 := by
  choose lab hlab using exists_labeling neighbors26 neighbors26_struct.1
  obtain ⟨M, e, h⟩ := C53_label (s := ⟨1, 1, 4⟩) ⟨by decide, by decide, by decide⟩ neighbors26_struct.1 neighbors26_struct.2 hlab
    (fun c => if c.2.2 = 1 ∨ c.2.2 = 2 then 0 else 1)
  have r : ∀ k : ℤ, 0 ≤ k → k < 4 → InRange ⟨1, 1, 4⟩ (0, 0, k) := fun k h1 h2 => ⟨by simp, by simp, ⟨h1, by simpa using h2⟩⟩
  refine ⟨lab, M, e, ?_, ?_⟩
  · refine (h.same _ _ (r 0 (by decide) (by decide)) (r 3 (by decide) (by decide)) (by decide) (by decide)).mpr ?_
    refine ⟨(0, 0, -1), samePoint_iff.mpr (by decide), .single ⟨by decide, by decide, (0, 0, -1), by decide, by decide⟩⟩
  · exact (h.zero _ (r 1 (by decide) (by decide))).mpr (by decide)

end BaderKit
