import Verif.Model.PointRing
import Verif.Props.FeatureSurface
import Mathlib.Topology.MetricSpace.ProperSpace.Real
import Mathlib.Topology.Order.Compact
set_option linter.unusedSectionVars false
/-! # Property C89: point, ring or cage -/
namespace BaderKit

section
variable {K : Type} [Field K] [LinearOrder K] [IsStrictOrderedRing K] [FloorRing K]

/-! ## Specification -/

/-- The sum of the squared components of the rows along a direction. -/
def spreadAlong (ps : List (V3 K)) (u : V3 K) : K := (ps.map fun p => dotV p u ^ 2).sum

/-- What the decomposition is trusted to give: the extreme spreads over all unit vectors are the squares of the extreme singular values. -/
def IsSvd (svd : List (V3 K) → K × K) : Prop := ∀ ps,
  0 ≤ (svd ps).1 ∧ 0 ≤ (svd ps).2 ∧
  (∀ u, norm2 u = 1 → spreadAlong ps u ≤ (svd ps).1 ^ 2) ∧ (∃ u, norm2 u = 1 ∧ spreadAlong ps u = (svd ps).1 ^ 2) ∧
  (∀ u, norm2 u = 1 → (svd ps).2 ^ 2 ≤ spreadAlong ps u) ∧ (∃ u, norm2 u = 1 ∧ spreadAlong ps u = (svd ps).2 ^ 2)

/-- The sum of the squared distances of the points from the plane through their centre of mass with the unit normal `u`. -/
def offPlane (qs : List (V3 K)) (u : V3 K) : K :=
  let c : V3 K := ((qs.map fun q => q.1).sum / (qs.length : K), (qs.map fun q => q.2.1).sum / (qs.length : K), (qs.map fun q => q.2.2).sum / (qs.length : K))
  (qs.map fun q => dotV (subV q c) u ^ 2).sum

/-- `q` is a periodic image of `p`. -/
def ImageOf (p q : V3 K) : Prop := ∃ a b c : ℤ, q.1 = p.1 + a ∧ q.2.1 = p.2.1 + b ∧ q.2.2 = p.2.2 + c

/-- Less than half a cell apart along each axis. -/
def HalfCell (p q : V3 K) : Prop := |q.1 - p.1| < 1 / 2 ∧ |q.2.1 - p.2.1| < 1 / 2 ∧ |q.2.2 - p.2.2| < 1 / 2

/-- The points `qs` are images of the points `ps`, all within half a cell of the first. -/
def Gathered (ps qs : List (V3 K)) : Prop := List.Forall₂ ImageOf ps qs ∧ ∀ q0 ∈ qs.head?, ∀ q ∈ qs, HalfCell q0 q

/-! ## The points that are compared -/

theorem unwrapAt_image {p0 q0 p q : V3 K} (h0 : ImageOf p0 q0) (h : ImageOf p q) (hw : HalfCell q0 q) :
    unwrapAt p0 p = addV q (subV p0 q0) := by
  obtain ⟨a0, b0, c0, e1, e2, e3⟩ := h0
  obtain ⟨a, b, c, f1, f2, f3⟩ := h
  obtain ⟨w1, w2, w3⟩ := hw
  have key : ∀ (p p0 q q0 : K) (m m0 : ℤ), q0 = p0 + m0 → q = p + m → |q - q0| < 1 / 2 → p - (roundHE (p - p0) : K) = q + (p0 - q0) := by
    intro p p0 q q0 m m0 h1 h2 h3
    have := round_unique (x := p - p0) (n := m - m0) (by
      rw [show p - p0 + ((m - m0 : ℤ) : K) = q - q0 by rw [h1, h2]; push_cast; ring]; exact h3)
    have h4 : p - p0 + ((m - m0 : ℤ) : K) = q - q0 := by rw [h1, h2]; push_cast; ring
    rw [h4] at this
    linear_combination this
  unfold unwrapAt addV subV
  rw [key _ _ _ _ _ _ e1 f1 w1, key _ _ _ _ _ _ e2 f2 w2, key _ _ _ _ _ _ e3 f3 w3]

theorem unwrapSet_gathered {ps qs : List (V3 K)} (h : Gathered ps qs) : ∃ t : V3 K, unwrapSet ps = qs.map fun q => addV q t := by
  obtain ⟨h1, h2⟩ := h
  cases h1 with
  | nil => exact ⟨(0, 0, 0), rfl⟩
  | cons h0 hr =>
    rename_i p q ps qs
    refine ⟨subV p q, ?_⟩
    have hw := h2 q (by simp)
    unfold unwrapSet
    have key : ∀ (ps' qs' : List (V3 K)), List.Forall₂ ImageOf ps' qs' → (∀ x ∈ qs', HalfCell q x) →
        ps'.map (unwrapAt p) = qs'.map fun x => addV x (subV p q) := by
      intro ps' qs' hf
      induction hf with
      | nil => intro _; rfl
      | cons hab _ ih =>
        intro hx
        rw [List.map_cons, List.map_cons, ih (fun x hx' => hx x (by simp [hx'])), unwrapAt_image h0 hab (hx _ (by simp))]
    exact key _ _ (List.Forall₂.cons h0 hr) hw

theorem foldl_addV (qs : List (V3 K)) (a : V3 K) : qs.foldl addV a =
    (a.1 + (qs.map fun q => q.1).sum, a.2.1 + (qs.map fun q => q.2.1).sum, a.2.2 + (qs.map fun q => q.2.2).sum) := by
  induction qs generalizing a with
  | nil => simp
  | cons q qs ih =>
    rw [List.foldl_cons, ih]
    simp only [addV, List.map_cons, List.sum_cons, add_assoc]

theorem centred_translate (qs : List (V3 K)) (hne : qs ≠ []) (t u : V3 K) :
    spreadAlong ((qs.map fun q => addV q t).map fun p => subV p (avgV (qs.map fun q => addV q t))) u = offPlane qs u := by
  have hn : (qs.length : K) ≠ 0 := by exact_mod_cast (List.length_pos_iff.mpr hne).ne'
  have hs : ∀ f : V3 K → K, ∀ c : K, (qs.map fun q => f q + c).sum = (qs.map f).sum + (qs.length : K) * c := by
    intro f c
    clear hn hne
    induction qs with
    | nil => simp
    | cons q qs ih => simp only [List.map_cons, List.sum_cons, ih, List.length_cons]; push_cast; ring
  unfold spreadAlong offPlane
  rw [List.map_map, List.map_map]
  congr 1
  apply List.map_congr_left
  intro q _
  simp only [Function.comp_apply]
  congr 2
  unfold avgV
  rw [foldl_addV]
  simp only [List.map_map, Function.comp_def, addV, subV, List.length_map, zero_add, hs]
  refine Prod.ext ?_ (Prod.ext ?_ ?_) <;> simp only <;> field_simp <;> ring

theorem gathered_length {ps qs : List (V3 K)} (h : Gathered ps qs) : ps.length = qs.length := h.1.length_eq

/-- **C89** Fewer than three maxima are a point; exactly three are a ring, wherever they lie. -/
theorem C89_few (svd : List (V3 K) → K × K) (ps : List (V3 K)) :
    (ps.length < 3 → ptRingCage svd ps = some .point) ∧ (ps.length = 3 → ptRingCage svd ps = some .ring) := by
  unfold ptRingCage
  constructor
  · intro h; rw [if_pos h]
  · intro h; rw [if_neg (by omega), if_pos h]

/-- **C89** Four or more maxima with images within half a cell of the first one.  They are a ring exactly if there is a plane through
their centre from which they deviate, in the root mean square, by less than a thousandth of their deviation from some other plane through it; otherwise a
cage.  (Fractional coordinates.)  If all images coincide, the function fails. -/
theorem C89_shape {svd : List (V3 K) → K × K} (hsvd : IsSvd svd) {ps qs : List (V3 K)} (hg : Gathered ps qs) (h4 : 4 ≤ ps.length) :
    (ptRingCage svd ps = none ↔ ∀ u, norm2 u = 1 → offPlane qs u = 0) ∧
    (ptRingCage svd ps = some .ring ↔ ∃ n w : V3 K, norm2 n = 1 ∧ norm2 w = 1 ∧ offPlane qs n < (1 / 10 ^ 3) ^ 2 * offPlane qs w) ∧
    (ptRingCage svd ps = some .cage ↔ (∃ u, norm2 u = 1 ∧ offPlane qs u ≠ 0) ∧
      ∀ n w : V3 K, norm2 n = 1 → norm2 w = 1 → (1 / 10 ^ 3) ^ 2 * offPlane qs w ≤ offPlane qs n) := by
  obtain ⟨t, ht⟩ := unwrapSet_gathered hg
  have hne : qs ≠ [] := by
    intro h
    have := gathered_length hg
    rw [h, List.length_nil] at this
    omega
  set pts := (qs.map fun q => addV q t).map fun p => subV p (avgV (qs.map fun q => addV q t)) with hpts
  have hsp : ∀ u, spreadAlong pts u = offPlane qs u := centred_translate qs hne t
  obtain ⟨s1, s2, m1, ⟨w, hw, ew⟩, m2, ⟨n, hn, en⟩⟩ := hsvd pts
  simp only [hsp] at m1 ew m2 en
  have hrun : ptRingCage svd ps = if (svd pts).1 = 0 then none
      else if (svd pts).2 / (svd pts).1 < 1 / 10 ^ 3 then some .ring else some .cage := by
    unfold ptRingCage
    rw [if_neg (by omega), if_neg (by omega)]
    simp only [ht]
    rfl
  set a := (svd pts).1
  set b := (svd pts).2
  have hz : a = 0 ↔ ∀ u, norm2 u = 1 → offPlane qs u = 0 := by
    constructor
    · intro h0 u hu
      have h1 := m1 u hu
      rw [h0] at h1
      have h2 := m2 u hu
      have : 0 ≤ b ^ 2 := sq_nonneg b
      nlinarith
    · intro h0
      have := h0 w hw
      rw [ew] at this
      exact pow_eq_zero_iff (two_ne_zero) |>.mp this
  have hlt : a ≠ 0 → (b / a < 1 / 10 ^ 3 ↔ ∃ n w : V3 K, norm2 n = 1 ∧ norm2 w = 1 ∧ offPlane qs n < (1 / 10 ^ 3) ^ 2 * offPlane qs w) := by
    intro h0
    have ha : 0 < a := lt_of_le_of_ne s1 (Ne.symm h0)
    rw [div_lt_iff₀ ha]
    constructor
    · intro h
      refine ⟨n, w, hn, hw, ?_⟩
      rw [en, ew, ← mul_pow]
      exact pow_lt_pow_left₀ h s2 two_ne_zero
    · rintro ⟨n', w', hn', hw', h⟩
      have h1 := m2 n' hn'
      have h2 := m1 w' hw'
      have h3 : b ^ 2 < (1 / 10 ^ 3 * a) ^ 2 := by
        rw [mul_pow]
        calc b ^ 2 ≤ offPlane qs n' := h1
          _ < (1 / 10 ^ 3) ^ 2 * offPlane qs w' := h
          _ ≤ (1 / 10 ^ 3) ^ 2 * a ^ 2 := mul_le_mul_of_nonneg_left h2 (by positivity)
      exact lt_of_pow_lt_pow_left₀ 2 (by positivity) h3
  have hflat0 : a = 0 → ¬ ∃ n w : V3 K, norm2 n = 1 ∧ norm2 w = 1 ∧ offPlane qs n < (1 / 10 ^ 3) ^ 2 * offPlane qs w := by
    rintro h0 ⟨n', w', hn', hw', h⟩
    rw [hz.mp h0 n' hn', hz.mp h0 w' hw', mul_zero] at h
    exact lt_irrefl _ h
  rw [hrun]
  by_cases h0 : a = 0
  · rw [if_pos h0]
    refine ⟨⟨fun _ => hz.mp h0, fun _ => rfl⟩, ⟨fun h => (by cases h), fun h => absurd h (hflat0 h0)⟩, ⟨fun h => (by cases h), fun h => ?_⟩⟩
    obtain ⟨⟨u, hu, hu'⟩, _⟩ := h
    exact absurd (hz.mp h0 u hu) hu'
  · rw [if_neg h0]
    have hnz : ∃ u, norm2 u = 1 ∧ offPlane qs u ≠ 0 := by
      refine ⟨w, hw, ?_⟩
      rw [ew]
      exact pow_ne_zero 2 h0
    by_cases h : b / a < 1 / 10 ^ 3
    · rw [if_pos h]
      refine ⟨⟨fun h' => (by cases h'), fun h' => absurd (hz.mpr h') h0⟩, ⟨fun _ => (hlt h0).mp h, fun _ => rfl⟩,
        ⟨fun h' => (by cases h'), fun h' => ?_⟩⟩
      obtain ⟨n', w', hn', hw', h''⟩ := (hlt h0).mp h
      exact absurd h'' (not_lt.mpr (h'.2 n' w' hn' hw'))
    · rw [if_neg h]
      refine ⟨⟨fun h' => (by cases h'), fun h' => absurd (hz.mpr h') h0⟩, ⟨fun h' => (by cases h'), fun h' => absurd ((hlt h0).mpr h') h⟩,
        ⟨fun _ => ⟨hnz, fun n' w' hn' hw' => ?_⟩, fun _ => rfl⟩⟩
      by_contra hc
      exact h ((hlt h0).mpr ⟨n', w', hn', hw', not_le.mp hc⟩)

theorem offPlane_perm {qs qs' : List (V3 K)} (h : qs.Perm qs') (u : V3 K) : offPlane qs u = offPlane qs' u := by
  unfold offPlane
  simp only [(h.map _).sum_eq, h.length_eq]

/-- **C89** The order of the maxima and the choice of their periodic images do not matter if all of them have images within half a cell of
each other. -/
theorem C89_order {svd : List (V3 K) → K × K} (hsvd : IsSvd svd) {ps ps' qs qs' : List (V3 K)} (h : List.Forall₂ ImageOf ps qs)
    (h' : List.Forall₂ ImageOf ps' qs') (hp : qs.Perm qs') (hw : ∀ q ∈ qs, ∀ q' ∈ qs, HalfCell q q') :
    ptRingCage svd ps = ptRingCage svd ps' := by
  have hlen : ps.length = ps'.length := by rw [h.length_eq, hp.length_eq, h'.length_eq]
  rcases Nat.lt_or_ge ps.length 4 with h4 | h4
  · rcases Nat.lt_or_ge ps.length 3 with h3 | h3
    · rw [(C89_few svd ps).1 h3, (C89_few svd ps').1 (by omega)]
    · rw [(C89_few svd ps).2 (by omega), (C89_few svd ps').2 (by omega)]
  · have g : Gathered ps qs := ⟨h, fun q0 h0 q hq => hw q0 (List.mem_of_head? h0) q hq⟩
    have g' : Gathered ps' qs' := ⟨h', fun q0 h0 q hq => hw q0 (hp.mem_iff.mpr (List.mem_of_head? h0)) q (hp.mem_iff.mpr hq)⟩
    obtain ⟨a1, a2, a3⟩ := C89_shape hsvd g h4
    obtain ⟨b1, b2, b3⟩ := C89_shape hsvd g' (by omega)
    simp only [← offPlane_perm hp] at b1 b2 b3
    cases e : ptRingCage svd ps with
    | none => exact (b1.mpr (a1.mp e)).symm
    | some k =>
      cases k with
      | point =>
        exfalso
        unfold ptRingCage at e
        rw [if_neg (by omega), if_neg (by omega)] at e
        simp only at e
        split at e
        · cases e
        · split at e <;> cases e
      | ring => exact (b2.mpr (a2.mp e)).symm
      | cage => exact (b3.mpr (a3.mp e)).symm

/-- **C89** Maxima in a plane, with images within half a cell of the first one and not all the same, are a ring. -/
theorem C89_planar {svd : List (V3 K) → K × K} (hsvd : IsSvd svd) {ps qs : List (V3 K)} (hg : Gathered ps qs) (h3 : 3 ≤ ps.length)
    {n : V3 K} {c : K} (hn : norm2 n = 1) (hpl : ∀ q ∈ qs, dotV q n = c) (hne : ∃ u, norm2 u = 1 ∧ offPlane qs u ≠ 0) :
    ptRingCage svd ps = some .ring := by
  rcases Nat.lt_or_ge ps.length 4 with h4 | h4
  · exact (C89_few svd ps).2 (by omega)
  · rw [(C89_shape hsvd hg h4).2.1]
    obtain ⟨w, hw, hw'⟩ := hne
    refine ⟨n, w, hn, hw, ?_⟩
    have hpos : 0 ≤ offPlane qs w := by
      unfold offPlane
      apply List.sum_nonneg
      intro x hx
      obtain ⟨q, _, rfl⟩ := List.mem_map.mp hx
      exact sq_nonneg _
    have h0 : offPlane qs n = 0 := by
      have hl : (qs.length : K) ≠ 0 := by
        have := gathered_length hg
        have : qs.length ≠ 0 := by omega
        exact_mod_cast this
      have hsum : ∀ l : List (V3 K), (∀ q ∈ l, dotV q n = c) →
          (l.map fun q => q.1).sum * n.1 + (l.map fun q => q.2.1).sum * n.2.1 + (l.map fun q => q.2.2).sum * n.2.2 = (l.length : K) * c := by
        intro l
        induction l with
        | nil => intro _; simp
        | cons q l ih =>
          intro h
          have := ih fun x hx => h x (by simp [hx])
          have hq := h q (by simp)
          unfold dotV at hq
          simp only [List.map_cons, List.sum_cons, List.length_cons]
          push_cast
          linear_combination this + hq
      have hs := hsum qs hpl
      unfold offPlane
      simp only
      rw [List.sum_eq_zero]
      intro x hx
      obtain ⟨q, hq, rfl⟩ := List.mem_map.mp hx
      have hq' := hpl q hq
      have : dotV (subV q ((qs.map fun q => q.1).sum / (qs.length : K), (qs.map fun q => q.2.1).sum / (qs.length : K),
          (qs.map fun q => q.2.2).sum / (qs.length : K))) n = 0 := by
        unfold dotV subV at *
        simp only
        field_simp
        linear_combination (qs.length : K) * hq' - hs
      rw [this]; simp
    rw [h0]
    exact mul_pos (by positivity) (lt_of_le_of_ne hpos (Ne.symm hw'))

/-! ## Wide sets -/

/-- Four maxima in the plane `4 z = 3 x`, more than half a cell wide. -/
def widePoints : List (V3 K) := [(0, 0, 0), (1 / 5, 3 / 10, 3 / 20), (2 / 5, 0, 3 / 10), (3 / 5, 1 / 10, 9 / 20)]

/-- The same maxima in another order. -/
def widePoints' : List (V3 K) := [(2 / 5, 0, 3 / 10), (0, 0, 0), (1 / 5, 3 / 10, 3 / 20), (3 / 5, 1 / 10, 9 / 20)]

/-- The images used for the first order. -/
def wideImages : List (V3 K) := [(0, 0, 0), (1 / 5, 3 / 10, 3 / 20), (2 / 5, 0, 3 / 10), (-2 / 5, 1 / 10, 9 / 20)]

theorem image_refl (p : V3 K) : ImageOf p p := ⟨0, 0, 0, by simp, by simp, by simp⟩

/-- **C89** (negative part) If the set is wider than half a cell, the result depends on the order of the maxima: the same four maxima of
one plane are a cage or a ring. -/
theorem C89_wide_order {svd : List (V3 K) → K × K} (hsvd : IsSvd svd) :
    (widePoints : List (V3 K)).Perm widePoints' ∧ (∀ q ∈ (widePoints : List (V3 K)), dotV q (3 / 5, 0, -4 / 5) = 0) ∧
    ptRingCage svd (widePoints : List (V3 K)) = some .cage ∧ ptRingCage svd (widePoints' : List (V3 K)) = some .ring := by
  have hpl : ∀ q ∈ (widePoints : List (V3 K)), dotV q (3 / 5, 0, -4 / 5) = 0 := by
    intro q hq
    simp only [widePoints, List.mem_cons, List.not_mem_nil, or_false] at hq
    rcases hq with rfl | rfl | rfl | rfl <;> norm_num [dotV]
  have hperm : (widePoints : List (V3 K)).Perm widePoints' := by
    have : (widePoints : List (V3 K)) = [(0, 0, 0), (1 / 5, 3 / 10, 3 / 20)] ++ (2 / 5, 0, 3 / 10) :: [(3 / 5, 1 / 10, 9 / 20)] := rfl
    rw [this]
    exact List.perm_middle
  refine ⟨hperm, hpl, ?_, ?_⟩
  · have hg : Gathered (widePoints : List (V3 K)) wideImages := by
      constructor
      · refine .cons (image_refl _) (.cons (image_refl _) (.cons (image_refl _) (.cons ⟨-1, 0, 0, ?_, ?_, ?_⟩ .nil))) <;> norm_num
      · intro q0 h0 q hq
        simp only [wideImages, List.head?_cons, Option.mem_def, Option.some.injEq] at h0
        subst h0
        simp only [wideImages, List.mem_cons, List.not_mem_nil, or_false] at hq
        rcases hq with rfl | rfl | rfl | rfl <;> norm_num [HalfCell, abs_lt]
    have hoff : ∀ u : V3 K, offPlane wideImages u =
        (560 * u.1 ^ 2 + 96 * u.2.1 ^ 2 + 180 * u.2.2 ^ 2 - 240 * (u.1 * u.2.2)) / 1600 := by
      intro u
      simp only [offPlane, wideImages, List.map_cons, List.map_nil, List.sum_cons, List.sum_nil, List.length_cons, List.length_nil, dotV, subV]
      norm_num
      ring
    rw [(C89_shape hsvd hg (by simp [widePoints])).2.2]
    refine ⟨⟨(1, 0, 0), by norm_num [norm2], by rw [hoff]; norm_num⟩, fun n w hn hw => ?_⟩
    rw [hoff, hoff]
    unfold norm2 at hn hw
    have h1 : 560 * w.1 ^ 2 + 96 * w.2.1 ^ 2 + 180 * w.2.2 ^ 2 - 240 * (w.1 * w.2.2) ≤ 800 := by
      nlinarith [sq_nonneg (w.1 + w.2.2), sq_nonneg w.1, sq_nonneg w.2.1, sq_nonneg w.2.2]
    have h2 : 90 ≤ 560 * n.1 ^ 2 + 96 * n.2.1 ^ 2 + 180 * n.2.2 ^ 2 - 240 * (n.1 * n.2.2) := by
      nlinarith [sq_nonneg (3 * n.2.2 - 4 * n.1), sq_nonneg n.1, sq_nonneg n.2.1, sq_nonneg n.2.2]
    have h3 : (1 / 10 ^ 3 : K) ^ 2 * 800 ≤ 90 := by norm_num
    have h4 : (0 : K) ≤ (1 / 10 ^ 3) ^ 2 := by positivity
    rw [← mul_div_assoc]
    apply div_le_div_of_nonneg_right _ (by norm_num)
    linarith [mul_le_mul_of_nonneg_left h1 h4]
  · have hg : Gathered (widePoints' : List (V3 K)) widePoints' := by
      constructor
      · exact List.forall₂_same.mpr fun _ _ => image_refl _
      · intro q0 h0 q hq
        simp only [widePoints', List.head?_cons, Option.mem_def, Option.some.injEq] at h0
        subst h0
        simp only [widePoints', List.mem_cons, List.not_mem_nil, or_false] at hq
        rcases hq with rfl | rfl | rfl | rfl <;> norm_num [HalfCell, abs_lt]
    refine C89_planar hsvd hg (by simp [widePoints']) (n := (3 / 5, 0, -4 / 5)) (c := 0) (by norm_num [norm2])
      (fun q hq => hpl q (hperm.mem_iff.mpr hq)) ⟨(0, 1, 0), by norm_num [norm2], ?_⟩
    simp only [offPlane, widePoints', List.map_cons, List.map_nil, List.sum_cons, List.sum_nil, List.length_cons, List.length_nil, dotV, subV]
    norm_num

end

/-- The contract of the decomposition can be met over the reals. -/
theorem exists_svd : ∃ svd : List (V3 ℝ) → ℝ × ℝ, IsSvd svd := by
  have hS : IsCompact {u : V3 ℝ | norm2 u = 1} := by
    apply Metric.isCompact_of_isClosed_isBounded
    · exact isClosed_eq (by unfold norm2; fun_prop) continuous_const
    · rw [isBounded_iff_forall_norm_le]
      refine ⟨1, fun u hu => ?_⟩
      simp only [Set.mem_setOf_eq, norm2] at hu
      have b : ∀ x : ℝ, x ^ 2 ≤ 1 → ‖x‖ ≤ 1 := fun x hx => by
        rw [Real.norm_eq_abs]; exact (sq_le_one_iff_abs_le_one x).mp hx
      rw [Prod.norm_def, Prod.norm_def]
      refine max_le (b _ ?_) (max_le (b _ ?_) (b _ ?_)) <;> nlinarith [sq_nonneg u.1, sq_nonneg u.2.1, sq_nonneg u.2.2]
  have hne : ({u : V3 ℝ | norm2 u = 1}).Nonempty := ⟨(1, 0, 0), by norm_num [norm2]⟩
  have hpos : ∀ ps u, 0 ≤ spreadAlong (K := ℝ) ps u := by
    intro ps u
    unfold spreadAlong
    apply List.sum_nonneg
    intro x hx
    obtain ⟨q, _, rfl⟩ := List.mem_map.mp hx
    exact sq_nonneg _
  have hc : ∀ ps : List (V3 ℝ), Continuous (spreadAlong ps) := by
    intro ps
    induction ps with
    | nil => exact continuous_const (y := (0 : ℝ))
    | cons p ps ih =>
      have : spreadAlong (p :: ps) = fun u => dotV p u ^ 2 + spreadAlong ps u := by
        funext u; simp [spreadAlong]
      rw [this]
      have hd : Continuous fun u : V3 ℝ => dotV p u ^ 2 := by unfold dotV; fun_prop
      exact hd.add ih
  have key : ∀ ps : List (V3 ℝ), ∃ r : ℝ × ℝ, 0 ≤ r.1 ∧ 0 ≤ r.2 ∧
      (∀ u, norm2 u = 1 → spreadAlong ps u ≤ r.1 ^ 2) ∧ (∃ u, norm2 u = 1 ∧ spreadAlong ps u = r.1 ^ 2) ∧
      (∀ u, norm2 u = 1 → r.2 ^ 2 ≤ spreadAlong ps u) ∧ (∃ u, norm2 u = 1 ∧ spreadAlong ps u = r.2 ^ 2) := by
    intro ps
    obtain ⟨u, hu, hu'⟩ := hS.exists_isMaxOn hne (hc ps).continuousOn
    obtain ⟨w, hw, hw'⟩ := hS.exists_isMinOn hne (hc ps).continuousOn
    refine ⟨(Real.sqrt (spreadAlong ps u), Real.sqrt (spreadAlong ps w)), Real.sqrt_nonneg _, Real.sqrt_nonneg _, ?_, ⟨u, hu, ?_⟩, ?_, ⟨w, hw, ?_⟩⟩
    · intro x hx
      rw [Real.sq_sqrt (hpos _ _)]
      exact hu' hx
    · rw [Real.sq_sqrt (hpos _ _)]
    · intro x hx
      rw [Real.sq_sqrt (hpos _ _)]
      exact hw' hx
    · rw [Real.sq_sqrt (hpos _ _)]
  choose f hf using key
  exact ⟨f, hf⟩

/-- The hypotheses of `C89_shape` and `C89_planar` hold for a square across the border of the cell. -/
example : Gathered ([(9 / 10, 0, 1 / 2), (1 / 10, 0, 1 / 2), (1 / 10, 1 / 5, 1 / 2), (9 / 10, 1 / 5, 1 / 2)] : List (V3 ℚ))
      [(-1 / 10, 0, 1 / 2), (1 / 10, 0, 1 / 2), (1 / 10, 1 / 5, 1 / 2), (-1 / 10, 1 / 5, 1 / 2)] ∧
    (∀ q ∈ ([(-1 / 10, 0, 1 / 2), (1 / 10, 0, 1 / 2), (1 / 10, 1 / 5, 1 / 2), (-1 / 10, 1 / 5, 1 / 2)] : List (V3 ℚ)), dotV q (0, 0, 1) = 1 / 2) ∧
    offPlane ([(-1 / 10, 0, 1 / 2), (1 / 10, 0, 1 / 2), (1 / 10, 1 / 5, 1 / 2), (-1 / 10, 1 / 5, 1 / 2)] : List (V3 ℚ)) (1, 0, 0) ≠ 0 := by
  refine ⟨⟨?_, ?_⟩, by decide +kernel, by decide +kernel⟩
  · refine .cons ⟨-1, 0, 0, ?_, ?_, ?_⟩ (.cons (image_refl _) (.cons (image_refl _) (.cons ⟨-1, 0, 0, ?_, ?_, ?_⟩ .nil))) <;> norm_num
  · unfold HalfCell
    decide +kernel

end BaderKit
