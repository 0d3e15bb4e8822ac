import Verif.Spec.CubeFraction
import Mathlib.MeasureTheory.Integral.IntervalIntegral.FundThmCalculus
import Mathlib.MeasureTheory.Integral.IntervalIntegral.Basic
import Mathlib.MeasureTheory.Measure.Lebesgue.EqHaar
import Mathlib.MeasureTheory.Measure.Haar.Unique
import Mathlib.Analysis.Calculus.Deriv.Pow
import Mathlib.Analysis.Calculus.Deriv.Mul
import Mathlib.Data.Nat.Factorial.Basic
/-!
# Volumes of cubes under planes as iterated integrals
-/
namespace BaderKit
open MeasureTheory intervalIntegral

/-- Volume of `{x ∈ [0,1]^n : a · x ≤ t}` as an iterated integral. -/
noncomputable def iterVol : List ℝ → ℝ → ℝ
  | [], t => if 0 ≤ t then 1 else 0
  | a :: l, t => ∫ x in (0 : ℝ)..1, iterVol l (t - a * x)

theorem iterVol_mono (l : List ℝ) : Monotone (iterVol l) ∧
    ∀ a t, IntervalIntegrable (fun x => iterVol l (t - a * x)) volume 0 1 := by
  have key : ∀ f : ℝ → ℝ, Monotone f → ∀ a t, IntervalIntegrable (fun x => f (t - a * x)) volume 0 1 := by
    intro f hf a t
    rcases le_total 0 a with ha | ha
    · refine Antitone.intervalIntegrable fun x y hxy => hf ?_
      have := mul_le_mul_of_nonneg_left hxy ha
      linarith
    · refine Monotone.intervalIntegrable fun x y hxy => hf ?_
      have := mul_le_mul_of_nonpos_left hxy ha
      linarith
  have hmono : Monotone (iterVol l) := by
    induction l with
    | nil =>
      intro s t hst
      simp only [iterVol]
      split_ifs <;> first | linarith | norm_num
    | cons a l ih =>
      intro s t hst
      simp only [iterVol]
      exact integral_mono_on zero_le_one (key _ ih a s) (key _ ih a t) fun x _ => ih (by linarith)
  exact ⟨hmono, key _ hmono⟩

theorem iterVol_range (l : List ℝ) : ∀ t, 0 ≤ iterVol l t ∧ iterVol l t ≤ 1 := by
  induction l with
  | nil => intro t; simp only [iterVol]; split_ifs <;> norm_num
  | cons a l ih =>
    intro t
    simp only [iterVol]
    constructor
    · exact integral_nonneg zero_le_one fun x _ => (ih _).1
    · have := integral_mono_on (g := fun _ => (1 : ℝ)) zero_le_one ((iterVol_mono l).2 a t)
        (by simp) fun x _ => (ih _).2
      simpa using this

/-- A zero coefficient does not matter. -/
theorem iterVol_zero (l : List ℝ) (t : ℝ) : iterVol (0 :: l) t = iterVol l t := by
  simp [iterVol]

/-- Changing the direction of an axis. -/
theorem iterVol_flip (a : ℝ) (l : List ℝ) (t : ℝ) : iterVol (-a :: l) t = iterVol (a :: l) (t + a) := by
  simp only [iterVol]
  have := integral_comp_sub_left (fun x => iterVol l (t + a - a * x)) (1 : ℝ) (a := 0) (b := 1)
  simp only [sub_self, sub_zero] at this
  rw [← this]
  refine integral_congr fun x _ => ?_
  change iterVol l _ = iterVol l _
  congr 1
  ring

/-- A change of the tail. -/
theorem iterVol_congr (a c : ℝ) (l m : List ℝ) (h : ∀ t, iterVol l t = iterVol m (t + c)) (t : ℝ) :
    iterVol (a :: l) t = iterVol (a :: m) (t + c) := by
  simp only [iterVol]
  refine integral_congr fun x _ => ?_
  simp only [h]
  congr 1
  ring

/-! ### Positive coefficients: the inclusion-exclusion formula -/

/-- `u_+^m`, with the indicator of `u ≥ 0` for `m = 0`. -/
noncomputable def ppow : ℕ → ℝ → ℝ
  | 0, u => if 0 ≤ u then 1 else 0
  | m + 1, u => (max u 0) ^ (m + 1)

theorem ppow_mono (m : ℕ) : Monotone (ppow m) := by
  cases m with
  | zero =>
    intro s t hst
    simp only [ppow]
    split_ifs <;> first | linarith | norm_num
  | succ m =>
    intro s t hst
    simp only [ppow]
    exact pow_le_pow_left₀ (le_max_right _ _) (max_le_max_right _ hst) _

theorem ppow_of_nonneg {m : ℕ} {u : ℝ} (h : 0 ≤ u) : ppow m u = u ^ m := by
  cases m with
  | zero => simp [ppow, h]
  | succ m => simp [ppow, max_eq_left h]

theorem ppow_of_neg {m : ℕ} {u : ℝ} (h : u < 0) : ppow m u = 0 := by
  cases m with
  | zero => simp [ppow, not_le.mpr h]
  | succ m => simp [ppow, max_eq_right h.le]

theorem ppow_deriv (m : ℕ) (u : ℝ) :
    HasDerivWithinAt (fun u => ppow (m + 1) u / ((m : ℝ) + 1)) (ppow m u) (Set.Ioi u) u := by
  have hm : (m : ℝ) + 1 ≠ 0 := by positivity
  rcases le_or_gt 0 u with h | h
  · have h1 : HasDerivAt (fun u : ℝ => u ^ (m + 1) / ((m : ℝ) + 1)) (u ^ m) u := by
      have := HasDerivAt.div_const (hasDerivAt_pow (m + 1) u) ((m : ℝ) + 1)
      have e : ((m + 1 : ℕ) : ℝ) * u ^ (m + 1 - 1) / ((m : ℝ) + 1) = u ^ m := by
        rw [div_eq_iff hm]
        push_cast
        ring
      rw [e] at this
      exact this
    rw [ppow_of_nonneg h]
    refine h1.hasDerivWithinAt.congr (fun x hx => ?_) ?_
    · rw [ppow_of_nonneg (h.trans (le_of_lt hx))]
    · rw [ppow_of_nonneg h]
  · rw [ppow_of_neg h]
    have h1 : HasDerivAt (fun _ : ℝ => (0 : ℝ)) 0 u := hasDerivAt_const u 0
    refine (h1.congr_of_eventuallyEq ?_).hasDerivWithinAt
    filter_upwards [Iio_mem_nhds h] with x hx
    rw [ppow_of_neg hx, zero_div]

theorem ppow_continuous (m : ℕ) : Continuous (ppow (m + 1)) := by
  unfold ppow
  fun_prop

theorem ppow_integral (m : ℕ) {a : ℝ} (ha : 0 < a) (t : ℝ) :
    ∫ x in (0 : ℝ)..1, ppow m (t - a * x) =
      (ppow (m + 1) t - ppow (m + 1) (t - a)) / (((m : ℝ) + 1) * a) := by
  rw [integral_comp_sub_mul _ ha.ne']
  simp only [mul_one, mul_zero, sub_zero, smul_eq_mul]
  have := integral_eq_sub_of_hasDeriv_right (a := t - a) (b := t)
    (f := fun u => ppow (m + 1) u / ((m : ℝ) + 1)) (f' := ppow m)
    (((ppow_continuous m).div_const _).continuousOn) (fun x _ => ppow_deriv m x)
    (ppow_mono m).intervalIntegrable
  rw [this]
  field_simp

/-- Alternating sum over the vertices. -/
noncomputable def altSum (m : ℕ) : List ℝ → ℝ → ℝ
  | [], t => ppow m t
  | a :: l, t => altSum m l t - altSum m l (t - a)

theorem altSum_integrable (m : ℕ) (l : List ℝ) : ∀ a t,
    IntervalIntegrable (fun x => altSum m l (t - a * x)) volume 0 1 := by
  induction l with
  | nil =>
    intro a t
    rcases le_total 0 a with ha | ha
    · refine Antitone.intervalIntegrable fun x y hxy => ppow_mono m ?_
      have := mul_le_mul_of_nonneg_left hxy ha
      linarith
    · refine Monotone.intervalIntegrable fun x y hxy => ppow_mono m ?_
      have := mul_le_mul_of_nonpos_left hxy ha
      linarith
  | cons b l ih =>
    intro a t
    simp only [altSum]
    refine (ih a t).sub ?_
    have := ih a (t - b)
    refine this.congr ?_
    intro x _
    change altSum m l _ = altSum m l _
    congr 1
    ring

theorem altSum_integral (m : ℕ) {a : ℝ} (ha : 0 < a) (l : List ℝ) : ∀ t,
    ∫ x in (0 : ℝ)..1, altSum m l (t - a * x) =
      (altSum (m + 1) l t - altSum (m + 1) l (t - a)) / (((m : ℝ) + 1) * a) := by
  induction l with
  | nil => intro t; exact ppow_integral m ha t
  | cons b l ih =>
    intro t
    simp only [altSum]
    have e : ∀ x, t - a * x - b = t - b - a * x := fun x => by ring
    simp only [e]
    rw [integral_sub (altSum_integrable m l a t) (altSum_integrable m l a (t - b)), ih, ih,
      show t - b - a = t - a - b by ring]
    ring

/-- The volume for positive coefficients. -/
theorem iterVol_pos (l : List ℝ) (hl : ∀ a ∈ l, 0 < a) : ∀ t,
    iterVol l t = altSum l.length l t / ((l.length.factorial : ℝ) * l.prod) := by
  induction l with
  | nil => intro t; simp [iterVol, altSum, ppow]
  | cons a l ih =>
    intro t
    have ha := hl a (by simp)
    have hp : (l.prod : ℝ) ≠ 0 := by
      refine List.prod_ne_zero fun h => ?_
      exact lt_irrefl _ (hl 0 (by simp [h]))
    simp only [iterVol]
    rw [integral_congr (g := fun x => altSum l.length l (t - a * x) / ((l.length.factorial : ℝ) * l.prod))
      (fun x _ => ih (fun b hb => hl b (by simp [hb])) _), intervalIntegral.integral_div, altSum_integral _ ha]
    simp only [altSum, List.length_cons, List.prod_cons, Nat.factorial_succ]
    push_cast
    have hf : (l.length.factorial : ℝ) ≠ 0 := by positivity
    have h1 : (l.length : ℝ) + 1 ≠ 0 := by positivity
    field_simp

/-! ### The iterated integral is the Lebesgue measure -/

theorem measure_step {Y : Type} [MeasureSpace Y] [SFinite (volume : Measure Y)] (l : List ℝ) (S : ℝ → Set Y)
    (hS : ∀ t, volume (S t) = ENNReal.ofReal (iterVol l t)) (a t : ℝ)
    (hm : MeasurableSet {q : ℝ × Y | q.1 ∈ Set.Icc (0 : ℝ) 1 ∧ q.2 ∈ S (t - a * q.1)}) :
    volume {q : ℝ × Y | q.1 ∈ Set.Icc (0 : ℝ) 1 ∧ q.2 ∈ S (t - a * q.1)} =
      ENNReal.ofReal (iterVol (a :: l) t) := by
  rw [Measure.volume_eq_prod, Measure.prod_apply hm]
  have e : ∀ x : ℝ, volume (Prod.mk x ⁻¹' {q : ℝ × Y | q.1 ∈ Set.Icc (0 : ℝ) 1 ∧ q.2 ∈ S (t - a * q.1)}) =
      (Set.Icc (0 : ℝ) 1).indicator (fun x => ENNReal.ofReal (iterVol l (t - a * x))) x := by
    intro x
    by_cases hx : x ∈ Set.Icc (0 : ℝ) 1
    · rw [Set.indicator_of_mem hx, ← hS]
      congr 1
      ext y
      simp only [Set.mem_preimage, Set.mem_ofPred_eq]
      exact ⟨fun h => h.2, fun h => ⟨hx, h⟩⟩
    · rw [Set.indicator_of_notMem hx]
      have : Prod.mk x ⁻¹' {q : ℝ × Y | q.1 ∈ Set.Icc (0 : ℝ) 1 ∧ q.2 ∈ S (t - a * q.1)} = ∅ := by
        ext y
        simp only [Set.mem_preimage, Set.mem_ofPred_eq, Set.mem_empty_iff_false, iff_false]
        exact fun h => hx h.1
      rw [this, measure_empty]
  simp only [e]
  rw [lintegral_indicator measurableSet_Icc]
  simp only [iterVol]
  have hint := (iterVol_mono l).2 a t
  rw [intervalIntegrable_iff_integrableOn_Icc_of_le zero_le_one] at hint
  rw [integral_of_le zero_le_one, ← integral_Icc_eq_integral_Ioc,
    ofReal_integral_eq_lintegral_ofReal hint]
  exact Filter.Eventually.of_forall fun x => (iterVol_range l _).1

theorem cubeUnder_volume (p : V3 ℝ) (d : ℝ) :
    volume (cubeUnder p d) = ENNReal.ofReal (iterVol [p.1, p.2.1, p.2.2] (-d)) := by
  obtain ⟨a, b, c⟩ := p
  -- no dimension left
  have h0 : ∀ t : ℝ, (volume : Measure ℝ) {z | z ∈ Set.Icc (0 : ℝ) 1 ∧ c * z ≤ t} =
      ENNReal.ofReal (iterVol [c] t) := by
    intro t
    have e : ∀ x : ℝ, ENNReal.ofReal (iterVol [] (t - c * x)) =
        {x : ℝ | c * x ≤ t}.indicator (fun _ => 1) x := by
      intro x
      by_cases hx : c * x ≤ t
      · rw [Set.indicator_of_mem (by exact hx)]
        simp [iterVol, hx]
      · rw [Set.indicator_of_notMem (by exact hx)]
        simp [iterVol, hx]
    have hint := (iterVol_mono []).2 c t
    rw [intervalIntegrable_iff_integrableOn_Icc_of_le zero_le_one] at hint
    rw [iterVol, integral_of_le zero_le_one, ← integral_Icc_eq_integral_Ioc,
      ofReal_integral_eq_lintegral_ofReal hint
        (Filter.Eventually.of_forall fun x => (iterVol_range [] _).1)]
    simp only [e]
    rw [lintegral_indicator (measurableSet_le (by fun_prop) measurable_const)]
    simp only [lintegral_const, one_mul]
    rw [Measure.restrict_restrict (measurableSet_le (by fun_prop) measurable_const),
      Measure.restrict_apply_univ]
    congr 1
    ext z
    simp only [Set.mem_ofPred_eq, Set.mem_inter_iff]
    exact and_comm
  have h1 : ∀ t : ℝ, volume {q : ℝ × ℝ | q.1 ∈ Set.Icc (0 : ℝ) 1 ∧
      q.2 ∈ {z | z ∈ Set.Icc (0 : ℝ) 1 ∧ c * z ≤ t - b * q.1}} = ENNReal.ofReal (iterVol [b, c] t) := by
    intro t
    refine measure_step [c] (fun t => {z | z ∈ Set.Icc (0 : ℝ) 1 ∧ c * z ≤ t}) h0 b t ?_
    refine (measurable_fst measurableSet_Icc).inter ((measurable_snd measurableSet_Icc).inter ?_)
    exact measurableSet_le (f := fun q : ℝ × ℝ => c * q.2) (g := fun q : ℝ × ℝ => t - b * q.1)
      (by fun_prop) (by fun_prop)
  have h2 := measure_step [b, c] (fun t => {q : ℝ × ℝ | q.1 ∈ Set.Icc (0 : ℝ) 1 ∧
      q.2 ∈ {z | z ∈ Set.Icc (0 : ℝ) 1 ∧ c * z ≤ t - b * q.1}}) h1 a (-d) (by
    refine (measurable_fst measurableSet_Icc).inter
      ((measurable_snd.fst measurableSet_Icc).inter ((measurable_snd.snd measurableSet_Icc).inter ?_))
    exact measurableSet_le (f := fun q : ℝ × ℝ × ℝ => c * q.2.2)
      (g := fun q : ℝ × ℝ × ℝ => -d - a * q.1 - b * q.2.1) (by fun_prop) (by fun_prop))
  rw [← h2]
  congr 1
  ext q
  simp only [cubeUnder, Set.mem_ofPred_eq]
  constructor
  · rintro ⟨x, y, z, w⟩; exact ⟨x, y, z, by linarith⟩
  · rintro ⟨x, y, z, w⟩; exact ⟨x, y, z, by linarith⟩

theorem volUnder_eq (p : V3 ℝ) (d : ℝ) : volUnder p d = iterVol [p.1, p.2.1, p.2.2] (-d) := by
  rw [volUnder, cubeUnder_volume, ENNReal.toReal_ofReal (iterVol_range _ _).1]

end BaderKit
