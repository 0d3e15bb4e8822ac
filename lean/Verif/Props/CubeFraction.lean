import Verif.Model.CubeFraction
import Verif.Lemmas.CubeVolume
import Verif.Props.Merge
import Mathlib.Algebra.Order.Floor.Ring
/-! # Property C39: the part of a voxel under a plane -/
namespace BaderKit
open MeasureTheory intervalIntegral

/-! ### Rounding -/
section
variable {K : Type*} [Field K] [LinearOrder K] [IsStrictOrderedRing K] [FloorRing K]

theorem roundHE_bounds (x : K) : ⌊x⌋ ≤ roundHE x ∧ roundHE x ≤ ⌊x⌋ + 1 := by
  unfold roundHE
  split_ifs <;> omega

/-- Rounding is monotone. -/
theorem roundHE_mono {x y : K} (h : x ≤ y) : roundHE x ≤ roundHE y := by
  have hf := Int.floor_le_floor h
  rcases hf.lt_or_eq with hlt | heq
  · have := roundHE_bounds x
    have := roundHE_bounds y
    omega
  · unfold roundHE
    rw [heq]
    split_ifs with h1 h2 h3 h4 h5 h6 h7 h8 h9 h10 <;> first | omega | (exfalso; linarith)

theorem roundHE_intCast (n : ℤ) : roundHE (n : K) = n := by
  unfold roundHE
  simp

theorem roundDec_mono (nd : ℕ) {x y : K} (h : x ≤ y) : roundDec nd x ≤ roundDec nd y := by
  unfold roundDec
  have h10 : (0 : K) < 10 ^ nd := by positivity
  have := roundHE_mono (mul_le_mul_of_nonneg_right h h10.le)
  have : ((roundHE (x * 10 ^ nd) : ℤ) : K) ≤ roundHE (y * 10 ^ nd) := by exact_mod_cast this
  exact div_le_div_of_nonneg_right this h10.le

theorem roundDec_zero (nd : ℕ) : roundDec nd (0 : K) = 0 := by
  unfold roundDec
  have := roundHE_intCast (K := K) 0
  simp only [Int.cast_zero] at this
  simp [this]

theorem roundDec_one (nd : ℕ) : roundDec nd (1 : K) = 1 := by
  unfold roundDec
  have := roundHE_intCast (K := K) (10 ^ nd)
  push_cast at this
  rw [one_mul, this]
  push_cast
  exact div_self (by positivity)

theorem roundDec_near (nd : ℕ) (x : K) : |x - roundDec nd x| ≤ 1 / 2 / 10 ^ nd := by
  have h10 : (0 : K) < 10 ^ nd := by positivity
  have h := roundHE_near (x * 10 ^ nd)
  have e : x - roundDec nd x = (x * 10 ^ nd - roundHE (x * 10 ^ nd)) / 10 ^ nd := by
    unfold roundDec
    field_simp
  rw [e, abs_div, abs_of_pos h10]
  exact div_le_div_of_nonneg_right h h10.le

end

/-! ### The loops of the code -/

/-- What the first loop adds. -/
noncomputable def negSum (l : List ℝ) : ℝ := (l.map fun a => max (-a) 0).sum

theorem flipAxes_eq (l : List ℝ) (t : ℝ) : flipAxes l t = (l.map (fun a => |a|), t + negSum l) := by
  unfold flipAxes
  have key : ∀ (l pre : List ℝ) (t : ℝ),
      l.foldl (fun (st : List ℝ × ℝ) a => if a < 0 then (st.1 ++ [-a], st.2 + -a) else (st.1 ++ [a], st.2))
        (pre, t) = (pre ++ l.map (fun a => |a|), t + negSum l) := by
    intro l
    induction l with
    | nil => intro pre t; simp [negSum]
    | cons a l ih =>
      intro pre t
      rw [List.foldl_cons]
      split_ifs with h
      · rw [ih]
        simp only [List.map_cons, abs_of_neg h, List.append_assoc, List.singleton_append, negSum,
          List.sum_cons, max_eq_left (neg_nonneg.mpr h.le), add_assoc]
      · rw [ih]
        have h' := not_lt.mp h
        simp only [List.map_cons, abs_of_nonneg h', List.append_assoc, List.singleton_append, negSum,
          List.sum_cons, max_eq_right (neg_nonpos.mpr h'), zero_add]
  simpa using key l [] t

theorem iterVol_flipAxes (l : List ℝ) : ∀ t, iterVol l t = iterVol (l.map fun a => |a|) (t + negSum l) := by
  induction l with
  | nil => intro t; simp [negSum]
  | cons a l ih =>
    intro t
    rw [iterVol_congr a _ _ _ ih]
    rcases lt_or_ge a 0 with h | h
    · have := iterVol_flip (-a) (l.map fun a => |a|) (t + negSum l)
      rw [neg_neg] at this
      rw [this]
      simp only [List.map_cons, abs_of_neg h, negSum, List.sum_cons, max_eq_left (neg_nonneg.mpr h.le)]
      congr 1
      ring
    · simp only [List.map_cons, abs_of_nonneg h, negSum, List.sum_cons,
        max_eq_right (neg_nonpos.mpr h), zero_add]

theorem iterVol_neg (l : List ℝ) (hl : ∀ a ∈ l, 0 ≤ a) : ∀ t < 0, iterVol l t = 0 := by
  induction l with
  | nil => intro t ht; simp [iterVol, not_le.mpr ht]
  | cons a l ih =>
    intro t ht
    simp only [iterVol]
    rw [integral_congr (g := fun _ => (0 : ℝ))]
    · simp
    · intro x hx
      rw [Set.uIcc_of_le zero_le_one] at hx
      refine ih (fun b hb => hl b (by simp [hb])) _ ?_
      have := mul_nonneg (hl a (by simp)) hx.1
      linarith

theorem table1 : vertexTable 1 = [[0], [1]] := by decide
theorem table2 : vertexTable 2 = [[0, 0], [0, 1], [1, 0], [1, 1]] := by decide
theorem table3 : vertexTable 3 =
    [[0, 0, 0], [0, 0, 1], [0, 1, 0], [0, 1, 1], [1, 0, 0], [1, 0, 1], [1, 1, 0], [1, 1, 1]] := by decide

theorem ppow_code (m : ℕ) (u : ℝ) : ppow (m + 1) u = if 0 < u then u ^ (m + 1) else 0 := by
  split_ifs with h
  · exact ppow_of_nonneg h.le
  · have := not_lt.mp h
    simp [ppow, max_eq_right this]

/-- The loop over the vertices as a sum. -/
theorem vertex_fold (m : ℕ) (coeffs : List ℝ) (t : ℝ) (tab : List (List ℕ)) : ∀ vol : ℝ,
    tab.foldl (fun (vol : ℝ) v =>
      let dot := (v.zip coeffs).foldl (fun (s : ℝ) (ij : ℕ × ℝ) => s + (ij.1 : ℝ) * ij.2) 0
      let base := t - dot
      if base > 0 then
        (if v.sum % 2 = 1 then vol - base ^ (m + 1) else vol + base ^ (m + 1))
      else vol) vol =
    vol + (tab.map fun v => (if v.sum % 2 = 1 then (-1 : ℝ) else 1) *
      ppow (m + 1) (t - (v.zip coeffs).foldl (fun (s : ℝ) (ij : ℕ × ℝ) => s + (ij.1 : ℝ) * ij.2) 0)).sum := by
  induction tab with
  | nil => intro vol; simp
  | cons v tab ih =>
    intro vol
    rw [List.foldl_cons, ih, List.map_cons, List.sum_cons, ppow_code]
    simp only [gt_iff_lt]
    split_ifs <;> ring

theorem vertexSum1 (a t : ℝ) : vertexSum 1 [a] t = altSum 1 [a] t := by
  unfold vertexSum
  rw [table1, vertex_fold 0]
  simp [altSum]
  ring

theorem vertexSum2 (a b t : ℝ) : vertexSum 2 [a, b] t = altSum 2 [a, b] t := by
  unfold vertexSum
  rw [table2, vertex_fold 1]
  simp [altSum, sub_sub]
  ring

theorem vertexSum3 (a b c t : ℝ) : vertexSum 3 [a, b, c] t = altSum 3 [a, b, c] t := by
  unfold vertexSum
  rw [table3, vertex_fold 2]
  simp [altSum, sub_sub, add_assoc]
  ring

/-! ### The result of the code -/

theorem roundDec_clamp {v : ℝ} (h0 : 0 ≤ v) (h1 : v ≤ 1) :
    min 1 (max 0 |roundDec 12 v|) = roundDec 12 v := by
  have a := roundDec_mono 12 h0
  have b := roundDec_mono 12 h1
  rw [roundDec_zero] at a
  rw [roundDec_one] at b
  rw [abs_of_nonneg a, max_eq_right a, min_eq_right b]

/-- The part after the sign changes, for coefficients that are not negative. -/
theorem collect_spec (a b c t : ℝ) (ha : 0 ≤ a) (hb : 0 ≤ b) (hc : 0 ≤ c)
    (h : ¬ (a = 0 ∧ b = 0 ∧ c = 0) ∨ t ≤ 0) :
    (match collectCoeffs t [a, b, c] ⟨[], 1, 0⟩ with
      | none => (0 : ℝ)
      | some cf =>
        if cf.n = 0 then (if t ≤ 0 then 1 else 0)
        else min 1 (max 0 |roundDec 12 (vertexSum cf.n cf.coeffs t / cf.denom)|)) =
      roundDec 12 (iterVol [a, b, c] t) := by
  have fin : ∀ l : List ℝ, (∀ x ∈ l, 0 < x) → l ≠ [] → (∀ x, iterVol [a, b, c] x = iterVol l x) →
      ∀ den, den = (l.length.factorial : ℝ) * l.prod → vertexSum l.length l t = altSum l.length l t →
      min 1 (max 0 |roundDec 12 (vertexSum l.length l t / den)|) = roundDec 12 (iterVol [a, b, c] t) := by
    intro l hl _ he den hd hv
    have e : vertexSum l.length l t / den = iterVol [a, b, c] t := by
      rw [hv, hd, he, iterVol_pos l hl]
    rw [e]
    exact roundDec_clamp (iterVol_range _ _).1 (iterVol_range _ _).2
  have z1 : ∀ (x : ℝ) (l m : List ℝ), (∀ s, iterVol l s = iterVol m s) → ∀ s,
      iterVol (x :: l) s = iterVol (x :: m) s := by
    intro x l m hlm s
    have := iterVol_congr x 0 l m (by simpa using hlm) s
    simpa using this
  by_cases hneg : t < 0 ∧ (a = 0 ∨ b = 0 ∨ c = 0)
  · have hcol : collectCoeffs t [a, b, c] ⟨[], 1, 0⟩ = none := by
      obtain ⟨ht, h0⟩ := hneg
      by_cases ea : a = 0
      · simp [collectCoeffs, ea, ht]
      · by_cases eb : b = 0
        · simp [collectCoeffs, ea, eb, ht]
        · have ec : c = 0 := by tauto
          simp [collectCoeffs, ea, eb, ec, ht]
    rw [hcol, iterVol_neg _ (by simp [ha, hb, hc]) t hneg.1, roundDec_zero]
  · have hz : ∀ x, (x = a ∨ x = b ∨ x = c) → x = 0 → ¬ t < 0 := by
      rintro x (rfl | rfl | rfl) hx ht <;> exact hneg ⟨ht, by tauto⟩
    by_cases ea : a = 0
    · have ht := hz a (by simp) ea
      by_cases eb : b = 0
      · by_cases ec : c = 0
        · -- no coefficient left: `t = 0`
          have : t = 0 := by
            rcases h with h | h
            · exact absurd ⟨ea, eb, ec⟩ h
            · exact le_antisymm h (not_lt.mp ht)
          subst this
          subst ea eb ec
          simp [collectCoeffs, iterVol_zero, iterVol, roundDec_one]
        · have pc : 0 < c := lt_of_le_of_ne hc (Ne.symm ec)
          subst ea eb
          have hcol : collectCoeffs t [0, 0, c] ⟨[], 1, 0⟩ = some ⟨[c], c, 1⟩ := by
            simp [collectCoeffs, ht, ec]
          rw [hcol]
          exact fin [c] (by simp [pc]) (by simp) (fun s => by rw [iterVol_zero, iterVol_zero]) c (by simp)
            (vertexSum1 c t)
      · have pb : 0 < b := lt_of_le_of_ne hb (Ne.symm eb)
        by_cases ec : c = 0
        · subst ea ec
          have hcol : collectCoeffs t [0, b, 0] ⟨[], 1, 0⟩ = some ⟨[b], b, 1⟩ := by
            simp [collectCoeffs, ht, eb]
          rw [hcol]
          exact fin [b] (by simp [pb]) (by simp)
            (fun s => by rw [iterVol_zero]; exact z1 b [0] [] (fun s => iterVol_zero _ s) s) b (by simp)
            (vertexSum1 b t)
        · have pc : 0 < c := lt_of_le_of_ne hc (Ne.symm ec)
          subst ea
          have hcol : collectCoeffs t [0, b, c] ⟨[], 1, 0⟩ = some ⟨[b, c], b * (2 * c), 2⟩ := by
            simp [collectCoeffs, ht, eb, ec]
          rw [hcol]
          exact fin [b, c] (by simp [pb, pc]) (by simp) (fun s => by rw [iterVol_zero]) _
            (by simp [Nat.factorial]; ring) (vertexSum2 b c t)
    · have pa : 0 < a := lt_of_le_of_ne ha (Ne.symm ea)
      by_cases eb : b = 0
      · have ht := hz b (by simp) eb
        by_cases ec : c = 0
        · subst eb ec
          have hcol : collectCoeffs t [a, 0, 0] ⟨[], 1, 0⟩ = some ⟨[a], a, 1⟩ := by
            simp [collectCoeffs, ht, ea]
          rw [hcol]
          exact fin [a] (by simp [pa]) (by simp)
            (fun s => z1 a [0, 0] [] (fun s => by rw [iterVol_zero, iterVol_zero]) s) a (by simp)
            (vertexSum1 a t)
        · have pc : 0 < c := lt_of_le_of_ne hc (Ne.symm ec)
          subst eb
          have hcol : collectCoeffs t [a, 0, c] ⟨[], 1, 0⟩ = some ⟨[a, c], a * (2 * c), 2⟩ := by
            simp [collectCoeffs, ht, ea, ec]
          rw [hcol]
          exact fin [a, c] (by simp [pa, pc]) (by simp)
            (fun s => z1 a [0, c] [c] (fun s => iterVol_zero _ s) s) _
            (by simp [Nat.factorial]; ring) (vertexSum2 a c t)
      · have pb : 0 < b := lt_of_le_of_ne hb (Ne.symm eb)
        by_cases ec : c = 0
        · have ht := hz c (by simp) ec
          subst ec
          have hcol : collectCoeffs t [a, b, 0] ⟨[], 1, 0⟩ = some ⟨[a, b], a * (2 * b), 2⟩ := by
            simp [collectCoeffs, ht, ea, eb]
          rw [hcol]
          exact fin [a, b] (by simp [pa, pb]) (by simp)
            (fun s => z1 a [b, 0] [b] (z1 b [0] [] (fun s => iterVol_zero _ s)) s) _
            (by simp [Nat.factorial]; ring) (vertexSum2 a b t)
        · have pc : 0 < c := lt_of_le_of_ne hc (Ne.symm ec)
          have hcol : collectCoeffs t [a, b, c] ⟨[], 1, 0⟩ = some ⟨[a, b, c], a * (2 * b) * (3 * c), 3⟩ := by
            simp [collectCoeffs, ea, eb, ec]
          rw [hcol]
          exact fin [a, b, c] (by simp [pa, pb, pc]) (by simp) (fun s => rfl) _
            (by simp [Nat.factorial]; ring) (vertexSum3 a b c t)

/-- **C39** The value returned for a plane is the Lebesgue volume of the part of the unit cube under the plane,
rounded to twelve decimals; a zero normal is allowed only if the offset is not negative
(`C39_degenerate_wrong`). -/
theorem C39_volume (p : V3 ℝ) (d : ℝ) (h : p ≠ (0, 0, 0) ∨ 0 ≤ d) :
    cubeFraction p d = roundDec 12 (volUnder p d) := by
  obtain ⟨a, b, c⟩ := p
  have e : flipAxes [a, b, c] (-d) = ([|a|, |b|, |c|], -d + negSum [a, b, c]) := by
    rw [flipAxes_eq]; rfl
  unfold cubeFraction
  simp only [e]
  rw [volUnder_eq, iterVol_flipAxes]
  refine Eq.trans ?_ (collect_spec |a| |b| |c| (-d + negSum [a, b, c]) (abs_nonneg _) (abs_nonneg _)
    (abs_nonneg _) ?_)
  · cases collectCoeffs (-d + negSum [a, b, c]) [|a|, |b|, |c|] ⟨[], 1, 0⟩ <;> rfl
  by_cases h0 : a = 0 ∧ b = 0 ∧ c = 0
  · obtain ⟨rfl, rfl, rfl⟩ := h0
    right
    rcases h with h | h
    · exact absurd rfl h
    · simpa [negSum] using h
  · left
    simpa [abs_eq_zero] using h0

/-- **C39** The error of the returned value is at most half of the twelfth decimal. -/
theorem C39_error (p : V3 ℝ) (d : ℝ) (h : p ≠ (0, 0, 0) ∨ 0 ≤ d) :
    |volUnder p d - cubeFraction p d| ≤ 1 / 2 / 10 ^ 12 := by
  rw [C39_volume p d h]
  exact roundDec_near 12 _

/-- **C39** The result is a fraction, for every input. -/
theorem C39_range (p : V3 ℝ) (d : ℝ) : 0 ≤ cubeFraction p d ∧ cubeFraction p d ≤ 1 := by
  unfold cubeFraction
  simp only
  split
  · norm_num
  · split_ifs
    · norm_num
    · norm_num
    · exact ⟨le_min zero_le_one (le_max_left _ _), min_le_left _ _⟩

/-- **C39** Raising the offset does not increase the fraction. -/
theorem C39_monotone (p : V3 ℝ) {d d' : ℝ} (hd : d ≤ d') (h : p ≠ (0, 0, 0) ∨ 0 ≤ d) :
    cubeFraction p d' ≤ cubeFraction p d := by
  rw [C39_volume p d h, C39_volume p d' (h.imp id fun h => h.trans hd)]
  refine roundDec_mono 12 ?_
  rw [volUnder_eq, volUnder_eq]
  exact (iterVol_mono _).1 (by linarith)

/-- **C39** (negative part) With a zero normal and a negative offset every point of the cube satisfies the
inequality, but the result is 0. -/
theorem C39_degenerate_wrong (d : ℝ) (hd : d < 0) :
    volUnder (0, 0, 0) d = 1 ∧ cubeFraction ((0, 0, 0) : V3 ℝ) d = 0 := by
  constructor
  · rw [volUnder_eq]
    rw [iterVol_zero, iterVol_zero, iterVol_zero, iterVol, if_pos (by linarith)]
  · simp [cubeFraction, flipAxes, collectCoeffs, not_le.mpr hd, not_lt.mpr hd.le]

/-! ### The two sides of a plane -/

/-- As `iterVol`, without the plane itself. -/
noncomputable def iterVol' : List ℝ → ℝ → ℝ
  | [], t => if 0 < t then 1 else 0
  | a :: l, t => ∫ x in (0 : ℝ)..1, iterVol' l (t - a * x)

theorem iterVol_compl (l : List ℝ) : ∀ t, iterVol l t + iterVol' l (l.sum - t) = 1 := by
  induction l with
  | nil =>
    intro t
    simp only [iterVol, iterVol', List.sum_nil, zero_sub]
    rcases lt_or_ge t 0 with h | h
    · rw [if_neg (not_le.mpr h), if_pos (by linarith)]; norm_num
    · rw [if_pos h, if_neg (by linarith)]; norm_num
  | cons a l ih =>
    intro t
    simp only [iterVol, iterVol', List.sum_cons]
    have e := integral_comp_sub_left (fun x => iterVol' l (a + l.sum - t - a * x)) (1 : ℝ) (a := 0) (b := 1)
    simp only [sub_self, sub_zero] at e
    have e' : ∫ x in (0 : ℝ)..1, iterVol' l (a + l.sum - t - a * (1 - x)) =
        ∫ x in (0 : ℝ)..1, (1 - iterVol l (t - a * x)) := integral_congr fun x _ => ?_
    · rw [← e, e', intervalIntegral.integral_sub (by simp) ((iterVol_mono l).2 a t)]
      simp
    · change iterVol' l _ = 1 - iterVol l _
      have := ih (t - a * x)
      rw [show l.sum - (t - a * x) = a + l.sum - t - a * (1 - x) by ring] at this
      linarith

theorem iterVol_boundary (l : List ℝ) :
    ((∀ a ∈ l, a = 0) → ∀ t, t ≠ 0 → iterVol' l t = iterVol l t) ∧
    ((∃ a ∈ l, a ≠ 0) → ∀ t, iterVol' l t = iterVol l t) := by
  induction l with
  | nil =>
    refine ⟨fun _ t ht => ?_, fun ⟨a, ha, _⟩ => by simp at ha⟩
    simp only [iterVol, iterVol']
    rcases lt_or_gt_of_ne ht with h | h
    · rw [if_neg (not_lt.mpr h.le), if_neg (not_le.mpr h)]
    · rw [if_pos h, if_pos h.le]
  | cons a l ih =>
    constructor
    · intro h0 t ht
      have ha : a = 0 := h0 a (by simp)
      subst ha
      simp only [iterVol, iterVol', zero_mul, sub_zero]
      rw [ih.1 (fun b hb => h0 b (by simp [hb])) t ht]
    · rintro ⟨b, hb, hb0⟩ t
      simp only [iterVol, iterVol']
      by_cases hl : ∃ c ∈ l, c ≠ 0
      · exact integral_congr fun x _ => ih.2 hl _
      · push Not at hl
        have ha : a ≠ 0 := by
          rcases List.mem_cons.mp hb with rfl | hb
          · exact hb0
          · exact absurd (hl b hb) hb0
        refine integral_congr_ae ?_
        filter_upwards [(Set.countable_singleton (t / a)).ae_notMem volume] with x hx _
        refine ih.1 hl _ fun h => hx ?_
        rw [Set.mem_singleton_iff, eq_div_iff ha]
        linarith

/-- **C39** The two sides of a plane add up to the whole cube, up to the rounding of the two values. -/
theorem C39_complement (a b c d : ℝ) (h : (a, b, c) ≠ (0, 0, 0)) :
    volUnder (a, b, c) d + volUnder (-a, -b, -c) (-d) = 1 ∧
    |cubeFraction (a, b, c) d + cubeFraction (-a, -b, -c) (-d) - 1| ≤ 1 / 10 ^ 12 := by
  have hne : ((-a, -b, -c) : V3 ℝ) ≠ (0, 0, 0) := by
    intro h'
    apply h
    simp only [Prod.mk.injEq, neg_eq_zero] at h'
    simp [h']
  have hv : volUnder (a, b, c) d + volUnder (-a, -b, -c) (-d) = 1 := by
    rw [volUnder_eq, volUnder_eq]
    simp only [neg_neg]
    have e3 : ∀ t, iterVol [-c] t = iterVol [c] (t + c) := iterVol_flip c []
    have e2 : ∀ t, iterVol [-b, -c] t = iterVol [b, c] (t + (b + c)) := by
      intro t
      rw [iterVol_congr _ _ _ _ e3, iterVol_flip]
      congr 1; ring
    have e1 : iterVol [-a, -b, -c] d = iterVol [a, b, c] (d + (a + b + c)) := by
      rw [iterVol_congr _ _ _ _ e2, iterVol_flip]
      congr 1; ring
    have hex : ∃ x ∈ [a, b, c], x ≠ 0 := by
      by_contra hno
      push Not at hno
      apply h
      rw [hno a (by simp), hno b (by simp), hno c (by simp)]
    have := iterVol_compl [a, b, c] (-d)
    rw [(iterVol_boundary [a, b, c]).2 hex] at this
    rw [e1]
    rw [show d + (a + b + c) = [a, b, c].sum - -d by simp; ring]
    exact this
  refine ⟨hv, ?_⟩
  have h1 := abs_le.mp (C39_error (a, b, c) d (Or.inl h))
  have h2 := abs_le.mp (C39_error (-a, -b, -c) (-d) (Or.inl hne))
  rw [abs_le]
  constructor <;> linarith [h1.1, h1.2, h2.1, h2.2]

/-- Non-vacuity of C39: half of the cube lies under `x + y + z = 3/2`, an eighth of the lower half of the
plane `x + y = 1/2`. -/
example : cubeFraction ((1, 1, 1) : V3 ℚ) (-3 / 2) = 1 / 2 ∧ cubeFraction ((1, 1, 0) : V3 ℚ) (-1 / 2) = 1 / 8 ∧
    cubeFraction ((-1, 0, 0) : V3 ℚ) (1 / 4) = 3 / 4 := by decide +kernel

end BaderKit
