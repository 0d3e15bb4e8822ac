import Verif.Model.ElfRadii
import Verif.Props.CubeFraction
import Mathlib.Data.Rat.Floor
import Mathlib.Tactic.NormNum
import Mathlib.Tactic.Positivity
import Mathlib.Tactic.FieldSimp
/-!
# C47: the ELF radius of a bond; C67: both ends of a bond share one dividing plane
-/
namespace BaderKit
variable {K : Type*} [Field K] [LinearOrder K] [IsStrictOrderedRing K]

/-! ### Specification -/

/-- The sample `i` is an interior local minimum of the sampled line. -/
def LineMin (n : ℕ) (vals : ℕ → K) (i : ℕ) : Prop :=
  0 < i ∧ i < n - 1 ∧ vals i ≤ vals (i - 1) ∧ vals i < vals (i + 1)

/-- The sample `i` is an interior local maximum. -/
def LineMax (n : ℕ) (vals : ℕ → K) (i : ℕ) : Prop :=
  0 < i ∧ i < n - 1 ∧ vals (i - 1) ≤ vals i ∧ vals (i + 1) < vals i

/-! ### The search loops -/

/-- A loop that keeps the candidate closest to `mid`, the first one if several are equally close. -/
theorem closest_fold (P : ℕ → Prop) [DecidablePred P] (mid : K) (n : ℕ) :
    let r := (List.range n).foldl (fun (st : Option ℕ × K) i =>
      if P i then (if |(i : K) - mid| < st.2 then (some i, |(i : K) - mid|) else st) else st) (none, 10 ^ 6)
    (∀ i, r.1 = some i → i < n ∧ P i ∧ r.2 = |(i : K) - mid| ∧ r.2 < 10 ^ 6 ∧
      (∀ j < n, P j → |(i : K) - mid| ≤ |(j : K) - mid|) ∧ ∀ j < i, P j → |(i : K) - mid| < |(j : K) - mid|) ∧
    (r.1 = none → r.2 = 10 ^ 6 ∧ ∀ j < n, P j → 10 ^ 6 ≤ |(j : K) - mid|) := by
  induction n with
  | zero => simp
  | succ n ih =>
    simp only at ih ⊢
    rw [List.range_succ, List.foldl_append]
    simp only [List.foldl_cons, List.foldl_nil]
    generalize (List.range n).foldl (fun (st : Option ℕ × K) i =>
      if P i then (if |(i : K) - mid| < st.2 then (some i, |(i : K) - mid|) else st) else st) (none, 10 ^ 6) = r at ih ⊢
    obtain ⟨h1, h2⟩ := ih
    by_cases hP : P n
    · rw [if_pos hP]
      by_cases hlt : |(n : K) - mid| < r.2
      · rw [if_pos hlt]
        refine ⟨?_, by simp⟩
        intro i hi
        rw [Option.some.injEq] at hi
        subst hi
        have hall : ∀ j < n, P j → |(n : K) - mid| < |(j : K) - mid| := by
          intro j hj hPj
          cases hr : r.1 with
          | none => exact lt_of_lt_of_le (by rw [(h2 hr).1] at hlt; exact hlt) ((h2 hr).2 j hj hPj)
          | some k =>
            obtain ⟨_, _, e, _, h5, _⟩ := h1 k hr
            rw [e] at hlt
            exact lt_of_lt_of_le hlt (h5 j hj hPj)
        have hb : |(n : K) - mid| < 10 ^ 6 := by
          cases hr : r.1 with
          | none => rw [(h2 hr).1] at hlt; exact hlt
          | some k => exact lt_trans hlt (h1 k hr).2.2.2.1
        refine ⟨by omega, hP, rfl, hb, ?_, hall⟩
        intro j hj hPj
        rcases Nat.lt_succ_iff_lt_or_eq.mp hj with h | h
        · exact (hall j h hPj).le
        · rw [h]
      · rw [if_neg hlt]
        refine ⟨?_, ?_⟩
        · intro i hi
          obtain ⟨a, b, c, d, e, f⟩ := h1 i hi
          refine ⟨by omega, b, c, d, ?_, f⟩
          intro j hj hPj
          rcases Nat.lt_succ_iff_lt_or_eq.mp hj with h | h
          · exact e j h hPj
          · rw [h, ← c]; exact not_lt.mp hlt
        · intro hr
          obtain ⟨a, b⟩ := h2 hr
          refine ⟨a, ?_⟩
          intro j hj hPj
          rcases Nat.lt_succ_iff_lt_or_eq.mp hj with h | h
          · exact b j h hPj
          · rw [h, ← a]; exact not_lt.mp hlt
    · rw [if_neg hP]
      refine ⟨?_, ?_⟩
      · intro i hi
        obtain ⟨a, b, c, d, e, f⟩ := h1 i hi
        refine ⟨by omega, b, c, d, ?_, f⟩
        intro j hj hPj
        rcases Nat.lt_succ_iff_lt_or_eq.mp hj with h | h
        · exact e j h hPj
        · rw [h] at hPj; exact absurd hPj hP
      · intro hr
        obtain ⟨a, b⟩ := h2 hr
        refine ⟨a, ?_⟩
        intro j hj hPj
        rcases Nat.lt_succ_iff_lt_or_eq.mp hj with h | h
        · exact b j h hPj
        · rw [h] at hPj; exact absurd hPj hP

omit [IsStrictOrderedRing K] in
theorem foldl_congr_mem {α β : Type*} (l : List α) (f g : β → α → β) (b : β) (h : ∀ st, ∀ a ∈ l, f st a = g st a) :
    l.foldl f b = l.foldl g b := by
  induction l generalizing b with
  | nil => rfl
  | cons a as ih =>
    rw [List.foldl_cons, List.foldl_cons, h b a (by simp)]
    exact ih _ fun st x hx => h st x (by simp [hx])

/-- The start of the ionic case: an interior local minimum, none closer to the first foreign sample, and the
first of those equally close. -/
theorem C47_minimum (n : ℕ) (vals : ℕ → K) (mid : ℤ) (i : ℕ) (h : (minSearch n vals mid).1 = some i) :
    LineMin n vals i ∧ (∀ j, LineMin n vals j → |(i : K) - mid| ≤ |(j : K) - mid|) ∧
    ∀ j < i, LineMin n vals j → |(i : K) - mid| < |(j : K) - mid| := by
  classical
  have hc := closest_fold (fun j => LineMin n vals j) (mid : K) n
  have e : minSearch n vals mid = (List.range n).foldl (fun (st : Option ℕ × K) j =>
      if LineMin n vals j then (if |(j : K) - mid| < st.2 then (some j, |(j : K) - mid|) else st) else st)
      (none, 10 ^ 6) := by
    unfold minSearch
    apply foldl_congr_mem
    intro st j hj
    rw [List.mem_range] at hj
    unfold LineMin
    by_cases h0 : j = 0 ∨ j = n - 1
    · rw [if_pos h0, if_neg (by omega)]
    · rw [if_neg h0]
      by_cases h1 : vals (j - 1) ≥ vals j ∧ vals j < vals (j + 1)
      · rw [if_pos h1]
        have hl : 0 < j ∧ j < n - 1 ∧ vals j ≤ vals (j - 1) ∧ vals j < vals (j + 1) := ⟨by omega, by omega, h1.1, h1.2⟩
        rw [if_pos hl]
      · rw [if_neg h1, if_neg (by rintro ⟨_, _, a, b⟩; exact h1 ⟨a, b⟩)]
  rw [e] at h
  obtain ⟨_, a, _, _, b, c⟩ := hc.1 i h
  exact ⟨a, fun j hj => b j (by have := hj.2.1; omega) hj, c⟩

/-- The start of the covalent case: an interior local maximum in the covalent feature, none closer to the middle
of the bond, and the first of those equally close. -/
theorem C47_maximum (n num : ℕ) (vals : ℕ → K) (labels : ℕ → ℤ) (cov : ℤ → Bool) (i : ℕ)
    (h : (maxSearch n num vals labels cov).1 = some i) :
    LineMax n vals i ∧ cov (labels i % num) = true ∧
    (∀ j, LineMax n vals j → cov (labels j % num) = true →
      |(i : K) - ((n : K) - 1) / 2| ≤ |(j : K) - ((n : K) - 1) / 2|) ∧
    ∀ j < i, LineMax n vals j → cov (labels j % num) = true →
      |(i : K) - ((n : K) - 1) / 2| < |(j : K) - ((n : K) - 1) / 2| := by
  classical
  have hc := closest_fold (fun j => LineMax n vals j ∧ cov (labels j % num) = true) (((n : K) - 1) / 2) n
  have e : maxSearch n num vals labels cov = (List.range n).foldl (fun (st : Option ℕ × K) j =>
      if LineMax n vals j ∧ cov (labels j % num) = true then
        (if |(j : K) - ((n : K) - 1) / 2| < st.2 then (some j, |(j : K) - ((n : K) - 1) / 2|) else st) else st)
      (none, 10 ^ 6) := by
    unfold maxSearch
    apply foldl_congr_mem
    intro st j hj
    rw [List.mem_range] at hj
    unfold LineMax
    by_cases hcv : cov (labels j % num) = true
    · rw [if_neg (by rw [hcv]; simp)]
      by_cases h0 : j = 0 ∨ j = n - 1
      · rw [if_pos h0, if_neg (by omega)]
      · rw [if_neg h0]
        by_cases h1 : vals (j - 1) ≤ vals j ∧ vals j > vals (j + 1)
        · rw [if_pos h1]
          have hl : (0 < j ∧ j < n - 1 ∧ vals (j - 1) ≤ vals j ∧ vals (j + 1) < vals j) ∧ cov (labels j % num) = true :=
            ⟨⟨by omega, by omega, h1.1, h1.2⟩, hcv⟩
          rw [if_pos hl]
        · rw [if_neg h1, if_neg (by rintro ⟨⟨_, _, a, b⟩, _⟩; exact h1 ⟨a, b⟩)]
    · rw [if_pos (by simpa using hcv), if_neg (by rintro ⟨_, h⟩; exact hcv h)]
  rw [e] at h
  obtain ⟨_, a, _, _, b, c⟩ := hc.1 i h
  exact ⟨a.1, a.2, fun j hj hcj => b j (by have := hj.2.1; omega) ⟨hj, hcj⟩, fun j hj h1 h2 => c j hj ⟨h1, h2⟩⟩

/-- The first foreign sample. -/
theorem C47_first (n : ℕ) (labels : ℕ → ℤ) (atom : ℕ) :
    (∃ i < n, firstOther n labels atom = i ∧ labels i ≠ -1 ∧ labels i ≠ atom ∧
      ∀ j < i, labels j = -1 ∨ labels j = atom) ∨
    (firstOther n labels atom = -1 ∧ ∀ j < n, labels j = -1 ∨ labels j = atom) := by
  unfold firstOther
  cases h : (List.range n).find? fun i => decide (labels i ≠ -1 ∧ labels i ≠ (atom : ℤ)) with
  | none =>
    right
    refine ⟨rfl, fun j hj => ?_⟩
    rw [List.find?_eq_none] at h
    have := h j (List.mem_range.mpr hj)
    by_contra hc
    push Not at hc
    exact this (by simpa using hc)
  | some i =>
    left
    rw [List.find?_range_eq_some] at h
    obtain ⟨h1, h2, h3⟩ := h
    have h1 := of_decide_eq_true h1
    refine ⟨i, List.mem_range.mp h2, rfl, h1.1, h1.2, fun j hj => ?_⟩
    have := h3 j hj
    by_contra hc
    push Not at hc
    simp [hc.1, hc.2] at this

/-! ### The refinement -/

/-- C47: the refinement ends less than one sample away from its start, at the point of the bond given by the returned
index, and its value is at least as extreme as the start's. -/
theorem C47_refine (spline : V3 K → K) (atom step : V3 K) (useMax : Bool) (start steps : ℕ) :
    let r := refine spline atom step useMax start steps
    |r.idx - start| ≤ 1 - 1 / 2 ^ steps ∧ r.coord = onLine atom step r.idx ∧ r.value = spline r.coord ∧
    (if useMax then spline (onLine atom step start) ≤ r.value else r.value ≤ spline (onLine atom step start)) := by
  simp only
  unfold refine
  simp only
  induction steps with
  | zero => simp
  | succ k ih =>
    rw [List.range_succ, List.map_append, List.foldl_append]
    simp only [List.map_cons, List.map_nil, List.foldl_cons, List.foldl_nil]
    generalize ((List.range k).map fun (i : ℕ) => (1 : K) / 2 ^ (i + 1)).foldl (refineStep spline step useMax)
      ⟨onLine atom step start, spline (onLine atom step start), (start : K)⟩ = st at ih ⊢
    obtain ⟨h1, h2, h3, h4⟩ := ih
    have hm : (1 : K) / 2 ^ k = 2 * (1 / 2 ^ (k + 1)) := by
      rw [pow_succ]; field_simp
    have hpos : (0 : K) < 1 / 2 ^ (k + 1) := by positivity
    rw [hm] at h1
    generalize (1 : K) / 2 ^ (k + 1) = m at *
    rw [abs_le] at h1
    have hup : addV st.coord (step.1 * m, step.2.1 * m, step.2.2 * m) = onLine atom step (st.idx + m) := by
      rw [h2]; unfold addV onLine; ext <;> simp <;> ring
    have hdn : subV st.coord (step.1 * m, step.2.1 * m, step.2.2 * m) = onLine atom step (st.idx - m) := by
      rw [h2]; unfold subV onLine; ext <;> simp <;> ring
    unfold refineStep
    simp only [hup, hdn]
    cases useMax with
    | true =>
      simp only [if_true] at h4 ⊢
      split
      · rename_i hc
        refine ⟨by simp only; rw [abs_le]; constructor <;> linarith [h1.1, h1.2], rfl, rfl, by simp only; linarith [hc.1]⟩
      · split
        · rename_i hc
          refine ⟨by simp only; rw [abs_le]; constructor <;> linarith [h1.1, h1.2], rfl, rfl, by simp only; linarith⟩
        · exact ⟨by rw [abs_le]; constructor <;> linarith [h1.1, h1.2], h2, h3, h4⟩
    | false =>
      simp only [Bool.false_eq_true, if_false] at h4 ⊢
      split
      · rename_i hc
        refine ⟨by simp only; rw [abs_le]; constructor <;> linarith [h1.1, h1.2], rfl, rfl, by simp only; linarith [hc.1]⟩
      · split
        · rename_i hc
          refine ⟨by simp only; rw [abs_le]; constructor <;> linarith [h1.1, h1.2], rfl, rfl, by simp only; linarith⟩
        · exact ⟨by rw [abs_le]; constructor <;> linarith [h1.1, h1.2], h2, h3, h4⟩

theorem refine_range (spline : V3 K → K) (atom step : V3 K) (useMax : Bool) (start steps n : ℕ) (h0 : 0 < start)
    (h1 : start < n - 1) :
    0 < (refine spline atom step useMax start steps).idx / ((n : K) - 1) ∧
    (refine spline atom step useMax start steps).idx / ((n : K) - 1) < 1 := by
  obtain ⟨h, -⟩ := C47_refine spline atom step useMax start steps
  have hp : (0 : K) < 1 / 2 ^ steps := by positivity
  rw [abs_le] at h
  have hs : (1 : K) ≤ start := by exact_mod_cast h0
  have hn : (start : K) + 1 ≤ (n : K) - 1 := by
    have : start + 1 + 1 ≤ n := by omega
    have : ((start + 1 + 1 : ℕ) : K) ≤ n := by exact_mod_cast this
    push_cast at this
    linarith
  have hd : (0 : K) < (n : K) - 1 := by linarith
  refine ⟨div_pos (by linarith [h.1]) hd, ?_⟩
  rw [div_lt_one hd]
  linarith [h.2]

/-- C47: the fraction lies strictly between the two atoms, whatever the data, the labels and the number of samples
and refinement steps. -/
theorem C47_range (spline : V3 K → K) (lab : V3 K → ℤ) (num : ℕ) (coords : ℕ → V3 K) (cov : ℤ → Bool) (atomIdx : ℕ)
    (atom neigh : V3 K) (n steps : ℕ) :
    0 < (elfRadiusFrac spline lab num coords cov atomIdx atom neigh n steps).1 ∧
    (elfRadiusFrac spline lab num coords cov atomIdx atom neigh n steps).1 < 1 := by
  have half : (0 : K) < 1 / 2 ∧ (1 : K) / 2 < 1 := by constructor <;> norm_num
  unfold elfRadiusFrac
  simp only
  split
  · exact half
  · split
    · exact half
    · split
      · rename_i i hi
        split at hi
        · obtain ⟨⟨a, b, _⟩, _⟩ := C47_maximum _ _ _ _ _ _ hi
          exact refine_range _ _ _ _ _ _ _ a b
        · simp at hi
      · split
        · rename_i i hi
          obtain ⟨⟨a, b, _⟩, _⟩ := C47_minimum _ _ _ _ hi
          exact refine_range _ _ _ _ _ _ _ a b
        · exact half

/-- The point of the bond at fraction `f`. -/
def bondPoint (a b : V3 K) (f : K) : V3 K :=
  (a.1 + f * (b.1 - a.1), a.2.1 + f * (b.2.1 - a.2.1), a.2.2 + f * (b.2.2 - a.2.2))

omit [LinearOrder K] [IsStrictOrderedRing K] in
theorem onLine_frac (n : ℕ) (hn : (n : K) - 1 ≠ 0) (a b : V3 K) (x : K) :
    onLine a (stepVec n a b) x = bondPoint a b (x / ((n : K) - 1)) := by
  unfold onLine stepVec bondPoint subV
  ext <;> simp <;> field_simp

/-- C47: what the fraction is.  Unless it is one half (a single label, another atom on the line, or nothing found) the
bond is either reported covalent and the ELF at the fraction is at least the value at an interior sampled maximum
inside a covalent feature, or reported ionic and the ELF at the fraction is at most the value at an interior sampled
minimum, in both cases less than one sample away. -/
theorem C47_extremum (spline : V3 K → K) (lab : V3 K → ℤ) (num : ℕ) (coords : ℕ → V3 K) (cov : ℤ → Bool)
    (atomIdx : ℕ) (atom neigh : V3 K) (n steps : ℕ) :
    let r := elfRadiusFrac spline lab num coords cov atomIdx atom neigh n steps
    let sample : ℕ → V3 K := fun i => bondPoint atom neigh ((i : K) / ((n : K) - 1))
    let labels : ℕ → ℤ := fun i => lineLabel num coords lab (sample i)
    (r.1 = 1 / 2 ∧ r.2.1 = true) ∨
    (∃ i, LineMax n (fun i => spline (sample i)) i ∧ cov (labels i % num) = true ∧ r.2 = (true, false) ∧
      spline (sample i) ≤ spline (bondPoint atom neigh r.1) ∧ |r.1 - (i : K) / ((n : K) - 1)| < 1 / ((n : K) - 1)) ∨
    (∃ i, LineMin n (fun i => spline (sample i)) i ∧ r.2 = (false, false) ∧
      spline (bondPoint atom neigh r.1) ≤ spline (sample i) ∧ |r.1 - (i : K) / ((n : K) - 1)| < 1 / ((n : K) - 1) ∧
      ∀ j, LineMin n (fun i => spline (sample i)) j →
        |(i : K) - firstOther n labels atomIdx| ≤ |(j : K) - firstOther n labels atomIdx|) := by
  simp only
  by_cases hn : n = 1
  · subst hn
    left
    unfold elfRadiusFrac
    simp
  by_cases hn0 : n = 0
  · subst hn0
    left
    unfold elfRadiusFrac
    simp
  have hn1 : (0 : K) < (n : K) - 1 := by
    have : 1 < n := by omega
    have : (1 : K) < n := by exact_mod_cast this
    linarith
  have hdiv : ∀ (idx : K) (i : ℕ), |idx - i| ≤ 1 - 1 / 2 ^ steps → |idx / ((n : K) - 1) - (i : K) / ((n : K) - 1)| < 1 / ((n : K) - 1) := by
    intro idx i h
    have hp : (0 : K) < 1 / 2 ^ steps := by positivity
    rw [← sub_div, abs_div, abs_of_pos hn1]
    exact div_lt_div_of_pos_right (by linarith) hn1
  simp only [← onLine_frac n hn1.ne']
  unfold elfRadiusFrac
  simp only
  split
  · left; exact ⟨rfl, rfl⟩
  · split
    · left; exact ⟨rfl, rfl⟩
    · split
      · rename_i i hi
        split at hi
        · right; left
          obtain ⟨a, b, _⟩ := C47_maximum _ _ _ _ _ _ hi
          obtain ⟨r1, r2, r3, r4⟩ := C47_refine spline atom (stepVec n atom neigh) true i steps
          refine ⟨i, a, b, rfl, ?_, hdiv _ _ r1⟩
          simp only [if_true] at r4
          rw [r3, r2, onLine_frac n hn1.ne' atom neigh (refine _ _ _ _ _ _).idx] at r4
          exact r4
        · simp at hi
      · split
        · rename_i i hi
          right; right
          obtain ⟨a, b, _⟩ := C47_minimum _ _ _ _ hi
          obtain ⟨r1, r2, r3, r4⟩ := C47_refine spline atom (stepVec n atom neigh) false i steps
          refine ⟨i, a, rfl, ?_, hdiv _ _ r1, b⟩
          simp only [Bool.false_eq_true, if_false] at r4
          rw [r3, r2, onLine_frac n hn1.ne' atom neigh (refine _ _ _ _ _ _).idx] at r4
          exact r4
        · left; exact ⟨rfl, rfl⟩

/-- The number of samples is odd, and at least three for bonds longer than 3/40 (at 20 samples per unit). -/
theorem C47_points [FloorRing K] (dist lineRes : K) :
    numPoints dist lineRes % 2 = 1 ∧ (3 / 2 < dist * lineRes → 3 ≤ numPoints dist lineRes) := by
  unfold numPoints
  simp only
  refine ⟨by split <;> omega, fun h => ?_⟩
  have : 2 ≤ roundHE (dist * lineRes) := by
    have := (abs_le.mp (roundHE_near (dist * lineRes))).2
    have h2 : (1 : K) < roundHE (dist * lineRes) := by linarith
    have : (1 : ℤ) < roundHE (dist * lineRes) := by exact_mod_cast h2
    omega
  split <;> omega

/-- C47: a vacuum sample counts as part of the last feature: with the last feature covalent, a line with one vacuum
sample inside is searched for a covalent maximum although no covalent feature is on it. -/
theorem C47_vacuum_covalent : ∃ (spline : V3 ℚ → ℚ) (lab : V3 ℚ → ℤ) (coords : ℕ → V3 ℚ) (cov : ℤ → Bool),
    (∀ p, lab p = 0 ∨ lab p = 1 ∨ lab p = -1) ∧ (∀ i, cov i = true ↔ i = 2) ∧
    (elfRadiusFrac spline lab 3 coords cov 0 (0, 0, 0) (1 / 2, 0, 0) 5 4).2.1 = true ∧
    (elfRadiusFrac spline lab 3 coords cov 0 (0, 0, 0) (1 / 2, 0, 0) 5 4).1 ≠ 1 / 2 := by
  refine ⟨fun p => if p.1 = 1 / 8 then 1 else 0, fun p => if p.1 = 1 / 8 then -1 else if p.1 < 1 / 4 then 0 else 1,
    fun i => if i = 0 then (0, 0, 0) else if i = 1 then (1 / 2, 0, 0) else (1 / 4, 0, 0), fun i => i == 2, ?_, ?_, ?_, ?_⟩
  · intro p
    by_cases h : p.1 = 1 / 8
    · right; right; simp only; rw [if_pos h]
    · by_cases h2 : p.1 < 1 / 4
      · left; simp only; rw [if_neg h, if_pos h2]
      · right; left; simp only; rw [if_neg h, if_neg h2]
  · intro i; simp
  · decide +kernel
  · decide +kernel

/-- An ionic bond: the minimum between two atoms is found off the middle. -/
example : (elfRadiusFrac (K := ℚ) (fun p => (p.1 - 1 / 5) ^ 2) (fun p => if p.1 < 1 / 5 then 0 else 1) 2
    (fun i => if i = 0 then (0, 0, 0) else (1 / 2, 0, 0)) (fun _ => false) 0 (0, 0, 0) (1 / 2, 0, 0) 5 4) =
    (13 / 32, false, false) := by
  decide +kernel

/-- C47: a point of the line carries the label of the basin it lies in if the site of that basin is within half a cell
in every direction, and otherwise that label plus the number of features, so that an image of a site is told from the
site itself but keeps the site's number modulo the number of features. -/
theorem C47_label (num : ℕ) (coords : ℕ → V3 K) (lab : V3 K → ℤ) (p : V3 K) (l : ℕ) (hl : lab p = l) (hn : l < num) :
    ((|(coords l).1 - p.1| ≤ 1 / 2 ∧ |(coords l).2.1 - p.2.1| ≤ 1 / 2 ∧ |(coords l).2.2 - p.2.2| ≤ 1 / 2) →
      lineLabel num coords lab p = l) ∧
    (¬(|(coords l).1 - p.1| ≤ 1 / 2 ∧ |(coords l).2.1 - p.2.1| ≤ 1 / 2 ∧ |(coords l).2.2 - p.2.2| ≤ 1 / 2) →
      lineLabel num coords lab p = l + num) ∧ lineLabel num coords lab p % num = l := by
  have hi : pyIdx num (l : ℤ) = l := by unfold pyIdx; simp
  have hm : ((l : ℤ) + num) % num = l ∧ (l : ℤ) % num = l := by
    have : (l : ℤ) % num = l := Int.emod_eq_of_lt (by omega) (by omega)
    exact ⟨by rw [Int.add_emod_right, this], this⟩
  unfold lineLabel
  simp only [subV, hl, hi]
  by_cases h : |(coords l).1 - p.1| ≤ 1 / 2 ∧ |(coords l).2.1 - p.2.1| ≤ 1 / 2 ∧ |(coords l).2.2 - p.2.2| ≤ 1 / 2
  · have hlt : ¬ (max (max |(coords l).1 - p.1| |(coords l).2.1 - p.2.1|) |(coords l).2.2 - p.2.2| > 1 / 2) := by
      simp only [gt_iff_lt, lt_max_iff, not_or, not_lt]; exact ⟨⟨h.1, h.2.1⟩, h.2.2⟩
    rw [if_neg hlt]
    exact ⟨fun _ => rfl, fun hc => absurd h hc, hm.2⟩
  · have hlt : (max (max |(coords l).1 - p.1| |(coords l).2.1 - p.2.1|) |(coords l).2.2 - p.2.2| > 1 / 2) := by
      by_contra hc
      simp only [gt_iff_lt, lt_max_iff, not_or, not_lt] at hc
      exact h ⟨hc.1.1, hc.1.2, hc.2⟩
    rw [if_pos hlt]
    exact ⟨fun hc => absurd hc h, fun _ => rfl, hm.1⟩

/-! ### C67 -/

section bonds
variable {κ : Type*} [DecidableEq κ]

omit [IsStrictOrderedRing K] in
theorem find_key (bs : List (RBond κ K)) (b : RBond κ K) (hb : b ∈ bs) :
    ∃ c ∈ bs, c.key = b.key ∧ bs.find? (fun c => c.key = b.key) = some c := by
  cases h : bs.find? fun c => decide (c.key = b.key) with
  | none =>
    rw [List.find?_eq_none] at h
    exact absurd (by simp) (h b hb)
  | some c =>
    exact ⟨c, List.mem_of_find?_eq_some h, by simpa using List.find?_some h, rfl⟩

omit [LinearOrder K] [IsStrictOrderedRing K] [DecidableEq κ] in
/-- C67: the radius stored for a bond is its fraction of the bond's length, measured from the first atom of the canonical
form: the distance computed for the bond itself when it is in canonical direction and the rest of the bond otherwise. -/
theorem C67_radius (b : RBond κ K) : (bondRadius b).1 = (bondRadius b).2 * b.dist ∧
    (b.equiv = false → b.rev = false → (bondRadius b).1 = b.raw * b.dist) ∧
    (b.equiv = false → b.rev = true → b.dist - (bondRadius b).1 = b.raw * b.dist) := by
  unfold bondRadius
  split
  · rename_i h
    exact ⟨by ring, fun h' => by simp [h] at h', fun h' => by simp [h] at h'⟩
  · split
    · rename_i h
      exact ⟨by ring, fun _ h' => by simp [h] at h', fun _ _ => by ring⟩
    · rename_i h
      exact ⟨by ring, fun _ _ => by ring, fun _ h' => by simp [h'] at h⟩

/-- C67: two bonds with the same canonical form are divided at the same place: at the same fraction when they have the
same direction, at fractions adding up to one when they are opposite. -/
theorem C67_consistent (bs : List (RBond κ K)) (i j : ℕ) (hi : i < bs.length) (hj : j < bs.length)
    (hk : bs[i].key = bs[j].key) :
    (bs[i].rev = bs[j].rev → (bondFracs bs)[i]? = (bondFracs bs)[j]?) ∧
    (bs[i].rev ≠ bs[j].rev → ∃ f g, (bondFracs bs)[i]? = some f ∧ (bondFracs bs)[j]? = some g ∧ f + g = 1) := by
  have key : ∀ n (hn : n < bs.length), (bondFracs bs)[n]? = some (
      let f := match bs.find? fun c => c.key = bs[n].key with
        | some c => (bondRadius c).2
        | none => 0
      if bs[n].rev then 1 - f else f) := by
    intro n hn
    unfold bondFracs
    rw [List.getElem?_map, List.getElem?_eq_getElem hn]
    rfl
  rw [key i hi, key j hj, hk]
  simp only
  generalize (match bs.find? fun c => decide (c.key = bs[j].key) with
        | some c => (bondRadius c).2
        | none => 0) = f
  refine ⟨fun h => by rw [h], fun h => ⟨_, _, rfl, rfl, ?_⟩⟩
  cases h1 : bs[i].rev <;> cases h2 : bs[j].rev <;> simp_all

/-- C67: the first bond of a canonical form keeps the fraction computed for it in its own direction (one half between
equivalent atoms), and all fractions lie between 0 and 1 if the computed ones do. -/
theorem C67_value (bs : List (RBond κ K)) (h01 : ∀ b ∈ bs, 0 < b.raw ∧ b.raw < 1) :
    (∀ i (hi : i < bs.length), (∀ j (hj : j < i), bs[j].key ≠ bs[i].key) →
      (bondFracs bs)[i]? = some (if bs[i].equiv then 1 / 2 else bs[i].raw)) ∧
    ∀ f ∈ bondFracs bs, 0 < f ∧ f < 1 := by
  have half : (1 : K) - 1 / 2 = 1 / 2 := by norm_num
  refine ⟨fun i hi hfirst => ?_, fun f hf => ?_⟩
  · have hfind : bs.find? (fun c => c.key = bs[i].key) = some bs[i] := by
      rw [List.find?_eq_some_iff_getElem]
      refine ⟨by simp, i, hi, rfl, fun j hj => ?_⟩
      simpa using hfirst j hj
    unfold bondFracs
    rw [List.getElem?_map, List.getElem?_eq_getElem hi]
    simp only [Option.map_some, hfind, Option.some.injEq]
    unfold bondRadius
    cases h1 : bs[i].equiv <;> cases h2 : bs[i].rev <;> simp <;> norm_num
  · unfold bondFracs at hf
    rw [List.mem_map] at hf
    obtain ⟨b, hb, rfl⟩ := hf
    obtain ⟨c, hc, _, hfind⟩ := find_key bs b hb
    simp only [hfind]
    have hr : 0 < (bondRadius c).2 ∧ (bondRadius c).2 < 1 := by
      obtain ⟨a1, a2⟩ := h01 c hc
      unfold bondRadius
      cases c.equiv <;> cases c.rev <;> simp <;> first | exact ⟨by linarith, by linarith⟩ | norm_num
    split
    · constructor <;> linarith [hr.1, hr.2]
    · exact hr

/-- A bond computed in reversed direction and its mirror image. -/
example : bondFracs ([⟨0, true, 2, 3 / 10, false⟩, ⟨0, false, 2, 1 / 10, false⟩, ⟨1, false, 2, 1 / 10, true⟩] : List (RBond ℕ ℚ)) =
    [3 / 10, 7 / 10, 1 / 2] := by
  decide +kernel

end bonds
end BaderKit
