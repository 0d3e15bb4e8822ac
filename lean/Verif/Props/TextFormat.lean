import Verif.Lemmas.Text
import Verif.Props.Merge
import Mathlib.Data.Rat.Floor
import Mathlib.Tactic.FieldSimp
import Mathlib.Tactic.Positivity
/-!
# C28: numbers in Fortran notation
-/
namespace BaderKit

theorem expText_form (e : ℤ) : ∃ ds : Text,
    (if e ≥ 0 then (if e.natAbs < 10 then ['E', '+', '0'] else ['E', '+'])
      else (if e.natAbs < 10 then ['E', '-', '0'] else ['E', '-'])) ++ strNat e.natAbs =
      'E' :: (if decide (e < 0) then '-' else '+') :: ds ∧
    (∀ c ∈ ds, isDig c = true) ∧ ds ≠ [] ∧ natOf ds = e.natAbs ∧ (e.natAbs < 100 → ds.length = 2) := by
  have h0 : isDig '0' = true := by decide
  have hlen : 10 ≤ e.natAbs → e.natAbs < 100 → (strNat e.natAbs).length = 2 := fun h1 h2 =>
    strNat_length_eq _ 1 (by omega) (by omega) (by omega)
  by_cases hn : e.natAbs < 10
  · refine ⟨'0' :: strNat e.natAbs, ?_, ?_, by simp, ?_, fun _ => ?_⟩
    · by_cases he : e < 0
      · simp [hn, he, show ¬ 0 ≤ e by omega]
      · simp [hn, he, show 0 ≤ e by omega]
    · intro c hc
      rcases List.mem_cons.mp hc with rfl | hc
      · exact h0
      · exact strNat_dig _ c hc
    · rw [natOf_zero_cons, natOf_strNat]
    · rw [List.length_cons, strNat_length_one _ hn]
  · refine ⟨strNat e.natAbs, ?_, strNat_dig _, strNat_ne_nil _, natOf_strNat _, fun h => hlen (by omega) h⟩
    by_cases he : e < 0
    · simp [hn, he, show ¬ 0 ≤ e by omega]
    · simp [hn, he, show 0 ≤ e by omega]

theorem natAbs_sign (e : ℤ) : (if decide (e < 0) then -(e.natAbs : ℤ) else (e.natAbs : ℤ)) = e := by
  simp only [decide_eq_true_eq]
  split <;> omega

section field
variable {K : Type*} [Field K]

/-- What the text of a mantissa and an exponent says. -/
theorem fortran_form (m e : ℤ) (hm : m ≠ 0) : ∃ w : Text, formatFortran m e = ' ' :: w ∧ (∀ c ∈ w, isWs c = false) ∧
    w ≠ [] ∧ (parseNum w : Option K) = some ((m : K) * 10 ^ (e - ((strNat m.natAbs).length : ℤ))) ∧
    (e.natAbs < 100 → (formatFortran m e).length = (strNat m.natAbs).length + 7) := by
  obtain ⟨ds, h1, h2, h3, h4, h5⟩ := expText_form e
  have hws : ∀ c ∈ ds, isWs c = false := fun c hc => isDig_not_ws (h2 c hc)
  have hwm : ∀ c ∈ strNat m.natAbs, isWs c = false := fun c hc => isDig_not_ws (strNat_dig _ c hc)
  have hE : parseExp ('E' :: (if decide (e < 0) then '-' else '+') :: ds) = some e := by
    rw [parseExp_form _ ds h2 h3, h4, natAbs_sign]
  have hnd : ∀ (s : Char) c r, 'E' :: s :: ds = c :: r → isDig c = false := by
    intro s c r h; rw [List.cons.injEq] at h; rw [← h.1]; decide
  have hsgn : isWs (if decide (e < 0) then '-' else '+') = false := by by_cases h : e < 0 <;> simp [h] <;> decide
  unfold formatFortran
  rw [if_neg hm]
  simp only [List.append_assoc]
  rw [h1]
  by_cases hpos : m ≥ 0
  · rw [if_pos hpos]
    refine ⟨'0' :: '.' :: (strNat m.natAbs ++ 'E' :: (if decide (e < 0) then '-' else '+') :: ds), rfl, ?_, by simp, ?_, ?_⟩
    · intro c hc
      simp only [List.mem_cons, List.mem_append] at hc
      rcases hc with rfl | rfl | hc | rfl | rfl | hc
      · decide
      · decide
      · exact hwm c hc
      · decide
      · exact hsgn
      · exact hws c hc
    · rw [parseNum_of_dig (by intro c r h; rw [List.cons.injEq] at h; rw [← h.1]; decide)]
      have := parseUnsigned_form (K := K) ['0'] (strNat m.natAbs) ('E' :: (if decide (e < 0) then '-' else '+') :: ds)
        (by decide) (strNat_dig _) (hnd _) (by simp) e hE
      rw [List.singleton_append] at this
      rw [this, List.singleton_append, natOf_zero_cons, natOf_strNat]
      have hc : ((m.natAbs : ℕ) : K) = ((m : ℤ) : K) := by
        rw [Nat.cast_natAbs, abs_of_nonneg hpos]
      rw [hc]
    · intro he
      simp only [List.length_append, List.length_cons, List.length_nil, h5 he]
      omega
  · rw [if_neg hpos]
    refine ⟨'-' :: '.' :: (strNat m.natAbs ++ 'E' :: (if decide (e < 0) then '-' else '+') :: ds), rfl, ?_, by simp, ?_, ?_⟩
    · intro c hc
      simp only [List.mem_cons, List.mem_append] at hc
      rcases hc with rfl | rfl | hc | rfl | rfl | hc
      · decide
      · decide
      · exact hwm c hc
      · decide
      · exact hsgn
      · exact hws c hc
    · have := parseUnsigned_form (K := K) [] (strNat m.natAbs) ('E' :: (if decide (e < 0) then '-' else '+') :: ds)
        (by simp) (strNat_dig _) (hnd _) (by simpa using strNat_ne_nil _) e hE
      rw [List.nil_append] at this
      simp only [parseNum, this, List.nil_append, natOf_strNat, Option.map_some]
      have hc : ((m.natAbs : ℕ) : K) = -((m : ℤ) : K) := by
        rw [Nat.cast_natAbs, abs_of_neg (by omega), Int.cast_neg]
      rw [hc]
      congr 1
      ring
    · intro he
      simp only [List.length_append, List.length_cons, List.length_nil, h5 he]
      omega

theorem fortran_zero : ∃ w : Text, formatFortran 0 0 = ' ' :: w ∧ (∀ c ∈ w, isWs c = false) ∧ w ≠ [] ∧
    (parseNum w : Option K) = some 0 ∧ (formatFortran 0 0).length = 18 := by
  refine ⟨"0.00000000000E+00".toList, by decide, by decide, by decide, ?_, by decide⟩
  have := parseUnsigned_form (K := K) ['0'] "00000000000".toList "E+00".toList (by decide) (by decide)
    (by intro c r h; have : ("E+00".toList) = 'E' :: "+00".toList := by decide
        rw [this, List.cons.injEq] at h; rw [← h.1]; decide) (by decide) 0 (by decide)
  have e : "0.00000000000E+00".toList = ['0'] ++ '.' :: ("00000000000".toList ++ "E+00".toList) := by decide
  rw [e, parseNum_of_dig (by intro c r h; rw [List.singleton_append, List.cons.injEq] at h; rw [← h.1]; decide), this]
  have h0 : natOf (['0'] ++ "00000000000".toList) = 0 := by decide
  rw [h0]; simp

end field

section ordered
variable {K : Type*} [Field K] [LinearOrder K] [IsStrictOrderedRing K] [FloorRing K]

omit [FloorRing K] in
theorem ten_pos (e : ℤ) : (0 : K) < 10 ^ e := zpow_pos (by norm_num) e

theorem log_of_decade (x : K) (e : ℤ) (h1 : (10 : K) ^ (e - 1) ≤ |x|) (h2 : |x| < 10 ^ e) : Int.log 10 |x| = e - 1 := by
  have hpos : 0 < |x| := lt_of_lt_of_le (ten_pos _) h1
  have a : e - 1 ≤ Int.log 10 |x| := by
    rw [← Int.zpow_le_iff_le_log (by norm_num) hpos]; exact_mod_cast h1
  have b : Int.log 10 |x| < e := by
    rw [← Int.lt_zpow_iff_log_lt (by norm_num) hpos]; exact_mod_cast h2
  omega

theorem mantExp_of_decade (x : K) (e : ℤ) (h1 : (10 : K) ^ (e - 1) ≤ |x|) (h2 : |x| < 10 ^ e) :
    mantExp x = (roundHE (x / 10 ^ e * 10 ^ 11), e) := by
  have hpos : 0 < |x| := lt_of_lt_of_le (ten_pos _) h1
  unfold mantExp
  rw [if_neg (abs_pos.mp hpos), log_of_decade x e h1 h2]
  simp

theorem mant_bounds (x : K) (e : ℤ) (h1 : (10 : K) ^ (e - 1) ≤ |x|) (h2 : |x| < 10 ^ e) :
    10 ^ 10 ≤ (roundHE (x / 10 ^ e * 10 ^ 11)).natAbs ∧ (roundHE (x / 10 ^ e * 10 ^ 11)).natAbs ≤ 10 ^ 11 ∧
    |(roundHE (x / 10 ^ e * 10 ^ 11) : K) * 10 ^ (e - 11) - x| ≤ 10 ^ (e - 11) / 2 := by
  have hp : (0 : K) < 10 ^ e := ten_pos e
  obtain ⟨y, hy⟩ : ∃ y, y = x / 10 ^ e * 10 ^ 11 := ⟨_, rfl⟩
  rw [← hy]
  have hxy : x = y * 10 ^ (e - 11) := by
    rw [hy, zpow_sub₀ (by norm_num)]
    have : (10 : K) ^ (11 : ℤ) = 10 ^ (11 : ℕ) := by norm_cast
    rw [this]; field_simp
  have hq : (0 : K) < 10 ^ (e - 11) := ten_pos _
  have habs : |x| = |y| * 10 ^ (e - 11) := by rw [hxy, abs_mul, abs_of_pos hq]
  have e1 : (10 : K) ^ (e - 1) = 10 ^ (10 : ℕ) * 10 ^ (e - 11) := by
    rw [← zpow_natCast, ← zpow_add₀ (by norm_num)]; congr 1; push_cast; ring
  have e2 : (10 : K) ^ e = 10 ^ (11 : ℕ) * 10 ^ (e - 11) := by
    rw [← zpow_natCast, ← zpow_add₀ (by norm_num)]; congr 1; push_cast; ring
  have b1 : (10 : K) ^ (10 : ℕ) ≤ |y| := by
    rw [habs, e1] at h1; exact le_of_mul_le_mul_right h1 hq
  have b2 : |y| < (10 : K) ^ (11 : ℕ) := by
    rw [habs, e2] at h2; exact lt_of_mul_lt_mul_right h2 hq.le
  have near := roundHE_near y
  obtain ⟨m, hm⟩ : ∃ m, m = roundHE y := ⟨_, rfl⟩
  rw [← hm] at near ⊢
  have hmabs : (m.natAbs : K) = |(m : K)| := by
    rw [Nat.cast_natAbs, Int.cast_abs]
  have n1 : |(m : K)| ≤ |y| + 1 / 2 := by
    have := abs_sub_abs_le_abs_sub (m : K) y
    rw [abs_sub_comm] at this; linarith
  have n2 : |y| - 1 / 2 ≤ |(m : K)| := by
    have := abs_sub_abs_le_abs_sub y (m : K)
    linarith
  refine ⟨?_, ?_, ?_⟩
  · by_contra hcon
    have : m.natAbs + 1 ≤ 10 ^ 10 := by omega
    have : ((m.natAbs : K) + 1) ≤ 10 ^ (10 : ℕ) := by exact_mod_cast this
    rw [hmabs] at this; linarith
  · by_contra hcon
    have : 10 ^ 11 + 1 ≤ m.natAbs := by omega
    have : (10 : K) ^ (11 : ℕ) + 1 ≤ (m.natAbs : K) := by exact_mod_cast this
    rw [hmabs] at this; linarith
  · rw [hxy, ← sub_mul, abs_mul, abs_of_pos hq, abs_sub_comm]
    calc |y - m| * 10 ^ (e - 11) ≤ 1 / 2 * 10 ^ (e - 11) := mul_le_mul_of_nonneg_right near hq.le
      _ = 10 ^ (e - 11) / 2 := by ring

/-- The text written for a number: a blank and a word. -/
def WritesAs (x : K) (w : Text) : Prop := formatFortran (mantExp x).1 (mantExp x).2 = ' ' :: w

/-- A number the format can hold: zero, or `10^(e-1) ≤ |x| < 10^e` with `|e| < 100`, and not within half a unit of the
eleventh digit of `10^e`. -/
def Printable (x : K) : Prop :=
  x = 0 ∨ ∃ e : ℤ, |e| < 100 ∧ (10 : K) ^ (e - 1) ≤ |x| ∧ |x| + 10 ^ (e - 11) / 2 < 10 ^ e

/-- `y` is `x` to eleven digits. -/
def Eleven (x y : K) : Prop :=
  (x = 0 ∧ y = 0) ∨ ∃ e : ℤ, (10 : K) ^ (e - 1) ≤ |x| ∧ |x| < 10 ^ e ∧ |y - x| ≤ 10 ^ (e - 11) / 2

/-- C28 (partial): a number the format can hold is written as a blank and a word of 17 characters which reads back as
the number to eleven digits.  What is missing: numbers that round up to a power of ten (`C28_carry_wrong`) and
exponents of three digits (`C28_wide_exponent`). -/
theorem C28_value_partial (x : K) (h : Printable x) :
    ∃ w y, WritesAs x w ∧ w.length = 17 ∧ (∀ c ∈ w, isWs c = false) ∧ parseNum w = some y ∧ Eleven x y := by
  rcases h with rfl | ⟨e, he, h1, h2⟩
  · obtain ⟨w, a, b, _, d, f⟩ := fortran_zero (K := K)
    refine ⟨w, 0, ?_, ?_, b, d, Or.inl ⟨rfl, rfl⟩⟩
    · unfold WritesAs mantExp; simpa using a
    · rw [a] at f; simpa using f
  · have hlt : |x| < 10 ^ e := by
      have : (0 : K) < 10 ^ (e - 11) / 2 := half_pos (ten_pos _)
      linarith
    obtain ⟨b1, b2, b3⟩ := mant_bounds x e h1 hlt
    have hm := mantExp_of_decade x e h1 hlt
    obtain ⟨m, hmdef⟩ : ∃ m, m = roundHE (x / 10 ^ e * 10 ^ 11) := ⟨_, rfl⟩
    rw [← hmdef] at b1 b2 b3 hm
    have b4 : m.natAbs < 10 ^ 11 := by
      rcases Nat.lt_or_ge m.natAbs (10 ^ 11) with h | h
      · exact h
      · exfalso
        have hq : (0 : K) < 10 ^ (e - 11) := ten_pos _
        have hmabs : (m.natAbs : K) = |(m : K)| := by
          rw [Nat.cast_natAbs, Int.cast_abs]
        have h3 : (10 : K) ^ (11 : ℕ) ≤ |(m : K)| := by rw [← hmabs]; exact_mod_cast h
        have e2 : (10 : K) ^ e = 10 ^ (11 : ℕ) * 10 ^ (e - 11) := by
          rw [← zpow_natCast, ← zpow_add₀ (by norm_num)]; congr 1; push_cast; ring
        have h4 : |(m : K) * 10 ^ (e - 11)| ≤ |x| + 10 ^ (e - 11) / 2 := by
          have := abs_sub_abs_le_abs_sub ((m : K) * 10 ^ (e - 11)) x
          linarith
        rw [abs_mul, abs_of_pos hq] at h4
        have := mul_le_mul_of_nonneg_right h3 hq.le
        linarith
    have hlen : (strNat m.natAbs).length = 11 := strNat_length_eq _ 10 (by norm_num) b1 b4
    obtain ⟨w, a, b, _, d, f⟩ := fortran_form (K := K) m e (by intro h; rw [h] at b1; simp at b1)
    refine ⟨w, (m : K) * 10 ^ (e - 11), ?_, ?_, b, ?_, Or.inr ⟨e, h1, hlt, b3⟩⟩
    · unfold WritesAs; rw [hm]; exact a
    · have := f (by have := abs_lt.mp he; omega)
      rw [a, hlen] at this
      simpa using this
    · rw [d, hlen]; rfl

/-- C28: a number just below a power of ten is read back as a tenth of it. -/
theorem C28_carry_wrong (x : K) (e : ℤ) (h1 : (10 : K) ^ e - 10 ^ (e - 11) / 2 < |x|) (h2 : |x| < 10 ^ e) :
    ∃ w y, WritesAs x w ∧ parseNum w = some y ∧ |y| = 10 ^ (e - 1) ∧ 9 / 10 * 10 ^ e - 10 ^ (e - 11) / 2 < |y - x| := by
  have hq : (0 : K) < 10 ^ (e - 11) := ten_pos _
  have e2 : (10 : K) ^ e = 10 ^ (11 : ℕ) * 10 ^ (e - 11) := by
    rw [← zpow_natCast, ← zpow_add₀ (by norm_num)]; congr 1; push_cast; ring
  have e1 : (10 : K) ^ (e - 1) = 10 ^ (10 : ℕ) * 10 ^ (e - 11) := by
    rw [← zpow_natCast, ← zpow_add₀ (by norm_num)]; congr 1; push_cast; ring
  have h0 : (10 : K) ^ (e - 1) ≤ |x| := by
    rw [e1]; rw [e2] at h1; nlinarith
  obtain ⟨b1, b2, b3⟩ := mant_bounds x e h0 h2
  have hm := mantExp_of_decade x e h0 h2
  obtain ⟨m, hmdef⟩ : ∃ m, m = roundHE (x / 10 ^ e * 10 ^ 11) := ⟨_, rfl⟩
  rw [← hmdef] at b1 b2 b3 hm
  have hmabs : (m.natAbs : K) = |(m : K)| := by
    rw [Nat.cast_natAbs, Int.cast_abs]
  have hbig : m.natAbs = 10 ^ 11 := by
    refine le_antisymm b2 ?_
    by_contra hcon
    have : m.natAbs + 1 ≤ 10 ^ 11 := by omega
    have h3 : |(m : K)| + 1 ≤ 10 ^ (11 : ℕ) := by rw [← hmabs]; exact_mod_cast this
    have h4 : |x| - 10 ^ (e - 11) / 2 ≤ |(m : K)| * 10 ^ (e - 11) := by
      have := abs_sub_abs_le_abs_sub x ((m : K) * 10 ^ (e - 11))
      rw [abs_mul, abs_of_pos hq, abs_sub_comm x] at this
      linarith
    have := mul_le_mul_of_nonneg_right h3 hq.le
    rw [e2] at h1
    nlinarith
  have hlen : (strNat m.natAbs).length = 12 := strNat_length_eq _ 11 (by norm_num) (by omega) (by rw [hbig]; norm_num)
  obtain ⟨w, a, -, -, d, -⟩ := fortran_form (K := K) m e (by intro h; rw [h] at b1; simp at b1)
  have hy : |(m : K) * 10 ^ (e - 12)| = 10 ^ (e - 1) := by
    rw [abs_mul, ← hmabs, hbig, abs_of_pos (ten_pos _)]
    rw [Nat.cast_pow, Nat.cast_ofNat, ← zpow_natCast, ← zpow_add₀ (by norm_num)]
    congr 1
    push_cast; ring
  refine ⟨w, (m : K) * 10 ^ (e - 12), ?_, ?_, hy, ?_⟩
  · unfold WritesAs; rw [hm]; exact a
  · rw [d, hlen]; rfl
  · have := abs_sub_abs_le_abs_sub x ((m : K) * 10 ^ (e - 12))
    rw [hy, abs_sub_comm x] at this
    have e3 : (10 : K) ^ (e - 1) = 1 / 10 * 10 ^ e := by rw [e1, e2]; ring
    rw [e3] at this
    linarith

/-- C28: an exponent of three digits makes the text wider than its column. -/
theorem C28_wide_exponent (x : K) (e : ℤ) (h1 : (10 : K) ^ (e - 1) ≤ |x|) (h2 : |x| < 10 ^ e) (he : 100 ≤ |e|) :
    18 < (formatFortran (mantExp x).1 (mantExp x).2).length := by
  obtain ⟨b1, b2, b3⟩ := mant_bounds x e h1 h2
  rw [mantExp_of_decade x e h1 h2]
  obtain ⟨m, hmdef⟩ : ∃ m, m = roundHE (x / 10 ^ e * 10 ^ 11) := ⟨_, rfl⟩
  rw [← hmdef] at b1 ⊢
  have l1 : 10 < (strNat m.natAbs).length := by
    by_contra hc
    have := (strNat_length m.natAbs 10 (by norm_num)).mp (by omega)
    omega
  have hn : 100 ≤ e.natAbs := by rw [Int.abs_eq_natAbs] at he; omega
  have l2 : 2 < (strNat e.natAbs).length := by
    by_contra hc
    have := (strNat_length e.natAbs 2 (by norm_num)).mp (by omega)
    omega
  have hm0 : m ≠ 0 := by intro h; rw [h] at b1; simp at b1
  unfold formatFortran
  rw [if_neg hm0]
  simp only [show ¬ e.natAbs < 10 by omega, if_false]
  simp only [List.length_append]
  split <;> split <;> simp only [List.length_cons, List.length_nil] <;> omega

/-- 1/3 can be held, and `1 - 10^-12` is a number just below a power of ten. -/
example : Printable (1 / 3 : ℚ) := by
  refine Or.inr ⟨0, by norm_num, ?_, ?_⟩ <;> norm_num [abs_of_pos]

example : ((10 : ℚ) ^ (0 : ℤ) - 10 ^ ((0 : ℤ) - 11) / 2 < |1 - 1 / 10 ^ 12|) ∧ |(1 : ℚ) - 1 / 10 ^ 12| < 10 ^ (0 : ℤ) := by
  rw [abs_of_pos (by norm_num)]
  constructor <;> norm_num

/-- **C28** A whole number written without a point, with or without an exponent, reads as the number it says. -/
theorem C28_whole (neg expNeg : Bool) (n k : ℕ) :
    parseNum (K := K) ((if neg then ['-'] else []) ++ strNat n) = some ((if neg then -1 else 1) * (n : K)) ∧
    parseNum (K := K) ((if neg then ['-'] else []) ++ (strNat n ++ 'E' :: (if expNeg then '-' else '+') :: strNat k)) =
      some ((if neg then -1 else 1) * ((n : K) * 10 ^ (if expNeg then -(k : ℤ) else k))) := by
  have key : ∀ (e : Text) (x : ℤ), (∀ c r, e = c :: r → isDig c = false ∧ c ≠ '.') → parseExp e = some x →
      parseUnsigned (K := K) (strNat n ++ e) = some ((n : K) * 10 ^ x) := by
    intro e x he hx
    have h := takeWhile_stop (p := isDig) (strNat n) (strNat_dig n) e (fun c r h => (he c r h).1)
    unfold parseUnsigned
    simp only [h.1, h.2]
    split
    · rename_i r
      exact absurd rfl (he _ _ rfl).2
    · rw [if_neg (strNat_ne_nil n), hx, natOf_strNat]; rfl
  have sign : ∀ (t : Text) (y : K), parseUnsigned (K := K) (strNat n ++ t) = some y →
      parseNum (K := K) ((if neg then ['-'] else []) ++ (strNat n ++ t)) = some ((if neg then -1 else 1) * y) := by
    intro t y h
    cases neg with
    | true =>
      simp only [if_true, List.singleton_append]
      simp only [parseNum, h, Option.map_some, neg_one_mul]
    | false =>
      simp only [Bool.false_eq_true, if_false, List.nil_append, one_mul]
      rw [parseNum_of_dig, h]
      intro c r hc hm
      obtain ⟨d, l, hd⟩ := List.exists_cons_of_ne_nil (strNat_ne_nil n)
      have hdig := strNat_dig n d (by rw [hd]; simp)
      rw [hd, List.cons_append, List.cons.injEq] at hc
      rw [hc.1, hm] at hdig
      revert hdig; decide
  refine ⟨?_, ?_⟩
  · have := sign [] ((n : K) * 10 ^ (0 : ℤ)) (key [] 0 (fun c r h => by simp at h) rfl)
    simpa using this
  · refine sign _ _ (key _ _ ?_ ?_)
    · intro c r h
      rw [List.cons.injEq] at h
      rw [← h.1]; decide
    · rw [parseExp_form expNeg (strNat k) (strNat_dig k) (strNat_ne_nil k), natOf_strNat]

example : parseNum (K := ℚ) "-12E+3".toList = some (-12000) := by
  have h := (C28_whole (K := ℚ) true false 12 3).2
  have e1 : strNat 12 = ['1', '2'] := by decide +kernel
  have e2 : strNat 3 = ['3'] := by decide +kernel
  rw [e1, e2] at h
  norm_num at h
  simpa using h

end ordered
end BaderKit
