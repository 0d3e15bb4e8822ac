import Verif.Props.VaspFile
import Verif.Model.CubeFile
/-!
# C28: numbers in fixed and scientific notation; C72: significant figures
-/
namespace BaderKit

theorem zeroPad_spec (k n : ℕ) (hk : 0 < k) (hn : n < 10 ^ k) :
    (∀ c ∈ zeroPad k n, isDig c = true) ∧ natOf (zeroPad k n) = n ∧ (zeroPad k n).length = k := by
  have hl := (strNat_length n k hk).mpr hn
  unfold zeroPad
  refine ⟨?_, ?_, ?_⟩
  · intro c hc
    rcases List.mem_append.mp hc with h | h
    · rw [List.eq_of_mem_replicate h]; decide
    · exact strNat_dig n c h
  · generalize k - (strNat n).length = m
    induction m with
    | zero => simp [natOf_strNat]
    | succ m ih => rw [List.replicate_succ, List.cons_append, natOf_zero_cons, ih]
  · rw [List.length_append, List.length_replicate]; omega

theorem zeroPad_dig (k n : ℕ) : ∀ c ∈ zeroPad k n, isDig c = true := by
  intro c hc
  unfold zeroPad at hc
  rcases List.mem_append.mp hc with h | h
  · rw [List.eq_of_mem_replicate h]; decide
  · exact strNat_dig n c h

theorem natOf_zeroPad (k n : ℕ) : natOf (zeroPad k n) = n := by
  unfold zeroPad
  generalize k - (strNat n).length = m
  induction m with
  | zero => simp [natOf_strNat]
  | succ m ih => rw [List.replicate_succ, List.cons_append, natOf_zero_cons, ih]

theorem zeroPad_ne_nil (k n : ℕ) : zeroPad k n ≠ [] := by
  unfold zeroPad
  simp [strNat_ne_nil]

/-- A word: not empty, no white space. -/
def IsWord (t : Text) : Prop := (∀ c ∈ t, isWs c = false) ∧ t ≠ []

theorem word_strNat (n : ℕ) : IsWord (strNat n) := ⟨fun c hc => isDig_not_ws (strNat_dig n c hc), strNat_ne_nil n⟩

theorem split_digits (r p : ℕ) : natOf (strNat (r / 10 ^ p) ++ zeroPad p (r % 10 ^ p)) = r ∨ p = 0 := by
  rcases Nat.eq_zero_or_pos p with h | h
  · exact Or.inr h
  · left
    obtain ⟨-, b, c⟩ := zeroPad_spec p (r % 10 ^ p) h (Nat.mod_lt _ (by positivity))
    rw [natOf_append, natOf_strNat, b, c, Nat.div_add_mod']

section field
variable {K : Type*} [Field K]

/-- A signed decimal number reads as what it says. -/
theorem parse_signed (neg : Bool) (ip fp e : Text) (hi : ∀ c ∈ ip, isDig c = true) (hne : ip ≠ []) (hf : ∀ c ∈ fp, isDig c = true)
    (he : ∀ c r, e = c :: r → isDig c = false) (x : ℤ) (hx : parseExp e = some x) :
    parseNum (K := K) ((if neg then ['-'] else []) ++ (ip ++ '.' :: (fp ++ e))) =
      some ((if neg then -1 else 1) * ((natOf (ip ++ fp) : K) * 10 ^ (x - (fp.length : ℤ)))) := by
  have h := parseUnsigned_form (K := K) ip fp e hi hf he (by simp [hne]) x hx
  cases neg with
  | true =>
    simp only [if_true, List.singleton_append]
    simp only [parseNum, h, Option.map_some, neg_one_mul]
  | false =>
    simp only [Bool.false_eq_true, if_false, List.nil_append, one_mul]
    rw [parseNum_of_dig, h]
    intro c r hc hm
    cases ip with
    | nil => exact hne rfl
    | cons d ip =>
      rw [List.cons_append, List.cons.injEq] at hc
      have := hi d (by simp)
      rw [hc.1, hm] at this
      revert this; decide

variable [LinearOrder K] [FloorRing K] [IsStrictOrderedRing K]

theorem roundHE_nonpos_of_neg {y : K} (h : y < 0) : roundHE y ≤ 0 := by
  have : ⌊y⌋ < 0 := Int.floor_lt_zero.mpr h
  unfold roundHE
  split
  · omega
  · split
    · omega
    · split <;> omega

theorem roundHE_pos {y : K} (h : 0 ≤ y) : 0 ≤ roundHE y := by
  have : 0 ≤ ⌊y⌋ := Int.floor_nonneg.mpr h
  unfold roundHE
  split
  · omega
  · split
    · omega
    · split <;> omega

theorem roundDec_close (n : ℕ) (x : K) : |roundDec n x - x| ≤ 1 / 10 ^ n / 2 := by
  have h := roundHE_near (x * 10 ^ n)
  have hp : (0 : K) < 10 ^ n := by positivity
  unfold roundDec
  have : (roundHE (x * 10 ^ n) : K) / 10 ^ n - x = -(x * 10 ^ n - roundHE (x * 10 ^ n)) / 10 ^ n := by field_simp; ring
  rw [this, abs_div, abs_neg, abs_of_pos hp, div_le_iff₀ hp]
  calc |x * 10 ^ n - roundHE (x * 10 ^ n)| ≤ 1 / 2 := h
    _ = 1 / 10 ^ n / 2 * 10 ^ n := by field_simp

/-- `f"{x:.6f}"` is a word and reads as the number rounded to six decimals. -/
theorem fixed_spec (x : K) : IsWord (fixedBody x) ∧ parseNum (fixedBody x) = some (roundDec 6 x) := by
  obtain ⟨r, hr⟩ : ∃ r, r = (roundHE (x * 10 ^ 6)).natAbs := ⟨_, rfl⟩
  have hform : fixedBody x = (if decide (x < 0) then ['-'] else []) ++ (strNat (r / 10 ^ 6) ++ '.' :: (zeroPad 6 (r % 10 ^ 6) ++ [])) := by
    unfold fixedBody
    simp only [List.append_nil, decide_eq_true_eq, hr]
  constructor
  · rw [hform]
    constructor
    · intro c hc
      simp only [List.mem_append, List.mem_cons, List.append_nil] at hc
      rcases hc with h | h | h | h
      · split at h
        · rw [List.mem_singleton] at h; rw [h]; decide
        · simp at h
      · exact isDig_not_ws (strNat_dig _ c h)
      · rw [h]; decide
      · exact isDig_not_ws (zeroPad_dig _ _ c h)
    · simp
  · rw [hform, parse_signed _ _ _ _ (strNat_dig _) (strNat_ne_nil _) (zeroPad_dig _ _) (by simp) 0 rfl]
    have hd := (split_digits r 6).resolve_right (by norm_num)
    have hl := (zeroPad_spec 6 (r % 10 ^ 6) (by norm_num) (Nat.mod_lt _ (by norm_num))).2.2
    rw [hd, hl]
    unfold roundDec
    congr 1
    have h10 : (10 : K) ^ ((0 : ℤ) - (6 : ℕ)) = 1 / 10 ^ (6 : ℕ) := by
      rw [zero_sub, zpow_neg, zpow_natCast, one_div]
    rw [h10]
    by_cases hx : x < 0
    · have : roundHE (x * 10 ^ 6) ≤ 0 := roundHE_nonpos_of_neg (mul_neg_of_neg_of_pos hx (by positivity))
      have hc : (r : K) = -(roundHE (x * 10 ^ 6) : K) := by
        rw [hr, Nat.cast_natAbs, abs_of_nonpos this, Int.cast_neg]
      rw [hc]; simp [hx]; ring
    · have : 0 ≤ roundHE (x * 10 ^ 6) := roundHE_pos (mul_nonneg (not_lt.mp hx) (by positivity))
      have hc : (r : K) = (roundHE (x * 10 ^ 6) : K) := by
        rw [hr, Nat.cast_natAbs, abs_of_nonneg this]
      rw [hc]; simp [hx]; ring

/-- The width of `f"{x:.6f}"`: the sign, the digits before the point, the point and six digits. -/
theorem fixed_length (x : K) (k : ℕ) (hk : 0 < k) (hx : |x| + 1 ≤ 10 ^ k) : (fixedBody x).length ≤ k + 8 := by
  obtain ⟨r, hr⟩ : ∃ r, r = (roundHE (x * 10 ^ 6)).natAbs := ⟨_, rfl⟩
  have hlen : (fixedBody x).length = (if x < 0 then ['-'] else []).length + ((strNat (r / 10 ^ 6)).length + (1 + (zeroPad 6 (r % 10 ^ 6)).length)) := by
    unfold fixedBody
    simp only [List.length_append, List.length_cons, hr]
    omega
  have hl := (zeroPad_spec 6 (r % 10 ^ 6) (by norm_num) (Nat.mod_lt _ (by norm_num))).2.2
  have hs : (if x < 0 then ['-'] else []).length ≤ 1 := by split <;> simp
  have hb : r / 10 ^ 6 < 10 ^ k := by
    rw [Nat.div_lt_iff_lt_mul (by norm_num)]
    have near := roundHE_near (x * 10 ^ 6)
    have hm : (r : K) = |(roundHE (x * 10 ^ 6) : K)| := by rw [hr, Nat.cast_natAbs, Int.cast_abs]
    have h2 : |x * 10 ^ 6| = |x| * 10 ^ 6 := by rw [abs_mul, abs_of_pos (show (0 : K) < 10 ^ 6 by positivity)]
    have h3 : |x| * 10 ^ 6 + 10 ^ 6 ≤ 10 ^ k * 10 ^ 6 := by
      have := mul_le_mul_of_nonneg_right hx (show (0 : K) ≤ 10 ^ 6 by positivity)
      rw [add_mul, one_mul] at this; exact this
    have h4 : (1 : K) / 2 < 10 ^ 6 := by norm_num
    have : (r : K) < 10 ^ k * 10 ^ 6 := by
      rw [hm]
      rw [← h2] at h3
      generalize x * 10 ^ 6 = y at *
      generalize (10 : K) ^ 6 = t at *
      have h1 : |(roundHE y : K)| ≤ |y| + 1 / 2 := by
        have := abs_sub_abs_le_abs_sub (roundHE y : K) y
        rw [abs_sub_comm] at this; linarith
      linarith
    exact_mod_cast this
  have := (strNat_length (r / 10 ^ 6) k hk).mpr hb
  omega

/-- `y` is `x` to six significant digits. -/
def SixDigits (x y : K) : Prop :=
  (x = 0 ∧ y = 0) ∨ ∃ e : ℤ, (10 : K) ^ e ≤ |x| ∧ |x| < 10 ^ (e + 1) ∧ |y - x| ≤ 10 ^ (e - 5) / 2

theorem decade (x : K) (hx : x ≠ 0) : (10 : K) ^ (Int.log 10 |x|) ≤ |x| ∧ |x| < 10 ^ (Int.log 10 |x| + 1) := by
  have hpos : 0 < |x| := abs_pos.mpr hx
  have a := Int.zpow_log_le_self (b := 10) (by norm_num) hpos
  have b := Int.lt_zpow_succ_log_self (b := 10) (by norm_num) |x|
  exact ⟨by exact_mod_cast a, by exact_mod_cast b⟩

/-- Rounding to a multiple of a power of ten. -/
theorem round_at (x : K) (f : K) (hf : 0 < f) : |(roundHE (x * f) : K) / f - x| ≤ 1 / f / 2 := by
  have h := roundHE_near (x * f)
  have : (roundHE (x * f) : K) / f - x = -(x * f - roundHE (x * f)) / f := by field_simp; ring
  rw [this, abs_div, abs_neg, abs_of_pos hf, div_le_iff₀ hf]
  calc |x * f - roundHE (x * f)| ≤ 1 / 2 := h
    _ = 1 / f / 2 * f := by field_simp

theorem sci5_spec (x : K) (hx : x ≠ 0) : 10 ^ 5 ≤ (sci5 x).1 ∧ (sci5 x).1 < 10 ^ 6 ∧
    |((sci5 x).1 : K) * 10 ^ ((sci5 x).2 - 5) - (|x|)| ≤ 10 ^ (Int.log 10 |x| - 5) / 2 ∧
    ((sci5 x).2 = Int.log 10 |x| ∨ (sci5 x).2 = Int.log 10 |x| + 1) := by
  obtain ⟨h1, h2⟩ := decade x hx
  obtain ⟨e, he⟩ : ∃ e, e = Int.log 10 |x| := ⟨_, rfl⟩
  rw [← he] at h1 h2 ⊢
  have hp : (0 : K) < 10 ^ e := ten_pos e
  have hq : (0 : K) < 10 ^ (e - 5) := ten_pos _
  have hqe : (10 : K) ^ e = 10 ^ (5 : ℕ) * 10 ^ (e - 5) := by
    rw [← zpow_natCast, ← zpow_add₀ (by norm_num)]; congr 1; push_cast; ring
  have hqe1 : (10 : K) ^ (e + 1) = 10 ^ (6 : ℕ) * 10 ^ (e - 5) := by
    rw [← zpow_natCast, ← zpow_add₀ (by norm_num)]; congr 1; push_cast; ring
  obtain ⟨y, hy⟩ : ∃ y, y = |x| / 10 ^ e * 10 ^ 5 := ⟨_, rfl⟩
  have hxy : |x| = y * 10 ^ (e - 5) := by
    rw [hy, hqe]; field_simp
  have b1 : (10 : K) ^ (5 : ℕ) ≤ y := by
    rw [hxy, hqe] at h1; exact le_of_mul_le_mul_right h1 hq
  have b2 : y < (10 : K) ^ (6 : ℕ) := by
    rw [hxy, hqe1] at h2; exact lt_of_mul_lt_mul_right h2 hq.le
  have near := roundHE_near y
  have hy0 : 0 ≤ y := le_trans (by positivity) b1
  have hm0 := roundHE_pos hy0
  obtain ⟨m, hm⟩ : ∃ m : ℕ, (m : ℤ) = roundHE y := ⟨(roundHE y).natAbs, by omega⟩
  have hmK : ((roundHE y : ℤ) : K) = (m : K) := by rw [← hm]; simp
  rw [hmK] at near
  have hnat : (roundHE y).natAbs = m := by omega
  have c1 : 10 ^ 5 ≤ m := by
    by_contra hc
    have : m + 1 ≤ 10 ^ 5 := by omega
    have : (m : K) + 1 ≤ 10 ^ 5 := by exact_mod_cast this
    rw [abs_le] at near
    linarith
  have c2 : m ≤ 10 ^ 6 := by
    by_contra hc
    have : 10 ^ 6 + 1 ≤ m := by omega
    have : (10 : K) ^ 6 + 1 ≤ (m : K) := by exact_mod_cast this
    rw [abs_le] at near
    linarith
  have herr : |(m : K) * 10 ^ (e - 5) - (|x|)| ≤ 10 ^ (e - 5) / 2 := by
    rw [hxy, ← sub_mul, abs_mul, abs_of_pos hq, abs_sub_comm]
    calc |y - m| * 10 ^ (e - 5) ≤ 1 / 2 * 10 ^ (e - 5) := mul_le_mul_of_nonneg_right near hq.le
      _ = 10 ^ (e - 5) / 2 := by ring
  unfold sci5
  rw [if_neg hx]
  simp only [← he, ← hy, hnat]
  split
  · rename_i h
    refine ⟨le_refl _, by norm_num, ?_, Or.inr rfl⟩
    simp only
    have : ((10 ^ 5 : ℕ) : K) * 10 ^ (e + 1 - 5) = (m : K) * 10 ^ (e - 5) := by
      rw [h, show e + 1 - 5 = (e - 5) + 1 by ring, zpow_add_one₀ (by norm_num)]
      push_cast; ring
    rw [this]
    exact herr
  · exact ⟨c1, by omega, herr, Or.inl rfl⟩

/-- `f"{x:.5E}"` is a word that reads as the number to six digits. -/
theorem sci_spec (x : K) : IsWord (sciBody x) ∧ ∃ y, parseNum (sciBody x) = some y ∧ SixDigits x y := by
  constructor
  · constructor
    · intro c hc
      unfold sciBody at hc
      simp only [List.mem_append, List.mem_cons] at hc
      rcases hc with h | h | h | h | h | h | h
      · split at h
        · rw [List.mem_singleton] at h; rw [h]; decide
        · simp at h
      · exact isDig_not_ws (strNat_dig _ c h)
      · rw [h]; decide
      · exact isDig_not_ws (zeroPad_dig _ _ c h)
      · rw [h]; decide
      · rw [h]; split <;> decide
      · exact isDig_not_ws (zeroPad_dig _ _ c h)
    · unfold sciBody; simp
  · obtain ⟨m, hm⟩ : ∃ m, m = (sci5 x).1 := ⟨_, rfl⟩
    obtain ⟨e, he⟩ : ∃ e, e = (sci5 x).2 := ⟨_, rfl⟩
    have hE : parseExp ('E' :: (if decide (e < 0) then '-' else '+') :: zeroPad 2 e.natAbs) = some e := by
      rw [parseExp_form _ _ (zeroPad_dig _ _) (zeroPad_ne_nil _ _), natOf_zeroPad, natAbs_sign]
    have hform : sciBody x = (if decide (x < 0) then ['-'] else []) ++ (strNat (m / 10 ^ 5) ++ '.' :: (zeroPad 5 (m % 10 ^ 5) ++
        'E' :: (if decide (e < 0) then '-' else '+') :: zeroPad 2 e.natAbs)) := by
      unfold sciBody
      simp only [decide_eq_true_eq, hm, he]
    rw [hform, parse_signed _ _ _ _ (strNat_dig _) (strNat_ne_nil _) (zeroPad_dig _ _)
      (by intro c r h; rw [List.cons.injEq] at h; rw [← h.1]; decide) e hE]
    have hd := (split_digits m 5).resolve_right (by norm_num)
    have hl := (zeroPad_spec 5 (m % 10 ^ 5) (by norm_num) (Nat.mod_lt _ (by norm_num))).2.2
    rw [hd, hl]
    refine ⟨_, rfl, ?_⟩
    by_cases hx : x = 0
    · left
      refine ⟨hx, ?_⟩
      have : m = 0 := by rw [hm]; unfold sci5; rw [if_pos hx]
      rw [this]; simp
    · right
      obtain ⟨h1, h2⟩ := decade x hx
      obtain ⟨-, -, h3, -⟩ := sci5_spec x hx
      rw [← hm, ← he] at h3
      refine ⟨_, h1, h2, ?_⟩
      have h5 : (e - ((5 : ℕ) : ℤ)) = e - 5 := by norm_num
      rw [h5]
      by_cases hn : x < 0
      · simp only [hn, decide_true, if_true]
        rw [abs_of_neg hn] at h3
        rw [← abs_neg]
        have : -(-1 * ((m : K) * 10 ^ (e - 5)) - x) = (m : K) * 10 ^ (e - 5) - -x := by ring
        rw [this, abs_of_neg hn]; exact h3
      · simp only [hn, decide_false, Bool.false_eq_true, if_false, one_mul]
        rw [abs_of_nonneg (not_lt.mp hn)] at h3
        rw [abs_of_nonneg (not_lt.mp hn)]; exact h3

/-- A number whose text in a cube file leaves a blank in front: not negative with a three-digit exponent. -/
def CubeFits (x : K) : Prop := x = 0 ∨ ∃ e : ℤ, -99 ≤ e ∧ e < 99 ∧ (10 : K) ^ e ≤ |x| ∧ |x| < 10 ^ (e + 1)

theorem sci_length (x : K) (h : CubeFits x) : (sciBody x).length < 13 := by
  have hs : (if x < 0 then ['-'] else []).length ≤ 1 := by split <;> simp
  have hm : (sci5 x).1 < 10 ^ 6 := by
    by_cases hx : x = 0
    · unfold sci5; rw [if_pos hx]; norm_num
    · exact (sci5_spec x hx).2.1
  have he : (sci5 x).2.natAbs < 100 := by
    by_cases hx : x = 0
    · unfold sci5; rw [if_pos hx]; simp
    · rcases h with h | ⟨e, h1, h2, h3, h4⟩
      · exact absurd h hx
      · have := log_of_decade x (e + 1) (by simpa using h3) h4
        rcases (sci5_spec x hx).2.2.2 with h | h <;> rw [h, this] <;> omega
  have l1 : (strNat ((sci5 x).1 / 10 ^ 5)).length ≤ 1 :=
    (strNat_length _ 1 (by norm_num)).mpr (by rw [Nat.div_lt_iff_lt_mul (by norm_num)]; omega)
  have l2 := (zeroPad_spec 5 ((sci5 x).1 % 10 ^ 5) (by norm_num) (Nat.mod_lt _ (by norm_num))).2.2
  have l3 := (zeroPad_spec 2 (sci5 x).2.natAbs (by norm_num) (by simpa using he)).2.2
  unfold sciBody
  simp only [List.length_append, List.length_cons, l2, l3]
  omega

/-! ### C72: significant figures -/

/-- C72: rounding to `n` figures changes a number by at most half a unit of its `n`-th figure, keeps zero, and leaves
alone a number that has no more than `n` figures. -/
theorem C72_round (n : ℕ) (x : K) (hx : x ≠ 0) :
    |roundSig n x - x| ≤ 10 ^ (Int.log 10 |x| - (n : ℤ) + 1) / 2 ∧ roundSig n (0 : K) = 0 ∧
    ∀ m : ℤ, x = m * 10 ^ (Int.log 10 |x| - (n : ℤ) + 1) → roundSig n x = x := by
  have hf : (0 : K) < 10 ^ ((n : ℤ) - 1 - Int.log 10 |x|) := ten_pos _
  have hinv : (10 : K) ^ (Int.log 10 |x| - (n : ℤ) + 1) = 1 / 10 ^ ((n : ℤ) - 1 - Int.log 10 |x|) := by
    rw [one_div, ← zpow_neg]; congr 1; ring
  refine ⟨?_, by unfold roundSig; simp, ?_⟩
  · unfold roundSig
    rw [if_neg hx]
    simp only
    rw [hinv]
    exact round_at x _ hf
  · intro m hm
    unfold roundSig
    rw [if_neg hx]
    simp only
    have : x * 10 ^ ((n : ℤ) - 1 - Int.log 10 |x|) = (m : K) := by
      rw [hinv, mul_one_div] at hm
      exact (eq_div_iff (ne_of_gt hf)).mp hm
    rw [this]
    have hr : roundHE (m : K) = m := by
      unfold roundHE; simp
    rw [hr, ← this, mul_div_assoc, div_self (ne_of_gt hf), mul_one]

theorem roundSig_zero (n : ℕ) : roundSig n (0 : K) = 0 := by unfold roundSig; simp

/-- C72: with at most 1000 values that are not zero, the number of figures found lies between 1 and 20, is enough for
every value unless it is 20, and no smaller number is enough. -/
theorem C72_infer (pick : List K → List K) (values : List K)
    (hlen : (values.filter fun x => decide (x ≠ 0)).length ≤ 1000) :
    1 ≤ inferSig pick values ∧ inferSig pick values ≤ 20 ∧
    (inferSig pick values < 20 → ∀ x ∈ values, |roundSig (inferSig pick values) x - x| < 1 / 10 ^ 15) ∧
    ((∃ x ∈ values, x ≠ 0) → ∀ m, 1 ≤ m → m < inferSig pick values → ∃ x ∈ values, 1 / 10 ^ 15 ≤ |roundSig m x - x|) := by
  unfold inferSig
  simp only [if_neg (show ¬ ((values.filter fun x => decide (x ≠ 0)).length > 1000) by omega)]
  by_cases h0 : (values.filter fun x => decide (x ≠ 0)).length = 0
  · rw [if_pos h0]
    refine ⟨by norm_num, le_refl _, fun h => absurd h (by norm_num), ?_⟩
    rintro ⟨x, hx, hne⟩
    rw [List.length_eq_zero_iff, List.filter_eq_nil_iff] at h0
    exact absurd (by simpa using hne) (h0 x hx)
  · rw [if_neg h0]
    have back : ∀ m, (values.filter fun x => decide (x ≠ 0)).all (fun x => decide (|roundSig m x - x| < 1 / 10 ^ 15)) = true →
        ∀ x ∈ values, |roundSig m x - x| < 1 / 10 ^ 15 := by
      intro m hm x hx
      by_cases hz : x = 0
      · rw [hz, roundSig_zero, sub_zero, abs_zero]; positivity
      · rw [List.all_eq_true] at hm
        simpa using hm x (by rw [List.mem_filter]; exact ⟨hx, by simpa using hz⟩)
    have fwd : ∀ m, ¬ (values.filter fun x => decide (x ≠ 0)).all (fun x => decide (|roundSig m x - x| < 1 / 10 ^ 15)) = true →
        ∃ x ∈ values, 1 / 10 ^ 15 ≤ |roundSig m x - x| := by
      intro m hm
      rw [List.all_eq_true] at hm
      push Not at hm
      obtain ⟨x, hx, hlt⟩ := hm
      exact ⟨x, List.mem_of_mem_filter hx, by simpa using hlt⟩
    cases hf : (List.range 20).find? fun n => (values.filter fun x => decide (x ≠ 0)).all
        fun x => decide (|roundSig (n + 1) x - x| < 1 / 10 ^ 15) with
    | none =>
      simp only
      refine ⟨by norm_num, le_refl _, fun h => absurd h (by norm_num), ?_⟩
      intro _ m h1 h2
      rw [List.find?_eq_none] at hf
      have := hf (m - 1) (List.mem_range.mpr (by omega))
      rw [show m - 1 + 1 = m by omega] at this
      exact fwd m this
    | some n =>
      simp only
      have hmem := List.mem_range.mp (List.mem_of_find?_eq_some hf)
      refine ⟨by omega, by omega, fun _ => back (n + 1) (by have := List.find?_some hf; exact this), ?_⟩
      intro _ m h1 h2
      rw [List.find?_range_eq_some] at hf
      have := hf.2.2 (m - 1) (by omega)
      rw [show m - 1 + 1 = m by omega] at this
      exact fwd m (by simpa using this)

/-- C72: data all below `10^-15` are taken to have a single significant figure, whatever their digits. -/
theorem C72_tiny_wrong (pick : List K → List K) (values : List K) (hne : ∃ x ∈ values, x ≠ 0)
    (hlen : (values.filter fun x => decide (x ≠ 0)).length ≤ 1000) (h : ∀ x ∈ values, |x| ≤ 1 / 10 ^ 15) :
    inferSig pick values = 1 := by
  obtain ⟨h1, -, -, h4⟩ := C72_infer pick values hlen
  by_contra hc
  obtain ⟨x, hx, hle⟩ := h4 hne 1 (le_refl _) (by omega)
  by_cases hz : x = 0
  · rw [hz, roundSig_zero, sub_zero, abs_zero] at hle
    have : (0 : K) < 1 / 10 ^ 15 := by positivity
    linarith
  · have a := (C72_round 1 x hz).1
    have b := (decade x hz).1
    have c := h x hx
    have d := abs_pos.mpr hz
    rw [show Int.log 10 |x| - ((1 : ℕ) : ℤ) + 1 = Int.log 10 |x| by push_cast; ring] at a
    generalize (1 : K) / 10 ^ 15 = t at *
    linarith

/-- C72: with more than 1000 values only a sample is looked at, so that the figures of a value outside the sample are
lost: a thousand ones and 3/2, of which the ones are drawn, count as one figure and 3/2 becomes 2. -/
theorem C72_sample_wrong : ∃ (values : List ℚ) (pick : List ℚ → List ℚ), (∀ l, (pick l).Sublist l) ∧
    (∀ l, 1000 ≤ l.length → (pick l).length = 1000) ∧ inferSig pick values = 1 ∧ 3 / 2 ∈ values ∧ roundSig 1 (3 / 2 : ℚ) = 2 := by
  obtain ⟨N, hN⟩ : ∃ N : ℕ, N = 1000 := ⟨_, rfl⟩
  refine ⟨List.replicate N 1 ++ [3 / 2], List.take 1000, fun l => List.take_sublist _ _, ?_, ?_,
    List.mem_append_right _ (List.mem_singleton_self _), by decide +kernel⟩
  · intro l hl; rw [List.length_take]; omega
  · have hfil : (List.replicate N (1 : ℚ) ++ [3 / 2]).filter (fun x => decide (x ≠ 0)) = List.replicate N 1 ++ [3 / 2] := by
      rw [List.filter_eq_self]
      intro a ha
      simp only [List.mem_append, List.mem_replicate, List.mem_singleton] at ha
      rcases ha with ⟨-, rfl⟩ | rfl <;> norm_num
    have h1 : roundSig 1 (1 : ℚ) = 1 := by decide +kernel
    have hl : (List.replicate N (1 : ℚ) ++ [3 / 2]).length = N + 1 := by simp
    have ht : (List.replicate N (1 : ℚ) ++ [3 / 2]).take 1000 = List.replicate N 1 :=
      List.take_left' (by rw [List.length_replicate, hN])
    unfold inferSig
    simp only [hfil, hl]
    rw [if_neg (by omega), if_pos (by omega), ht]
    have : (List.range 20).find? (fun n => (List.replicate N (1 : ℚ)).all
        fun x => decide (|roundSig (n + 1) x - x| < 1 / 10 ^ 15)) = some 0 := by
      rw [List.find?_range_eq_some]
      refine ⟨?_, List.mem_range.mpr (by norm_num), fun j hj => absurd hj (Nat.not_lt_zero j)⟩
      rw [List.all_eq_true]
      intro x hx
      rw [(List.mem_replicate.mp hx).2, zero_add, h1]
      norm_num
    rw [this]

/-- 12.34 has four significant figures. -/
example : inferSig id [(1234 / 100 : ℚ), 0, 5] = 4 := by decide +kernel

end field
end BaderKit
