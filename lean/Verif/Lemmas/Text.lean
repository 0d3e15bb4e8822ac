import Verif.Model.VaspFile
import Mathlib.Data.Nat.Digits.Lemmas
import Mathlib.Tactic.Ring
import Mathlib.Tactic.Linarith
import Mathlib.Tactic.IntervalCases
/-!
# Lemmas about text
-/
namespace BaderKit

/-! ### Words -/

theorem words_eq (t : Text) (h : (wordsAux t).1 = []) : words t = (wordsAux t).2 := by
  unfold words; simp only [h]; rfl

theorem wordsAux_ws (c : Char) (t : Text) (h : isWs c = true) : wordsAux (c :: t) = ([], words t) := by
  rw [wordsAux]
  simp only [h, if_true]
  rfl

theorem words_ws (c : Char) (t : Text) (h : isWs c = true) : words (c :: t) = words t := by
  rw [words_eq _ (by rw [wordsAux_ws c t h]), wordsAux_ws c t h]

theorem words_replicate (n : ℕ) (t : Text) : words (List.replicate n ' ' ++ t) = words t := by
  induction n with
  | zero => simp
  | succ n ih => rw [List.replicate_succ, List.cons_append, words_ws _ _ (by decide), ih]

theorem wordsAux_append (w : Text) (hw : ∀ c ∈ w, isWs c = false) (t : Text) :
    wordsAux (w ++ t) = (w ++ (wordsAux t).1, (wordsAux t).2) := by
  induction w with
  | nil => simp
  | cons c w ih =>
    rw [List.cons_append, wordsAux, ih (fun d hd => hw d (by simp [hd]))]
    simp [hw c (by simp)]

/-- White space or nothing follows. -/
def Ended (t : Text) : Prop := t = [] ∨ ∃ c r, t = c :: r ∧ isWs c = true

theorem ended_aux {t : Text} (h : Ended t) : (wordsAux t).1 = [] := by
  rcases h with rfl | ⟨c, r, rfl, h⟩
  · rfl
  · rw [wordsAux_ws c r h]

theorem words_word (w : Text) (hw : ∀ c ∈ w, isWs c = false) (hne : w ≠ []) (t : Text) (ht : Ended t) :
    words (w ++ t) = w :: words t := by
  rw [words_eq t (ended_aux ht)]
  unfold words
  rw [wordsAux_append w hw t]
  simp only [ended_aux ht, List.append_nil]
  rw [if_neg hne]

theorem words_nil : words [] = [] := rfl

/-! ### Digits -/

theorem digitChar_toNat (d : ℕ) (h : d < 10) : (Char.ofNat (48 + d)).toNat = 48 + d := by
  interval_cases d <;> rfl

theorem decimal_dig (n : ℕ) : ∀ c ∈ decimal n, isDig c = true := by
  intro c hc
  unfold decimal at hc
  rw [List.mem_reverse, List.mem_map] at hc
  obtain ⟨d, hd, rfl⟩ := hc
  have := Nat.digits_lt_base (b := 10) (by norm_num) hd
  unfold isDig
  rw [digitChar_toNat d this, decide_eq_true_eq]
  omega

theorem natOf_decimal (n : ℕ) : natOf (decimal n) = n := by
  unfold natOf decimal
  rw [List.foldl_reverse, List.foldr_map]
  have : ∀ l : List ℕ, (∀ d ∈ l, d < 10) →
      l.foldr (fun d a => a * 10 + ((Char.ofNat (48 + d)).toNat - 48)) 0 = Nat.ofDigits 10 l := by
    intro l
    induction l with
    | nil => intro _; rfl
    | cons d l ih =>
      intro h
      rw [List.foldr_cons, ih (fun x hx => h x (by simp [hx])), digitChar_toNat d (h d (by simp)), Nat.ofDigits_cons]
      omega
  rw [this _ (fun d hd => Nat.digits_lt_base (by norm_num) hd), Nat.ofDigits_digits]

theorem decimal_length (n k : ℕ) : (decimal n).length ≤ k ↔ n < 10 ^ k := by
  unfold decimal
  rw [List.length_reverse, List.length_map]
  exact Nat.digits_length_le_iff (by norm_num) n

theorem strNat_dig (n : ℕ) : ∀ c ∈ strNat n, isDig c = true := by
  unfold strNat
  split
  · decide
  · exact decimal_dig n

theorem natOf_strNat (n : ℕ) : natOf (strNat n) = n := by
  unfold strNat
  split
  · rename_i h; rw [h]; rfl
  · exact natOf_decimal n

theorem strNat_ne_nil (n : ℕ) : strNat n ≠ [] := by
  intro h
  have := natOf_strNat n
  rw [h] at this
  have h0 : n = 0 := by rw [← this]; rfl
  rw [h0] at h
  simp [strNat] at h

theorem strNat_length (n k : ℕ) (hk : 0 < k) : (strNat n).length ≤ k ↔ n < 10 ^ k := by
  unfold strNat
  split
  · rename_i h
    subst h
    simp; omega
  · exact decimal_length n k

theorem strNat_length_eq (n k : ℕ) (hk : 0 < k) (h1 : 10 ^ k ≤ n) (h2 : n < 10 ^ (k + 1)) :
    (strNat n).length = k + 1 := by
  have a := (strNat_length n (k + 1) (by omega)).mpr h2
  have b := (strNat_length n k hk).not.mpr (by omega)
  omega

theorem strNat_length_one (n : ℕ) (h : n < 10) : (strNat n).length = 1 := by
  have a := (strNat_length n 1 (by omega)).mpr (by simpa using h)
  have := List.length_pos_of_ne_nil (strNat_ne_nil n)
  omega

theorem parseNat_strNat (n : ℕ) : parseNat (strNat n) = some n := by
  unfold parseNat
  rw [if_pos ⟨strNat_ne_nil n, by rw [List.all_eq_true]; exact strNat_dig n⟩, natOf_strNat]

theorem natOf_append (a b : Text) : natOf (a ++ b) = natOf a * 10 ^ b.length + natOf b := by
  unfold natOf
  rw [List.foldl_append]
  generalize a.foldl (fun a c => a * 10 + (c.toNat - 48)) 0 = x
  induction b using List.reverseRecOn with
  | nil => simp
  | append_singleton b c ih =>
    rw [List.foldl_append, List.foldl_append, ih]
    simp only [List.foldl_cons, List.foldl_nil, List.length_append, List.length_cons, List.length_nil, pow_succ]
    ring

theorem natOf_zero_cons (b : Text) : natOf ('0' :: b) = natOf b := by
  have := natOf_append ['0'] b
  rw [List.singleton_append] at this
  rw [this]
  simp [natOf]

theorem isDig_not_ws {c : Char} (h : isDig c = true) : isWs c = false := by
  unfold isDig at h
  rw [decide_eq_true_eq] at h
  by_contra hc
  rw [Bool.not_eq_false] at hc
  unfold isWs at hc
  simp only [Bool.or_eq_true, decide_eq_true_eq] at hc
  rcases hc with ((rfl | rfl) | rfl) | rfl <;> revert h <;> decide

theorem takeWhile_stop {p : Char → Bool} (a : Text) (ha : ∀ c ∈ a, p c = true) (t : Text)
    (ht : ∀ c r, t = c :: r → p c = false) : (a ++ t).takeWhile p = a ∧ (a ++ t).dropWhile p = t := by
  induction a with
  | nil =>
    cases t with
    | nil => simp
    | cons c r => simp [ht c r rfl]
  | cons c a ih =>
    have := ih (fun d hd => ha d (by simp [hd]))
    simp [ha c (by simp), this]

section field
variable {K : Type*} [Field K]

theorem parseUnsigned_form (ip fp e : Text) (hi : ∀ c ∈ ip, isDig c = true) (hf : ∀ c ∈ fp, isDig c = true)
    (he : ∀ c r, e = c :: r → isDig c = false) (hne : ip ++ fp ≠ []) (x : ℤ) (hx : parseExp e = some x) :
    parseUnsigned (K := K) (ip ++ '.' :: (fp ++ e)) = some ((natOf (ip ++ fp) : K) * 10 ^ (x - (fp.length : ℤ))) := by
  have h1 := takeWhile_stop (p := isDig) ip hi ('.' :: (fp ++ e)) (by intro c r h; rw [List.cons.injEq] at h; rw [← h.1]; decide)
  have h2 := takeWhile_stop (p := isDig) fp hf e he
  unfold parseUnsigned
  simp only [h1.1, h1.2, h2.1, h2.2, hx, if_neg hne, Option.map_some]

theorem parseNum_of_dig {t : Text} (h : ∀ c r, t = c :: r → c ≠ '-') : parseNum (K := K) t = parseUnsigned t := by
  unfold parseNum
  split
  · rename_i t'
    exact absurd rfl (h _ _ rfl)
  · rfl

theorem parseExp_form (neg : Bool) (ds : Text) (hd : ∀ c ∈ ds, isDig c = true) (hne : ds ≠ []) :
    parseExp ('E' :: (if neg then '-' else '+') :: ds) = some (if neg then -(natOf ds : ℤ) else (natOf ds : ℤ)) := by
  have : parseNat ds = some (natOf ds) := by
    unfold parseNat
    rw [if_pos ⟨hne, by rw [List.all_eq_true]; exact hd⟩]
  cases neg <;> simp [parseExp, this]

end field

/-! ### Slices -/

section slices
variable {α : Type*}

theorem slices_nil (n : ℕ) (hn : 0 < n) : slices n ([] : List α) = [] := by
  unfold slices
  rw [show (([] : List α).length + n - 1) / n = 0 from Nat.div_eq_of_lt (by simp; omega)]
  rfl

theorem slices_cons (n : ℕ) (hn : 0 < n) (l : List α) (hl : l ≠ []) :
    slices n l = l.take n :: slices n (l.drop n) := by
  unfold slices
  have hpos := List.length_pos_of_ne_nil hl
  have hcount : (l.length + n - 1) / n = ((l.drop n).length + n - 1) / n + 1 := by
    rw [List.length_drop]
    by_cases h : n ≤ l.length
    · have : l.length + n - 1 = (l.length - n + n - 1) + n := by omega
      rw [this, Nat.add_div_right _ hn]
    · have h1 : (l.length - n + n - 1) / n = 0 := Nat.div_eq_of_lt (by omega)
      have h2 : (l.length + n - 1) / n = 1 := by
        rw [Nat.div_eq_iff hn]
        omega
      rw [h1, h2]
  rw [hcount, List.range_succ_eq_map, List.map_cons, List.map_map]
  congr 1
  · simp
  · apply List.map_congr_left
    intro i _
    simp only [Function.comp, List.drop_drop]
    congr 2
    rw [Nat.succ_mul]; omega

theorem slices_flatten (n : ℕ) (hn : 0 < n) (l : List α) : (slices n l).flatten = l := by
  induction h : l.length using Nat.strong_induction_on generalizing l with
  | _ k ih =>
    by_cases hl : l = []
    · rw [hl, slices_nil n hn]; rfl
    · rw [slices_cons n hn l hl, List.flatten_cons,
        ih (l.drop n).length (by have := List.length_pos_of_ne_nil hl; rw [List.length_drop]; omega) _ rfl,
        List.take_append_drop]

theorem slices_ne_nil (n : ℕ) (hn : 0 < n) (l : List α) : ∀ r ∈ slices n l, r ≠ [] := by
  induction h : l.length using Nat.strong_induction_on generalizing l with
  | _ k ih =>
    by_cases hl : l = []
    · rw [hl, slices_nil n hn]; simp
    · rw [slices_cons n hn l hl]
      intro r hr
      rcases List.mem_cons.mp hr with rfl | hr
      · rw [Ne, List.take_eq_nil_iff]
        push Not
        exact ⟨by omega, hl⟩
      · exact ih (l.drop n).length (by have := List.length_pos_of_ne_nil hl; rw [List.length_drop]; omega) _ rfl r hr

theorem slices_length (n : ℕ) (l : List α) : (slices n l).length = (l.length + n - 1) / n := by
  unfold slices; simp

theorem slices_split (n : ℕ) (hn : 0 < n) (m : ℕ) (l : List α) :
    slices n (l.take (n * m)) ++ slices n (l.drop (n * m)) = slices n l := by
  induction m generalizing l with
  | zero => rw [Nat.mul_zero, List.take_zero, List.drop_zero, slices_nil n hn]; rfl
  | succ m ih =>
    by_cases hl : l = []
    · subst hl; simp [slices_nil n hn]
    · have e1 : l.take (n * (m + 1)) ≠ [] := by
        rw [Ne, List.take_eq_nil_iff]; push Not; exact ⟨by positivity, hl⟩
      have hle : min n (n * (m + 1)) = n := by
        rw [min_eq_left]; exact Nat.le_mul_of_pos_right n (by omega)
      rw [slices_cons n hn _ e1, slices_cons n hn l hl, List.cons_append, List.take_take, hle, List.drop_take,
        show n * (m + 1) - n = n * m by rw [Nat.mul_succ]; omega]
      congr 1
      rw [← ih (l.drop n), List.drop_drop, show n + n * m = n * (m + 1) by rw [Nat.mul_succ]; omega]

theorem slices_map {β : Type*} (f : α → β) (n : ℕ) (l : List α) : slices n (l.map f) = (slices n l).map (List.map f) := by
  unfold slices
  simp [List.map_drop, List.map_take, Function.comp_def]

/-- Cutting a list into chunks of `m` lines first makes no difference. -/
theorem slices_chunks (n m : ℕ) (hn : 0 < n) (hm : 0 < m) (l : List α) :
    (slices (n * m) l).flatMap (slices n) = slices n l := by
  induction h : l.length using Nat.strong_induction_on generalizing l with
  | _ k ih =>
    have hp : 0 < n * m := by positivity
    by_cases hl : l = []
    · rw [hl, slices_nil _ hp, slices_nil n hn]; rfl
    · rw [slices_cons _ hp l hl, List.flatMap_cons,
        ih (l.drop (n * m)).length (by have := List.length_pos_of_ne_nil hl; rw [List.length_drop]; omega) _ rfl,
        slices_split n hn m l]

end slices

/-! ### Lines -/

theorem readLine_line (l r : Text) (h : '\n' ∉ l) : readLine (l ++ '\n' :: r) = (l ++ ['\n'], r) := by
  induction l with
  | nil => simp [readLine]
  | cons c l ih =>
    rw [List.cons_append, readLine, ih (fun hc => h (by simp [hc]))]
    rw [if_neg (by rintro rfl; exact h (by simp))]
    rfl

theorem linesOf_line (l r : Text) (h : '\n' ∉ l) : linesOf (l ++ '\n' :: r) = (l ++ ['\n']) :: linesOf r := by
  induction l with
  | nil => simp [linesOf]
  | cons c l ih =>
    rw [List.cons_append, linesOf, ih (fun hc => h (by simp [hc]))]
    rw [if_neg (by rintro rfl; exact h (by simp))]
    rfl

theorem linesOf_flatten (t : Text) : (linesOf t).flatten = t := by
  induction t with
  | nil => rfl
  | cons c t ih =>
    rw [linesOf]
    split
    · rename_i h; simp [ih, h]
    · cases h : linesOf t with
      | nil => rw [h] at ih; simp at ih; simp [← ih]
      | cons l ls => rw [h] at ih; simp at ih; simp [ih]

/-- A complete line: one line end, at the end. -/
def IsLine (l : Text) : Prop := ∃ b, l = b ++ ['\n'] ∧ '\n' ∉ b

theorem linesOf_lines (ls : List Text) (h : ∀ l ∈ ls, IsLine l) (t : Text) :
    linesOf (ls.flatten ++ t) = ls ++ linesOf t := by
  induction ls with
  | nil => rfl
  | cons l ls ih =>
    obtain ⟨b, rfl, hb⟩ := h l (by simp)
    rw [List.flatten_cons, List.append_assoc, List.append_assoc, List.singleton_append, linesOf_line _ _ hb,
      ih (fun l hl => h l (by simp [hl]))]
    rfl

/-! ### Arrays in Fortran order -/

theorem getElem?_flatMap_range {α : Type*} (f : ℕ → List α) (m n : ℕ) (hf : ∀ b < n, (f b).length = m) (a b : ℕ)
    (ha : a < m) (hb : b < n) : ((List.range n).flatMap f)[a + m * b]? = (f b)[a]? := by
  have hlen : ∀ n, (∀ b < n, (f b).length = m) → ((List.range n).flatMap f).length = m * n := by
    intro n
    induction n with
    | zero => intro _; simp
    | succ n ih =>
      intro h
      rw [List.range_succ, List.flatMap_append, List.length_append, ih (fun b hb => h b (by omega))]
      simp [h n (by omega), Nat.mul_succ]
  induction n with
  | zero => omega
  | succ n ih =>
    rw [List.range_succ, List.flatMap_append]
    have hl := hlen n (fun b hb => hf b (by omega))
    by_cases h : b < n
    · rw [List.getElem?_append_left, ih (fun b hb => hf b (by omega)) h]
      rw [hl]
      calc a + m * b < m + m * b := by omega
        _ = m * (b + 1) := by ring
        _ ≤ m * n := Nat.mul_le_mul_left _ (by omega)
    · have : b = n := by omega
      subst this
      rw [List.getElem?_append_right (by rw [hl]; omega), hl]
      simp

theorem ravelF_length {K : Type*} [Field K] (s : Shape) (g : Grid3 K) : (ravelF s g).length = s.nx * s.ny * s.nz := by
  unfold ravelF
  simp [List.length_flatMap, Nat.mul_comm, Nat.mul_assoc]

theorem ravelF_getElem {K : Type*} [Field K] (s : Shape) (g : Grid3 K) (i j k : ℕ) (hi : i < s.nx) (hj : j < s.ny)
    (hk : k < s.nz) : (ravelF s g)[i + s.nx * (j + s.ny * k)]? = some (g i j k) := by
  unfold ravelF
  have hin : i + s.nx * j < s.nx * s.ny := by
    calc i + s.nx * j < s.nx + s.nx * j := by omega
      _ = s.nx * (j + 1) := by ring
      _ ≤ s.nx * s.ny := Nat.mul_le_mul_left _ (by omega)
  rw [show i + s.nx * (j + s.ny * k) = (i + s.nx * j) + (s.nx * s.ny) * k by ring,
    getElem?_flatMap_range _ (s.nx * s.ny) s.nz (fun b _ => by simp [List.length_flatMap, Nat.mul_comm]) _ _ hin hk,
    getElem?_flatMap_range _ s.nx s.ny (fun b _ => by simp) _ _ hi hj]
  simp [hi]

end BaderKit
