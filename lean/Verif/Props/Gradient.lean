import Verif.Model.Neargrid
import Mathlib.Tactic.Ring
import Mathlib.Tactic.FieldSimp
import Mathlib.Tactic.Linarith
/-! # Property C62: the gradients of the neargrid method -/
set_option linter.unusedSectionVars false
namespace BaderKit
variable {K : Type*} [Field K] [LinearOrder K] [IsStrictOrderedRing K]

/-- **C62** The simple gradient: zero (for every lattice matrix) at a voxel that is not below any of its six
face neighbours; exact for data that are affine on the six neighbours; unchanged when a constant is added to
the data. -/
theorem C62_simple (s : Shape) (data : ℕ → K) (M : (K × K × K) × (K × K × K) × (K × K × K)) (v : ℕ) :
    ((∀ t ∈ [((1, 0, 0) : Coord), (-1, 0, 0), (0, 1, 0), (0, -1, 0), (0, 0, 1), (0, 0, -1)],
      data (nbr s v t) ≤ data v) → gradientSimple s data M v = (0, 0, 0)) ∧
    (∀ g : K × K × K, (∀ t ∈ [((1, 0, 0) : Coord), (-1, 0, 0), (0, 1, 0), (0, -1, 0), (0, 0, 1), (0, 0, -1)],
      data (nbr s v t) = data v + ((t.1 : K) * g.1 + (t.2.1 : K) * g.2.1 + (t.2.2 : K) * g.2.2)) →
      gradientSimple s data M v = (M.1.1 * g.1 + M.1.2.1 * g.2.1 + M.1.2.2 * g.2.2,
        M.2.1.1 * g.1 + M.2.1.2.1 * g.2.1 + M.2.1.2.2 * g.2.2,
        M.2.2.1 * g.1 + M.2.2.2.1 * g.2.1 + M.2.2.2.2 * g.2.2)) ∧
    ∀ c, gradientSimple s (fun u => data u + c) M v = gradientSimple s data M v := by
  refine ⟨fun h => ?_, fun g h => ?_, fun c => ?_⟩
  · have e : ∀ c up down : K, up ≤ c → down ≤ c → axisGrad c up down = 0 := fun c up down h1 h2 => by
      simp [axisGrad, h1, h2]
    unfold gradientSimple
    rw [e _ _ _ (h _ (by simp)) (h _ (by simp)), e _ _ _ (h _ (by simp)) (h _ (by simp)),
      e _ _ _ (h _ (by simp)) (h _ (by simp))]
    simp [matVec]
  · have e : ∀ c x : K, axisGrad c (c + x) (c + -x) = x := fun c x => by
      unfold axisGrad
      split_ifs with hh
      · have h1 := hh.1
        have h2 := hh.2
        have : x = 0 := le_antisymm (by linarith) (by linarith)
        exact this.symm
      · field_simp; ring
    unfold gradientSimple
    have a1 := h (1, 0, 0) (by simp)
    have a2 := h (-1, 0, 0) (by simp)
    have b1 := h (0, 1, 0) (by simp)
    have b2 := h (0, -1, 0) (by simp)
    have c1 := h (0, 0, 1) (by simp)
    have c2 := h (0, 0, -1) (by simp)
    simp only [Int.cast_one, Int.cast_zero, Int.cast_neg, one_mul, zero_mul, neg_mul, add_zero,
      zero_add] at a1 a2 b1 b2 c1 c2
    rw [a1, a2, b1, b2, c1, c2, e, e, e]
    rfl
  · have e : ∀ a up down : K, axisGrad (a + c) (up + c) (down + c) = axisGrad a up down :=
      fun a up down => by simp [axisGrad]
    unfold gradientSimple
    rw [e, e, e]

/-- **C62** The overdetermined gradient: the derivative along each stored direction is zero where both
neighbours are not higher, and is the central difference otherwise; hence the gradient vanishes at a voxel
not below any neighbour in the list, and it does not change when a constant is added. -/
theorem C62_overdetermined (s : Shape) (data : ℕ → K) (half : List (Coord × K))
    (M : (K × K × K) × (K × K × K) × (K × K × K)) (inv : List K × List K × List K) (v : ℕ) :
    ((∀ td ∈ half, data (nbr s v td.1) ≤ data v ∧
        data (nbr s v (-td.1.1, -td.1.2.1, -td.1.2.2)) ≤ data v) →
      gradientOver s data half M inv v = (0, 0, 0)) ∧
    (∀ c, gradientOver s (fun u => data u + c) half M inv v = gradientOver s data half M inv v) ∧
    ∀ (g : K × K × K), (∀ td ∈ half, 0 < td.2 ∧
      data (nbr s v td.1) = data v +
        ((td.1.1 : K) * g.1 + (td.1.2.1 : K) * g.2.1 + (td.1.2.2 : K) * g.2.2) ∧
      data (nbr s v (-td.1.1, -td.1.2.1, -td.1.2.2)) = data v -
        ((td.1.1 : K) * g.1 + (td.1.2.1 : K) * g.2.1 + (td.1.2.2 : K) * g.2.2)) →
      overDiffs s data half v = half.map fun td =>
        ((td.1.1 : K) * g.1 + (td.1.2.1 : K) * g.2.1 + (td.1.2.2 : K) * g.2.2) / td.2 := by
  refine ⟨fun h => ?_, fun c => ?_, fun g h => ?_⟩
  · have e : overDiffs s data half v = half.map fun _ => (0 : K) :=
      List.map_congr_left fun td htd => by
        obtain ⟨h1, h2⟩ := h td htd
        simp only [h1, h2, and_self, if_true]
    have d : ∀ row : List K, dotL row (half.map fun _ => (0 : K)) = 0 := by
      clear e h
      induction half with
      | nil => intro row; simp [dotL]
      | cons x xs ih =>
        intro row
        cases row with
        | nil => simp [dotL]
        | cons r rs =>
          have := ih rs
          simp only [dotL] at this ⊢
          rw [List.map_cons, List.zipWith_cons_cons, List.sum_cons, this]
          simp
    unfold gradientOver
    simp only [e, d]
    simp [matVec]
  · have e : overDiffs s (fun u => data u + c) half v = overDiffs s data half v := by
      unfold overDiffs
      simp
    unfold gradientOver
    rw [e]
  · unfold overDiffs
    refine List.map_congr_left fun td htd => ?_
    obtain ⟨h1, h2, h3⟩ := h td htd
    simp only [h2, h3]
    split_ifs with hh
    · have a := hh.1
      have b := hh.2
      have : ((td.1.1 : K) * g.1 + (td.1.2.1 : K) * g.2.1 + (td.1.2.2 : K) * g.2.2) = 0 :=
        le_antisymm (by linarith) (by linarith)
      rw [this]; simp
    · have := h1.ne'
      field_simp
      ring

/-- Non-vacuity of C62: on a 3 x 3 x 3 grid with data growing by 2 along the first axis around voxel 13, the
gradient is `(2, 0, 0)`; at a peak it is zero. -/
example : gradientSimple (K := ℚ) ⟨3, 3, 3⟩ (fun v => 2 * (v / 9 : ℕ)) ((1, 0, 0), (0, 1, 0), (0, 0, 1)) 13 =
      (2, 0, 0) ∧
    gradientSimple (K := ℚ) ⟨3, 3, 3⟩ (fun v => if v = 13 then 5 else if v = 22 then 3 else 1)
      ((1, 0, 0), (0, 1, 0), (0, 0, 1)) 13 = (0, 0, 0) := by decide +kernel

end BaderKit
