import Verif.Model.Interp
import Verif.Spec.Interp
import Verif.Props.Merge
import Verif.Lemmas.Voxels
import Mathlib.Algebra.BigOperators.Ring.Finset
import Mathlib.Tactic.FieldSimp
import Mathlib.Tactic.Positivity
import Mathlib.Tactic.IntervalCases
import Mathlib.Tactic.LinearCombination
import Mathlib.LinearAlgebra.FiniteDimensional.Basic
import Mathlib.Analysis.Real.Sqrt
import Mathlib.Data.Rat.Floor
/-! # Properties C33, C34, C35, C63 and C64: interpolation -/
set_option linter.unusedSectionVars false
namespace BaderKit
variable {K : Type*} [Field K] [LinearOrder K] [IsStrictOrderedRing K]

/-! ## Spline -/

theorem splineWeight_eq (d : K) (i : ℕ) : splineWeight d i = bspline ((i : K) - 1 - d) := by
  unfold splineWeight bspline
  simp only
  set x := |(i : K) - 1 - d| with hx
  have hsq : ((i : K) - 1 - d) ^ 2 = x ^ 2 := by rw [hx, sq_abs]
  rw [hsq]
  by_cases h1 : x < 1
  · rw [if_pos h1, if_pos h1.le]; ring
  · rw [if_neg h1]
    rcases (not_lt.mp h1).eq_or_lt with h | h
    · rw [if_pos (by linarith), if_pos (by linarith)]; rw [← h]; norm_num
    · rw [if_neg (not_le.mpr h)]
      by_cases h2 : x < 2
      · rw [if_pos h2, if_pos h2.le]; ring
      · rw [if_neg h2]
        rcases (not_lt.mp h2).eq_or_lt with h' | h'
        · rw [if_pos (by linarith)]; rw [← h']; norm_num
        · rw [if_neg (not_le.mpr h')]

theorem splineWeight_vals (d : K) (h0 : 0 ≤ d) (h1 : d < 1) :
    splineWeight d 0 = (1 - d) ^ 3 / 6 ∧ splineWeight d 1 = (4 - 6 * d ^ 2 + 3 * d ^ 3) / 6 ∧
    splineWeight d 2 = (4 - 6 * (1 - d) ^ 2 + 3 * (1 - d) ^ 3) / 6 ∧ splineWeight d 3 = d ^ 3 / 6 := by
  refine ⟨?_, ?_, ?_, ?_⟩
  · have e : |((0 : ℕ) : K) - 1 - d| = 1 + d := by
      rw [abs_of_nonpos (by push_cast; linarith)]; push_cast; ring
    unfold splineWeight; simp only
    rw [e, if_neg (by linarith), if_pos (by linarith)]; ring
  · have e : |((1 : ℕ) : K) - 1 - d| = d := by
      rw [abs_of_nonpos (by push_cast; linarith)]; push_cast; ring
    unfold splineWeight; simp only
    rw [e, if_pos h1]; ring
  · have e : |((2 : ℕ) : K) - 1 - d| = 1 - d := by
      rw [abs_of_nonneg (by push_cast; linarith)]; push_cast; ring
    unfold splineWeight; simp only
    rw [e]
    rcases h0.eq_or_lt with h | h
    · rw [if_neg (by linarith), if_pos (by linarith), ← h]; norm_num
    · rw [if_pos (by linarith)]; ring
  · have e : |((3 : ℕ) : K) - 1 - d| = 2 - d := by
      rw [abs_of_nonneg (by push_cast; linarith)]; push_cast; ring
    unfold splineWeight; simp only
    rw [e, if_neg (by linarith)]
    rcases h0.eq_or_lt with h | h
    · rw [if_neg (by linarith), ← h]; norm_num
    · rw [if_pos (by linarith)]; ring

/-- **C33** The four weights for an offset in `[0, 1)` are the values of the cubic B-spline at the distances
to the four nearest integer points, they are not negative, add up to one, and their first moment is the
offset (so linear coefficients are reproduced). -/
theorem C33_weights (d : K) (h0 : 0 ≤ d) (h1 : d < 1) :
    (∀ i : ℕ, splineWeight d i = bspline ((i : K) - 1 - d)) ∧ (∀ i < 4, 0 ≤ splineWeight d i) ∧
    ∑ i ∈ Finset.range 4, splineWeight d i = 1 ∧
    ∑ i ∈ Finset.range 4, splineWeight d i * ((i : K) - 1) = d := by
  obtain ⟨e0, e1, e2, e3⟩ := splineWeight_vals d h0 h1
  refine ⟨splineWeight_eq d, fun i hi => ?_, ?_, ?_⟩
  · have p1 : 0 ≤ 1 - d := by linarith
    interval_cases i
    · rw [e0]; positivity
    · rw [e1]
      have : 0 ≤ 4 - 6 * d ^ 2 + 3 * d ^ 3 := by nlinarith [mul_nonneg h0 h0, mul_nonneg (mul_nonneg h0 h0) h0]
      positivity
    · rw [e2]
      have : 0 ≤ 4 - 6 * (1 - d) ^ 2 + 3 * (1 - d) ^ 3 := by
        nlinarith [mul_nonneg p1 p1, mul_nonneg (mul_nonneg p1 p1) p1]
      positivity
    · rw [e3]; positivity
  · simp only [Finset.sum_range_succ, Finset.sum_range_zero, e0, e1, e2, e3]; ring
  · simp only [Finset.sum_range_succ, Finset.sum_range_zero, e0, e1, e2, e3]; push_cast; ring

variable [FloorRing K]

/-- The voxel coordinates that a call refers to. -/
theorem toVox_add (a : Arr3 K) (isFrac : Bool) (p t : V3 K) :
    toVox a isFrac (addV p t) = addV (toVox a isFrac p) (toVox a isFrac t) := by
  unfold toVox addV
  cases isFrac <;> simp only [if_true, Bool.false_eq_true, if_false]
  ext <;> simp only <;> ring

/-- The spline value as a sum over the 4 x 4 x 4 block, at a voxel coordinate. -/
theorem interpSpline_eq (a : Arr3 K) (isFrac : Bool) (p : V3 K) :
    let q := toVox a isFrac p
    interpSpline a isFrac p = ∑ j ∈ Finset.range 4, ∑ k ∈ Finset.range 4, ∑ i ∈ Finset.range 4,
      splineWeight (q.1 - ⌊q.1⌋) i * splineWeight (q.2.1 - ⌊q.2.1⌋) j * splineWeight (q.2.2 - ⌊q.2.2⌋) k *
        a.periodic (⌊q.1⌋ - 1 + i) (⌊q.2.1⌋ - 1 + j) (⌊q.2.2⌋ - 1 + k) := by
  intro q
  unfold interpSpline Arr3.periodic
  simp only [sum_range_list]
  refine Finset.sum_congr rfl fun j _ => Finset.sum_congr rfl fun k _ => ?_
  rw [Finset.mul_sum]
  exact Finset.sum_congr rfl fun i _ => by ring

/-- **C33** The interpolated value is the tensor-product B-spline sum of the periodic coefficients around the
point; it lies between any bounds of the 64 coefficients used; constant coefficients give the constant. -/
theorem C33_value (a : Arr3 K) (isFrac : Bool) (p : V3 K) :
    let q := toVox a isFrac p
    (interpSpline a isFrac p = ∑ j ∈ Finset.range 4, ∑ k ∈ Finset.range 4, ∑ i ∈ Finset.range 4,
      bspline (((⌊q.1⌋ - 1 + i : ℤ) : K) - q.1) * bspline (((⌊q.2.1⌋ - 1 + j : ℤ) : K) - q.2.1) *
        bspline (((⌊q.2.2⌋ - 1 + k : ℤ) : K) - q.2.2) *
        a.periodic (⌊q.1⌋ - 1 + i) (⌊q.2.1⌋ - 1 + j) (⌊q.2.2⌋ - 1 + k)) ∧
    ∀ lo hi : K, (∀ i j k : ℤ, |(i : K) - q.1| ≤ 2 → |(j : K) - q.2.1| ≤ 2 → |(k : K) - q.2.2| ≤ 2 →
      lo ≤ a.periodic i j k ∧ a.periodic i j k ≤ hi) →
      lo ≤ interpSpline a isFrac p ∧ interpSpline a isFrac p ≤ hi := by
  intro q
  have hd : ∀ x : K, 0 ≤ x - ⌊x⌋ ∧ x - ⌊x⌋ < 1 := fun x =>
    ⟨by linarith [Int.floor_le x], by linarith [Int.lt_floor_add_one x]⟩
  constructor
  · rw [interpSpline_eq]
    refine Finset.sum_congr rfl fun j _ => Finset.sum_congr rfl fun k _ => Finset.sum_congr rfl fun i _ => ?_
    rw [splineWeight_eq, splineWeight_eq, splineWeight_eq]
    have e : ∀ (x : K) (m : ℕ), (m : K) - 1 - (x - ⌊x⌋) = ((⌊x⌋ - 1 + m : ℤ) : K) - x := fun x m => by
      push_cast; ring
    rw [e, e, e]
  · intro lo hi h
    have near : ∀ (x : K) (i : ℕ), i < 4 → |((⌊x⌋ - 1 + i : ℤ) : K) - x| ≤ 2 := by
      intro x i hi
      have h1 := Int.floor_le x
      have h2 := Int.lt_floor_add_one x
      rw [abs_le]
      interval_cases i <;> push_cast <;> constructor <;> linarith
    have w : ∀ x : K, (∀ i < 4, 0 ≤ splineWeight (x - ⌊x⌋) i) ∧
        ∑ i ∈ Finset.range 4, splineWeight (x - ⌊x⌋) i = 1 := fun x =>
      ⟨(C33_weights _ (hd x).1 (hd x).2).2.1, (C33_weights _ (hd x).1 (hd x).2).2.2.1⟩
    have tot : ∀ c : K, ∑ j ∈ Finset.range 4, ∑ k ∈ Finset.range 4, ∑ i ∈ Finset.range 4,
        splineWeight (q.1 - ⌊q.1⌋) i * splineWeight (q.2.1 - ⌊q.2.1⌋) j *
          splineWeight (q.2.2 - ⌊q.2.2⌋) k * c = c := by
      intro c
      have s1 : ∀ j k, ∑ i ∈ Finset.range 4, splineWeight (q.1 - ⌊q.1⌋) i * splineWeight (q.2.1 - ⌊q.2.1⌋) j *
          splineWeight (q.2.2 - ⌊q.2.2⌋) k * c =
          splineWeight (q.2.1 - ⌊q.2.1⌋) j * splineWeight (q.2.2 - ⌊q.2.2⌋) k * c := by
        intro j k
        calc _ = (∑ i ∈ Finset.range 4, splineWeight (q.1 - ⌊q.1⌋) i) * (splineWeight (q.2.1 - ⌊q.2.1⌋) j *
              splineWeight (q.2.2 - ⌊q.2.2⌋) k * c) := by
              rw [Finset.sum_mul]; exact Finset.sum_congr rfl fun i _ => by ring
          _ = _ := by rw [(w q.1).2, one_mul]
      simp only [s1]
      have s2 : ∀ j, ∑ k ∈ Finset.range 4, splineWeight (q.2.1 - ⌊q.2.1⌋) j *
          splineWeight (q.2.2 - ⌊q.2.2⌋) k * c = splineWeight (q.2.1 - ⌊q.2.1⌋) j * c := by
        intro j
        calc _ = (∑ k ∈ Finset.range 4, splineWeight (q.2.2 - ⌊q.2.2⌋) k) *
              (splineWeight (q.2.1 - ⌊q.2.1⌋) j * c) := by
              rw [Finset.sum_mul]; exact Finset.sum_congr rfl fun i _ => by ring
          _ = _ := by rw [(w q.2.2).2, one_mul]
      simp only [s2]
      rw [← Finset.sum_mul, (w q.2.1).2, one_mul]
    rw [interpSpline_eq]
    constructor
    · conv_lhs => rw [← tot lo]
      refine Finset.sum_le_sum fun j hj => Finset.sum_le_sum fun k hk => Finset.sum_le_sum fun i hi' => ?_
      rw [Finset.mem_range] at hj hk hi'
      exact mul_le_mul_of_nonneg_left
        (h _ _ _ (near _ _ hi') (near _ _ hj) (near _ _ hk)).1
        (mul_nonneg (mul_nonneg ((w _).1 i hi') ((w _).1 j hj)) ((w _).1 k hk))
    · conv_rhs => rw [← tot hi]
      refine Finset.sum_le_sum fun j hj => Finset.sum_le_sum fun k hk => Finset.sum_le_sum fun i hi' => ?_
      rw [Finset.mem_range] at hj hk hi'
      exact mul_le_mul_of_nonneg_left
        (h _ _ _ (near _ _ hi') (near _ _ hj) (near _ _ hk)).2
        (mul_nonneg (mul_nonneg ((w _).1 i hi') ((w _).1 j hj)) ((w _).1 k hk))

/-- **C33** If the coefficients solve the spline equations of the data (what `scipy.ndimage.spline_filter`
computes), the interpolated value at every grid point, in any periodic image, is the datum there. -/
theorem C33_interpolates (a data : Arr3 K) (v : ℤ × ℤ × ℤ)
    (hsolve : ∀ i j k : ℤ, data.periodic i j k = ∑ y ∈ Finset.range 3, ∑ z ∈ Finset.range 3,
      ∑ x ∈ Finset.range 3, bspline ((x : K) - 1) * bspline ((y : K) - 1) * bspline ((z : K) - 1) *
        a.periodic (i - 1 + x) (j - 1 + y) (k - 1 + z)) :
    interpSpline a false ((v.1 : K), (v.2.1 : K), (v.2.2 : K)) = data.periodic v.1 v.2.1 v.2.2 := by
  rw [interpSpline_eq, hsolve]
  simp only [toVox, Bool.false_eq_true, if_false, Int.floor_intCast, sub_self]
  have z3 : splineWeight (0 : K) 3 = 0 := by
    rw [(splineWeight_vals (0 : K) le_rfl one_pos).2.2.2]; norm_num
  have e : ∀ n : ℕ, splineWeight (0 : K) n = bspline ((n : K) - 1) := fun n => by
    rw [splineWeight_eq, sub_zero]
  rw [Finset.sum_range_succ _ 3]
  have last : ∑ k ∈ Finset.range 4, ∑ i ∈ Finset.range 4, splineWeight (0 : K) i * splineWeight (0 : K) 3 *
      splineWeight (0 : K) k * a.periodic (v.1 - 1 + i) (v.2.1 - 1 + (3 : ℕ)) (v.2.2 - 1 + k) = 0 :=
    Finset.sum_eq_zero fun k _ => Finset.sum_eq_zero fun i _ => by rw [z3]; ring
  rw [last, add_zero]
  refine Finset.sum_congr rfl fun j _ => ?_
  rw [Finset.sum_range_succ _ 3]
  have last2 : ∑ i ∈ Finset.range 4, splineWeight (0 : K) i * splineWeight (0 : K) j *
      splineWeight (0 : K) 3 * a.periodic (v.1 - 1 + i) (v.2.1 - 1 + j) (v.2.2 - 1 + (3 : ℕ)) = 0 :=
    Finset.sum_eq_zero fun i _ => by rw [z3]; ring
  rw [last2, add_zero]
  refine Finset.sum_congr rfl fun k _ => ?_
  rw [Finset.sum_range_succ _ 3, z3]
  simp only [zero_mul, add_zero]
  exact Finset.sum_congr rfl fun i _ => by rw [e, e, e]

/-- Non-vacuity of C33: in the middle of a cell the weights are 1/48, 23/48, 23/48, 1/48. -/
example : (List.range 4).map (splineWeight (1 / 2 : ℚ)) = [1 / 48, 23 / 48, 23 / 48, 1 / 48] := by
  decide +kernel

/-! ## Periodicity -/

theorem periodic_add (a : Arr3 K) (i j k x y z : ℤ) :
    a.periodic (i + x * a.nx) (j + y * a.ny) (k + z * a.nz) = a.periodic i j k := by
  unfold Arr3.periodic
  rw [Int.add_mul_emod_self_right, Int.add_mul_emod_self_right, Int.add_mul_emod_self_right]

/-- Moving by whole cells: in fractional coordinates by integers, in voxel coordinates by multiples of the
shape. -/
def cellShift (a : Arr3 K) (isFrac : Bool) (t : ℤ × ℤ × ℤ) : V3 K :=
  if isFrac then ((t.1 : K), (t.2.1 : K), (t.2.2 : K))
  else (((t.1 * a.nx : ℤ) : K), ((t.2.1 * a.ny : ℤ) : K), ((t.2.2 * a.nz : ℤ) : K))

theorem toVox_shift (a : Arr3 K) (isFrac : Bool) (p : V3 K) (t : ℤ × ℤ × ℤ) :
    toVox a isFrac (addV p (cellShift a isFrac t)) =
      ((toVox a isFrac p).1 + ((t.1 * a.nx : ℤ) : K), (toVox a isFrac p).2.1 + ((t.2.1 * a.ny : ℤ) : K),
        (toVox a isFrac p).2.2 + ((t.2.2 * a.nz : ℤ) : K)) := by
  rw [toVox_add]
  unfold cellShift toVox addV
  cases isFrac <;> simp only [if_true, Bool.false_eq_true, if_false]
  ext <;> simp only <;> push_cast <;> ring

/-- **C35** Spline interpolation gives the same value at points that differ by a lattice translation. -/
theorem C35_spline (a : Arr3 K) (isFrac : Bool) (p : V3 K) (t : ℤ × ℤ × ℤ) :
    interpSpline a isFrac (addV p (cellShift a isFrac t)) = interpSpline a isFrac p := by
  rw [interpSpline_eq, interpSpline_eq]
  rw [toVox_shift]
  simp only
  refine Finset.sum_congr rfl fun j _ => Finset.sum_congr rfl fun k _ => Finset.sum_congr rfl fun i _ => ?_
  rw [Int.floor_add_intCast, Int.floor_add_intCast, Int.floor_add_intCast]
  have e : ∀ (x : K) (n : ℤ), x + (n : K) - ((⌊x⌋ + n : ℤ) : K) = x - ⌊x⌋ := fun x n => by push_cast; ring
  rw [e, e, e]
  congr 1
  rw [← periodic_add a (⌊(toVox a isFrac p).1⌋ - 1 + i) (⌊(toVox a isFrac p).2.1⌋ - 1 + j)
    (⌊(toVox a isFrac p).2.2⌋ - 1 + k) t.1 t.2.1 t.2.2]
  congr 1 <;> ring

/-- **C35** (partial) Nearest-point interpolation gives the same value at points that differ by a lattice
translation, provided no voxel coordinate is exactly half way between two points, or all axes are even.
Missing: half-way points with an odd axis (`C35_nearest_tie_wrong`). -/
theorem C35_nearest_partial (a : Arr3 K) (isFrac : Bool) (p : V3 K) (t : ℤ × ℤ × ℤ)
    (h : (¬ HalfTie (toVox a isFrac p).1 ∨ a.nx % 2 = 0) ∧ (¬ HalfTie (toVox a isFrac p).2.1 ∨ a.ny % 2 = 0) ∧
      (¬ HalfTie (toVox a isFrac p).2.2 ∨ a.nz % 2 = 0)) :
    interpNearest a isFrac (addV p (cellShift a isFrac t)) = interpNearest a isFrac p := by
  unfold interpNearest
  simp only
  rw [toVox_shift]
  simp only
  have key : ∀ (x : K) (n : ℕ) (m : ℤ), (¬ HalfTie x ∨ n % 2 = 0) →
      roundHE (x + ((m * n : ℤ) : K)) % n = roundHE x % n := by
    intro x n m hh
    have : roundHE (x + ((m * n : ℤ) : K)) = roundHE x + m * n := by
      rcases hh with hh | hh
      · exact roundHE_add_int hh _
      · refine roundHE_add_even _ _ ?_
        have : (n : ℤ) % 2 = 0 := by omega
        rw [Int.mul_emod, this]; simp
    rw [this, Int.add_mul_emod_self_right]
  rw [key _ _ _ h.1, key _ _ _ h.2.1, key _ _ _ h.2.2]

/-- **C35** (negative part) Half way between two points of an axis with three points, the two sides of a
lattice translation are rounded differently: the values at `x` and `x + 1` differ. -/
theorem C35_nearest_tie_wrong :
    ∃ (a : Arr3 ℚ) (p : V3 ℚ), interpNearest a true (addV p (cellShift a true (1, 0, 0))) ≠
      interpNearest a true p :=
  ⟨⟨3, 1, 1, fun i _ _ => i⟩, (1 / 6, 0, 0), by decide +kernel⟩

/-- **C35** Nearest-point interpolation returns the data of a point that is nearest on every axis. -/
theorem C35_nearest_value (a : Arr3 K) (isFrac : Bool) (p : V3 K) :
    ∃ i j k : ℤ, interpNearest a isFrac p = a.periodic i j k ∧
      (∀ m : ℤ, |(toVox a isFrac p).1 - i| ≤ |(toVox a isFrac p).1 - m|) ∧
      (∀ m : ℤ, |(toVox a isFrac p).2.1 - j| ≤ |(toVox a isFrac p).2.1 - m|) ∧
      (∀ m : ℤ, |(toVox a isFrac p).2.2 - k| ≤ |(toVox a isFrac p).2.2 - m|) := by
  have key : ∀ (x : K) (m : ℤ), |x - roundHE x| ≤ |x - m| := by
    intro x m
    by_cases hm : m = roundHE x
    · rw [hm]
    · have h1 := roundHE_near x
      have h2 : (1 : K) ≤ |(roundHE x : K) - m| := by
        have : (1 : ℤ) ≤ |roundHE x - m| := Int.one_le_abs (sub_ne_zero.mpr (Ne.symm hm))
        calc (1 : K) = ((1 : ℤ) : K) := by norm_num
          _ ≤ ((|roundHE x - m| : ℤ) : K) := by exact_mod_cast this
          _ = _ := by push_cast; rfl
      have h3 : |(roundHE x : K) - m| ≤ |x - m| + |x - roundHE x| := by
        calc |(roundHE x : K) - m| = |(x - m) - (x - roundHE x)| := by congr 1; ring
          _ ≤ _ := abs_sub _ _
      linarith
  exact ⟨_, _, _, rfl, key _, key _, key _⟩

/-! ## Trilinear interpolation -/

/-- The window of voxel coordinates for which the accesses are inside the array. -/
def ReadWindow (n : ℕ) (x : K) : Prop := -(2 * (n : K)) ≤ x ∧ x < 2 * n

theorem axis_linear {n : ℕ} (hn : 0 < n) {x : K} (h : ReadWindow n x) :
    ∃ (i0 : ℕ) (m : ℤ), readIdx n ⌊wrapAxisK x n⌋ = some i0 ∧ i0 = (⌊x⌋ % n).toNat ∧
      ⌊wrapAxisK x n⌋ = ⌊x⌋ + m * n ∧ wrapAxisK x n - ⌊wrapAxisK x n⌋ = x - ⌊x⌋ := by
  have hnK : (0 : K) < n := by exact_mod_cast hn
  obtain ⟨h1, h2⟩ := h
  obtain ⟨m, hm, hlo, hhi⟩ : ∃ m : ℤ, wrapAxisK x n = x + ((m * n : ℤ) : K) ∧
      -(n : K) ≤ x + ((m * n : ℤ) : K) ∧ x + ((m * n : ℤ) : K) < n := by
    unfold wrapAxisK
    split_ifs with g1 g2
    · exact ⟨-1, by push_cast; ring, by push_cast; linarith, by push_cast; linarith⟩
    · exact ⟨1, by push_cast; ring, by push_cast; linarith, by push_cast; linarith⟩
    · exact ⟨0, by push_cast; ring, by push_cast; linarith, by push_cast; linarith⟩
  have hf : ⌊wrapAxisK x n⌋ = ⌊x⌋ + m * n := by rw [hm, Int.floor_add_intCast]
  have hr1 : -(n : ℤ) ≤ ⌊x⌋ + m * n := by
    rw [← hf, hm]; exact Int.le_floor.mpr (by push_cast at hlo ⊢; linarith)
  have hr2 : ⌊x⌋ + m * n < n := by
    rw [← hf, hm]; exact Int.floor_lt.mpr (by push_cast at hhi ⊢; linarith)
  have hmod : ∀ r : ℤ, (⌊x⌋ + m * n) + r * n < n → 0 ≤ (⌊x⌋ + m * n) + r * n →
      ((⌊x⌋ + m * n) + r * n) = ⌊x⌋ % n := by
    intro r a b
    rw [← Int.emod_eq_of_lt b a]
    rw [Int.add_mul_emod_self_right, Int.add_mul_emod_self_right]
  refine ⟨(⌊x⌋ % n).toNat, m, ?_, rfl, hf, ?_⟩
  · rw [hf]
    unfold readIdx
    by_cases h0 : 0 ≤ ⌊x⌋ + m * n
    · rw [if_pos ⟨h0, hr2⟩]
      have := hmod 0 (by linarith) (by linarith)
      rw [zero_mul, add_zero] at this
      rw [this]
    · rw [if_neg (fun hh => h0 hh.1), if_pos ⟨hr1, by linarith⟩]
      have := hmod 1 (by linarith) (by linarith)
      rw [one_mul] at this
      rw [this]
  · rw [hf, hm]; push_cast; ring

/-- **C34** For points whose voxel coordinates lie in `[-2n, 2n)` on every axis, the result is the trilinear
interpolation of the periodic data in the cell of the point. -/
theorem C34_value (a : Arr3 K) (ha : a.NonEmpty) (isFrac : Bool) (p : V3 K)
    (h1 : ReadWindow a.nx (toVox a isFrac p).1) (h2 : ReadWindow a.ny (toVox a isFrac p).2.1)
    (h3 : ReadWindow a.nz (toVox a isFrac p).2.2) :
    let q := toVox a isFrac p
    interpLinear a isFrac p = some (trilinear a ⌊q.1⌋ ⌊q.2.1⌋ ⌊q.2.2⌋ (q.1 - ⌊q.1⌋) (q.2.1 - ⌊q.2.1⌋)
      (q.2.2 - ⌊q.2.2⌋)) := by
  intro q
  obtain ⟨i0, mi, ri, ei, fi, di⟩ := axis_linear ha.1 h1
  obtain ⟨j0, mj, rj, ej, fj, dj⟩ := axis_linear ha.2.1 h2
  obtain ⟨k0, mk, rk, ek, fk, dk⟩ := axis_linear ha.2.2 h3
  unfold interpLinear
  simp only [ri, rj, rk, Option.bind_some, Option.map_some, Option.some.injEq]
  rw [di, dj, dk, fi, fj, fk]
  have e : ∀ (r m : ℤ) (n : ℕ), (r + m * n + 1) % n = (r + 1) % n := fun r m n => by
    rw [show r + m * (n : ℤ) + 1 = r + 1 + m * n by ring, Int.add_mul_emod_self_right]
  rw [e, e, e, ei, ej, ek]
  unfold trilinear lerp Arr3.periodic
  ring

theorem lerp_bounds {u v t lo hi : K} (ht0 : 0 ≤ t) (ht1 : t ≤ 1) (hu : lo ≤ u ∧ u ≤ hi)
    (hv : lo ≤ v ∧ v ≤ hi) : lo ≤ lerp u v t ∧ lerp u v t ≤ hi := by
  have e : lerp u v t = (1 - t) * u + t * v := by unfold lerp; ring
  rw [e]
  constructor
  · nlinarith [mul_nonneg (sub_nonneg.mpr ht1) (sub_nonneg.mpr hu.1), mul_nonneg ht0 (sub_nonneg.mpr hv.1)]
  · nlinarith [mul_nonneg (sub_nonneg.mpr ht1) (sub_nonneg.mpr hu.2), mul_nonneg ht0 (sub_nonneg.mpr hv.2)]

/-- **C34** Consequences: at grid points the datum is returned; data that are affine on the eight corners of
the cell are reproduced; the value lies between any bounds of the eight corner values; points that differ by
a lattice translation, both in the window, have the same value. -/
theorem C34_exact (a : Arr3 K) (ha : a.NonEmpty) (isFrac : Bool) (p : V3 K)
    (h1 : ReadWindow a.nx (toVox a isFrac p).1) (h2 : ReadWindow a.ny (toVox a isFrac p).2.1)
    (h3 : ReadWindow a.nz (toVox a isFrac p).2.2) :
    let q := toVox a isFrac p
    (∀ i j k : ℤ, q = ((i : K), (j : K), (k : K)) → interpLinear a isFrac p = some (a.periodic i j k)) ∧
    (∀ c g1 g2 g3 : K, (∀ i j k : ℤ, |(i : K) - q.1| ≤ 1 → |(j : K) - q.2.1| ≤ 1 → |(k : K) - q.2.2| ≤ 1 →
        a.periodic i j k = c + g1 * i + g2 * j + g3 * k) →
      interpLinear a isFrac p = some (c + g1 * q.1 + g2 * q.2.1 + g3 * q.2.2)) ∧
    (∀ lo hi : K, (∀ i j k : ℤ, |(i : K) - q.1| ≤ 1 → |(j : K) - q.2.1| ≤ 1 → |(k : K) - q.2.2| ≤ 1 →
        lo ≤ a.periodic i j k ∧ a.periodic i j k ≤ hi) →
      ∃ v, interpLinear a isFrac p = some v ∧ lo ≤ v ∧ v ≤ hi) ∧
    (∀ t : ℤ × ℤ × ℤ, ReadWindow a.nx (toVox a isFrac (addV p (cellShift a isFrac t))).1 →
      ReadWindow a.ny (toVox a isFrac (addV p (cellShift a isFrac t))).2.1 →
      ReadWindow a.nz (toVox a isFrac (addV p (cellShift a isFrac t))).2.2 →
      interpLinear a isFrac (addV p (cellShift a isFrac t)) = interpLinear a isFrac p) := by
  intro q
  have hv := C34_value a ha isFrac p h1 h2 h3
  simp only at hv
  have fl : ∀ x : K, |(⌊x⌋ : K) - x| ≤ 1 ∧ |((⌊x⌋ + 1 : ℤ) : K) - x| ≤ 1 := fun x => by
    have := Int.floor_le x
    have := Int.lt_floor_add_one x
    constructor <;> rw [abs_le] <;> push_cast <;> constructor <;> linarith
  have fr : ∀ x : K, 0 ≤ x - ⌊x⌋ ∧ x - ⌊x⌋ ≤ 1 := fun x =>
    ⟨by linarith [Int.floor_le x], by linarith [Int.lt_floor_add_one x]⟩
  refine ⟨fun i j k e => ?_, fun c g1 g2 g3 hc => ?_, fun lo hi hb => ?_, fun t t1 t2 t3 => ?_⟩
  · have e' : toVox a isFrac p = ((i : K), (j : K), (k : K)) := e
    rw [hv, e']
    simp only [Int.floor_intCast, sub_self]
    simp [trilinear, lerp]
  · rw [hv]
    unfold trilinear lerp
    have A := fl q.1
    have B := fl q.2.1
    have C := fl q.2.2
    rw [hc _ _ _ A.1 B.1 C.1, hc _ _ _ A.2 B.1 C.1, hc _ _ _ A.1 B.2 C.1, hc _ _ _ A.2 B.2 C.1,
      hc _ _ _ A.1 B.1 C.2, hc _ _ _ A.2 B.1 C.2, hc _ _ _ A.1 B.2 C.2, hc _ _ _ A.2 B.2 C.2]
    push_cast
    simp only [Option.some.injEq]
    ring
  · refine ⟨_, hv, ?_⟩
    have A := fl q.1
    have B := fl q.2.1
    have C := fl q.2.2
    have a1 := fr q.1
    have b1 := fr q.2.1
    have c1 := fr q.2.2
    unfold trilinear
    exact lerp_bounds c1.1 c1.2
      (lerp_bounds b1.1 b1.2
        (lerp_bounds a1.1 a1.2 (hb _ _ _ A.1 B.1 C.1) (hb _ _ _ A.2 B.1 C.1))
        (lerp_bounds a1.1 a1.2 (hb _ _ _ A.1 B.2 C.1) (hb _ _ _ A.2 B.2 C.1)))
      (lerp_bounds b1.1 b1.2
        (lerp_bounds a1.1 a1.2 (hb _ _ _ A.1 B.1 C.2) (hb _ _ _ A.2 B.1 C.2))
        (lerp_bounds a1.1 a1.2 (hb _ _ _ A.1 B.2 C.2) (hb _ _ _ A.2 B.2 C.2)))
  · rw [C34_value a ha isFrac _ t1 t2 t3, hv]
    rw [toVox_shift]
    simp only
    rw [Int.floor_add_intCast, Int.floor_add_intCast, Int.floor_add_intCast]
    have e : ∀ (x : K) (n : ℤ), x + (n : K) - ((⌊x⌋ + n : ℤ) : K) = x - ⌊x⌋ := fun x n => by push_cast; ring
    rw [e, e, e]
    have c : ∀ r m : ℤ, ∀ n : ℕ, r + m * n + 1 = (r + 1) + m * n := fun r m n => by ring
    unfold trilinear
    simp only [c, periodic_add]

/-- **C34** (negative part) Outside the window the array is accessed out of bounds. -/
theorem C34_outside (a : Arr3 K) (p : V3 K) (h : ¬ ReadWindow a.nx p.1) : interpLinear a false p = none := by
  unfold interpLinear
  simp only [toVox, Bool.false_eq_true, if_false]
  have : readIdx a.nx ⌊wrapAxisK p.1 a.nx⌋ = none := by
    unfold ReadWindow at h
    have hn0 : (0 : K) ≤ (a.nx : K) := Nat.cast_nonneg _
    unfold readIdx
    rw [not_and_or, not_le, not_lt] at h
    rcases h with h | h
    · have e : wrapAxisK p.1 a.nx = p.1 + a.nx := by
        unfold wrapAxisK; rw [if_neg (by push Not; linarith), if_pos (by linarith)]
      have f : ⌊wrapAxisK p.1 a.nx⌋ < -(a.nx : ℤ) := by
        rw [e]; exact Int.floor_lt.mpr (by push_cast; linarith)
      rw [if_neg (by omega), if_neg (by omega)]
    · have e : wrapAxisK p.1 a.nx = p.1 - a.nx := by
        unfold wrapAxisK; rw [if_pos (by linarith)]
      have f : (a.nx : ℤ) ≤ ⌊wrapAxisK p.1 a.nx⌋ := by
        rw [e]; exact Int.le_floor.mpr (by push_cast; linarith)
      rw [if_neg (by omega), if_neg (by omega)]
  rw [this]; rfl

/-- Non-vacuity of C34: a point in the middle of a cell that crosses the boundary, given in a neighbouring
image. -/
example : interpLinear (K := ℚ) ⟨2, 1, 2, fun i _ k => 1 + i + 10 * k⟩ true (-1 / 4, 0, 5 / 4) =
    some (13 / 2) := by decide +kernel

/-! ## Line slices -/

theorem linspace_length (x y : K) (n : ℕ) : (linspace x y n).length = n := by simp [linspace]

theorem slicePoints_length (p1 p2 : V3 K) (n : ℕ) : (slicePoints p1 p2 n).length = n := by
  simp [slicePoints, linspace_length]

theorem slicePoints_get (p1 p2 : V3 K) (n t : ℕ) (h : t < (slicePoints p1 p2 n).length) (hn : 2 ≤ n) :
    (slicePoints p1 p2 n)[t] = addV p1 (smulV ((t : K) / ((n : K) - 1)) (subV p2 p1)) := by
  simp only [slicePoints, linspace, List.getElem_zipWith, List.getElem_map, List.getElem_range, addV, smulV,
    subV]
  rw [if_neg (by omega), if_neg (by omega), if_neg (by omega)]
  ext <;> simp only <;> ring

/-- **C64** A slice of the data along a line has the requested number of values, which are those of the
interpolation at equally spaced points from the first to the last point; exchanging the two ends reverses the
values. -/
theorem C64_line (f : V3 K → K) (p1 p2 : V3 K) (n : ℕ) :
    (linearSlice f p1 p2 n).length = n ∧
    (∀ t : ℕ, 2 ≤ n → t < n → (linearSlice f p1 p2 n)[t]? =
      some (f (addV p1 (smulV ((t : K) / ((n : K) - 1)) (subV p2 p1))))) ∧
    (0 < n → (linearSlice f p1 p2 n)[0]? = some (f p1)) ∧
    (2 ≤ n → (linearSlice f p1 p2 n)[n - 1]? = some (f p2)) ∧
    (2 ≤ n → linearSlice f p2 p1 n = (linearSlice f p1 p2 n).reverse) := by
  have hl : ∀ a b : V3 K, (linearSlice f a b n).length = n := fun a b => by
    simp [linearSlice, slicePoints_length]
  have hg : ∀ (a b : V3 K) (t : ℕ), 2 ≤ n → t < n → (linearSlice f a b n)[t]? =
      some (f (addV a (smulV ((t : K) / ((n : K) - 1)) (subV b a)))) := by
    intro a b t hn ht
    have ht' : t < (slicePoints a b n).length := by rw [slicePoints_length]; exact ht
    unfold linearSlice
    rw [List.getElem?_map, List.getElem?_eq_getElem ht', Option.map_some, slicePoints_get a b n t ht' hn]
  have hn1 : 2 ≤ n → (n : K) - 1 ≠ 0 := fun h => by
    have : (2 : K) ≤ n := by exact_mod_cast h
    intro e; linarith
  refine ⟨hl p1 p2, fun t => hg p1 p2 t, fun hn => ?_, fun hn => ?_, fun hn => ?_⟩
  · rcases Nat.lt_or_ge n 2 with h | h
    · have : n = 1 := by omega
      subst this
      rfl
    · rw [hg p1 p2 0 h (by omega)]
      simp [addV, smulV]
  · rw [hg p1 p2 (n - 1) hn (by omega)]
    have : ((n - 1 : ℕ) : K) / ((n : K) - 1) = 1 := by
      rw [Nat.cast_sub (by omega), Nat.cast_one]; exact div_self (hn1 hn)
    rw [this]
    simp [addV, smulV, subV]
  · apply List.ext_getElem?
    intro t
    rcases Nat.lt_or_ge t n with h | h
    · rw [List.getElem?_reverse (by rw [hl]; exact h), hl, hg p2 p1 t hn h, hg p1 p2 _ hn (by omega)]
      have c : ((n - 1 - t : ℕ) : K) = (n : K) - 1 - t := by
        rw [Nat.cast_sub (by omega), Nat.cast_sub (by omega), Nat.cast_one]
      rw [c]
      have := hn1 hn
      congr 2
      simp only [addV, smulV, subV]
      ext <;> simp only <;> field_simp <;> ring
    · rw [List.getElem?_eq_none (by rw [hl]; exact h),
        List.getElem?_eq_none (by rw [List.length_reverse, hl]; exact h)]

/-- Non-vacuity of C64. -/
example : linearSlice (K := ℚ) (fun p => p.1 + 10 * p.2.1) (0, 0, 0) (1, 2, 0) 3 = [0, 21 / 2, 21] := by
  decide +kernel

/-! ## Parabolic refinement -/

theorem le_foldl_max (xs : List K) : ∀ d : K, d ≤ xs.foldl max d ∧ ∀ x ∈ xs, x ≤ xs.foldl max d := by
  induction xs with
  | nil => intro d; simp
  | cons y ys ih =>
    intro d
    obtain ⟨h1, h2⟩ := ih (max d y)
    refine ⟨(le_max_left _ _).trans h1, fun x hx => ?_⟩
    rcases List.mem_cons.mp hx with rfl | hx
    · exact (le_max_right _ _).trans h1
    · exact h2 x hx

theorem norm2_smul (c : K) (x : V3 K) : norm2 (smulV c x) = c ^ 2 * norm2 x := by
  simp only [norm2, smulV]; ring

theorem norm2_nn (x : V3 K) : 0 ≤ norm2 x := by unfold norm2; positivity

/-- **C63** Refining a maximum, for any fit and any solver: the new coordinates lie in the unit cell; the
refined value is not below any of the 27 data values around the nearest grid point; up to a lattice
translation the point moves by a Cartesian vector whose length is at most the clamp `max_step` of the code. -/
theorem C63_refine (root : K → K) (hroot : ∀ x, 0 ≤ x → 0 ≤ root x ∧ root x ^ 2 = x)
    (fit : List K → Quad K) (solve : M3 K → V3 K → Option (V3 K)) (fracOf : V3 K → V3 K) (a : Arr3 K)
    (L : M3 K) (hfrac : ∀ o, vecMat (fracOf o) L = o) (f : V3 K) :
    let r := refineParabolic root fit solve fracOf a L f
    (0 ≤ r.1.1 ∧ r.1.1 < 1) ∧ (0 ≤ r.1.2.1 ∧ r.1.2.1 < 1) ∧ (0 ≤ r.1.2.2 ∧ r.1.2.2 < 1) ∧
    (∀ dx dy dz : ℤ, |dx| ≤ 1 → |dy| ≤ 1 → |dz| ≤ 1 →
      a.periodic (roundHE (f.1 * a.nx) + dx) (roundHE (f.2.1 * a.ny) + dy) (roundHE (f.2.2 * a.nz) + dz)
        ≤ r.2) ∧
    ∃ t1 t2 t3 : ℤ, norm2 (vecMat (r.1.1 - f.1 + t1, r.1.2.1 - f.2.1 + t2, r.1.2.2 - f.2.2 + t3) L) ≤
      maxStep2 a L := by
  intro r
  refine ⟨mod1_range _, mod1_range _, mod1_range _, fun dx dy dz hx hy hz => ?_, ?_⟩
  · have hmem : a.periodic (roundHE (f.1 * a.nx) + dx) (roundHE (f.2.1 * a.ny) + dy)
        (roundHE (f.2.2 * a.nz) + dz) ∈ region27 a f := by
      have m3 : ∀ d : ℤ, |d| ≤ 1 → d ∈ ([-1, 0, 1] : List ℤ) := by
        intro d hd
        rw [abs_le] at hd
        have : d = -1 ∨ d = 0 ∨ d = 1 := by omega
        rcases this with rfl | rfl | rfl <;> simp
      unfold region27 Arr3.periodic
      simp only [List.mem_flatMap, List.mem_map]
      refine ⟨dx, m3 dx hx, dy, m3 dy hy, dz, m3 dz hz, ?_⟩
      simp only [Int.emod_add_emod]
    have hle : listMax ((region27 a f).headD 0) (region27 a f) ≤ r.2 := by
      simp only [r, refineParabolic]
      by_cases h : (fit (region27 a f)).eval (clampOffset root (maxStep2 a L)
          (fitOffset solve (fit (region27 a f)))) < listMax ((region27 a f).headD 0) (region27 a f)
      · rw [if_pos h]
      · rw [if_neg h]; exact not_lt.mp h
    exact ((le_foldl_max _ _).2 _ hmem).trans hle
  · set o := fitOffset solve (fit (region27 a f)) with ho
    set off : V3 K := if (fit (region27 a f)).eval (clampOffset root (maxStep2 a L) o) <
        listMax ((region27 a f).headD 0) (region27 a f) then (0, 0, 0)
      else clampOffset root (maxStep2 a L) o with hoff
    have hr : r.1 = (mod1 (f.1 + (fracOf off).1), mod1 (f.2.1 + (fracOf off).2.1),
        mod1 (f.2.2 + (fracOf off).2.2)) := rfl
    have hm0 : 0 ≤ maxStep2 a L := (norm2_nn _).trans ((le_max_left _ _).trans (le_max_left _ _))
    refine ⟨⌊f.1 + (fracOf off).1⌋, ⌊f.2.1 + (fracOf off).2.1⌋, ⌊f.2.2 + (fracOf off).2.2⌋, ?_⟩
    have e : (r.1.1 - f.1 + ⌊f.1 + (fracOf off).1⌋, r.1.2.1 - f.2.1 + ⌊f.2.1 + (fracOf off).2.1⌋,
        r.1.2.2 - f.2.2 + ⌊f.2.2 + (fracOf off).2.2⌋) = fracOf off := by
      rw [hr]; unfold mod1
      ext <;> simp only <;> ring
    rw [e, hfrac]
    have hn0 := norm2_nn o
    have hclamp : norm2 (clampOffset root (maxStep2 a L) o) ≤ maxStep2 a L := by
      have hR := hroot _ hm0
      have hN := hroot _ hn0
      unfold clampOffset
      split_ifs with h
      · rw [norm2_smul, div_pow, hR.2, hN.2]
        have : norm2 o ≠ 0 := by
          intro h0
          have : root (norm2 o) ^ 2 = 0 := by rw [hN.2, h0]
          have : root (norm2 o) = 0 := by simpa using this
          linarith [hR.1]
        rw [div_mul_cancel₀ _ this]
      · push Not at h
        have := pow_le_pow_left₀ hN.1 h 2
        rwa [hN.2, hR.2] at this
    rw [hoff]
    split_ifs
    · simpa [norm2] using hm0
    · exact hclamp

/-- The quadratic part of a fitted polynomial. -/
def Quad.form (c : Quad K) (h : V3 K) : K :=
  c.axx * h.1 ^ 2 + c.ayy * h.2.1 ^ 2 + c.azz * h.2.2 ^ 2 + c.axy * (h.1 * h.2.1) + c.axz * (h.1 * h.2.2) + c.ayz * (h.2.1 * h.2.2)

/-- The vertex of the polynomial: moving away from it changes the polynomial only by its quadratic part. -/
def Quad.IsVertex (c : Quad K) (o : V3 K) : Prop := ∀ h : V3 K, c.eval (o.1 + h.1, o.2.1 + h.2.1, o.2.2 + h.2.2) = c.eval o + c.form h

theorem quadSystem_vertex (c : Quad K) (x : V3 K) (e : mulVecM (quadSystem c).1 x = smulV (-1) (quadSystem c).2) : c.IsVertex x := by
  intro h
  have e' : 2 * c.axx * x.1 + c.axy * x.2.1 + c.axz * x.2.2 = -c.lin.1 ∧ c.axy * x.1 + 2 * c.ayy * x.2.1 + c.ayz * x.2.2 = -c.lin.2.1 ∧
      c.axz * x.1 + c.ayz * x.2.1 + 2 * c.azz * x.2.2 = -c.lin.2.2 := by
    unfold quadSystem mulVecM at e
    split_ifs at e <;> simp only [smulV, dotV, Prod.mk.injEq] at e <;> obtain ⟨e1, e2, e3⟩ := e <;>
      refine ⟨by linarith, by linarith, by linarith⟩
  obtain ⟨e1, e2, e3⟩ := e'
  unfold Quad.eval Quad.form
  simp only
  linear_combination h.1 * e1 + h.2.1 * e2 + h.2.2 * e3

theorem quadSystem_kernel (c : Quad K) (y : V3 K) (e : mulVecM (quadSystem c).1 y = (0, 0, 0)) : c.form y = 0 := by
  have e' : 2 * c.axx * y.1 + c.axy * y.2.1 + c.axz * y.2.2 = 0 ∧ c.axy * y.1 + 2 * c.ayy * y.2.1 + c.ayz * y.2.2 = 0 ∧
      c.axz * y.1 + c.ayz * y.2.1 + 2 * c.azz * y.2.2 = 0 := by
    unfold quadSystem mulVecM at e
    split_ifs at e <;> simp only [smulV, dotV, Prod.mk.injEq] at e <;> obtain ⟨e1, e2, e3⟩ := e <;>
      refine ⟨by linarith, by linarith, by linarith⟩
  obtain ⟨e1, e2, e3⟩ := e'
  have h2 : 2 * c.form y = 0 := by
    unfold Quad.form
    linear_combination y.1 * e1 + y.2.1 * e2 + y.2.2 * e3
  exact (mul_eq_zero.1 h2).resolve_left two_ne_zero

/-- **C63** The refined maximum of a parabola: if the polynomial fitted to the region falls off in every direction, the solver raises only for
singular matrices, and the vertex is within the clamp, the reported value is at least every value of the polynomial; and if no point of the region
lies above the vertex, the reported point and value are those of the vertex. -/
theorem C63_vertex (root : K → K) (hroot : ∀ x, 0 ≤ x → 0 ≤ root x ∧ root x ^ 2 = x) (fit : List K → Quad K)
    (solve : M3 K → V3 K → Option (V3 K)) (hs : ∀ M b x, solve M b = some x → mulVecM M x = b)
    (hn : ∀ M b, solve M b = none → ∃ y : V3 K, y ≠ (0, 0, 0) ∧ mulVecM M y = (0, 0, 0))
    (fracOf : V3 K → V3 K) (a : Arr3 K) (L : M3 K) (f : V3 K)
    (hneg : ∀ h : V3 K, h ≠ (0, 0, 0) → (fit (region27 a f)).form h < 0) (o : V3 K) (ho : (fit (region27 a f)).IsVertex o)
    (hin : norm2 o ≤ maxStep2 a L) :
    (∀ o', (fit (region27 a f)).eval o' ≤ (refineParabolic root fit solve fracOf a L f).2) ∧
    ((∀ x ∈ region27 a f, x ≤ (fit (region27 a f)).eval o) → refineParabolic root fit solve fracOf a L f =
      ((mod1 (f.1 + (fracOf o).1), mod1 (f.2.1 + (fracOf o).2.1), mod1 (f.2.2 + (fracOf o).2.2)), (fit (region27 a f)).eval o)) := by
  obtain ⟨c, hc⟩ : ∃ c, c = fit (region27 a f) := ⟨_, rfl⟩
  rw [← hc] at hneg ho ⊢
  have hfit : fitOffset solve c = o := by
    unfold fitOffset
    simp only
    rcases hx : solve (quadSystem c).1 (smulV (-1) (quadSystem c).2) with _ | x
    · obtain ⟨y, hy, hk⟩ := hn _ _ hx
      exact absurd (quadSystem_kernel c y hk) (hneg y hy).ne
    · rw [Option.getD_some]
      have hv := quadSystem_vertex c x (hs _ _ _ hx)
      by_contra hne
      have h1 := hv (o.1 - x.1, o.2.1 - x.2.1, o.2.2 - x.2.2)
      have h2 := ho (x.1 - o.1, x.2.1 - o.2.1, x.2.2 - o.2.2)
      simp only [add_sub_cancel] at h1 h2
      have hf : c.form (x.1 - o.1, x.2.1 - o.2.1, x.2.2 - o.2.2) = c.form (o.1 - x.1, o.2.1 - x.2.1, o.2.2 - x.2.2) := by
        unfold Quad.form; ring
      have hlt := hneg (o.1 - x.1, o.2.1 - x.2.1, o.2.2 - x.2.2) (by
        intro h0
        simp only [Prod.mk.injEq, sub_eq_zero] at h0
        exact hne (by ext <;> simp [h0.1, h0.2.1, h0.2.2]))
      rw [hf] at h2
      linarith
  have hm0 : 0 ≤ maxStep2 a L := (norm2_nn _).trans hin
  have hcl : clampOffset root (maxStep2 a L) o = o := by
    unfold clampOffset
    rw [if_neg]
    push Not
    exact abs_le_of_sq_le_sq' (by rw [(hroot _ (norm2_nn o)).2, (hroot _ hm0).2]; exact hin) (hroot _ hm0).1 |>.2
  have htop : ∀ o', c.eval o' ≤ c.eval o := by
    intro o'
    have h := ho (o'.1 - o.1, o'.2.1 - o.2.1, o'.2.2 - o.2.2)
    simp only [add_sub_cancel] at h
    have hle : c.form (o'.1 - o.1, o'.2.1 - o.2.1, o'.2.2 - o.2.2) ≤ 0 := by
      by_cases h0 : (o'.1 - o.1, o'.2.1 - o.2.1, o'.2.2 - o.2.2) = ((0, 0, 0) : V3 K)
      · rw [h0]; unfold Quad.form; simp
      · exact (hneg _ h0).le
    have : c.eval o' = c.eval (o'.1, o'.2.1, o'.2.2) := rfl
    rw [this, h]
    linarith
  unfold refineParabolic
  simp only [← hc, hfit, hcl]
  constructor
  · intro o'
    by_cases h : c.eval o < listMax ((region27 a f).headD 0) (region27 a f)
    · rw [if_pos h]; exact (htop o').trans h.le
    · rw [if_neg h]; exact htop o'
  · intro hreg
    have hmax : ¬ c.eval o < listMax ((region27 a f).headD 0) (region27 a f) := by
      rw [not_lt]
      unfold listMax
      have hh : (region27 a f).headD 0 ∈ region27 a f := by
        unfold region27; simp
      have key : ∀ (l : List K) (d : K), d ≤ c.eval o → (∀ x ∈ l, x ≤ c.eval o) → l.foldl max d ≤ c.eval o := by
        intro l
        induction l with
        | nil => intro d hd _; exact hd
        | cons x l ih => intro d hd hl; exact ih _ (max_le hd (hl x (by simp))) fun y hy => hl y (by simp [hy])
      exact key _ _ (hreg _ hh) hreg
    rw [if_neg hmax, if_neg hmax]

open Classical in
/-- A solver that raises only for singular matrices exists, and a parabola with its vertex a quarter of a cell away meets the hypotheses. -/
example : ∃ (solve : M3 ℝ → V3 ℝ → Option (V3 ℝ)) (c : Quad ℝ) (a : Arr3 ℝ) (L : M3 ℝ),
    (∀ M b x, solve M b = some x → mulVecM M x = b) ∧
    (∀ M b, solve M b = none → ∃ y : V3 ℝ, y ≠ (0, 0, 0) ∧ mulVecM M y = (0, 0, 0)) ∧
    (∀ h : V3 ℝ, h ≠ (0, 0, 0) → c.form h < 0) ∧ c.IsVertex (1 / 4, 0, 0) ∧ norm2 ((1 / 4, 0, 0) : V3 ℝ) ≤ maxStep2 a L ∧
    ∀ x ∈ region27 a (0, 0, 0), x ≤ c.eval (1 / 4, 0, 0) := by
  refine ⟨fun M b => if h : ∃ x, mulVecM M x = b then some h.choose else none, ⟨1, (1 / 2, 0, 0), -1, -1, -1, 0, 0, 0⟩, ⟨1, 1, 1, fun _ _ _ => 1⟩,
    ((1, 0, 0), (0, 1, 0), (0, 0, 1)), ?_, ?_, ?_, ?_, ?_, ?_⟩
  · intro M b x h
    by_cases hx : ∃ x, mulVecM M x = b
    · simp only [dif_pos hx, Option.some.injEq] at h
      rw [← h]; exact hx.choose_spec
    · simp only [dif_neg hx] at h; cases h
  · intro M b h
    by_cases hx : ∃ x, mulVecM M x = b
    · simp only [dif_pos hx] at h; cases h
    · by_contra hk
      push Not at hk
      let T : V3 ℝ →ₗ[ℝ] V3 ℝ := ⟨⟨mulVecM M, by intro x y; unfold mulVecM dotV; ext <;> simp <;> ring⟩,
        by intro r x; unfold mulVecM dotV; ext <;> simp <;> ring⟩
      have hinj : Function.Injective T := (injective_iff_map_eq_zero T).2 fun y hy => by
        by_contra hne
        exact hk y hne hy
      obtain ⟨x, hx'⟩ := LinearMap.injective_iff_surjective.1 hinj b
      exact hx ⟨x, hx'⟩
  · rintro ⟨x, y, z⟩ h
    unfold Quad.form
    have : 0 < x ^ 2 + y ^ 2 + z ^ 2 := by
      by_contra hle
      push Not at hle
      have hx : x = 0 := by nlinarith [sq_nonneg x, sq_nonneg y, sq_nonneg z]
      have hy : y = 0 := by nlinarith [sq_nonneg x, sq_nonneg y, sq_nonneg z]
      have hz : z = 0 := by nlinarith [sq_nonneg x, sq_nonneg y, sq_nonneg z]
      exact h (by rw [hx, hy, hz])
    simp only
    linarith
  · intro h
    unfold Quad.eval Quad.form
    simp only
    ring
  · unfold norm2 maxStep2 stepCart2
    norm_num [norm2, dotV]
  · intro x hx
    unfold region27 at hx
    simp only [List.mem_flatMap, List.mem_map] at hx
    obtain ⟨_, _, _, _, _, _, rfl⟩ := hx
    unfold Quad.eval
    norm_num

/-- **C63** (negative part) The clamp is meant to be one voxel, but the lattice is divided by the shape per
Cartesian component instead of per lattice vector.  For a lattice whose first two vectors point along `y` and
`x`, with edges 1 and 10 and one and one hundred points along them, all voxel edges are at most 1 long while
the clamp is 10, a whole cell. -/
theorem C63_clamp_wrong :
    ∃ (a : Arr3 ℚ) (L : M3 ℚ), maxStep2 a L = 10 ^ 2 ∧
      norm2 (L.1.1 / a.nx, L.1.2.1 / a.nx, L.1.2.2 / a.nx) = 1 ∧
      norm2 (L.2.1.1 / a.ny, L.2.1.2.1 / a.ny, L.2.1.2.2 / a.ny) = 1 / 100 ∧
      norm2 (L.2.2.1 / a.nz, L.2.2.2.1 / a.nz, L.2.2.2.2 / a.nz) = 1 :=
  ⟨⟨1, 100, 1, fun _ _ _ => 0⟩, ((0, 1, 0), (10, 0, 0), (0, 0, 1)), by decide +kernel⟩

/-- **C63** For lattices along the Cartesian axes the clamp is the longest voxel edge. -/
theorem C63_clamp_axes (a : Arr3 K) (x y z : K) :
    maxStep2 a ((x, 0, 0), (0, y, 0), (0, 0, z)) =
      max (max ((x / a.nx) ^ 2) ((y / a.ny) ^ 2)) ((z / a.nz) ^ 2) := by
  simp [maxStep2, stepCart2, norm2]

/-- **C63** When the solver raises, as it does for a fit without curvature, the maximum stays where it is (in the unit cell). -/
theorem C63_solver_fails (root : K → K) (fit : List K → Quad K) (fracOf : V3 K → V3 K) (a : Arr3 K) (L : M3 K)
    (hfrac : fracOf (0, 0, 0) = (0, 0, 0)) (f : V3 K) :
    (refineParabolic root fit (fun _ _ => none) fracOf a L f).1 = (mod1 f.1, mod1 f.2.1, mod1 f.2.2) := by
  have h : clampOffset root (maxStep2 a L) (fitOffset (fun _ _ => none) (fit (region27 a f))) = (0, 0, 0) := by
    have e : fitOffset (fun _ _ => none) (fit (region27 a f)) = ((0, 0, 0) : V3 K) := rfl
    rw [e]
    unfold clampOffset
    split_ifs
    · simp [smulV]
    · rfl
  simp only [refineParabolic, h, ite_self, hfrac, add_zero]

/-- **C63** The refined list has one coordinate and one value per maximum, in order, and all coordinates are
in the unit cell after rounding. -/
theorem C63_list (refine : V3 K → V3 K × K) (coords : List (V3 K)) :
    (refineMaxima refine coords).1.length = coords.length ∧
    (refineMaxima refine coords).2 = coords.map (fun c => (refine c).2) ∧
    ∀ c ∈ (refineMaxima refine coords).1, (0 ≤ c.1 ∧ c.1 < 1) ∧ (0 ≤ c.2.1 ∧ c.2.1 < 1) ∧
      (0 ≤ c.2.2 ∧ c.2.2 < 1) := by
  refine ⟨by simp [refineMaxima], by simp [refineMaxima, Function.comp_def], fun c hc => ?_⟩
  simp only [refineMaxima, List.mem_map] at hc
  obtain ⟨x, _, rfl⟩ := hc
  exact ⟨mod1_range _, mod1_range _, mod1_range _⟩

/-- Non-vacuity of C63: a fit with its peak half a voxel from the grid point, and a solver for it. -/
example : refineParabolic (K := ℚ) (fun x => x) (fun _ => ⟨3, (1, 0, 0), -1, -1, -1, 0, 0, 0⟩)
    (fun M b => some (b.1 / M.1.1, b.2.1 / M.2.1.2.1, b.2.2 / M.2.2.2.2))
    (fun o => (o.1 / 4, o.2.1 / 4, o.2.2 / 4)) ⟨4, 4, 4, fun i j k => if i + j + k = 0 then 3 else 0⟩
    ((4, 0, 0), (0, 4, 0), (0, 0, 4)) (0, 0, 0) = ((1 / 8, 0, 0), 13 / 4) := by decide +kernel

end BaderKit
