import Verif.Model.Transforms
import Verif.Spec.Assign
import Verif.Props.CubeFraction
import Mathlib.Data.Nat.Digits.Lemmas
import Mathlib.Data.Rat.Floor
import Mathlib.Analysis.Real.Sqrt
import Mathlib.Tactic.NormNum
import Mathlib.Tactic.Positivity
import Mathlib.Tactic.FieldSimp
import Mathlib.Tactic.LinearCombination
/-!
# C48, C52, C54, C68, C69
-/
namespace BaderKit

theorem mem_symRange (m x : ℤ) : x ∈ symRange m ↔ -m ≤ x ∧ x ≤ m := by
  unfold symRange
  rw [List.mem_map]
  constructor
  · rintro ⟨i, hi, rfl⟩
    rw [List.mem_range] at hi
    omega
  · intro h
    exact ⟨(x + m).toNat, by rw [List.mem_range]; omega, by omega⟩

theorem symRange_nodup (m : ℤ) : (symRange m).Nodup := by
  unfold symRange
  refine List.Nodup.map ?_ List.nodup_range
  intro a b h
  simp only at h
  omega

theorem mem_box3 (A B C : List ℤ) (t : Coord) :
    t ∈ (A.flatMap fun i => B.flatMap fun j => C.map fun k => ((i, j, k) : Coord)) ↔
    t.1 ∈ A ∧ t.2.1 ∈ B ∧ t.2.2 ∈ C := by
  obtain ⟨a, b, c⟩ := t
  simp only [List.mem_flatMap, List.mem_map, Prod.mk.injEq]
  constructor
  · rintro ⟨i, hi, j, hj, k, hk, rfl, rfl, rfl⟩
    exact ⟨hi, hj, hk⟩
  · rintro ⟨h1, h2, h3⟩
    exact ⟨a, h1, b, h2, c, h3, rfl, rfl, rfl⟩

theorem nodup_box3 (A B C : List ℤ) (hA : A.Nodup) (hB : B.Nodup) (hC : C.Nodup) :
    (A.flatMap fun i => B.flatMap fun j => C.map fun k => ((i, j, k) : Coord)).Nodup := by
  rw [List.nodup_flatMap]
  refine ⟨fun i _ => ?_, ?_⟩
  · rw [List.nodup_flatMap]
    refine ⟨fun j _ => hC.map fun a b h => by simpa using h, ?_⟩
    refine hB.imp ?_
    intro a b hab
    rw [Function.onFun, List.disjoint_left]
    intro x hx hy
    simp only [List.mem_map] at hx hy
    obtain ⟨k, _, rfl⟩ := hx
    obtain ⟨k', _, h⟩ := hy
    simp only [Prod.mk.injEq] at h
    exact hab h.2.1.symm
  · refine hA.imp ?_
    intro a b hab
    rw [Function.onFun, List.disjoint_left]
    intro x hx hy
    simp only [List.mem_flatMap, List.mem_map] at hx hy
    obtain ⟨_, _, k, _, rfl⟩ := hx
    obtain ⟨_, _, k', _, h⟩ := hy
    simp only [Prod.mk.injEq] at h
    exact hab h.1.symm

/-! ### C52 -/
section field
variable {K : Type*} [Field K] [LinearOrder K] [IsStrictOrderedRing K] [FloorRing K]

/-- `root` is the square root. -/
def IsRoot (root : K → K) : Prop := ∀ x, 0 ≤ x → 0 ≤ root x ∧ root x * root x = x

/-- The Cartesian vector of a transformation of grid indices. -/
def cartOf (s : Shape) (L : M3 K) (t : Coord) : V3 K :=
  vecMat ((t.1 : K) / (s.nx : K), (t.2.1 : K) / (s.ny : K), (t.2.2 : K) / (s.nz : K)) L

omit [LinearOrder K] [IsStrictOrderedRing K] [FloorRing K] in
theorem gridMat_cart (s : Shape) (L : M3 K) (t : Coord) :
    vecMat ((t.1 : K), (t.2.1 : K), (t.2.2 : K)) (gridMat s L) = cartOf s L t := by
  unfold vecMat gridMat cartOf vecMat
  ext <;> simp <;> ring

/-- What the sort may be: any reordering that is ascending in the distance (`np.argsort` is not stable). -/
def SortsByDist (sort : List (Coord × K) → List (Coord × K)) : Prop :=
  ∀ l, (sort l).Perm l ∧ (sort l).Pairwise fun a b => a.2 ≤ b.2

theorem radius_mem (root : K → K) (sort : List (Coord × K) → List (Coord × K)) (hs : SortsByDist sort) (r : K)
    (s : Shape) (L : M3 K) (t : Coord) (d : K) :
    (t, d) ∈ radiusTransforms root sort r s L ↔ d = roundDec 12 (root (norm2 (cartOf s L t))) ∧ d ≤ r ∧
      |t.1| ≤ nmaxAxis root r L.1 s.nx ∧ |t.2.1| ≤ nmaxAxis root r L.2.1 s.ny ∧
      |t.2.2| ≤ nmaxAxis root r L.2.2 s.nz := by
  unfold radiusTransforms
  simp only
  rw [(hs _).1.mem_iff, List.mem_map]
  constructor
  · rintro ⟨t', ht, h⟩
    rw [Prod.mk.injEq] at h
    obtain ⟨rfl, rfl⟩ := h
    rw [List.mem_filter, mem_box3, mem_symRange, mem_symRange, mem_symRange] at ht
    simp only [abs_le]
    refine ⟨by unfold transDist; rw [gridMat_cart], of_decide_eq_true ht.2, ht.1.1, ht.1.2.1, ht.1.2.2⟩
  · rintro ⟨h1, h2, h3, h4, h5⟩
    simp only [abs_le] at h3 h4 h5
    refine ⟨t, ?_, ?_⟩
    · rw [List.mem_filter, mem_box3, mem_symRange, mem_symRange, mem_symRange]
      refine ⟨⟨h3, h4, h5⟩, ?_⟩
      rw [decide_eq_true_eq]
      unfold transDist
      rw [gridMat_cart, ← h1]
      exact h2
    · rw [Prod.mk.injEq]
      refine ⟨rfl, ?_⟩
      unfold transDist
      rw [gridMat_cart, ← h1]

/-- C52: everything returned has its distance, rounded to 12 decimals, next to it, the distance is at most the radius,
the list ascends, no transformation occurs twice, and with every transformation its opposite is there. -/
theorem C52_sound (root : K → K) (sort : List (Coord × K) → List (Coord × K)) (hs : SortsByDist sort) (r : K)
    (s : Shape) (L : M3 K) :
    (∀ t d, (t, d) ∈ radiusTransforms root sort r s L → d = roundDec 12 (root (norm2 (cartOf s L t))) ∧ d ≤ r) ∧
    (radiusTransforms root sort r s L).Pairwise (fun a b => a.2 ≤ b.2) ∧
    ((radiusTransforms root sort r s L).map fun p => p.1).Nodup ∧
    ∀ t d, (t, d) ∈ radiusTransforms root sort r s L →
      ((-t.1, -t.2.1, -t.2.2), d) ∈ radiusTransforms root sort r s L := by
  refine ⟨?_, ?_, ?_, ?_⟩
  · intro t d h
    rw [radius_mem root sort hs] at h
    exact ⟨h.1, h.2.1⟩
  · exact (hs _).2
  · unfold radiusTransforms
    simp only
    refine (((hs _).1.map fun p => p.1).nodup_iff).mpr ?_
    rw [List.map_map]
    have : ((fun p : Coord × K => p.1) ∘ fun t => (t, transDist root s L t)) = id := rfl
    rw [this, List.map_id]
    exact (nodup_box3 _ _ _ (symRange_nodup _) (symRange_nodup _) (symRange_nodup _)).filter _
  · intro t d h
    rw [radius_mem root sort hs] at h ⊢
    simp only [abs_neg]
    refine ⟨?_, h.2⟩
    rw [h.1]
    congr 2
    unfold cartOf vecMat norm2
    simp only
    push_cast
    ring

theorem axis_bound {root : K → K} (hr : IsRoot root) (r : K) (a : V3 K) (n : ℕ) (hn : 0 < n) (t : ℤ)
    (rest : K) (hrest : 0 ≤ rest) (ha : 0 < norm2 a)
    (h : root (((t : K) / n) ^ 2 * norm2 a + rest) ≤ r) : |t| ≤ nmaxAxis root r a n := by
  have hn' : (0 : K) < n := by exact_mod_cast hn
  obtain ⟨h1, h2⟩ := hr (norm2 a) ha.le
  have hq : 0 ≤ ((t : K) / n) ^ 2 * norm2 a + rest := by positivity
  obtain ⟨h3, h4⟩ := hr _ hq
  have hra : 0 < root (norm2 a) := lt_of_le_of_ne h1 (by intro h; rw [← h] at h2; simp at h2; exact ha.ne h2)
  have hr0 : 0 ≤ r := h3.trans h
  have hsq : (|(t : K)| / n * root (norm2 a)) ^ 2 ≤ r ^ 2 := by
    have e : (|(t : K)| / n * root (norm2 a)) ^ 2 = ((t : K) / n) ^ 2 * norm2 a := by
      rw [mul_pow, div_pow, sq_abs, div_pow, pow_two (root (norm2 a)), h2]
    rw [e]
    have : root (((t : K) / n) ^ 2 * norm2 a + rest) ^ 2 ≤ r ^ 2 := pow_le_pow_left₀ h3 h 2
    rw [pow_two, h4] at this
    linarith
  have hle : |(t : K)| / n * root (norm2 a) ≤ r := by
    by_contra hc
    push Not at hc
    have := pow_lt_pow_left₀ hc hr0 (n := 2) (by norm_num)
    linarith
  have hfin : |(t : K)| ≤ r / root (norm2 a) * n := by
    have : |(t : K)| = (|(t : K)| / n * root (norm2 a)) / root (norm2 a) * n := by field_simp
    rw [this]
    exact mul_le_mul_of_nonneg_right (div_le_div_of_nonneg_right hle hra.le) hn'.le
  unfold nmaxAxis
  have : ((|t| : ℤ) : K) ≤ (⌈r / root (norm2 a) * (n : K)⌉ : ℤ) := by
    push_cast
    exact hfin.trans (Int.le_ceil _)
  exact_mod_cast this

/-- C52 (partial): in a cell with orthogonal lattice vectors every transformation that is shorter than the radius (by the
rounding of half a unit in the 12th decimal) is returned.  What is missing: other cells (`C52_skewed_missed`). -/
theorem C52_complete_partial (root : K → K) (hroot : IsRoot root) (sort : List (Coord × K) → List (Coord × K))
    (hs : SortsByDist sort) (r : K) (s : Shape) (hx : 0 < s.nx) (hy : 0 < s.ny) (hz : 0 < s.nz) (L : M3 K)
    (hL : Orthogonal L) (h1 : 0 < norm2 L.1) (h2 : 0 < norm2 L.2.1) (h3 : 0 < norm2 L.2.2) (t : Coord)
    (ht : root (norm2 (cartOf s L t)) + 1 / 2 / 10 ^ 12 ≤ r) :
    ∃ d, (t, d) ∈ radiusTransforms root sort r s L := by
  refine ⟨_, (radius_mem root sort hs r s L t _).mpr ⟨rfl, ?_, ?_⟩⟩
  · have := (abs_le.mp (roundDec_near 12 (root (norm2 (cartOf s L t))))).1
    linarith
  · have hle : root (norm2 (cartOf s L t)) ≤ r := by
      have : (0 : K) < 1 / 2 / 10 ^ 12 := by positivity
      linarith
    have e : norm2 (cartOf s L t) = ((t.1 : K) / s.nx) ^ 2 * norm2 L.1 + ((t.2.1 : K) / s.ny) ^ 2 * norm2 L.2.1 +
        ((t.2.2 : K) / s.nz) ^ 2 * norm2 L.2.2 := by
      obtain ⟨o1, o2, o3⟩ := hL
      unfold dotV at o1 o2 o3
      unfold cartOf vecMat norm2
      simp only
      linear_combination 2 * ((t.1 : K) / s.nx) * ((t.2.1 : K) / s.ny) * o1 +
        2 * ((t.1 : K) / s.nx) * ((t.2.2 : K) / s.nz) * o2 + 2 * ((t.2.1 : K) / s.ny) * ((t.2.2 : K) / s.nz) * o3
    rw [e] at hle
    refine ⟨?_, ?_, ?_⟩
    · refine axis_bound hroot r L.1 s.nx hx t.1
        (((t.2.1 : K) / s.ny) ^ 2 * norm2 L.2.1 + ((t.2.2 : K) / s.nz) ^ 2 * norm2 L.2.2) (by positivity) h1 ?_
      rw [← add_assoc]; exact hle
    · refine axis_bound hroot r L.2.1 s.ny hy t.2.1
        (((t.1 : K) / s.nx) ^ 2 * norm2 L.1 + ((t.2.2 : K) / s.nz) ^ 2 * norm2 L.2.2) (by positivity) h2 ?_
      rw [show ((t.2.1 : K) / s.ny) ^ 2 * norm2 L.2.1 + (((t.1 : K) / s.nx) ^ 2 * norm2 L.1 +
        ((t.2.2 : K) / s.nz) ^ 2 * norm2 L.2.2) = ((t.1 : K) / s.nx) ^ 2 * norm2 L.1 + ((t.2.1 : K) / s.ny) ^ 2 * norm2 L.2.1 +
        ((t.2.2 : K) / s.nz) ^ 2 * norm2 L.2.2 by ring]
      exact hle
    · refine axis_bound hroot r L.2.2 s.nz hz t.2.2
        (((t.1 : K) / s.nx) ^ 2 * norm2 L.1 + ((t.2.1 : K) / s.ny) ^ 2 * norm2 L.2.1) (by positivity) h3 ?_
      rw [add_comm]; exact hle

end field

/-- The square root of the reals is one. -/
theorem isRoot_sqrt : IsRoot Real.sqrt := fun _ hx => ⟨Real.sqrt_nonneg _, Real.mul_self_sqrt hx⟩

/-- The hypotheses of the theorems above hold for the real square root and a merge sort. -/
example : IsRoot Real.sqrt ∧ SortsByDist (fun l : List (Coord × ℝ) => l.insertionSort fun a b => a.2 ≤ b.2) ∧
    Orthogonal (((3, 0, 0), (0, 4, 0), (0, 0, 5)) : M3 ℝ) := by
  refine ⟨isRoot_sqrt, fun l => ⟨List.perm_insertionSort _ _, ?_⟩, by unfold Orthogonal dotV; norm_num⟩
  haveI : Std.Total (fun a b : Coord × ℝ => a.2 ≤ b.2) := ⟨fun a b => le_total _ _⟩
  haveI : IsTrans (Coord × ℝ) (fun a b : Coord × ℝ => a.2 ≤ b.2) := ⟨fun _ _ _ h1 h2 => le_trans h1 h2⟩
  exact List.pairwise_insertionSort _ _

/-- C52: in a skewed cell a transformation of length 5 within a radius of 6 is not returned. -/
theorem C52_skewed_missed : ∃ (s : Shape) (L : M3 ℝ) (t : Coord), Real.sqrt (norm2 (cartOf s L t)) = 5 ∧
    ∀ sort, SortsByDist sort → ∀ d, (t, d) ∉ radiusTransforms Real.sqrt sort 6 s L := by
  refine ⟨⟨1, 1, 1⟩, ((1, 0, 0), (12, 5, 0), (0, 0, 1)), (-12, 1, 0), ?_, ?_⟩
  · have : norm2 (cartOf ⟨1, 1, 1⟩ (((1, 0, 0), (12, 5, 0), (0, 0, 1)) : M3 ℝ) (-12, 1, 0)) = 5 ^ 2 := by
      unfold norm2 cartOf vecMat
      norm_num
    rw [this]
    exact Real.sqrt_sq (by norm_num)
  · intro sort hs d h
    rw [radius_mem _ sort hs] at h
    have h1 := h.2.2.1
    unfold nmaxAxis norm2 at h1
    norm_num at h1

/-! ### C68 -/
section miller
variable {K : Type*} [Field K] [LinearOrder K] [IsStrictOrderedRing K] [FloorRing K]

/-- Determinant with the given rows. -/
def det3 (u v w : V3 K) : K := dotV (crossV u v) w

omit [LinearOrder K] [IsStrictOrderedRing K] [FloorRing K] in
theorem triple (L : M3 K) (u v w : V3 K) :
    dotV (crossV (vecMat u L) (vecMat v L)) (vecMat w L) = det3 u v w * det3 L.1 L.2.1 L.2.2 := by
  unfold det3 dotV crossV vecMat
  simp only
  ring

omit [LinearOrder K] [IsStrictOrderedRing K] [FloorRing K] in
theorem vecMat_sub (L : M3 K) (u v : V3 K) : subV (vecMat u L) (vecMat v L) = vecMat (subV u v) L := by
  unfold vecMat subV
  ext <;> simp <;> ring

theorem millerPoints_spec (h k l : ℤ) (hne : ¬ (h = 0 ∧ k = 0 ∧ l = 0)) :
    ∃ p q r : V3 K, millerPoints h k l = some (p, q, r) ∧ ∃ c : K, c ≠ 0 ∧
      ∀ x : V3 K, det3 (subV q p) (subV r p) x = c * ((h : K) * x.1 + k * x.2.1 + l * x.2.2) := by
  have cast : ∀ n : ℤ, n ≠ 0 → (n : K) ≠ 0 := fun n hn => by exact_mod_cast hn
  by_cases h1 : h = 0 <;> by_cases h2 : k = 0 <;> by_cases h3 : l = 0
  · exact absurd ⟨h1, h2, h3⟩ hne
  · have := cast l h3
    refine ⟨(1, 0, (l : K)⁻¹), (1, 1, (l : K)⁻¹), (0, 0, (l : K)⁻¹), by simp [millerPoints, h1, h2, h3], 1 / (l : K), by positivity, fun x => ?_⟩
    unfold det3 dotV crossV subV
    simp only [h1, h2]
    push_cast
    field_simp
    ring
  · have := cast k h2
    refine ⟨(1, (k : K)⁻¹, 0), (0, (k : K)⁻¹, 0), (1, (k : K)⁻¹, 1), by simp [millerPoints, h1, h2, h3], 1 / (k : K), by positivity, fun x => ?_⟩
    unfold det3 dotV crossV subV
    simp only [h1, h3]
    push_cast
    field_simp
    ring
  · have := cast k h2; have := cast l h3
    refine ⟨(1, (k : K)⁻¹, 0), (0, (k : K)⁻¹, 0), (0, 0, (l : K)⁻¹), by simp [millerPoints, h1, h2, h3], 1 / (k : K) / l, by positivity, fun x => ?_⟩
    unfold det3 dotV crossV subV
    simp only [h1]
    push_cast
    field_simp
    ring
  · have := cast h h1
    refine ⟨((h : K)⁻¹, 0, 0), ((h : K)⁻¹, 1, 0), ((h : K)⁻¹, 0, 1), by simp [millerPoints, h1, h2, h3], 1 / (h : K), by positivity, fun x => ?_⟩
    unfold det3 dotV crossV subV
    simp only [h2, h3]
    push_cast
    field_simp
    ring
  · have := cast h h1; have := cast l h3
    refine ⟨((h : K)⁻¹, 0, 0), ((h : K)⁻¹, 1, 0), (0, 0, (l : K)⁻¹), by simp [millerPoints, h1, h2, h3], 1 / (h : K) / l, by positivity, fun x => ?_⟩
    unfold det3 dotV crossV subV
    simp only [h2]
    push_cast
    field_simp
    ring
  · have := cast h h1; have := cast k h2
    refine ⟨((h : K)⁻¹, 0, 0), (0, (k : K)⁻¹, 0), ((h : K)⁻¹, 0, 1), by simp [millerPoints, h1, h2, h3], 1 / (h : K) / k, by positivity, fun x => ?_⟩
    unfold det3 dotV crossV subV
    simp only [h3]
    push_cast
    field_simp
    ring
  · have := cast h h1; have := cast k h2; have := cast l h3
    refine ⟨((h : K)⁻¹, 0, 0), (0, (k : K)⁻¹, 0), (0, 0, (l : K)⁻¹), by simp [millerPoints, h1, h2, h3], 1 / (h : K) / k / l, by positivity, fun x => ?_⟩
    unfold det3 dotV crossV subV
    simp only
    field_simp
    ring

/-- C68: for Miller indices that are not all zero the result is a unit vector perpendicular to every vector lying in the
plane: `h x + k y + l z = 0` in fractional coordinates. -/
theorem C68_normal (root : K → K) (hr : IsRoot root) (L : M3 K) (hL : det3 L.1 L.2.1 L.2.2 ≠ 0) (h k l : ℤ)
    (hne : ¬ (h = 0 ∧ k = 0 ∧ l = 0)) :
    ∃ n, millerNormal root L h k l = some n ∧ norm2 n = 1 ∧
      ∀ x : V3 K, (h : K) * x.1 + k * x.2.1 + l * x.2.2 = 0 ↔ dotV n (vecMat x L) = 0 := by
  obtain ⟨p, q, r, hp, c, hc, hdet⟩ := millerPoints_spec (K := K) h k l hne
  unfold millerNormal
  rw [hp]
  simp only [Option.map_some, vecMat_sub]
  refine ⟨_, rfl, ?_⟩
  have ht := fun x => (triple L (subV q p) (subV r p) x).trans (by rw [hdet x])
  generalize hn : crossV (vecMat (subV q p) L) (vecMat (subV r p) L) = n at ht ⊢
  have hpos : 0 < norm2 n := by
    by_contra hcon
    have h0 : n = (0, 0, 0) := by
      unfold norm2 at hcon
      push Not at hcon
      have a := sq_nonneg n.1; have b := sq_nonneg n.2.1; have d := sq_nonneg n.2.2
      have e1 : n.1 = 0 := by rw [← sq_eq_zero_iff]; linarith
      have e2 : n.2.1 = 0 := by rw [← sq_eq_zero_iff]; linarith
      have e3 : n.2.2 = 0 := by rw [← sq_eq_zero_iff]; linarith
      ext <;> simp [e1, e2, e3]
    have cast : ∀ m : ℤ, (m : K) = 0 ↔ m = 0 := fun m => by exact_mod_cast Iff.rfl
    have z : ∀ x : V3 K, (h : K) * x.1 + k * x.2.1 + l * x.2.2 = 0 := by
      intro x
      have := ht x
      rw [h0] at this
      unfold dotV at this
      simp only [zero_mul, add_zero] at this
      rcases mul_eq_zero.mp this.symm with h | h
      · exact (mul_eq_zero.mp h).resolve_left hc
      · exact absurd h hL
    apply hne
    have z1 := z (1, 0, 0); have z2 := z (0, 1, 0); have z3 := z (0, 0, 1)
    simp only [mul_one, mul_zero, add_zero, zero_add] at z1 z2 z3
    exact ⟨(cast h).mp z1, (cast k).mp z2, (cast l).mp z3⟩
  obtain ⟨r1, r2⟩ := hr _ hpos.le
  have hm : root (norm2 n) ≠ 0 := by
    intro h0; rw [h0] at r2; simp at r2; exact hpos.ne r2
  refine ⟨?_, fun x => ?_⟩
  · have : norm2 (n.1 / root (norm2 n), n.2.1 / root (norm2 n), n.2.2 / root (norm2 n)) =
        norm2 n / (root (norm2 n) * root (norm2 n)) := by
      generalize root (norm2 n) = m at *
      unfold norm2
      simp only
      field_simp
    rw [this, r2, div_self hpos.ne']
  · have : dotV (n.1 / root (norm2 n), n.2.1 / root (norm2 n), n.2.2 / root (norm2 n)) (vecMat x L) =
        dotV n (vecMat x L) / root (norm2 n) := by
      unfold dotV
      simp only
      field_simp
    rw [this, ht x, div_eq_zero_iff]
    constructor
    · intro h0; left; rw [h0]; ring
    · intro h0
      rcases h0 with h0 | h0
      · rcases mul_eq_zero.mp h0 with h0 | h0
        · exact (mul_eq_zero.mp h0).resolve_left hc
        · exact absurd h0 hL
      · exact absurd h0 hm

/-- C68: all indices zero raise an exception. -/
theorem C68_zero (root : K → K) (L : M3 K) : millerNormal root L 0 0 0 = none := by
  simp [millerNormal, millerPoints]

end miller

/-- A non-degenerate lattice. -/
example : det3 (1, 0, 0) (12, 5, 0) ((0, 0, 1) : V3 ℝ) ≠ 0 := by
  unfold det3 dotV crossV; norm_num

/-! ### C54 -/

theorem decimal_inj {m n : ℕ} (h : decimal m = decimal n) : m = n := by
  unfold decimal at h
  rw [List.reverse_inj] at h
  have hlt : ∀ a : ℕ, ∀ d ∈ Nat.digits 10 a, d < 10 := fun a d hd => Nat.digits_lt_base (by norm_num) hd
  have hinj : ∀ (xs ys : List ℕ), (∀ d ∈ xs, d < 10) → (∀ d ∈ ys, d < 10) →
      xs.map (fun d => Char.ofNat (48 + d)) = ys.map (fun d => Char.ofNat (48 + d)) → xs = ys := by
    intro xs
    induction xs with
    | nil => intro ys _ _ h; cases ys with
      | nil => rfl
      | cons => simp at h
    | cons x xs ih =>
      intro ys hx hy h
      cases ys with
      | nil => simp at h
      | cons y ys =>
        simp only [List.map_cons, List.cons.injEq] at h
        have a := hx x (by simp)
        have b := hy y (by simp)
        have : x = y := by
          have hc : ∀ a : Fin 10, ∀ b : Fin 10, Char.ofNat (48 + a.1) = Char.ofNat (48 + b.1) → a = b := by decide
          have := hc ⟨x, a⟩ ⟨y, b⟩ h.1
          simpa using this
        rw [this, ih ys (fun d hd => hx d (by simp [hd])) (fun d hd => hy d (by simp [hd])) h.2]
  exact Nat.digits_inj_iff.mp (hinj _ _ (hlt m) (hlt n) h)

theorem underscore_notMem (n : ℕ) : '_' ∉ decimal n := by
  unfold decimal
  rw [List.mem_reverse, List.mem_map]
  rintro ⟨d, hd, h⟩
  have := Nat.digits_lt_base (b := 10) (by norm_num) hd
  have hc : ∀ a : Fin 10, Char.ofNat (48 + a.1) ≠ '_' := by decide
  exact hc ⟨d, this⟩ h

theorem suffixed_inj {l m : List Char} {i j : ℕ} (h : suffixed l i = suffixed m j) : l = m ∧ i = j := by
  unfold suffixed at h
  have key : ∀ (a b c d : List Char), '_' ∉ c → '_' ∉ d → a ++ '_' :: c = b ++ '_' :: d → a = b ∧ c = d := by
    intro a
    induction a with
    | nil =>
      intro b c d hc hd h
      cases b with
      | nil => simpa using h
      | cons x b =>
        simp only [List.nil_append, List.cons_append, List.cons.injEq] at h
        exact absurd (by rw [h.2]; simp) hc
    | cons x a ih =>
      intro b c d hc hd h
      cases b with
      | nil =>
        simp only [List.nil_append, List.cons_append, List.cons.injEq] at h
        exact absurd (by rw [← h.2]; simp) hd
      | cons y b =>
        simp only [List.cons_append, List.cons.injEq] at h
        obtain ⟨h1, h2⟩ := ih b c d hc hd h.2
        exact ⟨by rw [h.1, h1], h2⟩
  obtain ⟨h1, h2⟩ := key _ _ _ _ (underscore_notMem _) (underscore_notMem _) h
  have := decimal_inj h2
  exact ⟨h1, by omega⟩

theorem count_take_lt (labels : List (List Char)) (i j : ℕ) (hij : i < j) (hj : j < labels.length)
    (h : labels[i]'(by omega) = labels[j]) :
    (labels.take i).count (labels[j]) < (labels.take j).count (labels[j]) := by
  have h1 : (labels.take (i + 1)).count labels[j] = (labels.take i).count labels[j] + 1 := by
    rw [List.take_succ_eq_append_getElem (by omega), List.count_append, h]
    simp
  have h2 : (labels.take (i + 1)).count labels[j] ≤ (labels.take j).count labels[j] :=
    (List.take_sublist_take_left (by omega)).count_le _
  omega

theorem relabel_getElem (b : Bool) (labels : List (List Char)) (i : ℕ) (hi : i < labels.length) :
    (relabel b labels)[i]? = some (if labels.count labels[i] = 1 ∧ b = true then labels[i]
      else suffixed labels[i] ((labels.take i).count labels[i])) := by
  unfold relabel
  rw [List.getElem?_map, List.getElem?_eq_getElem (by simpa using hi)]
  simp

/-- C54: without `ignore_uniq` the new labels are pairwise different, whatever the old ones were, and each is the old one
with its number among the sites of that label, counted from 1 in the order of the sites. -/
theorem C54_unique (labels : List (List Char)) :
    (relabel false labels).Nodup ∧ (relabel false labels).length = labels.length ∧
    ∀ i (hi : i < labels.length), (relabel false labels)[i]? =
      some (labels[i] ++ '_' :: decimal ((labels.take i).count labels[i] + 1)) := by
  refine ⟨?_, by simp [relabel], ?_⟩
  · rw [List.nodup_iff_getElem?_ne_getElem?]
    intro i j hij hj
    have hj' : j < labels.length := by simpa [relabel] using hj
    rw [relabel_getElem _ _ _ (by omega), relabel_getElem _ _ _ hj']
    simp only [Bool.false_eq_true, and_false, if_false, ne_eq, Option.some.injEq]
    intro h
    obtain ⟨h1, h2⟩ := suffixed_inj h
    have := count_take_lt labels i j hij hj' h1
    rw [h1] at h2
    omega
  · intro i hi
    rw [relabel_getElem _ _ _ hi]
    simp [suffixed]

/-- C54 (partial): with `ignore_uniq` the labels are pairwise different if no label is another one followed by an
underscore and a number.  What is missing: see `C54_ignore_wrong`. -/
theorem C54_ignore_partial (labels : List (List Char))
    (hno : ∀ x ∈ labels, ∀ y ∈ labels, ∀ i, x ≠ suffixed y i) : (relabel true labels).Nodup := by
  rw [List.nodup_iff_getElem?_ne_getElem?]
  intro i j hij hj
  have hj' : j < labels.length := by simpa [relabel] using hj
  rw [relabel_getElem _ _ _ (by omega), relabel_getElem _ _ _ hj']
  simp only [and_true, ne_eq, Option.some.injEq]
  have hi' : i < labels.length := by omega
  split
  · rename_i h1
    split
    · intro h
      have := count_take_lt labels i j hij hj' h
      have h2 : (labels.take j).count labels[j] + 1 ≤ labels.count labels[j] := by
        have h3 : (labels.take (j + 1)).count labels[j] = (labels.take j).count labels[j] + 1 := by
          rw [List.take_succ_eq_append_getElem hj', List.count_append]
          simp
        rw [← h3]
        exact (List.take_sublist _ _).count_le _
      rw [h] at h1
      omega
    · exact hno _ (List.getElem_mem hi') _ (List.getElem_mem hj') _
  · split
    · intro h
      exact hno _ (List.getElem_mem hj') _ (List.getElem_mem hi') _ h.symm
    · intro h
      obtain ⟨h1, h2⟩ := suffixed_inj h
      have := count_take_lt labels i j hij hj' h1
      rw [h1] at h2
      omega

/-- C54: with `ignore_uniq` two sites may get the same label. -/
theorem C54_ignore_wrong : ¬ (relabel true [['A'], ['A'], ['A', '_', '1']]).Nodup := by
  decide

/-- C54: a label that occurs once is kept with `ignore_uniq`. -/
theorem C54_kept (labels : List (List Char)) (i : ℕ) (hi : i < labels.length) (h : labels.count labels[i] = 1) :
    (relabel true labels)[i]? = some labels[i] := by
  rw [relabel_getElem _ _ _ hi]
  simp [h]

example : relabel false [['N', 'a'], ['C', 'l'], ['N', 'a']] =
    [['N', 'a', '_', '1'], ['C', 'l', '_', '1'], ['N', 'a', '_', '2']] := by decide

/-! ### C48 -/

/-- C48: shifts between -2 and 2 and the indices below 125 correspond to each other. -/
theorem C48_shift :
    (∀ c : Coord, |c.1| ≤ 2 → |c.2.1| ≤ 2 → |c.2.2| ≤ 2 →
      0 ≤ shiftToIndex c ∧ shiftToIndex c < 125 ∧ indexToShift (shiftToIndex c) = c) ∧
    ∀ n : ℤ, 0 ≤ n → n < 125 → shiftToIndex (indexToShift n) = n ∧
      |(indexToShift n).1| ≤ 2 ∧ |(indexToShift n).2.1| ≤ 2 ∧ |(indexToShift n).2.2| ≤ 2 := by
  constructor
  · rintro ⟨a, b, c⟩ h1 h2 h3
    simp only [abs_le] at h1 h2 h3
    unfold shiftToIndex indexToShift
    simp only [Prod.mk.injEq]
    omega
  · intro n h1 h2
    unfold shiftToIndex indexToShift
    simp only [abs_le]
    omega

/-- C48: the number of a point of the box of any size is its position in the list of the points: the numbering is
injective and has no gaps. -/
theorem C48_index (size : ℕ) (i j k i' j' k' : ℤ) (hi : |i| ≤ size) (hj : |j| ≤ size) (hk : |k| ≤ size)
    (hi' : |i'| ≤ size) (hj' : |j'| ≤ size) (hk' : |k'| ≤ size) :
    0 ≤ transToIdx i j k size ∧ transToIdx i j k size < (2 * size + 1) ^ 3 ∧
    (transToIdx i j k size = transToIdx i' j' k' size → i = i' ∧ j = j' ∧ k = k') := by
  rw [abs_le] at hi hj hk hi' hj' hk'
  unfold transToIdx
  simp only
  obtain ⟨r, hr⟩ : ∃ r : ℤ, r = (size : ℤ) * 2 + 1 := ⟨_, rfl⟩
  rw [← hr, show (2 * (size : ℤ) + 1) = r by omega]
  obtain ⟨a, ha⟩ : ∃ a, a = i + size := ⟨_, rfl⟩
  obtain ⟨b, hb⟩ : ∃ b, b = j + size := ⟨_, rfl⟩
  obtain ⟨c, hc⟩ : ∃ c, c = k + size := ⟨_, rfl⟩
  obtain ⟨a', ha'⟩ : ∃ a, a = i' + size := ⟨_, rfl⟩
  obtain ⟨b', hb'⟩ : ∃ b, b = j' + size := ⟨_, rfl⟩
  obtain ⟨c', hc'⟩ : ∃ c, c = k' + size := ⟨_, rfl⟩
  rw [← ha, ← hb, ← hc, ← ha', ← hb', ← hc']
  have a0 : 0 ≤ a ∧ a ≤ r - 1 := by omega
  have b0 : 0 ≤ b ∧ b ≤ r - 1 := by omega
  have c0 : 0 ≤ c ∧ c ≤ r - 1 := by omega
  have a1 : 0 ≤ a' ∧ a' ≤ r - 1 := by omega
  have b1 : 0 ≤ b' ∧ b' ≤ r - 1 := by omega
  have c1 : 0 ≤ c' ∧ c' ≤ r - 1 := by omega
  have rp : 0 < r := by omega
  refine ⟨?_, ?_, ?_⟩
  · have := a0.1; have := b0.1; have := c0.1
    positivity
  · nlinarith [mul_le_mul_of_nonneg_right a0.2 (sq_nonneg r), mul_le_mul_of_nonneg_right b0.2 rp.le]
  · intro h
    have hk1 : c % r = c' % r := by
      have e1 : a * r ^ 2 + b * r + c = c + r * (a * r + b) := by ring
      have e2 : a' * r ^ 2 + b' * r + c' = c' + r * (a' * r + b') := by ring
      rw [e1, e2] at h
      have := congrArg (· % r) h
      simpa [Int.add_mul_emod_self_left] using this
    rw [Int.emod_eq_of_lt c0.1 (by omega), Int.emod_eq_of_lt c1.1 (by omega)] at hk1
    subst hk1
    have h2 : a * r + b = a' * r + b' := by
      have : r * (a * r + b) = r * (a' * r + b') := by linarith [h, show a * r ^ 2 = r * (a * r) by ring, show a' * r ^ 2 = r * (a' * r) by ring]
      exact mul_left_cancel₀ rp.ne' this
    have hb2 : b % r = b' % r := by
      have := congrArg (· % r) h2
      simpa [Int.mul_add_emod_self_right] using this
    rw [Int.emod_eq_of_lt b0.1 (by omega), Int.emod_eq_of_lt b1.1 (by omega)] at hb2
    subst hb2
    have : a = a' := mul_right_cancel₀ rp.ne' (by linarith : a * r = a' * r)
    omega

/-- Two points of the box are neighbours. -/
def BoxAdj (p q : Coord) : Prop := p ≠ q ∧ |q.1 - p.1| ≤ 1 ∧ |q.2.1 - p.2.1| ≤ 1 ∧ |q.2.2 - p.2.2| ≤ 1

/-- C48: the shifts are the points of the box, each once, and the connections are the pairs of neighbouring points, each
pair once with the smaller number first. -/
theorem C48_connections (size : ℕ) :
    (boxShifts size).Nodup ∧ (∀ p : Coord, p ∈ boxShifts size ↔ |p.1| ≤ size ∧ |p.2.1| ≤ size ∧ |p.2.2| ≤ size) ∧
    (∀ x y : ℤ, (x, y) ∈ boxConnections size ↔ ∃ p ∈ boxShifts size, ∃ q ∈ boxShifts size, BoxAdj p q ∧
      x = transToIdx p.1 p.2.1 p.2.2 size ∧ y = transToIdx q.1 q.2.1 q.2.2 size ∧ x < y) ∧
    (boxConnections size).Nodup := by
  have hmem : ∀ p : Coord, p ∈ boxShifts size ↔ |p.1| ≤ size ∧ |p.2.1| ≤ size ∧ |p.2.2| ≤ size := by
    intro p
    unfold boxShifts
    rw [mem_box3, mem_symRange, mem_symRange, mem_symRange]
    simp only [abs_le]
  have hnd : (boxShifts size).Nodup := nodup_box3 _ _ _ (symRange_nodup _) (symRange_nodup _) (symRange_nodup _)
  have hoff : ∀ t : Coord, t ∈ unitOffsets ↔ t ≠ (0, 0, 0) ∧ |t.1| ≤ 1 ∧ |t.2.1| ≤ 1 ∧ |t.2.2| ≤ 1 := by
    intro t
    unfold unitOffsets
    rw [List.mem_filter, mem_box3, mem_symRange, mem_symRange, mem_symRange]
    simp only [abs_le, decide_eq_true_eq]
    obtain ⟨a, b, c⟩ := t
    simp only [ne_eq, Prod.mk.injEq]
    tauto
  have hinj : ∀ p ∈ boxShifts size, ∀ q ∈ boxShifts size,
      transToIdx p.1 p.2.1 p.2.2 size = transToIdx q.1 q.2.1 q.2.2 size → p = q := by
    intro p hp q hq h
    rw [hmem] at hp hq
    obtain ⟨h1, h2, h3⟩ := (C48_index size p.1 p.2.1 p.2.2 q.1 q.2.1 q.2.2 hp.1 hp.2.1 hp.2.2 hq.1 hq.2.1 hq.2.2).2.2 h
    ext <;> assumption
  refine ⟨hnd, hmem, ?_, ?_⟩
  · intro x y
    unfold boxConnections
    rw [List.mem_flatMap]
    constructor
    · rintro ⟨p, hp, h⟩
      rw [List.mem_filterMap] at h
      obtain ⟨t, ht, h⟩ := h
      rw [hoff] at ht
      simp only at h
      split at h
      · simp at h
      · rename_i hin
        push Not at hin
        split at h
        · simp at h
        · rename_i hlt
          rw [Option.some.injEq, Prod.mk.injEq] at h
          obtain ⟨rfl, rfl⟩ := h
          have hq : ((p.1 + t.1, p.2.1 + t.2.1, p.2.2 + t.2.2) : Coord) ∈ boxShifts size := by
            rw [hmem]; exact hin
          have hne : p ≠ (p.1 + t.1, p.2.1 + t.2.1, p.2.2 + t.2.2) := by
            intro h0
            apply ht.1
            have e1 := congrArg (fun p : Coord => p.1) h0
            have e2 := congrArg (fun p : Coord => p.2.1) h0
            have e3 := congrArg (fun p : Coord => p.2.2) h0
            simp only at e1 e2 e3
            ext <;> simp <;> omega
          refine ⟨p, hp, _, hq, ⟨hne, ?_⟩, rfl, rfl, ?_⟩
          · simp only [add_sub_cancel_left]; exact ht.2
          · refine lt_of_le_of_ne (not_lt.mp hlt) ?_
            intro h0
            exact hne (hinj p hp _ hq h0)
    · rintro ⟨p, hp, q, hq, hadj, rfl, rfl, hlt⟩
      refine ⟨p, hp, ?_⟩
      rw [List.mem_filterMap]
      refine ⟨(q.1 - p.1, q.2.1 - p.2.1, q.2.2 - p.2.2), ?_, ?_⟩
      · rw [hoff]
        refine ⟨?_, hadj.2⟩
        intro h0
        apply hadj.1
        simp only [Prod.mk.injEq] at h0
        ext <;> omega
      · simp only [add_sub_cancel]
        rw [hmem] at hq
        rw [if_neg (by push Not; exact hq), if_neg (by omega)]
  · unfold boxConnections
    rw [List.nodup_flatMap]
    refine ⟨fun p hp => ?_, ?_⟩
    · refine List.Nodup.filterMap ?_ ((nodup_box3 _ _ _ (symRange_nodup _) (symRange_nodup _) (symRange_nodup _)).filter _)
      intro t t' b hb hb'
      simp only [Option.mem_def] at hb hb'
      split at hb
      · simp at hb
      · rename_i h1
        split at hb
        · simp at hb
        · split at hb'
          · simp at hb'
          · rename_i h2
            split at hb'
            · simp at hb'
            · rw [Option.some.injEq] at hb hb'
              rw [← hb', Prod.mk.injEq] at hb
              push Not at h1 h2
              have := hinj (p.1 + t.1, p.2.1 + t.2.1, p.2.2 + t.2.2) ((hmem _).mpr h1)
                (p.1 + t'.1, p.2.1 + t'.2.1, p.2.2 + t'.2.2) ((hmem _).mpr h2) hb.2
              simp only [Prod.mk.injEq] at this
              ext <;> omega
    · refine hnd.imp_of_mem ?_
      intro p q hp hq hpq
      rw [Function.onFun, List.disjoint_left]
      intro x hx hy
      rw [List.mem_filterMap] at hx hy
      obtain ⟨t, _, h⟩ := hx
      obtain ⟨t', _, h'⟩ := hy
      simp only at h h'
      split at h
      · simp at h
      · split at h
        · simp at h
        · split at h'
          · simp at h'
          · split at h'
            · simp at h'
            · rw [Option.some.injEq] at h h'
              rw [← h', Prod.mk.injEq] at h
              exact hpq (hinj _ hp _ hq h.1)

/-! ### C69 -/

theorem appendNew_fold : ∀ (l acc : List Coord), acc.Nodup →
    (l.foldl (fun (acc : List Coord) t => if t ∈ acc then acc else acc ++ [t]) acc).Nodup ∧
    (∃ rest, l.foldl (fun (acc : List Coord) t => if t ∈ acc then acc else acc ++ [t]) acc = acc ++ rest) ∧
    ∀ t, t ∈ l.foldl (fun (acc : List Coord) t => if t ∈ acc then acc else acc ++ [t]) acc ↔ t ∈ acc ∨ t ∈ l := by
  intro l
  induction l with
  | nil => intro acc h; exact ⟨h, ⟨[], by simp⟩, by simp⟩
  | cons x l ih =>
    intro acc h
    rw [List.foldl_cons]
    by_cases hx : x ∈ acc
    · rw [if_pos hx]
      obtain ⟨h1, h2, h3⟩ := ih acc h
      refine ⟨h1, h2, fun t => ?_⟩
      rw [h3, List.mem_cons]
      constructor
      · rintro (h | h)
        · exact Or.inl h
        · exact Or.inr (Or.inr h)
      · rintro (h | rfl | h)
        · exact Or.inl h
        · exact Or.inl hx
        · exact Or.inr h
    · rw [if_neg hx]
      obtain ⟨h1, ⟨rest, h2⟩, h3⟩ := ih (acc ++ [x]) (by
        rw [List.nodup_append]
        refine ⟨h, by simp, ?_⟩
        intro a ha b hb
        rw [List.mem_singleton] at hb
        rintro rfl
        exact hx (hb ▸ ha))
      refine ⟨h1, ⟨x :: rest, by rw [h2]; simp⟩, fun t => ?_⟩
      rw [h3, List.mem_append, List.mem_singleton, List.mem_cons, or_assoc]

theorem front_seventh (all first : List Coord) (hn : first.Nodup) (hsub : ∀ t ∈ first, t ∈ all) (z : Coord)
    (hz : first[7]? = some z) (S : List Coord)
    (hS : S = all.foldl (fun (acc : List Coord) t => if t ∈ acc then acc else acc ++ [t]) first) :
    (S.getD 7 z :: S.eraseIdx 7).Nodup ∧ (S.getD 7 z :: S.eraseIdx 7).head? = some z ∧
    ∀ t, t ∈ S.getD 7 z :: S.eraseIdx 7 ↔ t ∈ all := by
  obtain ⟨f1, ⟨rest, f2⟩, f3⟩ := appendNew_fold all first hn
  rw [← hS] at f1 f2 f3
  have h7 : S[7]? = some z := by
    rw [f2, List.getElem?_append_left (List.getElem?_eq_some_iff.mp hz).1, hz]
  have hget : S.getD 7 z = z := by rw [List.getD_eq_getElem?_getD, h7]; rfl
  rw [hget]
  have hperm : (z :: S.eraseIdx 7).Perm S := by
    have hlt : 7 < S.length := (List.getElem?_eq_some_iff.mp h7).1
    have := List.getElem_cons_eraseIdx_perm hlt
    rw [List.getElem?_eq_getElem hlt, Option.some.injEq] at h7
    rw [h7] at this
    exact this
  refine ⟨hperm.nodup_iff.mpr f1, rfl, fun t => ?_⟩
  rw [hperm.mem_iff, f3]
  exact ⟨fun h => h.elim (hsub t) id, Or.inr⟩

/-- C69: the translations to the neighbouring cells are the 27 combinations, each once, the home cell first. -/
theorem C69_images (a b c : ℤ) (ha : 0 < a) (hb : 0 < b) (hc : 0 < c) :
    (gridNbrTransforms a b c).Nodup ∧ (gridNbrTransforms a b c).head? = some (0, 0, 0) ∧
    ∀ t : Coord, t ∈ gridNbrTransforms a b c ↔
      (t.1 = -a ∨ t.1 = 0 ∨ t.1 = a) ∧ (t.2.1 = -b ∨ t.2.1 = 0 ∨ t.2.1 = b) ∧ (t.2.2 = -c ∨ t.2.2 = 0 ∨ t.2.2 = c) := by
  have nd : ∀ x : ℤ, 0 < x → [-x, 0, x].Nodup := by
    intro x hx
    simp only [List.nodup_cons, List.mem_cons, List.not_mem_nil, or_false, not_or, List.nodup_nil, and_true, not_false_eq_true]
    omega
  have hall := nodup_box3 _ _ _ (nd a ha) (nd b hb) (nd c hc)
  have a1 : ¬ 0 ≤ -a := by omega
  have a2 : ¬ a ≤ 0 := by omega
  have b1 : ¬ 0 ≤ -b := by omega
  have b2 : ¬ b ≤ 0 := by omega
  have c1 : ¬ 0 ≤ -c := by omega
  have c2 : ¬ c ≤ 0 := by omega
  have key := front_seventh _ _ (hall.filter fun t : Coord =>
      decide ((t.1 ≤ 0 ∧ t.2.1 ≤ 0 ∧ t.2.2 ≤ 0) ∨ (0 ≤ t.1 ∧ 0 ≤ t.2.1 ∧ 0 ≤ t.2.2)))
    (fun t ht => (List.mem_filter.mp ht).1) (0, 0, 0)
    (by simp [a2, b2, c2, ha.le, hb.le, hc.le, ha, hb, hc]) (_) rfl
  refine ⟨key.1, key.2.1, fun t => ?_⟩
  refine (key.2.2 t).trans ?_
  rw [mem_box3]; simp

/-- C69: the face transformations are the six unit steps. -/
theorem C69_faces : faceTransforms.Nodup ∧ ∀ t : Coord, t ∈ faceTransforms ↔
    |t.1| + |t.2.1| + |t.2.2| = 1 := by
  refine ⟨by decide, fun t => ?_⟩
  unfold faceTransforms
  rw [List.mem_filter, decide_eq_true_eq]
  refine ⟨fun h => h.2, fun h => ⟨?_, h⟩⟩
  have hall : ∀ i ∈ ([-1, 0, 1] : List ℤ), ∀ j ∈ ([-1, 0, 1] : List ℤ), ∀ k ∈ ([-1, 0, 1] : List ℤ),
      |i| + |j| + |k| = 1 → (i, j, k) ∈ neighbors26 := by decide
  have h1 : |t.1| ≤ 1 := by have := abs_nonneg t.2.1; have := abs_nonneg t.2.2; omega
  have h2 : |t.2.1| ≤ 1 := by have := abs_nonneg t.1; have := abs_nonneg t.2.2; omega
  have h3 : |t.2.2| ≤ 1 := by have := abs_nonneg t.2.1; have := abs_nonneg t.1; omega
  rw [abs_le] at h1 h2 h3
  refine hall t.1 ?_ t.2.1 ?_ t.2.2 ?_ h <;> simp only [List.mem_cons, List.not_mem_nil, or_false] <;> omega

end BaderKit
