import Verif.Model.PlotGeometry
import Verif.Props.Transforms
import Verif.Lemmas.Text
import Mathlib.Tactic.LinearCombination
import Mathlib.Tactic.FieldSimp
import Mathlib.Tactic.NormNum
/-!
# Where the parts of a plot are drawn
-/
set_option linter.unusedSectionVars false
namespace BaderKit

section field
variable {K : Type*} [Field K] [LinearOrder K] [IsStrictOrderedRing K]

/-! ## Atoms at the boundary of the cell -/

theorem mem_edgeShift {tol x : K} (hp : 0 < tol) (ht : tol ≤ 1 / 2) (h0 : 0 ≤ x) (h1 : x ≤ 1) (n : ℤ) :
    n ∈ edgeShift tol x ↔ -tol < x + n ∧ x + n < 1 + tol := by
  have small : -tol < x + n → x + n < 1 + tol → n = -1 ∨ n = 0 ∨ n = 1 := by
    intro a b
    have c1 : (-2 : K) < n := by linarith
    have c2 : (n : K) < 2 := by linarith
    have d1 : -2 < n := by exact_mod_cast c1
    have d2 : n < 2 := by exact_mod_cast c2
    omega
  unfold edgeShift
  split_ifs with a b
  · rw [abs_lt] at a
    simp only [List.mem_cons, List.not_mem_nil, or_false]
    constructor
    · rintro (rfl | rfl) <;> push_cast <;> constructor <;> linarith
    · rintro ⟨c, d⟩
      rcases small c d with rfl | h | h
      · push_cast at c; exfalso; linarith
      · exact Or.inl h
      · exact Or.inr h
  · rw [abs_lt] at b
    simp only [List.mem_cons, List.not_mem_nil, or_false]
    constructor
    · rintro (rfl | rfl) <;> push_cast <;> constructor <;> linarith
    · rintro ⟨c, d⟩
      rcases small c d with h | h | rfl
      · exact Or.inr h
      · exact Or.inl h
      · push_cast at d; exfalso; linarith
  · rw [abs_of_nonneg h0] at a
    rw [abs_of_nonpos (by linarith)] at b
    simp only [List.mem_singleton]
    constructor
    · rintro rfl; push_cast; constructor <;> linarith
    · rintro ⟨c, d⟩
      rcases small c d with rfl | h | rfl
      · push_cast at c; exfalso; linarith
      · exact h
      · push_cast at d; exfalso; linarith

/-- **C107** The spheres of an atom are at all translations of its position that lie in the cell or on its boundary (up to the tolerance), and nowhere else. -/
theorem C107_boundary_atoms {tol : K} (hp : 0 < tol) (ht : tol ≤ 1 / 2) (f : V3 K) (h1 : 0 ≤ f.1 ∧ f.1 ≤ 1) (h2 : 0 ≤ f.2.1 ∧ f.2.1 ≤ 1)
    (h3 : 0 ≤ f.2.2 ∧ f.2.2 ≤ 1) (x : V3 K) :
    x ∈ edgeFracs tol f ↔ (∃ a b c : ℤ, x = (f.1 + a, f.2.1 + b, f.2.2 + c)) ∧
      (-tol < x.1 ∧ x.1 < 1 + tol) ∧ (-tol < x.2.1 ∧ x.2.1 < 1 + tol) ∧ (-tol < x.2.2 ∧ x.2.2 < 1 + tol) := by
  unfold edgeFracs
  simp only [List.mem_flatMap, List.mem_map]
  constructor
  · rintro ⟨a, ha, b, hb, c, hc, rfl⟩
    exact ⟨⟨a, b, c, rfl⟩, (mem_edgeShift hp ht h1.1 h1.2 a).mp ha, (mem_edgeShift hp ht h2.1 h2.2 b).mp hb, (mem_edgeShift hp ht h3.1 h3.2 c).mp hc⟩
  · rintro ⟨⟨a, b, c, rfl⟩, ka, kb, kc⟩
    exact ⟨a, (mem_edgeShift hp ht h1.1 h1.2 a).mpr ka, b, (mem_edgeShift hp ht h2.1 h2.2 b).mpr kb, c, (mem_edgeShift hp ht h3.1 h3.2 c).mpr kc, rfl⟩

/-- An atom on an edge of the cell is drawn four times. -/
example : edgeFracs (1 / 10 ^ 8 : ℚ) (0, 1 / 3, 0) = [(0, 1 / 3, 0), (0, 1 / 3, 1), (1, 1 / 3, 0), (1, 1 / 3, 1)] := by decide +kernel

/-! ## The outline -/

/-- **C107** The outline consists of twelve lines: one along each lattice vector from every corner that does not contain this vector. -/
theorem C107_outline (L : M3 K) : (latticeLines L).length = 12 ∧ ∀ p q : V3 K, (p, q) ∈ latticeLines L ↔ ∃ i j : ℕ, i < 2 ∧ j < 2 ∧
    ((p = vecMat (0, (i : K), (j : K)) L ∧ q = addV p L.1) ∨ (p = vecMat ((i : K), 0, (j : K)) L ∧ q = addV p L.2.1) ∨
      (p = vecMat ((i : K), (j : K), 0) L ∧ q = addV p L.2.2)) := by
  refine ⟨rfl, fun p q => ?_⟩
  obtain ⟨⟨a1, a2, a3⟩, ⟨b1, b2, b3⟩, ⟨c1, c2, c3⟩⟩ := L
  have e : ∀ f : ℕ → ℕ → Prop, (∃ i j : ℕ, i < 2 ∧ j < 2 ∧ f i j) ↔ (f 0 0 ∨ f 0 1 ∨ f 1 0 ∨ f 1 1) := by
    intro f
    constructor
    · rintro ⟨i, j, hi, hj, h⟩
      have hi' : i = 0 ∨ i = 1 := by omega
      have hj' : j = 0 ∨ j = 1 := by omega
      rcases hi' with rfl | rfl <;> rcases hj' with rfl | rfl <;> simp [h]
    · rintro (h | h | h | h)
      · exact ⟨0, 0, by omega, by omega, h⟩
      · exact ⟨0, 1, by omega, by omega, h⟩
      · exact ⟨1, 0, by omega, by omega, h⟩
      · exact ⟨1, 1, by omega, by omega, h⟩
  rw [e]
  have m : (p, q) ∈ latticeLines (((a1, a2, a3), (b1, b2, b3), (c1, c2, c3)) : M3 K) ↔ 
      (p = (0, 0, 0) ∧ q = (a1, a2, a3)) ∨ (p = (0, 0, 0) ∧ q = (b1, b2, b3)) ∨ (p = (0, 0, 0) ∧ q = (c1, c2, c3)) ∨
      (p = (a1, a2, a3) ∧ q = (a1 + b1, a2 + b2, a3 + b3)) ∨ (p = (a1, a2, a3) ∧ q = (a1 + c1, a2 + c2, a3 + c3)) ∨
      (p = (b1, b2, b3) ∧ q = (a1 + b1, a2 + b2, a3 + b3)) ∨ (p = (b1, b2, b3) ∧ q = (b1 + c1, b2 + c2, b3 + c3)) ∨
      (p = (c1, c2, c3) ∧ q = (a1 + c1, a2 + c2, a3 + c3)) ∨ (p = (c1, c2, c3) ∧ q = (b1 + c1, b2 + c2, b3 + c3)) ∨
      (p = (a1 + b1, a2 + b2, a3 + b3) ∧ q = (a1 + b1 + c1, a2 + b2 + c2, a3 + b3 + c3)) ∨
      (p = (a1 + c1, a2 + c2, a3 + c3) ∧ q = (a1 + b1 + c1, a2 + b2 + c2, a3 + b3 + c3)) ∨
      (p = (b1 + c1, b2 + c2, b3 + c3) ∧ q = (a1 + b1 + c1, a2 + b2 + c2, a3 + b3 + c3)) := by
    simp only [latticeLines, latticePairs, latticeCorners, List.map_cons, List.map_nil, List.getD_cons_zero, List.getD_cons_succ, List.mem_cons,
      List.not_mem_nil, or_false, Prod.mk.injEq, addV]
  rw [m]
  have x1 : ∀ x y z : K, x + y + z = y + z + x := fun x y z => by ring
  have x2 : ∀ x y z : K, x + y + z = x + z + y := fun x y z => by ring
  simp only [vecMat, addV, Nat.cast_zero, Nat.cast_one, zero_mul, one_mul, zero_add, add_zero]
  constructor
  · rintro (⟨rfl, rfl⟩ | ⟨rfl, rfl⟩ | ⟨rfl, rfl⟩ | ⟨rfl, rfl⟩ | ⟨rfl, rfl⟩ | ⟨rfl, rfl⟩ | ⟨rfl, rfl⟩ | ⟨rfl, rfl⟩ | ⟨rfl, rfl⟩ | ⟨rfl, rfl⟩ | ⟨rfl, rfl⟩ | ⟨rfl, rfl⟩)
    · left; left; simp
    · left; right; left; simp
    · left; right; right; simp
    · right; right; left; right; left; simp
    · right; right; left; right; right; simp
    · right; right; left; left; simp [add_comm]
    · right; left; right; right; simp
    · right; left; left; simp [add_comm]
    · right; left; right; left; simp [add_comm]
    · right; right; right; right; right; simp
    · right; right; right; right; left; simp [x2]
    · right; right; right; left; exact ⟨rfl, Prod.ext (x1 _ _ _) (Prod.ext (x1 _ _ _) (x1 _ _ _))⟩
  · rintro ((⟨rfl, rfl⟩ | ⟨rfl, rfl⟩ | ⟨rfl, rfl⟩) | (⟨rfl, rfl⟩ | ⟨rfl, rfl⟩ | ⟨rfl, rfl⟩) | (⟨rfl, rfl⟩ | ⟨rfl, rfl⟩ | ⟨rfl, rfl⟩) | (⟨rfl, rfl⟩ | ⟨rfl, rfl⟩ | ⟨rfl, rfl⟩))
    · left; simp
    · right; left; simp
    · right; right; left; simp
    · iterate 7 right
      left; simp [add_comm]
    · iterate 8 right
      left; simp [add_comm]
    · iterate 6 right
      left; simp
    · iterate 5 right
      left; simp [add_comm]
    · iterate 3 right
      left; simp
    · iterate 4 right
      left; simp
    · iterate 11 right
      exact ⟨rfl, Prod.ext (x1 _ _ _).symm (Prod.ext (x1 _ _ _).symm (x1 _ _ _).symm)⟩
    · iterate 10 right
      left; simp [x2]
    · iterate 9 right
      left; simp

/-! ## The direction of the Miller indices -/

/-- The product of the indices that are not zero. -/
def millerProd (h k l : ℤ) : ℤ := (if h = 0 then 1 else h) * (if k = 0 then 1 else k) * (if l = 0 then 1 else l)

theorem millerPoints_prod (h k l : ℤ) (hne : ¬ (h = 0 ∧ k = 0 ∧ l = 0)) :
    ∃ p q r : V3 K, millerPoints h k l = some (p, q, r) ∧
      ∀ x : V3 K, det3 (subV q p) (subV r p) x = 1 / (millerProd h k l : K) * ((h : K) * x.1 + k * x.2.1 + l * x.2.2) := by
  have cast : ∀ n : ℤ, n ≠ 0 → (n : K) ≠ 0 := fun n hn => by exact_mod_cast hn
  by_cases h1 : h = 0 <;> by_cases h2 : k = 0 <;> by_cases h3 : l = 0
  · exact absurd ⟨h1, h2, h3⟩ hne
  · have := cast l h3
    refine ⟨(1, 0, (l : K)⁻¹), (1, 1, (l : K)⁻¹), (0, 0, (l : K)⁻¹), by simp [millerPoints, h1, h2, h3], fun x => ?_⟩
    unfold det3 dotV crossV subV millerProd
    simp only [if_true, if_false, h1, h2, h3, one_mul, mul_one]
    push_cast
    field_simp
    ring
  · have := cast k h2
    refine ⟨(1, (k : K)⁻¹, 0), (0, (k : K)⁻¹, 0), (1, (k : K)⁻¹, 1), by simp [millerPoints, h1, h2, h3], fun x => ?_⟩
    unfold det3 dotV crossV subV millerProd
    simp only [if_true, if_false, h1, h2, h3, one_mul, mul_one]
    push_cast
    field_simp
    ring
  · have := cast k h2; have := cast l h3
    refine ⟨(1, (k : K)⁻¹, 0), (0, (k : K)⁻¹, 0), (0, 0, (l : K)⁻¹), by simp [millerPoints, h1, h2, h3], fun x => ?_⟩
    unfold det3 dotV crossV subV millerProd
    simp only [if_true, if_false, h1, h2, h3, one_mul, mul_one]
    push_cast
    field_simp
    ring
  · have := cast h h1
    refine ⟨((h : K)⁻¹, 0, 0), ((h : K)⁻¹, 1, 0), ((h : K)⁻¹, 0, 1), by simp [millerPoints, h1, h2, h3], fun x => ?_⟩
    unfold det3 dotV crossV subV millerProd
    simp only [if_true, if_false, h1, h2, h3, one_mul, mul_one]
    push_cast
    field_simp
    ring
  · have := cast h h1; have := cast l h3
    refine ⟨((h : K)⁻¹, 0, 0), ((h : K)⁻¹, 1, 0), (0, 0, (l : K)⁻¹), by simp [millerPoints, h1, h2, h3], fun x => ?_⟩
    unfold det3 dotV crossV subV millerProd
    simp only [if_true, if_false, h1, h2, h3, one_mul, mul_one]
    push_cast
    field_simp
    ring
  · have := cast h h1; have := cast k h2
    refine ⟨((h : K)⁻¹, 0, 0), (0, (k : K)⁻¹, 0), ((h : K)⁻¹, 0, 1), by simp [millerPoints, h1, h2, h3], fun x => ?_⟩
    unfold det3 dotV crossV subV millerProd
    simp only [if_true, if_false, h1, h2, h3, one_mul, mul_one]
    push_cast
    field_simp
    ring
  · have := cast h h1; have := cast k h2; have := cast l h3
    refine ⟨((h : K)⁻¹, 0, 0), (0, (k : K)⁻¹, 0), (0, 0, (l : K)⁻¹), by simp [millerPoints, h1, h2, h3], fun x => ?_⟩
    unfold det3 dotV crossV subV millerProd
    simp only [if_false, h1, h2, h3]
    push_cast
    field_simp
    ring

theorem millerProd_ne (h k l : ℤ) : millerProd h k l ≠ 0 := by
  unfold millerProd
  refine mul_ne_zero (mul_ne_zero ?_ ?_) ?_ <;> split_ifs with e <;> first | exact one_ne_zero | exact e

theorem recip_dot (L : M3 K) (hL : det3 L.1 L.2.1 L.2.2 ≠ 0) (h k l : ℤ) (x : V3 K) :
    dotV (recipVec L h k l) (vecMat x L) = (h : K) * x.1 + k * x.2.1 + l * x.2.2 := by
  have e : dotV (recipVec L h k l) (vecMat x L) =
      1 / det3 L.1 L.2.1 L.2.2 * (det3 L.1 L.2.1 L.2.2 * ((h : K) * x.1 + k * x.2.1 + l * x.2.2)) := by
    unfold recipVec det3
    generalize 1 / dotV (crossV L.1 L.2.1) L.2.2 = t
    unfold dotV crossV vecMat smulV addV
    simp only
    ring
  rw [e, ← mul_assoc, one_div, inv_mul_cancel₀ hL, one_mul]

theorem vecMat_onto (L : M3 K) (hL : det3 L.1 L.2.1 L.2.2 ≠ 0) (w : V3 K) : ∃ x, vecMat x L = w := by
  refine ⟨(det3 L.2.1 L.2.2 w / det3 L.1 L.2.1 L.2.2, det3 L.2.2 L.1 w / det3 L.1 L.2.1 L.2.2, det3 L.1 L.2.1 w / det3 L.1 L.2.1 L.2.2), ?_⟩
  unfold vecMat
  simp only [div_mul_eq_mul_div, ← add_div]
  have c : ∀ a b : K, a = b * det3 L.1 L.2.1 L.2.2 → a / det3 L.1 L.2.1 L.2.2 = b := fun a b h => by rw [h, mul_div_assoc, div_self hL, mul_one]
  refine Prod.ext (c _ _ ?_) (Prod.ext (c _ _ ?_) (c _ _ ?_)) <;> · unfold det3 dotV crossV; simp only; ring

theorem norm2_pos {n : V3 K} (h : n ≠ (0, 0, 0)) : 0 < norm2 n := by
  by_contra hc
  apply h
  unfold norm2 at hc
  push Not at hc
  have a := sq_nonneg n.1; have b := sq_nonneg n.2.1; have d := sq_nonneg n.2.2
  have e1 : n.1 = 0 := by rw [← sq_eq_zero_iff]; linarith
  have e2 : n.2.1 = 0 := by rw [← sq_eq_zero_iff]; linarith
  have e3 : n.2.2 = 0 := by rw [← sq_eq_zero_iff]; linarith
  ext <;> simp [e1, e2, e3]

theorem recip_pos (L : M3 K) (hL : det3 L.1 L.2.1 L.2.2 ≠ 0) (h k l : ℤ) (hne : ¬ (h = 0 ∧ k = 0 ∧ l = 0)) : 0 < norm2 (recipVec L h k l) := by
  refine norm2_pos fun h0 => hne ?_
  have z : ∀ x : V3 K, (h : K) * x.1 + k * x.2.1 + l * x.2.2 = 0 := fun x => by
    rw [← recip_dot L hL h k l x, h0]
    simp [dotV]
  have cast : ∀ m : ℤ, (m : K) = 0 ↔ m = 0 := fun m => by exact_mod_cast Iff.rfl
  have z1 := z (1, 0, 0); have z2 := z (0, 1, 0); have z3 := z (0, 0, 1)
  simp only [mul_one, mul_zero, add_zero, zero_add] at z1 z2 z3
  exact ⟨(cast h).mp z1, (cast k).mp z2, (cast l).mp z3⟩

/-- The side of the plane on which the vector points. -/
def millerSide (L : M3 K) (h k l : ℤ) : K := if 0 < (millerProd h k l : K) * det3 L.1 L.2.1 L.2.2 then 1 else -1

theorem millerSide_sq (L : M3 K) (h k l : ℤ) : millerSide L h k l * millerSide L h k l = 1 := by
  unfold millerSide
  split_ifs <;> ring

theorem miller_formula (root : K → K) (hr : IsRoot root) (L : M3 K) (hL : det3 L.1 L.2.1 L.2.2 ≠ 0) (h k l : ℤ) (hne : ¬ (h = 0 ∧ k = 0 ∧ l = 0)) :
    millerNormal root L h k l = some (smulV (millerSide L h k l / root (norm2 (recipVec L h k l))) (recipVec L h k l)) := by
  obtain ⟨p, q, r, hp, hdet⟩ := millerPoints_prod (K := K) h k l hne
  unfold millerNormal
  rw [hp]
  simp only [Option.map_some, vecMat_sub]
  congr 1
  have hP : (millerProd h k l : K) ≠ 0 := by exact_mod_cast millerProd_ne h k l
  have ht := fun x => (triple L (subV q p) (subV r p) x).trans (by rw [hdet x])
  generalize hn : crossV (vecMat (subV q p) L) (vecMat (subV r p) L) = n at ht ⊢
  have hG := recip_pos L hL h k l hne
  generalize hg : recipVec L h k l = G at hG ⊢
  -- the cross product is a multiple of the reciprocal vector
  have hv : n = smulV (det3 L.1 L.2.1 L.2.2 / millerProd h k l) G := by
    have hw : ∀ w : V3 K, dotV n w = det3 L.1 L.2.1 L.2.2 / millerProd h k l * dotV G w := by
      intro w
      obtain ⟨x, rfl⟩ := vecMat_onto L hL w
      rw [ht x, ← hg, recip_dot L hL]
      ring
    have w1 := hw (1, 0, 0); have w2 := hw (0, 1, 0); have w3 := hw (0, 0, 1)
    unfold dotV at w1 w2 w3
    simp only [mul_one, mul_zero, add_zero, zero_add] at w1 w2 w3
    exact Prod.ext w1 (Prod.ext w2 w3)
  obtain ⟨g1, g2⟩ := hr _ hG.le
  have hg0 : 0 < root (norm2 G) := lt_of_le_of_ne g1 fun h0 => by rw [← h0, zero_mul] at g2; exact hG.ne g2
  generalize hc : det3 L.1 L.2.1 L.2.2 / millerProd h k l = c at hv
  have hc0 : c ≠ 0 := by rw [← hc]; exact div_ne_zero hL hP
  have hnn : norm2 n = c * c * norm2 G := by
    rw [hv]; unfold norm2 smulV; ring
  have hnp : 0 < norm2 n := by rw [hnn]; exact mul_pos (mul_self_pos.mpr hc0) hG
  obtain ⟨r1, r2⟩ := hr _ hnp.le
  have hroot : root (norm2 n) = |c| * root (norm2 G) := by
    have : root (norm2 n) * root (norm2 n) = (|c| * root (norm2 G)) * (|c| * root (norm2 G)) := by
      rw [r2, hnn, mul_mul_mul_comm, abs_mul_abs_self, g2]
    exact (mul_self_inj r1 (mul_nonneg (abs_nonneg c) g1)).mp this
  have hs : c / |c| = millerSide L h k l := by
    have hsq : 0 < (millerProd h k l : K) * millerProd h k l := mul_self_pos.mpr hP
    have hcc : (millerProd h k l : K) * det3 L.1 L.2.1 L.2.2 = (millerProd h k l : K) * millerProd h k l * c := by
      rw [← hc]; field_simp
    unfold millerSide
    rw [hcc]
    split_ifs with hcp
    · have : 0 < c := (mul_pos_iff_of_pos_left hsq).mp hcp
      rw [abs_of_pos this, div_self hc0]
    · have : c < 0 := lt_of_le_of_ne (by
        by_contra h'
        push Not at h'
        exact hcp (mul_pos hsq h')) hc0
      rw [abs_of_neg this, div_neg, div_self hc0]
  have hcomp : ∀ y : K, c * y / (|c| * root (norm2 G)) = millerSide L h k l / root (norm2 G) * y := by
    intro y
    rw [← hs]
    have : |c| ≠ 0 := abs_ne_zero.mpr hc0
    field_simp
  rw [hroot, hv]
  unfold smulV
  simp only [hcomp]

theorem miller_unit (root : K → K) (hr : IsRoot root) (L : M3 K) (hL : det3 L.1 L.2.1 L.2.2 ≠ 0) (h k l : ℤ) (hne : ¬ (h = 0 ∧ k = 0 ∧ l = 0)) :
    ∃ n, millerNormal root L h k l = some n ∧ norm2 n = 1 := by
  refine ⟨_, miller_formula root hr L hL h k l hne, ?_⟩
  have hG := recip_pos L hL h k l hne
  obtain ⟨g1, g2⟩ := hr _ hG.le
  have hs := millerSide_sq L h k l
  generalize recipVec L h k l = G at *
  generalize root (norm2 G) = R at *
  generalize millerSide L h k l = σ at *
  have hR : R ≠ 0 := fun h0 => by rw [h0, zero_mul] at g2; exact hG.ne g2
  have : norm2 (smulV (σ / R) G) = σ * σ * norm2 G / (R * R) := by
    unfold norm2 smulV
    field_simp
  rw [this, hs, one_mul, g2, div_self hG.ne']

/-- **C68** The vector of the Miller indices points to the side on which `h x + k y + l z` grows if the product of the indices that are not zero and the
handedness of the lattice have the same sign, and to the other side otherwise. -/
theorem C68_direction (root : K → K) (hr : IsRoot root) (L : M3 K) (hL : det3 L.1 L.2.1 L.2.2 ≠ 0) (h k l : ℤ) (hne : ¬ (h = 0 ∧ k = 0 ∧ l = 0)) :
    ∃ n, millerNormal root L h k l = some n ∧ ∃ c : K, 0 < c ∧
      ∀ x : V3 K, dotV n (vecMat x L) = c * ((if 0 < (millerProd h k l : K) * det3 L.1 L.2.1 L.2.2 then 1 else -1) * ((h : K) * x.1 + k * x.2.1 + l * x.2.2)) := by
  refine ⟨_, miller_formula root hr L hL h k l hne, 1 / root (norm2 (recipVec L h k l)), ?_, fun x => ?_⟩
  · have hG := recip_pos L hL h k l hne
    obtain ⟨g1, g2⟩ := hr _ hG.le
    exact one_div_pos.mpr (lt_of_le_of_ne g1 fun h0 => by rw [← h0, zero_mul] at g2; exact hG.ne g2)
  · rw [← recip_dot L hL h k l x]
    show dotV (smulV (millerSide L h k l / root (norm2 (recipVec L h k l))) (recipVec L h k l)) (vecMat x L) =
      1 / root (norm2 (recipVec L h k l)) * (millerSide L h k l * dotV (recipVec L h k l) (vecMat x L))
    unfold dotV smulV
    ring

/-- Of `C68_direction`: the indices 1 1 -1 in a right-handed cell. -/
example : det3 ((1, 0, 0) : V3 ℚ) (0, 1, 0) (0, 0, 1) = 1 ∧ millerProd 1 1 (-1) = -1 ∧ millerProd (-2) 0 (-1) = 2 := by decide +kernel

/-! ## Slices -/

theorem root_pos {root : K → K} (hr : IsRoot root) {x : K} (hx : 0 < x) : 0 < root x := by
  obtain ⟨g1, g2⟩ := hr _ hx.le
  exact lt_of_le_of_ne g1 fun h0 => by rw [← h0, zero_mul] at g2; exact hx.ne g2

/-- **C107** A slice at `d` is the plane `h x + k y + l z = d` in fractional coordinates if the product of the indices that are not zero and the
determinant of the lattice have the same sign, otherwise it is the plane `h x + k y + l z = -d`. -/
theorem C107_slice_plane (root : K → K) (hr : IsRoot root) (L : M3 K) (hL : det3 L.1 L.2.1 L.2.2 ≠ 0) (d : K) (h k l : ℤ)
    (hne : ¬ (h = 0 ∧ k = 0 ∧ l = 0)) : ∃ n o : V3 K, slicePlane root L d h k l = some (n, o) ∧ norm2 n = 1 ∧
      ∀ x : V3 K, dotV (subV (vecMat x L) o) n = 0 ↔
        (h : K) * x.1 + k * x.2.1 + l * x.2.2 = if 0 < (millerProd h k l : K) * det3 L.1 L.2.1 L.2.2 then d else -d := by
  unfold slicePlane
  rw [miller_formula root hr L hL h k l hne]
  have hG := recip_pos L hL h k l hne
  have hR := root_pos hr hG
  obtain ⟨-, g2⟩ := hr _ hG.le
  have hs := millerSide_sq L h k l
  have hd := fun x => recip_dot L hL h k l x
  have hσ : (if 0 < (millerProd h k l : K) * det3 L.1 L.2.1 L.2.2 then d else -d) = millerSide L h k l * d := by
    unfold millerSide; split_ifs <;> ring
  rw [hσ]
  generalize recipVec L h k l = G at *
  generalize root (norm2 G) = R at *
  generalize millerSide L h k l = σ at *
  have hn1 : norm2 (smulV (σ / R) G) = 1 := by
    have : norm2 (smulV (σ / R) G) = σ * σ * norm2 G / (R * R) := by
      unfold norm2 smulV
      field_simp
    rw [this, hs, one_mul, g2, div_self hG.ne']
  refine ⟨_, _, rfl, hn1, fun x => ?_⟩
  rw [← hd x]
  have e : dotV (subV (vecMat x L) (smulV (1 / R * d) (smulV (σ / R) G))) (smulV (σ / R) G) =
      (σ * dotV G (vecMat x L) - d) / R := by
    have e1 : dotV (subV (vecMat x L) (smulV (1 / R * d) (smulV (σ / R) G))) (smulV (σ / R) G) =
        σ / R * dotV G (vecMat x L) - 1 / R * d * norm2 (smulV (σ / R) G) := by
      unfold dotV subV smulV norm2
      ring
    rw [e1, hn1]
    field_simp
  rw [e, div_eq_zero_iff]
  constructor
  · rintro (h' | h')
    · linear_combination (-(dotV G (vecMat x L))) * hs + σ * h'
    · exact absurd h' hR.ne'
  · intro h'
    left
    rw [h', ← mul_assoc, hs, one_mul, sub_self]

/-- **C107** (negative part) The slice at one spacing along the negative first axis of a cubic cell: the points are those with `x = 1`, not those with
`-x = 1`. -/
theorem C107_slice_negative : ∃ n o : V3 ℝ, slicePlane Real.sqrt ((1, 0, 0), (0, 1, 0), (0, 0, 1)) 1 (-1) 0 0 = some (n, o) ∧
    ∀ x : V3 ℝ, dotV (subV x o) n = 0 ↔ x.1 = 1 := by
  obtain ⟨n, o, h1, -, h2⟩ := C107_slice_plane Real.sqrt isRoot_sqrt ((1, 0, 0), (0, 1, 0), (0, 0, 1)) (by norm_num [det3, dotV, crossV]) 1 (-1) 0 0 (by decide)
  refine ⟨n, o, h1, fun x => ?_⟩
  have h := h2 x
  have e : vecMat x (((1, 0, 0), (0, 1, 0), (0, 0, 1)) : M3 ℝ) = x := by ext <;> simp [vecMat]
  rw [e] at h
  rw [h]
  norm_num [millerProd, det3, dotV, crossV]

theorem cauchyV (a b : V3 K) : dotV a b ^ 2 ≤ norm2 a * norm2 b := by
  unfold dotV norm2
  nlinarith [sq_nonneg (a.1 * b.2.1 - a.2.1 * b.1), sq_nonneg (a.1 * b.2.2 - a.2.2 * b.1), sq_nonneg (a.2.1 * b.2.2 - a.2.2 * b.2.1)]

/-- **C107** An atom is part of a slice exactly when the ball of its radius around its position meets the plane. -/
theorem C107_slice_atoms (n o : V3 K) (hn : norm2 n = 1) (sites : List (V3 K × K)) (hr : ∀ s ∈ sites, 0 ≤ s.2) (i : ℕ) :
    i ∈ sliceAtoms (n, o) sites ↔ ∃ s : V3 K × K, sites[i]? = some s ∧ ∃ p : V3 K, norm2 (subV p s.1) ≤ s.2 ^ 2 ∧ dotV (subV p o) n = 0 := by
  unfold sliceAtoms
  simp only [List.mem_filter, List.mem_range, decide_eq_true_eq]
  have key : ∀ s : V3 K × K, 0 ≤ s.2 → (|dotV (subV s.1 o) n| ≤ s.2 ↔ ∃ p : V3 K, norm2 (subV p s.1) ≤ s.2 ^ 2 ∧ dotV (subV p o) n = 0) := by
    intro s h0
    constructor
    · intro h
      refine ⟨subV s.1 (smulV (dotV (subV s.1 o) n) n), ?_, ?_⟩
      · have : norm2 (subV (subV s.1 (smulV (dotV (subV s.1 o) n) n)) s.1) = dotV (subV s.1 o) n ^ 2 * norm2 n := by
          generalize dotV (subV s.1 o) n = t
          unfold norm2 subV smulV
          ring
        rw [this, hn, mul_one]
        exact sq_le_sq' (by linarith [neg_abs_le (dotV (subV s.1 o) n)]) (by linarith [le_abs_self (dotV (subV s.1 o) n)])
      · have : dotV (subV (subV s.1 (smulV (dotV (subV s.1 o) n) n)) o) n = dotV (subV s.1 o) n * (1 - norm2 n) := by
          have e : ∀ t : K, dotV (subV (subV s.1 (smulV t n)) o) n = dotV (subV s.1 o) n - t * norm2 n := fun t => by
            unfold dotV subV smulV norm2
            ring
          rw [e]; ring
        rw [this, hn, sub_self, mul_zero]
    · rintro ⟨p, h1, h2⟩
      have e : dotV (subV s.1 o) n = - dotV (subV p s.1) n := by
        have : dotV (subV s.1 o) n + dotV (subV p s.1) n = dotV (subV p o) n := by
          unfold dotV subV
          ring
        linarith
      have c := cauchyV (subV p s.1) n
      rw [hn, mul_one] at c
      rw [e, abs_neg]
      exact abs_le_of_sq_le_sq (c.trans h1) h0
  constructor
  · rintro ⟨h1, h2⟩
    have hg : sites.getD i ((0, 0, 0), 0) = sites[i] := by simp [List.getD, h1]
    rw [hg] at h2
    exact ⟨sites[i], List.getElem?_eq_getElem h1, (key _ (hr _ (List.getElem_mem h1))).mp h2⟩
  · rintro ⟨s, h1, h2⟩
    obtain ⟨hi, rfl⟩ := List.getElem?_eq_some_iff.mp h1
    refine ⟨hi, ?_⟩
    have hg : sites.getD i ((0, 0, 0), 0) = sites[i] := by simp [List.getD, hi]
    rw [hg]
    exact (key _ (hr _ (List.getElem_mem hi))).mpr h2

/-- **C107** (negative part) The sphere that is drawn is smaller: an atom whose sphere does not meet the plane is part of the slice. -/
theorem C107_slice_uncut : ∃ (n o : V3 ℚ) (sites : List (V3 ℚ × ℚ)), norm2 n = 1 ∧ sliceAtoms (n, o) sites = [0, 1] ∧
    (∀ p : V3 ℚ, norm2 (subV p (sites.getD 0 0).1) ≤ sphereRadius (sites.getD 0 0).2 ^ 2 → dotV (subV p o) n ≠ 0) := by
  refine ⟨(0, 0, 1), (0, 0, 2), [((0, 0, 1), 1), ((0, 0, 2), 1), ((0, 0, 4), 1)], by norm_num [norm2], by decide +kernel, fun p h1 h2 => ?_⟩
  simp only [List.getD_cons_zero, norm2, subV, sphereRadius, dotV, mul_zero, zero_add, mul_one] at h1 h2
  nlinarith [sq_nonneg p.1, sq_nonneg p.2.1]

/-! ## The camera -/

theorem up_perp {n : V3 K} (hn : norm2 n = 1) (w : V3 K) : dotV n (subV w (smulV (dotV w n) n)) = 0 := by
  have : dotV n (subV w (smulV (dotV w n) n)) = dotV w n * (1 - norm2 n) := by
    have e : ∀ t : K, dotV n (subV w (smulV t n)) = dotV w n - t * norm2 n := fun t => by unfold dotV subV smulV norm2; ring
    rw [e]; ring
  rw [this, hn, sub_self, mul_zero]

theorem up_norm {n : V3 K} (hn : norm2 n = 1) (w : V3 K) : norm2 (subV w (smulV (dotV w n) n)) = norm2 w - dotV w n ^ 2 := by
  have e : ∀ t : K, norm2 (subV w (smulV t n)) = norm2 w - 2 * t * dotV w n + t ^ 2 * norm2 n := fun t => by unfold dotV subV smulV norm2; ring
  rw [e, hn]; ring

theorem viewUp_spec (root : K → K) (hr : IsRoot root) {n : V3 K} (hn : norm2 n = 1) : dotV n (viewUp root n) = 0 ∧ 0 < norm2 (viewUp root n) := by
  unfold viewUp
  dsimp only
  split_ifs with hc
  · refine ⟨up_perp hn _, ?_⟩
    rw [up_norm hn] at hc ⊢
    have hz : 0 ≤ norm2 ((0, 0, 1) : V3 K) - dotV (0, 0, 1) n ^ 2 := by
      rw [← up_norm hn]; unfold norm2; positivity
    obtain ⟨r1, r2⟩ := hr _ hz
    have small : norm2 ((0, 0, 1) : V3 K) - dotV (0, 0, 1) n ^ 2 < 1 := by
      rw [← r2]
      have : (1 : K) / 10 ^ 14 < 1 := by norm_num
      nlinarith
    have e1 : norm2 ((0, 0, 1) : V3 K) - dotV (0, 0, 1) n ^ 2 = 1 - n.2.2 ^ 2 := by simp [norm2, dotV]
    have e2 : norm2 ((0, 1, 0) : V3 K) - dotV (0, 1, 0) n ^ 2 = 1 - n.2.1 ^ 2 := by simp [norm2, dotV]
    rw [e1] at small
    rw [e2]
    unfold norm2 at hn
    nlinarith [sq_nonneg n.1]
  · refine ⟨up_perp hn _, ?_⟩
    refine norm2_pos fun h0 => hc ?_
    have h00 : norm2 (subV ((0, 0, 1) : V3 K) (smulV (dotV (0, 0, 1) n) n)) = 0 := by rw [h0]; simp [norm2]
    rw [h00]
    obtain ⟨r1, r2⟩ := hr 0 le_rfl
    have : root 0 = 0 := mul_self_eq_zero.mp r2
    rw [this]
    positivity

/-- The indices of the view: all zeros stand for 1 0 0. -/
def viewIndices (h k l : ℤ) : ℤ × ℤ × ℤ := if h = 0 ∧ k = 0 ∧ l = 0 then (1, 0, 0) else (h, k, l)

/-- **C107** The camera looks at the centre of the cell along the normal of the plane of the indices; everything in the cell, with spheres of at most the
largest radius, is in front of it; the upward direction is not zero and is perpendicular to the line of sight, for every rotation. -/
theorem C107_camera (root : K → K) (hr : IsRoot root) (L : M3 K) (hL : det3 L.1 L.2.1 L.2.2 ≠ 0) (rmax co si : K) (hcs : co ^ 2 + si ^ 2 = 1) (h k l : ℤ) :
    ∃ n pos focal up : V3 K,
      millerNormal root L (viewIndices h k l).1 (viewIndices h k l).2.1 (viewIndices h k l).2.2 = some n ∧ norm2 n = 1 ∧
      cameraFrom root L rmax co si h k l = some (pos, focal, up) ∧ focal = vecMat (1 / 2, 1 / 2, 1 / 2) L ∧ (∃ t, subV pos focal = smulV t n) ∧
      (∀ (x : V3 K) (r : K), 0 ≤ x.1 ∧ x.1 ≤ 1 → 0 ≤ x.2.1 ∧ x.2.1 ≤ 1 → 0 ≤ x.2.2 ∧ x.2.2 ≤ 1 → r ≤ rmax → dotV (vecMat x L) n + r < dotV pos n) ∧
      dotV n up = 0 ∧ 0 < norm2 up := by
  have hne : ¬ ((viewIndices h k l).1 = 0 ∧ (viewIndices h k l).2.1 = 0 ∧ (viewIndices h k l).2.2 = 0) := by
    unfold viewIndices
    split_ifs with hc
    · simp
    · exact hc
  obtain ⟨n, hn, hn1⟩ := miller_unit root hr L hL _ _ _ hne
  obtain ⟨u1, u2⟩ := viewUp_spec root hr hn1
  have hfoc : smulV (1 / 2) (addV (addV L.1 L.2.1) L.2.2) = vecMat (1 / 2, 1 / 2, 1 / 2) L := by
    unfold smulV addV vecMat
    refine Prod.ext ?_ (Prod.ext ?_ ?_) <;> · simp only; ring
  have cam : cameraFrom root L rmax co si h k l = some (addV (smulV (1 / 2) (addV (addV L.1 L.2.1) L.2.2))
      (smulV (root (norm2 L.1) + root (norm2 L.2.1) + root (norm2 L.2.2) + rmax) n), smulV (1 / 2) (addV (addV L.1 L.2.1) L.2.2),
      addV (smulV co (viewUp root n)) (smulV si (crossV n (viewUp root n)))) := by
    unfold cameraFrom
    show ((millerNormal root L (viewIndices h k l).1 (viewIndices h k l).2.1 (viewIndices h k l).2.2).map _) = _
    rw [hn]
    rfl
  refine ⟨n, _, _, _, hn, hn1, cam, hfoc, ⟨root (norm2 L.1) + root (norm2 L.2.1) + root (norm2 L.2.2) + rmax, ?_⟩, ?_, ?_, ?_⟩
  · generalize root (norm2 L.1) + root (norm2 L.2.1) + root (norm2 L.2.2) + rmax = t
    unfold subV addV smulV
    refine Prod.ext ?_ (Prod.ext ?_ ?_) <;> · simp only; ring
  · intro x r hx hy hz hrm
    have nn : ∀ v : V3 K, 0 ≤ norm2 v := fun v => by unfold norm2; positivity
    have cs : ∀ v : V3 K, |dotV v n| ≤ root (norm2 v) := fun v => by
      obtain ⟨r1, r2⟩ := hr _ (nn v)
      refine abs_le_of_sq_le_sq ?_ r1
      have := cauchyV v n
      rw [hn1, mul_one] at this
      rw [sq (root _), r2]
      exact this
    have e1 : dotV (addV (smulV (1 / 2) (addV (addV L.1 L.2.1) L.2.2))
        (smulV (root (norm2 L.1) + root (norm2 L.2.1) + root (norm2 L.2.2) + rmax) n)) n =
        (1 / 2) * (dotV L.1 n + dotV L.2.1 n + dotV L.2.2 n) + (root (norm2 L.1) + root (norm2 L.2.1) + root (norm2 L.2.2) + rmax) * norm2 n := by
      generalize root (norm2 L.1) + root (norm2 L.2.1) + root (norm2 L.2.2) + rmax = t
      unfold dotV addV smulV norm2
      ring
    have e2 : dotV (vecMat x L) n = x.1 * dotV L.1 n + x.2.1 * dotV L.2.1 n + x.2.2 * dotV L.2.2 n := by
      unfold dotV vecMat
      ring
    rw [e1, e2, hn1, mul_one]
    have part : ∀ (v : V3 K) (t : K), v ≠ (0, 0, 0) → 0 ≤ t ∧ t ≤ 1 → t * dotV v n - 1 / 2 * dotV v n < root (norm2 v) := by
      intro v t hv ht
      have c := cs v
      have hp := root_pos hr (norm2_pos hv)
      have b : |t - 1 / 2| ≤ 1 / 2 := abs_le.mpr ⟨by linarith [ht.1], by linarith [ht.2]⟩
      have : |(t - 1 / 2) * dotV v n| ≤ 1 / 2 * root (norm2 v) := by
        rw [abs_mul]
        exact mul_le_mul b c (abs_nonneg _) (by norm_num)
      have := le_abs_self ((t - 1 / 2) * dotV v n)
      nlinarith
    have z : ∀ v : V3 K, v = (0, 0, 0) → ∀ w : V3 K, crossV v w = (0, 0, 0) ∧ crossV w v = (0, 0, 0) ∧ dotV w v = 0 := fun v hv w => by
      subst hv
      simp [crossV, dotV]
    have n1 : L.1 ≠ (0, 0, 0) := fun h0 => hL (by unfold det3; rw [(z _ h0 L.2.1).1]; simp [dotV])
    have n2 : L.2.1 ≠ (0, 0, 0) := fun h0 => hL (by unfold det3; rw [(z _ h0 L.1).2.1]; simp [dotV])
    have n3 : L.2.2 ≠ (0, 0, 0) := fun h0 => hL (by unfold det3; rw [(z _ h0 _).2.2])
    have p1 := part _ _ n1 hx
    have p2 := part _ _ n2 hy
    have p3 := part _ _ n3 hz
    linarith
  · generalize viewUp root n = v at u1
    have : dotV n (addV (smulV co v) (smulV si (crossV n v))) = co * dotV n v := by
      unfold dotV addV smulV crossV
      ring
    rw [this, u1, mul_zero]
  · generalize viewUp root n = v at u1 u2
    have : norm2 (addV (smulV co v) (smulV si (crossV n v))) = (co ^ 2 + si ^ 2 * norm2 n) * norm2 v - si ^ 2 * dotV n v ^ 2 := by
      unfold norm2 dotV addV smulV crossV
      ring
    rw [this, hn1, mul_one, hcs, u1]
    simpa using u2

/-- **C107** Without a rotation the upward direction is the one closest to the z axis: its z component is the largest that a direction of this length
perpendicular to the line of sight can have.  A rotation keeps the length and turns counter-clockwise by the angle. -/
theorem C107_up (root : K → K) (hr : IsRoot root) {n : V3 K} (hn : norm2 n = 1) :
    let up := viewUp root n
    (1 / 10 ^ 14 ≤ root (1 - n.2.2 ^ 2) → ∀ u : V3 K, dotV n u = 0 → norm2 u = norm2 up → u.2.2 ≤ up.2.2) ∧
    ∀ co si : K, co ^ 2 + si ^ 2 = 1 →
      let rot := addV (smulV co up) (smulV si (crossV n up))
      norm2 rot = norm2 up ∧ dotV up rot = co * norm2 up ∧ dotV n (crossV up rot) = si * norm2 up := by
  intro up
  obtain ⟨u1, u2⟩ := viewUp_spec root hr hn
  refine ⟨fun hz u hu hl => ?_, fun co si hcs => ?_⟩
  · have e0 : norm2 (subV ((0, 0, 1) : V3 K) (smulV (dotV (0, 0, 1) n) n)) = 1 - n.2.2 ^ 2 := by
      rw [up_norm hn]
      simp [norm2, dotV]
    have eu : up = subV ((0, 0, 1) : V3 K) (smulV (dotV (0, 0, 1) n) n) := by
      show viewUp root n = _
      unfold viewUp
      dsimp only
      rw [e0, if_neg (not_lt.mpr hz)]
    have ez : up.2.2 = norm2 up := by
      rw [eu, e0]
      simp only [subV, smulV, dotV, zero_mul, one_mul, zero_add]
      ring
    have es : u.2.2 = dotV u up := by
      have : dotV u up = u.2.2 - n.2.2 * dotV n u := by
        rw [eu]
        simp only [subV, smulV, dotV, zero_mul, one_mul, zero_add]
        ring
      rw [this, hu, mul_zero, sub_zero]
    rw [es, ez]
    have c := cauchyV u up
    rw [hl, ← sq] at c
    exact (abs_le_of_sq_le_sq' c u2.le).2
  · have u1' : dotV n up = 0 := u1
    generalize up = v at u1'
    have c1 : norm2 (addV (smulV co v) (smulV si (crossV n v))) = (co ^ 2 + si ^ 2 * norm2 n) * norm2 v - si ^ 2 * dotV n v ^ 2 := by
      unfold norm2 dotV addV smulV crossV
      ring
    have c2 : dotV v (addV (smulV co v) (smulV si (crossV n v))) = co * norm2 v := by
      unfold norm2 dotV addV smulV crossV
      ring
    have c3 : dotV n (crossV v (addV (smulV co v) (smulV si (crossV n v)))) = si * (norm2 n * norm2 v - dotV n v ^ 2) := by
      unfold norm2 dotV addV smulV crossV
      ring
    refine ⟨?_, c2, ?_⟩
    · rw [c1, hn, u1', mul_one, hcs]; ring
    · rw [c3, hn, u1']; ring

/-- **C107** (negative part) With an odd number of indices that are not zero, the view along the opposite indices is the same view: the back cannot be seen. -/
theorem C107_opposite_view (root : K → K) (hr : IsRoot root) (L : M3 K) (hL : det3 L.1 L.2.1 L.2.2 ≠ 0) (rmax co si : K) (h k l : ℤ)
    (hodd : millerProd (-h) (-k) (-l) = - millerProd h k l) : cameraFrom root L rmax co si (-h) (-k) (-l) = cameraFrom root L rmax co si h k l := by
  by_cases hne : h = 0 ∧ k = 0 ∧ l = 0
  · obtain ⟨rfl, rfl, rfl⟩ := hne; rfl
  have hne' : ¬ (-h = 0 ∧ -k = 0 ∧ -l = 0) := by simpa using hne
  have e : millerNormal root L (-h) (-k) (-l) = millerNormal root L h k l := by
    rw [miller_formula root hr L hL _ _ _ hne, miller_formula root hr L hL _ _ _ hne']
    have hg : recipVec L (-h) (-k) (-l) = smulV (-1) (recipVec L h k l) := by
      unfold recipVec
      generalize 1 / dotV (crossV L.1 L.2.1) L.2.2 = t
      unfold smulV addV
      push_cast
      refine Prod.ext ?_ (Prod.ext ?_ ?_) <;> · simp only; ring
    have hnn : norm2 (smulV (-1) (recipVec L h k l)) = norm2 (recipVec L h k l) := by
      unfold norm2 smulV
      ring
    have hside : millerSide L (-h) (-k) (-l) = - millerSide L h k l := by
      unfold millerSide
      rw [hodd]
      push_cast
      have hP : (millerProd h k l : K) ≠ 0 := by exact_mod_cast millerProd_ne h k l
      have hPD := mul_ne_zero hP hL
      rcases lt_or_gt_of_ne hPD with hlt | hgt
      · rw [if_pos (by linarith), if_neg (by linarith)]; ring
      · rw [if_neg (by linarith), if_pos hgt]
    rw [hg, hnn, hside]
    congr 1
    unfold smulV
    refine Prod.ext ?_ (Prod.ext ?_ ?_) <;> · simp only; ring
  unfold cameraFrom
  simp only [if_neg hne, if_neg hne', e]

/-- Of `C107_opposite_view`: one index and three indices; with two indices the views differ in sign. -/
example : millerProd (-1) (-0) (-0) = -millerProd 1 0 0 ∧ millerProd (-1) (-2) (-(-3)) = -millerProd 1 2 (-3) ∧ millerProd (-1) (-2) (-0) = millerProd 1 2 0 := by
  decide

/-! ## The data on the points -/

theorem ravelFar_length {α : Type*} (s : Shape) (g : ℕ → ℕ → ℕ → α) : (ravelFar s g).length = s.nx * s.ny * s.nz := by
  unfold ravelFar
  simp [List.length_flatMap, Nat.mul_comm]

theorem ravelFar_getElem {α : Type*} (s : Shape) (g : ℕ → ℕ → ℕ → α) (i j k : ℕ) (hi : i < s.nx) (hj : j < s.ny) (hk : k < s.nz) :
    (ravelFar s g)[i + s.nx * (j + s.ny * k)]? = some (g i j k) := by
  unfold ravelFar
  have hin : i + s.nx * j < s.nx * s.ny := by
    calc i + s.nx * j < s.nx + s.nx * j := by omega
      _ = s.nx * (j + 1) := by ring
      _ ≤ s.nx * s.ny := Nat.mul_le_mul_left _ (by omega)
  rw [show i + s.nx * (j + s.ny * k) = (i + s.nx * j) + (s.nx * s.ny) * k by ring,
    getElem?_flatMap_range _ (s.nx * s.ny) s.nz (fun b _ => by simp [List.length_flatMap, Nat.mul_comm]) _ _ hin hk,
    getElem?_flatMap_range _ s.nx s.ny (fun b _ => by simp) _ _ hi hj]
  simp [hi]

/-- **C107** Every point of the drawn data, also the ones added at the far sides: at the position of the grid point `i j k` the value is the one of the
voxel that is equivalent to it, if its basin or its atom is visible, and -1 otherwise. -/
theorem C107_values (s : Shape) (L : M3 K) (data : ℕ → ℕ → ℕ → K) (basins atoms : ℕ → ℕ → ℕ → ℤ) (visB visA : List ℤ) (i j k : ℕ) (hi : i ≤ s.nx)
    (hj : j ≤ s.ny) (hk : k ≤ s.nz) :
    let p := i + (s.nx + 1) * (j + (s.ny + 1) * k)
    let c := (i % s.nx, j % s.ny, k % s.nz)
    (plotPoints s L)[p]? = some (vecMat ((i : K) / (s.nx : K), (j : K) / (s.ny : K), (k : K) / (s.nz : K)) L) ∧
    (maskedValues s data basins atoms visB visA)[p]? =
      some (if basins c.1 c.2.1 c.2.2 ∈ visB ∨ atoms c.1 c.2.1 c.2.2 ∈ visA then data c.1 c.2.1 c.2.2 else -1) := by
  intro p c
  have hi' : i < (padFarShape s).nx := Nat.lt_succ_of_le hi
  have hj' : j < (padFarShape s).ny := Nat.lt_succ_of_le hj
  have hk' : k < (padFarShape s).nz := Nat.lt_succ_of_le hk
  constructor
  · unfold plotPoints
    rw [List.getElem?_map]
    rw [show p = i + (padFarShape s).nx * (j + (padFarShape s).ny * k) from rfl, ravelFar_getElem _ _ i j k hi' hj' hk']
    rfl
  · unfold maskedValues
    rw [show p = i + (padFarShape s).nx * (j + (padFarShape s).ny * k) from rfl]
    rw [List.getElem?_zipWith, List.getElem?_zipWith, ravelFar_getElem _ _ i j k hi' hj' hk', ravelFar_getElem _ _ i j k hi' hj' hk',
      ravelFar_getElem _ _ i j k hi' hj' hk']
    simp only [padFar, c]
    by_cases h1 : basins (i % s.nx) (j % s.ny) (k % s.nz) ∈ visB <;> by_cases h2 : atoms (i % s.nx) (j % s.ny) (k % s.nz) ∈ visA <;> simp [h1, h2]

/-- A point that belongs to a visible basin or atom. -/
def PointVisible (s : Shape) (basins atoms : ℕ → ℕ → ℕ → ℤ) (visB visA : List ℤ) (i j k : ℕ) : Prop :=
  basins (i % s.nx) (j % s.ny) (k % s.nz) ∈ visB ∨ atoms (i % s.nx) (j % s.ny) (k % s.nz) ∈ visA

/-- **C107** For a value above -1 the region enclosed by the surface consists of the visible points with at least this value.  Missing for the full claim:
values that are not above -1 (`C107_hidden_shown`). -/
theorem C107_enclosed_partial (s : Shape) (data : ℕ → ℕ → ℕ → K) (basins atoms : ℕ → ℕ → ℕ → ℤ) (visB visA : List ℤ) (i j k : ℕ) (hi : i ≤ s.nx)
    (hj : j ≤ s.ny) (hk : k ≤ s.nz) (iso : K) (h : -1 < iso) :
    (∃ v, (maskedValues s data basins atoms visB visA)[i + (s.nx + 1) * (j + (s.ny + 1) * k)]? = some v ∧ iso ≤ v) ↔
      PointVisible s basins atoms visB visA i j k ∧ iso ≤ data (i % s.nx) (j % s.ny) (k % s.nz) := by
  have e := (C107_values s ((0, 0, 0), (0, 0, 0), (0, 0, 0)) data basins atoms visB visA i j k hi hj hk).2
  rw [e]
  unfold PointVisible
  simp only [Option.some.injEq, exists_eq_left']
  split_ifs with hc
  · simp [hc]
  · simp only [hc, false_and, iff_false, not_le]
    exact h

/-- **C107** (negative part) For a value of -1 or less, which a grid with negative data has as its first value, every hidden point is enclosed by the surface. -/
theorem C107_hidden_shown (s : Shape) (data : ℕ → ℕ → ℕ → K) (basins atoms : ℕ → ℕ → ℕ → ℤ) (visB visA : List ℤ) (i j k : ℕ) (hi : i ≤ s.nx)
    (hj : j ≤ s.ny) (hk : k ≤ s.nz) (iso : K) (h : iso ≤ -1) (hid : ¬ PointVisible s basins atoms visB visA i j k) :
    ∃ v, (maskedValues s data basins atoms visB visA)[i + (s.nx + 1) * (j + (s.ny + 1) * k)]? = some v ∧ iso ≤ v := by
  refine ⟨_, (C107_values s ((0, 0, 0), (0, 0, 0), (0, 0, 0)) data basins atoms visB visA i j k hi hj hk).2, ?_⟩
  unfold PointVisible at hid
  simp only [if_neg hid]
  exact h

/-- Two voxels, the second one hidden; the third point is the first voxel again. -/
example : maskedValues (⟨2, 1, 1⟩ : Shape) (fun i _ _ => (5 + i : ℚ)) (fun i _ _ => i) (fun _ _ _ => 0) [0] [] = [5, -1, 5, 5, -1, 5, 5, -1, 5, 5, -1, 5] := by
  decide +kernel

end field

/-! ## The order of the atoms -/

/-- **C107** The index of an atom in the plot is its index in the structure (and in the labels of the Bader analysis) exactly when the atoms are already
ordered by electronegativity. -/
theorem C107_atom_order {K : Type*} [LinearOrder K] (key : ℕ → K) (n : ℕ) :
    (∀ i < n, (plotOrder key n)[i]? = some i) ↔ ∀ i j, i < j → j < n → key i ≤ key j := by
  have : Std.Total (fun a b : ℕ => key a ≤ key b) := ⟨fun a b => le_total _ _⟩
  have : IsTrans ℕ (fun a b : ℕ => key a ≤ key b) := ⟨fun _ _ _ h1 h2 => le_trans h1 h2⟩
  have hlen : (plotOrder key n).length = n := by
    unfold plotOrder
    rw [List.length_insertionSort, List.length_range]
  constructor
  · intro h i j hij hj
    have hs : List.Pairwise (fun a b : ℕ => key a ≤ key b) (plotOrder key n) := List.pairwise_insertionSort _ _
    have e : plotOrder key n = List.range n := by
      refine List.ext_getElem? fun i => ?_
      by_cases hi : i < n
      · rw [h i hi, List.getElem?_range hi]
      · rw [List.getElem?_eq_none (by omega), List.getElem?_eq_none (by rw [List.length_range]; omega)]
    rw [e, List.pairwise_iff_getElem] at hs
    have := hs i j (by rw [List.length_range]; omega) (by rw [List.length_range]; omega) hij
    simpa using this
  · intro h i hi
    have hp : List.Pairwise (fun a b : ℕ => key a ≤ key b) (List.range n) := by
      rw [List.pairwise_iff_getElem]
      intro i j h1 h2 hij
      rw [List.length_range] at h2
      simpa using h i j hij h2
    unfold plotOrder
    rw [hp.insertionSort_eq, List.getElem?_range hi]

/-- A structure with the more electronegative element first: the atom 0 of the plot is the atom 1 of the analysis. -/
example : plotOrder (fun i => if i = 0 then (3 : ℚ) else 1) 2 = [1, 0] := by decide +kernel

end BaderKit
