import Verif.Props.Assign
import Verif.Props.CoordEnv
import Verif.Props.Transforms
/-!
# C24, C36, C52 in cells of any shape

The searches look at one image per atom, at 27 cells, or at a box of transformations.  In a skewed cell the nearest image can be outside.  Here it is
shown that what is found is right whenever it is short compared with the distances between opposite faces of the cell.  The distance
between the faces `k` is `1 / |B_k|`, where `B` are the reciprocal vectors.
-/
set_option linter.unusedSectionVars false
namespace BaderKit
variable {K : Type} [Field K] [LinearOrder K] [IsStrictOrderedRing K] [FloorRing K]

/-- `B` are the reciprocal vectors of `L` (without a factor of 2π). -/
def Reciprocal (L B : M3 K) : Prop :=
  (dotV L.1 B.1 = 1 ∧ dotV L.1 B.2.1 = 0 ∧ dotV L.1 B.2.2 = 0) ∧
  (dotV L.2.1 B.1 = 0 ∧ dotV L.2.1 B.2.1 = 1 ∧ dotV L.2.1 B.2.2 = 0) ∧
  (dotV L.2.2 B.1 = 0 ∧ dotV L.2.2 B.2.1 = 0 ∧ dotV L.2.2 B.2.2 = 1)

theorem dotV_sq_le (x y : V3 K) : dotV x y ^ 2 ≤ norm2 x * norm2 y := by
  unfold dotV norm2
  nlinarith [sq_nonneg (x.1 * y.2.1 - x.2.1 * y.1), sq_nonneg (x.1 * y.2.2 - x.2.2 * y.1), sq_nonneg (x.2.1 * y.2.2 - x.2.2 * y.2.1)]

/-- A fractional component is at most the length divided by the distance of the faces. -/
theorem Reciprocal.comp_le {L B : M3 K} (h : Reciprocal L B) (x : V3 K) :
    x.1 ^ 2 ≤ norm2 (vecMat x L) * norm2 B.1 ∧ x.2.1 ^ 2 ≤ norm2 (vecMat x L) * norm2 B.2.1 ∧
    x.2.2 ^ 2 ≤ norm2 (vecMat x L) * norm2 B.2.2 := by
  obtain ⟨⟨a1, a2, a3⟩, ⟨b1, b2, b3⟩, c1, c2, c3⟩ := h
  have e1 : dotV (vecMat x L) B.1 = x.1 := by
    unfold dotV vecMat at *
    simp only
    linear_combination x.1 * a1 + x.2.1 * b1 + x.2.2 * c1
  have e2 : dotV (vecMat x L) B.2.1 = x.2.1 := by
    unfold dotV vecMat at *
    simp only
    linear_combination x.1 * a2 + x.2.1 * b2 + x.2.2 * c2
  have e3 : dotV (vecMat x L) B.2.2 = x.2.2 := by
    unfold dotV vecMat at *
    simp only
    linear_combination x.1 * a3 + x.2.1 * b3 + x.2.2 * c3
  refine ⟨?_, ?_, ?_⟩
  · have := dotV_sq_le (vecMat x L) B.1; rwa [e1] at this
  · have := dotV_sq_le (vecMat x L) B.2.1; rwa [e2] at this
  · have := dotV_sq_le (vecMat x L) B.2.2; rwa [e3] at this

theorem Reciprocal.norm_pos {L B : M3 K} (h : Reciprocal L B) : 0 < norm2 B.1 ∧ 0 < norm2 B.2.1 ∧ 0 < norm2 B.2.2 := by
  obtain ⟨⟨a1, -, -⟩, ⟨-, b2, -⟩, -, -, c3⟩ := h
  have key : ∀ x y : V3 K, dotV x y = 1 → 0 < norm2 y := by
    intro x y h
    have := dotV_sq_le x y
    rw [h] at this
    by_contra hn
    have h0 : norm2 y = 0 := le_antisymm (not_lt.mp hn) (norm2_nonneg y)
    rw [h0] at this
    norm_num at this
  exact ⟨key _ _ a1, key _ _ b2, key _ _ c3⟩

/-- The distance is at most `c` times the distance between opposite faces, for all three pairs of faces. -/
def WithinFaces (B : M3 K) (c d : K) : Prop :=
  d * d * norm2 B.1 ≤ c ^ 2 ∧ d * d * norm2 B.2.1 ≤ c ^ 2 ∧ d * d * norm2 B.2.2 ≤ c ^ 2

/-- An image that is nearer than such a distance has components below `c`. -/
theorem comp_lt {L B : M3 K} (h : Reciprocal L B) {c d : K} (hc : 0 < c) (hd : WithinFaces B c d) {x : V3 K} (hx : norm2 (vecMat x L) < d * d) :
    |x.1| < c ∧ |x.2.1| < c ∧ |x.2.2| < c := by
  obtain ⟨p1, p2, p3⟩ := h.norm_pos
  obtain ⟨q1, q2, q3⟩ := h.comp_le x
  obtain ⟨r1, r2, r3⟩ := hd
  refine ⟨?_, ?_, ?_⟩
  · exact abs_lt_of_sq_lt_sq (lt_of_le_of_lt q1 (lt_of_lt_of_le (mul_lt_mul_of_pos_right hx p1) r1)) hc.le
  · exact abs_lt_of_sq_lt_sq (lt_of_le_of_lt q2 (lt_of_lt_of_le (mul_lt_mul_of_pos_right hx p2) r2)) hc.le
  · exact abs_lt_of_sq_lt_sq (lt_of_le_of_lt q3 (lt_of_lt_of_le (mul_lt_mul_of_pos_right hx p3) r3)) hc.le

theorem wrapHalf_unique {d : K} (hd : |d| < 3 / 2) {n : ℤ} (h : |d + n| < 1 / 2) : wrapHalf d = d + n := by
  obtain ⟨m, hm⟩ := wrapHalf_int d
  have h1 := wrapHalf_le hd
  rw [hm] at h1 ⊢
  have : ((m - n : ℤ) : K) = (d + m) - (d + n) := by push_cast; ring
  have h2 : |((m - n : ℤ) : K)| < 1 := by
    rw [this]
    obtain ⟨a, b⟩ := abs_le.mp h1
    obtain ⟨a', b'⟩ := abs_lt.mp h
    rw [abs_lt]
    constructor <;> linarith
  have h3 : |m - n| < 1 := by exact_mod_cast h2
  have : m = n := by
    have := Int.abs_lt_one_iff.mp h3
    omega
  rw [this]

theorem IsRoot.lt_of_lt {root : K → K} (hr : IsRoot root) {x d : K} (hx : 0 ≤ x) (h : root x < d) : x < d * d := by
  obtain ⟨h1, h2⟩ := hr x hx
  rw [← h2]
  exact mul_self_lt_mul_self h1 h

/-- **C24** In a cell of any shape: if the reported distance is at most half of each distance between opposite faces of the cell, then it is the
smallest distance from the basin to any image of any atom. -/
theorem C24_nearest_short (root : K → K) (hr : IsRoot root) (L B : M3 K) (hB : Reciprocal L B)
    (atoms basins : List (V3 K)) (hclose : ∀ a ∈ atoms, ∀ b ∈ basins, CloseBy a b) (labels : ℕ → ℤ)
    (bc bv : List K) (r : Assignment K)
    (h : assignBasins root L atoms basins labels bc bv = some r) (i : ℕ) (hi : i < basins.length)
    (h1 : i < r.basinAtoms.length) (h2 : i < r.dists.length) (hshort : WithinFaces B (1 / 2) r.dists[i]) :
    ∃ ha : r.basinAtoms[i] < atoms.length,
      IsNearest root L atoms[r.basinAtoms[i]] basins[i] r.dists[i] ∧
      ∀ (j : ℕ) (hj : j < atoms.length) (t : ℤ × ℤ × ℤ),
        r.dists[i] ≤ root (dist2 L (image atoms[j] t) basins[i]) := by
  obtain ⟨_, _, g3, _⟩ := assignBasins_spec h
  obtain ⟨ha, e, hmin⟩ := g3 i hi h1 h2
  have all : ∀ (j : ℕ) (hj : j < atoms.length) (t : ℤ × ℤ × ℤ), r.dists[i] ≤ root (dist2 L (image atoms[j] t) basins[i]) := by
    intro j hj t
    by_contra hlt
    rw [not_le] at hlt
    obtain ⟨c1, c2, c3⟩ := comp_lt hB (by norm_num) hshort (hr.lt_of_lt (norm2_nonneg _) hlt)
    obtain ⟨d1, d2, d3⟩ := hclose _ (List.getElem_mem hj) _ (List.getElem_mem hi)
    have e1 := wrapHalf_unique d1 (n := t.1) (by convert c1 using 2; simp only [subV, image]; ring)
    have e2 := wrapHalf_unique d2 (n := t.2.1) (by convert c2 using 2; simp only [subV, image]; ring)
    have e3 := wrapHalf_unique d3 (n := t.2.2) (by convert c3 using 2; simp only [subV, image]; ring)
    have hw : wrapHalfV (subV atoms[j] basins[i]) = subV (image atoms[j] t) basins[i] := by
      simp only [wrapHalfV, subV, e1, e2, e3, image]
      ext <;> simp only <;> ring
    have := (hmin j hj).1
    rw [hw] at this
    exact absurd hlt (not_lt.mpr this)
  refine ⟨ha, ⟨?_, all _ ha⟩, all⟩
  obtain ⟨t, ht⟩ := wrapHalfV_image atoms[r.basinAtoms[i]] basins[i]
  exact ⟨t, by rw [e, ht]; rfl⟩

/-- **C36** In a cell of any shape, with all atoms less than one cell apart: if the reported distance is at most each distance between opposite
faces, then it is the smallest distance to any other site of the infinite crystal. -/
theorem C36_crystal_short (root : K → K) (hr : IsRoot root) (L B : M3 K) (hB : Reciprocal L B)
    (frac : List (V3 K)) (hclose : ∀ a ∈ frac, ∀ b ∈ frac, |a.1 - b.1| < 1 ∧ |a.2.1 - b.2.1| < 1 ∧ |a.2.2 - b.2.2| < 1)
    (i : ℕ) (hi : i < frac.length)
    (hshort : WithinFaces B 1 (nearestNeighbor root L frac (frac.map fun f => vecMat f L) i).1)
    (j : ℕ) (hj : j < frac.length) (t : Coord) (hne : ¬ (j = i ∧ t = (0, 0, 0))) :
    (nearestNeighbor root L frac (frac.map fun f => vecMat f L) i).1 ≤
      root (dist2 L (image frac[j] t) frac[i]) := by
  obtain ⟨_, h2, _⟩ := C36_minimum root L frac i hi
  by_contra hlt
  rw [not_le] at hlt
  obtain ⟨c1, c2, c3⟩ := comp_lt hB (by norm_num) hshort (hr.lt_of_lt (norm2_nonneg _) hlt)
  obtain ⟨d1, d2, d3⟩ := hclose _ (List.getElem_mem hj) _ (List.getElem_mem hi)
  have key : ∀ (a b : K) (n : ℤ), |a - b| < 1 → |a + n - b| < 1 → |n| ≤ 1 := by
    intro a b n h1 h2
    obtain ⟨x1, x2⟩ := abs_lt.mp h1
    obtain ⟨y1, y2⟩ := abs_lt.mp h2
    have l1 : (n : K) < 2 := by linarith
    have l2 : (-2 : K) < n := by linarith
    have l1' : n < 2 := by exact_mod_cast l1
    have l2' : -2 < n := by exact_mod_cast l2
    rw [abs_le]
    constructor <;> omega
  exact absurd hlt (not_lt.mpr (h2 j hj t (key _ _ _ d1 c1) (key _ _ _ d2 c2) (key _ _ _ d3 c3) hne))

theorem ceil_bound {root : K → K} (hr : IsRoot root) {r : K} (hr0 : 0 ≤ r) {a b : V3 K} {n : ℕ} (hn : 0 < n) {t : ℤ} {q : K}
    (ha : 0 < norm2 a) (h1 : ((t : K) / n) ^ 2 ≤ q * norm2 b) (h2 : q * norm2 a * norm2 b ≤ r ^ 2) : |t| ≤ nmaxAxis root r a n := by
  have hn' : (0 : K) < n := by exact_mod_cast hn
  obtain ⟨h3, h4⟩ := hr (norm2 a) ha.le
  have hra : 0 < root (norm2 a) := lt_of_le_of_ne h3 (by intro h; rw [← h] at h4; simp at h4; exact ha.ne h4)
  have hsq : (|(t : K)| / n * root (norm2 a)) ^ 2 ≤ r ^ 2 := by
    have e : (|(t : K)| / n * root (norm2 a)) ^ 2 = ((t : K) / n) ^ 2 * norm2 a := by
      rw [mul_pow, div_pow, sq_abs, div_pow, pow_two (root (norm2 a)), h4]
    rw [e]
    have := mul_le_mul_of_nonneg_right h1 ha.le
    nlinarith [this]
  have hle : |(t : K)| / n * root (norm2 a) ≤ r := by
    by_contra hc
    push Not at hc
    have := pow_lt_pow_left₀ hc hr0 (n := 2) (by norm_num)
    linarith
  have hfin : |(t : K)| ≤ r / root (norm2 a) * n := by
    have : |(t : K)| = (|(t : K)| / n * root (norm2 a)) / root (norm2 a) * n := by field_simp
    rw [this]
    exact mul_le_mul_of_nonneg_right (div_le_div_of_nonneg_right hle hra.le) hn'.le
  unfold nmaxAxis
  have : ((|t| : ℤ) : K) ≤ (⌈r / root (norm2 a) * (n : K)⌉ : ℤ) := by
    push_cast
    exact hfin.trans (Int.le_ceil _)
  exact_mod_cast this

/-- **C52** In a cell of any shape every transformation is returned that is shorter than the radius times the smallest ratio of the distance
between opposite faces and the length of the lattice vector between them (the ratio is one in an orthogonal cell). -/
theorem C52_complete_short (root : K → K) (hroot : IsRoot root) (sort : List (Coord × K) → List (Coord × K))
    (hs : SortsByDist sort) (r : K) (s : Shape) (hx : 0 < s.nx) (hy : 0 < s.ny) (hz : 0 < s.nz) (L B : M3 K)
    (hB : Reciprocal L B) (t : Coord) (ht : root (norm2 (cartOf s L t)) + 1 / 2 / 10 ^ 12 ≤ r)
    (h1 : norm2 (cartOf s L t) * norm2 L.1 * norm2 B.1 ≤ r ^ 2) (h2 : norm2 (cartOf s L t) * norm2 L.2.1 * norm2 B.2.1 ≤ r ^ 2)
    (h3 : norm2 (cartOf s L t) * norm2 L.2.2 * norm2 B.2.2 ≤ r ^ 2) :
    ∃ d, (t, d) ∈ radiusTransforms root sort r s L := by
  have hr0 : 0 ≤ r := by
    have := (hroot _ (norm2_nonneg (cartOf s L t))).1
    have : (0 : K) < 1 / 2 / 10 ^ 12 := by positivity
    linarith
  have hpos : 0 < norm2 L.1 ∧ 0 < norm2 L.2.1 ∧ 0 < norm2 L.2.2 := by
    obtain ⟨⟨a1, -, -⟩, ⟨-, b2, -⟩, -, -, c3⟩ := hB
    have key : ∀ x y : V3 K, dotV x y = 1 → 0 < norm2 x := by
      intro x y h
      have := dotV_sq_le x y
      rw [h] at this
      by_contra hn
      have h0 : norm2 x = 0 := le_antisymm (not_lt.mp hn) (norm2_nonneg x)
      rw [h0] at this
      norm_num at this
    exact ⟨key _ _ a1, key _ _ b2, key _ _ c3⟩
  obtain ⟨q1, q2, q3⟩ := hB.comp_le ((t.1 : K) / (s.nx : K), (t.2.1 : K) / (s.ny : K), (t.2.2 : K) / (s.nz : K))
  refine ⟨_, (radius_mem root sort hs r s L t _).mpr ⟨rfl, ?_, ?_, ?_, ?_⟩⟩
  · have := (abs_le.mp (roundDec_near 12 (root (norm2 (cartOf s L t))))).1
    linarith
  · exact ceil_bound hroot hr0 hx hpos.1 q1 h1
  · exact ceil_bound hroot hr0 hy hpos.2.1 q2 h2
  · exact ceil_bound hroot hr0 hz hpos.2.2 q3 h3

/-! ### Cases -/

/-- A cell with an angle of 60 degrees (up to rounding) and its reciprocal vectors. -/
def hexL : M3 ℚ := ((4, 0, 0), (2, 7 / 2, 0), (0, 0, 5))
/-- Its reciprocal vectors. -/
def hexB : M3 ℚ := ((1 / 4, -1 / 7, 0), (0, 2 / 7, 0), (0, 0, 1 / 5))

/-- The hypotheses of `C24_nearest_short` and `C36_crystal_short` on the cell and the distances. -/
example : Reciprocal hexL hexB ∧ WithinFaces hexB (1 / 2) (3 / 2) ∧ WithinFaces hexB 1 3 := by
  unfold Reciprocal WithinFaces; decide +kernel

/-- The neighbour of an atom in this cell: at squared distance 4 (the root is left out). -/
example : (nearestNeighbor (fun x : ℚ => x) hexL [(0, 0, 0), (1 / 2, 0, 0)] ([(0, 0, 0), (1 / 2, 0, 0)].map fun f => vecMat f hexL) 0).1 = 4 := by
  decide +kernel

/-- The hypotheses of `C52_complete_short` for a step of one point along the first vector, radius 3, 4 points per vector. -/
example : let s : Shape := ⟨4, 4, 4⟩; let q := norm2 (cartOf s hexL (1, 0, 0))
    q = 1 ∧ q * norm2 hexL.1 * norm2 hexB.1 ≤ 3 ^ 2 ∧ q * norm2 hexL.2.1 * norm2 hexB.2.1 ≤ 3 ^ 2 ∧ q * norm2 hexL.2.2 * norm2 hexB.2.2 ≤ 3 ^ 2 := by
  decide +kernel

end BaderKit
