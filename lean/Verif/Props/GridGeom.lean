import Verif.Model.GridGeom
import Verif.Props.Badelf
import Verif.Props.NearestGeneral
import Verif.Props.FeatureSurface
set_option linter.unusedSectionVars false
/-! # Property C87: extent of a voxel, voxels inside of planes, distances from the lattice points -/
namespace BaderKit

section
variable {K : Type} [Field K] [LinearOrder K] [IsStrictOrderedRing K] [FloorRing K]

/-! ## Specification -/

/-- The vector from the centre of a voxel with the fractions `x` of its three edges. -/
def voxelOffset (s : Shape) (L : M3 K) (x : V3 K) : V3 K :=
  vecMat (x.1 / (s.nx : K), x.2.1 / (s.ny : K), x.2.2 / (s.nz : K)) L

/-- The fractions of the points of a voxel: at most half an edge in each direction. -/
def InVoxel (x : V3 K) : Prop := |x.1| ≤ 1 / 2 ∧ |x.2.1| ≤ 1 / 2 ∧ |x.2.2| ≤ 1 / 2

/-! ## Lemmas -/

theorem line_le_ends (A W : V3 K) {x : K} (hx : |x| ≤ 1 / 2) :
    norm2 (addV (x * A.1, x * A.2.1, x * A.2.2) W) ≤ norm2 (addV (1 / 2 * A.1, 1 / 2 * A.2.1, 1 / 2 * A.2.2) W) ∨
    norm2 (addV (x * A.1, x * A.2.1, x * A.2.2) W) ≤ norm2 (addV (-(1 / 2) * A.1, -(1 / 2) * A.2.1, -(1 / 2) * A.2.2) W) := by
  have e : ∀ y : K, norm2 (addV (y * A.1, y * A.2.1, y * A.2.2) W) = y ^ 2 * norm2 A + 2 * y * dotV A W + norm2 W := by
    intro y; simp only [norm2, addV, dotV]; ring
  rw [e, e, e]
  have h1 := abs_le.mp hx
  have h2 : x ^ 2 ≤ 1 / 4 := by nlinarith [h1.1, h1.2]
  have h3 := mul_le_mul_of_nonneg_right h2 (norm2_nonneg A)
  rcases le_total 0 (dotV A W) with h | h
  · left; nlinarith [mul_le_mul_of_nonneg_right h1.2 h]
  · right; nlinarith [mul_nonneg_of_nonpos_of_nonpos (show -x - 1 / 2 ≤ 0 by linarith [h1.1]) h]

theorem voxelOffset_eq (s : Shape) (L : M3 K) (x : V3 K) : voxelOffset s L x =
    addV (x.1 * (gridMat s L).1.1, x.1 * (gridMat s L).1.2.1, x.1 * (gridMat s L).1.2.2)
      (addV (x.2.1 * (gridMat s L).2.1.1, x.2.1 * (gridMat s L).2.1.2.1, x.2.1 * (gridMat s L).2.1.2.2)
        (x.2.2 * (gridMat s L).2.2.1, x.2.2 * (gridMat s L).2.2.2.1, x.2.2 * (gridMat s L).2.2.2.2)) := by
  simp only [voxelOffset, vecMat, gridMat, addV, Prod.mk.injEq]
  refine ⟨?_, ?_, ?_⟩ <;> ring

theorem addV_left_comm3 (a b c : V3 K) : addV a (addV b c) = addV b (addV a c) := by
  simp only [addV, Prod.mk.injEq]; refine ⟨?_, ?_, ?_⟩ <;> ring

theorem addV_rot (a b c : V3 K) : addV a (addV b c) = addV c (addV a b) := by
  simp only [addV, Prod.mk.injEq]; refine ⟨?_, ?_, ?_⟩ <;> ring

/-- A corner of the voxel: plus or minus half an edge. -/
def cornerSign (b : Bool) : K := if b then 1 / 2 else -(1 / 2)

theorem offset_le_corner (s : Shape) (L : M3 K) {x : V3 K} (hx : InVoxel x) : ∃ p q r : Bool,
    norm2 (voxelOffset s L x) ≤ norm2 (voxelOffset s L (cornerSign p, cornerSign q, cornerSign r)) := by
  obtain ⟨h1, h2, h3⟩ := hx
  have s1 : ∃ p : Bool, norm2 (voxelOffset s L x) ≤ norm2 (voxelOffset s L (cornerSign p, x.2.1, x.2.2)) := by
    rw [voxelOffset_eq]
    rcases line_le_ends (gridMat s L).1 _ h1 with h | h
    · exact ⟨true, by rw [voxelOffset_eq]; exact h⟩
    · exact ⟨false, by rw [voxelOffset_eq]; exact h⟩
  obtain ⟨p, s1⟩ := s1
  have s2 : ∃ q : Bool, norm2 (voxelOffset s L (cornerSign p, x.2.1, x.2.2)) ≤
      norm2 (voxelOffset s L (cornerSign p, cornerSign q, x.2.2)) := by
    have e : ∀ y : K, voxelOffset s L (cornerSign p, y, x.2.2) =
        addV (y * (gridMat s L).2.1.1, y * (gridMat s L).2.1.2.1, y * (gridMat s L).2.1.2.2)
          (addV (cornerSign p * (gridMat s L).1.1, cornerSign p * (gridMat s L).1.2.1, cornerSign p * (gridMat s L).1.2.2)
            (x.2.2 * (gridMat s L).2.2.1, x.2.2 * (gridMat s L).2.2.2.1, x.2.2 * (gridMat s L).2.2.2.2)) := by
      intro y; rw [voxelOffset_eq, addV_left_comm3]
    rw [e]
    rcases line_le_ends (gridMat s L).2.1 (addV (cornerSign p * (gridMat s L).1.1, cornerSign p * (gridMat s L).1.2.1,
        cornerSign p * (gridMat s L).1.2.2) (x.2.2 * (gridMat s L).2.2.1, x.2.2 * (gridMat s L).2.2.2.1,
        x.2.2 * (gridMat s L).2.2.2.2)) h2 with h | h
    · exact ⟨true, by rw [e]; exact h⟩
    · exact ⟨false, by rw [e]; exact h⟩
  obtain ⟨q, s2⟩ := s2
  have s3 : ∃ r : Bool, norm2 (voxelOffset s L (cornerSign p, cornerSign q, x.2.2)) ≤
      norm2 (voxelOffset s L (cornerSign p, cornerSign q, cornerSign r)) := by
    have e : ∀ y : K, voxelOffset s L (cornerSign p, cornerSign q, y) =
        addV (y * (gridMat s L).2.2.1, y * (gridMat s L).2.2.2.1, y * (gridMat s L).2.2.2.2)
          (addV (cornerSign p * (gridMat s L).1.1, cornerSign p * (gridMat s L).1.2.1, cornerSign p * (gridMat s L).1.2.2)
            (cornerSign q * (gridMat s L).2.1.1, cornerSign q * (gridMat s L).2.1.2.1, cornerSign q * (gridMat s L).2.1.2.2)) := by
      intro y; rw [voxelOffset_eq, addV_rot]
    rw [e]
    rcases line_le_ends (gridMat s L).2.2 (addV (cornerSign p * (gridMat s L).1.1, cornerSign p * (gridMat s L).1.2.1,
        cornerSign p * (gridMat s L).1.2.2) (cornerSign q * (gridMat s L).2.1.1, cornerSign q * (gridMat s L).2.1.2.1,
        cornerSign q * (gridMat s L).2.1.2.2)) h3 with h | h
    · exact ⟨true, by rw [e]; exact h⟩
    · exact ⟨false, by rw [e]; exact h⟩
  obtain ⟨r, s3⟩ := s3
  exact ⟨p, q, r, s1.trans (s2.trans s3)⟩

theorem foldl_max_spec (l : List K) (a : K) : (∀ x ∈ a :: l, x ≤ l.foldl max a) ∧ l.foldl max a ∈ a :: l := by
  induction l generalizing a with
  | nil => simp
  | cons b l ih =>
    obtain ⟨h1, h2⟩ := ih (max a b)
    simp only [List.foldl_cons]
    refine ⟨?_, ?_⟩
    · intro x hx
      rcases List.mem_cons.mp hx with rfl | hx
      · exact (le_max_left _ b).trans (h1 _ (by simp))
      rcases List.mem_cons.mp hx with rfl | hx
      · exact (le_max_right a _).trans (h1 _ (by simp))
      · exact h1 x (by simp [hx])
    · rcases List.mem_cons.mp h2 with h | h
      · rw [h]
        rcases max_choice a b with e | e <;> rw [e] <;> simp
      · simp [h]

theorem foldl_min_spec (l : List K) (a : K) : (∀ x ∈ a :: l, l.foldl min a ≤ x) ∧ l.foldl min a ∈ a :: l := by
  induction l generalizing a with
  | nil => simp
  | cons b l ih =>
    obtain ⟨h1, h2⟩ := ih (min a b)
    simp only [List.foldl_cons]
    refine ⟨?_, ?_⟩
    · intro x hx
      rcases List.mem_cons.mp hx with rfl | hx
      · exact (h1 _ (by simp)).trans (min_le_left _ b)
      rcases List.mem_cons.mp hx with rfl | hx
      · exact (h1 _ (by simp)).trans (min_le_right a _)
      · exact h1 x (by simp [hx])
    · rcases List.mem_cons.mp h2 with h | h
      · rw [h]
        rcases min_choice a b with e | e <;> rw [e] <;> simp
      · simp [h]

/-! ## The extent of a voxel -/

/-- **C87** The number reported is the largest distance of a point of a voxel from its centre: no point of the voxel is
further away and one is that far. -/
theorem C87_extent {root : K → K} (hr : IsRoot root) (s : Shape) (L : M3 K) :
    (∀ x, InVoxel x → root (norm2 (voxelOffset s L x)) ≤ maxPointDist root s L) ∧
    ∃ x, InVoxel x ∧ root (norm2 (voxelOffset s L x)) = maxPointDist root s L := by
  have hc : ∀ b : Bool, |(cornerSign b : K)| ≤ 1 / 2 := by
    intro b; unfold cornerSign; cases b
    · simp only [Bool.false_eq_true, if_false, abs_neg]; rw [abs_of_pos (by norm_num)]
    · simp only [if_true]; rw [abs_of_pos (by norm_num)]
  obtain ⟨hall, hmem⟩ := foldl_max_spec (([((0, 0, 0) : V3 K), (gridMat s L).1, (gridMat s L).2.1, (gridMat s L).2.2,
    addV (gridMat s L).1 (gridMat s L).2.1, addV (gridMat s L).2.1 (gridMat s L).2.2, addV (gridMat s L).2.2 (gridMat s L).1,
    ((0, 0, 0) : V3 K)].map fun v => root (norm2 (subV v
      (((addV (addV (gridMat s L).1 (gridMat s L).2.1) (gridMat s L).2.2).1 / 2,
        (addV (addV (gridMat s L).1 (gridMat s L).2.1) (gridMat s L).2.2).2.1 / 2,
        (addV (addV (gridMat s L).1 (gridMat s L).2.1) (gridMat s L).2.2).2.2 / 2) : V3 K)))))
    (root (norm2 (subV (((addV (addV (gridMat s L).1 (gridMat s L).2.1) (gridMat s L).2.2).1 / 2,
        (addV (addV (gridMat s L).1 (gridMat s L).2.1) (gridMat s L).2.2).2.1 / 2,
        (addV (addV (gridMat s L).1 (gridMat s L).2.1) (gridMat s L).2.2).2.2 / 2) : V3 K)
      (((addV (addV (gridMat s L).1 (gridMat s L).2.1) (gridMat s L).2.2).1 / 2,
        (addV (addV (gridMat s L).1 (gridMat s L).2.1) (gridMat s L).2.2).2.1 / 2,
        (addV (addV (gridMat s L).1 (gridMat s L).2.1) (gridMat s L).2.2).2.2 / 2) : V3 K))))
  change ∀ x ∈ _, x ≤ maxPointDist root s L at hall
  change maxPointDist root s L ∈ _ at hmem
  simp only [List.map_cons, List.map_nil] at hall hmem
  generalize hA : (gridMat s L).1 = A at hall hmem
  generalize hB : (gridMat s L).2.1 = B at hall hmem
  generalize hC : (gridMat s L).2.2 = C at hall hmem
  have off : ∀ x : V3 K, voxelOffset s L x = addV (x.1 * A.1, x.1 * A.2.1, x.1 * A.2.2)
      (addV (x.2.1 * B.1, x.2.1 * B.2.1, x.2.1 * B.2.2) (x.2.2 * C.1, x.2.2 * C.2.1, x.2.2 * C.2.2)) := by
    intro x; rw [voxelOffset_eq, hA, hB, hC]
  constructor
  · intro x hx
    obtain ⟨p, q, r, h⟩ := offset_le_corner s L hx
    refine (hr.mono (norm2_nonneg _) h).trans ?_
    rw [off]
    cases p <;> cases q <;> cases r <;> simp only [cornerSign, Bool.false_eq_true, if_false, if_true]
    · refine (le_of_eq (congrArg root ?_)).trans (hall _ (List.mem_cons_of_mem _ List.mem_cons_self))
      simp only [norm2, addV, subV]; ring
    · refine (le_of_eq (congrArg root ?_)).trans (hall _ (List.mem_cons_of_mem _ (List.mem_cons_of_mem _
        (List.mem_cons_of_mem _ (List.mem_cons_of_mem _ List.mem_cons_self)))))
      simp only [norm2, addV, subV]; ring
    · refine (le_of_eq (congrArg root ?_)).trans (hall _ (List.mem_cons_of_mem _ (List.mem_cons_of_mem _
        (List.mem_cons_of_mem _ List.mem_cons_self))))
      simp only [norm2, addV, subV]; ring
    · refine (le_of_eq (congrArg root ?_)).trans (hall _ (List.mem_cons_of_mem _ (List.mem_cons_of_mem _
        List.mem_cons_self)))
      simp only [norm2, addV, subV]; ring
    · refine (le_of_eq (congrArg root ?_)).trans (hall _ (List.mem_cons_of_mem _ (List.mem_cons_of_mem _
        List.mem_cons_self)))
      simp only [norm2, addV, subV]; ring
    · refine (le_of_eq (congrArg root ?_)).trans (hall _ (List.mem_cons_of_mem _ (List.mem_cons_of_mem _
        (List.mem_cons_of_mem _ List.mem_cons_self))))
      simp only [norm2, addV, subV]; ring
    · refine (le_of_eq (congrArg root ?_)).trans (hall _ (List.mem_cons_of_mem _ (List.mem_cons_of_mem _
        (List.mem_cons_of_mem _ (List.mem_cons_of_mem _ List.mem_cons_self)))))
      simp only [norm2, addV, subV]; ring
    · refine (le_of_eq (congrArg root ?_)).trans (hall _ (List.mem_cons_of_mem _ List.mem_cons_self))
      simp only [norm2, addV, subV]; ring
  · have mk : ∀ x : V3 K, InVoxel x → ∀ w : V3 K, maxPointDist root s L = root (norm2 w) →
        norm2 (voxelOffset s L x) = norm2 w →
        ∃ x, InVoxel x ∧ root (norm2 (voxelOffset s L x)) = maxPointDist root s L := by
      intro x hx w h1 h2
      exact ⟨x, hx, by rw [h1, h2]⟩
    have hv : ∀ p q r : Bool, InVoxel ((cornerSign p, cornerSign q, cornerSign r) : V3 K) := fun p q r => ⟨hc p, hc q, hc r⟩
    simp only [List.mem_cons, List.not_mem_nil, or_false] at hmem
    rcases hmem with h | h | h | h | h | h | h | h | h
    · refine mk (0, 0, 0) ⟨by simp, by simp, by simp⟩ _ h ?_
      rw [off]; simp only [norm2, addV, subV]; ring
    · refine mk _ (hv false false false) _ h ?_
      rw [off]; simp only [cornerSign, Bool.false_eq_true, if_false, norm2, addV, subV]; ring
    · refine mk _ (hv true false false) _ h ?_
      rw [off]; simp only [cornerSign, Bool.false_eq_true, if_false, if_true, norm2, addV, subV]; ring
    · refine mk _ (hv false true false) _ h ?_
      rw [off]; simp only [cornerSign, Bool.false_eq_true, if_false, if_true, norm2, addV, subV]; ring
    · refine mk _ (hv false false true) _ h ?_
      rw [off]; simp only [cornerSign, Bool.false_eq_true, if_false, if_true, norm2, addV, subV]; ring
    · refine mk _ (hv true true false) _ h ?_
      rw [off]; simp only [cornerSign, Bool.false_eq_true, if_false, if_true, norm2, addV, subV]; ring
    · refine mk _ (hv false true true) _ h ?_
      rw [off]; simp only [cornerSign, Bool.false_eq_true, if_false, if_true, norm2, addV, subV]; ring
    · refine mk _ (hv true false true) _ h ?_
      rw [off]; simp only [cornerSign, Bool.false_eq_true, if_false, if_true, norm2, addV, subV]; ring
    · refine mk _ (hv false false false) _ h ?_
      rw [off]; simp only [cornerSign, Bool.false_eq_true, if_false, norm2, addV, subV]; ring

/-- **C87** A voxel that the planes give to a site as a whole really lies inside of all planes of a region of that site,
with every one of its points: the limit is the extent of the voxel plus 1e-12, the distances are rounded to twelve
decimals and the normals have length one. -/
theorem C87_inside {root : K → K} (hr : IsRoot root) (s : Shape) (L : M3 K) (gs : List (Region K)) (vac : ℕ → Bool)
    (labels : ℕ → ℤ) (hne : ∀ g ∈ gs, g.planes ≠ []) (hnd : (gs.map fun g => (g.site, g.image)).Nodup)
    (hu : ∀ g ∈ gs, ∀ p ∈ g.planes, norm2 p.1 = 1) (v : ℕ) (hl : labels v = -1) (hv : vac v = false)
    (hs : inLabels s L (regionRows gs) (maxPointDist root s L + 1 / 10 ^ 12) vac labels v ≠ -1) :
    ∃ g ∈ gs, inLabels s L (regionRows gs) (maxPointDist root s L + 1 / 10 ^ 12) vac labels v = (g.site : ℤ) ∧
      ∀ x, InVoxel x → ∀ p ∈ g.planes, dotV p.1 (addV (voxCart s L v) (voxelOffset s L x)) + p.2 < 0 := by
  rcases (C41_inside s L gs (maxPointDist root s L + 1 / 10 ^ 12) vac labels hne hnd v).2 hl hv with
    ⟨pre, g, post, hg, hin, _, e⟩ | ⟨_, e⟩
  · have hgm : g ∈ gs := by rw [hg]; simp
    refine ⟨g, hgm, e, fun x hx p hp => ?_⟩
    have h1 := hin p hp
    unfold planeDist at h1
    have h2 := abs_le.mp (roundDec_near 12 (dotV p.1 (voxCart s L v) + p.2))
    have h3 := (C87_extent hr s L).1 x hx
    obtain ⟨r1, r2⟩ := hr _ (norm2_nonneg (voxelOffset s L x))
    have h4 : dotV p.1 (voxelOffset s L x) ≤ root (norm2 (voxelOffset s L x)) := by
      have := dotV_sq_le p.1 (voxelOffset s L x)
      rw [hu g hgm p hp, one_mul] at this
      nlinarith
    have h5 : dotV p.1 (addV (voxCart s L v) (voxelOffset s L x)) = dotV p.1 (voxCart s L v) + dotV p.1 (voxelOffset s L x) := by
      simp only [dotV, addV]; ring
    have h6 : (0 : K) < 1 / 10 ^ 12 := by positivity
    have h7 : (1 : K) / 2 / 10 ^ 12 = 1 / 10 ^ 12 / 2 := by ring
    rw [h5]
    linarith [h2.2]
  · exact absurd e hs

/-! ## Distances from the lattice points -/

/-- The Cartesian position of a voxel. -/
def voxelAt (s : Shape) (L : M3 K) (v : ℕ) : V3 K :=
  vecMat (((flatToCoords s v).1 : K) / (s.nx : K), ((flatToCoords s v).2.1 : K) / (s.ny : K),
    ((flatToCoords s v).2.2 : K) / (s.nz : K)) L

/-- A lattice point. -/
def latticePoint (L : M3 K) (t : Coord) : V3 K := vecMat ((t.1 : K), (t.2.1 : K), (t.2.2 : K)) L

theorem corner_lattice (L : M3 K) : ∀ k ∈ cellCorners L, ∃ t : Coord, k = latticePoint L t := by
  intro k hk
  simp only [cellCorners, List.mem_cons, List.not_mem_nil, or_false] at hk
  rcases hk with rfl | rfl | rfl | rfl | rfl | rfl | rfl | rfl
  · exact ⟨(0, 0, 0), by simp [latticePoint, vecMat]⟩
  · exact ⟨(1, 0, 0), by simp [latticePoint, vecMat]⟩
  · exact ⟨(0, 1, 0), by simp [latticePoint, vecMat]⟩
  · exact ⟨(0, 0, 1), by simp [latticePoint, vecMat]⟩
  · exact ⟨(1, 1, 0), by simp [latticePoint, vecMat, addV]⟩
  · exact ⟨(1, 0, 1), by simp [latticePoint, vecMat, addV]⟩
  · exact ⟨(0, 1, 1), by simp [latticePoint, vecMat, addV]⟩
  · exact ⟨(1, 1, 1), by simp [latticePoint, vecMat, addV]⟩

theorem lattice_corner (L : M3 K) (p q r : Bool) :
    latticePoint L ((if p then 1 else 0), (if q then 1 else 0), (if r then 1 else 0)) ∈ cellCorners L := by
  cases p <;> cases q <;> cases r <;> simp [latticePoint, vecMat, cellCorners, addV]

theorem pointDist_mem (root : K → K) (s : Shape) (L : M3 K) (v : ℕ) : pointDist root s L v ∈
    roundDec 6 (root (norm2 (subV (voxelAt s L v) (0, 0, 0)))) ::
      (cellCorners L).map fun k => roundDec 6 (root (norm2 (subV (voxelAt s L v) k))) :=
  (foldl_min_spec ((cellCorners L).map fun k => roundDec 6 (root (norm2 (subV (voxelAt s L v) k))))
    (roundDec 6 (root (norm2 (subV (voxelAt s L v) (0, 0, 0)))))).2

/-- **C87** Every distance reported is the distance to a lattice point, to six decimals. -/
theorem C87_some_lattice_point (root : K → K) (s : Shape) (L : M3 K) (v : ℕ) :
    ∃ t : Coord, pointDist root s L v = roundDec 6 (root (norm2 (subV (voxelAt s L v) (latticePoint L t)))) := by
  have h := (foldl_min_spec ((cellCorners L).map fun k => roundDec 6 (root (norm2 (subV (voxelAt s L v) k))))
    (roundDec 6 (root (norm2 (subV (voxelAt s L v) (0, 0, 0)))))).2
  change pointDist root s L v ∈ _ at h
  rcases List.mem_cons.mp h with h | h
  · exact ⟨(0, 0, 0), by rw [h]; simp [latticePoint, vecMat]⟩
  · obtain ⟨k, hk, e⟩ := List.mem_map.mp h
    obtain ⟨t, rfl⟩ := corner_lattice L k hk
    exact ⟨t, e.symm⟩

/-- **C87** (partial) If the lattice vectors are orthogonal it is the nearest lattice point.  Missing: skewed cells
(`C87_skewed_wrong`). -/
theorem C87_nearest_partial {root : K → K} (hr : IsRoot root) {s : Shape} {L : M3 K} (hL : Orthogonal L) (hpos : s.Pos) {v : ℕ}
    (hv : v < s.size) (t : Coord) :
    pointDist root s L v ≤ roundDec 6 (root (norm2 (subV (voxelAt s L v) (latticePoint L t)))) := by
  have hr' := flatToCoords_inRange (s := s) (v := (v : ℤ)) (by omega) (by exact_mod_cast hv) hpos
  have h := (foldl_min_spec ((cellCorners L).map fun k => roundDec 6 (root (norm2 (subV (voxelAt s L v) k))))
    (roundDec 6 (root (norm2 (subV (voxelAt s L v) (0, 0, 0)))))).1
  change ∀ x ∈ _, pointDist root s L v ≤ x at h
  refine (h _ (List.mem_cons_of_mem _ (List.mem_map_of_mem (lattice_corner L (decide (0 < t.1)) (decide (0 < t.2.1))
    (decide (0 < t.2.2)))))).trans (roundDec_mono 6 (hr.mono (norm2_nonneg _) ?_))
  obtain ⟨⟨a1, a2⟩, ⟨b1, b2⟩, c1, c2⟩ := hr'
  have frac : ∀ (c : ℤ) (n : ℕ), 0 ≤ c → c < n → (0 : K) ≤ (c : K) / n ∧ (c : K) / n ≤ 1 := by
    intro c n h0 h1
    have hn : (0 : K) < n := by
      have : (0 : ℤ) < n := by omega
      exact_mod_cast this
    refine ⟨div_nonneg (by exact_mod_cast h0) hn.le, ?_⟩
    rw [div_le_one hn]
    have : c ≤ (n : ℤ) := by omega
    exact_mod_cast this
  have e : ∀ t : Coord, norm2 (subV (voxelAt s L v) (latticePoint L t)) =
      (((flatToCoords s v).1 : K) / s.nx - t.1) ^ 2 * norm2 L.1 + (((flatToCoords s v).2.1 : K) / s.ny - t.2.1) ^ 2 * norm2 L.2.1 +
      (((flatToCoords s v).2.2 : K) / s.nz - t.2.2) ^ 2 * norm2 L.2.2 := by
    intro t
    obtain ⟨o1, o2, o3⟩ := hL
    simp only [dotV] at o1 o2 o3
    simp only [voxelAt, latticePoint, norm2, subV, vecMat]
    generalize ((flatToCoords s v).1 : K) / s.nx = x
    generalize ((flatToCoords s v).2.1 : K) / s.ny = y
    generalize ((flatToCoords s v).2.2 : K) / s.nz = z
    linear_combination 2 * (x - t.1) * (y - t.2.1) * o1 + 2 * (x - t.1) * (z - t.2.2) * o2 + 2 * (y - t.2.1) * (z - t.2.2) * o3
  have ax : ∀ (f : K) (t : ℤ), 0 ≤ f → f ≤ 1 → (f - ((if decide (0 < t) = true then 1 else 0 : ℤ) : K)) ^ 2 ≤ (f - t) ^ 2 := by
    intro f t h0 h1
    by_cases ht : 0 < t
    · rw [if_pos (by simpa using ht)]
      have : (1 : K) ≤ t := by exact_mod_cast ht
      push_cast
      nlinarith
    · rw [if_neg (by simpa using ht)]
      have : (t : K) ≤ 0 := by exact_mod_cast not_lt.mp ht
      push_cast
      nlinarith
  rw [e, e]
  have f1 := frac _ _ a1 a2
  have f2 := frac _ _ b1 b2
  have f3 := frac _ _ c1 c2
  exact add_le_add (add_le_add (mul_le_mul_of_nonneg_right (ax _ _ f1.1 f1.2) (norm2_nonneg _))
    (mul_le_mul_of_nonneg_right (ax _ _ f2.1 f2.2) (norm2_nonneg _)))
    (mul_le_mul_of_nonneg_right (ax _ _ f3.1 f3.2) (norm2_nonneg _))
end

/-- **C87** (negative part) In a skewed cell another lattice point may be nearer than all eight corners: the middle of
the second lattice vector (5, 1, 0) is nearer than 1 to (2, 0, 0), the distance reported exceeds 1.4. -/
theorem C87_skewed_wrong :
    roundDec 6 (Real.sqrt (norm2 (subV (voxelAt ⟨1, 2, 1⟩ (((1, 0, 0), (5, 1, 0), (0, 0, 1)) : M3 ℝ) 1)
      (latticePoint ((1, 0, 0), (5, 1, 0), (0, 0, 1)) (2, 0, 0))))) ≤ 1 ∧
    7 / 5 ≤ pointDist Real.sqrt ⟨1, 2, 1⟩ (((1, 0, 0), (5, 1, 0), (0, 0, 1)) : M3 ℝ) 1 := by
  have hc : flatToCoords ⟨1, 2, 1⟩ ((1 : ℕ) : ℤ) = (0, 1, 0) := by decide
  have hv : voxelAt ⟨1, 2, 1⟩ (((1, 0, 0), (5, 1, 0), (0, 0, 1)) : M3 ℝ) 1 = (5 / 2, 1 / 2, 0) := by
    unfold voxelAt vecMat; rw [hc]; norm_num
  have low : ∀ y : ℝ, 9 / 4 ≤ y → 7 / 5 ≤ roundDec 6 (Real.sqrt y) := by
    intro y hy
    have h1 : (3 : ℝ) / 2 ≤ Real.sqrt y := by
      rw [show (3 : ℝ) / 2 = Real.sqrt ((3 / 2) ^ 2) from (Real.sqrt_sq (by norm_num)).symm]
      exact Real.sqrt_le_sqrt (by linarith)
    have := (abs_le.mp (roundDec_near 6 (Real.sqrt y))).2
    norm_num at this ⊢
    linarith
  constructor
  · rw [hv]
    have h1 : Real.sqrt (norm2 (subV ((5 / 2, 1 / 2, 0) : V3 ℝ) (latticePoint ((1, 0, 0), (5, 1, 0), (0, 0, 1)) (2, 0, 0)))) ≤ 3 / 4 := by
      rw [show (3 : ℝ) / 4 = Real.sqrt ((3 / 4) ^ 2) from (Real.sqrt_sq (by norm_num)).symm]
      apply Real.sqrt_le_sqrt
      simp only [norm2, subV, latticePoint, vecMat]
      norm_num
    have := (abs_le.mp (roundDec_near 6 (Real.sqrt (norm2 (subV ((5 / 2, 1 / 2, 0) : V3 ℝ)
      (latticePoint ((1, 0, 0), (5, 1, 0), (0, 0, 1)) (2, 0, 0))))))).1
    norm_num at this
    norm_num
    linarith
  · have h := pointDist_mem Real.sqrt ⟨1, 2, 1⟩ (((1, 0, 0), (5, 1, 0), (0, 0, 1)) : M3 ℝ) 1
    rw [hv] at h
    simp only [cellCorners, List.map_cons, List.map_nil, List.mem_cons, List.not_mem_nil, or_false] at h
    rcases h with h | h | h | h | h | h | h | h | h <;> rw [h] <;> apply low <;> simp only [norm2, subV, addV] <;> norm_num

/-- Non-vacuity: the cubic cell has orthogonal vectors, and a voxel in the middle of two parallel planes is given to
their site. -/
example : Orthogonal (((1, 0, 0), (0, 1, 0), (0, 0, 1)) : M3 ℚ) ∧
    inLabels ⟨4, 1, 1⟩ (((4, 0, 0), (0, 1 / 10, 0), (0, 0, 1 / 10)) : M3 ℚ)
      (regionRows [⟨3, 0, [((1, 0, 0), -3), ((-1, 0, 0), 1)]⟩]) (6 / 10) (fun _ => false) (fun _ => -1) 2 = 3 ∧
    norm2 ((1, 0, 0) : V3 ℚ) = 1 ∧ IsRoot Real.sqrt := by
  refine ⟨by unfold Orthogonal; decide +kernel, by decide +kernel, by decide +kernel, fun x hx => ⟨Real.sqrt_nonneg x, Real.mul_self_sqrt hx⟩⟩

end BaderKit
