import Verif.Model.FeatureSurface
import Verif.Props.NearestGeneral
import Verif.Props.Voxels
/-!
# C84: surface distances of ELF features
-/
set_option linter.unusedSectionVars false
namespace BaderKit

/-! ## Specification -/

/-- The basin with label `l` belongs to the `j`-th feature. -/
def InFeature (nodes : List (List ℕ)) (l : ℤ) (j : ℕ) : Prop := ∃ (B : List ℕ) (b : ℕ), nodes[j]? = some B ∧ b ∈ B ∧ l = (b : ℤ)

/-- Each of the `nb` basins is in exactly one feature and features have no other basins (C76). -/
def FeaturesPartition (nodes : List (List ℕ)) (nb : ℕ) : Prop :=
  (∀ b : ℕ, b < nb → ∃! j, InFeature nodes b j) ∧ ∀ (b j : ℕ), InFeature nodes b j → b < nb

/-- Voxels outside the vacuum have the label of a basin. -/
def LabelsFit (s : Shape) (nb : ℕ) (labels : ℕ → ℤ) (vac : ℕ → Bool) : Prop := ∀ v < s.size, vac v = false → 0 ≤ labels v ∧ labels v < nb

/-- `v` lies on the surface of the `j`-th feature: it belongs to it and has a neighbour in another feature, both outside the vacuum. -/
def OnSurface (s : Shape) (ts : List Coord) (labels : ℕ → ℤ) (vac : ℕ → Bool) (nodes : List (List ℕ)) (j v : ℕ) : Prop :=
  vac v = false ∧ InFeature nodes (labels v) j ∧ ∃ w, IsNbr s ts v w ∧ vac w = false ∧ ¬ InFeature nodes (labels w) j

/-! ## The map from basins to features -/

theorem fold_update_const (j : ℕ) (b : ℕ) : ∀ (B : List ℕ) (m : ℕ → ℕ),
    (B.foldl (fun (m : ℕ → ℕ) b => Function.update m b j) m) b = if b ∈ B then j else m b := by
  intro B
  induction B with
  | nil => simp
  | cons a B ih =>
    intro m
    rw [List.foldl_cons, ih]
    by_cases h : b ∈ B
    · simp [h]
    · by_cases h2 : b = a
      · subst h2; simp [h]
      · simp [h, h2, Function.update_of_ne h2]

theorem featureMap_fold (b : ℕ) : ∀ (nodes : List (List ℕ)) (k : ℕ) (m : ℕ → ℕ),
    let r := ((nodes.zipIdx k).foldl (fun (m : ℕ → ℕ) x => x.1.foldl (fun (m : ℕ → ℕ) b => Function.update m b x.2) m) m) b
    ((∀ B ∈ nodes, b ∉ B) → r = m b) ∧ ((∃ B ∈ nodes, b ∈ B) → ∃ (j : ℕ) (B : List ℕ), nodes[j]? = some B ∧ b ∈ B ∧ r = k + j) := by
  intro nodes
  induction nodes with
  | nil => intro k m; simp
  | cons A nodes ih =>
    intro k m
    simp only [List.zipIdx_cons, List.foldl_cons]
    obtain ⟨h1, h2⟩ := ih (k + 1) (A.foldl (fun (m : ℕ → ℕ) b => Function.update m b k) m)
    constructor
    · intro h
      rw [h1 (fun B hB => h B (by simp [hB])), fold_update_const, if_neg (h A (by simp))]
    · intro h
      by_cases hex : ∃ B ∈ nodes, b ∈ B
      · obtain ⟨j, B, hj, hb, hr⟩ := h2 hex
        exact ⟨j + 1, B, by simpa using hj, hb, by rw [hr]; ring⟩
      · have hA : b ∈ A := by
          obtain ⟨B, hB, hb⟩ := h
          rcases List.mem_cons.mp hB with rfl | hB
          · exact hb
          · exact absurd ⟨B, hB, hb⟩ hex
        push Not at hex
        refine ⟨0, A, by simp, hA, ?_⟩
        rw [h1 hex, fold_update_const, if_pos hA]; rfl

/-- The map sends a basin to its feature. -/
theorem featureMap_spec {nodes : List (List ℕ)} {nb : ℕ} (hp : FeaturesPartition nodes nb) (junk : ℕ → ℕ) {b : ℕ} (hb : b < nb) (j : ℕ) :
    featureMap nodes junk b = j ↔ InFeature nodes b j := by
  obtain ⟨i, ⟨B, b', hB, hb', e⟩, huniq⟩ := hp.1 b hb
  have e' : b = b' := by exact_mod_cast e
  subst e'
  obtain ⟨k, C, hC, hbC, hr⟩ := (featureMap_fold b nodes 0 junk).2 ⟨B, List.mem_of_getElem? hB, hb'⟩
  rw [Nat.zero_add] at hr
  have hk := huniq k ⟨C, b, hC, hbC, rfl⟩
  have hval : featureMap nodes junk b = i := by rw [← hk]; exact hr
  rw [hval]
  constructor
  · rintro rfl; exact ⟨B, b, hB, hb', rfl⟩
  · intro h; exact (huniq j h).symm

theorem voxelFeature_spec {nodes : List (List ℕ)} {nb : ℕ} (hp : FeaturesPartition nodes nb) (junk : ℕ → ℕ) {labels : ℕ → ℤ} {v : ℕ}
    (hl : 0 ≤ labels v ∧ labels v < nb) (j : ℕ) :
    voxelFeature nb (featureMap nodes junk) labels v = j ↔ InFeature nodes (labels v) j := by
  have e : pyIdx nb (labels v) = (labels v).toNat := by unfold pyIdx; rw [if_neg (by omega)]
  have e2 : ((labels v).toNat : ℤ) = labels v := Int.toNat_of_nonneg hl.1
  unfold voxelFeature
  rw [e, featureMap_spec hp junk (by omega), e2]

section edges
variable {s : Shape} {ts : List Coord} {labels : ℕ → ℤ} {vac : ℕ → Bool} {nodes : List (List ℕ)} {nb : ℕ}

/-- **C84.** For every schedule of the parallel loop and whatever the uninitialised memory contains: the edge voxels are exactly the
voxels on the surface of some feature. -/
theorem C84_edges (hts : ∀ t ∈ ts, StepFits s t) (hp : FeaturesPartition nodes nb) (hl : LabelsFit s nb labels vac) (junk : ℕ → ℕ)
    (order : List ℕ) (hord : IsSchedule s order) (v : ℕ) (hv : v < s.size) :
    getFeatureEdges s nb (featureMap nodes junk) labels ts vac order v = true ↔ ∃ j, OnSurface s ts labels vac nodes j v := by
  unfold getFeatureEdges
  rw [C13_edges_exact s _ ts vac order hord hts v hv]
  constructor
  · rintro ⟨h1, w, hw, h2, h3⟩
    have a := voxelFeature_spec hp junk (hl v hv h1)
    have b := voxelFeature_spec hp junk (hl w hw.1 h2)
    exact ⟨_, h1, (a _).mp rfl, w, hw, h2, fun h => h3 ((b _).mpr h)⟩
  · rintro ⟨j, h1, h4, w, hw, h2, h3⟩
    have a := voxelFeature_spec hp junk (hl v hv h1)
    have b := voxelFeature_spec hp junk (hl w hw.1 h2)
    exact ⟨h1, w, hw, h2, fun h => h3 ((b _).mp (h.trans ((a _).mpr h4)))⟩

/-- **C84.** The edge voxels of one feature are its surface. -/
theorem C84_own_edges (hts : ∀ t ∈ ts, StepFits s t) (hp : FeaturesPartition nodes nb) (hl : LabelsFit s nb labels vac) (junk : ℕ → ℕ)
    (order : List ℕ) (hord : IsSchedule s order) (v : ℕ) (hv : v < s.size) (j : ℕ) :
    (getFeatureEdges s nb (featureMap nodes junk) labels ts vac order v = true ∧ voxelFeature nb (featureMap nodes junk) labels v = j) ↔
      OnSurface s ts labels vac nodes j v := by
  rw [C84_edges hts hp hl junk order hord v hv]
  constructor
  · rintro ⟨⟨i, h⟩, e⟩
    have a := (voxelFeature_spec hp junk (hl v hv h.1) i).mpr h.2.1
    rw [e] at a
    rw [a]; exact h
  · intro h
    exact ⟨⟨j, h⟩, (voxelFeature_spec hp junk (hl v hv h.1) j).mpr h.2.1⟩

end edges

/-! ## Distances -/
section dist
variable {K : Type} [Field K] [LinearOrder K] [IsStrictOrderedRing K] [FloorRing K]

theorem featSurfStep_eq (root : K → K) (s : Shape) (L : M3 K) (frac : ℕ → V3 K) (feat : ℕ → ℕ) (edge : ℕ → Bool) :
    featSurfStep root s L frac feat edge = surfStep root s L 0 frac (fun v => (feat v : ℤ)) edge := by
  funext a v
  have e : pyIdx 0 (feat v : ℤ) = feat v := by unfold pyIdx; rw [if_neg (by omega)]; simp
  simp only [featSurfStep, surfStep, e]

theorem norm2_three (a b c : V3 K) : norm2 (addV (addV a b) c) ≤ 3 * (norm2 a + norm2 b + norm2 c) := by
  unfold norm2 addV
  simp only
  nlinarith [sq_nonneg (a.1 - b.1), sq_nonneg (a.1 - c.1), sq_nonneg (b.1 - c.1), sq_nonneg (a.2.1 - b.2.1), sq_nonneg (a.2.1 - c.2.1),
    sq_nonneg (b.2.1 - c.2.1), sq_nonneg (a.2.2 - b.2.2), sq_nonneg (a.2.2 - c.2.2), sq_nonneg (b.2.2 - c.2.2)]

theorem norm2_vecMat_half (L : M3 K) (d : V3 K) (m : K) (h1 : |d.1| ≤ 1 / 2) (h2 : |d.2.1| ≤ 1 / 2) (h3 : |d.2.2| ≤ 1 / 2)
    (m1 : norm2 L.1 ≤ m) (m2 : norm2 L.2.1 ≤ m) (m3 : norm2 L.2.2 ≤ m) : norm2 (vecMat d L) ≤ 9 / 4 * m := by
  have e : vecMat d L = addV (addV (d.1 * L.1.1, d.1 * L.1.2.1, d.1 * L.1.2.2) (d.2.1 * L.2.1.1, d.2.1 * L.2.1.2.1, d.2.1 * L.2.1.2.2))
      (d.2.2 * L.2.2.1, d.2.2 * L.2.2.2.1, d.2.2 * L.2.2.2.2) := rfl
  have q : ∀ (x : K) (r : V3 K), |x| ≤ 1 / 2 → norm2 r ≤ m → norm2 (x * r.1, x * r.2.1, x * r.2.2) ≤ 1 / 4 * m := by
    intro x r hx hr
    have e : norm2 (x * r.1, x * r.2.1, x * r.2.2) = x ^ 2 * norm2 r := by unfold norm2; ring
    have hx2 : x ^ 2 ≤ 1 / 4 := by
      have := sq_le_sq' (by linarith [(abs_le.mp hx).1]) (abs_le.mp hx).2
      linarith
    rw [e]
    exact mul_le_mul hx2 hr (norm2_nonneg r) (by norm_num)
  have := norm2_three (d.1 * L.1.1, d.1 * L.1.2.1, d.1 * L.1.2.2) (d.2.1 * L.2.1.1, d.2.1 * L.2.1.2.1, d.2.1 * L.2.1.2.2)
    (d.2.2 * L.2.2.1, d.2.2 * L.2.2.2.1, d.2.2 * L.2.2.2.2)
  rw [e]
  linarith [q d.1 L.1 h1 m1, q d.2.1 L.2.1 h2 m2, q d.2.2 L.2.2 h3 m3]

theorem IsRoot.mono {root : K → K} (hr : IsRoot root) {x y : K} (hx : 0 ≤ x) (h : x ≤ y) : root x ≤ root y := by
  obtain ⟨a1, a2⟩ := hr x hx
  obtain ⟨b1, b2⟩ := hr y (hx.trans h)
  by_contra hc
  rw [not_le] at hc
  have := mul_self_lt_mul_self b1 hc
  rw [a2, b2] at this
  exact absurd this (not_lt.mpr h)

theorem IsRoot.rootLike {root : K → K} (hr : IsRoot root) : RootLike root := by
  intro x y hx hy
  refine ⟨fun h => ?_, fun h => hr.mono hx h⟩
  obtain ⟨a1, a2⟩ := hr x hx
  obtain ⟨b1, b2⟩ := hr y hy
  rw [← a2, ← b2]
  exact mul_self_le_mul_self a1 h

/-- No distance reaches the starting value of the minimum. -/
theorem surfDist_lt (root : K → K) (hr : IsRoot root) (s : Shape) (L : M3 K) (hL : 0 < norm2 L.1) (f : V3 K) (v : ℕ) :
    surfDist root s L f v < twiceLongest root L := by
  set l := max (max (root (norm2 L.1)) (root (norm2 L.2.1))) (root (norm2 L.2.2)) with hl
  have hpos : 0 < root (norm2 L.1) := by
    obtain ⟨a, b⟩ := hr _ hL.le
    rcases a.lt_or_eq with h | h
    · exact h
    · rw [← h, mul_zero] at b
      exact absurd b hL.ne
  have l1 : root (norm2 L.1) ≤ l := le_trans (le_max_left _ _) (le_max_left _ _)
  have l2 : root (norm2 L.2.1) ≤ l := le_trans (le_max_right _ _) (le_max_left _ _)
  have l3 : root (norm2 L.2.2) ≤ l := le_max_right _ _
  have sq : ∀ r : V3 K, root (norm2 r) ≤ l → norm2 r ≤ l * l := by
    intro r h
    obtain ⟨a, b⟩ := hr _ (norm2_nonneg r)
    rw [← b]
    exact mul_self_le_mul_self a h
  have hlp : 0 < l := lt_of_lt_of_le hpos l1
  unfold surfDist
  simp only
  set d := subV f (voxFrac s v)
  have hb := norm2_vecMat_half L (d.1 - (roundHE d.1 : K), d.2.1 - (roundHE d.2.1 : K), d.2.2 - (roundHE d.2.2 : K)) (l * l)
    (roundHE_half _) (roundHE_half _) (roundHE_half _) (sq _ l1) (sq _ l2) (sq _ l3)
  obtain ⟨a, b⟩ := hr _ (norm2_nonneg (vecMat (d.1 - (roundHE d.1 : K), d.2.1 - (roundHE d.2.1 : K), d.2.2 - (roundHE d.2.2 : K)) L))
  unfold twiceLongest
  rw [← hl]
  by_contra hc
  rw [not_lt] at hc
  have := mul_self_le_mul_self (by positivity) hc
  rw [b] at this
  nlinarith [mul_pos hlp hlp]

open Classical in
/-- What the library reports for the `j`-th feature, in terms of its wrapped distances. -/
theorem calcSurface_spec (root : K → K) (hr : IsRoot root) {s : Shape} (L : M3 K) (hL : 0 < norm2 L.1) {ts : List Coord} {labels : ℕ → ℤ}
    {vac : ℕ → Bool} {nodes : List (List ℕ × V3 K)} {nb : ℕ} (hts : ∀ t ∈ ts, StepFits s t)
    (hp : FeaturesPartition (nodes.map Prod.fst) nb) (hl : LabelsFit s nb labels vac) (junk : ℕ → ℕ)
    (order : List ℕ) (hord : IsSchedule s order) (j : ℕ) (B : List ℕ) (c : V3 K) (hj : nodes[j]? = some (B, c)) :
    let own := (Finset.range s.size).filter (OnSurface s ts labels vac (nodes.map Prod.fst) j)
    ∃ mn avg, (calcSurfaceDists root s L nb labels vac ts order nodes junk)[j]? = some (mn, avg) ∧
      (own = ∅ → mn = twiceLongest root L ∧ avg = none) ∧
      (own.Nonempty → avg = some ((∑ v ∈ own, surfDist root s L c v) / own.card) ∧
        (∃ v ∈ own, mn = surfDist root s L c v) ∧ ∀ v ∈ own, mn ≤ surfDist root s L c v) := by
  intro own
  have hjl : j < nodes.length := by
    by_contra h
    rw [List.getElem?_eq_none (by omega)] at hj; cases hj
  have hc : (nodes.map Prod.snd).getD j (0, 0, 0) = c := by simp [List.getD, hj]
  set fm := featureMap (nodes.map Prod.fst) junk with hfm
  set edge := getFeatureEdges s nb fm labels ts vac order with hedge
  set frac : ℕ → V3 K := fun j => (nodes.map Prod.snd).getD j (0, 0, 0) with hfrac
  set r := featureSurfaceDists root s L frac (voxelFeature nb fm labels) edge (twiceLongest root L) with hrr
  refine ⟨r.1 j, r.2 j, ?_, ?_⟩
  · simp only [calcSurfaceDists, ← hfm, ← hedge, ← hfrac, ← hrr]
    rw [List.getElem?_map, List.getElem?_range hjl]; rfl
  obtain ⟨h1, h2, h3, h4, h5⟩ := surfFold root s L 0 frac (fun v => (voxelFeature nb fm labels v : ℤ)) edge (List.range s.size) j
    ⟨fun _ => twiceLongest root L, fun _ => 0, fun _ => 0⟩
  rw [← featSurfStep_eq] at h1 h2 h3 h4 h5
  have hpi : ∀ v, pyIdx 0 (voxelFeature nb fm labels v : ℤ) = voxelFeature nb fm labels v := by
    intro v; unfold pyIdx; rw [if_neg (by omega)]; simp
  have hfj : frac j = c := hc
  simp only [hpi, hfj] at h1 h2 h4 h5
  have hown : ∀ v < s.size, (edge v = true ∧ voxelFeature nb fm labels v = j) ↔ OnSurface s ts labels vac (nodes.map Prod.fst) j v :=
    fun v hv => C84_own_edges hts hp hl junk order hord v hv j
  have hmem : ∀ v, v ∈ own ↔ v < s.size ∧ edge v = true ∧ voxelFeature nb fm labels v = j := by
    intro v
    simp only [own, Finset.mem_filter, Finset.mem_range]
    exact ⟨fun h => ⟨h.1, (hown v h.1).mpr h.2⟩, fun h => ⟨h.1, (hown v h.1).mp h.2⟩⟩
  have hset : (Finset.range s.size).filter (fun v => edge v = true ∧ voxelFeature nb fm labels v = j) = own := by
    ext v
    rw [Finset.mem_filter, Finset.mem_range, hmem]
  rw [sum_range_list, ← Finset.sum_filter, hset] at h1 h2
  simp only [zero_add, Finset.sum_const, nsmul_eq_mul, mul_one] at h1 h2
  have hmin := h5
  refine ⟨fun hem => ?_, fun hne => ?_⟩
  · refine ⟨?_, ?_⟩
    · rcases h5 with h | ⟨v, hv, a2, a3, h⟩
      · exact h
      · have : v ∈ own := (hmem v).mpr ⟨List.mem_range.mp hv, a2, a3⟩
        rw [hem] at this; simp at this
    · simp only [r, featureSurfaceDists]
      rw [h2, hem]; simp
  · refine ⟨?_, ?_, ?_⟩
    · simp only [r, featureSurfaceDists]
      rw [h1, h2, if_neg]
      have := Finset.card_pos.mpr hne
      exact_mod_cast this.ne'
    · rcases h5 with h | ⟨v, hv, a2, a3, h⟩
      · obtain ⟨v, hv⟩ := hne
        obtain ⟨b1, b2, b3⟩ := (hmem v).mp hv
        have := h4 v (List.mem_range.mpr b1) b2 b3
        rw [h] at this
        exact absurd (surfDist_lt root hr s L hL c v) (not_lt.mpr this)
      · exact ⟨v, (hmem v).mpr ⟨List.mem_range.mp hv, a2, a3⟩, h⟩
    · intro v hv
      obtain ⟨b1, b2, b3⟩ := (hmem v).mp hv
      exact h4 v (List.mem_range.mpr b1) b2 b3

open Classical in
/-- **C84** (partial) In an orthogonal cell, for every feature with a surface: the average is the mean over its surface voxels of the distance from the centre
to the nearest image of the voxel, and the minimum is the smallest of these distances.  Missing: skewed cells, where it is false
(`C84_skewed_wrong`); there `C84_short` holds. -/
theorem C84_surface_partial (root : K → K) (hr : IsRoot root) {s : Shape} (L : M3 K) (hL : 0 < norm2 L.1) (horth : Orthogonal L) {ts : List Coord}
    {labels : ℕ → ℤ} {vac : ℕ → Bool} {nodes : List (List ℕ × V3 K)} {nb : ℕ} (hts : ∀ t ∈ ts, StepFits s t)
    (hp : FeaturesPartition (nodes.map Prod.fst) nb) (hl : LabelsFit s nb labels vac) (junk : ℕ → ℕ)
    (order : List ℕ) (hord : IsSchedule s order) (j : ℕ) (B : List ℕ) (c : V3 K) (hj : nodes[j]? = some (B, c))
    (D : ℕ → K) (hD : ∀ v, IsNearest root L c (voxFrac s v) (D v)) :
    let own := (Finset.range s.size).filter (OnSurface s ts labels vac (nodes.map Prod.fst) j)
    own.Nonempty → ∃ mn avg, (calcSurfaceDists root s L nb labels vac ts order nodes junk)[j]? = some (mn, some avg) ∧
      avg = (∑ v ∈ own, D v) / own.card ∧ (∃ v ∈ own, mn = D v) ∧ ∀ v ∈ own, mn ≤ D v := by
  intro own hne
  obtain ⟨mn, avg, h1, -, h2⟩ := calcSurface_spec root hr L hL hts hp hl junk order hord j B c hj
  obtain ⟨h3, h4, h5⟩ := h2 hne
  have e : ∀ v, surfDist root s L c v = D v := by
    intro v
    obtain ⟨⟨t, ht⟩, hm⟩ := C49_distance root hr.rootLike s L horth c v
    obtain ⟨⟨t', ht'⟩, hm'⟩ := hD v
    apply le_antisymm
    · rw [ht']; exact hm t'
    · rw [ht]; exact hm' t
  simp only [e] at h3 h4 h5
  exact ⟨mn, _, by rw [h1, h3], rfl, h4, h5⟩

open Classical in
/-- **C84.** A feature without surface (the only one outside the vacuum, for instance) is reported with twice the longest lattice vector as the
minimum and no number as the average. -/
theorem C84_no_surface (root : K → K) (hr : IsRoot root) {s : Shape} (L : M3 K) (hL : 0 < norm2 L.1) {ts : List Coord} {labels : ℕ → ℤ}
    {vac : ℕ → Bool} {nodes : List (List ℕ × V3 K)} {nb : ℕ} (hts : ∀ t ∈ ts, StepFits s t)
    (hp : FeaturesPartition (nodes.map Prod.fst) nb) (hl : LabelsFit s nb labels vac) (junk : ℕ → ℕ)
    (order : List ℕ) (hord : IsSchedule s order) (j : ℕ) (B : List ℕ) (c : V3 K) (hj : nodes[j]? = some (B, c))
    (hno : ∀ v < s.size, ¬ OnSurface s ts labels vac (nodes.map Prod.fst) j v) :
    (calcSurfaceDists root s L nb labels vac ts order nodes junk)[j]? =
      some (2 * max (max (root (norm2 L.1)) (root (norm2 L.2.1))) (root (norm2 L.2.2)), none) := by
  obtain ⟨mn, avg, h1, h2, -⟩ := calcSurface_spec root hr L hL hts hp hl junk order hord j B c hj
  obtain ⟨e1, e2⟩ := h2 (by
    rw [Finset.filter_eq_empty_iff]
    intro v hv
    exact hno v (Finset.mem_range.mp hv))
  rw [h1, e1, e2, mul_comm 2]
  rfl

theorem round_unique {x : K} {n : ℤ} (h : |x + n| < 1 / 2) : x - (roundHE x : K) = x + n := by
  have h1 := roundHE_half x
  have h2 : |((-(roundHE x) - n : ℤ) : K)| < 1 := by
    have : ((-(roundHE x) - n : ℤ) : K) = (x - (roundHE x : K)) - (x + n) := by push_cast; ring
    rw [this]
    obtain ⟨a, b⟩ := abs_le.mp h1
    obtain ⟨a', b'⟩ := abs_lt.mp h
    rw [abs_lt]
    constructor <;> linarith
  have h3 : |-(roundHE x) - n| < 1 := by exact_mod_cast h2
  have h4 := Int.abs_lt_one_iff.mp h3
  have : n = -(roundHE x) := by omega
  rw [this]; push_cast; ring

open Classical in
/-- **C84.** In a cell of any shape: if the reported minimum is at most half of each distance between opposite faces of the cell, then it is
the distance from the centre of the feature to the nearest image of its surface. -/
theorem C84_short (root : K → K) (hr : IsRoot root) {s : Shape} (L R : M3 K) (hR : Reciprocal L R) (hL : 0 < norm2 L.1) {ts : List Coord}
    {labels : ℕ → ℤ} {vac : ℕ → Bool} {nodes : List (List ℕ × V3 K)} {nb : ℕ} (hts : ∀ t ∈ ts, StepFits s t)
    (hp : FeaturesPartition (nodes.map Prod.fst) nb) (hl : LabelsFit s nb labels vac) (junk : ℕ → ℕ)
    (order : List ℕ) (hord : IsSchedule s order) (j : ℕ) (B : List ℕ) (c : V3 K) (hj : nodes[j]? = some (B, c))
    (hne : ∃ v < s.size, OnSurface s ts labels vac (nodes.map Prod.fst) j v) :
    ∃ mn avg, (calcSurfaceDists root s L nb labels vac ts order nodes junk)[j]? = some (mn, some avg) ∧
      (∃ v < s.size, OnSurface s ts labels vac (nodes.map Prod.fst) j v ∧ ∃ t, mn = root (dist2 L (image c t) (voxFrac s v))) ∧
      (WithinFaces R (1 / 2) mn → ∀ v < s.size, OnSurface s ts labels vac (nodes.map Prod.fst) j v →
        ∀ t, mn ≤ root (dist2 L (image c t) (voxFrac s v))) := by
  obtain ⟨mn, avg, h1, -, h2⟩ := calcSurface_spec root hr L hL hts hp hl junk order hord j B c hj
  obtain ⟨h3, ⟨v, hv, h4⟩, h5⟩ := h2 (by
    obtain ⟨v, hv, h⟩ := hne
    exact ⟨v, Finset.mem_filter.mpr ⟨Finset.mem_range.mpr hv, h⟩⟩)
  obtain ⟨hv1, hv2⟩ := Finset.mem_filter.mp hv
  refine ⟨mn, _, by rw [h1, h3], ⟨v, Finset.mem_range.mp hv1, hv2, ?_⟩, ?_⟩
  · refine ⟨(-(roundHE (subV c (voxFrac s v)).1), -(roundHE (subV c (voxFrac s v)).2.1), -(roundHE (subV c (voxFrac s v)).2.2)), ?_⟩
    rw [h4]
    simp only [surfDist, dist2]
    congr 3
    simp only [subV, image]
    push_cast
    ext <;> simp only <;> ring
  · intro hshort w hw how t
    by_contra hlt
    rw [not_le] at hlt
    obtain ⟨c1, c2, c3⟩ := comp_lt hR (by norm_num) hshort (hr.lt_of_lt (norm2_nonneg _) hlt)
    have e1 := round_unique (x := (subV c (voxFrac s w)).1) (n := t.1) (by convert c1 using 2; simp only [subV, image]; ring)
    have e2 := round_unique (x := (subV c (voxFrac s w)).2.1) (n := t.2.1) (by convert c2 using 2; simp only [subV, image]; ring)
    have e3 := round_unique (x := (subV c (voxFrac s w)).2.2) (n := t.2.2) (by convert c3 using 2; simp only [subV, image]; ring)
    have : surfDist root s L c w = root (dist2 L (image c t) (voxFrac s w)) := by
      simp only [surfDist, dist2, e1, e2, e3]
      congr 3
      simp only [subV, image]
      ext <;> simp only <;> ring
    have h6 := h5 w (Finset.mem_filter.mpr ⟨Finset.mem_range.mpr hw, how⟩)
    rw [this] at h6
    exact absurd hlt (not_lt.mpr h6)

/-- **C49.** With the starting value that the library uses, twice the longest lattice vector, the minimum is never capped: it is the distance of an
own edge voxel as soon as there is one. -/
theorem C49_not_capped (root : K → K) (hr : IsRoot root) (s : Shape) (L : M3 K) (hL : 0 < norm2 L.1) (n : ℕ) (frac : ℕ → V3 K)
    (labels : ℕ → ℤ) (edge : ℕ → Bool) (hlab : ∀ v < s.size, -1 ≤ labels v ∧ labels v < n) (b : ℕ)
    (hvac : b + 1 < n ∨ ∀ v < s.size, edge v = true → labels v ≠ -1)
    (hown : ∃ v < s.size, edge v = true ∧ labels v = b) :
    let mn := (surfaceDists root s L n frac labels edge (twiceLongest root L)).1 b
    (∃ v < s.size, edge v = true ∧ labels v = b ∧ mn = surfDist root s L (frac b) v) ∧
    ∀ v < s.size, edge v = true → labels v = b → mn ≤ surfDist root s L (frac b) v := by
  intro mn
  obtain ⟨-, h2, h3, h4⟩ := C49_surface_partial root s L n frac labels edge (twiceLongest root L) hlab b hvac
  have hall : ∀ v < s.size, edge v = true → labels v = b → mn ≤ surfDist root s L (frac b) v :=
    fun v h1 h2 h5 => h3 v (Finset.mem_filter.mpr ⟨Finset.mem_range.mpr h1, h2, h5⟩)
  refine ⟨?_, hall⟩
  rcases h4 with h | ⟨v, hv, h⟩
  · obtain ⟨v, a1, a2, a3⟩ := hown
    have := hall v a1 a2 a3
    simp only [mn] at this
    rw [h] at this
    exact absurd (surfDist_lt root hr s L hL (frac b) v) (not_lt.mpr this)
  · obtain ⟨a1, a2, a3⟩ := Finset.mem_filter.mp hv
    exact ⟨v, Finset.mem_range.mp a1, a2, a3, h⟩

end dist

/-! ## Concrete cases -/

/-- **C84** (negative part) In a skewed cell the reported distances can be too large: the surface of feature 0 is the voxel at the origin; the
reported minimum is more than 3/4 (squared distances are used as distances here), an image of the centre is nearer than 2/25. -/
theorem C84_skewed_wrong :
    (calcSurfaceDists (fun x : ℚ => x) ⟨2, 2, 1⟩ skewL 2 (fun v => if v = 0 then 0 else 1) (fun _ => false) neighbors26 [0, 1, 2, 3]
      [([0], (9 / 20, 9 / 20, 0)), ([1], (1 / 2, 1 / 2, 0))] (fun _ => 7))[0]?.map (fun r => decide (3 / 4 < r.1)) = some true ∧
    dist2 skewL (image (9 / 20, 9 / 20, 0) (-1, 0, 0)) (voxFrac ⟨2, 2, 1⟩ 0) < 2 / 25 := by
  constructor <;> decide +kernel

/-- Three basins on a ring of eight voxels with one vacuum voxel. -/
def demoSurfLabels : ℕ → ℤ := fun v => [0, 0, 1, 1, 2, 2, -1, 0].getD v 0

/-- Two features: the first consists of two basins. -/
def demoSurfNodes : List (List ℕ × V3 ℚ) := [([0, 1], (1 / 4, 0, 0)), ([2], (1 / 2, 0, 0))]

theorem demo_inFeature (l : ℤ) (j : ℕ) : InFeature [[0, 1], [2]] l j ↔ (j = 0 ∧ (l = 0 ∨ l = 1)) ∨ (j = 1 ∧ l = 2) := by
  unfold InFeature
  constructor
  · rintro ⟨B, b, h1, h2, rfl⟩
    match j with
    | 0 => simp at h1; subst h1; simp at h2; omega
    | 1 => simp at h1; subst h1; simp at h2; omega
    | j + 2 => simp at h1
  · rintro (⟨rfl, rfl | rfl⟩ | ⟨rfl, rfl⟩)
    · exact ⟨[0, 1], 0, rfl, by simp, rfl⟩
    · exact ⟨[0, 1], 1, rfl, by simp, rfl⟩
    · exact ⟨[2], 2, rfl, by simp, rfl⟩

/-- Non-vacuity of C84: the hypotheses hold for the two features, and both have a surface; basins 0 and 1 have none between them. -/
example : FeaturesPartition (demoSurfNodes.map Prod.fst) 3 ∧ LabelsFit ⟨8, 1, 1⟩ 3 demoSurfLabels (fun v => v == 6) ∧
    OnSurface ⟨8, 1, 1⟩ (ring2.map Prod.fst) demoSurfLabels (fun v => v == 6) (demoSurfNodes.map Prod.fst) 0 3 ∧ IsRoot Real.sqrt ∧
    Orthogonal cubeL := by
  refine ⟨⟨?_, ?_⟩, ?_, ⟨rfl, ?_, 4, ?_, rfl, ?_⟩, fun x hx => ⟨Real.sqrt_nonneg x, Real.mul_self_sqrt hx⟩, by unfold Orthogonal; decide +kernel⟩
  · intro b hb
    change ∃! j, InFeature [[0, 1], [2]] b j
    refine ⟨if b = 2 then 1 else 0, (demo_inFeature _ _).mpr (by split_ifs <;> omega), fun k hk => ?_⟩
    have := (demo_inFeature _ _).mp hk
    split_ifs <;> omega
  · intro b j h
    have := (demo_inFeature _ _).mp h
    omega
  · unfold LabelsFit; decide
  · exact (demo_inFeature _ _).mpr (by decide)
  · exact ⟨by decide, (1, 0, 0), by decide, ⟨0, by decide⟩, ⟨0, by decide⟩, ⟨0, by decide⟩⟩
  · intro h
    have := (demo_inFeature _ _).mp h
    revert this; decide

/-- The values for this example (with squared distances). -/
example : calcSurfaceDists (fun x : ℚ => x) ⟨8, 1, 1⟩ cubeL 3 demoSurfLabels (fun v => v == 6) (ring2.map Prod.fst) [7, 2, 1, 0, 3, 4, 6, 5] demoSurfNodes
    (fun _ => 9) = [(1 / 64, some (1 / 64)), (0, some 0)] := by decide +kernel

end BaderKit
