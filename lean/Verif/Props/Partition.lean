import Verif.Props.Voronoi
set_option linter.unusedSectionVars false
/-! # Property C65: partition planes in the unit cell -/
namespace BaderKit
section
variable {K : Type*} [Field K] [LinearOrder K] [IsStrictOrderedRing K] [FloorRing K]

theorem mem_trans (x : ℕ × Coord) :
    x ∈ wrapTransforms.zipIdx.map (fun (tn : Coord × ℕ) => (tn.2, tn.1)) ↔ wrapTransforms[x.1]? = some x.2 := by
  rw [List.mem_map]
  constructor
  · rintro ⟨a, ha, rfl⟩
    exact List.mem_zipIdx_iff_getElem?.mp ha
  · intro h
    exact ⟨(x.2, x.1), List.mem_zipIdx_iff_getElem?.mpr h, rfl⟩

/-- C65: the images are the 27 translations by at most one cell, each once, the home cell first. -/
theorem C65_images : wrapTransforms.Nodup ∧ wrapTransforms.head? = some (0, 0, 0) ∧
    ∀ t : Coord, t ∈ wrapTransforms ↔ |t.1| ≤ 1 ∧ |t.2.1| ≤ 1 ∧ |t.2.2| ≤ 1 := by
  refine ⟨by decide, rfl, ?_⟩
  rintro ⟨a, b, c⟩
  constructor
  · have : ∀ t ∈ wrapTransforms, |t.1| ≤ 1 ∧ |t.2.1| ≤ 1 ∧ |t.2.2| ≤ 1 := by decide
    exact this _
  · intro h
    have hall : ∀ i ∈ ([-1, 0, 1] : List ℤ), ∀ j ∈ ([-1, 0, 1] : List ℤ), ∀ k ∈ ([-1, 0, 1] : List ℤ),
        (i, j, k) ∈ wrapTransforms := by decide
    simp only [abs_le] at h
    apply hall <;> simp only [List.mem_cons, List.not_mem_nil, or_false] <;> omega

/-- **C65** A plane of a site, moved by a transformation, is in the result exactly if the fraction of the cell under
it is not 1 and no plane of the site moved by this transformation has fraction 0. -/
theorem C65_kept (planes : List (ℕ × V3 K × V3 K)) (w : WPlane K) :
    w ∈ wrapVoronoi planes ↔ ∃ pl ∈ planes, ∃ (k : ℕ) (t : Coord), wrapTransforms[k]? = some t ∧
      w = movedPlane pl (k, t) ∧ (movedPlane pl (k, t)).vol ≠ 1 ∧
      ∀ pl' ∈ planes, pl'.1 = pl.1 → (movedPlane pl' (k, t)).vol ≠ 0 := by
  unfold wrapVoronoi
  simp only [List.mem_filter, List.mem_flatMap, List.mem_map (f := fun ti => movedPlane _ ti), mem_trans,
    Bool.and_eq_true, decide_eq_true_eq]
  constructor
  · rintro ⟨⟨pl, hpl, ⟨k, t⟩, hk, rfl⟩, h1, h2⟩
    refine ⟨pl, hpl, k, t, hk, rfl, h1, fun pl' hpl' hs h0 => h2 ?_⟩
    refine List.mem_map.mpr ⟨movedPlane pl' (k, t), List.mem_filter.mpr ⟨List.mem_flatMap.mpr ⟨pl', hpl', ?_⟩,
      by simp [h0]⟩, ?_⟩
    · exact List.mem_map.mpr ⟨(k, t), (mem_trans _).mpr hk, rfl⟩
    · simp [movedPlane, hs]
  · rintro ⟨pl, hpl, k, t, hk, rfl, h1, h2⟩
    refine ⟨⟨pl, hpl, (k, t), hk, rfl⟩, h1, fun hd => ?_⟩
    obtain ⟨w, hw, he⟩ := List.mem_map.mp hd
    obtain ⟨hw1, hw0⟩ := List.mem_filter.mp hw
    obtain ⟨pl', hpl', hm⟩ := List.mem_flatMap.mp hw1
    obtain ⟨⟨k', t'⟩, hk', rfl⟩ := List.mem_map.mp hm
    have hk'' := (mem_trans _).mp hk'
    simp only [movedPlane, Prod.mk.injEq] at he
    obtain ⟨hs, rfl⟩ := he
    have : t' = t := by
      simp only at hk''
      rw [hk] at hk''
      exact (Option.some.inj hk'').symm
    subst this
    exact h2 pl' hpl' hs (by simpa using hw0)

/-! ### Sites and rows after sorting -/

theorem planeLE_total (v w : WPlane K) : planeLE v w ∨ planeLE w v := by
  unfold planeLE
  rcases lt_trichotomy v.site w.site with h | h | h
  · exact Or.inl (Or.inl h)
  · rcases lt_trichotomy v.trans w.trans with g | g | g
    · exact Or.inl (Or.inr ⟨h, Or.inl g⟩)
    · rcases le_total v.vol w.vol with e | e
      · exact Or.inl (Or.inr ⟨h, Or.inr ⟨g, e⟩⟩)
      · exact Or.inr (Or.inr ⟨h.symm, Or.inr ⟨g.symm, e⟩⟩)
    · exact Or.inr (Or.inr ⟨h.symm, Or.inl g⟩)
  · exact Or.inr (Or.inl h)

theorem planeLE_trans {u v w : WPlane K} (h1 : planeLE u v) (h2 : planeLE v w) : planeLE u w := by
  unfold planeLE at *
  rcases h1 with h1 | ⟨h1, h1' | ⟨h1', h1''⟩⟩ <;> rcases h2 with h2 | ⟨h2, h2' | ⟨h2', h2''⟩⟩
  · exact Or.inl (h1.trans h2)
  · exact Or.inl (h1.trans_eq h2)
  · exact Or.inl (h1.trans_eq h2)
  · exact Or.inl (h1.trans_lt h2)
  · exact Or.inr ⟨h1.trans h2, Or.inl (h1'.trans h2')⟩
  · exact Or.inr ⟨h1.trans h2, Or.inl (h1'.trans_eq h2')⟩
  · exact Or.inl (h1.trans_lt h2)
  · exact Or.inr ⟨h1.trans h2, Or.inl (h1'.trans_lt h2')⟩
  · exact Or.inr ⟨h1.trans h2, Or.inr ⟨h1'.trans h2', h1''.trans h2''⟩⟩

instance : Std.Total (planeLE (K := K)) := ⟨planeLE_total⟩
instance : IsTrans (WPlane K) planeLE := ⟨fun _ _ _ => planeLE_trans⟩

theorem wrap_sites (planes : List (ℕ × V3 K × V3 K)) (h : (planes.map fun p => p.1).Pairwise (· ≤ ·)) :
    ((wrapVoronoi planes).map fun r => r.site).Pairwise (· ≤ ·) := by
  have key : ∀ (trans : List (ℕ × Coord)),
      ((planes.flatMap fun pl => trans.map fun ti => movedPlane pl ti).map fun r => r.site).Pairwise (· ≤ ·) := by
    intro trans
    induction planes with
    | nil => simp
    | cons pl planes ih =>
      rw [List.map_cons, List.pairwise_cons] at h
      rw [List.flatMap_cons, List.map_append, List.pairwise_append]
      refine ⟨?_, ih h.2, ?_⟩
      · rw [List.map_map]
        rw [List.pairwise_map]
        exact List.pairwise_iff_getElem.mpr fun i j _ _ _ => by simp [movedPlane]
      · intro a ha b hb
        simp only [List.mem_map, List.mem_flatMap] at ha hb
        obtain ⟨_, ⟨ti, _, rfl⟩, rfl⟩ := ha
        obtain ⟨_, ⟨pl', hpl', ti', _, rfl⟩, rfl⟩ := hb
        exact h.1 _ (List.mem_map.mpr ⟨pl', hpl', rfl⟩)
  unfold wrapVoronoi
  exact (key _).sublist (List.Sublist.map _ List.filter_sublist)

/-- **C65** (partial) If the planes are given in the order of their sites, every row keeps its own site after the
sort, no row is lost or duplicated, and the rows of a site and transformation are contiguous (sorted by site,
transformation and fraction).  Missing: other orders (`C65_unsorted_wrong`). -/
theorem C65_sorted_partial (planes : List (ℕ × V3 K × V3 K))
    (h : (planes.map fun p => p.1).Pairwise (· ≤ ·)) :
    (∀ x ∈ partitionPlanes planes, x.1 = x.2.site) ∧
    ((partitionPlanes planes).map fun x => x.2).Perm (wrapVoronoi planes) ∧
    ((partitionPlanes planes).map fun x => x.2).Pairwise planeLE := by
  have hp := List.perm_insertionSort planeLE (wrapVoronoi planes)
  have hs : ((wrapVoronoi planes).insertionSort planeLE).Pairwise planeLE :=
    List.pairwise_insertionSort planeLE _
  have heq : (wrapVoronoi planes).map (fun r => r.site) =
      ((wrapVoronoi planes).insertionSort planeLE).map (fun r => r.site) := by
    refine List.Perm.eq_of_pairwise (le := (· ≤ ·)) (fun a b _ _ => le_antisymm) (wrap_sites planes h) ?_
      ((hp.map _).symm)
    rw [List.pairwise_map]
    refine hs.imp fun {a b} hab => ?_
    rcases hab with hab | hab
    · exact hab.le
    · exact hab.1.le
  have hmap : (partitionPlanes planes).map (fun x => x.2) = (wrapVoronoi planes).insertionSort planeLE := by
    unfold partitionPlanes
    rw [List.map_snd_zip]
    simp
  refine ⟨fun x hx => ?_, by rw [hmap]; exact hp, by rw [hmap]; exact hs⟩
  unfold partitionPlanes at hx
  simp only at hx
  rw [heq] at hx
  obtain ⟨i, hi, rfl⟩ := List.mem_iff_getElem.mp hx
  simp

end

/-- Two planes, of site 1 and of site 0. -/
def twoPlanes : List (ℕ × V3 ℚ × V3 ℚ) :=
  [(1, (1 / 2, 0, 0), (1, 0, 0)), (0, (1 / 4, 0, 0), (1, 0, 0)), (0, (1 / 4, 0, 0), (0, 1, 0))]

/-- **C65** (negative part) Given in another order, rows get the index of a different site: the sort reorders
everything but the site indices. -/
theorem C65_unsorted_wrong : ∃ x ∈ partitionPlanes twoPlanes, x.1 ≠ x.2.site := by
  decide +kernel

/-- The six planes of a single atom in the centre of a cubic cell. -/
def sixPlanes : List (ℕ × V3 ℚ × V3 ℚ) :=
  [(0, (1, 1 / 2, 1 / 2), (1, 0, 0)), (0, (0, 1 / 2, 1 / 2), (-1, 0, 0)), (0, (1 / 2, 1, 1 / 2), (0, 1, 0)),
   (0, (1 / 2, 0, 1 / 2), (0, -1, 0)), (0, (1 / 2, 1 / 2, 1), (0, 0, 1)), (0, (1 / 2, 1 / 2, 0), (0, 0, -1))]

/-- **C65** (negative part) A site whose region is the whole cell loses all its planes, so that no voxel can be
assigned to it: every point of the cell is inside its planes, but the result is empty. -/
theorem C65_whole_cell_lost :
    wrapVoronoi sixPlanes = [] ∧
    ∀ q : V3 ℚ, 0 ≤ q.1 → q.1 ≤ 1 → 0 ≤ q.2.1 → q.2.1 ≤ 1 → 0 ≤ q.2.2 → q.2.2 ≤ 1 →
      ∀ pl ∈ sixPlanes, dotV pl.2.2 (subV q pl.2.1) ≤ 0 := by
  constructor
  · have : (wrapVoronoi sixPlanes).length = 0 := by decide +kernel
    exact List.length_eq_zero_iff.mp this
  · intro q a1 a2 b1 b2 c1 c2 pl hpl
    fin_cases hpl <;> simp only [dotV, subV] <;> linarith

/-- **C65** (negative part) The fraction is computed from the fractional displacement as if it were the normal of
the plane in fractional coordinates.  In a cell with different edge lengths it is not: here the fraction is 1 (the
plane is dropped), while the corner (0, 1, 0) of the cell is outside the plane through `p` perpendicular to the
Cartesian displacement, the plane that the assignment uses. -/
theorem C65_metric_wrong :
    let L : M3 ℚ := ((1, 0, 0), (0, 10, 0), (0, 0, 1))
    let v : V3 ℚ := (3 / 5, 4 / 5, 0)
    let p : V3 ℚ := (2, 1 / 2, 0)
    cubeFraction v (-dotV v p) = 1 ∧ 0 < dotV (vecMat v L) (vecMat (subV (0, 1, 0) p) L) := by
  decide +kernel

/-- **C65** For cubic lattices the two planes agree. -/
theorem C65_cubic {K : Type*} [Field K] [LinearOrder K] [IsStrictOrderedRing K] (L : M3 K) (c : K) (hc : 0 < c)
    (h1 : dotV L.1 L.1 = c) (h2 : dotV L.2.1 L.2.1 = c) (h3 : dotV L.2.2 L.2.2 = c)
    (h12 : dotV L.1 L.2.1 = 0) (h13 : dotV L.1 L.2.2 = 0) (h23 : dotV L.2.1 L.2.2 = 0) (v q p : V3 K) :
    dotV (vecMat v L) (vecMat (subV q p) L) ≤ 0 ↔ dotV v q - dotV v p ≤ 0 := by
  have e : dotV (vecMat v L) (vecMat (subV q p) L) = c * (dotV v q - dotV v p) := by
    obtain ⟨⟨a1, a2, a3⟩, ⟨b1, b2, b3⟩, ⟨c1, c2, c3⟩⟩ := L
    simp only [dotV, vecMat, subV] at *
    linear_combination (v.1 * (q.1 - p.1)) * h1 + (v.2.1 * (q.2.1 - p.2.1)) * h2 +
      (v.2.2 * (q.2.2 - p.2.2)) * h3 + (v.1 * (q.2.1 - p.2.1) + v.2.1 * (q.1 - p.1)) * h12 +
      (v.1 * (q.2.2 - p.2.2) + v.2.2 * (q.1 - p.1)) * h13 +
      (v.2.1 * (q.2.2 - p.2.2) + v.2.2 * (q.2.1 - p.2.1)) * h23
  rw [e]
  constructor
  · intro h
    by_contra hn
    exact absurd h (not_le.mpr (mul_pos hc (not_le.mp hn)))
  · intro h
    exact mul_nonpos_of_nonneg_of_nonpos hc.le h

/-! ### The regions before and after the selection -/
open MeasureTheory

/-- The unit cell in fractional coordinates. -/
def unitCube : Set (ℝ × ℝ × ℝ) :=
  {q | q.1 ∈ Set.Icc (0 : ℝ) 1 ∧ q.2.1 ∈ Set.Icc (0 : ℝ) 1 ∧ q.2.2 ∈ Set.Icc (0 : ℝ) 1}

/-- The part of the unit cell inside all planes of `site` moved by `t` (with rounded normals). -/
def cellPart (planes : List (ℕ × V3 ℝ × V3 ℝ)) (site : ℕ) (t : Coord) : Set (ℝ × ℝ × ℝ) :=
  {q | q ∈ unitCube ∧ ∀ pl ∈ planes, pl.1 = site →
    dotV (roundDecV pl.2.2) (subV q (image pl.2.1 t)) ≤ 0}

/-- The part of the unit cell inside the rows of `site` and transformation number `k`. -/
def rowPart (rows : List (WPlane ℝ)) (site k : ℕ) : Set (ℝ × ℝ × ℝ) :=
  {q | q ∈ unitCube ∧ ∀ w ∈ rows, w.site = site → w.trans = k → dotV w.vector (subV q w.point) ≤ 0}

theorem unitCube_measurable : MeasurableSet unitCube :=
  (measurable_fst measurableSet_Icc).inter
    ((measurable_snd.fst measurableSet_Icc).inter (measurable_snd.snd measurableSet_Icc))

theorem cubeUnder_measurable (p : V3 ℝ) (d : ℝ) : MeasurableSet (cubeUnder p d) := by
  refine (measurable_fst measurableSet_Icc).inter
    ((measurable_snd.fst measurableSet_Icc).inter ((measurable_snd.snd measurableSet_Icc).inter ?_))
  exact measurableSet_le (f := fun q : ℝ × ℝ × ℝ => p.1 * q.1 + p.2.1 * q.2.1 + p.2.2 * q.2.2 + d)
    (g := fun _ => (0 : ℝ)) (by fun_prop) (by fun_prop)

theorem unitCube_volume : volume unitCube = 1 := by
  have h : unitCube = cubeUnder (0, 0, 0) 0 := by
    ext q
    constructor
    · rintro ⟨a, b, c⟩; exact ⟨a, b, c, by simp⟩
    · rintro ⟨a, b, c, _⟩; exact ⟨a, b, c⟩
  rw [h, cubeUnder_volume]
  simp [iterVol_zero, iterVol]

theorem cubeUnder_compl (p : V3 ℝ) (d : ℝ) :
    volume (unitCube \ cubeUnder p d) = ENNReal.ofReal (1 - volUnder p d) := by
  have hsub : cubeUnder p d ⊆ unitCube := fun q hq => ⟨hq.1, hq.2.1, hq.2.2.1⟩
  have hfin : volume (cubeUnder p d) ≠ ⊤ := by rw [cubeUnder_volume]; exact ENNReal.ofReal_ne_top
  rw [measure_diff hsub (cubeUnder_measurable p d).nullMeasurableSet hfin, unitCube_volume,
    ENNReal.ofReal_sub _ (by unfold volUnder; exact ENNReal.toReal_nonneg), ENNReal.ofReal_one]
  congr 1
  unfold volUnder
  rw [ENNReal.ofReal_toReal hfin]

theorem union_bound {ι : Type} (l : List ι) (S : ι → Set (ℝ × ℝ × ℝ)) (ε : ℝ) (hε : 0 ≤ ε)
    (h : ∀ i ∈ l, volume (S i) ≤ ENNReal.ofReal ε) :
    volume {q | ∃ i ∈ l, q ∈ S i} ≤ ENNReal.ofReal (l.length * ε) := by
  induction l with
  | nil => simp
  | cons i l ih =>
    have e : {q | ∃ j ∈ i :: l, q ∈ S j} = S i ∪ {q | ∃ j ∈ l, q ∈ S j} := by
      ext q
      simp
    rw [e]
    refine (measure_union_le _ _).trans ?_
    have h1 := h i (by simp)
    have h2 := ih fun j hj => h j (by simp [hj])
    refine (add_le_add h1 h2).trans ?_
    rw [← ENNReal.ofReal_add hε (by positivity)]
    refine ENNReal.ofReal_le_ofReal ?_
    push_cast [List.length_cons]
    linarith

theorem moved_inside (pl : ℕ × V3 ℝ × V3 ℝ) (k : ℕ) (t : Coord) (q : ℝ × ℝ × ℝ) (hq : q ∈ unitCube) :
    (dotV (roundDecV pl.2.2) (subV q (image pl.2.1 t)) ≤ 0 ↔
      q ∈ cubeUnder (roundDecV pl.2.2) (dotV (-(roundDecV pl.2.2).1, -(roundDecV pl.2.2).2.1,
        -(roundDecV pl.2.2).2.2) (image pl.2.1 t))) := by
  unfold cubeUnder
  have e : dotV (roundDecV pl.2.2) (subV q (image pl.2.1 t)) =
      (roundDecV pl.2.2).1 * q.1 + (roundDecV pl.2.2).2.1 * q.2.1 + (roundDecV pl.2.2).2.2 * q.2.2 +
        dotV (-(roundDecV pl.2.2).1, -(roundDecV pl.2.2).2.1, -(roundDecV pl.2.2).2.2) (image pl.2.1 t) := by
    simp only [dotV, subV]
    ring
  rw [e]
  exact ⟨fun h => ⟨hq.1, hq.2.1, hq.2.2, h⟩, fun h => h.2.2.2⟩

/-- **C65** Dropping planes does not change the regions, up to the rounding of the fractions: for every site and
transformation the rows of the result contain the region of the original planes; if there is a row, the volume
gained is at most half of the twelfth decimal per plane; and if there is none, the region is empty or it is the
whole cell, up to the same volume (the second case is the loss of `C65_whole_cell_lost`). -/
theorem C65_regions (planes : List (ℕ × V3 ℝ × V3 ℝ)) (hn : ∀ pl ∈ planes, roundDecV pl.2.2 ≠ (0, 0, 0))
    (site k : ℕ) (t : Coord) (hk : wrapTransforms[k]? = some t) :
    cellPart planes site t ⊆ rowPart (wrapVoronoi planes) site k ∧
    ((∃ w ∈ wrapVoronoi planes, w.site = site ∧ w.trans = k) →
      volume (rowPart (wrapVoronoi planes) site k \ cellPart planes site t) ≤
        ENNReal.ofReal (planes.length * (1 / 2 / 10 ^ 12))) ∧
    ((¬ ∃ w ∈ wrapVoronoi planes, w.site = site ∧ w.trans = k) →
      volume (cellPart planes site t) ≤ ENNReal.ofReal (1 / 2 / 10 ^ 12) ∨
      volume (unitCube \ cellPart planes site t) ≤ ENNReal.ofReal (planes.length * (1 / 2 / 10 ^ 12))) := by
  have hpt : ∀ (pl : ℕ × V3 ℝ × V3 ℝ), (movedPlane pl (k, t)).point = image pl.2.1 t := fun pl => rfl
  have hvol : ∀ pl ∈ planes, |volUnder (roundDecV pl.2.2) (dotV (-(roundDecV pl.2.2).1, -(roundDecV pl.2.2).2.1,
      -(roundDecV pl.2.2).2.2) (image pl.2.1 t)) - (movedPlane pl (k, t)).vol| ≤ 1 / 2 / 10 ^ 12 := fun pl hpl =>
    C39_error _ _ (Or.inl (hn pl hpl))
  -- a violated plane with fraction 1
  have lost : ∀ S : Set (ℝ × ℝ × ℝ), S ⊆ unitCube →
      (∀ pl ∈ planes, pl.1 = site → (movedPlane pl (k, t)).vol ≠ 1 →
        ∀ q ∈ S, dotV (roundDecV pl.2.2) (subV q (image pl.2.1 t)) ≤ 0) →
      volume (S \ cellPart planes site t) ≤ ENNReal.ofReal (planes.length * (1 / 2 / 10 ^ 12)) := by
    intro S hS hall
    have hsub : S \ cellPart planes site t ⊆ {q | ∃ pl ∈ planes.filter (fun pl => (movedPlane pl (k, t)).vol = 1),
        q ∈ unitCube \ cubeUnder (roundDecV pl.2.2) (dotV (-(roundDecV pl.2.2).1, -(roundDecV pl.2.2).2.1,
          -(roundDecV pl.2.2).2.2) (image pl.2.1 t))} := by
      rintro q ⟨hq, hnot⟩
      have : ∃ pl ∈ planes, pl.1 = site ∧ ¬ dotV (roundDecV pl.2.2) (subV q (image pl.2.1 t)) ≤ 0 := by
        by_contra hno
        push Not at hno
        exact hnot ⟨hS hq, fun pl hpl hs => hno pl hpl hs⟩
      obtain ⟨pl, hpl, hs, hv⟩ := this
      refine ⟨pl, List.mem_filter.mpr ⟨hpl, ?_⟩, hS hq, fun h => hv ((moved_inside pl k t q (hS hq)).mpr h)⟩
      by_contra h1
      exact hv (hall pl hpl hs (by simpa using h1) q hq)
    refine (measure_mono hsub).trans ((union_bound _ _ (1 / 2 / 10 ^ 12) (by norm_num) ?_).trans ?_)
    · intro pl hpl
      obtain ⟨hpl, h1⟩ := List.mem_filter.mp hpl
      rw [cubeUnder_compl]
      refine ENNReal.ofReal_le_ofReal ?_
      have := (abs_le.mp (hvol pl hpl)).1
      rw [of_decide_eq_true h1] at this
      linarith
    · refine ENNReal.ofReal_le_ofReal ?_
      have := List.length_filter_le (fun pl => decide ((movedPlane pl (k, t)).vol = 1)) planes
      have : ((planes.filter fun pl => decide ((movedPlane pl (k, t)).vol = 1)).length : ℝ) ≤ planes.length := by
        exact_mod_cast this
      exact mul_le_mul_of_nonneg_right this (by norm_num)
  refine ⟨?_, ?_, ?_⟩
  · rintro q ⟨hq, h⟩
    refine ⟨hq, fun w hw hs hk' => ?_⟩
    obtain ⟨pl, hpl, k', t', hkt, rfl, _, _⟩ := (C65_kept planes w).mp hw
    have e1 : k' = k := hk'
    subst e1
    rw [hk] at hkt
    obtain rfl := Option.some.inj hkt
    exact h pl hpl hs
  · rintro ⟨w0, hw0, hs0, hk0⟩
    obtain ⟨pl0, hpl0, k0, t0, hkt0, rfl, _, hdead⟩ := (C65_kept planes w0).mp hw0
    have e1 : k0 = k := hk0
    subst e1
    rw [hk] at hkt0
    obtain rfl := Option.some.inj hkt0
    have e2 : pl0.1 = site := hs0
    refine lost _ (fun q hq => hq.1) fun pl hpl hs h1 q hq => ?_
    exact hq.2 (movedPlane pl (k0, t)) ((C65_kept planes _).mpr ⟨pl, hpl, k0, t, hk, rfl, h1,
      fun pl' hpl' hs' => hdead pl' hpl' (by rw [hs', hs, e2])⟩) hs rfl
  · intro hno
    by_cases hd : ∃ pl ∈ planes, pl.1 = site ∧ (movedPlane pl (k, t)).vol = 0
    · left
      obtain ⟨pl, hpl, hs, h0⟩ := hd
      have hsub : cellPart planes site t ⊆ cubeUnder (roundDecV pl.2.2) (dotV (-(roundDecV pl.2.2).1,
          -(roundDecV pl.2.2).2.1, -(roundDecV pl.2.2).2.2) (image pl.2.1 t)) := by
        rintro q ⟨hq, h⟩
        exact (moved_inside pl k t q hq).mp (h pl hpl hs)
      refine (measure_mono hsub).trans ?_
      rw [cubeUnder_volume, ← volUnder_eq]
      refine ENNReal.ofReal_le_ofReal ?_
      have := (abs_le.mp (hvol pl hpl)).2
      rw [h0] at this
      linarith
    · right
      push Not at hd
      refine lost _ (fun q hq => hq) fun pl hpl hs h1 q hq => ?_
      exact absurd ⟨movedPlane pl (k, t), (C65_kept planes _).mpr ⟨pl, hpl, k, t, hk, rfl, h1,
        fun pl' hpl' hs' => hd pl' hpl' (by rw [hs', hs])⟩, hs, rfl⟩ hno

/-- Non-vacuity of C65: of two planes cutting the cell in the middle, rows remain for the home cell. -/
example : ((wrapVoronoi [(0, (1 / 2, 0, 0), (1, 0, 0)), (1, (1 / 2, 0, 0), (-1, 0, 0))] : List (WPlane ℚ)).map
    fun w => (w.site, w.trans, w.vol)).filter (fun x => x.2.1 = 0) = [(0, 0, 1 / 2), (1, 0, 1 / 2)] := by
  decide +kernel

end BaderKit
