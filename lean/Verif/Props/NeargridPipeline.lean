import Verif.Props.NeargridRefine
import Verif.Props.Ongrid
/-! # Properties C20 and C22: the complete neargrid method -/
set_option linter.unusedSectionVars false
namespace BaderKit
variable {K : Type*} [Field K] [LinearOrder K] [IsStrictOrderedRing K] [FloorRing K]

/-- Any pointer array over a valid initial labelling whose pointers rise: roots and ranking. -/
theorem pointers_spec (s : Shape) (data : ℕ → K) (ts : List Coord) (vac M : ℕ → Bool)
    (same : ℕ → ℕ → Bool) (nv : ℕ) (labels p : ℕ → ℤ) (reps : List ℕ)
    (hM : MarksMaxima s data ts vac M) (hnv : nv = 0 → ∀ v < s.size, vac v = false)
    (hval : ValidInit s data ts M same labels reps)
    (pkeep : ∀ v, vac v = true ∨ M v = true → p v = labels v)
    (hstep : ∀ v < s.size, vac v = false → M v = false →
      ∃ w : ℕ, p v = (w : ℤ) ∧ Near s v w ∧ vac w = false ∧ data v < data w) :
    ∃ (r : ℕ → ℤ) (F : ℕ), (∀ fuel ≥ F, getRoots s.size nv fuel p = some r) ∧
      (∀ v < s.size, vac v = true → rankLabels s.size r v = -1) ∧
      (∀ v < s.size, vac v = false → (0 ≤ rankLabels s.size r v ∧ rankLabels s.size r v < reps.length) ∧
        ∃ m, Rises s data M v m ∧ M m = true ∧ rankLabels s.size r v = rankLabels s.size r m) ∧
      (∀ v w, M v = true → M w = true →
        (rankLabels s.size r v = rankLabels s.size r w ↔ labels v = labels w)) ∧
      (∀ b : ℕ, b < reps.length → ∃ v, M v = true ∧ rankLabels s.size r v = b) ∧
      (∀ v w, M v = true → M w = true →
        (rankLabels s.size r v < rankLabels s.size r w ↔ labels v < labels w)) ∧
      (∀ v < s.size, vac v = false → M v = false → ∀ w : ℕ, p v = (w : ℤ) → rankLabels s.size r v = rankLabels s.size r w) := by
  have hMs : ∀ v, M v = true → v < s.size := fun v hv => ((hM v).mp hv).1
  have pmax : ∀ v, M v = true → p v = labels v := fun v hv => pkeep v (.inr hv)
  have pvac : ∀ v, vac v = true → p v = -1 := by
    intro v hv
    rw [pkeep v (.inl hv)]
    apply hval.other
    by_contra h
    have := ((hM v).mp (by simpa using h)).2.1
    rw [hv] at this; simp at this
  have pne : ∀ v < s.size, vac v = false → p v ≠ -1 := by
    intro v hv hvv
    by_cases hMv : M v = true
    · rw [pmax v hMv]
      obtain ⟨r, hr, _⟩ := hval.rep v hMv
      rw [hr]; omega
    · obtain ⟨w, hw, _⟩ := hstep v hv hvv (by simpa using hMv)
      rw [hw]; omega
  have piff : ∀ v < s.size, (p v ≠ -1 ↔ vac v = false) := by
    intro v hv
    constructor
    · intro h
      by_contra hc
      exact h (pvac v (by simpa using hc))
    · exact pne v hv
  have hroot : ∀ k v, v < s.size → vac v = false → above s data v ≤ k →
      ∃ m, Rises s data M v m ∧ M m = true ∧ ∃ r : ℕ, labels m = r ∧ IsRootOf p v r := by
    intro k
    induction k using Nat.strong_induction_on with
    | _ k ih =>
      intro v hv hvv hk
      by_cases hMv : M v = true
      · obtain ⟨r, hr, hMr, hrr, _⟩ := hval.rep v hMv
        refine ⟨v, .stop hMv, hMv, r, hr, ⟨1, ?_⟩, ?_⟩
        · simp [chase, pmax v hMv, hr]
        · rw [pmax r hMr, hrr]
      · obtain ⟨w, hw, hn, hwv, hlt⟩ := hstep v hv hvv (by simpa using hMv)
        have := above_lt hn.1 hlt
        obtain ⟨m, h1, h2, r, h3, ⟨j, hj⟩, hfix⟩ := ih (k - 1) (by omega) w hn.1 hwv (by omega)
        refine ⟨m, .step hn hlt h1, h2, r, h3, ⟨j + 1, ?_⟩, hfix⟩
        simp [chase, hw, hj]
  obtain ⟨r, ⟨F, hF⟩, _, hspec⟩ := C10_get_roots s.size nv p
    (fun h v hv => pne v hv (hnv h v hv))
    (by
      intro v hv hne
      have hvv := (piff v hv).mp hne
      by_cases hMv : M v = true
      · obtain ⟨r, hr, hMr, hrr, _⟩ := hval.rep v hMv
        have hrs := hMs r hMr
        rw [pmax v hMv, hr]
        refine ⟨by omega, by exact_mod_cast hrs, ?_⟩
        simpa using pne r hrs ((hM r).mp hMr).2.1
      · obtain ⟨w, hw, h1, h2, _⟩ := hstep v hv hvv (by simpa using hMv)
        rw [hw]
        exact ⟨by omega, by exact_mod_cast h1.1, by simpa using pne w h1.1 h2⟩)
    (by
      intro v hv hne
      obtain ⟨m, _, _, r, _, hr⟩ := hroot _ v hv ((piff v hv).mp hne) le_rfl
      exact ⟨r, hr⟩)
  have rmax : ∀ v, M v = true → r v = labels v := by
    intro v hv
    have h := (hM v).mp hv
    obtain ⟨y, hy, hy'⟩ := (hspec v h.1).2 (pne v h.1 h.2.1)
    obtain ⟨x, hx, hMx, hxx, _⟩ := hval.rep v hv
    have : IsRootOf p v x := ⟨⟨1, by simp [chase, pmax v hv, hx]⟩, by rw [pmax x hMx, hxx]⟩
    rw [hy, hx, isRootOf_unique hy' this]
  have rv : ∀ v < s.size, vac v = false → ∃ m, Rises s data M v m ∧ M m = true ∧ r v = labels m := by
    intro v hv hvv
    obtain ⟨m, h1, h2, x, hx, hx'⟩ := hroot _ v hv hvv le_rfl
    obtain ⟨y, hy, hy'⟩ := (hspec v hv).2 (pne v hv hvv)
    exact ⟨m, h1, h2, by rw [hy, hx, isRootOf_unique hy' hx']⟩
  have rvac : ∀ v < s.size, vac v = true → r v = -1 := fun v hv h => (hspec v hv).1 (pvac v h)
  have rge : ∀ v < s.size, -1 ≤ r v := by
    intro v hv
    by_cases h : vac v = true
    · rw [rvac v hv h]
    · obtain ⟨y, hy, _⟩ := (hspec v hv).2 (pne v hv (by simpa using h))
      rw [hy]; omega
  obtain ⟨h1, h2, h3, h4, h5⟩ := rankLabels_spec s.size r rge
  have hcard : (((Finset.range s.size).image r).erase (-1)).card = reps.length := by
    have : ((Finset.range s.size).image r).erase (-1) = (reps.map (fun x : ℕ => (x : ℤ))).toFinset := by
      ext x
      simp only [Finset.mem_erase, Finset.mem_image, Finset.mem_range, List.mem_toFinset,
        List.mem_map]
      constructor
      · rintro ⟨hne, v, hv, rfl⟩
        have hvv : vac v = false := by
          by_contra h; exact hne (rvac v hv (by simpa using h))
        obtain ⟨m, _, hMm, e⟩ := rv v hv hvv
        obtain ⟨y, hy, _⟩ := hval.rep m hMm
        exact ⟨y, (hval.reps_mem y).mpr ⟨m, hMm, hy⟩, by rw [e, hy]⟩
      · rintro ⟨y, hy, rfl⟩
        obtain ⟨v, hv, hvy⟩ := (hval.reps_mem y).mp hy
        exact ⟨by omega, v, hMs v hv, by rw [rmax v hv, hvy]⟩
    rw [this, List.toFinset_card_of_nodup]
    · simp
    · exact hval.reps_nodup.map (fun a b h => by exact_mod_cast h)
  refine ⟨r, F, hF, fun v hv h => (h3 v hv).mpr (rvac v hv h), ?_, ?_, ?_, ?_, ?_⟩
  · intro v hv hvv
    refine ⟨?_, ?_⟩
    · rw [← hcard]
      apply h4 v hv
      obtain ⟨y, hy, _⟩ := (hspec v hv).2 (pne v hv hvv)
      rw [hy]; omega
    · obtain ⟨m, h1, hMm, e⟩ := rv v hv hvv
      exact ⟨m, h1, hMm, (h2 v hv m (hMs m hMm)).mpr (by rw [e, rmax m hMm])⟩
  · intro v w hv hw
    rw [h2 v (hMs v hv) w (hMs w hw), rmax v hv, rmax w hw]
  · intro b hb
    rw [← hcard] at hb
    obtain ⟨v, hv, e⟩ := h5 b hb
    have hvv : vac v = false := by
      by_contra h
      have := (h3 v hv).mpr (rvac v hv (by simpa using h))
      rw [this] at e; omega
    obtain ⟨m, _, hMm, e'⟩ := rv v hv hvv
    exact ⟨m, hMm, by rw [← e]; exact ((h2 v hv m (hMs m hMm)).mpr (by rw [e', rmax m hMm])).symm⟩
  · intro v w hv hw
    rw [h1 v (hMs v hv) w (hMs w hw), rmax v hv, rmax w hw]
  · intro v hv hvv hMv w hw
    obtain ⟨w', hw', hn, hwv, _⟩ := hstep v hv hvv hMv
    have e : w' = w := by exact_mod_cast hw'.symm.trans hw
    subst e
    obtain ⟨y, hy, hy'⟩ := (hspec v hv).2 (pne v hv hvv)
    obtain ⟨z, hz, ⟨⟨j, hj⟩, hfix⟩⟩ := (hspec w' hn.1).2 (pne w' hn.1 hwv)
    have : IsRootOf p v z := ⟨⟨j + 1, by simp [chase, hw', hj]⟩, hfix⟩
    rw [h2 v hv w' hn.1, hy, hz, isRootOf_unique hy' this]

/-- Ranked labels number increasing representatives one after the other. -/
theorem order_of_ranks {s : Shape} {data : ℕ → K} {ts : List Coord} {vac M : ℕ → Bool} {same : ℕ → ℕ → Bool} {labels lab : ℕ → ℤ} {reps : List ℕ}
    (hM : MarksMaxima s data ts vac M) (hval : ValidInit s data ts M same labels reps)
    (hb : ∀ v < s.size, vac v = false → 0 ≤ lab v ∧ lab v < reps.length)
    (hlt : ∀ v w, M v = true → M w = true → (lab v < lab w ↔ labels v < labels w)) (hpw : reps.Pairwise (· < ·)) :
    ∀ i (h : i < reps.length), lab reps[i] = i := by
  intro i hi
  have hrep : ∀ i (h : i < reps.length), M reps[i] = true ∧ labels reps[i] = reps[i] := by
    intro i h
    obtain ⟨v, hv, hl⟩ := (hval.reps_mem _).mp (List.getElem_mem h)
    obtain ⟨r, hr, h1, h2, _⟩ := hval.rep v hv
    rw [hl] at hr
    have hr : reps[i] = r := by exact_mod_cast hr
    rw [hr]; exact ⟨h1, h2⟩
  have hb : ∀ i (h : i < reps.length), 0 ≤ lab reps[i] ∧ lab reps[i] < reps.length := by
    intro i h
    have hm := (hM _).mp (hrep i h).1
    exact hb _ hm.1 hm.2.1
  have := strictMono_fin_eq (n := reps.length) (fun i => (lab (reps.getD i 0)).toNat)
    (by
      intro i hi
      have := hb i hi
      simp only [List.getD_eq_getElem _ _ hi]
      omega)
    (by
      intro i j hij hj
      have hi : i < reps.length := by omega
      have hlt := (hlt _ _ (hrep i hi).1 (hrep j hj).1).mpr (by
        rw [(hrep i hi).2, (hrep j hj).2]
        exact_mod_cast List.pairwise_iff_getElem.mp hpw i j hi hj hij)
      have := hb i hi
      have := hb j hj
      simp only [List.getD_eq_getElem _ _ hi, List.getD_eq_getElem _ _ hj]
      omega) i hi
  have hb' := hb i hi
  simp only [List.getD_eq_getElem _ _ hi] at this
  omega

/-- The complete neargrid method in detail: `base` are the ranked roots of the pointers, `lab` the labels after the refinement. -/
theorem neargrid_detail (s : Shape) (data : ℕ → K) (nbrs : List (Coord × K)) (grad : ℕ → K × K × K)
    (vac M : ℕ → Bool) (same : ℕ → ℕ → Bool) (nv : ℕ) (labels : ℕ → ℤ) (reps : List ℕ)
    (hpos : 0 < s.size) (hu : ∀ td ∈ nbrs, UnitStep td.1) (hd : ∀ td ∈ nbrs, 0 < td.2)
    (hM : MarksMaxima s data (nbrs.map Prod.fst) vac M)
    (hup : ∀ v < s.size, vac v = false → ∀ w, Near s v w → data v < data w → vac w = false)
    (hnv : nv = 0 → ∀ v < s.size, vac v = false)
    (hval : ValidInit s data (nbrs.map Prod.fst) M same labels reps) :
    let I : NearIn K := ⟨s, data, nbrs, M, (gradientPointers s data nbrs grad vac M (List.range s.size) labels).2⟩
    ∃ base lab : ℕ → ℤ,
      ((∀ (o1 o2 : List ℕ) (perm : List ℕ → List ℕ), IsSchedule s o1 → IsSchedule s o2 →
        (∀ l, (perm l).Perm l) → ∃ F, ∀ fuel ≥ F, ∃ lab',
          neargridLabels s data nbrs grad vac M nv o1 o2 perm fuel labels = some lab' ∧
          ∀ v < s.size, lab' v = lab v) ∧
      (∀ v < s.size, vac v = true → lab v = -1) ∧
      (∀ v < s.size, vac v = false → (0 ≤ lab v ∧ lab v < reps.length) ∧
        ∃ m, M m = true ∧ lab v = lab m ∧ (Rises s data M v m ∨ ClimbsTo I vac v m)) ∧
      (∀ v w, M v = true → M w = true → (lab v = lab w ↔ labels v = labels w)) ∧
      (∀ b : ℕ, b < reps.length → ∃ v < s.size, lab v = b) ∧
      (∀ v w, M v = true → M w = true → (lab v < lab w ↔ labels v < labels w))) ∧
      NearInput I vac ∧ RefineSpec I vac base lab ∧
      (∀ v < s.size, vac v = false → M v = false → ∃ w < s.size, w = (gradPointer s data nbrs (grad v) v).1 ∧ vac w = false ∧ data v < data w ∧
        base v = base w) ∧
      (∀ v w, M v = true → M w = true → (base v = base w ↔ labels v = labels w)) := by
  intro I₀
  have horder : ∀ o1, IsSchedule s o1 → gradientPointers s data nbrs grad vac M o1 labels =
      gradientPointers s data nbrs grad vac M (List.range s.size) labels := by
    intro o1 h1
    have a := gradientPointers_apply s data nbrs grad vac M o1 labels
    have b := gradientPointers_apply s data nbrs grad vac M (List.range s.size) labels
    ext1
    · funext v; rw [(a v).1, (b v).1]; simp only [mem_schedule h1, List.mem_range]
    · funext v; rw [(a v).2, (b v).2]; simp only [mem_schedule h1, List.mem_range]
  have hrange : IsSchedule s (List.range s.size) := List.Perm.refl _
  obtain ⟨k1, k2, k3⟩ := C20_pointers s data nbrs grad vac M (List.range s.size) labels hu hd hM hrange
  set pg := gradientPointers s data nbrs grad vac M (List.range s.size) labels with hpg
  obtain ⟨r, F1, hF1, h1, h2, h3, h4, h5, h6⟩ := pointers_spec s data (nbrs.map Prod.fst) vac M same nv labels
    pg.1 reps hM hnv hval k1 (by
      intro v hv hvv hMv
      obtain ⟨w, e, hw, hlt, t, ht, hs⟩ := k2 v hv hvv hMv
      exact ⟨w, e, ⟨hw, t, ht, hs⟩, hup v hv hvv w ⟨hw, t, ht, hs⟩ hlt, hlt⟩)
  set I : NearIn K := ⟨s, data, nbrs, M, pg.2⟩ with hIdef
  have hI : NearInput I vac :=
    { fits := fun td htd => (hu td htd).fits (pos_of_lt_size hpos)
      pos := hd
      maxima := hM
      up := by
        intro v hv hvv w hw hlt
        refine hup v hv hvv w ⟨hw.1, ?_⟩ hlt
        obtain ⟨_, t, ht, hs⟩ := hw
        obtain ⟨td, htd, rfl⟩ := List.mem_map.mp ht
        exact ⟨td.1, hu td htd, hs⟩
      grad := k3 }
  have hlab : RankedLabels I.s vac (rankLabels s.size r) := fun v hv =>
    ⟨h1 v hv, fun h => (h2 v hv h).1.1⟩
  obtain ⟨out, F2, hF2, hspec⟩ := C22_refine I vac hI (rankLabels s.size r) hlab (List.range s.size)
    hrange id (fun l => List.Perm.refl l)
  have hmax : ∀ v, M v = true → out v = rankLabels s.size r v := by
    intro v hv
    obtain ⟨_, a2, a3⟩ := hspec v ((hM v).mp hv).1
    by_cases hr : Refined I vac (rankLabels s.size r) (EdgeStart I vac (rankLabels s.size r)) v
    · exact a2 hr v (climbsTo_self (I := I) hv)
    · exact a3 hr
  refine ⟨rankLabels s.size r, out, ⟨?_, fun v hv => (hspec v hv).1, ?_, ?_, ?_, ?_⟩, hI, hspec, ?_, h3⟩
  · intro o1 o2 perm ho1 ho2 hperm
    obtain ⟨out', F3, hF3, hspec'⟩ := C22_refine I vac hI (rankLabels s.size r) hlab o2 ho2 perm hperm
    refine ⟨max F1 F3, fun fuel hf => ⟨out', ?_, hspec'.unique hI hspec⟩⟩
    unfold neargridLabels
    rw [horder o1 ho1]
    simp only
    rw [hF1 fuel (le_of_max_le_left hf)]
    exact hF3 fuel (le_of_max_le_right hf) fuel (le_of_max_le_right hf)
  · intro v hv hvv
    obtain ⟨_, a2, a3⟩ := hspec v hv
    by_cases hr : Refined I vac (rankLabels s.size r) (EdgeStart I vac (rankLabels s.size r)) v
    · obtain ⟨m, ⟨k, _, hk⟩, _, hm, hmv, _⟩ := C21_climb I vac hI v hv hvv
      have e := a2 hr m ⟨k, hk⟩
      refine ⟨?_, m, hm, by rw [hmax m hm, e], .inr ⟨k, hk⟩⟩
      rw [e]
      exact (h2 m ((hM m).mp hm).1 hmv).1
    · obtain ⟨hb, m, hm1, hm2, e⟩ := h2 v hv hvv
      rw [a3 hr]
      exact ⟨hb, m, hm2, by rw [hmax m hm2, e], .inl hm1⟩
  · intro v w hv hw
    rw [hmax v hv, hmax w hw]; exact h3 v w hv hw
  · intro b hb
    obtain ⟨m, hm, e⟩ := h4 b hb
    exact ⟨m, ((hM m).mp hm).1, by rw [hmax m hm, e]⟩
  · intro v w hv hw
    rw [hmax v hv, hmax w hw]; exact h5 v w hv hw
  · intro v hv hvv hMv
    obtain ⟨w, e, hw, hlt, t, ht, hs⟩ := k2 v hv hvv hMv
    refine ⟨w, hw, ?_, hup v hv hvv w ⟨hw, t, ht, hs⟩ hlt, hlt, h6 v hv hvv hMv w e⟩
    rw [hpg, (gradientPointers_apply s data nbrs grad vac M (List.range s.size) labels v).1, if_pos ⟨List.mem_range.mpr hv, hvv, hMv⟩] at e
    exact_mod_cast e.symm

/-- **C20, C22** The complete neargrid method (pointers, roots, ranking, refinement) run on a valid initial
labelling terminates.  Vacuum voxels get `-1`; every other voxel gets a label in `0..B-1`, `B` being the
number of reported maxima, namely the label of a maximum that is reached either by its near-grid
trajectory or over strictly rising steps; maxima share a label iff the clean-up merged them; labels increase with the voxel numbers of the representatives; every label
is used; and the result does not depend on any of the processing orders. -/
theorem C22_neargrid (s : Shape) (data : ℕ → K) (nbrs : List (Coord × K)) (grad : ℕ → K × K × K)
    (vac M : ℕ → Bool) (same : ℕ → ℕ → Bool) (nv : ℕ) (labels : ℕ → ℤ) (reps : List ℕ)
    (hpos : 0 < s.size) (hu : ∀ td ∈ nbrs, UnitStep td.1) (hd : ∀ td ∈ nbrs, 0 < td.2)
    (hM : MarksMaxima s data (nbrs.map Prod.fst) vac M)
    (hup : ∀ v < s.size, vac v = false → ∀ w, Near s v w → data v < data w → vac w = false)
    (hnv : nv = 0 → ∀ v < s.size, vac v = false)
    (hval : ValidInit s data (nbrs.map Prod.fst) M same labels reps) :
    ∃ lab : ℕ → ℤ,
      (∀ (o1 o2 : List ℕ) (perm : List ℕ → List ℕ), IsSchedule s o1 → IsSchedule s o2 →
        (∀ l, (perm l).Perm l) → ∃ F, ∀ fuel ≥ F, ∃ lab',
          neargridLabels s data nbrs grad vac M nv o1 o2 perm fuel labels = some lab' ∧
          ∀ v < s.size, lab' v = lab v) ∧
      (∀ v < s.size, vac v = true → lab v = -1) ∧
      (∀ v < s.size, vac v = false → (0 ≤ lab v ∧ lab v < reps.length) ∧
        ∃ m, M m = true ∧ lab v = lab m ∧ (Rises s data M v m ∨
          ClimbsTo ⟨s, data, nbrs, M, (gradientPointers s data nbrs grad vac M (List.range s.size)
            labels).2⟩ vac v m)) ∧
      (∀ v w, M v = true → M w = true → (lab v = lab w ↔ labels v = labels w)) ∧
      (∀ b : ℕ, b < reps.length → ∃ v < s.size, lab v = b) ∧
      (∀ v w, M v = true → M w = true → (lab v < lab w ↔ labels v < labels w)) := by
  obtain ⟨_, lab, h, _⟩ := neargrid_detail s data nbrs grad vac M same nv labels reps hpos hu hd hM hup hnv hval
  exact ⟨lab, h⟩

/-- **C20, C22** The same from the start of the run: maxima search, clean-up and the neargrid method, for a
vacuum below a threshold (the complement is closed under steps that do not descend). -/
theorem C22_neargrid_full (s : Shape) (data : ℕ → K) (nbrs : List (Coord × K)) (grad : ℕ → K × K × K)
    (vac : ℕ → Bool) (same : ℕ → ℕ → Bool) (cand : ℕ → ℕ) (sorted order : List ℕ) (nv : ℕ)
    (hpos : 0 < s.size) (hu : ∀ td ∈ nbrs, UnitStep td.1) (hd : ∀ td ∈ nbrs, 0 < td.2)
    (hup : ∀ v < s.size, vac v = false → ∀ w, Near s v w → data v ≤ data w → vac w = false)
    (hnv : nv = 0 → ∀ v < s.size, vac v = false) (hord : IsSchedule s order)
    (hsort : sorted.Perm (maximaVox s (getMaxima s data (nbrs.map Prod.fst) vac false order))) :
    let M := getMaxima s data (nbrs.map Prod.fst) vac false order
    ∃ (res : InitResult) (F0 : ℕ) (lab : ℕ → ℤ),
      (∀ fuel ≥ F0, initLabels s data nbrs M same cand sorted fuel = some res) ∧
      (∀ (o1 o2 : List ℕ) (perm : List ℕ → List ℕ), IsSchedule s o1 → IsSchedule s o2 →
        (∀ l, (perm l).Perm l) → ∃ F, ∀ fuel ≥ F, ∃ lab',
          neargridLabels s data nbrs grad vac M nv o1 o2 perm fuel res.labels = some lab' ∧
          ∀ v < s.size, lab' v = lab v) ∧
      (∀ v < s.size, vac v = true → lab v = -1) ∧
      (∀ v < s.size, vac v = false → 0 ≤ lab v ∧ lab v < res.reps.length) ∧
      (∀ v w, M v = true → M w = true → (lab v = lab w ↔ res.labels v = res.labels w)) ∧
      (∀ b : ℕ, b < res.reps.length → ∃ v < s.size, lab v = b) ∧
      (∀ r ∈ res.reps, M r = true) ∧
      ((∀ v, M v = true → res.labels v = v) → res.reps.Pairwise (· < ·)) ∧
      (res.reps.Pairwise (· < ·) → ∀ i (h : i < res.reps.length), lab res.reps[i] = i) := by
  intro M
  have hts : ∀ td ∈ nbrs, StepFits s td.1 := fun td htd => (hu td htd).fits (pos_of_lt_size hpos)
  have hts' : ∀ t ∈ nbrs.map Prod.fst, StepFits s t := by
    intro t ht; obtain ⟨td, htd, rfl⟩ := List.mem_map.mp ht; exact hts td htd
  have hM := marksMaxima_getMaxima s data (nbrs.map Prod.fst) vac order hord hts'
  have hup' : UpClosedLe s data (nbrs.map Prod.fst) vac := by
    intro v hv hvv w hw hle
    refine hup v hv hvv w ⟨hw.1, ?_⟩ hle
    obtain ⟨_, t, ht, hs⟩ := hw
    obtain ⟨td, htd, rfl⟩ := List.mem_map.mp ht
    exact ⟨td.1, hu td htd, hs⟩
  obtain ⟨res, F1, hF1, hval, _, hid⟩ := C15_init_labels s data nbrs vac M same cand sorted hts hd hM hup'
    hsort
  obtain ⟨lab, h1, h2, h3, h4, h5, h6⟩ := C22_neargrid s data nbrs grad vac M same nv res.labels res.reps hpos
    hu hd hM (fun v hv hvv w hw hlt => hup v hv hvv w hw hlt.le) hnv hval
  exact ⟨res, F1, lab, hF1, h1, h2, fun v hv hvv => (h3 v hv hvv).1, h4, h5, fun r hr => by
      obtain ⟨v, hv, hl⟩ := (hval.reps_mem r).mp hr
      obtain ⟨r', hr', h1, _⟩ := hval.rep v hv
      rw [hl] at hr'
      rw [Int.natCast_inj.mp hr']
      exact h1,
    fun h => by rw [hid h]; exact List.pairwise_lt_range.filter _, order_of_ranks hM hval (fun v hv hvv => (h3 v hv hvv).1) h6⟩

/-- **C16** (partial) For the neargrid method, whatever the gradient and the schedules: the reported maxima and the basin labels agree position by position
when no maxima had to be merged, or more generally whenever the list of representatives happens to be increasing in voxel order.  Missing: the general
statement, which is false (`C16_order_mismatch`, `C103_wrong_atom`). -/
theorem C16_neargrid_order_partial (s : Shape) (data : ℕ → K) (nbrs : List (Coord × K)) (grad : ℕ → K × K × K)
    (vac : ℕ → Bool) (same : ℕ → ℕ → Bool) (cand : ℕ → ℕ) (sorted order o1 o2 : List ℕ) (perm : List ℕ → List ℕ) (nv : ℕ)
    (hpos : 0 < s.size) (hu : ∀ td ∈ nbrs, UnitStep td.1) (hd : ∀ td ∈ nbrs, 0 < td.2)
    (hup : ∀ v < s.size, vac v = false → ∀ w, Near s v w → data v ≤ data w → vac w = false)
    (hnv : nv = 0 → ∀ v < s.size, vac v = false) (hord : IsSchedule s order) (ho1 : IsSchedule s o1) (ho2 : IsSchedule s o2)
    (hperm : ∀ l, (perm l).Perm l)
    (hsort : sorted.Perm (maximaVox s (getMaxima s data (nbrs.map Prod.fst) vac false order))) :
    let M := getMaxima s data (nbrs.map Prod.fst) vac false order
    ∃ (res : InitResult) (F : ℕ), ∀ fuel ≥ F, ∃ lab, initLabels s data nbrs M same cand sorted fuel = some res ∧
      neargridLabels s data nbrs grad vac M nv o1 o2 perm fuel res.labels = some lab ∧
      ((∀ v, M v = true → res.labels v = v) → res.reps.Pairwise (· < ·)) ∧
      (res.reps.Pairwise (· < ·) → ∀ i (h : i < res.reps.length), lab res.reps[i] = i) := by
  intro M
  obtain ⟨res, F0, lab, hF0, hn, h1, h2, _, _, h4, h5, h6⟩ := C22_neargrid_full s data nbrs grad vac same cand sorted order nv hpos hu hd hup hnv hord hsort
  obtain ⟨F, hF⟩ := hn o1 o2 perm ho1 ho2 hperm
  refine ⟨res, max F0 F, fun fuel hf => ?_⟩
  obtain ⟨lab', e, hl⟩ := hF fuel (le_of_max_le_right hf)
  refine ⟨lab', hF0 fuel (le_of_max_le_left hf), e, h5, fun hpw i hi => ?_⟩
  have hts' : ∀ t ∈ nbrs.map Prod.fst, StepFits s t := by
    intro t ht; obtain ⟨td, htd, rfl⟩ := List.mem_map.mp ht; exact (hu td htd).fits (pos_of_lt_size hpos)
  have hM := marksMaxima_getMaxima s data (nbrs.map Prod.fst) vac order hord hts'
  rw [hl _ ((hM _).mp (h4 _ (List.getElem_mem hi))).1]
  exact h6 hpw i hi

/-- Non-vacuity of C16 for neargrid: on the ring `0 5 0 3 0 4 1 2` nothing is merged, and the maxima 1, 3, 5 and 7 are the basins 0 to 3. -/
example : let data : ℕ → ℚ := fun v => [0, 5, 0, 3, 0, 4, 1, 2].getD v 0
    let M := getMaxima ⟨8, 1, 1⟩ data (ring2.map Prod.fst) (fun _ => false) false (List.range 8)
    ((initLabels ⟨8, 1, 1⟩ data ring2 M (fun _ _ => false) id [1, 5, 3, 7] 20).bind fun r =>
      (neargridLabels ⟨8, 1, 1⟩ data ring2 (gradientSimple ⟨8, 1, 1⟩ data idMat) (fun _ => false) M 0 (List.range 8) (List.range 8)
      List.reverse 20 r.labels).map fun l => (r.reps, r.reps.map l)) = some ([1, 3, 5, 7], [0, 1, 2, 3]) := by
  decide +kernel

/-- Non-vacuity of C21 and C22: the complete method on the ring `3 0 2 1 0 4 1 3` with its three basins. -/
example : (∀ td ∈ ring2, UnitStep td.1) ∧ (∀ td ∈ ring2, 0 < td.2) ∧
    ((ringInit.bind fun r => neargridLabels ⟨8, 1, 1⟩ ringData ring2
      (gradientSimple ⟨8, 1, 1⟩ ringData idMat) (fun _ => false) ringMax 0 (List.range 8) (List.range 8)
      List.reverse 20 r.labels).map fun l => (List.range 8).map l) =
    some [0, 0, 1, 1, 2, 2, 2, 0] := by
  refine ⟨by unfold UnitStep; decide, by decide +kernel, by decide +kernel⟩

/-- The ring `5 1 2 3 2 1 2 4` with maxima at voxels 0 and 3 and a stored gradient. -/
def refineDemo : NearIn ℚ where
  s := ⟨8, 1, 1⟩
  data := fun v => [5, 1, 2, 3, 2, 1, 2, 4].getD v 0
  nbrs := ring2
  maxm := getMaxima ⟨8, 1, 1⟩ (fun v => ([5, 1, 2, 3, 2, 1, 2, 4] : List ℚ).getD v 0)
    (ring2.map Prod.fst) (fun _ => false) false (List.range 8)
  grad := fun v => [(0, 0, 0), (1, 0, 0), (1, 0, 0), (0, 0, 0), (-1, 0, 0), (3 / 5, 0, 0), (1, 0, 0),
    (1, 0, 0)].getD v (0, 0, 0)

theorem refineDemo_input : NearInput refineDemo (fun _ => false) where
  fits := by unfold StepFits; decide
  pos := by simp [refineDemo, ring2]
  maxima := marksMaxima_getMaxima _ _ _ _ _ (List.Perm.refl _) (by unfold StepFits; decide)
  up := fun _ _ _ _ _ _ => rfl
  grad := by
    have h8 : ∀ v < 8, Within 1 (refineDemo.grad v) := by
      unfold Within; decide +kernel
    intro v
    by_cases hv : v < 8
    · exact h8 v hv
    · simp only [refineDemo]
      rw [List.getD_eq_default _ _ (by simp; omega)]
      simp [Within]

/-- A refinement that really moves labels: voxels 1 and 2 were given to basin 0 and voxel 6 to basin 1;
the front moves over several passes, in two processing orders. -/
example : NearInput refineDemo (fun _ => false) ∧ RankedLabels refineDemo.s (fun _ => false) (fun v => [0, 0, 0, 1, 1, 1, 1, 0].getD v 0) ∧
    (neargridRefine refineDemo (fun _ => false) (List.range 8) id 20 20
      (fun v => [0, 0, 0, 1, 1, 1, 1, 0].getD v 0)).map (fun l => (List.range 8).map l) =
      some [0, 1, 1, 1, 1, 0, 0, 0] ∧
    (neargridRefine refineDemo (fun _ => false) (List.range 8).reverse List.reverse 20 20
      (fun v => [0, 0, 0, 1, 1, 1, 1, 0].getD v 0)).map (fun l => (List.range 8).map l) =
      some [0, 1, 1, 1, 1, 0, 0, 0] := by
  refine ⟨refineDemo_input, ?_, by decide +kernel, by decide +kernel⟩
  intro v hv
  refine ⟨by simp, fun _ => ?_⟩
  revert v
  decide

end BaderKit
