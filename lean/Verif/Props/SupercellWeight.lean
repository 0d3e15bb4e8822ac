import Verif.Props.SupercellAtoms
import Verif.Props.OriginWeight
/-!
# C119: the weight method and supercells

The shares of a copy in all copies of a basin add up to the share of its voxel, and moving the block by whole cells changes nothing.
-/
set_option linter.unusedSectionVars false
namespace BaderKit
open Finset
variable {K : Type} [Field K] [LinearOrder K] [IsStrictOrderedRing K] [FloorRing K]

section share
variable {n : ℕ × ℕ × ℕ} {k : K} {W W' : WeightIn K} {vac vac' : ℕ → Bool} {labels0 labels0' : ℕ → ℤ} {sorted sorted' : List ℕ}

open Classical in
/-- The numbers of the maxima that are copies of the voxel `m`. -/
noncomputable def copyIdx (W W' : WeightIn K) (m : ℕ) : Finset ℕ := (range W'.maxIdx.length).filter fun j => CopyOf W.s W'.s (W'.maxIdx.getD j 0) m

theorem mem_copyIdx {m j : ℕ} : j ∈ copyIdx W W' m ↔ ∃ h : j < W'.maxIdx.length, CopyOf W.s W'.s W'.maxIdx[j] m := by
  classical
  unfold copyIdx
  rw [Finset.mem_filter, Finset.mem_range]
  constructor
  · rintro ⟨h, hc⟩
    rw [List.getD_eq_getElem?_getD, List.getElem?_eq_getElem h] at hc
    exact ⟨h, hc⟩
  · rintro ⟨h, hc⟩
    refine ⟨h, ?_⟩
    rw [List.getD_eq_getElem?_getD, List.getElem?_eq_getElem h]
    exact hc

/-- The shares of a copy in the copies of a basin add up to the share of its voxel in the basin. -/
theorem share_copies (hB : BlockOf n W.s W'.s) (hk : 0 < k) (href : ∀ w v, CopyOf W.s W'.s w v → W'.ref w = k * W.ref v)
    (hvor : W'.vor = W.vor) (hvac : ∀ w v, CopyOf W.s W'.s w v → vac' w = vac v)
    (hmask : ∀ w v, CopyOf W.s W'.s w v → (W'.mask w = true ↔ W.mask v = true))
    (H : WeightInput W vac labels0 sorted) (H' : WeightInput W' vac' labels0' sorted') {argsortW argsortW' : List (ℕ × K) → List (ℕ × K)}
    (ha : ∀ l, (argsortW l).Perm l) (ha' : ∀ l, (argsortW' l).Perm l) (hL : W.maxIdx.length ≤ 10 ^ 30) (hL' : W'.maxIdx.length ≤ 10 ^ 30)
    (hl : ∀ m, W.mask m = true → labels0 m = m) (hl' : ∀ m, W'.mask m = true → labels0' m = m)
    (R : FluxRight W argsortW labels0 sorted) (R' : FluxRight W' argsortW' labels0' sorted') (i : ℕ) (hi : i < W.maxIdx.length) :
    ∀ w v, CopyOf W.s W'.s w v → vac v = false →
      ∑ j ∈ copyIdx W W' W.maxIdx[i], shareOf W' argsortW' labels0' sorted' w j = shareOf W argsortW labels0 sorted v i := by
  suffices h : ∀ (N w v : ℕ), ((range W.s.size).filter fun u => W.ref v < W.ref u).card = N → CopyOf W.s W'.s w v → vac v = false →
      ∑ j ∈ copyIdx W W' W.maxIdx[i], shareOf W' argsortW' labels0' sorted' w j = shareOf W argsortW labels0 sorted v i from fun w v => h _ w v rfl
  intro N
  induction N using Nat.strong_induction_on with
  | _ N ih =>
    intro w v hN hc hv
    by_cases hm : W.mask v = true
    · have hm' := (hmask w v hc).mpr hm
      rw [max_share H ha hL hl hm hi]
      have hmem : w ∈ W'.maxIdx := (H'.idx_mem w).mpr ⟨w, hm', hl' w hm'⟩
      obtain ⟨j, hj, ej⟩ := List.mem_iff_getElem.mp hmem
      by_cases e : W.maxIdx[i] = v
      · rw [if_pos e, Finset.sum_eq_single j]
        · rw [max_share H' ha' hL' hl' hm' hj, if_pos ej]
        · intro j2 hj2 hne
          obtain ⟨h2, _⟩ := mem_copyIdx.mp hj2
          rw [max_share H' ha' hL' hl' hm' h2, if_neg fun e2 => hne ((List.Nodup.getElem_inj_iff (H'.idx_sorted.imp fun h => h.ne)).mp (e2.trans ej.symm))]
        · intro hnot
          exact absurd (mem_copyIdx.mpr ⟨hj, by rw [ej, e]; exact hc⟩) hnot
      · rw [if_neg e]
        refine Finset.sum_eq_zero fun j2 hj2 => ?_
        obtain ⟨h2, hc2⟩ := mem_copyIdx.mp hj2
        rw [max_share H' ha' hL' hl' hm' h2, if_neg fun e2 => e (copy_unique hc2 (by rw [e2]; exact hc))]
    · have hm' : ¬ W'.mask w = true := fun h => hm ((hmask w v hc).mp h)
      obtain ⟨_, f1⟩ := R v ((H.sorted_mem v).mpr ⟨hc.2.1, hv⟩) (by simpa using hm)
      obtain ⟨_, f2⟩ := R' w ((H'.sorted_mem w).mpr ⟨hc.1, (hvac w v hc).trans hv⟩) (by simpa using hm')
      have key : ∀ (f f' : ℕ × K → K), (∀ t ∈ W.vor, W.ref v < W.ref (nbr W.s v t.1) →
          ∀ x, f' (nbr W'.s w t.1, k * x) = k * f (nbr W.s v t.1, x)) → ((fluxes W' w).map f').sum = k * ((fluxes W v).map f).sum := by
        intro f f' hff
        rw [flux_sum, flux_sum, hvor, ← List.sum_map_mul_left]
        congr 1
        refine List.map_congr_left fun t ht => ?_
        have hn := copy_nbr hB hc (H.vor_fits t ht)
        rw [href _ _ hc, href _ _ hn]
        by_cases h : W.ref v < W.ref (nbr W.s v t.1)
        · rw [if_pos h, if_pos (mul_lt_mul_of_pos_left h hk), ← hff t ht h, ← mul_sub, mul_assoc]
        · rw [if_neg h, if_neg (fun h' => h (lt_of_mul_lt_mul_left h' hk.le)), mul_zero]
      rw [f1 i]
      simp only [f2 _]
      rw [← Finset.sum_div]
      have swap : ∑ j ∈ copyIdx W W' W.maxIdx[i], ((fluxes W' w).map fun e => e.2 * shareOf W' argsortW' labels0' sorted' e.1 j).sum =
          ((fluxes W' w).map fun e => e.2 * ∑ j ∈ copyIdx W W' W.maxIdx[i], shareOf W' argsortW' labels0' sorted' e.1 j).sum := by
        induction fluxes W' w with
        | nil => simp
        | cons e l ih =>
          simp only [List.map_cons, List.sum_cons]
          rw [Finset.sum_add_distrib, ih, Finset.mul_sum]
      rw [swap, key (fun e => e.2 * shareOf W argsortW labels0 sorted e.1 i) _ ?_, key Prod.snd Prod.snd (fun _ _ _ _ => rfl), mul_div_mul_left _ _ hk.ne']
      intro t ht hlt x
      have hn' := copy_nbr hB hc (H.vor_fits t ht)
      dsimp only
      rw [ih _ ?_ _ _ rfl hn' ?_, mul_assoc]
      · rw [← hN]
        refine Finset.card_lt_card ⟨?_, ?_⟩
        · intro u hu
          simp only [Finset.mem_filter] at hu ⊢
          exact ⟨hu.1, hlt.trans hu.2⟩
        · intro hsub
          have := hsub (Finset.mem_filter.mpr ⟨Finset.mem_range.mpr hn'.2.1, hlt⟩)
          simp at this
      · exact H.up_vor v hc.2.1 hv _ ((isNbr_iff (fun t ht => by
          obtain ⟨td, h1, rfl⟩ := List.mem_map.mp ht; exact H.vor_fits td h1) hc.2.1).mpr ⟨t.1, List.mem_map.mpr ⟨t, ht, rfl⟩, rfl⟩) hlt

/-- There are as many copies of a maximum as cells. -/
theorem card_copyIdx (hB : BlockOf n W.s W'.s) (hmask : ∀ w v, CopyOf W.s W'.s w v → (W'.mask w = true ↔ W.mask v = true))
    (H' : WeightInput W' vac' labels0' sorted') (hl' : ∀ m, W'.mask m = true → labels0' m = m) {m : ℕ} (hm : W.mask m = true) (hms : m < W.s.size) :
    (copyIdx W W' m).card = cellsOf n := by
  classical
  have e1 : (copyIdx W W' m).card = ((range W'.s.size).filter fun w => CopyOf W.s W'.s w m).card := by
    refine Finset.card_bij (fun j _ => W'.maxIdx.getD j 0) ?_ ?_ ?_
    · intro j hj
      obtain ⟨h, hc⟩ := mem_copyIdx.mp hj
      rw [List.getD_eq_getElem?_getD, List.getElem?_eq_getElem h]
      exact Finset.mem_filter.mpr ⟨Finset.mem_range.mpr hc.1, hc⟩
    · intro j hj j2 hj2 e
      obtain ⟨h, _⟩ := mem_copyIdx.mp hj
      obtain ⟨h2, _⟩ := mem_copyIdx.mp hj2
      rw [List.getD_eq_getElem?_getD, List.getElem?_eq_getElem h, List.getD_eq_getElem?_getD, List.getElem?_eq_getElem h2] at e
      exact (List.Nodup.getElem_inj_iff (H'.idx_sorted.imp fun h => h.ne)).mp e
    · intro w hw
      obtain ⟨_, hc⟩ := Finset.mem_filter.mp hw
      have hm' := (hmask w m hc).mpr hm
      obtain ⟨j, hj, ej⟩ := List.mem_iff_getElem.mp ((H'.idx_mem w).mpr ⟨w, hm', hl' w hm'⟩)
      refine ⟨j, mem_copyIdx.mpr ⟨hj, by rw [ej]; exact hc⟩, ?_⟩
      rw [List.getD_eq_getElem?_getD, List.getElem?_eq_getElem hj]
      exact ej
  rw [e1]
  have := sum_copies hB (K := ℚ) (fun v => v = m) (fun w => CopyOf W.s W'.s w m) (fun _ => 1) (fun _ => 1)
    (fun w v hc => ⟨fun h => copy_unique hc h, fun h => by rw [← h]; exact hc⟩) (fun _ _ _ => rfl)
  simp only [Finset.sum_const, nsmul_eq_mul, mul_one] at this
  have e2 : ((range W.s.size).filter fun v => v = m).card = 1 := by
    rw [Finset.filter_eq', if_pos (Finset.mem_range.mpr hms), Finset.card_singleton]
  rw [e2, Nat.cast_one, mul_one] at this
  exact_mod_cast this

end share

/-- **C119** (partial) The weight method on a block of cells.  If in both runs the shares solve the flux equations (C19), everything around a maximum is lower and no two
maxima are taken for one, each copy of a basin has the charge and volume of the basin, the vacuum has them multiplied, and there are as many copies of each
maximum as cells; with the conditions of `C119_atoms_partial` every atom has the charge and volume of the atom it is a copy of.  Missing: runs that credit flux to a
wrong basin, where it is false (`C119_weight`). -/
theorem C119_weight_partial (n : ℕ × ℕ × ℕ) (k q : K) (G G' : RunInput K) (A A' : RunAid K) (ε : K) (T : CellRuns n k q G G' A A' ε)
    (vor : List (Coord × K)) (argsortW argsortW' : List (ℕ × K) → List (ℕ × K)) (sorted sorted' : List ℕ)
    (P : WeightReady G A vor argsortW sorted) (P' : WeightReady G' A' vor argsortW' sorted') :
    ∃ (o o' : RunOut K) (F : ℕ), (∀ fuel ≥ F, G.run A (.weight vor argsortW sorted) fuel = some o ∧ G'.run A' (.weight vor argsortW' sorted') fuel = some o') ∧
      (∀ w m, CopyOf G.shape G'.shape w m → G.IsMax m →
        o'.basins.charges (o'.labels w).toNat = q / cellsOf n * o.basins.charges (o.labels m).toNat ∧
        o'.basins.volumes (o'.labels w).toNat = o.basins.volumes (o.labels m).toNat) ∧
      o'.basins.vacCharge = q * o.basins.vacCharge ∧ o'.basins.vacVolume = cellsOf n * o.basins.vacVolume ∧
      o'.maxima.length = cellsOf n * o.maxima.length ∧
      ∀ of cell, AtomRuns n G G' A A' of cell → q = cellsOf n → ∀ i < G'.atoms.length,
        o'.assignment.charges i = o.assignment.charges (of i) ∧ o'.assignment.volumes i = o.assignment.volumes (of i) := by
  have S := T.super
  have hf := T.ready.fits
  have hf' := T.ready'.fits
  have hp : G.shape.Pos := pos_of_lt_size T.ready.voxels
  have hN := S.cells_pos
  have hPk' := S.peaked hf hp T.peaked
  have hnp : G.NoPlateau := fun v w hv hw _ => T.peaked v w hv hw
  have hnp' : G'.NoPlateau := fun v w hv hw _ => hPk' v w hv hw
  have hts' : TwoSided G'.nbrs := by rw [S.nbrs]; exact T.twoSided
  obtain ⟨o, F1, hF1, hW, hb, hm, hlab, hasg⟩ := weight_own G A ε T.ready vor argsortW sorted P.toWeightParams T.twoSided hnp T.apart T.sorted
  obtain ⟨o', F2, hF2, hW', hb', hm', hlab', hasg'⟩ := weight_own G' A' ε T.ready' vor argsortW' sorted' P'.toWeightParams hts' hnp' T.apart' T.sorted'
  have hM := getMaxima_isMax G A T.ready
  have hM' := getMaxima_isMax G' A' T.ready'
  set M := getMaxima G.shape G.ref (G.nbrs.map Prod.fst) G.vacuum false A.order with hMd
  set M' := getMaxima G'.shape G'.ref (G'.nbrs.map Prod.fst) G'.vacuum false A'.order with hMd'
  have hL : (G.weightIn A vor).maxIdx.length ≤ 10 ^ 30 := (show (maximaVox G.shape M).length < 10 ^ 6 from P.count).le.trans (by norm_num)
  have hL' : (G'.weightIn A' vor).maxIdx.length ≤ 10 ^ 30 := (show (maximaVox G'.shape M').length < 10 ^ 6 from P'.count).le.trans (by norm_num)
  have own : ∀ m, (G.weightIn A vor).mask m = true → ownLabel M m = m := fun m h => by unfold ownLabel; exact if_pos h
  have own' : ∀ m, (G'.weightIn A' vor).mask m = true → ownLabel M' m = m := fun m h => by unfold ownLabel; exact if_pos h
  have hmask : ∀ w v, CopyOf G.shape G'.shape w v → (M' w = true ↔ M v = true) := fun w v h => by rw [hM, hM', S.isMax hf h]
  set sh := shareOf (G.weightIn A vor) argsortW (ownLabel M) sorted with hsh
  set sh' := shareOf (G'.weightIn A' vor) argsortW' (ownLabel M') sorted' with hsh'
  have copies : ∀ i (hi : i < (maximaVox G.shape M).length) w v, CopyOf G.shape G'.shape w v → G.vacuum v = false →
      ∑ j ∈ copyIdx (G.weightIn A vor) (G'.weightIn A' vor) (maximaVox G.shape M)[i], sh' w j = sh v i := by
    intro i hi
    exact share_copies (W := G.weightIn A vor) (W' := G'.weightIn A' vor) S.block S.up S.ref rfl (fun w v h => S.vacuum h) hmask hW hW' P.perm P'.perm hL hL' own own'
      P.right P'.right i hi
  -- moving the block by whole cells
  have moved : ∀ j j' (hj : j < (maximaVox G'.shape M').length) (hj' : j' < (maximaVox G'.shape M').length) c, StepFits G'.shape c → WholeCells G.shape c →
      nbr G'.shape (maximaVox G'.shape M')[j] c = (maximaVox G'.shape M')[j'] → ∀ w < G'.shape.size, G'.vacuum w = false → sh' (nbr G'.shape w c) j' = sh' w j := by
    intro j j' hj hj' c hcf hcw hcj w hw hv
    have O := S.moved hp hcf hcw
    have hcar : ∀ v < G'.shape.size, (moveBy c).Carries G'.shape G'.shape v (nbr G'.shape v c) := fun v hv =>
      (moveBy_carries hcf).mpr ⟨hv, (movedTo_iff hcf hv).mpr rfl⟩
    have hvp : vor.Perm (vor.map fun t => ((moveBy c).rot.mul t.1, t.2)) := by
      refine .of_eq ?_
      conv_lhs => rw [← List.map_id vor]
      exact List.map_congr_left fun td _ => by rw [moveBy_rot]; rfl
    refine share_carried (g := moveBy c) (W := G'.weightIn A' vor) (W' := G'.weightIn A' vor) O.oper.fits O.oper.ref hvp (fun v w h => O.oper.vacuum h)
      (fun v w h => by show M' w = true ↔ M' v = true; rw [hM', hM', O.oper.isMax hf' hf' h]) hW' hW' P'.perm P'.perm hL' hL' own' own' P'.right P'.right j j' hj hj' ?_ w _
      (hcar w hw) hv
    have hmem := List.getElem_mem hj
    rw [mem_maximaVox] at hmem
    have := hcar _ hmem.1
    rw [hcj] at this
    exact this
  obtain ⟨_, hcv⟩ := C17_shares hW argsortW P.perm hL
  obtain ⟨_, hcv'⟩ := C17_shares hW' argsortW' P'.perm hL'
  have hs0 : ((G.shape.size : ℕ) : K) ≠ 0 := by exact_mod_cast T.ready.voxels.ne'
  have hsz : ((G'.shape.size : ℕ) : K) = cellsOf n * G.shape.size := by rw [S.block.size]; push_cast; rfl
  -- sums over the shares of one basin
  have basinSum : ∀ (f g : ℕ → K), (∀ w v, CopyOf G.shape G'.shape w v → g w = f v) → ∀ i j (hi : i < (maximaVox G.shape M).length) (hj : j < (maximaVox G'.shape M').length),
      CopyOf G.shape G'.shape (maximaVox G'.shape M')[j] (maximaVox G.shape M)[i] →
      ∑ w ∈ (range G'.shape.size).filter (fun w => G'.vacuum w = false), sh' w j * g w =
        ∑ v ∈ (range G.shape.size).filter (fun v => G.vacuum v = false), sh v i * f v := by
    intro f g hfg i j hi hj hc
    set I := copyIdx (G.weightIn A vor) (G'.weightIn A' vor) (maximaVox G.shape M)[i] with hI
    have hmi := List.getElem_mem hi
    rw [mem_maximaVox] at hmi
    have hcard : (I.card : K) = cellsOf n := by
      rw [hI, card_copyIdx (W := G.weightIn A vor) (W' := G'.weightIn A' vor) S.block hmask hW' own' hmi.2 hmi.1]
    have hconst : ∀ j2 ∈ I, ∑ w ∈ (range G'.shape.size).filter (fun w => G'.vacuum w = false), sh' w j2 * g w =
        ∑ w ∈ (range G'.shape.size).filter (fun w => G'.vacuum w = false), sh' w j * g w := by
      intro j2 hj2
      obtain ⟨h2, hc2⟩ := mem_copyIdx.mp hj2
      have h2 : j2 < (maximaVox G'.shape M').length := h2
      obtain ⟨c, c1, c2, c3⟩ := copy_apart hc hc2
      have O := S.moved hp c1 c2
      refine (sum_move c1 _ (fun w => G'.vacuum w = false) (fun w => G'.vacuum w = false) _ ?_ ?_).symm
      · intro w hw
        obtain ⟨v, hv⟩ := copy_exists (s := G.shape) hp hw
        rw [S.vacuum hv, S.vacuum (copy_move S.block hv c1 c2)]
      · intro w hw hvw
        obtain ⟨v, hv⟩ := copy_exists (s := G.shape) hp hw
        rw [moved j j2 hj h2 c c1 c2 c3 w hw hvw, hfg _ _ hv, hfg _ _ (copy_move S.block hv c1 c2)]
    have total : ∑ j2 ∈ I, ∑ w ∈ (range G'.shape.size).filter (fun w => G'.vacuum w = false), sh' w j2 * g w =
        cellsOf n * ∑ v ∈ (range G.shape.size).filter (fun v => G.vacuum v = false), sh v i * f v := by
      have fold : ∀ w, ∃ v, w < G'.shape.size → CopyOf G.shape G'.shape w v := by
        intro w
        by_cases h : w < G'.shape.size
        · obtain ⟨v, h2⟩ := copy_exists (s := G.shape) hp h
          exact ⟨v, fun _ => h2⟩
        · exact ⟨0, fun h' => absurd h' h⟩
      choose π hπ using fold
      rw [Finset.sum_comm, ← sum_copies S.block (fun v => G.vacuum v = false) (fun w => G'.vacuum w = false) (fun v => sh v i * f v) (fun w => sh (π w) i * f (π w))
        (fun w v h => by rw [S.vacuum h]) (fun w v h => by rw [copy_unique (hπ w h.1) h])]
      refine Finset.sum_congr rfl fun w hw => ?_
      simp only [Finset.mem_filter, Finset.mem_range] at hw
      have hc := hπ w hw.1
      rw [← Finset.sum_mul, copies i hi w _ hc ((S.vacuum hc).symm.trans hw.2), hfg _ _ hc]
    rw [Finset.sum_congr rfl hconst, Finset.sum_const, nsmul_eq_mul, hcard] at total
    exact mul_left_cancel₀ hN.ne' total
  have basin : ∀ w m, CopyOf G.shape G'.shape w m → G.IsMax m →
        o'.basins.charges (o'.labels w).toNat = q / cellsOf n * o.basins.charges (o.labels m).toNat ∧
        o'.basins.volumes (o'.labels w).toNat = o.basins.volumes (o.labels m).toNat := by
    intro w m hc hmM
    have hmM' := (S.isMax hf hc).mpr hmM
    have e1 : m ∈ o.maxima := by rw [hm, mem_maximaVox]; exact ⟨hmM.1, (hM m).mpr hmM⟩
    have e1' : w ∈ o'.maxima := by rw [hm', mem_maximaVox]; exact ⟨hmM'.1, (hM' w).mpr hmM'⟩
    obtain ⟨i, hi, ei⟩ := List.mem_iff_getElem.mp e1
    obtain ⟨j, hj, ej⟩ := List.mem_iff_getElem.mp e1'
    have li := hlab i hi
    have lj := hlab' j hj
    rw [ei] at li
    rw [ej] at lj
    have hi2 : i < (maximaVox G.shape M).length := by rw [← hm]; exact hi
    have hj2 : j < (maximaVox G'.shape M').length := by rw [← hm']; exact hj
    have hcc : CopyOf G.shape G'.shape (maximaVox G'.shape M')[j] (maximaVox G.shape M)[i] := by simp only [← hm, ← hm']; rw [ei, ej]; exact hc
    rw [li, lj, hb, hb']
    simp only [Int.toNat_natCast]
    constructor
    · show _ / (G'.shape.size : K) = q / cellsOf n * (_ / (G.shape.size : K))
      rw [(hcv G.charge i).1, (hcv' G'.charge j).1]
      have e := basinSum (fun v => q * G.charge v) G'.charge S.charge i j hi2 hj2 hcc
      have e2 : ∑ v ∈ (range G.shape.size).filter (fun v => G.vacuum v = false), sh v i * (q * G.charge v) =
          q * ∑ v ∈ (range G.shape.size).filter (fun v => G.vacuum v = false), sh v i * G.charge v := by
        rw [Finset.mul_sum]
        exact Finset.sum_congr rfl fun v _ => by ring
      rw [e2] at e
      show (∑ w ∈ (range G'.shape.size).filter (fun w => G'.vacuum w = false), sh' w j * G'.charge w) / (G'.shape.size : K) =
        q / cellsOf n * ((∑ v ∈ (range G.shape.size).filter (fun v => G.vacuum v = false), sh v i * G.charge v) / (G.shape.size : K))
      rw [e, hsz]
      field_simp
    · show _ * (G'.volume / (G'.shape.size : K)) = _ * (G.volume / (G.shape.size : K))
      rw [(hcv G.charge i).2, (hcv' G'.charge j).2]
      have e := basinSum (fun _ => 1) (fun _ => 1) (fun _ _ _ => rfl) i j hi2 hj2 hcc
      simp only [mul_one] at e
      show (∑ w ∈ (range G'.shape.size).filter (fun w => G'.vacuum w = false), sh' w j) * _ = (∑ v ∈ (range G.shape.size).filter (fun v => G.vacuum v = false), sh v i) * _
      rw [e, hsz, S.volume]
      field_simp
  have conv : ∀ (Q : RunInput K) (f : ℕ → K), (((List.range Q.shape.size).filter Q.vacuum).map f).sum = ∑ v ∈ (range Q.shape.size).filter (fun v => Q.vacuum v = true), f v := by
    intro Q f
    rw [← List.sum_toFinset _ (List.nodup_range.filter _)]
    congr 1
    ext v; simp
  refine ⟨o, o', max F1 F2, fun fuel hfu => ⟨hF1 fuel (le_of_max_le_left hfu), hF2 fuel (le_of_max_le_right hfu)⟩, basin, ?_, ?_, ?_, ?_⟩
  · rw [hb, hb']
    show (((List.range G'.shape.size).filter G'.vacuum).map G'.charge).sum / (G'.shape.size : K) = q * ((((List.range G.shape.size).filter G.vacuum).map G.charge).sum / (G.shape.size : K))
    rw [conv, conv, sum_copies S.block (fun v => G.vacuum v = true) (fun w => G'.vacuum w = true) (fun v => q * G.charge v) G'.charge
      (fun w v h => by rw [S.vacuum h]) S.charge, ← Finset.mul_sum, hsz]
    field_simp
  · rw [hb, hb']
    have c1 := conv G' (fun _ => 1)
    have c2 := conv G (fun _ => 1)
    simp only [List.map_const', List.sum_replicate, nsmul_eq_mul, mul_one] at c1 c2
    show (((List.range G'.shape.size).filter G'.vacuum).length : K) / (G'.shape.size : K) * G'.volume =
      cellsOf n * ((((List.range G.shape.size).filter G.vacuum).length : K) / (G.shape.size : K) * G.volume)
    rw [c1, c2, sum_copies S.block (fun v => G.vacuum v = true) (fun w => G'.vacuum w = true) (fun _ => (1 : K)) (fun _ => 1)
      (fun w v h => by rw [S.vacuum h]) (fun _ _ _ => rfl), hsz, S.volume]
    field_simp
  · rw [hm, hm', length_maximaVox, length_maximaVox]
    have := sum_copies S.block (K := K) (fun v => M v = true) (fun v => M' v = true) (fun _ => 1) (fun _ => 1) hmask (fun _ _ _ => rfl)
    simp only [Finset.sum_const, nsmul_eq_mul, mul_one] at this
    exact_mod_cast this
  · intro of cell R hq i hi
    obtain ⟨g1, g2, g3, _, _, _, g7⟩ := C23_atom_totals _ _ _ _ _ _ _ _ (by simp) (by simp) hasg
    obtain ⟨h1, h2, h3, _, _, _, h7⟩ := C23_atom_totals _ _ _ _ _ _ _ _ (by simp) (by simp) hasg'
    rw [List.length_map] at g1 g2 g3 g7 h1 h2 h3 h7
    have sumAtom := sum_atom_block S hf hp R hM hM' (cell_atom R hM hm hlab (by simp) (by simp) hasg) (copy_atom S hf R hM' hm' hlab' (by simp) (by simp) hasg')
    constructor
    · rw [atom_sum (A := A) hm hlab g2 rfl g7 (of i), atom_sum (A := A') hm' hlab' h2 rfl h7 i, R.rnd]
      refine sumAtom _ _ i hi fun w v hc hv => ?_
      rw [(basin w v hc hv).1, hq, div_self hN.ne', one_mul]
    · rw [atom_sum (A := A) hm hlab g3 rfl g7 (of i), atom_sum (A := A') hm' hlab' h3 rfl h7 i, R.rnd]
      refine sumAtom _ _ i hi fun w v hc hv => ?_
      rw [(basin w v hc hv).2]

/-! ## Rings -/

/-- On a ring with vacuum, too, the flux equations have to be checked for the basins only. -/
theorem line_weight_vac (l : List ℚ) (hl : 2 ≤ l.length) (hsz : l.length ≤ 1000) (atoms : List (V3 ℚ)) (ha : atoms ≠ []) (tol : Option ℚ)
    (hpk : (lineRun l atoms tol).Peaked) (sorted : List ℕ) (h1 : sorted.Nodup) (h2 : ∀ v, v ∈ sorted ↔ v < l.length ∧ (lineRun l atoms tol).vacuum v = false)
    (h3 : sorted.Pairwise fun a b => l.getD b 0 ≤ l.getD a 0)
    (h : ∀ v < l.length, (lineRun l atoms tol).vacuum v = false → ((lineRun l atoms tol).weightIn (lineAid l fun _ _ => false) ring2).mask v = false →
      fluxes ((lineRun l atoms tol).weightIn (lineAid l fun _ _ => false) ring2) v ≠ [] ∧
      ∀ b < l.length, shareOf ((lineRun l atoms tol).weightIn (lineAid l fun _ _ => false) ring2) id
        (ownLabel ((lineRun l atoms tol).weightIn (lineAid l fun _ _ => false) ring2).mask) sorted v b =
        ((fluxes ((lineRun l atoms tol).weightIn (lineAid l fun _ _ => false) ring2) v).map fun e => e.2 *
          shareOf ((lineRun l atoms tol).weightIn (lineAid l fun _ _ => false) ring2) id
            (ownLabel ((lineRun l atoms tol).weightIn (lineAid l fun _ _ => false) ring2).mask) sorted e.1 b).sum /
          ((fluxes ((lineRun l atoms tol).weightIn (lineAid l fun _ _ => false) ring2) v).map Prod.snd).sum) :
    WeightReady (lineRun l atoms tol) (lineAid l fun _ _ => false) ring2 id sorted := by
  have hr := lineRun_ready l hl atoms ha tol fun _ _ => false
  have hsize : (lineRun l atoms tol).shape.size = l.length := by show l.length * 1 * 1 = _; omega
  have hlen : (maximaVox (lineRun l atoms tol).shape ((lineRun l atoms tol).weightIn (lineAid l fun _ _ => false) ring2).mask).length ≤ l.length := by
    refine (List.length_filter_le _ _).trans ?_
    rw [List.length_range, hsize]
  have hp : WeightParams (lineRun l atoms tol) (lineAid l fun _ _ => false) ring2 id sorted :=
    ⟨hr.fits, hr.pos, fun _ => .refl _, h1, fun v => by rw [h2, hsize], h3,
      by rw [hsize]; exact hsz.trans (by norm_num), lt_of_le_of_lt hlen (lt_of_le_of_lt hsz (by norm_num))⟩
  have hts : TwoSided (lineRun l atoms tol).nbrs := by show TwoSided ring2; unfold TwoSided; decide
  refine ⟨hp, ?_⟩
  obtain ⟨_, _, _, hW, _⟩ := weight_own _ _ 0 hr ring2 id _ hp hts (fun v w hv hw _ => hpk v w hv hw) (lineAid_apart _ _) (lineAid_sorted _ _)
  obtain ⟨hsh, _⟩ := C17_shares hW id (fun l => .refl _) (hlen.trans (hsz.trans (by norm_num)))
  intro v hv hm
  obtain ⟨hv5, hv6⟩ := (h2 v).mp hv
  obtain ⟨a1, a2⟩ := h v hv5 hv6 hm
  refine ⟨a1, fun b => ?_⟩
  by_cases hb : b < l.length
  · exact a2 b hb
  · have z : ∀ u < l.length, (lineRun l atoms tol).vacuum u = false → shareOf ((lineRun l atoms tol).weightIn (lineAid l fun _ _ => false) ring2) id
        (ownLabel ((lineRun l atoms tol).weightIn (lineAid l fun _ _ => false) ring2).mask) sorted u b = 0 :=
      fun u hu hu2 => (hsh u (by rw [← hsize] at hu; exact hu) hu2).2.1 b (hlen.trans (by omega))
    have zv := z v hv5 hv6
    change shareOf _ _ (ownLabel (getMaxima _ _ _ _ _ _)) _ _ _ = _ at zv
    rw [zv, List.sum_eq_zero, zero_div]
    intro x hx
    obtain ⟨e, he, rfl⟩ := List.mem_map.mp hx
    unfold fluxes at he
    obtain ⟨he1, he2⟩ := List.mem_filter.mp he
    obtain ⟨t, ht, rfl⟩ := List.mem_map.mp he1
    have hel := nbr_lt (s := (lineRun l atoms tol).shape) (v := v) (by rw [hsize]; exact hv5) (hr.fits t ht)
    rw [hsize] at hel
    have hup : (lineRun l atoms tol).vacuum (nbr (lineRun l atoms tol).shape v t.1) = false := by
      refine hW.up_vor v (by show v < (lineRun l atoms tol).shape.size; rw [hsize]; exact hv5) hv6 _ ((isNbr_iff (fun t ht => by
          obtain ⟨td, h1, rfl⟩ := List.mem_map.mp ht; exact hW.vor_fits td h1) (by show v < (lineRun l atoms tol).shape.size; rw [hsize]; exact hv5)).mpr
          ⟨t.1, List.mem_map.mpr ⟨t, ht, rfl⟩, rfl⟩) ?_
      simp only [decide_eq_true_eq] at he2
      exact he2
    have ze := z _ hel hup
    change shareOf _ _ (ownLabel (getMaxima _ _ _ _ _ _)) _ _ _ = _ at ze
    exact mul_eq_zero_of_right _ ze

/-- The hypotheses of `C119_weight_partial` hold for the cell of the example of `C119_atoms_partial`, whose voxel of value 2 is shared by both atoms, and for three copies
of it; there every atom has the charge of its atom of the cell. -/
example : let A := lineAid [5, 2, 3, 1] fun _ _ => false
    let A' := lineAid [15, 6, 9, 3, 15, 6, 9, 3, 15, 6, 9, 3] fun _ _ => false
    WeightReady peakCell A ring2 id peakCell.sortedVoxels ∧ WeightReady peakBlock A' ring2 id peakBlock.sortedVoxels ∧
    (peakCell.run A (.weight ring2 id peakCell.sortedVoxels) 50).map (fun o => (List.range 2).map o.assignment.charges) = some [13 / 8, 7 / 8] ∧
    (peakBlock.run A' (.weight ring2 id peakBlock.sortedVoxels) 50).map (fun o => (List.range 6).map o.assignment.charges) =
      some [13 / 8, 13 / 8, 13 / 8, 7 / 8, 7 / 8, 7 / 8] := by
  intro A A'
  refine ⟨?_, ?_, by decide +kernel, by decide +kernel⟩
  · obtain ⟨x1, x2, x3⟩ := sortedVoxels_ok peakCell
    exact line_weight_vac _ (by decide) (by decide) _ (by simp) _ (line_peaked _ (by decide) _ _ (by decide +kernel)) _ x1 x2 x3 (by decide +kernel)
  · obtain ⟨x1, x2, x3⟩ := sortedVoxels_ok peakBlock
    exact line_weight_vac _ (by decide) (by decide) _ (by simp) _ (line_peaked _ (by decide) _ _ (by decide +kernel)) _ x1 x2 x3 (by decide +kernel)

/-- **C119** (negative part) With the weight method equivalent atoms of a supercell can have different charges, even if no two voxels of the cell have the same value: the one
atom of the cell `1 2 3 4` has 5/2 electrons, the two atoms of the doubled cell have 37/16 and 43/16. -/
theorem C119_weight : ∃ (G G' : RunInput ℚ) (A A' : RunAid ℚ), CellRuns (2, 1, 1) (2 : ℚ) (cellsOf (2, 1, 1)) G G' A A' 0 ∧
    WeightReady G A ring2 id G.sortedVoxels ∧ WeightParams G' A' ring2 id G'.sortedVoxels ∧
    AtomsCopied (2, 1, 1) G G' (fun _ => 0) (fun i => ((i : ℤ), 0, 0)) ∧
    (∀ v < G.shape.size, ∀ w < G.shape.size, G.ref v = G.ref w → v = w) ∧
    (G.run A (.weight ring2 id G.sortedVoxels) 50).map (fun o => (List.range 1).map o.assignment.charges) = some [5 / 2] ∧
    (G'.run A' (.weight ring2 id G'.sortedVoxels) 50).map (fun o => (List.range 2).map o.assignment.charges) = some [37 / 16, 43 / 16] := by
  have hr' := lineRun_ready [2, 4, 6, 8, 2, 4, 6, 8] (by decide) [(3 / 8, 0, 0), (7 / 8, 0, 0)] (by simp) none fun _ _ => false
  have hpk : (lineRun [1, 2, 3, 4] [(3 / 4, 0, 0)] none).Peaked := line_peaked _ (by decide) _ _ (by decide +kernel)
  obtain ⟨x1, x2, x3⟩ := sortedVoxels_ok (lineRun [1, 2, 3, 4] [(3 / 4, 0, 0)] none)
  obtain ⟨y1, y2, y3⟩ := sortedVoxels_ok (lineRun [2, 4, 6, 8, 2, 4, 6, 8] [(3 / 8, 0, 0), (7 / 8, 0, 0)] none)
  refine ⟨lineRun [1, 2, 3, 4] [(3 / 4, 0, 0)] none, lineRun [2, 4, 6, 8, 2, 4, 6, 8] [(3 / 8, 0, 0), (7 / 8, 0, 0)] none,
    lineAid [1, 2, 3, 4] fun _ _ => false, lineAid [2, 4, 6, 8, 2, 4, 6, 8] fun _ _ => false,
    ⟨?_, lineRun_ready _ (by decide) _ (by simp) _ _, hr', by show TwoSided ring2; unfold TwoSided; decide, hpk, lineAid_apart _ _, lineAid_apart _ _, lineAid_sorted _ _,
      lineAid_sorted _ _⟩,
    line_weight_vac _ (by decide) (by decide) _ (by simp) _ hpk _ x1 x2 x3 (by decide +kernel),
    ⟨hr'.fits, hr'.pos, fun _ => .refl _, y1, y2, y3, ?_, ?_⟩, ⟨?_, ?_, ?_, ?_⟩, by decide +kernel, by decide +kernel, by decide +kernel⟩
  · have := lineRun_super 2 (by decide) [1, 2, 3, 4] [2, 4, 6, 8, 2, 4, 6, 8] rfl [(3 / 4, 0, 0)] [(3 / 8, 0, 0), (7 / 8, 0, 0)] none (by decide +kernel)
    simpa [cellsOf] using this
  · show 8 * 1 * 1 ≤ 10 ^ 30
    norm_num
  · have : (maximaVox (lineRun [2, 4, 6, 8, 2, 4, 6, 8] [(3 / 8, 0, 0), (7 / 8, 0, 0)] none).shape
        ((lineRun [2, 4, 6, 8, 2, 4, 6, 8] [(3 / 8, 0, 0), (7 / 8, 0, 0)] none).weightIn (lineAid [2, 4, 6, 8, 2, 4, 6, 8] fun _ _ => false) ring2).mask).length = 2 := by
      decide +kernel
    exact lt_of_eq_of_lt this (by norm_num)
  · intro i _
    show 0 < 1
    decide
  · intro i hi hj
    have hi' : i < 2 := hi
    interval_cases i <;> norm_num [inBlock, lineRun]
  · intro j hj t
    have hj : j < 1 := hj
    have h3 : 0 ≤ t.1 % 2 := Int.emod_nonneg _ (by norm_num)
    have h4 : t.1 % 2 < 2 := Int.emod_lt_of_pos _ (by norm_num)
    refine ⟨(t.1 % 2).toNat, ?_, ?_, ⟨-(t.1 / 2), ?_⟩, ⟨-t.2.1, ?_⟩, ⟨-t.2.2, ?_⟩⟩
    · show _ < 2
      omega
    · show 0 = j
      omega
    · show (((t.1 % 2).toNat : ℕ) : ℤ) = t.1 + -(t.1 / 2) * ((2 : ℕ) : ℤ)
      push_cast
      omega
    · simp
    · simp
  · rintro i hi j hj h ⟨⟨a, ha⟩, _⟩
    have hi : i < 2 := hi
    have hj : j < 2 := hj
    have ha : (i : ℤ) = (j : ℤ) + a * ((2 : ℕ) : ℤ) := ha
    omega

end BaderKit
