import Verif.Props.SymmetryWeight
/-!
# C116: the weight method and the origin of the grid

A move of the origin is an operation in the sense of C120, with the identity as its matrix.
-/
set_option linter.unusedSectionVars false
namespace BaderKit
open Finset
variable {K : Type} [Field K] [LinearOrder K] [IsStrictOrderedRing K] [FloorRing K]

/-- The voxels in the order of the weight method: all outside the vacuum, each once, from high to low. -/
theorem sortedVoxels_ok (G : RunInput K) : G.sortedVoxels.Nodup ∧ (∀ v, v ∈ G.sortedVoxels ↔ v < G.shape.size ∧ G.vacuum v = false) ∧
    G.sortedVoxels.Pairwise fun a b => G.ref b ≤ G.ref a := by
  have tr : IsTrans ℕ fun a b => G.ref a ≤ G.ref b := ⟨fun _ _ _ => le_trans⟩
  have tt : Std.Total fun a b : ℕ => G.ref a ≤ G.ref b := ⟨fun a b => le_total (G.ref a) (G.ref b)⟩
  refine ⟨?_, fun v => ?_, ?_⟩
  · exact List.nodup_reverse.mpr ((List.perm_insertionSort _ _).nodup_iff.mpr (List.nodup_range.filter _))
  · simp [RunInput.sortedVoxels, List.mem_insertionSort]
  · exact List.pairwise_reverse.mpr (List.pairwise_insertionSort _ _)

/-- **C103** The weight method visiting the voxels in the order of the code: all of `C103_weight`, with nothing assumed of the order. -/
theorem C103_weight_order (G : RunInput K) (A : RunAid K) (ε : K) (H : RunReady G A ε) (vor : List (Coord × K))
    (hvf : ∀ t ∈ vor, StepFits G.shape t.1) (hvp : ∀ t ∈ vor, 0 < t.2) (argsortW : List (ℕ × K) → List (ℕ × K))
    (ha : ∀ l, (argsortW l).Perm l) (hsize : G.shape.size ≤ 10 ^ 30)
    (hmax : (maximaVox G.shape (getMaxima G.shape G.ref (G.nbrs.map Prod.fst) G.vacuum false A.order)).length < 10 ^ 6) :
    ∃ F, ∀ fuel ≥ F, ∃ o share, G.run A (.weight vor argsortW G.sortedVoxels) fuel = some o ∧ RunTotals G A.rnd ε o ∧
      AtomShares G ε o share ∧
      (∀ v < G.shape.size, G.vacuum v = false → ∃ a : ℕ, o.assignment.atomLabels v = a ∧ 0 < share v a) ∧
      (StraightCell G A o → ∀ i (hi : i < o.maxima.length), ∃ a : ℕ, o.assignment.atomLabels o.maxima[i] = a ∧
        share o.maxima[i] a = 1 ∧ NearestAtom G A.root a (A.place o.maxima[i])) := by
  obtain ⟨h1, h2, h3⟩ := sortedVoxels_ok G
  exact C103_weight G A ε H vor hvf hvp argsortW ha _ h1 h2 h3 hsize hmax

example : tieCell.sortedVoxels = [3, 1, 2, 4, 0] := by decide +kernel

/-- Moving the grid points by `c`. -/
def moveBy (c : Coord) : GridOper := ⟨((1, 0, 0), (0, 1, 0), (0, 0, 1)), ((1, 0, 0), (0, 1, 0), (0, 0, 1)), c⟩

theorem moveBy_rot (c t : Coord) : (moveBy c).rot.mul t = t := by
  simp only [moveBy, IMat.mul]
  refine Prod.ext ?_ (Prod.ext ?_ ?_) <;> dsimp only <;> ring

theorem moveBy_carries {s : Shape} {c : Coord} (hc : StepFits s c) {v w : ℕ} : (moveBy c).Carries s s v w ↔ v < s.size ∧ MovedTo s c v w := by
  constructor
  · rintro ⟨h1, h2, h3⟩
    rw [moveBy_rot] at h3
    exact ⟨h1, h2, c, by simp, h3.symm⟩
  · rintro ⟨h1, h2, t, ht, h3⟩
    obtain rfl : t = c := by simpa using ht
    refine ⟨h1, h2, ?_⟩
    rw [moveBy_rot]
    exact h3.symm

theorem OriginMoved.oper {c : Coord} {G G' : RunInput K} (h : OriginMoved c G G') : OperatedBy (moveBy c) G G' := by
  have hi : ∀ t, (moveBy c).inv.mul t = t := moveBy_rot c
  refine ⟨⟨fun t => by rw [moveBy_rot, hi], fun t => by rw [hi, moveBy_rot], fun t ht => by rw [moveBy_rot, h.shape]; exact ht,
    fun t ht => by rw [hi, ← h.shape]; exact ht⟩, ?_, h.volume, h.tol, h.useRef, ?_, ?_⟩
  · rw [h.nbrs]
    refine .of_eq ?_
    conv_lhs => rw [← List.map_id G.nbrs]
    exact List.map_congr_left fun td _ => by rw [moveBy_rot]; rfl
  · intro v w hc
    rw [h.shape, moveBy_carries h.fits] at hc
    exact h.ref v w hc.1 hc.2
  · intro v w hc
    rw [h.shape, moveBy_carries h.fits] at hc
    exact h.charge v w hc.1 hc.2

/-- **C116** (partial) The weight method, with the facet neighbours and the voxels visited as the code does, when the origin moves by whole voxels: if in both runs the
shares solve the flux equations (C19), no maximum has an equally high neighbour and no maxima are taken for one, the basins of corresponding maxima, the vacuum and all
atoms have the same charges and volumes.  Missing: runs that credit flux to a wrong basin, where it is false (`C116_weight`), and voxels without a higher facet
neighbour that are no maxima. -/
theorem C116_weight_partial (c : Coord) (G G' : RunInput K) (A A' : RunAid K) (ε : K) (O : OriginMoved c G G') (H : RunReady G A ε) (H' : RunReady G' A' ε)
    (vor : List (Coord × K)) (argsortW argsortW' : List (ℕ × K) → List (ℕ × K))
    (S : WeightReady G A vor argsortW G.sortedVoxels) (S' : WeightReady G' A' vor argsortW' G'.sortedVoxels)
    (hs : TwoSided G.nbrs) (hP : G.NoPlateau) (hA : A.Apart G) (hA' : A'.Apart G')
    (hsrt : ∀ l, (A.sortMax l).Pairwise fun a b => G.ref b ≤ G.ref a) (hsrt' : ∀ l, (A'.sortMax l).Pairwise fun a b => G'.ref b ≤ G'.ref a)
    (hroot : A'.root = A.root) (hrnd : A'.rnd = A.rnd) (hatoms : List.Forall₂ (SiteMoved G.shape c) G.atoms G'.atoms)
    (hplace : ∀ m m', G.IsMax m → MovedTo G.shape c m m' → SiteMoved G.shape c (A.place m) (A'.place m')) :
    ∃ (o o' : RunOut K) (F : ℕ), (∀ fuel ≥ F, G.run A (.weight vor argsortW G.sortedVoxels) fuel = some o ∧
        G'.run A' (.weight vor argsortW' G'.sortedVoxels) fuel = some o') ∧
      (∀ m m', G.IsMax m → MovedTo G.shape c m m' →
        o'.basins.charges (o'.labels m').toNat = o.basins.charges (o.labels m).toNat ∧
        o'.basins.volumes (o'.labels m').toNat = o.basins.volumes (o.labels m).toNat) ∧
      o'.basins.vacCharge = o.basins.vacCharge ∧ o'.basins.vacVolume = o.basins.vacVolume ∧
      o'.assignment.charges = o.assignment.charges ∧ o'.assignment.volumes = o.assignment.volumes := by
  have hf := O.fits
  have hp : G.shape.Pos := pos_of_lt_size H.voxels
  have hvor : vor.Perm (vor.map fun t => ((moveBy c).rot.mul t.1, t.2)) := by
    refine .of_eq ?_
    conv_lhs => rw [← List.map_id vor]
    exact List.map_congr_left fun td _ => by rw [moveBy_rot]; rfl
  obtain ⟨o, o', F, hF, basin, v1, v2, -⟩ := C120_weight_partial (moveBy c) G G' A A' ε O.oper H H' vor vor argsortW argsortW' _ _ S S' hvor hs hP hA hA' hsrt hsrt'
  obtain ⟨x, F1, hF1, _, _, hm, hlab, hasg⟩ := weight_own G A ε H vor argsortW _ S.toWeightParams hs hP hA hsrt
  obtain ⟨x', F2, hF2, _, _, hm', hlab', hasg'⟩ := weight_own G' A' ε H' vor argsortW' _ S'.toWeightParams (O.oper.twoSided hs)
    (O.oper.noPlateau H.fits H'.fits hp hP) hA' hsrt'
  obtain ⟨e1, e2⟩ := hF (max F (max F1 F2)) (le_max_left _ _)
  rw [hF1 _ ((le_max_left _ _).trans (le_max_right _ _))] at e1
  rw [hF2 _ ((le_max_right _ _).trans (le_max_right _ _))] at e2
  obtain rfl := Option.some.inj e1
  obtain rfl := Option.some.inj e2
  have basin' : ∀ m m', G.IsMax m → MovedTo G.shape c m m' →
        x'.basins.charges (x'.labels m').toNat = x.basins.charges (x.labels m).toNat ∧
        x'.basins.volumes (x'.labels m').toNat = x.basins.volumes (x.labels m).toNat :=
    fun m m' h h2 => basin m m' h (by rw [O.shape, moveBy_carries hf]; exact ⟨h.1, h2⟩)
  have hM := getMaxima_isMax G A H
  have hM' := getMaxima_isMax G' A' H'
  set M := getMaxima G.shape G.ref (G.nbrs.map Prod.fst) G.vacuum false A.order
  set M' := getMaxima G'.shape G'.ref (G'.nbrs.map Prod.fst) G'.vacuum false A'.order
  obtain ⟨g1, g2, g3, _, _, g6, g7⟩ := C23_atom_totals _ _ _ _ _ _ _ _ (by simp) (by simp) hasg
  obtain ⟨l1, l2, l3, _, _, l6, l7⟩ := C23_atom_totals _ _ _ _ _ _ _ _ (by simp) (by simp) hasg'
  obtain ⟨_, s2, s3, _⟩ := assignBasins_spec hasg
  obtain ⟨_, t2, t3, _⟩ := assignBasins_spec hasg'
  rw [List.length_map] at g1 g2 g3 g7 l1 l2 l3 l7 s2 t2
  have hmv : ∀ v < G.shape.size, MovedTo G.shape c v (nbr G.shape v c) := fun v hv => (movedTo_iff hf hv).mpr rfl
  have hlen := hatoms.length_eq
  have hmaxAtom : ∀ m, G.IsMax m → x'.assignment.atomLabels (nbr G.shape m c) = x.assignment.atomLabels m := by
    intro m hm0
    have hm0' : G'.IsMax (nbr G.shape m c) := (O.isMax H.fits hm0.1).mpr hm0
    have e1 : m ∈ x.maxima := by rw [hm, mem_maximaVox]; exact ⟨hm0.1, (hM m).mpr hm0⟩
    have e2 : nbr G.shape m c ∈ x'.maxima := by rw [hm', mem_maximaVox]; exact ⟨hm0'.1, (hM' _).mpr hm0'⟩
    obtain ⟨i, hi, ei⟩ := List.mem_iff_getElem.mp e1
    obtain ⟨j, hj, ej⟩ := List.mem_iff_getElem.mp e2
    have li := hlab i hi
    have lj := hlab' j hj
    rw [ei] at li
    rw [ej] at lj
    obtain ⟨a, x1, x2⟩ := g7 m i li hi
    obtain ⟨a', y1, y2⟩ := l7 _ j lj hj
    rw [x2, y2]
    have hia : i < x.assignment.basinAtoms.length := by rw [g1.1]; exact hi
    have hja : j < x'.assignment.basinAtoms.length := by rw [l1.1]; exact hj
    have ea : x.assignment.basinAtoms[i] = a := by rw [List.getElem?_eq_getElem hia] at x1; exact Option.some.inj x1
    have eb : x'.assignment.basinAtoms[j] = a' := by rw [List.getElem?_eq_getElem hja] at y1; exact Option.some.inj y1
    obtain ⟨p1, p2, p3⟩ := s3 i (by simpa using hi) hia (by omega)
    obtain ⟨q1, q2, q3⟩ := t3 j (by simpa using hj) hja (by omega)
    have hdist : ∀ (k : ℕ) (hk : k < G.atoms.length) (hk' : k < G'.atoms.length),
        wrapHalfV (subV G'.atoms[k] (A'.place (nbr G.shape m c))) = wrapHalfV (subV G.atoms[k] (A.place m)) := by
      intro k hk hk'
      exact wrapHalfV_moved ((List.forall₂_iff_get.mp hatoms).2 k hk hk') (hplace m _ hm0 (hmv m hm0.1))
    simp only [List.getElem_map, ei, ea] at p1 p2 p3
    simp only [List.getElem_map, ej, eb, hroot, O.lattice] at q1 q2 q3
    by_contra hne
    have hne' : a' ≠ a := fun e => hne (by rw [e])
    rcases lt_or_gt_of_ne hne' with h | h
    · have u1 := (p3 a' (by omega)).2 h
      have u2 := (q3 a (by omega)).1
      rw [hdist a p1 (by omega), ← p2, q2, hdist a' (by omega) q1] at u2
      exact absurd u1 (not_lt.mpr u2)
    · have u1 := (q3 a (by omega)).2 h
      have u2 := (p3 a' (by omega)).1
      rw [hdist a p1 (by omega), ← p2, q2, hdist a' (by omega) q1] at u1
      exact absurd u2 (not_le.mpr u1)
  have hMP : ∀ v < G.shape.size, M v = true ↔ M' (nbr G.shape v c) = true := by
    intro v hv; rw [hM, hM', O.isMax H.fits hv]
  refine ⟨x, x', F, hF, basin', v1, v2, ?_, ?_⟩
  · funext a
    rw [atom_sum (A := A) hm hlab g2 rfl g7 a, atom_sum (A := A') hm' hlab' l2 rfl l7 a, hrnd, O.shape]
    refine (sum_move hf _ _ _ _ hMP fun v hv hMv => ?_).symm
    have hv0 := (hM v).mp hMv
    rw [hmaxAtom v hv0, (basin' v _ hv0 (hmv v hv)).1]
  · funext a
    rw [atom_sum (A := A) hm hlab g3 rfl g7 a, atom_sum (A := A') hm' hlab' l3 rfl l7 a, hrnd, O.shape]
    refine (sum_move hf _ _ _ _ hMP fun v hv hMv => ?_).symm
    have hv0 := (hM v).mp hMv
    rw [hmaxAtom v hv0, (basin' v _ hv0 (hmv v hv)).2]

/-! ## Rings -/

/-- On a ring without vacuum the flux equations have to be checked for the basins only. -/
theorem line_weight (l : List ℚ) (hl : 2 ≤ l.length) (hsz : l.length ≤ 1000) (atoms : List (V3 ℚ)) (ha : atoms ≠ [])
    (hpk : (lineRun l atoms none).Peaked) (sorted : List ℕ) (h1 : sorted.Nodup) (h2 : ∀ v, v ∈ sorted ↔ v < l.length)
    (h3 : sorted.Pairwise fun a b => l.getD b 0 ≤ l.getD a 0)
    (h : ∀ v < l.length, ((lineRun l atoms none).weightIn (lineAid l fun _ _ => false) ring2).mask v = false →
      fluxes ((lineRun l atoms none).weightIn (lineAid l fun _ _ => false) ring2) v ≠ [] ∧
      ∀ b < l.length, shareOf ((lineRun l atoms none).weightIn (lineAid l fun _ _ => false) ring2) id
        (ownLabel ((lineRun l atoms none).weightIn (lineAid l fun _ _ => false) ring2).mask) sorted v b =
        ((fluxes ((lineRun l atoms none).weightIn (lineAid l fun _ _ => false) ring2) v).map fun e => e.2 *
          shareOf ((lineRun l atoms none).weightIn (lineAid l fun _ _ => false) ring2) id
            (ownLabel ((lineRun l atoms none).weightIn (lineAid l fun _ _ => false) ring2).mask) sorted e.1 b).sum /
          ((fluxes ((lineRun l atoms none).weightIn (lineAid l fun _ _ => false) ring2) v).map Prod.snd).sum) :
    WeightReady (lineRun l atoms none) (lineAid l fun _ _ => false) ring2 id sorted := by
  have hr := lineRun_ready l hl atoms ha none fun _ _ => false
  have hsize : (lineRun l atoms none).shape.size = l.length := by show l.length * 1 * 1 = _; omega
  have hlen : (maximaVox (lineRun l atoms none).shape ((lineRun l atoms none).weightIn (lineAid l fun _ _ => false) ring2).mask).length ≤ l.length := by
    refine (List.length_filter_le _ _).trans ?_
    rw [List.length_range, hsize]
  have hp : WeightParams (lineRun l atoms none) (lineAid l fun _ _ => false) ring2 id sorted :=
    ⟨hr.fits, hr.pos, fun _ => .refl _, h1, fun v => by rw [h2, hsize]; exact ⟨fun h => ⟨h, rfl⟩, fun h => h.1⟩, h3,
      by rw [hsize]; exact hsz.trans (by norm_num), lt_of_le_of_lt hlen (lt_of_le_of_lt hsz (by norm_num))⟩
  have hts : TwoSided (lineRun l atoms none).nbrs := by show TwoSided ring2; unfold TwoSided; decide
  refine ⟨hp, ?_⟩
  obtain ⟨_, _, _, hW, _⟩ := weight_own _ _ 0 hr ring2 id _ hp hts (fun v w hv hw _ => hpk v w hv hw) (lineAid_apart _ _) (lineAid_sorted _ _)
  obtain ⟨hsh, _⟩ := C17_shares hW id (fun l => .refl _) (hlen.trans (hsz.trans (by norm_num)))
  intro v hv hm
  have hv5 := (h2 v).mp hv
  obtain ⟨a1, a2⟩ := h v hv5 hm
  refine ⟨a1, fun b => ?_⟩
  by_cases hb : b < l.length
  · exact a2 b hb
  · have z : ∀ u < l.length, shareOf ((lineRun l atoms none).weightIn (lineAid l fun _ _ => false) ring2) id
        (ownLabel ((lineRun l atoms none).weightIn (lineAid l fun _ _ => false) ring2).mask) sorted u b = 0 :=
      fun u hu => (hsh u (by rw [← hsize] at hu; exact hu) rfl).2.1 b (hlen.trans (by omega))
    have zv := z v hv5
    change shareOf _ _ (ownLabel (getMaxima _ _ _ _ _ _)) _ _ _ = _ at zv
    rw [zv, List.sum_eq_zero, zero_div]
    intro x hx
    obtain ⟨e, he, rfl⟩ := List.mem_map.mp hx
    have hel : e.1 < l.length := by
      unfold fluxes at he
      obtain ⟨t, ht, rfl⟩ := List.mem_map.mp (List.mem_filter.mp he).1
      have := nbr_lt (s := (lineRun l atoms none).shape) (v := v) (by rw [hsize]; exact hv5) (hr.fits t ht)
      rw [hsize] at this; exact this
    have ze := z e.1 hel
    change shareOf _ _ (ownLabel (getMaxima _ _ _ _ _ _)) _ _ _ = _ at ze
    rw [ze, mul_zero]

/-- The ring `2 4 1 4 2`, whose lowest voxel is shared by both atoms, and the same ring with the origin moved by one voxel. -/
example : let G := lineRun [2, 4, 1, 4, 2] [(1 / 5, 0, 0), (3 / 5, 0, 0)] none
    let G' := lineRun [2, 2, 4, 1, 4] [(2 / 5, 0, 0), (4 / 5, 0, 0)] none
    let A := lineAid [2, 4, 1, 4, 2] fun _ _ => false
    let A' := lineAid [2, 2, 4, 1, 4] fun _ _ => false
    OriginMoved (1, 0, 0) G G' ∧ WeightReady G A ring2 id G.sortedVoxels ∧ WeightReady G' A' ring2 id G'.sortedVoxels ∧ TwoSided G.nbrs ∧ G.NoPlateau ∧
      List.Forall₂ (SiteMoved G.shape (1, 0, 0)) G.atoms G'.atoms ∧
      (∀ m m', G.IsMax m → MovedTo G.shape (1, 0, 0) m m' → SiteMoved G.shape (1, 0, 0) (A.place m) (A'.place m')) ∧
      (G.run A (.weight ring2 id G.sortedVoxels) 50).map (fun o => (List.range 2).map o.assignment.charges) = some [13 / 10, 13 / 10] := by
  intro G G' A A'
  have hc : StepFits ⟨5, 1, 1⟩ (1, 0, 0) := by unfold StepFits; decide
  have hpk : G.Peaked := line_peaked _ (by decide) _ _ (by decide +kernel)
  refine ⟨lineRun_moved (1, 0, 0) [2, 4, 1, 4, 2] [2, 2, 4, 1, 4] rfl _ _ _ hc (by decide +kernel), ?_, ?_, by show TwoSided ring2; unfold TwoSided; decide,
    fun v w hv hw _ => hpk v w hv hw, ?_, ?_, by decide +kernel⟩
  · obtain ⟨x1, x2, x3⟩ := sortedVoxels_ok G
    refine line_weight _ (by decide) (by decide) _ (by simp) hpk _ x1 (fun v => ?_) x3 (by decide +kernel)
    rw [x2]; exact ⟨fun h => h.1, fun h => ⟨h, rfl⟩⟩
  · obtain ⟨x1, x2, x3⟩ := sortedVoxels_ok G'
    refine line_weight _ (by decide) (by decide) _ (by simp) (line_peaked _ (by decide) _ _ (by decide +kernel)) _ x1 (fun v => ?_) x3 (by decide +kernel)
    rw [x2]; exact ⟨fun h => h.1, fun h => ⟨h, rfl⟩⟩
  · refine .cons ⟨by norm_num, by norm_num, (0, 0, 0), ?_⟩ (.cons ⟨by norm_num, by norm_num, (0, 0, 0), ?_⟩ .nil) <;> norm_num [G, lineRun]
  · intro m m' hm h
    have key : ∀ m < 5, (∀ t ∈ ring2.map Prod.fst, G.ref (nbr ⟨5, 1, 1⟩ m t) ≤ G.ref m) → m = 1 ∨ m = 3 := by decide +kernel
    have hf := fitsOf (lineRun_ready [2, 4, 1, 4, 2] (by decide) [(0, 0, 0)] (by simp) none fun _ _ => false).fits
    obtain rfl := (movedTo_iff hc hm.1).mp h
    rcases key m hm.1 (fun t ht => hm.2.2 _ ((isNbr_iff hf hm.1).mpr ⟨t, ht, rfl⟩)) with rfl | rfl
    · refine ⟨by norm_num [A, lineAid], ?_, (0, 0, 0), ?_⟩
      · rw [show nbr ⟨5, 1, 1⟩ 1 (1, 0, 0) = 2 by decide +kernel]; norm_num [A', lineAid]
      · rw [show nbr ⟨5, 1, 1⟩ 1 (1, 0, 0) = 2 by decide +kernel]; norm_num [A, A', G, lineAid, lineRun]
    · refine ⟨by norm_num [A, lineAid], ?_, (0, 0, 0), ?_⟩
      · rw [show nbr ⟨5, 1, 1⟩ 3 (1, 0, 0) = 4 by decide +kernel]; norm_num [A', lineAid]
      · rw [show nbr ⟨5, 1, 1⟩ 3 (1, 0, 0) = 4 by decide +kernel]; norm_num [A, A', G, lineAid, lineRun]

/-- **C116** (negative part) With the weight method the charges of the atoms depend on the origin of the grid: on the ring `1 3 2 3 1` the two atoms have one electron each;
with the origin moved by one voxel they have 4/5 and 6/5.  The sort puts voxels of the same value in another order, and the last one visited decides which flux is
credited to a wrong basin (C19). -/
theorem C116_weight : ∃ (G G' : RunInput ℚ) (A A' : RunAid ℚ), OriginMoved (1, 0, 0) G G' ∧ RunReady G A 0 ∧ RunReady G' A' 0 ∧
    WeightParams G A ring2 id G.sortedVoxels ∧ WeightParams G' A' ring2 id G'.sortedVoxels ∧ TwoSided G.nbrs ∧ G.Peaked ∧ A.Apart G ∧ A'.Apart G' ∧
    List.Forall₂ (SiteMoved G.shape (1, 0, 0)) G.atoms G'.atoms ∧
    (G.run A (.weight ring2 id G.sortedVoxels) 50).map (fun o => (List.range 2).map o.assignment.charges) = some [1, 1] ∧
    (G'.run A' (.weight ring2 id G'.sortedVoxels) 50).map (fun o => (List.range 2).map o.assignment.charges) = some [4 / 5, 6 / 5] := by
  have hr' := lineRun_ready [1, 1, 3, 2, 3] (by decide) [(2 / 5, 0, 0), (4 / 5, 0, 0)] (by simp) none fun _ _ => false
  obtain ⟨x1, x2, x3⟩ := sortedVoxels_ok tieCell
  obtain ⟨y1, y2, y3⟩ := sortedVoxels_ok (lineRun [1, 1, 3, 2, 3] [(2 / 5, 0, 0), (4 / 5, 0, 0)] none)
  refine ⟨tieCell, lineRun [1, 1, 3, 2, 3] [(2 / 5, 0, 0), (4 / 5, 0, 0)] none, tieAid, lineAid [1, 1, 3, 2, 3] fun _ _ => false,
    lineRun_moved (1, 0, 0) [1, 3, 2, 3, 1] [1, 1, 3, 2, 3] rfl _ _ _ (by unfold StepFits; decide) (by decide +kernel), tie_ready, hr',
    tie_params _ x1 (fun v => by rw [x2]; exact ⟨fun h => h.1, fun h => ⟨h, rfl⟩⟩) x3, ⟨hr'.fits, hr'.pos, fun _ => .refl _, y1, y2, y3, ?_, ?_⟩,
    by show TwoSided ring2; unfold TwoSided; decide, tie_peaked, lineAid_apart _ _, lineAid_apart _ _, ?_, by decide +kernel, by decide +kernel⟩
  · show 5 * 1 * 1 ≤ 10 ^ 30
    norm_num
  · have : (maximaVox (lineRun [1, 1, 3, 2, 3] [(2 / 5, 0, 0), (4 / 5, 0, 0)] none).shape
        ((lineRun [1, 1, 3, 2, 3] [(2 / 5, 0, 0), (4 / 5, 0, 0)] none).weightIn (lineAid [1, 1, 3, 2, 3] fun _ _ => false) ring2).mask).length = 2 := by decide +kernel
    exact lt_of_eq_of_lt this (by norm_num)
  · refine .cons ⟨by norm_num, by norm_num, (0, 0, 0), ?_⟩ (.cons ⟨by norm_num, by norm_num, (0, 0, 0), ?_⟩ .nil) <;> norm_num [tieCell, lineRun]

end BaderKit
