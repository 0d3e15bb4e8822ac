import Verif.Props.Symmetry
import Verif.Props.WeightLabels
/-!
# C120: the weight method under symmetry operations

The shares of the voxels are the only solution of the flux equations, so where the method solves them they are carried along.
-/
set_option linter.unusedSectionVars false
namespace BaderKit
open Finset
variable {K : Type} [Field K] [LinearOrder K] [IsStrictOrderedRing K] [FloorRing K]

/-! ## Specification -/

/-- What the weight method works on when every maximum stands for itself. -/
def RunInput.weightIn (G : RunInput K) (A : RunAid K) (vor : List (Coord × K)) : WeightIn K :=
  ⟨G.shape, G.ref, vor, G.nbrs, getMaxima G.shape G.ref (G.nbrs.map Prod.fst) G.vacuum false A.order,
    maximaVox G.shape (getMaxima G.shape G.ref (G.nbrs.map Prod.fst) G.vacuum false A.order)⟩

/-- Every maximum is labelled by itself. -/
def ownLabel (M : ℕ → Bool) (v : ℕ) : ℤ := if M v = true then v else -1

/-- Every voxel that is no maximum has a higher facet neighbour, and its share is the mean of the shares of these, weighted by the fluxes (see C19). -/
def FluxRight (W : WeightIn K) (argsortW : List (ℕ × K) → List (ℕ × K)) (labels0 : ℕ → ℤ) (sorted : List ℕ) : Prop :=
  ∀ v ∈ sorted, W.mask v = false → fluxes W v ≠ [] ∧ FluxEq W (shareOf W argsortW labels0 sorted) v

/-- The parameters of a run of the weight method. -/
structure WeightParams (G : RunInput K) (A : RunAid K) (vor : List (Coord × K)) (argsortW : List (ℕ × K) → List (ℕ × K)) (sorted : List ℕ) : Prop where
  fits : ∀ t ∈ vor, StepFits G.shape t.1
  pos : ∀ t ∈ vor, 0 < t.2
  perm : ∀ l, (argsortW l).Perm l
  nodup : sorted.Nodup
  mem : ∀ v, v ∈ sorted ↔ v < G.shape.size ∧ G.vacuum v = false
  desc : sorted.Pairwise (fun a b => G.ref b ≤ G.ref a)
  size : G.shape.size ≤ 10 ^ 30
  count : (maximaVox G.shape (getMaxima G.shape G.ref (G.nbrs.map Prod.fst) G.vacuum false A.order)).length < 10 ^ 6

/-- Such a run solves the flux equations. -/
structure WeightReady (G : RunInput K) (A : RunAid K) (vor : List (Coord × K)) (argsortW : List (ℕ × K) → List (ℕ × K)) (sorted : List ℕ) : Prop
    extends WeightParams G A vor argsortW sorted where
  right : FluxRight (G.weightIn A vor) argsortW (ownLabel (getMaxima G.shape G.ref (G.nbrs.map Prod.fst) G.vacuum false A.order)) sorted

/-! ## Shares -/

section share
variable {W : WeightIn K} {vac : ℕ → Bool} {labels0 : ℕ → ℤ} {sorted : List ℕ}

theorem flux_sum (W : WeightIn K) (v : ℕ) (f : ℕ × K → K) : ((fluxes W v).map f).sum =
    (W.vor.map fun t => if W.ref v < W.ref (nbr W.s v t.1) then f (nbr W.s v t.1, (W.ref (nbr W.s v t.1) - W.ref v) * t.2) else 0).sum := by
  unfold fluxes
  induction W.vor with
  | nil => rfl
  | cons t l ih =>
    rw [List.map_cons, List.map_cons, List.sum_cons, List.filter_cons]
    by_cases h : W.ref v < W.ref (nbr W.s v t.1)
    · rw [if_pos (by simpa using h), if_pos h, List.map_cons, List.sum_cons, ih]
    · rw [if_neg (by simpa using h), if_neg h, zero_add, ih]

/-- A maximum that stands for itself belongs to its basin alone. -/
theorem max_share (H : WeightInput W vac labels0 sorted) {argsortW : List (ℕ × K) → List (ℕ × K)} (ha : ∀ l, (argsortW l).Perm l)
    (hB : W.maxIdx.length ≤ 10 ^ 30) (hl : ∀ m, W.mask m = true → labels0 m = m) {v : ℕ} (hv : W.mask v = true) {i : ℕ} (hi : i < W.maxIdx.length) :
    shareOf W argsortW labels0 sorted v i = if W.maxIdx[i] = v then 1 else 0 := by
  have hmem : v ∈ W.maxIdx := (H.idx_mem v).mpr ⟨v, hv, hl v hv⟩
  obtain ⟨j, hj, ej⟩ := List.mem_iff_getElem.mp hmem
  have hs : sortMaxima (W.maxIdx.map fun r => (r, ())) = W.maxIdx.map fun r => (r, ()) := by
    unfold sortMaxima
    apply List.Pairwise.insertionSort_eq
    rw [List.pairwise_map]
    exact H.idx_sorted.imp fun h => h.le
  have hW : W.maxIdx = (sortMaxima (W.maxIdx.map fun r => (r, ()))).map Prod.fst := by
    rw [hs, List.map_map]
    conv_lhs => rw [← List.map_id W.maxIdx]
    rfl
  have h1 := ((C16_weight_order (W.maxIdx.map fun r => (r, ())) hW H argsortW ha hB (fun _ => 0)).2 j (by rw [hs]; simpa using hj) v hv
    (by simp only [hs, List.getElem_map]; rw [hl v hv, ej])).2
  obtain ⟨hm1, hm2, _⟩ := (H.maxima v).mp hv
  obtain ⟨n1, _, n3⟩ := (C17_shares H argsortW ha hB).1 v hm1 hm2
  by_cases hij : i = j
  · subst hij; rw [if_pos ej, h1]
  · rw [if_neg (fun e => hij ((List.Nodup.getElem_inj_iff (H.idx_sorted.imp fun h => h.ne)).mp (e.trans ej.symm)))]
    have : shareOf W argsortW labels0 sorted v i + shareOf W argsortW labels0 sorted v j ≤ 1 := by
      rw [← n3, ← Finset.sum_pair hij]
      exact Finset.sum_le_sum_of_subset_of_nonneg (by intro x hx; simp only [Finset.mem_insert, Finset.mem_singleton] at hx; rcases hx with rfl | rfl <;> simpa)
        (fun b _ _ => n1 b)
    have h0 := n1 i
    linarith

variable {W' : WeightIn K} {vac' : ℕ → Bool} {labels0' : ℕ → ℤ} {sorted' : List ℕ} {g : GridOper}

/-- The flux equations have one solution, so shares are carried along. -/
theorem share_carried (hF : g.Fits W.s W'.s) (href : ∀ v w, g.Carries W.s W'.s v w → W'.ref w = W.ref v)
    (hvor : W'.vor.Perm (W.vor.map fun t => (g.rot.mul t.1, t.2))) (hvac : ∀ v w, g.Carries W.s W'.s v w → vac' w = vac v)
    (hmask : ∀ v w, g.Carries W.s W'.s v w → (W'.mask w = true ↔ W.mask v = true))
    (H : WeightInput W vac labels0 sorted) (H' : WeightInput W' vac' labels0' sorted') {argsortW argsortW' : List (ℕ × K) → List (ℕ × K)}
    (ha : ∀ l, (argsortW l).Perm l) (ha' : ∀ l, (argsortW' l).Perm l) (hB : W.maxIdx.length ≤ 10 ^ 30) (hB' : W'.maxIdx.length ≤ 10 ^ 30)
    (hl : ∀ m, W.mask m = true → labels0 m = m) (hl' : ∀ m, W'.mask m = true → labels0' m = m)
    (R : FluxRight W argsortW labels0 sorted) (R' : FluxRight W' argsortW' labels0' sorted')
    (i i' : ℕ) (hi : i < W.maxIdx.length) (hi' : i' < W'.maxIdx.length) (hc : g.Carries W.s W'.s W.maxIdx[i] W'.maxIdx[i']) :
    ∀ v w, g.Carries W.s W'.s v w → vac v = false → shareOf W' argsortW' labels0' sorted' w i' = shareOf W argsortW labels0 sorted v i := by
  suffices h : ∀ (n v w : ℕ), ((range W.s.size).filter fun u => W.ref v < W.ref u).card = n → g.Carries W.s W'.s v w → vac v = false →
      shareOf W' argsortW' labels0' sorted' w i' = shareOf W argsortW labels0 sorted v i from fun v w => h _ v w rfl
  intro n
  induction n using Nat.strong_induction_on with
  | _ n ih =>
    intro v w hn hvw hv
    by_cases hm : W.mask v = true
    · rw [max_share H ha hB hl hm hi, max_share H' ha' hB' hl' ((hmask v w hvw).mpr hm) hi']
      by_cases e : W.maxIdx[i] = v
      · rw [if_pos e, if_pos (carries_unique (by rw [← e]; exact hc : g.Carries W.s W'.s v W'.maxIdx[i']) hvw)]
      · rw [if_neg e, if_neg fun e' => e (carries_inj hF hc (by rw [e']; exact hvw))]
    · have hm' : ¬ W'.mask w = true := fun h => hm ((hmask v w hvw).mp h)
      obtain ⟨_, f1⟩ := R v ((H.sorted_mem v).mpr ⟨hvw.1, hv⟩) (by simpa using hm)
      obtain ⟨_, f2⟩ := R' w ((H'.sorted_mem w).mpr ⟨hvw.2.1, (hvac v w hvw).trans hv⟩) (by simpa using hm')
      have key : ∀ (f f' : ℕ × K → K), (∀ t ∈ W.vor, W.ref v < W.ref (nbr W.s v t.1) →
          ∀ x, f' (nbr W'.s w (g.rot.mul t.1), x) = f (nbr W.s v t.1, x)) → ((fluxes W' w).map f').sum = ((fluxes W v).map f).sum := by
        intro f f' hff
        rw [flux_sum, flux_sum, (hvor.map _).sum_eq, List.map_map]
        congr 1
        refine List.map_congr_left fun t ht => ?_
        have hn := carries_nbr hF hvw (H.vor_fits t ht) (H'.vor_fits _ (hvor.mem_iff.mpr (List.mem_map.mpr ⟨t, ht, rfl⟩)))
        simp only [Function.comp]
        rw [href _ _ hvw, href _ _ hn]
        by_cases h : W.ref v < W.ref (nbr W.s v t.1)
        · rw [if_pos h, if_pos h, hff t ht h]
        · rw [if_neg h, if_neg h]
      rw [f1 i, f2 i', key (fun e => e.2 * shareOf W argsortW labels0 sorted e.1 i) (fun e => e.2 * shareOf W' argsortW' labels0' sorted' e.1 i') ?_,
        key Prod.snd Prod.snd (fun _ _ _ _ => rfl)]
      intro t ht hlt x
      have hn' := carries_nbr hF hvw (H.vor_fits t ht) (H'.vor_fits _ (hvor.mem_iff.mpr (List.mem_map.mpr ⟨t, ht, rfl⟩)))
      dsimp only
      rw [ih _ ?_ _ _ rfl hn' ?_]
      · rw [← hn]
        refine Finset.card_lt_card ⟨?_, ?_⟩
        · intro u hu
          simp only [Finset.mem_filter] at hu ⊢
          exact ⟨hu.1, hlt.trans hu.2⟩
        · intro hsub
          have := hsub (Finset.mem_filter.mpr ⟨Finset.mem_range.mpr hn'.1, hlt⟩)
          simp at this
      · exact H.up_vor v hvw.1 hv _ ((isNbr_iff (fun t ht => by
          obtain ⟨td, h1, rfl⟩ := List.mem_map.mp ht; exact H.vor_fits td h1) hvw.1).mpr ⟨t.1, List.mem_map.mpr ⟨t, ht, rfl⟩, rfl⟩) hlt

end share

/-! ## The runs -/

/-- A run of the weight method in which every maximum stands for itself. -/
theorem weight_own (G : RunInput K) (A : RunAid K) (ε : K) (H : RunReady G A ε) (vor : List (Coord × K)) (argsortW : List (ℕ × K) → List (ℕ × K))
    (sorted : List ℕ) (S : WeightParams G A vor argsortW sorted) (hs : TwoSided G.nbrs) (hP : G.NoPlateau) (hA : A.Apart G)
    (hsrt : ∀ l, (A.sortMax l).Pairwise fun a b => G.ref b ≤ G.ref a) :
    let M := getMaxima G.shape G.ref (G.nbrs.map Prod.fst) G.vacuum false A.order
    let W := G.weightIn A vor
    ∃ (o : RunOut K) (F : ℕ), (∀ fuel ≥ F, G.run A (.weight vor argsortW sorted) fuel = some o) ∧ WeightInput W G.vacuum (ownLabel M) sorted ∧
      o.basins = weightResults W G.charge argsortW G.vacuum (ownLabel M) sorted G.volume ∧
      o.maxima = maximaVox G.shape M ∧ (∀ i (hi : i < o.maxima.length), o.labels o.maxima[i] = i) ∧
      assignBasins A.root G.lattice G.atoms (o.maxima.map A.place) o.labels
        ((List.range o.maxima.length).map fun b => A.rnd (o.basins.charges b))
        ((List.range o.maxima.length).map fun b => A.rnd (o.basins.volumes b)) = some o.assignment := by
  intro M W
  have hup : UpClosedLe G.shape G.ref (G.nbrs.map Prod.fst) G.vacuum := fun v _ hv w _ hle => H.vacuum.up v w hv hle
  have hupv : UpClosed G.shape G.ref (vor.map Prod.fst) G.vacuum := fun v _ hv w _ hlt => H.vacuum.up v w hv hlt.le
  have hM : ∀ v, M v = true ↔ G.IsMax v := getMaxima_isMax G A H
  have hsort := H.sort (maximaVox G.shape M)
  obtain ⟨res, F, hF, hval, hsm, hid⟩ := C15_init_labels G.shape G.ref G.nbrs G.vacuum M A.same A.cand _ H.fits H.pos hM hup hsort
  have hG : Grouped G A := .ofApart hA hsrt
  have hgr := groups_iff H.fits hs hP hG hM hval (fun v hv hex => hsm (hG.sorted _) v hv (noFalseMax hM hP v) hex) hsort
  have hfix : ∀ v, M v = true → res.labels v = v := by
    intro v hv
    obtain ⟨r, e1, e2, e3, _⟩ := hval.rep v hv
    have := (hgr v r ((hM v).mp hv) ((hM r).mp e2)).mp (by rw [e1, e3])
    rcases this with h | h
    · rw [e1, ← h]
    · by_cases hvr : v = r
      · rw [e1, ← hvr]
      · rw [hA v r ((hM v).mp hv) ((hM r).mp e2) hvr] at h; cases h
  have hreps : res.reps = maximaVox G.shape M := hid hfix
  have hlabs : res.labels = ownLabel M := by
    funext v
    unfold ownLabel
    by_cases h : M v = true
    · rw [if_pos h, hfix v h]
    · rw [if_neg h, hval.other v (by simpa using h)]
  have hlt : (maximaVox G.shape M).Pairwise (· < ·) := List.Pairwise.filter _ List.pairwise_lt_range
  have hsm : sortMaxima (res.reps.map fun r => (r, ())) = (maximaVox G.shape M).map fun r => (r, ()) := by
    rw [hreps]
    unfold sortMaxima
    apply List.Pairwise.insertionSort_eq
    rw [List.pairwise_map]
    exact hlt.imp fun h => h.le
  have hidx : (sortMaxima (res.reps.map fun r => (r, ()))).map Prod.fst = maximaVox G.shape M := by
    rw [hsm, List.map_map]
    conv_rhs => rw [← List.map_id (maximaVox G.shape M)]
    rfl
  obtain ⟨res', F', hF', hW, _, _⟩ := C17_pipeline G.shape G.ref G.charge vor G.nbrs G.vacuum A.same A.cand A.order _ sorted argsortW S.perm
    S.fits S.pos H.fits H.pos hup hupv H.order S.size hsort S.nodup S.mem S.desc
  have er : res' = res := by
    have h1 := hF' (max F F') (le_max_right _ _)
    have h2 := hF (max F F') (le_max_left _ _)
    exact Option.some.inj (h1.symm.trans h2)
  subst er
  have eW : (⟨G.shape, G.ref, vor, G.nbrs, M, (sortMaxima (res'.reps.map fun r => (r, ()))).map Prod.fst⟩ : WeightIn K) = W := by
    rw [hidx]; rfl
  have hW : WeightInput W G.vacuum (ownLabel M) sorted := by rw [← eW, ← hlabs]; exact hW
  have hB : W.maxIdx.length < 10 ^ 6 := S.count
  have hB' : W.maxIdx.length ≤ 10 ^ 30 := hB.le.trans (by norm_num)
  obtain ⟨hsh, hcv⟩ := C17_shares hW argsortW S.perm hB'
  obtain ⟨hlab, hlabv⟩ := C18_labels hW argsortW S.perm hB G.charge
  have hvac : ((List.range G.shape.size).filter G.vacuum).toFinset = (range G.shape.size).filter (fun v => G.vacuum v = true) := by
    ext v; simp
  have hnd : ((List.range G.shape.size).filter G.vacuum).Nodup := List.nodup_range.filter _
  obtain ⟨asg, k1, _⟩ := run_core G A ε H.rnd H.voxels H.atoms (weightAssign W G.charge argsortW (ownLabel M) sorted).labels
    (weightResults W G.charge argsortW G.vacuum (ownLabel M) sorted G.volume) W.maxIdx (shareOf W argsortW (ownLabel M) sorted) (fun v _ hv => hlabv v hv)
    (fun v hv hvv => by obtain ⟨l, e1, e2, _⟩ := hlab v hv hvv; rw [e1]; omega) hsh
    (fun b _ => by show _ / _ = _; rw [(hcv G.charge b).1]; rfl)
    (fun b _ => by show _ * (_ / _) = _; rw [(hcv G.charge b).2]; exact (mul_div_assoc _ _ _).symm)
    (by
      show _ / _ = _
      congr 1
      rw [← hvac, List.sum_toFinset _ hnd]; rfl)
    (by
      show _ / _ * _ = _
      rw [← hvac, List.toFinset_card_of_nodup hnd, div_mul_eq_mul_div]; rfl)
  refine ⟨⟨_, _, W.maxIdx, asg⟩, F, fun fuel hf => ?_, hW, rfl, rfl, ?_, k1⟩
  · have e1 := hF fuel hf
    simp only [RunInput.run]
    rw [e1]
    simp only [RunInput.method, Option.bind_eq_bind, Option.bind_some]
    rw [eW, hlabs, show (sortMaxima (res'.reps.map fun r => (r, ()))).map Prod.fst = W.maxIdx from hidx, k1]; rfl
  · intro i hi
    have hi' : i < (maximaVox G.shape M).length := hi
    have hmem : (maximaVox G.shape M)[i] ∈ maximaVox G.shape M := List.getElem_mem hi'
    have hMi : M (maximaVox G.shape M)[i] = true := by
      rw [mem_maximaVox] at hmem; exact hmem.2
    have hsm' : sortMaxima ((maximaVox G.shape M).map fun r => (r, ())) = (maximaVox G.shape M).map fun r => (r, ()) := by
      rw [hreps] at hsm; exact hsm
    have hidx' : W.maxIdx = (sortMaxima ((maximaVox G.shape M).map fun r => (r, ()))).map Prod.fst := by
      rw [← hreps]; exact (hidx.trans rfl).symm
    refine ((C16_weight_order ((maximaVox G.shape M).map fun r => (r, ())) hidx' hW argsortW S.perm hB' G.charge).2 i
      (by rw [hsm']; simpa using hi') _ hMi ?_).1
    simp only [hsm', List.getElem_map]
    unfold ownLabel
    rw [if_pos hMi]

/-- **C120** (partial) The weight method after a symmetry operation or another choice of the axes.  If in both runs the shares solve the flux equations (C19 says when),
no maximum has an equally high neighbour and no two maxima are taken for one, the basins of maxima carried to one another have the same charges and volumes,
and the vacuum has, too; if each maximum has one nearest atom, atoms carried to one another have the same charges and volumes.  Missing: runs in which flux is credited
to a wrong basin, where it is false (`C120_weight`), and voxels without a higher facet neighbour that are no maxima. -/
theorem C120_weight_partial (g : GridOper) (G G' : RunInput K) (A A' : RunAid K) (ε : K) (O : OperatedBy g G G') (H : RunReady G A ε) (H' : RunReady G' A' ε)
    (vor vor' : List (Coord × K)) (argsortW argsortW' : List (ℕ × K) → List (ℕ × K)) (sorted sorted' : List ℕ)
    (S : WeightReady G A vor argsortW sorted) (S' : WeightReady G' A' vor' argsortW' sorted')
    (hvor : vor'.Perm (vor.map fun t => (g.rot.mul t.1, t.2))) (hs : TwoSided G.nbrs) (hP : G.NoPlateau) (hA : A.Apart G) (hA' : A'.Apart G')
    (hsrt : ∀ l, (A.sortMax l).Pairwise fun a b => G.ref b ≤ G.ref a) (hsrt' : ∀ l, (A'.sortMax l).Pairwise fun a b => G'.ref b ≤ G'.ref a) :
    ∃ (o o' : RunOut K) (F : ℕ), (∀ fuel ≥ F, G.run A (.weight vor argsortW sorted) fuel = some o ∧ G'.run A' (.weight vor' argsortW' sorted') fuel = some o') ∧
      (∀ m m', G.IsMax m → g.Carries G.shape G'.shape m m' →
        o'.basins.charges (o'.labels m').toNat = o.basins.charges (o.labels m).toNat ∧
        o'.basins.volumes (o'.labels m').toNat = o.basins.volumes (o.labels m).toNat) ∧
      o'.basins.vacCharge = o.basins.vacCharge ∧ o'.basins.vacVolume = o.basins.vacVolume ∧
      ∀ σ, OperAtoms g G G' A A' σ → ∀ i < G.atoms.length,
        o'.assignment.charges (σ i) = o.assignment.charges i ∧ o'.assignment.volumes (σ i) = o.assignment.volumes i := by
  have hf := H.fits
  have hf' := H'.fits
  have hp : G.shape.Pos := pos_of_lt_size H.voxels
  have hp' : G'.shape.Pos := pos_of_lt_size H'.voxels
  obtain ⟨o, F1, hF1, hW, hb, hm, hlab, hasg⟩ := weight_own G A ε H vor argsortW sorted S.toWeightParams hs hP hA hsrt
  obtain ⟨o', F2, hF2, hW', hb', hm', hlab', hasg'⟩ := weight_own G' A' ε H' vor' argsortW' sorted' S'.toWeightParams (O.twoSided hs) (O.noPlateau hf hf' hp hP) hA' hsrt'
  have hM := getMaxima_isMax G A H
  have hM' := getMaxima_isMax G' A' H'
  set M := getMaxima G.shape G.ref (G.nbrs.map Prod.fst) G.vacuum false A.order with hMd
  set M' := getMaxima G'.shape G'.ref (G'.nbrs.map Prod.fst) G'.vacuum false A'.order with hMd'
  have hsz := size_carried O.fits hp hp'
  have hB : (G.weightIn A vor).maxIdx.length ≤ 10 ^ 30 := (show (maximaVox G.shape M).length < 10 ^ 6 from S.count).le.trans (by norm_num)
  have hB' : (G'.weightIn A' vor').maxIdx.length ≤ 10 ^ 30 := (show (maximaVox G'.shape M').length < 10 ^ 6 from S'.count).le.trans (by norm_num)
  have sh : ∀ i i' (hi : i < (maximaVox G.shape M).length) (hi' : i' < (maximaVox G'.shape M').length),
      g.Carries G.shape G'.shape (maximaVox G.shape M)[i] (maximaVox G'.shape M')[i'] → ∀ v w, g.Carries G.shape G'.shape v w → G.vacuum v = false →
      shareOf (G'.weightIn A' vor') argsortW' (ownLabel M') sorted' w i' = shareOf (G.weightIn A vor) argsortW (ownLabel M) sorted v i := by
    intro i i' hi hi' hc
    exact share_carried (W := G.weightIn A vor) (W' := G'.weightIn A' vor') O.fits O.ref hvor (fun v w h => O.vacuum h)
      (fun v w h => by show M' w = true ↔ M v = true; rw [hM, hM', O.isMax hf hf' h]) hW hW' S.perm S'.perm hB hB'
      (fun m h => by unfold ownLabel; exact if_pos h) (fun m h => by unfold ownLabel; exact if_pos h) S.right S'.right i i' hi hi' hc
  obtain ⟨_, hcv⟩ := C17_shares hW argsortW S.perm hB
  obtain ⟨_, hcv'⟩ := C17_shares hW' argsortW' S'.perm hB'
  have basin : ∀ m m', G.IsMax m → g.Carries G.shape G'.shape m m' →
      o'.basins.charges (o'.labels m').toNat = o.basins.charges (o.labels m).toNat ∧
        o'.basins.volumes (o'.labels m').toNat = o.basins.volumes (o.labels m).toNat := by
    intro m m' hmM hc
    have hmM' := (O.isMax hf hf' hc).mpr hmM
    have e1 : m ∈ o.maxima := by rw [hm, mem_maximaVox]; exact ⟨hmM.1, (hM m).mpr hmM⟩
    have e1' : m' ∈ o'.maxima := by rw [hm', mem_maximaVox]; exact ⟨hmM'.1, (hM' m').mpr hmM'⟩
    obtain ⟨i, hi, ei⟩ := List.mem_iff_getElem.mp e1
    obtain ⟨i', hi', ei'⟩ := List.mem_iff_getElem.mp e1'
    have li := hlab i hi
    have li' := hlab' i' hi'
    rw [ei] at li
    rw [ei'] at li'
    have hi2 : i < (maximaVox G.shape M).length := by rw [← hm]; exact hi
    have hi2' : i' < (maximaVox G'.shape M').length := by rw [← hm']; exact hi'
    have s := sh i i' hi2 hi2' (by simp only [← hm, ← hm']; rw [ei, ei']; exact hc)
    rw [li, li', hb, hb']
    simp only [Int.toNat_natCast]
    constructor
    · show _ / _ = _ / _
      rw [(hcv G.charge i).1, (hcv' G'.charge i').1]
      have := sum_carried O.fits hp hp' (fun v => G.vacuum v = false) (fun v => G'.vacuum v = false)
        (fun v => shareOf (G.weightIn A vor) argsortW (ownLabel M) sorted v i * G.charge v)
        (fun w => shareOf (G'.weightIn A' vor') argsortW' (ownLabel M') sorted' w i' * G'.charge w) (fun v w h => by rw [O.vacuum h])
        (fun v w h hv => by rw [s v w h hv, O.charge v w h])
      show (∑ v ∈ (range G'.shape.size).filter (fun v => G'.vacuum v = false), _) / (G'.shape.size : K) = _ / (G.shape.size : K)
      rw [this, hsz]; rfl
    · show _ * (G'.volume / (G'.shape.size : K)) = _ * (G.volume / (G.shape.size : K))
      rw [(hcv G.charge i).2, (hcv' G'.charge i').2]
      have := sum_carried O.fits hp hp' (fun v => G.vacuum v = false) (fun v => G'.vacuum v = false)
        (fun v => shareOf (G.weightIn A vor) argsortW (ownLabel M) sorted v i)
        (fun w => shareOf (G'.weightIn A' vor') argsortW' (ownLabel M') sorted' w i') (fun v w h => by rw [O.vacuum h])
        (fun v w h hv => s v w h hv)
      show (∑ v ∈ (range G'.shape.size).filter (fun v => G'.vacuum v = false), _) * _ = _
      rw [this, hsz, O.volume]; rfl
  have vacs : ∀ (f : RunInput K → ℕ → K), (∀ v w, g.Carries G.shape G'.shape v w → f G' w = f G v) →
      (((List.range G'.shape.size).filter G'.vacuum).map (f G')).sum = (((List.range G.shape.size).filter G.vacuum).map (f G)).sum := by
    intro f hff
    have conv : ∀ Q : RunInput K, (((List.range Q.shape.size).filter Q.vacuum).map (f Q)).sum = ∑ v ∈ (range Q.shape.size).filter (fun v => Q.vacuum v = true), f Q v := by
      intro Q
      rw [← List.sum_toFinset _ (List.nodup_range.filter _)]
      congr 1
      ext v; simp
    rw [conv, conv]
    exact sum_carried O.fits hp hp' _ _ _ _ (fun v w h => by rw [O.vacuum h]) (fun v w h _ => hff v w h)
  refine ⟨o, o', max F1 F2, fun fuel hfu => ⟨hF1 fuel (le_of_max_le_left hfu), hF2 fuel (le_of_max_le_right hfu)⟩, basin, ?_, ?_, ?_⟩
  · rw [hb, hb']
    show (((List.range G'.shape.size).filter G'.vacuum).map G'.charge).sum / (G'.shape.size : K) = _ / (G.shape.size : K)
    rw [vacs (fun Q => Q.charge) O.charge, hsz]; rfl
  · rw [hb, hb']
    have := vacs (fun _ _ => 1) (fun _ _ _ => rfl)
    simp only [List.map_const', List.sum_replicate, nsmul_eq_mul, mul_one] at this
    show (((List.range G'.shape.size).filter G'.vacuum).length : K) / (G'.shape.size : K) * G'.volume =
      (((List.range G.shape.size).filter G.vacuum).length : K) / (G.shape.size : K) * G.volume
    rw [this, hsz, O.volume]
  · intro σ R i hi
    obtain ⟨g1, g2, g3, _, _, _, g7⟩ := C23_atom_totals _ _ _ _ _ _ _ _ (by simp) (by simp) hasg
    obtain ⟨h1, h2, h3, _, _, _, h7⟩ := C23_atom_totals _ _ _ _ _ _ _ _ (by simp) (by simp) hasg'
    rw [List.length_map] at g1 g2 g3 g7 h1 h2 h3 h7
    have sumAtom : ∀ (f f' : ℕ → K), (∀ v w, g.Carries G.shape G'.shape v w → G.IsMax v → f' w = f v) →
        ∑ w ∈ (range G'.shape.size).filter (fun w => M' w = true), (if o'.assignment.atomLabels w = (σ i : ℕ) then f' w else 0) =
          ∑ v ∈ (range G.shape.size).filter (fun v => M v = true), if o.assignment.atomLabels v = i then f v else 0 := by
      intro f f' hff
      refine sum_carried O.fits hp hp' _ _ _ _ (fun v w hc => by rw [hM, hM', O.isMax hf hf' hc]) fun v w hc hv => ?_
      have hv := (hM v).mp hv
      obtain ⟨a, t, ho⟩ := R.one v hv
      obtain ⟨b, b1, _, b3⟩ := max_atom hM R.root R.ortho R.near hm hlab (by simp) (by simp) hasg hv
      obtain ⟨d, d1, _, d3⟩ := max_atom hM' R.root' R.ortho' R.near' hm' hlab' (by simp) (by simp) hasg' ((O.isMax hf hf' hc).mpr hv)
      obtain ⟨e, he⟩ := R.place v w hv hc
      rw [he] at d3
      rw [b1, d1, nearest_one R.root ho b3, nearest_oper O.fits hp hp' R ho d3, hff v w hc hv]
      by_cases h : a = i
      · subst h; simp
      · have : σ a ≠ σ i := fun e => h (R.moved.inj a ho.choose i hi e)
        rw [if_neg (by exact_mod_cast this), if_neg (by exact_mod_cast h)]
    constructor
    · rw [atom_sum (A := A) hm hlab g2 rfl g7 i, atom_sum (A := A') hm' hlab' h2 rfl h7 (σ i), R.rnd]
      exact sumAtom _ _ fun v w hc hv => by rw [(basin v w hv hc).1]
    · rw [atom_sum (A := A) hm hlab g3 rfl g7 i, atom_sum (A := A') hm' hlab' h3 rfl h7 (σ i), R.rnd]
      exact sumAtom _ _ fun v w hc hv => by rw [(basin v w hv hc).2]

/-! ## A ring with a mirror that exchanges its two atoms -/

/-- The ring of `C120_tie`: the voxel on the mirror has two steepest neighbours. -/
def tieCell : RunInput ℚ := lineRun [1, 3, 2, 3, 1] [(1 / 5, 0, 0), (3 / 5, 0, 0)] none

/-- Its parameters. -/
def tieAid : RunAid ℚ := lineAid [1, 3, 2, 3, 1] fun _ _ => false

theorem tie_ready : RunReady tieCell tieAid 0 := lineRun_ready _ (by decide) _ (by simp) _ _

theorem tie_peaked : tieCell.Peaked := line_peaked _ (by decide) _ _ (by decide +kernel)

theorem tie_max {v : ℕ} (h : tieCell.IsMax v) : v = 1 ∨ v = 3 := by
  obtain ⟨h1, h2, h3⟩ := h
  have hv : v < 5 := h1
  have key : ∀ v < 5, (∀ t ∈ ring2.map Prod.fst, tieCell.ref (nbr ⟨5, 1, 1⟩ v t) ≤ tieCell.ref v) → v = 1 ∨ v = 3 := by
    decide +kernel
  exact key v hv fun t ht => h3 _ ((isNbr_iff (fitsOf tie_ready.fits) h1).mpr ⟨t, ht, rfl⟩)

theorem tie_atoms : OperAtoms (mirrorAt 4) tieCell tieCell tieAid tieAid (fun i => 1 - i) := by
  refine ⟨⟨?_, ?_, ?_, ?_⟩, mirror_dist _ (by decide) 4 _ _, ?_, ?_, line_root _, line_root _, rfl, ?_, ?_, ?_, ?_⟩
  · intro i hi
    show 1 - i < 2
    omega
  · intro i hi j hj e
    have hi : i < 2 := hi
    have hj : j < 2 := hj
    have e : 1 - i = 1 - j := e
    omega
  · intro j hj
    have hj : j < 2 := hj
    refine ⟨1 - j, ?_, ?_⟩
    · show 1 - j < 2
      omega
    · show 1 - (1 - j) = j
      omega
  · intro i hi hj
    have hi : i < 2 := hi
    refine ⟨(0, 0, 0), ?_⟩
    interval_cases i <;> norm_num [tieCell, lineRun, GridOper.frac, mirrorAt, image]
  · simp [Orthogonal, dotV, tieCell, lineRun]
  · simp [Orthogonal, dotV, tieCell, lineRun]
  · intro a ha m hm
    simp only [tieCell, lineRun, List.mem_cons, List.not_mem_nil, or_false] at ha
    rcases tie_max hm with rfl | rfl <;> rcases ha with rfl | rfl <;> norm_num [CloseBy, tieAid, lineAid, abs_lt]
  · intro a ha m hm
    simp only [tieCell, lineRun, List.mem_cons, List.not_mem_nil, or_false] at ha
    rcases tie_max hm with rfl | rfl <;> rcases ha with rfl | rfl <;> norm_num [CloseBy, tieAid, lineAid, abs_lt]
  · intro v w _ hc
    obtain ⟨_, _, z, hz⟩ := mirror_carries (L := 5) hc
    have hz : (w : ℚ) = 4 - v + z * 5 := by exact_mod_cast hz
    refine ⟨(z, 0, 0), ?_⟩
    simp only [tieAid, lineAid, image, GridOper.frac, mirrorAt, tieCell, lineRun, List.length_cons, List.length_nil, hz]
    refine Prod.ext ?_ (Prod.ext ?_ ?_) <;> norm_num <;> ring
  · intro v hv
    refine ⟨v / 3, (0, 0, 0), ?_, ?_⟩
    · rcases tie_max hv with rfl | rfl <;> decide
    · intro j hj t' hne
      have hj' : j < 2 := hj
      have el : tieCell.lattice = ((5, 0, 0), (0, 1, 0), (0, 0, 1)) := by norm_num [tieCell, lineRun]
      rw [el, line_dist, line_dist]
      have key : ∀ (x : ℤ) (c : ℚ), c = 2 / 5 ∨ c = -2 / 5 → (c + x) ≠ 0 := by
        intro x c h e
        rcases h with rfl | rfl
        · have : (2 + 5 * x : ℤ) = 0 := by exact_mod_cast (by linarith : (2 + 5 * x : ℚ) = 0)
          omega
        · have : (-2 + 5 * x : ℤ) = 0 := by exact_mod_cast (by linarith : (-2 + 5 * x : ℚ) = 0)
          omega
      have pos : ∀ (x y z : ℚ), x ≠ 0 ∨ y ≠ 0 ∨ z ≠ 0 → 0 < (5 * x) ^ 2 + y ^ 2 + z ^ 2 := by
        intro x y z h
        rcases h with h | h | h
        · have : 0 < (5 * x) ^ 2 := by positivity
          positivity
        · positivity
        · positivity
      obtain ⟨x, y, z⟩ := t'
      have h0 : ∀ a, (a, (x, y, z)) ≠ ((a : ℕ), ((0 : ℤ), (0 : ℤ), (0 : ℤ))) → x ≠ 0 ∨ y ≠ 0 ∨ z ≠ 0 := by
        intro a h
        by_contra hcon; push Not at hcon; obtain ⟨rfl, rfl, rfl⟩ := hcon; exact h rfl
      rcases tie_max hv with rfl | rfl <;> interval_cases j
      · have := pos x y z (by simpa using h0 0 hne)
        norm_num [tieCell, tieAid, lineRun, lineAid] at this ⊢
        nlinarith
      · have := pos (2 / 5 + x) y z (Or.inl (key x _ (Or.inl rfl)))
        norm_num [tieCell, tieAid, lineRun, lineAid] at this ⊢
        nlinarith
      · have := pos (-2 / 5 + x) y z (Or.inl (key x _ (Or.inr rfl)))
        norm_num [tieCell, tieAid, lineRun, lineAid] at this ⊢
        nlinarith
      · have := pos x y z (by simpa using h0 1 hne)
        norm_num [tieCell, tieAid, lineRun, lineAid] at this ⊢
        nlinarith

theorem tie_params (sorted : List ℕ) (h1 : sorted.Nodup) (h2 : ∀ v, v ∈ sorted ↔ v < 5) (h3 : sorted.Pairwise fun a b => tieCell.ref b ≤ tieCell.ref a) :
    WeightParams tieCell tieAid ring2 id sorted := by
  refine ⟨?_, ?_, fun l => .refl _, h1, ?_, h3, ?_, ?_⟩
  · exact fun t ht => tie_ready.fits t ht
  · exact fun t ht => tie_ready.pos t ht
  · intro v
    rw [h2]
    exact ⟨fun h => ⟨h, rfl⟩, fun h => h.1⟩
  · show 5 * 1 * 1 ≤ 10 ^ 30
    norm_num
  · have : (maximaVox tieCell.shape (getMaxima tieCell.shape tieCell.ref (tieCell.nbrs.map Prod.fst) tieCell.vacuum false tieAid.order)).length = 2 := by
      decide +kernel
    rw [this]; norm_num

/-- If the sort puts voxel 4 before voxel 0, the hypotheses hold although there are ties, and the atoms have the same charge. -/
example : OperatedBy (mirrorAt 4) tieCell tieCell ∧ WeightReady tieCell tieAid ring2 id [1, 3, 2, 4, 0] ∧
    ring2.Perm (ring2.map fun t => ((mirrorAt 4).rot.mul t.1, t.2)) ∧ TwoSided tieCell.nbrs ∧ tieCell.NoPlateau ∧ tieAid.Apart tieCell ∧
    (∀ l, (tieAid.sortMax l).Pairwise fun a b => tieCell.ref b ≤ tieCell.ref a) ∧
    (tieCell.run tieAid (.weight ring2 id [1, 3, 2, 4, 0]) 50).map (fun o => (List.range 2).map o.assignment.charges) = some [1, 1] := by
  have hp := tie_params [1, 3, 2, 4, 0] (by decide) (by intro v; simp; omega) (by decide +kernel)
  have hpl : tieCell.NoPlateau := fun v w hv hw _ => tie_peaked v w hv hw
  have hts : TwoSided tieCell.nbrs := by show TwoSided ring2; unfold TwoSided; decide
  refine ⟨mirror_oper _ 4 (by decide) _ _ (by decide +kernel), ⟨hp, ?_⟩, by decide +kernel, hts, hpl, lineAid_apart _ _, lineAid_sorted _ _, by decide +kernel⟩
  obtain ⟨_, _, _, hW, _⟩ := weight_own tieCell tieAid 0 tie_ready ring2 id _ hp hts hpl (lineAid_apart _ _) (lineAid_sorted _ _)
  obtain ⟨hsh, _⟩ := C17_shares hW id (fun l => .refl _) (by
    have : (tieCell.weightIn tieAid ring2).maxIdx.length = 2 := by decide +kernel
    rw [this]; norm_num)
  have hn : (tieCell.weightIn tieAid ring2).maxIdx.length = 2 := by decide +kernel
  intro v hv hm
  refine ⟨?_, fun b => ?_⟩
  · revert v; decide +kernel
  · by_cases hb : b < 2
    · revert v b; decide +kernel
    · have z : ∀ u < 5, shareOf (tieCell.weightIn tieAid ring2) id (ownLabel (tieCell.weightIn tieAid ring2).mask) [1, 3, 2, 4, 0] u b = 0 :=
        fun u hu => (hsh u hu rfl).2.1 b (by rw [hn]; omega)
      have hv5 : v < 5 := ((hW.sorted_mem v).mp hv).1
      have zv := z v hv5
      change shareOf _ _ (ownLabel (getMaxima _ _ _ _ _ _)) _ _ _ = _ at zv
      rw [zv, List.sum_eq_zero, zero_div]
      intro x hx
      obtain ⟨e, he, rfl⟩ := List.mem_map.mp hx
      have : ∀ v < 5, ∀ e ∈ fluxes (tieCell.weightIn tieAid ring2) v, e.1 < 5 := by decide +kernel
      have ze := z e.1 (this v hv5 e he)
      change shareOf _ _ (ownLabel (getMaxima _ _ _ _ _ _)) _ _ _ = _ at ze
      rw [ze, mul_zero]

/-- **C120** (negative part) The weight method may credit flux to a wrong basin (C19), depending on the order in which the sort puts voxels of the same value.
In the same crystal with voxel 0 before voxel 4 the atoms the mirror exchanges have charges 4/5 and 6/5, although everything else `C120_weight_partial` asks for holds. -/
theorem C120_weight : ∃ (G : RunInput ℚ) (A : RunAid ℚ) (sorted : List ℕ), OperatedBy (mirrorAt 4) G G ∧ RunReady G A 0 ∧ WeightParams G A ring2 id sorted ∧
    ring2.Perm (ring2.map fun t => ((mirrorAt 4).rot.mul t.1, t.2)) ∧ TwoSided G.nbrs ∧ G.Peaked ∧ A.Apart G ∧
    (∀ l, (A.sortMax l).Pairwise fun a b => G.ref b ≤ G.ref a) ∧ G.atoms.length = 2 ∧ OperAtoms (mirrorAt 4) G G A A (fun i => 1 - i) ∧
    (G.run A (.weight ring2 id sorted) 50).map (fun o => (List.range 2).map o.assignment.charges) = some [4 / 5, 6 / 5] := by
  refine ⟨tieCell, tieAid, [1, 3, 2, 0, 4], mirror_oper _ 4 (by decide) _ _ (by decide +kernel), tie_ready,
    tie_params _ (by decide) (by intro v; simp; omega) (by decide +kernel), by decide +kernel, by show TwoSided ring2; unfold TwoSided; decide, tie_peaked,
    lineAid_apart _ _, lineAid_sorted _ _, rfl, tie_atoms, by decide +kernel⟩

end BaderKit
