import Verif.Props.SymmetryWeight
/-!
# C19: when the weight method is right everywhere

The comparison at `weight_numba.py:230` reads a variable that an earlier loop left behind: the label of the neighbour that was looked at last for the lowest voxel.
If that neighbour is shared by several basins (the scan stops at the first such neighbour, or where two neighbours disagree), the variable is `-1`, which is the label of no basin; it only coincides with the entry of voxel number 0.
-/
set_option linter.unusedSectionVars false
namespace BaderKit
variable {K : Type} [Field K] [LinearOrder K] [IsStrictOrderedRing K]

/-! ## Specification -/

/-- A climb from `v` over higher facet neighbours, or to the steepest neighbour where there is none, ends at a maximum of the group of `r`. -/
inductive Climbs (W : WeightIn K) (labels0 : ℕ → ℤ) : ℕ → ℕ → Prop
  | top {v r : ℕ} : W.mask v = true → labels0 v = r → Climbs W labels0 v r
  | up {v r : ℕ} {e : ℕ × K} : W.mask v = false → e ∈ fluxes W v → Climbs W labels0 e.1 r → Climbs W labels0 v r
  | side {v r : ℕ} : W.mask v = false → fluxes W v = [] → Climbs W labels0 (bestNeighbor W.s W.ref W.all v).2 r → Climbs W labels0 v r

/-- Climbs from `v` end in more than one basin. -/
def SharedBy (W : WeightIn K) (labels0 : ℕ → ℤ) (v : ℕ) : Prop := ∃ r r', r ≠ r' ∧ Climbs W labels0 v r ∧ Climbs W labels0 v r'

/-! ## Lemmas -/

section
variable {W : WeightIn K} {vac : ℕ → Bool} {labels0 : ℕ → ℤ} {sorted : List ℕ}

theorem fluxes_nil {v : ℕ} : fluxes W v = [] ↔ higherVor W v = [] := by rw [fluxes_eq]; simp

/-- One step of a climb goes to an entry of the row of neighbours. -/
theorem climbs_step {v n r : ℕ} (hm : W.mask v = false) (hn : n ∈ weightNbrs W v) (h : Climbs W labels0 n r) : Climbs W labels0 v r := by
  unfold weightNbrs at hn
  simp only [hm, Bool.false_eq_true, if_false] at hn
  by_cases he : higherVor W v = []
  · rw [if_pos he, List.mem_singleton] at hn
    subst hn
    exact .side hm (fluxes_nil.mpr he) h
  · rw [if_neg he] at hn
    obtain ⟨t, ht, rfl⟩ := List.mem_map.mp hn
    exact .up (e := (nbr W.s v t.1, (W.ref (nbr W.s v t.1) - W.ref v) * t.2)) hm (by rw [fluxes_eq]; exact List.mem_map.mpr ⟨t, ht, rfl⟩) h

theorem flux_nbr {v : ℕ} {e : ℕ × K} (hm : W.mask v = false) (he : e ∈ fluxes W v) : e.1 ∈ weightNbrs W v := by
  have hne : higherVor W v ≠ [] := fun h => by rw [fluxes_nil.mpr h] at he; simp at he
  unfold weightNbrs
  simp only [hm, Bool.false_eq_true, if_false, if_neg hne]
  rw [fluxes_eq] at he
  obtain ⟨t, ht, rfl⟩ := List.mem_map.mp he
  exact List.mem_map.mpr ⟨t, ht, rfl⟩

theorem side_nbr {v : ℕ} (hm : W.mask v = false) (he : fluxes W v = []) : weightNbrs W v = [(bestNeighbor W.s W.ref W.all v).2] := by
  unfold weightNbrs
  simp only [hm, Bool.false_eq_true, if_false, if_pos (fluxes_nil.mp he)]

/-- From a voxel with a basin label all climbs end in that basin. -/
theorem inner_climbs (H : WeightInput W vac labels0 sorted) {log : List (ℕ × ℕ)} (h : IInv W labels0 0 sorted (interiorPhase W 0 labels0 sorted) log) {v r : ℕ}
    (hc : Climbs W labels0 v r) : v ∈ sorted → v ∉ (interiorPhase W 0 labels0 sorted).edges → (interiorPhase W 0 labels0 sorted).labels v = searchSorted W.maxIdx r := by
  have next : ∀ {v n : ℕ}, v ∈ sorted → v ∉ (interiorPhase W 0 labels0 sorted).edges → W.mask v = false → n ∈ weightNbrs W v →
      (n ∈ sorted ∧ n ∉ (interiorPhase W 0 labels0 sorted).edges) ∧ (interiorPhase W 0 labels0 sorted).labels n = (interiorPhase W 0 labels0 sorted).labels v := by
    intro v n hv he hm hn
    have e := h.inner v hv hm he n hn
    refine ⟨⟨((H.nbrs hv hm).2 n hn).1, fun hx => ?_⟩, e⟩
    obtain ⟨b, _, hb, _⟩ := h.lab_of_done hv he
    have := h.lab_edge H hx
    rw [e, hb] at this
    omega
  induction hc with
  | top hm hl =>
    intro hv he
    obtain ⟨b, hbl, hb, _⟩ := h.lab_of_done hv he
    obtain ⟨r', hr', e⟩ := h.log_max _ hbl hm
    dsimp only at hr' e
    rw [hl] at hr'
    obtain rfl := Int.natCast_inj.mp hr'
    rw [hb, e]
  | up hm hf _ ih =>
    intro hv he
    obtain ⟨⟨n1, n2⟩, n3⟩ := next hv he hm (flux_nbr hm hf)
    rw [← n3, ih n1 n2]
  | side hm hf _ ih =>
    intro hv he
    have hn := side_nbr hm hf
    obtain ⟨⟨n1, n2⟩, n3⟩ := next hv he hm (hn ▸ List.mem_singleton_self _)
    rw [← n3, ih n1 n2]

theorem climbs_idx (H : WeightInput W vac labels0 sorted) {v r : ℕ} (hc : Climbs W labels0 v r) : r ∈ W.maxIdx := by
  induction hc with
  | top hm hl => exact (H.idx_mem _).mpr ⟨_, hm, hl⟩
  | up _ _ _ ih => exact ih
  | side _ _ _ ih => exact ih

/-- Every voxel outside the vacuum has a climb. -/
theorem climbs_exists (H : WeightInput W vac labels0 sorted) : ∀ v ∈ sorted, ∃ r, Climbs W labels0 v r := by
  suffices h : ∀ (N v : ℕ), ((Finset.range W.s.size).filter fun u => W.ref v < W.ref u).card = N → v ∈ sorted → ∃ r, Climbs W labels0 v r from fun v => h _ v rfl
  intro N
  induction N using Nat.strong_induction_on with
  | _ N ih =>
    intro v hN hv
    by_cases hm : W.mask v = true
    · obtain ⟨r, hr, _⟩ := H.rep v hm
      exact ⟨r, .top hm hr⟩
    · have hm : W.mask v = false := by simpa using hm
      obtain ⟨h1, h2⟩ := H.nbrs hv hm
      obtain ⟨n, hn⟩ := List.exists_mem_of_ne_nil _ h1
      obtain ⟨n1, n2⟩ := h2 n hn
      obtain ⟨r, hr⟩ := ih _ (by
        rw [← hN]
        refine Finset.card_lt_card ⟨?_, ?_⟩
        · intro u hu
          simp only [Finset.mem_filter] at hu ⊢
          exact ⟨hu.1, n2.trans hu.2⟩
        · intro hsub
          have := hsub (Finset.mem_filter.mpr ⟨Finset.mem_range.mpr ((H.sorted_mem n).mp n1).1, n2⟩)
          simp at this) n rfl n1
      exact ⟨r, climbs_step hm hn hr⟩

/-- The voxels left without a basin by the first loop are those shared by several basins. -/
theorem edge_shared (H : WeightInput W vac labels0 sorted) : ∀ v ∈ sorted, v ∈ (interiorPhase W 0 labels0 sorted).edges ↔ SharedBy W labels0 v := by
  obtain ⟨log, h⟩ := interiorPhase_inv H (0 : ℕ → K)
  intro v hv
  constructor
  · suffices key : ∀ (N v : ℕ), ((Finset.range W.s.size).filter fun u => W.ref v < W.ref u).card = N → v ∈ sorted →
        v ∈ (interiorPhase W 0 labels0 sorted).edges → SharedBy W labels0 v from key _ v rfl hv
    intro N
    induction N using Nat.strong_induction_on with
    | _ N ih =>
      intro v hN hv he
      have hm := h.edges_max v he
      obtain ⟨h1, h2⟩ := H.nbrs hv hm
      have lower : ∀ n ∈ weightNbrs W v, n ∈ (interiorPhase W 0 labels0 sorted).edges → SharedBy W labels0 v := by
        intro n hn hne
        obtain ⟨n1, n2⟩ := h2 n hn
        obtain ⟨r, r', hr, c1, c2⟩ := ih _ (by
          rw [← hN]
          refine Finset.card_lt_card ⟨?_, ?_⟩
          · intro u hu
            simp only [Finset.mem_filter] at hu ⊢
            exact ⟨hu.1, n2.trans hu.2⟩
          · intro hsub
            have := hsub (Finset.mem_filter.mpr ⟨Finset.mem_range.mpr ((H.sorted_mem n).mp n1).1, n2⟩)
            simp at this) n rfl n1 hne
        exact ⟨r, r', hr, climbs_step hm hn c1, climbs_step hm hn c2⟩
      obtain ⟨n, hn⟩ := List.exists_mem_of_ne_nil _ h1
      by_cases hne : n ∈ (interiorPhase W 0 labels0 sorted).edges
      · exact lower n hn hne
      obtain ⟨r, hr⟩ := climbs_exists H n (h2 n hn).1
      have e1 := inner_climbs H h hr (h2 n hn).1 hne
      obtain ⟨n', hn', hd⟩ := h.outer v he (searchSorted W.maxIdx r)
      by_cases hne' : n' ∈ (interiorPhase W 0 labels0 sorted).edges
      · exact lower n' hn' hne'
      obtain ⟨r', hr'⟩ := climbs_exists H n' (h2 n' hn').1
      have e2 := inner_climbs H h hr' (h2 n' hn').1 hne'
      exact ⟨r, r', fun e => hd (by rw [e2, e]), climbs_step hm hn hr, climbs_step hm hn' hr'⟩
  · rintro ⟨r, r', hne, c1, c2⟩
    by_contra he
    have e1 := inner_climbs H h c1 hv he
    have e2 := inner_climbs H h c2 hv he
    obtain ⟨_, g1⟩ := searchSorted_lt H.idx_sorted (climbs_idx H c1)
    obtain ⟨_, g2⟩ := searchSorted_lt H.idx_sorted (climbs_idx H c2)
    have e : searchSorted W.maxIdx r = searchSorted W.maxIdx r' := by exact_mod_cast e1.symm.trans e2
    exact hne (by rw [← g1, ← g2]; simp only [e])

/-- The scan stops with `-1` at a neighbour without a basin if those before it are in one basin. -/
theorem interiorScan_none (labels : ℕ → ℤ) (n : ℕ) (ns : List ℕ) (b : ℤ) (hb : b ≠ -1) (hn : labels n = -1) : ∀ (pre : List ℕ) (best lab : ℤ),
    (∀ m ∈ pre, labels m = b) → best = -1 ∨ best = b → interiorScan labels (pre ++ n :: ns) best lab = (-1, -1) := by
  intro pre
  induction pre with
  | nil => intro best lab _ _; rw [List.nil_append, interiorScan, if_pos hn, hn]
  | cons m pre ih =>
    intro best lab hp hbest
    have hm := hp m (List.mem_cons_self ..)
    rw [List.cons_append, interiorScan, if_neg (by rw [hm]; exact hb), if_neg (by
      rintro ⟨h1, h2⟩
      rcases hbest with h | h
      · exact h2 h
      · exact h1 (hm.trans h.symm))]
    exact ih _ _ (fun x hx => hp x (List.mem_cons_of_mem _ hx)) (Or.inr hm)

/-- If the row of the voxel visited last has a shared entry, and the entries before it belong to one basin, no label is left over. -/
theorem leftover_none (H : WeightInput W vac labels0 sorted) {l : List ℕ} {u n r : ℕ} {pre ns : List ℕ} (hs : sorted = l ++ [u])
    (hn : weightNbrs W u = pre ++ n :: ns) (hpre : ∀ m ∈ pre, ¬ SharedBy W labels0 m ∧ Climbs W labels0 m r) (hsh : SharedBy W labels0 n) :
    leftover W labels0 sorted = -1 := by
  obtain ⟨log, h⟩ := interiorPhase_inv H (0 : ℕ → K)
  have hu : u ∈ sorted := by rw [hs]; simp
  have hm : W.mask u = false := by
    by_contra hc
    rw [weightNbrs_max (by simpa using hc)] at hn
    simp at hn
  have hrow : weightNbrs W u ≠ [] := by rw [hn]; simp
  have hfin : interiorPhase W 0 labels0 sorted = interiorStep W 0 (interiorPhase W 0 labels0 l) u := by
    rw [hs]; unfold interiorPhase; rw [List.foldl_append]; rfl
  have same : ∀ m ∈ weightNbrs W u, (interiorPhase W 0 labels0 l).labels m = (interiorPhase W 0 labels0 sorted).labels m := by
    intro m hmem
    have hne : m ≠ u := fun e => by have := ((H.nbrs hu hm).2 m hmem).2; rw [e] at this; exact lt_irrefl _ this
    rw [hfin]
    unfold interiorStep
    rw [if_pos hrow]
    dsimp only
    split
    · simp [creditVoxel, Function.update_of_ne hne]
    · rfl
  have hmem : n ∈ weightNbrs W u := by rw [hn]; simp
  have hlab : (interiorPhase W 0 labels0 l).labels n = -1 := by
    rw [same n hmem]
    exact h.lab_edge H ((edge_shared H n ((H.nbrs hu hm).2 n hmem).1).mpr hsh)
  have hlabs : ∀ m ∈ pre, (interiorPhase W 0 labels0 l).labels m = searchSorted W.maxIdx r := by
    intro m hp
    have hmm : m ∈ weightNbrs W u := by rw [hn]; simp [hp]
    have h1 := ((H.nbrs hu hm).2 m hmm).1
    rw [same m hmm]
    exact inner_climbs H h (hpre m hp).2 h1 fun he => (hpre m hp).1 ((edge_shared H m h1).mp he)
  unfold leftover
  rw [hfin]
  unfold interiorStep
  rw [if_pos hrow, hn, interiorScan_none _ n ns _ (by omega) hlab pre (-1) _ hlabs (Or.inl rfl)]
  simp

end

/-! ## Theorems -/

section
variable {W : WeightIn K} {vac : ℕ → Bool} {labels0 : ℕ → ℤ} {sorted : List ℕ}

/-- **C19** (partial) The flux equations hold at every voxel with a higher facet neighbour, if a higher facet neighbour of the voxel visited last is shared by several
basins and the ones listed before it belong to one basin, voxel number 0 is not shared, and shares are stored without loss (at most 26 per voxel, none below 1e-30).  Missing: other grids, where they can
fail (`C19_flux_wrong`, `C19_voxel_zero`). -/
theorem C19_everywhere_partial (H : WeightInput W vac labels0 sorted) (argsortW : List (ℕ × K) → List (ℕ × K)) (ha : ∀ l, (argsortW l).Perm l)
    (hB : W.maxIdx.length ≤ 10 ^ 30) (l : List ℕ) (u r : ℕ) (pre : List (ℕ × K)) (e : ℕ × K) (es : List (ℕ × K)) (hs : sorted = l ++ [u]) (hu : W.mask u = false)
    (he : fluxes W u = pre ++ e :: es) (hpre : ∀ p ∈ pre, ¬ SharedBy W labels0 p.1 ∧ Climbs W labels0 p.1 r)
    (hsh : SharedBy W labels0 e.1) (h0 : vac 0 = true ∨ ¬ SharedBy W labels0 0) (hst : ∀ v ∈ sorted, Storable W.maxIdx.length (shareOf W argsortW labels0 sorted v))
    (v : ℕ) (hv : v ∈ sorted) (hm : W.mask v = false) (hf : fluxes W v ≠ []) : FluxEq W (shareOf W argsortW labels0 sorted) v := by
  obtain ⟨log, h⟩ := interiorPhase_inv H (0 : ℕ → K)
  have hrow : weightNbrs W u = pre.map Prod.fst ++ e.1 :: es.map Prod.fst := by
    have hne : higherVor W u ≠ [] := fun h => by rw [fluxes_nil.mpr h] at he; simp at he
    unfold weightNbrs
    simp only [hu, Bool.false_eq_true, if_false, if_neg hne]
    have := congrArg (List.map Prod.fst) he
    rw [fluxes_eq, List.map_map] at this
    simpa [Function.comp_def] using this
  have hleft := leftover_none H hs hrow (fun m hm => by obtain ⟨p, hp, rfl⟩ := List.mem_map.mp hm; exact hpre p hp) hsh
  refine C19_flux_partial H argsortW ha hB v hv hm hf fun _ => ⟨?_, fun e he => hst _ ((H.nbrs hv hm).2 _ (flux_nbr hm he)).1⟩
  intro l1 e' l2 hl e1 he1 hcode
  exfalso
  rw [hleft] at hcode
  have hmem : e1 ∈ fluxes W v := by rw [hl]; simp [he1]
  have hes := ((H.nbrs hv hm).2 _ (flux_nbr hm hmem)).1
  unfold codeOf at hcode
  by_cases hx : (interiorPhase W 0 labels0 sorted).labels e1.1 = -1
  · rw [if_pos hx] at hcode
    have hz : e1.1 = 0 := by omega
    rw [hz] at hes hx
    have hedge : 0 ∈ (interiorPhase W 0 labels0 sorted).edges := by
      by_contra hno
      obtain ⟨b, _, hb, _⟩ := h.lab_of_done hes hno
      rw [hb] at hx
      omega
    rcases h0 with h0 | h0
    · rw [((H.sorted_mem 0).mp hes).2] at h0; simp at h0
    · exact h0 ((edge_shared H 0 hes).mp hedge)
  · rw [if_neg hx] at hcode
    exact hx hcode

/-- **C19** (partial) So a run of the weight method whose maxima stand for themselves meets the hypotheses of `C116_weight_partial`, `C119_weight_partial` and `C120_weight_partial`,
if a higher facet neighbour of the voxel visited last is shared by several basins and those listed before it belong to one, voxel number 0 is not shared, every voxel that is no maximum has a higher facet
neighbour, and shares are stored without loss. -/
theorem C19_ready_partial [FloorRing K] (G : RunInput K) (A : RunAid K) (ε : K) (H : RunReady G A ε) (vor : List (Coord × K)) (argsortW : List (ℕ × K) → List (ℕ × K))
    (sorted : List ℕ) (P : WeightParams G A vor argsortW sorted) (hs : TwoSided G.nbrs) (hP : G.NoPlateau) (hA : A.Apart G)
    (hsrt : ∀ l, (A.sortMax l).Pairwise fun a b => G.ref b ≤ G.ref a) :
    let W := G.weightIn A vor
    let labels0 := ownLabel W.mask
    (∃ (l : List ℕ) (u r : ℕ) (pre : List (ℕ × K)) (e : ℕ × K) (es : List (ℕ × K)), sorted = l ++ [u] ∧ W.mask u = false ∧ fluxes W u = pre ++ e :: es ∧
      (∀ p ∈ pre, ¬ SharedBy W labels0 p.1 ∧ Climbs W labels0 p.1 r) ∧ SharedBy W labels0 e.1) →
    (G.vacuum 0 = true ∨ ¬ SharedBy W labels0 0) → (∀ v ∈ sorted, W.mask v = false → fluxes W v ≠ []) →
    (∀ v ∈ sorted, Storable W.maxIdx.length (shareOf W argsortW labels0 sorted v)) →
    WeightReady G A vor argsortW sorted := by
  rintro W labels0 ⟨l, u, r, pre, e, es, h1, h2, h3, h3', h4⟩ h0 hf hst
  obtain ⟨_, _, _, hW, _⟩ := weight_own G A ε H vor argsortW sorted P hs hP hA hsrt
  exact ⟨P, fun v hv hm => ⟨hf v hv hm, C19_everywhere_partial hW argsortW P.perm
    ((show (maximaVox G.shape _).length < 10 ^ 6 from P.count).le.trans (by norm_num)) l u r pre e es h1 h2 h3 h3' h4 h0 hst v hv hm (hf v hv hm)⟩⟩

end

/-! ## Layers of three by three voxels -/

/-- The four neighbours in a layer. -/
def plane4 : List (Coord × ℚ) := [((1, 0, 0), 1), ((-1, 0, 0), 1), ((0, 1, 0), 1), ((0, -1, 0), 1)]

/-- The maxima of a layer. -/
def planeMask (l : List ℚ) : ℕ → Bool := getMaxima ⟨3, 3, 1⟩ (fun v => l.getD v 0) (plane4.map Prod.fst) (fun _ => false) false (List.range 9)

/-- The weight method on a layer with the given values. -/
def planeW (l : List ℚ) : WeightIn ℚ := ⟨⟨3, 3, 1⟩, fun v => l.getD v 0, plane4, plane4, planeMask l, maximaVox ⟨3, 3, 1⟩ (planeMask l)⟩

theorem plane_input (l : List ℚ) (sorted : List ℕ) (h1 : sorted.Nodup) (h2 : ∀ v, v ∈ sorted ↔ v < 9) (h3 : sorted.Pairwise fun a b => l.getD b 0 ≤ l.getD a 0) :
    WeightInput (planeW l) (fun _ => false) (ownLabel (planeMask l)) sorted := by
  have hf : ∀ t ∈ plane4, StepFits ⟨3, 3, 1⟩ t.1 := by unfold StepFits; decide
  have hp : ∀ t ∈ plane4, (0 : ℚ) < t.2 := by decide +kernel
  have hM := marksMaxima_getMaxima ⟨3, 3, 1⟩ (fun v => l.getD v 0) (plane4.map Prod.fst) (fun _ => false) (List.range 9) (List.Perm.refl _)
    (fun t ht => by obtain ⟨td, h, rfl⟩ := List.mem_map.mp ht; exact hf td h)
  refine ⟨hf, hp, hf, hp, hM, fun _ _ _ _ _ _ => rfl, fun _ _ _ _ _ _ => rfl, ?_, ?_, ?_, ?_, h1, fun v => ?_, h3⟩
  · intro v h
    have h : planeMask l v = false := h
    simp [ownLabel, h]
  · intro v h
    exact ⟨v, by unfold ownLabel; exact if_pos h, h, by unfold ownLabel; exact if_pos h⟩
  · exact List.Pairwise.filter _ (List.pairwise_lt_range)
  · intro r
    show r ∈ maximaVox _ _ ↔ _
    rw [mem_maximaVox]
    constructor
    · rintro ⟨_, h⟩
      exact ⟨r, h, by unfold ownLabel; exact if_pos h⟩
    · rintro ⟨v, h, h'⟩
      have hv : planeMask l v = true := h
      rw [ownLabel, if_pos hv] at h'
      obtain rfl := Int.natCast_inj.mp h'
      exact ⟨((hM v).mp hv).1, hv⟩
  · rw [h2]
    exact ⟨fun h => ⟨h, rfl⟩, fun h => h.1⟩

theorem plane_storable (l : List ℚ) (sorted : List ℕ) (H : WeightInput (planeW l) (fun _ => false) (ownLabel (planeMask l)) sorted)
    (h : ∀ v < 9, ∀ b < 9, shareOf (planeW l) id (ownLabel (planeMask l)) sorted v b = 0 ∨ 1 / 10 ^ 30 ≤ shareOf (planeW l) id (ownLabel (planeMask l)) sorted v b) :
    ∀ v ∈ sorted, Storable (planeW l).maxIdx.length (shareOf (planeW l) id (ownLabel (planeMask l)) sorted v) := by
  have hlen : (planeW l).maxIdx.length ≤ 9 := (List.length_filter_le _ _).trans (by decide)
  obtain ⟨hs, _⟩ := C17_shares H id (fun l => .refl _) (hlen.trans (by norm_num))
  intro v hv
  have hv9 := ((H.sorted_mem v).mp hv).1
  refine ⟨(numShares_le _ _).trans (hlen.trans (by norm_num)), fun b => ?_⟩
  by_cases hb : b < 9
  · exact h v hv9 b hb
  · exact Or.inl ((hs v hv9 rfl).2.1 b (hlen.trans (not_lt.mp hb)))

/-- The layer `5 3 4 / 4 3 1 / 3 4 0` meets the hypotheses of `C19_everywhere_partial`: voxel 8 comes last, its first higher neighbour 2 belongs to voxel 0 alone, the second one,
voxel 5, is shared by the basins of voxels 0 and 7, and voxel 0 is a maximum. -/
example : let l : List ℚ := [5, 3, 4, 4, 3, 1, 3, 4, 0]
    let sorted := [0, 2, 3, 7, 1, 4, 6, 5, 8]
    WeightInput (planeW l) (fun _ => false) (ownLabel (planeMask l)) sorted ∧ planeMask l 8 = false ∧ fluxes (planeW l) 8 = [(2, 4)] ++ (5, 1) :: [(6, 3), (7, 4)] ∧
    (¬ SharedBy (planeW l) (ownLabel (planeMask l)) 2 ∧ Climbs (planeW l) (ownLabel (planeMask l)) 2 0) ∧
    SharedBy (planeW l) (ownLabel (planeMask l)) 5 ∧ ¬ SharedBy (planeW l) (ownLabel (planeMask l)) 0 ∧
    (∀ v ∈ sorted, Storable (planeW l).maxIdx.length (shareOf (planeW l) id (ownLabel (planeMask l)) sorted v)) ∧
    (List.range 2).map (shareOf (planeW l) id (ownLabel (planeMask l)) sorted 8) = [19 / 32, 13 / 32] := by
  intro l sorted
  have H : WeightInput (planeW l) (fun _ => false) (ownLabel (planeMask l)) sorted := plane_input l sorted (by decide)
    (fun v => ⟨fun h => (show ∀ v ∈ sorted, v < 9 by decide) v h, fun h => (show ∀ v < 9, v ∈ sorted by decide) v h⟩) (by decide +kernel)
  have no : ∀ v ∈ sorted, v ∉ (interiorPhase (planeW l) 0 (ownLabel (planeMask l)) sorted).edges → ¬ SharedBy (planeW l) (ownLabel (planeMask l)) v :=
    fun v hv h h' => h ((edge_shared H v hv).mpr h')
  refine ⟨H, by decide +kernel, by decide +kernel, ⟨no 2 (by decide) (by decide +kernel), ?_⟩, (edge_shared H 5 (by decide)).mp (by decide +kernel),
    no 0 (by decide) (by decide +kernel), plane_storable l sorted H (by decide +kernel), by decide +kernel⟩
  exact .up (e := (0, 1)) (by decide +kernel) (by decide +kernel) (.top (by decide +kernel) (by decide +kernel))

/-- **C19** (negative part) The condition on voxel number 0 is needed: on the layer `2 5 6 / 4 2 3 / 1 4 5` no label is left over, but voxel 0 is shared, and all the flux from
voxel 6 is credited to the entry of voxel 0.  Voxel 6 has the shares 7/9 and 2/9 of voxel 0, where the flux equation asks for 70/99 and 29/99. -/
theorem C19_voxel_zero : ∃ (W : WeightIn ℚ) (vac : ℕ → Bool) (labels0 : ℕ → ℤ) (l : List ℕ) (u : ℕ) (e : ℕ × ℚ) (es : List (ℕ × ℚ)),
    WeightInput W vac labels0 (l ++ [u]) ∧ W.mask u = false ∧ fluxes W u = e :: es ∧ SharedBy W labels0 0 ∧ e.1 = 0 ∧
    (∀ v ∈ l ++ [u], Storable W.maxIdx.length (shareOf W id labels0 (l ++ [u]) v)) ∧
    (List.range 2).map (shareOf W id labels0 (l ++ [u]) u) = [7 / 9, 2 / 9] ∧
    (List.range 2).map (fun b => ((fluxes W u).map fun e => e.2 * shareOf W id labels0 (l ++ [u]) e.1 b).sum / ((fluxes W u).map Prod.snd).sum) = [70 / 99, 29 / 99] := by
  have H : WeightInput (planeW [2, 5, 6, 4, 2, 3, 1, 4, 5]) (fun _ => false) (ownLabel (planeMask [2, 5, 6, 4, 2, 3, 1, 4, 5])) [2, 1, 8, 3, 7, 5, 0, 4, 6] :=
    plane_input _ _ (by decide)
      (fun v => ⟨fun h => (show ∀ v ∈ [2, 1, 8, 3, 7, 5, 0, 4, 6], v < 9 by decide) v h, fun h => (show ∀ v < 9, v ∈ [2, 1, 8, 3, 7, 5, 0, 4, 6] by decide) v h⟩)
      (by decide +kernel)
  exact ⟨planeW [2, 5, 6, 4, 2, 3, 1, 4, 5], fun _ => false, ownLabel (planeMask [2, 5, 6, 4, 2, 3, 1, 4, 5]), [2, 1, 8, 3, 7, 5, 0, 4], 6, (0, 1), [(3, 3), (7, 3), (8, 4)], H,
    by decide +kernel, by decide +kernel, (edge_shared H 0 (by decide)).mp (by decide +kernel), rfl, plane_storable _ _ H (by decide +kernel), by decide +kernel,
    by decide +kernel⟩

/-- A run on the layer `4 3 1 / 5 3 4 / 3 4 0`. -/
def planeRun : RunInput ℚ := ⟨⟨3, 3, 1⟩, fun v => [4, 3, 1, 5, 3, 4, 3, 4, 0].getD v 0, fun v => [4, 3, 1, 5, 3, 4, 3, 4, 0].getD v 0, plane4,
  ((3, 0, 0), (0, 3, 0), (0, 0, 1)), 9, [(0, 0, 0)], none, true⟩

/-- It meets the hypotheses of `C19_ready_partial`, and so its shares solve the flux equations. -/
example : ∃ (A : RunAid ℚ) (sorted : List ℕ), RunReady planeRun A 0 ∧ WeightReady planeRun A plane4 id sorted := by
  let l : List ℚ := [4, 3, 1, 5, 3, 4, 3, 4, 0]
  let sorted := [3, 0, 5, 7, 1, 4, 6, 2, 8]
  have hf : ∀ t ∈ plane4, StepFits ⟨3, 3, 1⟩ t.1 := by unfold StepFits; decide
  have hp : ∀ t ∈ plane4, (0 : ℚ) < t.2 := by decide +kernel
  have hr : RunReady planeRun (lineAid l fun _ _ => false) 0 := ⟨by decide, by simp [planeRun], hf, hp, Or.inl rfl, .refl _, fun m => List.perm_insertionSort _ _,
    fun x => by simp [lineAid]⟩
  have hmem : ∀ v, v ∈ sorted ↔ v < 9 := fun v => ⟨fun h => (show ∀ v ∈ sorted, v < 9 by decide) v h, fun h => (show ∀ v < 9, v ∈ sorted by decide) v h⟩
  have H : WeightInput (planeW l) (fun _ => false) (ownLabel (planeMask l)) sorted := plane_input l sorted (by decide) hmem (by decide +kernel)
  refine ⟨lineAid l fun _ _ => false, sorted, hr, C19_ready_partial planeRun _ 0 hr plane4 id sorted
    ⟨hf, hp, fun _ => .refl _, by decide, fun v => (hmem v).trans ⟨fun h => ⟨h, rfl⟩, fun h => h.1⟩, by decide +kernel, by show 9 ≤ 10 ^ 30; norm_num,
      lt_of_le_of_lt (List.length_filter_le _ _) (by rw [List.length_range]; decide)⟩
    (by show TwoSided plane4; unfold TwoSided; decide) ?_ (lineAid_apart _ _) (lineAid_sorted _ _)
    ⟨[3, 0, 5, 7, 1, 4, 6, 2], 8, 0, [], (2, 1), [(5, 4), (6, 3), (7, 4)], rfl, by decide +kernel, by decide +kernel, by simp, (edge_shared H 2 (by decide)).mp (by decide +kernel)⟩ (Or.inr ?_)
    (by decide +kernel) (plane_storable l sorted H (by decide +kernel))⟩
  · intro v w hv hw _
    have key : ∀ v < 9, (∀ t ∈ plane4.map Prod.fst, planeRun.ref (nbr ⟨3, 3, 1⟩ v t) ≤ planeRun.ref v) →
      ∀ t ∈ plane4.map Prod.fst, planeRun.ref (nbr ⟨3, 3, 1⟩ v t) < planeRun.ref v := by decide +kernel
    obtain ⟨t, ht, rfl⟩ := (isNbr_iff (fitsOf hr.fits) hv.1).mp hw
    exact key v hv.1 (fun t ht => hv.2.2 _ ((isNbr_iff (fitsOf hr.fits) hv.1).mpr ⟨t, ht, rfl⟩)) t ht
  · intro h
    have := (edge_shared H 0 (by decide)).mpr h
    revert this
    decide +kernel

end BaderKit
