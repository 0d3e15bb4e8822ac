import Verif.Props.Weight
import Verif.Props.Ongrid
/-! # Properties C16 (weight method), C18 and C19 -/
set_option linter.unusedSectionVars false
namespace BaderKit
open Function
variable {K : Type*} [Field K] [LinearOrder K] [IsStrictOrderedRing K]
variable {W : WeightIn K} {vac : ℕ → Bool} {labels0 : ℕ → ℤ} {sorted : List ℕ}

/-- Number of basins below `B` with a positive share. -/
def numShares (B : ℕ) (w : ℕ → K) : ℕ := ((Finset.range B).filter fun b => 0 < w b).card

/-- The shares of a voxel are stored without loss: at most 26 basins, none with a tiny share. -/
def Storable (B : ℕ) (w : ℕ → K) : Prop :=
  numShares B w ≤ 26 ∧ ∀ b, w b = 0 ∨ 1 / 10 ^ 30 ≤ w b

theorem numShares_le (B : ℕ) (w : ℕ → K) : numShares B w ≤ B := by
  unfold numShares
  exact (Finset.card_filter_le _ _).trans_eq (Finset.card_range B)

theorem RowsOK.prefix {B : ℕ} {l1 l2 : List ℕ} {row : ℕ → List (K × ℤ)}
    (h : RowsOK B (l1 ++ l2) row) : RowsOK B l1 row :=
  ⟨fun u hu => h.pos u (by simp [hu]), fun u hu => h.sum u (by simp [hu]),
    fun u hu => h.lt u (by simp [hu]), fun a u b hl => h.ref a u (b ++ l2) (by simp [hl])⟩

theorem gather_length {B : ℕ} {stored : ℕ → List (ℕ × K)} {row : List (K × ℤ)}
    (h : RowOK B stored row) : (gather stored row).2.length = numShares B (gather stored row).1 := by
  obtain ⟨_, g2, g3, g4, _⟩ := h.gather
  unfold numShares
  rw [← List.toFinset_card_of_nodup g4]
  congr 1
  ext b
  rw [List.mem_toFinset, Finset.mem_filter, Finset.mem_range, g2]
  exact ⟨fun h => ⟨g3 b ((g2 b).mpr h), h⟩, fun h => h.2⟩

/-- Everything about the final state at an edge voxel. -/
theorem weight_edge (H : WeightInput W vac labels0 sorted)
    {argsortW : List (ℕ × K) → List (ℕ × K)} (ha : ∀ l, (argsortW l).Perm l)
    (hB : W.maxIdx.length ≤ 10 ^ 30) (chg : ℕ → K) :
    (∀ v ∈ (interiorPhase W chg labels0 sorted).edges,
      (∀ b, wShare W argsortW labels0 sorted v b =
        (gather (weightAssign W chg argsortW labels0 sorted).stored
          (fluxRow W (interiorPhase W chg labels0 sorted).labels
            (interiorPhase W chg labels0 sorted).stale v)).1 b) ∧
      (Storable W.maxIdx.length (wShare W argsortW labels0 sorted v) →
        ∀ b, pairSum ((weightAssign W chg argsortW labels0 sorted).stored v) b =
          wShare W argsortW labels0 sorted v b) ∧
      (W.maxIdx.length < 10 ^ 6 → ∃ l : ℕ, (weightAssign W chg argsortW labels0 sorted).labels v = l ∧
        l < W.maxIdx.length ∧ 0 < wShare W argsortW labels0 sorted v l ∧
        (Storable W.maxIdx.length (wShare W argsortW labels0 sorted v) →
          ∀ b, wShare W argsortW labels0 sorted v b ≤
            wShare W argsortW labels0 sorted v l + 2 * (1 / 10 ^ 6)))) ∧
    (∀ v ∉ (interiorPhase W chg labels0 sorted).edges,
      (weightAssign W chg argsortW labels0 sorted).labels v =
        (interiorPhase W chg labels0 sorted).labels v) := by
  obtain ⟨log, h⟩ := interiorPhase_inv H chg
  obtain ⟨_, _, w3, w4⟩ := weight_run H ha hB chg
  have hend : (interiorPhase W chg labels0 sorted).edges.Nodup := H.sorted_nodup.sublist h.edges_sub
  obtain ⟨p1, p2, _⟩ := edgePhase_spec (W := W) ha hB chg
    (fluxRow W (interiorPhase W chg labels0 sorted).labels (interiorPhase W chg labels0 sorted).stale)
    ⟨(interiorPhase W chg labels0 sorted).labels, (interiorPhase W chg labels0 sorted).charges,
      (interiorPhase W chg labels0 sorted).volumes, (interiorPhase W chg labels0 sorted).charges,
      fun _ => []⟩ _ hend (rowsOK H chg)
  refine ⟨?_, p2⟩
  intro v hv
  obtain ⟨_, q2, _, q4, q5⟩ := p1 v hv
  have hw := w3 v hv
  have hfun : wShare W argsortW labels0 sorted v = (gather (weightAssign W chg argsortW labels0 sorted).stored
          (fluxRow W (interiorPhase W chg labels0 sorted).labels
            (interiorPhase W chg labels0 sorted).stale v)).1 := funext hw
  have hlen := gather_length q2
  refine ⟨hw, ?_, ?_⟩
  · rw [hfun]
    rintro ⟨s1, s2⟩
    exact q4 (hlen ▸ s1) s2
  · intro hB6
    obtain ⟨l, l1, l2, l3, l4⟩ := q5 hB6
    rw [hfun]
    refine ⟨l, l1, l2, l3, ?_⟩
    rintro ⟨s1, s2⟩
    exact l4 (hlen ▸ s1) s2

/-- **C18** Labels.  With fewer than a million basins every voxel outside the vacuum ends with the index
of a basin in which it has a positive share; when its shares are stored without loss (at most 26 basins,
no share below `1e-30`) that share is the largest up to twice the tolerance `1e-6`.  Vacuum voxels
keep the label `-1`. -/
theorem C18_labels (H : WeightInput W vac labels0 sorted)
    (argsortW : List (ℕ × K) → List (ℕ × K)) (ha : ∀ l, (argsortW l).Perm l)
    (hB : W.maxIdx.length < 10 ^ 6) (chg : ℕ → K) :
    (∀ v < W.s.size, vac v = false →
      ∃ l : ℕ, (weightAssign W chg argsortW labels0 sorted).labels v = l ∧ l < W.maxIdx.length ∧
        0 < shareOf W argsortW labels0 sorted v l ∧
        (Storable W.maxIdx.length (shareOf W argsortW labels0 sorted v) →
          ∀ b, shareOf W argsortW labels0 sorted v b ≤
            shareOf W argsortW labels0 sorted v l + 2 * (1 / 10 ^ 6))) ∧
    (∀ v, vac v = true → (weightAssign W chg argsortW labels0 sorted).labels v = -1) := by
  have hB' : W.maxIdx.length ≤ 10 ^ 30 := hB.le.trans (by norm_num)
  obtain ⟨log, h⟩ := interiorPhase_inv H chg
  obtain ⟨e1, e2⟩ := weight_edge H ha hB' chg
  obtain ⟨_, _, _, w4⟩ := weight_run H ha hB' chg
  constructor
  · intro v hv hvv
    have hvs := (H.sorted_mem v).mpr ⟨hv, hvv⟩
    have hfun : shareOf W argsortW labels0 sorted v = wShare W argsortW labels0 sorted v :=
      funext (shareOf_eq H ha hB' hvs)
    rw [hfun]
    by_cases he : v ∈ (interiorPhase W chg labels0 sorted).edges
    · exact (e1 v he).2.2 hB
    · obtain ⟨c, _, hc, hcB⟩ := h.lab_of_done hvs he
      refine ⟨c, by rw [e2 v he, hc], hcB, by rw [w4 v he, hc]; simp, ?_⟩
      intro _ b
      rw [w4 v he, w4 v he, hc, if_pos rfl]
      have : (0 : K) ≤ 2 * (1 / 10 ^ 6) := by positivity
      split_ifs <;> linarith
  · intro v hv
    have hns : v ∉ sorted := fun hc => by have := ((H.sorted_mem v).mp hc).2; rw [hv] at this; simp at this
    have hm : W.mask v = false := by
      cases hm : W.mask v with
      | false => rfl
      | true => have := ((H.maxima v).mp hm).2.1; rw [hv] at this; simp at this
    rw [e2 v (fun hc => hns (h.edges_sub.subset hc)), h.rest v, H.other v hm]
    intro hc
    rcases (h.log_mem v).mp hc with hc | hc
    · exact hns hc.1
    · have := (h.added_ok v hc).1; rw [hm] at this; simp at this

/-- **C18** Order.  When an edge voxel is processed, every voxel it receives weights from (the higher
facet neighbours, or the steepest neighbour if there is none) already carries a basin index. -/
theorem C18_order (H : WeightInput W vac labels0 sorted)
    (argsortW : List (ℕ × K) → List (ℕ × K)) (ha : ∀ l, (argsortW l).Perm l)
    (hB : W.maxIdx.length < 10 ^ 6) (chg : ℕ → K) (l1 l2 : List ℕ) (v : ℕ)
    (hl : (interiorPhase W chg labels0 sorted).edges = l1 ++ v :: l2) :
    ∀ n, (n ∈ (fluxes W v).map Prod.fst ∨
        (fluxes W v = [] ∧ n = (bestNeighbor W.s W.ref W.all v).2)) →
      ∃ l : ℕ, l < W.maxIdx.length ∧
        (l1.foldl (edgeStep W chg argsortW (fluxRow W (interiorPhase W chg labels0 sorted).labels
            (interiorPhase W chg labels0 sorted).stale))
          ⟨(interiorPhase W chg labels0 sorted).labels, (interiorPhase W chg labels0 sorted).charges,
            (interiorPhase W chg labels0 sorted).volumes, (interiorPhase W chg labels0 sorted).charges,
            fun _ => []⟩).labels n = l := by
  have hB' : W.maxIdx.length ≤ 10 ^ 30 := hB.le.trans (by norm_num)
  obtain ⟨log, h⟩ := interiorPhase_inv H chg
  have hend : (l1 ++ v :: l2).Nodup := hl ▸ H.sorted_nodup.sublist h.edges_sub
  have hrows := rowsOK H chg
  obtain ⟨p1, p2, _⟩ := edgePhase_spec (W := W) ha hB' chg
    (fluxRow W (interiorPhase W chg labels0 sorted).labels (interiorPhase W chg labels0 sorted).stale)
    ⟨(interiorPhase W chg labels0 sorted).labels, (interiorPhase W chg labels0 sorted).charges,
      (interiorPhase W chg labels0 sorted).volumes, (interiorPhase W chg labels0 sorted).charges,
      fun _ => []⟩ l1 (List.nodup_append.mp hend).1 (RowsOK.prefix (hl ▸ hrows))
  have hve : v ∈ (interiorPhase W chg labels0 sorted).edges := by rw [hl]; simp
  have hvs := h.edges_sub.subset hve
  have hm := h.edges_max v hve
  intro n hn
  have hn' : n ∈ weightNbrs W v := by
    unfold weightNbrs
    rw [if_neg (by simp [hm])]
    rw [fluxes_eq] at hn
    rcases hn with hn | ⟨h0, hn⟩
    · rw [if_neg (by rintro hc; rw [hc] at hn; simp at hn)]
      rw [List.map_map] at hn; exact hn
    · rw [if_pos (by simpa using h0), hn]; simp
  obtain ⟨hns, hlt⟩ := (H.nbrs hvs hm).2 n hn'
  by_cases hne : n ∈ (interiorPhase W chg labels0 sorted).edges
  · have hd : (l1 ++ v :: l2).Pairwise (fun a b => W.ref b ≤ W.ref a) :=
        hl ▸ H.sorted_desc.sublist h.edges_sub
    have := higher_before hd (hl ▸ hne) hlt
    obtain ⟨l, q1, q2, _⟩ := (p1 n this).2.2.2.2 hB
    exact ⟨l, q2, q1⟩
  · obtain ⟨c, _, hc, hcB⟩ := h.lab_of_done hns hne
    refine ⟨c, hcB, ?_⟩
    rw [p2 n (fun hc => hne (by rw [hl]; simp [hc]))]
    exact hc

/-- **C16** (weight method)  The `i`-th reported maximum is one of the maxima found, each is reported
once, and every voxel of the group of maxima it stands for ends with label `i`. -/
theorem C16_weight_order {β : Type*} (maxima : List (ℕ × β))
    (hW : W.maxIdx = (sortMaxima maxima).map Prod.fst) (H : WeightInput W vac labels0 sorted)
    (argsortW : List (ℕ × K) → List (ℕ × K)) (ha : ∀ l, (argsortW l).Perm l)
    (hB : W.maxIdx.length ≤ 10 ^ 30) (chg : ℕ → K) :
    (sortMaxima maxima).Perm maxima ∧
    ∀ i (hi : i < (sortMaxima maxima).length) (v : ℕ), W.mask v = true →
      labels0 v = ((sortMaxima maxima)[i].1 : ℤ) →
      (weightAssign W chg argsortW labels0 sorted).labels v = i ∧
      shareOf W argsortW labels0 sorted v i = 1 := by
  refine ⟨List.perm_insertionSort _ _, ?_⟩
  intro i hi v hm hlv
  obtain ⟨log, h⟩ := interiorPhase_inv H chg
  obtain ⟨_, e2⟩ := weight_edge H ha hB chg
  obtain ⟨_, _, _, w4⟩ := weight_run H ha hB chg
  have hvm := (H.maxima v).mp hm
  have hvs : v ∈ sorted := (H.sorted_mem v).mpr ⟨hvm.1, hvm.2.1⟩
  have hve : v ∉ (interiorPhase W chg labels0 sorted).edges := by
    intro hc; have := h.edges_max v hc; rw [hm] at this; simp at this
  obtain ⟨c, hcl, hc, hcB⟩ := h.lab_of_done hvs hve
  obtain ⟨r, hr, hcr⟩ := h.log_max (v, c) hcl hm
  have hri : r = (sortMaxima maxima)[i].1 := by
    have : (r : ℤ) = ((sortMaxima maxima)[i].1 : ℤ) := by rw [← hr]; exact hlv
    exact_mod_cast this
  have hi' : i < W.maxIdx.length := by rw [hW]; simpa using hi
  have hget : W.maxIdx[i] = r := by rw [hri]; simp only [hW, List.getElem_map]
  have hci : c = i := by
    have := searchSorted_getElem H.idx_sorted i hi'
    rw [hget] at this
    exact hcr.trans this
  rw [shareOf_eq H ha hB hvs, w4 v hve, e2 v hve, hc, hci]
  simp

/-! ### C19: the flux equation -/

/-- The share meant by an entry of a flux row. -/
def codeVal (stored : ℕ → List (ℕ × K)) (c : ℤ) (b : ℕ) : K :=
  if 0 ≤ c then (if c.toNat = b then 1 else 0) else pairSum (stored (-c - 1).toNat) b

def rowVal (stored : ℕ → List (ℕ × K)) (row : List (K × ℤ)) (b : ℕ) : K :=
  (row.map fun (e : K × ℤ) => e.1 * codeVal stored e.2 b).sum

theorem pairSum_append (a b : List (ℕ × K)) (x : ℕ) : pairSum (a ++ b) x = pairSum a x + pairSum b x := by
  simp [pairSum]

theorem pairSum_smul (f : K) (a : List (ℕ × K)) (x : ℕ) :
    pairSum (a.map fun (lw : ℕ × K) => (lw.1, f * lw.2)) x = f * pairSum a x := by
  unfold pairSum
  rw [List.map_map, ← List.sum_map_mul_left]
  congr 1
  apply List.map_congr_left
  intro e _
  simp

theorem pairSum_expand (stored : ℕ → List (ℕ × K)) (row : List (K × ℤ)) (b : ℕ) :
    pairSum (expand stored row) b = rowVal stored row b := by
  induction row with
  | nil => simp [expand, pairSum, rowVal]
  | cons e row ih =>
    unfold expand rowVal at ih ⊢
    rw [List.flatMap_cons, pairSum_append, ih, List.map_cons, List.sum_cons]
    congr 1
    unfold codeVal
    by_cases h0 : 0 ≤ e.2
    · simp [h0, pairSum]
    · simp only [h0, if_false]
      exact pairSum_smul _ _ _

theorem bumpStale_val {stored : ℕ → List (ℕ × K)} {stale : ℤ} {flux : K} {b : ℕ} :
    ∀ {l l' : List (K × ℤ)}, bumpStale stale flux l = some l' →
      rowVal stored l' b = rowVal stored l b + flux * codeVal stored stale b ∧
        stale ∈ l.map Prod.snd := by
  intro l
  induction l with
  | nil => intro l' h; simp [bumpStale] at h
  | cons e es ih =>
    intro l' h
    unfold bumpStale at h
    by_cases hs : stale = e.2
    · rw [if_pos hs] at h
      obtain rfl := Option.some.inj h
      refine ⟨?_, by simp [hs]⟩
      simp only [rowVal, List.map_cons, List.sum_cons, hs]; ring
    · rw [if_neg hs] at h
      obtain ⟨t, ht, rfl⟩ := Option.map_eq_some_iff.mp h
      obtain ⟨h1, h2⟩ := ih ht
      refine ⟨?_, by simp only [List.map_cons, List.mem_cons]; exact Or.inr h2⟩
      unfold rowVal at h1 ⊢
      simp only [List.map_cons, List.sum_cons, h1]; ring

theorem fluxFold_val (stored : ℕ → List (ℕ × K)) (labels : ℕ → ℤ) (stale : ℤ) (v b : ℕ) :
    ∀ (ts : List (Coord × K)) (acc : List (K × ℤ) × K),
    (∀ l1 t l2, ts = l1 ++ t :: l2 → labels (nbr W.s v t.1) = -1 ∨ labels (nbr W.s v t.1) = stale ∨
      (stale ∉ acc.1.map Prod.snd ∧ ∀ t' ∈ l1, codeOf labels (nbr W.s v t'.1) ≠ stale)) →
    let r := ts.foldl (fluxStep W labels stale v) acc
    rowVal stored r.1 b = rowVal stored acc.1 b +
      (ts.map fun t => (W.ref (nbr W.s v t.1) - W.ref v) * t.2 *
        codeVal stored (codeOf labels (nbr W.s v t.1)) b).sum ∧
    r.2 = acc.2 + (ts.map fun t => (W.ref (nbr W.s v t.1) - W.ref v) * t.2).sum := by
  intro ts
  induction ts with
  | nil => intro acc _; simp
  | cons t ts ih =>
    intro acc hc
    have key : rowVal stored (fluxStep W labels stale v acc t).1 b = rowVal stored acc.1 b +
          (W.ref (nbr W.s v t.1) - W.ref v) * t.2 * codeVal stored (codeOf labels (nbr W.s v t.1)) b ∧
        (fluxStep W labels stale v acc t).2 = acc.2 + (W.ref (nbr W.s v t.1) - W.ref v) * t.2 ∧
        ∀ x ∈ (fluxStep W labels stale v acc t).1.map Prod.snd,
          x ∈ acc.1.map Prod.snd ∨ x = codeOf labels (nbr W.s v t.1) := by
      unfold fluxStep
      by_cases hl : labels (nbr W.s v t.1) = -1
      · simp only [hl, if_true, codeOf]
        refine ⟨by simp [rowVal], trivial, ?_⟩
        intro x hx; simpa using hx
      · simp only [hl, if_false, codeOf]
        cases hb : bumpStale stale ((W.ref (nbr W.s v t.1) - W.ref v) * t.2) acc.1 with
        | some l =>
          obtain ⟨b1, b2⟩ := bumpStale_val (stored := stored) (b := b) hb
          obtain ⟨b3, _⟩ := bumpStale_some hb
          refine ⟨?_, rfl, ?_⟩
          · simp only [b1]
            rcases hc [] t ts rfl with h | h | h
            · exact absurd h hl
            · rw [h]
            · exact absurd b2 h.1
          · intro x hx; simp only [b3] at hx; exact Or.inl hx
        | none =>
          refine ⟨by simp [rowVal], rfl, ?_⟩
          intro x hx; simpa using hx
    obtain ⟨k1, k2, k3⟩ := key
    obtain ⟨i1, i2⟩ := ih (fluxStep W labels stale v acc t) (by
      intro l1 t' l2 hts
      rcases hc (t :: l1) t' l2 (by rw [hts]; rfl) with h | h | ⟨h, h'⟩
      · exact Or.inl h
      · exact Or.inr (Or.inl h)
      · right; right
        refine ⟨?_, fun u hu => h' u (List.mem_cons_of_mem _ hu)⟩
        intro hx
        rcases k3 _ hx with hx | hx
        · exact h hx
        · exact h' t (by simp) hx.symm)
    simp only [List.foldl_cons, List.map_cons, List.sum_cons]
    rw [i1, i2, k1, k2]
    exact ⟨by ring, by ring⟩

/-- The label left over from the interior phase with which the code at `weight_numba.py:230` compares. -/
def leftover (W : WeightIn K) (labels0 : ℕ → ℤ) (sorted : List ℕ) : ℤ :=
  (interiorPhase W 0 labels0 sorted).stale

/-- The comparison with the leftover label is harmless at `v`: once a higher facet neighbour has been
entered under that label, every later higher facet neighbour in the interior of a basin belongs to that
basin. -/
def Harmless (W : WeightIn K) (labels0 : ℕ → ℤ) (sorted : List ℕ) (v : ℕ) : Prop :=
  ∀ l1 e' l2, fluxes W v = l1 ++ e' :: l2 → ∀ e ∈ l1,
    codeOf (interiorPhase W 0 labels0 sorted).labels e.1 = leftover W labels0 sorted →
    (interiorPhase W 0 labels0 sorted).labels e'.1 = -1 ∨
    (interiorPhase W 0 labels0 sorted).labels e'.1 = leftover W labels0 sorted

/-- The value of the entry of a neighbour is the share of the neighbour. -/
theorem codeVal_share (H : WeightInput W vac labels0 sorted)
    {argsortW : List (ℕ × K) → List (ℕ × K)} (ha : ∀ l, (argsortW l).Perm l)
    (hB : W.maxIdx.length ≤ 10 ^ 30) {n : ℕ} (hn : n ∈ sorted)
    (hs : n ∈ (interiorPhase W 0 labels0 sorted).edges →
      Storable W.maxIdx.length (shareOf W argsortW labels0 sorted n)) (b : ℕ) :
    codeVal (weightAssign W 0 argsortW labels0 sorted).stored
      (codeOf (interiorPhase W 0 labels0 sorted).labels n) b = shareOf W argsortW labels0 sorted n b := by
  obtain ⟨log, h⟩ := interiorPhase_inv H 0
  obtain ⟨e1, _⟩ := weight_edge H ha hB 0
  obtain ⟨_, _, _, w4⟩ := weight_run H ha hB 0
  have hfun : shareOf W argsortW labels0 sorted n = wShare W argsortW labels0 sorted n :=
    funext (shareOf_eq H ha hB hn)
  rw [hfun] at hs ⊢
  by_cases he : n ∈ (interiorPhase W 0 labels0 sorted).edges
  · have hl := h.lab_edge H he
    have hneg : ¬ (0 : ℤ) ≤ -(n : ℤ) - 1 := by omega
    have ht : (-(-(n : ℤ) - 1) - 1).toNat = n := by omega
    simp only [codeOf, hl, if_true, codeVal, hneg, if_false, ht]
    exact (e1 n he).2.1 (hs he) b
  · obtain ⟨c, _, hc, hcB⟩ := h.lab_of_done hn he
    have hne : ¬ (c : ℤ) = -1 := by omega
    rw [w4 n he]
    simp only [codeOf, hc, hne, if_false, codeVal, Int.natCast_nonneg, if_true, Int.toNat_natCast,
      Nat.cast_inj]

/-- **C19** (partial)  The flux equation holds at a voxel that is not a maximum and has a higher facet
neighbour, if either it is interior, or the comparison with the leftover label is harmless there and the
shares of its higher neighbours are stored without loss.  Missing: the first condition can fail, and then
the equation is false (`C19_flux_wrong`). -/
theorem C19_flux_partial (H : WeightInput W vac labels0 sorted)
    (argsortW : List (ℕ × K) → List (ℕ × K)) (ha : ∀ l, (argsortW l).Perm l)
    (hB : W.maxIdx.length ≤ 10 ^ 30) (v : ℕ) (hv : v ∈ sorted) (hm : W.mask v = false)
    (hf : fluxes W v ≠ [])
    (hgood : v ∈ (interiorPhase W 0 labels0 sorted).edges →
      Harmless W labels0 sorted v ∧ ∀ e ∈ fluxes W v,
        Storable W.maxIdx.length (shareOf W argsortW labels0 sorted e.1)) :
    FluxEq W (shareOf W argsortW labels0 sorted) v := by
  obtain ⟨log, h⟩ := interiorPhase_inv H 0
  obtain ⟨e1, _⟩ := weight_edge H ha hB 0
  obtain ⟨_, _, _, w4⟩ := weight_run H ha hB 0
  have hne : higherVor W v ≠ [] := by
    intro hc; rw [fluxes_eq, hc] at hf; simp at hf
  have hnb : ∀ e ∈ fluxes W v, e.1 ∈ sorted ∧ e.1 ∈ weightNbrs W v := by
    intro e he
    rw [fluxes_eq] at he
    obtain ⟨t, ht, rfl⟩ := List.mem_map.mp he
    refine ⟨(H.nbr_mem hv ht).1, ?_⟩
    unfold weightNbrs
    rw [if_neg (by simp [hm]), if_neg hne]
    exact List.mem_map_of_mem ht
  have hpos : 0 < ((fluxes W v).map Prod.snd).sum := by
    apply sum_pos_list
    · intro x hx
      rw [fluxes_eq, List.map_map] at hx
      obtain ⟨t, ht, rfl⟩ := List.mem_map.mp hx
      exact flux_pos H t ht
    · simpa using hf
  intro b
  rw [shareOf_eq H ha hB hv]
  by_cases he : v ∈ (interiorPhase W 0 labels0 sorted).edges
  · obtain ⟨hh, hst⟩ := hgood he
    rw [(e1 v he).1 b]
    obtain ⟨g1, _⟩ := gather_spec (weightAssign W 0 argsortW labels0 sorted).stored
      (fluxRow W (interiorPhase W 0 labels0 sorted).labels (interiorPhase W 0 labels0 sorted).stale v)
    rw [g1, pairSum_expand]
    obtain ⟨f1, f2⟩ := fluxFold_val (W := W) (weightAssign W 0 argsortW labels0 sorted).stored
      (interiorPhase W 0 labels0 sorted).labels (interiorPhase W 0 labels0 sorted).stale v b
      (higherVor W v) ([], 0) (by
        intro l1 t l2 hts
        by_cases hex : ∃ t' ∈ l1,
            codeOf (interiorPhase W 0 labels0 sorted).labels (nbr W.s v t'.1) =
              (interiorPhase W 0 labels0 sorted).stale
        · obtain ⟨t', ht', hc⟩ := hex
          have := hh (l1.map fun t => (nbr W.s v t.1, (W.ref (nbr W.s v t.1) - W.ref v) * t.2))
            (nbr W.s v t.1, (W.ref (nbr W.s v t.1) - W.ref v) * t.2)
            (l2.map fun t => (nbr W.s v t.1, (W.ref (nbr W.s v t.1) - W.ref v) * t.2))
            (by rw [fluxes_eq, hts]; simp)
            (nbr W.s v t'.1, (W.ref (nbr W.s v t'.1) - W.ref v) * t'.2)
            (List.mem_map.mpr ⟨t', ht', rfl⟩) hc
          rcases this with h | h
          · exact Or.inl h
          · exact Or.inr (Or.inl h)
        · push Not at hex
          exact Or.inr (Or.inr ⟨by simp, hex⟩))
    have hr := (fluxFold_spec (W := W) (interiorPhase W 0 labels0 sorted).labels
      (interiorPhase W 0 labels0 sorted).stale v (higherVor W v) ([], 0) (flux_pos H) (by simp)
      (by simp)).2.2.2 (Or.inr hne)
    simp only at f1 f2 hr
    unfold fluxRow
    simp only [hr, if_false]
    have hdiv : rowVal (weightAssign W 0 argsortW labels0 sorted).stored
        ((((higherVor W v).foldl (fluxStep W (interiorPhase W 0 labels0 sorted).labels
          (interiorPhase W 0 labels0 sorted).stale v) ([], 0)).1).map fun (e : K × ℤ) =>
            (e.1 / ((higherVor W v).foldl (fluxStep W (interiorPhase W 0 labels0 sorted).labels
          (interiorPhase W 0 labels0 sorted).stale v) ([], 0)).2, e.2)) b =
        rowVal (weightAssign W 0 argsortW labels0 sorted).stored
          ((higherVor W v).foldl (fluxStep W (interiorPhase W 0 labels0 sorted).labels
          (interiorPhase W 0 labels0 sorted).stale v) ([], 0)).1 b /
          ((higherVor W v).foldl (fluxStep W (interiorPhase W 0 labels0 sorted).labels
          (interiorPhase W 0 labels0 sorted).stale v) ([], 0)).2 := by
      unfold rowVal
      rw [List.map_map, div_eq_mul_inv, ← List.sum_map_mul_right]
      congr 1
      apply List.map_congr_left
      intro e _
      simp only [comp_apply]; ring
    rw [hdiv, f1, f2]
    have hz : rowVal (weightAssign W 0 argsortW labels0 sorted).stored [] b = 0 := by simp [rowVal]
    rw [hz, zero_add, zero_add, fluxes_eq, List.map_map, List.map_map]
    congr 2
    apply List.map_congr_left
    intro t ht
    have hmem : (nbr W.s v t.1, (W.ref (nbr W.s v t.1) - W.ref v) * t.2) ∈ fluxes W v := by
      rw [fluxes_eq]; exact List.mem_map.mpr ⟨t, ht, rfl⟩
    rw [codeVal_share H ha hB (hnb _ hmem).1 (fun _ => hst _ hmem)]
    rfl
  · have hin := h.inner v hv hm he
    obtain ⟨c, _, hc, hcB⟩ := h.lab_of_done hv he
    have hsh : ∀ e ∈ fluxes W v, shareOf W argsortW labels0 sorted e.1 b =
        wShare W argsortW labels0 sorted v b := by
      intro e hee
      obtain ⟨m1, m2⟩ := hnb e hee
      rw [shareOf_eq H ha hB m1]
      have hl := hin e.1 m2
      have hee' : e.1 ∉ (interiorPhase W 0 labels0 sorted).edges := by
        intro hx
        have := h.lab_edge H hx
        rw [hl, hc] at this
        omega
      rw [w4 _ hee', w4 v he, hl]
    have : ((fluxes W v).map fun e => e.2 * shareOf W argsortW labels0 sorted e.1 b).sum =
        ((fluxes W v).map Prod.snd).sum * wShare W argsortW labels0 sorted v b := by
      rw [← List.sum_map_mul_right]
      congr 1
      apply List.map_congr_left
      intro e hee
      rw [hsh e hee]
    rw [this, mul_comm, mul_div_assoc, div_self hpos.ne', mul_one]

/-- **C19** A voxel without higher facet neighbours that is not a maximum has the shares of its steepest
neighbour, if these are stored without loss. -/
theorem C19_false_maximum (H : WeightInput W vac labels0 sorted)
    (argsortW : List (ℕ × K) → List (ℕ × K)) (ha : ∀ l, (argsortW l).Perm l)
    (hB : W.maxIdx.length ≤ 10 ^ 30) (v : ℕ) (hv : v ∈ sorted) (hm : W.mask v = false)
    (hf : fluxes W v = [])
    (hst : Storable W.maxIdx.length
      (shareOf W argsortW labels0 sorted (bestNeighbor W.s W.ref W.all v).2)) (b : ℕ) :
    shareOf W argsortW labels0 sorted v b =
      shareOf W argsortW labels0 sorted (bestNeighbor W.s W.ref W.all v).2 b := by
  obtain ⟨log, h⟩ := interiorPhase_inv H 0
  obtain ⟨e1, _⟩ := weight_edge H ha hB 0
  obtain ⟨_, _, _, w4⟩ := weight_run H ha hB 0
  have hne : higherVor W v = [] := by rw [fluxes_eq] at hf; simpa using hf
  have hw : weightNbrs W v = [(bestNeighbor W.s W.ref W.all v).2] := by
    simp [weightNbrs, hm, hne]
  have hn := (H.best_mem hv hm).1
  have hcv := codeVal_share H ha hB hn (fun _ => hst) b
  rw [← hcv, shareOf_eq H ha hB hv]
  by_cases he : v ∈ (interiorPhase W 0 labels0 sorted).edges
  · rw [(e1 v he).1 b]
    obtain ⟨g1, _⟩ := gather_spec (weightAssign W 0 argsortW labels0 sorted).stored
      (fluxRow W (interiorPhase W 0 labels0 sorted).labels (interiorPhase W 0 labels0 sorted).stale v)
    rw [g1, pairSum_expand]
    unfold fluxRow
    rw [hne]
    simp only [List.foldl_nil, if_true, rowVal, List.map_cons, List.map_nil, List.sum_cons, List.sum_nil,
      add_zero, div_one, one_mul]
    congr 1
    unfold codeOf
    by_cases hx : (bestNeighbor W.s W.ref W.all v).2 ∈ (interiorPhase W 0 labels0 sorted).edges
    · rw [h.lab_edge H hx]; simp
    · obtain ⟨c, _, hc, _⟩ := h.lab_of_done hn hx
      rw [hc, if_pos (by omega), if_neg (by omega)]
  · have hin := h.inner v hv hm he _ (by rw [hw]; exact List.mem_singleton.mpr rfl)
    obtain ⟨c, _, hc, _⟩ := h.lab_of_done hv he
    have hne : ¬ (c : ℤ) = -1 := by omega
    rw [w4 v he, codeOf, hin, hc, if_neg hne]
    simp only [codeVal, Int.natCast_nonneg, if_true, Int.toNat_natCast, Nat.cast_inj]

/-! ### The whole method -/

/-- **C17** The whole weight method: find the maxima, group them, sort the representatives, assign.  For
every schedule of the maxima search, every geometric merge test and every sorted order the method
finishes and the basin charges and volumes add up to those of the voxels outside the vacuum. -/
theorem C17_pipeline (s : Shape) (data chg : ℕ → K) (vor nbrs : List (Coord × K)) (vac : ℕ → Bool)
    (same : ℕ → ℕ → Bool) (cand : ℕ → ℕ) (order msorted sorted : List ℕ)
    (argsortW : List (ℕ × K) → List (ℕ × K)) (ha : ∀ l, (argsortW l).Perm l)
    (hvf : ∀ t ∈ vor, StepFits s t.1) (hvp : ∀ t ∈ vor, 0 < t.2)
    (haf : ∀ t ∈ nbrs, StepFits s t.1) (hap : ∀ t ∈ nbrs, 0 < t.2)
    (hup : UpClosedLe s data (nbrs.map Prod.fst) vac) (hupv : UpClosed s data (vor.map Prod.fst) vac)
    (hord : IsSchedule s order) (hsize : s.size ≤ 10 ^ 30)
    (hms : msorted.Perm (maximaVox s (getMaxima s data (nbrs.map Prod.fst) vac false order)))
    (hs1 : sorted.Nodup) (hs2 : ∀ v, v ∈ sorted ↔ v < s.size ∧ vac v = false)
    (hs3 : sorted.Pairwise (fun a b => data b ≤ data a)) :
    let M := getMaxima s data (nbrs.map Prod.fst) vac false order
    ∃ (res : InitResult) (F : ℕ),
      (∀ fuel ≥ F, initLabels s data nbrs M same cand msorted fuel = some res) ∧
      let W : WeightIn K := ⟨s, data, vor, nbrs, M,
        (sortMaxima (res.reps.map fun r => (r, ()))).map Prod.fst⟩
      WeightInput W vac res.labels sorted ∧
      W.maxIdx.length = res.reps.length ∧
      ∑ b ∈ Finset.range res.reps.length, (weightAssign W chg argsortW res.labels sorted).charges b =
        ∑ v ∈ (Finset.range s.size).filter (fun v => vac v = false), chg v ∧
      ∑ b ∈ Finset.range res.reps.length, (weightAssign W chg argsortW res.labels sorted).volumes b =
        (((Finset.range s.size).filter (fun v => vac v = false)).card : K) := by
  intro M
  have hts' : ∀ t ∈ nbrs.map Prod.fst, StepFits s t := by
    intro t ht; obtain ⟨td, htd, rfl⟩ := List.mem_map.mp ht; exact haf td htd
  have hM : MarksMaxima s data (nbrs.map Prod.fst) vac M :=
    marksMaxima_getMaxima s data _ vac order hord hts'
  obtain ⟨res, F, hres, hval, _, _⟩ := C15_init_labels s data nbrs vac M same cand msorted haf hap hM hup hms
  refine ⟨res, F, hres, ?_⟩
  intro W
  have hperm : W.maxIdx.Perm res.reps := by
    have h1 : (sortMaxima (res.reps.map fun r => (r, ()))).Perm (res.reps.map fun r => (r, ())) :=
      List.perm_insertionSort _ _
    have h2 := h1.map Prod.fst
    rw [List.map_map] at h2
    have h3 : res.reps.map (Prod.fst ∘ fun r => (r, ())) = res.reps := by
      conv_rhs => rw [← List.map_id res.reps]
      rfl
    rw [h3] at h2
    exact h2
  have hH : WeightInput W vac res.labels sorted :=
    { vor_fits := hvf, vor_pos := hvp, all_fits := haf, all_pos := hap, maxima := hM
      up_vor := hupv
      up_all := fun v hv hvv w hw hlt => hup v hv hvv w hw hlt.le
      other := hval.other
      rep := fun v hv => by obtain ⟨r, h1, h2, h3, _⟩ := hval.rep v hv; exact ⟨r, h1, h2, h3⟩
      idx_sorted := by
        have h1 : (sortMaxima (res.reps.map fun r => (r, ()))).Pairwise (fun a b => a.1 ≤ b.1) :=
          List.pairwise_insertionSort _ _
        have h2 : W.maxIdx.Pairwise (· ≤ ·) := List.pairwise_map.mpr h1
        have h3 : W.maxIdx.Nodup := hperm.nodup_iff.mpr hval.reps_nodup
        exact (List.Pairwise.and h2 h3).imp (fun h => lt_of_le_of_ne h.1 h.2)
      idx_mem := fun r => by rw [hperm.mem_iff, hval.reps_mem]
      sorted_nodup := hs1, sorted_mem := hs2, sorted_desc := hs3 }
  have hlen : W.maxIdx.length = res.reps.length := hperm.length_eq
  have hle : res.reps.length ≤ 10 ^ 30 := by
    refine le_trans ?_ hsize
    have : ∀ r ∈ res.reps, r < s.size := by
      intro r hr
      obtain ⟨v, hv, hl⟩ := (hval.reps_mem r).mp hr
      obtain ⟨r', h1, h2, _⟩ := hval.rep v hv
      have : r = r' := by rw [hl] at h1; exact_mod_cast h1
      rw [this]; exact ((hM r').mp h2).1
    have hsub : res.reps.toFinset ⊆ Finset.range s.size := fun r hr =>
      Finset.mem_range.mpr (this r (List.mem_toFinset.mp hr))
    have := Finset.card_le_card hsub
    rwa [List.toFinset_card_of_nodup hval.reps_nodup, Finset.card_range] at this
  have hc := C17_conservation hH argsortW ha (hlen ▸ hle) chg
  rw [hlen] at hc
  exact ⟨hH, hlen, hc⟩

/-! ### A concrete run

A ring of four voxels with the data `3 0 2 1`, two maxima (voxels 0 and 2). -/

def w4 : WeightIn ℚ where
  s := ⟨4, 1, 1⟩
  ref := fun v => [3, 0, 2, 1].getD v 0
  vor := [((1, 0, 0), 1), ((-1, 0, 0), 1)]
  all := [((1, 0, 0), 1), ((-1, 0, 0), 1)]
  mask := fun v => decide (v = 0 ∨ v = 2)
  maxIdx := [0, 2]

def w4labels (v : ℕ) : ℤ := if v = 0 ∨ v = 2 then (v : ℤ) else -1

theorem w4_fits : ∀ t ∈ w4.vor, StepFits w4.s t.1 := by
  intro t ht
  simp only [w4, List.mem_cons, List.not_mem_nil, or_false] at ht
  rcases ht with rfl | rfl <;> (unfold StepFits; decide)

theorem w4_input : WeightInput w4 (fun _ => false) w4labels [0, 2, 3, 1] where
  vor_fits := w4_fits
  vor_pos := by decide +kernel
  all_fits := w4_fits
  all_pos := by decide +kernel
  maxima := by
    have hts : ∀ t ∈ w4.all.map Prod.fst, StepFits w4.s t := by
      intro t ht
      obtain ⟨e, he, rfl⟩ := List.mem_map.mp ht
      exact w4_fits e he
    intro v
    constructor
    · intro h
      have h : v = 0 ∨ v = 2 := by simpa [w4] using h
      have hv : v < w4.s.size := by rcases h with rfl | rfl <;> decide
      refine ⟨hv, rfl, ?_⟩
      intro n hn
      obtain ⟨t, ht, rfl⟩ := (isNbr_iff hts hv).mp hn
      clear hn
      revert t
      rcases h with rfl | rfl <;> decide +kernel
    · rintro ⟨hv, _, hmax⟩
      have hn : ∀ t ∈ w4.all.map Prod.fst, w4.ref (nbr w4.s v t) ≤ w4.ref v := fun t ht =>
        hmax _ ((isNbr_iff hts hv).mpr ⟨t, ht, rfl⟩)
      have hv : v < 4 := hv
      interval_cases v
      · decide
      · exact absurd hn (by decide +kernel)
      · decide
      · exact absurd hn (by decide +kernel)
  up_vor := fun _ _ _ _ _ _ => rfl
  up_all := fun _ _ _ _ _ _ => rfl
  other := by
    intro v h
    have h : ¬ (v = 0 ∨ v = 2) := by simpa [w4] using h
    simp [w4labels, h]
  rep := by
    intro v h
    have h : v = 0 ∨ v = 2 := by simpa [w4] using h
    exact ⟨v, by simp [w4labels, h], by simpa [w4] using h, by simp [w4labels, h]⟩
  idx_sorted := by decide
  idx_mem := by
    intro r
    constructor
    · intro h
      have h : r = 0 ∨ r = 2 := by simpa [w4] using h
      exact ⟨r, by simpa [w4] using h, by simp [w4labels, h]⟩
    · rintro ⟨v, h, h'⟩
      have h : v = 0 ∨ v = 2 := by simpa [w4] using h
      have : (v : ℤ) = r := by simpa [w4labels, h] using h'
      have : v = r := by exact_mod_cast this
      subst this; simpa [w4] using h
  sorted_nodup := by decide
  sorted_mem := by
    intro v
    constructor
    · intro h
      refine ⟨?_, rfl⟩
      have : ∀ v ∈ [0, 2, 3, 1], v < w4.s.size := by decide
      exact this v h
    · rintro ⟨h, _⟩
      have h : v < 4 := h
      interval_cases v <;> decide
  sorted_desc := by decide +kernel

/-- **C19** The flux equation is violated by a run on a legal input: on the ring `3 0 2 1` voxel 3 sends
two thirds of its flux to basin 0 and one third to basin 1, but is credited to basin 0 completely. -/
theorem C19_flux_wrong : ∃ (W : WeightIn ℚ) (vac : ℕ → Bool) (labels0 : ℕ → ℤ) (sorted : List ℕ) (v : ℕ),
    WeightInput W vac labels0 sorted ∧ v ∈ sorted ∧ W.mask v = false ∧ fluxes W v ≠ [] ∧
    (∀ e ∈ fluxes W v, Storable W.maxIdx.length (shareOf W id labels0 sorted e.1)) ∧
    ¬ FluxEq W (shareOf W id labels0 sorted) v := by
  refine ⟨w4, fun _ => false, w4labels, [0, 2, 3, 1], 3, w4_input, by decide, by decide,
    by decide +kernel, ?_, ?_⟩
  · have hs := (C17_shares w4_input id (fun l => List.Perm.refl l) (by norm_num [w4])).1
    have hall : ∀ e ∈ fluxes w4 3, e.1 < 4 ∧ ∀ b < 2,
        shareOf w4 id w4labels [0, 2, 3, 1] e.1 b = 0 ∨
          1 / 10 ^ 30 ≤ shareOf w4 id w4labels [0, 2, 3, 1] e.1 b := by decide +kernel
    intro e he
    obtain ⟨h1, h2⟩ := hall e he
    refine ⟨?_, ?_⟩
    · exact (numShares_le _ _).trans (by decide)
    · intro b
      by_cases hb : b < 2
      · exact h2 b hb
      · exact Or.inl ((hs e.1 h1 rfl).2.1 b (not_lt.mp hb))
  · intro h
    have := h 0
    revert this
    decide +kernel

/-- The shares on the ring: voxel 1 is split correctly, voxel 3 is not. -/
example : (fluxes w4 1).map Prod.fst = [2, 0] ∧
    (List.range 4).map (fun v => (List.range 2).map (shareOf w4 id w4labels [0, 2, 3, 1] v)) =
      [[1, 0], [3 / 5, 2 / 5], [0, 1], [1, 0]] := by decide +kernel

example : (weightAssign w4 (fun v => (v : ℚ) + 1) id w4labels [0, 2, 3, 1]).labels 3 = 0 := by
  decide +kernel

/-- Voxel 1 meets the hypotheses of `C19_flux_partial` as an edge voxel. -/
example : 1 ∈ (interiorPhase w4 0 w4labels [0, 2, 3, 1]).edges ∧ Harmless w4 w4labels [0, 2, 3, 1] 1 := by
  refine ⟨by decide +kernel, ?_⟩
  have hf : fluxes w4 1 = [(2, 2), (0, 3)] := by decide +kernel
  have h2 : codeOf (interiorPhase w4 0 w4labels [0, 2, 3, 1]).labels 2 ≠
      leftover w4 w4labels [0, 2, 3, 1] := by decide +kernel
  have h0 : (interiorPhase w4 0 w4labels [0, 2, 3, 1]).labels 0 = leftover w4 w4labels [0, 2, 3, 1] := by
    decide +kernel
  intro l1 e' l2 hl e he hc
  rw [hf] at hl
  rcases l1 with _ | ⟨a, _ | ⟨b, l1⟩⟩
  · simp at he
  · simp at hl he; rw [he, ← hl.1] at hc; exact absurd hc h2
  · simp at hl

example : WeightInput w4 (fun _ => false) w4labels [0, 2, 3, 1] ∧ w4.maxIdx.length < 10 ^ 6 ∧
    w4.maxIdx = (sortMaxima [(2, "b"), (0, "a")]).map Prod.fst := ⟨w4_input, by decide, by decide⟩

end BaderKit
