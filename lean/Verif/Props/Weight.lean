import Verif.Lemmas.WeightEdge
/-! # Properties C16 (weight method), C17, C18, C19: the weight method -/
set_option linter.unusedSectionVars false
namespace BaderKit
open Function
variable {K : Type*} [Field K] [LinearOrder K] [IsStrictOrderedRing K]
variable {W : WeightIn K} {vac : ℕ → Bool} {labels0 : ℕ → ℤ} {sorted : List ℕ}

/-- The internal expression for the share of a voxel. -/
def wShare (W : WeightIn K) (argsortW : List (ℕ × K) → List (ℕ × K)) (labels0 : ℕ → ℤ)
    (sorted : List ℕ) (v b : ℕ) : K :=
  let st := interiorPhase W 0 labels0 sorted
  if v ∈ st.edges then
    (gather (weightAssign W 0 argsortW labels0 sorted).stored (fluxRow W st.labels st.stale v)).1 b
  else if st.labels v = (b : ℤ) then 1 else 0

theorem rowsOK (H : WeightInput W vac labels0 sorted) (chg : ℕ → K) :
    RowsOK W.maxIdx.length (interiorPhase W chg labels0 sorted).edges
      (fluxRow W (interiorPhase W chg labels0 sorted).labels
        (interiorPhase W chg labels0 sorted).stale) := by
  obtain ⟨log, h⟩ := interiorPhase_inv H chg
  set st := interiorPhase W chg labels0 sorted
  have hes : ∀ v ∈ st.edges, v ∈ sorted := fun v hv => h.edges_sub.subset hv
  have hnl : ∀ n ∈ sorted, (n ∈ st.edges ∧ st.labels n = -1) ∨
      ∃ b : ℕ, st.labels n = b ∧ b < W.maxIdx.length := by
    intro n hn
    by_cases he : n ∈ st.edges
    · exact Or.inl ⟨he, h.lab_edge H he⟩
    · obtain ⟨b, _, h1, h2⟩ := h.lab_of_done hn he
      exact Or.inr ⟨b, h1, h2⟩
  have hspec : ∀ v ∈ st.edges, _ := fun v hv =>
    fluxRow_spec H st.labels st.stale (h.edges_max v hv) (fun n hn => by
      have := ((H.nbrs (hes v hv) (h.edges_max v hv)).2 n hn).1
      rcases hnl n this with h | ⟨b, h, _⟩
      · exact Or.inl h.2
      · right; rw [h]; omega)
  refine ⟨fun v hv => (hspec v hv).2.1, fun v hv => (hspec v hv).1, ?_, ?_⟩
  · intro v hv e he h0
    obtain ⟨n, hn, hc⟩ := (hspec v hv).2.2 e he
    have := ((H.nbrs (hes v hv) (h.edges_max v hv)).2 n hn).1
    rcases hnl n this with h | ⟨b, h, hb⟩
    · rw [hc, codeOf, if_pos h.2] at h0; omega
    · rw [hc, codeOf, if_neg (by omega), h]; simpa using hb
  · intro l1 v l2 hl e he h0
    have hv : v ∈ st.edges := by rw [hl]; simp
    obtain ⟨n, hn, hc⟩ := (hspec v hv).2.2 e he
    have hns := (H.nbrs (hes v hv) (h.edges_max v hv)).2 n hn
    rcases hnl n hns.1 with h' | ⟨b, h', hb⟩
    · rw [hc, codeOf, if_pos h'.2]
      have : (-(-(n : ℤ) - 1) - 1).toNat = n := by omega
      rw [this]
      have hd : (l1 ++ v :: l2).Pairwise (fun a b => W.ref b ≤ W.ref a) :=
        hl ▸ H.sorted_desc.sublist h.edges_sub
      exact higher_before hd (hl ▸ h'.1) hns.2
    · rw [hc, codeOf, if_neg (by omega), h'] at h0; omega

/-- Everything about a run, in terms of `wShare`. -/
theorem weight_run (H : WeightInput W vac labels0 sorted)
    {argsortW : List (ℕ × K) → List (ℕ × K)} (ha : ∀ l, (argsortW l).Perm l)
    (hB : W.maxIdx.length ≤ 10 ^ 30) (chg : ℕ → K) :
    (∀ b, (weightAssign W chg argsortW labels0 sorted).charges b =
      (sorted.map fun v => wShare W argsortW labels0 sorted v b * chg v).sum) ∧
    (∀ b, (weightAssign W chg argsortW labels0 sorted).volumes b =
      (sorted.map fun v => wShare W argsortW labels0 sorted v b).sum) ∧
    (∀ v ∈ (interiorPhase W chg labels0 sorted).edges, ∀ b,
      wShare W argsortW labels0 sorted v b =
        (gather (weightAssign W chg argsortW labels0 sorted).stored
          (fluxRow W (interiorPhase W chg labels0 sorted).labels
            (interiorPhase W chg labels0 sorted).stale v)).1 b) ∧
    (∀ v ∉ (interiorPhase W chg labels0 sorted).edges, ∀ b,
      wShare W argsortW labels0 sorted v b =
        if (interiorPhase W chg labels0 sorted).labels v = (b : ℤ) then 1 else 0) := by
  obtain ⟨e1, e2, e3, _⟩ := interiorPhase_indep (W := W) (labels0 := labels0) (sorted := sorted) chg 0
  obtain ⟨log, h⟩ := interiorPhase_inv H chg
  have hrows := rowsOK H chg
  have hstored : (weightAssign W chg argsortW labels0 sorted).stored =
      (weightAssign W 0 argsortW labels0 sorted).stored := by
    simp only [weightAssign, e1, e2, e3]
    exact edgeStored_indep argsortW chg 0 _ _ _ _ rfl
  have hedge : ∀ v ∈ (interiorPhase W chg labels0 sorted).edges, ∀ b,
      wShare W argsortW labels0 sorted v b =
        (gather (weightAssign W chg argsortW labels0 sorted).stored
          (fluxRow W (interiorPhase W chg labels0 sorted).labels
            (interiorPhase W chg labels0 sorted).stale v)).1 b := by
    intro v hv b
    unfold wShare
    rw [e2] at hv
    simp only [hv, if_true]
    rw [hstored, e1, e3]
  have hint : ∀ v ∉ (interiorPhase W chg labels0 sorted).edges, ∀ b,
      wShare W argsortW labels0 sorted v b =
        if (interiorPhase W chg labels0 sorted).labels v = (b : ℤ) then 1 else 0 := by
    intro v hv b
    unfold wShare
    rw [e2] at hv
    simp only [hv, if_false]
    rw [e1]
  have hend : (interiorPhase W chg labels0 sorted).edges.Nodup := H.sorted_nodup.sublist h.edges_sub
  obtain ⟨p1, p2, p3, p4⟩ := edgePhase_spec (W := W) ha hB chg
    (fluxRow W (interiorPhase W chg labels0 sorted).labels (interiorPhase W chg labels0 sorted).stale)
    ⟨(interiorPhase W chg labels0 sorted).labels, (interiorPhase W chg labels0 sorted).charges,
      (interiorPhase W chg labels0 sorted).volumes, (interiorPhase W chg labels0 sorted).charges,
      fun _ => []⟩ _ hend hrows
  have hrepr : ∀ f : ℕ → K, ∀ b, logSum f log b +
      ((interiorPhase W chg labels0 sorted).edges.map fun v =>
        f v * (gather (weightAssign W chg argsortW labels0 sorted).stored
          (fluxRow W (interiorPhase W chg labels0 sorted).labels
            (interiorPhase W chg labels0 sorted).stale v)).1 b).sum =
      (sorted.map fun v => wShare W argsortW labels0 sorted v b * f v).sum := by
    intro f b
    have hlogedge : ∀ v ∈ log.map Prod.fst, v ∉ (interiorPhase W chg labels0 sorted).edges := by
      intro v hv
      rcases (h.log_mem v).mp hv with h' | h'
      · exact h'.2
      · intro hc
        have := h.edges_max v hc
        rw [(h.added_ok v h').1] at this; simp at this
    have hperm : (log.map Prod.fst ++ (interiorPhase W chg labels0 sorted).edges).Perm sorted := by
      rw [List.perm_ext_iff_of_nodup]
      · intro v
        rw [List.mem_append, h.log_mem]
        constructor
        · rintro ((h1 | h1) | h1)
          · exact h1.1
          · have := (H.maxima v).mp (h.added_ok v h1).1
            exact (H.sorted_mem v).mpr ⟨this.1, this.2.1⟩
          · exact h.edges_sub.subset h1
        · intro hv
          by_cases hc : v ∈ (interiorPhase W chg labels0 sorted).edges
          · exact Or.inr hc
          · exact Or.inl (Or.inl ⟨hv, hc⟩)
      · exact List.nodup_append.mpr ⟨h.log_nodup, hend, by
          intro a ha b hb hab; exact hlogedge a ha (hab ▸ hb)⟩
      · exact H.sorted_nodup
    rw [← (hperm.map _).sum_eq, List.map_append, List.sum_append]
    congr 1
    · unfold logSum
      rw [List.map_map]
      congr 1
      apply List.map_congr_left
      intro e he
      have hne := hlogedge e.1 (List.mem_map_of_mem he)
      simp only [comp_apply]
      rw [hint e.1 hne, (h.log_lab e he).1]
      by_cases hb : e.2 = b
      · simp [hb]
      · simp [hb]
    · congr 1
      apply List.map_congr_left
      intro v hv
      rw [hedge v hv, mul_comm]
  refine ⟨?_, ?_, hedge, hint⟩
  · intro b
    refine (p3 b).trans ?_
    show (interiorPhase W chg labels0 sorted).charges b + _ = _
    rw [h.charges]
    exact hrepr chg b
  · intro b
    refine (p4 b).trans ?_
    show (interiorPhase W chg labels0 sorted).volumes b + _ = _
    rw [h.volumes]
    have := hrepr (fun _ => 1) b
    simp only [one_mul, mul_one] at this
    exact this

theorem sum_map_single (l : List ℕ) (hl : l.Nodup) (v : ℕ) (hv : v ∈ l) (f : ℕ → K) :
    (l.map fun u => f u * if u = v then 1 else 0).sum = f v := by
  induction l with
  | nil => simp at hv
  | cons a l ih =>
    rw [List.nodup_cons] at hl
    rw [List.map_cons, List.sum_cons]
    by_cases h : a = v
    · subst h
      have : (l.map fun u => f u * if u = a then 1 else 0).sum = 0 := by
        apply List.sum_eq_zero
        intro x hx
        obtain ⟨u, hu, rfl⟩ := List.mem_map.mp hx
        have hne : u ≠ a := by rintro rfl; exact hl.1 hu
        rw [if_neg hne]; simp
      rw [this]; simp
    · have hv' : v ∈ l := (List.mem_cons.mp hv).resolve_left (Ne.symm h)
      rw [ih hl.2 hv', if_neg h]; simp

theorem shareOf_eq (H : WeightInput W vac labels0 sorted)
    {argsortW : List (ℕ × K) → List (ℕ × K)} (ha : ∀ l, (argsortW l).Perm l)
    (hB : W.maxIdx.length ≤ 10 ^ 30) {v : ℕ} (hv : v ∈ sorted) (b : ℕ) :
    shareOf W argsortW labels0 sorted v b = wShare W argsortW labels0 sorted v b := by
  unfold shareOf
  rw [(weight_run H ha hB _).1]
  exact sum_map_single sorted H.sorted_nodup v hv _

theorem sum_sorted (H : WeightInput W vac labels0 sorted) (f : ℕ → K) :
    (sorted.map f).sum = ∑ v ∈ (Finset.range W.s.size).filter (fun v => vac v = false), f v := by
  rw [← List.sum_toFinset _ H.sorted_nodup]
  apply Finset.sum_congr _ (fun _ _ => rfl)
  ext v
  rw [List.mem_toFinset, H.sorted_mem]; simp

theorem wShare_isShare (H : WeightInput W vac labels0 sorted)
    {argsortW : List (ℕ × K) → List (ℕ × K)} (ha : ∀ l, (argsortW l).Perm l)
    (hB : W.maxIdx.length ≤ 10 ^ 30) :
    IsShare W.s.size W.maxIdx.length vac (wShare W argsortW labels0 sorted) := by
  intro v hv hvv
  have hvs := (H.sorted_mem v).mpr ⟨hv, hvv⟩
  obtain ⟨log, h⟩ := interiorPhase_inv H 0
  obtain ⟨_, _, w3, w4⟩ := weight_run H ha hB 0
  have hend : (interiorPhase W 0 labels0 sorted).edges.Nodup := H.sorted_nodup.sublist h.edges_sub
  obtain ⟨p1, _⟩ := edgePhase_spec (W := W) ha hB 0
    (fluxRow W (interiorPhase W 0 labels0 sorted).labels (interiorPhase W 0 labels0 sorted).stale)
    ⟨(interiorPhase W 0 labels0 sorted).labels, (interiorPhase W 0 labels0 sorted).charges,
      (interiorPhase W 0 labels0 sorted).volumes, (interiorPhase W 0 labels0 sorted).charges,
      fun _ => []⟩ _ hend (rowsOK H 0)
  by_cases he : v ∈ (interiorPhase W 0 labels0 sorted).edges
  · obtain ⟨g1, g2, g3, _, g5⟩ := (p1 v he).2.1.gather
    refine ⟨?_, ?_, ?_⟩
    · intro b; rw [w3 v he]; exact g1 b
    · intro b hb; rw [w3 v he]
      by_contra hc
      have := lt_of_le_of_ne (g1 b) (Ne.symm hc)
      have := g3 b ((g2 b).mpr this)
      omega
    · rw [Finset.sum_congr rfl (fun b _ => w3 v he b)]; exact g5
  · obtain ⟨c, _, hc, hcB⟩ := h.lab_of_done hvs he
    have hw : ∀ b, wShare W argsortW labels0 sorted v b = if c = b then 1 else 0 := by
      intro b; rw [w4 v he, hc]
      by_cases hb : c = b
      · simp [hb]
      · rw [if_neg (by exact_mod_cast hb), if_neg hb]
    refine ⟨?_, ?_, ?_⟩
    · intro b; rw [hw]; split_ifs <;> simp
    · intro b hb; rw [hw, if_neg (by omega)]
    · rw [Finset.sum_congr rfl (fun b _ => hw b), Finset.sum_ite_eq, if_pos (Finset.mem_range.mpr hcB)]

/-- **C17** Shares.  Each voxel outside the vacuum is shared between the basins (shares not negative,
adding up to one), the share does not depend on the charge density, and for every charge density the
charge of a basin is the share-weighted sum of the density and its volume the sum of the shares. -/
theorem C17_shares (H : WeightInput W vac labels0 sorted)
    (argsortW : List (ℕ × K) → List (ℕ × K)) (ha : ∀ l, (argsortW l).Perm l)
    (hB : W.maxIdx.length ≤ 10 ^ 30) :
    IsShare W.s.size W.maxIdx.length vac (shareOf W argsortW labels0 sorted) ∧
    ∀ (chg : ℕ → K) (b : ℕ),
      (weightAssign W chg argsortW labels0 sorted).charges b =
        ∑ v ∈ (Finset.range W.s.size).filter (fun v => vac v = false),
          shareOf W argsortW labels0 sorted v b * chg v ∧
      (weightAssign W chg argsortW labels0 sorted).volumes b =
        ∑ v ∈ (Finset.range W.s.size).filter (fun v => vac v = false),
          shareOf W argsortW labels0 sorted v b := by
  have hm : ∀ v ∈ (Finset.range W.s.size).filter (fun v => vac v = false), v ∈ sorted := by
    intro v hv
    rw [Finset.mem_filter, Finset.mem_range] at hv
    exact (H.sorted_mem v).mpr hv
  refine ⟨?_, ?_⟩
  · intro v hv hvv
    have hvs := (H.sorted_mem v).mpr ⟨hv, hvv⟩
    have := wShare_isShare H ha hB v hv hvv
    simp only [shareOf_eq H ha hB hvs]
    exact this
  · intro chg b
    obtain ⟨h1, h2, _⟩ := weight_run H ha hB chg
    rw [h1, h2, sum_sorted H, sum_sorted H]
    exact ⟨Finset.sum_congr rfl fun v hv => by rw [shareOf_eq H ha hB (hm v hv)],
      Finset.sum_congr rfl fun v hv => by rw [shareOf_eq H ha hB (hm v hv)]⟩

/-- **C17** Conservation: the basin charges add up to the charge outside the vacuum and the basin
volumes to the number of voxels outside the vacuum. -/
theorem C17_conservation (H : WeightInput W vac labels0 sorted)
    (argsortW : List (ℕ × K) → List (ℕ × K)) (ha : ∀ l, (argsortW l).Perm l)
    (hB : W.maxIdx.length ≤ 10 ^ 30) (chg : ℕ → K) :
    ∑ b ∈ Finset.range W.maxIdx.length, (weightAssign W chg argsortW labels0 sorted).charges b =
      ∑ v ∈ (Finset.range W.s.size).filter (fun v => vac v = false), chg v ∧
    ∑ b ∈ Finset.range W.maxIdx.length, (weightAssign W chg argsortW labels0 sorted).volumes b =
      (((Finset.range W.s.size).filter (fun v => vac v = false)).card : K) := by
  obtain ⟨hs, hc⟩ := C17_shares H argsortW ha hB
  constructor
  · rw [Finset.sum_congr rfl fun b _ => (hc chg b).1, Finset.sum_comm]
    apply Finset.sum_congr rfl
    intro v hv
    rw [Finset.mem_filter, Finset.mem_range] at hv
    rw [← Finset.sum_mul, (hs v hv.1 hv.2).2.2, one_mul]
  · rw [Finset.sum_congr rfl fun b _ => (hc chg b).2, Finset.sum_comm, Finset.card_eq_sum_ones,
      Nat.cast_sum]
    apply Finset.sum_congr rfl
    intro v hv
    rw [Finset.mem_filter, Finset.mem_range] at hv
    rw [(hs v hv.1 hv.2).2.2, Nat.cast_one]

/-- **C17** Totals of the reported results: basins plus vacuum give the charge and the volume of the
cell. -/
theorem C17_totals (H : WeightInput W vac labels0 sorted)
    (argsortW : List (ℕ × K) → List (ℕ × K)) (ha : ∀ l, (argsortW l).Perm l)
    (hB : W.maxIdx.length ≤ 10 ^ 30) (chg : ℕ → K) (cell : K) (hN : 0 < W.s.size) :
    let r := weightResults W chg argsortW vac labels0 sorted cell
    (∑ b ∈ Finset.range W.maxIdx.length, r.charges b) + r.vacCharge =
      (∑ v ∈ Finset.range W.s.size, chg v) / (W.s.size : K) ∧
    (∑ b ∈ Finset.range W.maxIdx.length, r.volumes b) + r.vacVolume = cell := by
  obtain ⟨h1, h2⟩ := C17_conservation H argsortW ha hB chg
  have hN' : (W.s.size : K) ≠ 0 := by exact_mod_cast hN.ne'
  have hvac : ((List.range W.s.size).filter vac).toFinset =
      (Finset.range W.s.size).filter (fun v => ¬ vac v = false) := by
    ext v; simp
  have hnd : ((List.range W.s.size).filter vac).Nodup := List.nodup_range.filter _
  simp only [weightResults]
  constructor
  · rw [← Finset.sum_div, h1, ← add_div, ← List.sum_toFinset _ hnd, hvac,
      Finset.sum_filter_add_sum_filter_not]
  · rw [← Finset.sum_mul, h2, ← List.toFinset_card_of_nodup hnd, hvac]
    have : (((Finset.range W.s.size).filter (fun v => vac v = false)).card : K) +
        (((Finset.range W.s.size).filter (fun v => ¬ vac v = false)).card : K) = (W.s.size : K) := by
      rw [← Nat.cast_add, Finset.card_filter_add_card_filter_not, Finset.card_range]
    rw [← this] at hN' ⊢
    field_simp

end BaderKit
