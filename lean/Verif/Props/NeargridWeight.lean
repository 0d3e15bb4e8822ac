import Verif.Model.NeargridWeight
import Verif.Lemmas.Voxels
import Verif.Lemmas.Nbr
import Mathlib.Tactic.Linarith
import Mathlib.Tactic.FieldSimp
import Mathlib.Tactic.Positivity
import Mathlib.Algebra.BigOperators.Field
import Mathlib.Algebra.Order.BigOperators.Ring.Finset
import Mathlib.Data.Rat.Floor
/-!
# C50: charge and volume in the neargrid-weight method
-/
namespace BaderKit

variable {K : Type*} [Field K] [LinearOrder K] [IsStrictOrderedRing K]

/-- Inputs as the class prepares them. -/
structure NWOk (W : NWIn K) : Prop where
  fitsV : ∀ t ∈ W.vor, StepFits W.s t.1
  fitsA : ∀ t ∈ W.all, StepFits W.s t.1
  alpha : ∀ t ∈ W.vor, 0 < t.2
  dist : ∀ t ∈ W.all, 0 < t.2
  sub : ∀ t ∈ W.vor, t.1 ∈ W.all.map Prod.fst
  labels : ∀ v < W.s.size, -1 ≤ W.labels v ∧ W.labels v < W.nb
  basin : 0 < W.nb

/-- An edge voxel from which the reference does not rise in any direction. -/
def EdgeTop (W : NWIn K) (v : ℕ) : Prop :=
  W.edge v = true ∧ ∀ t ∈ W.all, W.ref (nbr W.s v t.1) ≤ W.ref v

instance (W : NWIn K) (v : ℕ) : Decidable (EdgeTop W v) := by unfold EdgeTop; infer_instance

section
variable {W : NWIn K}

theorem nwRow_top (H : NWOk W) {v : ℕ} (h : EdgeTop W v) : nwRow W v = [(1, v)] := by
  have : W.vor.filter (fun (t : Coord × K) => !decide (W.ref (nbr W.s v t.1) ≤ W.ref v)) = [] := by
    rw [List.filter_eq_nil_iff]
    intro t ht
    obtain ⟨u, hu, e⟩ := List.mem_map.mp (H.sub t ht)
    have := h.2 u hu
    rw [e] at this
    simp [this]
  unfold nwRow
  simp only [this, List.map_nil, List.sum_nil, if_true]
  rw [bestNeighbor_self W.s W.ref v W.all H.dist h.2]

theorem nwRow_rise (H : NWOk W) {v : ℕ} (hv : v < W.s.size) (h : ∃ t ∈ W.all, W.ref v < W.ref (nbr W.s v t.1)) :
    ((nwRow W v).map Prod.fst).sum = 1 ∧ (∀ e ∈ nwRow W v, 0 ≤ e.1 ∧ W.ref v < W.ref e.2 ∧ e.2 < W.s.size) := by
  unfold nwRow
  simp only
  set row := (W.vor.filter (fun (t : Coord × K) => !decide (W.ref (nbr W.s v t.1) ≤ W.ref v))).map
    (fun (t : Coord × K) => ((W.ref (nbr W.s v t.1) - W.ref v) * t.2, nbr W.s v t.1)) with hrow
  have hr : ∀ e ∈ row, 0 < e.1 ∧ W.ref v < W.ref e.2 ∧ e.2 < W.s.size := by
    intro e he
    rw [hrow, List.mem_map] at he
    obtain ⟨t, ht, rfl⟩ := he
    rw [List.mem_filter] at ht
    have hlt : W.ref v < W.ref (nbr W.s v t.1) := by simpa using ht.2
    exact ⟨mul_pos (by linarith) (H.alpha t ht.1), hlt, nbr_lt hv (H.fitsV t ht.1)⟩
  clear_value row
  have hnn : 0 ≤ (row.map Prod.fst).sum := by
    apply List.sum_nonneg
    intro x hx
    obtain ⟨e, he, rfl⟩ := List.mem_map.mp hx
    exact (hr e he).1.le
  split_ifs with h0
  · obtain ⟨h1, t, ht, e⟩ := bestNeighbor_higher W.s W.ref v W.all H.dist h
    refine ⟨by simp, ?_⟩
    intro x hx
    rw [List.mem_singleton] at hx
    subst hx
    refine ⟨zero_le_one, h1, ?_⟩
    rw [e]; exact nbr_lt hv (H.fitsA t ht)
  · have hp : 0 < (row.map Prod.fst).sum := lt_of_le_of_ne hnn (Ne.symm h0)
    constructor
    · rw [List.map_map]
      have : (row.map ((Prod.fst : K × ℕ → K) ∘ fun e => (e.1 / (row.map Prod.fst).sum, e.2))) =
          (row.map Prod.fst).map (fun x => x * ((row.map Prod.fst).sum)⁻¹) := by
        rw [List.map_map]
        apply List.map_congr_left
        intro e _
        simp [div_eq_mul_inv]
      rw [this, List.sum_map_mul_right, List.map_id', mul_inv_cancel₀ h0]
    · intro x hx
      obtain ⟨e, he, rfl⟩ := List.mem_map.mp hx
      obtain ⟨a, b, c⟩ := hr e he
      exact ⟨div_nonneg a.le hp.le, b, c⟩

/-- What is in the basins and still on the edges of `R`. -/
def nwCharge (W : NWIn K) (st : NWState K) (R : Finset ℕ) : K := ∑ b ∈ Finset.range W.nb, st.charges b + ∑ v ∈ R, st.flatC v
/-- The same for volumes. -/
def nwVolume (W : NWIn K) (st : NWState K) (R : Finset ℕ) : K := ∑ b ∈ Finset.range W.nb, st.volumes b + ∑ v ∈ R, st.flatV v

theorem pyIdx_lt (H : NWOk W) {v : ℕ} (hv : v < W.s.size) : pyIdx W.nb (W.labels v) < W.nb := by
  obtain ⟨h1, h2⟩ := H.labels v hv
  have := H.basin
  unfold pyIdx
  split_ifs <;> omega

theorem sum_bump {S : Finset ℕ} {f : ℕ → K} {b : ℕ} (hb : b ∈ S) (x : K) :
    ∑ i ∈ S, Function.update f b (f b + x) i = ∑ i ∈ S, f i + x := by
  rw [Finset.sum_update_of_mem hb, ← Finset.add_sum_erase S f hb, ← Finset.sdiff_singleton_eq_erase]
  ring

/-- Pushing to voxels that are still to come, or that are not edges, keeps the totals. -/
theorem nwPush_fold (H : NWOk W) (charge volume : K) (R : Finset ℕ) (row : List (K × ℕ)) :
    ∀ (st : NWState K), (∀ v, W.edge v = false → st.flatC v = 0) →
    (∀ e ∈ row, e.2 < W.s.size ∧ (W.edge e.2 = true → e.2 ∈ R)) →
    let st' := row.foldl (nwPush W charge volume) st
    nwCharge W st' R = nwCharge W st R + charge * (row.map Prod.fst).sum ∧
    nwVolume W st' R = nwVolume W st R + volume * (row.map Prod.fst).sum ∧
    (∀ v, W.edge v = false → st'.flatC v = 0) := by
  induction row with
  | nil => intro st h _; simp; exact h
  | cons e row ih =>
    intro st h hr
    simp only [List.foldl_cons]
    obtain ⟨he, hR⟩ := hr e (by simp)
    have hr' : ∀ e' ∈ row, e'.2 < W.s.size ∧ (W.edge e'.2 = true → e'.2 ∈ R) := fun e' h' => hr e' (by simp [h'])
    have hstep : nwCharge W (nwPush W charge volume st e) R = nwCharge W st R + charge * e.1 ∧
        nwVolume W (nwPush W charge volume st e) R = nwVolume W st R + volume * e.1 ∧
        (∀ v, W.edge v = false → (nwPush W charge volume st e).flatC v = 0) := by
      unfold nwPush
      split_ifs with h0
      · refine ⟨?_, ?_, h⟩
        · unfold nwCharge
          simp only
          rw [sum_bump (Finset.mem_range.mpr (pyIdx_lt H he))]; ring
        · unfold nwVolume
          simp only
          rw [sum_bump (Finset.mem_range.mpr (pyIdx_lt H he))]; ring
      · have hedge : W.edge e.2 = true := by
          by_contra hc
          exact h0 (h _ (by simpa using hc))
        refine ⟨?_, ?_, ?_⟩
        · unfold nwCharge
          simp only
          rw [sum_bump (hR hedge)]; ring
        · unfold nwVolume
          simp only
          rw [sum_bump (hR hedge)]; ring
        · intro v hv
          simp only
          rw [Function.update_of_ne]
          · exact h v hv
          · rintro rfl; rw [hedge] at hv; cases hv
    obtain ⟨a, b, c⟩ := ih _ hstep.2.2 hr'
    refine ⟨?_, ?_, c⟩
    · rw [a, hstep.1]; simp; ring
    · rw [b, hstep.2.1]; simp; ring

/-- Flat charges and volumes never fall if nothing negative is pushed. -/
theorem nwPush_mono (charge volume : K) (hc : 0 ≤ charge) (hv : 0 ≤ volume) (row : List (K × ℕ)) (hrow : ∀ e ∈ row, 0 ≤ e.1) :
    ∀ (st : NWState K) (v : ℕ), st.flatC v ≤ (row.foldl (nwPush W charge volume) st).flatC v ∧
      st.flatV v ≤ (row.foldl (nwPush W charge volume) st).flatV v := by
  induction row with
  | nil => intro st v; exact ⟨le_refl _, le_refl _⟩
  | cons e row ih =>
    intro st v
    have he := hrow e (by simp)
    obtain ⟨a, b⟩ := ih (fun e' h' => hrow e' (by simp [h'])) (nwPush W charge volume st e) v
    have : st.flatC v ≤ (nwPush W charge volume st e).flatC v ∧ st.flatV v ≤ (nwPush W charge volume st e).flatV v := by
      unfold nwPush
      split_ifs
      · exact ⟨le_refl _, le_refl _⟩
      · constructor
        · by_cases h : v = e.2
          · subst h; simp only [Function.update_self]; nlinarith [mul_nonneg hc he]
          · simp only [Function.update_of_ne h]; exact le_refl _
        · by_cases h : v = e.2
          · subst h; simp only [Function.update_self]; nlinarith [mul_nonneg hv he]
          · simp only [Function.update_of_ne h]; exact le_refl _
    exact ⟨this.1.trans a, this.2.trans b⟩

/-- The charge data rise wherever the reference rises, from edge to edge (in particular if they are the same data). -/
def SameOrder (W : NWIn K) : Prop :=
  ∀ v w, v < W.s.size → w < W.s.size → W.edge v = true → W.edge w = true → W.ref v < W.ref w → W.chg v < W.chg w

theorem nwEdges_fold (H : NWOk W) (hord : SameOrder W) :
    ∀ (l : List ℕ) (st : NWState K), l.Nodup → l.Pairwise (fun a b => W.chg a ≤ W.chg b) →
    (∀ v ∈ l, v < W.s.size ∧ W.edge v = true) →
    (∀ w < W.s.size, W.edge w = true → w ∉ l → ∀ u ∈ l, W.chg w ≤ W.chg u) →
    (∀ v, W.edge v = false → st.flatC v = 0) →
    let st' := l.foldl (nwEdge W) st
    ((∀ v ∈ l, ¬ EdgeTop W v) →
      ∑ b ∈ Finset.range W.nb, st'.charges b = nwCharge W st l.toFinset ∧
      ∑ b ∈ Finset.range W.nb, st'.volumes b = nwVolume W st l.toFinset) ∧
    ((∀ v ∈ l, 0 < W.chg v) → (∀ v ∈ l, W.chg v ≤ st.flatC v ∧ 1 ≤ st.flatV v) →
      ∑ b ∈ Finset.range W.nb, st'.charges b + ∑ v ∈ l.toFinset.filter (EdgeTop W), W.chg v ≤ nwCharge W st l.toFinset ∧
      ∑ b ∈ Finset.range W.nb, st'.volumes b + ∑ v ∈ l.toFinset.filter (EdgeTop W), (1 : K) ≤ nwVolume W st l.toFinset) := by
  intro l
  induction l with
  | nil =>
    intro st _ _ _ _ _
    simp [nwCharge, nwVolume]
  | cons v l ih =>
    intro st hnd hsort hl hout h0
    obtain ⟨hvl, hnd'⟩ := List.nodup_cons.mp hnd
    obtain ⟨hs1, hs2⟩ := List.pairwise_cons.mp hsort
    obtain ⟨hvN, hve⟩ := hl v (by simp)
    have hl' : ∀ u ∈ l, u < W.s.size ∧ W.edge u = true := fun u hu => hl u (by simp [hu])
    have hvF : v ∉ l.toFinset := by simpa using hvl
    have hout' : ∀ w < W.s.size, W.edge w = true → w ∉ l → ∀ u ∈ l, W.chg w ≤ W.chg u := by
      intro w hw hwe hwl u hu
      by_cases hwv : w = v
      · subst hwv; exact hs1 u hu
      · exact hout w hw hwe (by simp [hwv, hwl]) u (by simp [hu])
    have hQ : nwCharge W st (v :: l).toFinset = nwCharge W st l.toFinset + st.flatC v := by
      unfold nwCharge
      rw [List.toFinset_cons, Finset.sum_insert hvF]; ring
    have hV : nwVolume W st (v :: l).toFinset = nwVolume W st l.toFinset + st.flatV v := by
      unfold nwVolume
      rw [List.toFinset_cons, Finset.sum_insert hvF]; ring
    simp only [List.foldl_cons]
    by_cases htop : EdgeTop W v
    · -- nothing leaves the voxel
      have hst : nwEdge W st v = { st with
          flatC := Function.update st.flatC v (st.flatC v + st.flatC v * 1)
          flatV := Function.update st.flatV v (st.flatV v + st.flatV v * 1) } ∨ st.flatC v = 0 := by
        by_cases hz : st.flatC v = 0
        · exact .inr hz
        · left
          unfold nwEdge
          rw [nwRow_top H htop]
          simp only [List.foldl_cons, List.foldl_nil, nwPush, if_neg hz]
      refine ⟨fun h => absurd htop (h v (by simp)), ?_⟩
      intro hpos hge
      have hfilter : (v :: l).toFinset.filter (EdgeTop W) = insert v (l.toFinset.filter (EdgeTop W)) := by
        rw [List.toFinset_cons, Finset.filter_insert, if_pos htop]
      have hnf : v ∉ l.toFinset.filter (EdgeTop W) := fun h => hvF (Finset.mem_filter.mp h).1
      rw [hfilter, Finset.sum_insert hnf, Finset.sum_insert hnf, hQ, hV]
      rcases hst with hst | hz
      · have h0' : ∀ u, W.edge u = false → (nwEdge W st v).flatC u = 0 := by
          intro u hu
          rw [hst]
          simp only
          rw [Function.update_of_ne (by rintro rfl; rw [hve] at hu; cases hu)]
          exact h0 u hu
        obtain ⟨_, i2⟩ := ih (nwEdge W st v) hnd' hs2 hl' hout' h0'
        have hne : ∀ u ∈ l, u ≠ v := fun u hu e => hvl (e ▸ hu)
        obtain ⟨a, b⟩ := i2 (fun u hu => hpos u (by simp [hu])) (fun u hu => by
          rw [hst]; simp only [Function.update_of_ne (hne u hu)]; exact hge u (by simp [hu]))
        have eC : nwCharge W (nwEdge W st v) l.toFinset = nwCharge W st l.toFinset := by
          rw [hst]; unfold nwCharge; simp only
          rw [Finset.sum_update_of_notMem hvF]
        have eV : nwVolume W (nwEdge W st v) l.toFinset = nwVolume W st l.toFinset := by
          rw [hst]; unfold nwVolume; simp only
          rw [Finset.sum_update_of_notMem hvF]
        rw [eC] at a
        rw [eV] at b
        obtain ⟨g1, g2⟩ := hge v (by simp)
        constructor <;> linarith
      · obtain ⟨g1, _⟩ := hge v (by simp)
        have := hpos v (by simp)
        rw [hz] at g1
        exact absurd this (not_lt.mpr g1)
    · obtain ⟨r1, r2⟩ := nwRow_rise H hvN (by
        unfold EdgeTop at htop
        push Not at htop
        exact htop hve)
      have htarget : ∀ e ∈ nwRow W v, e.2 < W.s.size ∧ (W.edge e.2 = true → e.2 ∈ l.toFinset) := by
        intro e he
        obtain ⟨_, hlt, hN⟩ := r2 e he
        refine ⟨hN, fun hee => ?_⟩
        have hch := hord v e.2 hvN hN hve hee hlt
        by_contra hc
        have hne : e.2 ≠ v := by intro h; rw [h] at hch; exact lt_irrefl _ hch
        have := hout e.2 hN hee (by simp only [List.mem_cons, not_or]; exact ⟨hne, by simpa using hc⟩) v (by simp)
        exact absurd hch (not_lt.mpr this)
      obtain ⟨p1, p2, p3⟩ := nwPush_fold H (st.flatC v) (st.flatV v) l.toFinset (nwRow W v) st h0 htarget
      rw [r1, mul_one] at p1 p2
      obtain ⟨i1, i2⟩ := ih (nwEdge W st v) hnd' hs2 hl' hout' p3
      constructor
      · intro hno
        obtain ⟨a, b⟩ := i1 (fun u hu => hno u (by simp [hu]))
        rw [hQ, hV]
        exact ⟨a.trans p1, b.trans p2⟩
      · intro hpos hge
        have hfilter : (v :: l).toFinset.filter (EdgeTop W) = l.toFinset.filter (EdgeTop W) := by
          rw [List.toFinset_cons, Finset.filter_insert, if_neg htop]
        obtain ⟨g1, g2⟩ := hge v (by simp)
        have hm := nwPush_mono (W := W) (st.flatC v) (st.flatV v) ((hpos v (by simp)).le.trans g1) (zero_le_one.trans g2) (nwRow W v)
          (fun e he => (r2 e he).1)
        obtain ⟨a, b⟩ := i2 (fun u hu => hpos u (by simp [hu])) (fun u hu =>
          ⟨(hge u (by simp [hu])).1.trans (hm st u).1, (hge u (by simp [hu])).2.trans (hm st u).2⟩)
        rw [hfilter, hQ, hV]
        exact ⟨a.trans p1.le, b.trans p2.le⟩

/-- The interior phase credits every voxel that is not an edge. -/
theorem nwInterior_sum (H : NWOk W) (l : List ℕ) (hl : ∀ v ∈ l, v < W.s.size) (a : ChargeAcc K) :
    let r := l.foldl (nwInteriorStep W) a
    (∑ b ∈ Finset.range W.nb, r.charges b + r.vacCharge =
      ∑ b ∈ Finset.range W.nb, a.charges b + a.vacCharge + (l.map fun v => if W.edge v = true then 0 else W.chg v).sum) ∧
    (∑ b ∈ Finset.range W.nb, r.volumes b + r.vacVolume =
      ∑ b ∈ Finset.range W.nb, a.volumes b + a.vacVolume + (l.map fun v => if W.edge v = true then (0 : K) else 1).sum) ∧
    r.vacCharge = a.vacCharge + (l.map fun v => if W.edge v = false ∧ W.labels v < 0 then W.chg v else 0).sum := by
  induction l generalizing a with
  | nil => simp
  | cons v l ih =>
    obtain ⟨i1, i2, i3⟩ := ih (fun u hu => hl u (by simp [hu])) (nwInteriorStep W a v)
    simp only [List.foldl_cons, List.map_cons, List.sum_cons]
    rw [i1, i2, i3]
    obtain ⟨h1, h2⟩ := H.labels v (hl v (by simp))
    unfold nwInteriorStep
    by_cases he : W.edge v = true
    · simp [he]
    · rw [if_neg he, if_neg he, if_neg he]
      have he' : W.edge v = false := by simpa using he
      by_cases hneg : W.labels v < 0
      · rw [if_pos hneg, if_pos ⟨he', hneg⟩]
        refine ⟨?_, ?_, ?_⟩ <;> simp only <;> ring
      · rw [if_neg hneg, if_neg (fun h => hneg h.2)]
        have hb : (W.labels v).toNat ∈ Finset.range W.nb := by rw [Finset.mem_range]; omega
        simp only
        rw [sum_bump hb, sum_bump hb]
        refine ⟨?_, ?_, ?_⟩ <;> ring

theorem nwOrder_mem {v : ℕ} : v ∈ nwOrder W ↔ v < W.s.size ∧ W.edge v = true := by
  unfold nwOrder
  rw [List.mem_insertionSort, List.mem_filter, List.mem_range]

theorem nwOrder_finset : (nwOrder W).toFinset = (Finset.range W.s.size).filter (fun v => W.edge v = true) := by
  ext v; rw [List.mem_toFinset, nwOrder_mem, Finset.mem_filter, Finset.mem_range]

/-- The totals before scaling, with and without edge maxima. -/
theorem nw_totals (H : NWOk W) (hord : SameOrder W) :
    let i := nwInterior W
    let e := nwEdges W i.charges i.volumes
    ((∀ v < W.s.size, ¬ EdgeTop W v) →
      ∑ b ∈ Finset.range W.nb, e.charges b + i.vacCharge = ∑ v ∈ Finset.range W.s.size, W.chg v ∧
      ∑ b ∈ Finset.range W.nb, e.volumes b + i.vacVolume = W.s.size) ∧
    ((∀ v < W.s.size, W.edge v = true → 0 < W.chg v) →
      ∑ b ∈ Finset.range W.nb, e.charges b + i.vacCharge + ∑ v ∈ (Finset.range W.s.size).filter (EdgeTop W), W.chg v ≤
        ∑ v ∈ Finset.range W.s.size, W.chg v ∧
      ∑ b ∈ Finset.range W.nb, e.volumes b + i.vacVolume + ((Finset.range W.s.size).filter (EdgeTop W)).card ≤ W.s.size) := by
  intro i e
  obtain ⟨s1, s2, _⟩ := nwInterior_sum H (List.range W.s.size) (fun v hv => List.mem_range.mp hv) ⟨fun _ => 0, fun _ => 0, 0, 0⟩
  change ∑ b ∈ Finset.range W.nb, i.charges b + i.vacCharge = _ at s1
  change ∑ b ∈ Finset.range W.nb, i.volumes b + i.vacVolume = _ at s2
  simp only [Finset.sum_const_zero, zero_add, sum_range_list] at s1 s2
  have hnd : (nwOrder W).Nodup := by
    unfold nwOrder
    exact (List.perm_insertionSort _ _).nodup_iff.mpr (List.nodup_range.filter _)
  have hsort : (nwOrder W).Pairwise (fun a b => W.chg a ≤ W.chg b) := by
    unfold nwOrder
    haveI : Std.Total (fun a b : ℕ => W.chg a ≤ W.chg b) := ⟨fun a b => le_total _ _⟩
    haveI : IsTrans ℕ (fun a b : ℕ => W.chg a ≤ W.chg b) := ⟨fun a b c => le_trans⟩
    exact List.pairwise_insertionSort _ _
  obtain ⟨f1, f2⟩ := nwEdges_fold H hord (nwOrder W) ⟨i.charges, i.volumes, fun v => if v < W.s.size ∧ W.edge v = true then W.chg v else 0, fun _ => 1⟩
    hnd hsort (fun v hv => nwOrder_mem.mp hv) (fun w hw he hn => absurd (nwOrder_mem.mpr ⟨hw, he⟩) hn)
    (fun v hv => by simp [hv])
  have eC : nwCharge W ⟨i.charges, i.volumes, fun v => if v < W.s.size ∧ W.edge v = true then W.chg v else 0, fun _ => 1⟩ (nwOrder W).toFinset =
      ∑ b ∈ Finset.range W.nb, i.charges b + ∑ v ∈ Finset.range W.s.size, if W.edge v = true then W.chg v else 0 := by
    unfold nwCharge
    simp only
    rw [nwOrder_finset, Finset.sum_filter]
    congr 1
    apply Finset.sum_congr rfl
    intro v hv
    rw [Finset.mem_range] at hv
    by_cases h : W.edge v = true <;> simp [h, hv]
  have eV : nwVolume W ⟨i.charges, i.volumes, fun v => if v < W.s.size ∧ W.edge v = true then W.chg v else 0, fun _ => 1⟩ (nwOrder W).toFinset =
      ∑ b ∈ Finset.range W.nb, i.volumes b + ∑ v ∈ Finset.range W.s.size, if W.edge v = true then (1 : K) else 0 := by
    unfold nwVolume
    simp only
    rw [nwOrder_finset, Finset.sum_filter]
  have hC : (∑ v ∈ Finset.range W.s.size, if W.edge v = true then 0 else W.chg v) +
      (∑ v ∈ Finset.range W.s.size, if W.edge v = true then W.chg v else 0) = ∑ v ∈ Finset.range W.s.size, W.chg v := by
    rw [← Finset.sum_add_distrib]
    apply Finset.sum_congr rfl
    intro v _
    split_ifs <;> simp
  have hV : (∑ v ∈ Finset.range W.s.size, if W.edge v = true then (0 : K) else 1) +
      (∑ v ∈ Finset.range W.s.size, if W.edge v = true then (1 : K) else 0) = W.s.size := by
    rw [← Finset.sum_add_distrib]
    rw [Finset.sum_congr rfl (g := fun _ => (1 : K)) (fun v _ => by split_ifs <;> simp)]
    simp
  rw [eC, eV] at f1 f2
  constructor
  · intro hno
    obtain ⟨a, b⟩ := f1 (fun v hv => hno v (nwOrder_mem.mp hv).1)
    change ∑ b ∈ Finset.range W.nb, e.charges b = _ at a
    change ∑ b ∈ Finset.range W.nb, e.volumes b = _ at b
    constructor <;> linarith
  · intro hpos
    obtain ⟨a, b⟩ := f2 (fun v hv => hpos v (nwOrder_mem.mp hv).1 (nwOrder_mem.mp hv).2)
      (fun v hv => by simp [nwOrder_mem.mp hv])
    have hfe : (nwOrder W).toFinset.filter (EdgeTop W) = (Finset.range W.s.size).filter (EdgeTop W) := by
      rw [nwOrder_finset, Finset.filter_filter]
      apply Finset.filter_congr
      intro v _
      exact ⟨fun h => h.2, fun h => ⟨h.1, h⟩⟩
    rw [hfe] at a b
    rw [Finset.sum_const, nsmul_eq_mul, mul_one] at b
    change ∑ b ∈ Finset.range W.nb, e.charges b + _ ≤ _ at a
    change ∑ b ∈ Finset.range W.nb, e.volumes b + _ ≤ _ at b
    constructor <;> linarith

/-- **C50** (part) If charge and reference rise together and no edge voxel is a maximum of the reference, the basins and the
vacuum (divided by the number of points, which the code leaves out) hold the whole charge and volume.  Missing: edge maxima and
references ordered differently, for which it is false (`C50_edge_maximum_lost`, `C50_other_reference_lost`). -/
theorem C50_totals_partial (H : NWOk W) (hord : SameOrder W) (htop : ∀ v < W.s.size, ¬ EdgeTop W v) (hN : 0 < W.s.size) (cell : K) :
    let r := nwResults W cell
    ∑ b ∈ Finset.range W.nb, r.charges b + r.vacCharge / W.s.size = (∑ v ∈ Finset.range W.s.size, W.chg v) / W.s.size ∧
    ∑ b ∈ Finset.range W.nb, r.volumes b + r.vacVolume * cell / W.s.size = cell := by
  obtain ⟨a, b⟩ := (nw_totals H hord).1 htop
  have hN' : (W.s.size : K) ≠ 0 := by exact_mod_cast hN.ne'
  simp only [nwResults]
  constructor
  · rw [← Finset.sum_div, ← add_div, a]
  · rw [← Finset.sum_div, ← Finset.sum_mul, ← add_div, ← add_mul, b]
    field_simp

/-- **C50** Every edge voxel that is a maximum of the reference loses at least its own charge and volume: whenever there is one (with
positive charges), the reported totals are too small. -/
theorem C50_edge_maximum_lost (H : NWOk W) (hord : SameOrder W) (hpos : ∀ v < W.s.size, W.edge v = true → 0 < W.chg v) (cell : K)
    (hcell : 0 < cell) {v : ℕ} (hv : v < W.s.size) (htop : EdgeTop W v) :
    let r := nwResults W cell
    ∑ b ∈ Finset.range W.nb, r.charges b + r.vacCharge / W.s.size < (∑ v ∈ Finset.range W.s.size, W.chg v) / W.s.size ∧
    ∑ b ∈ Finset.range W.nb, r.volumes b + r.vacVolume * cell / W.s.size < cell := by
  obtain ⟨a, b⟩ := (nw_totals H hord).2 hpos
  have hN' : (0 : K) < W.s.size := by exact_mod_cast (by omega : 0 < W.s.size)
  have hmem : v ∈ (Finset.range W.s.size).filter (EdgeTop W) := Finset.mem_filter.mpr ⟨Finset.mem_range.mpr hv, htop⟩
  have hc : 0 < ∑ v ∈ (Finset.range W.s.size).filter (EdgeTop W), W.chg v := by
    apply Finset.sum_pos
    · intro u hu
      obtain ⟨h1, h2⟩ := Finset.mem_filter.mp hu
      exact hpos u (Finset.mem_range.mp h1) h2.1
    · exact ⟨v, hmem⟩
  have hcard : (0 : K) < ((Finset.range W.s.size).filter (EdgeTop W)).card := by
    exact_mod_cast Finset.card_pos.mpr ⟨v, hmem⟩
  simp only [nwResults]
  constructor
  · rw [← Finset.sum_div, ← add_div]
    exact div_lt_div_of_pos_right (by linarith) hN'
  · rw [← Finset.sum_div, ← Finset.sum_mul, ← add_div, ← add_mul, div_lt_iff₀ hN', mul_comm cell]
    exact mul_lt_mul_of_pos_right (by linarith) hcell

/-- **C50** The reported vacuum charge is the plain sum over the voxels of the vacuum: it lacks the division by the number of points
that the basin charges have. -/
theorem C50_vacuum_not_normalised (H : NWOk W) (cell : K) (hedge : ∀ v < W.s.size, W.labels v < 0 → W.edge v = false) :
    (nwResults W cell).vacCharge = ∑ v ∈ (Finset.range W.s.size).filter (fun v => W.labels v < 0), W.chg v := by
  obtain ⟨_, _, s3⟩ := nwInterior_sum H (List.range W.s.size) (fun v hv => List.mem_range.mp hv) ⟨fun _ => 0, fun _ => 0, 0, 0⟩
  change (nwInterior W).vacCharge = _ at s3
  simp only [zero_add, sum_range_list] at s3
  simp only [nwResults]
  rw [s3, Finset.sum_filter]
  apply Finset.sum_congr rfl
  intro v hv
  by_cases h : W.labels v < 0
  · simp [h, hedge v (Finset.mem_range.mp hv) h]
  · simp [h]

/-- **C50** The reported vacuum volume is the number of voxels of the vacuum, not a volume. -/
theorem C50_vacuum_volume (W : NWIn K) (cell : K) (hedge : ∀ v < W.s.size, W.labels v < 0 → W.edge v = false) :
    (nwResults W cell).vacVolume = ((Finset.range W.s.size).filter (fun v => W.labels v < 0)).card := by
  have key : ∀ (l : List ℕ) (a : ChargeAcc K), (∀ v ∈ l, v < W.s.size) →
      (l.foldl (nwInteriorStep W) a).vacVolume = a.vacVolume + (l.map fun v => if W.labels v < 0 then (1 : K) else 0).sum := by
    intro l
    induction l with
    | nil => intro a _; simp
    | cons v l ih =>
      intro a hl
      rw [List.foldl_cons, ih _ (fun u hu => hl u (by simp [hu])), List.map_cons, List.sum_cons, ← add_assoc]
      congr 1
      unfold nwInteriorStep
      by_cases hneg : W.labels v < 0
      · have he := hedge v (hl v (by simp)) hneg
        simp [he, hneg]
      · by_cases he : W.edge v = true
        · simp [he, hneg]
        · simp [he, hneg]
  simp only [nwResults, nwInterior]
  rw [key _ _ (fun v hv => List.mem_range.mp hv), sum_range_list, ← Finset.sum_filter, Finset.sum_const]
  simp

end

/-! ## Concrete runs -/

/-- A ring of voxels along the third axis; the edges are found by the code from the labels. -/
def ringNW (n : ℕ) (ref chg : List ℚ) (labels : List ℤ) : NWIn ℚ where
  s := ⟨1, 1, n⟩
  ref := fun v => ref.getD v 0
  chg := fun v => chg.getD v 0
  vor := [((0, 0, 1), 1), ((0, 0, -1), 1)]
  all := [((0, 0, 1), 1), ((0, 0, -1), 1)]
  labels := fun v => labels.getD v 0
  edge := getEdges ⟨1, 1, n⟩ (fun v => labels.getD v 0) [(0, 0, 1), (0, 0, -1)] (fun _ => false) (List.range n)
  nb := 2

theorem ringNW_ok (n : ℕ) (ref chg : List ℚ) (labels : List ℤ) (hn : 0 < n)
    (hl : ∀ v < n, -1 ≤ labels.getD v 0 ∧ labels.getD v 0 < 2) : NWOk (ringNW n ref chg labels) := by
  have hf : ∀ t ∈ ([((0, 0, 1), 1), ((0, 0, -1), 1)] : List (Coord × ℚ)), StepFits ⟨1, 1, n⟩ t.1 := by
    intro t ht
    simp only [List.mem_cons, List.not_mem_nil, or_false] at ht
    unfold StepFits
    rcases ht with rfl | rfl <;> refine ⟨by simp, by simp, ?_⟩ <;> simp only <;> omega
  have hp : ∀ t ∈ ([((0, 0, 1), 1), ((0, 0, -1), 1)] : List (Coord × ℚ)), 0 < t.2 := by
    intro t ht
    simp only [List.mem_cons, List.not_mem_nil, or_false] at ht
    rcases ht with rfl | rfl <;> norm_num
  refine ⟨hf, hf, hp, hp, fun t ht => List.mem_map_of_mem ht, ?_, by simp [ringNW]⟩
  intro v hv
  refine hl v ?_
  simpa [ringNW, Shape.size] using hv

/-- Two basins with maxima at voxels 0 and 4. -/
def nwGood : NWIn ℚ := ringNW 8 [9, 5, 2, 5, 8, 5, 1, 4] [9, 5, 2, 5, 8, 5, 1, 4] [0, 0, 0, 1, 1, 1, 1, 0]

set_option maxRecDepth 100000 in
/-- The hypotheses of `C50_totals_partial` hold, there are four edges, and the totals are right. -/
example : NWOk nwGood ∧ SameOrder nwGood ∧ (∀ v < nwGood.s.size, ¬ EdgeTop nwGood v) ∧ nwOrder nwGood = [6, 2, 7, 3] ∧
    ∑ b ∈ Finset.range 2, (nwEdges nwGood (nwInterior nwGood).charges (nwInterior nwGood).volumes).charges b = 39 := by
  refine ⟨ringNW_ok _ _ _ _ (by decide) (by decide +kernel), fun v w _ _ _ _ h => h, by decide +kernel, by decide +kernel, by decide +kernel⟩

/-- Maxima two voxels apart: the second maximum is an edge. -/
def nwTop : NWIn ℚ := ringNW 4 [4, 1, 3, 1] [4, 1, 3, 1] [0, 0, 1, 0]

set_option maxRecDepth 100000 in
/-- The hypotheses of `C50_edge_maximum_lost` hold: of 9 only 5.2 arrive. -/
example : NWOk nwTop ∧ SameOrder nwTop ∧ EdgeTop nwTop 2 ∧ (∀ v < nwTop.s.size, nwTop.edge v = true → 0 < nwTop.chg v) ∧
    ∑ b ∈ Finset.range 2, (nwEdges nwTop (nwInterior nwTop).charges (nwInterior nwTop).volumes).charges b = 26 / 5 := by
  refine ⟨ringNW_ok _ _ _ _ (by decide) (by decide +kernel), fun v w _ _ _ _ h => h, by decide +kernel, by decide +kernel, by decide +kernel⟩

set_option maxRecDepth 100000 in
/-- **C50** With a reference that is ordered differently from the charge, charge is lost although no edge is a maximum: it is pushed
onto an edge voxel that has been processed already. -/
theorem C50_other_reference_lost : ∃ W : NWIn ℚ, NWOk W ∧ (∀ v < W.s.size, ¬ EdgeTop W v) ∧ (∀ v < W.s.size, 0 < W.chg v) ∧
    ∑ b ∈ Finset.range W.nb, (nwResults W 1).charges b + (nwResults W 1).vacCharge <
      (∑ v ∈ Finset.range W.s.size, W.chg v) / W.s.size := by
  refine ⟨ringNW 8 [9, 5, 2, 5, 8, 5, 1, 4] [9, 5, 6, 5, 8, 5, 1, 4] [0, 0, 0, 1, 1, 1, 1, 0],
    ringNW_ok _ _ _ _ (by decide) (by decide +kernel), by decide +kernel, by decide +kernel, by decide +kernel⟩

/-- Two vacuum voxels beside one basin, without edges. -/
def nwVac : NWIn ℚ := { ringNW 8 [9, 5, 2, 5, 8, 5, 1, 1] [9, 5, 2, 5, 8, 5, 1, 1] [0, 0, 0, 0, 0, 0, -1, -1] with
  edge := getEdges ⟨1, 1, 8⟩ (fun v => [(0 : ℤ), 0, 0, 0, 0, 0, -1, -1].getD v 0) [(0, 0, 1), (0, 0, -1)] (fun v => decide (6 ≤ v)) (List.range 8) }

set_option maxRecDepth 100000 in
/-- The hypotheses of `C50_vacuum_not_normalised` in a concrete case: two vacuum voxels of charge 1 among eight are reported as 2,
not 2/8. -/
example : (∀ v < 8, nwVac.labels v < 0 → nwVac.edge v = false) ∧ (nwResults nwVac 1).vacCharge = 2 := by
  decide +kernel

end BaderKit
