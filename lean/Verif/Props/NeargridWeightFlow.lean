import Verif.Props.NeargridWeight
/-!
# C50: the charges of the neargrid-weight method solve the flow equations
-/
set_option linter.unusedSectionVars false
namespace BaderKit
open Finset
variable {K : Type*} [Field K] [LinearOrder K] [IsStrictOrderedRing K]

/-! ## Specification -/

/-- The part of what leaves a voxel with the row `row` that goes to the voxel `w`. -/
def rowTo (row : List (K × ℕ)) (w : ℕ) : K := (row.map fun e => if e.2 = w then e.1 else 0).sum

/-- The part of what an edge voxel `u` holds that goes to another voxel `v`. -/
def edgeShare (W : NWIn K) (u v : ℕ) : K := if v = u then 0 else rowTo (nwRow W u) v

/-- The part that goes to voxels of the basin `b` that are no edges. -/
def rowBasin (W : NWIn K) (row : List (K × ℕ)) (b : ℕ) : K :=
  (row.map fun e => if W.edge e.2 = false ∧ pyIdx W.nb (W.labels e.2) = b then e.1 else 0).sum

/-- The edge voxels. -/
def NWIn.edges (W : NWIn K) : Finset ℕ := (range W.s.size).filter fun v => W.edge v = true

/-- `X v` is what an edge voxel holds when all that flows into it has arrived: its own amount `q v` and its parts of what the other edge voxels hold. -/
def EdgeFlow (W : NWIn K) (q X : ℕ → K) : Prop := ∀ v ∈ W.edges, X v = q v + ∑ u ∈ W.edges, X u * edgeShare W u v

/-- What the basin `b` holds: the amounts of its voxels inside, and the parts of what the edge voxels hold. -/
def basinHolds (W : NWIn K) (q X : ℕ → K) (b : ℕ) : K :=
  ∑ v ∈ (range W.s.size).filter (fun v => W.edge v = false ∧ W.labels v = b), q v + ∑ u ∈ W.edges, X u * rowBasin W (nwRow W u) b

/-! ## One voxel -/

/-- Edge voxels hold something, other voxels nothing. -/
def NWLive (W : NWIn K) (st : NWState K) : Prop := (∀ w < W.s.size, W.edge w = true → 0 < st.flatC w) ∧ ∀ w, W.edge w = false → st.flatC w = 0

variable {W : NWIn K}

theorem nwPush_flow {c : K} (d : K) (hc : 0 ≤ c) (row : List (K × ℕ)) : ∀ st : NWState K, NWLive W st → (∀ e ∈ row, 0 ≤ e.1 ∧ e.2 < W.s.size) →
    NWLive W (row.foldl (nwPush W c d) st) ∧
    (∀ w, (row.foldl (nwPush W c d) st).flatC w = st.flatC w + if W.edge w = true then c * rowTo row w else 0) ∧
    (∀ w, (row.foldl (nwPush W c d) st).flatV w = st.flatV w + if W.edge w = true then d * rowTo row w else 0) ∧
    (∀ b, (row.foldl (nwPush W c d) st).charges b = st.charges b + c * rowBasin W row b) ∧
    (∀ b, (row.foldl (nwPush W c d) st).volumes b = st.volumes b + d * rowBasin W row b) := by
  induction row with
  | nil => intro st h _; simp [rowTo, rowBasin, h]
  | cons e row ih =>
    intro st hL hr
    obtain ⟨he, hes⟩ := hr e (by simp)
    have step : NWLive W (nwPush W c d st e) ∧
        (∀ w, (nwPush W c d st e).flatC w = st.flatC w + if W.edge w = true then c * (if e.2 = w then e.1 else 0) else 0) ∧
        (∀ w, (nwPush W c d st e).flatV w = st.flatV w + if W.edge w = true then d * (if e.2 = w then e.1 else 0) else 0) ∧
        (∀ b, (nwPush W c d st e).charges b = st.charges b + c * (if W.edge e.2 = false ∧ pyIdx W.nb (W.labels e.2) = b then e.1 else 0)) ∧
        (∀ b, (nwPush W c d st e).volumes b = st.volumes b + d * (if W.edge e.2 = false ∧ pyIdx W.nb (W.labels e.2) = b then e.1 else 0)) := by
      cases hedge : W.edge e.2 with
      | false =>
        have h0 := hL.2 e.2 hedge
        have hne : ∀ w, W.edge w = true → e.2 ≠ w := by rintro w hw rfl; rw [hedge] at hw; cases hw
        simp only [nwPush, if_pos h0]
        refine ⟨⟨hL.1, hL.2⟩, ?_, ?_, ?_, ?_⟩
        · intro w; split_ifs with h1 h2
          · exact absurd h2 (hne w h1)
          · simp
          · simp
        · intro w; split_ifs with h1 h2
          · exact absurd h2 (hne w h1)
          · simp
          · simp
        · intro b
          by_cases hb : pyIdx W.nb (W.labels e.2) = b
          · subst hb; simp
          · rw [Function.update_of_ne (Ne.symm hb)]; simp [hb]
        · intro b
          by_cases hb : pyIdx W.nb (W.labels e.2) = b
          · subst hb; simp
          · rw [Function.update_of_ne (Ne.symm hb)]; simp [hb]
      | true =>
        have h0 := hL.1 e.2 hes hedge
        simp only [nwPush, if_neg h0.ne']
        refine ⟨⟨?_, ?_⟩, ?_, ?_, ?_, ?_⟩
        · intro w hw hwe
          by_cases h : w = e.2
          · subst h; simp only [Function.update_self]; have := mul_nonneg hc he; linarith
          · simp only [Function.update_of_ne h]; exact hL.1 w hw hwe
        · intro w hwe
          have h : w ≠ e.2 := by rintro rfl; rw [hedge] at hwe; cases hwe
          simp only [Function.update_of_ne h]; exact hL.2 w hwe
        · intro w
          by_cases h : w = e.2
          · subst h; simp [hedge]
          · simp [Function.update_of_ne h, Ne.symm h]
        · intro w
          by_cases h : w = e.2
          · subst h; simp [hedge]
          · simp [Function.update_of_ne h, Ne.symm h]
        · intro b; simp
        · intro b; simp
    obtain ⟨s1, s2, s3, s4, s5⟩ := step
    obtain ⟨i1, i2, i3, i4, i5⟩ := ih (nwPush W c d st e) s1 fun e' h' => hr e' (by simp [h'])
    simp only [List.foldl_cons]
    refine ⟨i1, ?_, ?_, ?_, ?_⟩
    · intro w; rw [i2, s2]; simp only [rowTo, List.map_cons, List.sum_cons]; split_ifs <;> ring
    · intro w; rw [i3, s3]; simp only [rowTo, List.map_cons, List.sum_cons]; split_ifs <;> ring
    · intro b; rw [i4, s4]; simp only [rowBasin, List.map_cons, List.sum_cons]; ring
    · intro b; rw [i5, s5]; simp only [rowBasin, List.map_cons, List.sum_cons]; ring

theorem rowTo_zero {row : List (K × ℕ)} {w : ℕ} (h : ∀ e ∈ row, e.2 ≠ w) : rowTo row w = 0 := by
  unfold rowTo
  rw [List.map_congr_left (g := fun _ => (0 : K)) (fun e he => if_neg (h e he))]
  simp

theorem nwRow_edge (H : NWOk W) {v : ℕ} (hv : v < W.s.size) (he : W.edge v = true) :
    ∀ e ∈ nwRow W v, 0 ≤ e.1 ∧ e.2 < W.s.size ∧ (e.2 = v ∨ W.ref v < W.ref e.2) := by
  intro e hm
  by_cases ht : EdgeTop W v
  · rw [nwRow_top H ht, List.mem_singleton] at hm
    subst hm
    exact ⟨zero_le_one, hv, Or.inl rfl⟩
  · unfold EdgeTop at ht
    push Not at ht
    obtain ⟨a, b, d⟩ := (nwRow_rise H hv (ht he)).2 e hm
    exact ⟨a, d, Or.inr b⟩

theorem edgeShare_rises (H : NWOk W) (hord : SameOrder W) {u v : ℕ} (hu : u < W.s.size) (hv : v < W.s.size) (hue : W.edge u = true) (hve : W.edge v = true)
    (hz : edgeShare W u v ≠ 0) : W.chg u < W.chg v := by
  unfold edgeShare at hz
  split_ifs at hz with hne
  · exact absurd rfl hz
  · by_contra hcon
    refine hz (rowTo_zero fun e he e2 => ?_)
    rcases (nwRow_edge H hu hue e he).2.2 with h | h
    · exact hne (e2 ▸ h)
    · rw [e2] at h
      exact hcon (hord u v hu hv hue hve h)

/-! ## All edges -/

theorem nwFlow_fold (H : NWOk W) (hord : SameOrder W) :
    ∀ (l : List ℕ) (st : NWState K), NWLive W st → l.Nodup → l.Pairwise (fun a b => W.chg a ≤ W.chg b) → (∀ v ∈ l, v < W.s.size ∧ W.edge v = true) →
    ∃ X Y : ℕ → K, (∀ v ∈ l, X v = st.flatC v + (l.map fun u => X u * edgeShare W u v).sum) ∧
      (∀ v ∈ l, Y v = st.flatV v + (l.map fun u => Y u * edgeShare W u v).sum) ∧
      (∀ b, (l.foldl (nwEdge W) st).charges b = st.charges b + (l.map fun u => X u * rowBasin W (nwRow W u) b).sum) ∧
      (∀ b, (l.foldl (nwEdge W) st).volumes b = st.volumes b + (l.map fun u => Y u * rowBasin W (nwRow W u) b).sum) := by
  intro l
  induction l with
  | nil => intro st _ _ _ _; exact ⟨fun _ => 0, fun _ => 0, by simp⟩
  | cons v l ih =>
    intro st hL hnd hsort hl
    obtain ⟨hvl, hnd'⟩ := List.nodup_cons.mp hnd
    obtain ⟨hs1, hs2⟩ := List.pairwise_cons.mp hsort
    obtain ⟨hvN, hve⟩ := hl v (by simp)
    have hrow := nwRow_edge H hvN hve
    obtain ⟨p1, p2, p3, p4, p5⟩ := nwPush_flow (W := W) (st.flatV v) (hL.1 v hvN hve).le (nwRow W v) st hL fun e he => ⟨(hrow e he).1, (hrow e he).2.1⟩
    obtain ⟨X, Y, i1, i2, i3, i4⟩ := ih (nwEdge W st v) p1 hnd' hs2 fun u hu => hl u (by simp [hu])
    have hback : ∀ u ∈ v :: l, edgeShare W u v = 0 := by
      intro u hu
      obtain ⟨huN, hue⟩ := hl u hu
      by_contra hz
      have h2 := edgeShare_rises H hord huN hvN hue hve hz
      rcases List.mem_cons.mp hu with rfl | h
      · exact lt_irrefl _ h2
      · exact absurd (hs1 u h) (not_le.mpr h2)
    have hshare : ∀ w ∈ l, rowTo (nwRow W v) w = edgeShare W v w := by
      intro w hw
      unfold edgeShare
      rw [if_neg (by rintro rfl; exact hvl hw)]
    have hsum : ∀ (Z : ℕ → K) (z : K) (f : ℕ → K), ((v :: l).map fun u => Function.update Z v z u * f u).sum = z * f v + (l.map fun u => Z u * f u).sum := by
      intro Z z f
      rw [List.map_cons, List.sum_cons, Function.update_self]
      congr 2
      refine List.map_congr_left fun u hu => ?_
      rw [Function.update_of_ne (by rintro rfl; exact hvl hu)]
    have hzero : ∀ (Z : ℕ → K), ((v :: l).map fun u => Z u * edgeShare W u v).sum = 0 := by
      intro Z
      rw [List.map_congr_left (g := fun _ => (0 : K)) (fun u hu => by rw [hback u hu, mul_zero])]
      simp
    refine ⟨Function.update X v (st.flatC v), Function.update Y v (st.flatV v), ?_, ?_, ?_, ?_⟩
    · intro w hw
      rcases List.mem_cons.mp hw with rfl | h
      · rw [hzero]; simp
      · rw [hsum, Function.update_of_ne (by rintro rfl; exact hvl h), i1 w h]
        have : (nwEdge W st v).flatC w = _ := p2 w
        rw [this, if_pos (hl w hw).2, hshare w h]; ring
    · intro w hw
      rcases List.mem_cons.mp hw with rfl | h
      · rw [hzero]; simp
      · rw [hsum, Function.update_of_ne (by rintro rfl; exact hvl h), i2 w h]
        have : (nwEdge W st v).flatV w = _ := p3 w
        rw [this, if_pos (hl w hw).2, hshare w h]; ring
    · intro b
      rw [hsum, List.foldl_cons, i3 b]
      have : (nwEdge W st v).charges b = _ := p4 b
      rw [this]; ring
    · intro b
      rw [hsum, List.foldl_cons, i4 b]
      have : (nwEdge W st v).volumes b = _ := p5 b
      rw [this]; ring

theorem nwInterior_basin (l : List ℕ) (a : ChargeAcc K) (b : ℕ) :
    (l.foldl (nwInteriorStep W) a).charges b = a.charges b + (l.map fun v => if W.edge v = false ∧ W.labels v = b then W.chg v else 0).sum ∧
    (l.foldl (nwInteriorStep W) a).volumes b = a.volumes b + (l.map fun v => if W.edge v = false ∧ W.labels v = b then (1 : K) else 0).sum := by
  induction l generalizing a with
  | nil => simp
  | cons v l ih =>
    obtain ⟨i1, i2⟩ := ih (nwInteriorStep W a v)
    simp only [List.foldl_cons, List.map_cons, List.sum_cons]
    rw [i1, i2]
    unfold nwInteriorStep
    by_cases he : W.edge v = true
    · simp [he]
    · have he' : W.edge v = false := by simpa using he
      rw [if_neg he]
      by_cases hneg : W.labels v < 0
      · have : ¬ W.labels v = b := by omega
        simp [hneg, this]
      · rw [if_neg hneg]
        by_cases hb : W.labels v = b
        · have : (W.labels v).toNat = b := by omega
          have hc : W.edge v = false ∧ W.labels v = b := ⟨he', hb⟩
          simp only [this, Function.update_self, if_pos hc]
          constructor <;> ring
        · have : b ≠ (W.labels v).toNat := by omega
          simp only [Function.update_of_ne this, hb, and_false, if_false]
          constructor <;> ring

/-- There is one solution of the flow equations. -/
theorem edgeFlow_unique (H : NWOk W) (hord : SameOrder W) {q X X' : ℕ → K} (h : EdgeFlow W q X) (h' : EdgeFlow W q X') :
    ∀ v ∈ W.edges, X v = X' v := by
  have key : ∀ n v, v ∈ W.edges → (W.edges.filter fun u => W.chg u < W.chg v).card ≤ n → X v = X' v := by
    intro n
    induction n using Nat.strong_induction_on with
    | _ n ih =>
      intro v hv hn
      rw [h v hv, h' v hv]
      congr 1
      refine Finset.sum_congr rfl fun u hu => ?_
      have hu' := hu
      have hv' := hv
      simp only [NWIn.edges, Finset.mem_filter, Finset.mem_range] at hu' hv'
      by_cases hz : edgeShare W u v = 0
      · rw [hz, mul_zero, mul_zero]
      · have hlt := edgeShare_rises H hord hu'.1 hv'.1 hu'.2 hv'.2 hz
        have hcard : (W.edges.filter fun x => W.chg x < W.chg u).card < (W.edges.filter fun x => W.chg x < W.chg v).card := by
          apply Finset.card_lt_card
          refine ⟨fun x hx => ?_, fun hsub => ?_⟩
          · simp only [Finset.mem_filter] at hx ⊢
            exact ⟨hx.1, hx.2.trans hlt⟩
          · have := hsub (Finset.mem_filter.mpr ⟨hu, hlt⟩)
            simp only [Finset.mem_filter] at this
            exact lt_irrefl _ this.2
        rw [ih _ (lt_of_lt_of_le hcard hn) u hu le_rfl]
  exact fun v hv => key _ v hv le_rfl

/-- **C50** What the basins get.  If charge and reference rise together from edge to edge, edge voxels have positive charges, then the
flow equations of charge and volume have one solution each, and every basin gets the charges and volumes of its voxels inside and its parts of what the edge voxels hold,
whatever the order of edge voxels of one value.  A maximum that is an edge voxel passes nothing on (`C50_edge_maximum_lost`). -/
theorem C50_flow (H : NWOk W) (hord : SameOrder W) (hpos : ∀ v < W.s.size, W.edge v = true → 0 < W.chg v) (cell : K) :
    ∃ X Y : ℕ → K, EdgeFlow W W.chg X ∧ EdgeFlow W (fun _ => 1) Y ∧
      (∀ X', EdgeFlow W W.chg X' → ∀ v ∈ W.edges, X' v = X v) ∧ (∀ Y', EdgeFlow W (fun _ => 1) Y' → ∀ v ∈ W.edges, Y' v = Y v) ∧
      (∀ b, (nwResults W cell).charges b = basinHolds W W.chg X b / W.s.size) ∧
      (∀ b, (nwResults W cell).volumes b = basinHolds W (fun _ => 1) Y b * cell / W.s.size) := by
  have hnd : (nwOrder W).Nodup := by
    unfold nwOrder
    exact (List.perm_insertionSort _ _).nodup_iff.mpr (List.nodup_range.filter _)
  have hsort : (nwOrder W).Pairwise (fun a b => W.chg a ≤ W.chg b) := by
    unfold nwOrder
    have : Std.Total (fun a b : ℕ => W.chg a ≤ W.chg b) := ⟨fun a b => le_total _ _⟩
    have : IsTrans ℕ (fun a b : ℕ => W.chg a ≤ W.chg b) := ⟨fun a b c => le_trans⟩
    exact List.pairwise_insertionSort _ _
  set i := nwInterior W with hi
  obtain ⟨X, Y, h1, h2, h3, h4⟩ := nwFlow_fold H hord (nwOrder W)
    ⟨i.charges, i.volumes, fun v => if v < W.s.size ∧ W.edge v = true then W.chg v else 0, fun _ => 1⟩
    ⟨fun w hw he => by simp only [hw, he, and_self, if_true]; exact hpos w hw he, fun w he => by simp [he]⟩ hnd hsort fun v hv => nwOrder_mem.mp hv
  have hfin : (nwOrder W).toFinset = W.edges := nwOrder_finset
  have hs : ∀ f : ℕ → K, ((nwOrder W).map f).sum = ∑ u ∈ W.edges, f u := by
    intro f
    rw [← hfin, List.sum_toFinset f hnd]
  have hX : EdgeFlow W W.chg X := by
    intro v hv
    have hv' := nwOrder_mem.mp (List.mem_toFinset.mp (hfin ▸ hv))
    rw [h1 v (nwOrder_mem.mpr hv'), hs]
    simp only [hv', and_self, if_true]
  have hY : EdgeFlow W (fun _ => 1) Y := by
    intro v hv
    have hv' := nwOrder_mem.mp (List.mem_toFinset.mp (hfin ▸ hv))
    rw [h2 v (nwOrder_mem.mpr hv'), hs]
  have hint : ∀ b, i.charges b = ∑ v ∈ (range W.s.size).filter (fun v => W.edge v = false ∧ W.labels v = b), W.chg v ∧
      i.volumes b = ∑ v ∈ (range W.s.size).filter (fun v => W.edge v = false ∧ W.labels v = b), (1 : K) := by
    intro b
    obtain ⟨a1, a2⟩ := nwInterior_basin (W := W) (List.range W.s.size) ⟨fun _ => 0, fun _ => 0, 0, 0⟩ b
    simp only [zero_add, sum_range_list] at a1 a2
    rw [Finset.sum_filter, Finset.sum_filter]
    exact ⟨a1, a2⟩
  refine ⟨X, Y, hX, hY, fun X' h' => edgeFlow_unique H hord h' hX, fun Y' h' => edgeFlow_unique H hord h' hY, fun b => ?_, fun b => ?_⟩
  · show ((nwOrder W).foldl (nwEdge W) _).charges b / _ = _
    rw [h3 b, hs]
    simp only [basinHolds, (hint b).1]
  · show ((nwOrder W).foldl (nwEdge W) _).volumes b * cell / _ = _
    rw [h4 b, hs]
    simp only [basinHolds, (hint b).2]

set_option maxRecDepth 100000 in
/-- The hypotheses of `C50_flow` in two concrete cases, with and without a maximum at an edge, and the charges. -/
example : NWOk nwGood ∧ SameOrder nwGood ∧ (∀ v < nwGood.s.size, nwGood.edge v = true → 0 < nwGood.chg v) ∧
    NWOk nwTop ∧ SameOrder nwTop ∧ (∀ v < nwTop.s.size, nwTop.edge v = true → 0 < nwTop.chg v) ∧
    (List.range 2).map (nwResults nwGood 8).charges = [17 / 7, 137 / 56] ∧ (List.range 2).map (nwResults nwTop 4).charges = [13 / 10, 0] := by
  refine ⟨ringNW_ok _ _ _ _ (by decide) (by decide +kernel), fun v w _ _ _ _ h => h, by decide +kernel, ringNW_ok _ _ _ _ (by decide) (by decide +kernel),
    fun v w _ _ _ _ h => h, by decide +kernel, by decide +kernel, by decide +kernel⟩

end BaderKit
