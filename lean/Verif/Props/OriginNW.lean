import Verif.Props.OriginNeargrid
import Verif.Props.NeargridWeightFlow
import Verif.Props.BaderRunNW
/-!
# C116 for the neargrid-weight method
-/
set_option linter.unusedSectionVars false
namespace BaderKit
open Finset

variable {K : Type} [Field K] [LinearOrder K] [IsStrictOrderedRing K] [FloorRing K]

/-! ## The splitting of the edges moves along -/

/-- The input of the splitting after the move. -/
structure NWMoved (c : Coord) (W W' : NWIn K) : Prop where
  fits : StepFits W.s c
  shape : W'.s = W.s
  vor : W'.vor = W.vor
  all : W'.all = W.all
  ref : ∀ v < W.s.size, W'.ref (nbr W.s v c) = W.ref v
  chg : ∀ v < W.s.size, W'.chg (nbr W.s v c) = W.chg v
  edge : ∀ v < W.s.size, W'.edge (nbr W.s v c) = W.edge v
  sign : ∀ v < W.s.size, (W'.labels (nbr W.s v c) < 0 ↔ W.labels v < 0)
  parts : ∀ v w, v < W.s.size → w < W.s.size → (W'.labels (nbr W.s v c) = W'.labels (nbr W.s w c) ↔ W.labels v = W.labels w)

section moved
variable {c : Coord} {W W' : NWIn K}

theorem NWMoved.row (h : NWMoved c W W') (H : NWOk W) {v : ℕ} (hv : v < W.s.size) :
    nwRow W' (nbr W.s v c) = (nwRow W v).map fun e => (e.1, nbr W.s e.2 c) := by
  have hr : ∀ t ∈ W.vor, W'.ref (nbr W.s (nbr W.s v c) t.1) = W.ref (nbr W.s v t.1) := by
    intro t ht
    rw [move_nbr h.fits (H.fitsV t ht) hv, h.ref _ (nbr_lt hv (H.fitsV t ht))]
  unfold nwRow
  simp only [h.shape, h.vor, h.all, h.ref v hv]
  have e1 : W.vor.filter (fun (t : Coord × K) => !decide (W'.ref (nbr W.s (nbr W.s v c) t.1) ≤ W.ref v)) =
      W.vor.filter (fun (t : Coord × K) => !decide (W.ref (nbr W.s v t.1) ≤ W.ref v)) := by
    refine List.filter_congr fun t ht => ?_
    rw [hr t ht]
  have e2 : (W.vor.filter (fun (t : Coord × K) => !decide (W.ref (nbr W.s v t.1) ≤ W.ref v))).map
        (fun (t : Coord × K) => ((W'.ref (nbr W.s (nbr W.s v c) t.1) - W.ref v) * t.2, nbr W.s (nbr W.s v c) t.1)) =
      ((W.vor.filter (fun (t : Coord × K) => !decide (W.ref (nbr W.s v t.1) ≤ W.ref v))).map
        (fun (t : Coord × K) => ((W.ref (nbr W.s v t.1) - W.ref v) * t.2, nbr W.s v t.1))).map fun e => (e.1, nbr W.s e.2 c) := by
    rw [List.map_map]
    refine List.map_congr_left fun t ht => ?_
    have ht' := (List.mem_filter.mp ht).1
    rw [hr t ht', move_nbr h.fits (H.fitsV t ht') hv]
    rfl
  rw [e1, e2]
  generalize (W.vor.filter (fun (t : Coord × K) => !decide (W.ref (nbr W.s v t.1) ≤ W.ref v))).map
        (fun (t : Coord × K) => ((W.ref (nbr W.s v t.1) - W.ref v) * t.2, nbr W.s v t.1)) = row
  have e3 : (row.map fun e => (e.1, nbr W.s e.2 c)).map Prod.fst = row.map Prod.fst := by
    rw [List.map_map]
    rfl
  rw [e3]
  split_ifs
  · rw [bestNeighbor_move h.fits H.fitsA h.ref hv]
    rfl
  · rw [List.map_map, List.map_map]
    rfl

theorem NWMoved.share (h : NWMoved c W W') (H : NWOk W) {u v : ℕ} (hu : u < W.s.size) (hv : v < W.s.size) (hue : W.edge u = true) :
    edgeShare W' (nbr W.s u c) (nbr W.s v c) = edgeShare W u v := by
  unfold edgeShare rowTo
  have e0 : nbr W.s v c = nbr W.s u c ↔ v = u := ⟨fun e => move_inj h.fits hv hu e, fun e => by rw [e]⟩
  simp only [e0]
  split_ifs
  · rfl
  · rw [h.row H hu, List.map_map]
    refine congrArg List.sum (List.map_congr_left fun e he => ?_)
    have := (nwRow_edge H hu hue e he).2.1
    have e1 : nbr W.s e.2 c = nbr W.s v c ↔ e.2 = v := ⟨fun e => move_inj h.fits this hv e, fun e => by rw [e]⟩
    simp only [Function.comp, e1]

theorem NWMoved.basin (h : NWMoved c W W') (H : NWOk W) (hup : ∀ u w, u < W.s.size → w < W.s.size → W.edge u = true → u = w ∨ W.ref u < W.ref w → 0 ≤ W.labels w)
    {u v : ℕ} (hu : u < W.s.size) (hv : v < W.s.size) (hue : W.edge u = true) (hl : 0 ≤ W.labels v) :
    rowBasin W' (nwRow W' (nbr W.s u c)) (W'.labels (nbr W.s v c)).toNat = rowBasin W (nwRow W u) (W.labels v).toNat := by
  unfold rowBasin
  rw [h.row H hu, List.map_map]
  refine congrArg List.sum (List.map_congr_left fun e he => ?_)
  obtain ⟨_, h1, h2⟩ := nwRow_edge H hu hue e he
  have hle := hup u e.2 hu h1 hue (h2.imp Eq.symm id)
  have hle' := h.sign e.2 h1
  have hl' := h.sign v hv
  have hp := h.parts e.2 v h1 hv
  have e1 : pyIdx W'.nb (W'.labels (nbr W.s e.2 c)) = (W'.labels (nbr W.s v c)).toNat ↔ pyIdx W.nb (W.labels e.2) = (W.labels v).toNat := by
    unfold pyIdx
    rw [if_neg (by omega), if_neg (by omega)]
    constructor
    · intro k
      have := hp.mp (by omega)
      omega
    · intro k
      have := hp.mpr (by omega)
      omega
  simp only [Function.comp, h.edge e.2 h1, e1]

theorem NWMoved.edges_sum (h : NWMoved c W W') (f g : ℕ → K) (hfg : ∀ v < W.s.size, W.edge v = true → g (nbr W.s v c) = f v) :
    ∑ v ∈ W'.edges, g v = ∑ v ∈ W.edges, f v := by
  unfold NWIn.edges
  rw [h.shape]
  exact (sum_move h.fits f _ _ g (fun v hv => by rw [h.edge v hv]) hfg).symm

theorem NWMoved.flow (h : NWMoved c W W') (H : NWOk W) {q q' X : ℕ → K} (hq : ∀ v < W.s.size, q' (nbr W.s v c) = q v) (hX : EdgeFlow W' q' X) :
    EdgeFlow W q fun v => X (nbr W.s v c) := by
  intro v hv
  have hv' := hv
  simp only [NWIn.edges, Finset.mem_filter, Finset.mem_range] at hv'
  have hm : nbr W.s v c ∈ W'.edges := by
    simp only [NWIn.edges, Finset.mem_filter, Finset.mem_range]
    exact ⟨by rw [h.shape]; exact nbr_lt hv'.1 h.fits, by rw [h.edge v hv'.1]; exact hv'.2⟩
  show X (nbr W.s v c) = q v + ∑ u ∈ W.edges, X (nbr W.s u c) * edgeShare W u v
  rw [hX _ hm, hq v hv'.1]
  congr 1
  refine h.edges_sum _ _ fun u hu hue => ?_
  rw [h.share H hu hv'.1 hue]

theorem NWMoved.holds (h : NWMoved c W W') (H : NWOk W) (hup : ∀ u w, u < W.s.size → w < W.s.size → W.edge u = true → u = w ∨ W.ref u < W.ref w → 0 ≤ W.labels w)
    {q q' X X' : ℕ → K} (hq : ∀ v < W.s.size, q' (nbr W.s v c) = q v) (hX : ∀ v < W.s.size, W.edge v = true → X' (nbr W.s v c) = X v) {v : ℕ} (hv : v < W.s.size)
    (hl : 0 ≤ W.labels v) : basinHolds W' q' X' (W'.labels (nbr W.s v c)).toNat = basinHolds W q X (W.labels v).toNat := by
  unfold basinHolds
  have hs := h.sign v hv
  congr 1
  · rw [h.shape]
    refine (sum_move h.fits q _ _ q' (fun u hu => ?_) fun u hu _ => hq u hu).symm
    rw [h.edge u hu]
    refine and_congr_right fun _ => ?_
    rw [Int.toNat_of_nonneg hl, Int.toNat_of_nonneg (by omega)]
    exact (h.parts u v hu hv).symm
  · refine h.edges_sum _ _ fun u hu hue => ?_
    rw [hX u hu hue, h.basin H hup hu hv hue hl]

/-- What a basin gets does not depend on the origin. -/
theorem NWMoved.results (h : NWMoved c W W') (H : NWOk W) (H' : NWOk W') (hord : SameOrder W) (hpos : ∀ v < W.s.size, W.edge v = true → 0 < W.chg v)
    (hup : ∀ u w, u < W.s.size → w < W.s.size → W.edge u = true → u = w ∨ W.ref u < W.ref w → 0 ≤ W.labels w) (cell : K) {v : ℕ} (hv : v < W.s.size)
    (hl : 0 ≤ W.labels v) :
    (nwResults W' cell).charges (W'.labels (nbr W.s v c)).toNat = (nwResults W cell).charges (W.labels v).toNat ∧
    (nwResults W' cell).volumes (W'.labels (nbr W.s v c)).toNat = (nwResults W cell).volumes (W.labels v).toNat := by
  have back : ∀ w < W'.s.size, ∃ u < W.s.size, nbr W.s u c = w := fun w hw => move_surj h.fits (by rw [← h.shape]; exact hw)
  have hord' : SameOrder W' := by
    intro a b ha0 hb0 hae hbe hab
    obtain ⟨a, ha, rfl⟩ := back a ha0
    obtain ⟨b, hb, rfl⟩ := back b hb0
    rw [h.edge _ ha] at hae
    rw [h.edge _ hb] at hbe
    rw [h.ref _ ha, h.ref _ hb] at hab
    rw [h.chg _ ha, h.chg _ hb]
    exact hord a b ha hb hae hbe hab
  have hpos' : ∀ v < W'.s.size, W'.edge v = true → 0 < W'.chg v := by
    intro a ha0 hae
    obtain ⟨a, ha, rfl⟩ := back a ha0
    rw [h.edge _ ha] at hae
    rw [h.chg _ ha]
    exact hpos a ha hae
  obtain ⟨X, Y, _, _, x3, x4, x5, x6⟩ := C50_flow H hord hpos cell
  obtain ⟨X', Y', y1, y2, _, _, y5, y6⟩ := C50_flow H' hord' hpos' cell
  have hmem : ∀ v < W.s.size, W.edge v = true → v ∈ W.edges := fun v hv he => by simp [NWIn.edges, hv, he]
  have ex := x3 _ (h.flow H h.chg y1)
  have ey := x4 _ (h.flow H (q := fun _ => 1) (fun _ _ => rfl) y2)
  rw [x5, x6, y5, y6, h.holds H hup h.chg (fun v hv he => ex v (hmem v hv he)) hv hl,
    h.holds H hup (q := fun _ => 1) (q' := fun _ => 1) (fun _ _ => rfl) (fun v hv he => ey v (hmem v hv he)) hv hl, h.shape]
  exact ⟨rfl, rfl⟩

theorem nwInterior_vac (l : List ℕ) (a : ChargeAcc K) :
    (l.foldl (nwInteriorStep W) a).vacCharge = a.vacCharge + (l.map fun v => if W.edge v = false ∧ W.labels v < 0 then W.chg v else 0).sum ∧
    (l.foldl (nwInteriorStep W) a).vacVolume = a.vacVolume + (l.map fun v => if W.edge v = false ∧ W.labels v < 0 then (1 : K) else 0).sum := by
  induction l generalizing a with
  | nil => simp
  | cons v l ih =>
    obtain ⟨i1, i2⟩ := ih (nwInteriorStep W a v)
    simp only [List.foldl_cons, List.map_cons, List.sum_cons]
    rw [i1, i2]
    unfold nwInteriorStep
    by_cases he : W.edge v = true
    · simp [he]
    · have he' : W.edge v = false := by simpa using he
      rw [if_neg he]
      by_cases hneg : W.labels v < 0
      · simp only [hneg, he', and_self, if_true]
        constructor <;> ring
      · simp [hneg]

theorem NWMoved.vac (h : NWMoved c W W') (cell : K) :
    (nwResults W' cell).vacCharge = (nwResults W cell).vacCharge ∧ (nwResults W' cell).vacVolume = (nwResults W cell).vacVolume := by
  show (nwInterior W').vacCharge = (nwInterior W).vacCharge ∧ (nwInterior W').vacVolume = (nwInterior W).vacVolume
  unfold nwInterior
  rw [(nwInterior_vac _ _).1, (nwInterior_vac _ _).1, (nwInterior_vac _ _).2, (nwInterior_vac _ _).2]
  simp only [zero_add, sum_range_list, ← Finset.sum_filter, h.shape]
  have hP : ∀ v < W.s.size, (W.edge v = false ∧ W.labels v < 0) ↔ (W'.edge (nbr W.s v c) = false ∧ W'.labels (nbr W.s v c) < 0) := by
    intro v hv
    rw [h.edge v hv, h.sign v hv]
  exact ⟨(sum_move h.fits W.chg _ _ W'.chg hP fun v hv _ => h.chg v hv).symm, (sum_move h.fits (fun _ => (1 : K)) _ _ (fun _ => 1) hP fun _ _ _ => rfl).symm⟩

end moved

/-! ## The run -/

/-- The labels and maxima of the method are those of the neargrid method. -/
theorem runNW_of_run (G : RunInput K) (A : RunAid K) (vor : List (Coord × K)) (grad : ℕ → K × K × K) (o1 o2 o3 : List ℕ) (perm : List ℕ → List ℕ) (fuel : ℕ)
    (o : RunOut K) (hat : G.atoms ≠ []) (h : G.run A (.neargrid grad o1 o2 perm) fuel = some o) :
    ∃ p : RunOut K, G.runNW A vor grad o1 o2 o3 perm fuel = some p ∧ p.labels = o.labels ∧ p.maxima = o.maxima ∧
      p.basins = nwResults ⟨G.shape, G.ref, G.charge, vor, G.nbrs, o.labels, getEdges G.shape o.labels (G.nbrs.map Prod.fst) G.vacuum o3, o.maxima.length⟩ G.volume ∧
      assignBasins A.root G.lattice G.atoms (p.maxima.map A.place) p.labels
        ((List.range p.maxima.length).map fun b => A.rnd (p.basins.charges b))
        ((List.range p.maxima.length).map fun b => A.rnd (p.basins.volumes b)) = some p.assignment := by
  simp only [RunInput.run, RunInput.method, Option.bind_eq_bind, Option.bind_eq_some_iff, Option.map_eq_some_iff] at h
  obtain ⟨res, e1, x, ⟨lab, e2, rfl⟩, asg, e3, e4⟩ := h
  cases e4
  set r := nwResults ⟨G.shape, G.ref, G.charge, vor, G.nbrs, lab, getEdges G.shape lab (G.nbrs.map Prod.fst) G.vacuum o3, res.reps.length⟩ G.volume with hr
  have hs := (C23_succeeds A.root G.lattice G.atoms (res.reps.map A.place) lab ((List.range res.reps.length).map fun b => A.rnd (r.charges b))
    ((List.range res.reps.length).map fun b => A.rnd (r.volumes b))).mpr (Or.inl hat)
  obtain ⟨asg', hasg⟩ := Option.isSome_iff_exists.mp hs
  refine ⟨⟨lab, r, res.reps, asg'⟩, ?_, rfl, rfl, hr, hasg⟩
  simp only [RunInput.runNW, nwRun, Option.bind_eq_bind]
  rw [e1, Option.bind_some, e2, Option.map_some, Option.bind_some, ← hr, hasg]
  rfl

/-- **C116** (partial) The neargrid-weight method does not depend on the origin of the grid, if charge and reference rise together and the charge is
positive outside the vacuum; also not if maxima touch other basins and charge is lost.  Missing: flat maxima, as for the ongrid method (`C116_plateau`), and
references that do not rise with the charge. -/
theorem C116_neargrid_weight_partial (c : Coord) (G G' : RunInput K) (A A' : RunAid K) (ε : K) (T : TwoRuns c G G' A A' ε) (hu : ∀ td ∈ G.nbrs, UnitStep td.1)
    (vor : List (Coord × K)) (hvor : ∀ t ∈ vor, 0 < t.2 ∧ t.1 ∈ G.nbrs.map Prod.fst)
    (hmono : ∀ v w, v < G.shape.size → w < G.shape.size → G.ref v < G.ref w → G.charge v < G.charge w)
    (hpos : ∀ v < G.shape.size, G.vacuum v = false → 0 < G.charge v)
    (grad grad' : ℕ → K × K × K) (hg : GradMoved G.shape c grad grad') (o1 o2 o3 o1' o2' o3' : List ℕ) (perm perm' : List ℕ → List ℕ)
    (ho1 : IsSchedule G.shape o1) (ho2 : IsSchedule G.shape o2) (ho3 : IsSchedule G.shape o3) (ho1' : IsSchedule G.shape o1') (ho2' : IsSchedule G.shape o2')
    (ho3' : IsSchedule G.shape o3') (hperm : ∀ l, (perm l).Perm l) (hperm' : ∀ l, (perm' l).Perm l) :
    ∃ F, ∀ fuel ≥ F, ∃ o o', G.runNW A vor grad o1 o2 o3 perm fuel = some o ∧ G'.runNW A' vor grad' o1' o2' o3' perm' fuel = some o' ∧
      SameBasins c G o o' ∧
      (A'.root = A.root → A'.rnd = A.rnd → List.Forall₂ (SiteMoved G.shape c) G.atoms G'.atoms →
        (∀ m m', G.IsMax m → MovedTo G.shape c m m' → SiteMoved G.shape c (A.place m) (A'.place m')) →
        (∀ a b, G.IsMax a → G.IsMax b → a ≠ b → A.same a b = false) →
        (∀ v v', v < G.shape.size → MovedTo G.shape c v v' → o'.assignment.atomLabels v' = o.assignment.atomLabels v) ∧
        o'.assignment.charges = o.assignment.charges ∧ o'.assignment.volumes = o.assignment.volumes) := by
  have hf := T.moved.fits
  have hu' : ∀ td ∈ G'.nbrs, UnitStep td.1 := by rw [T.moved.nbrs]; exact hu
  obtain ⟨_, _, _, F1, h1, _⟩ := neargrid_groups G A ε T.ready hu grad o1 o2 perm ho1 ho2 hperm T.twoSided T.noPlateau T.grouped
  obtain ⟨_, _, _, F2, h2, _⟩ := neargrid_groups G' A' ε T.ready' hu' grad' o1' o2' perm'
    (by rw [T.moved.shape]; exact ho1') (by rw [T.moved.shape]; exact ho2') hperm' (by rw [T.moved.nbrs]; exact T.twoSided) T.noPlateau' T.grouped'
  obtain ⟨F3, h3⟩ := C116_neargrid_partial c G G' A A' ε T hu grad grad' hg o1 o2 o1' o2' perm perm' ho1 ho2 ho1' ho2' hperm hperm'
  refine ⟨max F1 (max F2 F3), fun fuel hfu => ?_⟩
  simp only [max_le_iff, ge_iff_le] at hfu
  obtain ⟨o, r1, -, -, r4, r5, r6, -, -, -, r10⟩ := h1 fuel hfu.1
  obtain ⟨o', s1, -, -, s4, s5, s6, -, -, -, s10⟩ := h2 fuel hfu.2.1
  obtain ⟨q, q', e1, e2, hS, -⟩ := h3 fuel hfu.2.2
  obtain rfl : o = q := Option.some.inj (r1.symm.trans e1)
  obtain rfl : o' = q' := Option.some.inj (s1.symm.trans e2)
  obtain ⟨p, p1, p2, p3, p4, p5⟩ := runNW_of_run G A vor grad o1 o2 o3 perm fuel o T.ready.atoms r1
  obtain ⟨p', q1, q2, q3, q4, q5⟩ := runNW_of_run G' A' vor grad' o1' o2' o3' perm' fuel o' T.ready'.atoms s1
  have hn : ∀ v < G.shape.size, nbr G.shape v c < G'.shape.size := fun v hv => by rw [T.moved.shape]; exact nbr_lt hv hf
  have mv : ∀ v < G.shape.size, MovedTo G.shape c v (nbr G.shape v c) := fun v hv => (movedTo_iff hf hv).mpr rfl
  have hfits' := fitsOf T.ready.fits
  set W : NWIn K := ⟨G.shape, G.ref, G.charge, vor, G.nbrs, o.labels, getEdges G.shape o.labels (G.nbrs.map Prod.fst) G.vacuum o3, o.maxima.length⟩ with hW
  set W' : NWIn K := ⟨G'.shape, G'.ref, G'.charge, vor, G'.nbrs, o'.labels, getEdges G'.shape o'.labels (G'.nbrs.map Prod.fst) G'.vacuum o3', o'.maxima.length⟩ with hW'
  have edge_iff : ∀ v < G.shape.size, (W.edge v = true ↔ G.vacuum v = false ∧ ∃ t ∈ G.nbrs.map Prod.fst,
      o.labels (nbr G.shape v t) ≠ o.labels v ∧ G.vacuum (nbr G.shape v t) = false) := by
    intro v hv
    show getEdges _ _ _ _ _ _ = true ↔ _
    rw [getEdges_apply, edgeScan_iff]
    have : v ∈ o3 := ho3.mem_iff.mpr (List.mem_range.mpr hv)
    simp [this]
  have edge_iff' : ∀ v < G.shape.size, (W'.edge (nbr G.shape v c) = true ↔ G.vacuum v = false ∧ ∃ t ∈ G.nbrs.map Prod.fst,
      o.labels (nbr G.shape v t) ≠ o.labels v ∧ G.vacuum (nbr G.shape v t) = false) := by
    intro v hv
    show getEdges _ _ _ _ _ _ = true ↔ _
    rw [getEdges_apply, edgeScan_iff, T.moved.shape, T.moved.nbrs, T.moved.vacuum hv]
    have : nbr G.shape v c ∈ o3' := ho3'.mem_iff.mpr (List.mem_range.mpr (nbr_lt hv hf))
    simp only [this, true_and]
    refine and_congr_right fun _ => exists_congr fun t => and_congr_right fun ht => ?_
    have hw := nbr_lt hv (hfits' t ht)
    rw [move_nbr hf (hfits' t ht) hv, T.moved.vacuum hw]
    exact and_congr_left fun _ => not_congr (hS.parts _ _ _ _ hw hv (mv _ hw) (mv _ hv))
  have sign : ∀ v < G.shape.size, (o.labels v < 0 ↔ G.vacuum v = true) := by
    intro v hv
    cases h : G.vacuum v with
    | true => simp [r4 v hv h]
    | false => have := (r5 v hv h).1; simp; omega
  have sign' : ∀ v < G'.shape.size, (o'.labels v < 0 ↔ G'.vacuum v = true) := by
    intro v hv
    cases h : G'.vacuum v with
    | true => simp [s4 v hv h]
    | false => have := (s5 v hv h).1; simp; omega
  have hNW : NWMoved c W W' := {
    fits := hf
    shape := T.moved.shape
    vor := rfl
    all := T.moved.nbrs
    ref := fun v hv => T.moved.ref' hv
    chg := fun v hv => T.moved.charge' hv
    edge := fun v hv => by rw [Bool.eq_iff_iff]; exact (edge_iff' v hv).trans (edge_iff v hv).symm
    sign := fun v hv => by
      show o'.labels (nbr G.shape v c) < 0 ↔ o.labels v < 0
      rw [sign v hv, sign' _ (hn v hv), T.moved.vacuum hv]
    parts := fun v w hv hw => hS.parts _ _ _ _ hv hw (mv v hv) (mv w hw) }
  have labs : ∀ v < G.shape.size, -1 ≤ o.labels v ∧ o.labels v < (o.maxima.length : ℤ) := by
    intro v hv
    cases h : G.vacuum v with
    | true => rw [r4 v hv h]; omega
    | false => have := r5 v hv h; omega
  have labs' : ∀ v < G'.shape.size, -1 ≤ o'.labels v ∧ o'.labels v < (o'.maxima.length : ℤ) := by
    intro v hv
    cases h : G'.vacuum v with
    | true => rw [s4 v hv h]; omega
    | false => have := s5 v hv h; omega
  have results : ∀ v < G.shape.size, o.labels v ≠ -1 →
      p'.basins.charges (o'.labels (nbr G.shape v c)).toNat = p.basins.charges (o.labels v).toNat ∧
      p'.basins.volumes (o'.labels (nbr G.shape v c)).toNat = p.basins.volumes (o.labels v).toNat := by
    intro v hv hne
    have hvv : G.vacuum v = false := by
      cases h : G.vacuum v with
      | true => exact absurd (r4 v hv h) hne
      | false => rfl
    have hl := r5 v hv hvv
    have hl' := s5 _ (hn v hv) ((T.moved.vacuum hv).trans hvv)
    have H : NWOk W := ⟨fun t ht => hfits' _ (hvor t ht).2, T.ready.fits, fun t ht => (hvor t ht).1, T.ready.pos, fun t ht => (hvor t ht).2, labs,
      by show 0 < o.maxima.length; omega⟩
    have H' : NWOk W' := ⟨fun t ht => fitsOf T.ready'.fits _ (by rw [T.moved.nbrs]; exact (hvor t ht).2), T.ready'.fits, fun t ht => (hvor t ht).1, T.ready'.pos,
      fun t ht => by show t.1 ∈ G'.nbrs.map Prod.fst; rw [T.moved.nbrs]; exact (hvor t ht).2, labs', by show 0 < o'.maxima.length; omega⟩
    have := hNW.results H H' (fun a b ha hb _ _ h => hmono a b ha hb h) (fun a ha he => hpos a ha ((edge_iff a ha).mp he).1) (fun a b ha hb he h => by
      have hav := ((edge_iff a ha).mp he).1
      have hbv : G.vacuum b = false := by
        rcases h with rfl | h
        · exact hav
        · exact T.ready.vacuum.up a b hav h.le
      exact (r5 b hb hbv).1) G.volume hv hl.1
    rw [p4, q4, T.moved.volume]
    exact this
  have hvac : p'.basins.vacCharge = p.basins.vacCharge ∧ p'.basins.vacVolume = p.basins.vacVolume := by
    rw [p4, q4, T.moved.volume]
    exact hNW.vac G.volume
  have hS' : SameBasins c G p p' := by
    refine ⟨?_, ?_, ?_, ?_, hvac.1, hvac.2, ?_⟩
    · rw [p2, q2]; exact hS.vacuum
    · rw [p2, q2]; exact hS.parts
    · intro v v' hv hm hne
      obtain rfl := (movedTo_iff hf hv).mp hm
      rw [p2] at hne ⊢
      rw [q2]
      exact (results v hv hne).1
    · intro v v' hv hm hne
      obtain rfl := (movedTo_iff hf hv).mp hm
      rw [p2] at hne ⊢
      rw [q2]
      exact (results v hv hne).2
    · rw [p3, q3]; exact hS.count
  refine ⟨p, p', p1, q1, hS', fun hrt hrnd hat hpl hno => ?_⟩
  obtain ⟨m1, m2⟩ := r10 hno
  obtain ⟨n1, n2⟩ := s10 fun a b ha hb hne => by
    obtain ⟨a, ham, rfl⟩ := T.back ha
    obtain ⟨b, hbm, rfl⟩ := T.back hb
    rw [T.same' ham hbm]
    exact hno a b ham hbm fun e => hne (by rw [e])
  have ht : ∀ v < G.shape.size, G.vacuum v = true → p.assignment.atomLabels v = -1 := fun v hv hvv => by
    obtain ⟨_, -, -, -, -, g7, -⟩ := C23_atom_totals _ _ _ _ _ _ _ _ (by simp) (by simp) p5
    exact g7 v (by rw [p2]; exact r4 v hv hvv)
  have kt : ∀ v < G'.shape.size, G'.vacuum v = true → p'.assignment.atomLabels v = -1 := fun v hv hvv => by
    obtain ⟨_, -, -, -, -, g7, -⟩ := C23_atom_totals _ _ _ _ _ _ _ _ (by simp) (by simp) q5
    exact g7 v (by rw [q2]; exact s4 v hv hvv)
  refine atoms_of T hrt hrnd hat hpl ht kt ?_ ?_ p5 q5 (by rw [p3]; exact m1) ?_ (by rw [q3]; exact n1) ?_ hS'
  · rw [p2, p3]; exact r5
  · rw [p2]; exact r6
  · rw [p2, p3]; exact m2
  · rw [q2, q3]; exact n2

/-- The hypotheses hold for the ring of the ongrid example, where some maxima touch other basins and charge is lost, and the two runs report the same atoms. -/
example : TwoRuns (3, 0, 0) (lineRun sharpList [(0, 0, 0), (1 / 2, 0, 0)] (some (3 / 16))) (lineRun sharpMoved [(3 / 8, 0, 0), (7 / 8, 0, 0)] (some (3 / 16)))
      (lineAid sharpList (sharpSame 2 4 false)) (lineAid sharpMoved (sharpSame 5 7 false)) 0 ∧
    (∀ v < 8, 0 < sharpList.getD v 0) ∧ (∀ t ∈ ring2, 0 < t.2 ∧ t.1 ∈ ring2.map Prod.fst) ∧
    GradMoved ⟨8, 1, 1⟩ (3, 0, 0) (gradientSimple ⟨8, 1, 1⟩ (fun v => sharpList.getD v 0) idMat) (gradientSimple ⟨8, 1, 1⟩ (fun v => sharpMoved.getD v 0) idMat) ∧
    ((lineRun sharpList [(0, 0, 0), (1 / 2, 0, 0)] (some (3 / 16))).runNW (lineAid sharpList (sharpSame 2 4 false)) ring2
      (gradientSimple ⟨8, 1, 1⟩ (fun v => sharpList.getD v 0) idMat) (List.range 8) (List.range 8) (List.range 8) id 50).map
      (lineNumbers 8 2) = some ([0, 2, 4, 6], [0, 0, 1, -1, 2, 3, 3, 3], [0, 0, 0, 89 / 84], [0, 0, 0, -1, 1, 0, 0, 0], [89 / 84, 0]) ∧
    ((lineRun sharpMoved [(3 / 8, 0, 0), (7 / 8, 0, 0)] (some (3 / 16))).runNW (lineAid sharpMoved (sharpSame 5 7 false)) ring2
      (gradientSimple ⟨8, 1, 1⟩ (fun v => sharpMoved.getD v 0) idMat) (List.range 8) (List.range 8) (List.range 8) id 50).map
      (lineNumbers 8 2) = some ([1, 3, 5, 7], [0, 0, 0, 1, 1, 2, -1, 3], [89 / 84, 0, 0, 0], [0, 0, 0, 0, 0, 0, -1, 1], [89 / 84, 0]) := by
  refine ⟨sharp_two false, by decide +kernel, by decide +kernel, gradMoved_simple (sharp_two false).moved idMat, by decide +kernel, by decide +kernel⟩

end BaderKit
