import Verif.Props.OriginNW
import Verif.Props.SymmetryNeargrid
/-!
# C120 for the neargrid-weight method

Symmetry operations that carry axes to axes.  What an edge voxel passes on is the solution of the flow equations (`C50_flow`), and the equations are carried along.
-/
set_option linter.unusedSectionVars false
namespace BaderKit
open Finset

variable {K : Type} [Field K] [LinearOrder K] [IsStrictOrderedRing K] [FloorRing K]

/-! ## The splitting of the edges is carried over -/

/-- The input of the splitting after the operation. -/
structure NWCarried (φ : ℕ → ℕ) (W W' : NWIn K) : Prop where
  size : W'.s.size = W.s.size
  lt : ∀ v < W.s.size, φ v < W.s.size
  inj : ∀ v w, v < W.s.size → w < W.s.size → φ v = φ w → v = w
  surj : ∀ w < W.s.size, ∃ v < W.s.size, φ v = w
  ref : ∀ v < W.s.size, W'.ref (φ v) = W.ref v
  chg : ∀ v < W.s.size, W'.chg (φ v) = W.chg v
  edge : ∀ v < W.s.size, W'.edge (φ v) = W.edge v
  sign : ∀ v < W.s.size, (W'.labels (φ v) < 0 ↔ W.labels v < 0)
  parts : ∀ v w, v < W.s.size → w < W.s.size → (W'.labels (φ v) = W'.labels (φ w) ↔ W.labels v = W.labels w)
  row : ∀ v < W.s.size, W.edge v = true → (nwRow W' (φ v)).Perm ((nwRow W v).map fun e => (e.1, φ e.2))

section carried
variable {φ : ℕ → ℕ} {W W' : NWIn K}

theorem NWCarried.share (h : NWCarried φ W W') (H : NWOk W) {u v : ℕ} (hu : u < W.s.size) (hv : v < W.s.size) (hue : W.edge u = true) :
    edgeShare W' (φ u) (φ v) = edgeShare W u v := by
  unfold edgeShare rowTo
  have e0 : φ v = φ u ↔ v = u := ⟨fun e => h.inj _ _ hv hu e, fun e => by rw [e]⟩
  simp only [e0]
  split_ifs
  · rfl
  · rw [((h.row u hu hue).map _).sum_eq, List.map_map]
    refine congrArg List.sum (List.map_congr_left fun e he => ?_)
    have := (nwRow_edge H hu hue e he).2.1
    have e1 : φ e.2 = φ v ↔ e.2 = v := ⟨fun e => h.inj _ _ this hv e, fun e => by rw [e]⟩
    simp only [Function.comp, e1]

theorem NWCarried.basin (h : NWCarried φ W W') (H : NWOk W)
    (hup : ∀ u w, u < W.s.size → w < W.s.size → W.edge u = true → u = w ∨ W.ref u < W.ref w → 0 ≤ W.labels w)
    {u v : ℕ} (hu : u < W.s.size) (hv : v < W.s.size) (hue : W.edge u = true) (hl : 0 ≤ W.labels v) :
    rowBasin W' (nwRow W' (φ u)) (W'.labels (φ v)).toNat = rowBasin W (nwRow W u) (W.labels v).toNat := by
  unfold rowBasin
  rw [((h.row u hu hue).map _).sum_eq, List.map_map]
  refine congrArg List.sum (List.map_congr_left fun e he => ?_)
  obtain ⟨_, h1, h2⟩ := nwRow_edge H hu hue e he
  have hle := hup u e.2 hu h1 hue (h2.imp Eq.symm id)
  have hle' := h.sign e.2 h1
  have hl' := h.sign v hv
  have hp := h.parts e.2 v h1 hv
  have e1 : pyIdx W'.nb (W'.labels (φ e.2)) = (W'.labels (φ v)).toNat ↔ pyIdx W.nb (W.labels e.2) = (W.labels v).toNat := by
    unfold pyIdx
    rw [if_neg (by omega), if_neg (by omega)]
    constructor
    · intro k
      have := hp.mp (by omega)
      omega
    · intro k
      have := hp.mpr (by omega)
      omega
  simp only [Function.comp, h.edge e.2 h1, e1]

theorem NWCarried.sum (h : NWCarried φ W W') (P P' : ℕ → Prop) [DecidablePred P] [DecidablePred P'] (f g : ℕ → K)
    (hP : ∀ v < W.s.size, P' (φ v) ↔ P v) (hfg : ∀ v < W.s.size, P v → g (φ v) = f v) :
    ∑ v ∈ (range W'.s.size).filter P', g v = ∑ v ∈ (range W.s.size).filter P, f v := by
  rw [h.size]
  symm
  refine Finset.sum_bij (fun v _ => φ v) ?_ ?_ ?_ ?_
  · intro v hv
    simp only [Finset.mem_filter, Finset.mem_range] at hv ⊢
    exact ⟨h.lt v hv.1, (hP v hv.1).mpr hv.2⟩
  · intro v hv w hw e
    simp only [Finset.mem_filter, Finset.mem_range] at hv hw
    exact h.inj v w hv.1 hw.1 e
  · intro w hw
    simp only [Finset.mem_filter, Finset.mem_range] at hw
    obtain ⟨v, hv, rfl⟩ := h.surj w hw.1
    exact ⟨v, by simp only [Finset.mem_filter, Finset.mem_range]; exact ⟨hv, (hP v hv).mp hw.2⟩, rfl⟩
  · intro v hv
    simp only [Finset.mem_filter, Finset.mem_range] at hv
    exact (hfg v hv.1 hv.2).symm

theorem NWCarried.edges_sum (h : NWCarried φ W W') (f g : ℕ → K) (hfg : ∀ v < W.s.size, W.edge v = true → g (φ v) = f v) :
    ∑ v ∈ W'.edges, g v = ∑ v ∈ W.edges, f v :=
  h.sum _ _ f g (fun v hv => by rw [h.edge v hv]) hfg

theorem NWCarried.flow (h : NWCarried φ W W') (H : NWOk W) {q q' X : ℕ → K} (hq : ∀ v < W.s.size, q' (φ v) = q v) (hX : EdgeFlow W' q' X) :
    EdgeFlow W q fun v => X (φ v) := by
  intro v hv
  have hv' := hv
  simp only [NWIn.edges, Finset.mem_filter, Finset.mem_range] at hv'
  have hm : φ v ∈ W'.edges := by
    simp only [NWIn.edges, Finset.mem_filter, Finset.mem_range]
    exact ⟨by rw [h.size]; exact h.lt v hv'.1, by rw [h.edge v hv'.1]; exact hv'.2⟩
  show X (φ v) = q v + ∑ u ∈ W.edges, X (φ u) * edgeShare W u v
  rw [hX _ hm, hq v hv'.1]
  congr 1
  refine h.edges_sum _ _ fun u hu hue => ?_
  rw [h.share H hu hv'.1 hue]

theorem NWCarried.holds (h : NWCarried φ W W') (H : NWOk W)
    (hup : ∀ u w, u < W.s.size → w < W.s.size → W.edge u = true → u = w ∨ W.ref u < W.ref w → 0 ≤ W.labels w)
    {q q' X X' : ℕ → K} (hq : ∀ v < W.s.size, q' (φ v) = q v) (hX : ∀ v < W.s.size, W.edge v = true → X' (φ v) = X v) {v : ℕ} (hv : v < W.s.size)
    (hl : 0 ≤ W.labels v) : basinHolds W' q' X' (W'.labels (φ v)).toNat = basinHolds W q X (W.labels v).toNat := by
  unfold basinHolds
  have hs := h.sign v hv
  congr 1
  · refine h.sum _ _ q q' (fun u hu => ?_) fun u hu _ => hq u hu
    rw [h.edge u hu]
    refine and_congr_right fun _ => ?_
    rw [Int.toNat_of_nonneg hl, Int.toNat_of_nonneg (by omega)]
    exact h.parts u v hu hv
  · refine h.edges_sum _ _ fun u hu hue => ?_
    rw [hX u hu hue, h.basin H hup hu hv hue hl]

/-- What a basin gets does not depend on the setting. -/
theorem NWCarried.results (h : NWCarried φ W W') (H : NWOk W) (H' : NWOk W') (hord : SameOrder W) (hpos : ∀ v < W.s.size, W.edge v = true → 0 < W.chg v)
    (hup : ∀ u w, u < W.s.size → w < W.s.size → W.edge u = true → u = w ∨ W.ref u < W.ref w → 0 ≤ W.labels w) (cell : K) {v : ℕ} (hv : v < W.s.size)
    (hl : 0 ≤ W.labels v) :
    (nwResults W' cell).charges (W'.labels (φ v)).toNat = (nwResults W cell).charges (W.labels v).toNat ∧
    (nwResults W' cell).volumes (W'.labels (φ v)).toNat = (nwResults W cell).volumes (W.labels v).toNat := by
  have back : ∀ w < W'.s.size, ∃ u < W.s.size, φ u = w := fun w hw => h.surj w (by rw [← h.size]; exact hw)
  have hord' : SameOrder W' := by
    intro a b ha0 hb0 hae hbe hab
    obtain ⟨a, ha, rfl⟩ := back a ha0
    obtain ⟨b, hb, rfl⟩ := back b hb0
    rw [h.edge _ ha] at hae
    rw [h.edge _ hb] at hbe
    rw [h.ref _ ha, h.ref _ hb] at hab
    rw [h.chg _ ha, h.chg _ hb]
    exact hord a b ha hb hae hbe hab
  have hpos' : ∀ v < W'.s.size, W'.edge v = true → 0 < W'.chg v := by
    intro a ha0 hae
    obtain ⟨a, ha, rfl⟩ := back a ha0
    rw [h.edge _ ha] at hae
    rw [h.chg _ ha]
    exact hpos a ha hae
  obtain ⟨X, Y, _, _, x3, x4, x5, x6⟩ := C50_flow H hord hpos cell
  obtain ⟨X', Y', y1, y2, _, _, y5, y6⟩ := C50_flow H' hord' hpos' cell
  have hmem : ∀ v < W.s.size, W.edge v = true → v ∈ W.edges := fun v hv he => by simp [NWIn.edges, hv, he]
  have ex := x3 _ (h.flow H h.chg y1)
  have ey := x4 _ (h.flow H (q := fun _ => 1) (fun _ _ => rfl) y2)
  rw [x5, x6, y5, y6, h.holds H hup h.chg (fun v hv he => ex v (hmem v hv he)) hv hl,
    h.holds H hup (q := fun _ => 1) (q' := fun _ => 1) (fun _ _ => rfl) (fun v hv he => ey v (hmem v hv he)) hv hl, h.size]
  exact ⟨rfl, rfl⟩

theorem NWCarried.vac (h : NWCarried φ W W') (cell : K) :
    (nwResults W' cell).vacCharge = (nwResults W cell).vacCharge ∧ (nwResults W' cell).vacVolume = (nwResults W cell).vacVolume := by
  show (nwInterior W').vacCharge = (nwInterior W).vacCharge ∧ (nwInterior W').vacVolume = (nwInterior W).vacVolume
  unfold nwInterior
  rw [(nwInterior_vac _ _).1, (nwInterior_vac _ _).1, (nwInterior_vac _ _).2, (nwInterior_vac _ _).2]
  simp only [zero_add, sum_range_list, ← Finset.sum_filter]
  have hP : ∀ v < W.s.size, (W'.edge (φ v) = false ∧ W'.labels (φ v) < 0) ↔ (W.edge v = false ∧ W.labels v < 0) := by
    intro v hv
    rw [h.edge v hv, h.sign v hv]
  exact ⟨h.sum _ _ W.chg W'.chg hP fun v hv _ => h.chg v hv, h.sum _ _ (fun _ => (1 : K)) (fun _ => 1) hP fun _ _ _ => rfl⟩

end carried

/-! ## Rows -/

theorem nwRow_carried {g : GridOper} {G G' : RunInput K} {A A' : RunAid K} {ε : K} (T : OperRuns g G G' A A' ε) (h1 : G.OneSteepest)
    {φ : ℕ → ℕ} (hφ : ∀ v, v < G.shape.size → g.Carries G.shape G'.shape v (φ v)) {vor vor' : List (Coord × K)}
    (hvor : ∀ t ∈ vor, 0 < t.2 ∧ t.1 ∈ G.nbrs.map Prod.fst) (hvor' : vor'.Perm (vor.map fun t => (g.rot.mul t.1, t.2)))
    {W W' : NWIn K} (hs : W.s = G.shape) (hs' : W'.s = G'.shape) (hr : W.ref = G.ref) (hr' : W'.ref = G'.ref) (hv : W.vor = vor) (hv' : W'.vor = vor')
    (ha : W.all = G.nbrs) (ha' : W'.all = G'.nbrs) {v : ℕ} (hvs : v < G.shape.size) (hvac : G.vacuum v = false) :
    (nwRow W' (φ v)).Perm ((nwRow W v).map fun e => (e.1, φ e.2)) := by
  have O := T.oper
  have hf := T.ready.fits
  have hf' := T.ready'.fits
  have hc := hφ v hvs
  have key : ∀ t ∈ vor, φ (nbr G.shape v t.1) = nbr G'.shape (φ v) (g.rot.mul t.1) ∧ G'.ref (nbr G'.shape (φ v) (g.rot.mul t.1)) = G.ref (nbr G.shape v t.1) := by
    intro t ht
    obtain ⟨td, htd, e⟩ := List.mem_map.mp (hvor t ht).2
    have hst := O.step hf hf' hc htd
    rw [e] at hst
    exact ⟨carries_unique (hφ _ hst.1) hst, O.ref _ _ hst⟩
  unfold nwRow
  simp only [hs, hs', hr, hr', hv, hv', ha, ha', O.ref _ _ hc]
  set row := (vor.filter (fun (t : Coord × K) => !decide (G.ref (nbr G.shape v t.1) ≤ G.ref v))).map
    (fun (t : Coord × K) => ((G.ref (nbr G.shape v t.1) - G.ref v) * t.2, nbr G.shape v t.1)) with hrow
  have hp : ((vor'.filter (fun (t : Coord × K) => !decide (G'.ref (nbr G'.shape (φ v) t.1) ≤ G.ref v))).map
      (fun (t : Coord × K) => ((G'.ref (nbr G'.shape (φ v) t.1) - G.ref v) * t.2, nbr G'.shape (φ v) t.1))).Perm (row.map fun e => (e.1, φ e.2)) := by
    refine ((hvor'.filter _).map _).trans (List.Perm.of_eq ?_)
    rw [List.filter_map, hrow, List.map_map, List.map_map]
    have e1 : vor.filter ((fun (t : Coord × K) => !decide (G'.ref (nbr G'.shape (φ v) t.1) ≤ G.ref v)) ∘ fun t => (g.rot.mul t.1, t.2)) =
        vor.filter (fun (t : Coord × K) => !decide (G.ref (nbr G.shape v t.1) ≤ G.ref v)) := by
      refine List.filter_congr fun t ht => ?_
      simp only [Function.comp, (key t ht).2]
    rw [e1]
    refine List.map_congr_left fun t ht => ?_
    obtain ⟨k1, k2⟩ := key t (List.mem_filter.mp ht).1
    simp only [Function.comp, k1, k2]
  have hsum : (((vor'.filter (fun (t : Coord × K) => !decide (G'.ref (nbr G'.shape (φ v) t.1) ≤ G.ref v))).map
      (fun (t : Coord × K) => ((G'.ref (nbr G'.shape (φ v) t.1) - G.ref v) * t.2, nbr G'.shape (φ v) t.1))).map Prod.fst).sum = (row.map Prod.fst).sum := by
    rw [(hp.map Prod.fst).sum_eq, List.map_map]
    rfl
  rw [hsum]
  split_ifs with h0
  · refine List.Perm.of_eq ?_
    by_cases hm : G.IsMax v
    · have hm' := (O.isMax hf hf' hc).mpr hm
      have b1 := bestNeighbor_self G.shape G.ref v G.nbrs T.ready.pos fun t ht =>
        hm.2.2 _ ((isNbr_iff (fitsOf hf) hvs).mpr ⟨t.1, List.mem_map_of_mem ht, rfl⟩)
      have b2 := bestNeighbor_self G'.shape G'.ref (φ v) G'.nbrs T.ready'.pos fun t ht =>
        hm'.2.2 _ ((isNbr_iff (fitsOf hf') hc.2.1).mpr ⟨t.1, List.mem_map_of_mem ht, rfl⟩)
      simp only [List.map_cons, List.map_nil]
      rw [b1, b2]
    · obtain ⟨td, htd, b1, b2⟩ := best_carried T h1 hc hvac hm
      rw [b1, b2]
      have hst := O.step hf hf' hc htd
      rw [← carries_unique (hφ _ hst.1) hst]
      rfl
  · refine (hp.map _).trans (List.Perm.of_eq ?_)
    rw [List.map_map (l := row), List.map_map (l := row)]
    rfl

/-! ## The run -/

/-- **C120** (partial) The neargrid-weight method after a symmetry operation or another choice of the axes, if axes go to axes and the Voronoi neighbours and
their weights go along: the basins, what they get and the atoms are carried along, for every gradient field that turns with the crystal, if charge and
reference rise together and the charge is positive outside the vacuum.  Missing: operations that carry an axis to a diagonal, voxels with several
steepest neighbours, and references that do not rise with the charge. -/
theorem C120_neargrid_weight_partial (g : GridOper) (G G' : RunInput K) (A A' : RunAid K) (ε : K) (T : OperRuns g G G' A A' ε) (hk : g.KeepsAxes)
    (hu : ∀ td ∈ G.nbrs, UnitStep td.1) (h1 : G.OneSteepest) (grad grad' : ℕ → K × K × K) (hg : GradCarried g G.shape G'.shape grad grad')
    (vor vor' : List (Coord × K)) (hvor : ∀ t ∈ vor, 0 < t.2 ∧ t.1 ∈ G.nbrs.map Prod.fst) (hvor' : vor'.Perm (vor.map fun t => (g.rot.mul t.1, t.2)))
    (hmono : ∀ v w, v < G.shape.size → w < G.shape.size → G.ref v < G.ref w → G.charge v < G.charge w)
    (hpos : ∀ v < G.shape.size, G.vacuum v = false → 0 < G.charge v)
    (o1 o2 o3 o1' o2' o3' : List ℕ) (perm perm' : List ℕ → List ℕ)
    (ho1 : IsSchedule G.shape o1) (ho2 : IsSchedule G.shape o2) (ho3 : IsSchedule G.shape o3) (ho1' : IsSchedule G'.shape o1') (ho2' : IsSchedule G'.shape o2')
    (ho3' : IsSchedule G'.shape o3') (hperm : ∀ l, (perm l).Perm l) (hperm' : ∀ l, (perm' l).Perm l) :
    ∃ F, ∀ fuel ≥ F, ∃ o o', G.runNW A vor grad o1 o2 o3 perm fuel = some o ∧ G'.runNW A' vor' grad' o1' o2' o3' perm' fuel = some o' ∧
      CarriedBasins g G G' o o' ∧
      (∀ σ, OperAtoms g G G' A A' σ →
        (∀ v w, g.Carries G.shape G'.shape v w → o.labels v ≠ -1 →
          ∃ i < G.atoms.length, o.assignment.atomLabels v = i ∧ o'.assignment.atomLabels w = σ i) ∧
        (∀ v w, g.Carries G.shape G'.shape v w → o.labels v = -1 → o.assignment.atomLabels v = -1 ∧ o'.assignment.atomLabels w = -1) ∧
        (∀ i < G.atoms.length, o'.assignment.charges (σ i) = o.assignment.charges i ∧ o'.assignment.volumes (σ i) = o.assignment.volumes i)) := by
  have O := T.oper
  have hf := T.ready.fits
  have hf' := T.ready'.fits
  have hp : G.shape.Pos := pos_of_lt_size T.ready.voxels
  have hp' : G'.shape.Pos := pos_of_lt_size T.ready'.voxels
  have hu' : ∀ td ∈ G'.nbrs, UnitStep td.1 := by
    intro td' h'
    obtain ⟨td, h2, rfl⟩ := O.mem' h'
    exact mul_unit hk (hu td h2)
  have hex : ∀ v, ∃ w, v < G.shape.size → g.Carries G.shape G'.shape v w := by
    intro v
    by_cases h : v < G.shape.size
    · obtain ⟨w, hw⟩ := carries_exists (g := g) hp' h
      exact ⟨w, fun _ => hw⟩
    · exact ⟨0, fun h' => absurd h' h⟩
  choose φ hφ using hex
  obtain ⟨_, _, _, F1, k1, _⟩ := neargrid_groups G A ε T.ready hu grad o1 o2 perm ho1 ho2 hperm T.twoSided T.noPlateau (.ofApart T.apart T.sorted)
  obtain ⟨_, _, _, F2, k2, _⟩ := neargrid_groups G' A' ε T.ready' hu' grad' o1' o2' perm' ho1' ho2' hperm' (O.twoSided T.twoSided)
    (O.noPlateau hf hf' hp T.noPlateau) (.ofApart T.apart' T.sorted')
  obtain ⟨F3, k3⟩ := C120_neargrid_partial g G G' A A' ε T hk hu h1 grad grad' hg o1 o2 o1' o2' perm perm' ho1 ho2 ho1' ho2' hperm hperm'
  refine ⟨max F1 (max F2 F3), fun fuel hfu => ?_⟩
  simp only [max_le_iff, ge_iff_le] at hfu
  obtain ⟨o, r1, -, -, r4, r5, r6, -, -, -, r10⟩ := k1 fuel hfu.1
  obtain ⟨o', s1, -, -, s4, s5, s6, -, -, -, s10⟩ := k2 fuel hfu.2.1
  obtain ⟨q, q', e1, e2, hS, -⟩ := k3 fuel hfu.2.2
  obtain rfl : o = q := Option.some.inj (r1.symm.trans e1)
  obtain rfl : o' = q' := Option.some.inj (s1.symm.trans e2)
  obtain ⟨p, p1, p2, p3, p4, p5⟩ := runNW_of_run G A vor grad o1 o2 o3 perm fuel o T.ready.atoms r1
  obtain ⟨p', q1, q2, q3, q4, q5⟩ := runNW_of_run G' A' vor' grad' o1' o2' o3' perm' fuel o' T.ready'.atoms s1
  obtain ⟨m1, m2⟩ := r10 T.apart
  obtain ⟨n1, n2⟩ := s10 T.apart'
  have hsz := size_carried O.fits hp hp'
  have hvorG' : ∀ t ∈ vor', 0 < t.2 ∧ t.1 ∈ G'.nbrs.map Prod.fst := by
    intro t' ht'
    obtain ⟨t, ht, rfl⟩ := List.mem_map.mp (hvor'.mem_iff.mp ht')
    obtain ⟨td, htd, e⟩ := List.mem_map.mp (hvor t ht).2
    exact ⟨(hvor t ht).1, List.mem_map.mpr ⟨_, O.mem htd, by dsimp only; rw [e]⟩⟩
  set W : NWIn K := ⟨G.shape, G.ref, G.charge, vor, G.nbrs, o.labels, getEdges G.shape o.labels (G.nbrs.map Prod.fst) G.vacuum o3, o.maxima.length⟩ with hW
  set W' : NWIn K := ⟨G'.shape, G'.ref, G'.charge, vor', G'.nbrs, o'.labels, getEdges G'.shape o'.labels (G'.nbrs.map Prod.fst) G'.vacuum o3', o'.maxima.length⟩ with hW'
  have edge_iff : ∀ v < G.shape.size, (W.edge v = true ↔ G.vacuum v = false ∧ ∃ t ∈ G.nbrs.map Prod.fst,
      o.labels (nbr G.shape v t) ≠ o.labels v ∧ G.vacuum (nbr G.shape v t) = false) := by
    intro v hv
    show getEdges _ _ _ _ _ _ = true ↔ _
    rw [getEdges_apply, edgeScan_iff]
    have : v ∈ o3 := ho3.mem_iff.mpr (List.mem_range.mpr hv)
    simp [this]
  have edge_iff' : ∀ v < G.shape.size, (W'.edge (φ v) = true ↔ G.vacuum v = false ∧ ∃ t ∈ G.nbrs.map Prod.fst,
      o.labels (nbr G.shape v t) ≠ o.labels v ∧ G.vacuum (nbr G.shape v t) = false) := by
    intro v hv
    have hc := hφ v hv
    show getEdges _ _ _ _ _ _ = true ↔ _
    rw [getEdges_apply, edgeScan_iff, O.vacuum hc]
    have : φ v ∈ o3' := ho3'.mem_iff.mpr (List.mem_range.mpr hc.2.1)
    simp only [this, true_and]
    refine and_congr_right fun _ => ?_
    constructor
    · rintro ⟨t', ht', x1, x2⟩
      obtain ⟨td', hd', rfl⟩ := List.mem_map.mp ht'
      obtain ⟨td, hd, rfl⟩ := O.mem' hd'
      have hst := O.step hf hf' hc hd
      exact ⟨td.1, List.mem_map_of_mem hd, fun e => x1 ((hS.parts _ _ _ _ hst hc).mpr e), (O.vacuum hst).symm.trans x2⟩
    · rintro ⟨t, ht, x1, x2⟩
      obtain ⟨td, hd, rfl⟩ := List.mem_map.mp ht
      have hst := O.step hf hf' hc hd
      exact ⟨g.rot.mul td.1, List.mem_map.mpr ⟨_, O.mem hd, rfl⟩, fun e => x1 ((hS.parts _ _ _ _ hst hc).mp e), (O.vacuum hst).trans x2⟩
  have sign : ∀ v < G.shape.size, (o.labels v < 0 ↔ G.vacuum v = true) := by
    intro v hv
    cases h : G.vacuum v with
    | true => simp [r4 v hv h]
    | false => have := (r5 v hv h).1; simp; omega
  have sign' : ∀ v < G'.shape.size, (o'.labels v < 0 ↔ G'.vacuum v = true) := by
    intro v hv
    cases h : G'.vacuum v with
    | true => simp [s4 v hv h]
    | false => have := (s5 v hv h).1; simp; omega
  have hNW : NWCarried φ W W' := {
    size := hsz
    lt := fun v hv => by show φ v < G.shape.size; rw [← hsz]; exact (hφ v hv).2.1
    inj := fun v w hv hw e => carries_inj O.fits (hφ v hv) (e ▸ hφ w hw)
    surj := fun w hw => by
      obtain ⟨v, hc⟩ := carries_surj O.fits hp (w := w) (by rw [hsz]; exact hw)
      exact ⟨v, hc.1, carries_unique (hφ v hc.1) hc⟩
    ref := fun v hv => O.ref _ _ (hφ v hv)
    chg := fun v hv => O.charge _ _ (hφ v hv)
    edge := fun v hv => by rw [Bool.eq_iff_iff]; exact (edge_iff' v hv).trans (edge_iff v hv).symm
    sign := fun v hv => by
      show o'.labels (φ v) < 0 ↔ o.labels v < 0
      rw [sign v hv, sign' _ (hφ v hv).2.1, O.vacuum (hφ v hv)]
    parts := fun v w hv hw => hS.parts _ _ _ _ (hφ v hv) (hφ w hw)
    row := fun v hv he => nwRow_carried T h1 hφ hvor hvor' rfl rfl rfl rfl rfl rfl rfl rfl hv ((edge_iff v hv).mp he).1 }
  have labs : ∀ v < G.shape.size, -1 ≤ o.labels v ∧ o.labels v < (o.maxima.length : ℤ) := by
    intro v hv
    cases h : G.vacuum v with
    | true => rw [r4 v hv h]; omega
    | false => have := r5 v hv h; omega
  have labs' : ∀ v < G'.shape.size, -1 ≤ o'.labels v ∧ o'.labels v < (o'.maxima.length : ℤ) := by
    intro v hv
    cases h : G'.vacuum v with
    | true => rw [s4 v hv h]; omega
    | false => have := s5 v hv h; omega
  have results : ∀ v w, g.Carries G.shape G'.shape v w → o.labels v ≠ -1 →
      p'.basins.charges (o'.labels w).toNat = p.basins.charges (o.labels v).toNat ∧
      p'.basins.volumes (o'.labels w).toNat = p.basins.volumes (o.labels v).toNat := by
    intro v w hc hne
    have hv := hc.1
    have hvv : G.vacuum v = false := by
      cases h : G.vacuum v with
      | true => exact absurd (r4 v hv h) hne
      | false => rfl
    have hl := r5 v hv hvv
    have hl' := s5 _ hc.2.1 ((O.vacuum hc).trans hvv)
    have H : NWOk W := ⟨fun t ht => fitsOf hf _ (hvor t ht).2, hf, fun t ht => (hvor t ht).1, T.ready.pos, fun t ht => (hvor t ht).2, labs,
      by show 0 < o.maxima.length; omega⟩
    have H' : NWOk W' := ⟨fun t ht => fitsOf hf' _ (hvorG' t ht).2, hf', fun t ht => (hvorG' t ht).1, T.ready'.pos, fun t ht => (hvorG' t ht).2, labs',
      by show 0 < o'.maxima.length; omega⟩
    have := hNW.results H H' (fun a b ha hb _ _ h => hmono a b ha hb h) (fun a ha he => hpos a ha ((edge_iff a ha).mp he).1) (fun a b ha hb he h => by
      have hav := ((edge_iff a ha).mp he).1
      have hbv : G.vacuum b = false := by
        rcases h with rfl | h
        · exact hav
        · exact T.ready.vacuum.up a b hav h.le
      exact (r5 b hb hbv).1) G.volume hv hl.1
    rw [p4, q4, O.volume, ← carries_unique (hφ v hv) hc]
    exact this
  have hvac : p'.basins.vacCharge = p.basins.vacCharge ∧ p'.basins.vacVolume = p.basins.vacVolume := by
    rw [p4, q4, O.volume]
    exact hNW.vac G.volume
  have hS' : CarriedBasins g G G' p p' := by
    refine ⟨?_, ?_, ?_, ?_, hvac.1, hvac.2, ?_⟩
    · rw [p2, q2]; exact hS.vacuum
    · rw [p2, q2]; exact hS.parts
    · rw [p2, q2]; exact fun v w hc hne => (results v w hc hne).1
    · rw [p2, q2]; exact fun v w hc hne => (results v w hc hne).2
    · rw [p3, q3]; exact hS.count
  refine ⟨p, p', p1, q1, hS', fun σ R => carriedAtoms_of T R hS' ?_ ?_ ?_ p5 q5 (by rw [p3]; exact m1) ?_ (by rw [q3]; exact n1) ?_⟩
  · rw [p2]; exact r4
  · rw [p2, p3]; exact r5
  · rw [p2]; exact r6
  · rw [p2, p3]; exact m2
  · rw [q2, q3]; exact n2

/-- The hypotheses hold for the ring with a mirror, and its two atoms get the same charge. -/
example : OperRuns (mirrorAt 5) mirrorCell mirrorCell (lineAid [1, 4, 2, 2, 4, 1] fun _ _ => false) (lineAid [1, 4, 2, 2, 4, 1] fun _ _ => false) 0 ∧
    (∀ t ∈ ring2, 0 < t.2 ∧ t.1 ∈ mirrorCell.nbrs.map Prod.fst) ∧ ring2.Perm (ring2.map fun t => ((mirrorAt 5).rot.mul t.1, t.2)) ∧
    (∀ v < 6, ∀ w < 6, mirrorCell.ref v < mirrorCell.ref w → mirrorCell.charge v < mirrorCell.charge w) ∧ (∀ v < 6, 0 < mirrorCell.charge v) ∧
    OperAtoms (mirrorAt 5) mirrorCell mirrorCell (lineAid [1, 4, 2, 2, 4, 1] fun _ _ => false) (lineAid [1, 4, 2, 2, 4, 1] fun _ _ => false) (fun i => 1 - i) ∧
    (mirrorCell.runNW (lineAid [1, 4, 2, 2, 4, 1] fun _ _ => false) ring2
      (gradientSimple mirrorCell.shape mirrorCell.ref idMat) (List.range 6) (List.range 6) (List.range 6) id 50).map
      (fun o => (List.range 2).map o.assignment.charges) = some [7 / 6, 7 / 6] := by
  refine ⟨mirrorCell_ready.1, by decide +kernel, by decide +kernel, by decide +kernel, by decide +kernel, mirrorCell_ready.2.1, by decide +kernel⟩

end BaderKit
