import Verif.Props.OriginNW
import Verif.Props.RunUnits
import Verif.Props.BaderRunNW
/-!
# C115 for the neargrid-weight method

The unit and the zero of the reference grid do not matter.  The charges are linear in the charge grid only for densities that rise with the
reference: the method visits edge voxels in the order of the charge.
-/
set_option linter.unusedSectionVars false
namespace BaderKit
open Finset

variable {K : Type} [Field K] [LinearOrder K] [IsStrictOrderedRing K] [FloorRing K]

/-! ## Unit and zero of the reference -/

theorem nwRow_affine {a : K} (ha : 0 < a) (b : K) (W : NWIn K) (v : ℕ) : nwRow { W with ref := fun u => affine a b (W.ref u) } v = nwRow W v := by
  unfold nwRow
  simp only [(affine_mono ha b).le_iff_le, affine_sub, bestNeighbor_affine ha b]
  set hi := W.vor.filter (fun (t : Coord × K) => !decide (W.ref (nbr W.s v t.1) ≤ W.ref v))
  have hsum : ((hi.map fun (t : Coord × K) => (a * (W.ref (nbr W.s v t.1) - W.ref v) * t.2, nbr W.s v t.1)).map Prod.fst).sum =
      a * ((hi.map fun (t : Coord × K) => ((W.ref (nbr W.s v t.1) - W.ref v) * t.2, nbr W.s v t.1)).map Prod.fst).sum := by
    rw [List.map_map, List.map_map, ← List.sum_map_mul_left]
    refine congrArg List.sum (List.map_congr_left fun t _ => ?_)
    simp only [Function.comp]
    ring
  rw [hsum]
  generalize ((hi.map fun (t : Coord × K) => ((W.ref (nbr W.s v t.1) - W.ref v) * t.2, nbr W.s v t.1)).map Prod.fst).sum = S
  simp only [mul_eq_zero, ha.ne', false_or]
  split_ifs with h0
  · rfl
  · rw [List.map_map, List.map_map]
    refine List.map_congr_left fun t _ => ?_
    simp only [Function.comp, Prod.mk.injEq, and_true]
    rw [mul_assoc, mul_div_mul_left _ _ ha.ne']

theorem nwResults_affine {a : K} (ha : 0 < a) (b : K) (W : NWIn K) (cell : K) :
    nwResults { W with ref := fun u => affine a b (W.ref u) } cell = nwResults W cell := by
  have e : nwEdge { W with ref := fun u => affine a b (W.ref u) } = nwEdge W := by
    funext st v
    unfold nwEdge
    rw [nwRow_affine ha b]
    rfl
  unfold nwResults nwEdges
  rw [e]
  rfl

/-- **C115** (partial) A complete run of the neargrid-weight method gives the same results, whatever unit and zero the reference grid has, if no gradient crosses
the absolute limit below which it counts as zero and the same voxels are vacuum. -/
theorem C115_neargrid_weight_partial (G : RunInput K) (a b : K) (ha : 0 < a) (hv : (G.rescale a b).vacuum = G.vacuum) (A : RunAid K)
    (vor : List (Coord × K)) (grad : ℕ → K × K × K) (hg : ∀ v, a * maxGrad (grad v) < 1 / 10 ^ 30 ↔ maxGrad (grad v) < 1 / 10 ^ 30)
    (o1 o2 o3 : List ℕ) (perm : List ℕ → List ℕ) (fuel : ℕ) :
    (G.rescale a b).runNW A vor (fun v => scaleGrad a (grad v)) o1 o2 o3 perm fuel = G.runNW A vor grad o1 o2 o3 perm fuel := by
  have hn : (G.rescale a b).numVacuum = G.numVacuum := by unfold RunInput.numVacuum; rw [hv]; rfl
  have hM : getMaxima G.shape (G.rescale a b).ref (G.nbrs.map Prod.fst) (G.rescale a b).vacuum false A.order =
      getMaxima G.shape G.ref (G.nbrs.map Prod.fst) G.vacuum false A.order := by
    rw [hv]
    exact getMaxima_mono _ (affine_mono ha b) _ _ _ _ _ _
  unfold RunInput.runNW
  rw [show (G.rescale a b).shape = G.shape from rfl, show (G.rescale a b).nbrs = G.nbrs from rfl, hM, hn, hv]
  rw [show (G.rescale a b).ref = fun v => affine a b (G.ref v) from rfl]
  have hrun : ∀ M k (l : ℕ → ℤ), nwRun G.shape (fun v => affine a b (G.ref v)) G.charge G.nbrs vor (fun v => scaleGrad a (grad v)) G.vacuum M G.numVacuum k G.volume
      o1 o2 o3 perm fuel l = nwRun G.shape G.ref G.charge G.nbrs vor grad G.vacuum M G.numVacuum k G.volume o1 o2 o3 perm fuel l := by
    intro M k l
    unfold nwRun
    rw [neargridLabels_affine ha b _ _ _ _ _ _ _ _ _ _ _ _ hg]
    refine congrArg (fun f => Option.map f _) (funext fun lab => ?_)
    exact Prod.ext rfl (nwResults_affine ha b ⟨G.shape, G.ref, G.charge, vor, G.nbrs, lab, _, k⟩ G.volume)
  simp only [initLabels_affine ha]
  simp only [show (G.rescale a b).charge = G.charge from rfl, show (G.rescale a b).volume = G.volume from rfl, show (G.rescale a b).lattice = G.lattice from rfl,
    show (G.rescale a b).atoms = G.atoms from rfl, hrun]

/-! ## Charges -/

/-- What is said of one charge grid: it rises with the reference and is positive outside the vacuum. -/
def RunInput.Rising (G : RunInput K) (c : ℕ → K) : Prop :=
  (∀ v w, v < G.shape.size → w < G.shape.size → G.ref v < G.ref w → c v < c w) ∧ ∀ v < G.shape.size, G.vacuum v = false → 0 < c v

theorem RunInput.Rising.combine {G : RunInput K} {c1 c2 : ℕ → K} (h1 : G.Rising c1) (h2 : G.Rising c2) {x y : K} (hx : 0 ≤ x) (hy : 0 ≤ y) (hxy : 0 < x + y) :
    G.Rising fun v => x * c1 v + y * c2 v := by
  have key : ∀ p q p' q' : K, p < p' → q < q' → x * p + y * q < x * p' + y * q' := by
    intro p q p' q' hp hq
    rcases hx.eq_or_lt with rfl | hx'
    · have : 0 < y := by linarith
      nlinarith
    · nlinarith [mul_le_mul_of_nonneg_left hq.le hy, mul_lt_mul_of_pos_left hp hx']
  constructor
  · exact fun v w hv hw h => key _ _ _ _ (h1.1 v w hv hw h) (h2.1 v w hv hw h)
  · intro v hv hvv
    simpa using key 0 0 _ _ (h1.2 v hv hvv) (h2.2 v hv hvv)

/-- The input of the splitting with another charge grid. -/
def NWIn.withCharge (W : NWIn K) (c : ℕ → K) : NWIn K := { W with chg := c }

theorem nwResults_lin {W : NWIn K} {c1 c2 : ℕ → K} {x y : K} (H : NWOk W)
    (h : ∀ c ∈ [c1, c2, fun v => x * c1 v + y * c2 v], SameOrder (W.withCharge c) ∧ ∀ v < W.s.size, W.edge v = true → 0 < c v) (cell : K) :
    (∀ b, (nwResults (W.withCharge fun v => x * c1 v + y * c2 v) cell).charges b =
      x * (nwResults (W.withCharge c1) cell).charges b + y * (nwResults (W.withCharge c2) cell).charges b) ∧
    (nwResults (W.withCharge fun v => x * c1 v + y * c2 v) cell).volumes = (nwResults (W.withCharge c1) cell).volumes ∧
    (nwResults (W.withCharge fun v => x * c1 v + y * c2 v) cell).vacCharge =
      x * (nwResults (W.withCharge c1) cell).vacCharge + y * (nwResults (W.withCharge c2) cell).vacCharge ∧
    (nwResults (W.withCharge fun v => x * c1 v + y * c2 v) cell).vacVolume = (nwResults (W.withCharge c1) cell).vacVolume := by
  have ok : ∀ c, NWOk (W.withCharge c) := fun c => ⟨H.fitsV, H.fitsA, H.alpha, H.dist, H.sub, H.labels, H.basin⟩
  obtain ⟨a1, a2⟩ := h c1 (by simp)
  obtain ⟨b1, b2⟩ := h c2 (by simp)
  obtain ⟨d1, d2⟩ := h (fun v => x * c1 v + y * c2 v) (by simp)
  obtain ⟨X1, Y1, e1, e2, -, -, e5, e6⟩ := C50_flow (ok c1) a1 a2 cell
  obtain ⟨X2, Y2, f1, f2, -, -, f5, -⟩ := C50_flow (ok c2) b1 b2 cell
  obtain ⟨X3, Y3, g1, g2, g3, g4, g5, g6⟩ := C50_flow (ok fun v => x * c1 v + y * c2 v) d1 d2 cell
  have hX : ∀ v ∈ W.edges, x * X1 v + y * X2 v = X3 v := g3 (fun v => x * X1 v + y * X2 v) fun v hv => by
    have k1 : X1 v = c1 v + ∑ u ∈ W.edges, X1 u * edgeShare W u v := e1 v hv
    have k2 : X2 v = c2 v + ∑ u ∈ W.edges, X2 u * edgeShare W u v := f1 v hv
    show x * X1 v + y * X2 v = (x * c1 v + y * c2 v) + ∑ u ∈ W.edges, (x * X1 u + y * X2 u) * edgeShare W u v
    rw [k1, k2, mul_add, mul_add, Finset.mul_sum, Finset.mul_sum]
    simp only [add_mul, Finset.sum_add_distrib, mul_assoc]
    ring
  have hY : ∀ v ∈ W.edges, Y1 v = Y3 v := g4 Y1 e2
  refine ⟨fun b => ?_, funext fun b => ?_, ?_, ?_⟩
  · rw [g5, e5, f5]
    show basinHolds W (fun v => x * c1 v + y * c2 v) X3 b / (W.s.size : K) = x * (basinHolds W c1 X1 b / (W.s.size : K)) + y * (basinHolds W c2 X2 b / (W.s.size : K))
    have : basinHolds W (fun v => x * c1 v + y * c2 v) X3 b = x * basinHolds W c1 X1 b + y * basinHolds W c2 X2 b := by
      have hs : ∑ u ∈ W.edges, X3 u * rowBasin W (nwRow W u) b = ∑ u ∈ W.edges, (x * X1 u + y * X2 u) * rowBasin W (nwRow W u) b :=
        Finset.sum_congr rfl fun u hu => by rw [hX u hu]
      unfold basinHolds
      rw [hs]
      simp only [add_mul, Finset.sum_add_distrib, mul_assoc, ← Finset.mul_sum]
      ring
    rw [this]
    ring
  · rw [g6, e6]
    show basinHolds W _ Y3 b * cell / (W.s.size : K) = basinHolds W _ Y1 b * cell / (W.s.size : K)
    have : basinHolds W (fun _ => 1) Y3 b = basinHolds W (fun _ => 1) Y1 b := by
      unfold basinHolds
      congr 1
      exact Finset.sum_congr rfl fun u hu => by rw [hY u hu]
    rw [this]
  · show (nwInterior _).vacCharge = x * (nwInterior _).vacCharge + y * (nwInterior _).vacCharge
    unfold nwInterior
    rw [(nwInterior_vac _ _).1, (nwInterior_vac _ _).1, (nwInterior_vac _ _).1]
    simp only [zero_add, sum_range_list, NWIn.withCharge]
    rw [Finset.mul_sum, Finset.mul_sum, ← Finset.sum_add_distrib]
    refine Finset.sum_congr rfl fun v _ => ?_
    by_cases h0 : W.edge v = false ∧ W.labels v < 0
    · simp only [h0, and_self, if_true]
    · simp only [h0, if_false, mul_zero, add_zero]
  · show (nwInterior _).vacVolume = (nwInterior _).vacVolume
    unfold nwInterior
    rw [(nwInterior_vac _ _).2, (nwInterior_vac _ _).2]
    rfl

/-- **C115** (partial) The basin and vacuum charges of the neargrid-weight method are linear in the charge grid, with the same labels, maxima and volumes, for
densities that rise with the reference and are positive outside the vacuum.  Missing: other densities, for which it is false
(`C115_neargrid_weight_order`). -/
theorem C115_neargrid_weight_charges_partial (G : RunInput K) (A : RunAid K) (ε : K) (H : RunReady G A ε) (hv : G.RefVacuum)
    (hu : ∀ td ∈ G.nbrs, UnitStep td.1) (vor : List (Coord × K)) (hvor : ∀ t ∈ vor, 0 < t.2 ∧ t.1 ∈ G.nbrs.map Prod.fst)
    (hsome : ∃ v < G.shape.size, G.vacuum v = false) (grad : ℕ → K × K × K) (o1 o2 o3 : List ℕ) (perm : List ℕ → List ℕ)
    (ho1 : IsSchedule G.shape o1) (ho2 : IsSchedule G.shape o2) (ho3 : IsSchedule G.shape o3) (hperm : ∀ l, (perm l).Perm l)
    (c1 c2 : ℕ → K) (h1 : G.Rising c1) (h2 : G.Rising c2) (x y : K) (hx : 0 ≤ x) (hy : 0 ≤ y) (hxy : 0 < x + y) :
    ∃ F, ∀ fuel ≥ F, ∃ p1 p2 p3, (G.withCharge c1).runNW A vor grad o1 o2 o3 perm fuel = some p1 ∧
      (G.withCharge c2).runNW A vor grad o1 o2 o3 perm fuel = some p2 ∧
      (G.withCharge fun v => x * c1 v + y * c2 v).runNW A vor grad o1 o2 o3 perm fuel = some p3 ∧
      Superposed x y True p1.labels p2.labels p3.labels p1.basins p2.basins p3.basins p1.maxima p2.maxima p3.maxima := by
  set M := getMaxima G.shape G.ref (G.nbrs.map Prod.fst) G.vacuum false A.order with hM
  obtain ⟨res, F0, lab, hinit, hrun, hvac, hlab, -⟩ := C22_neargrid_full G.shape G.ref G.nbrs grad G.vacuum A.same A.cand
    (A.sortMax (maximaVox G.shape M)) A.order G.numVacuum H.voxels hu H.pos (fun v _ hv w _ hle => H.vacuum.up v w hv hle) G.numVacuum_zero H.order
    (H.sort (maximaVox G.shape M))
  obtain ⟨F, hF⟩ := hrun o1 o2 perm ho1 ho2 hperm
  refine ⟨max F0 F, fun fuel hf => ?_⟩
  obtain ⟨lab', e2, hl⟩ := hF fuel (le_of_max_le_right hf)
  have e1 : initLabels G.shape G.ref G.nbrs M A.same A.cand (A.sortMax (maximaVox G.shape M)) fuel = some res := hinit fuel (le_of_max_le_left hf)
  set W : NWIn K := ⟨G.shape, G.ref, G.charge, vor, G.nbrs, lab', getEdges G.shape lab' (G.nbrs.map Prod.fst) G.vacuum o3, res.reps.length⟩ with hW
  have one : ∀ c, ∃ asg, (G.withCharge c).runNW A vor grad o1 o2 o3 perm fuel = some ⟨lab', nwResults (W.withCharge c) G.volume, res.reps, asg⟩ := by
    intro c
    set r := nwResults (W.withCharge c) G.volume with hr
    have hs := (C23_succeeds A.root G.lattice G.atoms (res.reps.map A.place) lab' ((List.range res.reps.length).map fun b => A.rnd (r.charges b))
      ((List.range res.reps.length).map fun b => A.rnd (r.volumes b))).mpr (Or.inl H.atoms)
    obtain ⟨asg, hasg⟩ := Option.isSome_iff_exists.mp hs
    refine ⟨asg, ?_⟩
    have hn : (G.withCharge c).numVacuum = G.numVacuum := by unfold RunInput.numVacuum; rw [vacuum_withCharge G hv]; rfl
    simp only [RunInput.runNW, nwRun, Option.bind_eq_bind, vacuum_withCharge G hv, hn]
    show (initLabels G.shape G.ref G.nbrs M A.same A.cand (A.sortMax (maximaVox G.shape M)) fuel).bind _ = _
    rw [e1, Option.bind_some]
    show ((neargridLabels G.shape G.ref G.nbrs grad G.vacuum M G.numVacuum o1 o2 perm fuel res.labels).map _).bind _ = _
    rw [e2, Option.map_some, Option.bind_some]
    show (assignBasins A.root G.lattice G.atoms (res.reps.map A.place) lab' ((List.range res.reps.length).map fun b => A.rnd (r.charges b))
      ((List.range res.reps.length).map fun b => A.rnd (r.volumes b))).bind _ = _
    rw [hasg]
    rfl
  obtain ⟨a1, r1⟩ := one c1
  obtain ⟨a2, r2⟩ := one c2
  obtain ⟨a3, r3⟩ := one fun v => x * c1 v + y * c2 v
  have hlab' : ∀ v < G.shape.size, -1 ≤ lab' v ∧ lab' v < (res.reps.length : ℤ) := by
    intro v hvs
    rw [hl v hvs]
    cases h : G.vacuum v with
    | true => rw [hvac v hvs h]; omega
    | false => have := hlab v hvs h; omega
  have hnb : 0 < res.reps.length := by
    obtain ⟨v, hvs, hvv⟩ := hsome
    have := hlab v hvs hvv
    omega
  have ok : NWOk W := ⟨fun t ht => fitsOf H.fits _ (hvor t ht).2, H.fits, fun t ht => (hvor t ht).1, H.pos, fun t ht => (hvor t ht).2, hlab', hnb⟩
  have edge_vac : ∀ v, W.edge v = true → G.vacuum v = false := by
    intro v he
    change getEdges _ _ _ _ _ _ = true at he
    rw [getEdges_apply, edgeScan_iff] at he
    exact he.2.1
  have good : ∀ c, G.Rising c → SameOrder (W.withCharge c) ∧ ∀ v < W.s.size, W.edge v = true → 0 < c v :=
    fun c hc => ⟨fun v w hvs hws _ _ h => hc.1 v w hvs hws h, fun v hvs he => hc.2 v hvs (edge_vac v he)⟩
  obtain ⟨k1, k2, k3, k4⟩ := nwResults_lin (x := x) (y := y) (c1 := c1) (c2 := c2) ok (by
    intro c hc
    simp only [List.mem_cons, List.not_mem_nil, or_false] at hc
    rcases hc with rfl | rfl | rfl
    · exact good _ h1
    · exact good _ h2
    · exact good _ (h1.combine h2 hx hy hxy)) G.volume
  exact ⟨_, _, _, r1, r2, r3, ⟨rfl, rfl⟩, k1, k3, ⟨k2, k4⟩, fun _ => ⟨rfl, rfl⟩⟩

/-! ## Concrete crystals -/

/-- Another density on the ring of C103, lowest at the maxima of the reference. -/
def nwOther : ℕ → ℚ := fun v => ([1, 1, 9, 1, 1, 1, 9, 1] : List ℚ).getD v 0

/-- A run on the ring with the charge grid `c` and `scale` times the reference. -/
def nwEach (scale : ℚ) (c : ℕ → ℚ) : Option (RunOut ℚ) :=
  (((nwLine none).withCharge c).rescale scale 3).runNW nwLineAid ring2 (fun v => scaleGrad scale (gradientSimple ⟨8, 1, 1⟩ (nwLine none).ref idMat v))
    (List.range 8) (List.range 8) (List.range 8) id 40

set_option maxRecDepth 100000 in
/-- **C115** (negative part) The charges of the neargrid-weight method are not additive: on one reference a density gives a basin the charge 17/7, another density
gives it 3/8, and their sum 21/8 instead of 157/56.  Edge voxels are visited in the order of the charge, and what reaches a voxel after its turn is lost. -/
theorem C115_neargrid_weight_order :
    ((nwEach 1 (nwLine none).charge).map fun o => o.basins.charges 0) = some (17 / 7) ∧ ((nwEach 1 nwOther).map fun o => o.basins.charges 0) = some (3 / 8) ∧
    ((nwEach 1 fun v => (nwLine none).charge v + nwOther v).map fun o => o.basins.charges 0) = some (21 / 8) ∧ (17 / 7 + 3 / 8 : ℚ) ≠ 21 / 8 := by
  refine ⟨by decide +kernel, by decide +kernel, by decide +kernel, by norm_num⟩

set_option maxRecDepth 100000 in
/-- The hypotheses of the positive theorems and a case: two densities that rise with the reference, a thousandth of the reference. -/
example : RunReady (nwLine none) nwLineAid 0 ∧ (nwLine none).RefVacuum ∧ (nwLine none).Rising (nwLine none).charge ∧
    (nwLine none).Rising (fun v => (nwLine none).charge v ^ 2) ∧
    (∀ v < 8, 1 / 1000 * maxGrad (gradientSimple ⟨8, 1, 1⟩ (nwLine none).ref idMat v) < 1 / 10 ^ 30 ↔
      maxGrad (gradientSimple ⟨8, 1, 1⟩ (nwLine none).ref idMat v) < 1 / 10 ^ 30) ∧
    ((nwEach (1 / 1000) (nwLine none).charge).map fun o => o.basins.charges 0) = some (17 / 7) ∧
    ((nwEach 1 fun v => (nwLine none).charge v ^ 2).map fun o => o.basins.charges 0) = some (871 / 56) ∧
    ((nwEach 1 fun v => 2 * (nwLine none).charge v + 3 * (nwLine none).charge v ^ 2).map fun o => o.basins.charges 0) = some (2 * (17 / 7) + 3 * (871 / 56)) := by
  have key : (∀ v < 8, ∀ w < 8, (nwLine none).ref v < (nwLine none).ref w → (nwLine none).charge v < (nwLine none).charge w) ∧
      (∀ v < 8, 0 < (nwLine none).charge v) ∧
      (∀ v < 8, ∀ w < 8, (nwLine none).ref v < (nwLine none).ref w → (nwLine none).charge v ^ 2 < (nwLine none).charge w ^ 2) := by decide +kernel
  refine ⟨lineRun_ready _ (by decide) _ (by simp) _ _, Or.inr rfl, ⟨fun v w hv hw => key.1 v hv w hw, fun v hv _ => key.2.1 v hv⟩,
    ⟨fun v w hv hw => key.2.2 v hv w hw, fun v hv _ => pow_pos (key.2.1 v hv) 2⟩, by decide +kernel, by decide +kernel, by decide +kernel, by decide +kernel⟩

end BaderKit
