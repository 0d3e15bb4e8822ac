import Verif.Props.BaderRun
import Verif.Props.SameMax
/-!
# C115: units and zero of the grids
-/
set_option linter.unusedSectionVars false
namespace BaderKit
variable {K : Type} [Field K] [LinearOrder K] [IsStrictOrderedRing K]

section order
variable {α β : Type*} [LinearOrder α] [LinearOrder β]

theorem maxScan_mono (f : α → β) (hf : StrictMono f) (s : Shape) (data : ℕ → α) (b : Bool) (v : ℕ) (ts : List Coord) :
    maxScan s (fun u => f (data u)) b v ts = maxScan s data b v ts := by
  induction ts with
  | nil => rfl
  | cons t ts ih => simp only [maxScan, gt_iff_lt, hf.lt_iff_lt, ih]

theorem getMaxima_mono (f : α → β) (hf : StrictMono f) (s : Shape) (data : ℕ → α) (ts : List Coord) (vac : ℕ → Bool) (b : Bool) (order : List ℕ) :
    getMaxima s (fun u => f (data u)) ts vac b order = getMaxima s data ts vac b order := by
  unfold getMaxima
  congr 1
  funext m v
  unfold maximaStep
  rw [maxScan_mono f hf]

theorem scanFlat_mono (f : α → β) (hf : StrictMono f) (s : Shape) (data : ℕ → α) (mask : ℕ → Bool) (v : ℕ) (ts : List Coord) :
    scanFlat s (fun u => f (data u)) mask v ts = scanFlat s data mask v ts := by
  induction ts with
  | nil => rfl
  | cons t ts ih => simp only [scanFlat, hf.lt_iff_lt, ih]

theorem flatLoop_mono (f : α → β) (hf : StrictMono f) (s : Shape) (data : ℕ → α) (ts : List Coord) (maxima : List ℕ) (fuel : ℕ) (st : FlatState) :
    flatLoop s (fun u => f (data u)) ts maxima fuel st = flatLoop s data ts maxima fuel st := by
  have hp : ∀ st, flatPass s (fun u => f (data u)) ts maxima st = flatPass s data ts maxima st := by
    intro st
    unfold flatPass
    congr 1
    funext st v
    unfold flatStep
    rw [scanFlat_mono f hf]
  induction fuel generalizing st with
  | zero => rfl
  | succ n ih => simp only [flatLoop, hp, ih]

theorem mergeTarget_mono (f : α → β) (hf : StrictMono f) (data : ℕ → α) (same : ℕ → ℕ → Bool) (v : ℕ) (l : List ℕ) :
    mergeTarget (fun u => f (data u)) same v l = mergeTarget data same v l := by
  induction l with
  | nil => rfl
  | cons t ts ih => simp only [mergeTarget, hf.lt_iff_lt, ih]

theorem highest_mono (f : α → β) (hf : StrictMono f) (data : ℕ → α) (l : List ℕ) (acc : Option ℕ) :
    highest (fun u => f (data u)) l acc = highest data l acc := by
  induction l generalizing acc with
  | nil => cases acc <;> rfl
  | cons t ts ih => cases acc <;> simp only [highest, gt_iff_lt, hf.lt_iff_lt, ih]

theorem groupRep_mono (f : α → β) (hf : StrictMono f) (data : ℕ → α) (l : List ℕ) (c : ℕ) :
    groupRep (fun u => f (data u)) l c = groupRep data l c := by
  unfold groupRep
  rw [highest_mono f hf]
  simp only [hf.lt_iff_lt]

end order

/-- Another unit and another zero. -/
def affine (a b : K) (x : K) : K := a * x + b

theorem affine_mono {a : K} (ha : 0 < a) (b : K) : StrictMono (affine a b) := fun x y h => by
  unfold affine
  have := mul_lt_mul_of_pos_left h ha
  linarith

theorem affine_sub (a b x y : K) : affine a b x - affine a b y = a * (x - y) := by unfold affine; ring

theorem bestNeighbor_affine {a : K} (ha : 0 < a) (b : K) (s : Shape) (data : ℕ → K) (nbrs : List (Coord × K)) (v : ℕ) :
    bestNeighbor s (fun u => affine a b (data u)) nbrs v = bestNeighbor s data nbrs v := by
  have key : ∀ (l : List (Coord × K)) (acc : K × Coord × ℕ),
      l.foldl (bestNeighborStep s (fun u => affine a b (data u)) v) (a * acc.1, acc.2) =
        (a * (l.foldl (bestNeighborStep s data v) acc).1, (l.foldl (bestNeighborStep s data v) acc).2) := by
    intro l
    induction l with
    | nil => intro acc; rfl
    | cons t l ih =>
      intro acc
      rw [List.foldl_cons, List.foldl_cons, ← ih]
      congr 1
      unfold bestNeighborStep
      simp only [affine_sub, mul_div_assoc, gt_iff_lt, mul_lt_mul_iff_right₀ ha]
      split <;> rfl
  have := key nbrs (0, (0, 0, 0), v)
  rw [mul_zero] at this
  unfold bestNeighbor
  rw [this]

theorem hillClimb_affine {a : K} (ha : 0 < a) (b : K) (s : Shape) (data : ℕ → K) (nbrs : List (Coord × K)) (st : FlatState) (fuel v : ℕ) :
    hillClimb s (fun u => affine a b (data u)) nbrs st fuel v = hillClimb s data nbrs st fuel v := by
  induction fuel generalizing v with
  | zero => rfl
  | succ n ih => simp only [hillClimb, bestNeighbor_affine ha, ih]

theorem initLabels_affine {a : K} (ha : 0 < a) (b : K) (s : Shape) (data : ℕ → K) (nbrs : List (Coord × K)) (mask : ℕ → Bool)
    (same : ℕ → ℕ → Bool) (cand : ℕ → ℕ) (sorted : List ℕ) (fuel : ℕ) :
    initLabels s (fun u => affine a b (data u)) nbrs mask same cand sorted fuel = initLabels s data nbrs mask same cand sorted fuel := by
  have hm := affine_mono ha b
  have h1 : ∀ st fuel p, unionFlat s (fun u => affine a b (data u)) nbrs st fuel p = unionFlat s data nbrs st fuel p := by
    intro st fuel p
    unfold unionFlat
    simp only [hillClimb_affine ha]
  have h2 : ∀ isFlat fuel p, mergeVoxelated (fun u => affine a b (data u)) same isFlat fuel sorted p = mergeVoxelated data same isFlat fuel sorted p := by
    intro isFlat fuel p
    unfold mergeVoxelated
    simp only [mergeTarget_mono _ hm]
  have h3 : ∀ fuel maxima p, finishLabels (fun u => affine a b (data u)) cand fuel maxima p = finishLabels data cand fuel maxima p := by
    intro fuel maxima p
    unfold finishLabels
    simp only [groupRep_mono _ hm]
  unfold initLabels
  simp only [flatLoop_mono _ hm, h1, h2, h3]

theorem steepestPointers_affine {a : K} (ha : 0 < a) (b : K) (s : Shape) (data : ℕ → K) (nbrs : List (Coord × K)) (vac M : ℕ → Bool) (order : List ℕ)
    (labels : ℕ → ℤ) : steepestPointers s (fun u => affine a b (data u)) nbrs vac M order labels = steepestPointers s data nbrs vac M order labels := by
  unfold steepestPointers
  simp only [bestNeighbor_affine ha]

theorem ongridLabels_affine {a : K} (ha : 0 < a) (b : K) (s : Shape) (data : ℕ → K) (nbrs : List (Coord × K)) (vac M : ℕ → Bool) (order : List ℕ)
    (nv fuel : ℕ) (labels : ℕ → ℤ) :
    ongridLabels s (fun u => affine a b (data u)) nbrs vac M order nv fuel labels = ongridLabels s data nbrs vac M order nv fuel labels := by
  unfold ongridLabels
  rw [steepestPointers_affine ha]

/-! ### neargrid -/

/-- A vector in another unit. -/
def scaleGrad (a : K) (g : K × K × K) : K × K × K := (a * g.1, a * g.2.1, a * g.2.2)

theorem maxGrad_scale {a : K} (ha : 0 < a) (g : K × K × K) : maxGrad (scaleGrad a g) = a * maxGrad g := by
  have step : ∀ m x : K, (if |a * x| > a * m then |a * x| else a * m) = a * (if |x| > m then |x| else m) := by
    intro m x
    rw [abs_mul, abs_of_pos ha]
    simp only [gt_iff_lt, mul_lt_mul_iff_right₀ ha]
    split <;> rfl
  unfold maxGrad scaleGrad
  simp only
  have h0 := step 0 g.1
  rw [mul_zero] at h0
  rw [h0, step, step]

theorem maxGrad_nonneg (g : K × K × K) : 0 ≤ maxGrad g := by
  have step : ∀ m x : K, 0 ≤ m → 0 ≤ (if |x| > m then |x| else m) := by
    intro m x hm
    split
    · exact abs_nonneg _
    · exact hm
  unfold maxGrad
  exact step _ _ (step _ _ (step _ _ le_rfl))

variable [FloorRing K]

theorem gradPointer_affine {a : K} (ha : 0 < a) (b : K) (s : Shape) (data : ℕ → K) (nbrs : List (Coord × K)) (g : K × K × K) (v : ℕ)
    (hg : a * maxGrad g < 1 / 10 ^ 30 ↔ maxGrad g < 1 / 10 ^ 30) :
    gradPointer s (fun u => affine a b (data u)) nbrs (scaleGrad a g) v = gradPointer s data nbrs g v := by
  unfold gradPointer
  simp only [maxGrad_scale ha, bestNeighbor_affine ha, ge_iff_le, (affine_mono ha b).le_iff_le]
  by_cases h : maxGrad g < 1 / 10 ^ 30
  · rw [if_pos h, if_pos (hg.mpr h)]
  · rw [if_neg h, if_neg fun x => h (hg.mp x)]
    simp only [scaleGrad, mul_div_mul_left _ _ ha.ne']

theorem neargridLabels_affine {a : K} (ha : 0 < a) (b : K) (s : Shape) (data : ℕ → K) (nbrs : List (Coord × K)) (grad : ℕ → K × K × K)
    (vac M : ℕ → Bool) (nv : ℕ) (o1 o2 : List ℕ) (perm : List ℕ → List ℕ) (fuel : ℕ) (labels : ℕ → ℤ)
    (hg : ∀ v, a * maxGrad (grad v) < 1 / 10 ^ 30 ↔ maxGrad (grad v) < 1 / 10 ^ 30) :
    neargridLabels s (fun u => affine a b (data u)) nbrs (fun v => scaleGrad a (grad v)) vac M nv o1 o2 perm fuel labels =
      neargridLabels s data nbrs grad vac M nv o1 o2 perm fuel labels := by
  have hp : gradientPointers s (fun u => affine a b (data u)) nbrs (fun v => scaleGrad a (grad v)) vac M o1 labels =
      gradientPointers s data nbrs grad vac M o1 labels := by
    unfold gradientPointers
    congr 1
    funext st v
    simp only [gradPointer_affine ha b s data nbrs _ v (hg v)]
  have hc : ∀ gr lab fuel c, climbLoop (⟨s, fun u => affine a b (data u), nbrs, M, gr⟩ : NearIn K) lab fuel c = climbLoop ⟨s, data, nbrs, M, gr⟩ lab fuel c := by
    intro gr lab fuel
    induction fuel with
    | zero => intro c; rfl
    | succ n ih =>
      intro c
      have hs : climbStep (⟨s, fun u => affine a b (data u), nbrs, M, gr⟩ : NearIn K) lab c = climbStep ⟨s, data, nbrs, M, gr⟩ lab c := by
        unfold climbStep nearStep
        simp only [bestNeighbor_affine ha]
      simp only [climbLoop, hs, ih]
  have hl : ∀ gr rounds m, refineLoop (⟨s, fun u => affine a b (data u), nbrs, M, gr⟩ : NearIn K) perm fuel rounds m =
      refineLoop ⟨s, data, nbrs, M, gr⟩ perm fuel rounds m := by
    intro gr rounds
    have hr : refineVoxel (⟨s, fun u => affine a b (data u), nbrs, M, gr⟩ : NearIn K) fuel = refineVoxel ⟨s, data, nbrs, M, gr⟩ fuel := by
      funext st v
      unfold refineVoxel
      simp only [hc]
      rfl
    induction rounds with
    | zero => intro m; rfl
    | succ n ih =>
      intro m
      simp only [refineLoop, refineRound, hr]
      split
      · rfl
      · congr 1
        funext r
        split
        · exact ih _
        · rfl
  unfold neargridLabels neargridRefine
  simp only [hp, hl]
  rfl

theorem gradientSimple_affine {a : K} (ha : 0 < a) (b : K) (s : Shape) (data : ℕ → K) (M : (K × K × K) × (K × K × K) × (K × K × K)) (v : ℕ) :
    gradientSimple s (fun u => affine a b (data u)) M v = scaleGrad a (gradientSimple s data M v) := by
  have h : ∀ c x y : K, axisGrad (affine a b c) (affine a b x) (affine a b y) = a * axisGrad c x y := by
    intro c x y
    unfold axisGrad
    simp only [(affine_mono ha b).le_iff_le, affine_sub]
    split
    · rw [mul_zero]
    · rw [mul_div_assoc]
  unfold gradientSimple scaleGrad matVec
  simp only [h]
  refine Prod.ext ?_ (Prod.ext ?_ ?_) <;> simp only <;> ring

theorem dotL_scale (a : K) (row xs : List K) : dotL row (xs.map (a * ·)) = a * dotL row xs := by
  unfold dotL
  induction row generalizing xs with
  | nil => simp
  | cons r row ih =>
    cases xs with
    | nil => simp
    | cons x xs =>
      simp only [List.map_cons, List.zipWith_cons_cons, List.sum_cons, ih]
      ring

theorem gradientOver_affine {a : K} (ha : 0 < a) (b : K) (s : Shape) (data : ℕ → K) (half : List (Coord × K))
    (M : (K × K × K) × (K × K × K) × (K × K × K)) (inv : List K × List K × List K) (v : ℕ) :
    gradientOver s (fun u => affine a b (data u)) half M inv v = scaleGrad a (gradientOver s data half M inv v) := by
  have h : overDiffs s (fun u => affine a b (data u)) half v = (overDiffs s data half v).map (a * ·) := by
    unfold overDiffs
    rw [List.map_map]
    apply List.map_congr_left
    intro td _
    simp only [Function.comp, (affine_mono ha b).le_iff_le, affine_sub]
    split
    · rw [mul_zero]
    · rw [mul_div_assoc]
  unfold gradientOver scaleGrad matVec
  simp only [h, dotL_scale]
  refine Prod.ext ?_ (Prod.ext ?_ ?_) <;> simp only <;> ring

/-! ### weight -/

omit [FloorRing K] in
theorem bumpStale_scale (a : K) (stale : ℤ) (flux : K) (l : List (K × ℤ)) :
    bumpStale stale (a * flux) (l.map fun e => (a * e.1, e.2)) = (bumpStale stale flux l).map fun l => l.map fun e => (a * e.1, e.2) := by
  induction l with
  | nil => rfl
  | cons e l ih =>
    simp only [List.map_cons, bumpStale]
    split
    · simp [mul_add]
    · rw [ih]
      cases bumpStale stale flux l <;> simp

omit [FloorRing K] in
theorem weightAssign_affine {a : K} (ha : 0 < a) (b : K) (W : WeightIn K) (chg : ℕ → K) (argsortW : List (ℕ × K) → List (ℕ × K)) (labels0 : ℕ → ℤ)
    (sorted : List ℕ) :
    weightAssign { W with ref := fun u => affine a b (W.ref u) } chg argsortW labels0 sorted = weightAssign W chg argsortW labels0 sorted := by
  have hh : ∀ v, higherVor { W with ref := fun u => affine a b (W.ref u) } v = higherVor W v := by
    intro v
    unfold higherVor
    simp only [(affine_mono ha b).lt_iff_lt]
  have hn : ∀ v, weightNbrs { W with ref := fun u => affine a b (W.ref u) } v = weightNbrs W v := by
    intro v
    unfold weightNbrs
    simp only [hh, bestNeighbor_affine ha]
  have hi : interiorPhase { W with ref := fun u => affine a b (W.ref u) } chg labels0 sorted = interiorPhase W chg labels0 sorted := by
    unfold interiorPhase
    congr 1
    funext st v
    unfold interiorStep
    simp only [hn]
    rfl
  have hf : ∀ labels stale v, fluxRow { W with ref := fun u => affine a b (W.ref u) } labels stale v = fluxRow W labels stale v := by
    intro labels stale v
    have key : ∀ (l : List (Coord × K)) (acc : List (K × ℤ) × K),
        l.foldl (fluxStep { W with ref := fun u => affine a b (W.ref u) } labels stale v) (acc.1.map fun e => (a * e.1, e.2), a * acc.2) =
          (((l.foldl (fluxStep W labels stale v) acc).1.map fun e => (a * e.1, e.2)), a * (l.foldl (fluxStep W labels stale v) acc).2) := by
      intro l
      induction l with
      | nil => intro acc; rfl
      | cons t l ih =>
        intro acc
        rw [List.foldl_cons, List.foldl_cons, ← ih]
        congr 1
        unfold fluxStep
        simp only [affine_sub, mul_assoc]
        split
        · simp [mul_add]
        · rw [bumpStale_scale]
          cases bumpStale stale ((W.ref (nbr W.s v t.1) - W.ref v) * t.2) acc.1 <;> simp [mul_add]
    have := key (higherVor W v) ([], 0)
    rw [mul_zero] at this
    unfold fluxRow
    simp only [hh]
    rw [show (([], 0) : List (K × ℤ) × K) = (([] : List (K × ℤ)).map (fun e => (a * e.1, e.2)), 0) from rfl, this]
    simp only [List.map_eq_nil_iff, List.map_nil, bestNeighbor_affine ha]
    split
    · rfl
    · rw [List.map_map]
      apply List.map_congr_left
      intro e _
      simp only [Function.comp, mul_div_mul_left _ _ ha.ne']
  unfold weightAssign
  simp only [hi]
  congr 1
  funext st v
  unfold edgeStep
  simp only [hf]

/-! ### Theorems -/

/-- The reference grid in another unit and with another zero. -/
def RunInput.rescale (G : RunInput K) (a b : K) : RunInput K := { G with ref := fun v => affine a b (G.ref v) }

/-- The method on the rescaled grid: the gradients are those of the rescaled grid. -/
def RunMethod.rescale (a : K) : RunMethod K → RunMethod K
  | .neargrid grad o1 o2 perm => .neargrid (fun v => scaleGrad a (grad v)) o1 o2 perm
  | m => m

/-- A gradient is not moved across the limit 1e-30 below which it counts as zero. -/
def RunMethod.Steep (a : K) : RunMethod K → Prop
  | .neargrid grad _ _ _ => ∀ v, a * maxGrad (grad v) < 1 / 10 ^ 30 ↔ maxGrad (grad v) < 1 / 10 ^ 30
  | _ => True

/-- The gradients of the rescaled grid are the rescaled gradients. -/
theorem C115_gradients (a : K) (ha : 0 < a) (b : K) (s : Shape) (data : ℕ → K) (M : (K × K × K) × (K × K × K) × (K × K × K)) (half : List (Coord × K))
    (inv : List K × List K × List K) :
    (∀ v, gradientSimple s (fun u => a * data u + b) M v = scaleGrad a (gradientSimple s data M v)) ∧
    (∀ v, gradientOver s (fun u => a * data u + b) half M inv v = scaleGrad a (gradientOver s data half M inv v)) :=
  ⟨gradientSimple_affine ha b s data M, gradientOver_affine ha b s data half M inv⟩

/-- A complete run gives the same results, whatever unit and zero the reference grid has, for the methods `ongrid` and `weight`, and for `neargrid` if no
gradient crosses the absolute limit below which it counts as zero.  The same voxels have to be vacuum. -/
theorem C115_run_partial (G : RunInput K) (a b : K) (ha : 0 < a) (hv : (G.rescale a b).vacuum = G.vacuum) (A : RunAid K) (m : RunMethod K) (hm : m.Steep a)
    (fuel : ℕ) : (G.rescale a b).run A (m.rescale a) fuel = G.run A m fuel := by
  have hn : (G.rescale a b).numVacuum = G.numVacuum := by unfold RunInput.numVacuum; rw [hv]; rfl
  have hM : getMaxima G.shape (G.rescale a b).ref (G.nbrs.map Prod.fst) (G.rescale a b).vacuum false A.order =
      getMaxima G.shape G.ref (G.nbrs.map Prod.fst) G.vacuum false A.order := by
    rw [hv]
    exact getMaxima_mono _ (affine_mono ha b) _ _ _ _ _ _
  have hmeth : ∀ M res, (G.rescale a b).method (m.rescale a) M res fuel = G.method m M res fuel := by
    intro M res
    cases m with
    | ongrid order =>
      simp only [RunInput.method, RunMethod.rescale, hn, hv]
      rw [show (G.rescale a b).ref = fun v => affine a b (G.ref v) from rfl]
      show (ongridLabels G.shape _ G.nbrs _ _ _ _ _ _).map _ = _
      rw [ongridLabels_affine ha]
      rfl
    | neargrid grad o1 o2 perm =>
      simp only [RunInput.method, RunMethod.rescale, hn, hv]
      rw [show (G.rescale a b).ref = fun v => affine a b (G.ref v) from rfl]
      show (neargridLabels G.shape _ G.nbrs _ _ _ _ _ _ _ _ _).map _ = _
      rw [neargridLabels_affine ha b _ _ _ _ _ _ _ _ _ _ _ _ hm]
      rfl
    | weight vor argsortW sorted =>
      simp only [RunInput.method, RunMethod.rescale, hv, weightResults]
      rw [show (G.rescale a b).ref = fun v => affine a b (G.ref v) from rfl]
      have := weightAssign_affine ha b
        ⟨G.shape, G.ref, vor, G.nbrs, M, (sortMaxima (res.reps.map fun r => (r, ()))).map Prod.fst⟩ G.charge argsortW res.labels sorted
      simp only at this
      rw [show (G.rescale a b).shape = G.shape from rfl, show (G.rescale a b).nbrs = G.nbrs from rfl,
        show (G.rescale a b).charge = G.charge from rfl, this]
      rfl
  unfold RunInput.run
  rw [show (G.rescale a b).shape = G.shape from rfl, show (G.rescale a b).nbrs = G.nbrs from rfl, hM]
  rw [show (G.rescale a b).ref = fun v => affine a b (G.ref v) from rfl]
  simp only [hmeth, initLabels_affine ha]
  rfl

/-- The vacuum is the same if it is decided on the charge grid or switched off; if it is decided on the reference grid, the tolerance has to be rescaled
as well. -/
theorem C115_vacuum (G : RunInput K) (a b : K) (ha : 0 < a) :
    ((G.useRef = false ∨ G.tol = none) → (G.rescale a b).vacuum = G.vacuum) ∧
    (∀ t, G.useRef = true → G.tol = some t → ({ G.rescale a b with tol := some (a * t + b / G.volume) } : RunInput K).vacuum = if G.volume = 0 then
      ({ G.rescale a b with tol := some (a * t) } : RunInput K).vacuum else G.vacuum) := by
  constructor
  · intro h
    funext v
    unfold RunInput.vacuum RunInput.rescale
    simp only
    rcases h with h | h
    · rw [h]; rfl
    · rw [h]
  · intro t hu ht
    split
    · next h0 =>
      funext v
      simp only [RunInput.vacuum, RunInput.rescale, h0, mul_zero]
    · next h0 =>
      funext v
      simp only [RunInput.vacuum, RunInput.rescale, hu, ht, if_true]
      congr 1
      rw [add_mul, div_mul_cancel₀ _ h0, mul_assoc, eq_iff_iff]
      exact (affine_mono ha b).lt_iff_lt (a := G.ref v) (b := t * G.volume)

/-! ### The charges are linear in the charge grid -/

/-- The third function is the combination of the first two. -/
def Lin (x y : K) (f g h : ℕ → K) : Prop := ∀ b, h b = x * f b + y * g b

omit [FloorRing K] [LinearOrder K] [IsStrictOrderedRing K] in
theorem Lin.bump {x y : K} {f g h : ℕ → K} (H : Lin x y f g h) (i : ℕ) {p q r : K} (e : r = x * p + y * q) :
    Lin x y (Function.update f i (f i + p)) (Function.update g i (g i + q)) (Function.update h i (h i + r)) := by
  intro b
  by_cases hb : b = i
  · subst hb
    simp only [Function.update_self, H b, e]
    ring
  · simp only [Function.update_of_ne hb, H b]

/-- Two states of the first phase that differ in the charges only, and a third with the combined charges. -/
def IntRel (x y : K) (s t u : IntState K) : Prop :=
  s.labels = t.labels ∧ s.labels = u.labels ∧ s.volumes = t.volumes ∧ s.volumes = u.volumes ∧ s.added = t.added ∧ s.added = u.added ∧
    s.edges = t.edges ∧ s.edges = u.edges ∧ s.stale = t.stale ∧ s.stale = u.stale ∧ Lin x y s.charges t.charges u.charges

omit [FloorRing K] [LinearOrder K] [IsStrictOrderedRing K] in
theorem creditVoxel_rel {x y : K} {c1 c2 c3 : ℕ → K} (hc : Lin x y c1 c2 c3) {s t u : IntState K} (h : IntRel x y s t u) (i : ℕ) (b : ℤ) :
    IntRel x y (creditVoxel c1 s i b) (creditVoxel c2 t i b) (creditVoxel c3 u i b) := by
  obtain ⟨a1, a2, a3, a4, a5, a6, a7, a8, a9, a10, a11⟩ := h
  unfold creditVoxel
  refine ⟨?_, ?_, ?_, ?_, a5, a6, a7, a8, a9, a10, a11.bump _ (hc i)⟩
  · show Function.update s.labels i b = Function.update t.labels i b
    rw [a1]
  · show Function.update s.labels i b = Function.update u.labels i b
    rw [a2]
  · show Function.update s.volumes _ _ = Function.update t.volumes _ _
    rw [a3]
  · show Function.update s.volumes _ _ = Function.update u.volumes _ _
    rw [a4]

omit [FloorRing K] [LinearOrder K] [IsStrictOrderedRing K] in
theorem addRoot_rel {x y : K} {c1 c2 c3 : ℕ → K} (hc : Lin x y c1 c2 c3) (W : WeightIn K) {s t u : IntState K} (h : IntRel x y s t u) (r : ℕ) :
    IntRel x y (addRoot W c1 s r) (addRoot W c2 t r) (addRoot W c3 u r) := by
  have h' := h
  obtain ⟨a1, a2, a3, a4, a5, a6, a7, a8, a9, a10, a11⟩ := h
  unfold addRoot
  rw [← a5, ← a6]
  split
  · exact h'
  · obtain ⟨b1, b2, b3, b4, _, _, b7, b8, b9, b10, b11⟩ := creditVoxel_rel hc h' r (searchSorted W.maxIdx r)
    exact ⟨b1, b2, b3, b4, rfl, rfl, b7, b8, b9, b10, b11⟩

omit [FloorRing K] [IsStrictOrderedRing K] in
theorem interiorStep_rel {x y : K} {c1 c2 c3 : ℕ → K} (hc : Lin x y c1 c2 c3) (W : WeightIn K) {s t u : IntState K} (h : IntRel x y s t u) (i : ℕ) :
    IntRel x y (interiorStep W c1 s i) (interiorStep W c2 t i) (interiorStep W c3 u i) := by
  obtain ⟨la, ca, va, ea, aa, sa⟩ := s
  obtain ⟨lb, cb, vb, eb, ab, sb⟩ := t
  obtain ⟨lc, cc, vc, ec, ac, sc⟩ := u
  obtain ⟨a1, a2, a3, a4, a5, a6, a7, a8, a9, a10, a11⟩ := h
  dsimp only at a1 a2 a3 a4 a5 a6 a7 a8 a9 a10 a11
  subst a1 a2 a3 a4 a5 a6 a7 a8 a9 a10
  have h' : ∀ st, IntRel x y ⟨la, ca, va, ea, aa, st⟩ ⟨la, cb, va, ea, aa, st⟩ ⟨la, cc, va, ea, aa, st⟩ :=
    fun _ => ⟨rfl, rfl, rfl, rfl, rfl, rfl, rfl, rfl, rfl, rfl, a11⟩
  unfold interiorStep
  dsimp only
  split
  · split
    · obtain ⟨b1, b2, b3, b4, b5, b6, b7, b8, _, _, b11⟩ := creditVoxel_rel hc (h' sa) i (interiorScan la (weightNbrs W i) (-1) sa).2
      exact ⟨b1, b2, b3, b4, b5, b6, b7, b8, rfl, rfl, b11⟩
    · exact ⟨rfl, rfl, rfl, rfl, rfl, rfl, rfl, rfl, rfl, rfl, a11⟩
  · split
    · exact h' sa
    · have h1 := addRoot_rel hc W (h' (la i)) (la i).toNat
      split
      · exact h1
      · have := creditVoxel_rel hc h1 i ((addRoot W c1 ⟨la, ca, va, ea, aa, la i⟩ (la i).toNat).labels (la i).toNat)
        rw [← h1.1, ← h1.2.1]
        exact this

/-- The same for the second phase; labels of tied voxels may differ. -/
def EdgeRel (x y : K) (s t u : EdgeState K) : Prop :=
  s.volumes = t.volumes ∧ s.volumes = u.volumes ∧ s.stored = t.stored ∧ s.stored = u.stored ∧ Lin x y s.charges t.charges u.charges

def CreditRel (x y : K) (s t u : CreditState K) : Prop :=
  s.volumes = t.volumes ∧ s.volumes = u.volumes ∧ s.bestW = t.bestW ∧ s.bestW = u.bestW ∧ s.reduced = t.reduced ∧ s.reduced = u.reduced ∧
    s.total = t.total ∧ s.total = u.total ∧ Lin x y s.charges t.charges u.charges

omit [FloorRing K] [IsStrictOrderedRing K] in
theorem creditStep_rel {x y p q r : K} (hc : r = x * p + y * q) (w : ℕ → K) {s t u : CreditState K} (h : CreditRel x y s t u) (l : ℕ) :
    CreditRel x y (creditStep w p s l) (creditStep w q t l) (creditStep w r u l) := by
  obtain ⟨ca, va, ba, wa, ta, ra, oa⟩ := s
  obtain ⟨cb, vb, bb, wb, tb, rb, ob⟩ := t
  obtain ⟨cc, vc, bc, wc, tc, rc, oc⟩ := u
  obtain ⟨a1, a2, a3, a4, a5, a6, a7, a8, a9⟩ := h
  dsimp only at a1 a2 a3 a4 a5 a6 a7 a8 a9
  subst a1 a2 a3 a4 a5 a6 a7 a8
  have hb := a9.bump l (p := p * w l) (q := q * w l) (r := r * w l) (by rw [hc]; ring)
  unfold creditStep
  dsimp only
  split
  · exact ⟨rfl, rfl, rfl, rfl, rfl, rfl, rfl, rfl, hb⟩
  · split
    · exact ⟨rfl, rfl, rfl, rfl, rfl, rfl, rfl, rfl, hb⟩
    · split
      · exact ⟨rfl, rfl, rfl, rfl, rfl, rfl, rfl, rfl, hb⟩
      · exact ⟨rfl, rfl, rfl, rfl, rfl, rfl, rfl, rfl, hb⟩

omit [FloorRing K] [IsStrictOrderedRing K] in
theorem edgeStep_rel {x y : K} {c1 c2 c3 : ℕ → K} (hc : Lin x y c1 c2 c3) (W : WeightIn K) (srt : List (ℕ × K) → List (ℕ × K)) (row : ℕ → List (K × ℤ))
    {s t u : EdgeState K} (h : EdgeRel x y s t u) (v : ℕ) :
    EdgeRel x y (edgeStep W c1 srt row s v) (edgeStep W c2 srt row t v) (edgeStep W c3 srt row u v) := by
  obtain ⟨a1, a2, a3, a4, a5⟩ := h
  have key : ∀ (l : List ℕ) (w : ℕ → K) (p q r : CreditState K), CreditRel x y p q r →
      CreditRel x y (l.foldl (creditStep w (c1 v)) p) (l.foldl (creditStep w (c2 v)) q) (l.foldl (creditStep w (c3 v)) r) := by
    intro l w
    induction l with
    | nil => exact fun _ _ _ h => h
    | cons a l ih => exact fun _ _ _ h => ih _ _ _ (creditStep_rel (hc v) w h a)
  unfold edgeStep
  simp only [← a3, ← a4]
  obtain ⟨b1, b2, _, _, b5, b6, b7, b8, b9⟩ := key ((gather s.stored (row v)).2.insertionSort (· ≤ ·)) (gather s.stored (row v)).1
    ⟨s.charges, s.volumes, -1, 0, false, [], 0⟩ ⟨t.charges, t.volumes, -1, 0, false, [], 0⟩ ⟨u.charges, u.volumes, -1, 0, false, [], 0⟩
    ⟨a1, a2, rfl, rfl, rfl, rfl, rfl, rfl, a5⟩
  exact ⟨b1, b2, by simp only [b5, b7], by simp only [b6, b8], b9⟩

omit [FloorRing K] [IsStrictOrderedRing K] in
theorem weightAssign_rel {x y : K} {c1 c2 c3 : ℕ → K} (hc : Lin x y c1 c2 c3) (W : WeightIn K) (srt : List (ℕ × K) → List (ℕ × K)) (labels0 : ℕ → ℤ)
    (sorted : List ℕ) :
    EdgeRel x y (weightAssign W c1 srt labels0 sorted) (weightAssign W c2 srt labels0 sorted) (weightAssign W c3 srt labels0 sorted) := by
  have hi : ∀ (l : List ℕ) (p q r : IntState K), IntRel x y p q r →
      IntRel x y (l.foldl (interiorStep W c1) p) (l.foldl (interiorStep W c2) q) (l.foldl (interiorStep W c3) r) := by
    intro l
    induction l with
    | nil => exact fun _ _ _ h => h
    | cons a l ih => exact fun _ _ _ h => ih _ _ _ (interiorStep_rel hc W h a)
  have he : ∀ (l : List ℕ) (row : ℕ → List (K × ℤ)) (p q r : EdgeState K), EdgeRel x y p q r →
      EdgeRel x y (l.foldl (edgeStep W c1 srt row) p) (l.foldl (edgeStep W c2 srt row) q) (l.foldl (edgeStep W c3 srt row) r) := by
    intro l row
    induction l with
    | nil => exact fun _ _ _ h => h
    | cons a l ih => exact fun _ _ _ h => ih _ _ _ (edgeStep_rel hc W srt row h a)
  obtain ⟨a1, a2, a3, a4, a5, a6, a7, a8, a9, a10, a11⟩ := hi sorted ⟨labels0, fun _ => 0, fun _ => 0, [], [], 0⟩ ⟨labels0, fun _ => 0, fun _ => 0, [], [], 0⟩
    ⟨labels0, fun _ => 0, fun _ => 0, [], [], 0⟩ ⟨rfl, rfl, rfl, rfl, rfl, rfl, rfl, rfl, rfl, rfl, fun _ => by simp⟩
  unfold weightAssign
  simp only [interiorPhase, ← a1, ← a2, ← a7, ← a8, ← a9, ← a10]
  exact he _ _ _ _ _ ⟨a3, a4, rfl, rfl, a11⟩

/-- The same cell, structure and reference grid with another charge grid. -/
def RunInput.withCharge (G : RunInput K) (c : ℕ → K) : RunInput K := { G with charge := c }

/-- The charge grid has no part in the vacuum. -/
def RunInput.RefVacuum (G : RunInput K) : Prop := G.useRef = true ∨ G.tol = none

omit [FloorRing K] [IsStrictOrderedRing K] in
theorem vacuum_withCharge (G : RunInput K) (h : G.RefVacuum) (c : ℕ → K) : (G.withCharge c).vacuum = G.vacuum := by
  funext v
  unfold RunInput.vacuum RunInput.withCharge
  rcases h with h | h <;> simp [h]

omit [FloorRing K] [LinearOrder K] [IsStrictOrderedRing K] in
theorem basinCharges_lin {x y : K} {c1 c2 c3 : ℕ → K} (hc : Lin x y c1 c2 c3) (s : Shape) (lab : ℕ → ℤ) (vol : K) :
    Lin x y (basinChargesVolumes s c1 lab vol).charges (basinChargesVolumes s c2 lab vol).charges (basinChargesVolumes s c3 lab vol).charges ∧
    (basinChargesVolumes s c3 lab vol).volumes = (basinChargesVolumes s c1 lab vol).volumes ∧
    (basinChargesVolumes s c3 lab vol).vacVolume = (basinChargesVolumes s c1 lab vol).vacVolume ∧
    (basinChargesVolumes s c3 lab vol).vacCharge =
      x * (basinChargesVolumes s c1 lab vol).vacCharge + y * (basinChargesVolumes s c2 lab vol).vacCharge := by
  have key : ∀ (l : List ℕ) (p q r : ChargeAcc K), (Lin x y p.charges q.charges r.charges ∧ r.volumes = p.volumes ∧ r.vacVolume = p.vacVolume ∧
        r.vacCharge = x * p.vacCharge + y * q.vacCharge) →
      (Lin x y (l.foldl (chargeStep c1 lab) p).charges (l.foldl (chargeStep c2 lab) q).charges (l.foldl (chargeStep c3 lab) r).charges ∧
        (l.foldl (chargeStep c3 lab) r).volumes = (l.foldl (chargeStep c1 lab) p).volumes ∧
        (l.foldl (chargeStep c3 lab) r).vacVolume = (l.foldl (chargeStep c1 lab) p).vacVolume ∧
        (l.foldl (chargeStep c3 lab) r).vacCharge =
          x * (l.foldl (chargeStep c1 lab) p).vacCharge + y * (l.foldl (chargeStep c2 lab) q).vacCharge) := by
    intro l
    induction l with
    | nil => exact fun _ _ _ h => h
    | cons v l ih =>
      intro p q r h
      obtain ⟨h1, h2, h3, h4⟩ := h
      rw [List.foldl_cons, List.foldl_cons, List.foldl_cons]
      apply ih
      unfold chargeStep
      split
      · refine ⟨h1, h2, ?_, ?_⟩
        · simp only [h3]
        · simp only [h4, hc v]
          ring
      · exact ⟨h1.bump _ (hc v), by simp only [h2], h3, h4⟩
  obtain ⟨h1, h2, h3, h4⟩ := key (List.range s.size) ⟨fun _ => 0, fun _ => 0, 0, 0⟩ ⟨fun _ => 0, fun _ => 0, 0, 0⟩ ⟨fun _ => 0, fun _ => 0, 0, 0⟩
    ⟨fun _ => by simp, rfl, rfl, by simp⟩
  unfold basinChargesVolumes
  refine ⟨fun b => ?_, ?_, ?_, ?_⟩
  · simp only [h1 b]
    ring
  · simp only [h2]
  · simp only [h3]
  · simp only [h4]
    ring

omit [FloorRing K] [LinearOrder K] [IsStrictOrderedRing K] in
theorem sum_lin {x y : K} {c1 c2 c3 : ℕ → K} (hc : Lin x y c1 c2 c3) (l : List ℕ) : (l.map c3).sum = x * (l.map c1).sum + y * (l.map c2).sum := by
  induction l with
  | nil => simp
  | cons v l ih =>
    simp only [List.map_cons, List.sum_cons, ih, hc v]
    ring

/-- Is it one of the methods that give every voxel to one basin? -/
def RunMethod.Whole : RunMethod K → Prop
  | .weight _ _ _ => False
  | _ => True

/-- What is said about the results for two charge grids and for their combination. -/
structure Superposed (x y : K) (whole : Prop) (l1 l2 l3 : ℕ → ℤ) (b1 b2 b3 : ChargeAcc K) (m1 m2 m3 : List ℕ) : Prop where
  maxima : m1 = m2 ∧ m1 = m3
  charges : ∀ b, b3.charges b = x * b1.charges b + y * b2.charges b
  vacCharge : b3.vacCharge = x * b1.vacCharge + y * b2.vacCharge
  volumes : b3.volumes = b1.volumes ∧ b3.vacVolume = b1.vacVolume
  labels : whole → l1 = l2 ∧ l1 = l3

theorem method_superposed (G : RunInput K) (hv : G.RefVacuum) (c1 c2 : ℕ → K) (x y : K) (m : RunMethod K) (M : ℕ → Bool) (res : InitResult) (fuel : ℕ) :
    ((G.withCharge c1).method m M res fuel = none ∧ (G.withCharge c2).method m M res fuel = none ∧
        (G.withCharge fun v => x * c1 v + y * c2 v).method m M res fuel = none) ∨
    ∃ r1 r2 r3, (G.withCharge c1).method m M res fuel = some r1 ∧ (G.withCharge c2).method m M res fuel = some r2 ∧
      (G.withCharge fun v => x * c1 v + y * c2 v).method m M res fuel = some r3 ∧
      Superposed x y m.Whole r1.1 r2.1 r3.1 r1.2.1 r2.2.1 r3.2.1 r1.2.2 r2.2.2 r3.2.2 := by
  have hc : Lin x y c1 c2 (fun v => x * c1 v + y * c2 v) := fun _ => rfl
  have hn : ∀ c, (G.withCharge c).numVacuum = G.numVacuum := by
    intro c
    unfold RunInput.numVacuum
    rw [vacuum_withCharge G hv]
    rfl
  cases m with
  | ongrid order =>
    simp only [RunInput.method, hn, vacuum_withCharge G hv]
    simp only [RunInput.withCharge]
    cases ongridLabels G.shape G.ref G.nbrs G.vacuum M order G.numVacuum fuel res.labels with
    | none => left; exact ⟨rfl, rfl, rfl⟩
    | some lab =>
      right
      obtain ⟨h1, h2, h3, h4⟩ := basinCharges_lin hc G.shape lab G.volume
      exact ⟨_, _, _, rfl, rfl, rfl, ⟨rfl, rfl⟩, h1, h4, ⟨h2, h3⟩, fun _ => ⟨rfl, rfl⟩⟩
  | neargrid grad o1 o2 perm =>
    simp only [RunInput.method, hn, vacuum_withCharge G hv]
    simp only [RunInput.withCharge]
    cases neargridLabels G.shape G.ref G.nbrs grad G.vacuum M G.numVacuum o1 o2 perm fuel res.labels with
    | none => left; exact ⟨rfl, rfl, rfl⟩
    | some lab =>
      right
      obtain ⟨h1, h2, h3, h4⟩ := basinCharges_lin hc G.shape lab G.volume
      exact ⟨_, _, _, rfl, rfl, rfl, ⟨rfl, rfl⟩, h1, h4, ⟨h2, h3⟩, fun _ => ⟨rfl, rfl⟩⟩
  | weight vor srt sorted =>
    right
    simp only [RunInput.method, vacuum_withCharge G hv]
    simp only [RunInput.withCharge]
    obtain ⟨h1, h2, _, _, h5⟩ := weightAssign_rel hc
      ⟨G.shape, G.ref, vor, G.nbrs, M, (sortMaxima (res.reps.map fun r => (r, ()))).map Prod.fst⟩ srt res.labels sorted
    refine ⟨_, _, _, rfl, rfl, rfl, ⟨rfl, rfl⟩, ?_, ?_, ⟨?_, rfl⟩, fun h => h.elim⟩
    · intro b
      simp only [weightResults, h5 b]
      ring
    · simp only [weightResults, sum_lin hc]
      ring
    · funext b
      simp only [weightResults, h2]

/-- The charges of the basins are linear in the charge grid, for every method: partitioning `x` times one density plus `y` times another gives `x` times
the charges of the one plus `y` times those of the other, in the same basins with the same volumes.  In particular the charges change with the unit of the
charge grid like the grid itself. -/
theorem C115_charges (G : RunInput K) (hv : G.RefVacuum) (c1 c2 : ℕ → K) (x y : K) (A : RunAid K) (m : RunMethod K) (fuel : ℕ) :
    ((G.withCharge c1).run A m fuel = none ∧ (G.withCharge c2).run A m fuel = none ∧ (G.withCharge fun v => x * c1 v + y * c2 v).run A m fuel = none) ∨
    ∃ o1 o2 o3, (G.withCharge c1).run A m fuel = some o1 ∧ (G.withCharge c2).run A m fuel = some o2 ∧
      (G.withCharge fun v => x * c1 v + y * c2 v).run A m fuel = some o3 ∧
      Superposed x y m.Whole o1.labels o2.labels o3.labels o1.basins o2.basins o3.basins o1.maxima o2.maxima o3.maxima := by
  simp only [RunInput.run, vacuum_withCharge G hv]
  simp only [show ∀ c, (G.withCharge c).shape = G.shape from fun _ => rfl, show ∀ c, (G.withCharge c).ref = G.ref from fun _ => rfl,
    show ∀ c, (G.withCharge c).nbrs = G.nbrs from fun _ => rfl, show ∀ c, (G.withCharge c).lattice = G.lattice from fun _ => rfl,
    show ∀ c, (G.withCharge c).atoms = G.atoms from fun _ => rfl]
  cases initLabels G.shape G.ref G.nbrs (getMaxima G.shape G.ref (G.nbrs.map Prod.fst) G.vacuum false A.order) A.same A.cand
      (A.sortMax (maximaVox G.shape (getMaxima G.shape G.ref (G.nbrs.map Prod.fst) G.vacuum false A.order))) fuel with
  | none => left; exact ⟨rfl, rfl, rfl⟩
  | some res =>
    rcases method_superposed G hv c1 c2 x y m (getMaxima G.shape G.ref (G.nbrs.map Prod.fst) G.vacuum false A.order) res fuel with
      ⟨h1, h2, h3⟩ | ⟨r1, r2, r3, h1, h2, h3, hs⟩
    · left
      simp only [Option.bind_eq_bind, Option.bind_some, h1, h2, h3]
      exact ⟨rfl, rfl, rfl⟩
    · simp only [Option.bind_eq_bind, Option.bind_some, h1, h2, h3]
      unfold assignBasins
      rw [← hs.maxima.1, ← hs.maxima.2]
      dsimp only
      cases ((r1.2.2.map A.place).map (distRow A.root G.lattice G.atoms)).mapM argmin with
      | none => left; exact ⟨rfl, rfl, rfl⟩
      | some idx => right; exact ⟨_, _, _, rfl, rfl, rfl, ⟨⟨rfl, rfl⟩, hs.charges, hs.vacCharge, hs.volumes, hs.labels⟩⟩

/-! ### Cases -/

/-- A layer of four by three voxels with the maxima 9 at voxel 0 and 20 at voxel 7; voxel 3 lies beside the first and diagonally below the second. -/
def layerRun : RunInput ℚ where
  shape := ⟨4, 3, 1⟩
  charge := fun _ => 1
  ref := fun v => [9, 1, 2, 5, 3, 1, 2, 20, 3, 1, 2, 1].getD v 0
  nbrs := [((1, 0, 0), 1), ((-1, 0, 0), 1), ((0, 1, 0), 1), ((0, -1, 0), 1), ((1, 1, 0), 7 / 5), ((1, -1, 0), 7 / 5), ((-1, 1, 0), 7 / 5),
    ((-1, -1, 0), 7 / 5)]
  lattice := ((4, 0, 0), (0, 3, 0), (0, 0, 1))
  volume := 12
  atoms := [(0, 0, 0), (1 / 2, 1 / 3, 0)]
  tol := none
  useRef := true

/-- The parameters of the run on the layer. -/
def layerAid : RunAid ℚ where
  same := fun _ _ => false
  cand := id
  sortMax := id
  order := List.range 12
  place := fun v => if v = 0 then (0, 0, 0) else (1 / 2, 1 / 3, 0)
  root := fun x => x
  rnd := fun x => x

/-- The neargrid method with the gradients of the reference grid of `G`. -/
def layerNear (G : RunInput ℚ) : RunMethod ℚ :=
  .neargrid (gradientSimple G.shape G.ref ((1, 0, 0), (0, 1, 0), (0, 0, 1))) (List.range 12) (List.range 12) id

/-- The full claim is false for `neargrid`: a gradient below 1e-30 counts as zero, whatever the unit is.  The same density in a unit that makes its values
small has another partition, and other charges of the atoms, although no voxel is vacuum and the values keep their ratios. -/
theorem C115_neargrid_unit :
    (layerRun.run layerAid (layerNear layerRun) 50).map (fun o => ((List.range 12).map o.labels, (List.range 2).map o.assignment.charges)) =
      some ([0, 0, 0, 0, 1, 0, 1, 1, 1, 0, 1, 1], [1 / 2, 1 / 2]) ∧
    ((layerRun.rescale (1 / 10 ^ 31) 0).run layerAid (layerNear (layerRun.rescale (1 / 10 ^ 31) 0)) 50).map
        (fun o => ((List.range 12).map o.labels, (List.range 2).map o.assignment.charges)) =
      some ([0, 0, 0, 1, 1, 1, 1, 1, 1, 1, 1, 1], [1 / 4, 3 / 4]) := by
  constructor <;> decide +kernel

/-- The hypotheses of `C115_run_partial` and a case: a thousandth of the density, moved by three, for all three methods. -/
example : (ringRun.rescale (1 / 1000) 3).ref 2 ≠ ringRun.ref 2 ∧
    (({ layerRun with useRef := false } : RunInput ℚ).rescale (1 / 1000) 3).vacuum = ({ layerRun with useRef := false } : RunInput ℚ).vacuum ∧
    (RunMethod.ongrid (List.range 12) : RunMethod ℚ).Steep (1 / 1000) ∧
    ((layerRun.rescale (1 / 1000) 3).run layerAid (layerNear (layerRun.rescale (1 / 1000) 3)) 50).map (fun o => (List.range 12).map o.labels) =
      some [0, 0, 0, 0, 1, 0, 1, 1, 1, 0, 1, 1] :=
  ⟨by decide +kernel, (C115_vacuum _ _ _ (by norm_num)).1 (Or.inl rfl), trivial, by decide +kernel⟩

/-- Two charge grids and their difference on the ring of eight voxels, with the weight method. -/
example : ringRun.RefVacuum ∧
    ((ringRun.withCharge fun v => 2 * ringRun.charge v - 3 * (v : ℚ)).run (ringAid ringCand) (.weight ring2 id [5, 7, 0, 2, 6, 3]) 9).map
      (fun o => (List.range 3).map o.basins.charges) =
    (ringRun.run (ringAid ringCand) (.weight ring2 id [5, 7, 0, 2, 6, 3]) 9).bind fun o1 =>
      ((ringRun.withCharge fun v => (v : ℚ)).run (ringAid ringCand) (.weight ring2 id [5, 7, 0, 2, 6, 3]) 9).map fun o2 =>
        (List.range 3).map fun b => 2 * o1.basins.charges b - 3 * o2.basins.charges b :=
  ⟨Or.inl rfl, by decide +kernel⟩

end BaderKit
