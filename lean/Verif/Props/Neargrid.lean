import Verif.Lemmas.NearThreads
/-! # Properties C20, C21 and C22: the neargrid method -/
set_option linter.unusedSectionVars false
namespace BaderKit
variable {K : Type*} [Field K] [LinearOrder K] [IsStrictOrderedRing K] [FloorRing K]

theorem maxGrad_spec (g : K × K × K) : 0 ≤ maxGrad g ∧ |g.1| ≤ maxGrad g ∧ |g.2.1| ≤ maxGrad g ∧
    |g.2.2| ≤ maxGrad g := by
  simp only [maxGrad]
  have := abs_nonneg g.1
  refine ⟨?_, ?_, ?_, ?_⟩ <;> split_ifs <;> linarith

theorem bestNeighbor_unit {s : Shape} {data : ℕ → K} {nbrs : List (Coord × K)} {v : ℕ}
    (hd : ∀ td ∈ nbrs, 0 < td.2) (hu : ∀ td ∈ nbrs, UnitStep td.1)
    (h : ∃ td ∈ nbrs, data v < data (nbr s v td.1)) :
    ∃ t, UnitStep t ∧ bestNeighbor s data nbrs v = (t, nbr s v t) ∧
      data v < data (bestNeighbor s data nbrs v).2 := by
  obtain ⟨h1, td, htd, h2⟩ := bestNeighbor_higher s data v nbrs hd h
  exact ⟨td.1, hu td htd, h2, h1⟩

theorem gradPointer_spec {s : Shape} {data : ℕ → K} {nbrs : List (Coord × K)} {v : ℕ} (g : K × K × K)
    (hd : ∀ td ∈ nbrs, 0 < td.2) (hu : ∀ td ∈ nbrs, UnitStep td.1)
    (h : ∃ td ∈ nbrs, data v < data (nbr s v td.1)) :
    (∃ t, UnitStep t ∧ (gradPointer s data nbrs g v).1 = nbr s v t) ∧
      data v < data (gradPointer s data nbrs g v).1 ∧ Within 1 (gradPointer s data nbrs g v).2 := by
  obtain ⟨t, ht, e, hlt⟩ := bestNeighbor_unit hd hu h
  obtain ⟨m0, m1, m2, m3⟩ := maxGrad_spec g
  simp only [gradPointer]
  split_ifs with hm hn
  · refine ⟨⟨t, ht, by rw [e]⟩, hlt, ?_⟩
    rw [e]
    obtain ⟨⟨a1, a2⟩, ⟨b1, b2⟩, ⟨c1, c2⟩⟩ := ht
    refine ⟨abs_le.mpr ⟨?_, ?_⟩, abs_le.mpr ⟨?_, ?_⟩, abs_le.mpr ⟨?_, ?_⟩⟩ <;> simp only <;> exact_mod_cast ‹_›
  all_goals
    have hpos : 0 < maxGrad g := by
      refine lt_of_lt_of_le ?_ (not_lt.mp hm)
      positivity
    have hw : Within 1 (g.1 / maxGrad g, g.2.1 / maxGrad g, g.2.2 / maxGrad g) := by
      refine ⟨?_, ?_, ?_⟩ <;> simp only [abs_div, abs_of_pos hpos] <;> rw [div_le_one hpos] <;> assumption
  · exact ⟨⟨t, ht, by rw [e]⟩, hlt, hw⟩
  · exact ⟨⟨_, ⟨roundHE_one hw.1, roundHE_one hw.2.1, roundHE_one hw.2.2⟩, rfl⟩, not_le.mp hn, hw⟩

theorem gradFold_apply (s : Shape) (data : ℕ → K) (nbrs : List (Coord × K))
    (grad : ℕ → K × K × K) (vac M : ℕ → Bool) (order : List ℕ) (v : ℕ) :
    ∀ (labels : ℕ → ℤ) (g0 : ℕ → K × K × K),
    let r := order.foldl (fun (st : (ℕ → ℤ) × (ℕ → K × K × K)) v =>
      if vac v then st
      else if M v then st
      else
        let r := gradPointer s data nbrs (grad v) v
        (Function.update st.1 v (r.1 : ℤ), Function.update st.2 v r.2)) (labels, g0)
    (r.1 v = if v ∈ order ∧ (vac v = false ∧ M v = false)
        then ((gradPointer s data nbrs (grad v) v).1 : ℤ) else labels v) ∧
    (r.2 v = if v ∈ order ∧ (vac v = false ∧ M v = false)
        then (gradPointer s data nbrs (grad v) v).2 else g0 v) := by
  induction order with
  | nil => intro labels g0; simp
  | cons u us ih =>
    intro labels g0
    simp only [List.foldl_cons]
    by_cases hu : vac u = false ∧ M u = false
    · have e : (if vac u = true then (labels, g0) else if M u = true then (labels, g0) else
          (Function.update labels u ((gradPointer s data nbrs (grad u) u).1 : ℤ),
            Function.update g0 u (gradPointer s data nbrs (grad u) u).2)) =
          (Function.update labels u ((gradPointer s data nbrs (grad u) u).1 : ℤ),
            Function.update g0 u (gradPointer s data nbrs (grad u) u).2) := by simp [hu.1, hu.2]
      simp only [e]
      obtain ⟨h1, h2⟩ := ih (Function.update labels u ((gradPointer s data nbrs (grad u) u).1 : ℤ))
        (Function.update g0 u (gradPointer s data nbrs (grad u) u).2)
      simp only at h1 h2
      rw [h1, h2]
      by_cases hvu : v = u
      · subst hvu; simp [hu.1, hu.2]
      · simp [hvu]
    · have e : (if vac u = true then (labels, g0) else if M u = true then (labels, g0) else
          (Function.update labels u ((gradPointer s data nbrs (grad u) u).1 : ℤ),
            Function.update g0 u (gradPointer s data nbrs (grad u) u).2)) = (labels, g0) := by
        rcases Bool.eq_false_or_eq_true (vac u) with h1 | h1
        · simp [h1]
        · have : M u = true := by
            by_contra hc; exact hu ⟨h1, by simpa using hc⟩
          simp [h1, this]
      simp only [e]
      obtain ⟨h1, h2⟩ := ih labels g0
      simp only at h1 h2
      rw [h1, h2]
      by_cases hvu : v = u
      · subst hvu
        simp [hu]
      · simp [hvu]

theorem gradientPointers_apply (s : Shape) (data : ℕ → K) (nbrs : List (Coord × K))
    (grad : ℕ → K × K × K) (vac M : ℕ → Bool) (order : List ℕ) (labels : ℕ → ℤ) (v : ℕ) :
    ((gradientPointers s data nbrs grad vac M order labels).1 v =
      if v ∈ order ∧ (vac v = false ∧ M v = false) then ((gradPointer s data nbrs (grad v) v).1 : ℤ)
      else labels v) ∧
    ((gradientPointers s data nbrs grad vac M order labels).2 v =
      if v ∈ order ∧ (vac v = false ∧ M v = false) then (gradPointer s data nbrs (grad v) v).2
      else (0, 0, 0)) :=
  gradFold_apply s data nbrs grad vac M order v labels _

theorem exists_higher {s : Shape} {data : ℕ → K} {nbrs : List (Coord × K)} {vac M : ℕ → Bool}
    (hfit : ∀ td ∈ nbrs, StepFits s td.1) (hM : MarksMaxima s data (nbrs.map Prod.fst) vac M) {v : ℕ}
    (hv : v < s.size) (hvac : vac v = false) (hm : M v = false) :
    ∃ td ∈ nbrs, data v < data (nbr s v td.1) := by
  by_contra hno
  push Not at hno
  have : M v = true := by
    rw [hM]
    refine ⟨hv, hvac, fun w hw => ?_⟩
    obtain ⟨t, ht, rfl⟩ := (isNbr_iff (fun t ht => by
      obtain ⟨td, htd, rfl⟩ := List.mem_map.mp ht; exact hfit td htd) hv).mp hw
    obtain ⟨td, htd, rfl⟩ := List.mem_map.mp ht
    exact hno td htd
  rw [hm] at this; exact absurd this (by simp)

/-- **C20** For every gradient function (in particular the two of the library), every visiting order and
every initial labelling: vacuum voxels and maxima keep their entry, every other voxel gets a pointer to a
voxel of the grid at most one step away along each axis whose data is strictly higher, and the stored
gradients have components of absolute value at most one. -/
theorem C20_pointers (s : Shape) (data : ℕ → K) (nbrs : List (Coord × K)) (grad : ℕ → K × K × K)
    (vac M : ℕ → Bool) (order : List ℕ) (labels : ℕ → ℤ) (hu : ∀ td ∈ nbrs, UnitStep td.1)
    (hd : ∀ td ∈ nbrs, 0 < td.2) (hM : MarksMaxima s data (nbrs.map Prod.fst) vac M)
    (hord : IsSchedule s order) :
    let r := gradientPointers s data nbrs grad vac M order labels
    (∀ v, vac v = true ∨ M v = true → r.1 v = labels v) ∧
    (∀ v < s.size, vac v = false → M v = false → ∃ w : ℕ, r.1 v = w ∧ w < s.size ∧ data v < data w ∧
      ∃ t, UnitStep t ∧ SamePoint s (addC (flatToCoords s v) t) (flatToCoords s w)) ∧
    ∀ v, Within 1 (r.2 v) := by
  intro r
  have happ := gradientPointers_apply s data nbrs grad vac M order labels
  have hex : ∀ v < s.size, vac v = false → M v = false → ∃ td ∈ nbrs, data v < data (nbr s v td.1) :=
    fun v hv a b => exists_higher (fun td htd => (hu td htd).fits (pos_of_lt_size hv)) hM hv a b
  refine ⟨fun v hv => ?_, fun v hv hvac hm => ?_, fun v => ?_⟩
  · simp only [r]
    rw [(happ v).1, if_neg]
    rintro ⟨_, h1, h2⟩
    rcases hv with h | h
    · rw [h1] at h; exact absurd h (by simp)
    · rw [h2] at h; exact absurd h (by simp)
  · obtain ⟨⟨t, ht, e⟩, h2, _⟩ := gradPointer_spec (grad v) hd hu (hex v hv hvac hm)
    have hfit := ht.fits (pos_of_lt_size hv)
    refine ⟨(gradPointer s data nbrs (grad v) v).1, ?_, ?_, h2, t, ht, ?_⟩
    · simp only [r]
      rw [(happ v).1, if_pos ⟨(mem_schedule hord v).mpr hv, hvac, hm⟩]
    · rw [e]; exact nbr_lt hv hfit
    · rw [e, flatToCoords_nbr hv hfit]; exact wrapPoint_same s _
  · simp only [r]
    rw [(happ v).2]
    split_ifs with h
    · have hv := (mem_schedule hord v).mp h.1
      exact (gradPointer_spec (grad v) hd hu (hex v hv h.2.1 h.2.2)).2.2
    · simp [Within]

/-- The identity matrix. -/
def idMat : (ℚ × ℚ × ℚ) × (ℚ × ℚ × ℚ) × (ℚ × ℚ × ℚ) := ((1, 0, 0), (0, 1, 0), (0, 0, 1))

/-- Non-vacuity of C20: pointers of the ring `3 0 2 1 0 4 1 3` for the gradient of the library. -/
example : (∀ td ∈ ring2, UnitStep td.1) ∧
    (List.range 8).map (gradientPointers ⟨8, 1, 1⟩ ringData ring2
      (gradientSimple ⟨8, 1, 1⟩ ringData idMat) (fun _ => false) ringMax (List.range 8)
      (fun v => if ringMax v then (v : ℤ) else -1)).1 = [0, 0, 2, 2, 5, 5, 5, 7] := by
  refine ⟨by unfold UnitStep; decide, by decide +kernel⟩

/-- **C21** For every stored gradient field with components of absolute value at most one and every start
voxel outside the vacuum: there is exactly one near-grid trajectory, it ends at a reported maximum, has
fewer near-grid steps than there are voxels, and the climbing loop of the library returns that maximum
for all labels that are zero exactly in the vacuum. -/
theorem C21_climb (I : NearIn K) (vac : ℕ → Bool) (hI : NearInput I vac) (v : ℕ) (hv : v < I.s.size)
    (hvac : vac v = false) :
    ∃ m, (∃ k < I.s.size, NearTraj I vac v (0, 0, 0) [] k m) ∧ (∀ m', ClimbsTo I vac v m' → m' = m) ∧
      I.maxm m = true ∧ vac m = false ∧
      ∃ F, ∀ fuel ≥ F, ∀ lab, ZeroVac I.s vac lab → climbLoop I lab fuel (Climb.init v) = some m := by
  obtain ⟨m, k, h1, h2, h3, h4⟩ := climb_exists hI _ (Climb.init v) (init_ci hv hvac) le_rfl
  have hfr := fresh_lt (I := I) (c := Climb.init v) hv
  exact ⟨m, ⟨k, by omega, h1⟩, fun m' h' => climbsTo_unique h' ⟨k, h1⟩, h3, ((hI.maxima m).mp h3).2.1,
    _, fun fuel hf lab hz => h4 lab hz fuel (Nat.lt_of_lt_of_le (Nat.lt_succ_self _) hf)⟩

/-- Input of the witness: three voxels `0 1 2`, the highest of them vacuum. -/
def badClimb : NearIn ℚ where
  s := ⟨3, 1, 1⟩
  data := fun v => (v : ℚ)
  nbrs := ring2
  maxm := fun _ => false
  grad := fun v => if v = 2 then (0, 0, 0) else (1, 0, 0)

theorem badClimb_stuck (lab : ℕ → ℤ) (fuel : ℕ) : ∀ path : List ℕ,
    climbLoop badClimb lab fuel ⟨2, (0, 0, 0), path⟩ = none := by
  induction fuel with
  | zero => intro path; rfl
  | succ fuel ih =>
    intro path
    have e : climbStep badClimb lab ⟨2, (0, 0, 0), path⟩ = ⟨2, (0, 0, 0), 2 :: path⟩ := by
      have e1 : nearStep badClimb ⟨2, (0, 0, 0), path⟩ = (2, (0, 0, 0)) := by
        simp only [nearStep, badClimb]
        decide +kernel
      have e2 : (bestNeighbor badClimb.s badClimb.data badClimb.nbrs 2).2 = 2 := by decide +kernel
      simp only [climbStep, e1, e2]
      simp
    rw [climbLoop, e]
    simp only [badClimb, Bool.false_eq_true, if_false]
    exact ih _

/-- **C21** (negative part) Without upward closure of the region outside the vacuum the climb can run
forever, even though everything else is as required. -/
theorem C21_runs_forever :
    ∃ (I : NearIn ℚ) (vac : ℕ → Bool) (lab : ℕ → ℤ) (v : ℕ),
      (∀ td ∈ I.nbrs, StepFits I.s td.1) ∧ (∀ td ∈ I.nbrs, 0 < td.2) ∧
      MarksMaxima I.s I.data (I.nbrs.map Prod.fst) vac I.maxm ∧ (∀ v, Within 1 (I.grad v)) ∧
      ZeroVac I.s vac lab ∧ v < I.s.size ∧ vac v = false ∧
      ∀ fuel, climbLoop I lab fuel (Climb.init v) = none := by
  refine ⟨badClimb, fun v => decide (v = 2), fun v => if v = 2 then 0 else 1, 0, ?_, ?_, ?_, ?_, ?_, ?_,
    by decide, ?_⟩
  · unfold StepFits; decide
  · simp [badClimb, ring2]
  · intro v
    constructor
    · intro h; simp [badClimb] at h
    · rintro ⟨hv, hvac, hmax⟩
      exfalso
      have hv' : v < 3 := hv
      have h2 : v ≠ 2 := by simpa using hvac
      have hfit : ∀ t ∈ badClimb.nbrs.map Prod.fst, StepFits badClimb.s t := by
        unfold StepFits; decide
      have hn : IsNbr badClimb.s (badClimb.nbrs.map Prod.fst) v (v + 1) := by
        rw [isNbr_iff hfit hv]
        refine ⟨(1, 0, 0), by simp [badClimb, ring2], ?_⟩
        have : v = 0 ∨ v = 1 := by omega
        rcases this with rfl | rfl <;> decide
      have := hmax _ hn
      simp only [badClimb] at this
      push_cast at this
      linarith
  · intro v
    simp only [badClimb]
    split_ifs <;> simp [Within]
  · intro v hv
    simp
  · decide
  · intro fuel
    have e1 : climbStep badClimb (fun v => if v = 2 then 0 else 1) (Climb.init 0) =
        ⟨1, (0, 0, 0), [0]⟩ := by
      have e : nearStep badClimb (Climb.init 0) = (1, (0, 0, 0)) := by
        simp only [nearStep, badClimb, Climb.init]
        decide +kernel
      simp only [climbStep, e]
      simp [Climb.init]
    have e2 : climbStep badClimb (fun v => if v = 2 then 0 else 1) ⟨1, (0, 0, 0), [0]⟩ =
        ⟨2, (0, 0, 0), [1, 0]⟩ := by
      have e : nearStep badClimb ⟨1, (0, 0, 0), [0]⟩ = (2, (0, 0, 0)) := by
        simp only [nearStep, badClimb]
        decide +kernel
      have e' : (bestNeighbor badClimb.s badClimb.data badClimb.nbrs 1).2 = 2 := by decide +kernel
      simp only [climbStep, e, e']
      simp
    cases fuel with
    | zero => rfl
    | succ f =>
      rw [climbLoop, e1]
      simp only [badClimb, Bool.false_eq_true, if_false]
      cases f with
      | zero => rfl
      | succ f =>
        change climbLoop badClimb _ (f + 1) _ = none
        rw [climbLoop, e2]
        simp only [badClimb, Bool.false_eq_true, if_false]
        exact badClimb_stuck _ f _

end BaderKit
