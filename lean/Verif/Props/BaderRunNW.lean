import Verif.Model.BaderRunNW
import Verif.Props.NeargridWeightRun
import Verif.Props.Origin
/-!
# C103: a complete run with the method `neargrid-weight`
-/
set_option linter.unusedSectionVars false
namespace BaderKit
open Finset

variable {K : Type} [Field K] [LinearOrder K] [IsStrictOrderedRing K] [FloorRing K]

/-- **C103** (partial) The method `neargrid-weight` from the grids to the atoms.  Voxels of the vacuum have no atom, all
others have one.  If charge and reference rise together and the charge is positive outside the vacuum, then: if no
maximum touches another basin, the reported number of electrons is that of the crystal plus what the vacuum is counted
too much (its charge `V` is not divided by the number of points), and the reported volume that of the cell plus what
the vacuum is counted too much, up to the rounding; so without vacuum both are right.  If a maximum touches another
basin, the basins and the properly divided vacuum do not add up to the crystal (`C50_edge_maximum_lost`: they hold less).  Missing: the right totals with a
vacuum or with touching maxima, where they are wrong. -/
theorem C103_neargrid_weight_partial (G : RunInput K) (A : RunAid K) (ε : K) (H : RunReady G A ε)
    (hu : ∀ td ∈ G.nbrs, UnitStep td.1) (vor : List (Coord × K)) (hvor : ∀ t ∈ vor, 0 < t.2 ∧ t.1 ∈ G.nbrs.map Prod.fst)
    (hsome : ∃ v < G.shape.size, G.vacuum v = false) (grad : ℕ → K × K × K) (o1 o2 o3 : List ℕ) (perm : List ℕ → List ℕ)
    (ho1 : IsSchedule G.shape o1) (ho2 : IsSchedule G.shape o2) (ho3 : IsSchedule G.shape o3)
    (hperm : ∀ l, (perm l).Perm l) :
    let N : K := G.shape.size
    let total := (∑ v ∈ range G.shape.size, G.charge v) / N
    let V := ∑ v ∈ (range G.shape.size).filter (fun v => G.vacuum v = true), G.charge v
    let n : K := ((range G.shape.size).filter (fun v => G.vacuum v = true)).card
    let M := getMaxima G.shape G.ref (G.nbrs.map Prod.fst) G.vacuum false A.order
    ∃ F, ∀ fuel ≥ F, ∃ o, G.runNW A vor grad o1 o2 o3 perm fuel = some o ∧
      (∀ v < G.shape.size, G.vacuum v = true → o.assignment.atomLabels v = -1) ∧
      (∀ v < G.shape.size, G.vacuum v = false → ∃ a : ℕ, a < G.atoms.length ∧ o.assignment.atomLabels v = a) ∧
      o.basins.vacCharge = V ∧ o.basins.vacVolume = n ∧
      ((∀ v w, v < G.shape.size → w < G.shape.size → G.ref v < G.ref w → G.charge v < G.charge w) →
        (∀ v < G.shape.size, G.vacuum v = false → 0 < G.charge v) → 0 < G.volume →
        (¬ TouchesOther G.shape (G.nbrs.map Prod.fst) G.vacuum M o.labels →
          |o.electrons A.rnd G.atoms.length - (total + (V - V / N))| ≤ (o.maxima.length + G.atoms.length + 2) * ε ∧
          |o.totalVolume A.rnd G.atoms.length - (G.volume + (n - n * G.volume / N))| ≤
            (o.maxima.length + G.atoms.length + 2) * ε) ∧
        (TouchesOther G.shape (G.nbrs.map Prod.fst) G.vacuum M o.labels →
          ∑ b ∈ range o.maxima.length, o.basins.charges b + V / N ≠ total ∧
          ∑ b ∈ range o.maxima.length, o.basins.volumes b + n * G.volume / N ≠ G.volume)) := by
  intro N total V n M
  have hsort := H.sort (maximaVox G.shape M)
  obtain ⟨res, F0, lab, r, hF0, hrun, h1, h2, hvc, hvv, htot⟩ := C50_run G.shape G.ref G.charge G.nbrs vor grad G.vacuum A.same A.cand
    (A.sortMax (maximaVox G.shape M)) A.order G.numVacuum G.volume H.voxels hu H.pos hvor
    (fun v _ hv w _ hle => H.vacuum.up v w hv hle) G.numVacuum_zero hsome H.order hsort
  obtain ⟨F, hF⟩ := hrun o1 o2 o3 perm ho1 ho2 ho3 hperm
  refine ⟨max F0 F, fun fuel hf => ?_⟩
  obtain ⟨lab', e2, hl⟩ := hF fuel (le_of_max_le_right hf)
  have e1 := hF0 fuel (le_of_max_le_left hf)
  set bc := (List.range res.reps.length).map fun b => A.rnd (r.charges b) with hbc
  set bv := (List.range res.reps.length).map fun b => A.rnd (r.volumes b) with hbv
  have hs := (C23_succeeds A.root G.lattice G.atoms (res.reps.map A.place) lab' bc bv).mpr (Or.inl H.atoms)
  obtain ⟨asg, hasg⟩ := Option.isSome_iff_exists.mp hs
  obtain ⟨⟨g1, g2⟩, -, -, g5, g6, g7, g8⟩ := C23_atom_totals A.root G.lattice G.atoms (res.reps.map A.place) lab' bc bv asg
    (by simp [hbc]) (by simp [hbv]) hasg
  rw [List.length_map] at g8
  have hbcs : bc.sum = ∑ b ∈ range res.reps.length, A.rnd (r.charges b) := by rw [hbc, sum_range_list]
  have hbvs : bv.sum = ∑ b ∈ range res.reps.length, A.rnd (r.volumes b) := by rw [hbv, sum_range_list]
  have hround : ∀ (f : ℕ → K) (g : ℕ → K) (vacX X : K), ∑ a ∈ range G.atoms.length, f a = ∑ b ∈ range res.reps.length, A.rnd (g b) →
      ∑ b ∈ range res.reps.length, g b + vacX = X →
      |A.rnd (((List.range G.atoms.length).map fun a => A.rnd (f a)).sum + A.rnd vacX) - X| ≤
        (res.reps.length + G.atoms.length + 2) * ε := by
    intro f g vacX X h1 h2
    rw [sum_range_list]
    have e1 := abs_sum_rnd H.rnd (range G.atoms.length) f
    have e2 := abs_sum_rnd H.rnd (range res.reps.length) g
    have e3 := H.rnd vacX
    have e4 := H.rnd (∑ a ∈ range G.atoms.length, A.rnd (f a) + A.rnd vacX)
    rw [Finset.card_range] at e1 e2
    rw [h1] at e1
    rw [← h2]
    rw [abs_le] at *
    constructor <;> linarith [e1.1, e1.2, e2.1, e2.2, e3.1, e3.2, e4.1, e4.2]
  have hfits : ∀ t ∈ G.nbrs.map Prod.fst, StepFits G.shape t := by
    intro t ht; obtain ⟨td, htd, rfl⟩ := List.mem_map.mp ht; exact H.fits td htd
  have hM : MarksMaxima G.shape G.ref (G.nbrs.map Prod.fst) G.vacuum M :=
    marksMaxima_getMaxima G.shape G.ref (G.nbrs.map Prod.fst) G.vacuum A.order H.order hfits
  have touch : TouchesOther G.shape (G.nbrs.map Prod.fst) G.vacuum M lab' ↔
      TouchesOther G.shape (G.nbrs.map Prod.fst) G.vacuum M lab := by
    unfold TouchesOther
    refine exists_congr fun m => exists_congr fun w => and_congr_right fun hm => and_congr_right fun hw => and_congr_right fun _ => ?_
    have hms := ((hM m).mp hm).1
    obtain ⟨t, ht, rfl⟩ := (isNbr_iff hfits hms).mp hw
    rw [hl m hms, hl _ (nbr_lt hms (hfits t ht))]
  refine ⟨⟨lab', r, res.reps, asg⟩, ?_, ?_, ?_, hvc, hvv, ?_⟩
  · simp only [RunInput.runNW, Option.bind_eq_bind]
    rw [e1, Option.bind_some, e2, Option.bind_some, hasg]
    rfl
  · intro v hv hvac
    exact g7 v (by rw [hl v hv]; exact h1 v hv hvac)
  · intro v hv hvac
    obtain ⟨k0, k1⟩ := h2 v hv hvac
    rw [← hl v hv] at k0 k1
    obtain ⟨a, ha, hla⟩ := g8 v (lab' v).toNat (by omega) (by omega)
    exact ⟨a, g2 _ (List.mem_of_getElem? ha), hla⟩
  · intro hmono hpos hcell
    obtain ⟨t1, t2⟩ := htot hmono hpos hcell
    rw [hvc] at t1
    rw [hvv] at t2
    refine ⟨fun hT => ?_, fun hT => ⟨fun h => (t1.mp h) (touch.mp hT), fun h => (t2.mp h) (touch.mp hT)⟩⟩
    have k1 := t1.mpr (fun h => hT (touch.mpr h))
    have k2 := t2.mpr (fun h => hT (touch.mpr h))
    constructor
    · refine hround _ _ _ _ (g5.trans hbcs) ?_
      show ∑ b ∈ range res.reps.length, r.charges b + r.vacCharge = _
      rw [hvc]
      show _ = (∑ v ∈ range G.shape.size, G.charge v) / (G.shape.size : K) + (V - V / N)
      rw [← k1]
      simp only [V, N]
      ring
    · refine hround _ _ _ _ (g6.trans hbvs) ?_
      show ∑ b ∈ range res.reps.length, r.volumes b + r.vacVolume = _
      rw [hvv]
      have : G.volume + (n - n * G.volume / N) = (∑ b ∈ range res.reps.length, r.volumes b + n * G.volume / N) + (n - n * G.volume / N) := by
        rw [k2]
      rw [this]
      simp only [n, N]
      ring

/-! ## Concrete runs -/

/-- The ring `9 5 2 5 8 5 1 4` with an atom at each maximum. -/
def nwLine (tol : Option ℚ) : RunInput ℚ := lineRun [9, 5, 2, 5, 8, 5, 1, 4] [(0, 0, 0), (1 / 2, 0, 0)] tol

/-- Its parameters. -/
def nwLineAid : RunAid ℚ := lineAid [9, 5, 2, 5, 8, 5, 1, 4] fun _ _ => false

/-- The run on it. -/
def nwLineRun (tol : Option ℚ) : Option (RunOut ℚ) :=
  (nwLine tol).runNW nwLineAid ring2 (gradientSimple ⟨8, 1, 1⟩ (fun v => ([9, 5, 2, 5, 8, 5, 1, 4] : List ℚ).getD v 0) idMat)
    (List.range 8) (List.range 8) (List.range 8) List.reverse 40

/-- The hypotheses of `C103_neargrid_weight_partial` hold, with and without vacuum. -/
example (tol : Option ℚ) (htol : ∀ t ∈ tol, t ≤ 1) : RunReady (nwLine tol) nwLineAid 0 ∧ (∀ td ∈ (nwLine tol).nbrs, UnitStep td.1) ∧
    (∀ t ∈ ring2, 0 < t.2 ∧ t.1 ∈ (nwLine tol).nbrs.map Prod.fst) ∧ (∃ v < (nwLine tol).shape.size, (nwLine tol).vacuum v = false) ∧
    (∀ v w, v < (nwLine tol).shape.size → w < (nwLine tol).shape.size → (nwLine tol).ref v < (nwLine tol).ref w →
      (nwLine tol).charge v < (nwLine tol).charge w) ∧
    (∀ v < (nwLine tol).shape.size, (nwLine tol).vacuum v = false → 0 < (nwLine tol).charge v) ∧ 0 < (nwLine tol).volume := by
  refine ⟨lineRun_ready _ (by decide) _ (by simp) _ _, ?_, ?_, ⟨0, show 0 < 8 * 1 * 1 by decide, ?_⟩, fun v w _ _ h => h, ?_, ?_⟩
  · show ∀ td ∈ ring2, UnitStep td.1
    unfold UnitStep
    decide
  · show ∀ t ∈ ring2, 0 < t.2 ∧ t.1 ∈ ring2.map Prod.fst
    decide +kernel
  · cases tol with
    | none => rfl
    | some t =>
      have := htol t rfl
      show decide ((9 : ℚ) < t * ((8 : ℕ) : ℚ)) = false
      simp only [decide_eq_false_iff_not, not_lt]
      push_cast
      linarith
  · have : ∀ v < 8, 0 < ([9, 5, 2, 5, 8, 5, 1, 4] : List ℚ).getD v 0 := by decide +kernel
    intro v hv _
    exact this v (by simpa [nwLine, lineRun, Shape.size] using hv)
  · show (0 : ℚ) < ((8 : ℕ) : ℚ)
    norm_num

set_option maxRecDepth 100000 in
/-- Without vacuum all 39/8 electrons are reported. -/
example : ((nwLineRun none).map fun o => ((List.range 8).map o.assignment.atomLabels, o.electrons id 2)) =
    some ([0, 0, 1, 1, 1, 1, 1, 0], 39 / 8) := by decide +kernel

set_option maxRecDepth 100000 in
/-- **C103** (negative part) One voxel of vacuum with the value 1: instead of the 39/8 electrons of the crystal
`neargrid-weight` reports 46/8. -/
theorem C103_neargrid_weight_vacuum : ∃ (G : RunInput ℚ) (A : RunAid ℚ) (o : RunOut ℚ) (grad : ℕ → ℚ × ℚ × ℚ), RunReady G A 0 ∧
    G.runNW A ring2 grad (List.range 8) (List.range 8) (List.range 8) List.reverse 40 = some o ∧
    (∑ v ∈ range G.shape.size, G.charge v) / G.shape.size = 39 / 8 ∧ o.electrons A.rnd G.atoms.length = 46 / 8 := by
  obtain ⟨o, ho⟩ : ∃ o, nwLineRun (some (3 / 16)) = some o := by
    have : (nwLineRun (some (3 / 16))).isSome = true := by decide +kernel
    exact Option.isSome_iff_exists.mp this
  have he : ((nwLineRun (some (3 / 16))).map fun o => o.electrons id 2) = some (46 / 8) := by decide +kernel
  rw [ho] at he
  refine ⟨nwLine (some (3 / 16)), nwLineAid, o, _, lineRun_ready _ (by decide) _ (by simp) _ _, ho, ?_, ?_⟩
  · decide +kernel
  · exact Option.some.inj he

end BaderKit
