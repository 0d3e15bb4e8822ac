import Verif.Props.OriginNeargrid
import Verif.Props.Supercell
/-!
# C119 for the neargrid method

The neargrid method does not repeat its results in a supercell.
-/
set_option linter.unusedSectionVars false
namespace BaderKit
open Finset

/-- The four neighbours in a layer. -/
def layerSteps : List (Coord × ℚ) := [((1, 0, 0), 1), ((-1, 0, 0), 1), ((0, 1, 0), 1), ((0, -1, 0), 1)]

/-- A crystal of one layer of `a` times `b` voxels without vacuum. -/
def sheetRun (a b : ℕ) (l : List ℚ) : RunInput ℚ where
  shape := ⟨a, b, 1⟩
  charge := fun v => l.getD v 0
  ref := fun v => l.getD v 0
  nbrs := layerSteps
  lattice := ((a, 0, 0), (0, b, 0), (0, 0, 1))
  volume := a * b
  atoms := [(0, 0, 0)]
  tol := none
  useRef := true

theorem layer_ready (a b : ℕ) (ha : 1 ≤ a) (hb : 1 ≤ b) (l : List ℚ) (hl : l.length = a * b) :
    RunReady (sheetRun a b l) (lineAid l fun _ _ => false) 0 where
  voxels := by show 0 < a * b * 1; positivity
  atoms := by simp [sheetRun]
  fits := by
    intro td htd
    simp only [sheetRun, layerSteps, List.mem_cons, List.not_mem_nil, or_false] at htd
    rcases htd with rfl | rfl | rfl | rfl <;> simp only [StepFits, sheetRun] <;> omega
  pos := by
    intro td htd
    simp only [sheetRun, layerSteps, List.mem_cons, List.not_mem_nil, or_false] at htd
    rcases htd with rfl | rfl | rfl | rfl <;> norm_num
  vacuum := Or.inl rfl
  order := by show List.Perm (List.range l.length) (List.range (a * b * 1)); rw [hl, mul_one]
  sort := fun m => List.perm_insertionSort _ _
  rnd := fun x => by simp [lineAid]

/-- The layer of the witness, its voxels in rows of four. -/
def oneCell : List ℚ := [35, 23, 31, 39, 2, 26, 7, 15, 28, 21, 6, 5]
/-- Two cells of it, the density stored times the volume. -/
def twoCells : List ℚ := [70, 46, 62, 78, 4, 52, 14, 30, 56, 42, 12, 10, 70, 46, 62, 78, 4, 52, 14, 30, 56, 42, 12, 10]

/-- The two cells are a supercell of the one. -/
theorem layer_cells : CellRuns (2, 1, 1) (2 : ℚ) (cellsOf (2, 1, 1)) (sheetRun 3 4 oneCell) (sheetRun 6 4 twoCells) (lineAid oneCell fun _ _ => false)
    (lineAid twoCells fun _ _ => false) 0 := by
  have emod : ∀ {x y : ℤ} {n : ℕ}, (∃ a : ℤ, x = y + a * n) → x % n = y % n := by
    rintro x y n ⟨a, rfl⟩
    exact Int.add_mul_emod_self_right y a n
  have copy : ∀ w v, CopyOf ⟨3, 4, 1⟩ ⟨6, 4, 1⟩ w v → twoCells.getD w 0 = 2 * oneCell.getD v 0 := by
    intro w v ⟨h1, h2, h3, h4, _⟩
    have key : ∀ w < 24, ∀ v < 12, (flatToCoords ⟨6, 4, 1⟩ (w : ℕ)).1 % ((3 : ℕ) : ℤ) = (flatToCoords ⟨3, 4, 1⟩ (v : ℕ)).1 % ((3 : ℕ) : ℤ) →
        (flatToCoords ⟨6, 4, 1⟩ (w : ℕ)).2.1 % ((4 : ℕ) : ℤ) = (flatToCoords ⟨3, 4, 1⟩ (v : ℕ)).2.1 % ((4 : ℕ) : ℤ) →
        twoCells.getD w 0 = 2 * oneCell.getD v 0 := by decide +kernel
    exact key w h1 v h2 (emod h3) (emod h4)
  have hr := layer_ready 3 4 (by decide) (by decide) oneCell rfl
  refine ⟨⟨⟨rfl, rfl, rfl, by decide, by decide, by decide⟩, rfl, ?_, rfl, rfl, by norm_num, copy, ?_, fun h => absurd rfl h⟩, hr,
    layer_ready 6 4 (by decide) (by decide) twoCells rfl, by unfold TwoSided; decide, ?_, fun _ _ _ _ _ => rfl, fun _ _ _ _ _ => rfl, lineAid_sorted _ _,
    lineAid_sorted _ _⟩
  · norm_num [sheetRun, cellsOf]
  · intro w v hc
    have := copy w v hc
    simpa [cellsOf, sheetRun] using this
  · intro v w hv hw
    have key : ∀ v < 12, (∀ t ∈ layerSteps.map Prod.fst, oneCell.getD (nbr ⟨3, 4, 1⟩ v t) 0 ≤ oneCell.getD v 0) →
        ∀ t ∈ layerSteps.map Prod.fst, oneCell.getD (nbr ⟨3, 4, 1⟩ v t) 0 < oneCell.getD v 0 := by decide +kernel
    obtain ⟨t, ht, rfl⟩ := (isNbr_iff (fitsOf hr.fits) hv.1).mp hw
    exact key v hv.1 (fun t ht => hv.2.2 _ ((isNbr_iff (fitsOf hr.fits) hv.1).mpr ⟨t, ht, rfl⟩)) t ht

/-- **C119** (negative part) The neargrid method does not repeat the results of a cell in a supercell.  Between two copies of one basin there are edges in the
block but not in the cell, and only voxels at edges are refined.  In a layer of three times four voxels with two sharp maxima the basins have the charges 53/3 and
13/6; in two such cells every copy of them has the charges 103/6 and 8/3. -/
theorem C119_neargrid : ∃ (G G' : RunInput ℚ) (A A' : RunAid ℚ) (grad grad' : ℕ → ℚ × ℚ × ℚ),
    CellRuns (2, 1, 1) (2 : ℚ) (cellsOf (2, 1, 1)) G G' A A' 0 ∧ (∀ td ∈ G.nbrs, UnitStep td.1) ∧
    grad = gradientSimple G.shape G.ref idMat ∧ grad' = gradientSimple G'.shape G'.ref idMat ∧
    (G.run A (.neargrid grad (List.range 12) (List.range 12) id) 50).map (fun o => (o.maxima, o.basins.charges 0, o.basins.charges 1)) =
      some ([3, 5], 53 / 3, 13 / 6) ∧
    (G'.run A' (.neargrid grad' (List.range 24) (List.range 24) id) 50).map
        (fun o => (o.maxima, (List.range 4).map o.basins.charges)) =
      some ([3, 5, 15, 17], [103 / 6, 8 / 3, 103 / 6, 8 / 3]) := by
  refine ⟨sheetRun 3 4 oneCell, sheetRun 6 4 twoCells, lineAid oneCell fun _ _ => false, lineAid twoCells fun _ _ => false,
    gradientSimple ⟨3, 4, 1⟩ (fun v => oneCell.getD v 0) idMat, gradientSimple ⟨6, 4, 1⟩ (fun v => twoCells.getD v 0) idMat,
    layer_cells, by unfold UnitStep; decide, rfl, rfl, by decide +kernel, by decide +kernel⟩

end BaderKit
