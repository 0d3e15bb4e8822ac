import Verif.Props.SupercellNeargrid
import Verif.Props.BaderRunNW
/-!
# C119 for the neargrid-weight method

The neargrid-weight method does not repeat its results in a supercell.
-/
set_option linter.unusedSectionVars false
namespace BaderKit

/-- **C119** (negative part) The neargrid-weight method does not repeat the results of a cell in a supercell, with charges that are positive and rise with the
reference: its labels are those of the neargrid method, and it splits edge voxels, which between two copies of one basin exist in the block but not in the cell.
In the layer of `C119_neargrid` the higher basin
has the charge 232255/14076, every copy of it in two cells 429743861/26162592. -/
theorem C119_neargrid_weight : ∃ (G G' : RunInput ℚ) (A A' : RunAid ℚ) (grad grad' : ℕ → ℚ × ℚ × ℚ),
    CellRuns (2, 1, 1) (2 : ℚ) (cellsOf (2, 1, 1)) G G' A A' 0 ∧ (∀ td ∈ G.nbrs, UnitStep td.1) ∧ G.charge = G.ref ∧ (∀ v < G.shape.size, 0 < G.charge v) ∧
    grad = gradientSimple G.shape G.ref idMat ∧ grad' = gradientSimple G'.shape G'.ref idMat ∧
    (G.runNW A G.nbrs grad (List.range 12) (List.range 12) (List.range 12) id 50).map (fun o => (o.maxima, o.basins.charges 0, o.basins.charges 1)) =
      some ([3, 5], 232255 / 14076, 0) ∧
    (G'.runNW A' G'.nbrs grad' (List.range 24) (List.range 24) (List.range 24) id 50).map (fun o => (o.maxima, (List.range 4).map o.basins.charges)) =
      some ([3, 5, 15, 17], [429743861 / 26162592, 0, 429743861 / 26162592, 0]) := by
  refine ⟨sheetRun 3 4 oneCell, sheetRun 6 4 twoCells, lineAid oneCell fun _ _ => false, lineAid twoCells fun _ _ => false,
    gradientSimple ⟨3, 4, 1⟩ (fun v => oneCell.getD v 0) idMat, gradientSimple ⟨6, 4, 1⟩ (fun v => twoCells.getD v 0) idMat,
    layer_cells, by unfold UnitStep; decide, rfl, by decide +kernel, rfl, rfl, by decide +kernel, by decide +kernel⟩

end BaderKit
