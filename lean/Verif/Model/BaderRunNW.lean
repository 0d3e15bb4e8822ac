import Verif.Model.BaderRun
import Verif.Model.NeargridWeight
/-!
# A complete Bader run with the method `neargrid-weight`

Model of `Bader.run_bader` and `run_atom_assignment` (`src/baderkit/core/bader/bader.py:711-806`) with
`NeargridWeightMethod` (`methods/neargrid_weight/neargrid_weight_method.py:38-189`), as `Model/BaderRun.lean` for the other methods.
-/
namespace BaderKit

variable {K : Type} [Field K] [LinearOrder K] [FloorRing K]

/-- `run_bader` and `run_atom_assignment`, `bader.py:711-806`, `base.py:80-140`, with the method `neargrid-weight`; the
maxima are reported in the order of the initial labels. -/
def RunInput.runNW (G : RunInput K) (A : RunAid K) (vor : List (Coord × K)) (grad : ℕ → K × K × K) (o1 o2 o3 : List ℕ)
    (perm : List ℕ → List ℕ) (fuel : ℕ) : Option (RunOut K) := do
  let M := getMaxima G.shape G.ref (G.nbrs.map Prod.fst) G.vacuum false A.order
  let res ← initLabels G.shape G.ref G.nbrs M A.same A.cand (A.sortMax (maximaVox G.shape M)) fuel
  let r ← nwRun G.shape G.ref G.charge G.nbrs vor grad G.vacuum M G.numVacuum res.reps.length G.volume o1 o2 o3 perm fuel res.labels
  let asg ← assignBasins A.root G.lattice G.atoms (res.reps.map A.place) r.1
    ((List.range res.reps.length).map fun b => A.rnd (r.2.charges b))
    ((List.range res.reps.length).map fun b => A.rnd (r.2.volumes b))
  pure ⟨r.1, r.2, res.reps, asg⟩

end BaderKit
