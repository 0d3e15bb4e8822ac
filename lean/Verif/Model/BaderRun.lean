import Verif.Model.Assign
import Verif.Model.Neargrid
import Verif.Model.Weight
import Verif.Model.Merge
/-!
# A complete Bader run

Model of `Bader.run_bader` and `run_atom_assignment` (`src/baderkit/core/bader/bader.py:622-779`) with `MethodBase.run`
(`bader/methods/base.py:80-140`) for the methods `ongrid`, `neargrid` and `weight`: from the two grids to the charges of the atoms.

Simplifications.
* The method `neargrid-weight` is composed in `Model/BaderRunNW.lean`.
* The refined position of the maximum of a basin (`refine_maxima`, modelled in `Model/Interp`) is a function `place` of its voxel; the geometric test
  `same`, the voxel `cand` of a group and the sorted order of the maxima (`Model/Merge`) are parameters, as in `Model/InitLabels`.
-/
namespace BaderKit

/-- What a `Bader` object is created with: the grids, the cell and the settings of the vacuum; `tol` is `none` for `vacuum_tol=False`.
For `bader.py:622-646`. -/
structure RunInput (K : Type) where
  shape : Shape
  charge : ℕ → K
  ref : ℕ → K
  /-- `point_neighbor_transforms` of the reference grid. -/
  nbrs : List (Coord × K)
  lattice : M3 K
  volume : K
  atoms : List (V3 K)
  tol : Option K
  /-- `use_reference_vacuum`, `bader.py:56-75`. -/
  useRef : Bool

variable {K : Type} [Field K] [LinearOrder K] [FloorRing K]

/-- What a user gives as `vacuum_tol`. For `bader.py:86-91`. -/
inductive TolGiven (K : Type) where
  | flag (b : Bool) | num (x : K)

/-- The constructor, `bader.py:86-91`. -/
def initTol : TolGiven K → TolGiven K
  | .flag true => .num (1 / 1000)
  | t => t

/-- The setter, `bader.py:251-255`, keeps the value as it is. -/
def setTol (t : TolGiven K) : TolGiven K := t

/-- What `vacuum_mask` makes of the kept value, `bader.py:639-645`: `is False` switches the vacuum off, and `True` counts as the number one. -/
def tolUsed : TolGiven K → Option K
  | .flag false => none
  | .flag true => some 1
  | .num x => some x

/-- `vacuum_mask`, `bader.py:622-646`. -/
def RunInput.vacuum (G : RunInput K) (v : ℕ) : Bool :=
  match G.tol with
  | none => false
  | some t => decide ((if G.useRef then G.ref else G.charge) v < t * G.volume)

/-- `num_vacuum`, `bader.py:648-659`. -/
def RunInput.numVacuum (G : RunInput K) : ℕ := ((List.range G.shape.size).filter G.vacuum).length

/-- The parts of the run that are parameters. For `bader.py:711-806`, `base.py:80-140`. -/
structure RunAid (K : Type) where
  same : ℕ → ℕ → Bool
  cand : ℕ → ℕ
  /-- The maxima sorted by value. -/
  sortMax : List ℕ → List ℕ
  /-- The order of the parallel search for maxima. -/
  order : List ℕ
  /-- The refined position of the maximum represented by a voxel. -/
  place : ℕ → V3 K
  root : K → K
  /-- `round(10)` of the getters `basin_charges`, `basin_volumes`, `atom_charges`, …, `bader.py:382-690`. -/
  rnd : K → K

/-- The methods with their own parameters. For `ongrid_method.py:17-58`, `neargrid_method.py:34-117`. -/
inductive RunMethod (K : Type) where
  | ongrid (order : List ℕ)
  | neargrid (grad : ℕ → K × K × K) (o1 o2 : List ℕ) (perm : List ℕ → List ℕ)
  | weight (vor : List (Coord × K)) (argsortW : List (ℕ × K) → List (ℕ × K)) (sorted : List ℕ)

/-- `_run_bader` of the method, `ongrid_method.py:17-58`, `neargrid_method.py:34-117`, `weight_method.py:20-95`: labels, charges and volumes of the
basins, and the voxels of the maxima in the order in which they are reported. -/
def RunInput.method (G : RunInput K) (m : RunMethod K) (M : ℕ → Bool) (res : InitResult) (fuel : ℕ) :
    Option ((ℕ → ℤ) × ChargeAcc K × List ℕ) :=
  match m with
  | .ongrid order => (ongridLabels G.shape G.ref G.nbrs G.vacuum M order G.numVacuum fuel res.labels).map fun lab =>
      (lab, basinChargesVolumes G.shape G.charge lab G.volume, res.reps)
  | .neargrid grad o1 o2 perm =>
      (neargridLabels G.shape G.ref G.nbrs grad G.vacuum M G.numVacuum o1 o2 perm fuel res.labels).map fun lab =>
        (lab, basinChargesVolumes G.shape G.charge lab G.volume, res.reps)
  | .weight vor argsortW sorted =>
      let W : WeightIn K := ⟨G.shape, G.ref, vor, G.nbrs, M, (sortMaxima (res.reps.map fun r => (r, ()))).map Prod.fst⟩
      some ((weightAssign W G.charge argsortW res.labels sorted).labels,
        weightResults W G.charge argsortW G.vacuum res.labels sorted G.volume, W.maxIdx)

/-- The order in which the weight method visits the voxels outside the vacuum, `weight_method.py:43-49`: a stable ascending sort by the reference value, flipped. -/
def RunInput.sortedVoxels (G : RunInput K) : List ℕ :=
  (((List.range G.shape.size).filter fun v => !G.vacuum v).insertionSort fun a b => G.ref a ≤ G.ref b).reverse

/-- The results of a run. For `bader.py:711-806`, `base.py:80-140`. -/
structure RunOut (K : Type) where
  labels : ℕ → ℤ
  basins : ChargeAcc K
  maxima : List ℕ
  assignment : Assignment K

/-- `run_bader` and `run_atom_assignment`, `bader.py:711-806`, `base.py:80-140`. -/
def RunInput.run (G : RunInput K) (A : RunAid K) (m : RunMethod K) (fuel : ℕ) : Option (RunOut K) := do
  let M := getMaxima G.shape G.ref (G.nbrs.map Prod.fst) G.vacuum false A.order
  let res ← initLabels G.shape G.ref G.nbrs M A.same A.cand (A.sortMax (maximaVox G.shape M)) fuel
  let r ← G.method m M res fuel
  let asg ← assignBasins A.root G.lattice G.atoms (r.2.2.map A.place) r.1
    ((List.range r.2.2.length).map fun b => A.rnd (r.2.1.charges b))
    ((List.range r.2.2.length).map fun b => A.rnd (r.2.1.volumes b))
  pure ⟨r.1, r.2.1, r.2.2, asg⟩

/-- `total_electron_number`, `bader.py:661-676`, with the rounded getters `atom_charges` and `vacuum_charge`. -/
def RunOut.electrons (rnd : K → K) (natoms : ℕ) (o : RunOut K) : K :=
  rnd (((List.range natoms).map fun a => rnd (o.assignment.charges a)).sum + rnd o.basins.vacCharge)

/-- `total_volume`, `bader.py:678-690`. -/
def RunOut.totalVolume (rnd : K → K) (natoms : ℕ) (o : RunOut K) : K :=
  rnd (((List.range natoms).map fun a => rnd (o.assignment.volumes a)).sum + rnd o.basins.vacVolume)

end BaderKit
