import Mathlib.Logic.Function.Basic
import Mathlib.Data.List.Basic
/-!
# The lazily evaluated results of a `Bader` object

Model of the constructor, the setters and the property getters of `Bader`,
`src/baderkit/core/bader/bader.py:55-806,848-881`, as a state machine.

* Grids are mutable objects: the object holds addresses into a heap, because a grid that was handed to the
  object can still be changed from outside (`Grid.total` has a setter, `toolkit/grid.py:169-173`).
* The numerical work is an arbitrary `Engine` of functions; each of them may raise (`none`).  An exception
  leaves the caches that were filled before it in place.
* `_use_overdetermined` (private, constant `False`) is left out.
-/
namespace BaderKit

/-- The cached properties, `bader.py:113-140`. -/
inductive PName
  | basinLabels | basinMaximaFrac | basinMaximaChargeValues | basinMaximaRefValues | basinMaximaVox
  | basinCharges | basinVolumes | vacuumCharge | vacuumVolume | significantBasins | vacuumMask | numVacuum
  | basinMinSurf | basinAvgSurf | basinEdges | atomEdges | structure
  | basinAtoms | basinAtomDists | atomLabels | atomCharges | atomVolumes | atomMinSurf | atomAvgSurf
  deriving DecidableEq

/-- The default list of `_reset_properties`, `bader.py:113-140`. -/
def allProps : List PName :=
  [.basinLabels, .basinMaximaFrac, .basinMaximaChargeValues, .basinMaximaRefValues, .basinMaximaVox,
   .basinCharges, .basinVolumes, .vacuumCharge, .vacuumVolume, .significantBasins, .vacuumMask,
   .numVacuum, .basinMinSurf, .basinAvgSurf, .basinEdges, .atomEdges, .structure, .basinAtoms,
   .basinAtomDists, .atomLabels, .atomCharges, .atomVolumes, .atomMinSurf, .atomAvgSurf]

/-- A vacuum tolerance: `False`, `True` or a number. For `bader.py:73-93`. -/
inductive Tol (R : Type) | off | on | val (x : R)

/-- The numerical work.  `G` grid contents, `V` computed values, `R` numbers. For `bader.py:149-163`. -/
structure Engine (G V R : Type) where
  /-- `1.0e-3`, `bader.py:90`. -/
  defaultTol : R
  /-- `True` used as a number. -/
  one : R
  /-- `reference_grid.structure.copy()` relabelled, `bader.py:160-162`. -/
  structOf : G → Option V
  /-- `np.zeros_like(grid)`, `bader.py:633`. -/
  zeros : G → V
  /-- `grid < tol * structure.volume`, `bader.py:636-638`. -/
  below : G → R → V → Option V
  /-- `np.count_nonzero`, `bader.py:652`. -/
  count : V → Option V
  /-- `Method(...).run()`, `bader.py:724-732`: method name, charge grid, reference grid, vacuum mask and
  number of vacuum points. -/
  run : String → G → G → V → V → Option (PName → V)
  /-- `charge_grid.values_at`, `bader.py:340`. -/
  valuesAt : G → V → Option V
  /-- `basin_charges > basin_tol`, `bader.py:475`. -/
  greater : V → R → Option V
  /-- `assign_basins_to_structure`, `bader.py:741-779`: structure, maxima, labels, charges, volumes. -/
  assign : V → V → V → V → V → Option (PName → V)
  /-- `get_edges`, `bader.py:566,584`. -/
  edges : V → G → Option V
  /-- `structure.frac_coords`. -/
  fracOf : V → V
  /-- `get_min_avg_surface_dists`: labels, coordinates, edges, reference grid, structure. -/
  surf : V → V → V → G → V → Option (V × V)
  /-- `.round(10)`. -/
  rnd : V → V
  /-- `round(x.sum() + y, 10)`, `bader.py:676,690`. -/
  addTotal : V → V → V

/-- The settings held by the object, `bader.py:73-93`. -/
structure Cfg (R : Type) where
  charge : ℕ
  ref : ℕ
  method : String
  tol : Tol R
  useRef : Bool
  basinTol : R

/-- The object together with the heap of grids. For `bader.py:105-147`. -/
structure St (G V R : Type) where
  heap : ℕ → G
  next : ℕ
  cfg : Cfg R
  cache : PName → Option V

/-- An action: a result (`none` is an exception) and the new state. For `bader.py:149-163`. -/
abbrev Act (G V R A : Type) := St G V R → Option A × St G V R

variable {G V R A B : Type}

/-- Sequencing; an exception stops the rest but keeps the state. For `bader.py:149-163`. -/
def Act.andThen (a : Act G V R A) (f : A → Act G V R B) : Act G V R B := fun s =>
  match a s with
  | (none, s') => (none, s')
  | (some x, s') => f x s'

/-- A computation without effect on the object. For `bader.py:149-163`. -/
def Act.lift (f : St G V R → Option A) : Act G V R A := fun s => (f s, s)

/-- `setattr(self, f"_{p}", v)`. For `bader.py:149-163`. -/
def Act.store (p : PName) (v : V) : Act G V R Unit := fun s =>
  (some (), { s with cache := Function.update s.cache p (some v) })

/-- `self._p`; using `None` as a value (`None.round`) raises. For `bader.py:149-163`. -/
def Act.fetch (p : PName) : Act G V R V := fun s => (s.cache p, s)

/-- `if self._p is None: compute`, then read `self._p`. For `bader.py:149-163`. -/
def Act.lazily (p : PName) (compute : Act G V R Unit) : Act G V R V := fun s =>
  match s.cache p with
  | some v => (some v, s)
  | none => (compute.andThen fun _ => Act.fetch p) s

/-- `structure`, `bader.py:149-163`. -/
def getStructure (E : Engine G V R) : Act G V R V :=
  Act.lazily .structure ((Act.lift fun s => E.structOf (s.heap s.cfg.ref)).andThen (Act.store .structure))

/-- `vacuum_mask`, `bader.py:615-639`. -/
def getVacuumMask (E : Engine G V R) : Act G V R V :=
  Act.lazily .vacuumMask (fun s =>
    let grid := if s.cfg.useRef then s.heap s.cfg.ref else s.heap s.cfg.charge
    match s.cfg.tol with
    | .off => Act.store .vacuumMask (E.zeros grid) s
    | .on => ((getStructure E).andThen fun st => (Act.lift fun _ => E.below grid E.one st).andThen
        (Act.store .vacuumMask)) s
    | .val x => ((getStructure E).andThen fun st => (Act.lift fun _ => E.below grid x st).andThen
        (Act.store .vacuumMask)) s)

/-- `num_vacuum`, `bader.py:641-653`. -/
def getNumVacuum (E : Engine G V R) : Act G V R V :=
  Act.lazily .numVacuum ((getVacuumMask E).andThen fun m => (Act.lift fun _ => E.count m).andThen
    (Act.store .numVacuum))

/-- The keys of the result dictionary, `methods/base.py:119-134,272-277`. -/
def runKeys : List PName :=
  [.basinMaximaVox, .basinMaximaFrac, .basinMaximaRefValues, .basinLabels, .basinCharges, .basinVolumes,
   .vacuumCharge, .vacuumVolume]

/-- `for key, value in results.items(): setattr(self, f"_{key}", value)`, `bader.py:734-735`. -/
def storeAll (ks : List PName) (r : PName → V) : Act G V R Unit := fun s =>
  (some (), { s with cache := fun p => if p ∈ ks then some (r p) else s.cache p })

/-- `run_bader`, `bader.py:705-739`. -/
def runBader (E : Engine G V R) : Act G V R Unit :=
  (getVacuumMask E).andThen fun m => (getNumVacuum E).andThen fun n =>
    (Act.lift fun s => E.run s.cfg.method (s.heap s.cfg.charge) (s.heap s.cfg.ref) m n).andThen fun r =>
      storeAll runKeys r

/-- The getters that only call `run_bader`, `bader.py:300-400,589-613`, before rounding. -/
def getRun (E : Engine G V R) (p : PName) : Act G V R V := Act.lazily p (runBader E)

/-- `.round(10)` of a getter. For `bader.py:780-806`. -/
def rounded (E : Engine G V R) (a : Act G V R V) : Act G V R V :=
  a.andThen fun v => Act.lift fun _ => some (E.rnd v)

/-- The keys stored by `run_atom_assignment`, `bader.py:799-803`. -/
def atomKeys : List PName := [.basinAtoms, .basinAtomDists, .atomLabels, .atomCharges, .atomVolumes]

/-- `run_atom_assignment`, `bader.py:780-806`, with the reads of `assign_basins_to_structure`. -/
def runAtoms (E : Engine G V R) : Act G V R Unit :=
  (getRun E .basinMaximaFrac).andThen fun _ =>
  (getStructure E).andThen fun st =>
  (getRun E .basinMaximaFrac).andThen fun fr =>
  (getRun E .basinLabels).andThen fun lb =>
  (rounded E (getRun E .basinCharges)).andThen fun bc =>
  (rounded E (getRun E .basinVolumes)).andThen fun bv =>
  (Act.lift fun _ => E.assign st fr lb bc bv).andThen fun r => storeAll atomKeys r

/-- The getters that only call `run_atom_assignment`, `bader.py:438-521`, before rounding. -/
def getAtom (E : Engine G V R) (p : PName) : Act G V R V := Act.lazily p (runAtoms E)

/-- `basin_edges`, `bader.py:552-569`. -/
def getBasinEdges (E : Engine G V R) : Act G V R V :=
  Act.lazily .basinEdges ((getRun E .basinLabels).andThen fun lb =>
    (Act.lift fun s => E.edges lb (s.heap s.cfg.ref)).andThen (Act.store .basinEdges))

/-- `atom_edges`, `bader.py:571-587`. -/
def getAtomEdges (E : Engine G V R) : Act G V R V :=
  Act.lazily .atomEdges ((getAtom E .atomLabels).andThen fun lb =>
    (Act.lift fun s => E.edges lb (s.heap s.cfg.ref)).andThen (Act.store .atomEdges))

/-- `_get_basin_surface_distances`, `bader.py:864-881`. -/
def basinSurf (E : Engine G V R) : Act G V R Unit :=
  (getRun E .basinLabels).andThen fun lb => (getRun E .basinMaximaFrac).andThen fun fr =>
  (getBasinEdges E).andThen fun ed => (getStructure E).andThen fun st =>
  (Act.lift fun s => E.surf lb fr ed (s.heap s.cfg.ref) st).andThen fun r =>
  (Act.store .basinMinSurf r.1).andThen fun _ => Act.store .basinAvgSurf r.2

/-- `_get_atom_surface_distances`, `bader.py:848-862`. -/
def atomSurf (E : Engine G V R) : Act G V R Unit :=
  (getAtom E .atomLabels).andThen fun lb => (getStructure E).andThen fun st0 =>
  (getAtomEdges E).andThen fun ed => (getStructure E).andThen fun st =>
  (Act.lift fun s => E.surf lb (E.fracOf st0) ed (s.heap s.cfg.ref) st).andThen fun r =>
  (Act.store .atomMinSurf r.1).andThen fun _ => Act.store .atomAvgSurf r.2

/-- Every public getter, `bader.py:149-653`.  The getter of `atom_avg_surface_distances` calls the basin
routine, `bader.py:549`. -/
def getProp (E : Engine G V R) : PName → Act G V R V
  | .basinLabels => getRun E .basinLabels
  | .basinMaximaFrac => getRun E .basinMaximaFrac
  | .basinMaximaVox => getRun E .basinMaximaVox
  | .basinMaximaRefValues => rounded E (getRun E .basinMaximaRefValues)
  | .basinCharges => rounded E (getRun E .basinCharges)
  | .basinVolumes => rounded E (getRun E .basinVolumes)
  | .vacuumCharge => rounded E (getRun E .vacuumCharge)
  | .vacuumVolume => rounded E (getRun E .vacuumVolume)
  | .basinMaximaChargeValues => rounded E (Act.lazily .basinMaximaChargeValues
      ((getRun E .basinMaximaFrac).andThen fun fr =>
        (Act.lift fun s => E.valuesAt (s.heap s.cfg.charge) fr).andThen
          (Act.store .basinMaximaChargeValues)))
  | .significantBasins => Act.lazily .significantBasins
      ((rounded E (getRun E .basinCharges)).andThen fun bc =>
        (Act.lift fun s => E.greater bc s.cfg.basinTol).andThen (Act.store .significantBasins))
  | .vacuumMask => getVacuumMask E
  | .numVacuum => getNumVacuum E
  | .structure => getStructure E
  | .basinEdges => getBasinEdges E
  | .atomEdges => getAtomEdges E
  | .basinMinSurf => rounded E (Act.lazily .basinMinSurf (basinSurf E))
  | .basinAvgSurf => rounded E (Act.lazily .basinAvgSurf (basinSurf E))
  | .basinAtoms => getAtom E .basinAtoms
  | .basinAtomDists => rounded E (getAtom E .basinAtomDists)
  | .atomLabels => getAtom E .atomLabels
  | .atomCharges => rounded E (getAtom E .atomCharges)
  | .atomVolumes => rounded E (getAtom E .atomVolumes)
  | .atomMinSurf => rounded E (Act.lazily .atomMinSurf (atomSurf E))
  | .atomAvgSurf => rounded E (Act.lazily .atomAvgSurf (basinSurf E))

/-- `total_electron_number`, `bader.py:663-676`. -/
def getTotalElectrons (E : Engine G V R) : Act G V R V :=
  (getProp E .atomCharges).andThen fun a => (getProp E .vacuumCharge).andThen fun v =>
    Act.lift fun _ => some (E.addTotal a v)

/-- `total_volume`, `bader.py:678-690`. -/
def getTotalVolume (E : Engine G V R) : Act G V R V :=
  (getProp E .atomVolumes).andThen fun a => (getProp E .vacuumVolume).andThen fun v =>
    Act.lift fun _ => some (E.addTotal a v)

/-- `_reset_properties(include, exclude)`, `bader.py:105-147`. -/
def resetProps (incl excl : List PName) (s : St G V R) : St G V R :=
  { s with cache := fun p => if p ∈ incl.filter (fun q => decide (q ∉ excl)) then none else s.cache p }

/-- The valid method names, `methods/__init__.py:7-11`. -/
def methodNames : List String := ["weight", "ongrid", "neargrid", "neargrid-weight"]

/-- What a user can do with the object: the setters, the reads, the two run methods, and changing a grid
from outside. For `bader.py:189-294`. -/
inductive Op (G R : Type)
  | setCharge (a : ℕ) | setRef (a : ℕ) | setMethod (m : String) | setTol (t : Tol R)
  | setUseRef (b : Bool) | setBasinTol (x : R)
  | read (p : PName) | totalElectrons | totalVolume | runBader | runAtoms
  | mutate (a : ℕ) (g : G)

/-- One operation; setters are `bader.py:189-294`. -/
def Op.step (E : Engine G V R) : Op G R → St G V R → St G V R
  | .setCharge a, s => resetProps allProps [] { s with cfg := { s.cfg with charge := a } }
  | .setRef a, s => resetProps allProps [] { s with cfg := { s.cfg with ref := a } }
  | .setMethod m, s =>
    if m ∈ methodNames then
      resetProps allProps [.vacuumMask, .numVacuum] { s with cfg := { s.cfg with method := m } }
    else s
  | .setTol t, s => resetProps allProps [] { s with cfg := { s.cfg with tol := t } }
  | .setUseRef b, s => resetProps allProps [] { s with cfg := { s.cfg with useRef := b } }
  | .setBasinTol x, s => resetProps [.significantBasins] [] { s with cfg := { s.cfg with basinTol := x } }
  | .read p, s => (getProp E p s).2
  | .totalElectrons, s => (getTotalElectrons E s).2
  | .totalVolume, s => (getTotalVolume E s).2
  | .runBader, s => (BaderKit.runBader E s).2
  | .runAtoms, s => (BaderKit.runAtoms E s).2
  | .mutate a g, s => { s with heap := Function.update s.heap a g }

/-- A history. For `bader.py:189-294`. -/
def runOps (E : Engine G V R) (ops : List (Op G R)) (s : St G V R) : St G V R :=
  ops.foldl (fun s o => o.step E s) s

/-- The constructor, `bader.py:55-100`: an invalid method raises, a missing reference grid is a copy of the
charge grid, and a vacuum tolerance of `True` is the default. -/
def construct (E : Engine G V R) (heap : ℕ → G) (next : ℕ) (charge : ℕ) (ref : Option ℕ)
    (method : String) (tol : Tol R) (useRef : Bool) (basinTol : R) : Option (St G V R) :=
  if method ∈ methodNames then
    let tol' : Tol R := match tol with
      | .on => .val E.defaultTol
      | t => t
    some (match ref with
      | some r => ⟨heap, next, ⟨charge, r, method, tol', useRef, basinTol⟩, fun _ => none⟩
      | none => ⟨Function.update heap next (heap charge), next + 1,
          ⟨charge, next, method, tol', useRef, basinTol⟩, fun _ => none⟩)
  else none

end BaderKit
