import Verif.Model.BaderState
/-!
# What the results of a `Bader` object are supposed to be

A pure data-flow description: every result as a function of the current grids and settings, without caches.
-/
namespace BaderKit
variable {G V R : Type}

/-- Grids and settings as they are now. -/
structure View (G R : Type) where
  charge : G
  ref : G
  method : String
  tol : Tol R
  useRef : Bool
  basinTol : R

/-- The current grids and settings of the object. -/
def St.view (s : St G V R) : View G R :=
  ⟨s.heap s.cfg.charge, s.heap s.cfg.ref, s.cfg.method, s.cfg.tol, s.cfg.useRef, s.cfg.basinTol⟩

namespace Fresh
variable (E : Engine G V R) (w : View G R)

/-- Vacuum mask. -/
def mask : Option V :=
  match w.tol with
  | .off => some (E.zeros (if w.useRef then w.ref else w.charge))
  | .on => (E.structOf w.ref).bind (E.below (if w.useRef then w.ref else w.charge) E.one)
  | .val x => (E.structOf w.ref).bind (E.below (if w.useRef then w.ref else w.charge) x)

/-- Results of the partitioning run. -/
def bader : Option (PName → V) :=
  (mask E w).bind fun m => ((mask E w).bind E.count).bind fun n => E.run w.method w.charge w.ref m n

/-- Results of the atom assignment. -/
def atoms : Option (PName → V) :=
  (bader E w).bind fun r => (E.structOf w.ref).bind fun st =>
    E.assign st (r .basinMaximaFrac) (r .basinLabels) (E.rnd (r .basinCharges)) (E.rnd (r .basinVolumes))

/-- Edge voxels of the basins. -/
def basinEdges : Option V := (bader E w).bind fun r => E.edges (r .basinLabels) w.ref

/-- Edge voxels of the atoms. -/
def atomEdges : Option V := (atoms E w).bind fun r => E.edges (r .atomLabels) w.ref

/-- Surface distances of the basins. -/
def basinSurf : Option (V × V) :=
  (bader E w).bind fun r => (basinEdges E w).bind fun ed => (E.structOf w.ref).bind fun st =>
    E.surf (r .basinLabels) (r .basinMaximaFrac) ed w.ref st

/-- Surface distances of the atoms. -/
def atomSurf : Option (V × V) :=
  (atoms E w).bind fun r => (E.structOf w.ref).bind fun st => (atomEdges E w).bind fun ed =>
    E.surf (r .atomLabels) (E.fracOf st) ed w.ref st

/-- The value of each property before rounding; `none` if computing it raises. -/
def raw : PName → Option V
  | .structure => E.structOf w.ref
  | .vacuumMask => mask E w
  | .numVacuum => (mask E w).bind E.count
  | .basinMaximaChargeValues => (bader E w).bind fun r => E.valuesAt w.charge (r .basinMaximaFrac)
  | .significantBasins => (bader E w).bind fun r => E.greater (E.rnd (r .basinCharges)) w.basinTol
  | .basinEdges => basinEdges E w
  | .atomEdges => atomEdges E w
  | .basinMinSurf => (basinSurf E w).map Prod.fst
  | .basinAvgSurf => (basinSurf E w).map Prod.snd
  | .atomMinSurf => (atomSurf E w).map Prod.fst
  | .atomAvgSurf => (atomSurf E w).map Prod.snd
  | .basinLabels => (bader E w).map fun r => r .basinLabels
  | .basinMaximaFrac => (bader E w).map fun r => r .basinMaximaFrac
  | .basinMaximaRefValues => (bader E w).map fun r => r .basinMaximaRefValues
  | .basinMaximaVox => (bader E w).map fun r => r .basinMaximaVox
  | .basinCharges => (bader E w).map fun r => r .basinCharges
  | .basinVolumes => (bader E w).map fun r => r .basinVolumes
  | .vacuumCharge => (bader E w).map fun r => r .vacuumCharge
  | .vacuumVolume => (bader E w).map fun r => r .vacuumVolume
  | .basinAtoms => (atoms E w).map fun r => r .basinAtoms
  | .basinAtomDists => (atoms E w).map fun r => r .basinAtomDists
  | .atomLabels => (atoms E w).map fun r => r .atomLabels
  | .atomCharges => (atoms E w).map fun r => r .atomCharges
  | .atomVolumes => (atoms E w).map fun r => r .atomVolumes

/-- The properties shown with ten decimals. -/
def isRounded : PName → Bool
  | .basinMaximaChargeValues | .basinMaximaRefValues | .basinCharges | .basinVolumes | .basinMinSurf
  | .basinAvgSurf | .basinAtomDists | .atomCharges | .atomVolumes | .atomMinSurf | .atomAvgSurf
  | .vacuumCharge | .vacuumVolume => true
  | _ => false

/-- The value that a read of the property is supposed to show. -/
def shown (p : PName) : Option V := if isRounded p then (raw E w p).map E.rnd else raw E w p

end Fresh
end BaderKit
