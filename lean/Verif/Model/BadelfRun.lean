import Verif.Model.Badelf
import Verif.Model.ElfCharges
import Verif.Model.GridGeom
/-!
# The methods of a BadELF run

Model of `Badelf._get_voxel_assignments`, `Badelf._zero_flux_feature_labels`, `Badelf.charges`, `Badelf.volumes`, `Badelf.total_electron_number`
and `Badelf.total_volume`, `src/baderkit/core/badelf/badelf.py:313-373,447-558,954-1033`.

Simplifications.
* The features, the basins, the vacuum and the planes are given; the planes are `Model/Voronoi`, the features `Model/ElfCharges`.
* `root`, `sort` and `sortTies` are the square root, the sort of the transformations and the sort of the ties.
* A write beyond the end of `charges` or `volumes` (not checked by numba) changes an entry of the function that is not part of the array.
* `transform_breaks[0]` of an empty array (undefined in numba) ends the scan.
-/
namespace BaderKit
variable {K : Type} [Field K] [LinearOrder K] [FloorRing K]

/-- `method`, `badelf.py:109`. -/
inductive BMethod where
  | badelf | voronelf | zeroFlux
  deriving DecidableEq

/-- What a run uses.  `rows` are the sorted planes of the method, `volume` is `structure.volume`. For `badelf.py:355-373`. -/
structure BadelfIn (K : Type) where
  s : Shape
  L : M3 K
  /-- `len(structure)` -/
  atoms : ℕ
  /-- number of basins -/
  nb : ℕ
  fs : List (ElfFeature K)
  /-- `bader.basin_atoms` -/
  ba : ℕ → ℤ
  /-- `bader.basin_labels` -/
  basin : ℕ → ℤ
  vac : ℕ → Bool
  /-- `charge_grid.total` -/
  chg : ℕ → K
  rows : List (PRow K)
  volume : K

/-- `FeatureType.valence_types`, `enum_and_styling.py:139-150`. -/
def valenceKinds : List String :=
  ["covalent", "covalent-metallic", "shallow covalent-metallic", "metallic", "electride", "bare electron", "unknown", "multi-centered"]

/-- The order of the features in the labels, `badelf.py:367-371`. -/
def valenceOrder (fs : List (ElfFeature K)) : List ℕ := featureOrder (fun k => decide (k ∈ valenceKinds)) true fs

/-- `_zero_flux_feature_labels`, `badelf.py:355-373`. -/
def zeroFluxLabels (I : BadelfIn K) : ℕ → ℤ := featureLabels I.atoms I.nb I.fs (valenceOrder I.fs) I.ba I.basin

/-- `len(electride_structure)`, `badelf.py:263-286`: the atoms and one site for every feature with the species of a bare electron. -/
def badelfSites (I : BadelfIn K) : ℕ := chargeSites true I.atoms I.fs

/-- The labels handed to the assignment, `badelf.py:482-512`. -/
def startLabels (m : BMethod) (I : BadelfIn K) : ℕ → ℤ := fun v =>
  match m with
  | .badelf =>
    if (I.atoms : ℤ) ≤ zeroFluxLabels I v ∧ zeroFluxLabels I v < (badelfSites I : ℤ) then zeroFluxLabels I v else -1
  | _ => zeroFluxLabels I v

/-- `structure_len`, `badelf.py:508,512`. -/
def structureLen (m : BMethod) (I : BadelfIn K) : ℕ :=
  match m with
  | .badelf => I.atoms
  | _ => badelfSites I

/-- `voxel_dist`, `badelf.py:516`. -/
def voxelDist (root : K → K) (I : BadelfIn K) : K := maxPointDist root I.s I.L + 1 / 10 ^ 12

/-- The transformations of the spheres with their distances, `badelf.py:519-527`. -/
def sphereTransforms (root : K → K) (sort : List (Coord × K) → List (Coord × K)) (I : BadelfIn K) : List (Coord × K) :=
  let half (a : V3 K) : K := root (norm2 a) / 2
  let r := min (min (min (half I.L.1) (half I.L.2.1)) (half I.L.2.2)) 3
  (radiusTransforms root sort r I.s I.L).filter fun t => decide (voxelDist root I * 2 ≤ t.2)

/-- `np.where(transform_dists[:-1] != transform_dists[1:])[0]`, `badelf.py:530`. -/
def breaksOf (ds : List K) : List ℕ := (List.range (ds.length - 1)).filter fun i => decide (ds[i]? ≠ ds[i + 1]?)

/-- `_get_voxel_assignments`, `badelf.py:462-558`: labels, charges and volumes; `none` is an exception. -/
def badelfRun (root : K → K) (sort : List (Coord × K) → List (Coord × K)) (sortTies : List (ℕ × K) → List (ℕ × K)) (rnd : K → K)
    (split : Splitting) (radii en : ℕ → K) (m : BMethod) (I : BadelfIn K) : Option ((ℕ → ℤ) × (ℕ → K) × (ℕ → K)) :=
  match m with
  | .zeroFlux => (chargesVolumes rnd split true radii en I.atoms I.fs).map fun r => (zeroFluxLabels I, r.1, r.2)
  | _ =>
    let tr := sphereTransforms root sort I
    let r := badelfAssign I.s I.L I.rows (voxelDist root I) (badelfSites I) sortTies I.chg (startLabels m I) I.vac tr
      (breaksOf (tr.map fun t => t.2)) (structureLen m I)
    some (r.labels, fun l => r.charges l / (I.s.size : K), fun l => r.volumes l * I.volume / (I.s.size : K))

/-- `total_electron_number` and `total_volume` without the rounding, `badelf.py:966,1033`: the sum over the sites plus the vacuum. -/
def totalOver (I : BadelfIn K) (f : ℕ → K) (vacuum : K) : K := ((List.range (badelfSites I)).map f).sum + vacuum

end BaderKit
