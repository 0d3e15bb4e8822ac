import Verif.Model.Assign
/-!
# Surfaces of ELF features

Model of `get_feature_edges` and `get_min_avg_feat_surface_dists`
(`src/baderkit/core/labelers/elf_labeler/elf_labeler_numba.py:11-124`) and of their caller
`ElfLabeler._calculate_feature_surface_dists` (`elf_labeler.py:1516-1558`).

Simplifications.
* Square roots are an arbitrary function `root`, as in `Model/Assign.lean`.
* The unsigned 32 bit numbers of the map are natural numbers.
-/
namespace BaderKit
variable {K : Type*} [Field K] [LinearOrder K]

/-- `feature_map = np.empty(...); for node_idx, node in enumerate(nodes): feature_map[node.basins] = node_idx`,
`elf_labeler.py:1531-1533`; `junk` is the uninitialised memory. -/
def featureMap (nodes : List (List ℕ)) (junk : ℕ → ℕ) : ℕ → ℕ :=
  nodes.zipIdx.foldl (fun (m : ℕ → ℕ) x => x.1.foldl (fun (m : ℕ → ℕ) b => Function.update m b x.2) m) junk

/-- `feature_map[labeled_array[i, j, k]]`, `elf_labeler_numba.py:51-52,58-59,94`; a label -1 reads the last entry. -/
def voxelFeature (nb : ℕ) (fm : ℕ → ℕ) (labels : ℕ → ℤ) (v : ℕ) : ℕ := fm (pyIdx nb (labels v))

/-- `get_feature_edges`, `elf_labeler_numba.py:11-70`: the loops of `get_edges`, on the features of the voxels; `order` is the visiting order of
the `prange` loop. -/
def getFeatureEdges (s : Shape) (nb : ℕ) (fm : ℕ → ℕ) (labels : ℕ → ℤ) (ts : List Coord) (vac : ℕ → Bool) (order : List ℕ) : ℕ → Bool :=
  getEdges s (voxelFeature nb fm labels) ts vac order

/-- `np.max(self.structure.lattice.abc) * 2`, `elf_labeler.py:1552`. -/
def twiceLongest (root : K → K) (L : M3 K) : K :=
  max (max (root (norm2 L.1)) (root (norm2 L.2.1))) (root (norm2 L.2.2)) * 2

variable [FloorRing K]

/-- Body of the voxel loop of `get_min_avg_feat_surface_dists`, `elf_labeler_numba.py:90-121`. -/
def featSurfStep (root : K → K) (s : Shape) (L : M3 K) (frac : ℕ → V3 K) (feat : ℕ → ℕ) (edge : ℕ → Bool) (a : SurfAcc K) (v : ℕ) : SurfAcc K :=
  if edge v = false then a
  else
    let b := feat v
    let d := surfDist root s L (frac b) v
    { dists := if d < a.dists b then Function.update a.dists b d else a.dists
      sums := Function.update a.sums b (a.sums b + d)
      totals := Function.update a.totals b (a.totals b + 1) }

/-- `get_min_avg_feat_surface_dists`, `elf_labeler_numba.py:73-124`; `none` is the `nan` of `0 / 0`. -/
def featureSurfaceDists (root : K → K) (s : Shape) (L : M3 K) (frac : ℕ → V3 K) (feat : ℕ → ℕ) (edge : ℕ → Bool) (maxValue : K) :
    (ℕ → K) × (ℕ → Option K) :=
  let a := (List.range s.size).foldl (featSurfStep root s L frac feat edge) ⟨fun _ => maxValue, fun _ => 0, fun _ => 0⟩
  (a.dists, fun b => if a.totals b = 0 then none else some (a.sums b / a.totals b))

/-- `_calculate_feature_surface_dists`, `elf_labeler.py:1516-1558`: for each feature the minimum and the average distance. -/
def calcSurfaceDists (root : K → K) (s : Shape) (L : M3 K) (nb : ℕ) (labels : ℕ → ℤ) (vac : ℕ → Bool) (ts : List Coord) (order : List ℕ)
    (nodes : List (List ℕ × V3 K)) (junk : ℕ → ℕ) : List (K × Option K) :=
  let fm := featureMap (nodes.map Prod.fst) junk
  let edge := getFeatureEdges s nb fm labels ts vac order
  let r := featureSurfaceDists root s L (fun j => (nodes.map Prod.snd).getD j (0, 0, 0)) (voxelFeature nb fm labels) edge (twiceLongest root L)
  (List.range nodes.length).map fun j => (r.1 j, r.2 j)

end BaderKit
