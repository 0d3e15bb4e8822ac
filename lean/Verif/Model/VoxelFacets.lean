import Verif.Model.GridOps
import Verif.Model.Transforms
/-!
# Voronoi neighbours of a voxel

Model of `point_neighbor_voronoi_transforms` and `facet_area`, `src/baderkit/core/toolkit/grid.py:361-410`.

Simplifications.
* `scipy.spatial.Voronoi` is a parameter: for the given points it lists the ridges, each with the two points it separates and its vertices.
* `np.linalg.norm` is the parameter `root` applied to the sum of squares.
-/
namespace BaderKit
variable {K : Type} [Field K]

/-- `list(itertools.product([-2, -1, 0, 1, 2], repeat=3))`, `grid.py:378`. -/
def voxelPositions : List Coord :=
  let r : List ℤ := [-2, -1, 0, 1, 2]
  r.flatMap fun i => r.flatMap fun j => r.map fun k => (i, j, k)

/-- `math.floor(len(voxel_positions) / 2)`, `grid.py:379`. -/
def centerIdx : ℕ := voxelPositions.length / 2

/-- One entry of `ridge_points` and the vertices of the ridge, `grid.py:398-402`. -/
structure Ridge (K : Type) where
  p : ℕ
  q : ℕ
  verts : List (V3 K)

/-- `facet_area`, `grid.py:386-396`; `none` is the `IndexError` of an empty list. -/
def facetArea (root : K → K) : List (V3 K) → Option K
  | [] => none
  | p0 :: l => some ((l.zip l.tail).foldl (fun (area : K) (e : V3 K × V3 K) =>
      area + root (norm2 (crossV (subV e.1 p0) (subV e.2 p0))) / 2) 0)

/-- One row of the result: transformation, distance, area and vertices. For `grid.py:361-410`. -/
structure FacetRow (K : Type) where
  t : Coord
  dist : K
  area : K
  verts : List (V3 K)

/-- `cart_positions`, `grid.py:380`. -/
def voxelCart (s : Shape) (L : M3 K) (t : Coord) : V3 K := gridToCart L (s.nx, s.ny, s.nz) ((t.1 : K), (t.2.1 : K), (t.2.2 : K))

/-- `point_neighbor_voronoi_transforms`, `grid.py:361-410`; `none` is an `IndexError` (no ridge of the centre: the empty array of indices is
not an array of integers). -/
def voronoiTransforms (root : K → K) (vor : List (V3 K) → List (Ridge K)) (s : Shape) (L : M3 K) : Option (List (FacetRow K)) := do
  let ridges := (vor (voxelPositions.map (voxelCart s L))).filter fun (r : Ridge K) => centerIdx = r.p ∨ centerIdx = r.q
  if ridges.isEmpty then none
  else ridges.mapM fun (r : Ridge K) => do
    let nb ← ([r.p, r.q].filter fun (i : ℕ) => i ≠ centerIdx).head?
    let area ← facetArea root r.verts
    let t ← voxelPositions[nb]?
    some ⟨t, root (norm2 (voxelCart s L t)), area, r.verts⟩

end BaderKit
