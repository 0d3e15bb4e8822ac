import Verif.Model.Voxels
import Verif.Model.Transforms
/-!
# Extent of a voxel and distances from the lattice points

Model of `max_point_dist` and `point_dists`, `src/baderkit/core/toolkit/grid.py:253-359`.
-/
namespace BaderKit
variable {K : Type*} [Field K] [LinearOrder K] [FloorRing K]

/-- `max_point_dist`, `grid.py:314-358`.  The last vertex of the list is the first one once more, not the opposite
corner `end1`, as in the code.  `max` of the list. -/
def maxPointDist (root : K → K) (s : Shape) (L : M3 K) : K :=
  let va : V3 K := (gridMat s L).1
  let vb : V3 K := (gridMat s L).2.1
  let vc : V3 K := (gridMat s L).2.2
  let va1 := addV va vb
  let vb1 := addV vb vc
  let vc1 := addV vc va
  let end1 := addV va1 vc
  let center : V3 K := (end1.1 / 2, end1.2.1 / 2, end1.2.2 / 2)
  let ends : V3 K := (0, 0, 0)
  ([ends, va, vb, vc, va1, vb1, vc1, ends].map fun v => root (norm2 (subV v center))).foldl max
    (root (norm2 (subV center center)))

/-- The corners of the cell, `grid.py:275-285`. -/
def cellCorners (L : M3 K) : List (V3 K) :=
  [(0, 0, 0), L.1, L.2.1, L.2.2, addV L.1 L.2.1, addV L.1 L.2.2, addV L.2.1 L.2.2, addV (addV L.1 L.2.1) L.2.2]

/-- `point_dists` at one voxel, `grid.py:271-289`: the smallest of the rounded distances. -/
def pointDist (root : K → K) (s : Shape) (L : M3 K) (v : ℕ) : K :=
  let c := flatToCoords s v
  let x := vecMat ((c.1 : K) / (s.nx : K), (c.2.1 : K) / (s.ny : K), (c.2.2 : K) / (s.nz : K)) L
  ((cellCorners L).map fun k => roundDec 6 (root (norm2 (subV x k)))).foldl min (roundDec 6 (root (norm2 (subV x (0, 0, 0)))))

end BaderKit
