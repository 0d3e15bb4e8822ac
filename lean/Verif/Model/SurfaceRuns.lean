import Verif.Model.FeatureSurface
/-!
# The calls of the surface distance loop

The three callers of `get_edges` followed by `get_min_avg_surface_dists` for atoms, basins and BadELF sites.

Simplification: an average over no voxels (`0 / 0`, `nan` in the code) is 0 in a field; the theorems say nothing about it.
-/
namespace BaderKit
variable {K : Type*} [Field K] [LinearOrder K] [FloorRing K]

/-- `_get_atom_surface_distances` and `_get_basin_surface_distances`, `src/baderkit/core/bader/bader.py:848-881`, with the edges of
`basin_edges`/`atom_edges`, `bader.py:556-593`, whose vacuum mask is all `False`.  `n`, `frac` are the reported centres, `labels` the labels of the
voxels, `order` the visiting order of `get_edges`. -/
def baderSurface (root : K → K) (s : Shape) (L : M3 K) (n : ℕ) (frac : ℕ → V3 K) (labels : ℕ → ℤ) (ts : List Coord) (order : List ℕ) :
    (ℕ → K) × (ℕ → K) :=
  surfaceDists root s L n frac labels (getEdges s labels ts (fun _ => false) order) (twiceLongest root L)

/-- `_get_min_avg_surface_dists`, `src/baderkit/core/badelf/badelf.py:851-872`: here the edges are taken outside the vacuum. -/
def badelfSurface (root : K → K) (s : Shape) (L : M3 K) (n : ℕ) (frac : ℕ → V3 K) (labels : ℕ → ℤ) (vac : ℕ → Bool) (ts : List Coord)
    (order : List ℕ) : (ℕ → K) × (ℕ → K) :=
  surfaceDists root s L n frac labels (getEdges s labels ts vac order) (twiceLongest root L)

end BaderKit
