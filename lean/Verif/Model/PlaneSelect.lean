import Verif.Model.Voronoi
/-!
# The planes around an atom

Model of `_get_plane_equations` and of the choice of neighbours and planes in `get_voronoi_radii`,
`src/baderkit/core/labelers/elf_labeler/elf_radii.py:115-137,200-240,302-371`.

Simplifications.
* Pymatgen's `CrystalNN` and `get_neighbor_list` give the lists of neighbours; they are parameters.
* `scipy.spatial.HalfspaceIntersection(...).intersections` is a parameter.  If it raises an error the code enters the debugger
  (`breakpoint()`, `elf_radii.py:344`); this is not modelled.
-/
namespace BaderKit
variable {K : Type} [Field K] [LinearOrder K] [FloorRing K]

/-- A half space `A x + b ≤ 0`. For `elf_radii.py:115-137`. -/
abbrev HalfSp (K : Type) := V3 K × K

/-- `_get_plane_equations` for one neighbour, `elf_radii.py:115-137`; all coordinates are fractional. -/
def planeEq (root : K → K) (site neigh : V3 K) (frac : K) : HalfSp K :=
  let normal := subV neigh site
  let point := addV (normal.1 * frac, normal.2.1 * frac, normal.2.2 * frac) site
  let n := divV normal (root (norm2 normal))
  (n, -dotV n point)

/-- The neighbours that are considered, `elf_radii.py:203-240`; `cnn` are the neighbours of `CrystalNN`, `near` the answer of
`get_neighbor_list`: coordinates and distances. -/
def candNeighs (root : K → K) (site : V3 K) (cnn : List (V3 K)) (near : List (V3 K × K)) : List (V3 K × K) :=
  let planes := cnn.map fun c => planeEq root site c (3 / 2)
  near.filter fun q => planes.all (fun h => decide (dotV h.1 q.1 + h.2 ≤ -(1 / 10 ^ 12))) && decide (q.2 ≠ 0) && !decide (q.2 < 1 / 10 ^ 12)

/-- A bond: its site, the coordinates of the neighbour, the fraction and the entry of `inverse`, `elf_radii.py:251-300`. -/
structure PlaneRow (K : Type) where
  site : ℕ
  neighC : V3 K
  frac : K
  key : ℕ
deriving DecidableEq

/-- `site_ranges`, `elf_radii.py:303-306`. -/
def siteRanges (s : List ℕ) : List ℕ :=
  0 :: ((List.range (s.length - 1)).filter fun i => s[i]? != s[i + 1]?).map (· + 1) ++ [s.length]

/-- Which of the planes of one atom are kept, `elf_radii.py:349-361`: every plane as the first one with its key. -/
def keepPlane (tol : K) (hs : List (HalfSp K × ℕ)) (verts : List (V3 K)) (key : ℕ) : Bool :=
  match hs.find? fun h => h.2 = key with
  | some h => onSurface tol h.1.1 h.1.2 verts 0
  | none => false

/-- The planes of one atom that are kept, `elf_radii.py:311-324,332-371`; `inter` is the intersection of half spaces. -/
def atomPlanes (root : K → K) (tol : K) (inter : List (HalfSp K) → V3 K → List (V3 K)) (site : V3 K) (cur : List (PlaneRow K)) : List (PlaneRow K) :=
  let hs := cur.map fun (r : PlaneRow K) => (planeEq root site r.neighC r.frac, r.key)
  cur.filter fun (r : PlaneRow K) => keepPlane tol hs (inter (hs.map Prod.fst) site) r.key

/-- The planes that are kept for all atoms, `elf_radii.py:302-371`; `none` is an `IndexError`. -/
def surfacePlanes (root : K → K) (tol : K) (inter : List (HalfSp K) → V3 K → List (V3 K)) (coords : ℕ → V3 K) (uniq : List ℕ) (rows : List (PlaneRow K)) :
    Option (List (PlaneRow K)) :=
  let ranges := siteRanges (rows.map PlaneRow.site)
  (uniq.zipIdx.mapM fun (su : ℕ × ℕ) =>
    match ranges[su.2]?, ranges[su.2 + 1]? with
    | some lower, some upper => some (atomPlanes root tol inter (coords su.1) ((rows.take upper).drop lower))
    | _, _ => none).map List.flatten

end BaderKit
