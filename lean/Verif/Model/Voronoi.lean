import Verif.Model.CubeFraction
import Verif.Model.Index
import Verif.Model.Voxels
import Mathlib.Data.List.Sort
/-!
# Bonds and partition planes

Model of `src/baderkit/core/utilities/voronoi.py:13-57,174-453`.
-/
namespace BaderKit
variable {K : Type*} [Field K] [LinearOrder K] [FloorRing K]

/-- Component-wise `np.round(...).astype(np.int64)`. For `voronoi.py:293-306`. -/
def roundV (v : V3 K) : Coord := (roundHE v.1, roundHE v.2.1, roundHE v.2.2)

/-- `bond_displacement -= np.round(bond_displacement)`, `voronoi.py:295`. -/
def wrapNear (v : V3 K) : V3 K :=
  (v.1 - (roundHE v.1 : K), v.2.1 - (roundHE v.2.1 : K), v.2.2 - (roundHE v.2.2 : K))

/-- `x / tol`. For `voronoi.py:293-306`. -/
def divV (v : V3 K) (tol : K) : V3 K := (v.1 / tol, v.2.1 / tol, v.2.2 / tol)

/-- The sign choice, `voronoi.py:301-304`. -/
def signCanon (v : Coord) : Coord :=
  if v.1 < 0 ∨ (v.1 = 0 ∧ v.2.1 < 0) ∨ (v.1 = 0 ∧ v.2.1 = 0 ∧ v.2.2 < 0) then (-v.1, -v.2.1, -v.2.2) else v

/-- `get_canonical_displacement`, `voronoi.py:293-306`. -/
def canonDisp (tol : K) (d : V3 K) : Coord := signCanon (roundV (divV (wrapNear d) tol))

/-- `matrix @ coords + vector` for a symmetry operation, `voronoi.py:353-354`. -/
structure SymOp (K : Type*) where
  mat : M3 K
  vec : V3 K

/-- Rows of the matrix times the coordinate. For `voronoi.py:310-374`. -/
def SymOp.apply (o : SymOp K) (x : V3 K) : V3 K :=
  (dotV o.mat.1 x + o.vec.1, dotV o.mat.2.1 x + o.vec.2.1, dotV o.mat.2.2 x + o.vec.2.2)

/-- A row of the bond table: inversion flag, the two equivalent atoms, the displacement and the distance. For `voronoi.py:310-374`. -/
structure BondRep where
  inverted : ℤ
  atom1 : ℤ
  atom2 : ℤ
  disp : Coord
  dist : ℤ
deriving DecidableEq, Repr

/-- The comparison of displacements, `voronoi.py:363-371`. -/
def betterDisp (best x : Coord) : Coord :=
  if x.1 > best.1 then best
  else if x.2.1 > best.2.1 then best
  else if x.2.2 > best.2.2 then best
  else x

/-- `get_canonical_bond`, `voronoi.py:310-374`; `ops` are the included operations in order. -/
def canonBond (tol : K) (equiv : ℕ → ℤ) (site neigh : ℕ) (siteC neighC : V3 K) (ops : List (SymOp K))
    (pairDist : K) : BondRep :=
  let start := canonDisp tol (subV neighC siteC)
  let disp := ops.foldl (fun best o => betterDisp best (canonDisp tol (subV (o.apply neighC) (o.apply siteC))))
    start
  if equiv site ≤ equiv neigh then ⟨0, equiv site, equiv neigh, disp, roundHE (pairDist / tol)⟩
  else ⟨1, equiv neigh, equiv site, disp, roundHE (pairDist / tol)⟩

/-- `find_site_in_tol`, `voronoi.py:274-289`: the first site whose rounded coordinates agree, or -1. -/
def findSite (chunked : List Coord) (x : V3 K) (tol : K) : ℤ :=
  let c := roundV (divV x tol)
  (chunked.zipIdx.foldl (fun (st : ℤ × Bool) (cj : Coord × ℕ) =>
    if st.2 then st
    else if |c.1 - cj.1.1| + |c.2.1 - cj.1.2.1| + |c.2.2 - cj.1.2.2| = 0 then ((cj.2 : ℤ), true)
    else st) (-1, false)).1

/-- `get_plane_dist`, `voronoi.py:13-34`. -/
def planeDist (x : V3 K) (p : V3 K) (d : K) : K := roundDec 12 (dotV p x + d)

/-- `get_planes_on_surface` for one plane, `voronoi.py:45-55`: the loop stops at the third vertex. -/
def onSurface (tol : K) (p : V3 K) (d : K) : List (V3 K) → ℕ → Bool
  | [], _ => false
  | v :: vs, n =>
    if |dotV p v + d| > tol then onSurface tol p d vs n
    else if n + 1 = 3 then true
    else onSurface tol p d vs (n + 1)

/-! ### Wrapping the partition planes into the unit cell -/

/-- `transformations`, `voronoi.py:179-188`: the home cell first. -/
def wrapTransforms : List Coord := (0, 0, 0) :: neighbors26

/-- A row of the result. For `voronoi.py:206-214`. -/
structure WPlane (K : Type*) where
  site : ℕ
  trans : ℕ
  point : V3 K
  vector : V3 K
  vol : K

/-- `np.round(vector, 12)`, `voronoi.py:204`. -/
def roundDecV (v : V3 K) : V3 K := (roundDec 12 v.1, roundDec 12 v.2.1, roundDec 12 v.2.2)

/-- The plane `plane` moved by transformation `t`, with the fraction of the cell under it,
`voronoi.py:206-214`. -/
def movedPlane (pl : ℕ × V3 K × V3 K) (ti : ℕ × Coord) : WPlane K :=
  let vector := roundDecV pl.2.2
  let point : V3 K := (pl.2.1.1 + (ti.2.1 : K), pl.2.1.2.1 + (ti.2.2.1 : K), pl.2.1.2.2 + (ti.2.2.2 : K))
  ⟨pl.1, ti.1, point, vector,
    cubeFraction vector (dotV (-vector.1, -vector.2.1, -vector.2.2) point)⟩

/-- `get_cell_wrapped_voronoi`, `voronoi.py:174-265`.  The parallel loops set flags that are only ever set to
true, so they are the set of the pairs flagged.  `planes` are site, point and vector. -/
def wrapVoronoi (planes : List (ℕ × V3 K × V3 K)) : List (WPlane K) :=
  let trans := wrapTransforms.zipIdx.map fun (tn : Coord × ℕ) => (tn.2, tn.1)
  let all := planes.flatMap fun pl => trans.map fun ti => movedPlane pl ti
  let dead : List (ℕ × ℕ) := (all.filter fun w => w.vol = 0).map fun w => (w.site, w.trans)
  all.filter fun w => decide (w.vol ≠ 1) && decide ((w.site, w.trans) ∉ dead)

/-- The sort key order of `np.lexsort((volumes, transforms, site_indices))`, `badelf.py:427-428`: the last key is
the primary one. -/
def planeLE (v w : WPlane K) : Prop :=
  v.site < w.site ∨ (v.site = w.site ∧ (v.trans < w.trans ∨ (v.trans = w.trans ∧ v.vol ≤ w.vol)))

instance (v w : WPlane K) : Decidable (planeLE v w) := by unfold planeLE; infer_instance

/-- `partitioning_planes`, `badelf.py:416-432`: the wrapped planes are sorted, the array of the site indices is not
reordered.  Each entry is a site index with the row it is paired with. -/
def partitionPlanes (planes : List (ℕ × V3 K × V3 K)) : List (ℕ × WPlane K) :=
  let w := wrapVoronoi planes
  (w.map fun r => r.site).zip (w.insertionSort planeLE)

end BaderKit
