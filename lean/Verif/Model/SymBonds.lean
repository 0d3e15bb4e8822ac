import Verif.Model.Voronoi
/-!
# Bonds generated by symmetry

Model of `generate_symmetric_bonds`, `src/baderkit/core/utilities/voronoi.py:456-563`, and of the end of
`get_voronoi_radii`, `src/baderkit/core/labelers/elf_labeler/elf_radii.py:372-415`.
-/
namespace BaderKit
variable {K : Type} [Field K] [LinearOrder K] [FloorRing K]

/-- `np.floor(x).astype(np.int64)`, `voronoi.py:498`. -/
def floorV (v : V3 K) : Coord := (⌊v.1⌋, ⌊v.2.1⌋, ⌊v.2.2⌋)

/-- `x - image`, `voronoi.py:500`. -/
def subImage (v : V3 K) (t : Coord) : V3 K := (v.1 - (t.1 : K), v.2.1 - (t.2.1 : K), v.2.2 - (t.2.2 : K))

/-- `x + image`, `voronoi.py:536`. -/
def addImage (v : V3 K) (t : Coord) : V3 K := (v.1 + (t.1 : K), v.2.1 + (t.2.1 : K), v.2.2 + (t.2.2 : K))

/-- Index and image of the atom at `x`, `voronoi.py:497-514` (and `519-532` for the neighbour): wrap, look up, and
if nothing was found wrap once more after adding the tolerance. -/
def locateAtom (coords : List (V3 K)) (tol : K) (x : V3 K) : ℤ × Coord :=
  let chunked := coords.map fun s => roundV (divV s tol)
  let im := floorV x
  let i := findSite chunked (subImage x im) tol
  if i = -1 then
    let im2 := floorV ((x.1 + tol, x.2.1 + tol, x.2.2 + tol) : V3 K)
    (findSite chunked (subImage x im2) tol, im2)
  else (i, im)

/-- One bond handed to the function: `site_indices`, `neigh_coords`, `bond_types`, `fracs`
(`neigh_indices` is read but overwritten before it is used, `voronoi.py:481,522`). -/
structure SymPair (K : Type) where
  site : ℕ
  neighC : V3 K
  covalent : Bool
  frac : K

/-- One row of `all_bonds`, `voronoi.py:551-558`. -/
structure BondRow (K : Type) where
  site : ℤ
  neigh : ℤ
  radius : K
  dist : K
  covalent : Bool
  point : V3 K
  vector : V3 K
  neighC : V3 K
deriving DecidableEq

/-- `all_frac_coords[i]` with Python's negative index; the default is never used when there are atoms. For `voronoi.py:494-558`. -/
def atomAt (coords : List (V3 K)) (i : ℤ) : V3 K := coords.getD (pyIdx coords.length i) (0, 0, 0)

/-- The body of the loop, `voronoi.py:494-558`, before rounding.  `root` is the square root of `np.linalg.norm`;
the division of a zero vector gives zero here, NaN in the code. -/
def symBond (root : K → K) (coords : List (V3 K)) (L : M3 K) (tol : K) (p : SymPair K) (o : SymOp K) : BondRow K :=
  let ts := o.apply (atomAt coords p.site)
  let tn := o.apply p.neighC
  let a := locateAtom coords tol ts
  let b := locateAtom coords tol (subImage tn a.2)
  let sc := atomAt coords a.1
  let nc := addImage (atomAt coords b.1) b.2
  let d := subV nc sc
  let pv : V3 K := (d.1 * p.frac, d.2.1 * p.frac, d.2.2 * p.frac)
  let cart := vecMat pv L
  let dist := root (norm2 cart)
  let radius := root (norm2 cart)
  ⟨a.1, b.1, radius, dist, p.covalent, addV pv sc, divV pv (root (norm2 pv)), nc⟩

/-- `np.round(all_bonds, 12)`, `voronoi.py:563`; indices and flags are whole numbers and stay. -/
def roundRow (r : BondRow K) : BondRow K :=
  ⟨r.site, r.neigh, roundDec 12 r.radius, roundDec 12 r.dist, r.covalent, roundDecV r.point, roundDecV r.vector,
    roundDecV r.neighC⟩

/-- `generate_symmetric_bonds`: every pair with every operation; each row of the array is written by one iteration
only, so the parallel loop has one result, `voronoi.py:478-563`. -/
def genBonds (root : K → K) (coords : List (V3 K)) (L : M3 K) (tol : K) (pairs : List (SymPair K))
    (ops : List (SymOp K)) : List (BondRow K) :=
  pairs.flatMap fun p => ops.map fun o => roundRow (symBond root coords L tol p o)

/-- The end of `get_voronoi_radii`, `elf_radii.py:374-415`: rows without repetition (`np.unique`; the order of the
rows is not modelled); an exception (`none`) if a site was not found. -/
def voronoiBonds (root : K → K) (coords : List (V3 K)) (L : M3 K) (tol : K) (pairs : List (SymPair K))
    (ops : List (SymOp K)) : Option (List (BondRow K)) :=
  let rows := (genBonds root coords L tol pairs ops).dedup
  if ∃ r ∈ rows, r.site = -1 then none else some rows

end BaderKit
