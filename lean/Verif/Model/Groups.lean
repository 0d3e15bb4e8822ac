import Verif.Model.Index
import Verif.Model.Vec
import Verif.Model.UnionFind
import Mathlib.Algebra.Group.Prod
import Mathlib.Algebra.Group.Int.Defs
/-!
# Connected groups of a growing periodic solid

Model of `labelers/bifurcation_graph/graph_numba/bifurcation_base.py:339-578`.  Voxels are flat
indices (`C02_flat_bijection`), boolean arrays are functions.  The offsets are unbounded integers (the
code stores them as `int8`) and the sizes natural numbers (`uint16` in the code); floats are the
elements of a field, the square root is a parameter.
-/
namespace BaderKit
variable {K : Type} [Field K] [LinearOrder K]

/-- `wrap_point_w_shift` and `coords_to_flat` for the neighbour `d` of the voxel `v`:
flat index and cell shift, `bifurcation_base.py:405-410,515-523`. -/
def nbrShift (s : Shape) (v : ℕ) (d : Coord) : ℕ × Coord :=
  let w := wrapPointShift s (addC (flatToCoords s v) d)
  ((coordsToFlat s w.1).toNat, w.2)

/-- The calls of `union_with_shift` made for one voxel: one for every neighbour in the solid,
`bifurcation_base.py:512-540`. -/
def unionCalls (s : Shape) (nbrs : List Coord) (solid : ℕ → Bool) (v : ℕ) : List (ShiftOp ℕ Coord) :=
  nbrs.filterMap fun d =>
    let w := nbrShift s v d
    if solid w.1 then some (.union v w.1 w.2) else none

/-- The condition under which a voxel is skipped, `bifurcation_base.py:386-391,503-508`. -/
def skipVoxel (solid prev vac : ℕ → Bool) (v : ℕ) : Bool := !(solid v) || prev v || vac v

/-- One voxel of the loop, `bifurcation_base.py:497-544`. -/
def connectVoxel (fuel : ℕ) (s : Shape) (nbrs : List Coord) (solid prev vac : ℕ → Bool)
    (st : ShiftUF ℕ Coord) (v : ℕ) : Option (ShiftUF ℕ Coord) :=
  if skipVoxel solid prev vac v then some st
  else do
    let st' ← runShift fuel (unionCalls s nbrs solid v) st
    some (if (unionCalls s nbrs solid v).isEmpty then { st' with mask := Function.update st'.mask v true }
          else st')

/-- The loop over all voxels, `bifurcation_base.py:495-544`. -/
def connectAll (fuel : ℕ) (s : Shape) (nbrs : List Coord) (solid prev vac : ℕ → Bool)
    (st : ShiftUF ℕ Coord) : Option (ShiftUF ℕ Coord) :=
  (List.range s.size).foldlM (connectVoxel fuel s nbrs solid prev vac) st

/-- `np.nonzero(root_mask)[0]`, `bifurcation_base.py:360`. -/
def rootsOf (N : ℕ) (mask : ℕ → Bool) : List ℕ := (List.range N).filter mask

/-- `np.searchsorted(new_roots, r)`, `bifurcation_base.py:377,398`: the number of smaller roots. -/
def searchRoot (roots : List ℕ) (r : ℕ) : ℕ := (roots.filter fun x => decide (x < r)).length

/-- `new_cycles[idx]` and an assignment to it; an index out of range is an error. For `bifurcation_base.py:371-380`. -/
def modifyAt (l : List (List (V3 K))) (i : ℕ) (f : List (V3 K) → List (V3 K)) : Option (List (List (V3 K))) :=
  match l[i]? with
  | none => none
  | some c => some (l.set i (f c))

/-- Cycles of the previous round are given to the new root of the old root,
`bifurcation_base.py:371-380`. -/
def carryCycles (fuel : ℕ) (p : ℕ → ℕ) (newRoots : List ℕ) :
    List (ℕ × List (V3 K)) → List (List (V3 K)) → Option (List (List (V3 K)))
  | [], acc => some acc
  | (r, c) :: l, acc =>
    if c.isEmpty then carryCycles fuel p newRoots l acc
    else do
      let r' ← findRootNC fuel p r
      let acc' ← modifyAt acc (searchRoot newRoots r') fun x => x ++ c
      carryCycles fuel p newRoots l acc'

/-- Projection of a cycle onto the complement of the basis found so far,
`bifurcation_base.py:431-435`. -/
def residual (basis : List (V3 K)) (c : V3 K) : V3 K :=
  basis.foldl (fun c q =>
    let proj := c.1 * q.1 + c.2.1 * q.2.1 + c.2.2 * q.2.2
    (c.1 - proj * q.1, c.2.1 - proj * q.2.1, c.2.2 - proj * q.2.2)) c

/-- Adds a cycle if it is independent of those found, `bifurcation_base.py:425-444`.
`tol` is `1e-12`. -/
def addCycle (root : K → K) (tol : K) (basis : List (V3 K)) (c : Coord) : List (V3 K) :=
  if c = (0, 0, 0) then basis
  else
    let v := residual basis ((c.1 : K), (c.2.1 : K), (c.2.2 : K))
    let norm := root (norm2 v)
    if tol < norm then basis ++ [(v.1 / norm, v.2.1 / norm, v.2.2 / norm)] else basis

/-- The neighbours of one voxel in the search for cycles, `bifurcation_base.py:403-444`. `ra`, `o` are
the root and the offset of the voxel. -/
def scanNbrs (fuel : ℕ) (root : K → K) (tol : K) (s : Shape) (solid : ℕ → Bool) (v ra : ℕ) (o : Coord) :
    List Coord → (ShiftUF ℕ Coord × List (V3 K)) → Option (ShiftUF ℕ Coord × List (V3 K))
  | [], x => some x
  | d :: ds, (st, basis) =>
    let w := nbrShift s v d
    if !(solid w.1) then scanNbrs fuel root tol s solid v ra o ds (st, basis)
    else do
      let (p', o', rb, o1) ← findRootShift fuel st.parent st.off w.1
      let st' := { st with parent := p', off := o' }
      if ra ≠ rb then scanNbrs fuel root tol s solid v ra o ds (st', basis)
      else scanNbrs fuel root tol s solid v ra o ds (st', addCycle root tol basis (o - o1 - w.2))

/-- One voxel of the search for cycles, `bifurcation_base.py:383-444`. -/
def scanVoxel (fuel : ℕ) (root : K → K) (tol : K) (s : Shape) (nbrs : List Coord) (solid prev vac : ℕ → Bool)
    (roots : List ℕ) (x : ShiftUF ℕ Coord × List (List (V3 K))) (v : ℕ) :
    Option (ShiftUF ℕ Coord × List (List (V3 K))) :=
  if skipVoxel solid prev vac v then some x
  else do
    let (p', o', ra, o) ← findRootShift fuel x.1.parent x.1.off v
    let st' := { x.1 with parent := p', off := o' }
    let cyc ← x.2[searchRoot roots ra]?
    if cyc.length = 3 then some (st', x.2)
    else do
      let (st'', cyc') ← scanNbrs fuel root tol s solid v ra o nbrs (st', cyc)
      some (st'', x.2.set (searchRoot roots ra) cyc')

/-- The data kept between two calls: the union-find arrays, the roots and the cycles of each. For `domain_bifurcations.py:168-183`. -/
structure GroupState (K : Type) where
  uf : ShiftUF ℕ Coord
  roots : List ℕ
  cycles : List (List (V3 K))

/-- The initial arrays, `domain_bifurcations.py:168-183`. -/
def GroupState.init : GroupState K := ⟨ShiftUF.init, [], []⟩

/-- `find_periodic_cycles`, `bifurcation_base.py:339-446`. -/
def findCycles (fuel : ℕ) (root : K → K) (tol : K) (s : Shape) (nbrs : List Coord) (solid prev vac : ℕ → Bool)
    (g : GroupState K) (st : ShiftUF ℕ Coord) : Option (GroupState K) := do
  let newRoots := rootsOf s.size st.mask
  let carried ← carryCycles fuel st.parent newRoots (g.roots.zip g.cycles) (newRoots.map fun _ => [])
  let (st', cycles) ← (List.range s.size).foldlM (scanVoxel fuel root tol s nbrs solid prev vac newRoots) (st, carried)
  some ⟨st', newRoots, cycles⟩

/-- `get_connected_groups`, `bifurcation_base.py:474-578`.  The dimensionalities are the lengths of the
lists of cycles. -/
def connectedGroups (fuel : ℕ) (root : K → K) (tol : K) (s : Shape) (nbrs : List Coord)
    (solid prev vac : ℕ → Bool) (g : GroupState K) : Option (GroupState K) := do
  let st ← connectAll fuel s nbrs solid prev vac g.uf
  findCycles fuel root tol s nbrs solid prev vac g st

/-- The calls for a list of growing solids, each with the one before as `previous_solid`,
`domain_bifurcations.py:317-337`. -/
def groupsRun (fuel : ℕ) (root : K → K) (tol : K) (s : Shape) (nbrs : List Coord) (vac : ℕ → Bool) :
    (ℕ → Bool) → List (ℕ → Bool) → GroupState K → Option (GroupState K)
  | _, [], g => some g
  | prev, solid :: l, g => do
    let g' ← connectedGroups fuel root tol s nbrs solid prev vac g
    groupsRun fuel root tol s nbrs vac solid l g'

/-- `get_domain_dimensionality`, `bifurcation_base.py:446-470`: the first root in the list equal to the
root of the voxel, zero if there is none. -/
def domainDim (fuel : ℕ) (g : GroupState K) (v : ℕ) : Option ℕ := do
  let (_, _, r, _) ← findRootShift fuel g.uf.parent g.uf.off v
  some (((g.roots.zip g.cycles).find? fun p => p.1 == r).elim 0 fun p => p.2.length)

end BaderKit
