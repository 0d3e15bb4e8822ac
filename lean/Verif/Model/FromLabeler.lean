import Verif.Model.Connections
import Verif.Model.GraphBuild
import Verif.Model.Contacts
import Mathlib.Data.List.Dedup
import Mathlib.Data.List.Sort
/-!
# From the labels of the voxels to the bifurcation graph

Model of `BifurcationGraph.from_labeler` up to the clean-up, `src/baderkit/core/labelers/bifurcation_graph/graph.py:380-597`, with all its calls:
`get_edges`, `find_potential_saddle_points` (twice), `find_domain_connections`, `find_domain_bifurcations`, `get_domains_surrounding_atoms` with
`get_connected_voids` and `find_all_atom_domains`, and the construction of the nodes.

Simplifications.
* The voxels of the basin maxima and of the atoms (`np.round(frac_to_grid(..)) % shape`) are inputs.
* The neighbour steps are the 26 of the code.  Floats are elements of an ordered field; NaN does not occur.
* The entries of `domain_max_values` that are never written are the parameter `junk`.
* The groups of the voids are recomputed from the first value at every value; the code keeps them from one value to the next.
-/
namespace BaderKit
variable {K : Type} [Field K] [LinearOrder K]

/-- The order of `np.unique(axis=0)`: rows by first, second, third entry. For `graph.py:424-429`. -/
def connLe (a b : Conn K) : Prop := a.i < b.i ∨ (a.i = b.i ∧ (a.j < b.j ∨ (a.j = b.j ∧ a.val ≤ b.val)))

instance : DecidableRel (connLe (K := K)) := fun a b => by unfold connLe; infer_instance

/-- The unique rows in order, `graph.py:421-437`. -/
def uniqueConns (l : List (Conn K)) : List (Conn K) := l.dedup.insertionSort connLe

/-- `data.min()`. For `domain_bifurcations.py:387-400`. -/
def dataMin (s : Shape) (data : ℕ → K) : K := (List.range s.size).foldl (fun m v => min m (data v)) (data 0)

/-- The parts of a labeler that `from_labeler` uses: the shape and values of the reference grid, the labels, the vacuum, the number of basins, the
voxels and the values of their maxima, the voxels of the atoms. For `graph.py:380-530`. -/
structure LabelerIn (K : Type) where
  s : Shape
  data : ℕ → K
  labels : ℕ → ℤ
  vac : ℕ → Bool
  nb : ℕ
  maxima : ℕ → ℕ
  ref : ℕ → K
  atoms : List ℕ

/-- What the machine decides: the order of the parallel loops over the voxels, the interleaving at each value, values never written, bounds on the
number of rounds, the square root and the tolerance 1e-12. For `graph.py:380-530`. -/
structure Machine (K : Type) where
  order1 : List ℕ
  order2 : List ℕ
  sched : K → List ℕ
  junk : ℕ → K
  fuel : ℕ
  root : K → K
  tol : K

/-- The voxels marked by `find_potential_saddle_points`, `graph.py:391-396,493-498`; `labeler.bader.basin_edges` ignores the vacuum. -/
def labelerMask (m : Machine K) (I : LabelerIn K) (greater : Bool) : Option (List Bool) :=
  (List.range I.s.size).mapM (saddleMask I.s I.data (getEdges I.s I.labels neighbors26 (fun _ => false) m.order1) I.vac greater)

/-- The connections between the basins, `graph.py:391-437`. -/
def labelerConns (m : Machine K) (I : LabelerIn K) : Option (List (Conn K)) := do
  let up ← labelerMask m I true
  some (uniqueConns (graphConns I.s I.data I.labels neighbors26 (fun v => up.getD v false)
    (getEdges I.s I.labels neighbors26 I.vac m.order2) I.vac I.nb I.ref))

/-- The domains and the values at which the surroundings of the atoms are searched, `graph.py:391-503`. -/
def labelerDomains (m : Machine K) (I : LabelerIn K) : Option (List (DomIn K) × List K) := do
  let conns ← labelerConns m I
  let r ← domainRows m.fuel I.nb (levelDim m.fuel m.root m.tol I.s neighbors26 I.vac I.data I.maxima conns) I.ref (dataMin I.s I.data) conns
  let inp := rowsIn m.junk r.1
  let down ← labelerMask m I false
  let extra := ((List.range I.s.size).filter fun v => down.getD v false).map I.data
  some (inp, ((extra ++ inp.map DomIn.minV).dedup).insertionSort (· ≤ ·))

/-- The domains that surround each atom at a value, `surrounded_atoms.py:291-367`; `values` are all values.  `none` is an exception. -/
def surroundAt (m : Machine K) (I : LabelerIn K) (inp : List (DomIn K)) (values : List K) (v : K) : Option (List (List ℕ)) := do
  let solid : ℕ → Bool := fun w => decide (I.data w ≤ v)
  let solids := (values.filter fun u => decide (u ≤ v)).map fun u => fun w => decide (I.data w ≤ u)
  let g ← groupsRun m.fuel m.root m.tol I.s neighbors26 I.vac (fun _ => false) solids GroupState.init
  let cur := currentDoms inp v
  let dom := domainIdx I.nb cur.length I.labels (basinDomainMap inp cur)
  let counts ← contactCounts m.fuel g.uf.parent g.roots I.s neighbors26 solid I.vac dom (m.sched v)
  I.atoms.mapM fun a => do
    let grp ← atomGroup m.fuel g.uf.parent g.roots solid dom a
    findAtomDomains g.roots.length cur (fun r => (g.cycles.getD r []).length) (fun d => (inp[d]?).elim 0 DomIn.dim) counts grp

/-- The loop over the values, where the search at a value may raise, `surrounded_atoms.py:291-432`. -/
def atomLoopM (inp : List (DomIn K)) (surr : K → Option (List (List ℕ))) : List K → AState K → Option (AState K)
  | [], st => some st
  | v :: vs, st => do
    let su ← surr v
    let st' ← atomStep inp (fun _ => su) st v
    if su.all fun l => l.isEmpty then some st' else atomLoopM inp surr vs st'

/-- `get_domains_surrounding_atoms`, `surrounded_atoms.py:234-465`. -/
def atomRowsM (inp : List (DomIn K)) (surr : K → Option (List (List ℕ))) (values : List K) : Option (List (ARow K)) := do
  let st ← atomLoopM inp surr values ⟨fun _ => none, [], []⟩
  let r ← (List.range inp.length).foldlM (appendRest inp) (st.map, st.rows)
  some r.2

/-- `from_labeler` before the clean-up, `graph.py:380-597`. -/
def fromLabeler (m : Machine K) (I : LabelerIn K) : Option (BGraph K) := do
  let (inp, values) ← labelerDomains m I
  let rows ← atomRowsM inp (surroundAt m I inp values) values
  buildGraph rows

end BaderKit
