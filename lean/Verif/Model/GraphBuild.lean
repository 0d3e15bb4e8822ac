import Verif.Model.AtomRows
import Verif.Model.BifTree
/-!
# The bifurcation graph made from the rows

Model of the last part of `BifurcationGraph.from_labeler`, `src/baderkit/core/labelers/bifurcation_graph/graph.py:540-610`.

Simplifications.
* The rows are the result of `atomRows`; `np.array` with -1 for no parent is `Option`.
* `rowsIn` stands for the arrays passed from `find_domain_bifurcations` to `get_domains_surrounding_atoms`; the entries of
  `domain_max_values` that were never written are the parameter `junk`.
-/
namespace BaderKit
variable {K : Type} [Field K] [LinearOrder K]

/-- `feat_idx in domain_parents`, `graph.py:555`. -/
def hasChild (rows : List (ARow K)) (k : ℕ) : Bool := rows.any fun r => r.parent == some k

/-- The node of a row, `graph.py:555-579`. -/
def rowNode (rows : List (ARow K)) (k : ℕ) (r : ARow K) : TNode K :=
  { red := hasChild rows k, basins := r.basins, dim := r.dim, atoms := r.atoms, minV := r.minV, maxV := r.maxV, parent := none, children := [],
    subtype := some (if hasChild rows k then "reducible" else "irreducible - point"), feature := "unknown", beyond := none, minSurf := none,
    avgSurf := none, depthC := none }

/-- The key of the parent, `graph.py:550-554`. -/
def parentKey (keys : List ℕ) : Option ℕ → Option (Option ℕ)
  | none => some none
  | some p => (keys[p]?).map some

/-- One row, `graph.py:549-581`; the state is the graph and `node_keys`.  A parent that is not in `node_keys` yet is an IndexError. -/
def buildStep (rows : List (ARow K)) (st : BGraph K × List ℕ) (k : ℕ) : Option (BGraph K × List ℕ) := do
  let r ← rows[k]?
  let parent ← parentKey st.2 r.parent
  let g ← addNode st.1 none parent (rowNode rows k r)
  some (g, st.2 ++ [freshKey st.1])

/-- The subtype of a reducible node, `graph.py:584-597`. -/
def reducibleType (g : BGraph K) (n : TNode K) : Option String :=
  match n.parent with
  | none => some "reducible - root"
  | some p =>
    if (g.node p).basins.length ≠ n.basins.length then some "reducible - domain"
    else if (g.node p).dim ≠ n.dim then some "reducible - dimensionality"
    else if (g.node p).atoms.length ≠ n.atoms.length then some "reducible - contained atoms"
    else n.subtype

/-- The loop over the reducible nodes, `graph.py:584-597`. -/
def setTypes (g : BGraph K) : BGraph K :=
  (g.nodes.filter fun k => (g.node k).red).foldl (fun h k => modNode h k fun n => { n with subtype := reducibleType h n }) g

/-- `graph.py:540-597`, before the clean-up. -/
def buildGraph (rows : List (ARow K)) : Option (BGraph K) := do
  let st ← (List.range rows.length).foldlM (buildStep rows) (emptyGraph, [])
  some (setTypes st.1)

/-- The arrays handed from `find_domain_bifurcations` to `get_domains_surrounding_atoms`, `graph.py:446-530`. -/
def rowsIn (junk : ℕ → K) (rows : List (DomainRow K)) : List (DomIn K) :=
  rows.zipIdx.map fun x => ⟨x.1.basins, x.1.minV, x.1.maxV.getD (junk x.2), x.1.dim, x.1.parent⟩

/-- `BifurcationGraph.from_labeler` from the connections to the graph before the clean-up, `graph.py:446-597`.  `surr` is `find_all_atom_domains`
at a value, for the domains found so far. -/
def graphOf (fuel nb : ℕ) (dim : K → ℕ → Option ℕ) (ref : ℕ → K) (minData : K) (conns : List (Conn K)) (junk : ℕ → K)
    (surr : List (DomIn K) → K → List (List ℕ)) (extra : List K) : Option (BGraph K) := do
  let r ← domainRows fuel nb dim ref minData conns
  let inp := rowsIn junk r.1
  let values := ((extra ++ inp.map DomIn.minV).dedup).insertionSort (· ≤ ·)
  let out ← atomRows inp (surr inp) values
  buildGraph out

end BaderKit
