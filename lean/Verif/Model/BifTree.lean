import Mathlib.Algebra.Order.Field.Basic
import Mathlib.Data.List.Basic
import Mathlib.Logic.Function.Basic
/-!
# The bifurcation graph: nodes and their operations

Model of `src/baderkit/core/labelers/bifurcation_graph/nodes.py` and of the container and serialisation parts of
`src/baderkit/core/labelers/bifurcation_graph/graph.py:67-331,612-676`.

Simplifications.
* A node object is identified with its key.  `_nodes` and `_node_keys` always change together; the model has the list of keys and a
  map from keys to contents.  The contents of keys that are not in the list are meaningless.
* Constructing a node with an explicit key that is in use is not modelled (`none`).
* An exception is `none`.  Contents of the graph after an exception are not modelled.
* `get_pt_ring_cage` is a parameter.
* Distances, coordination and other derived properties of the irreducible nodes are left out; the enumerations are strings.
* `DomainSubtype(...)`/`FeatureType(...)` validation is left out.
-/
namespace BaderKit

/-- The attributes of a node, `nodes.py:49-85,229-231,349-377`; `depthC` is the value of the cached property `depth`. -/
structure TNode (K : Type) where
  red : Bool
  basins : List ℕ
  dim : ℕ
  atoms : List ℕ
  minV : K
  maxV : K
  parent : Option ℕ
  children : List ℕ
  subtype : Option String
  feature : String
  beyond : Option K
  minSurf : Option K
  avgSurf : Option K
  depthC : Option K

/-- `BifurcationGraph`, `graph.py:67-69`. -/
structure BGraph (K : Type) where
  nodes : List ℕ
  roots : List ℕ
  node : ℕ → TNode K

variable {K : Type} [Field K] [LinearOrder K]

/-- Change the contents of one node. For `nodes.py:35-83`. -/
def modNode (g : BGraph K) (k : ℕ) (f : TNode K → TNode K) : BGraph K :=
  { g with node := Function.update g.node k (f (g.node k)) }

/-- `max(bifurcation_graph._node_keys.keys()) + 1`, or 0 for an empty graph, `nodes.py:72-77`. -/
def freshKey (g : BGraph K) : ℕ :=
  if g.nodes = [] then 0 else g.nodes.foldl max 0 + 1

/-- The constructor, `nodes.py:35-83`. -/
def addNode (g : BGraph K) (key parent : Option ℕ) (t : TNode K) : Option (BGraph K) :=
  let k := key.getD (freshKey g)
  if k ∈ g.nodes then none
  else
    let new : TNode K := { t with parent := parent, children := [], depthC := none }
    match parent with
    | none => some { nodes := g.nodes ++ [k], roots := g.roots ++ [k], node := Function.update g.node k new }
    | some p =>
      if p ∈ g.nodes ∧ (g.node p).red = true then
        let g1 := modNode g p (fun n => { n with children := n.children ++ [k] })
        some { nodes := g1.nodes ++ [k], roots := g1.roots, node := Function.update g1.node k new }
      else none

/-- The `parent` setter, given a node, `nodes.py:119-131`. -/
def setParent (g : BGraph K) (k p : ℕ) : Option (BGraph K) :=
  match (g.node k).parent with
  | none => none
  | some q =>
    let g1 := modNode g q (fun n => { n with children := n.children.filter (fun c => decide (c ≠ k)) })
    let g2 := modNode g1 k (fun n => { n with parent := some p })
    if (g2.node p).red = true then some (modNode g2 p (fun n => { n with children := n.children ++ [k] }))
    else none

/-- The `parent` setter, given an integer, `nodes.py:123-124`: `BifurcationGraph` has no method `get`. -/
def setParentInt (_g : BGraph K) (_k _p : ℕ) : Option (BGraph K) := none

/-- `graph._nodes = [i for i in graph._nodes if i is not self]; del graph._node_keys[self.key]`, `nodes.py:279-281,523-525`. -/
def dropNode (g : BGraph K) (k : ℕ) : BGraph K := { g with nodes := g.nodes.filter (fun c => decide (c ≠ k)) }

/-- `ReducibleNode.remove`, `nodes.py:253-281`. -/
def removeRed (g : BGraph K) (k : ℕ) : Option (BGraph K) :=
  match (g.node k).parent with
  | none =>
    let g1 : BGraph K := { g with roots := g.roots.filter (fun c => decide (c ≠ k)) }
    let g2 := (g.node k).children.foldl (fun (h : BGraph K) c =>
      modNode { h with roots := h.roots ++ [c] } c (fun n => { n with parent := none })) g1
    some (dropNode g2 k)
  | some p => do
    let g1 ← (g.node k).children.foldlM (fun h c => setParent h c p) g
    let g2 := modNode g1 p (fun n => { n with children := n.children.filter (fun c => decide (c ≠ k)) })
    let m := (g2.node p).children.foldl (fun m c => if (g2.node c).minV < m then (g2.node c).minV else m) (g2.node k).maxV
    some (dropNode (modNode g2 p (fun n => { n with maxV := m })) k)

/-- `IrreducibleNode.remove`, `nodes.py:519-525`: a root has no parent to update. -/
def removeLeaf (g : BGraph K) (k : ℕ) : Option (BGraph K) :=
  match (g.node k).parent with
  | none => none
  | some p => some (dropNode (modNode g p (fun n => { n with children := n.children.filter (fun c => decide (c ≠ k)) })) k)

/-- `node.remove()` for a node of the graph. For `nodes.py:283-327`. -/
def removeNode (g : BGraph K) (k : ℕ) : Option (BGraph K) :=
  if k ∈ g.nodes then (if (g.node k).red = true then removeRed g k else removeLeaf g k) else none

/-- `NodeBase.ancestors`, `nodes.py:141-155`. -/
def ancestors (g : BGraph K) : ℕ → ℕ → Option (List ℕ)
  | 0, _ => none
  | fuel + 1, k => match (g.node k).parent with
    | none => some []
    | some p => (ancestors g fuel p).map (fun l => p :: l)

/-- `siblings`, `nodes.py:133-138`. -/
def siblings (g : BGraph K) (k : ℕ) : List ℕ :=
  match (g.node k).parent with
  | none => []
  | some p => (g.node p).children.filter (fun c => decide (c ≠ k))

/-- Children of the reducible ones, `nodes.py:243-247`. -/
def nextLevel (g : BGraph K) (cur : List ℕ) : List ℕ :=
  cur.flatMap (fun c => if (g.node c).red = true then (g.node c).children else [])

/-- The loop of `ReducibleNode.deep_children`, `nodes.py:239-251`. -/
def deepLoop (g : BGraph K) : ℕ → List ℕ → Option (List ℕ)
  | 0, _ => none
  | fuel + 1, cur =>
    if nextLevel g cur = [] then some cur
    else (deepLoop g fuel (nextLevel g cur)).map (fun l => cur ++ l)

/-- `ReducibleNode.deep_children`, `nodes.py:236-251`. -/
def deepChildren (g : BGraph K) (fuel k : ℕ) : Option (List ℕ) := deepLoop g fuel (g.node k).children

/-- `-1e300`, `nodes.py:285`. -/
def lowestK : K := -(10 ^ 300)

/-- The highest `max_value` among irreducible nodes, `nodes.py:285-290`. -/
def leafMax (g : BGraph K) (l : List ℕ) : K :=
  l.foldl (fun m c => if (g.node c).red = true then m else if m < (g.node c).maxV then (g.node c).maxV else m) lowestK

/-- The subtype of a combined node, `nodes.py:302-309`. -/
def combinedType (shape : List ℕ → ℕ) (basins : List ℕ) : String :=
  if shape basins = 0 then "irreducible - point" else if shape basins = 1 then "irreducible - ring" else "irreducible - cage"

/-- `ReducibleNode.make_irreducible`, `nodes.py:283-327`; `shape` is `get_pt_ring_cage` on the maxima of the basins.  Irreducible nodes do
not have the method. -/
def makeIrreducible (shape : List ℕ → ℕ) (g : BGraph K) (fuel k : ℕ) : Option (BGraph K) := if (g.node k).red = false then none else do
  let deep ← deepChildren g fuel k
  let m := leafMax g deep
  let g1 ← deep.reverse.foldlM removeNode g
  let g2 ← removeNode g1 k
  let old := g2.node k
  addNode g2 (some k) old.parent
    { red := false, basins := old.basins, dim := old.dim, atoms := old.atoms, minV := old.minV, maxV := m, parent := none, children := [],
      subtype := some (combinedType shape old.basins), feature := "unknown", beyond := none, minSurf := none, avgSurf := none, depthC := none }

/-- The cached property `depth`, `nodes.py:161-163`: value and graph with the value stored. -/
def readDepth (g : BGraph K) (k : ℕ) : K × BGraph K :=
  match (g.node k).depthC with
  | some d => (d, g)
  | none => let d := (g.node k).maxV - (g.node k).minV
            (d, modNode g k (fun n => { n with depthC := some d }))

/-- `depth_to_infinite`, `nodes.py:165-174`; without ancestors `ancestor` is unbound. -/
def depthToInfinite (g : BGraph K) (fuel k : ℕ) : Option K := do
  if 0 < (g.node k).dim then some 0
  else
    let anc ← ancestors g fuel k
    match anc.find? (fun a => decide (0 < (g.node a).dim)) with
    | some a => some ((g.node k).maxV - (g.node a).maxV)
    | none => match anc.getLast? with
      | some a => some ((g.node k).maxV - (g.node a).maxV)
      | none => none

/-- What `to_dict` writes of a node, `nodes.py:199-220,527-532`. -/
structure NodeDict (K : Type) where
  key : ℕ
  basins : List ℕ
  dim : ℕ
  atoms : List ℕ
  minV : K
  maxV : K
  parent : Option ℕ
  red : Bool
  subtype : Option String
  minSurf : Option K
  avgSurf : Option K

/-- `Node.to_dict`, `nodes.py:199-220,527-532`; the surface distances are written for irreducible nodes only. -/
def nodeDict (g : BGraph K) (k : ℕ) : NodeDict K :=
  let n := g.node k
  { key := k, basins := n.basins, dim := n.dim, atoms := n.atoms, minV := n.minV, maxV := n.maxV, parent := n.parent, red := n.red,
    subtype := n.subtype, minSurf := if n.red = true then none else n.minSurf, avgSurf := if n.red = true then none else n.avgSurf }

/-- The nodes of `BifurcationGraph.to_dict`, `graph.py:274`. -/
def graphDict (g : BGraph K) : List (NodeDict K) := g.nodes.map (nodeDict g)

/-- `NodeBase.from_dict`, `nodes.py:222-227`. -/
def nodeFromDict (g : BGraph K) (d : NodeDict K) : Option (BGraph K) :=
  addNode g (some d.key) d.parent
    { red := d.red, basins := d.basins, dim := d.dim, atoms := d.atoms, minV := d.minV, maxV := d.maxV, parent := none, children := [],
      subtype := d.subtype, feature := "unknown", beyond := none, minSurf := d.minSurf, avgSurf := d.avgSurf, depthC := none }

/-- A graph without nodes, `graph.py:67-69`. -/
def emptyGraph : BGraph K where
  nodes := []
  roots := []
  node := fun _ => ⟨false, [], 0, [], 0, 0, none, [], none, "unknown", none, none, none, none⟩

/-- `BifurcationGraph.from_dict`, `graph.py:294-331`. -/
def graphFromDict (l : List (NodeDict K)) : Option (BGraph K) := l.foldlM nodeFromDict emptyGraph

/-- `sorted_reducible_nodes`, `graph.py:162-175`; `argsort` is the unspecified order of `np.argsort` among equal values. -/
def sortedReducible (argsort : List (ℕ × K) → List (ℕ × K)) (g : BGraph K) : List ℕ :=
  (argsort ((g.nodes.filter (fun k => (g.node k).red)).map (fun k => (k, (g.node k).minV)))).map Prod.fst

/-- Body of `_remove_shallow_reducible_nodes`, `graph.py:628-634`. -/
def shallowStep (cutoff : K) (g : BGraph K) (k : ℕ) : Option (BGraph K) :=
  match (g.node k).parent with
  | none => none
  | some p =>
    let r1 := readDepth g k
    let r2 := readDepth r1.2 p
    if r2.1 = 0 then none
    else if cutoff < r1.1 / r2.1 then some r2.2
    else removeNode r2.2 k

/-- `_remove_shallow_reducible_nodes`, `graph.py:613-634`. -/
def removeShallow (argsort : List (ℕ × K) → List (ℕ × K)) (cutoff : K) (g : BGraph K) : Option (BGraph K) :=
  (sortedReducible argsort g).tail.foldlM (shallowStep cutoff) g

/-- The loop over the leaves below a node, `graph.py:659-670`: is the node shallow. -/
def shallowScan (cutoff depth : K) : BGraph K → List ℕ → Option (Bool × BGraph K)
  | g, [] => some (true, g)
  | g, c :: cs =>
    if (g.node c).red = true then shallowScan cutoff depth g cs
    else
      let r := readDepth g c
      if depth = 0 then none
      else if cutoff < r.1 / depth then some (false, r.2) else shallowScan cutoff depth r.2 cs

/-- Body of `_combine_shallow_irreducible_nodes`, `graph.py:654-676`. -/
def combineStep (shape : List ℕ → ℕ) (cutoff : K) (fuel : ℕ) (g : BGraph K) (k : ℕ) : Option (BGraph K) :=
  if 0 < (g.node k).dim then some g
  else do
    let r := readDepth g k
    let deep ← deepChildren r.2 fuel k
    let s ← shallowScan cutoff r.1 r.2 deep
    if s.1 = true then makeIrreducible shape s.2 fuel k else some s.2

/-- `_combine_shallow_irreducible_nodes`, `graph.py:637-676`. -/
def combineShallow (shape : List ℕ → ℕ) (argsort : List (ℕ × K) → List (ℕ × K)) (cutoff : K) (fuel : ℕ) (g : BGraph K) :
    Option (BGraph K) :=
  (sortedReducible argsort g).reverse.foldlM (combineStep shape cutoff fuel) g

end BaderKit
