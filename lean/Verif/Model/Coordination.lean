import Verif.Model.Marking
/-!
# The neighbours of a feature

`src/baderkit/core/labelers/bifurcation_graph/nodes.py:451-518` and `graph.py:193-261,678-830`.

* Sites are pairs of species and position; `nn` stands for `CrystalNN.get_nn_info` and gives the indices of the neighbouring sites.
* `near` is `nearest_atom`.  Only irreducible nodes are kept, in the order of the graph.
* An index that the list of sites does not have raises (`none`).
-/
namespace BaderKit

/-- `bare_types`, `enum_and_styling.py:156-158`. -/
def bareTypes : List String := ["electride", "bare electron"]

/-- An irreducible node, `nodes.py:354-378`. -/
structure CFeat (P : Type) where
  key : ℕ
  type : String
  pos : P
  coord : Option (List ℕ)
  coordE : Option (List ℕ)

/-- The atoms and the features, `graph.py:55-77`. -/
structure CGraph (P : Type) where
  atoms : List (String × P)
  feats : List (CFeat P)

/-- What the getters call, `nodes.py:426-427,464-468`. -/
structure CWork (P : Type) where
  near : P → ℕ
  nn : List (String × P) → ℕ → List ℕ

variable {P : Type}

/-- `get_feature_nodes(FeatureType.bare_types)`, `graph.py:244-261`. -/
def CGraph.bare (g : CGraph P) : List (CFeat P) := g.feats.filter fun f => bareTypes.contains f.type

/-- `_electride_hatom_structure`, `graph.py:210-226`. -/
def CGraph.hSites (g : CGraph P) : List (String × P) := g.atoms ++ g.bare.map fun f => ("H-", f.pos)

/-- `electride_structure`, `graph.py:193-208`; the dummy species of both bare types is `E`, `enum_and_styling.py:50-51`. -/
def CGraph.eSites (g : CGraph P) : List (String × P) := g.atoms ++ g.bare.map fun f => ("E", f.pos)

/-- The index of a node in a list of nodes, by its key, `nodes.py:89-99,498-501`. -/
def keyIndex (l : List (CFeat P)) (k : ℕ) : Option ℕ := l.findIdx? fun f => f.key == k

/-- The value of `coord_indices` when nothing is stored, `nodes.py:457-469`. -/
def coordNew (W : CWork P) (g : CGraph P) (f : CFeat P) : List ℕ :=
  if atomicTypes.contains f.type then [W.near f.pos] else W.nn (g.atoms ++ [("H-", f.pos)]) g.atoms.length

/-- The value of `coord_indices_e` when nothing is stored, `nodes.py:489-511`; a bare feature that is not found starts the debugger (`none`). -/
def coordNewE (W : CWork P) (g : CGraph P) (f : CFeat P) : Option (List ℕ) :=
  if atomicTypes.contains f.type then some [W.near f.pos]
  else if bareTypes.contains f.type then (keyIndex g.bare f.key).map fun i => W.nn g.hSites (g.atoms.length + i)
  else some (W.nn (g.hSites ++ [("H-", f.pos)]) g.hSites.length)

/-- The graph with a changed node. For `nodes.py:469,511`. -/
def CGraph.put (g : CGraph P) (i : ℕ) (f : CFeat P) : CGraph P := { g with feats := g.feats.set i f }

/-- The getter `coord_indices` of the `i`-th feature, `nodes.py:455-471`. -/
def CGraph.readC (W : CWork P) (g : CGraph P) (i : ℕ) : Option (List ℕ) × CGraph P :=
  match g.feats[i]? with
  | none => (none, g)
  | some f =>
    match f.coord with
    | some l => (some l, g)
    | none => (some (coordNew W g f), g.put i { f with coord := some (coordNew W g f) })

/-- The getter `coord_indices_e`, `nodes.py:487-513`. -/
def CGraph.readE (W : CWork P) (g : CGraph P) (i : ℕ) : Option (List ℕ) × CGraph P :=
  match g.feats[i]? with
  | none => (none, g)
  | some f =>
    match f.coordE with
    | some l => (some l, g)
    | none =>
      match coordNewE W g f with
      | none => (none, g)
      | some l => (some l, g.put i { f with coordE := some l })

/-- `coord_species`, `nodes.py:473-476`; `coord_dists`, `nodes.py:478-480`, needs the same indices. -/
def speciesOf (sites : List (String × P)) (l : List ℕ) : Option (List String) := l.mapM fun j => (sites[j]?).map Prod.fst

/-- One statement of the user. For `nodes.py:376-385,455-518`. -/
inductive COp
  | read (i : ℕ)
  | readE (i : ℕ)
  | setType (i : ℕ) (t : String)

/-- The result of a statement and the graph after it: the getters and the setter `feature_type`, `nodes.py:380-385`. -/
def CGraph.step (W : CWork P) (g : CGraph P) : COp → Option (List ℕ) × CGraph P
  | .read i => g.readC W i
  | .readE i => g.readE W i
  | .setType i t =>
    match g.feats[i]? with
    | none => (none, g)
    | some f => (none, g.put i { f with type := t })

/-- Several statements. For `nodes.py:455-518`. -/
def CGraph.session (W : CWork P) (g : CGraph P) : List COp → List (Option (List ℕ)) × CGraph P
  | [] => ([], g)
  | o :: os =>
    let r := g.step W o
    let t := r.2.session W os
    (r.1 :: t.1, t.2)

/-- The hover text of one feature, `nodes.py:184-198`: the indices and the species of the neighbours are read; an index without a site raises.  The flag
says that nothing has been raised. -/
def plotLabel (W : CWork P) (atoms : List (String × P)) (r : Bool × CGraph P) (i : ℕ) : Bool × CGraph P :=
  if r.1 then
    match (r.2.readC W i).1 with
    | none => (false, (r.2.readC W i).2)
    | some l => ((speciesOf atoms l).isSome, (r.2.readC W i).2)
  else r

/-- The loop of `get_plot` over the features, `graph.py:803-827`.  The flag says that the plot was made. -/
def CGraph.plot (W : CWork P) (g : CGraph P) : Bool × CGraph P := (List.range g.feats.length).foldl (plotLabel W g.atoms) (true, g)

end BaderKit
