import Verif.Model.BifTree
/-!
# Dictionaries, JSON texts and membership of a bifurcation graph

Model of `src/baderkit/core/labelers/bifurcation_graph/graph.py:55-90,263-362` and
`src/baderkit/core/labelers/bifurcation_graph/nodes.py:89-100,204-230,532-537`, with the memory in which the dictionaries live.

Simplifications.
* The memory has three kinds of objects, each a list indexed by addresses: dictionaries of nodes, dictionaries of graphs and keyword
  dictionaries of `CrystalNN`.  Objects are only added.  The list under "nodes" and the lists of numbers are never changed by the code and
  are values; `np.array(..., dtype=np.float64)` and `tolist` keep the numbers.
* A dictionary of a graph always has its keys except "nodes".
* `structure.to_json` and `Structure.from_str` are the parameters `toText` and `fromText`.
* The keyword dictionary is a value of a type `W`; `viaJson` is what `json.loads(json.dumps(...))` makes of it, `none` where it raises.
* A JSON text is its content.  Python writes floats so that they read back as the same number.
* `CrystalNN(**crystalnn_kwargs)` does not raise.
-/
namespace BaderKit

/-- What can be raised in `graph.py:294-331`, `nodes.py:89-100,225-230`. -/
inductive GErr where
  | keyError
  | badStructure
  | badNode
  | notSerializable
  | attributeError
  | assertionError
deriving DecidableEq

/-- A dictionary of a node; `typ` is the entry "domain_type", `nodes.py:204-230`. -/
structure NDict (K : Type) where
  typ : Option Bool
  body : NodeDict K

/-- The entry "structure", a text or after `graph.py:312-314` an object. -/
inductive SVal (S T : Type) where
  | text (t : T)
  | obj (s : S)

/-- A dictionary of a graph, `graph.py:273-290`. -/
structure GDict (S T K : Type) where
  nodes : Option (List ℕ)
  struct : SVal S T
  labelerType : String
  maxima : Option (List K)
  charges : Option (List K)
  volumes : Option (List K)
  radii : Option (List K)
  kw : ℕ

/-- The memory. For `graph.py:263-362`. -/
structure GMem (S T K W : Type) where
  nd : List (NDict K)
  gd : List (GDict S T K)
  kws : List W

/-- A graph object, `graph.py:67-77`; there is no attribute for the atomic radii. -/
structure GObj (S K : Type) where
  struct : S
  labelerType : String
  maxima : Option (List K)
  charges : Option (List K)
  volumes : Option (List K)
  kw : ℕ
  tree : BGraph K

/-- A JSON text, `graph.py:333-343`. -/
structure GText (T K W : Type) where
  nodes : List (NodeDict K)
  struct : T
  labelerType : String
  maxima : Option (List K)
  charges : Option (List K)
  volumes : Option (List K)
  radii : Option (List K)
  kw : W

variable {S T K W : Type} [Field K] [LinearOrder K]

/-- `BifurcationGraph.__init__`, `graph.py:55-77`: `atomic_radii` is accepted and not stored. -/
def mkGraph (s : S) (lt : String) (maxima charges volumes : Option (List K)) (kw : ℕ) (_radii : Option (List K)) : GObj S K :=
  ⟨s, lt, maxima, charges, volumes, kw, emptyGraph⟩

/-- `BifurcationGraph.to_dict`, `graph.py:263-292`; the result is the address of the new dictionary.  `getattr(self, "atomic_radii", None)`
is `None` as the attribute is never set. -/
def toDict (toText : S → T) (m : GMem S T K W) (g : GObj S K) : GMem S T K W × ℕ :=
  let nds := (graphDict g.tree).map (fun d => (⟨some d.red, d⟩ : NDict K))
  ({ m with
      nd := m.nd ++ nds
      gd := m.gd ++ [⟨some ((List.range nds.length).map (fun i => m.nd.length + i)), .text (toText g.struct), g.labelerType, g.maxima,
        g.charges, g.volumes, none, g.kw⟩] },
    m.gd.length)

/-- `NodeBase.from_dict` for the dictionary at an address, `nodes.py:225-230`: the entry "domain_type" is removed from the dictionary. -/
def readNode (m : GMem S T K W) (t : BGraph K) (a : ℕ) : GMem S T K W × Except GErr (BGraph K) :=
  match m.nd[a]? with
  | none => (m, .error .keyError)
  | some d =>
    match d.typ with
    | none => (m, .error .keyError)
    | some r =>
      let m1 := { m with nd := m.nd.set a { d with typ := none } }
      match nodeFromDict t { d.body with red := r } with
      | none => (m1, .error .badNode)
      | some t' => (m1, .ok t')

/-- The loop over the nodes, `graph.py:327-329`. -/
def readNodes (m : GMem S T K W) (t : BGraph K) : List ℕ → GMem S T K W × Except GErr (BGraph K)
  | [] => (m, .ok t)
  | a :: as =>
    match readNode m t a with
    | (m1, .ok t') => readNodes m1 t' as
    | (m1, .error e) => (m1, .error e)

/-- `BifurcationGraph.from_dict` for the dictionary at an address, `graph.py:294-331`.  It removes the entry "nodes" and replaces the entry
"structure". -/
def fromDict (fromText : T → Option S) (m : GMem S T K W) (a : ℕ) : GMem S T K W × Except GErr (GObj S K) :=
  match m.gd[a]? with
  | none => (m, .error .keyError)
  | some d =>
    match d.nodes with
    | none => (m, .error .keyError)
    | some ns =>
      let m1 := { m with gd := m.gd.set a { d with nodes := none } }
      match d.struct with
      | .obj _ => (m1, .error .badStructure)
      | .text t =>
        match fromText t with
        | none => (m1, .error .badStructure)
        | some s =>
          let m2 := { m with gd := m.gd.set a { d with nodes := none, struct := .obj s } }
          let g := mkGraph s d.labelerType d.maxima d.charges d.volumes d.kw d.radii
          match readNodes m2 g.tree ns with
          | (m3, .ok t') => (m3, .ok { g with tree := t' })
          | (m3, .error e) => (m3, .error e)

/-- `dict(d)`, a copy of a dictionary of a graph made by the caller of `graph.py:294-331`: the entries are shared. -/
def shallowCopy (m : GMem S T K W) (a : ℕ) : Option (GMem S T K W × ℕ) :=
  (m.gd[a]?).map (fun d => ({ m with gd := m.gd ++ [d] }, m.gd.length))

/-- `BifurcationGraph.to_json`, `graph.py:333-343`. -/
def toJson (toText : S → T) (viaJson : W → Option W) (m : GMem S T K W) (g : GObj S K) : Except GErr (GText T K W) :=
  match (m.kws[g.kw]?).bind viaJson with
  | none => .error .notSerializable
  | some w => .ok ⟨graphDict g.tree, toText g.struct, g.labelerType, g.maxima, g.charges, g.volumes, none, w⟩

/-- `json.loads`, `graph.py:361`: new objects for everything in the text. -/
def loadsGraph (m : GMem S T K W) (x : GText T K W) : GMem S T K W × ℕ :=
  ({ nd := m.nd ++ x.nodes.map (fun d => (⟨some d.red, d⟩ : NDict K))
     gd := m.gd ++ [⟨some ((List.range x.nodes.length).map (fun i => m.nd.length + i)), .text x.struct, x.labelerType, x.maxima, x.charges,
       x.volumes, x.radii, m.kws.length⟩]
     kws := m.kws ++ [x.kw] },
   m.gd.length)

/-- `BifurcationGraph.from_json`, `graph.py:345-362`. -/
def fromJson (fromText : T → Option S) (m : GMem S T K W) (x : GText T K W) : GMem S T K W × Except GErr (GObj S K) :=
  fromDict fromText (loadsGraph m x).1 (loadsGraph m x).2

/-- What is looked for with `in`: a node object, given by its graph, its identity and its key, or something else. For `graph.py:88-89`. -/
inductive Sought where
  | node (graph uid key : ℕ)
  | other
deriving DecidableEq

/-- `NodeBase.__eq__` of a node of the graph `gid` with an object, `nodes.py:89-100`. -/
def nodeEq (gid key : ℕ) : Sought → Except GErr Bool
  | .other => .error .attributeError
  | .node h _ k => if gid = h then .ok (decide (key = k)) else .error .assertionError

/-- `key in graph`, `graph.py:88-89`: the test of a Python list, which takes an entry that is the object itself and else asks `__eq__`.
The list has the identity and the key of each node. -/
def inGraph (gid : ℕ) : List (ℕ × ℕ) → Sought → Except GErr Bool
  | [], _ => .ok false
  | (u, k) :: ns, q =>
    if (match q with | .node h u' _ => decide (h = gid ∧ u' = u) | .other => false) = true then .ok true
    else
      match nodeEq gid k q with
      | .ok true => .ok true
      | .ok false => inGraph gid ns q
      | .error e => .error e

end BaderKit
