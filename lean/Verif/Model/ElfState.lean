import Verif.Model.BadelfRun
/-!
# The lazily evaluated results of an `ElfLabeler` and of a `Badelf` object

Model of the getters of `ElfLabeler` (`src/baderkit/core/labelers/elf_labeler/elf_labeler.py:158-2135`) and of `Badelf`
(`src/baderkit/core/badelf/badelf.py:98-520`) as state machines.  An exception leaves everything that was stored before it in place.

* The numerical work is a collection `LabelWork` of functions.  The marking of features changes the graph in place, so a step that raises still leaves a
  graph: `(graph, false)`.
* The results of the nodes that are computed on demand (`nodes.py`) are functions of the graph here; the stored `_electrides_per_formula`,
  `_electrides_per_reduced_formula`, `_atom_feature_indices_e`, `_atom_max_values_e` and `_bifurcation_plot` likewise are results of the graph.
* `_atom_nn_elf_radii`, `_atom_nn_elf_radii_types`, `_nearest_neighbor_data` and `_atom_nn_planes` are always stored together and are one value, and so are
  the radii of the sites and their types.
* There is at least one feature (otherwise `_mark_metallic_or_bare` does not read the radii).
* `_labeled_multi` only changes a message of the log and is left out.
-/
namespace BaderKit

/-- The work of the labeler.  `σ` settings and grids, `G` graph with labels, `R` radii of neighbours, `A` radii of sites, `V` results of features named
by `ι`. For `elf_labeler.py:2047-2052,2136-2143`. -/
structure LabelWork (σ G R A V ι : Type) where
  /-- `bader.atom_labels` and `BifurcationGraph.from_labeler`, `elf_labeler.py:2047-2052,2136-2143`. -/
  init : σ → Option G
  /-- `_mark_cores`, `elf_labeler.py:2149-2162`. -/
  cores : σ → G → G × Bool
  /-- `_mark_shells`, `elf_labeler.py:2164-2223`. -/
  shells : σ → G → G × Bool
  /-- `_mark_covalent`, `elf_labeler.py:2225-2321`. -/
  covalent : σ → G → G × Bool
  /-- `_mark_lonepairs`, `elf_labeler.py:2323-2439`. -/
  lonePairs : σ → G → G × Bool
  /-- `_get_nn_atom_elf_radii` after its test, `elf_labeler.py:1442-1470`; the flag is `use_electrides`. -/
  nnRadii : σ → G → Bool → Option R
  /-- `_get_atom_elf_radii` for the atoms, `elf_labeler.py:1473-1514`. -/
  siteRadii : σ → R → Option A
  /-- `_get_atom_elf_radii` for atoms and electrides. -/
  siteRadiiE : σ → G → R → Option A
  /-- `_mark_metallic_or_bare` with the radii of the atoms, `elf_labeler.py:2448-2500`. -/
  multi : σ → A → G → G × Bool
  /-- The two tests, `elf_labeler.py:2110-2130`. -/
  check : σ → G → Bool
  /-- `_calculate_feature_surface_dists`. -/
  surface : σ → G → G × Bool
  /-- `len(self.structure) != len(self.electride_structure)`, `elf_labeler.py:578`. -/
  hasBare : σ → G → Bool
  /-- A result of the features, `elf_labeler.py:757-976`. -/
  prop : ι → G → Option V

variable {σ G R A V ι : Type}

/-- The labeler, `elf_labeler.py:158-255`; `runs` counts the calls of `_get_bifurcation_graph`. -/
structure ElfSt (σ G R A : Type) where
  cfg : σ
  graph : Option G
  labeledCov : Bool
  nn : Option R
  siteR : Option A
  nnE : Option R
  siteRE : Option A
  runs : ℕ

/-- `__init__`, `elf_labeler.py:162-255`. -/
def ElfSt.new (c : σ) : ElfSt σ G R A := ⟨c, none, false, none, none, none, none, 0⟩

/-- A marking step changes the stored graph in place. For `elf_labeler.py:2225-2321`. -/
def ElfSt.mark (f : σ → G → G × Bool) (s : ElfSt σ G R A) : ElfSt σ G R A × Bool :=
  match s.graph with
  | none => (s, false)
  | some g => ({ s with graph := some (f s.cfg g).1 }, (f s.cfg g).2)

/-- `_initialize_bifurcation_graph`, `elf_labeler.py:2047-2052,2136-2143`: the graph is stored before it is labelled. -/
def initStep (W : LabelWork σ G R A V ι) (s : ElfSt σ G R A) : ElfSt σ G R A × Bool :=
  match W.init s.cfg with
  | none => (s, false)
  | some g => ({ s with graph := some g }, true)

/-- `_mark_covalent` with its last line, `elf_labeler.py:2225-2321`. -/
def covalentMark (W : LabelWork σ G R A V ι) (s : ElfSt σ G R A) : ElfSt σ G R A × Bool :=
  let r := s.mark W.covalent
  if r.2 then ({ r.1 with labeledCov := true }, true) else r

/-- The radii of the neighbours, `elf_labeler.py:2081-2094,1440-1441`. -/
def radiiStep (W : LabelWork σ G R A V ι) (s : ElfSt σ G R A) : ElfSt σ G R A × Bool :=
  if s.labeledCov then
    match s.graph.bind fun g => W.nnRadii s.cfg g false with
    | none => (s, false)
    | some r => ({ s with nn := some r }, true)
  else (s, false)

/-- The getter `atom_elf_radii` when the radii of the neighbours are there, `elf_labeler.py:456-464`; missing ones raise. -/
def ElfSt.siteOf (W : LabelWork σ G R A V ι) (s : ElfSt σ G R A) : Option A × ElfSt σ G R A :=
  match s.siteR with
  | some a => (some a, s)
  | none =>
    match s.nn.bind (W.siteRadii s.cfg) with
    | none => (none, s)
    | some a => (some a, { s with siteR := some a })

/-- `_mark_metallic_or_bare`, `elf_labeler.py:2448-2500`. -/
def multiStep (W : LabelWork σ G R A V ι) (s : ElfSt σ G R A) : ElfSt σ G R A × Bool :=
  match s.siteOf W with
  | (none, t) => (t, false)
  | (some a, t) => t.mark fun c => W.multi c a

/-- The tests, `elf_labeler.py:2110-2130`. -/
def checkStep (W : LabelWork σ G R A V ι) (s : ElfSt σ G R A) : ElfSt σ G R A × Bool :=
  (s, match s.graph with | none => false | some g => W.check s.cfg g)

/-- The steps of `_get_bifurcation_graph`, `elf_labeler.py:2036-2134`. -/
def labelSteps (W : LabelWork σ G R A V ι) : List (ElfSt σ G R A → ElfSt σ G R A × Bool) :=
  [initStep W, ElfSt.mark W.cores, ElfSt.mark W.shells, covalentMark W, ElfSt.mark W.lonePairs, radiiStep W, multiStep W, checkStep W,
    ElfSt.mark W.surface]

/-- `_get_bifurcation_graph`: the steps one after the other until one raises. For `elf_labeler.py:266-279`. -/
def ElfSt.label (W : LabelWork σ G R A V ι) (s : ElfSt σ G R A) : ElfSt σ G R A × Bool :=
  (labelSteps W).foldl (fun r f => if r.2 then f r.1 else r) ({ s with runs := s.runs + 1 }, true)

/-- The getter `bifurcation_graph`, `elf_labeler.py:266-279`; `none` is an exception. -/
def ElfSt.readGraph (W : LabelWork σ G R A V ι) (s : ElfSt σ G R A) : Option G × ElfSt σ G R A :=
  match s.graph with
  | some g => (some g, s)
  | none => let r := s.label W; (if r.2 then r.1.graph else none, r.1)

/-- `nearest_neighbor_data`, `atom_nn_elf_radii`, `atom_nn_elf_radii_types`, `elf_labeler.py:405-421,530-559`: possibly `None`. -/
def ElfSt.readNN (W : LabelWork σ G R A V ι) (s : ElfSt σ G R A) : Option (Option R) × ElfSt σ G R A :=
  match s.nn with
  | some r => (some (some r), s)
  | none =>
    match s.readGraph W with
    | (none, t) => (none, t)
    | (some _, t) => (some t.nn, t)

/-- `atom_elf_radii` and `atom_elf_radii_types`, `elf_labeler.py:445-484`. -/
def ElfSt.readSites (W : LabelWork σ G R A V ι) (s : ElfSt σ G R A) : Option A × ElfSt σ G R A :=
  match s.siteR with
  | some a => (some a, s)
  | none =>
    match s.readNN W with
    | (none, t) => (none, t)
    | (some _, t) => t.siteOf W

/-- `nearest_neighbor_data_e`, `atom_nn_elf_radii_e`, `elf_labeler.py:423-439,561-604`; `_labeled_covalent` is never `None`. -/
def ElfSt.readNNE (W : LabelWork σ G R A V ι) (s : ElfSt σ G R A) : Option (Option R) × ElfSt σ G R A :=
  match s.nnE with
  | some r => (some (some r), s)
  | none =>
    match s.readGraph W with
    | (none, t) => (none, t)
    | (some g, t) =>
      if W.hasBare t.cfg g then
        if t.labeledCov then
          match W.nnRadii t.cfg g true with
          | none => (none, t)
          | some r => (some (some r), { t with nnE := some r })
        else (none, t)
      else
        match t.readNN W with
        | (none, u) => (none, u)
        | (some r, u) => (some r, { u with nnE := r })

/-- `atom_elf_radii_e` and `atom_elf_radii_types_e`, `elf_labeler.py:486-528`. -/
def ElfSt.readSitesE (W : LabelWork σ G R A V ι) (s : ElfSt σ G R A) : Option A × ElfSt σ G R A :=
  match s.siteRE with
  | some a => (some a, s)
  | none =>
    match s.readGraph W with
    | (none, t) => (none, t)
    | (some g, t) =>
      match t.readNNE W with
      | (none, u) => (none, u)
      | (some r, u) =>
        match r.bind (W.siteRadiiE u.cfg g) with
        | none => (none, u)
        | some a => (some a, { u with siteRE := some a })

/-- What can be read. For `elf_labeler.py:266-604,757-976`. -/
inductive ElfRead (ι : Type) | feature (i : ι) | nn | sites | nnE | sitesE

/-- What is answered. For `elf_labeler.py:266-604,757-976`. -/
inductive ElfAns (R A V : Type) | feature (v : V) | nn (r : Option R) | sites (a : A)
  deriving DecidableEq

/-- One read; `none` is an exception. For `elf_labeler.py:266-604,757-976`. -/
def ElfSt.read (W : LabelWork σ G R A V ι) (s : ElfSt σ G R A) : ElfRead ι → Option (ElfAns R A V) × ElfSt σ G R A
  | .feature i => let r := s.readGraph W; ((r.1.bind (W.prop i)).map .feature, r.2)
  | .nn => let r := s.readNN W; (r.1.map .nn, r.2)
  | .sites => let r := s.readSites W; (r.1.map .sites, r.2)
  | .nnE => let r := s.readNNE W; (r.1.map .nn, r.2)
  | .sitesE => let r := s.readSitesE W; (r.1.map .sites, r.2)

/-- What a user does with a labeler: reading, and assigning to its public attributes, which resets nothing (`elf_labeler.py:204-222,257`). -/
inductive ElfOp (σ ι : Type) | read (q : ElfRead ι) | set (c : σ)

/-- One operation. For `elf_labeler.py:204-222,257-604`. -/
def ElfSt.op (W : LabelWork σ G R A V ι) (s : ElfSt σ G R A) : ElfOp σ ι → Option (Option (ElfAns R A V)) × ElfSt σ G R A
  | .read q => let r := s.read W q; (some r.1, r.2)
  | .set c => (none, { s with cfg := c })

/-- A session: the answers of the reads in order, and the object at the end. For `elf_labeler.py:204-222,257-604`. -/
def ElfSt.session (W : LabelWork σ G R A V ι) : ElfSt σ G R A → List (ElfOp σ ι) → List (Option (ElfAns R A V)) × ElfSt σ G R A
  | s, [] => ([], s)
  | s, o :: os => let r := s.op W o; let q := r.2.session W os; (r.1.toList ++ q.1, q.2)

/-! ## `Badelf` -/

/-- The work of `Badelf`: `P` planes, `B` labels, charges and volumes; the settings are the method and whether a splitting needs the radii.
For `badelf.py:376-447`. -/
structure BadelfWork (G R A P B : Type) where
  /-- `get_cell_wrapped_voronoi` and the sorting, `badelf.py:407-446`. -/
  wrap : R → Option P
  /-- Some shared feature is divided with the radii of the sites, `elf_labeler.py:1178-1206`. -/
  needsRadii : G → Bool
  /-- `get_charges_and_volumes`, `elf_labeler.py:1050-1217`. -/
  zeroFlux : G → Option A → Option B
  /-- `get_badelf_assignments`, `badelf.py:480-540`; the flag is whether the method is `badelf`. -/
  assign : Bool → G → P → Option B

variable {P B : Type}

/-- A `Badelf` object with its labeler, `badelf.py:98-178`. -/
structure BadelfSt (σ G R A P B : Type) where
  lab : ElfSt σ G R A
  method : BMethod
  planes : Option P
  result : Option B

/-- `__init__`, `badelf.py:98-178`, with a labeler that is given or new. -/
def BadelfSt.new (l : ElfSt σ G R A) (m : BMethod) : BadelfSt σ G R A P B := ⟨l, m, none, none⟩

/-- The getter `partitioning_planes` for a method with planes, `badelf.py:376-447`; unpacking `None` raises. -/
def BadelfSt.readPlanes (W : LabelWork σ G R A V ι) (U : BadelfWork G R A P B) (s : BadelfSt σ G R A P B) :
    Option P × BadelfSt σ G R A P B :=
  match s.planes with
  | some p => (some p, s)
  | none =>
    let r := if s.method = .badelf then s.lab.readNN W else s.lab.readNNE W
    match r.1.join.bind U.wrap with
    | none => (none, { s with lab := r.2 })
    | some p => (some p, { s with lab := r.2, planes := some p })

/-- `_get_voxel_assignments`, `badelf.py:460-556`. -/
def BadelfSt.assign (W : LabelWork σ G R A V ι) (U : BadelfWork G R A P B) (s : BadelfSt σ G R A P B) :
    Option B × BadelfSt σ G R A P B :=
  if s.method = .zeroFlux then
    match s.lab.readGraph W with
    | (none, t) => (none, { s with lab := t })
    | (some g, t) =>
      let r : Option (Option A) × ElfSt σ G R A := if U.needsRadii g then let q := t.readSitesE W; (q.1.map some, q.2) else (some none, t)
      match r.1.bind (U.zeroFlux g) with
      | none => (none, { s with lab := r.2 })
      | some b => (some b, { s with lab := r.2, result := some b })
  else
    match s.readPlanes W U with
    | (none, t) => (none, t)
    | (some p, t) =>
      match t.lab.readGraph W with
      | (none, u) => (none, { t with lab := u })
      | (some g, u) =>
        match U.assign (decide (s.method = .badelf)) g p with
        | none => (none, { t with lab := u })
        | some b => (some b, { t with lab := u, result := some b })

/-- `charges`, `volumes`, `atom_labels`, `badelf.py:313-339,449-461`. -/
def BadelfSt.readResult (W : LabelWork σ G R A V ι) (U : BadelfWork G R A P B) (s : BadelfSt σ G R A P B) :
    Option B × BadelfSt σ G R A P B :=
  match s.result with
  | some b => (some b, s)
  | none => s.assign W U

/-- What a user does with a `Badelf` object: reading planes or results, anything with its labeler, assigning `method`.
For `badelf.py:313-461`. -/
inductive BadelfOp (σ ι : Type) | planes | result | labeler (o : ElfOp σ ι) | setMethod (m : BMethod)

/-- One operation; the answer is that of reads of planes and results. For `badelf.py:313-461`. -/
def BadelfSt.op (W : LabelWork σ G R A V ι) (U : BadelfWork G R A P B) (s : BadelfSt σ G R A P B) :
    BadelfOp σ ι → (Option (Option P) × Option (Option B)) × BadelfSt σ G R A P B
  | .planes => if s.method = .zeroFlux then ((some none, none), s) else let r := s.readPlanes W U; ((some r.1, none), r.2)
  | .result => let r := s.readResult W U; ((none, some r.1), r.2)
  | .labeler o => ((none, none), { s with lab := (s.lab.op W o).2 })
  | .setMethod m => ((none, none), { s with method := m })

/-- A session: the answers to the reads of results, and the object at the end. For `badelf.py:313-461`. -/
def BadelfSt.session (W : LabelWork σ G R A V ι) (U : BadelfWork G R A P B) :
    BadelfSt σ G R A P B → List (BadelfOp σ ι) → List (Option B) × BadelfSt σ G R A P B
  | s, [] => ([], s)
  | s, o :: os => let r := s.op W U o; let q := r.2.session W U os; (r.1.2.toList ++ q.1, q.2)

end BaderKit
