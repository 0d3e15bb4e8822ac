import Verif.Model.BifTree
import Verif.Model.Assign
/-!
# Labelling the features

Model of `_get_bifurcation_graph` and the marking methods, `src/baderkit/core/labelers/elf_labeler/elf_labeler.py:2036-2500`, and of
`coord_indices`, `bifurcation_graph/nodes.py:455-471`.

Simplifications.
* Everything that depends on the position of a feature (average of the maxima of its basins) is a parameter that takes the list of basins:
  distances to the atoms, the neighbours found by `CrystalNN` and the pair of atoms found by `check_all_covalent` within the angle tolerance.
* The radii (`atom_elf_radii`) are a parameter.
* Exceptions are `none`.  Feature types are the strings of the enumeration (`deep_shell` is an alias of `shell`, `enum_and_styling.py:113-114`);
  `feature_type = None` does not occur.
* `_nearest_atom_sphere`, `print` and logging are left out.
-/
namespace BaderKit
variable {K : Type} [Field K] [LinearOrder K]

/-- The surroundings and settings of a labeler, `elf_labeler.py:162-260`. -/
structure MarkEnv (K : Type) where
  /-- neighbours found by `CrystalNN` -/
  cnn : List ℕ → List ℕ
  /-- `atom_dists` -/
  atomDists : List ℕ → List K
  /-- the atoms of `check_all_covalent`, if the feature is within the tolerance -/
  bond : List ℕ → Option (ℕ × ℕ)
  isMetal : ℕ → Bool
  basinCharge : ℕ → K
  basinVolume : ℕ → K
  radii : List K
  nAtoms : ℕ
  /-- `max_point_dist * 2` -/
  coreDist : K
  combineShells : Bool
  shellRatio : K
  bondRatio : K
  minBondCharge : K
  minElf : K
  minDepth : K
  minCharge : K
  minVolume : K
  minBeyond : K
  ignoreLow : Bool

/-- `FeatureType.atomic_types`, `enum_and_styling.py:131-133`. -/
def atomicTypes : List String := ["shell", "core", "lone-pair"]

/-- `charge`, `nodes.py:387-389`. -/
def nodeCharge (env : MarkEnv K) (n : TNode K) : K := (n.basins.map env.basinCharge).sum

/-- `volume`, `nodes.py:391-393`. -/
def nodeVolume (env : MarkEnv K) (n : TNode K) : K := (n.basins.map env.basinVolume).sum

/-- `np.min`, an empty array raises. For `elf_labeler.py:2157-2162`. -/
def npMin : List K → Option K
  | [] => none
  | x :: l => some (l.foldl min x)

/-- `node.feature_type = f`. For `elf_labeler.py:2157-2162`. -/
def setFeature (g : BGraph K) (k : ℕ) (f : String) : BGraph K := modNode g k fun n => { n with feature := f }

/-- `unassigned_nodes`, `graph.py:177-191`. -/
def unassigned (g : BGraph K) : List ℕ := g.nodes.filter fun k => !(g.node k).red && (g.node k).feature == "unknown"

/-- `get_feature_nodes`, `graph.py:246-263`. -/
def featureNodes (g : BGraph K) (types : List String) : List ℕ := g.nodes.filter fun k => !(g.node k).red && types.contains (g.node k).feature

/-- Body of `_mark_cores`, `elf_labeler.py:2157-2162`. -/
def coreStep (env : MarkEnv K) (g : BGraph K) (k : ℕ) : Option (BGraph K) :=
  if (g.node k).subtype = some "irreducible - cage" then some g
  else if (g.node k).atoms.length ≠ 1 then some g
  else (npMin (env.atomDists (g.node k).basins)).map fun d => if d ≤ env.coreDist then setFeature g k "shell" else g

/-- `_mark_cores`, `elf_labeler.py:2149-2162`. -/
def markCores (env : MarkEnv K) (g : BGraph K) : Option (BGraph K) := (unassigned g).foldlM (coreStep env) g

/-- The first loop of `_mark_shells`, `elf_labeler.py:2182-2184`. -/
def markOneAtom (g : BGraph K) : BGraph K :=
  (unassigned g).foldl (fun h k => if (h.node k).atoms.length = 1 then setFeature h k "shell" else h) g

/-- `max_elf`, `elf_labeler.py:2203-2206`. -/
def highestMax (g : BGraph K) (l : List ℕ) : K := l.foldl (fun m c => if m < (g.node c).maxV then (g.node c).maxV else m) 0

/-- Body of the second loop of `_mark_shells`, `elf_labeler.py:2191-2211`; the second component is `shell_nodes`. -/
def shellStep (env : MarkEnv K) (fuel : ℕ) (st : BGraph K × List ℕ) (k : ℕ) : Option (BGraph K × List ℕ) :=
  if 0 < (st.1.node k).dim ∨ (st.1.node k).atoms.length ≠ 1 then some st
  else if (st.1.node k).children.any (fun c => (st.1.node c).atoms.length == 1) then some st
  else do
    let r := readDepth st.1 k
    let deep ← deepChildren r.2 fuel k
    let total := highestMax r.2 deep - (r.2.node k).minV
    if total = 0 then none
    else if env.shellRatio < r.1 / total then some (r.2, st.2 ++ [k])
    else some (r.2, st.2)

/-- Body of the third loop of `_mark_shells`, `elf_labeler.py:2215-2223`.  Without `combine_shells` the code sets the attribute `subtype` of the
irreducible nodes below, which nothing reads. -/
def shellApply (env : MarkEnv K) (shape : List ℕ → ℕ) (fuel : ℕ) (g : BGraph K) (k : ℕ) : Option (BGraph K) :=
  if env.combineShells then (makeIrreducible shape g fuel k).map fun h => setFeature h k "shell" else some g

/-- `_mark_shells`, `elf_labeler.py:2164-2223`. -/
def markShells (env : MarkEnv K) (shape : List ℕ → ℕ) (fuel : ℕ) (g : BGraph K) : Option (BGraph K) := do
  let h := markOneAtom g
  let st ← (h.nodes.filter fun k => (h.node k).red).foldlM (shellStep env fuel) (h, [])
  st.2.foldlM (shellApply env shape fuel) st.1

/-- The graph with the stored `_coord_indices` of its nodes. For `elf_labeler.py:2149-2500`. -/
structure MState (K : Type) where
  g : BGraph K
  coord : ℕ → Option (List ℕ)

/-- `coord_indices`, `nodes.py:455-471`: the value and the state with the value stored. -/
def readCoord (env : MarkEnv K) (st : MState K) (k : ℕ) : Option (List ℕ × MState K) :=
  match st.coord k with
  | some l => some (l, st)
  | none =>
    if atomicTypes.contains (st.g.node k).feature then
      (argmin (env.atomDists (st.g.node k).basins)).map fun a => ([a], { st with coord := Function.update st.coord k (some [a]) })
    else some (env.cnn (st.g.node k).basins, { st with coord := Function.update st.coord k (some (env.cnn (st.g.node k).basins)) })

/-- `one_atom` and `both_atoms`, `elf_labeler.py:2284-2294`. -/
def bothLoop (g : BGraph K) (a b : ℕ) : List ℕ → Option K → Option K × Option K
  | [], one => (one, none)
  | p :: l, one =>
    let one' := if a ∈ (g.node p).atoms ∨ b ∈ (g.node p).atoms then (if one = none then some (g.node p).maxV else one) else one
    if a ∈ (g.node p).atoms ∧ b ∈ (g.node p).atoms then (one', some (g.node p).maxV) else bothLoop g a b l one'

/-- `both_atoms / one_atom`, `elf_labeler.py:2296`; `None` and a zero raise. -/
def bondQuot : Option K × Option K → Option K
  | (some one, some both) => if one = 0 then none else some (both / one)
  | _ => none

/-- The label of a covalent feature, `elf_labeler.py:2302-2318`. -/
def bondLabel (env : MarkEnv K) (st : MState K) (k a b : ℕ) : MState K :=
  if env.isMetal a || env.isMetal b then
    { g := setFeature st.g k (if env.minBondCharge < nodeCharge env (st.g.node k) then "covalent-metallic" else "shallow covalent-metallic"),
      coord := Function.update st.coord k (some [a, b]) }
  else if env.minBondCharge < nodeCharge env (st.g.node k) then
    { g := setFeature st.g k "covalent", coord := Function.update st.coord k (some [a, b]) }
  else st

/-- A feature within the tolerance, `elf_labeler.py:2268-2318`; a root has no `ancestors[-1]`. -/
def bondStep (env : MarkEnv K) (fuel : ℕ) (st : MState K) (k a b : ℕ) : Option (MState K) := do
  let anc ← ancestors st.g fuel k
  let q ← bondQuot (bothLoop st.g a b anc none)
  if q < env.bondRatio then some st
  else
    let r ← readCoord env st k
    if r.1.length ≠ 2 then some r.2 else some (bondLabel env r.2 k a b)

/-- Body of `_mark_covalent`, `elf_labeler.py:2260-2318`. -/
def covalentStep (env : MarkEnv K) (fuel : ℕ) (st : MState K) (k : ℕ) : Option (MState K) :=
  match env.bond (st.g.node k).basins with
  | none => some st
  | some (a, b) => bondStep env fuel st k a b

/-- `_mark_covalent`, `elf_labeler.py:2225-2321`. -/
def markCovalent (env : MarkEnv K) (fuel : ℕ) (g : BGraph K) : Option (MState K) :=
  (unassigned g).foldlM (covalentStep env fuel) ⟨g, fun _ => none⟩

/-- `assigned_nodes`, `elf_labeler.py:2335-2344`. -/
def assignedNodes (g : BGraph K) : List ℕ :=
  g.nodes.filter fun k => !(g.node k).red && !(["unknown", "shallow covalent-metallic"].contains (g.node k).feature)

/-- `some_covalent`, `elf_labeler.py:2363-2367`. -/
def someCovalent (g : BGraph K) (leaves : List ℕ) : Bool := leaves.any fun c => ["covalent", "covalent-metallic"].contains (g.node c).feature

/-- `some_atom`, `elf_labeler.py:2369-2370`. -/
def someAtomic (g : BGraph K) (leaves : List ℕ) : Bool := leaves.any fun c => atomicTypes.contains (g.node c).feature

/-- Body of the loop for ionic lone pairs, `elf_labeler.py:2395-2400`; the second component is `assigned_nodes`. -/
def ionicStep (env : MarkEnv K) (st : MState K × List ℕ) (c : ℕ) : MState K × List ℕ :=
  if (st.1.g.node c).red || st.2.contains c then st
  else if env.minBondCharge < nodeCharge env (st.1.g.node c) then ({ st.1 with g := setFeature st.1.g c "lone-pair" }, st.2 ++ [c])
  else st

/-- Body of the loop for lone pairs next to covalent bonds, `elf_labeler.py:2420-2439`. -/
def lonePairStep (env : MarkEnv K) (atoms : List ℕ) (st : MState K × List ℕ) (c : ℕ) : Option (MState K × List ℕ) :=
  if (st.1.g.node c).red || st.2.contains c then some st
  else do
    let r ← readCoord env st.1 c
    if 1 < (r.1.filter fun i => atoms.contains i).length then some (r.2, st.2)
    else if env.minBondCharge < nodeCharge env (r.2.g.node c) then
      some (⟨setFeature r.2.g c "lone-pair", Function.update r.2.coord c none⟩, st.2 ++ [c])
    else some (r.2, st.2)

/-- One reducible node of `_mark_lonepairs`, `elf_labeler.py:2349-2439`. -/
def lonePairNode (env : MarkEnv K) (fuel : ℕ) (st : MState K × List ℕ) (k : ℕ) : Option (MState K × List ℕ) :=
  if (st.1.g.node k).atoms.length = 0 then some st
  else do
    let deep ← deepChildren st.1.g fuel k
    let leaves := deep.filter fun c => !(st.1.g.node c).red
    if leaves.all (fun c => st.2.contains c) then some st
    else if (st.1.g.node k).atoms.length = 1 ∧ (st.1.g.node k).dim = 0 then
      if leaves.all (fun c => !(st.2.contains c)) then
        some (deep.foldl (fun s c => ({ s.1 with g := setFeature s.1.g c "shell" }, s.2 ++ [c])) st)
      else if someAtomic st.1.g leaves && !(someCovalent st.1.g leaves) then some (deep.foldl (ionicStep env) st)
      else some st
    else if leaves.all (fun c => !(st.2.contains c)) then some (st.1, st.2 ++ deep)
    else if !(someCovalent st.1.g leaves) then some st
    else deep.foldlM (lonePairStep env (st.1.g.node k).atoms) st

/-- `_mark_lonepairs`, `elf_labeler.py:2323-2439`. -/
def markLonePairs (env : MarkEnv K) (argsort : List (ℕ × K) → List (ℕ × K)) (fuel : ℕ) (st : MState K) : Option (MState K) :=
  ((sortedReducible argsort st.g).reverse.foldlM (lonePairNode env fuel) (st, assignedNodes st.g)).map Prod.fst

/-- `dist_beyond_atoms.min()`, `elf_labeler.py:2462-2468`; arrays of different lengths raise (an array of length one would be broadcast, which
is left out). -/
def beyondOf (env : MarkEnv K) (n : TNode K) : Option K :=
  if (env.atomDists n.basins).length ≠ env.radii.length then none
  else npMin (List.zipWith (fun d r => d - r) (env.atomDists n.basins) env.radii)

/-- The first loop of `_mark_metallic_or_bare`, `elf_labeler.py:2460-2468`. -/
def setBeyond (env : MarkEnv K) (g : BGraph K) : Option (BGraph K) :=
  (g.nodes.filter fun k => !(g.node k).red).foldlM (fun h k => (beyondOf env (h.node k)).map fun d => modNode h k fun n => { n with beyond := some d }) g

/-- `np.all(condition_test > conditions)`, `elf_labeler.py:2488-2497`; `None > x` raises. -/
def bareTest (env : MarkEnv K) (fuel : ℕ) (g : BGraph K) (k : ℕ) : Option Bool := do
  let d ← depthToInfinite g fuel k
  let b ← (g.node k).beyond
  some (decide (env.minElf < (g.node k).maxV ∧ env.minDepth < d ∧ env.minCharge < nodeCharge env (g.node k) ∧
    env.minVolume < nodeVolume env (g.node k) ∧ env.minBeyond < b))

/-- Body of the second loop, `elf_labeler.py:2480-2500`. -/
def bareStep (env : MarkEnv K) (fuel : ℕ) (g : BGraph K) (k : ℕ) : Option (BGraph K) :=
  if !(["metallic", "bare electron", "unknown"].contains (g.node k).feature) then some g
  else (bareTest env fuel g k).map fun t => setFeature g k (if t then "bare electron" else "multi-centered")

/-- `_mark_metallic_or_bare`, `elf_labeler.py:2448-2500`. -/
def markBare (env : MarkEnv K) (fuel : ℕ) (g : BGraph K) : Option (BGraph K) := do
  let h ← setBeyond env g
  (h.nodes.filter fun k => !(h.node k).red).foldlM (bareStep env fuel) h

/-- `nearest_atom` of the nodes, `elf_labeler.py:2113-2115`. -/
def nearestAtoms (env : MarkEnv K) (g : BGraph K) : Option (List ℕ) :=
  (featureNodes g atomicTypes).mapM fun k => argmin (env.atomDists (g.node k).basins)

/-- The checks at the end, `elf_labeler.py:2113-2130`: `some false` and `some true` are the two exceptions for missing atoms and for
unassigned features, `none` is none of them. -/
def finalCheck (env : MarkEnv K) (g : BGraph K) (near : List ℕ) : Option Bool :=
  if near.dedup.length ≠ env.nAtoms ∧ env.ignoreLow = false then some false
  else if unassigned g ≠ [] then some true
  else none

/-- The marking of a new graph up to the checks, `elf_labeler.py:2054-2094`. -/
def markAll (env : MarkEnv K) (shape : List ℕ → ℕ) (argsort : List (ℕ × K) → List (ℕ × K)) (fuel : ℕ) (g : BGraph K) : Option (MState K) := do
  let g1 ← markCores env g
  let g2 ← markShells env shape fuel g1
  let s3 ← markCovalent env fuel g2
  let s4 ← markLonePairs env argsort fuel s3
  let g5 ← markBare env fuel s4.g
  some { s4 with g := g5 }

/-- `_get_bifurcation_graph` on a new graph, `elf_labeler.py:2054-2130`. -/
def labelFeatures (env : MarkEnv K) (shape : List ℕ → ℕ) (argsort : List (ℕ × K) → List (ℕ × K)) (fuel : ℕ) (g : BGraph K) : Option (MState K) := do
  let s ← markAll env shape argsort fuel g
  let near ← nearestAtoms env s.g
  if finalCheck env s.g near = none then some s else none

end BaderKit
