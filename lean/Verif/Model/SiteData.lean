import Verif.Model.ElfCharges
/-!
# Data of the sites of an electride structure

Model of `ElfLabeler._get_atom_elf_radii`, `atom_feature_indices_e`, `atom_max_values_e`, `nelectrides`, `electrides_per_formula`,
`electrides_per_reduced_formula` and `atom_nn_elf_radii_types_e`
(`src/baderkit/core/labelers/elf_labeler/elf_labeler.py:338-399,606-670,1473-1514`).

Simplifications.
* `np.argsort` is not stable; its result is a parameter, the theorems hold for every sorting permutation.
* The rounding to ten decimals is the parameter `rnd` or left out where said.
-/
namespace BaderKit
variable {K : Type} [Field K] [LinearOrder K]

/-- `np.argmax(sorted_sites == i)`, `elf_labeler.py:1511`: the first position of `i`, 0 if there is none; an empty array raises. -/
def argmaxEq (i : ℕ) (l : List ℕ) : Option ℕ :=
  if l.isEmpty then none else if i ∈ l then some (l.idxOf i) else some 0

/-- `_get_atom_elf_radii`, `elf_labeler.py:1473-1514`; `n` is `len(structure)`, `perm` is `np.argsort(all_radii)`; `none` is an exception. -/
def atomElfRadii (n : ℕ) (radii : List K) (types : List Bool) (sites perm : List ℕ) : Option (List (K × Bool)) := do
  let sorted ← perm.mapM fun p => sites[p]?
  (List.range n).mapM fun i => do
    let first ← argmaxEq i sorted
    let p ← perm[first]?
    let r ← radii[p]?
    let t ← types[p]?
    some (r, t)

/-- The loop `for feat_idx, node in ...: if node.coord_number == 1 and ... not in bare_types: atom_features[node.coord_indices_e[0]].append(feat_idx)`,
`elf_labeler.py:638-643`; `k` is `feat_idx`, `n` the length of `atom_features`; `none` is an `IndexError`. -/
def shellLoop (n : ℕ) : List (ElfFeature K) → ℕ → (ℕ → List ℕ) → Option (ℕ → List ℕ)
  | [], _, m => some m
  | f :: fs, k, m =>
    if f.coord.length = 1 ∧ f.bare = false then
      match f.coordE with
      | [] => none
      | a :: _ => if a < n then shellLoop n fs (k + 1) (Function.update m a (m a ++ [k])) else none
    else shellLoop n fs (k + 1) m

/-- The loop over bare electrons, `elf_labeler.py:645-649`; `el` is `electride_num`. -/
def bareLoop (atoms n : ℕ) : List (ElfFeature K) → ℕ → ℕ → (ℕ → List ℕ) → Option (ℕ → List ℕ)
  | [], _, _, m => some m
  | f :: fs, k, el, m =>
    if f.bare = true then
      if atoms + el < n then bareLoop atoms n fs (k + 1) (el + 1) (Function.update m (atoms + el) (m (atoms + el) ++ [k])) else none
    else bareLoop atoms n fs (k + 1) el m

/-- `atom_feature_indices_e`, `elf_labeler.py:622-651`: one list of features for each site of the electride structure, which has one site more for
every bare electron (`graph.py:205-208`). -/
def atomFeatures (atoms : ℕ) (fs : List (ElfFeature K)) : Option (List (List ℕ)) := do
  let n := chargeSites true atoms fs
  let m ← shellLoop n fs 0 (fun _ => [])
  let m ← bareLoop atoms n fs 0 0 m
  some ((List.range n).map m)

/-- `np.max`; an empty array raises. For `elf_labeler.py:653-670`. -/
def npMax : List K → Option K
  | [] => none
  | x :: xs => some (xs.foldl max x)

/-- `atom_max_values_e`, `elf_labeler.py:653-670` (without the second rounding); `vals` are `feature_max_values`. -/
def atomMaxValues (atoms : ℕ) (fs : List (ElfFeature K)) (vals : List K) : Option (List K) := do
  let l ← atomFeatures atoms fs
  l.mapM fun idx => do
    let v ← idx.mapM fun (i : ℕ) => vals[i]?
    npMax v

/-- `nelectrides`, `elf_labeler.py:338-348`. -/
def nelectrides (atoms : ℕ) (fs : List (ElfFeature K)) : ℕ := chargeSites true atoms fs - atoms

/-- `electrides_per_formula`, `elf_labeler.py:363-379`. -/
def electridesPerFormula (rnd : K → K) (fs : List (ElfFeature K)) : K :=
  rnd (fs.foldl (fun (acc : K) f => if f.bare = true then acc + f.charge else acc) 0)

/-- `electrides_per_reduced_formula`, `elf_labeler.py:381-399`; `factor` is the number of reduced formulas in the cell. -/
def electridesPerReduced (rnd : K → K) (fs : List (ElfFeature K)) (factor : K) : K :=
  rnd (electridesPerFormula rnd fs / factor)

/-- `atom_nn_elf_radii_types_e`, `elf_labeler.py:606-620`: the second argument is computed but the first one is returned. -/
def nnTypesE (types _typesE : List Bool) : List String :=
  types.map fun (t : Bool) => if t then "covalent" else "ionic"

end BaderKit
