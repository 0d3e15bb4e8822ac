import Verif.Model.Assign
/-!
# Charges and labels of ELF features

Model of `ElfLabeler.get_charges_and_volumes` (`src/baderkit/core/labelers/elf_labeler/elf_labeler.py:1056-1217`) and
`ElfLabeler.get_feature_labels` (`elf_labeler.py:1219-1332`).

Simplifications.
* The properties of the features (charge, volume, type, coordination, distances) are given as data; CrystalNN and the labelling itself are
  not modelled.
* The final rounding to ten decimals is the parameter `rnd`.
* A division by zero gives 0 instead of a warning and `inf`/`nan`; the theorems assume positive distances, radii and electronegativities.
* `np.unique` is `dedup`: the order of the unique atoms does not matter for `array[unique_atoms] += ...`.
-/
namespace BaderKit
variable {K : Type} [Field K] [LinearOrder K]

/-- What the two methods use of a feature. For `elf_labeler.py:1135-1215`. -/
structure ElfFeature (K : Type) where
  charge : K
  volume : K
  /-- The feature type is in `FeatureType.bare_types`. -/
  bare : Bool
  /-- `feature_coord_atoms`, `elf_labeler.py:880-889`. -/
  coord : List ℕ
  /-- `feature_coord_dists`, `elf_labeler.py:904-913`. -/
  dists : List K
  /-- `feature_coord_atoms_e`, `elf_labeler.py:916-925`. -/
  coordE : List ℕ
  /-- `feature_coord_atoms_dists_e`, `elf_labeler.py:941-950`. -/
  distsE : List K
  /-- `feature_basins`. -/
  basins : List ℕ
  /-- The feature type. -/
  kind : String

/-- The splitting methods, `elf_labeler.py:1058-1060`. -/
inductive Splitting where
  | weightedDist | pauling | equal | dist | nearest | invalid
  deriving DecidableEq

/-- The fractions of a feature with at least two coordinated atoms given to atoms, `elf_labeler.py:1163-1215`; `dists0` are the distances
without electrides, which 'nearest' always uses. -/
def splitFractions (m : Splitting) (radii en : ℕ → K) (coord : List ℕ) (dists dists0 : List K) : Option (List (ℕ × K)) :=
  match m with
  | .equal => some (coord.dedup.map fun a => (a, 1 / (coord.length : K) * (coord.count a : K)))
  | .pauling =>
    let tot := (coord.map en).sum
    some (coord.dedup.map fun a => (a, en a / tot * (coord.count a : K)))
  | .dist =>
    let inv := dists.map fun d => 1 / d
    some (coord.zip (inv.map fun w => w / inv.sum))
  | .weightedDist =>
    let ws := List.zipWith (fun a d => radii a / d) coord dists
    some (coord.zip (ws.map fun w => w / ws.sum))
  | .nearest => (argmin dists0).map fun i => [(i, 1)]
  | .invalid => none

/-- The fractions of a feature that is not treated as an electride, `elf_labeler.py:1135-1215`. -/
def featureFractions (m : Splitting) (useE : Bool) (radii en : ℕ → K) (f : ElfFeature K) : Option (List (ℕ × K)) :=
  let coord := if useE then f.coordE else f.coord
  let dists := if useE then f.distsE else f.dists
  match coord with
  | [] => (argmin f.dists).map fun i => [(i, 1)]
  | [a] => some [(a, 1)]
  | _ => splitFractions m radii en coord dists f.dists

/-- `atom_charge[i] += charge * fraction`, an index beyond the array raises. For `elf_labeler.py:1119-1215`. -/
def giveShares (n : ℕ) (fr : List (ℕ × K)) (c v : K) (st : (ℕ → K) × (ℕ → K)) : Option ((ℕ → K) × (ℕ → K)) :=
  fr.foldlM (fun st e => if e.1 < n then
    some (Function.update st.1 e.1 (st.1 e.1 + c * e.2), Function.update st.2 e.1 (st.2 e.1 + v * e.2)) else none) st

/-- The loop over features, `elf_labeler.py:1119-1215`; `el` is `electride_num`. -/
def chargeLoop (m : Splitting) (useE : Bool) (radii en : ℕ → K) (atoms n : ℕ) :
    List (ElfFeature K) → ℕ → (ℕ → K) × (ℕ → K) → Option ((ℕ → K) × (ℕ → K))
  | [], _, st => some st
  | f :: fs, el, st =>
    if useE = true ∧ f.bare = true then do
      let st ← giveShares n [(atoms + el, 1)] f.charge f.volume st
      chargeLoop m useE radii en atoms n fs (el + 1) st
    else do
      let fr ← featureFractions m useE radii en f
      let st ← giveShares n fr f.charge f.volume st
      chargeLoop m useE radii en atoms n fs el st

/-- Sites of the structure that is used, `elf_labeler.py:1104-1107`: `electride_structure` has one more site for every bare electron. -/
def chargeSites (useE : Bool) (atoms : ℕ) (fs : List (ElfFeature K)) : ℕ :=
  if useE then atoms + (fs.filter (fun f => f.bare)).length else atoms

/-- `get_charges_and_volumes`, `elf_labeler.py:1056-1217`. -/
def chargesVolumes (rnd : K → K) (m : Splitting) (useE : Bool) (radii en : ℕ → K) (atoms : ℕ) (fs : List (ElfFeature K)) :
    Option ((ℕ → K) × (ℕ → K)) :=
  (chargeLoop m useE radii en atoms (chargeSites useE atoms fs) fs 0 (fun _ => 0, fun _ => 0)).map fun r =>
    (fun i => rnd (r.1 i), fun i => rnd (r.2 i))

/-! ### Labels -/

/-- `feature_indices_by_type` and the reordering, `elf_labeler.py:1000-1003,1276-1287`. -/
def featureOrder (included : String → Bool) (byType : Bool) (fs : List (ElfFeature K)) : List ℕ :=
  let idx := (List.range fs.length).filter (fun i => fs[i]?.elim false (fun f => included f.kind))
  if byType then
    idx.filter (fun i => fs[i]?.elim false (fun f => f.bare)) ++
      idx.filter (fun i => fs[i]?.elim false (fun f => !f.bare))
  else idx

/-- `basin_atoms[basins] = new_atom_idx` over the features, `elf_labeler.py:1289-1299`. -/
def relabelBasins (atoms : ℕ) (fs : List (ElfFeature K)) (order : List ℕ) (ba : ℕ → ℤ) : ℕ → ℤ :=
  (order.foldl (fun (st : ℕ × (ℕ → ℤ)) i =>
    (st.1 + 1, fun b => if b ∈ (fs[i]?.elim [] (fun f => f.basins)) then (st.1 : ℤ) else st.2 b)) (atoms, ba)).2

/-- `basin_atoms[basin_labels]` with -1 appended, `elf_labeler.py:1303-1306`; `nb` basins. -/
def featureLabels (atoms nb : ℕ) (fs : List (ElfFeature K)) (order : List ℕ) (ba : ℕ → ℤ) (labels : ℕ → ℤ) : ℕ → ℤ :=
  fun v =>
    let i := pyIdx (nb + 1) (labels v)
    if i = nb then -1 else relabelBasins atoms fs order ba i

/-- The charges of the sites, `elf_labeler.py:1318-1331`; the same function gives volumes. -/
def featureCharges (atoms nb : ℕ) (fs : List (ElfFeature K)) (order : List ℕ) (ba : ℕ → ℤ) (w : ℕ → K) : ℕ → K :=
  bincount ((List.range nb).map fun b => (relabelBasins atoms fs order ba b).toNat) ((List.range nb).map w)

end BaderKit
