import Verif.Model.Assign
import Verif.Model.ElfCharges
/-!
# Summaries of results

Model of `to_dict`, `to_json` and `write_json` of `Bader` (`src/baderkit/core/bader/bader.py:1561-1699`), `Badelf`
(`badelf/badelf.py:1035-1146`), `SpinBadelf` (`badelf/badelf_spin.py:476-572`), `ElfLabeler` (`labelers/elf_labeler/elf_labeler.py:1861-2034`)
and `SpinElfLabeler` (`labelers/elf_labeler/elf_labeler_spin.py:645-778`), and of the oxidation states of `Badelf` and `SpinBadelf`
(`badelf.py:811-849`, `badelf_spin.py:322-362`).

Simplifications.
* A Python value is one of the kinds of `Entry`; numbers are elements of `K`, arrays of any shape are lists of their entries.
* The properties of an object are a function from names to values; a name that is no property is `Entry.nothing`, which is what
  `getattr(self, name, None)` gives.
* `json.dumps` is modelled by the condition under which it succeeds; the text is the dictionary itself.
-/
namespace BaderKit

/-- The kinds of Python values in the summaries. For `bader.py:1653-1655`. -/
inductive Entry (K : Type) where
  | nothing
  /-- A string, or a member of a string enumeration. -/
  | text (t : String)
  /-- A number (`float`, `int`, `np.float64`) or truth value. -/
  | number (x : K)
  /-- A Python list of numbers, strings or lists of them. -/
  | numbers (l : List K)
  | texts (l : List String)
  | nested (l : List (List K))
  /-- A numpy array. -/
  | array (l : List K)
  | textArray (l : List String)
  /-- A list of numpy arrays. -/
  | arrays (l : List (List K))
  /-- A `Structure` (or `BifurcationGraph`) object, with its text form. -/
  | struct (text : String)
  deriving DecidableEq

variable {K : Type}

/-- Whether `json.dumps` accepts a value: arrays and objects raise `TypeError`. For `bader.py:1653-1655`. -/
def Entry.dumpable : Entry K → Bool
  | .array _ => false
  | .textArray _ => false
  | .arrays _ => false
  | .struct _ => false
  | _ => true

/-- `results[key].tolist()`; other values have no such method. For `bader.py:1653-1655`. -/
def Entry.tolist : Entry K → Option (Entry K)
  | .array l => some (.numbers l)
  | .textArray l => some (.texts l)
  | _ => none

/-- `if results[key] is None: continue` and `tolist`, `bader.py:1653-1655`. -/
def Entry.listed (e : Entry K) : Option (Entry K) :=
  match e with
  | .nothing => some .nothing
  | e => e.tolist

/-- `results[key].to(fmt="POSCAR")` and `to_json()`. For `elf_labeler.py:1946-1949`. -/
def Entry.written : Entry K → Option (Entry K)
  | .struct t => some (.text t)
  | _ => none

/-- `if result_obj is not None: result_obj.to_json()`, `elf_labeler.py:1946-1949`. -/
def Entry.writtenIf (e : Entry K) : Option (Entry K) :=
  match e with
  | .nothing => some .nothing
  | e => e.written

/-- `[i.tolist() for i in result_obj]`, `elf_labeler.py:1974-1981`. -/
def Entry.eachListed : Entry K → Option (Entry K)
  | .nothing => some .nothing
  | .arrays l => some (.nested l)
  | _ => none

/-- A dictionary, in the order of insertion. For `bader.py:1596-1606,1657-1664`. -/
abbrev PyDict (K : Type) := List (String × Entry K)

/-- `json.dumps(d)`. For `bader.py:1671-1684`. -/
def dumps (d : PyDict K) : Option (PyDict K) := if d.all fun e => e.2.dumpable then some d else none

/-- `for result in keys: d[result] = getattr(self, result, None)`, with a conversion of each value. For `bader.py:1596-1606,1657-1664`. -/
def collect (attr : String → Entry K) (conv : Entry K → Option (Entry K)) (keys : List String) : Option (PyDict K) :=
  keys.mapM fun k => (conv (attr k)).map fun v => (k, v)

/-- The atom section, `bader.py:1596-1606,1657-1664`: `species` is kept, the arrays are converted for JSON. -/
def baderAtomSection (attr : String → Entry K) (useJson : Bool) : Option (PyDict K) := do
  let a ← collect attr some ["species"]
  let b ← collect attr (if useJson then Entry.listed else some)
    ["atom_charges", "atom_volumes", "atom_min_surface_distances", "atom_avg_surface_distances"]
  pure (a ++ b)

/-- The basin section, `bader.py:1608-1622,1638-1655`. -/
def baderBasinSection (attr : String → Entry K) (useJson : Bool) : Option (PyDict K) :=
  collect attr (if useJson then Entry.listed else some) ["basin_atoms", "basin_atom_dists", "basin_charges", "basin_volumes", "basin_maxima_frac",
    "basin_maxima_charge_values", "basin_maxima_ref_values", "basin_maxima_vox", "significant_basins", "basin_min_surface_distances",
    "basin_avg_surface_distances"]

/-- `to_dict`, `bader.py:1561-1669`: the settings, the oxidation states `oxi` (`nothing` without a POTCAR, an array otherwise) as they are, the
other results, and the two sections, here with `atom_results.` and `basin_results.` written before their keys. -/
def baderDict (attr : String → Entry K) (oxi : Entry K) (useJson : Bool) : Option (PyDict K) := do
  let m ← collect attr some ["method", "vacuum_tol", "basin_tol"]
  let s ← collect attr (if useJson then Entry.written else some) ["structure"]
  let r ← collect attr some ["vacuum_charge", "vacuum_volume", "num_vacuum", "total_electron_number", "total_volume"]
  let a ← baderAtomSection attr useJson
  let b ← baderBasinSection attr useJson
  pure (m ++ ("oxidation_states", oxi) :: s ++ r ++ a ++ b)

/-- `to_json`, `bader.py:1671-1684`. -/
def baderJson (attr : String → Entry K) (oxi : Entry K) : Option (PyDict K) := (baderDict attr oxi true).bind dumps

section
variable [Field K]

/-- `get_oxidation_from_potcar`, `bader.py:826-846`: outer `none` is an exception; `potcars` is `none` if the file does not exist. -/
def baderOxidation (potcars : Option (List (String × K))) (sites : List String) (charges : List K) : Option (Entry K) :=
  match potcars with
  | none => some .nothing
  | some ps => (oxidation ps sites charges).map .array

/-- `get_oxidation_from_potcar`, `badelf.py:827-849`, `badelf_spin.py:338-360`: `valence` has one entry per site of the electride structure
(`nsites`), the first ones are filled from the elements of the atoms; arrays of different lengths cannot be subtracted. -/
def badelfOxidation (potcars : Option (List (String × K))) (atoms : List String) (nsites : ℕ) (charges : List K) : Option (Entry K) :=
  match potcars with
  | none => some .nothing
  | some ps => do
    let v ← atoms.mapM (nelectronData ps)
    if v.length ≤ nsites ∧ charges.length = nsites then
      some (.array (List.zipWith (fun a b => a - b) (v ++ List.replicate (nsites - v.length) 0) charges))
    else none

end

/-- `to_dict`, `badelf.py:1055-1118` with `use_json`. -/
def badelfDict (attr : String → Entry K) (oxi : Entry K) : Option (PyDict K) := do
  let m ← collect attr some ["method", "shared_feature_splitting_method", "elf_labeler_kwargs"]
  let o ← oxi.listed
  let s ← collect attr Entry.written ["structure", "labeled_structure", "electride_structure"]
  let a ← collect attr Entry.listed ["charges", "volumes", "elf_maxima", "min_surface_distances", "avg_surface_distances"]
  let r ← collect attr some ["species", "nelectrides", "all_electride_dims", "all_electride_dim_cutoffs", "electride_dimensionality",
    "electride_formula", "electrides_per_formula", "electrides_per_reduced_formula", "total_electron_number", "total_volume", "spin_system",
    "vacuum_charge", "vacuum_volume"]
  pure (m ++ ("oxidation_states", o) :: s ++ a ++ r)

/-- `to_json`, `badelf.py:1120-1134`; the oxidation states are asked for only of the whole system, `badelf.py:1066-1069`. -/
def badelfJson (attr : String → Entry K) (total : Bool) (oxi : Option (Entry K)) : Option (PyDict K) :=
  (if total then oxi else some .nothing).bind fun o => (badelfDict attr o).bind dumps

/-- `to_dict`, `badelf_spin.py:496-529` with `use_json`; the settings are those of the spin-up object. -/
def spinBadelfDict (attr attrUp : String → Entry K) (oxi : Entry K) : Option (PyDict K) := do
  let m ← collect attrUp some ["method", "shared_feature_splitting_method", "elf_labeler_kwargs"]
  let o ← oxi.listed
  let s ← collect attr Entry.written ["structure", "labeled_structure", "electride_structure"]
  let a ← collect attr Entry.listed ["charges", "volumes"]
  let r ← collect attr some ["spin_system", "species", "nelectrides", "electride_dimensionality", "electride_formula", "electrides_per_formula",
    "electrides_per_reduced_formula", "total_electron_number", "total_volume", "vacuum_charge", "vacuum_volume"]
  pure (m ++ ("oxidation_states", o) :: s ++ a ++ r)

section
variable [Field K] [LinearOrder K]

/-- The name of a splitting method. For `elf_labeler.py:1895-1996`. -/
def Splitting.name : Splitting → String
  | .weightedDist => "weighted_dist"
  | .pauling => "pauling"
  | .equal => "equal"
  | .dist => "dist"
  | .nearest => "nearest"
  | .invalid => ""

/-- What `ElfLabeler` has for its charges (`Model/ElfCharges`). For `elf_labeler.py:1005-1053`. -/
structure ElfData (K : Type) where
  rnd : K → K
  radii : ℕ → K
  en : ℕ → K
  /-- The elements of the atoms. -/
  atoms : List String
  features : List (ElfFeature K)

/-- `get_charges_and_volumes(use_electrides=useE)` as a list over the sites. For `elf_labeler.py:1005-1053`. -/
def ElfData.charges (d : ElfData K) (m : Splitting) (useE : Bool) : Option (List K × List K) :=
  (chargesVolumes d.rnd m useE d.radii d.en d.atoms.length d.features).map fun r =>
    ((List.range (chargeSites useE d.atoms.length d.features)).map r.1, (List.range (chargeSites useE d.atoms.length d.features)).map r.2)

/-- The symbols of the sites: electrides are dummy atoms. For `elf_labeler.py:1005-1053`. -/
def ElfData.sites (d : ElfData K) (useE : Bool) : List String :=
  d.atoms ++ List.replicate (chargeSites useE d.atoms.length d.features - d.atoms.length) "E"

/-- `get_oxidation_and_volumes_from_potcar`, `elf_labeler.py:1005-1053`: the keyword arguments, here the splitting method, reach
`get_charges_and_volumes`; a symbol without entry counts as no electrons. -/
def ElfData.oxidation (d : ElfData K) (ps : List (String × K)) (m : Splitting) (useE : Bool) : Option (List K × List K × List K) :=
  (d.charges m useE).map fun r =>
    (((d.sites useE).zip r.1).map fun e => d.rnd ((nelectronData ps e.1).getD 0 - e.2), r.1.map d.rnd, r.2.map d.rnd)

/-- The oxidation states, charges and volumes of the summary without and with electrides, `elf_labeler.py:1908-1929`: the splitting method is not
passed on, so the default `weighted_dist` is used. -/
def ElfData.summary (d : ElfData K) (potcars : Option (List (String × K))) : Option ((Entry K × List K × List K) × (Entry K × List K × List K)) :=
  match potcars with
  | some ps => (d.oxidation ps .weightedDist false).bind fun x => (d.oxidation ps .weightedDist true).map fun y =>
      ((.numbers x.1, x.2), (.numbers y.1, y.2))
  | none => (d.charges .weightedDist false).bind fun x => (d.charges .weightedDist true).map fun y => ((.nothing, x), (.nothing, y))

/-- `to_dict`, `elf_labeler.py:1895-1996` with `use_json`: `m` is only recorded; `total` is `spin_system == "total"`, `potcars` is `none` without the
file. -/
def elfDict (attr : String → Entry K) (d : ElfData K) (total : Bool) (potcars : Option (List (String × K))) (m : Splitting) :
    Option (PyDict K) := do
  let s0 ← collect attr some ["crystalnn_kwargs", "ignore_low_pseudopotentials", "shared_shell_ratio", "covalent_molecule_ratio",
    "min_covalent_charge", "min_covalent_angle", "min_electride_elf_value", "min_electride_depth", "min_electride_charge",
    "min_electride_volume", "min_electride_dist_beyond_atom", "spin_system"]
  let (x, y) ← d.summary (if total then potcars else none)
  let s ← collect attr Entry.writtenIf ["structure", "labeled_structure", "electride_structure", "bifurcation_graph"]
  let a ← collect attr Entry.listed ["atom_elf_radii", "atom_elf_radii_types", "atom_elf_radii_e", "atom_elf_radii_types_e", "atom_max_values_e",
    "feature_max_values", "feature_min_values", "feature_charges", "feature_volumes", "feature_coord_nums", "feature_coord_nums_e",
    "feature_min_surface_dists", "feature_avg_surface_dists"]
  let l ← collect attr Entry.eachListed ["feature_coord_dists", "feature_coord_atoms_dists_e"]
  let r ← collect attr some ["nelectrides", "electride_formula", "electrides_per_formula", "electrides_per_reduced_formula", "feature_types",
    "feature_coord_atoms", "feature_coord_atoms_e", "atom_feature_indices_e", "total_electron_number", "total_volume", "vacuum_charge",
    "vacuum_volume"]
  pure (("splitting_method", .text m.name) :: s0 ++ [("oxidation_states", x.1), ("oxidation_states_e", y.1), ("charges", .numbers x.2.1),
    ("charges_e", .numbers y.2.1), ("volumes", .numbers x.2.2), ("volumes_e", .numbers y.2.2)] ++ s ++ a ++ l ++ r)

/-- `to_json`, `elf_labeler.py:1998-2014`. -/
def elfJson (attr : String → Entry K) (d : ElfData K) (total : Bool) (potcars : Option (List (String × K))) (m : Splitting) :
    Option (PyDict K) := (elfDict attr d total potcars m).bind dumps

end

/-- The properties of `SpinElfLabeler` that its summary may find, `elf_labeler_spin.py:110-600`. -/
def spinElfProps : List String := ["structure", "nearest_neighbor_data", "atom_elf_radii", "atom_elf_radii_types", "atom_nn_elf_radii",
  "atom_nn_elf_radii_types", "labeled_structure", "electride_structure", "nelectrides", "electride_formula", "electrides_per_formula",
  "electrides_per_reduced_formula", "vacuum_charge", "vacuum_volume", "total_electron_number", "total_volume", "spin_system"]

/-- `getattr(self, name, None)` of a `SpinElfLabeler`. For `elf_labeler_spin.py:697-735`. -/
def spinElfAttr (prop : String → Entry K) (name : String) : Entry K := if name ∈ spinElfProps then prop name else .nothing

/-- The results of `to_dict` that are looked up by name, `elf_labeler_spin.py:697-735` with `use_json`. -/
def spinElfDict (prop : String → Entry K) : Option (PyDict K) := do
  let s ← collect (spinElfAttr prop) Entry.writtenIf ["structure", "labeled_structure", "electride_structure"]
  let a ← collect (spinElfAttr prop) Entry.listed ["atom_elf_radii", "atom_elf_radii_types", "atom_elf_radii_e", "atom_elf_radii_types_e"]
  let r ← collect (spinElfAttr prop) some ["spin_system", "nelectrides", "feature_types", "electride_formula", "electrides_per_formula",
    "electrides_per_reduced_formula", "total_electron_number", "total_volume", "vacuum_charge", "vacuum_volume"]
  pure (s ++ a ++ r)

end BaderKit
