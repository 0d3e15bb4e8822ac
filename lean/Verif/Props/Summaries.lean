import Verif.Model.Summaries
import Verif.Props.Assign
import Verif.Lemmas.Lines
/-!
# C99: summaries of results
-/
set_option linter.unusedSectionVars false
namespace BaderKit
variable {K : Type}

/-! ## Specification -/

/-- A result as plain data: arrays as lists, structures as text. -/
def plain : Entry K → Entry K
  | .array l => .numbers l
  | .textArray l => .texts l
  | .arrays l => .nested l
  | .struct t => .text t
  | e => e

/-- The dictionary has exactly one value for the key, and it is `v`. -/
def HasEntry (d : PyDict K) (k : String) (v : Entry K) : Prop := (k, v) ∈ d ∧ ∀ v', (k, v') ∈ d → v' = v

/-- An array, or nothing. -/
def IsArray (e : Entry K) : Prop := e = .nothing ∨ (∃ l, e = .array l) ∨ ∃ l, e = .textArray l

/-- The results of `Bader` in the summary that are arrays. -/
def baderArrays : List String := ["atom_charges", "atom_volumes", "atom_min_surface_distances", "atom_avg_surface_distances", "basin_atoms",
  "basin_atom_dists", "basin_charges", "basin_volumes", "basin_maxima_frac", "basin_maxima_charge_values", "basin_maxima_ref_values",
  "basin_maxima_vox", "significant_basins", "basin_min_surface_distances", "basin_avg_surface_distances"]

/-- Settings, names and totals. -/
def baderPlain : List String := ["method", "vacuum_tol", "basin_tol", "species", "vacuum_charge", "vacuum_volume", "num_vacuum",
  "total_electron_number", "total_volume"]

/-- The results of `Badelf` that are arrays. -/
def badelfArrays : List String := ["charges", "volumes", "elf_maxima", "min_surface_distances", "avg_surface_distances"]

def badelfPlain : List String := ["method", "shared_feature_splitting_method", "elf_labeler_kwargs", "species", "nelectrides",
  "all_electride_dims", "all_electride_dim_cutoffs", "electride_dimensionality", "electride_formula", "electrides_per_formula",
  "electrides_per_reduced_formula", "total_electron_number", "total_volume", "spin_system", "vacuum_charge", "vacuum_volume"]

/-- The results of `ElfLabeler` that are arrays. -/
def elfArrays : List String := ["atom_elf_radii", "atom_elf_radii_types", "atom_elf_radii_e", "atom_elf_radii_types_e", "atom_max_values_e",
  "feature_max_values", "feature_min_values", "feature_charges", "feature_volumes", "feature_coord_nums", "feature_coord_nums_e",
  "feature_min_surface_dists", "feature_avg_surface_dists"]

def elfPlain : List String := ["crystalnn_kwargs", "ignore_low_pseudopotentials", "shared_shell_ratio", "covalent_molecule_ratio",
  "min_covalent_charge", "min_covalent_angle", "min_electride_elf_value", "min_electride_depth", "min_electride_charge",
  "min_electride_volume", "min_electride_dist_beyond_atom", "spin_system", "nelectrides", "electride_formula", "electrides_per_formula",
  "electrides_per_reduced_formula", "feature_types", "feature_coord_atoms", "feature_coord_atoms_e", "atom_feature_indices_e",
  "total_electron_number", "total_volume", "vacuum_charge", "vacuum_volume"]

/-- The number of valence electrons of an element: the last entry of the POTCAR with its symbol, none without entry. -/
def valence [Field K] (ps : List (String × K)) (x : String) : K := ((ps.reverse.find? fun e => e.1 = x).map Prod.snd).getD 0

/-- The oxidation state in the summary of `ElfLabeler`: electrons of the element minus charge for an atom, minus charge for a bare electron. -/
def elfState [Field K] (rnd : K → K) (ps : List (String × K)) (atoms : List String) (q : ℕ → K) (i : ℕ) : K :=
  rnd (atoms[i]?.elim (valence ps "E") (valence ps) - q i)

/-! ## Helpers -/

theorem collect_some (attr : String → Entry K) (conv : Entry K → Option (Entry K)) (keys : List String)
    (h : ∀ k ∈ keys, conv (attr k) = some (plain (attr k))) : collect attr conv keys = some (keys.map fun k => (k, plain (attr k))) :=
  mapM_eq_some_map _ _ _ fun k hk => by rw [h k hk]; rfl

theorem plain_of_dumpable {e : Entry K} (h : e.dumpable = true) : plain e = e := by
  cases e <;> first | rfl | (simp [Entry.dumpable] at h)

theorem collect_keep (attr : String → Entry K) (all keys : List String) (h : ∀ k ∈ all, (attr k).dumpable = true) (hk : ∀ k ∈ keys, k ∈ all) :
    collect attr some keys = some (keys.map fun k => (k, plain (attr k))) :=
  collect_some attr some keys fun k hkk => by rw [plain_of_dumpable (h k (hk k hkk))]

theorem listed_plain {e : Entry K} (h : IsArray e) : e.listed = some (plain e) := by
  rcases h with rfl | ⟨l, rfl⟩ | ⟨l, rfl⟩ <;> rfl

theorem plain_dumpable (e : Entry K) : (plain e).dumpable = true := by cases e <;> rfl

theorem hasEntry_of {d : PyDict K} {keys : List String} (hd : d.map Prod.fst = keys) (hn : keys.Nodup) {k : String} {v : Entry K} (h : (k, v) ∈ d) :
    HasEntry d k v := by
  refine ⟨h, fun v' hv => ?_⟩
  subst hd
  obtain ⟨i, hi, ei⟩ := List.mem_iff_getElem.1 h
  obtain ⟨j, hj, ej⟩ := List.mem_iff_getElem.1 hv
  have := (List.nodup_iff_injective_getElem.1 hn) (a₁ := ⟨i, by simpa using hi⟩) (a₂ := ⟨j, by simpa using hj⟩) (by simp [ei, ej])
  rw [Fin.mk.injEq] at this
  subst this
  rw [ei] at ej
  exact (Prod.mk.inj ej).2.symm

theorem mem_plain {attr : String → Entry K} {keys : List String} {k : String} (h : k ∈ keys) :
    (k, plain (attr k)) ∈ keys.map fun k => (k, plain (attr k)) := List.mem_map.2 ⟨k, h, rfl⟩

theorem dumps_some {d : PyDict K} (h : ∀ e ∈ d, e.2.dumpable = true) : dumps d = some d := by
  unfold dumps
  rw [if_pos (List.all_eq_true.2 h)]

theorem plain_all {attr : String → Entry K} {keys : List String} : ∀ e ∈ keys.map fun k => (k, plain (attr k)), e.2.dumpable = true := by
  intro e he
  obtain ⟨k, -, rfl⟩ := List.mem_map.1 he
  exact plain_dumpable _

/-! ## C99 -/

/-- **C99** for `Bader`, as far as it holds: without a POTCAR the summary can be written as JSON and holds every result once, arrays as
lists and the structure as text. -/
theorem C99_bader_partial [Field K] (attr : String → Entry K) (sites : List String) (charges : List K) (hs : ∃ t, attr "structure" = .struct t)
    (ha : ∀ k ∈ baderArrays, IsArray (attr k)) (hp : ∀ k ∈ baderPlain, (attr k).dumpable = true) :
    ∃ d, ((baderOxidation none sites charges).bind fun oxi => baderJson attr oxi) = some d ∧ HasEntry d "oxidation_states" .nothing ∧
      ∀ k ∈ "structure" :: baderArrays ++ baderPlain, HasEntry d k (plain (attr k)) := by
  obtain ⟨t, ht⟩ := hs
  set k1 := ["method", "vacuum_tol", "basin_tol"] with h1
  set k2 := ["structure"] with h2
  set k3 := ["vacuum_charge", "vacuum_volume", "num_vacuum", "total_electron_number", "total_volume"] with h3
  set k4 := ["species"] with h4
  set k5 := ["atom_charges", "atom_volumes", "atom_min_surface_distances", "atom_avg_surface_distances"] with h5
  set k6 := ["basin_atoms", "basin_atom_dists", "basin_charges", "basin_volumes", "basin_maxima_frac",
    "basin_maxima_charge_values", "basin_maxima_ref_values", "basin_maxima_vox", "significant_basins", "basin_min_surface_distances",
    "basin_avg_surface_distances"] with h6
  have e1 := collect_keep attr baderPlain k1 hp (by rw [h1]; decide)
  have e2 : collect attr Entry.written k2 = _ := collect_some attr _ k2 fun k hk => by
      rw [h2, List.mem_singleton] at hk; subst hk
      rw [ht]; rfl
  have e3 := collect_keep attr baderPlain k3 hp (by rw [h3]; decide)
  have e4 := collect_keep attr baderPlain k4 hp (by rw [h4]; decide)
  have e5 : collect attr Entry.listed k5 = _ := collect_some attr _ k5 fun k h => listed_plain (ha k ((by rw [h5]; decide : ∀ k ∈ k5, k ∈ baderArrays) k h))
  have e6 : collect attr Entry.listed k6 = _ := collect_some attr _ k6 fun k h => listed_plain (ha k ((by rw [h6]; decide : ∀ k ∈ k6, k ∈ baderArrays) k h))
  obtain ⟨d, hd⟩ : ∃ d : PyDict K, d = (k1.map fun k => (k, plain (attr k))) ++ ("oxidation_states", .nothing) :: (k2.map fun k => (k, plain (attr k))) ++
      (k3.map fun k => (k, plain (attr k))) ++ ((k4.map fun k => (k, plain (attr k))) ++ (k5.map fun k => (k, plain (attr k)))) ++
      (k6.map fun k => (k, plain (attr k))) := ⟨_, rfl⟩
  have hdict : baderDict attr .nothing true = some d := by
    unfold baderDict baderAtomSection baderBasinSection
    simp only [if_true, ← h1, ← h2, ← h3, ← h4, ← h5, ← h6, e1, e2, e3, e4, e5, e6, hd, Option.bind_eq_bind, Option.bind_some, Option.pure_def]
  have hfst : d.map Prod.fst = k1 ++ "oxidation_states" :: k2 ++ k3 ++ (k4 ++ k5) ++ k6 := by
    rw [hd]
    simp only [List.map_append, List.map_cons, List.map_map, Function.comp_def, List.map_id']
  have hnd : (k1 ++ "oxidation_states" :: k2 ++ k3 ++ (k4 ++ k5) ++ k6).Nodup := by
    rw [h1, h2, h3, h4, h5, h6]; decide
  refine ⟨d, ?_, hasEntry_of hfst hnd (by rw [hd]; simp), fun k hk => hasEntry_of hfst hnd ?_⟩
  · change baderJson attr .nothing = _
    unfold baderJson
    rw [hdict, Option.bind_some]
    refine dumps_some fun e he => ?_
    rw [hd] at he
    simp only [List.mem_append, List.mem_cons] at he
    rcases he with ((((h | rfl | h) | h) | h | h) | h)
    · exact plain_all e h
    · rfl
    all_goals exact plain_all e h
  · have hk' : k ∈ k1 ++ k2 ++ k3 ++ k4 ++ k5 ++ k6 := by
      revert k
      rw [h1, h2, h3, h4, h5, h6]
      decide
    rw [hd]
    simp only [List.mem_append] at hk' ⊢
    rcases hk' with ((((h | h) | h) | h) | h) | h
    · exact Or.inl (Or.inl (Or.inl (Or.inl (mem_plain h))))
    · exact Or.inl (Or.inl (Or.inl (Or.inr (List.mem_cons_of_mem _ (mem_plain h)))))
    · exact Or.inl (Or.inl (Or.inr (mem_plain h)))
    · exact Or.inl (Or.inr (Or.inl (mem_plain h)))
    · exact Or.inl (Or.inr (Or.inr (mem_plain h)))
    · exact Or.inr (mem_plain h)

/-- **C99** fails for `Bader` with a POTCAR: whatever it contains, the summary is never written as JSON. -/
theorem C99_bader_potcar [Field K] (attr : String → Entry K) (ps : List (String × K)) (sites : List String) (charges : List K) :
    ((baderOxidation (some ps) sites charges).bind fun oxi => baderJson attr oxi) = none := by
  unfold baderOxidation
  simp only
  rcases oxidation ps sites charges with _ | l
  · rfl
  · rw [Option.map_some, Option.bind_some]
    unfold baderJson
    rcases h : baderDict attr (.array l) true with _ | d
    · rfl
    · rw [Option.bind_some]
      unfold dumps
      rw [if_neg]
      intro hall
      rw [List.all_eq_true] at hall
      have hm : ("oxidation_states", Entry.array l) ∈ d := by
        unfold baderDict at h
        simp only [Option.bind_eq_bind, Option.bind_eq_some_iff, Option.pure_def, Option.some.injEq] at h
        obtain ⟨_, _, _, _, _, _, _, _, _, _, rfl⟩ := h
        simp
      exact absurd (hall _ hm) (by simp [Entry.dumpable])

/-- **C99** for `Badelf`: with or without a POTCAR the summary can be written as JSON and holds every result once. -/
theorem C99_badelf (attr : String → Entry K) (oxi : Entry K) (total : Bool)
    (hs : ∀ k ∈ ["structure", "labeled_structure", "electride_structure"], ∃ t, attr k = .struct t)
    (ha : ∀ k ∈ badelfArrays, IsArray (attr k)) (hp : ∀ k ∈ badelfPlain, (attr k).dumpable = true) (ho : IsArray oxi) :
    ∃ d, badelfJson attr total (some oxi) = some d ∧ HasEntry d "oxidation_states" (if total then plain oxi else .nothing) ∧
      ∀ k ∈ ["structure", "labeled_structure", "electride_structure"] ++ badelfArrays ++ badelfPlain, HasEntry d k (plain (attr k)) := by
  obtain ⟨o, hoE, hoA, hoP⟩ : ∃ o, (if total = true then some oxi else some (Entry.nothing : Entry K)) = some o ∧ IsArray o ∧
      plain o = (if total then plain oxi else .nothing) := by
    cases total
    · exact ⟨.nothing, rfl, Or.inl rfl, rfl⟩
    · exact ⟨oxi, rfl, ho, rfl⟩
  set k1 := ["method", "shared_feature_splitting_method", "elf_labeler_kwargs"] with h1
  set k2 := ["structure", "labeled_structure", "electride_structure"] with h2
  set k3 := ["charges", "volumes", "elf_maxima", "min_surface_distances", "avg_surface_distances"] with h3
  set k4 := ["species", "nelectrides", "all_electride_dims", "all_electride_dim_cutoffs", "electride_dimensionality",
    "electride_formula", "electrides_per_formula", "electrides_per_reduced_formula", "total_electron_number", "total_volume", "spin_system",
    "vacuum_charge", "vacuum_volume"] with h4
  have e1 := collect_keep attr badelfPlain k1 hp (by rw [h1]; decide)
  have e2 : collect attr Entry.written k2 = _ := collect_some attr _ k2 fun k hk => by
      obtain ⟨t, ht⟩ := hs k hk
      rw [ht]; rfl
  have e3 : collect attr Entry.listed k3 = _ := collect_some attr _ k3 fun k h => listed_plain (ha k h)
  have e4 := collect_keep attr badelfPlain k4 hp (by rw [h4]; decide)
  obtain ⟨d, hd⟩ : ∃ d : PyDict K, d = (k1.map fun k => (k, plain (attr k))) ++ ("oxidation_states", plain o) :: (k2.map fun k => (k, plain (attr k))) ++
      (k3.map fun k => (k, plain (attr k))) ++ (k4.map fun k => (k, plain (attr k))) := ⟨_, rfl⟩
  have hdict : badelfDict attr o = some d := by
    unfold badelfDict
    simp only [← h1, ← h2, ← h3, ← h4, e1, e2, e3, e4, listed_plain hoA, hd, Option.bind_eq_bind, Option.bind_some, Option.pure_def]
  have hfst : d.map Prod.fst = k1 ++ "oxidation_states" :: k2 ++ k3 ++ k4 := by
    rw [hd]
    simp only [List.map_append, List.map_cons, List.map_map, Function.comp_def, List.map_id']
  have hnd : (k1 ++ "oxidation_states" :: k2 ++ k3 ++ k4).Nodup := by
    rw [h1, h2, h3, h4]; decide
  refine ⟨d, ?_, hasEntry_of hfst hnd (by rw [hd, hoP]; simp), fun k hk => hasEntry_of hfst hnd ?_⟩
  · unfold badelfJson
    rw [hoE, Option.bind_some, hdict, Option.bind_some]
    refine dumps_some fun e he => ?_
    rw [hd] at he
    simp only [List.mem_append, List.mem_cons] at he
    rcases he with (((h | rfl | h) | h) | h)
    · exact plain_all e h
    · exact plain_dumpable _
    all_goals exact plain_all e h
  · have hk' : k ∈ k1 ++ k2 ++ k3 ++ k4 := by
      clear hs
      revert k
      rw [h1, h2, h3, h4]
      decide
    rw [hd]
    simp only [List.mem_append] at hk' ⊢
    rcases hk' with ((h | h) | h) | h
    · exact Or.inl (Or.inl (Or.inl (mem_plain h)))
    · exact Or.inl (Or.inl (Or.inr (List.mem_cons_of_mem _ (mem_plain h))))
    · exact Or.inl (Or.inr (mem_plain h))
    · exact Or.inr (mem_plain h)

/-- **C99** for `SpinBadelf`: the summary can be written as JSON and holds the combined results once, with the settings of the spin-up run. -/
theorem C99_spin_badelf (attr attrUp : String → Entry K) (oxi : Entry K)
    (hs : ∀ k ∈ ["structure", "labeled_structure", "electride_structure"], ∃ t, attr k = .struct t)
    (ha : ∀ k ∈ ["charges", "volumes"], IsArray (attr k))
    (hp : ∀ k ∈ ["spin_system", "species", "nelectrides", "electride_dimensionality", "electride_formula", "electrides_per_formula",
      "electrides_per_reduced_formula", "total_electron_number", "total_volume", "vacuum_charge", "vacuum_volume"], (attr k).dumpable = true)
    (hu : ∀ k ∈ ["method", "shared_feature_splitting_method", "elf_labeler_kwargs"], (attrUp k).dumpable = true) (ho : IsArray oxi) :
    ∃ d, (spinBadelfDict attr attrUp oxi).bind dumps = some d ∧ HasEntry d "oxidation_states" (plain oxi) ∧
      (∀ k ∈ ["method", "shared_feature_splitting_method", "elf_labeler_kwargs"], HasEntry d k (attrUp k)) ∧
      ∀ k ∈ ["structure", "labeled_structure", "electride_structure", "charges", "volumes", "spin_system", "species", "nelectrides",
        "electride_dimensionality", "electride_formula", "electrides_per_formula", "electrides_per_reduced_formula", "total_electron_number",
        "total_volume", "vacuum_charge", "vacuum_volume"], HasEntry d k (plain (attr k)) := by
  set k1 := ["method", "shared_feature_splitting_method", "elf_labeler_kwargs"] with h1
  set k2 := ["structure", "labeled_structure", "electride_structure"] with h2
  set k3 := ["charges", "volumes"] with h3
  set k4 := ["spin_system", "species", "nelectrides", "electride_dimensionality", "electride_formula", "electrides_per_formula",
      "electrides_per_reduced_formula", "total_electron_number", "total_volume", "vacuum_charge", "vacuum_volume"] with h4
  have e1 := collect_keep attrUp k1 k1 hu fun _ h => h
  have e2 : collect attr Entry.written k2 = _ := collect_some attr _ k2 fun k hk => by
      obtain ⟨t, ht⟩ := hs k hk
      rw [ht]; rfl
  have e3 : collect attr Entry.listed k3 = _ := collect_some attr _ k3 fun k h => listed_plain (ha k h)
  have e4 := collect_keep attr k4 k4 hp fun _ h => h
  obtain ⟨d, hd⟩ : ∃ d : PyDict K, d = (k1.map fun k => (k, plain (attrUp k))) ++ ("oxidation_states", plain oxi) :: (k2.map fun k => (k, plain (attr k))) ++
      (k3.map fun k => (k, plain (attr k))) ++ (k4.map fun k => (k, plain (attr k))) := ⟨_, rfl⟩
  have hdict : spinBadelfDict attr attrUp oxi = some d := by
    unfold spinBadelfDict
    simp only [← h1, ← h2, ← h3, ← h4, e1, e2, e3, e4, listed_plain ho, hd, Option.bind_eq_bind, Option.bind_some, Option.pure_def]
  have hfst : d.map Prod.fst = k1 ++ "oxidation_states" :: k2 ++ k3 ++ k4 := by
    rw [hd]
    simp only [List.map_append, List.map_cons, List.map_map, Function.comp_def, List.map_id']
  have hnd : (k1 ++ "oxidation_states" :: k2 ++ k3 ++ k4).Nodup := by
    rw [h1, h2, h3, h4]; decide
  refine ⟨d, ?_, hasEntry_of hfst hnd (by rw [hd]; simp), fun k hk => ?_, fun k hk => hasEntry_of hfst hnd ?_⟩
  · rw [hdict, Option.bind_some]
    refine dumps_some fun e he => ?_
    rw [hd] at he
    simp only [List.mem_append, List.mem_cons] at he
    rcases he with (((h | rfl | h) | h) | h)
    · exact plain_all e h
    · exact plain_dumpable _
    all_goals exact plain_all e h
  · rw [← plain_of_dumpable (hu k hk)]
    refine hasEntry_of hfst hnd ?_
    rw [hd]
    simp only [List.mem_append]
    exact Or.inl (Or.inl (Or.inl (mem_plain hk)))
  · have hk' : k ∈ k2 ++ k3 ++ k4 := hk
    rw [hd]
    simp only [List.mem_append] at hk' ⊢
    rcases hk' with (h | h) | h
    · exact Or.inl (Or.inl (Or.inr (List.mem_cons_of_mem _ (mem_plain h))))
    · exact Or.inl (Or.inr (mem_plain h))
    · exact Or.inr (mem_plain h)

/-- **C99** The oxidation states of `Badelf` and `SpinBadelf`: given exactly when every element has an entry; for an atom the electrons of (the
last entry of) its element minus its charge, for an electride minus its charge; together the electrons of the atoms minus all charges. -/
theorem C99_badelf_oxidation [Field K] [LinearOrder K] [IsStrictOrderedRing K] (ps : List (String × K)) (atoms : List String) (nsites : ℕ) (charges : List K) (hn : atoms.length ≤ nsites)
    (hc : charges.length = nsites) :
    ((badelfOxidation (some ps) atoms nsites charges).isSome = true ↔ ∀ x ∈ atoms, ∃ n, (x, n) ∈ ps) ∧
    ∀ e, badelfOxidation (some ps) atoms nsites charges = some e → ∃ (l ns : List K), e = .array l ∧ l.length = nsites ∧ ns.length = atoms.length ∧
      (∀ (i : ℕ) (hi : i < atoms.length), (ps.reverse.find? fun e => e.1 = atoms[i]).map Prod.snd = ns[i]? ∧
        l[i]? = (ns[i]?).bind fun n => charges[i]?.map fun q => n - q) ∧
      (∀ i, atoms.length ≤ i → l[i]? = charges[i]?.map fun q => -q) ∧ l.sum = ns.sum - charges.sum := by
  have hsome : ∀ x, (∃ n, nelectronData ps x = some n) ↔ ∃ n, (x, n) ∈ ps := by
    intro x
    rw [nelectronData_spec]
    constructor
    · rintro ⟨n, hn⟩
      obtain ⟨e, he, rfl⟩ := Option.map_eq_some_iff.mp hn
      have h1 := List.find?_some he
      have h2 := List.mem_of_find?_eq_some he
      simp only [decide_eq_true_eq] at h1
      exact ⟨e.2, by rw [← h1]; exact List.mem_reverse.mp h2⟩
    · rintro ⟨n, hn⟩
      have : (ps.reverse.find? (fun e => e.1 = x)).isSome = true := by
        rw [List.find?_isSome]
        exact ⟨(x, n), List.mem_reverse.mpr hn, by simp⟩
      obtain ⟨e, he⟩ := Option.isSome_iff_exists.mp this
      exact ⟨e.2, by rw [he]; rfl⟩
  have hval : ∀ v, atoms.mapM (nelectronData ps) = some v → badelfOxidation (some ps) atoms nsites charges =
      some (.array (List.zipWith (fun a b => a - b) (v ++ List.replicate (nsites - v.length) 0) charges)) := by
    intro v hv
    have hl := (mapM_some_spec _ _ _ hv).1
    unfold badelfOxidation
    simp only [hv, Option.bind_eq_bind, Option.bind_some]
    rw [if_pos ⟨by omega, hc⟩]
  constructor
  · constructor
    · intro h x hx
      rcases hv : atoms.mapM (nelectronData ps) with _ | v
      · unfold badelfOxidation at h
        simp [hv] at h
      · obtain ⟨h1, h2⟩ := mapM_some_spec _ _ _ hv
        obtain ⟨i, hi, rfl⟩ := List.mem_iff_getElem.mp hx
        exact (hsome _).1 ⟨_, h2 i hi (by omega)⟩
    · intro h
      obtain ⟨v, hv⟩ := mapM_isSome (nelectronData ps) atoms fun x hx => (hsome x).2 (h x hx)
      rw [hval v hv]; rfl
  · intro e he
    rcases hv : atoms.mapM (nelectronData ps) with _ | v
    · unfold badelfOxidation at he
      simp [hv] at he
    · obtain ⟨h1, h2⟩ := mapM_some_spec _ _ _ hv
      rw [hval v hv, Option.some.injEq] at he
      subst he
      have hlen : (v ++ List.replicate (nsites - v.length) (0 : K)).length = nsites := by
        rw [List.length_append, List.length_replicate]; omega
      refine ⟨_, v, rfl, by rw [List.length_zipWith, hlen, hc, min_self], h1, fun i hi => ⟨?_, ?_⟩, fun i hi => ?_, ?_⟩
      · rw [← nelectronData_spec, List.getElem?_eq_getElem (by omega)]
        exact h2 i hi (by omega)
      · rw [List.getElem?_zipWith, List.getElem?_append_left (by omega), List.getElem?_eq_getElem (by omega : i < v.length),
          List.getElem?_eq_getElem (by omega : i < charges.length)]
        rfl
      · rw [List.getElem?_zipWith, List.getElem?_append_right (by omega)]
        by_cases hlt : i < nsites
        · rw [List.getElem?_replicate, if_pos (by omega), List.getElem?_eq_getElem (by omega : i < charges.length)]
          simp
        · rw [List.getElem?_eq_none (by omega : charges.length ≤ i), List.getElem?_replicate, if_neg (by omega)]
          rfl
      · have key : ∀ (a b : List K), a.length = b.length → (List.zipWith (fun a b => a - b) a b).sum = a.sum - b.sum := by
          intro a
          induction a with
          | nil => intro b hb; cases b with
            | nil => simp
            | cons => simp at hb
          | cons x a ih => intro b hb; cases b with
            | nil => simp at hb
            | cons y b =>
              rw [List.zipWith_cons_cons, List.sum_cons, List.sum_cons, List.sum_cons, ih b (by simpa using hb)]
              ring
        rw [key _ _ (by rw [hlen, hc]), List.sum_append]
        simp

section
variable [Field K] [LinearOrder K]

/-- **C99** fails for the splitting method of `ElfLabeler`: summaries asked for with different methods differ only in the name they record. -/
theorem C99_splitting_ignored (attr : String → Entry K) (d : ElfData K) (total : Bool) (potcars : Option (List (String × K))) (m m' : Splitting) :
    (elfDict attr d total potcars m).map List.tail = (elfDict attr d total potcars m').map List.tail := by
  unfold elfDict
  simp only [Option.bind_eq_bind, Option.map_bind, Option.pure_def, Function.comp_def, Option.map_some, List.cons_append, List.tail_cons]

/-- **C99** for `ElfLabeler`: the summary can be written as JSON and holds every result once; its charges and volumes are those split with the
method `weighted_dist`.  The recorded method is the one given. -/
theorem C99_elf [IsStrictOrderedRing K] (attr : String → Entry K) (d : ElfData K) (total : Bool) (potcars : Option (List (String × K))) (m : Splitting)
    (hs : ∀ k ∈ ["structure", "labeled_structure", "electride_structure", "bifurcation_graph"], ∃ t, attr k = .struct t)
    (ha : ∀ k ∈ elfArrays, IsArray (attr k)) (hl : ∀ k ∈ ["feature_coord_dists", "feature_coord_atoms_dists_e"], ∃ l, attr k = .arrays l)
    (hp : ∀ k ∈ elfPlain, (attr k).dumpable = true) (hr : ∀ x, d.rnd (d.rnd x) = d.rnd x) (q w qE wE : ℕ → K)
    (hc : chargesVolumes d.rnd .weightedDist false d.radii d.en d.atoms.length d.features = some (q, w))
    (hcE : chargesVolumes d.rnd .weightedDist true d.radii d.en d.atoms.length d.features = some (qE, wE)) :
    ∃ r, elfJson attr d total potcars m = some r ∧ HasEntry r "splitting_method" (.text m.name) ∧
      HasEntry r "charges" (.numbers ((List.range d.atoms.length).map q)) ∧ HasEntry r "volumes" (.numbers ((List.range d.atoms.length).map w)) ∧
      HasEntry r "charges_e" (.numbers ((List.range (d.atoms.length + d.features.countP ElfFeature.bare)).map qE)) ∧
      HasEntry r "volumes_e" (.numbers ((List.range (d.atoms.length + d.features.countP ElfFeature.bare)).map wE)) ∧
      (∀ ps, total = true → potcars = some ps →
        HasEntry r "oxidation_states" (.numbers ((List.range d.atoms.length).map (elfState d.rnd ps d.atoms q))) ∧
        HasEntry r "oxidation_states_e"
          (.numbers ((List.range (d.atoms.length + d.features.countP ElfFeature.bare)).map (elfState d.rnd ps d.atoms qE)))) ∧
      (total = false ∨ potcars = none → HasEntry r "oxidation_states" .nothing ∧ HasEntry r "oxidation_states_e" .nothing) ∧
      ∀ k ∈ ["structure", "labeled_structure", "electride_structure", "bifurcation_graph"] ++ elfArrays ++
        ["feature_coord_dists", "feature_coord_atoms_dists_e"] ++ elfPlain, HasEntry r k (plain (attr k)) := by
  have hn : chargeSites false d.atoms.length d.features = d.atoms.length := by unfold chargeSites; simp
  have hnE : chargeSites true d.atoms.length d.features = d.atoms.length + d.features.countP ElfFeature.bare := by
    unfold chargeSites; simp [List.countP_eq_length_filter]
  obtain ⟨c, hcv⟩ : ∃ c, c = (List.range d.atoms.length).map q := ⟨_, rfl⟩
  obtain ⟨v, hvv⟩ : ∃ c, c = (List.range d.atoms.length).map w := ⟨_, rfl⟩
  obtain ⟨cE, hcEv⟩ : ∃ c, c = (List.range (d.atoms.length + d.features.countP ElfFeature.bare)).map qE := ⟨_, rfl⟩
  obtain ⟨vE, hvEv⟩ : ∃ c, c = (List.range (d.atoms.length + d.features.countP ElfFeature.bare)).map wE := ⟨_, rfl⟩
  rw [← hcv, ← hvv, ← hcEv, ← hvEv]
  have hd1 : d.charges .weightedDist false = some (c, v) := by
    unfold ElfData.charges; rw [hc, Option.map_some, hn, hcv, hvv]
  have hd2 : d.charges .weightedDist true = some (cE, vE) := by
    unfold ElfData.charges; rw [hcE, Option.map_some, hnE, hcEv, hvEv]
  have hid : ∀ (useE : Bool) (a b : List K), d.charges .weightedDist useE = some (a, b) → a.map d.rnd = a ∧ b.map d.rnd = b := by
    intro useE a b h
    unfold ElfData.charges chargesVolumes at h
    rw [Option.map_map, Option.map_eq_some_iff] at h
    obtain ⟨x, -, hx⟩ := h
    simp only [Function.comp_apply, Prod.mk.injEq] at hx
    obtain ⟨rfl, rfl⟩ := hx
    constructor
    · rw [List.map_map]; exact List.map_congr_left fun i _ => hr _
    · rw [List.map_map]; exact List.map_congr_left fun i _ => hr _
  have hstate : ∀ (ps : List (String × K)) (useE : Bool) (n : ℕ) (g : ℕ → K), chargeSites useE d.atoms.length d.features = n → d.atoms.length ≤ n →
      (((d.sites useE).zip ((List.range n).map g)).map fun e => d.rnd ((nelectronData ps e.1).getD 0 - e.2)) =
        (List.range n).map (elfState d.rnd ps d.atoms g) := by
    intro ps useE n g hcs hle
    have hsl : (d.sites useE).length = n := by
      unfold ElfData.sites; rw [hcs, List.length_append, List.length_replicate]; omega
    refine List.ext_getElem (by simp [hsl]) fun i hi _ => ?_
    have hin : i < n := by simpa [hsl] using hi
    rw [List.getElem_map, List.getElem_zip, List.getElem_map, List.getElem_map, List.getElem_range]
    simp only
    unfold elfState valence
    rw [nelectronData_spec]
    congr 2
    by_cases hia : i < d.atoms.length
    · rw [List.getElem?_eq_getElem hia]
      simp only [ElfData.sites, List.getElem_append_left hia, Option.elim_some]
    · rw [List.getElem?_eq_none (by omega)]
      simp only [ElfData.sites, List.getElem_append_right (Nat.le_of_not_lt hia), List.getElem_replicate, Option.elim_none]
  obtain ⟨o, oE, hoo, hoE, hsum, hpot, hnone⟩ : ∃ o oE : Entry K, o.dumpable = true ∧ oE.dumpable = true ∧
      d.summary (if total = true then potcars else none) = some ((o, c, v), (oE, cE, vE)) ∧
      (∀ ps, total = true → potcars = some ps → o = .numbers ((List.range d.atoms.length).map (elfState d.rnd ps d.atoms q)) ∧
        oE = .numbers ((List.range (d.atoms.length + d.features.countP ElfFeature.bare)).map (elfState d.rnd ps d.atoms qE))) ∧
      (total = false ∨ potcars = none → o = .nothing ∧ oE = .nothing) := by
    rcases hx : (if total = true then potcars else none) with _ | ps
    · refine ⟨.nothing, .nothing, rfl, rfl, by simp [ElfData.summary, hd1, hd2], fun ps ht hps => ?_, fun _ => ⟨rfl, rfl⟩⟩
      rw [if_pos ht, hps] at hx; cases hx
    · obtain ⟨h1, h2⟩ := hid _ _ _ hd1
      obtain ⟨h3, h4⟩ := hid _ _ _ hd2
      refine ⟨_, _, rfl, rfl, by
        simp only [ElfData.summary, ElfData.oxidation, hd1, hd2, Option.map_some, Option.bind_some, h1, h2, h3, h4]; rfl, fun ps' ht hps => ?_, fun h => ?_⟩
      · rw [if_pos ht, hps] at hx
        cases hx
        rw [hcv, hcEv, hstate _ _ _ _ hn le_rfl, hstate _ _ _ _ hnE (Nat.le_add_right _ _)]
        exact ⟨rfl, rfl⟩
      · rcases h with h | h
        · rw [h] at hx; cases hx
        · rw [h] at hx; simp at hx
  set k1 := ["crystalnn_kwargs", "ignore_low_pseudopotentials", "shared_shell_ratio", "covalent_molecule_ratio",
    "min_covalent_charge", "min_covalent_angle", "min_electride_elf_value", "min_electride_depth", "min_electride_charge",
    "min_electride_volume", "min_electride_dist_beyond_atom", "spin_system"] with h1
  set k2 := ["structure", "labeled_structure", "electride_structure", "bifurcation_graph"] with h2
  set k3 := ["atom_elf_radii", "atom_elf_radii_types", "atom_elf_radii_e", "atom_elf_radii_types_e", "atom_max_values_e",
      "feature_max_values", "feature_min_values", "feature_charges", "feature_volumes", "feature_coord_nums", "feature_coord_nums_e",
      "feature_min_surface_dists", "feature_avg_surface_dists"] with h3
  set k4 := ["feature_coord_dists", "feature_coord_atoms_dists_e"] with h4
  set k5 := ["nelectrides", "electride_formula", "electrides_per_formula", "electrides_per_reduced_formula", "feature_types",
    "feature_coord_atoms", "feature_coord_atoms_e", "atom_feature_indices_e", "total_electron_number", "total_volume", "vacuum_charge",
    "vacuum_volume"] with h5
  have e1 := collect_keep attr elfPlain k1 hp (by rw [h1]; decide)
  have e2 : collect attr Entry.writtenIf k2 = _ := collect_some attr _ k2 fun k hk => by
      obtain ⟨t, ht⟩ := hs k hk
      rw [ht]; rfl
  have e3 : collect attr Entry.listed k3 = _ := collect_some attr _ k3 fun k h => listed_plain (ha k h)
  have e4 : collect attr Entry.eachListed k4 = _ := collect_some attr _ k4 fun k hk => by
      obtain ⟨l, hl⟩ := hl k hk
      rw [hl]; rfl
  have e5 := collect_keep attr elfPlain k5 hp (by rw [h5]; decide)
  obtain ⟨r, hd⟩ : ∃ r : PyDict K, r = ("splitting_method", .text m.name) :: (k1.map fun k => (k, plain (attr k))) ++
      [("oxidation_states", o), ("oxidation_states_e", oE), ("charges", .numbers c), ("charges_e", .numbers cE), ("volumes", .numbers v),
        ("volumes_e", .numbers vE)] ++ (k2.map fun k => (k, plain (attr k))) ++ (k3.map fun k => (k, plain (attr k))) ++
      (k4.map fun k => (k, plain (attr k))) ++ (k5.map fun k => (k, plain (attr k))) := ⟨_, rfl⟩
  have hdict : elfDict attr d total potcars m = some r := by
    unfold elfDict
    simp only [← h1, ← h2, ← h3, ← h4, ← h5, e1, e2, e3, e4, e5, hsum, hd, Option.bind_eq_bind, Option.bind_some, Option.pure_def]
  have hfst : r.map Prod.fst = "splitting_method" :: k1 ++ ["oxidation_states", "oxidation_states_e", "charges", "charges_e", "volumes",
      "volumes_e"] ++ k2 ++ k3 ++ k4 ++ k5 := by
    rw [hd]
    simp only [List.map_append, List.map_cons, List.map_map, Function.comp_def, List.map_id', List.map_nil]
  have hnd : ("splitting_method" :: k1 ++ ["oxidation_states", "oxidation_states_e", "charges", "charges_e", "volumes",
      "volumes_e"] ++ k2 ++ k3 ++ k4 ++ k5).Nodup := by
    rw [h1, h2, h3, h4, h5]; decide
  refine ⟨r, ?_, hasEntry_of hfst hnd (by rw [hd]; simp), hasEntry_of hfst hnd (by rw [hd]; simp), hasEntry_of hfst hnd (by rw [hd]; simp),
    hasEntry_of hfst hnd (by rw [hd]; simp), hasEntry_of hfst hnd (by rw [hd]; simp), fun ps ht hps => ?_, fun h => ?_,
    fun k hk => hasEntry_of hfst hnd ?_⟩
  rotate_left
  · rw [← (hpot ps ht hps).1, ← (hpot ps ht hps).2]
    exact ⟨hasEntry_of hfst hnd (by rw [hd]; simp), hasEntry_of hfst hnd (by rw [hd]; simp)⟩
  · obtain ⟨h6, h7⟩ := hnone h
    subst h6 h7
    exact ⟨hasEntry_of hfst hnd (by rw [hd]; simp), hasEntry_of hfst hnd (by rw [hd]; simp)⟩
  rotate_left
  · unfold elfJson
    rw [hdict, Option.bind_some]
    refine dumps_some fun e he => ?_
    rw [hd] at he
    simp only [List.mem_append, List.mem_cons, List.not_mem_nil, or_false] at he
    rcases he with ((((((rfl | h) | rfl | rfl | rfl | rfl | rfl | rfl) | h) | h) | h) | h)
    · rfl
    · exact plain_all e h
    · exact hoo
    · exact hoE
    · rfl
    · rfl
    · rfl
    · rfl
    all_goals exact plain_all e h
  · have hk' : k ∈ k1 ++ k2 ++ k3 ++ k4 ++ k5 := by
      clear hs hl
      revert k
      rw [h1, h2, h3, h4, h5]
      decide
    rw [hd]
    simp only [List.mem_append] at hk' ⊢
    rcases hk' with (((h | h) | h) | h) | h
    · exact Or.inl (Or.inl (Or.inl (Or.inl (Or.inl (List.mem_cons_of_mem _ (mem_plain h))))))
    · exact Or.inl (Or.inl (Or.inl (Or.inr (mem_plain h))))
    · exact Or.inl (Or.inl (Or.inr (mem_plain h)))
    · exact Or.inl (Or.inr (mem_plain h))
    · exact Or.inr (mem_plain h)

end

/-- Two atoms of radii 1 and 3, one bond of two electrons between them. -/
def bondData : ElfData ℚ := ⟨id, fun i => if i = 0 then 1 else 3, fun _ => 1, ["Na", "Cl"], [⟨2, 4, false, [0, 1], [1, 1], [0, 1], [1, 1], [0], "covalent"⟩]⟩

/-- **C99** is wrong for `ElfLabeler` with another splitting method: equal shares are recorded, the listed charges are not the equal shares. -/
theorem C99_splitting_wrong : bondData.charges .equal false = some ([1, 1], [2, 2]) ∧
    ∀ (attr : String → Entry ℚ) (r : PyDict ℚ), elfDict attr bondData true none .equal = some r → ("splitting_method", .text "equal") ∈ r ∧
      ("charges", .numbers [1 / 2, 3 / 2]) ∈ r := by
  refine ⟨by decide +kernel, fun attr r h => ?_⟩
  have hs : bondData.summary none = some ((.nothing, [1 / 2, 3 / 2], [1, 3]), (.nothing, [1 / 2, 3 / 2], [1, 3])) := by decide +kernel
  unfold elfDict at h
  simp only [Option.bind_eq_bind, Option.bind_eq_some_iff, Option.pure_def, Option.some.injEq, if_true] at h
  obtain ⟨s0, -, p, hp, s, -, a, -, l, -, x, -, rfl⟩ := h
  rw [hs, Option.some.injEq] at hp
  subst hp
  simp [Splitting.name]

/-- **C99** fails for `SpinElfLabeler`: the types of the features and the radii of the electride structure are never in its summary, whatever the
results are. -/
theorem C99_spin_missing (prop : String → Entry K) (d : PyDict K) (h : spinElfDict prop = some d) :
    ∀ k ∈ ["feature_types", "atom_elf_radii_e", "atom_elf_radii_types_e"], (k, .nothing) ∈ d := by
  unfold spinElfDict at h
  simp only [Option.bind_eq_bind, Option.bind_eq_some_iff, Option.pure_def, Option.some.injEq] at h
  obtain ⟨s, -, a, ha, r, hr, rfl⟩ := h
  have hm : ∀ (conv : Entry K → Option (Entry K)) (keys : List String) (d : PyDict K) (k : String), collect (spinElfAttr prop) conv keys = some d →
      k ∈ keys → conv .nothing = some .nothing → k ∉ spinElfProps → (k, .nothing) ∈ d := by
    intro conv keys d k hd hk hc hn
    obtain ⟨h1, h2⟩ := mapM_some_spec _ _ _ hd
    obtain ⟨i, hi, rfl⟩ := List.mem_iff_getElem.1 hk
    have := h2 i hi (by omega)
    unfold spinElfAttr at this
    rw [if_neg hn, hc, Option.map_some, Option.some.injEq] at this
    rw [this]
    exact List.getElem_mem _
  intro k hk
  simp only [List.mem_cons, List.not_mem_nil, or_false] at hk
  rcases hk with rfl | rfl | rfl
  · exact List.mem_append_right _ (hm _ _ _ _ hr (by decide) rfl (by decide))
  · exact List.mem_append_left _ (List.mem_append_right _ (hm _ _ _ _ ha (by decide) rfl (by decide)))
  · exact List.mem_append_left _ (List.mem_append_right _ (hm _ _ _ _ ha (by decide) rfl (by decide)))

/-! ### Concrete cases -/

/-- A finished analysis of two atoms. -/
def sampleResults (k : String) : Entry ℚ :=
  if k = "structure" then .struct "Na Cl" else if k ∈ baderArrays then .array [1, 2] else if k = "species" then .texts ["Na", "Cl"] else .number 3

example : (∃ t, sampleResults "structure" = .struct t) ∧ (∀ k ∈ baderArrays, IsArray (sampleResults k)) ∧
    (∀ k ∈ baderPlain, (sampleResults k).dumpable = true) := by
  refine ⟨⟨_, rfl⟩, fun k hk => Or.inr (Or.inl ⟨[1, 2], ?_⟩), by decide⟩
  unfold sampleResults
  rw [if_neg (by rintro rfl; revert hk; decide), if_pos hk]

example : badelfOxidation (K := ℚ) (some [("Na", 7), ("Cl", 7), ("Na", 1)]) ["Na", "Cl"] 3 [1 / 10, 75 / 10, 4 / 10] =
    some (.array [9 / 10, -(1 / 2), -(4 / 10)]) := by decide +kernel

example : bondData.charges .weightedDist false = some ([1 / 2, 3 / 2], [1, 3]) ∧ bondData.charges .weightedDist true = some ([1 / 2, 3 / 2], [1, 3]) := by
  decide +kernel

/-- The bond of `bondData`, and a bare electron of half an electron. -/
def bareData : ElfData ℚ := { bondData with features := bondData.features ++ [⟨1 / 2, 1, true, [0], [1], [0], [1], [0], "bare"⟩] }

example : (chargesVolumes bareData.rnd .weightedDist false bareData.radii bareData.en 2 bareData.features).isSome = true ∧
    (chargesVolumes bareData.rnd .weightedDist true bareData.radii bareData.en 2 bareData.features).isSome = true ∧
    bareData.charges .weightedDist false = some ([1, 3 / 2], [2, 3]) ∧ bareData.charges .weightedDist true = some ([1 / 2, 3 / 2, 1 / 2], [1, 3, 1]) ∧
    (bareData.oxidation [("Na", 7), ("Cl", 7), ("Na", 1)] .weightedDist true).map Prod.fst = some [1 / 2, 11 / 2, -(1 / 2)] := by
  decide +kernel

end BaderKit
