import Verif.Model.FeatureSites
import Verif.Props.ElfLabels
import Verif.Props.BadelfRun
/-!
# C95: the sites of the structures with dummy atoms
-/
set_option linter.unusedSectionVars false
namespace BaderKit
variable {K P : Type} [Field K] [LinearOrder K] [IsStrictOrderedRing K]

/-! ## Specification -/

/-- The flag of a feature says that its type is one of the two types of bare electrons. -/
def BareKinds (fs : List (ElfFeature K)) : Prop := ∀ f ∈ fs, (f.bare = true ↔ f.kind = "electride" ∨ f.kind = "bare electron")

/-- The number of bare electrons. -/
def bareCount (fs : List (ElfFeature K)) : ℕ := (fs.filter fun f => f.bare).length

/-- The symbols that stand for features. -/
def IsDummy (x : String) : Prop := x = "X" ∨ x = "Xs" ∨ x = "Xds" ∨ x = "Xc" ∨ x = "Z" ∨ x = "M" ∨ x = "Lp" ∨ x = "Zm" ∨ x = "E"

instance (x : String) : Decidable (IsDummy x) := by unfold IsDummy; infer_instance

/-! ## Helpers -/

theorem dummySpecies_isDummy (k : String) : IsDummy (dummySpecies k) := by
  unfold dummySpecies IsDummy
  split_ifs <;> simp

theorem dummySpecies_bare (k : String) : dummySpecies k = "E" ↔ k = "electride" ∨ k = "bare electron" := by
  unfold dummySpecies
  by_cases h : k = "electride" ∨ k = "bare electron"
  · rcases h with rfl | rfl <;> decide
  · simp only [h, iff_false]
    obtain ⟨h1, h2⟩ := not_or.1 h
    rw [if_neg h1, if_neg h2]
    split_ifs <;> decide

theorem foldl_filter (L : List String) : ∀ s : List (FSite P), L.foldl (fun (s : List (FSite P)) (d : String) => s.filter fun x => x.1 ≠ d) s =
    s.filter fun x => x.1 ∉ L := by
  induction L with
  | nil => intro s; simp
  | cons d L ih =>
    intro s
    rw [List.foldl_cons, ih, List.filter_filter]
    refine List.filter_congr fun x _ => ?_
    simp [Bool.and_comm]

theorem mem_dummySymbols (x : String) : x ∈ dummySymbols ↔ IsDummy x := by
  unfold dummySymbols IsDummy
  simp only [List.mem_cons, List.not_mem_nil, or_false]
  tauto

theorem withoutDummies_eq (s : List (FSite P)) : withoutDummies s = s.filter fun x => ¬ IsDummy x.1 := by
  unfold withoutDummies
  rw [foldl_filter]
  refine List.filter_congr fun x _ => ?_
  simp only [mem_dummySymbols]

theorem featureSite_isSome {fs : List (ElfFeature K)} {pos : ℕ → P} {i : ℕ} {f : ElfFeature K} (h : fs[i]? = some f) :
    featureSite fs pos i = some (dummySpecies f.kind, pos i) := by
  unfold featureSite
  rw [h]
  rfl

/-- The sites of listed features. -/
theorem sites_of_list (fs : List (ElfFeature K)) (pos : ℕ → P) (idx : List ℕ) (h : ∀ i ∈ idx, ∃ f, fs[i]? = some f) :
    idx.mapM (featureSite fs pos) = some (idx.filterMap (featureSite fs pos)) := by
  induction idx with
  | nil => rfl
  | cons i idx ih =>
    obtain ⟨f, hf⟩ := h i (by simp)
    rw [List.mapM_cons, ih fun k hk => h k (by simp [hk]), List.filterMap_cons, featureSite_isSome hf]
    rfl

theorem filterMap_get (fs : List (ElfFeature K)) (pos : ℕ → P) (idx : List ℕ) (h : ∀ i ∈ idx, ∃ f, fs[i]? = some f) :
    (idx.filterMap (featureSite fs pos)).length = idx.length ∧
    ∀ (j : ℕ) (i : ℕ), idx[j]? = some i → ∃ f, fs[i]? = some f ∧ (idx.filterMap (featureSite fs pos))[j]? = some (dummySpecies f.kind, pos i) := by
  induction idx with
  | nil => simp
  | cons i idx ih =>
    obtain ⟨f, hf⟩ := h i (by simp)
    obtain ⟨h1, h2⟩ := ih fun k hk => h k (by simp [hk])
    rw [List.filterMap_cons, featureSite_isSome hf]
    refine ⟨by simp [h1], ?_⟩
    rintro (_ | j) k hk
    · simp only [List.getElem?_cons_zero, Option.some.injEq] at hk ⊢
      subst hk
      exact ⟨f, hf, rfl⟩
    · simp only [List.getElem?_cons_succ] at hk ⊢
      exact h2 j k hk

theorem graphElectrides_eq (atoms : List (FSite P)) (fs : List (ElfFeature K)) (pos : ℕ → P) :
    graphElectrides atoms fs pos = atoms ++ (bareIdx fs).filterMap (featureSite fs pos) := by
  unfold graphElectrides bareIdx
  congr 1
  rw [List.filterMap_filter]
  refine List.filterMap_congr fun i _ => ?_
  unfold featureSite
  rcases h : fs[i]? with _ | f
  · simp
  · by_cases hb : f.bare <;> simp [hb]

theorem bareIdx_size (fs : List (ElfFeature K)) : (bareIdx fs).length = bareCount fs := by
  unfold bareIdx bareCount
  induction fs using List.reverseRecOn with
  | nil => rfl
  | append_singleton fs f ih =>
    rw [List.length_append, List.length_singleton, List.range_succ, List.filter_append, List.filter_append, List.length_append,
      List.length_append, ← ih]
    congr 1
    · congr 1
      refine List.filter_congr fun i hi => ?_
      rw [List.getElem?_append_left (List.mem_range.1 hi)]
    · by_cases hb : f.bare <;> simp [hb]

theorem order_split (included : String → Bool) (fs : List (ElfFeature K)) (hb : BareKinds fs)
    (hi : included "electride" = true ∧ included "bare electron" = true) :
    ∃ rest, featureOrder included true fs = bareIdx fs ++ rest ∧ ∀ i ∈ rest, ∃ f, fs[i]? = some f ∧ f.bare = false := by
  unfold featureOrder
  simp only [if_true]
  refine ⟨((List.range fs.length).filter (fun i => fs[i]?.elim false (fun f => included f.kind))).filter
    (fun i => fs[i]?.elim false (fun f => !f.bare)), ?_, ?_⟩
  · congr 1
    unfold bareIdx
    rw [List.filter_filter]
    refine List.filter_congr fun i _ => ?_
    rcases h : fs[i]? with _ | f
    · simp
    · simp only [Option.elim_some]
      have := hb f (List.mem_of_getElem? h)
      cases hf : f.bare
      · simp
      · rcases this.1 hf with h2 | h2 <;> rw [h2] <;> simp [hi]
  · intro i h
    rw [List.mem_filter] at h
    rcases h2 : fs[i]? with _ | f
    · rw [h2] at h; simp at h
    · rw [h2] at h; exact ⟨f, rfl, by simpa using h.2⟩

/-! ## C95 -/

/-- **C95.** A structure with dummy atoms always exists.  It lists the atoms as they are and then one dummy atom per requested feature, in
the order of the returned indices, with the symbol of its type at its position.  The order is that of the labels and charges of C43. -/
theorem C95_structure (atoms : List (FSite P)) (fs : List (ElfFeature K)) (pos : ℕ → P) (included : String → Bool) (byType : Bool) :
    ∃ s idx, featureStructure atoms fs pos included byType = some (s, idx) ∧ idx = featureOrder included byType fs ∧
      s.length = atoms.length + idx.length ∧ (∀ i < atoms.length, s[i]? = atoms[i]?) ∧
      ∀ (j i : ℕ), idx[j]? = some i → ∃ f, fs[i]? = some f ∧ included f.kind = true ∧ s[atoms.length + j]? = some (dummySpecies f.kind, pos i) := by
  obtain ⟨-, hm, -, -⟩ := C43_order included byType fs
  have hv : ∀ i ∈ featureOrder included byType fs, ∃ f, fs[i]? = some f := fun i hi => by
    obtain ⟨f, hf, -⟩ := (hm i).1 hi
    exact ⟨f, hf⟩
  obtain ⟨h1, h2⟩ := filterMap_get fs pos _ hv
  refine ⟨atoms ++ (featureOrder included byType fs).filterMap (featureSite fs pos), _, ?_, rfl, ?_, ?_, ?_⟩
  · unfold featureStructure structureByIndex
    simp only
    rw [sites_of_list fs pos _ hv]
    rfl
  · rw [List.length_append, h1]
  · intro i hi
    rw [List.getElem?_append_left hi]
  · intro j i hj
    obtain ⟨f, hf, h3⟩ := h2 j i hj
    obtain ⟨f', hf', h4⟩ := (hm i).1 (List.mem_of_getElem? hj)
    rw [hf] at hf'
    cases hf'
    refine ⟨f, hf, h4, ?_⟩
    rw [List.getElem?_append_right (by omega), Nat.add_sub_cancel_left]
    exact h3

/-- **C95.** Ordered by type and with the bare electrons requested, the structure begins with the structure of the atoms and electrides: the
number of a site is the same in both. -/
theorem C95_begins_with_electrides (atoms : List (FSite P)) (fs : List (ElfFeature K)) (pos : ℕ → P) (included : String → Bool)
    (hb : BareKinds fs) (hi : included "electride" = true ∧ included "bare electron" = true) :
    ∃ s idx, featureStructure atoms fs pos included true = some (s, idx) ∧ graphElectrides atoms fs pos <+: s ∧
      (graphElectrides atoms fs pos).length = atoms.length + bareCount fs := by
  obtain ⟨rest, hr, -⟩ := order_split included fs hb hi
  obtain ⟨-, hm, -, -⟩ := C43_order included true fs
  have hv : ∀ i ∈ featureOrder included true fs, ∃ f, fs[i]? = some f := fun i hi => by
    obtain ⟨f, hf, -⟩ := (hm i).1 hi
    exact ⟨f, hf⟩
  refine ⟨atoms ++ (featureOrder included true fs).filterMap (featureSite fs pos), featureOrder included true fs, ?_, ?_, ?_⟩
  · unfold featureStructure structureByIndex
    simp only
    rw [sites_of_list fs pos _ hv]
    rfl
  · rw [graphElectrides_eq, hr, List.filterMap_append, ← List.append_assoc]
    exact List.prefix_append _ _
  · rw [graphElectrides_eq, List.length_append, (filterMap_get fs pos (bareIdx fs) fun i hi => hv i (by rw [hr]; simp [hi])).1, bareIdx_size]

/-- **C95.** What `Badelf` makes of its labelled structure when no atom carries the symbol of a feature: the atoms again, the same structure
of atoms and electrides as the labeler, and as many electrides as there are bare electrons. -/
theorem C95_badelf_partial (atoms : List (FSite P)) (fs : List (ElfFeature K)) (pos : ℕ → P) (hb : BareKinds fs)
    (ha : ∀ x ∈ atoms, ¬ IsDummy x.1) :
    ∃ s, badelfLabeled atoms fs pos = some s ∧ withoutDummies s = atoms ∧ withElectrides s = graphElectrides atoms fs pos ∧
      badelfElectrides s = bareCount fs := by
  obtain ⟨rest, hr, hrest⟩ := order_split (fun k => decide (k ∈ valenceKinds)) fs hb (by decide)
  obtain ⟨-, hm, -, -⟩ := C43_order (fun k => decide (k ∈ valenceKinds)) true fs
  have hv : ∀ i ∈ featureOrder (fun k => decide (k ∈ valenceKinds)) true fs, ∃ f, fs[i]? = some f := fun i hi => by
    obtain ⟨f, hf, -⟩ := (hm i).1 hi
    exact ⟨f, hf⟩
  have hdum : ∀ x ∈ (featureOrder (fun k => decide (k ∈ valenceKinds)) true fs).filterMap (featureSite fs pos), IsDummy x.1 := by
    intro x hx
    obtain ⟨i, hi, h⟩ := List.mem_filterMap.1 hx
    obtain ⟨f, hf⟩ := hv i hi
    rw [featureSite_isSome hf] at h
    cases h
    exact dummySpecies_isDummy _
  have hwo : withoutDummies (atoms ++ (featureOrder (fun k => decide (k ∈ valenceKinds)) true fs).filterMap (featureSite fs pos)) = atoms := by
    rw [withoutDummies_eq, List.filter_append, List.filter_eq_self.2 (by simpa using ha), List.filter_eq_nil_iff.2 (by simpa using hdum),
      List.append_nil]
  have hbare : ∀ i ∈ bareIdx fs, ∃ f, fs[i]? = some f ∧ f.bare = true := by
    intro i hi
    unfold bareIdx at hi
    rw [List.mem_filter] at hi
    rcases h2 : fs[i]? with _ | f
    · rw [h2] at hi; simp at hi
    · rw [h2] at hi; exact ⟨f, rfl, by simpa using hi.2⟩
  have hwe : withElectrides (atoms ++ (featureOrder (fun k => decide (k ∈ valenceKinds)) true fs).filterMap (featureSite fs pos)) =
      graphElectrides atoms fs pos := by
    unfold withElectrides
    rw [hwo, graphElectrides_eq, hr, List.filterMap_append, List.filter_append, List.filter_append]
    congr 1
    rw [(List.filter_eq_nil_iff (l := atoms)).2, (List.filter_eq_self (l := (bareIdx fs).filterMap _)).2,
      (List.filter_eq_nil_iff (l := rest.filterMap _)).2, List.append_nil, List.nil_append]
    · conv_rhs => rw [← List.map_id ((bareIdx fs).filterMap (featureSite fs pos))]
      refine List.map_congr_left fun x hx => ?_
      obtain ⟨i, hi, h⟩ := List.mem_filterMap.1 hx
      obtain ⟨f, hf, h2⟩ := hbare i hi
      rw [featureSite_isSome hf] at h
      cases h
      have := (dummySpecies_bare f.kind).2 ((hb f (List.mem_of_getElem? hf)).1 h2)
      simp [this]
    · intro x hx
      obtain ⟨i, hi, h⟩ := List.mem_filterMap.1 hx
      obtain ⟨f, hf, h2⟩ := hrest i hi
      rw [featureSite_isSome hf] at h
      cases h
      have : dummySpecies f.kind ≠ "E" := fun h3 => by
        have := (hb f (List.mem_of_getElem? hf)).2 ((dummySpecies_bare f.kind).1 h3)
        rw [h2] at this; cases this
      simpa [bareSpecies] using this
    · intro x hx
      obtain ⟨i, hi, h⟩ := List.mem_filterMap.1 hx
      obtain ⟨f, hf, h2⟩ := hbare i hi
      rw [featureSite_isSome hf] at h
      cases h
      have := (dummySpecies_bare f.kind).2 ((hb f (List.mem_of_getElem? hf)).1 h2)
      simp [this, bareSpecies]
    · intro x hx
      have hne : x.1 ≠ "E" := fun h => ha x hx (by rw [h]; exact dummySpecies_isDummy "electride")
      simpa [bareSpecies] using hne
  refine ⟨_, ?_, hwo, hwe, ?_⟩
  · unfold badelfLabeled featureStructure structureByIndex
    simp only
    rw [sites_of_list fs pos _ hv]
    rfl
  · unfold badelfElectrides
    rw [hwe, hwo, graphElectrides_eq, List.length_append, (filterMap_get fs pos (bareIdx fs) fun i hi => by
      obtain ⟨f, hf, -⟩ := hbare i hi; exact ⟨f, hf⟩).1, bareIdx_size]
    omega

/-- **C95 (exception).** Atoms with the symbol of a feature are dropped from the structure of `Badelf`, so later atoms get other numbers
than in the labels and charges; this happens exactly when such an atom is present. -/
theorem C95_ghost_atoms_dropped (atoms : List (FSite P)) (fs : List (ElfFeature K)) (pos : ℕ → P) :
    ∃ s, badelfLabeled atoms fs pos = some s ∧ withoutDummies s = (atoms.filter fun x => ¬ IsDummy x.1) ∧
      (withoutDummies s = atoms ↔ ∀ x ∈ atoms, ¬ IsDummy x.1) := by
  obtain ⟨-, hm, -, -⟩ := C43_order (fun k => decide (k ∈ valenceKinds)) true fs
  have hv : ∀ i ∈ featureOrder (fun k => decide (k ∈ valenceKinds)) true fs, ∃ f, fs[i]? = some f := fun i hi => by
    obtain ⟨f, hf, -⟩ := (hm i).1 hi
    exact ⟨f, hf⟩
  have hdum : ∀ x ∈ (featureOrder (fun k => decide (k ∈ valenceKinds)) true fs).filterMap (featureSite fs pos), IsDummy x.1 := by
    intro x hx
    obtain ⟨i, hi, h⟩ := List.mem_filterMap.1 hx
    obtain ⟨f, hf⟩ := hv i hi
    rw [featureSite_isSome hf] at h
    cases h
    exact dummySpecies_isDummy _
  refine ⟨atoms ++ (featureOrder (fun k => decide (k ∈ valenceKinds)) true fs).filterMap (featureSite fs pos), ?_, ?_, ?_⟩
  · unfold badelfLabeled featureStructure structureByIndex
    simp only
    rw [sites_of_list fs pos _ hv]
    rfl
  · rw [withoutDummies_eq, List.filter_append, (List.filter_eq_nil_iff (l := List.filterMap _ _)).2 (by simpa using hdum), List.append_nil]
  · rw [withoutDummies_eq, List.filter_append, (List.filter_eq_nil_iff (l := List.filterMap _ _)).2 (by simpa using hdum), List.append_nil,
      List.filter_eq_self]
    simp

/-! ### Concrete cases -/

/-- A feature of a type. -/
def exFeat (kind : String) (bare : Bool) : ElfFeature ℚ :=
  { charge := 1, volume := 1, bare := bare, coord := [], dists := [], coordE := [], distsE := [], basins := [], kind := kind }

/-- Two atoms and four features: the electride and the bare electron come first, then the bond and the metallic feature; the shell is not listed. -/
def exFeats : List (ElfFeature ℚ) :=
  [exFeat "shell" false, exFeat "covalent" false, exFeat "electride" true, exFeat "metallic" false, exFeat "bare electron" true]

example : BareKinds exFeats := by unfold BareKinds exFeats exFeat; decide

example : badelfLabeled [("Ca", 100), ("N", 200)] exFeats id =
    some [("Ca", 100), ("N", 200), ("E", 2), ("E", 4), ("Z", 1), ("M", 3)] := by decide

example : graphElectrides [("Ca", 100), ("N", 200)] exFeats id = [("Ca", 100), ("N", 200), ("E", 2), ("E", 4)] := by decide

/-- **C95 (exception).** Without the order by type the structure need not begin with the atoms and electrides. -/
theorem C95_unordered : ∃ (fs : List (ElfFeature ℚ)) (s : List (FSite ℕ)) (idx : List ℕ), BareKinds fs ∧
    featureStructure [("Ca", 100)] fs id (fun k => decide (k ∈ valenceKinds)) false = some (s, idx) ∧
    ¬ graphElectrides [("Ca", 100)] fs id <+: s :=
  ⟨exFeats, [("Ca", 100), ("Z", 1), ("E", 2), ("M", 3), ("E", 4)], [1, 2, 3, 4], by unfold BareKinds exFeats exFeat; decide, by decide, by decide⟩

/-- **C95 (exception).** With a ghost atom "X" first, the nitrogen is site 1 of the labels and charges but site 0 of the structure. -/
theorem C95_numbers_shift : ∃ (s : List (FSite ℕ)), badelfLabeled (K := ℚ) [("X", 100), ("N", 200)] [] id = some s ∧ s[1]? = some ("N", 200) ∧
    (withoutDummies s)[0]? = some ("N", 200) ∧ (withElectrides s).length = 1 :=
  ⟨[("X", 100), ("N", 200)], by decide, by decide, by decide, by decide⟩

end BaderKit
