import Verif.Lemmas.Exporters
import Verif.Spec.Exporters
import Mathlib.Algebra.BigOperators.Group.Finset.Basic
import Mathlib.Algebra.BigOperators.Group.Finset.Piecewise
import Mathlib.Algebra.Field.Rat
/-!
# C82: exported feature volumes
-/
namespace BaderKit
variable {K : Type} [Zero K]

theorem file_shows (L : Exporter K) (o : ExpOpts) (idxs bs : List ℕ) {B : ℕ → Prop} (hB : ∀ b, b ∈ bs ↔ B b) :
    Shows L o.useRef B (L.file o idxs bs) := by
  refine ⟨fun v b hv hb => ?_, fun v h => ?_, rfl⟩
  · unfold Exporter.file exportSum
    simp only
    rw [if_pos (by rw [hv]; exact List.mem_map_of_mem ((hB b).2 hb))]
    unfold Exporter.data
    split <;> rfl
  · unfold Exporter.file exportSum
    simp only
    rw [if_neg]
    intro hm
    obtain ⟨b, hb, he⟩ := List.mem_map.mp hm
    exact h b he.symm ((hB b).1 hb)

theorem badDummies_false (L : Exporter K) (o : ExpOpts) {idxs : List ℕ} (hi : ∀ i ∈ idxs, i < L.feats.length) : L.badDummies o idxs = false := by
  unfold Exporter.badDummies
  rw [Bool.and_eq_false_iff]
  right
  rw [List.any_eq_false]
  intro i h
  have := hi i h
  simp; omega

theorem writeFeatureBasins_eq (L : Exporter K) (o : ExpOpts) {idxs : List ℕ} (hi : ∀ i ∈ idxs, i < L.feats.length) {d : String}
    (hd : o.dir.default.base = some d) (fs : Files (GridFile K)) :
    writeFeatureBasins L o idxs fs = (assign d (idxs.flatMap fun i =>
      [(L.prefix o ++ "_f" ++ Nat.repr i, some (L.file o idxs (L.feats[i]?.elim [] Prod.snd)))]) fs, true) := by
  unfold writeFeatureBasins
  rw [badDummies_false L o hi]
  simp only [Bool.false_eq_true, if_false]
  apply forEach_assign
  intro i h fs
  rw [List.getElem?_eq_getElem (hi i h), hd]
  rfl

theorem basinsOf_spec (L : Exporter K) {idxs : List ℕ} (hi : ∀ i ∈ idxs, i < L.feats.length) :
    ∃ bs, L.basinsOf idxs = some bs ∧ ∀ b, b ∈ bs ↔ ∃ i ∈ idxs, OfFeature L i b := by
  induction idxs with
  | nil => exact ⟨[], rfl, by simp⟩
  | cons i l ih =>
    obtain ⟨bs, h1, h2⟩ := ih fun j hj => hi j (List.mem_cons_of_mem _ hj)
    have hf := List.getElem?_eq_getElem (hi i (List.mem_cons_self ..))
    refine ⟨(L.feats[i]'(hi i (List.mem_cons_self ..))).2 ++ bs, by rw [Exporter.basinsOf, h1, hf], fun b => ?_⟩
    rw [List.mem_append, h2]
    constructor
    · rintro (h | ⟨j, hj, h⟩)
      · exact ⟨i, List.mem_cons_self .., _, hf, h⟩
      · exact ⟨j, List.mem_cons_of_mem _ hj, h⟩
    · rintro ⟨j, hj, f, hf', hb⟩
      rcases List.mem_cons.mp hj with rfl | hj
      · rw [hf] at hf'
        obtain rfl := Option.some.inj hf'
        exact Or.inl hb
      · exact Or.inr ⟨j, hj, f, hf', hb⟩

theorem writeFeatureSum_eq (L : Exporter K) (o : ExpOpts) {idxs : List ℕ} (hi : ∀ i ∈ idxs, i < L.feats.length) {d : String}
    (hd : o.dir.default.base = some d) :
    ∃ bs, (∀ b, b ∈ bs ↔ ∃ i ∈ idxs, OfFeature L i b) ∧ ∀ fs : Files (GridFile K), writeFeatureSum L o idxs fs =
      fwrite (some d) (L.prefix o ++ "_fsum") (L.file o idxs bs) fs := by
  obtain ⟨bs, h1, h2⟩ := basinsOf_spec L hi
  refine ⟨bs, h2, fun fs => ?_⟩
  unfold writeFeatureSum
  rw [badDummies_false L o hi, h1, hd]
  rfl

theorem ofTypes_spec (L : Exporter K) (types : List String) :
    (∀ i ∈ L.ofTypes types, i < L.feats.length) ∧ ∀ b, (∃ i ∈ L.ofTypes types, OfFeature L i b) ↔ OfTypes L types b := by
  have hm : ∀ i, i ∈ L.ofTypes types ↔ ∃ f, L.feats[i]? = some f ∧ f.1 ∈ types := by
    intro i
    unfold Exporter.ofTypes
    rw [List.mem_filter, List.mem_range]
    constructor
    · rintro ⟨h1, h2⟩
      rw [List.getElem?_eq_getElem h1] at h2 ⊢
      exact ⟨_, rfl, by simpa using h2⟩
    · rintro ⟨f, h1, h2⟩
      have := (List.getElem?_eq_some_iff.mp h1).1
      exact ⟨this, by rw [h1]; simpa using h2⟩
  refine ⟨fun i h => ?_, fun b => ?_⟩
  · obtain ⟨f, h1, _⟩ := (hm i).1 h
    exact (List.getElem?_eq_some_iff.mp h1).1
  · constructor
    · rintro ⟨i, h, f, hf, hb⟩
      obtain ⟨f', hf', ht⟩ := (hm i).1 h
      rw [hf] at hf'
      obtain rfl := Option.some.inj hf'
      exact ⟨i, f, hf, ht, hb⟩
    · rintro ⟨i, f, hf, ht, hb⟩
      exact ⟨i, (hm i).2 ⟨f, hf, ht⟩, f, hf, hb⟩

/-- **C82, one file for each feature.** `write_feature_basins` writes for every requested feature the file `<prefix>_f<index>` with the data at
the voxels of the feature and zero elsewhere, in the requested format and with the dummy atoms of the requested features; no other file changes. -/
theorem C82_feature_files (L : Exporter K) (o : ExpOpts) {idxs : List ℕ} (hi : ∀ i ∈ idxs, i < L.feats.length) {d : String}
    (hd : o.dir = .path d ∨ (o.dir = .none_ ∧ d = ".")) (fs : Files (GridFile K)) :
    ∃ fs', writeFeatureBasins L o idxs fs = (fs', true) ∧
      (∀ i ∈ idxs, ∃ g, fs' (d, L.prefix o ++ "_f" ++ Nat.repr i) = some g ∧ Shows L o.useRef (OfFeature L i) g ∧ g.fmt = o.fmt ∧
        g.dummies = if o.dummies then some idxs else none) ∧
      OnlyChanged fs fs' d (fun n => ∃ i ∈ idxs, n = L.prefix o ++ "_f" ++ Nat.repr i) := by
  have hb : o.dir.default.base = some d := by
    rcases hd with h | ⟨h, rfl⟩ <;> rw [h] <;> rfl
  refine ⟨_, writeFeatureBasins_eq L o hi hb fs, fun i h => ⟨L.file o idxs (L.feats[i]?.elim [] Prod.snd), ?_, ?_, rfl, rfl⟩, fun n hn => ?_⟩
  · apply assign_mem
    · exact List.mem_flatMap.mpr ⟨i, h, by simp⟩
    · intro w hw
      obtain ⟨j, _, hj⟩ := List.mem_flatMap.mp hw
      rw [List.mem_singleton, Prod.mk.injEq, numbered_inj] at hj
      rw [hj.2, hj.1]
  · apply file_shows
    intro b
    unfold OfFeature
    rw [List.getElem?_eq_getElem (hi i h)]
    simp
  · apply assign_other
    intro h1 x hx h2
    obtain ⟨j, hj, he⟩ := List.mem_flatMap.mp hx
    rw [List.mem_singleton] at he
    exact hn h1 ⟨j, hj, by rw [h2, he]⟩

/-- **C82, all features.** -/
theorem C82_all_features (L : Exporter K) (o : ExpOpts) {d : String} (hd : o.dir = .path d ∨ (o.dir = .none_ ∧ d = ".")) (fs : Files (GridFile K)) :
    ∃ fs', writeAllFeatures L o fs = (fs', true) ∧
      (∀ i < L.feats.length, ∃ g, fs' (d, L.prefix o ++ "_f" ++ Nat.repr i) = some g ∧ Shows L o.useRef (OfFeature L i) g ∧ g.fmt = o.fmt) ∧
      OnlyChanged fs fs' d (fun n => ∃ i < L.feats.length, n = L.prefix o ++ "_f" ++ Nat.repr i) := by
  obtain ⟨fs', h1, h2, h3⟩ := C82_feature_files L o (idxs := List.range L.feats.length) (fun i h => List.mem_range.mp h) hd fs
  refine ⟨fs', h1, fun i h => ?_, ?_⟩
  · obtain ⟨g, hg⟩ := h2 i (List.mem_range.mpr h)
    exact ⟨g, hg.1, hg.2.1, hg.2.2.1⟩
  · simpa only [List.mem_range] using h3

/-- **C82, the features add up.** At a voxel whose basin belongs to exactly one feature the files of all features add up to the data. -/
theorem C82_add_up {R : Type} [AddCommMonoid R] (L : Exporter R) (useRef : Bool) (g : ℕ → GridFile R)
    (hg : ∀ i < L.feats.length, Shows L useRef (OfFeature L i) (g i)) {v b k : ℕ} (hb : L.labels v = b) (hk : OfFeature L k b)
    (hu : ∀ i, OfFeature L i b → i = k) :
    ∑ i ∈ Finset.range L.feats.length, (g i).data v = if useRef then L.ref v else L.chg v := by
  have hkl : k < L.feats.length := by
    obtain ⟨f, h1, _⟩ := hk
    exact (List.getElem?_eq_some_iff.mp h1).1
  rw [Finset.sum_eq_single k]
  · exact (hg k hkl).1 v b hb hk
  · intro i hi hne
    apply (hg i (Finset.mem_range.mp hi)).2.1 v
    intro b' hb' h
    have : b' = b := by rw [hb] at hb'; exact_mod_cast hb'.symm
    subst this
    exact hne (hu i h)
  · intro h; exact absurd (Finset.mem_range.mpr hkl) h

/-- **C82, the union.** `write_feature_basins_sum` writes the union of the features to `<prefix>_fsum`; no other file changes. -/
theorem C82_sum_file (L : Exporter K) (o : ExpOpts) {idxs : List ℕ} (hi : ∀ i ∈ idxs, i < L.feats.length) {d : String}
    (hd : o.dir = .path d ∨ (o.dir = .none_ ∧ d = ".")) (fs : Files (GridFile K)) :
    ∃ fs', writeFeatureSum L o idxs fs = (fs', true) ∧
      (∃ g, fs' (d, L.prefix o ++ "_fsum") = some g ∧ Shows L o.useRef (fun b => ∃ i ∈ idxs, OfFeature L i b) g ∧ g.fmt = o.fmt) ∧
      OnlyChanged fs fs' d (fun n => n = L.prefix o ++ "_fsum") := by
  have hb : o.dir.default.base = some d := by
    rcases hd with h | ⟨h, rfl⟩ <;> rw [h] <;> rfl
  obtain ⟨bs, h1, h2⟩ := writeFeatureSum_eq L o hi hb
  refine ⟨_, by rw [h2, fwrite_assign], ⟨L.file o idxs bs, ?_, file_shows L o idxs bs h1, rfl⟩, fun n hn => ?_⟩
  · apply assign_mem
    · exact List.mem_singleton_self _
    · intro w hw
      rw [List.mem_singleton, Prod.mk.injEq] at hw
      exact hw.2
  · apply assign_other
    intro h x hx h2
    rw [List.mem_singleton] at hx
    exact hn h (by rw [h2, hx])

/-- **C82, the union of types.** -/
theorem C82_type_sum_file (L : Exporter K) (o : ExpOpts) (types : List String) {d : String}
    (hd : o.dir = .path d ∨ (o.dir = .none_ ∧ d = ".")) (fs : Files (GridFile K)) :
    ∃ fs', writeByTypeSum L o types fs = (fs', true) ∧
      (∃ g, fs' (d, L.prefix o ++ "_fsum") = some g ∧ Shows L o.useRef (OfTypes L types) g ∧ g.fmt = o.fmt) ∧
      OnlyChanged fs fs' d (fun n => n = L.prefix o ++ "_fsum") := by
  obtain ⟨hv, hm⟩ := ofTypes_spec L types
  obtain ⟨fs', h1, ⟨g, h2, h3, h4⟩, h5⟩ := C82_sum_file L o hv hd fs
  refine ⟨fs', h1, ⟨g, h2, ?_, h4⟩, h5⟩
  have : (fun b => ∃ i ∈ L.ofTypes types, OfFeature L i b) = OfTypes L types := funext fun b => propext (hm b)
  rw [this] at h3
  exact h3

/-! ### Files by type -/

/-- The file of one type. -/
def typeFile (L : Exporter K) (o : ExpOpts) (t : String) : GridFile K :=
  L.file { o with useRef := true } (L.ofTypes [t]) ((L.basinsOf (L.ofTypes [t])).getD [])

theorem typeFile_shows (L : Exporter K) (o : ExpOpts) (t : String) : Shows L true (OfTypes L [t]) (typeFile L o t) := by
  obtain ⟨hv, hm⟩ := ofTypes_spec L [t]
  obtain ⟨bs, h1, h2⟩ := basinsOf_spec L hv
  unfold typeFile
  rw [h1]
  exact file_shows L { o with useRef := true } _ bs fun b => (h2 b).trans (hm b)

theorem writeOneType_eq (L : Exporter K) (o : ExpOpts) {t : String} (ht : t ∈ featureValues) {d : String} (hd : o.dir = .path d)
    (fs : Files (GridFile K)) :
    writeOneType L o t fs = (assign d [(L.prefix o ++ "_" ++ dummySpecies t ++ "_fsum", none),
      (L.prefix o ++ "_" ++ dummySpecies t, some (typeFile L o t))] fs, true) := by
  obtain ⟨hv, hm⟩ := ofTypes_spec L [t]
  obtain ⟨bs, h1, h2⟩ := basinsOf_spec L hv
  unfold writeOneType
  rw [if_neg (by simpa using ht)]
  simp only
  unfold writeFeatureSum
  rw [badDummies_false L _ hv, h1, hd]
  simp only [Bool.false_eq_true, if_false]
  have := write_rename d (L.prefix o ++ "_" ++ dummySpecies t ++ "_fsum") (L.prefix o ++ "_" ++ dummySpecies t) (typeFile L o t) fs
  unfold typeFile at this ⊢
  rw [h1] at this ⊢
  exact this

/-- **C82, one file for each type.** With a `Path` as directory and types with different dummy species, `write_features_by_type` writes for
every type the file `<prefix>_<species>` with the data at the voxels of all features of this type; no temporary file stays and no other file
changes.  Missing: the data is the reference also if the charge was requested, see `C82_charge_not_written`; types with the same species, see
`C82_same_species`. -/
theorem C82_by_type_partial (L : Exporter K) (o : ExpOpts) {types : List String} (ht : ∀ t ∈ types, t ∈ featureValues)
    (hs : ∀ t ∈ types, ∀ t' ∈ types, dummySpecies t = dummySpecies t' → t = t') {d : String} (hd : o.dir = .path d) (fs : Files (GridFile K)) :
    ∃ fs', writeByType L o types fs = (fs', true) ∧
      (∀ t ∈ types, (∃ g, fs' (d, L.prefix o ++ "_" ++ dummySpecies t) = some g ∧ Shows L true (OfTypes L [t]) g ∧ g.fmt = o.fmt) ∧
        fs' (d, L.prefix o ++ "_" ++ dummySpecies t ++ "_fsum") = none) ∧
      OnlyChanged fs fs' d (fun n => ∃ t ∈ types, n = L.prefix o ++ "_" ++ dummySpecies t ∨ n = L.prefix o ++ "_" ++ dummySpecies t ++ "_fsum") := by
  have heq := forEach_assign (f := writeOneType L o) (l := types) (fun t h fs => writeOneType_eq L o (ht t h) hd fs) fs
  refine ⟨_, heq, fun t h => ⟨⟨typeFile L o t, ?_, typeFile_shows L o t, rfl⟩, ?_⟩, fun n hn => ?_⟩
  · apply assign_mem
    · exact List.mem_flatMap.mpr ⟨t, h, by simp⟩
    · intro w hw
      obtain ⟨t', h', he⟩ := List.mem_flatMap.mp hw
      simp only [List.mem_cons, Prod.mk.injEq, List.not_mem_nil, or_false] at he
      rcases he with ⟨h1, _⟩ | ⟨h1, h2⟩
      · exact absurd h1 (dummy_ne_suffix (by decide) t t')
      · rw [h2, hs t h t' h' (name_inj.mp h1)]
  · apply assign_mem
    · exact List.mem_flatMap.mpr ⟨t, h, by simp⟩
    · intro w hw
      obtain ⟨t', h', he⟩ := List.mem_flatMap.mp hw
      simp only [List.mem_cons, Prod.mk.injEq, List.not_mem_nil, or_false] at he
      rcases he with ⟨_, h2⟩ | ⟨h1, _⟩
      · exact h2
      · exact absurd h1.symm (dummy_ne_suffix (by decide) t' t)
  · apply assign_other
    intro h1 x hx h2
    obtain ⟨t, h, he⟩ := List.mem_flatMap.mp hx
    simp only [List.mem_cons, List.not_mem_nil, or_false] at he
    rcases he with rfl | rfl
    · exact hn h1 ⟨t, h, Or.inr h2⟩
    · exact hn h1 ⟨t, h, Or.inl h2⟩

/-- **C82, not for types with the same species.** Of two types with the same dummy species only the second is in the end in the file. -/
theorem C82_same_species (L : Exporter K) (o : ExpOpts) {t t' : String} (ht : t ∈ featureValues) (ht' : t' ∈ featureValues)
    (hs : dummySpecies t = dummySpecies t') {d : String} (hd : o.dir = .path d) (fs : Files (GridFile K)) :
    ∃ fs' g, writeByType L o [t, t'] fs = (fs', true) ∧ fs' (d, L.prefix o ++ "_" ++ dummySpecies t) = some g ∧
      Shows L true (OfTypes L [t']) g := by
  have heq := forEach_assign (f := writeOneType L o) (l := [t, t']) (fun x h fs => writeOneType_eq L o (by
    rcases List.mem_cons.mp h with rfl | h
    · exact ht
    · rw [List.mem_singleton] at h; rw [h]; exact ht') hd fs) fs
  refine ⟨_, typeFile L o t', heq, ?_, typeFile_shows L o t'⟩
  rw [List.flatMap_cons, assign_append, List.flatMap_cons, List.flatMap_nil, List.append_nil, hs]
  apply assign_mem
  · simp
  · intro w hw
    simp only [List.mem_cons, Prod.mk.injEq, List.not_mem_nil, or_false] at hw
    rcases hw with ⟨h1, _⟩ | ⟨_, h2⟩
    · exact absurd h1 (dummy_ne_suffix (by decide) t' t')
    · exact h2

/-- The three kinds of covalent bonds share a species, and so do electrides and bare electrons. -/
example : dummySpecies "covalent" = dummySpecies "covalent-metallic" ∧ dummySpecies "covalent" = dummySpecies "shallow covalent-metallic" ∧
    dummySpecies "electride" = dummySpecies "bare electron" := by decide

/-- Two voxels, a covalent and a covalent-metallic bond. -/
def expDemo : Exporter ℚ := ⟨fun v => (v : ℚ) + 1, fun _ => 5, "ELFCAR", "CHGCAR", fun v => if v = 0 then 0 else 1,
  [("covalent", [0]), ("covalent-metallic", [1])]⟩

/-- **C82, not the charge.** `write_features_by_type` with `write_reference=False` writes the reference under the name of the charge file. -/
theorem C82_charge_not_written :
    ∃ g, (writeByType expDemo ⟨.path "out", false, false, none, none⟩ ["covalent"] (fun _ => none)).1 ("out", "CHGCAR_Z") = some g ∧
      g.isRef = true ∧ g.data 0 = 1 ∧ expDemo.chg 0 = 5 := by
  refine ⟨_, rfl, ?_⟩
  decide +kernel

/-- The hypotheses of `C82_by_type_partial` hold for bonds, lone pairs and cores. -/
example : (∀ t ∈ ["covalent", "lone-pair", "core"], t ∈ featureValues) ∧
    ∀ t ∈ ["covalent", "lone-pair", "core"], ∀ t' ∈ ["covalent", "lone-pair", "core"], dummySpecies t = dummySpecies t' → t = t' := by decide

/-- **C82, the directory.** A directory given as a string, as documented, raises; nothing is written. -/
theorem C82_str_directory (L : Exporter K) (o : ExpOpts) {s : String} (hd : o.dir = .str s) (fs : Files (GridFile K)) :
    (∀ i l, writeFeatureBasins L o (i :: l) fs = (fs, false)) ∧ (∀ idxs, writeFeatureSum L o idxs fs = (fs, false)) ∧
    (∀ t l, writeByType L o (t :: l) fs = (fs, false)) := by
  have hsum : ∀ o' : ExpOpts, o'.dir = .str s → ∀ idxs, writeFeatureSum L o' idxs fs = (fs, false) := by
    intro o' ho idxs
    unfold writeFeatureSum
    rw [ho]
    split
    · rfl
    · split <;> rfl
  refine ⟨fun i l => ?_, hsum o hd, fun t l => ?_⟩
  · unfold writeFeatureBasins
    split
    · rfl
    · apply forEach_fail
      rw [hd]
      split <;> rfl
  · apply forEach_fail
    unfold writeOneType
    split
    · rfl
    · simp only
      have h := hsum { o with useRef := true, pre := some (L.prefix o ++ "_" ++ dummySpecies t) } hd (L.ofTypes [t])
      rw [h]
      rfl

/-- **C82, no directory.** `write_features_by_type` with `directory=None`, which its callee accepts, raises and leaves the temporary file. -/
theorem C82_none_directory (L : Exporter K) (o : ExpOpts) (hd : o.dir = .none_) {t : String} (ht : t ∈ featureValues) (l : List String)
    (fs : Files (GridFile K)) :
    writeByType L o (t :: l) fs =
      (Function.update fs (".", L.prefix o ++ "_" ++ dummySpecies t ++ "_fsum") (some (typeFile L o t)), false) := by
  apply forEach_fail
  obtain ⟨hv, hm⟩ := ofTypes_spec L [t]
  obtain ⟨bs, h1, h2⟩ := basinsOf_spec L hv
  unfold writeOneType
  rw [if_neg (by simpa using ht)]
  simp only
  unfold writeFeatureSum typeFile
  rw [badDummies_false L _ hv, h1, hd]
  rfl

/-! ### Spin -/

theorem spinOneFeature_eq (S : SpinExporter K) (o : ExpOpts) (L : Exporter K) (suffix : String) {i : ℕ} (hi : i < L.feats.length) {d : String}
    (hd : o.dir.default = .path d) (fs : Files (GridFile K)) :
    spinOneFeature S o L suffix i fs = (assign d [(S.temp o ++ "_f" ++ Nat.repr i, none),
      (S.prefix o ++ "_f" ++ Nat.repr i ++ suffix, some (L.file (S.opts o) [i] (L.feats[i]?.elim [] Prod.snd)))] fs, true) := by
  unfold spinOneFeature
  have hb : (S.opts o).dir.default.base = some d := by
    unfold SpinExporter.opts
    simp only [hd]
    rfl
  rw [writeFeatureBasins_eq L (S.opts o) (by simpa using hi) hb, hd]
  exact write_rename d _ _ _ fs

theorem spinFile_shows (S : SpinExporter K) (o : ExpOpts) (L : Exporter K) {i : ℕ} (hi : i < L.feats.length) :
    Shows L o.useRef (OfFeature L i) (L.file (S.opts o) [i] (L.feats[i]?.elim [] Prod.snd)) := by
  apply file_shows L (S.opts o)
  intro b
  unfold OfFeature
  rw [List.getElem?_eq_getElem hi]
  simp

/-- **C82, spin-polarised, all features.** Every feature of both channels has its own file `<prefix>_f<index>_up` or `_down`.  Other files do not
change, but a file `<prefix>_f<index>` that was there is removed. -/
theorem C82_spin_all (S : SpinExporter K) (o : ExpOpts) (hS : S.equal = false) {d : String} (hd : o.dir = .path d ∨ (o.dir = .none_ ∧ d = "."))
    (fs : Files (GridFile K)) :
    ∃ fs', spinWriteAll S o fs = (fs', true) ∧
      (∀ i < S.up.feats.length, (∃ g, fs' (d, S.prefix o ++ "_f" ++ Nat.repr i ++ "_up") = some g ∧ Shows S.up o.useRef (OfFeature S.up i) g ∧
        g.fmt = o.fmt) ∧ fs' (d, S.prefix o ++ "_f" ++ Nat.repr i) = none) ∧
      (∀ i < S.down.feats.length, (∃ g, fs' (d, S.prefix o ++ "_f" ++ Nat.repr i ++ "_down") = some g ∧
        Shows S.down o.useRef (OfFeature S.down i) g ∧ g.fmt = o.fmt) ∧ fs' (d, S.prefix o ++ "_f" ++ Nat.repr i) = none) ∧
      OnlyChanged fs fs' d (fun n => (∃ i < S.up.feats.length, n = S.prefix o ++ "_f" ++ Nat.repr i ++ "_up" ∨ n = S.prefix o ++ "_f" ++ Nat.repr i) ∨
        (∃ i < S.down.feats.length, n = S.prefix o ++ "_f" ++ Nat.repr i ++ "_down" ∨ n = S.prefix o ++ "_f" ++ Nat.repr i)) := by
  have hb : o.dir.default = .path d := by
    rcases hd with h | ⟨h, rfl⟩ <;> rw [h] <;> rfl
  have hT : S.temp o = S.prefix o := by unfold SpinExporter.temp; rw [hS]; rfl
  have e1 := forEach_assign (f := spinOneFeature S o S.up "_up") (l := List.range S.up.feats.length)
    (fun i h fs => spinOneFeature_eq S o S.up "_up" (List.mem_range.mp h) hb fs)
  have e2 := forEach_assign (f := spinOneFeature S o S.down "_down") (l := List.range S.down.feats.length)
    (fun i h fs => spinOneFeature_eq S o S.down "_down" (List.mem_range.mp h) hb fs)
  rw [hT] at e1 e2
  set EU := (List.range S.up.feats.length).flatMap fun i => [(S.prefix o ++ "_f" ++ Nat.repr i, (none : Option (GridFile K))),
      (S.prefix o ++ "_f" ++ Nat.repr i ++ "_up", some (S.up.file (S.opts o) [i] (S.up.feats[i]?.elim [] Prod.snd)))] with hEU
  set ED := (List.range S.down.feats.length).flatMap fun i => [(S.prefix o ++ "_f" ++ Nat.repr i, (none : Option (GridFile K))),
      (S.prefix o ++ "_f" ++ Nat.repr i ++ "_down", some (S.down.file (S.opts o) [i] (S.down.feats[i]?.elim [] Prod.snd)))] with hED
  have heq : spinWriteAll S o fs = (assign d (EU ++ ED) fs, true) := by
    unfold spinWriteAll
    rw [hS]
    simp only [Bool.false_eq_true, if_false]
    rw [e1]
    simp only [Wrote.andThen, if_true]
    rw [e2, assign_append]
  have hmem : ∀ a w, (a, w) ∈ EU ++ ED ↔
      (∃ i < S.up.feats.length, (a = S.prefix o ++ "_f" ++ Nat.repr i ∧ w = none) ∨
        (a = S.prefix o ++ "_f" ++ Nat.repr i ++ "_up" ∧ w = some (S.up.file (S.opts o) [i] (S.up.feats[i]?.elim [] Prod.snd)))) ∨
      (∃ i < S.down.feats.length, (a = S.prefix o ++ "_f" ++ Nat.repr i ∧ w = none) ∨
        (a = S.prefix o ++ "_f" ++ Nat.repr i ++ "_down" ∧ w = some (S.down.file (S.opts o) [i] (S.down.feats[i]?.elim [] Prod.snd)))) := by
    intro a w
    rw [List.mem_append, hEU, hED, List.mem_flatMap, List.mem_flatMap]
    simp only [List.mem_range, List.mem_cons, Prod.mk.injEq, List.not_mem_nil, or_false]
  have hnone : ∀ i, (i < S.up.feats.length ∨ i < S.down.feats.length) → assign d (EU ++ ED) fs (d, S.prefix o ++ "_f" ++ Nat.repr i) = none := by
    intro i hi
    apply assign_mem
    · rw [hmem]
      rcases hi with hi | hi
      · exact Or.inl ⟨i, hi, Or.inl ⟨rfl, rfl⟩⟩
      · exact Or.inr ⟨i, hi, Or.inl ⟨rfl, rfl⟩⟩
    · intro w hw
      rw [hmem] at hw
      rcases hw with ⟨j, _, h | ⟨h, _⟩⟩ | ⟨j, _, h | ⟨h, _⟩⟩
      · exact h.2
      · exact absurd h (numbered_ne_suffix (by decide) i j)
      · exact h.2
      · exact absurd h (numbered_ne_suffix (by decide) i j)
  refine ⟨_, heq, fun i hi => ⟨⟨_, ?_, spinFile_shows S o S.up hi, rfl⟩, hnone i (Or.inl hi)⟩,
    fun i hi => ⟨⟨_, ?_, spinFile_shows S o S.down hi, rfl⟩, hnone i (Or.inr hi)⟩, fun n hn => ?_⟩
  · apply assign_mem
    · rw [hmem]; exact Or.inl ⟨i, hi, Or.inr ⟨rfl, rfl⟩⟩
    · intro w hw
      rw [hmem] at hw
      rcases hw with ⟨j, _, ⟨h, _⟩ | ⟨h, h2⟩⟩ | ⟨j, _, ⟨h, _⟩ | ⟨h, _⟩⟩
      · exact absurd h.symm (numbered_ne_suffix (by decide) j i)
      · rw [numbered_suffix_inj.mp h]; exact h2
      · exact absurd h.symm (numbered_ne_suffix (by decide) j i)
      · exact absurd h (up_ne_down _ _)
  · apply assign_mem
    · rw [hmem]; exact Or.inr ⟨i, hi, Or.inr ⟨rfl, rfl⟩⟩
    · intro w hw
      rw [hmem] at hw
      rcases hw with ⟨j, _, ⟨h, _⟩ | ⟨h, _⟩⟩ | ⟨j, _, ⟨h, _⟩ | ⟨h, h2⟩⟩
      · exact absurd h.symm (numbered_ne_suffix (by decide) j i)
      · exact absurd h.symm (up_ne_down _ _)
      · exact absurd h.symm (numbered_ne_suffix (by decide) j i)
      · rw [numbered_suffix_inj.mp h]; exact h2
  · apply assign_other
    rintro h1 ⟨a, w⟩ hx h2
    rw [hmem] at hx
    apply hn h1
    rw [h2]
    rcases hx with ⟨j, hj, ⟨h, _⟩ | ⟨h, _⟩⟩ | ⟨j, hj, ⟨h, _⟩ | ⟨h, _⟩⟩
    · exact Or.inl ⟨j, hj, Or.inr h⟩
    · exact Or.inl ⟨j, hj, Or.inl h⟩
    · exact Or.inr ⟨j, hj, Or.inr h⟩
    · exact Or.inr ⟨j, hj, Or.inl h⟩

/-- **C82, equal channels, all features.** Every feature has its file `<prefix>_f<index>` and no temporary file stays. -/
theorem C82_equal_all (S : SpinExporter K) (o : ExpOpts) (hS : S.equal = true) {d : String} (hd : o.dir = .path d ∨ (o.dir = .none_ ∧ d = "."))
    (fs : Files (GridFile K)) :
    ∃ fs', spinWriteAll S o fs = (fs', true) ∧
      (∀ i < S.up.feats.length, (∃ g, fs' (d, S.prefix o ++ "_f" ++ Nat.repr i) = some g ∧ Shows S.up o.useRef (OfFeature S.up i) g ∧
        g.fmt = o.fmt) ∧ fs' (d, S.prefix o ++ "_temp" ++ "_f" ++ Nat.repr i) = none) ∧
      OnlyChanged fs fs' d (fun n => ∃ i < S.up.feats.length, n = S.prefix o ++ "_f" ++ Nat.repr i ∨ n = S.prefix o ++ "_temp" ++ "_f" ++ Nat.repr i) := by
  have hb : o.dir.default = .path d := by
    rcases hd with h | ⟨h, rfl⟩ <;> rw [h] <;> rfl
  have hT : S.temp o = S.prefix o ++ "_temp" := by unfold SpinExporter.temp; rw [hS]; rfl
  have e1 := forEach_assign (f := spinOneFeature S o S.up "") (l := List.range S.up.feats.length)
    (fun i h fs => spinOneFeature_eq S o S.up "" (List.mem_range.mp h) hb fs) fs
  rw [hT] at e1
  simp only [String.append_empty] at e1
  have heq : spinWriteAll S o fs = forEach (spinOneFeature S o S.up "") (List.range S.up.feats.length) fs := by
    unfold spinWriteAll
    rw [hS]
    simp only [if_true]
    rw [e1]
    rfl
  rw [e1] at heq
  have hne : ∀ i j, S.prefix o ++ "_temp" ++ "_f" ++ Nat.repr i ≠ S.prefix o ++ "_f" ++ Nat.repr j := fun i j => temp_ne _ _ _ _
  refine ⟨_, heq, fun i hi => ⟨⟨_, ?_, spinFile_shows S o S.up hi, rfl⟩, ?_⟩, fun n hn => ?_⟩
  · apply assign_mem
    · exact List.mem_flatMap.mpr ⟨i, List.mem_range.mpr hi, by simp⟩
    · intro w hw
      obtain ⟨j, _, he⟩ := List.mem_flatMap.mp hw
      simp only [List.mem_cons, Prod.mk.injEq, List.not_mem_nil, or_false] at he
      rcases he with ⟨h1, _⟩ | ⟨h1, h2⟩
      · exact absurd h1.symm (hne j i)
      · rw [numbered_inj.mp h1]; exact h2
  · apply assign_mem
    · exact List.mem_flatMap.mpr ⟨i, List.mem_range.mpr hi, by simp⟩
    · intro w hw
      obtain ⟨j, _, he⟩ := List.mem_flatMap.mp hw
      simp only [List.mem_cons, Prod.mk.injEq, List.not_mem_nil, or_false] at he
      rcases he with ⟨_, h2⟩ | ⟨h1, _⟩
      · exact h2
      · exact absurd h1 (hne i j)
  · apply assign_other
    rintro h1 ⟨a, w⟩ hx h2
    obtain ⟨j, hj, he⟩ := List.mem_flatMap.mp hx
    simp only [List.mem_cons, Prod.mk.injEq, List.not_mem_nil, or_false] at he
    apply hn h1
    rw [h2]
    rcases he with ⟨h, _⟩ | ⟨h, _⟩
    · exact ⟨j, List.mem_range.mp hj, Or.inr h⟩
    · exact ⟨j, List.mem_range.mp hj, Or.inl h⟩

theorem spinOneType_eq (S : SpinExporter K) (o : ExpOpts) (L : Exporter K) (suffix : String) {t : String} (ht : t ∈ featureValues) {d : String}
    (hd : o.dir.default = .path d) (fs : Files (GridFile K)) :
    spinOneType S o L suffix t fs = (assign d [(S.temp o ++ "_" ++ dummySpecies t ++ "_fsum", none), (S.temp o ++ "_" ++ dummySpecies t, none),
      (S.prefix o ++ "_" ++ dummySpecies t ++ suffix, some (typeFile L (S.opts o) t))] fs, true) := by
  unfold spinOneType writeByType forEach
  have h1 := writeOneType_eq L (S.opts o) ht (d := d) hd fs
  rw [h1, hd]
  have h2 := write_rename_rename d (S.temp o ++ "_" ++ dummySpecies t ++ "_fsum") (S.temp o ++ "_" ++ dummySpecies t)
    (S.prefix o ++ "_" ++ dummySpecies t ++ suffix) (typeFile L (S.opts o) t) fs
  rw [write_rename] at h2
  exact h2

/-- **C82, spin-polarised, by type.** With different species both channels have a file for every type.  As in `C82_by_type_partial` the data is
always the reference. -/
theorem C82_spin_by_type_partial (S : SpinExporter K) (o : ExpOpts) (hS : S.equal = false) {types : List String} (ht : ∀ t ∈ types, t ∈ featureValues)
    (hs : ∀ t ∈ types, ∀ t' ∈ types, dummySpecies t = dummySpecies t' → t = t') {d : String} (hd : o.dir = .path d ∨ (o.dir = .none_ ∧ d = "."))
    (fs : Files (GridFile K)) :
    ∃ fs', spinWriteByType S o types fs = (fs', true) ∧
      (∀ t ∈ types, (∃ g, fs' (d, S.prefix o ++ "_" ++ dummySpecies t ++ "_up") = some g ∧ Shows S.up true (OfTypes S.up [t]) g) ∧
        (∃ g, fs' (d, S.prefix o ++ "_" ++ dummySpecies t ++ "_down") = some g ∧ Shows S.down true (OfTypes S.down [t]) g)) ∧
      OnlyChanged fs fs' d (fun n => ∃ t ∈ types, ∃ s ∈ ["", "_fsum", "_up", "_down"], n = S.prefix o ++ "_" ++ dummySpecies t ++ s) := by
  have hb : o.dir.default = .path d := by
    rcases hd with h | ⟨h, rfl⟩ <;> rw [h] <;> rfl
  have hT : S.temp o = S.prefix o := by unfold SpinExporter.temp; rw [hS]; rfl
  let e : String → List (String × Option (GridFile K)) := fun t =>
    [(S.prefix o ++ "_" ++ dummySpecies t ++ "_fsum", none), (S.prefix o ++ "_" ++ dummySpecies t, none),
      (S.prefix o ++ "_" ++ dummySpecies t ++ "_up", some (typeFile S.up (S.opts o) t)),
      (S.prefix o ++ "_" ++ dummySpecies t ++ "_fsum", none), (S.prefix o ++ "_" ++ dummySpecies t, none),
      (S.prefix o ++ "_" ++ dummySpecies t ++ "_down", some (typeFile S.down (S.opts o) t))]
  have heq : ∀ types : List String, (∀ t ∈ types, t ∈ featureValues) → ∀ fs, spinWriteByType S o types fs = (assign d (types.flatMap e) fs, true) := by
    intro types
    induction types with
    | nil => intro _ fs; rfl
    | cons t ts ih =>
      intro ht fs
      have h0 := ht t (List.mem_cons_self ..)
      rw [spinWriteByType, if_neg (by simpa using h0), hS]
      simp only [Bool.false_eq_true, if_false]
      rw [spinOneType_eq S o S.up "_up" h0 hb]
      simp only [Wrote.andThen, if_true]
      rw [spinOneType_eq S o S.down "_down" h0 hb]
      simp only [if_true]
      rw [ih (fun t' h' => ht t' (List.mem_cons_of_mem _ h')), List.flatMap_cons, assign_append, hT]
      rfl
  have hmem : ∀ a w, (a, w) ∈ types.flatMap e ↔ ∃ t ∈ types,
      ((a = S.prefix o ++ "_" ++ dummySpecies t ++ "_fsum" ∧ w = none) ∨ (a = S.prefix o ++ "_" ++ dummySpecies t ∧ w = none)) ∨
      (a = S.prefix o ++ "_" ++ dummySpecies t ++ "_up" ∧ w = some (typeFile S.up (S.opts o) t)) ∨
      (a = S.prefix o ++ "_" ++ dummySpecies t ++ "_down" ∧ w = some (typeFile S.down (S.opts o) t)) := by
    intro a w
    rw [List.mem_flatMap]
    refine exists_congr fun t => and_congr_right fun _ => ?_
    simp only [e, List.mem_cons, Prod.mk.injEq, List.not_mem_nil, or_false]
    tauto
  refine ⟨_, heq types ht fs, fun t h => ⟨⟨_, ?_, typeFile_shows S.up (S.opts o) t⟩, ⟨_, ?_, typeFile_shows S.down (S.opts o) t⟩⟩, fun n hn => ?_⟩
  · apply assign_mem
    · rw [hmem]; exact ⟨t, h, Or.inr (Or.inl ⟨rfl, rfl⟩)⟩
    · intro w hw
      rw [hmem] at hw
      obtain ⟨t', h', (⟨h1, _⟩ | ⟨h1, _⟩) | ⟨h1, h2⟩ | ⟨h1, _⟩⟩ := hw
      · exact absurd h1 (ne_of_last (by decide) (by decide) (by decide))
      · exact absurd h1.symm (dummy_ne_suffix (by decide) t' t)
      · rw [name_inj_right, name_inj] at h1
        rw [h2, hs t h t' h' h1]
      · exact absurd h1 (up_ne_down _ _)
  · apply assign_mem
    · rw [hmem]; exact ⟨t, h, Or.inr (Or.inr ⟨rfl, rfl⟩)⟩
    · intro w hw
      rw [hmem] at hw
      obtain ⟨t', h', (⟨h1, _⟩ | ⟨h1, _⟩) | ⟨h1, _⟩ | ⟨h1, h2⟩⟩ := hw
      · exact absurd h1 (ne_of_last (by decide) (by decide) (by decide))
      · exact absurd h1.symm (dummy_ne_suffix (by decide) t' t)
      · exact absurd h1.symm (up_ne_down _ _)
      · rw [name_inj_right, name_inj] at h1
        rw [h2, hs t h t' h' h1]
  · apply assign_other
    rintro h1 ⟨a, w⟩ hx h2
    rw [hmem] at hx
    apply hn h1
    rw [h2]
    obtain ⟨t, h, (⟨h1, _⟩ | ⟨h1, _⟩) | ⟨h1, _⟩ | ⟨h1, _⟩⟩ := hx
    · exact ⟨t, h, "_fsum", by simp, h1⟩
    · exact ⟨t, h, "", by simp, by rw [String.append_empty]; exact h1⟩
    · exact ⟨t, h, "_up", by simp, h1⟩
    · exact ⟨t, h, "_down", by simp, h1⟩

/-- **C82, not with equal channels.** Only the file of the first type is written: the file of another type with another species is as before. -/
theorem C82_equal_only_first (S : SpinExporter K) (o : ExpOpts) (hS : S.equal = true) {t : String} (ht : t ∈ featureValues) (ts : List String)
    {d : String} (hd : o.dir = .path d ∨ (o.dir = .none_ ∧ d = ".")) (fs : Files (GridFile K)) :
    ∃ fs', spinWriteByType S o (t :: ts) fs = (fs', true) ∧
      (∃ g, fs' (d, S.prefix o ++ "_" ++ dummySpecies t) = some g ∧ Shows S.up true (OfTypes S.up [t]) g) ∧
      ∀ t' ∈ ts, dummySpecies t' ≠ dummySpecies t →
        fs' (d, S.prefix o ++ "_" ++ dummySpecies t') = fs (d, S.prefix o ++ "_" ++ dummySpecies t') := by
  have hb : o.dir.default = .path d := by
    rcases hd with h | ⟨h, rfl⟩ <;> rw [h] <;> rfl
  have hT : S.temp o = S.prefix o ++ "_temp" := by unfold SpinExporter.temp; rw [hS]; rfl
  have heq : spinWriteByType S o (t :: ts) fs = spinOneType S o S.up "" t fs := by
    rw [spinWriteByType, if_neg (by simpa using ht), hS]
    rfl
  rw [spinOneType_eq S o S.up "" ht hb, hT] at heq
  simp only [String.append_empty] at heq
  have hne : ∀ t' s, S.prefix o ++ "_" ++ dummySpecies t' ≠ S.prefix o ++ "_temp" ++ "_" ++ dummySpecies t ++ s := by
    intro t' s h
    have e1 : S.prefix o ++ "_temp" ++ "_" ++ dummySpecies t ++ s = S.prefix o ++ "_" ++ ("temp_" ++ dummySpecies t ++ s) := by
      rw [← String.toList_inj]
      simp [String.toList_append]
    rw [e1, name_inj] at h
    have : '_' ∈ (dummySpecies t').toList := by
      rw [h, String.toList_append, String.toList_append]
      exact List.mem_append_left _ (List.mem_append_left _ (by decide))
    exact underscore_not_mem_dummy t' this
  refine ⟨_, heq, ⟨_, ?_, typeFile_shows S.up (S.opts o) t⟩, fun t' _ hs => ?_⟩
  · apply assign_mem
    · simp
    · intro w hw
      simp only [List.mem_cons, Prod.mk.injEq, List.not_mem_nil, or_false] at hw
      rcases hw with ⟨h1, _⟩ | ⟨h1, _⟩ | ⟨_, h2⟩
      · exact absurd h1 (hne _ _)
      · exact absurd (h1.trans (by rw [String.append_empty])) (hne t "")
      · exact h2
  · apply assign_other
    rintro - x hx h2
    simp only [List.mem_cons, List.not_mem_nil, or_false] at hx
    rcases hx with rfl | rfl | rfl
    · exact hne _ _ h2
    · exact hne t' "" (h2.trans (by rw [String.append_empty]))
    · exact hs (name_inj.mp h2)

/-- **C82, the union of types with spin.** -/
theorem C82_spin_sum (S : SpinExporter K) (o : ExpOpts) (types : List String) {d : String} (hd : o.dir = .path d ∨ (o.dir = .none_ ∧ d = "."))
    (fs : Files (GridFile K)) :
    ∃ fs', spinWriteByTypeSum S o types fs = (fs', true) ∧
      (S.equal = false → (∃ g, fs' (d, S.prefix o ++ "_fsum_up") = some g ∧ Shows S.up o.useRef (OfTypes S.up types) g ∧ g.fmt = o.fmt) ∧
        (∃ g, fs' (d, S.prefix o ++ "_fsum_down") = some g ∧ Shows S.down o.useRef (OfTypes S.down types) g ∧ g.fmt = o.fmt)) ∧
      (S.equal = true → ∃ g, fs' (d, S.prefix o ++ "_fsum") = some g ∧ Shows S.up o.useRef (OfTypes S.up types) g ∧ g.fmt = o.fmt) := by
  have hb : o.dir.default = .path d := by
    rcases hd with h | ⟨h, rfl⟩ <;> rw [h] <;> rfl
  have hone : ∀ (L : Exporter K) (suf : String), ∃ g, Shows L o.useRef (OfTypes L types) g ∧ g.fmt = o.fmt ∧
      ∀ fs, spinOneSum S o L suf types fs = (assign d [(S.temp o ++ "_fsum", none), (S.prefix o ++ "_fsum" ++ suf, some g)] fs, true) := by
    intro L suf
    obtain ⟨hv, hm⟩ := ofTypes_spec L types
    obtain ⟨bs, h1, h2⟩ := basinsOf_spec L hv
    refine ⟨L.file (S.opts o) (L.ofTypes types) bs, file_shows L (S.opts o) _ bs fun b => (h2 b).trans (hm b), rfl, fun fs => ?_⟩
    unfold spinOneSum writeByTypeSum writeFeatureSum
    rw [badDummies_false L _ hv, h1, hb]
    have h3 : (S.opts o).dir.default.base = some d := by
      unfold SpinExporter.opts; simp only [hb]; rfl
    rw [h3]
    exact write_rename d _ _ _ fs
  cases hS : S.equal with
  | true =>
    obtain ⟨g, h1, h2, h3⟩ := hone S.up ""
    refine ⟨_, by unfold spinWriteByTypeSum; rw [hS, if_pos rfl, h3], fun h => by simp at h, fun _ => ⟨g, ?_, h1, h2⟩⟩
    simp only [String.append_empty, assign, Function.update_self]
  | false =>
    obtain ⟨g, h1, h2, h3⟩ := hone S.up "_up"
    obtain ⟨g', h1', h2', h3'⟩ := hone S.down "_down"
    have hT : S.temp o = S.prefix o := by unfold SpinExporter.temp; rw [hS]; rfl
    have ha : S.prefix o ++ "_fsum" ++ "_up" = S.prefix o ++ "_fsum_up" := by
      rw [← String.toList_inj]; simp [String.toList_append]
    have hb' : S.prefix o ++ "_fsum" ++ "_down" = S.prefix o ++ "_fsum_down" := by
      rw [← String.toList_inj]; simp [String.toList_append]
    refine ⟨_, by
      unfold spinWriteByTypeSum
      rw [hS, if_neg (by simp), h3]
      simp only [Wrote.andThen, if_true]
      rw [h3'], fun _ => ⟨⟨g, ?_, h1, h2⟩, ⟨g', ?_, h1', h2'⟩⟩, fun h => by simp at h⟩
    · rw [hT, ha, hb']
      simp only [assign]
      rw [Function.update_of_ne, Function.update_of_ne, Function.update_self]
      · rw [Ne, Prod.mk.injEq, not_and]
        rintro - h
        rw [name_inj] at h
        exact absurd h (by decide)
      · rw [Ne, Prod.mk.injEq, not_and]
        rintro - h
        rw [name_inj] at h
        exact absurd h (by decide)
    · rw [hb']
      simp only [assign, Function.update_self]

/-! ### `SpinBadelf` -/

variable {C : Type}

/-- **C82, `SpinBadelf`, polarised.** Every atom has the files `<prefix>_a<index>_up` and `_down`, always in the default format; a file
`<prefix>_a<index>` that was there is removed. -/
theorem C82_badelf_polarised (dir : Dir) (pre : String) (up down : ℕ → Option String → C) (fmt : Option String) (idxs : List ℕ) {d : String}
    (hd : dir = .path d ∨ (dir = .none_ ∧ d = ".")) (fs : Files C) :
    ∃ fs', spinBadelfAtoms false dir pre up down fmt idxs fs = (fs', true) ∧
      ∀ i ∈ idxs, fs' (d, pre ++ "_a" ++ Nat.repr i ++ "_up") = some (up i none) ∧ fs' (d, pre ++ "_a" ++ Nat.repr i ++ "_down") = some (down i none) ∧
        fs' (d, pre ++ "_a" ++ Nat.repr i) = none := by
  have hb : dir.default.base = some d := by
    rcases hd with h | ⟨h, rfl⟩ <;> rw [h] <;> rfl
  let e : ℕ → List (String × Option C) := fun i => [(pre ++ "_a" ++ Nat.repr i, none), (pre ++ "_a" ++ Nat.repr i ++ "_up", some (up i none)),
    (pre ++ "_a" ++ Nat.repr i, none), (pre ++ "_a" ++ Nat.repr i ++ "_down", some (down i none))]
  have hone : ∀ i fs, spinBadelfAtom false dir pre up down fmt i fs = (assign d (e i) fs, true) := by
    intro i fs
    unfold spinBadelfAtom
    simp only [Bool.false_eq_true, if_false]
    rw [hb]
    simp only [fwrite, frename, Wrote.andThen, if_true, Function.update_self, e, assign, Function.update_idem]
  have heq := forEach_assign (f := spinBadelfAtom false dir pre up down fmt) (l := idxs) (fun i _ fs => hone i fs) fs
  have hmem : ∀ a w, (a, w) ∈ idxs.flatMap e ↔ ∃ i ∈ idxs, (a = pre ++ "_a" ++ Nat.repr i ∧ w = none) ∨
      (a = pre ++ "_a" ++ Nat.repr i ++ "_up" ∧ w = some (up i none)) ∨ (a = pre ++ "_a" ++ Nat.repr i ++ "_down" ∧ w = some (down i none)) := by
    intro a w
    rw [List.mem_flatMap]
    refine exists_congr fun t => and_congr_right fun _ => ?_
    simp only [e, List.mem_cons, Prod.mk.injEq, List.not_mem_nil, or_false]
    tauto
  refine ⟨_, heq, fun i hi => ⟨?_, ?_, ?_⟩⟩
  · apply assign_mem
    · rw [hmem]; exact ⟨i, hi, Or.inr (Or.inl ⟨rfl, rfl⟩)⟩
    · intro w hw
      rw [hmem] at hw
      obtain ⟨j, _, ⟨h, _⟩ | ⟨h, h2⟩ | ⟨h, _⟩⟩ := hw
      · exact absurd h.symm (numbered_ne_suffix (by decide) j i)
      · rw [numbered_suffix_inj.mp h]; exact h2
      · exact absurd h (up_ne_down _ _)
  · apply assign_mem
    · rw [hmem]; exact ⟨i, hi, Or.inr (Or.inr ⟨rfl, rfl⟩)⟩
    · intro w hw
      rw [hmem] at hw
      obtain ⟨j, _, ⟨h, _⟩ | ⟨h, _⟩ | ⟨h, h2⟩⟩ := hw
      · exact absurd h.symm (numbered_ne_suffix (by decide) j i)
      · exact absurd h.symm (up_ne_down _ _)
      · rw [numbered_suffix_inj.mp h]; exact h2
  · apply assign_mem
    · rw [hmem]; exact ⟨i, hi, Or.inl ⟨rfl, rfl⟩⟩
    · intro w hw
      rw [hmem] at hw
      obtain ⟨j, _, ⟨_, h2⟩ | ⟨h, _⟩ | ⟨h, _⟩⟩ := hw
      · exact h2
      · exact absurd h (numbered_ne_suffix (by decide) i j)
      · exact absurd h (numbered_ne_suffix (by decide) i j)

/-- **C82, not with equal channels of `SpinBadelf`.** The files keep their temporary names `<prefix>_temp_a<index>`; the files
`<prefix>_a<index>` are not written. -/
theorem C82_badelf_equal (dir : Dir) (pre : String) (up down : ℕ → Option String → C) (fmt : Option String) (idxs : List ℕ) {d : String}
    (hd : dir = .path d ∨ (dir = .none_ ∧ d = ".")) (fs : Files C) :
    ∃ fs', spinBadelfAtoms true dir pre up down fmt idxs fs = (fs', true) ∧
      (∀ i ∈ idxs, fs' (d, pre ++ "_temp" ++ "_a" ++ Nat.repr i) = some (up i none)) ∧
      ∀ j, fs' (d, pre ++ "_a" ++ Nat.repr j) = fs (d, pre ++ "_a" ++ Nat.repr j) := by
  have hb : dir.default.base = some d := by
    rcases hd with h | ⟨h, rfl⟩ <;> rw [h] <;> rfl
  have hone : ∀ i fs, spinBadelfAtom true dir pre up down fmt i fs =
      (assign d [(pre ++ "_temp" ++ "_a" ++ Nat.repr i, some (up i none))] fs, true) := by
    intro i fs
    unfold spinBadelfAtom
    rw [hb]
    rfl
  have heq := forEach_assign (f := spinBadelfAtom true dir pre up down fmt) (l := idxs) (fun i _ fs => hone i fs) fs
  refine ⟨_, heq, fun i hi => ?_, fun j => ?_⟩
  · apply assign_mem
    · exact List.mem_flatMap.mpr ⟨i, hi, by simp⟩
    · intro w hw
      obtain ⟨j, _, he⟩ := List.mem_flatMap.mp hw
      rw [List.mem_singleton, Prod.mk.injEq, numbered_inj] at he
      rw [he.2, he.1]
  · apply assign_other
    rintro - x hx h2
    obtain ⟨i, _, he⟩ := List.mem_flatMap.mp hx
    rw [List.mem_singleton] at he
    rw [he] at h2
    simp only at h2
    rw [String.append_assoc, String.append_assoc, String.append_assoc, name_inj] at h2
    have := congrArg (fun s : String => s.toList[1]?) h2
    simp [String.toList_append] at this

/-- **C82, the sum of atoms with `SpinBadelf`.** With different channels both have a file; with equal channels the file keeps the temporary name
and `<prefix>_asum` is not written. -/
theorem C82_badelf_sum (dir : Dir) (pre : String) (up down : Option String → C) (fmt : Option String) {d : String}
    (hd : dir = .path d ∨ (dir = .none_ ∧ d = ".")) (fs : Files C) :
    (∃ fs', spinBadelfSum false dir pre up down fmt fs = (fs', true) ∧ fs' (d, pre ++ "_asum_up") = some (up none) ∧
      fs' (d, pre ++ "_asum_down") = some (down none) ∧ fs' (d, pre ++ "_temp_asum") = none) ∧
    (∃ fs', spinBadelfSum true dir pre up down fmt fs = (fs', true) ∧ fs' (d, pre ++ "_temp_asum") = some (up none) ∧
      fs' (d, pre ++ "_asum") = fs (d, pre ++ "_asum")) := by
  have hb : dir.default.base = some d := by
    rcases hd with h | ⟨h, rfl⟩ <;> rw [h] <;> rfl
  have n1 : pre ++ "_asum_up" ≠ pre ++ "_asum_down" := by rw [Ne, name_inj]; decide
  have n2 : pre ++ "_asum_up" ≠ pre ++ "_temp_asum" := by rw [Ne, name_inj]; decide
  have n3 : pre ++ "_asum_down" ≠ pre ++ "_temp_asum" := by rw [Ne, name_inj]; decide
  have n4 : pre ++ "_asum" ≠ pre ++ "_temp_asum" := by rw [Ne, name_inj]; decide
  constructor
  · unfold spinBadelfSum
    rw [hb]
    simp only [fwrite, frename, Wrote.andThen, if_true, Bool.false_eq_true, if_false, Function.update_self]
    refine ⟨_, rfl, ?_, ?_, ?_⟩
    · simp [Function.update, n1, n2]
    · simp [Function.update]
    · simp [Function.update, n3.symm]
  · unfold spinBadelfSum
    rw [hb]
    refine ⟨_, rfl, ?_, ?_⟩
    · simp [fwrite, Wrote.andThen]
    · simp [fwrite, Wrote.andThen, n4]

/-- **C82, a species with `SpinBadelf`.** -/
theorem C82_badelf_species (dir : Dir) (pre species : String) (up down : Option String → C) (fmt : Option String) {d : String}
    (hd : dir = .path d ∨ (dir = .none_ ∧ d = ".")) (fs : Files C) :
    (∃ fs', spinBadelfSpecies false dir pre species up down fmt fs = (fs', true) ∧ fs' (d, pre ++ "_" ++ species ++ "_up") = some (up none) ∧
      fs' (d, pre ++ "_" ++ species ++ "_down") = some (down none)) ∧
    (∃ fs', spinBadelfSpecies true dir pre species up down fmt fs = (fs', true) ∧ fs' (d, pre ++ "_" ++ species) = some (up none)) := by
  have hb : dir.default.base = some d := by
    rcases hd with h | ⟨h, rfl⟩ <;> rw [h] <;> rfl
  have n1 : pre ++ "_" ++ species ++ "_up" ≠ pre ++ "_" ++ species ++ "_down" := up_ne_down _ _
  have n2 : pre ++ "_" ++ species ++ "_up" ≠ pre ++ "_" ++ species := by
    intro h
    have := congrArg (fun s : String => s.toList.length) h
    simp [String.toList_append] at this
  constructor
  · unfold spinBadelfSpecies
    rw [hb]
    simp only [fwrite, frename, Wrote.andThen, if_true, Bool.false_eq_true, if_false, Function.update_self]
    refine ⟨_, rfl, ?_, ?_⟩
    · simp [Function.update, n1, n2]
    · simp [Function.update]
  · unfold spinBadelfSpecies
    rw [hb]
    refine ⟨_, rfl, ?_⟩
    simp [fwrite, Wrote.andThen]

/-- What `C82_spin_all` says on two channels with different features, and the removed file. -/
example :
    let S : SpinExporter ℚ := ⟨expDemo, { expDemo with feats := [("core", [0, 1])] }, false, "ELFCAR", "CHGCAR"⟩
    let r := spinWriteAll S ⟨.none_, true, false, none, none⟩
      (Function.update (fun _ => none) (".", "ELFCAR_f0") (some ⟨fun _ => 7, true, none, none⟩))
    r.2 = true ∧ (r.1 (".", "ELFCAR_f1_up")).map (fun g => (g.data 0, g.data 1)) = some (0, 2) ∧
      (r.1 (".", "ELFCAR_f0_down")).map (fun g => (g.data 0, g.data 1)) = some (1, 2) ∧ (r.1 (".", "ELFCAR_f0")).isSome = false := by
  decide +kernel

end BaderKit
