import Verif.Model.VolumeFiles
import Verif.Spec.Exporters
import Verif.Lemmas.Exporters
/-!
# C122: the files of exported atoms and basins
-/
set_option linter.unusedSectionVars false
namespace BaderKit
variable {K S : Type} [Zero K]

/-! ## Specification -/

/-- The array `F` has the data at the selected voxels and zero elsewhere. -/
def SelectedOnly (sel : ℕ → Prop) (data F : ℕ → K) : Prop := ∀ v, (sel v → F v = data v) ∧ (¬ sel v → F v = 0)

/-- The format a user asks for: the one that is named, and without one the one that `own` says. -/
def Wants (o : VolOpts) (own f : FileFormat) : Prop := o.fmt = .none ∧ f = own ∨ o.fmt = .member f ∨ ∃ s, o.fmt = .text s ∧ formatOf s = some f

/-- The directory a user gives. -/
def WritesTo (o : VolOpts) (d : String) : Prop := o.dir = .path d ∨ (o.dir = .none_ ∧ d = ".")

/-! ## Proofs -/

theorem wants_use {o : VolOpts} {own f : FileFormat} (h : Wants o own f) : o.fmt.use own = some f := by
  rcases h with ⟨h, rfl⟩ | h | ⟨s, h, hs⟩
  · rw [h]; rfl
  · rw [h]; rfl
  · rw [h]; exact hs

theorem writesTo_base {o : VolOpts} {d : String} (h : WritesTo o d) : o.dir.default.base = some d := by
  rcases h with h | ⟨h, rfl⟩ <;> rw [h] <;> rfl

theorem writeVol_eq {o : VolOpts} {own f : FileFormat} (hf : Wants o own f) {d : String} (hd : WritesTo o d) (name : String) (t : ℕ → K)
    (df : Option (ℕ → K)) (s : S) (fs : Files (VolFile K S)) : writeVol o own name t df s fs = (assign d [(name, some ⟨t, df, s, f⟩)] fs, true) := by
  unfold writeVol
  rw [wants_use hf, writesTo_base hd]
  rfl

theorem exportOne_selected (data : ℕ → K) (labels : ℕ → ℤ) (i : ℤ) : SelectedOnly (fun v => labels v = i) data (exportOne data labels i) := by
  intro v
  simp only [exportOne]
  constructor <;> intro h <;> simp [h]

theorem exportSum_selected (data : ℕ → K) (labels : ℕ → ℤ) (idx : List ℕ) :
    SelectedOnly (fun v => ∃ i ∈ idx, labels v = (i : ℕ)) data (exportSum data labels (idx.map fun (i : ℕ) => (i : ℤ))) := by
  intro v
  have e : labels v ∈ idx.map (fun (i : ℕ) => (i : ℤ)) ↔ ∃ i ∈ idx, labels v = (i : ℕ) := by
    rw [List.mem_map]
    exact ⟨fun ⟨i, h, h'⟩ => ⟨i, h, h'.symm⟩, fun ⟨i, h, h'⟩ => ⟨i, h, h'.symm⟩⟩
  unfold exportSum
  constructor <;> intro h
  · rw [if_pos (e.mpr h)]
  · rw [if_neg (fun h' => h (e.mp h'))]

theorem mem_indicesFromSymbol (symbols : List String) (species : String) (i : ℕ) :
    i ∈ indicesFromSymbol symbols species ↔ symbols[i]? = some species := by
  unfold indicesFromSymbol
  rw [List.mem_filter, List.mem_range, List.getD_eq_getElem?_getD]
  by_cases hi : i < symbols.length
  · simp [hi]
  · simp [hi]

theorem mem_whereTrue (mask : List Bool) (i : ℕ) : i ∈ whereTrue mask ↔ mask[i]? = some true := by
  unfold whereTrue
  rw [List.mem_filter, List.mem_range, List.getD_eq_getElem?_getD]
  by_cases hi : i < mask.length
  · simp [hi]
  · simp [hi]

/-- **C122.** `write_basin_volumes` and `write_atom_volumes` of a Bader analysis write for each index one file `<prefix>_b<index>` or
`<prefix>_a<index>` with the requested data at the voxels with this label and zero elsewhere, and change no other file.  The second array of a
spin-polarised grid is not written, and without a requested format the file is a VASP file, whatever the format of the grid was
(`C122_source_format_lost`). -/
theorem C122_one_file_each (B : VolSource K S) (o : VolOpts) (labels : ℕ → ℤ) (tag : String) (idxs : List ℕ) {d : String} (hd : WritesTo o d)
    {f : FileFormat} (hf : Wants o .vasp f) (fs : Files (VolFile K S)) :
    ∃ fs', baderVolumes B o labels tag idxs fs = (fs', true) ∧
      (∀ i ∈ idxs, ∃ g, fs' (d, o.pre.getD (if o.useRef then B.ref.pre else B.chg.pre) ++ tag ++ Nat.repr i) = some g ∧
        SelectedOnly (fun v => labels v = (i : ℕ)) (if o.useRef then B.ref.total else B.chg.total) g.total ∧ g.diff = none ∧ g.fmt = f ∧
        g.sites = B.sites) ∧
      OnlyChanged fs fs' d (fun n => ∃ i ∈ idxs, n = o.pre.getD (if o.useRef then B.ref.pre else B.chg.pre) ++ tag ++ Nat.repr i) := by
  have hp : B.prefix o = o.pre.getD (if o.useRef then B.ref.pre else B.chg.pre) := by
    unfold VolSource.prefix VolSource.grid; split_ifs <;> rfl
  have hg : (B.grid o).total = if o.useRef then B.ref.total else B.chg.total := by
    unfold VolSource.grid; split_ifs <;> rfl
  rw [← hp, ← hg]
  refine ⟨_, forEach_assign (d := d)
    (e := fun (i : ℕ) => [(B.prefix o ++ tag ++ Nat.repr i, some (⟨exportOne (B.grid o).total labels i, none, B.sites, f⟩ : VolFile K S))])
    (fun i _ fs => writeVol_eq hf hd _ _ _ _ fs) fs, fun i hi => ⟨⟨exportOne (B.grid o).total labels i, none, B.sites, f⟩, ?_, exportOne_selected _ _ _, rfl, rfl, rfl⟩, fun n hn => ?_⟩
  · apply assign_mem
    · exact List.mem_flatMap.mpr ⟨i, hi, by simp⟩
    · intro w hw
      obtain ⟨j, _, hj⟩ := List.mem_flatMap.mp hw
      rw [List.mem_singleton, Prod.mk.injEq, numbered_inj] at hj
      rw [hj.2, hj.1]
  · apply assign_other
    intro h1 x hx h2
    obtain ⟨j, hj, he⟩ := List.mem_flatMap.mp hx
    rw [List.mem_singleton] at he
    exact hn h1 ⟨j, hj, by rw [h2, he]⟩

/-- **C122.** `write_all_basin_volumes` does so for exactly the significant basins, `write_all_atom_volumes` for exactly the atoms. -/
theorem C122_all_files (B : VolSource K S) (o : VolOpts) (labels : ℕ → ℤ) (significant : List Bool) (nAtoms : ℕ) :
    (∃ idxs : List ℕ, idxs.Nodup ∧ (∀ i, i ∈ idxs ↔ significant[i]? = some true) ∧
      baderAllBasins B o labels significant = baderVolumes B o labels "_b" idxs) ∧
    ∃ idxs : List ℕ, idxs.Nodup ∧ (∀ i, i ∈ idxs ↔ i < nAtoms) ∧ baderAllAtoms B o labels nAtoms = baderVolumes B o labels "_a" idxs :=
  ⟨⟨whereTrue significant, List.Nodup.filter _ List.nodup_range, mem_whereTrue significant, rfl⟩,
   ⟨List.range nAtoms, List.nodup_range, fun _ => List.mem_range, rfl⟩⟩

theorem single_file {o : VolOpts} {own f : FileFormat} (hf : Wants o own f) {d : String} (hd : WritesTo o d) (name : String) (t : ℕ → K)
    (df : Option (ℕ → K)) (s : S) (fs : Files (VolFile K S)) :
    ∃ fs', writeVol o own name t df s fs = (fs', true) ∧ fs' (d, name) = some ⟨t, df, s, f⟩ ∧ OnlyChanged fs fs' d (fun n => n = name) := by
  refine ⟨_, writeVol_eq hf hd name t df s fs, assign_mem (by simp) (by simp), fun n hn => assign_other fun h1 x hx h2 => ?_⟩
  rw [List.mem_singleton] at hx
  exact hn h1 (by rw [h2, hx])

/-- **C122.** The unions of a Bader and of a BadELF analysis: one file `<prefix>_bsum` or `<prefix>_asum` with the requested data at the voxels of the
given basins or atoms and zero elsewhere; no other file changes.  As above, the second array and the source format are lost. -/
theorem C122_union_file (B : VolSource K S) (o : VolOpts) (labels : ℕ → ℤ) (tag : String) (idxs : List ℕ) {d : String} (hd : WritesTo o d)
    {f : FileFormat} (hf : Wants o .vasp f) (fs : Files (VolFile K S)) :
    (∃ fs' g, baderVolumesSum B o labels tag idxs fs = (fs', true) ∧ fs' (d, B.prefix o ++ tag) = some g ∧
      SelectedOnly (fun v => ∃ i ∈ idxs, labels v = (i : ℕ)) (B.grid o).total g.total ∧ g.diff = none ∧ g.fmt = f ∧ g.sites = B.sites ∧
      OnlyChanged fs fs' d (fun n => n = B.prefix o ++ tag)) ∧
    ∃ fs' g, badelfSum B o labels idxs fs = (fs', true) ∧ fs' (d, B.prefix o ++ "_asum") = some g ∧
      SelectedOnly (fun v => ∃ i ∈ idxs, labels v = (i : ℕ)) (B.grid o).total g.total ∧ g.diff = none ∧ g.fmt = f ∧
      g.sites = (if o.dummies then B.dummySites else B.sites) ∧ OnlyChanged fs fs' d (fun n => n = B.prefix o ++ "_asum") := by
  constructor
  · obtain ⟨fs', h1, h2, h3⟩ := single_file hf hd (B.prefix o ++ tag) (exportSum (B.grid o).total labels (idxs.map fun (i : ℕ) => (i : ℤ))) none B.sites fs
    exact ⟨fs', _, h1, h2, exportSum_selected _ _ _, rfl, rfl, rfl, h3⟩
  · obtain ⟨fs', h1, h2, h3⟩ := single_file hf hd (B.prefix o ++ "_asum") (exportSum (B.grid o).total labels (idxs.map fun (i : ℕ) => (i : ℤ))) none
      (B.badelfSites o) fs
    exact ⟨fs', _, h1, h2, exportSum_selected _ _ _, rfl, rfl, rfl, h3⟩

/-- **C122.** A species: one file `<prefix>_<species>` with both arrays of the grid, at the voxels of the sites with this symbol and zero elsewhere, in
the requested format or that of the grid; no other file changes. -/
theorem C122_species_file (B : VolSource K S) (o : VolOpts) (labels : ℕ → ℤ) (symbols : List String) (species : String) {d : String}
    (hd : WritesTo o d) {f : FileFormat} (hf : Wants o (B.grid o).fmt f) (fs : Files (VolFile K S)) (badelf : Bool) :
    ∃ fs' g, (if badelf then badelfSpecies B o labels symbols species fs else baderSpecies B o labels symbols species fs) = (fs', true) ∧
      fs' (d, B.prefix o ++ "_" ++ species) = some g ∧
      SelectedOnly (fun v => ∃ i, symbols[i]? = some species ∧ labels v = (i : ℕ)) (B.grid o).total g.total ∧
      (g.diff = none ↔ (B.grid o).diff = none) ∧
      (∀ D, (B.grid o).diff = some D → ∃ F, g.diff = some F ∧ SelectedOnly (fun v => ∃ i, symbols[i]? = some species ∧ labels v = (i : ℕ)) D F) ∧
      g.fmt = f ∧ g.sites = (if badelf && o.dummies then B.dummySites else B.sites) ∧
      OnlyChanged fs fs' d (fun n => n = B.prefix o ++ "_" ++ species) := by
  set idx := (indicesFromSymbol symbols species).map fun (i : ℕ) => (i : ℤ) with hidx
  have hs : ∀ D : ℕ → K, SelectedOnly (fun v => ∃ i, symbols[i]? = some species ∧ labels v = (i : ℕ)) D (exportSum D labels idx) := by
    intro D v
    have := exportSum_selected D labels (indicesFromSymbol symbols species) v
    simp only [mem_indicesFromSymbol] at this
    exact this
  obtain ⟨fs', h1, h2, h3⟩ := single_file hf hd (B.prefix o ++ "_" ++ species) (exportSum (B.grid o).total labels idx)
    ((B.grid o).diff.map fun D => exportSum D labels idx) (if badelf && o.dummies then B.dummySites else B.sites) fs
  refine ⟨fs', _, ?_, h2, hs _, by simp, fun D hD => ⟨exportSum D labels idx, by simp [hD], hs D⟩, rfl, rfl, h3⟩
  rw [← h1]
  cases badelf <;> rfl

/-- **C122** (negative part) Per basin, per atom and for unions the documented default format (that of the grid) is not used: without a requested
format a VASP file is written, also from a cube or HDF5 grid. -/
theorem C122_source_format_lost (B : VolSource K S) (o : VolOpts) (labels : ℕ → ℤ) (tag : String) (i : ℕ) {d : String} (hd : WritesTo o d)
    (hn : o.fmt = .none) (hsrc : (B.grid o).fmt ≠ .vasp) (fs : Files (VolFile K S)) :
    ∃ fs' g g', baderVolumes B o labels tag [i] fs = (fs', true) ∧ fs' (d, B.prefix o ++ tag ++ Nat.repr i) = some g ∧ g.fmt ≠ (B.grid o).fmt ∧
      baderVolumesSum B o labels tag [i] fs = (assign d [(B.prefix o ++ tag, some g')] fs, true) ∧ g'.fmt ≠ (B.grid o).fmt := by
  have hf : Wants o .vasp .vasp := .inl ⟨hn, rfl⟩
  refine ⟨_, ⟨exportOne (B.grid o).total labels i, none, B.sites, .vasp⟩, ⟨exportSum (B.grid o).total labels ([i].map fun (i : ℕ) => (i : ℤ)), none, B.sites, .vasp⟩,
    forEach_assign (d := d)
    (e := fun (i : ℕ) => [(B.prefix o ++ tag ++ Nat.repr i, some (⟨exportOne (B.grid o).total labels i, none, B.sites, .vasp⟩ : VolFile K S))])
    (fun i _ fs => writeVol_eq hf hd _ _ _ _ fs) fs, ?_, fun h => hsrc h.symm, writeVol_eq hf hd _ _ _ _ fs, fun h => hsrc h.symm⟩
  exact assign_mem (by simp) (by simp)

/-- `F` is `D` with zero at the voxels labelled by one of `js`. -/
def ClearedAt (labels : ℕ → ℤ) (js : List ℕ) (D F : ℕ → K) : Prop :=
  ∀ v, ((∃ j ∈ js, labels v = (j : ℕ)) → F v = 0) ∧ ((∀ j ∈ js, labels v ≠ (j : ℕ)) → F v = D v)

theorem clearedAt_one (labels : ℕ → ℤ) (i : ℕ) (D : ℕ → K) : ClearedAt labels [i] D (zeroAt labels i D) := by
  intro v
  simp only [List.mem_singleton, exists_eq_left, forall_eq, zeroAt]
  constructor <;> intro h <;> simp [h]

theorem ClearedAt.cons {labels : ℕ → ℤ} {i : ℕ} {js : List ℕ} {D F : ℕ → K} (h : ClearedAt labels js (zeroAt labels i D) F) :
    ClearedAt labels (i :: js) D F := by
  intro v
  obtain ⟨a, b⟩ := h v
  constructor
  · rintro ⟨j', hj', he⟩
    rcases List.mem_cons.mp hj' with rfl | hj'
    · by_cases hx : ∃ j ∈ js, labels v = (j : ℕ)
      · exact a hx
      · push Not at hx
        rw [b hx, zeroAt, if_pos he]
    · exact a ⟨j', hj', he⟩
  · intro h
    rw [b fun j' hj' => h j' (List.mem_cons_of_mem _ hj'), zeroAt, if_neg (h i (List.mem_cons_self ..))]

theorem badelfLoop_spec (B : VolSource K S) (o : VolOpts) (labels : ℕ → ℤ) {d : String} (hd : WritesTo o d) {f : FileFormat}
    (hf : Wants o (B.grid o).fmt f) : ∀ (idxs : List ℕ), idxs.Nodup → ∀ (t : ℕ → K) (df : Option (ℕ → K)) (fs : Files (VolFile K S)),
    ∃ fs', badelfLoop B o labels t df idxs fs = (fs', true) ∧
      (∀ (k i : ℕ), idxs[k]? = some i → ∃ g, fs' (d, B.prefix o ++ "_a" ++ Nat.repr i) = some g ∧
        ClearedAt labels (idxs.take (k + 1)) t g.total ∧ (df = none → g.diff = none) ∧
        (∀ D, df = some D → ∃ F, g.diff = some F ∧ ClearedAt labels (idxs.take (k + 1)) D F) ∧
        g.fmt = f ∧ g.sites = B.badelfSites o) ∧
      OnlyChanged fs fs' d (fun n => ∃ i ∈ idxs, n = B.prefix o ++ "_a" ++ Nat.repr i) := by
  intro idxs
  induction idxs with
  | nil =>
    intro _ t df fs
    exact ⟨fs, rfl, fun k i h => by simp at h, fun _ _ => rfl⟩
  | cons i is ih =>
    intro hnd t df fs
    rw [List.nodup_cons] at hnd
    obtain ⟨fs', h1, h2, h3⟩ := ih hnd.2 (zeroAt labels i t) (df.map (zeroAt labels i))
      (assign d [(B.prefix o ++ "_a" ++ Nat.repr i, some ⟨zeroAt labels i t, df.map (zeroAt labels i), B.badelfSites o, f⟩)] fs)
    refine ⟨fs', ?_, ?_, ?_⟩
    · rw [badelfLoop, writeVol_eq hf hd]
      simp only [Wrote.andThen, if_true]
      exact h1
    · intro k j hk
      cases k with
      | zero =>
        simp only [List.getElem?_cons_zero, Option.some.injEq] at hk
        subst hk
        refine ⟨⟨zeroAt labels i t, df.map (zeroAt labels i), B.badelfSites o, f⟩, ?_, clearedAt_one _ _ _, fun h => by rw [h]; rfl,
          fun D h => ⟨zeroAt labels i D, by rw [h]; rfl, clearedAt_one _ _ _⟩, rfl, rfl⟩
        rw [h3 (d, B.prefix o ++ "_a" ++ Nat.repr i)]
        · exact assign_mem (by simp) (by simp)
        · rintro - ⟨j, hj, he⟩
          rw [numbered_inj] at he
          exact hnd.1 (he ▸ hj)
      | succ k =>
        rw [List.getElem?_cons_succ] at hk
        obtain ⟨g, hg, hv, hn, hs, hm⟩ := h2 k j hk
        refine ⟨g, hg, hv.cons, fun h => hn (by rw [h]; rfl), fun D h => ?_, hm⟩
        obtain ⟨F, hF, hc⟩ := hs (zeroAt labels i D) (by rw [h]; rfl)
        exact ⟨F, hF, hc.cons⟩
    · intro n hn
      rw [h3 n fun h1 ⟨j, hj, he⟩ => hn h1 ⟨j, List.mem_cons_of_mem _ hj, he⟩]
      apply assign_other
      intro h1 x hx h2
      rw [List.mem_singleton] at hx
      exact hn h1 ⟨i, List.mem_cons_self .., by rw [h2, hx]⟩

/-- **C122** (negative part) `Badelf.write_atom_volumes` writes one file for each atom, but the file of the `k`-th requested atom has zero at the voxels
of the first `k` requested atoms, its own included, and the data at all others; the same holds of the second array of a spin-polarised grid. -/
theorem C122_badelf_inverted (B : VolSource K S) (o : VolOpts) (labels : ℕ → ℤ) (idxs : List ℕ) (hnd : idxs.Nodup) {d : String}
    (hd : WritesTo o d) {f : FileFormat} (hf : Wants o (B.grid o).fmt f) (fs : Files (VolFile K S)) :
    ∃ fs', badelfVolumes B o labels idxs fs = (fs', true) ∧
      (∀ (k i : ℕ), idxs[k]? = some i → ∃ g, fs' (d, B.prefix o ++ "_a" ++ Nat.repr i) = some g ∧
        ClearedAt labels (idxs.take (k + 1)) (B.grid o).total g.total ∧ ((B.grid o).diff = none → g.diff = none) ∧
        (∀ D, (B.grid o).diff = some D → ∃ F, g.diff = some F ∧ ClearedAt labels (idxs.take (k + 1)) D F) ∧
        g.fmt = f ∧ g.sites = if o.dummies then B.dummySites else B.sites) ∧
      OnlyChanged fs fs' d (fun n => ∃ i ∈ idxs, n = B.prefix o ++ "_a" ++ Nat.repr i) :=
  badelfLoop_spec B o labels hd hf idxs hnd _ _ fs

/-- **C122** (negative part) `Badelf.write_all_atom_volumes` writes nothing and ends with an exception, whatever it is called with. -/
theorem C122_badelf_all_raises (B : VolSource K S) (o : VolOpts) (labels : ℕ → ℤ) (nSites : ℕ) (fs : Files (VolFile K S)) :
    badelfAll B o labels nSites fs = (fs, false) := by
  unfold badelfAll
  rw [if_neg (by decide)]

/-- **C122** (negative part) With a directory given as text, or an unknown format, a call that has something to write ends with an exception and
writes nothing. -/
theorem C122_raises (B : VolSource K S) (o : VolOpts) (h : (∃ s, o.dir = .str s) ∨ ∃ s, o.fmt = .text s ∧ formatOf s = none) (labels : ℕ → ℤ)
    (tag species : String) (symbols : List String) (i : ℕ) (is : List ℕ) (fs : Files (VolFile K S)) :
    baderVolumes B o labels tag (i :: is) fs = (fs, false) ∧ baderVolumesSum B o labels tag is fs = (fs, false) ∧
    baderSpecies B o labels symbols species fs = (fs, false) ∧ badelfVolumes B o labels (i :: is) fs = (fs, false) ∧
    badelfSum B o labels is fs = (fs, false) ∧ badelfSpecies B o labels symbols species fs = (fs, false) := by
  have key : ∀ (own : FileFormat) (name : String) (t : ℕ → K) (df : Option (ℕ → K)) (s : S), writeVol o own name t df s fs = (fs, false) := by
    intro own name t df s
    unfold writeVol
    rcases h with ⟨p, h⟩ | ⟨p, h, h'⟩
    · rw [h]
      cases o.fmt.use own <;> rfl
    · have : o.fmt.use own = none := by rw [h]; exact h'
      rw [this]
  refine ⟨forEach_fail (key _ _ _ _ _), key _ _ _ _ _, key _ _ _ _ _, ?_, key _ _ _ _ _, key _ _ _ _ _⟩
  simp only [badelfVolumes, badelfLoop, key, Wrote.andThen, Bool.false_eq_true, if_false]

/-- Non-vacuity: two atoms on three voxels; the data of the second one goes to its file, for BadELF the file of the first atom has the data of the second
one. -/
example : let B : VolSource ℕ Unit := ⟨⟨fun v => v + 5, none, .cube, "ELFCAR"⟩, ⟨fun v => v + 1, none, .cube, "CHGCAR"⟩, (), ()⟩
    let o : VolOpts := ⟨.none_, false, none, .none, false⟩
    let labels : ℕ → ℤ := fun v => if v = 1 then 1 else 0
    WritesTo o "." ∧ Wants o .vasp .vasp ∧
    ((baderVolumes B o labels "_a" [0, 1] fun _ => none).1 (".", "CHGCAR_a1")).map (fun g => ((List.range 3).map g.total, g.fmt)) =
      some ([0, 2, 0], .vasp) ∧
    ((badelfVolumes B o labels [0, 1] fun _ => none).1 (".", "CHGCAR_a0")).map (fun g => ((List.range 3).map g.total, g.fmt)) =
      some ([0, 2, 0], .cube) ∧
    ((badelfVolumes B o labels [0, 1] fun _ => none).1 (".", "CHGCAR_a1")).map (fun g => (List.range 3).map g.total) = some [0, 0, 0] := by
  refine ⟨.inr ⟨rfl, rfl⟩, .inl ⟨rfl, rfl⟩, by decide +kernel, by decide +kernel, by decide +kernel⟩

end BaderKit
