import Verif.Model.GuiRun
import Mathlib.Algebra.Ring.Rat
import Mathlib.Tactic.Cases
/-!
# Running and exporting in the window
-/
set_option linter.unusedSectionVars false
namespace BaderKit
variable {O R : Type}

/-! ## Specification -/

/-- The fields that are edited. -/
def RunEv.edit : RunEv O → Prop
  | .charge _ => True
  | .reference _ => True
  | .opts _ => True
  | _ => False

/-- No path is edited before a run that was started has ended. -/
def QuietRuns (present : List Char → Bool) (outcome : RunJob O → RunOutcome R) : RunSt O R → List (RunEv O) → Prop
  | _, [] => True
  | s, e :: es => ((∃ t, e = .charge t ∨ e = .reference t) → s.job = none) ∧ QuietRuns present outcome (s.step present outcome e) es

/-- The three filters of the dialog. -/
def vaspFilter : List Char := "VASP (*.vasp)".toList
/-- CUBE. -/
def cubeFilter : List Char := "CUBE (*.cube)".toList
/-- HDF5. -/
def hdf5Filter : List Char := "HDF5 (*.hdf5)".toList

/-- The extension of a format. -/
def ExportFormat.ext : ExportFormat → List Char
  | .vasp => ".vasp".toList
  | .cube => ".cube".toList
  | .hdf5 => ".hdf5".toList

/-- The filter of a format. -/
def ExportFormat.filter : ExportFormat → List Char
  | .vasp => vaspFilter
  | .cube => cubeFilter
  | .hdf5 => hdf5Filter

/-- The values of a grid in the visible basins, zero elsewhere. -/
def onlyBasins {K : Type} [Zero K] (labels : ℕ → ℕ) (visible : List ℕ) (data : ℕ → K) : ℕ → K := fun v => if labels v ∈ visible then data v else 0

/-! ## Running -/

variable (present : List Char → Bool) (outcome : RunJob O → RunOutcome R)

theorem step_on {s : RunSt O R} (h : s.ended = false) (e : RunEv O) : s.step present outcome e = match e with
    | .charge t => if t = s.charge then s else { s with charge := t }.checkPaths present
    | .reference t => if t = s.reference then s else { s with reference := t }.checkPaths present
    | .opts o => { s with opts := o }
    | .press => if s.enabled then s.run else s
    | .done => match s.job with
      | some j => s.over (outcome j)
      | none => s := by
  unfold RunSt.step
  rw [if_neg (by rw [h]; exact Bool.false_ne_true)]
  cases e <;> rfl

/-- Edits change neither the run nor the result. -/
theorem edits_keep (es : List (RunEv O)) (hes : ∀ e ∈ es, e.edit) (s : RunSt O R) (h : s.ended = false) :
    (s.session present outcome es).job = s.job ∧ (s.session present outcome es).shown = s.shown ∧ (s.session present outcome es).live = s.live ∧
      (s.session present outcome es).ended = false := by
  induction es generalizing s with
  | nil => exact ⟨rfl, rfl, rfl, h⟩
  | cons e es ih =>
    have he := hes e List.mem_cons_self
    have key : (s.step present outcome e).job = s.job ∧ (s.step present outcome e).shown = s.shown ∧ (s.step present outcome e).live = s.live ∧
        (s.step present outcome e).ended = false := by
      rw [step_on present outcome h]
      cases e with
      | charge t => simp only; split_ifs <;> exact ⟨rfl, rfl, rfl, h⟩
      | reference t => simp only; split_ifs <;> exact ⟨rfl, rfl, rfl, h⟩
      | opts o => exact ⟨rfl, rfl, rfl, h⟩
      | press => exact he.elim
      | done => exact he.elim
    obtain ⟨a, b, c, d⟩ := ih (fun e' h' => hes e' (List.mem_cons_of_mem _ h')) _ key.2.2.2
    exact ⟨a.trans key.1, b.trans key.2.1, c.trans key.2.2.1, d⟩

/-- **C111** The result that is shown after a run belongs to the paths and options in the fields when the button was pressed, whatever is edited while it runs;
after an error the last result stays. -/
theorem C111_result (s : RunSt O R) (hs : s.enabled = true) (hl : s.live = false) (he : s.ended = false) (es : List (RunEv O)) (hes : ∀ e ∈ es, e.edit) :
    (s.session present outcome (.press :: es ++ [.done])).shown =
      match outcome ⟨s.charge, s.reference, s.opts⟩ with
      | .ok r => some r
      | _ => s.shown := by
  have h1 : s.step present outcome .press = { s with enabled := false, live := true, job := some ⟨s.charge, s.reference, s.opts⟩ } := by
    rw [step_on present outcome he]
    simp only [hs, if_true, RunSt.run, hl, Bool.false_eq_true, if_false]
  obtain ⟨a, b, _, d⟩ := edits_keep present outcome es hes (s.step present outcome .press) (by rw [h1]; exact he)
  have e1 : s.session present outcome (.press :: es ++ [.done]) =
      ((s.step present outcome .press).session present outcome es).step present outcome .done := by
    simp only [RunSt.session, List.cons_append, List.foldl_cons, List.foldl_append, List.foldl_nil]
  rw [e1, step_on present outcome d]
  simp only
  rw [a, h1]
  rw [h1] at b
  simp only
  cases outcome ⟨s.charge, s.reference, s.opts⟩ with
  | ok r => rfl
  | failed => exact b
  | raised => exact b

/-- **C111** When runs give results and no path is edited while one runs, the program goes on, and the button is enabled only when no run is going on. -/
theorem C111_safe_partial (o : O) (es : List (RunEv O)) (hok : ∀ j, ∃ r, outcome j = .ok r) (hq : QuietRuns present outcome (RunSt.start o : RunSt O R) es) :
    ((RunSt.start o : RunSt O R).session present outcome es).ended = false ∧
      (((RunSt.start o : RunSt O R).session present outcome es).enabled = true → ((RunSt.start o : RunSt O R).session present outcome es).job = none) := by
  have key : ∀ (es : List (RunEv O)) (s : RunSt O R), (s.ended = false ∧ (s.live = true ↔ s.job ≠ none) ∧ (s.enabled = true → s.job = none)) →
      QuietRuns present outcome s es → (s.session present outcome es).ended = false ∧
        ((s.session present outcome es).live = true ↔ (s.session present outcome es).job ≠ none) ∧
        ((s.session present outcome es).enabled = true → (s.session present outcome es).job = none) := by
    intro es
    induction es with
    | nil => intro s h _; exact h
    | cons e es ih =>
      intro s h hq
      refine ih _ ?_ hq.2
      have hq1 := hq.1
      obtain ⟨h1, h2, h3⟩ := h
      beta_reduce
      rw [step_on present outcome h1]
      cases e with
      | charge t =>
        have := hq1 ⟨t, Or.inl rfl⟩
        simp only
        split_ifs
        · exact ⟨h1, h2, h3⟩
        · exact ⟨h1, h2, fun _ => this⟩
      | reference t =>
        have := hq1 ⟨t, Or.inr rfl⟩
        simp only
        split_ifs
        · exact ⟨h1, h2, h3⟩
        · exact ⟨h1, h2, fun _ => this⟩
      | opts o => exact ⟨h1, h2, h3⟩
      | press =>
        simp only
        split_ifs with he
        · have hl : ¬ s.live = true := fun hl => h2.mp hl (h3 he)
          unfold RunSt.run
          rw [if_neg hl]
          exact ⟨h1, by simp, by simp⟩
        · exact ⟨h1, h2, h3⟩
      | done =>
        cases hj : s.job with
        | none => exact ⟨h1, h2, h3⟩
        | some j =>
          obtain ⟨r, hr⟩ := hok j
          simp only [hr, RunSt.over]
          exact ⟨h1, by simp, by simp⟩
  have := key es (RunSt.start o : RunSt O R) ⟨rfl, by simp [RunSt.start], by simp [RunSt.start]⟩ hq
  exact ⟨this.1, this.2.2⟩

/-- **C111** After an edit of the path of the charge density the button is enabled exactly when both paths exist. -/
theorem C111_button (s : RunSt O R) (he : s.ended = false) (t : List Char) (ht : t ≠ s.charge) :
    (s.step present outcome (.charge t)).enabled = (present t && present s.reference) := by
  rw [step_on present outcome he]
  simp only [if_neg ht, RunSt.checkPaths, Bool.or_false]

/-- **C111** (negative part) The empty text is the current directory, which exists: with no file at all the button is enabled after a name was typed and
deleted. -/
theorem C111_empty_enabled (hp : present [] = true) (o : O) (t : List Char) (ht : t ≠ []) :
    ((RunSt.start o : RunSt O R).session present outcome [.charge t, .charge []]).enabled = true ∧
      ((RunSt.start o : RunSt O R).session present outcome [.charge t, .charge []]).charge = [] := by
  simp [RunSt.session, RunSt.step, RunSt.start, RunSt.checkPaths, ht, ht.symm, hp]

/-- **C111** (negative part) After a run that failed, the next press of the enabled button ends the program. -/
theorem C111_failed_then_press (s : RunSt O R) (hs : s.enabled = true) (hl : s.live = false) (he : s.ended = false)
    (hf : outcome ⟨s.charge, s.reference, s.opts⟩ = .failed) :
    (s.session present outcome [.press, .done]).enabled = true ∧ (s.session present outcome [.press, .done, .press]).ended = true := by
  simp [RunSt.session, RunSt.step, RunSt.run, RunSt.over, hs, hl, he, hf]

/-- **C111** (negative part) A path that is edited while a run goes on enables the button, and pressing it ends the program. -/
theorem C111_edit_then_press (s : RunSt O R) (hs : s.enabled = true) (hl : s.live = false) (he : s.ended = false) (t : List Char) (ht : t ≠ s.charge)
    (h1 : present t = true) (h2 : present s.reference = true) :
    (s.session present outcome [.press, .charge t]).enabled = true ∧ (s.session present outcome [.press, .charge t, .press]).ended = true := by
  simp [RunSt.session, RunSt.step, RunSt.run, RunSt.checkPaths, hs, hl, he, ht, h1, h2]

/-- **C111** (negative part) After an exception outside the guarded parts the button stays disabled, whatever is pressed and whatever options are set. -/
theorem C111_raised_stuck (s : RunSt O R) (hs : s.enabled = true) (hl : s.live = false) (he : s.ended = false)
    (hf : outcome ⟨s.charge, s.reference, s.opts⟩ = .raised) (es : List (RunEv O)) (hes : ∀ e ∈ es, ∀ t, e ≠ .charge t ∧ e ≠ .reference t) :
    (s.session present outcome (.press :: .done :: es)).enabled = false ∧ (s.session present outcome (.press :: .done :: es)).shown = s.shown := by
  have key : ∀ (es : List (RunEv O)) (u : RunSt O R), (∀ e ∈ es, ∀ t, e ≠ .charge t ∧ e ≠ .reference t) → u.enabled = false → u.job = none → u.ended = false →
      (u.session present outcome es).enabled = false ∧ (u.session present outcome es).shown = u.shown := by
    intro es
    induction es with
    | nil => intro u _ h _ _; exact ⟨h, rfl⟩
    | cons e es ih =>
      intro u h1 h2 h3 h4
      have hst : (u.step present outcome e).enabled = false ∧ (u.step present outcome e).job = none ∧ (u.step present outcome e).ended = false ∧
          (u.step present outcome e).shown = u.shown := by
        rw [step_on present outcome h4]
        cases e with
        | charge t => exact ((h1 _ List.mem_cons_self t).1 rfl).elim
        | reference t => exact ((h1 _ List.mem_cons_self t).2 rfl).elim
        | opts o => exact ⟨h2, h3, h4, rfl⟩
        | press => simp only [h2, Bool.false_eq_true, if_false]; exact ⟨trivial, h3, h4, trivial⟩
        | done => simp only [h3]; exact ⟨h2, trivial, h4, trivial⟩
      obtain ⟨a, b⟩ := ih _ (fun e' h' => h1 e' (List.mem_cons_of_mem _ h')) hst.1 hst.2.1 hst.2.2.1
      exact ⟨a, b.trans hst.2.2.2⟩
  have e1 : s.session present outcome (.press :: .done :: es) = (s.session present outcome [.press, .done]).session present outcome es := rfl
  have e2 : s.session present outcome [.press, .done] = { s with enabled := false, live := true, job := none } := by
    simp [RunSt.session, RunSt.step, RunSt.run, RunSt.over, hs, hl, he, hf]
  rw [e1, e2]
  exact key es _ hes rfl rfl he

/-! ## Exporting -/

variable {K : Type} [Zero K]

/-- **C111** A name without a dot gets the extension of the chosen filter, and the file has that format. -/
theorem C111_export_plain (f : ExportFormat) (src : DataSource) (labels : ℕ → ℕ) (visible : List ℕ) (charge reference : ℕ → K) (name : List Char)
    (h0 : name ≠ []) (hd : '.' ∉ name) :
    exportBasins src labels visible charge reference name f.filter = some (name ++ f.ext, f, onlyBasins labels visible reference) := by
  have h1 : filterExt f.filter = f.ext := by cases f <;> decide
  have h2 : ExportFormat.ofText (stripDots f.ext) = some f := by cases f <;> decide
  unfold exportBasins
  rw [if_neg h0, if_neg hd, h1]
  simp only [h2, Option.map_some]
  rfl

theorem takeWhile_append_stop {α : Type} (p : α → Bool) (a : List α) (x : α) (b : List α) (ha : ∀ y ∈ a, p y = true) (hx : p x = false) :
    (a ++ x :: b).takeWhile p = a := by
  induction a with
  | nil => simp [hx]
  | cons y a ih =>
    rw [List.cons_append, List.takeWhile_cons, if_pos (ha y List.mem_cons_self), ih fun z hz => ha z (List.mem_cons_of_mem _ hz)]

/-- **C111** A name with one of the three extensions is kept, and the file has the format of that extension, whatever filter is chosen. -/
theorem C111_export_extension (f : ExportFormat) (src : DataSource) (labels : ℕ → ℕ) (visible : List ℕ) (charge reference : ℕ → K) (dir stem : List Char)
    (hs : stem ≠ []) (hslash : '/' ∉ stem) (filter : List Char) :
    exportBasins src labels visible charge reference (dir ++ '/' :: stem ++ f.ext) filter =
      some (dir ++ '/' :: stem ++ f.ext, f, onlyBasins labels visible reference) := by
  obtain ⟨w, hw, hwd, hws⟩ : ∃ w : List Char, f.ext = '.' :: w ∧ '.' ∉ w ∧ '/' ∉ w := by cases f <;> exact ⟨_, rfl, by decide, by decide⟩
  have hwne : w ≠ [] := by rintro rfl; cases f <;> simp [ExportFormat.ext] at hw
  have hb : baseName (dir ++ '/' :: stem ++ '.' :: w) = stem ++ '.' :: w := by
    unfold baseName
    have : (dir ++ '/' :: stem ++ '.' :: w).reverse = (stem ++ '.' :: w).reverse ++ '/' :: dir.reverse := by simp
    rw [this, takeWhile_append_stop _ _ _ _ _ (by decide), List.reverse_reverse]
    intro y hy
    simp only [ne_eq, decide_not, Bool.not_eq_eq_eq_not, Bool.not_true, decide_eq_false_iff_not]
    rintro rfl
    simp only [List.mem_reverse, List.mem_append, List.mem_cons] at hy
    rcases hy with h | h | h
    · exact hslash h
    · exact absurd h (by decide)
    · exact hws h
  have ht : (stem ++ '.' :: w).reverse.takeWhile (· ≠ '.') = w.reverse := by
    have : (stem ++ '.' :: w).reverse = w.reverse ++ '.' :: stem.reverse := by simp
    rw [this]
    refine takeWhile_append_stop _ _ _ _ ?_ (by decide)
    intro y hy
    simp only [ne_eq, decide_not, Bool.not_eq_eq_eq_not, Bool.not_true, decide_eq_false_iff_not]
    rintro rfl
    exact hwd (List.mem_reverse.mp hy)
  have hsuf : pathSuffix (dir ++ '/' :: stem ++ '.' :: w) = '.' :: w := by
    unfold pathSuffix
    simp only [hb, ht]
    rw [if_pos, List.reverse_reverse]
    refine ⟨by simpa using hwne, ?_⟩
    have : 0 < stem.length := List.length_pos_of_ne_nil hs
    simp only [List.length_reverse, List.length_append, List.length_cons]
    omega
  have h2 : ExportFormat.ofText (stripDots ('.' :: w)) = some f := by rw [← hw]; cases f <;> decide
  unfold exportBasins
  rw [hw, if_neg (by simp), if_pos (by simp), hsuf]
  simp only [h2, Option.map_some]
  rfl

/-- **C111** (negative part) In a directory whose name has a dot, a name without extension raises, whatever filter is chosen. -/
theorem C111_export_dotted_directory (src : DataSource) (labels : ℕ → ℕ) (visible : List ℕ) (charge reference : ℕ → K) (dir stem filter : List Char)
    (hd : '.' ∈ dir) (hslash : '/' ∉ stem) (hdot : '.' ∉ stem) : exportBasins src labels visible charge reference (dir ++ '/' :: stem) filter = none := by
  have hb : baseName (dir ++ '/' :: stem) = stem := by
    unfold baseName
    have : (dir ++ '/' :: stem).reverse = stem.reverse ++ '/' :: dir.reverse := by simp
    rw [this, takeWhile_append_stop _ _ _ _ _ (by decide), List.reverse_reverse]
    intro y hy
    simp only [ne_eq, decide_not, Bool.not_eq_eq_eq_not, Bool.not_true, decide_eq_false_iff_not]
    rintro rfl
    exact hslash (List.mem_reverse.mp hy)
  have hall : ∀ (p : Char → Bool) (l : List Char), (∀ y ∈ l, p y = true) → l.takeWhile p = l := by
    intro p l
    induction l with
    | nil => intro _; rfl
    | cons y l ih =>
      intro h
      rw [List.takeWhile_cons, if_pos (h y List.mem_cons_self), ih fun z hz => h z (List.mem_cons_of_mem _ hz)]
  have ht : (stem.reverse.takeWhile (· ≠ '.')) = stem.reverse := by
    refine hall _ _ ?_
    intro y hy
    simp only [ne_eq, decide_not, Bool.not_eq_eq_eq_not, Bool.not_true, decide_eq_false_iff_not]
    rintro rfl
    exact hdot (List.mem_reverse.mp hy)
  have hsuf : pathSuffix (dir ++ '/' :: stem) = [] := by
    unfold pathSuffix
    simp only [hb, ht]
    rw [if_neg]
    rintro ⟨_, h⟩
    rw [List.length_reverse] at h
    omega
  unfold exportBasins
  rw [if_neg (by simp), if_pos (by simp [hd]), hsuf]
  rfl

/-- **C111** (negative part) A name that is only an extension, such as `.cube`, has no extension for the code and raises, whatever filter is chosen. -/
theorem C111_export_only_extension (src : DataSource) (labels : ℕ → ℕ) (visible : List ℕ) (charge reference : ℕ → K) (dir w filter : List Char)
    (hslash : '/' ∉ w) (hdot : '.' ∉ w) : exportBasins src labels visible charge reference (dir ++ '/' :: '.' :: w) filter = none := by
  have hb : baseName (dir ++ '/' :: '.' :: w) = '.' :: w := by
    unfold baseName
    have : (dir ++ '/' :: '.' :: w).reverse = ('.' :: w).reverse ++ '/' :: dir.reverse := by simp
    rw [this, takeWhile_append_stop _ _ _ _ _ (by decide), List.reverse_reverse]
    intro y hy
    simp only [ne_eq, decide_not, Bool.not_eq_eq_eq_not, Bool.not_true, decide_eq_false_iff_not]
    rintro rfl
    rcases List.mem_cons.mp (List.mem_reverse.mp hy) with h | h
    · exact absurd h (by decide)
    · exact hslash h
  have ht : (('.' :: w).reverse.takeWhile (· ≠ '.')) = w.reverse := by
    have : ('.' :: w).reverse = w.reverse ++ '.' :: [] := by simp
    rw [this]
    refine takeWhile_append_stop _ _ _ _ ?_ (by decide)
    intro y hy
    simp only [ne_eq, decide_not, Bool.not_eq_eq_eq_not, Bool.not_true, decide_eq_false_iff_not]
    rintro rfl
    exact hdot (List.mem_reverse.mp hy)
  have hsuf : pathSuffix (dir ++ '/' :: '.' :: w) = [] := by
    unfold pathSuffix
    simp only [hb, ht]
    rw [if_neg]
    rintro ⟨_, h⟩
    rw [List.length_reverse, List.length_cons] at h
    omega
  unfold exportBasins
  rw [if_neg (by simp), if_pos (by simp), hsuf]
  rfl

/-- **C111** (negative part) A dialog that is cancelled raises. -/
theorem C111_export_cancelled (src : DataSource) (labels : ℕ → ℕ) (visible : List ℕ) (charge reference : ℕ → K) (filter : List Char) :
    exportBasins src labels visible charge reference [] filter = none := rfl

/-- **C111** Whatever is written has the values of the reference grid in the visible basins and zero elsewhere; they are the values of the grid that was
selected when both grids have the same values there.  Missing for the full claim: a selected charge density that differs (`C111_export_wrong_grid`). -/
theorem C111_export_data_partial (src : DataSource) (labels : ℕ → ℕ) (visible : List ℕ) (charge reference : ℕ → K) (filename filter name : List Char) (f : ExportFormat)
    (data : ℕ → K) (h : exportBasins src labels visible charge reference filename filter = some (name, f, data))
    (hsame : src = .charge → ∀ v, labels v ∈ visible → charge v = reference v) :
    data = onlyBasins labels visible (match src with | .charge => charge | .reference => reference) := by
  unfold exportBasins at h
  split_ifs at h with h1 h2
  all_goals
    simp only [Option.map_eq_some_iff, Prod.mk.injEq] at h
    obtain ⟨f', _, _, _, h5⟩ := h
    rw [← h5]
    funext v
    cases src with
    | reference => rfl
    | charge =>
      simp only [onlyBasins, exportSource, Bool.false_eq_true, if_false]
      by_cases hv : labels v ∈ visible
      · rw [if_pos hv, if_pos hv, hsame rfl v hv]
      · rw [if_neg hv, if_neg hv]

/-- **C111** (negative part) A user who selects the charge density gets the reference grid: where the two differ in a visible basin, the file is wrong. -/
theorem C111_export_wrong_grid (labels : ℕ → ℕ) (visible : List ℕ) (charge reference : ℕ → K) (filename filter name : List Char) (f : ExportFormat)
    (data : ℕ → K) (h : exportBasins .charge labels visible charge reference filename filter = some (name, f, data)) (v : ℕ) (hv : labels v ∈ visible)
    (hne : charge v ≠ reference v) : data v ≠ onlyBasins labels visible charge v := by
  have h' : exportBasins .reference labels visible charge reference filename filter = some (name, f, data) := h
  rw [C111_export_data_partial .reference labels visible charge reference filename filter name f data h' (fun h => by cases h)]
  simp only [onlyBasins, if_pos hv]
  exact hne.symm

/-! ## Examples -/

/-- Files whose name is `a` or `b`, and the current directory. -/
def someFiles (t : List Char) : Bool := t = [] ∨ t = ['a'] ∨ t = ['b']

/-- A run gives its paths, except that `b` cannot be read. -/
def someOutcome (j : RunJob Unit) : RunOutcome (List Char × List Char) := if j.charge = ['b'] then .failed else .ok (j.charge, j.reference)

example : ((RunSt.start () : RunSt Unit _).session someFiles someOutcome [.charge ['a'], .press, .charge ['b'], .done]).shown = some (['a'], []) := by decide

example : ((RunSt.start () : RunSt Unit _).session someFiles someOutcome [.charge ['b'], .press, .done, .charge ['a'], .press]).ended = true := by decide

example : QuietRuns someFiles (fun j => .ok j.charge) (RunSt.start () : RunSt Unit (List Char))
    [.charge ['a'], .press, .done, .charge ['b'], .reference ['a'], .press, .done] := by
  refine ⟨fun _ => rfl, ?_, ?_, fun _ => rfl, fun _ => rfl, ?_, ?_, trivial⟩ <;> (rintro ⟨t, h | h⟩ <;> cases h)

/-- The reference grid is 7 in both voxels, the charge density 1; only basin 0 is visible. -/
example : (exportBasins (K := ℚ) .charge (fun v => v) [0] (fun _ => 1) (fun _ => 7) "out".toList vaspFilter).map (fun r => (r.1, r.2.1, r.2.2 0, r.2.2 1)) =
    some ("out.vasp".toList, .vasp, 7, 0) := by decide +kernel

end BaderKit
