import Verif.Model.Commands
import Verif.Lemmas.Lines
/-!
# C96, C97: formats of files, and what the commands are run with
-/
set_option linter.unusedSectionVars false
namespace BaderKit
variable {F G K : Type}

/-! ## Specification -/

/-- The file at a path, read in a format, gives the grid. -/
def ReadsAs (lib : GridLib F G) (disk : Disk F) (path : String) (m : FileFormat) (totalOnly : Bool) (g : G) : Prop :=
  ∃ f, disk path = some f ∧ readAs lib totalOnly m f = some g

/-- Every written file is recognised (this is C71). -/
def DetectsOwn (lib : GridLib F G) : Prop := ∀ m g f, lib.write m g = some f → lib.detect f = some m

/-- The format a file is read in: the given one, or the detected one. -/
def Chosen (lib : GridLib F G) (disk : Disk F) (path : String) : FmtArg → FileFormat → Prop
  | .none, m => ∃ f, disk path = some f ∧ lib.detect f = some m
  | .member n, m => n = m
  | .text _, _ => False

/-- Texts separated by commas with any number of blanks around them. -/
def joinTexts : Text → List (ℕ × ℕ × Text) → Text
  | w, [] => w
  | w, (k, m, w') :: r => w ++ List.replicate k ' ' ++ ',' :: (List.replicate m ' ' ++ joinTexts w' r)

/-- A word of a list: not empty, no comma inside, no blank, tab, line end or bracket at its ends. -/
def PlainWord (w : Text) : Prop :=
  ',' ∉ w ∧ ∃ a b : Char, w.head? = some a ∧ w.getLast? = some b ∧
    (isWs a = false ∧ a ≠ '[' ∧ a ≠ ']') ∧ (isWs b = false ∧ b ≠ '[' ∧ b ≠ ']')

/-- Decimal digits of an integer. -/
def intText (z : ℤ) : Text := if z < 0 then '-' :: strNat z.natAbs else strNat z.natAbs

/-! ## C96 -/

/-- **C96.** Reading gives exactly what the reader of the given, else of the detected, format makes of the file. -/
theorem C96_read (lib : GridLib F G) (disk : Disk F) (path : String) (fmt : FmtArg) (totalOnly : Bool) (g : G) :
    gridDynamic lib disk path fmt totalOnly = some g ↔ ∃ m, Chosen lib disk path fmt m ∧ ReadsAs lib disk path m totalOnly g := by
  unfold gridDynamic Chosen ReadsAs
  cases h : disk path with
  | none => simp
  | some f =>
    cases fmt with
    | none => simp [Option.bind_eq_some_iff]
    | member n => simp
    | text s => simp

/-- **C96 (exception).** A format given as a string, as the documentation allows, is never read, even when it names the format of the file. -/
theorem C96_text_fails (lib : GridLib F G) (disk : Disk F) (path s : String) (totalOnly : Bool) : gridDynamic lib disk path (.text s) totalOnly = none := by
  unfold gridDynamic
  cases disk path <;> rfl

/-- **C96.** What was written is read back by the reader of the same format, whether the format was given, named or that of the source, and no
other file changes. -/
theorem C96_write_read (lib : GridLib F G) (hd : DetectsOwn lib) (g : G) (path : String) (fmt : FmtArg) (disk disk' : Disk F) (totalOnly : Bool)
    (h : gridWrite lib g path fmt disk = some disk') :
    ∃ (m : FileFormat) (f : F), (fmt = .none → m = lib.source g) ∧ (∀ n, fmt = .member n → m = n) ∧ (∀ s, fmt = .text s → formatOf s = some m) ∧
      lib.write m g = some f ∧ gridDynamic lib disk' path .none totalOnly = readAs lib totalOnly m f ∧
      gridDynamic lib disk' path (.member m) totalOnly = readAs lib totalOnly m f ∧ ∀ p, p ≠ path → disk' p = disk p := by
  unfold gridWrite at h
  rw [Option.bind_eq_some_iff] at h
  obtain ⟨m, hm, h⟩ := h
  rw [Option.map_eq_some_iff] at h
  obtain ⟨f, hf, rfl⟩ := h
  refine ⟨m, f, ?_, ?_, ?_, hf, ?_, ?_, ?_⟩
  · rintro rfl; simpa using hm.symm
  · rintro n rfl; simpa using hm.symm
  · rintro s rfl; simpa using hm
  · unfold gridDynamic
    simp [hd m g f hf]
  · unfold gridDynamic
    simp
  · intro p hp
    simp [hp]

/-- **C96.** Writing accepts the names of the formats, and nothing else. -/
theorem C96_write_text (lib : GridLib F G) (g : G) (path s : String) (disk : Disk F) :
    (∀ m, formatOf s = some m → gridWrite lib g path (.text s) disk = gridWrite lib g path (.member m) disk) ∧
    (s ∉ ["vasp", "cube", "hdf5"] → gridWrite lib g path (.text s) disk = none) := by
  constructor
  · intro m h
    unfold gridWrite
    simp [h]
  · intro h
    simp only [List.mem_cons, List.not_mem_nil, or_false, not_or] at h
    unfold gridWrite formatOf
    simp [h]

/-! ## C97: files -/

/-- **C97.** `run` analyses the files it was given, in the format given or detected, with the method and tolerances given. -/
theorem C97_run (lib : GridLib F G) (disk : Disk F) (charge : String) (reference : Option String) (fmt : FmtArg) (method : String) (vac : VacArg K)
    (norm : Bool) (tol dflt : K) (call : BaderCall G K) :
    baderDynamic lib disk charge reference fmt method vac norm tol dflt = some call ↔
      (∃ m, Chosen lib disk charge fmt m ∧ ReadsAs lib disk charge m true call.charge) ∧
      (match reference, call.reference with
        | none, none => True
        | some r, some g => ∃ m, Chosen lib disk r fmt m ∧ ReadsAs lib disk r m true g
        | _, _ => False) ∧
      call.method = method ∧ call.basinTol = tol ∧ (vac ≠ .flag true → call.vacuum = vac) ∧ (vac = .flag true → call.vacuum = .num dflt) := by
  have key : baderDynamic lib disk charge reference fmt method vac norm tol dflt = some call ↔
      gridDynamic lib disk charge fmt true = some call.charge ∧
      (match reference, call.reference with
        | none, none => True
        | some r, some g => gridDynamic lib disk r fmt true = some g
        | _, _ => False) ∧
      call.method = method ∧ call.basinTol = tol ∧ call.vacuum = vacDefault dflt vac := by
    obtain ⟨cc, cr, cm, cv, ct⟩ := call
    unfold baderDynamic
    rw [Option.bind_eq_some_iff]
    simp only [Option.map_eq_some_iff, BaderCall.mk.injEq]
    constructor
    · rintro ⟨c, hc, r, hr, rfl, rfl, rfl, rfl, rfl⟩
      refine ⟨hc, ?_, rfl, rfl, rfl⟩
      cases reference with
      | none => simp at hr; subst hr; trivial
      | some q =>
        simp only [Option.map_eq_some_iff] at hr
        obtain ⟨g, hg, rfl⟩ := hr
        exact hg
    · rintro ⟨hc, hr, rfl, rfl, rfl⟩
      refine ⟨cc, hc, cr, ?_, rfl, rfl, rfl, rfl, rfl⟩
      cases reference with
      | none => cases cr with
        | none => rfl
        | some g => exact hr.elim
      | some q => cases cr with
        | none => exact hr.elim
        | some g =>
          have hr' : gridDynamic lib disk q fmt true = some g := hr
          show Option.map some (gridDynamic lib disk q fmt true) = _
          rw [hr']; rfl
  rw [key, C96_read]
  have hv : (call.vacuum = vacDefault dflt vac) ↔
      ((vac ≠ .flag true → call.vacuum = vac) ∧ (vac = .flag true → call.vacuum = .num dflt)) := by
    rcases vac with (_ | _) | x <;> simp [vacDefault]
  rw [hv]
  cases reference with
  | none => cases call.reference <;> rfl
  | some r =>
    cases call.reference with
    | none => simp
    | some g => simp only [C96_read]

/-- **C97.** The vacuum tolerance of `run`: a word for yes in any capitals stands for the default tolerance, a word for no for no vacuum, any other
text for the number it spells; a text that is none of these is refused, and the rest of the command is that of the Python interface. -/
theorem C97_tolerance (parse : Text → Option K) (lib : GridLib F G) (disk : Disk F) (charge : String) (reference : Option String) (fmt : FmtArg)
    (method : String) (t : Text) (norm : Bool) (tol dflt : K) :
    (t.map Char.toLower ∈ ["true".toList, "t".toList, "yes".toList, "y".toList] →
      runCommand parse lib disk charge reference fmt method t norm tol dflt =
        baderDynamic lib disk charge reference fmt method (.flag true) norm tol dflt) ∧
    (t.map Char.toLower ∈ ["false".toList, "f".toList, "no".toList, "n".toList] →
      runCommand parse lib disk charge reference fmt method t norm tol dflt =
        baderDynamic lib disk charge reference fmt method (.flag false) norm tol dflt) ∧
    (t.map Char.toLower ∉ ["true".toList, "t".toList, "yes".toList, "y".toList, "false".toList, "f".toList, "no".toList, "n".toList] →
      (∀ x, parse t = some x → runCommand parse lib disk charge reference fmt method t norm tol dflt =
        baderDynamic lib disk charge reference fmt method (.num x) norm tol dflt) ∧
      (parse t = none → runCommand parse lib disk charge reference fmt method t norm tol dflt = none)) := by
  unfold runCommand floatOrBool
  simp only
  refine ⟨fun h => ?_, fun h => ?_, fun h => ⟨fun x hx => ?_, fun hx => ?_⟩⟩
  · rw [if_pos h]; rfl
  · rw [if_neg, if_pos h]; · rfl
    intro h'
    generalize t.map Char.toLower = l at h h'
    revert l
    decide
  · rw [if_neg (fun h' => h (by simp only [List.mem_cons] at h' ⊢; tauto)), if_neg (fun h' => h (by simp only [List.mem_cons] at h' ⊢; tauto)), hx]
    rfl
  · rw [if_neg (fun h' => h (by simp only [List.mem_cons] at h' ⊢; tauto)), if_neg (fun h' => h (by simp only [List.mem_cons] at h' ⊢; tauto)), hx]
    rfl

example : "YES".toList.map Char.toLower ∈ ["true".toList, "t".toList, "yes".toList, "y".toList] ∧
    "False".toList.map Char.toLower ∈ ["false".toList, "f".toList, "no".toList, "n".toList] := by decide

/-- **C97.** The option to normalise the vacuum has no effect. -/
theorem C97_normalize_ignored (lib : GridLib F G) (disk : Disk F) (charge : String) (reference : Option String) (fmt : FmtArg) (method : String)
    (vac : VacArg K) (tol dflt : K) :
    baderDynamic lib disk charge reference fmt method vac true tol dflt = baderDynamic lib disk charge reference fmt method vac false tol dflt := rfl

/-- **C97.** `label` analyses the VASP files it was given, with all sets of data exactly for separate spins. -/
theorem C97_label (lib : GridLib F G) (disk : Disk F) (charge reference method : String) (spin : Bool) (call : LabelCall G) :
    labelCommand lib disk charge reference method spin = some call ↔
      ReadsAs lib disk charge .vasp (!spin) call.charge ∧ ReadsAs lib disk reference .vasp (!spin) call.reference ∧
      call.method = method ∧ call.spin = spin := by
  obtain ⟨s, c, r, m⟩ := call
  unfold labelCommand ReadsAs
  simp only [Option.bind_eq_some_iff, Option.map_eq_some_iff, LabelCall.mk.injEq, readAs]
  constructor
  · rintro ⟨fc, h1, c', h2, fr, h3, r', h4, rfl, rfl, rfl, rfl⟩
    exact ⟨⟨fc, h1, h2⟩, ⟨fr, h3, h4⟩, rfl, rfl⟩
  · rintro ⟨⟨fc, h1, h2⟩, ⟨fr, h3, h4⟩, rfl, rfl⟩
    exact ⟨fc, h1, c, h2, fr, h3, r, h4, rfl, rfl, rfl, rfl⟩

/-- **C97 (exception).** `badelf` never opens the files it is given: it analyses `CHGCAR` and `ELFCAR` of the current directory. -/
theorem C97_badelf_other_files (lib : GridLib F G) (disk : Disk F) (charge reference method bader : String) (spin : Bool) (call : BadelfCall G) :
    badelfCommand K lib disk charge reference method bader spin = some call ↔
      ReadsAs lib disk "CHGCAR" .vasp (!spin) call.charge ∧ ReadsAs lib disk "ELFCAR" .vasp (!spin) call.reference ∧
      (spin = true → lib.polarized call.reference = true) ∧ method ∈ ["badelf", "voronelf", "zero-flux"] ∧
      call.method = method ∧ call.splitting = "weighted_dist" ∧ call.labeler = [("method", bader)] ∧ call.spin = spin := by
  obtain ⟨s, r, c, m, sp, l⟩ := call
  have hg : ∀ p, gridVaspKw lib disk (.path p) (if spin = true then ([("total_only", .flag false)] : Kw K) else
      [("charge_filename", .path charge), ("reference_filename", .path reference), ("method", .text method),
        ("elf_labeler", .opts [("method", bader)])]) = (disk p).bind fun f => lib.readVasp (!spin) f := by
    intro p
    cases spin <;> rfl
  have hrest : kwRest ([("charge_filename", .path charge), ("reference_filename", .path reference), ("method", .text method),
        ("elf_labeler", .opts [("method", bader)])] : Kw K) ["reference_file", "charge_file"] =
      [("charge_filename", .path charge), ("reference_filename", .path reference), ("method", .text method),
        ("elf_labeler", .opts [("method", bader)])] := rfl
  have hb : badelfCommand K lib disk charge reference method bader spin =
      ((disk "ELFCAR").bind fun f => lib.readVasp (!spin) f).bind fun r => ((disk "CHGCAR").bind fun f => lib.readVasp (!spin) f).bind fun c =>
        badelfInit lib spin r c ([("charge_filename", .path charge), ("reference_filename", .path reference), ("method", .text method),
        ("elf_labeler", .opts [("method", bader)])] : Kw K) := by
    unfold badelfCommand badelfFromVasp
    simp only
    rw [hrest]
    have e1 : kwGet ([("charge_filename", .path charge), ("reference_filename", .path reference), ("method", .text method),
        ("elf_labeler", .opts [("method", bader)])] : Kw K) "reference_file" (.path "ELFCAR") = .path "ELFCAR" := rfl
    have e2 : kwGet ([("charge_filename", .path charge), ("reference_filename", .path reference), ("method", .text method),
        ("elf_labeler", .opts [("method", bader)])] : Kw K) "charge_file" (.path "CHGCAR") = .path "CHGCAR" := rfl
    rw [e1, e2, hg, hg]
  have hi : ∀ r c, badelfInit lib spin r c ([("charge_filename", .path charge), ("reference_filename", .path reference), ("method", .text method),
        ("elf_labeler", .opts [("method", bader)])] : Kw K) =
      if spin = true ∧ lib.polarized r = false then none else
        if method = "badelf" ∨ method = "voronelf" ∨ method = "zero-flux" then some ⟨spin, r, c, method, "weighted_dist", [("method", bader)]⟩
        else none := fun r c => rfl
  rw [hb]
  simp only [hi, Option.bind_eq_some_iff]
  unfold ReadsAs
  simp only [readAs, List.mem_cons, List.not_mem_nil, or_false]
  constructor
  · rintro ⟨r', ⟨fr, h1, h2⟩, c', ⟨fc, h3, h4⟩, h5⟩
    split_ifs at h5 with hs hm
    cases h5
    refine ⟨⟨fc, h3, h4⟩, ⟨fr, h1, h2⟩, fun hsp => ?_, hm, rfl, rfl, rfl, rfl⟩
    have := not_and.1 hs hsp
    simpa using this
  · rintro ⟨⟨fc, h3, h4⟩, ⟨fr, h1, h2⟩, hsp, hm, rfl, rfl, rfl, rfl⟩
    refine ⟨r, ⟨fr, h1, h2⟩, c, ⟨fc, h3, h4⟩, ?_⟩
    rw [if_neg, if_pos hm]
    rintro ⟨h6, h7⟩
    rw [hsp h6] at h7
    cases h7

/-- **C97 (exception).** Two files that exist and can be read are refused because the current directory lacks `CHGCAR`. -/
theorem C97_badelf_fails : ∃ (lib : GridLib ℕ ℕ) (disk : Disk ℕ), (∃ g, ReadsAs lib disk "run1/CHGCAR" .vasp true g) ∧
    (∃ g, ReadsAs lib disk "run1/ELFCAR" .vasp true g) ∧ badelfCommand ℚ lib disk "run1/CHGCAR" "run1/ELFCAR" "badelf" "weight" false = none :=
  ⟨⟨fun _ => some .vasp, fun _ f => some f, fun f => some f, fun f => some f, fun _ => .vasp, fun _ g => some g, fun _ => true, fun g => some (g, g)⟩,
    fun p => if p = "run1/CHGCAR" then some 1 else if p = "run1/ELFCAR" then some 2 else none, ⟨1, 1, rfl, rfl⟩, ⟨2, 2, rfl, rfl⟩, rfl⟩

/-! ## C97: selections -/

theorem splitAt_none (c : Char) (a : Text) (h : c ∉ a) : splitAt c a = [a] := by
  induction a with
  | nil => rfl
  | cons x a ih =>
    rw [List.mem_cons, not_or] at h
    rw [splitAt, if_neg (Ne.symm h.1), ih h.2]

theorem splitAt_append (c : Char) (a b : Text) (h : c ∉ a) : splitAt c (a ++ c :: b) = a :: splitAt c b := by
  induction a with
  | nil => rw [List.nil_append, splitAt, if_pos rfl]
  | cons x a ih =>
    rw [List.mem_cons, not_or] at h
    rw [List.cons_append, splitAt, if_neg (Ne.symm h.1), ih h.2]

theorem dropWhile_prefix (p : Char → Bool) (pre l : Text) (h : ∀ x ∈ pre, p x = true) : (pre ++ l).dropWhile p = l.dropWhile p := by
  induction pre with
  | nil => rfl
  | cons x pre ih =>
    rw [List.cons_append, List.dropWhile_cons, if_pos (h x (by simp)), ih fun y hy => h y (by simp [hy])]

theorem dropWhile_head (p : Char → Bool) (l : Text) (a : Char) (h : l.head? = some a) (hp : p a = false) : l.dropWhile p = l := by
  cases l with
  | nil => rfl
  | cons x l =>
    simp only [List.head?_cons, Option.some.injEq] at h
    subst h
    rw [List.dropWhile_cons, if_neg (by simp [hp])]

theorem stripSet_core (p : Char → Bool) (pre core post : Text) (a b : Char) (h1 : ∀ x ∈ pre, p x = true) (h2 : ∀ x ∈ post, p x = true)
    (ha : core.head? = some a) (hb : core.getLast? = some b) (pa : p a = false) (pb : p b = false) :
    stripSet p (pre ++ core ++ post) = core := by
  unfold stripSet
  have hc : (core ++ post).head? = some a := by rw [List.head?_append, ha]; rfl
  rw [List.append_assoc, dropWhile_prefix p pre _ h1, dropWhile_head p _ a hc pa, List.reverse_append,
    dropWhile_prefix p _ _ (by simpa using h2), dropWhile_head p _ b (by rw [List.head?_reverse]; exact hb) pb, List.reverse_reverse]

theorem strip_blanks (k m : ℕ) (w : Text) (h : PlainWord w) : strip (List.replicate k ' ' ++ w ++ List.replicate m ' ') = w := by
  obtain ⟨-, a, b, ha, hb, ⟨pa, -⟩, ⟨pb, -⟩⟩ := h
  refine stripSet_core isWs _ w _ a b ?_ ?_ ha hb pa pb
  · intro x hx; rw [List.eq_of_mem_replicate hx]; decide
  · intro x hx; rw [List.eq_of_mem_replicate hx]; decide

/-- The parts of a list of words. -/
theorem parts_of_join (r : List (ℕ × ℕ × Text)) : ∀ (w : Text) (m : ℕ), PlainWord w → (∀ x ∈ r, PlainWord x.2.2) →
    (splitAt ',' (List.replicate m ' ' ++ joinTexts w r)).map strip = w :: r.map fun x => x.2.2 := by
  induction r with
  | nil =>
    intro w m hw _
    have h : ',' ∉ List.replicate m ' ' ++ w := by
      rw [List.mem_append, not_or]
      exact ⟨fun h => absurd (List.eq_of_mem_replicate h) (by decide), hw.1⟩
    have := strip_blanks m 0 w hw
    rw [List.replicate_zero, List.append_nil] at this
    rw [joinTexts, splitAt_none _ _ h, List.map_cons, this]
    rfl
  | cons x r ih =>
    obtain ⟨k, m', w'⟩ := x
    intro w m hw hr
    have h : ',' ∉ List.replicate m ' ' ++ w ++ List.replicate k ' ' := by
      rw [List.mem_append, List.mem_append, not_or, not_or]
      exact ⟨⟨fun h => absurd (List.eq_of_mem_replicate h) (by decide), hw.1⟩, fun h => absurd (List.eq_of_mem_replicate h) (by decide)⟩
    rw [joinTexts, ← List.append_assoc, ← List.append_assoc, splitAt_append _ _ _ h, List.map_cons, strip_blanks m k w hw,
      ih w' m' (hr (k, m', w') (by simp)) fun x hx => hr x (by simp [hx])]
    rfl

theorem joinTexts_ends (r : List (ℕ × ℕ × Text)) : ∀ w : Text, PlainWord w → (∀ x ∈ r, PlainWord x.2.2) →
    ∃ a b : Char, (joinTexts w r).head? = some a ∧ (joinTexts w r).getLast? = some b ∧
      (isWs a = false ∧ a ≠ '[' ∧ a ≠ ']') ∧ (isWs b = false ∧ b ≠ '[' ∧ b ≠ ']') := by
  induction r with
  | nil => intro w hw _; exact hw.2
  | cons x r ih =>
    obtain ⟨k, m', w'⟩ := x
    intro w hw hr
    obtain ⟨-, b, -, hb, -, pb⟩ := ih w' (hr (k, m', w') (by simp)) fun x hx => hr x (by simp [hx])
    obtain ⟨-, a, -, ha, -, pa, -⟩ := hw
    refine ⟨a, b, ?_, ?_, pa, pb⟩
    · rw [joinTexts, List.append_assoc, List.head?_append, ha]; rfl
    · rw [joinTexts]
      simp [List.getLast?_append, List.getLast?_cons, hb]

theorem mapM_comp_map {α β γ : Type} (f : β → Option γ) (g : α → β) (l : List α) : (l.mapM fun x => f (g x)) = (l.map g).mapM f := by
  induction l with
  | nil => rfl
  | cons a l ih => rw [List.mapM_cons, List.map_cons, List.mapM_cons, ih]

/-- **C97.** A list of words, in brackets or not and with any blanks, is understood as integers if all of them are, and otherwise as these words:
nothing is lost, added or reordered. -/
theorem C97_selection (pre post : Text) (w : Text) (r : List (ℕ × ℕ × Text)) (hpre : ∀ c ∈ pre, c = '[' ∨ c = ']' ∨ c = ' ')
    (hpost : ∀ c ∈ post, c = '[' ∨ c = ']' ∨ c = ' ') (hw : PlainWord w) (hr : ∀ x ∈ r, PlainWord x.2.2) :
    parseSelection (pre ++ joinTexts w r ++ post) =
      match (w :: r.map fun x => x.2.2).mapM parseInt with
      | some l => .ints l
      | none => .words (w :: r.map fun x => x.2.2) := by
  obtain ⟨a, b, ha, hb, ⟨a1, a2, a3⟩, ⟨b1, b2, b3⟩⟩ := joinTexts_ends r w hw hr
  have hsp : ∀ c, isWs c = false → c ≠ ' ' := by rintro c h rfl; exact absurd h (by decide)
  have hs : stripSet (fun c => c = '[' || c = ']' || c = ' ') (pre ++ joinTexts w r ++ post) = joinTexts w r := by
    refine stripSet_core _ _ _ _ a b ?_ ?_ ha hb ?_ ?_
    · intro x hx; rcases hpre x hx with rfl | rfl | rfl <;> decide
    · intro x hx; rcases hpost x hx with rfl | rfl | rfl <;> decide
    · simp [a2, a3, hsp a a1]
    · simp [b2, b3, hsp b b1]
  have hp := parts_of_join r w 0 hw hr
  rw [List.replicate_zero, List.nil_append] at hp
  unfold parseSelection
  simp only [hs, mapM_comp_map parseInt strip, hp]
  cases (w :: r.map fun x => x.2.2).mapM parseInt <;> rfl

theorem isDig_plain {c : Char} (h : isDig c = true) : isWs c = false ∧ c ≠ '[' ∧ c ≠ ']' := by
  refine ⟨?_, ?_, ?_⟩
  · by_contra hc
    rw [Bool.not_eq_false] at hc
    unfold isWs at hc
    simp only [Bool.or_eq_true, decide_eq_true_eq] at hc
    rcases hc with ((rfl | rfl) | rfl) | rfl <;> exact absurd h (by decide)
  · rintro rfl; exact absurd h (by decide)
  · rintro rfl; exact absurd h (by decide)

theorem intText_plain (z : ℤ) : PlainWord (intText z) := by
  have hn := strNat_ne_nil z.natAbs
  have hd := strNat_dig z.natAbs
  have hlast : (strNat z.natAbs).getLast? = some ((strNat z.natAbs).getLast hn) := List.getLast?_eq_getLast_of_ne_nil hn
  unfold intText
  split_ifs with h
  · refine ⟨?_, '-', (strNat z.natAbs).getLast hn, rfl, ?_, by decide, isDig_plain (hd _ (List.getLast_mem hn))⟩
    · rw [List.mem_cons, not_or]
      exact ⟨by decide, fun hc => absurd (hd _ hc) (by decide)⟩
    · rw [List.getLast?_cons, hlast]; rfl
  · refine ⟨fun hc => absurd (hd _ hc) (by decide), (strNat z.natAbs).head hn, _, List.head?_eq_some_head hn, hlast,
      isDig_plain (hd _ (List.head_mem hn)), isDig_plain (hd _ (List.getLast_mem hn))⟩

theorem parseInt_intText (z : ℤ) : parseInt (intText z) = some z := by
  unfold intText
  split_ifs with h
  · rw [parseInt, parseNat_strNat]
    simp only [Option.map_some, Option.some.injEq]
    omega
  · rw [parseInt_strNat]
    simp only [Option.some.injEq]
    omega

/-- **C97.** Integers are selected as they are written. -/
theorem C97_selection_ints (pre post : Text) (z : ℤ) (r : List (ℕ × ℕ × ℤ)) (hpre : ∀ c ∈ pre, c = '[' ∨ c = ']' ∨ c = ' ')
    (hpost : ∀ c ∈ post, c = '[' ∨ c = ']' ∨ c = ' ') :
    parseSelection (pre ++ joinTexts (intText z) (r.map fun x => (x.1, x.2.1, intText x.2.2)) ++ post) = .ints (z :: r.map fun x => x.2.2) := by
  rw [C97_selection pre post _ _ hpre hpost (intText_plain z) (by
    intro x hx
    obtain ⟨y, -, rfl⟩ := List.mem_map.1 hx
    exact intText_plain _)]
  have : (intText z :: (r.map fun x => (x.1, x.2.1, intText x.2.2)).map fun x => x.2.2) = (z :: r.map fun x => x.2.2).map intText := by
    simp [Function.comp_def]
  rw [this, ← mapM_comp_map, mapM_eq_some_map _ id _ fun a _ => parseInt_intText a]
  simp

/-- **C97 (exception).** A selection is never empty: without indices, one empty word is passed on. -/
theorem C97_no_selection : parseSelection [] = .words [[]] ∧ ∀ t, parseSelection t ≠ .ints [] ∧ parseSelection t ≠ .words [] := by
  have hne : ∀ (c : Char) (t : Text), splitAt c t ≠ [] := by
    intro c t
    induction t with
    | nil => simp [splitAt]
    | cons a t ih =>
      rw [splitAt]
      split_ifs
      · simp
      · split <;> simp
  refine ⟨by decide, fun t => ?_⟩
  unfold parseSelection
  simp only
  cases h : splitAt ',' (stripSet (fun c => c = '[' || c = ']' || c = ' ') t) with
  | nil => exact absurd h (hne _ _)
  | cons x l =>
    rw [List.mapM_cons]
    cases h1 : parseInt (strip x) with
    | none => simp
    | some z =>
      cases h2 : l.mapM fun x => parseInt (strip x) with
      | none => simp
      | some zs => simp

example : parseSelection "[0, 12,-3 ]".toList = .ints [0, 12, -3] := by decide
example : parseSelection "[0, Na]".toList = .words ["0".toList, "Na".toList] := by decide

/-! ## C97: names of files -/

/-- **C97.** `split` reads the file and writes two different files with the two spins; all other files stay. -/
theorem C97_split (lib : GridLib F G) (disk disk' : Disk F) (dir : String) (name : Text) (inFmt outFmt : FmtArg)
    (h : splitCommand lib disk dir name none none inFmt outFmt = some disk') :
    ∃ (g u d : G) (mu md : FileFormat), gridDynamic lib disk (dir ++ String.ofList name) inFmt false = some g ∧ lib.polarized g = true ∧
      lib.split g = some (u, d) ∧ (outFmt = .none → mu = lib.source u ∧ md = lib.source d) ∧
      disk' (String.ofList (splitNames name).1) = lib.write mu u ∧ disk' (String.ofList (splitNames name).2) = lib.write md d ∧
      String.ofList (splitNames name).1 ≠ String.ofList (splitNames name).2 ∧
      ∀ p, p ≠ String.ofList (splitNames name).1 → p ≠ String.ofList (splitNames name).2 → disk' p = disk p := by
  have hne : String.ofList (splitNames name).1 ≠ String.ofList (splitNames name).2 := by
    intro h
    have h2 := String.ofList_injective h
    unfold splitNames at h2
    simp only [List.append_assoc] at h2
    have h3 := congrArg List.length (List.append_cancel_left h2)
    simp at h3
  unfold splitCommand at h
  rw [Option.bind_eq_some_iff] at h
  obtain ⟨g, hg, h⟩ := h
  split_ifs at h with hp
  rw [Option.bind_eq_some_iff] at h
  obtain ⟨⟨u, d⟩, hs, h⟩ := h
  rw [Option.bind_eq_some_iff] at h
  obtain ⟨d1, h1, h2⟩ := h
  simp only [Option.getD_none] at h1 h2
  unfold gridWrite at h1 h2
  rw [Option.bind_eq_some_iff] at h1 h2
  obtain ⟨mu, hmu, h1⟩ := h1
  obtain ⟨md, hmd, h2⟩ := h2
  rw [Option.map_eq_some_iff] at h1 h2
  obtain ⟨fu, hfu, rfl⟩ := h1
  obtain ⟨fd, hfd, rfl⟩ := h2
  refine ⟨g, u, d, mu, md, hg, hp, hs, ?_, ?_, ?_, hne, ?_⟩
  · rintro rfl
    simp only [Option.some.injEq] at hmu hmd
    exact ⟨hmu.symm, hmd.symm⟩
  · rw [Function.update_of_ne hne, Function.update_self, hfu]
  · rw [Function.update_self, hfd]
  · intro p hp1 hp2
    rw [Function.update_of_ne hp2, Function.update_of_ne hp1]

/-- **C97.** The names end in `_up` and `_down` before the suffix, provided no character of the suffix is at either end of the rest of the name. -/
theorem C97_split_names_partial (stem : Text) (a b : Char) (name : Text) (hname : name = stem ++ suffixOf name) (ha : stem.head? = some a)
    (hb : stem.getLast? = some b) (h1 : a ∉ suffixOf name) (h2 : b ∉ suffixOf name) :
    splitNames name = (stem ++ "_up".toList ++ suffixOf name, stem ++ "_down".toList ++ suffixOf name) := by
  have : stripSet (fun c => c ∈ suffixOf name) name = stem := by
    have hh := stripSet_core (fun c => decide (c ∈ suffixOf name)) [] stem (suffixOf name) a b (by simp) (by simp) ha hb (by simpa using h1)
      (by simpa using h2)
    rw [List.nil_append, ← hname] at hh
    exact hh
  unfold splitNames
  simp only [this]

example : splitNames "CHGCAR.vasp".toList = ("CHGCAR_up.vasp".toList, "CHGCAR_down.vasp".toList) := by decide
example : splitNames "CHGCAR".toList = ("CHGCAR_up".toList, "CHGCAR_down".toList) := by decide

/-- **C97 (exception).** Characters of the suffix are also removed from the name itself, so different files get the same names. -/
theorem C97_split_names_wrong : splitNames "spin.vasp".toList = ("in_up.vasp".toList, "in_down.vasp".toList) ∧
    splitNames "spin.vasp".toList = splitNames "in.vasp".toList := by decide

/-- **C97 (exception).** The default name of `regrid` drops the suffix, so files of different formats get the same name. -/
theorem C97_regrid_names : regridName "x.cube".toList = "x_regrid".toList ∧ regridName "x.cube".toList = regridName "x.vasp".toList := by decide

end BaderKit
