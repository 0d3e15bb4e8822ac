import Verif.Props.CubeFile
/-!
# C70: the structure in a VASP file; C71: format detection
-/
namespace BaderKit

theorem runs_decode (l : List Text) : (runs l).flatMap (fun p => List.replicate p.2 p.1) = l := by
  induction l with
  | nil => rfl
  | cons a l ih =>
    rw [runs]
    cases h : runs l with
    | nil =>
      rw [h] at ih
      simp only [List.flatMap_nil] at ih
      rw [← ih]; rfl
    | cons p r =>
      obtain ⟨b, n⟩ := p
      rw [h, List.flatMap_cons] at ih
      simp only at ih ⊢
      split
      · rename_i hab
        rw [List.flatMap_cons]
        simp only
        rw [List.replicate_succ, List.cons_append, ih, hab]
      · rw [List.flatMap_cons, List.flatMap_cons]
        simp only [List.replicate_one, List.singleton_append]
        rw [ih]

theorem runs_sum (l : List Text) : ((runs l).map fun p => p.2).sum = l.length := by
  have := congrArg List.length (runs_decode l)
  rw [List.length_flatMap] at this
  rw [← this]
  congr 1
  apply List.map_congr_left
  intro p _
  simp

theorem runs_mem (l : List Text) (p : Text × ℕ) (hp : p ∈ runs l) : p.1 ∈ l ∧ p.2 ≤ l.length := by
  constructor
  · have hpos : ∀ l : List Text, ∀ p ∈ runs l, 0 < p.2 := by
      intro l
      induction l with
      | nil => intro p hp; simp [runs] at hp
      | cons a l ih =>
        intro p hp
        rw [runs] at hp
        cases h : runs l with
        | nil => rw [h] at hp; simp only [List.mem_singleton] at hp; rw [hp]; norm_num
        | cons q r =>
          obtain ⟨b, n⟩ := q
          rw [h] at hp ih
          simp only at hp
          split at hp
          · rcases List.mem_cons.mp hp with rfl | hp
            · simp
            · exact ih p (by simp [hp])
          · rcases List.mem_cons.mp hp with rfl | hp
            · simp
            · exact ih p hp
    rw [← runs_decode l, List.mem_flatMap]
    exact ⟨p, hp, by rw [List.mem_replicate]; exact ⟨(hpos l p hp).ne', rfl⟩⟩
  · rw [← runs_sum l]
    exact List.single_le_sum (by simp) _ (List.mem_map.mpr ⟨p, hp, rfl⟩)

theorem zip_fst_snd {α β : Type*} (l : List (α × β)) : (l.map fun p => p.1).zip (l.map fun p => p.2) = l := by
  induction l with
  | nil => rfl
  | cons a l ih => rw [List.map_cons, List.map_cons, List.zip_cons_cons, ih]

theorem words_symbols (ws : List Text) (h : ∀ w ∈ ws, IsWord w ∧ w.length < 5) (t : Text) :
    words (ws.flatMap (padRight 5) ++ t) = ws ++ words t := by
  induction ws with
  | nil => rfl
  | cons w ws ih =>
    obtain ⟨hw, hl⟩ := h w (by simp)
    obtain ⟨k, hk⟩ : ∃ k, 5 - w.length = k + 1 := ⟨4 - w.length, by omega⟩
    rw [List.flatMap_cons]
    unfold padRight
    rw [hk, List.append_assoc, List.append_assoc, words_word w hw.1 hw.2 _ (Or.inr ⟨' ', _, by rw [List.replicate_succ, List.cons_append], by decide⟩),
      words_replicate]
    have := ih (fun w hw => h w (by simp [hw]))
    unfold padRight at this
    rw [this]; rfl

section field
variable {K : Type*} [Field K] [LinearOrder K] [FloorRing K]

/-- The structure fits the columns: cell vectors below 999, fractional coordinates below 9, symbols of at most four
characters, fewer than 100000 atoms. -/
def StructFits (g : VaspIn K) : Prop :=
  FitsV 3 g.lattice.1 ∧ FitsV 3 g.lattice.2.1 ∧ FitsV 3 g.lattice.2.2 ∧
  (∀ a ∈ g.atoms, FitsV 1 a.2 ∧ IsWord a.1 ∧ a.1.length < 5) ∧ g.atoms.length < 10 ^ 5

variable [IsStrictOrderedRing K]

theorem scale_one : (parseNum (K := K) "1.00000000000000".toList) = some 1 := by
  have := parse_signed (K := K) false ['1'] "00000000000000".toList [] (by decide) (by decide) (by decide) (by simp) 0 rfl
  have e : "1.00000000000000".toList = (if (false = true) then ['-'] else []) ++ (['1'] ++ '.' :: ("00000000000000".toList ++ [])) := by
    decide
  rw [e, this]
  have h1 : natOf (['1'] ++ "00000000000000".toList) = 10 ^ 14 := by decide
  have h2 : ("00000000000000".toList).length = 14 := by decide
  rw [h1, h2]
  simp only [Bool.false_eq_true, if_false, one_mul, Nat.cast_pow, Nat.cast_ofNat, zero_sub]
  rw [zpow_neg]
  norm_num

theorem lat_line (v : V3 K) (hv : FitsV 3 v) : IsLine (' ' :: lineOf (vecFields 12 v)) ∧
    parseV3 (words (' ' :: lineOf (vecFields 12 v))) = some (roundV6 v) ∧ (words (' ' :: lineOf (vecFields 12 v))).length = 3 := by
  have h := vecFields_spec 3 (by norm_num) v hv
  obtain ⟨⟨b, hb, hn⟩, w⟩ := line_spec (vecFields 12 v) (fun f hf => (h f hf).1)
    (fun f hf => (h f (List.mem_of_mem_tail hf)).2)
  refine ⟨⟨' ' :: b, by rw [hb]; rfl, ?_⟩, ?_, ?_⟩
  · intro hc
    rcases List.mem_cons.mp hc with h | h
    · revert h; decide
    · exact hn h
  · rw [words_ws _ _ (by decide), w, parseV3_fields]
  · rw [words_ws _ _ (by decide), w]; rfl

theorem coord_line (v : V3 K) (hv : FitsV 1 v) : IsLine (lineOf (vecFields 10 v)) ∧
    parseV3 ((words (lineOf (vecFields 10 v))).take 3) = some (roundV6 v) := by
  have h := vecFields_spec 1 (by norm_num) v hv
  obtain ⟨a, w⟩ := line_spec (vecFields 10 v) (fun f hf => (h f hf).1)
    (fun f hf => (h f (List.mem_of_mem_tail hf)).2)
  refine ⟨a, ?_⟩
  rw [w, List.take_of_length_le (by simp [vecFields]), parseV3_fields]

theorem roundV_close (v : V3 K) : CloseV (1 / 10 ^ 6) v (roundV6 v) := by
  have hhalf : (1 : K) / 10 ^ 6 / 2 ≤ 1 / 10 ^ 6 := half_le_self (by positivity)
  exact ⟨le_trans (roundDec_close 6 _) hhalf, le_trans (roundDec_close 6 _) hhalf, le_trans (roundDec_close 6 _) hhalf⟩

/-- What is read from the header of a written file. -/
theorem header_spec (g : VaspIn K) (hg : StructFits g) (rest : Text) :
    readVaspHeader ((vaspHeader false g).flatten ++ rest) =
      some (⟨(scaleV 1 (roundV6 g.lattice.1), scaleV 1 (roundV6 g.lattice.2.1), scaleV 1 (roundV6 g.lattice.2.2)),
        g.atoms.map fun a => (a.1, roundV6 a.2)⟩, rest) := by
  obtain ⟨f1, f2, f3, f4, f5⟩ := hg
  obtain ⟨a1, b1, -⟩ := lat_line _ f1
  obtain ⟨a2, b2, -⟩ := lat_line _ f2
  obtain ⟨a3, b3, -⟩ := lat_line _ f3
  obtain ⟨syms, hsyms⟩ : ∃ syms, syms = g.atoms.map fun a => a.1 := ⟨_, rfl⟩
  have hsym : ∀ w ∈ (runs syms).map (fun p => p.1), IsWord w ∧ w.length < 5 := by
    intro w hw
    obtain ⟨p, hp, rfl⟩ := List.mem_map.mp hw
    have := (runs_mem syms p hp).1
    rw [hsyms, List.mem_map] at this
    obtain ⟨a, ha, hap⟩ := this
    rw [← hap]; exact (f4 a ha).2
  have htypes : ((runs syms).flatMap fun p => padRight 5 p.1) = ((runs syms).map fun p => p.1).flatMap (padRight 5) := by
    rw [List.flatMap_map]
  obtain ⟨types, ht⟩ : ∃ t, t = ((runs syms).flatMap fun p => padRight 5 p.1) ++ ['\n'] := ⟨_, rfl⟩
  have tl : IsLine types := by
    refine ⟨_, ht, ?_⟩
    rw [htypes, List.mem_flatMap]
    rintro ⟨w, hw, hc⟩
    unfold padRight at hc
    rcases List.mem_append.mp hc with h | h
    · exact word_no_newline w (hsym w hw).1.1 h
    · have := List.eq_of_mem_replicate h
      revert this; decide
  have tw : words types = (runs syms).map fun p => p.1 := by
    rw [ht, htypes, words_symbols _ hsym, words_ws _ _ (by decide), words_nil, List.append_nil]
  obtain ⟨counts, hc⟩ : ∃ t, t = lineOf ((runs syms).map fun p => (6, strNat p.2)) := ⟨_, rfl⟩
  obtain ⟨cl, cw⟩ := line_spec ((runs syms).map fun p => (6, strNat p.2)) (by
    intro f hf; obtain ⟨p, -, rfl⟩ := List.mem_map.mp hf; exact word_strNat _) (by
    intro f hf
    obtain ⟨p, hp, rfl⟩ := List.mem_map.mp (List.mem_of_mem_tail hf)
    have := (runs_mem syms p hp).2
    rw [hsyms, List.length_map] at this
    have := (strNat_length p.2 5 (by norm_num)).mpr (lt_of_le_of_lt this f5)
    simp only; omega)
  rw [← hc] at cl cw
  rw [List.map_map] at cw
  obtain ⟨coords, hco⟩ : ∃ l, l = g.atoms.map fun a => lineOf (vecFields 10 a.2) := ⟨_, rfl⟩
  have hhead : vaspHeader false g = ["Written by BaderKit\n".toList, "   1.00000000000000\n".toList,
      ' ' :: lineOf (vecFields 12 g.lattice.1), ' ' :: lineOf (vecFields 12 g.lattice.2.1),
      ' ' :: lineOf (vecFields 12 g.lattice.2.2), types, counts, "Direct\n".toList] ++ coords ++ [" \n".toList] := by
    unfold vaspHeader
    rw [ht, hc, hco, hsyms]
    simp
  rw [hhead, List.flatten_append, List.flatten_append, List.append_assoc, List.append_assoc]
  have h8 := readLines_spec ["Written by BaderKit\n".toList, "   1.00000000000000\n".toList,
      ' ' :: lineOf (vecFields 12 g.lattice.1), ' ' :: lineOf (vecFields 12 g.lattice.2.1),
      ' ' :: lineOf (vecFields 12 g.lattice.2.2), types, counts, "Direct\n".toList] (by
    intro l hl
    simp only [List.mem_cons, List.not_mem_nil, or_false] at hl
    rcases hl with rfl | rfl | rfl | rfl | rfl | rfl | rfl | rfl
    · exact ⟨"Written by BaderKit".toList, by decide, by decide⟩
    · exact ⟨"   1.00000000000000".toList, by decide, by decide⟩
    · exact a1
    · exact a2
    · exact a3
    · exact tl
    · exact cl
    · exact ⟨"Direct".toList, by decide, by decide⟩) (coords.flatten ++ ([" \n".toList].flatten ++ rest))
  simp only [List.length_cons, List.length_nil, Nat.reduceAdd, zero_add] at h8
  have hsc : words "   1.00000000000000\n".toList = ["1.00000000000000".toList] := by decide
  have hcounts : (words counts).mapM parseNat = some ((runs syms).map fun p => p.2) := by
    rw [cw, List.mapM_map]
    exact mapM_eq_some_map _ _ _ fun p _ => parseNat_strNat p.2
  unfold readVaspHeader
  rw [h8]
  simp only [hsc, b1, b2, b3, hcounts, scale_one, tw]
  have hlen : ((runs syms).map fun p => p.2).sum = coords.length := by
    rw [runs_sum, hsyms, hco, List.length_map, List.length_map]
  rw [hlen, readLines_spec coords (by
    intro l hl
    rw [hco, List.mem_map] at hl
    obtain ⟨a, ha, rfl⟩ := hl
    exact (coord_line a.2 (f4 a ha).1).1)]
  have hm : coords.mapM (fun l => (parseV3 ((words l).take 3) : Option (V3 K))) = some (g.atoms.map fun a => roundV6 a.2) := by
    rw [hco, List.mapM_map]
    exact mapM_eq_some_map _ _ _ fun a ha => (coord_line a.2 (f4 a ha).1).2
  simp only [hm, zip_fst_snd, runs_decode]
  rw [if_neg (by rw [hsyms, List.length_map, List.length_map]; simp)]
  have hlast : (readLine ([" \n".toList].flatten ++ rest)).2 = rest := by
    have : [" \n".toList].flatten ++ rest = " \n".toList ++ rest := by simp
    rw [this, readLine_isLine _ ⟨[' '], by decide, by decide⟩]
  rw [hlast]
  congr 3
  rw [hsyms]
  clear hsyms hm hco f4 f5 hhead h8 
  induction g.atoms with
  | nil => rfl
  | cons a l ih => simp only [List.map_cons, List.zip_cons_cons, ih]

/-- C70: a structure that fits the columns is read back with the cell and the fractional coordinates to `10^-6` and
the same elements in the same order, whatever data follow. -/
theorem C70_structure (g : VaspIn K) (hg : StructFits g) (s : Shape) (data : DKey → Option (Grid3 K)) (aug : DKey → List Text) :
    ∃ out, readVaspHeader (writeVaspFile false g s data aug) = some (out, writeVasp s data aug) ∧
      CloseV (1 / 10 ^ 6) g.lattice.1 out.lattice.1 ∧ CloseV (1 / 10 ^ 6) g.lattice.2.1 out.lattice.2.1 ∧
      CloseV (1 / 10 ^ 6) g.lattice.2.2 out.lattice.2.2 ∧
      List.Forall₂ (fun a b : Text × V3 K => b.1 = a.1 ∧ CloseV (1 / 10 ^ 6) a.2 b.2) g.atoms out.atoms := by
  unfold writeVaspFile
  refine ⟨_, header_spec g hg _, ?_, ?_, ?_, ?_⟩
  · simpa [scaleV] using roundV_close g.lattice.1
  · simpa [scaleV] using roundV_close g.lattice.2.1
  · simpa [scaleV] using roundV_close g.lattice.2.2
  · rw [List.forall₂_map_right_iff, List.forall₂_same]
    intro a _
    exact ⟨rfl, roundV_close a.2⟩

/-- C70: the data of the whole file are those of the blocks after the header, so that the block round trip holds for
files. -/
theorem C70_data (g : VaspIn K) (hg : StructFits g) (s : Shape) (data : DKey → Option (Grid3 K)) (aug : DKey → List Text)
    (totalOnly : Bool) (fuel : ℕ) :
    (readVaspFile (K := K) totalOnly fuel (writeVaspFile false g s data aug)).map (fun r => r.2) =
      readVaspSets totalOnly fuel (writeVasp s data aug) := by
  unfold readVaspFile writeVaspFile
  rw [header_spec g hg]
  simp only [Option.map_map]
  cases readVaspSets (K := K) totalOnly fuel (writeVasp s data aug) with
  | none => rfl
  | some r => rfl

theorem readLines_append (l : Text) (h : IsLine l) (n : ℕ) (t : Text) :
    readLines (n + 1) (l ++ t) = (l :: (readLines n t).1, (readLines n t).2) := by
  rw [readLines, readLine_isLine l h]

/-- C70: a file written with `vasp4_compatible` cannot be read back, whatever the structure and the data. -/
theorem C70_vasp4_unreadable (g : VaspIn K) (hg : StructFits g) (s : Shape) (data : DKey → Option (Grid3 K))
    (aug : DKey → List Text) (totalOnly : Bool) (fuel : ℕ) :
    readVaspFile (K := K) totalOnly fuel (writeVaspFile true g s data aug) = none := by
  obtain ⟨f1, f2, f3, f4, f5⟩ := hg
  obtain ⟨a1, b1, -⟩ := lat_line _ f1
  obtain ⟨a2, b2, -⟩ := lat_line _ f2
  obtain ⟨a3, b3, -⟩ := lat_line _ f3
  obtain ⟨counts, hc⟩ : ∃ t, t = lineOf ((runs (g.atoms.map fun a => a.1)).map fun p => (6, strNat p.2)) := ⟨_, rfl⟩
  have cl : IsLine counts := by
    rw [hc]
    exact ⟨_, rfl, fields_no_newline _ (by intro f hf; obtain ⟨p, -, rfl⟩ := List.mem_map.mp hf; exact word_strNat _)⟩
  have : readVaspHeader (K := K) (writeVaspFile true g s data aug) = none := by
    unfold writeVaspFile
    have hhead : ∃ tl, (vaspHeader true g).flatten ++ writeVasp s data aug = "Written by BaderKit\n".toList ++
        ("   1.00000000000000\n".toList ++ ((' ' :: lineOf (vecFields 12 g.lattice.1)) ++
        ((' ' :: lineOf (vecFields 12 g.lattice.2.1)) ++ ((' ' :: lineOf (vecFields 12 g.lattice.2.2)) ++
        (counts ++ ("Direct\n".toList ++ tl)))))) := by
      refine ⟨((g.atoms.map fun a => lineOf (vecFields 10 a.2)) ++ [" \n".toList]).flatten ++ writeVasp s data aug, ?_⟩
      unfold vaspHeader
      rw [hc]
      simp [List.append_assoc]
    obtain ⟨tl, hhead⟩ := hhead
    rw [hhead]
    unfold readVaspHeader
    rw [readLines_append _ ⟨"Written by BaderKit".toList, by decide, by decide⟩,
      readLines_append _ ⟨"   1.00000000000000".toList, by decide, by decide⟩, readLines_append _ a1, readLines_append _ a2,
      readLines_append _ a3, readLines_append _ cl, readLines_append _ ⟨"Direct".toList, by decide, by decide⟩]
    have hd : (words "Direct\n".toList).mapM parseNat = none := by decide
    simp only [readLines, hd]
    split
    · rename_i h; simp at h
    · rfl
  unfold readVaspFile
  rw [this]

/-! ### C71 -/

theorem detect_third (l1 l2 l3 rest : Text) (h1 : IsLine l1) (h2 : IsLine l2) (h3 : IsLine l3) (sig : Bool) :
    detectFormat (some (l1 ++ (l2 ++ (l3 ++ rest)))) sig =
      if (words l3).length = 3 then some .vasp else if (words l3).length = 4 then some .cube else none := by
  have := linesOf_lines [l1, l2, l3] (by
    intro l hl
    simp only [List.mem_cons, List.not_mem_nil, or_false] at hl
    rcases hl with rfl | rfl | rfl <;> assumption) rest
  simp only [List.flatten_cons, List.flatten_nil, List.append_nil, List.append_assoc, List.cons_append, List.nil_append] at this
  unfold detectFormat
  simp only [Option.map_some, this]

/-- C71: every file `write_vasp` produces for a structure that fits the columns is recognised as a VASP file. -/
theorem C71_vasp (vasp4 : Bool) (g : VaspIn K) (hg : StructFits g) (s : Shape) (data : DKey → Option (Grid3 K))
    (aug : DKey → List Text) (sig : Bool) : detectFormat (some (writeVaspFile vasp4 g s data aug)) sig = some .vasp := by
  obtain ⟨a1, -, c1⟩ := lat_line _ hg.1
  have hhead : ∃ tl, writeVaspFile vasp4 g s data aug = "Written by BaderKit\n".toList ++
        ("   1.00000000000000\n".toList ++ ((' ' :: lineOf (vecFields 12 g.lattice.1)) ++ tl)) := by
    unfold writeVaspFile vaspHeader
    simp only [List.cons_append, List.flatten_cons, List.append_assoc]
    exact ⟨_, rfl⟩
  obtain ⟨tl, hhead⟩ := hhead
  rw [hhead, detect_third _ _ _ _ ⟨"Written by BaderKit".toList, by decide, by decide⟩
    ⟨"   1.00000000000000".toList, by decide, by decide⟩ a1, if_pos c1]

/-- C71: every file `write_cube` produces whose header fits the columns is recognised as a cube file. -/
theorem C71_cube (g : CubeIn K) (charges : Option (List K)) (origin : Option (V3 K))
    (hfit : FitsV 3 (scaleV bohr (origin.getD (0, 0, 0)))) (sig : Bool) :
    detectFormat (some (writeCube g charges origin).1) sig = some .cube := by
  obtain ⟨a0, -, c0⟩ := count_line g.atoms.length _ hfit
  have hhead : ∃ tl, (writeCube g charges origin).1 = " Gaussian cube file\n".toList ++ (" Bader charge\n".toList ++
      (lineOf ((5, strNat g.atoms.length) :: vecFields 12 (scaleV bohr (origin.getD (0, 0, 0)))) ++ tl)) := by
    unfold writeCube cubeHeader
    simp only [List.cons_append, List.flatten_cons, List.append_assoc]
    exact ⟨_, rfl⟩
  obtain ⟨tl, hhead⟩ := hhead
  rw [hhead, detect_third _ _ _ _ ⟨" Gaussian cube file".toList, by decide, by decide⟩
    ⟨" Bader charge".toList, by decide, by decide⟩ a0, c0]
  rfl

end field

/-- C71: bytes that are not text are recognised by the HDF5 signature, and rejected without it; a text is never taken
for HDF5 once it has three lines. -/
theorem C71_binary (sig : Bool) : detectFormat none sig = (if sig then some .hdf5 else none) ∧
    ∀ t : Text, 3 ≤ (linesOf t).length → detectFormat (some t) sig ≠ some .hdf5 := by
  refine ⟨rfl, ?_⟩
  intro t ht
  unfold detectFormat
  rw [Option.map_some]
  rcases h : linesOf t with _ | ⟨a, _ | ⟨b, _ | ⟨c, r⟩⟩⟩
  · rw [h] at ht; simp at ht
  · rw [h] at ht; simp at ht
  · rw [h] at ht; simp at ht
  · simp only
    split
    · simp
    · split <;> simp

/-- A small structure fits the columns. -/
example : StructFits (K := ℚ) ⟨((3, 0, 0), (0, 3, 0), (0, 0, 3)), [("Na".toList, (0, 0, 0)), ("Cl".toList, (1 / 2, 1 / 2, 1 / 2))]⟩ := by
  refine ⟨by unfold FitsV; decide +kernel, by unfold FitsV; decide +kernel, by unfold FitsV; decide +kernel, ?_, by decide⟩
  intro a ha
  simp only [List.mem_cons, List.not_mem_nil, or_false] at ha
  rcases ha with rfl | rfl <;> exact ⟨by unfold FitsV; decide +kernel, by unfold IsWord; decide, by decide⟩

/-- C70: a coordinate of -10 fills its column, the line has two words, and the file cannot be read. -/
theorem C70_wide_coordinate : readVaspHeader (K := ℚ) (writeVaspFile (K := ℚ) false
    ⟨((3, 0, 0), (0, 3, 0), (0, 0, 3)), [("Na".toList, (0, 0, -10))]⟩ ⟨1, 1, 1⟩ (fun _ => none) fun _ => []) = none := by
  have : (readVaspHeader (K := ℚ) (writeVaspFile (K := ℚ) false
    ⟨((3, 0, 0), (0, 3, 0), (0, 0, 3)), [("Na".toList, (0, 0, -10))]⟩ ⟨1, 1, 1⟩ (fun _ => none) fun _ => [])).isNone = true := by
    decide +kernel
  exact Option.isNone_iff_eq_none.mp this

end BaderKit
