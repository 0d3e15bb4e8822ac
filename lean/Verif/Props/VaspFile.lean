import Verif.Props.TextFormat
/-!
# C27: grid data in VASP files
-/
namespace BaderKit

/-! ### Text lemmas -/

theorem wordsAux_append_ws (t : Text) (c : Char) (hc : isWs c = true) (r : Text) :
    wordsAux (t ++ c :: r) = ((wordsAux t).1, (wordsAux t).2 ++ words r) := by
  induction t with
  | nil => rw [List.nil_append, wordsAux_ws c r hc]; simp [wordsAux]
  | cons d t ih =>
    rw [List.cons_append, wordsAux, wordsAux, ih]
    simp only
    by_cases hd : isWs d = true
    · rw [if_pos hd, if_pos hd]
      by_cases h : (wordsAux t).1 = []
      · simp [h]
      · simp [h]
    · rw [if_neg hd, if_neg hd]

theorem words_append_ws (t : Text) (c : Char) (hc : isWs c = true) (r : Text) :
    words (t ++ c :: r) = words t ++ words r := by
  unfold words
  rw [wordsAux_append_ws t c hc r]
  simp only
  split
  · rfl
  · rfl

theorem words_dropWhile (t : Text) : words (t.dropWhile isWs) = words t := by
  induction t with
  | nil => rfl
  | cons c t ih =>
    by_cases h : isWs c = true
    · rw [List.dropWhile_cons_of_pos h, ih, words_ws c t h]
    · rw [List.dropWhile_cons_of_neg h]

theorem words_strip (t : Text) : words (strip t) = words t := by
  unfold strip
  rw [← words_dropWhile t]
  generalize t.dropWhile isWs = u
  induction u using List.reverseRecOn with
  | nil => rfl
  | append_singleton u c ih =>
    rw [List.reverse_append, List.reverse_singleton, List.singleton_append]
    by_cases h : isWs c = true
    · rw [List.dropWhile_cons_of_pos h, ih, words_append_ws u c h, words_nil, List.append_nil]
    · rw [List.dropWhile_cons_of_neg h, List.reverse_cons, List.reverse_reverse]

theorem takeWhile_all {α : Type*} (p : α → Bool) (l : List α) (h : ∀ a ∈ l, p a = true) : l.takeWhile p = l := by
  induction l with
  | nil => rfl
  | cons a l ih => rw [List.takeWhile_cons_of_pos (h a (by simp)), ih (fun b hb => h b (by simp [hb]))]

theorem dropWhile_all {α : Type*} (p : α → Bool) (l : List α) (h : ∀ a ∈ l, p a = true) : l.dropWhile p = [] := by
  induction l with
  | nil => rfl
  | cons a l ih => rw [List.dropWhile_cons_of_pos (h a (by simp)), ih (fun b hb => h b (by simp [hb]))]

/-- An entry of a row: a blank and a word. -/
def IsEntry (t : Text) : Prop := ∃ w, t = ' ' :: w ∧ (∀ c ∈ w, isWs c = false) ∧ w ≠ []

theorem words_row (row : List Text) (h : ∀ t ∈ row, IsEntry t) (t : Text) :
    words (row.flatten ++ '\n' :: t) = row.map List.tail ++ words t := by
  induction row with
  | nil => rw [List.flatten_nil, List.nil_append, words_ws _ _ (by decide)]; rfl
  | cons e row ih =>
    obtain ⟨w, rfl, hw, hne⟩ := h e (by simp)
    rw [List.flatten_cons, List.append_assoc, List.cons_append, words_ws _ _ (by decide), words_word w hw hne,
      ih (fun t ht => h t (by simp [ht]))]
    · rfl
    · right
      cases row with
      | nil => exact ⟨'\n', t, rfl, by decide⟩
      | cons e' row =>
        obtain ⟨w', rfl, -, -⟩ := h e' (by simp)
        exact ⟨' ', _, rfl, by decide⟩

theorem words_rows (rows : List (List Text)) (h : ∀ r ∈ rows, ∀ t ∈ r, IsEntry t) (t : Text) :
    words (joinRows rows ++ t) = rows.flatten.map List.tail ++ words t := by
  induction rows with
  | nil => rfl
  | cons r rows ih =>
    unfold joinRows at ih ⊢
    rw [List.flatMap_cons, List.append_assoc, List.append_assoc, List.singleton_append, words_row r (h r (by simp)),
      ih (fun r hr => h r (by simp [hr])), List.flatten_cons, List.map_append, List.append_assoc]

theorem joinRows_length (rows : List (List Text)) (h : ∀ r ∈ rows, ∀ t ∈ r, t.length = 18) :
    (joinRows rows).length = 18 * rows.flatten.length + rows.length := by
  induction rows with
  | nil => rfl
  | cons r rows ih =>
    have hr : r.flatten.length = 18 * r.length := by
      have := h r (by simp)
      clear h ih
      induction r with
      | nil => rfl
      | cons e r ih =>
        rw [List.flatten_cons, List.length_append, this e (by simp), ih (fun t ht => this t (by simp [ht])), List.length_cons]
        ring
    have := ih (fun r hr => h r (by simp [hr]))
    unfold joinRows at this ⊢
    rw [List.flatMap_cons, List.length_append, this, List.length_append, hr, List.flatten_cons, List.length_append]
    simp only [List.length_cons, List.length_nil]
    ring

theorem entry_no_newline (t : Text) (h : IsEntry t) : '\n' ∉ t := by
  obtain ⟨w, rfl, hw, -⟩ := h
  intro hc
  rcases List.mem_cons.mp hc with h | h
  · revert h; decide
  · have := hw _ h
    revert this; decide

/-! ### The block of one set -/

section ordered
variable {K : Type*} [Field K] [LinearOrder K] [FloorRing K]

def entryOf (x : K) : Text := formatFortran (mantExp x).1 (mantExp x).2
def valueOf (x : K) : K := (parseNum (entryOf x).tail).getD 0

/-- C27: the text does not depend on the size of the internal chunks. -/
theorem writeData_rows (c l : ℕ) (hc : 0 < c) (hl : 0 < l) (flat : List K) :
    writeData c l flat = joinRows (slices l (flat.map entryOf)) := by
  have h1 : ∀ ms : List (ℤ × ℤ), formatArr l ms = joinRows (slices l (ms.map fun p => formatFortran p.1 p.2)) := by
    intro ms
    unfold formatArr
    simp only
    split
    · rename_i h
      rw [List.length_eq_zero_iff] at h
      rw [h, slices_nil l hl]; rfl
    · rfl
  unfold writeData
  rw [← slices_chunks l c hl hc (flat.map entryOf)]
  have : flat.map entryOf = (flat.map mantExp).map fun p => formatFortran p.1 p.2 := by
    rw [List.map_map]; rfl
  have e : slices (l * c) (flat.map entryOf) =
      (slices (l * c) (flat.map mantExp)).map (List.map fun p => formatFortran p.1 p.2) := by
    rw [this, slices_map]
  rw [e]
  unfold joinRows
  rw [List.flatMap_map, List.flatMap_assoc]
  congr 1
  funext ms
  rw [h1]; rfl

variable [IsStrictOrderedRing K]

theorem entry_spec (x : K) (h : Printable x) : entryOf x = ' ' :: (entryOf x).tail ∧ (entryOf x).length = 18 ∧
    IsEntry (entryOf x) ∧ parseNum (entryOf x).tail = some (valueOf x) ∧ Eleven x (valueOf x) := by
  obtain ⟨w, y, h1, h2, h3, h4, h5⟩ := C28_value_partial x h
  unfold WritesAs at h1
  have e : entryOf x = ' ' :: w := h1
  have et : (entryOf x).tail = w := by rw [e]; rfl
  have ev : valueOf x = y := by unfold valueOf; rw [et, h4]; rfl
  refine ⟨by rw [et]; exact e, by rw [e]; simp [h2], ⟨w, e, h3, ?_⟩, by rw [et, ev]; exact h4, by rw [ev]; exact h5⟩
  intro h0; rw [h0] at h2; simp at h2

omit [LinearOrder K] [FloorRing K] [IsStrictOrderedRing K] in
theorem fromString_words (t : Text) (ws : List Text) (vs : List K) (hw : words t = ws)
    (hv : ws.map (fun w => (parseNum w : Option K)) = vs.map some) : fromString vs.length t = vs := by
  unfold fromString
  rw [hw, hv]
  have h1 : (vs.map some).takeWhile (fun o => o.isSome) = vs.map some := by
    exact takeWhile_all _ _ (by simp)
  rw [h1, List.take_of_length_le (by simp)]
  simp [List.filterMap_map, Function.comp_def]

/-- The block of one set: its length, its first line, and what is read from it. -/
theorem block_spec (flat : List K) (hne : flat ≠ []) (hp : ∀ x ∈ flat, Printable x) (rest : Text) :
    fromString flat.length (writeData 50 5 flat) = flat.map valueOf ∧
    (writeData 50 5 flat).length = blockBytes (readLine (writeData 50 5 flat ++ rest)).1 flat.length ∧
    (words (readLine (writeData 50 5 flat ++ rest)).1).length ≠ 0 := by
  rw [writeData_rows 50 5 (by norm_num) (by norm_num)]
  have hent : ∀ r ∈ slices 5 (flat.map entryOf), ∀ t ∈ r, IsEntry t ∧ t.length = 18 := by
    intro r hr t ht
    have : t ∈ (slices 5 (flat.map entryOf)).flatten := List.mem_flatten.mpr ⟨r, hr, ht⟩
    rw [slices_flatten 5 (by norm_num), List.mem_map] at this
    obtain ⟨x, hx, rfl⟩ := this
    exact ⟨(entry_spec x (hp x hx)).2.2.1, (entry_spec x (hp x hx)).2.1⟩
  refine ⟨?_, ?_⟩
  · have hw : words (joinRows (slices 5 (flat.map entryOf))) = flat.map fun x => (entryOf x).tail := by
      have := words_rows _ (fun r hr t ht => (hent r hr t ht).1) []
      rw [List.append_nil, words_nil, List.append_nil, slices_flatten 5 (by norm_num), List.map_map] at this
      exact this
    have := fromString_words _ _ (flat.map valueOf) hw (by
      rw [List.map_map, List.map_map]
      apply List.map_congr_left
      intro x hx
      exact (entry_spec x (hp x hx)).2.2.2.1)
    rw [List.length_map] at this
    exact this
  · have hlen := joinRows_length _ (fun r hr t ht => (hent r hr t ht).2)
    rw [slices_flatten 5 (by norm_num), List.length_map, slices_length, List.length_map] at hlen
    rw [hlen]
    have hc := slices_cons 5 (by norm_num) (flat.map entryOf) (by simpa using hne)
    rw [hc] at hent ⊢
    obtain ⟨r, hr⟩ : ∃ r, r = (flat.map entryOf).take 5 := ⟨_, rfl⟩
    rw [← hr] at hent ⊢
    have hr1 := hent r (by simp)
    have hjoin : joinRows (r :: slices 5 ((flat.map entryOf).drop 5)) ++ rest =
        r.flatten ++ '\n' :: (joinRows (slices 5 ((flat.map entryOf).drop 5)) ++ rest) := by
      unfold joinRows; rw [List.flatMap_cons, List.append_assoc, List.append_assoc]; rfl
    rw [hjoin, readLine_line _ _ (by
      intro hc
      obtain ⟨t, ht, hmem⟩ := List.mem_flatten.mp hc
      exact entry_no_newline t (hr1 t ht).1 hmem)]
    have hwords : (words (r.flatten ++ ['\n'])).length = r.length := by
      rw [words_row r (fun t ht => (hr1 t ht).1) [], words_nil]; simp
    have hl1 : (r.flatten ++ ['\n']).length = 18 * r.length + 1 := by
      have := joinRows_length [r] (by intro r' h t ht; rw [List.mem_singleton] at h; subst h; exact (hr1 t ht).2)
      unfold joinRows at this
      simpa using this
    have hn : r.length = min 5 flat.length := by rw [hr, List.length_take, List.length_map]
    have hpos : 0 < flat.length := List.length_pos_of_ne_nil hne
    refine ⟨?_, by rw [hwords]; omega⟩
    unfold blockBytes
    simp only [hwords, hl1]
    obtain ⟨p, hp'⟩ : ∃ p, p = r.length := ⟨_, rfl⟩
    rw [← hp'] at hn ⊢
    obtain ⟨n, hn'⟩ : ∃ n, n = flat.length := ⟨_, rfl⟩
    rw [← hn'] at hn hpos ⊢
    rcases Nat.lt_or_ge n 5 with h5 | h5
    · have : p = n := by omega
      subst this
      interval_cases p <;> rfl
    · have : p = 5 := by omega
      subst this
      have a : (18 * 5 + 1) % 5 = 1 := by norm_num
      have b : (18 * 5 + 1 - 1) / 5 = 18 := by norm_num
      rw [a, b]; omega

/-! ### Dimensions -/

omit [IsStrictOrderedRing K] [LinearOrder K] [FloorRing K] [Field K] in
theorem words_padInt (n : ℕ) (t : Text) (ht : Ended t) : words (padInt 6 n ++ t) = strNat n :: words t := by
  unfold padInt
  rw [List.append_assoc, words_replicate, words_word _ (fun c hc => isDig_not_ws (strNat_dig n c hc)) (strNat_ne_nil n) t ht]

theorem padInt_ended (n : ℕ) (hn : n < 10 ^ 5) (t : Text) : Ended (padInt 6 n ++ t) := by
  right
  have := (strNat_length n 5 (by norm_num)).mpr hn
  obtain ⟨k, hk⟩ : ∃ k, 6 - (strNat n).length = k + 1 := ⟨5 - (strNat n).length, by omega⟩
  refine ⟨' ', List.replicate k ' ' ++ strNat n ++ t, ?_, by decide⟩
  unfold padInt
  rw [hk, List.replicate_succ]; rfl

theorem padInt_no_newline (n : ℕ) : '\n' ∉ padInt 6 n := by
  unfold padInt
  rw [List.mem_append]
  rintro (h | h)
  · have := List.eq_of_mem_replicate h
    revert this; decide
  · have := strNat_dig n _ h
    revert this; decide

theorem dims_isLine (s : Shape) : IsLine (dimsLine s) := by
  refine ⟨padInt 6 s.nx ++ padInt 6 s.ny ++ padInt 6 s.nz, rfl, ?_⟩
  simp only [List.mem_append, not_or]
  exact ⟨⟨padInt_no_newline _, padInt_no_newline _⟩, padInt_no_newline _⟩

theorem words_dims (s : Shape) (hy : s.ny < 10 ^ 5) (hz : s.nz < 10 ^ 5) :
    words (dimsLine s) = [strNat s.nx, strNat s.ny, strNat s.nz] := by
  unfold dimsLine
  rw [List.append_assoc, List.append_assoc, words_padInt _ _ (padInt_ended _ hy _), words_padInt _ _ (padInt_ended _ hz _),
    words_padInt _ _ (Or.inr ⟨'\n', [], rfl, by decide⟩), words_ws _ _ (by decide), words_nil]

theorem readLine_isLine (l : Text) (h : IsLine l) (t : Text) : readLine (l ++ t) = (l, t) := by
  obtain ⟨b, rfl, hb⟩ := h
  rw [List.append_assoc, List.singleton_append, readLine_line b t hb]

/-! ### Augmentation lines -/

/-- An augmentation line: no line end except possibly at its end, and not just the three dimensions. -/
def IsAugLine (s : Shape) (ln : Text) : Prop := '\n' ∉ ln.dropLast ∧ words ln ≠ words (dimsLine s)

def closeLine (ln : Text) : Text := if ln.getLast? = some '\n' then ln else ln ++ ['\n']

theorem augText_lines (items : List Text) : augText items = (items.map closeLine).flatten := by
  unfold augText closeLine
  rw [List.flatMap_def]

theorem closeLine_isLine (s : Shape) (ln : Text) (h : IsAugLine s ln) :
    IsLine (closeLine ln) ∧ strip (closeLine ln) ≠ strip (dimsLine s) := by
  have hw : words (closeLine ln) = words ln := by
    unfold closeLine
    split
    · rfl
    · rw [words_append_ws _ _ (by decide), words_nil, List.append_nil]
  constructor
  · unfold closeLine
    split
    · rename_i hl
      refine ⟨ln.dropLast, ?_, h.1⟩
      rw [List.dropLast_append_getLast? _ hl]
    · rename_i hl
      refine ⟨ln, rfl, ?_⟩
      intro hc
      rcases List.eq_nil_or_concat ln with rfl | ⟨b, c, rfl⟩
      · simp at hc
      · have h1 := h.1
        rw [List.concat_eq_append] at h1 hl hc
        rw [List.dropLast_concat] at h1
        rw [List.mem_append, List.mem_singleton] at hc
        rcases hc with hc | hc
        · exact h1 hc
        · apply hl; rw [← hc]; simp
  · intro hc
    apply h.2
    rw [← hw, ← words_strip, hc, words_strip]

theorem readAug_spec (s : Shape) (items : List Text) (h : ∀ ln ∈ items, IsAugLine s ln) (t : Text)
    (ht : t = [] ∨ ∃ r, t = dimsLine s ++ r) :
    readAug (strip (dimsLine s)) (augText items ++ t) = (augText items, t.drop (dimsLine s).length) := by
  have hl := linesOf_lines (items.map closeLine) (by
    intro l hl
    rw [List.mem_map] at hl
    obtain ⟨ln, hln, rfl⟩ := hl
    exact (closeLine_isLine s ln (h ln hln)).1) t
  have hp : ∀ l ∈ items.map closeLine, (decide (strip l ≠ strip (dimsLine s))) = true := by
    intro l hl
    rw [List.mem_map] at hl
    obtain ⟨ln, hln, rfl⟩ := hl
    simpa using (closeLine_isLine s ln (h ln hln)).2
  unfold readAug
  rw [augText_lines, hl]
  simp only
  rcases ht with rfl | ⟨r, rfl⟩
  · have e : linesOf [] = [] := rfl
    rw [e, List.append_nil, takeWhile_all _ _ hp, dropWhile_all _ _ hp]
    simp
  · have hd : linesOf (dimsLine s ++ r) = dimsLine s :: linesOf r := by
      have := linesOf_lines [dimsLine s] (by intro l hl; rw [List.mem_singleton] at hl; rw [hl]; exact dims_isLine s) r
      simpa using this
    rw [hd, List.takeWhile_append_of_pos hp, List.dropWhile_append_of_pos hp]
    simp [linesOf_flatten]

/-! ### All sets -/

theorem readSets_spec (s : Shape) (hx : 0 < s.nx) (hy : 0 < s.ny) (hz : 0 < s.nz) (nbytes : ℕ) (fuel m : ℕ)
    (g : Grid3 K) (aug : List Text) (sets : List (Grid3 K × List Text))
    (hp : ∀ p ∈ (g, aug) :: sets, ∀ x ∈ ravelF s p.1, Printable x)
    (ha : ∀ p ∈ (g, aug) :: sets, ∀ ln ∈ p.2, IsAugLine s ln)
    (hb : ∀ p ∈ (g, aug) :: sets, (writeData 50 5 (ravelF s p.1)).length = nbytes)
    (hf : sets.length + 1 ≤ fuel) :
    readSets s (strip (dimsLine s)) nbytes false fuel m (writeData 50 5 (ravelF s g) ++ augText aug ++ writeSets s sets) =
      ((g, aug) :: sets).map fun p => (unravelF s ((ravelF s p.1).map valueOf), augText p.2) := by
  induction sets generalizing fuel m g aug with
  | nil =>
    obtain ⟨fuel, rfl⟩ : ∃ f, fuel = f + 1 := ⟨fuel - 1, by simp at hf; omega⟩
    have hl : (ravelF s g).length = s.nx * s.ny * s.nz := ravelF_length s g
    have hne : ravelF s g ≠ [] := by
      intro h0; rw [h0] at hl; simp at hl; rcases hl with (h | h) | h <;> omega
    have hbs := block_spec (ravelF s g) hne (hp (g, aug) (by simp)) []
    have hb1 := hb (g, aug) (by simp)
    simp only at hb1
    have hnonempty : writeData 50 5 (ravelF s g) ++ augText aug ++ writeSets s ([] : List (Grid3 K × List Text)) ≠ [] := by
      intro h0
      have h1 : writeData 50 5 (ravelF s g) = [] := by
        rw [List.append_eq_nil_iff, List.append_eq_nil_iff] at h0; exact h0.1.1
      have := hbs.1
      rw [h1] at this
      have h2 := congrArg List.length this
      rw [List.length_map, hl] at h2
      have : fromString (K := K) (s.nx * s.ny * s.nz) [] = [] := by simp [fromString, words_nil]
      rw [this] at h2
      simp at h2
      have : 0 < s.nx * s.ny * s.nz := by positivity
      omega
    rw [readSets, if_neg hnonempty, if_neg (by simp)]
    simp only [List.append_assoc]
    rw [List.take_append_of_le_length (by omega), List.take_of_length_le (by omega), ← hl, hbs.1,
      if_neg (by rw [List.length_map]; omega), ← hb1, List.drop_left]
    have hr := readAug_spec s aug (ha (g, aug) (by simp)) (writeSets s ([] : List (Grid3 K × List Text))) (Or.inl rfl)
    rw [hr]
    have e : (writeSets s ([] : List (Grid3 K × List Text))).drop (dimsLine s).length = [] := by
      unfold writeSets; simp
    simp only [e, List.map_cons, List.map_nil, List.cons.injEq, true_and]
    cases fuel with
    | zero => rfl
    | succ n => rw [readSets, if_pos rfl]
  | cons q sets ih =>
    obtain ⟨g', aug'⟩ := q
    obtain ⟨fuel, rfl⟩ : ∃ f, fuel = f + 1 := ⟨fuel - 1, by simp at hf; omega⟩
    have hl : (ravelF s g).length = s.nx * s.ny * s.nz := ravelF_length s g
    have hne : ravelF s g ≠ [] := by
      intro h0; rw [h0] at hl; simp at hl; rcases hl with (h | h) | h <;> omega
    have hbs := block_spec (ravelF s g) hne (hp (g, aug) (by simp)) []
    have hb1 := hb (g, aug) (by simp)
    simp only at hb1
    have hw : writeSets s ((g', aug') :: sets) =
        dimsLine s ++ (writeData 50 5 (ravelF s g') ++ augText aug' ++ writeSets s sets) := by
      unfold writeSets; rw [List.flatMap_cons]; simp [List.append_assoc]
    have hnonempty : writeData 50 5 (ravelF s g) ++ augText aug ++ writeSets s ((g', aug') :: sets) ≠ [] := by
      rw [hw]
      intro h0
      rw [List.append_eq_nil_iff, List.append_eq_nil_iff] at h0
      obtain ⟨b, hb, -⟩ := dims_isLine s
      rw [hb] at h0
      simp at h0
    rw [readSets, if_neg hnonempty, if_neg (by simp)]
    simp only [List.append_assoc]
    rw [List.take_append_of_le_length (by omega), List.take_of_length_le (by omega), ← hl, hbs.1,
      if_neg (by rw [List.length_map]; omega), ← hb1, List.drop_left]
    have hr := readAug_spec s aug (ha (g, aug) (by simp)) (writeSets s ((g', aug') :: sets)) (Or.inr ⟨_, hw⟩)
    rw [hr]
    have e : (writeSets s ((g', aug') :: sets)).drop (dimsLine s).length =
        writeData 50 5 (ravelF s g') ++ augText aug' ++ writeSets s sets := by
      rw [hw, List.drop_left]
    simp only [e]
    rw [hb1, ih fuel (m + 1) g' aug' (fun p hp' => hp p (List.mem_cons_of_mem _ hp'))
      (fun p hp' => ha p (List.mem_cons_of_mem _ hp'))
      (fun p hp' => hb p (List.mem_cons_of_mem _ hp')) (by simp at hf ⊢; omega)]
    rfl

/-- A grid shape with positive dimensions of at most five digits. -/
def ShapeOk (s : Shape) : Prop :=
  (0 < s.nx ∧ s.nx < 10 ^ 5) ∧ (0 < s.ny ∧ s.ny < 10 ^ 5) ∧ (0 < s.nz ∧ s.nz < 10 ^ 5)

theorem readVasp_spec (s : Shape) (hs : ShapeOk s) (sets : List (Grid3 K × List Text)) (hne : sets ≠ [])
    (hp : ∀ p ∈ sets, ∀ x ∈ ravelF s p.1, Printable x) (ha : ∀ p ∈ sets, ∀ ln ∈ p.2, IsAugLine s ln) (fuel : ℕ)
    (hf : sets.length ≤ fuel) :
    readVaspSets false fuel (writeSets s sets) =
      some (s, sets.map fun p => (unravelF s ((ravelF s p.1).map valueOf), augText p.2)) := by
  cases sets with
  | nil => exact absurd rfl hne
  | cons q sets =>
    obtain ⟨g, aug⟩ := q
    obtain ⟨⟨hx, hx'⟩, ⟨hy, hy'⟩, hz, hz'⟩ := hs
    have hw : writeSets s ((g, aug) :: sets) =
        dimsLine s ++ (writeData 50 5 (ravelF s g) ++ augText aug ++ writeSets s sets) := by
      unfold writeSets; rw [List.flatMap_cons]; simp [List.append_assoc]
    unfold readVaspSets
    rw [hw, readLine_isLine _ (dims_isLine s), words_dims s hy' hz']
    simp only [List.map_cons, List.map_nil, parseNat_strNat]
    have nonnil : ∀ g : Grid3 K, ravelF s g ≠ [] := by
      intro g h0
      have hl := ravelF_length s g
      rw [h0] at hl; simp at hl; rcases hl with (h | h) | h <;> omega
    have hbs := block_spec (ravelF s g) (nonnil g) (hp (g, aug) (by simp)) (augText aug ++ writeSets s sets)
    rw [← List.append_assoc, ravelF_length] at hbs
    rw [if_neg hbs.2.2]
    have hlen : ∀ g' : Grid3 K, (∀ x ∈ ravelF s g', Printable x) →
        (writeData 50 5 (ravelF s g')).length = 18 * (s.nx * s.ny * s.nz) + (s.nx * s.ny * s.nz + 5 - 1) / 5 := by
      intro g' hg'
      rw [writeData_rows 50 5 (by norm_num) (by norm_num), joinRows_length, slices_flatten 5 (by norm_num), slices_length,
        List.length_map, ravelF_length]
      intro r hr t ht
      have : t ∈ (slices 5 ((ravelF s g').map entryOf)).flatten := List.mem_flatten.mpr ⟨r, hr, ht⟩
      rw [slices_flatten 5 (by norm_num), List.mem_map] at this
      obtain ⟨x, hx, rfl⟩ := this
      exact (entry_spec x (hg' x hx)).2.1
    have key := readSets_spec s hx hy hz
      (blockBytes (readLine (writeData 50 5 (ravelF s g) ++ augText aug ++ writeSets s sets)).1 (s.nx * s.ny * s.nz))
      fuel 0 g aug sets hp ha (by
        intro p hp'
        rw [hlen p.1 (hp p hp'), ← hbs.2.1, hlen g (hp (g, aug) (by simp))]) (by simpa using hf)
    rw [key]
    rfl

theorem unravel_values (s : Shape) (g : Grid3 K) (hp : ∀ i < s.nx, ∀ j < s.ny, ∀ k < s.nz, Printable (g i j k))
    (i j k : ℕ) (hi : i < s.nx) (hj : j < s.ny) (hk : k < s.nz) :
    Eleven (g i j k) (unravelF s ((ravelF s g).map valueOf) i j k) := by
  unfold unravelF
  rw [List.getD_eq_getElem?_getD, List.getElem?_map, ravelF_getElem s g i j k hi hj hk]
  exact (entry_spec _ (hp i hi j hj k hk)).2.2.2.2

theorem printable_ravel (s : Shape) (g : Grid3 K) (hp : ∀ i < s.nx, ∀ j < s.ny, ∀ k < s.nz, Printable (g i j k)) :
    ∀ x ∈ ravelF s g, Printable x := by
  intro x hx
  unfold ravelF at hx
  simp only [List.mem_flatMap, List.mem_map, List.mem_range] at hx
  obtain ⟨k, hk, j, hj, i, hi, rfl⟩ := hx
  exact hp i hi j hj k hk

/-- C27 (partial): any number of sets of data, of any shape, is read back point by point to eleven digits, together
with the augmentation text written, if every number can be held by the number format and no augmentation line
looks like the line of dimensions.  The number of loop iterations allowed only has to be large enough.
What is missing: numbers that are too wide (`C27_wide_corrupts`). -/
theorem C27_roundtrip_partial (s : Shape) (hs : ShapeOk s) (sets : List (Grid3 K × List Text)) (hne : sets ≠ [])
    (hp : ∀ p ∈ sets, ∀ i < s.nx, ∀ j < s.ny, ∀ k < s.nz, Printable (p.1 i j k))
    (ha : ∀ p ∈ sets, ∀ ln ∈ p.2, IsAugLine s ln) :
    ∃ res, (∀ fuel, sets.length ≤ fuel → readVaspSets false fuel (writeSets s sets) = some (s, res)) ∧
      List.Forall₂ (fun (p : Grid3 K × List Text) (q : Grid3 K × Text) =>
        (∀ i < s.nx, ∀ j < s.ny, ∀ k < s.nz, Eleven (p.1 i j k) (q.1 i j k)) ∧ q.2 = augText p.2) sets res := by
  refine ⟨_, fun fuel hf => readVasp_spec s hs sets hne (fun p hp' => printable_ravel s p.1 (hp p hp')) ha fuel hf, ?_⟩
  rw [List.forall₂_map_right_iff, List.forall₂_same]
  intro p hp'
  exact ⟨fun i hi j hj k hk => unravel_values s p.1 (hp p hp') i j k hi hj hk, rfl⟩

/-- C27: the text does not depend on the size of the chunks that are formatted together. -/
theorem C27_chunks (c c' l : ℕ) (hc : 0 < c) (hc' : 0 < c') (hl : 0 < l) (flat : List K) :
    writeData c l flat = writeData c' l flat := by
  rw [writeData_rows c l hc hl, writeData_rows c' l hc' hl]

/-- C27 (partial): total density alone, or with the spin density, is restored under its own name. -/
theorem C27_data_partial (root : K → K) (s : Shape) (hs : ShapeOk s) (data : DKey → Option (Grid3 K)) (aug : DKey → List Text)
    (total : Grid3 K) (h1 : data .total = some total) (h2 : data .diffX = none) (h3 : data .diffY = none)
    (h4 : data .diffZ = none)
    (hp : ∀ q g, data q = some g → ∀ i < s.nx, ∀ j < s.ny, ∀ k < s.nz, Printable (g i j k))
    (ha : ∀ q, ∀ ln ∈ aug q, IsAugLine s ln) (fuel : ℕ) (hf : 2 ≤ fuel) :
    ∃ res d, readVaspSets false fuel (writeVasp s data aug) = some (s, res) ∧
      dataDict root (res.map fun p => p.1) = some d ∧
      ∀ q, (data q = none → d q = none) ∧ ∀ g, data q = some g → ∃ g', d q = some g' ∧
        ∀ i < s.nx, ∀ j < s.ny, ∀ k < s.nz, Eleven (g i j k) (g' i j k) := by
  unfold writeVasp
  cases hd : data .diff with
  | none =>
    simp only [List.filterMap_cons, List.filterMap_nil, h1, h2, h3, h4, hd, Option.map_some, Option.map_none]
    have := readVasp_spec s hs [(total, aug .total)] (by simp) (by
      intro p hp'; rw [List.mem_singleton] at hp'; subst hp'; exact printable_ravel s total (hp _ _ h1)) (by
      intro p hp'; rw [List.mem_singleton] at hp'; subst hp'; exact ha _) fuel (by simp; omega)
    refine ⟨_, _, this, rfl, ?_⟩
    intro q
    cases q with
    | total =>
      refine ⟨fun h => by rw [h1] at h; simp at h, fun g hg => ⟨_, rfl, ?_⟩⟩
      rw [h1, Option.some.injEq] at hg; subst hg
      intro i hi j hj k hk
      exact unravel_values s total (hp _ _ h1) i j k hi hj hk
    | diff => exact ⟨fun _ => rfl, fun g hg => by rw [hd] at hg; simp at hg⟩
    | diffX => exact ⟨fun _ => rfl, fun g hg => by rw [h2] at hg; simp at hg⟩
    | diffY => exact ⟨fun _ => rfl, fun g hg => by rw [h3] at hg; simp at hg⟩
    | diffZ => exact ⟨fun _ => rfl, fun g hg => by rw [h4] at hg; simp at hg⟩
  | some diff =>
    simp only [List.filterMap_cons, List.filterMap_nil, h1, h2, h3, h4, hd, Option.map_some, Option.map_none]
    have := readVasp_spec s hs [(total, aug .total), (diff, aug .diff)] (by simp) (by
      intro p hp'
      simp only [List.mem_cons, List.not_mem_nil, or_false] at hp'
      rcases hp' with rfl | rfl
      · exact printable_ravel s total (hp _ _ h1)
      · exact printable_ravel s diff (hp _ _ hd)) (by
      intro p hp'
      simp only [List.mem_cons, List.not_mem_nil, or_false] at hp'
      rcases hp' with rfl | rfl
      · exact ha _
      · exact ha _) fuel (by simp; omega)
    refine ⟨_, _, this, rfl, ?_⟩
    intro q
    cases q with
    | total =>
      refine ⟨fun h => by rw [h1] at h; simp at h, fun g hg => ⟨_, rfl, ?_⟩⟩
      rw [h1, Option.some.injEq] at hg; subst hg
      intro i hi j hj k hk
      exact unravel_values s total (hp _ _ h1) i j k hi hj hk
    | diff =>
      refine ⟨fun h => by rw [hd] at h; simp at h, fun g hg => ⟨_, rfl, ?_⟩⟩
      rw [hd, Option.some.injEq] at hg; subst hg
      intro i hi j hj k hk
      exact unravel_values s diff (hp _ _ hd) i j k hi hj hk
    | diffX => exact ⟨fun _ => rfl, fun g hg => by rw [h2] at hg; simp at hg⟩
    | diffY => exact ⟨fun _ => rfl, fun g hg => by rw [h3] at hg; simp at hg⟩
    | diffZ => exact ⟨fun _ => rfl, fun g hg => by rw [h4] at hg; simp at hg⟩

/-- C27: data with spin-orbit coupling are written as five sets, of which only the total is read. -/
theorem C27_soc_lost (root : K → K) (s : Shape) (hs : ShapeOk s) (data : DKey → Option (Grid3 K)) (aug : DKey → List Text)
    (hall : ∀ q, (data q).isSome = true)
    (hp : ∀ q g, data q = some g → ∀ i < s.nx, ∀ j < s.ny, ∀ k < s.nz, Printable (g i j k))
    (ha : ∀ q, ∀ ln ∈ aug q, IsAugLine s ln) (fuel : ℕ) (hf : 5 ≤ fuel) :
    ∃ res d, readVaspSets false fuel (writeVasp s data aug) = some (s, res) ∧ res.length = 5 ∧
      dataDict root (res.map fun p => p.1) = some d ∧ ∀ q, q ≠ .total → d q = none := by
  obtain ⟨a, ha'⟩ := Option.isSome_iff_exists.mp (hall .total)
  obtain ⟨b, hb'⟩ := Option.isSome_iff_exists.mp (hall .diff)
  obtain ⟨c, hc'⟩ := Option.isSome_iff_exists.mp (hall .diffX)
  obtain ⟨d, hd'⟩ := Option.isSome_iff_exists.mp (hall .diffY)
  obtain ⟨e, he'⟩ := Option.isSome_iff_exists.mp (hall .diffZ)
  unfold writeVasp
  simp only [List.filterMap_cons, List.filterMap_nil, ha', hb', hc', hd', he', Option.map_some]
  have := readVasp_spec s hs [(a, aug .total), (b, aug .diff), (c, aug .diffX), (d, aug .diffY), (e, aug .diffZ)] (by simp)
    (by
      intro p hp'
      simp only [List.mem_cons, List.not_mem_nil, or_false] at hp'
      rcases hp' with rfl | rfl | rfl | rfl | rfl
      · exact printable_ravel s _ (hp _ _ ha')
      · exact printable_ravel s _ (hp _ _ hb')
      · exact printable_ravel s _ (hp _ _ hc')
      · exact printable_ravel s _ (hp _ _ hd')
      · exact printable_ravel s _ (hp _ _ he'))
    (by
      intro p hp'
      simp only [List.mem_cons, List.not_mem_nil, or_false] at hp'
      rcases hp' with rfl | rfl | rfl | rfl | rfl <;> exact ha _) fuel (by simpa using hf)
  refine ⟨_, _, this, by simp, rfl, ?_⟩
  intro q hq
  cases q with
  | total => exact absurd rfl hq
  | _ => rfl

omit [LinearOrder K] [FloorRing K] [IsStrictOrderedRing K] in
theorem readSets_total (s : Shape) (dims : Text) (nb fuel : ℕ) (t : Text) :
    (readSets s dims nb true fuel 0 t : List (Grid3 K × Text)) = (readSets s dims nb false fuel 0 t).take 1 := by
  cases fuel with
  | zero => rfl
  | succ fuel =>
    rw [readSets, readSets]
    by_cases h : t = []
    · rw [if_pos h, if_pos h]; rfl
    · rw [if_neg h, if_neg h, if_neg (show ¬(true = true ∧ (0 : ℕ) = 1) by simp),
        if_neg (show ¬(false = true ∧ (0 : ℕ) = 1) by simp)]
      simp only
      split
      · rfl
      · rw [List.take_succ_cons, List.take_zero]
        congr 1
        cases fuel with
        | zero => rfl
        | succ fuel =>
          rw [readSets]
          split
          · rfl
          · rw [if_pos ⟨rfl, rfl⟩]

omit [LinearOrder K] [FloorRing K] [IsStrictOrderedRing K] in
/-- C27: with `total_only` the file gives exactly its first set, whatever the file contains. -/
theorem C27_total_only (fuel : ℕ) (t : Text) :
    (readVaspSets true fuel t : Option (Shape × List (Grid3 K × Text))) =
      (readVaspSets false fuel t).map fun r => (r.1, r.2.take 1) := by
  unfold readVaspSets
  split
  · simp only
    split
    · rfl
    · rw [Option.map_some, readSets_total]
  · rfl

end ordered

/-- A set of data on a grid of two points with an augmentation line meets the hypotheses of the round trip. -/
example : ShapeOk ⟨2, 1, 1⟩ ∧ (∀ i < 2, ∀ j < 1, ∀ k < 1, Printable ((fun i _ _ => if i = 0 then 1 / 3 else 0 : Grid3 ℚ) i j k)) ∧
    IsAugLine ⟨2, 1, 1⟩ "augmentation occupancies 1 33".toList := by
  refine ⟨⟨by decide, by decide, by decide⟩, ?_, by unfold IsAugLine; decide +kernel⟩
  intro i _ j _ k _
  by_cases h : i = 0
  · simp only [h, if_true]
    refine Or.inr ⟨0, by norm_num, ?_, ?_⟩ <;> norm_num [abs_of_pos]
  · simp only [h, if_false]
    exact Or.inl rfl

/-- C27: augmentation given as a list of complete lines is written, and hence read, as it is. -/
theorem C27_aug_lines (items : List Text) (h : ∀ ln ∈ items, ln.getLast? = some '\n') :
    augText items = items.flatten := by
  rw [augText_lines]
  congr 1
  conv_rhs => rw [← List.map_id items]
  apply List.map_congr_left
  intro ln hl
  unfold closeLine
  rw [if_pos (h ln hl)]; rfl

/-- C27: augmentation given as one string - which is what reading a file returns - is broken into one line per
character, so it is not what is read back. -/
theorem C27_aug_string_wrong (t : Text) (c : Char) (hc : c ∈ t) (hn : c ≠ '\n') :
    augText (t.map fun c => [c]) ≠ t := by
  have hlen : ∀ u : Text, u.length ≤ (augText (u.map fun c => [c])).length := by
    intro u
    induction u with
    | nil => simp
    | cons a u ih =>
      unfold augText at ih ⊢
      rw [List.map_cons, List.flatMap_cons, List.length_append, List.length_cons]
      have : 1 ≤ (if [a].getLast? = some '\n' then [a] else [a] ++ ['\n']).length := by
        split <;> simp
      omega
  have : ∀ u : Text, c ∈ u → u.length < (augText (u.map fun c => [c])).length := by
    intro u hu
    induction u with
    | nil => simp at hu
    | cons a u ih =>
      have hl := hlen u
      unfold augText at ih hl ⊢
      rw [List.map_cons, List.flatMap_cons, List.length_append, List.length_cons]
      rcases List.mem_cons.mp hu with rfl | h
      · rw [if_neg (by simpa using hn)]
        simp only [List.length_append, List.length_cons, List.length_nil]
        omega
      · have := ih h
        have : 1 ≤ (if [a].getLast? = some '\n' then [a] else [a] ++ ['\n']).length := by
          split <;> simp
        omega
  intro h
  have := this t hc
  rw [h] at this
  omega

/-- A grid of eight points with two tiny values in the second line of the file. -/
def wideGrid : Grid3 ℚ := fun i _ _ =>
  if i < 5 then 1 / 2 else if i < 7 then 1 / 2 / 10 ^ 100 else 5 * 10 ^ 9

/-- C27: two values whose exponents need three digits shift the end of the block, and the last value is read
as a billionth of itself. -/
theorem C27_wide_corrupts :
    (readVaspSets (K := ℚ) false 2 (writeSets ⟨8, 1, 1⟩ [(wideGrid, [])])).map (fun r => r.2.map fun p => p.1 7 0 0) =
      some [5] := by
  decide +kernel

end BaderKit
