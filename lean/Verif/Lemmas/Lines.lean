import Verif.Props.SigFigs
/-!
# Lemmas about lines of fields
-/
namespace BaderKit

theorem words_pad (w : ℕ) (t : Text) (ht : IsWord t) (r : Text) (hr : Ended r) :
    words (padLeft w t ++ r) = t :: words r := by
  unfold padLeft
  rw [List.append_assoc, words_replicate, words_word t ht.1 ht.2 r hr]

theorem pad_ended (w : ℕ) (t : Text) (h : t.length < w) (r : Text) : Ended (padLeft w t ++ r) := by
  right
  obtain ⟨k, hk⟩ : ∃ k, w - t.length = k + 1 := ⟨w - t.length - 1, by omega⟩
  refine ⟨' ', List.replicate k ' ' ++ t ++ r, ?_, by decide⟩
  unfold padLeft
  rw [hk, List.replicate_succ]; rfl

theorem word_no_newline (t : Text) (h : ∀ c ∈ t, isWs c = false) : '\n' ∉ t := by
  intro hc
  have := h _ hc
  revert this; decide

theorem pad_no_newline (w : ℕ) (t : Text) (h : IsWord t) : '\n' ∉ padLeft w t := by
  unfold padLeft
  rw [List.mem_append]
  rintro (hc | hc)
  · have := List.eq_of_mem_replicate hc
    revert this; decide
  · exact word_no_newline t h.1 hc

theorem words_fields (fs : List (ℕ × Text)) (hw : ∀ f ∈ fs, IsWord f.2) (hl : ∀ f ∈ fs.tail, f.2.length < f.1) (t : Text)
    (ht : Ended t) : words ((fs.flatMap fun f => padLeft f.1 f.2) ++ t) = (fs.map fun f => f.2) ++ words t := by
  induction fs with
  | nil => rfl
  | cons f fs ih =>
    have he : Ended ((fs.flatMap fun f => padLeft f.1 f.2) ++ t) := by
      cases fs with
      | nil => exact ht
      | cons g fs =>
        rw [List.flatMap_cons, List.append_assoc]
        exact pad_ended _ _ (hl g (by simp)) _
    rw [List.flatMap_cons, List.append_assoc, words_pad _ _ (hw f (by simp)) _ he,
      ih (fun f hf => hw f (by simp [hf])) (fun f hf => hl f (List.mem_of_mem_tail hf))]
    rfl

theorem fields_no_newline (fs : List (ℕ × Text)) (hw : ∀ f ∈ fs, IsWord f.2) : '\n' ∉ fs.flatMap fun f => padLeft f.1 f.2 := by
  rw [List.mem_flatMap]
  rintro ⟨f, hf, hc⟩
  exact pad_no_newline _ _ (hw f hf) hc

theorem line_spec (fs : List (ℕ × Text)) (hw : ∀ f ∈ fs, IsWord f.2) (hl : ∀ f ∈ fs.tail, f.2.length < f.1) :
    IsLine (lineOf fs) ∧ words (lineOf fs) = fs.map fun f => f.2 := by
  refine ⟨⟨_, rfl, fields_no_newline fs hw⟩, ?_⟩
  unfold lineOf
  rw [words_fields fs hw hl _ (Or.inr ⟨'\n', [], rfl, by decide⟩), words_ws _ _ (by decide), words_nil, List.append_nil]

theorem readLines_spec (ls : List Text) (h : ∀ l ∈ ls, IsLine l) (t : Text) :
    readLines ls.length (ls.flatten ++ t) = (ls, t) := by
  induction ls with
  | nil => rfl
  | cons l ls ih =>
    rw [List.length_cons, readLines, List.flatten_cons, List.append_assoc, readLine_isLine l (h l (by simp))]
    simp only
    rw [ih (fun l hl => h l (by simp [hl]))]

theorem mapM_eq_some_map {α β : Type*} (f : α → Option β) (g : α → β) (l : List α) (h : ∀ a ∈ l, f a = some (g a)) :
    l.mapM f = some (l.map g) := by
  induction l with
  | nil => rfl
  | cons a l ih =>
    rw [List.mapM_cons, h a (by simp), ih (fun b hb => h b (by simp [hb]))]
    rfl

theorem parseInt_strNat (n : ℕ) : parseInt (strNat n) = some (n : ℤ) := by
  have : parseInt (strNat n) = (parseNat (strNat n)).map fun n : ℕ => (n : ℤ) := by
    unfold parseInt
    split
    · rename_i t h
      exact absurd (strNat_dig n '-' (by rw [h]; simp)) (by decide)
    · rfl
  rw [this, parseNat_strNat]; rfl

section field
variable {K : Type*} [Field K] [LinearOrder K] [FloorRing K] [IsStrictOrderedRing K]

/-- A vector after rounding to six decimals. -/
def roundV6 (v : V3 K) : V3 K := (roundDec 6 v.1, roundDec 6 v.2.1, roundDec 6 v.2.2)

/-- The components fit into a field with `k` digits before the point. -/
def FitsV (k : ℕ) (v : V3 K) : Prop := |v.1| + 1 ≤ 10 ^ k ∧ |v.2.1| + 1 ≤ 10 ^ k ∧ |v.2.2| + 1 ≤ 10 ^ k

theorem vecFields_spec (k : ℕ) (hk : 0 < k) (v : V3 K) (hv : FitsV k v) :
    ∀ f ∈ vecFields (k + 9) v, IsWord f.2 ∧ f.2.length < f.1 := by
  intro f hf
  unfold vecFields at hf
  simp only [List.mem_cons, List.not_mem_nil, or_false] at hf
  rcases hf with rfl | rfl | rfl
  · exact ⟨(fixed_spec _).1, by have := fixed_length v.1 k hk hv.1; simp only; omega⟩
  · exact ⟨(fixed_spec _).1, by have := fixed_length v.2.1 k hk hv.2.1; simp only; omega⟩
  · exact ⟨(fixed_spec _).1, by have := fixed_length v.2.2 k hk hv.2.2; simp only; omega⟩

theorem parseV3_fields (w : ℕ) (v : V3 K) : parseV3 ((vecFields w v).map fun f => f.2) = some (roundV6 v) := by
  unfold vecFields parseV3 roundV6
  simp only [List.map_cons, List.map_nil, (fixed_spec _).2]

theorem count_line (n : ℕ) (v : V3 K) (hv : FitsV 3 v) :
    IsLine (lineOf ((5, strNat n) :: vecFields 12 v)) ∧
    parseCount (lineOf ((5, strNat n) :: vecFields 12 v)) = some ((n : ℤ), roundV6 v) ∧
    (words (lineOf ((5, strNat n) :: vecFields 12 v))).length = 4 := by
  have h := vecFields_spec 3 (by norm_num) v hv
  obtain ⟨a, b⟩ := line_spec ((5, strNat n) :: vecFields 12 v) (by
    intro f hf
    rcases List.mem_cons.mp hf with rfl | hf
    · exact word_strNat n
    · exact (h f hf).1) (fun f hf => (h f hf).2)
  refine ⟨a, ?_, by rw [b]; rfl⟩
  unfold parseCount
  rw [b, List.map_cons]
  simp only [parseInt_strNat, parseV3_fields]

theorem atom_line (n : ℕ) (q : K) (v : V3 K) (hq : |q| + 1 ≤ 10 ^ 3) (hv : FitsV 3 v) :
    IsLine (lineOf ((5, strNat n) :: (12, fixedBody q) :: vecFields 12 v)) ∧
    parseAtom (lineOf ((5, strNat n) :: (12, fixedBody q) :: vecFields 12 v)) = some (n, roundDec 6 q, roundV6 v) := by
  have h := vecFields_spec 3 (by norm_num) v hv
  obtain ⟨a, b⟩ := line_spec ((5, strNat n) :: (12, fixedBody q) :: vecFields 12 v) (by
    intro f hf
    rcases List.mem_cons.mp hf with rfl | hf
    · exact word_strNat n
    · rcases List.mem_cons.mp hf with rfl | hf
      · exact (fixed_spec q).1
      · exact (h f hf).1) (fun f hf => by
    rcases List.mem_cons.mp hf with rfl | hf
    · have := fixed_length q 3 (by norm_num) hq
      simp only; omega
    · exact (h f hf).2)
  refine ⟨a, ?_⟩
  unfold parseAtom
  rw [b, List.map_cons, List.map_cons]
  simp only [parseNat_strNat, (fixed_spec _).2, parseV3_fields]

end field

/-! ### Data in rows -/

theorem words_prow (row : List Text) (h : ∀ t ∈ row, IsWord t ∧ t.length < 13) (t : Text) :
    words ((row.map (padLeft 13)).flatten ++ '\n' :: t) = row ++ words t := by
  have := words_fields (row.map fun w => (13, w)) (by
    intro f hf; rw [List.mem_map] at hf; obtain ⟨w, hw, rfl⟩ := hf; exact (h w hw).1) (by
    intro f hf
    have := List.mem_of_mem_tail hf
    rw [List.mem_map] at this; obtain ⟨w, hw, rfl⟩ := this; exact (h w hw).2) ('\n' :: t)
    (Or.inr ⟨'\n', t, rfl, by decide⟩)
  rw [words_ws _ _ (by decide), List.map_map, List.flatMap_map] at this
  rw [← List.flatMap_def]
  simpa [Function.comp_def] using this

theorem words_prows (rows : List (List Text)) (h : ∀ r ∈ rows, ∀ t ∈ r, IsWord t ∧ t.length < 13) (t : Text) :
    words (joinRows (rows.map (List.map (padLeft 13))) ++ t) = rows.flatten ++ words t := by
  induction rows with
  | nil => rfl
  | cons r rows ih =>
    unfold joinRows at ih ⊢
    rw [List.map_cons, List.flatMap_cons, List.append_assoc, List.append_assoc, List.singleton_append,
      words_prow r (h r (by simp)), ih (fun r hr => h r (by simp [hr])), List.flatten_cons, List.append_assoc]

theorem words_plines (lines : List (List Text)) (h : ∀ l ∈ lines, ∀ t ∈ l, IsWord t ∧ t.length < 13) (t : Text) :
    words ((lines.flatMap fun l => joinRows (slices 6 (l.map (padLeft 13)))) ++ t) = lines.flatten ++ words t := by
  induction lines with
  | nil => rfl
  | cons l lines ih =>
    rw [List.flatMap_cons, List.append_assoc, slices_map, words_prows, ih (fun r hr => h r (by simp [hr])),
      slices_flatten 6 (by norm_num), List.flatten_cons, List.append_assoc]
    intro r hr w hw
    refine h l (by simp) w ?_
    rw [← slices_flatten 6 (by norm_num) l]
    exact List.mem_flatten.mpr ⟨r, hr, hw⟩

end BaderKit
