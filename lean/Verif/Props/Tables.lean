import Verif.Model.Tables
import Verif.Props.Commands
import Verif.Props.SigFigs
/-!
# C98: tables of results
-/
set_option linter.unusedSectionVars false
namespace BaderKit
variable {K : Type} [Field K] [LinearOrder K] [FloorRing K] [IsStrictOrderedRing K]

/-! ## Specification -/

/-- A table as a reader of tab separated values sees it: lines, fields between tabs, blanks around fields removed. -/
def readTable (t : Text) : List (List Text) := (splitAt '\n' t).map fun l => (splitAt '\t' l).map strip

/-- A field reads as a number that differs from `x` by at most half a unit of the fifth decimal. -/
def ShowsNum (cell : Text) (x : K) : Prop := ∃ q : K, parseNum cell = some q ∧ |q - x| ≤ 1 / 10 ^ 5 / 2

/-- A text that can be a field: no tab, no line end, no blanks around it. -/
def PlainCell (t : Text) : Prop := '\t' ∉ t ∧ '\n' ∉ t ∧ strip t = t

instance (t : Text) : Decidable (PlainCell t) := by unfold PlainCell; infer_instance

/-! ## Helpers -/

theorem fixed5_spec (x : K) : IsWord (fixed5 x) ∧ parseNum (fixed5 x) = some (roundDec 5 x) := by
  obtain ⟨r, hr⟩ : ∃ r, r = (roundHE (x * 10 ^ 5)).natAbs := ⟨_, rfl⟩
  have hform : fixed5 x = (if decide (x < 0) then ['-'] else []) ++ (strNat (r / 10 ^ 5) ++ '.' :: (zeroPad 5 (r % 10 ^ 5) ++ [])) := by
    unfold fixed5
    simp only [List.append_nil, decide_eq_true_eq, hr]
  constructor
  · rw [hform]
    constructor
    · intro c hc
      simp only [List.mem_append, List.mem_cons, List.append_nil] at hc
      rcases hc with h | h | h | h
      · split at h
        · rw [List.mem_singleton] at h; rw [h]; decide
        · simp at h
      · exact isDig_not_ws (strNat_dig _ c h)
      · rw [h]; decide
      · exact isDig_not_ws (zeroPad_dig _ _ c h)
    · simp
  · rw [hform, parse_signed _ _ _ _ (strNat_dig _) (strNat_ne_nil _) (zeroPad_dig _ _) (by simp) 0 rfl]
    have hd := (split_digits r 5).resolve_right (by norm_num)
    have hl := (zeroPad_spec 5 (r % 10 ^ 5) (by norm_num) (Nat.mod_lt _ (by norm_num))).2.2
    rw [hd, hl]
    unfold roundDec
    congr 1
    have h10 : (10 : K) ^ ((0 : ℤ) - (5 : ℕ)) = 1 / 10 ^ (5 : ℕ) := by
      rw [zero_sub, zpow_neg, zpow_natCast, one_div]
    rw [h10]
    by_cases hx : x < 0
    · have : roundHE (x * 10 ^ 5) ≤ 0 := roundHE_nonpos_of_neg (mul_neg_of_neg_of_pos hx (by positivity))
      have hc : (r : K) = -(roundHE (x * 10 ^ 5) : K) := by
        rw [hr, Nat.cast_natAbs, abs_of_nonpos this, Int.cast_neg]
      rw [hc]; simp [hx]; ring
    · have : 0 ≤ roundHE (x * 10 ^ 5) := roundHE_pos (mul_nonneg (not_lt.mp hx) (by positivity))
      have hc : (r : K) = (roundHE (x * 10 ^ 5) : K) := by
        rw [hr, Nat.cast_natAbs, abs_of_nonneg this]
      rw [hc]; simp [hx]; ring

theorem fixed5_shows (x : K) : ShowsNum (fixed5 x) x := ⟨_, (fixed5_spec x).2, roundDec_close 5 x⟩

theorem word_strip {t : Text} (h : IsWord t) : strip t = t := by
  obtain ⟨hw, hne⟩ := h
  unfold strip
  rw [dropWhile_head isWs t (t.head hne) (List.head?_eq_some_head hne) (hw _ (List.head_mem hne)),
    dropWhile_head isWs t.reverse (t.getLast hne) (by rw [List.head?_reverse]; exact List.getLast?_eq_getLast_of_ne_nil hne)
      (hw _ (List.getLast_mem hne)), List.reverse_reverse]

theorem word_plain {t : Text} (h : IsWord t) : PlainCell t :=
  ⟨fun hc => absurd (h.1 _ hc) (by decide), fun hc => absurd (h.1 _ hc) (by decide), word_strip h⟩

theorem strip_pad (t : Text) (k : ℕ) : strip (t ++ List.replicate k ' ') = strip t := by
  have hb : ∀ x ∈ (List.replicate k ' ' : Text), isWs x = true := by
    intro x hx; rw [List.eq_of_mem_replicate hx]; decide
  have hall : (List.replicate k ' ' : Text).dropWhile isWs = [] := by
    have := dropWhile_prefix isWs _ [] hb
    rwa [List.append_nil] at this
  unfold strip
  rw [List.dropWhile_append]
  split_ifs with h
  · rw [hall]
    simp only [List.isEmpty_iff] at h
    rw [h]
  · rw [List.reverse_append, dropWhile_prefix isWs _ _ (by simpa using hb)]

theorem padRight_plain {t : Text} (w : ℕ) (h : PlainCell t) : '\t' ∉ padRight w t ∧ '\n' ∉ padRight w t ∧ strip (padRight w t) = t := by
  unfold padRight
  refine ⟨?_, ?_, by rw [strip_pad]; exact h.2.2⟩
  · rw [List.mem_append, not_or]
    exact ⟨h.1, fun hc => absurd (List.eq_of_mem_replicate hc) (by decide)⟩
  · rw [List.mem_append, not_or]
    exact ⟨h.2.1, fun hc => absurd (List.eq_of_mem_replicate hc) (by decide)⟩

theorem splitAt_joinTab (ts : List Text) (hne : ts ≠ []) (h : ∀ t ∈ ts, '\t' ∉ t) : splitAt '\t' (joinTab ts) = ts := by
  induction ts with
  | nil => exact absurd rfl hne
  | cons t ts ih =>
    cases ts with
    | nil => rw [joinTab, splitAt_none _ _ (h t (by simp))]
    | cons u us =>
      rw [joinTab, splitAt_append _ _ _ (h t (by simp)), ih (by simp) fun x hx => h x (by simp [hx])]
      simp

theorem joinTab_no_line (ts : List Text) (h : ∀ t ∈ ts, '\n' ∉ t) : '\n' ∉ joinTab ts := by
  induction ts with
  | nil => simp [joinTab]
  | cons t ts ih =>
    cases ts with
    | nil => rw [joinTab]; exact h t (by simp)
    | cons u us =>
      rw [joinTab, List.mem_append, List.mem_cons, not_or, not_or]
      · exact ⟨h t (by simp), by decide, ih fun x hx => h x (by simp [hx])⟩
      · simp

theorem joinTab_length (ts : List Text) (hne : ts ≠ []) : (joinTab ts).length + 1 = (ts.map fun t => t.length + 1).sum := by
  induction ts with
  | nil => exact absurd rfl hne
  | cons t ts ih =>
    cases ts with
    | nil => simp [joinTab]
    | cons u us =>
      have := ih (by simp)
      rw [joinTab, List.map_cons, List.sum_cons, ← this, List.length_append, List.length_cons]
      · omega
      · simp

theorem splitAt_lines (ls : List Text) (rest : Text) (h : ∀ l ∈ ls, '\n' ∉ l) :
    splitAt '\n' ((ls.map fun l => l ++ ['\n']).flatten ++ rest) = ls ++ splitAt '\n' rest := by
  induction ls with
  | nil => rfl
  | cons l ls ih =>
    rw [List.map_cons, List.flatten_cons, List.append_assoc, List.append_assoc, List.singleton_append, splitAt_append _ _ _ (h l (by simp)),
      ih fun x hx => h x (by simp [hx])]
    rfl

theorem foldl_max_ge (l : List ℕ) : ∀ a : ℕ, a ≤ l.foldl max a ∧ ∀ x ∈ l, x ≤ l.foldl max a := by
  induction l with
  | nil => simp
  | cons y l ih =>
    intro a
    obtain ⟨h1, h2⟩ := ih (max a y)
    rw [List.foldl_cons]
    refine ⟨le_trans (le_max_left _ _) h1, fun x hx => ?_⟩
    rcases List.mem_cons.1 hx with rfl | hx
    · exact le_trans (le_max_right _ _) h1
    · exact h2 x hx

/-- All texts of a column can be fields. -/
def PlainColumn (c : TColumn K) : Prop := PlainCell c.name ∧ ∀ x ∈ c.cells, PlainCell x.shown

/-! ## C98 -/

/-- **C98.** Columns of equal length give a table.  It reads back as the names and then row by row the entries, in order; all its lines are
equally long, and the fields of a column stand below each other. -/
theorem C98_table (cols : List (TColumn K)) (n : ℕ) (hne : cols ≠ []) (hlen : ∀ c ∈ cols, c.cells.length = n) (hp : ∀ c ∈ cols, PlainColumn c) :
    ∃ t, tableText cols = some t ∧
      (∀ rest, readTable (t ++ rest) = (cols.map fun c => c.name) :: ((List.range n).map fun i => cols.map fun c => c.cells[i]?.elim [] TCell.shown) ++
        readTable rest) ∧
      ∃ w, ∀ i ≤ n, ((splitAt '\n' t)[i]?.map List.length) = some w := by
  have hrows : frameRows cols = some n := by
    cases cols with
    | nil => exact absurd rfl hne
    | cons c cs =>
      rw [frameRows, if_pos, hlen c (by simp)]
      rw [List.all_eq_true]
      intro d hd
      rw [decide_eq_true_eq, hlen d (by simp [hd]), hlen c (by simp)]
  have hcell : ∀ c ∈ cols, ∀ i : ℕ, PlainCell (c.cells[i]?.elim [] TCell.shown) := by
    intro c hc i
    rcases h : c.cells[i]? with _ | x
    · show PlainCell []; decide
    · exact (hp c hc).2 x (List.mem_of_getElem? h)
  have hhead := fun (c : TColumn K) (hc : c ∈ cols) => padRight_plain c.width (hp c hc).1
  have hrow := fun (i : ℕ) (c : TColumn K) (hc : c ∈ cols) => padRight_plain c.width (hcell c hc i)
  have hlines : ∀ l ∈ tableHeader cols :: (List.range n).map (tableRow cols), '\n' ∉ l := by
    intro l hl
    rcases List.mem_cons.1 hl with rfl | hl
    · refine joinTab_no_line _ fun t ht => ?_
      obtain ⟨c, hc, rfl⟩ := List.mem_map.1 ht
      exact (hhead c hc).2.1
    · obtain ⟨i, -, rfl⟩ := List.mem_map.1 hl
      refine joinTab_no_line _ fun t ht => ?_
      obtain ⟨c, hc, rfl⟩ := List.mem_map.1 ht
      exact (hrow i c hc).2.1
  have hsplitH : (splitAt '\t' (tableHeader cols)).map strip = cols.map fun c => c.name := by
    unfold tableHeader
    rw [splitAt_joinTab _ (by simpa using hne), List.map_map]
    · exact List.map_congr_left fun c hc => (hhead c hc).2.2
    · intro t ht
      obtain ⟨c, hc, rfl⟩ := List.mem_map.1 ht
      exact (hhead c hc).1
  have hsplitR : ∀ i, (splitAt '\t' (tableRow cols i)).map strip = cols.map fun c => c.cells[i]?.elim [] TCell.shown := by
    intro i
    unfold tableRow
    rw [splitAt_joinTab _ (by simpa using hne), List.map_map]
    · exact List.map_congr_left fun c hc => (hrow i c hc).2.2
    · intro t ht
      obtain ⟨c, hc, rfl⟩ := List.mem_map.1 ht
      exact (hrow i c hc).1
  have hw1 : ∀ c : TColumn K, (padRight c.width c.name).length = c.width := by
    intro c
    have := (foldl_max_ge (c.cells.map fun x => x.shown.length) c.name.length).1
    unfold padRight
    rw [List.length_append, List.length_replicate]
    have h2 : c.name.length ≤ c.width := this
    omega
  have hw2 : ∀ (c : TColumn K) (i : ℕ), (padRight c.width (c.cells[i]?.elim [] TCell.shown)).length = c.width := by
    intro c i
    have h2 : (c.cells[i]?.elim [] TCell.shown).length ≤ c.width := by
      rcases h : c.cells[i]? with _ | x
      · simp
      · exact (foldl_max_ge (c.cells.map fun x => x.shown.length) c.name.length).2 _
          (List.mem_map.2 ⟨x, List.mem_of_getElem? h, rfl⟩)
    unfold padRight
    rw [List.length_append, List.length_replicate]
    omega
  have hl1 : (tableHeader cols).length + 1 = (cols.map fun c => c.width + 1).sum := by
    unfold tableHeader
    rw [joinTab_length _ (by simpa using hne), List.map_map]
    congr 1
    exact List.map_congr_left fun c _ => by simp only [Function.comp_apply, hw1]
  have hl2 : ∀ i, (tableRow cols i).length + 1 = (cols.map fun c => c.width + 1).sum := by
    intro i
    unfold tableRow
    rw [joinTab_length _ (by simpa using hne), List.map_map]
    congr 1
    exact List.map_congr_left fun c _ => by simp only [Function.comp_apply, hw2]
  refine ⟨_, by unfold tableText; rw [hrows]; rfl, ?_, (tableHeader cols).length, ?_⟩
  · intro rest
    unfold readTable
    rw [splitAt_lines _ _ hlines, List.map_append, List.map_cons, hsplitH, List.map_map]
    congr 2
    exact List.map_congr_left fun i _ => hsplitR i
  · intro i hi
    have := splitAt_lines _ [] hlines
    rw [List.append_nil] at this
    rw [this]
    cases i with
    | zero => simp
    | succ i =>
      have hlt : i < n := by omega
      rw [List.cons_append, List.getElem?_cons_succ, List.getElem?_append_left (by simpa using hlt), List.getElem?_map, List.getElem?_range hlt]
      simp only [Option.map_some, Option.some.injEq]
      have := hl2 i
      omega

theorem num_plain (x : K) : PlainCell (TCell.num x).shown := word_plain (fixed5_spec x).1

/-- **C98.** The table of the atoms has one row per atom with its label, coordinates, charge, volume and distance to the surface, each to five
decimals; below stand the charge and volume of the vacuum and the totals. -/
theorem C98_atoms (labels : List Text) (frac : List (V3 K)) (charges volumes dists : List K) (vc vv te tv : K) (n : ℕ)
    (h1 : labels.length = n) (h2 : frac.length = n) (h3 : charges.length = n) (h4 : volumes.length = n) (h5 : dists.length = n)
    (hp : ∀ l ∈ labels, PlainCell l) :
    ∃ t, atomTable labels frac charges volumes dists vc vv te tv = some t ∧
      (readTable t)[0]? = some ["label".toList, "x".toList, "y".toList, "z".toList, "charge".toList, "volume".toList, "surface_dist".toList] ∧
      (∀ (i : ℕ) (hi : i < n), ∃ x y z q v d, (readTable t)[i + 1]? = some [labels[i], x, y, z, q, v, d] ∧ ShowsNum x (frac[i]).1 ∧
        ShowsNum y (frac[i]).2.1 ∧ ShowsNum z (frac[i]).2.2 ∧ ShowsNum q charges[i] ∧ ShowsNum v volumes[i] ∧ ShowsNum d dists[i]) ∧
      (∃ a b c e, (readTable t).drop (n + 1) = [[[]], ["Vacuum Charge:".toList, [], a], ["Vacuum Volume:".toList, [], b],
        ["Total Electrons:".toList, c], ["Total Volume:".toList, e], [[]]] ∧ ShowsNum a vc ∧ ShowsNum b vv ∧ ShowsNum c te ∧ ShowsNum e tv) := by
  obtain ⟨t, ht, hread, -⟩ := C98_table (atomColumns labels frac charges volumes dists) n (by simp [atomColumns])
    (by simp [atomColumns, h1, h2, h3, h4, h5]) (by
      intro c hc
      simp only [atomColumns, List.mem_cons, List.not_mem_nil, or_false] at hc
      rcases hc with rfl | rfl | rfl | rfl | rfl | rfl | rfl
      · refine ⟨by dsimp only; decide, fun x hx => ?_⟩
        obtain ⟨l, hl, rfl⟩ := List.mem_map.1 hx
        exact hp l hl
      all_goals
        refine ⟨by dsimp only; decide, fun x hx => ?_⟩
        obtain ⟨l, -, rfl⟩ := List.mem_map.1 hx
        exact num_plain _)
  have hfoot : readTable ('\n' :: ("Vacuum Charge:\t\t".toList ++ fixed5 vc ++ '\n' :: ("Vacuum Volume:\t\t".toList ++ fixed5 vv ++ '\n' ::
      ("Total Electrons:\t".toList ++ fixed5 te ++ '\n' :: ("Total Volume:\t".toList ++ fixed5 tv ++ ['\n']))))) =
      [[[]], ["Vacuum Charge:".toList, [], fixed5 vc], ["Vacuum Volume:".toList, [], fixed5 vv],
        ["Total Electrons:".toList, fixed5 te], ["Total Volume:".toList, fixed5 tv], [[]]] := by
    have pl : ∀ x : K, PlainCell (fixed5 x) := fun x => word_plain (fixed5_spec x).1
    have nl : ∀ (a : Text) (x : K), '\n' ∉ a → '\n' ∉ a ++ fixed5 x := fun a x h => by
      rw [List.mem_append, not_or]; exact ⟨h, (pl x).2.1⟩
    unfold readTable
    rw [splitAt, if_pos rfl, splitAt_append _ _ _ (nl _ _ (by decide)), splitAt_append _ _ _ (nl _ _ (by decide)),
      splitAt_append _ _ _ (nl _ _ (by decide)), splitAt_append _ _ _ (nl _ _ (by decide))]
    have two : ∀ (a : Text) (x : K), '\t' ∉ a → strip a = a →
        (splitAt '\t' (a ++ '\t' :: '\t' :: fixed5 x)).map strip = [a, [], fixed5 x] := by
      intro a x ha hs
      rw [splitAt_append _ _ _ ha, splitAt, if_pos rfl, splitAt_none _ _ (pl x).1]
      have h0 : strip [] = [] := rfl
      simp [hs, (pl x).2.2, h0]
    have one : ∀ (a : Text) (x : K), '\t' ∉ a → strip a = a → (splitAt '\t' (a ++ '\t' :: fixed5 x)).map strip = [a, fixed5 x] := by
      intro a x ha hs
      rw [splitAt_append _ _ _ ha, splitAt_none _ _ (pl x).1]
      simp [hs, (pl x).2.2]
    simp only [List.map_cons]
    have e1 : "Vacuum Charge:\t\t".toList ++ fixed5 vc = "Vacuum Charge:".toList ++ '\t' :: '\t' :: fixed5 vc := rfl
    have e2 : "Vacuum Volume:\t\t".toList ++ fixed5 vv = "Vacuum Volume:".toList ++ '\t' :: '\t' :: fixed5 vv := rfl
    have e3 : "Total Electrons:\t".toList ++ fixed5 te = "Total Electrons:".toList ++ '\t' :: fixed5 te := rfl
    have e4 : "Total Volume:\t".toList ++ fixed5 tv = "Total Volume:".toList ++ '\t' :: fixed5 tv := rfl
    rw [e1, e2, e3, e4, two _ _ (by decide) (by decide), two _ _ (by decide) (by decide), one _ _ (by decide) (by decide),
      one _ _ (by decide) (by decide)]
    rfl
  refine ⟨_, by unfold atomTable; rw [ht]; rfl, ?_, ?_, fixed5 vc, fixed5 vv, fixed5 te, fixed5 tv, ?_, fixed5_shows _, fixed5_shows _,
    fixed5_shows _, fixed5_shows _⟩
  · rw [hread]; rfl
  · intro i hi
    refine ⟨fixed5 (frac[i]).1, fixed5 (frac[i]).2.1, fixed5 (frac[i]).2.2, fixed5 charges[i], fixed5 volumes[i], fixed5 dists[i], ?_,
      fixed5_shows _, fixed5_shows _, fixed5_shows _, fixed5_shows _, fixed5_shows _, fixed5_shows _⟩
    rw [hread, List.cons_append, List.getElem?_cons_succ, List.getElem?_append_left (by simpa using hi), List.getElem?_map, List.getElem?_range hi]
    simp only [Option.map_some, atomColumns, List.map_cons, List.map_nil, List.getElem?_map, Option.some.injEq]
    rw [List.getElem?_eq_getElem (by omega), List.getElem?_eq_getElem (by omega), List.getElem?_eq_getElem (by omega),
      List.getElem?_eq_getElem (by omega), List.getElem?_eq_getElem (by omega)]
    rfl
  · rw [hread, hfoot, List.cons_append, List.drop_succ_cons, List.drop_append, List.drop_eq_nil_of_le (by simp)]
    simp

/-- **C98.** The printed charges add up, with that of the vacuum, to the printed number of electrons, within half a unit of the last decimal
per printed number, when the exact ones do. -/
theorem C98_sum (charges : List K) (vc te : K) (hs : charges.sum + vc = te) (printed : List K) (pv pt : K)
    (hp : List.Forall₂ (fun (q x : K) => parseNum (fixed5 x) = some q) printed charges) (hv : parseNum (fixed5 vc) = some pv)
    (ht : parseNum (fixed5 te) = some pt) : |printed.sum + pv - pt| ≤ (charges.length + 2 : ℕ) * (1 / 10 ^ 5 / 2) := by
  have h1 : |printed.sum - charges.sum| ≤ (charges.length : K) * (1 / 10 ^ 5 / 2) := by
    clear hs
    induction hp with
    | nil => simp
    | @cons q x qs xs hqx _ ih =>
      rw [(fixed5_spec x).2, Option.some.injEq] at hqx
      have hc := roundDec_close 5 x
      rw [hqx] at hc
      rw [List.sum_cons, List.sum_cons, List.length_cons]
      have e : q + qs.sum - (x + xs.sum) = (q - x) + (qs.sum - xs.sum) := by ring
      rw [e]
      push_cast
      calc |(q - x) + (qs.sum - xs.sum)| ≤ |q - x| + |qs.sum - xs.sum| := abs_add_le _ _
        _ ≤ 1 / 10 ^ 5 / 2 + (xs.length : K) * (1 / 10 ^ 5 / 2) := add_le_add hc ih
        _ = _ := by ring
  rw [(fixed5_spec vc).2, Option.some.injEq] at hv
  rw [(fixed5_spec te).2, Option.some.injEq] at ht
  have h2 := roundDec_close 5 vc
  have h3 := roundDec_close 5 te
  rw [hv] at h2
  rw [ht] at h3
  have e : printed.sum + pv - pt = (printed.sum - charges.sum) + (pv - vc) - (pt - te) := by rw [← hs]; ring
  rw [e]
  push_cast
  calc |(printed.sum - charges.sum) + (pv - vc) - (pt - te)| ≤ |(printed.sum - charges.sum) + (pv - vc)| + |pt - te| := abs_sub _ _
    _ ≤ |printed.sum - charges.sum| + |pv - vc| + |pt - te| := by
      have := abs_add_le (printed.sum - charges.sum) (pv - vc); linarith
    _ ≤ (charges.length : K) * (1 / 10 ^ 5 / 2) + 1 / 10 ^ 5 / 2 + 1 / 10 ^ 5 / 2 := by linarith
    _ = _ := by ring

/-- **C98.** The table of the basins has one row per significant basin, in order, with the label of its atom. -/
theorem C98_basins (labels : List Text) (basins : List (BasinRow K)) (hp : ∀ l ∈ labels, PlainCell l)
    (ha : ∀ b ∈ basins, b.significant = true → b.atom < labels.length) :
    ∃ t, basinTable labels basins = some t ∧ (readTable t).length = (basins.filter fun b => b.significant).length + 2 ∧
      ∀ (k : ℕ) (b : BasinRow K), (basins.filter fun b => b.significant)[k]? = some b → ∃ l x y z q v d a, labels[b.atom]? = some l ∧
        (readTable t)[k + 1]? = some [l, x, y, z, q, v, d, a] ∧ ShowsNum x b.frac.1 ∧ ShowsNum y b.frac.2.1 ∧ ShowsNum z b.frac.2.2 ∧
        ShowsNum q b.charge ∧ ShowsNum v b.volume ∧ ShowsNum d b.dist ∧ ShowsNum a b.atomDist := by
  set rows := basins.filter fun b => b.significant with hrows
  have hat : ∀ b ∈ rows, b.atom < labels.length := fun b hb => by
    rw [hrows, List.mem_filter] at hb
    exact ha b hb.1 (by simpa using hb.2)
  have hls : rows.mapM (fun b => labels[b.atom]?) = some (rows.map fun b => labels.getD b.atom []) :=
    mapM_eq_some_map _ _ _ fun b hb => by
      rw [List.getD_eq_getElem?_getD, List.getElem?_eq_getElem (hat b hb)]; rfl
  obtain ⟨cols, hcols⟩ : ∃ cols, basinColumns labels basins = some cols := by
    unfold basinColumns; simp only; rw [← hrows, hls]; exact ⟨_, rfl⟩
  have hcols' := hcols
  unfold basinColumns at hcols'
  simp only at hcols'
  rw [← hrows, hls, Option.map_some, Option.some.injEq] at hcols'
  obtain ⟨t, ht, hread, -⟩ := C98_table cols rows.length (by rw [← hcols']; simp) (by rw [← hcols']; simp) (by
      intro c hc
      rw [← hcols'] at hc
      simp only [List.mem_cons, List.not_mem_nil, or_false] at hc
      rcases hc with rfl | rfl | rfl | rfl | rfl | rfl | rfl | rfl
      · refine ⟨by dsimp only; decide, fun x hx => ?_⟩
        obtain ⟨l, hl, rfl⟩ := List.mem_map.1 hx
        obtain ⟨b, hb, rfl⟩ := List.mem_map.1 hl
        refine hp _ ?_
        rw [List.getD_eq_getElem?_getD, List.getElem?_eq_getElem (hat b hb)]
        exact List.getElem_mem _
      all_goals
        refine ⟨by dsimp only; decide, fun x hx => ?_⟩
        obtain ⟨l, -, rfl⟩ := List.mem_map.1 hx
        exact num_plain _)
  have hr := hread []
  rw [List.append_nil] at hr
  refine ⟨t, by unfold basinTable; rw [hcols]; exact ht, ?_, ?_⟩
  · rw [hr]; simp [readTable, splitAt]
  · intro k b hb
    obtain ⟨hk, hk2⟩ := List.getElem?_eq_some_iff.1 hb
    have hb' : b ∈ rows := List.mem_of_getElem? hb
    refine ⟨labels.getD b.atom [], fixed5 b.frac.1, fixed5 b.frac.2.1, fixed5 b.frac.2.2, fixed5 b.charge, fixed5 b.volume, fixed5 b.dist,
      fixed5 b.atomDist, ?_, ?_, fixed5_shows _, fixed5_shows _, fixed5_shows _, fixed5_shows _, fixed5_shows _, fixed5_shows _, fixed5_shows _⟩
    · rw [List.getD_eq_getElem?_getD, List.getElem?_eq_getElem (hat b hb')]; rfl
    · rw [hr, List.cons_append, List.getElem?_cons_succ, List.getElem?_append_left (by simpa using hk), List.getElem?_map, List.getElem?_range hk,
        ← hcols']
      simp only [Option.map_some, List.map_cons, List.map_nil, List.getElem?_map, hb, Option.elim_some, TCell.shown]

/-- **C98.** Columns of different lengths give no table. -/
theorem C98_refused (c d : TColumn K) (cs : List (TColumn K)) (hd : d ∈ cs) (h : d.cells.length ≠ c.cells.length) : tableText (c :: cs) = none := by
  unfold tableText frameRows
  dsimp only
  rw [if_neg]
  · rfl
  · rw [List.all_eq_true]
    intro h2
    exact h (by simpa using h2 d hd)

/-! ### A concrete case -/

example : atomTable (K := ℚ) ["Ca1".toList, "N1".toList] [(1 / 4, 0, 1 / 3), (0, 0, 0)] [7 / 3, -1 / 2] [10, 20] [1, 3 / 2] (1 / 7) 2 3 32 =
    some ("label\tx      \ty      \tz      \tcharge  \tvolume  \tsurface_dist\nCa1  \t0.25000\t0.00000\t0.33333\t2.33333 \t10.00000\t1.00000     \n" ++
      "N1   \t0.00000\t0.00000\t0.00000\t-0.50000\t20.00000\t1.50000     \n\nVacuum Charge:\t\t0.14286\nVacuum Volume:\t\t2.00000\n" ++
      "Total Electrons:\t3.00000\nTotal Volume:\t32.00000\n").toList := by decide +kernel

example : basinTable (K := ℚ) ["Ca1".toList, "N1".toList] [⟨true, 1, (1 / 4, 0, 1 / 3), 2, 3, 4, 5⟩, ⟨false, 0, (0, 0, 0), 0, 0, 0, 0⟩,
    ⟨true, 0, (0, 0, 0), 1, 1, 1, 1⟩] =
    some ("atoms\tx      \ty      \tz      \tcharge \tvolume \tsurface_dist\tatom_dist\nN1   \t0.25000\t0.00000\t0.33333\t2.00000\t3.00000\t4.00000     \t5.00000  \n" ++
      "Ca1  \t0.00000\t0.00000\t0.00000\t1.00000\t1.00000\t1.00000     \t1.00000  \n").toList := by decide +kernel

end BaderKit
