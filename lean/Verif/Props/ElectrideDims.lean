import Verif.Model.ElectrideDims
import Verif.Props.BadelfDim
import Verif.Props.SigFigs
import Verif.Lemmas.Index
import Mathlib.Data.Finset.Max
import Mathlib.Data.Int.Interval
/-!
# C56: the dimensionalities and cutoffs a `Badelf` reports
-/
set_option linter.unusedSectionVars false
namespace BaderKit

variable {K : Type} [Field K] [LinearOrder K] [FloorRing K]

/-! ### The table without exceptions -/

theorem bisect_total {dim : K → Option ℕ} {f : K → ℕ} (h : ∀ c, dim c = some (f c)) (d : ℕ) (as : List K) :
    ∀ st : K × Bool, as.foldlM (bisectStepE dim d) st = some (as.foldl (bisectStep f d) st) := by
  induction as with
  | nil => intro st; rfl
  | cons a as ih =>
    intro st
    have e : bisectStepE dim d st a = some (bisectStep f d st a) := by
      simp only [bisectStepE, h, bisectStep]
      repeat' split
      all_goals rfl
    rw [List.foldlM_cons, e, List.foldl_cons]
    exact ih _

theorem refine_total {dim : K → Option ℕ} {f : K → ℕ} (h : ∀ c, dim c = some (f c)) (ds : List ℕ) :
    refineDims dim ds = some (ds.filterMap fun d =>
      let r := bisectDim f d
      if r.2 then some (d, roundDec 4 r.1) else none) := by
  induction ds with
  | nil => rfl
  | cons d ds ih =>
    simp only [refineDims, bisect_total h, ih, List.filterMap_cons]
    have e : (bisectAmounts.foldl (bisectStep f d) ((1 / 2, false) : K × Bool)) = bisectDim f d := rfl
    rw [e]
    cases hb : (bisectDim f d).2
    · simp
    · simp

theorem table_total {dim : K → Option ℕ} {f : K → ℕ} (h : ∀ c, dim c = some (f c)) :
    dimTable dim = some (electrideDims f) := by
  simp only [dimTable, h, refine_total h]
  rfl

theorem table_head {dim : K → Option ℕ} {L : List (ℕ × K)} (h : dimTable dim = some L) :
    ∃ (n : ℕ) (M : List (ℕ × K)), dim 0 = some n ∧ L = (n, 0) :: M := by
  unfold dimTable at h
  split at h
  · cases h
  · rename_i n hn
    split at h
    · cases h
    · rename_i M _
      exact ⟨n, M, hn, (Option.some.inj h).symm⟩

/-! ### Sessions -/

/-- What the getters answer in a session if the calculation succeeds with the table `L`. -/
def tableAnswer (L : List (ℕ × K)) : DimRead → DimAnswer K
  | .dims => .dims (L.map Prod.fst)
  | .cuts => .cuts (L.map Prod.snd)
  | .dim => match L with
    | [] => .raised
    | p :: _ => .dim p.1

/-- The states of a session with a table. -/
def DimFields.Good (L : List (ℕ × K)) (st : DimFields K) : Prop :=
  (st.dims = none ∧ st.cuts = none ∧ st.dim = none) ∨
  (st.dims = some (some (L.map Prod.fst)) ∧ st.cuts = some (some (L.map Prod.snd)) ∧
    (st.dim = none ∨ st.dim = (L.head?).map Prod.fst))

theorem good_read {D : DimInput K} {L : List (ℕ × K)} (h : dimTable D.dimAt = some L) {st : DimFields K}
    (hg : st.Good L) (r : DimRead) : (st.read D r).2 = tableAnswer L r ∧ (st.read D r).1.Good L := by
  obtain ⟨n, M, -, rfl⟩ := table_head h
  obtain ⟨a, b, c⟩ := st
  rcases hg with ⟨ha, hb, hc⟩ | ⟨ha, hb, hc⟩
  · obtain rfl : a = none := ha
    obtain rfl : b = none := hb
    obtain rfl : c = none := hc
    by_cases hs : D.sites.length = 0 <;> cases r <;>
      simp [DimFields.read, DimFields.readDims, DimFields.readCuts, DimFields.readDim, DimFields.compute, h, hs,
        DimAnswer.of, tableAnswer, DimFields.Good]
  · obtain rfl : a = _ := ha
    obtain rfl : b = _ := hb
    simp only [List.head?_cons, Option.map_some] at hc
    rcases hc with rfl | rfl <;> cases r <;>
      simp [DimFields.read, DimFields.readDims, DimFields.readCuts, DimFields.readDim, DimAnswer.of, tableAnswer,
        DimFields.Good]

/-- **C56** In whatever order and how often the three getters are read, if the calculation succeeds each of them
always gives the same answer: the list of dimensionalities, the list of cutoffs of the same length, and the
dimensionality at cutoff 0. -/
theorem C56_session (D : DimInput K) (L : List (ℕ × K)) (h : dimTable D.dimAt = some L) (rs : List DimRead) :
    ∃ n : ℕ, D.dimAt 0 = some n ∧ DimFields.session D {} rs = rs.map fun r => match r with
      | .dims => .dims (L.map Prod.fst)
      | .cuts => .cuts (L.map Prod.snd)
      | .dim => .dim n := by
  obtain ⟨n, M, hn, hL⟩ := table_head h
  refine ⟨n, hn, ?_⟩
  have key : ∀ (rs : List DimRead) (st : DimFields K), st.Good L → DimFields.session D st rs = rs.map (tableAnswer L) := by
    intro rs
    induction rs with
    | nil => intro st _; rfl
    | cons r rs ih =>
      intro st hg
      obtain ⟨h1, h2⟩ := good_read h hg r
      simp only [DimFields.session, List.map_cons, h1, ih _ h2]
  rw [key rs {} (Or.inl ⟨rfl, rfl, rfl⟩)]
  apply List.map_congr_left
  intro r _
  subst hL
  cases r <;> rfl

/-- **C56** If there are electrides and the calculation raises, every read raises, also later ones. -/
theorem C56_session_raises (D : DimInput K) (h : dimTable D.dimAt = none) (he : D.sites ≠ []) (rs : List DimRead) :
    DimFields.session D {} rs = rs.map fun _ => .raised := by
  have hs : D.sites.length ≠ 0 := by simpa using he
  induction rs with
  | nil => rfl
  | cons r rs ih =>
    have e : (({} : DimFields K).read D r) = ({}, .raised) := by
      cases r <;> simp [DimFields.read, DimFields.readDims, DimFields.readCuts, DimFields.readDim, DimFields.compute, h,
        hs, DimAnswer.of]
    simp only [DimFields.session, e, List.map_cons, ih]

/-- **C56** (negative part) Without electrides the getters are documented to give `None`; they give `[0]`, `[0]`
and 0 in every session. -/
theorem C56_session_no_electrides (D : DimInput K) (he : D.sites = []) (rs : List DimRead) :
    DimFields.session D {} rs = rs.map fun r => match r with
      | .dims => .dims [0]
      | .cuts => .cuts [0]
      | .dim => .dim 0 := by
  have h0 : ∀ c, D.dimAt c = some 0 := by
    intro c
    simp only [DimInput.dimAt, he, List.map_nil, elfDim, List.any_nil, List.filter_nil]
    split
    · rfl
    · rfl
  obtain ⟨n, hn, e⟩ := C56_session D _ (table_total (f := fun _ => 0) h0) rs
  rw [h0] at hn
  obtain rfl : n = 0 := (Option.some.inj hn).symm
  exact e

/-- **C56** For two spin channels the dimensionality is the larger of the two; it raises if one of them raises. -/
theorem C56_spin (up down : DimInput K) (rs rs' : List DimRead) (Lu Ld : List (ℕ × K))
    (hu : dimTable up.dimAt = some Lu) (hd : dimTable down.dimAt = some Ld) :
    ∃ a b : ℕ, up.dimAt 0 = some a ∧ down.dimAt 0 = some b ∧
      ∀ x ∈ (DimFields.session up {} (rs ++ [.dim])).getLast?, ∀ y ∈ (DimFields.session down {} (rs' ++ [.dim])).getLast?,
        spinDim x y = .dim (max a b) := by
  obtain ⟨a, ha, ea⟩ := C56_session up Lu hu (rs ++ [.dim])
  obtain ⟨b, hb, eb⟩ := C56_session down Ld hd (rs' ++ [.dim])
  refine ⟨a, b, ha, hb, ?_⟩
  intro x hx y hy
  rw [ea] at hx
  rw [eb] at hy
  simp only [List.map_append, List.map_cons, List.map_nil, List.getLast?_append, List.getLast?_singleton, Option.some_or,
    Option.mem_def, Option.some.injEq] at hx hy
  subst hx hy
  rfl

/-! ### The cutoffs in terms of the values of the grid -/

variable [IsStrictOrderedRing K]

theorem inSuper_mono {s : Shape} {m m' : Coord → Bool} (h : ∀ c, InGrid s c → m' c = true → m c = true) {a : Coord}
    (ha : InSuper s m' a) : InSuper s m a := by
  obtain ⟨h1, h2, h3, h4⟩ := ha
  refine ⟨h1, h2, h3, h _ ?_ h4⟩
  unfold InGrid cellOf
  have n1 : (0 : ℤ) < s.nx := by omega
  have n2 : (0 : ℤ) < s.ny := by omega
  have n3 : (0 : ℤ) < s.nz := by omega
  exact ⟨⟨Int.emod_nonneg _ n1.ne', Int.emod_lt_of_pos _ n1⟩, ⟨Int.emod_nonneg _ n2.ne', Int.emod_lt_of_pos _ n2⟩,
    ⟨Int.emod_nonneg _ n3.ne', Int.emod_lt_of_pos _ n3⟩⟩

theorem directions_mono {s : Shape} {m m' : Coord → Bool} (h : ∀ c, InGrid s c → m' c = true → m c = true) (c : Coord) :
    connectedDirections s m' c ≤ connectedDirections s m c := by
  unfold connectedDirections
  apply List.countP_mono_left
  intro p _ hp
  simp only [decide_eq_true_eq] at hp ⊢
  exact Relation.ReflTransGen.mono (fun _ _ hab => ⟨inSuper_mono h hab.1, inSuper_mono h hab.2.1, hab.2.2⟩) _ _ hp

theorem elfDim_mono {s : Shape} {m m' : Coord → Bool} (h : ∀ c, InGrid s c → m' c = true → m c = true)
    {feats : List Coord} {lbl lbl' : Coord → ℕ} (hl : IsLabelling s m lbl) (hl' : IsLabelling s m' lbl')
    (hf : ∀ c ∈ feats, InGrid s c) (h5 : ∀ c ∈ feats, m c = true → connectedDirections s m c ≠ 5) {d d' : ℕ}
    (hd : elfDim s m feats lbl = some d) (hd' : elfDim s m' feats lbl' = some d') : d' ≤ d := by
  obtain ⟨-, h2, -⟩ := value_aux s m feats lbl hl hf d hd
  obtain ⟨-, -, h3⟩ := value_aux s m' feats lbl' hl' hf d' hd'
  by_cases h0 : d' = 0
  · omega
  · obtain ⟨c, hc, hm, he⟩ := h3 h0
    have hm' := h c (hf c hc) hm
    have hs := dimOfCount_isSome (connectedDirections_le s m c) (h5 c hc hm')
    obtain ⟨e, he2⟩ := Option.isSome_iff_exists.mp hs
    exact (dimOfCount_mono (directions_mono h c) he he2).trans (h2 c hc hm' e he2)

/-- A calculation that succeeds at every cutoff: `scipy` labels correctly, the electride sites are rounded to voxels
of the grid and none of them is ever connected in exactly five directions. -/
structure DimInput.Fine (D : DimInput K) : Prop where
  label : ∀ m, IsLabelling D.s m (D.label m)
  inside : ∀ f ∈ D.sites, InGrid D.s (featIndex D.s f)
  five : ∀ c, ∀ f ∈ D.sites, D.above c (featIndex D.s f) = true →
    connectedDirections D.s (D.above c) (featIndex D.s f) ≠ 5

theorem dimAt_mono {D : DimInput K} (hD : D.Fine) {c c' : K}
    (h : ∀ v, InGrid D.s v → D.above c' v = true → D.above c v = true) {d d' : ℕ} (hd : D.dimAt c = some d)
    (hd' : D.dimAt c' = some d') : d' ≤ d := by
  refine elfDim_mono h (hD.label _) (hD.label _) ?_ ?_ hd hd'
  · intro v hv
    obtain ⟨f, hf, rfl⟩ := List.mem_map.mp hv
    exact hD.inside f hf
  · intro v hv
    obtain ⟨f, hf, rfl⟩ := List.mem_map.mp hv
    exact hD.five c f hf

theorem dimAt_some {D : DimInput K} (hD : D.Fine) (c : K) : ∃ d, D.dimAt c = some d := by
  refine C56_total_partial _ _ _ _ (hD.label _) ?_ ?_
  · intro v hv
    obtain ⟨f, hf, rfl⟩ := List.mem_map.mp hv
    exact hD.inside f hf
  · intro v hv
    obtain ⟨f, hf, rfl⟩ := List.mem_map.mp hv
    exact hD.five c f hf

/-- A dimensionality above zero needs a voxel of an electride with at least the value. -/
theorem dimAt_pos {D : DimInput K} (hD : D.Fine) {c : K} {d : ℕ} (hd : D.dimAt c = some d) (h0 : d ≠ 0) :
    ∃ v, InGrid D.s v ∧ D.above c v = true := by
  obtain ⟨-, -, h3⟩ := value_aux D.s _ _ _ (hD.label _) (by
    intro v hv
    obtain ⟨f, hf, rfl⟩ := List.mem_map.mp hv
    exact hD.inside f hf) d hd
  obtain ⟨v, hv, hm, -⟩ := h3 h0
  obtain ⟨f, hf, rfl⟩ := List.mem_map.mp hv
  exact ⟨_, hD.inside f hf, hm⟩

/-- The voxels of the grid. -/
def gridVoxels (s : Shape) : Finset Coord :=
  Finset.Ico (0 : ℤ) s.nx ×ˢ Finset.Ico (0 : ℤ) s.ny ×ˢ Finset.Ico (0 : ℤ) s.nz

theorem mem_gridVoxels {s : Shape} {v : Coord} : v ∈ gridVoxels s ↔ InGrid s v := by
  simp [gridVoxels, InGrid]

/-- Lowering a cutoff to the lowest value of the mask changes nothing. -/
theorem dimAt_value {D : DimInput K} (hD : D.Fine) {c : K} {d : ℕ} (hd : D.dimAt c = some d) (h0 : d ≠ 0) :
    ∃ v, InGrid D.s v ∧ D.emask v = true ∧ c ≤ D.ref v ∧ D.dimAt (D.ref v) = some d := by
  obtain ⟨v0, hv0, hm0⟩ := dimAt_pos hD hd h0
  obtain ⟨v, hv, hmin⟩ := Finset.exists_min_image ((gridVoxels D.s).filter fun v => D.above c v = true) D.ref
    ⟨v0, Finset.mem_filter.mpr ⟨mem_gridVoxels.mpr hv0, hm0⟩⟩
  obtain ⟨hv, hm⟩ := Finset.mem_filter.mp hv
  have hm2 := hm
  unfold DimInput.above at hm2
  rw [Bool.and_eq_true, decide_eq_true_eq] at hm2
  refine ⟨v, mem_gridVoxels.mp hv, hm2.1, hm2.2, ?_⟩
  obtain ⟨d', hd'⟩ := dimAt_some hD (D.ref v)
  have h1 : d' ≤ d := by
    refine dimAt_mono hD ?_ hd hd'
    intro w _ hw
    unfold DimInput.above at hw ⊢
    rw [Bool.and_eq_true, decide_eq_true_eq] at hw ⊢
    exact ⟨hw.1, hm2.2.trans hw.2⟩
  have h2 : d ≤ d' := by
    refine dimAt_mono hD ?_ hd' hd
    intro w hwg hw
    have := hmin w (Finset.mem_filter.mpr ⟨mem_gridVoxels.mpr hwg, hw⟩)
    unfold DimInput.above at hw ⊢
    rw [Bool.and_eq_true, decide_eq_true_eq] at hw ⊢
    exact ⟨hw.1, this⟩
  rw [hd', le_antisymm h1 h2]

/-- **C56** The dimensionality at a cutoff is the largest of the documented dimensionalities of the electride sites
whose voxel belongs to an electride and has at least the value of the cutoff, by the directions in which they are connected
within such voxels; sites with exactly five directions are left out. -/
theorem C56_at (D : DimInput K) (hl : ∀ m, IsLabelling D.s m (D.label m))
    (hin : ∀ f ∈ D.sites, InGrid D.s (featIndex D.s f)) (c : K) (d : ℕ) (h : D.dimAt c = some d) :
    let m : Coord → Bool := fun v =>
      decide ((D.nAtoms ≤ D.atomLabels v ∧ D.atomLabels v < D.nAtoms + D.sites.length) ∧ c ≤ D.ref v)
    (∀ f ∈ D.sites, m (featIndex D.s f) = true → connectedDirections D.s m (featIndex D.s f) ≠ 5 →
      ∀ e, documentedDim (connectedDirections D.s m (featIndex D.s f)) e → e ≤ d) ∧
    (d ≠ 0 → ∃ f ∈ D.sites, m (featIndex D.s f) = true ∧
      documentedDim (connectedDirections D.s m (featIndex D.s f)) d) := by
  intro m
  have hm : D.above c = m := by
    funext v
    simp only [DimInput.above, DimInput.emask, m, ge_iff_le, Bool.decide_and]
  unfold DimInput.dimAt at h
  rw [hm] at h
  obtain ⟨h1, h2⟩ := C56_value D.s m _ _ (hl m) (by
    intro v hv
    obtain ⟨f, hf, rfl⟩ := List.mem_map.mp hv
    exact hin f hf) d h
  refine ⟨fun f hf => h1 _ (List.mem_map.mpr ⟨f, hf, rfl⟩), fun h0 => ?_⟩
  obtain ⟨v, hv, hmv⟩ := h2 h0
  obtain ⟨f, hf, rfl⟩ := List.mem_map.mp hv
  exact ⟨f, hf, hmv⟩

/-- **C56** (partial) What the two lists say about the grid.  If the ELF is between 0 and 1 and no site has five
connected directions at any cutoff, the calculation succeeds, and every entry after the first, a dimensionality `d`
with its cutoff `c`, belongs to the highest value `t` of a voxel of the electrides at which the dimensionality is
still larger than `d`: above `t` it is at most `d`, and `c` is within `2^-16 + 5e-5` of `t`.  Missing: sites with five
connected directions (`C56_five_crash`), sites rounded to the end of an axis (`C56_index_crash`); `Fine` excludes them. -/
theorem C56_cutoffs_partial (D : DimInput K) (hD : D.Fine)
    (href : ∀ v, InGrid D.s v → 0 ≤ D.ref v ∧ D.ref v ≤ 1) :
    ∃ (n : ℕ) (M : List (ℕ × K)), dimTable D.dimAt = some ((n, 0) :: M) ∧ D.dimAt 0 = some n ∧
      ((n :: M.map Prod.fst).Pairwise (· > ·)) ∧
      ∀ p ∈ M, (∃ c, D.dimAt c = some p.1) ∧
        ∃ v, InGrid D.s v ∧ (D.nAtoms ≤ D.atomLabels v ∧ D.atomLabels v < D.nAtoms + D.sites.length) ∧
          (∃ m, D.dimAt (D.ref v) = some m ∧ p.1 < m) ∧
          (∀ c, D.ref v < c → ∃ m, D.dimAt c = some m ∧ m ≤ p.1) ∧
          |p.2 - D.ref v| ≤ 1 / 2 ^ 16 + 1 / 20000 := by
  choose f hf using fun c => dimAt_some hD c
  obtain ⟨hr1, hr2, hr3⟩ := C56_reported f
  have ht := table_total hf
  obtain ⟨M, hM⟩ : ∃ M, electrideDims f = (f 0, 0) :: M := ⟨_, rfl⟩
  rw [hM] at hr1 hr3 ht
  refine ⟨f 0, M, ht, hf 0, by simpa using hr3, ?_⟩
  intro p hp
  refine ⟨?_, ?_⟩
  · obtain ⟨c, hc⟩ := hr1 p (List.mem_cons_of_mem _ hp)
    exact ⟨c, by rw [hf, hc]⟩
  have hp2 : p.1 < f 0 ∧ p.2 = roundDec 4 (bisectDim f p.1).1 := by
    have : M = (List.range (f 0)).reverse.filterMap fun d =>
        let r := bisectDim f d
        if r.2 then some (d, roundDec 4 r.1) else none := by
      unfold electrideDims at hM
      exact (List.cons.inj hM).2.symm
    rw [this, List.mem_filterMap] at hp
    obtain ⟨d, hd, e⟩ := hp
    simp only at e
    split at e
    · obtain rfl := Option.some.inj e
      rw [List.mem_reverse, List.mem_range] at hd
      exact ⟨hd, rfl⟩
    · cases e
  -- the voxels at whose value the dimensionality is still larger
  obtain ⟨v0, hv0, he0, -, hd0⟩ := dimAt_value hD (hf 0) (by omega)
  obtain ⟨v, hv, hmax⟩ := Finset.exists_max_image
    ((gridVoxels D.s).filter fun v => D.emask v = true ∧ p.1 < f (D.ref v)) D.ref
    ⟨v0, Finset.mem_filter.mpr ⟨mem_gridVoxels.mpr hv0, he0, by
      have := hf (D.ref v0); rw [hd0] at this; rw [← Option.some.inj this]; exact hp2.1⟩⟩
  obtain ⟨hvg, hve, hvd⟩ := Finset.mem_filter.mp hv
  have hvg := mem_gridVoxels.mp hvg
  have above : ∀ c, D.ref v < c → f c ≤ p.1 := by
    intro c hc
    by_contra hcon
    obtain ⟨w, hwg, hwe, hcw, hdw⟩ := dimAt_value hD (hf c) (by omega)
    have := hmax w (Finset.mem_filter.mpr ⟨mem_gridVoxels.mpr hwg, hwe, by
      have e := hf (D.ref w); rw [hdw] at e; rw [← Option.some.inj e]; omega⟩)
    exact absurd (hc.trans_le hcw) (not_lt.mpr this)
  have below : ∀ c, c < D.ref v → p.1 < f c := by
    intro c hc
    refine hvd.trans_le (dimAt_mono hD ?_ (hf c) (hf _))
    intro w _ hw
    unfold DimInput.above at hw ⊢
    rw [Bool.and_eq_true, decide_eq_true_eq] at hw ⊢
    exact ⟨hw.1, hc.le.trans hw.2⟩
  refine ⟨v, hvg, of_decide_eq_true hve, ⟨_, hf _, hvd⟩, fun c hc => ⟨_, hf c, above c hc⟩, ?_⟩
  have h1 := C56_cutoff f p.1 (D.ref v) (href v hvg) below above
  have h2 := roundDec_close 4 (bisectDim f p.1).1
  rw [hp2.2]
  have h3 : roundDec 4 (bisectDim f p.1).1 - D.ref v =
      (roundDec 4 (bisectDim f p.1).1 - (bisectDim f p.1).1) + ((bisectDim f p.1).1 - D.ref v) := by ring
  rw [h3]
  refine (abs_add_le _ _).trans ?_
  have h4 : (1 : K) / 10 ^ 4 / 2 = 1 / 20000 := by norm_num
  rw [h4] at h2
  linarith

/-! ### A crystal of layers -/

/-- Two voxels along the first axis, both of one electride, with ELF 3/4 and 1/4. -/
noncomputable def layers : DimInput ℚ where
  s := ⟨2, 1, 1⟩
  ref v := if v.1 % 2 = 0 then 3 / 4 else 1 / 4
  atomLabels _ := 1
  nAtoms := 1
  sites := [(0, 0, 0)]
  label m := Classical.choose (exists_labelling ⟨2, 1, 1⟩ m)

theorem layers_above (c : ℚ) : layers.above c =
    if c ≤ 1 / 4 then fun _ => true else if c ≤ 3 / 4 then fun v => decide (v.1 % 2 = 0) else fun _ => false := by
  funext v
  have e : layers.above c v = decide ((if v.1 % 2 = 0 then (3 / 4 : ℚ) else 1 / 4) ≥ c) := by
    simp [DimInput.above, DimInput.emask, layers]
  rw [e]
  by_cases hv : v.1 % 2 = 0
  · rw [if_pos hv]
    split
    · rename_i h; exact decide_eq_true (by linarith)
    · split
      · rename_i h; simp [hv, h]
      · rename_i h; simpa using h
  · rw [if_neg hv]
    split
    · rename_i h; simpa using h
    · rename_i h
      have h' : decide ((1 / 4 : ℚ) ≥ c) = false := decide_eq_false h
      rw [h']
      split
      · simp [hv]
      · rfl

theorem layers_full : connectedDirections ⟨2, 1, 1⟩ (fun _ => true) (0, 0, 0) = 13 := by
  have key : ∀ p ∈ dimPairs, SuperConn ⟨2, 1, 1⟩ (fun _ => true) (imageOf ⟨2, 1, 1⟩ (0, 0, 0) p.1)
      (imageOf ⟨2, 1, 1⟩ (0, 0, 0) p.2) := by
    have : ∀ p ∈ dimPairs, (imageOf ⟨2, 1, 1⟩ (0, 0, 0) p.1 ::
        [(1, (imageOf ⟨2, 1, 1⟩ (0, 0, 0) p.2).2), imageOf ⟨2, 1, 1⟩ (0, 0, 0) p.2]).IsChain
        (SuperAdj ⟨2, 1, 1⟩ (fun _ => true)) := by decide
    intro p hp
    exact conn_of_path _ _ _ (this p hp) rfl
  unfold connectedDirections
  have : (dimPairs.countP fun _ => true) = 13 := by decide
  rw [← this]
  apply List.countP_congr
  intro p hp
  simp [key p hp]

theorem layers_half : connectedDirections ⟨2, 1, 1⟩ (fun v => decide (v.1 % 2 = 0)) (0, 0, 0) ≤ 4 := by
  have : (dimPairs.countP fun p => (imageOf ⟨2, 1, 1⟩ (0, 0, 0) p.1).1.toNat =
      (imageOf ⟨2, 1, 1⟩ (0, 0, 0) p.2).1.toNat) = 4 := by decide
  rw [← this]
  unfold connectedDirections
  apply List.countP_mono_left
  intro p _ hp
  simp only [decide_eq_true_eq] at hp ⊢
  exact not_conn_of_inv (fun a => a.1.toNat) (by decide) hp

theorem layers_fine : layers.Fine where
  label m := Classical.choose_spec (exists_labelling ⟨2, 1, 1⟩ m)
  inside f hf := by
    obtain rfl : f = (0, 0, 0) := by simpa [layers] using hf
    have : featIndex (⟨2, 1, 1⟩ : Shape) ((0, 0, 0) : V3 ℚ) = (0, 0, 0) := by decide +kernel
    change InGrid ⟨2, 1, 1⟩ (featIndex ⟨2, 1, 1⟩ _)
    rw [this]
    unfold InGrid
    decide
  five c f hf hm := by
    obtain rfl : f = (0, 0, 0) := by simpa [layers] using hf
    have e : featIndex (⟨2, 1, 1⟩ : Shape) ((0, 0, 0) : V3 ℚ) = (0, 0, 0) := by decide +kernel
    change connectedDirections ⟨2, 1, 1⟩ _ (featIndex ⟨2, 1, 1⟩ _) ≠ 5
    change layers.above c (featIndex ⟨2, 1, 1⟩ _) = true at hm
    rw [e] at hm ⊢
    rw [layers_above] at hm ⊢
    split
    · rw [layers_full]; decide
    · rename_i h1
      rw [if_neg h1] at hm
      split
      · have := layers_half; omega
      · rename_i h2
        rw [if_neg h2] at hm
        cases hm

/-- The hypotheses of `C56_cutoffs_partial` and `C56_session` hold for the crystal of layers; at cutoff 0 it is
connected in all directions. -/
example : ∃ M, dimTable layers.dimAt = some ((3, 0) :: M) := by
  obtain ⟨n, M, h1, h2, -, -⟩ := C56_cutoffs_partial layers layers_fine (by
    intro v _
    change 0 ≤ (if v.1 % 2 = 0 then (3 / 4 : ℚ) else 1 / 4) ∧ (if v.1 % 2 = 0 then (3 / 4 : ℚ) else 1 / 4) ≤ 1
    split <;> norm_num)
  have h3 : n = 3 := by
    have e : featIndex (⟨2, 1, 1⟩ : Shape) ((0, 0, 0) : V3 ℚ) = (0, 0, 0) := by decide +kernel
    have hin : ∀ c ∈ layers.sites.map (featIndex layers.s), InGrid layers.s c := by
      intro c hc
      obtain ⟨f, hf, rfl⟩ := List.mem_map.mp hc
      exact layers_fine.inside f hf
    obtain ⟨hle, h4, -⟩ := value_aux layers.s _ _ _ (layers_fine.label _) hin n h2
    have h5 := h4 (0, 0, 0) (by
      rw [List.mem_map]
      exact ⟨(0, 0, 0), by simp [layers], e⟩) (by rw [layers_above]; norm_num) 3 (by
        rw [layers_above, if_pos (by norm_num)]
        change dimOfCount (connectedDirections ⟨2, 1, 1⟩ _ _) = _
        rw [layers_full]; decide)
    omega
  exact ⟨M, h3 ▸ h1⟩

/-- A calculation that raises, with an electride: the hypotheses of `C56_session_raises`. -/
example : ∃ D : DimInput ℚ, D.sites ≠ [] ∧ dimTable D.dimAt = none := by
  refine ⟨{ s := ⟨10, 1, 1⟩, ref := fun _ => 1, atomLabels := fun _ => 0, nAtoms := 0, sites := [(99 / 100, 0, 0)],
            label := fun _ _ => 0 }, by simp, ?_⟩
  have : (⟨⟨10, 1, 1⟩, fun _ => 1, fun _ => 0, 0, [(99 / 100, 0, 0)], fun _ _ => 0⟩ : DimInput ℚ).dimAt 0 = none := by
    decide +kernel
  simp only [dimTable, this]

end BaderKit
