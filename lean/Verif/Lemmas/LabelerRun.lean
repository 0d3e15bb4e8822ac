import Verif.Lemmas.FromLabeler
import Verif.Props.Assign
/-!
# Lemmas for the whole run from the labels to the graph
-/
set_option linter.unusedSectionVars false
namespace BaderKit
variable {K : Type} [Field K] [LinearOrder K] [IsStrictOrderedRing K]

/-! ## The grid is connected -/

theorem step_down {s : Shape} {v : ℕ} (hv : v < s.size) (h0 : 0 < v) : ∃ d ∈ neighbors26, nbr s v d < v := by
  have hp := pos_of_lt_size hv
  have hr := flatToCoords_inRange (s := s) (v := v) (by positivity) (by exact_mod_cast hv) hp
  have hflat := coordsToFlat_flatToCoords (s := s) (v : ℤ)
  set c := flatToCoords s v with hc
  obtain ⟨⟨hi, hi'⟩, ⟨hj, hj'⟩, ⟨hk, hk'⟩⟩ := hr
  have hnz : (0 : ℤ) < s.nz := by exact_mod_cast hp.2.2
  have hny : (0 : ℤ) < s.ny := by exact_mod_cast hp.2.1
  have key : ∀ d ∈ neighbors26, InRange s (addC c d) → coordsToFlat s (addC c d) < coordsToFlat s c → nbr s v d < v := by
    intro d hd hin hlt
    have h1 := nbr_cast hv (neighbors26_fits hp d hd)
    rw [← hc] at h1
    have h2 : wrapPoint s (addC c d) = addC c d := by
      obtain ⟨⟨a1, a2⟩, ⟨b1, b2⟩, ⟨e1, e2⟩⟩ := hin
      unfold wrapPoint
      rw [wrapAxis_of_range a1 a2, wrapAxis_of_range b1 b2, wrapAxis_of_range e1 e2]
    rw [h2] at h1
    omega
  by_cases hk0 : 0 < c.2.2
  · refine ⟨(0, 0, -1), by decide, key _ (by decide) ?_ ?_⟩
    · refine ⟨⟨?_, ?_⟩, ⟨?_, ?_⟩, ⟨?_, ?_⟩⟩ <;> simp only [addC] <;> omega
    · simp only [coordsToFlat, addC]; linarith
  by_cases hj0 : 0 < c.2.1
  · refine ⟨(0, -1, 0), by decide, key _ (by decide) ?_ ?_⟩
    · refine ⟨⟨?_, ?_⟩, ⟨?_, ?_⟩, ⟨?_, ?_⟩⟩ <;> simp only [addC] <;> omega
    · simp only [coordsToFlat, addC]; nlinarith
  by_cases hi0 : 0 < c.1
  · refine ⟨(-1, 0, 0), by decide, key _ (by decide) ?_ ?_⟩
    · refine ⟨⟨?_, ?_⟩, ⟨?_, ?_⟩, ⟨?_, ?_⟩⟩ <;> simp only [addC] <;> omega
    · simp only [coordsToFlat, addC]; nlinarith [mul_pos hny hnz]
  exfalso
  have e1 : c.1 = 0 := by omega
  have e2 : c.2.1 = 0 := by omega
  have e3 : c.2.2 = 0 := by omega
  unfold coordsToFlat at hflat
  rw [e1, e2, e3] at hflat
  simp at hflat
  omega

/-- At or below the lowest value everything is one region. -/
theorem region_all {s : Shape} {data : ℕ → K} {t : K} (ht : ∀ w < s.size, t ≤ data w) {u v : ℕ} (hu : u < s.size) (hv : v < s.size) :
    RegionAt s data t u v := by
  have hp := pos_of_lt_size hu
  have key : ∀ n, ∀ w ≤ n, w < s.size → RegionAt s data t w 0 := by
    intro n
    induction n with
    | zero =>
      intro w hw _
      obtain rfl : w = 0 := by omega
      exact .refl
    | succ n ih =>
      intro w hw hws
      rcases Nat.eq_zero_or_pos w with rfl | h0
      · exact .refl
      · obtain ⟨d, hd, hlt⟩ := step_down hws h0
        have hl := nbr_lt hws (neighbors26_fits hp d hd)
        exact .head ⟨ht w hws, ht _ hl, d, hd, rfl⟩ (ih _ (by omega) hl)
  exact (key u u le_rfl hu).trans ((key v v le_rfl hv).symm hp hv)

/-! ## The run -/

/-- What is assumed about the labeler: basins by steepest ascent on distinct values without vacuum, the values below the start value of the loop,
the values of the maxima are those of the grid, the atoms are in the grid. -/
structure LabelerOk (I : LabelerIn K) : Prop where
  basins : AscentBasins I.s I.data I.labels I.nb I.maxima
  vac : ∀ v, I.vac v = false
  ref : ∀ b < I.nb, I.ref b = I.data (I.maxima b)
  big : ∀ w < I.s.size, I.data w < 10 ^ 12
  atoms : ∀ a ∈ I.atoms, a < I.s.size

theorem LabelerOk.vac_eq {I : LabelerIn K} (h : LabelerOk I) : I.vac = fun _ => false := funext h.vac

theorem labelerMask_some (m : Machine K) (I : LabelerIn K) (greater : Bool) : ∃ l, labelerMask m I greater = some l ∧ l.length = I.s.size ∧
    ∀ v < I.s.size, saddleMask I.s I.data (getEdges I.s I.labels neighbors26 (fun _ => false) m.order1) I.vac greater v = some (l.getD v false) := by
  obtain ⟨l, hl⟩ := mapM_isSome (saddleMask I.s I.data (getEdges I.s I.labels neighbors26 (fun _ => false) m.order1) I.vac greater)
    (List.range I.s.size) (fun v hv => by
      obtain ⟨b, hb, -⟩ := C77_mask (data := I.data) (edge := getEdges I.s I.labels neighbors26 (fun _ => false) m.order1) (vac := I.vac)
        (greater := greater) (List.mem_range.mp hv)
      exact ⟨b, hb⟩)
  obtain ⟨h1, h2⟩ := mapM_getElem hl
  rw [List.length_range] at h1
  refine ⟨l, hl, h1, fun v hv => h2 v v _ (List.getElem?_range hv) ?_⟩
  have hv' : v < l.length := by omega
  rw [List.getElem?_eq_getElem hv', List.getD_eq_getElem?_getD, List.getElem?_eq_getElem hv', Option.getD_some]

theorem labelerConns_spec {m : Machine K} {I : LabelerIn K} (hI : LabelerOk I) (hm : MachineOk m I.s) : ∃ sad edge,
    SaddleMasks I.s I.data I.labels sad edge ∧
      labelerConns m I = some (uniqueConns (graphConns I.s I.data I.labels neighbors26 sad edge (fun _ => false) I.nb I.ref)) := by
  obtain ⟨l, hl, -, hs⟩ := labelerMask_some m I true
  have hE : ∀ v, getEdges I.s I.labels neighbors26 (fun _ => false) m.order1 v = getEdges I.s I.labels neighbors26 I.vac m.order2 v := by
    intro v
    rw [Bool.eq_iff_iff, getEdges_apply, getEdges_apply, mem_schedule hm.order1, mem_schedule hm.order2, hI.vac_eq]
  refine ⟨fun v => l.getD v false, getEdges I.s I.labels neighbors26 I.vac m.order2, ⟨fun v hv => ?_, fun v hv => ?_⟩, ?_⟩
  · rw [getEdges_apply, edgeScan_iff, mem_schedule hm.order2]
    constructor
    · rintro ⟨-, -, t, ht, hne, -⟩
      exact ⟨_, (isNbr_iff hI.basins.fits hv).mpr ⟨t, ht, rfl⟩, hne⟩
    · rintro ⟨w, hw, hne⟩
      obtain ⟨t, ht, rfl⟩ := (isNbr_iff hI.basins.fits hv).mp hw
      exact ⟨hv, hI.vac v, t, ht, hne, hI.vac _⟩
  · have := hs v hv
    rw [hI.vac_eq] at this ⊢
    rw [← hI.vac_eq, ← funext hE, hI.vac_eq]
    exact this
  · unfold labelerConns
    rw [hl]
    simp only [Option.bind_eq_bind, Option.bind_some]
    rw [show I.vac = fun _ => false from hI.vac_eq]

/-- The connections of basins that are found by steepest ascent. -/
structure ConnsOk (I : LabelerIn K) (conns : List (Conn K)) : Prop where
  ne : conns ≠ []
  lt : ∀ c ∈ conns, c.i < I.nb ∧ c.j < I.nb
  val : ∀ c ∈ conns, ∃ w < I.s.size, c.val = I.data w
  peak : PeakInput I.nb conns I.ref
  nodup : conns.Nodup
  region : ∀ (t : K) (B : List ℕ), IsDomainAt conns t B ↔ B.Pairwise (· < ·) ∧ ∃ v < I.s.size, t ≤ I.data v ∧
    ∀ b, b ∈ B ↔ b < I.nb ∧ t ≤ I.data (I.maxima b) ∧ RegionAt I.s I.data t v (I.maxima b)
  basin : ∀ (t : K) (b : ℕ), BasinAt conns t b ↔ b < I.nb ∧ t ≤ I.data (I.maxima b)

theorem labelerConns_ok {m : Machine K} {I : LabelerIn K} (hI : LabelerOk I) (hm : MachineOk m I.s) :
    ∃ conns, labelerConns m I = some conns ∧ ConnsOk I conns := by
  obtain ⟨sad, edge, hM, hrun⟩ := labelerConns_spec hI hm
  refine ⟨_, hrun, ?_⟩
  have hB := hI.basins
  set gc := graphConns I.s I.data I.labels neighbors26 sad edge (fun _ => false) I.nb I.ref with hgc
  have hself : ∀ b < I.nb, (⟨b, b, I.ref b⟩ : Conn K) ∈ gc := fun b hb => by
    rw [hgc]
    exact List.mem_append_right _ (List.mem_map.mpr ⟨b, List.mem_range.mpr hb, rfl⟩)
  have hpos : 0 < I.s.size := by
    obtain ⟨a, b, c⟩ := hB.pos
    exact Nat.mul_pos (Nat.mul_pos a b) c
  have hval : ∀ c ∈ gc, (c.i = c.j ∧ c.val = I.ref c.i ∧ c.i < I.nb) ∨ (c.i ≠ c.j ∧ c.val < I.ref c.i ∧ c.val < I.ref c.j ∧
      ∃ w < I.s.size, c.val = I.data w) := by
    intro c hc
    rw [hgc] at hc
    rcases List.mem_append.mp hc with hc | hc
    · obtain ⟨hij, hj, v, w, hv, -, hw, hval, hor⟩ := C78_sound hB.fits hB.labelsOk hB.range hc
      have hi : c.i < I.nb := hij.trans hj
      have hstrict : ∀ (v w a : ℕ), v < I.s.size → w < I.s.size → IsNbr I.s neighbors26 v w → a < I.nb → I.labels v = (a : ℕ) →
          I.labels w ≠ I.labels v → min (I.data v) (I.data w) < I.ref a := by
        intro v w a hv hws hw ha hla hne
        rw [hI.ref a ha]
        have h1 := (region_top hB _ v le_rfl hv a ha hla).1
        rcases lt_or_eq_of_le h1 with h1 | h1
        · exact (min_le_left _ _).trans_lt h1
        · have hvt := hB.distinct v hv _ (hB.top_lt a ha) h1
          have h2 : I.data w ≤ I.data v := by
            have := hB.top_max a ha w (hvt ▸ hw)
            rwa [← hvt] at this
          have h3 : I.data w ≠ I.data v := fun e => hne (by rw [hB.distinct w hws v hv e])
          rw [← h1]
          exact (min_le_right _ _).trans_lt (lt_of_le_of_ne h2 h3)
      have hwv : IsNbr I.s neighbors26 w v := by
        obtain ⟨d, hd, e⟩ := (isNbr_iff hB.fits hv).mp hw
        refine (isNbr_iff hB.fits hw.1).mpr ⟨negC d, neighbors26_neg d hd, ?_⟩
        rw [← e]; exact nbr_neg hv (hB.fits d hd)
      have hne : I.labels w ≠ I.labels v := by rcases hor with ⟨e1, e2⟩ | ⟨e1, e2⟩ <;> rw [e1, e2] <;> omega
      refine Or.inr ⟨by omega, ?_, ?_, ?_⟩
      · rw [hval]
        rcases hor with ⟨e1, e2⟩ | ⟨e1, e2⟩
        · exact hstrict v w _ hv hw.1 hw hi e1 hne
        · rw [min_comm]; exact hstrict w v _ hw.1 hv hwv hi e2 hne.symm
      · rw [hval]
        rcases hor with ⟨e1, e2⟩ | ⟨e1, e2⟩
        · rw [min_comm]; exact hstrict w v _ hw.1 hv hwv hj e2 hne.symm
        · exact hstrict v w _ hv hw.1 hw hj e1 hne
      · rcases min_choice (I.data v) (I.data w) with e | e
        · exact ⟨v, hv, hval.trans e⟩
        · exact ⟨w, hw.1, hval.trans e⟩
    · obtain ⟨b, hb, rfl⟩ := List.mem_map.mp hc
      exact Or.inl ⟨rfl, rfl, List.mem_range.mp hb⟩
  refine ⟨?_, ?_, ?_, ⟨?_, ?_, ?_⟩, nodup_uniqueConns _, ?_, ?_⟩
  · obtain ⟨b, hb, -⟩ := hB.label 0 hpos
    exact List.ne_nil_of_mem (mem_uniqueConns.mpr (hself b hb))
  · intro c hc
    obtain ⟨h1, h2, -⟩ := graphConns_facts hB hI.ref (mem_uniqueConns.mp hc)
    exact ⟨h1, h2⟩
  · intro c hc
    rcases hval c (mem_uniqueConns.mp hc) with ⟨-, e, hi⟩ | ⟨-, -, -, h⟩
    · exact ⟨_, hB.top_lt _ hi, e.trans (hI.ref _ hi)⟩
    · exact h
  · intro b hb
    exact ⟨_, mem_uniqueConns.mpr (hself b hb), rfl, rfl, rfl⟩
  · intro c hc hne
    rcases hval c (mem_uniqueConns.mp hc) with ⟨e, -⟩ | ⟨-, h1, h2, -⟩
    · exact absurd e hne
    · exact ⟨h1, h2⟩
  · intro c hc e
    rcases hval c (mem_uniqueConns.mp hc) with ⟨-, e', -⟩ | ⟨hne, -⟩
    · exact e'.le
    · exact absurd e hne
  · intro t B
    rw [isDomainAt_congr (fun c => mem_uniqueConns (l := gc) (c := c)) t B]
    exact C79_domains_are_regions hB hM hI.ref
  · intro t b
    have : BasinAt (uniqueConns gc) t b ↔ BasinAt gc t b := by unfold BasinAt; simp only [mem_uniqueConns]
    rw [this]
    exact C79_basin_at hB hI.ref

theorem basins_le_size {I : LabelerIn K} (hI : LabelerOk I) : I.nb ≤ I.s.size := by
  have h := Finset.card_le_card_of_injOn (s := Finset.range I.nb) (t := Finset.range I.s.size) I.maxima
    (fun b hb => by simpa using hI.basins.top_lt b (by simpa using hb))
    (fun a ha b hb e => by
      have h1 := hI.basins.top_label a (by simpa using ha)
      have h2 := hI.basins.top_label b (by simpa using hb)
      have e : I.maxima a = I.maxima b := e
      rw [e, h2] at h1
      exact_mod_cast h1.symm)
  simpa using h

theorem pow_fuel {n nb : ℕ} (h : nb ≤ n) : nb * nb * n ≤ n ^ 3 := by
  calc nb * nb * n ≤ n * n * n := Nat.mul_le_mul_right _ (Nat.mul_le_mul h h)
    _ = n ^ 3 := by ring

theorem labelerLevel {m : Machine K} {I : LabelerIn K} (hI : LabelerOk I) (hm : MachineOk m I.s) {conns : List (Conn K)} (hc : ConnsOk I conns) :
    LevelInput m.fuel m.root m.tol I.s neighbors26 I.vac I.data I.maxima I.nb conns ∧ conns.length + 2 < m.fuel ∧ ∀ c ∈ conns, c.val < 10 ^ 12 := by
  have hlen : (connValues conns).length ≤ I.s.size := length_le_size
    ((List.perm_insertionSort _ _).nodup_iff.mpr (List.nodup_dedup _)) fun x hx => by
      obtain ⟨c, hcc, rfl⟩ := connValues_mem.mp hx
      exact hc.val c hcc
  have hcl : conns.length ≤ I.nb * I.nb * I.s.size := conns_length_le hc.nodup fun c hcc => ⟨(hc.lt c hcc).1, (hc.lt c hcc).2, hc.val c hcc⟩
  have hpow := pow_fuel (basins_le_size hI)
  have hf := hm.fuel
  obtain ⟨b1, b2, b3⟩ := hI.basins.big
  refine ⟨⟨neighbors26_ok, ⟨by omega, by omega, by omega⟩, hm.root, hm.tol0, hm.tol1, fun _ _ w _ => hI.vac w, hI.basins.top_lt, ?_⟩, ?_, fun c hcc => ?_⟩
  · have e2 : neighbors26.length = 26 := rfl
    have := Nat.mul_le_mul_right (I.s.size * 26) hlen
    rw [e2]
    nlinarith
  · have : 0 ≤ 26 * I.s.size ^ 2 := Nat.zero_le _
    omega
  · obtain ⟨w, hw, e⟩ := hc.val c hcc
    rw [e]; exact hI.big w hw

/-- Everything up to the search for the surroundings of the atoms. -/
structure LabelerRunOk (m : Machine K) (I : LabelerIn K) (conns : List (Conn K)) (rows : List (DomainRow K)) (values : List K) : Prop where
  found : labelerConns m I = some conns
  ok : ConnsOk I conns
  level : LevelInput m.fuel m.root m.tol I.s neighbors26 I.vac I.data I.maxima I.nb conns
  len : conns.length + 2 < m.fuel
  big : ∀ c ∈ conns, c.val < 10 ^ 12
  made : domainRows m.fuel I.nb (levelDim m.fuel m.root m.tol I.s neighbors26 I.vac I.data I.maxima conns) I.ref (dataMin I.s I.data) conns =
    some (rows, rows.length)
  domains : labelerDomains m I = some (rowsIn m.junk rows, values)
  asc : values.Pairwise (· < ·)
  short : values.length ≤ I.s.size
  mins : ∀ r ∈ rowsIn m.junk rows, r.minV ∈ values
  vals : ∀ x ∈ values, ∃ w < I.s.size, x = I.data w

theorem LabelerRunOk.input {m : Machine K} {I : LabelerIn K} {conns : List (Conn K)} {rows : List (DomainRow K)} {values : List K} (h : LabelerRunOk m I conns rows values) :
    DomainInput m.fuel I.nb (levelDim m.fuel m.root m.tol I.s neighbors26 I.vac I.data I.maxima conns)
      (fun v b => if b < I.nb then (levelDim m.fuel m.root m.tol I.s neighbors26 I.vac I.data I.maxima conns v b).getD 0 else 0) conns :=
  C73_dimension_computed h.level h.ok.ne h.ok.lt h.len h.big

theorem labeler_run {m : Machine K} {I : LabelerIn K} (hI : LabelerOk I) (hm : MachineOk m I.s) : ∃ conns rows values, LabelerRunOk m I conns rows values := by
  obtain ⟨conns, hrun, hc⟩ := labelerConns_ok hI hm
  obtain ⟨hL, hlen, hbig⟩ := labelerLevel hI hm hc
  have hin := C73_dimension_computed hL hc.ne hc.lt hlen hbig
  obtain ⟨rows, hrows⟩ := C73_domain_rows_total I.ref (dataMin I.s I.data) hin
  obtain ⟨down, hdown, -, -⟩ := labelerMask_some m I false
  have hpos : 0 < I.s.size := by
    obtain ⟨a, b, c⟩ := hI.basins.pos
    exact Nat.mul_pos (Nat.mul_pos a b) c
  have hnd : ((((List.range I.s.size).filter fun v => down.getD v false).map I.data ++ (rowsIn m.junk rows).map DomIn.minV).dedup.insertionSort
      (· ≤ ·)).Nodup := (List.perm_insertionSort _ _).nodup_iff.mpr (List.nodup_dedup _)
  have hvals : ∀ x ∈ (((List.range I.s.size).filter fun v => down.getD v false).map I.data ++ (rowsIn m.junk rows).map DomIn.minV).dedup.insertionSort
      (· ≤ ·), ∃ w < I.s.size, x = I.data w := by
    intro x hx
    rw [List.mem_insertionSort, List.mem_dedup, List.mem_append] at hx
    rcases hx with hx | hx
    · obtain ⟨v, hv, rfl⟩ := List.mem_map.mp hx
      exact ⟨v, List.mem_range.mp (List.mem_filter.mp hv).1, rfl⟩
    · obtain ⟨r, hr, rfl⟩ := List.mem_map.mp hx
      obtain ⟨n, hn⟩ := List.getElem?_of_mem hr
      obtain ⟨r', hr', rfl⟩ := rowsIn_some hn
      obtain ⟨stop, top, hok, -⟩ := domainRows_ok hin hrows
      rcases hp : r'.parent with _ | p
      · obtain ⟨⟨w, hw, e⟩, -⟩ := dataMin_spec I.s I.data hpos
        exact ⟨w, hw, (hok.root r' (List.mem_of_getElem? hr') hp).trans e⟩
      · obtain ⟨-, q, -, -, -, -, -, hmem, -⟩ := hok.parent n r' p hr' hp
        obtain ⟨c, hcc, e⟩ := connValues_mem.mp hmem
        obtain ⟨w, hw, e'⟩ := hc.val c hcc
        exact ⟨w, hw, e.symm.trans e'⟩
  refine ⟨conns, rows, ?_, hrun, hc, hL, hlen, hbig, hrows, ?_, ?_, ?_, ?_, ?_⟩
  · exact (((List.range I.s.size).filter fun v => down.getD v false).map I.data ++ (rowsIn m.junk rows).map DomIn.minV).dedup.insertionSort (· ≤ ·)
  · unfold labelerDomains
    simp only [hrun, hrows, hdown, Option.bind_eq_bind, Option.bind_some]
  · exact (List.pairwise_insertionSort (· ≤ ·) _).imp₂ (fun a b hab hne => lt_of_le_of_ne hab hne) hnd
  · exact length_le_size (data := I.data) hnd hvals
  · intro r hr
    rw [List.mem_insertionSort, List.mem_dedup]
    exact List.mem_append_right _ (List.mem_map_of_mem hr)
  · exact hvals

end BaderKit
