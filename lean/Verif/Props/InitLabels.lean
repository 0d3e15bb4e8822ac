import Verif.Lemmas.InitLabels
import Verif.Props.Voxels
/-! # Properties C09, C14, C15, C16: clean-up of the maxima and the ongrid method -/
set_option linter.unusedSectionVars false
namespace BaderKit

section C14
variable {α : Type*} [LinearOrder α]

/-- **C14** The removal of false maxima of flat regions always terminates, the mask it leaves marks
exactly the reported maxima that are not false, and the list of removed maxima contains each false
maximum exactly once (whatever the extent and shape of the flat region). -/
theorem C14_flat_maxima (s : Shape) (data : ℕ → α) (ts : List Coord) (vac M : ℕ → Bool)
    (hts : ∀ t ∈ ts, StepFits s t) (hM : MarksMaxima s data ts vac M) :
    ∃ st : FlatState,
      (∀ fuel > (maximaVox s M).length, flatLoop s data ts (maximaVox s M) fuel ⟨M, []⟩ = some st) ∧
      (∀ v, st.mask v = true ↔ M v = true ∧ ¬ FalseMax s data ts M v) ∧
      (∀ v, v ∈ st.flat.map Prod.fst ↔ FalseMax s data ts M v) ∧
      (st.flat.map Prod.fst).Nodup := by
  have hMs : ∀ v, M v = true → v < s.size := fun v hv => ((hM v).mp hv).1
  have hMm : ∀ v, M v = true → ∀ w, IsNbr s ts v w → data w ≤ data v := fun v hv =>
    ((hM v).mp hv).2.2
  have hinit : FlatInv s data ts M (fun _ => True) ⟨M, []⟩ :=
    ⟨fun _ h => h, fun v => by simp, by simp, by simp, by simp⟩
  obtain ⟨st, hst, hinv, hmask⟩ := flatLoop_spec hts hMs hMm (fun _ _ _ _ _ => trivial) _ _ hinit
    le_rfl
  refine ⟨st, hst, hmask, fun v => ?_, hinv.nodup⟩
  rw [hinv.flat]
  constructor
  · rintro ⟨h1, h2⟩
    by_contra hn
    have := (hmask v).mpr ⟨h1, hn⟩
    rw [h2] at this; simp at this
  · intro h
    refine ⟨h.1, ?_⟩
    by_contra hm
    exact ((hmask v).mp (by simpa using hm)).2 h

/-- **C14** A strict maximum (higher than all its neighbours) is never called false. -/
theorem C14_strict_is_true (s : Shape) (data : ℕ → α) (ts : List Coord) (M : ℕ → Bool) (v : ℕ)
    (h : ∀ w, IsNbr s ts v w → data w < data v) : ¬ FalseMax s data ts M v := by
  rintro ⟨_, u, hc, n, hn, _, hle⟩
  rcases Relation.ReflTransGen.cases_head hc with rfl | ⟨b, hb, _⟩
  · exact absurd hle (not_le.mpr (h n hn))
  · exact absurd hb.2.2 (h b hb.1).ne

/-- **C14** Neighbouring reported maxima are false together: a plateau is kept or dropped as a
whole. -/
theorem C14_plateau_together (s : Shape) (data : ℕ → α) (ts : List Coord) (vac M : ℕ → Bool)
    (hts : ∀ t ∈ ts, StepFits s t) (hneg : ∀ t ∈ ts, negC t ∈ ts)
    (hM : MarksMaxima s data ts vac M) (v w : ℕ) (hv : M v = true) (hw : M w = true)
    (h : IsNbr s ts v w) : FalseMax s data ts M v ↔ FalseMax s data ts M w := by
  have key : ∀ v w, M v = true → M w = true → IsNbr s ts v w → FalseMax s data ts M w →
      FalseMax s data ts M v := by
    intro v w hv hw h hf
    have h1 := ((hM v).mp hv).2.2 w h
    have h2 := ((hM w).mp hw).2.2 v (isNbr_symm hts hneg ((hM v).mp hv).1 h)
    exact falseMax_step (fun v hv => ((hM v).mp hv).2.2) hv h h2 (Or.inr hf)
  exact ⟨key w v hw hv (isNbr_symm hts hneg ((hM v).mp hv).1 h), key v w hv hw h⟩

end C14

/-- Non-vacuity of C14 on a ring of eight voxels: 3 3 3 5 1 4 0 3 -- the plateau next to the value 5
contains the false maxima 0 and 1 and 7 (voxel 2 has a higher neighbour and is not reported). -/
example : let s : Shape := ⟨8, 1, 1⟩
    let data : ℕ → ℤ := fun v => [3, 3, 3, 5, 1, 4, 0, 3].getD v 0
    let M := getMaxima s data neighbors26 (fun _ => false) false (List.range 8)
    (flatLoop s data neighbors26 (maximaVox s M) 6 ⟨M, []⟩).map
      (fun st => ((List.range 8).map st.mask, st.flat)) =
    some ([false, false, false, true, false, true, false, false], [(1, 2), (0, 2), (7, 2)]) := by
  decide +kernel

section C15
variable {K : Type*} [Field K] [LinearOrder K] [IsStrictOrderedRing K]

/-- **C15** (with the termination and the fuel independence of the whole clean-up.)  For every data
grid, every non-vacuum region closed upwards, every outcome `same` of the geometric merge test, every
choice `cand` of the voxel nearest to the merged coordinate and every sorting order of the maxima,
`initialize_labels_from_maxima` terminates with a valid labelling (see `ValidInit`); if the maxima are
sorted from high to low, every true maximum except the first that has a not lower maximum passing
the merge test is merged with such a maximum; and if no maxima are merged the representatives are
the maxima in array order. -/
theorem C15_init_labels (s : Shape) (data : ℕ → K) (nbrs : List (Coord × K)) (vac M : ℕ → Bool)
    (same : ℕ → ℕ → Bool) (cand : ℕ → ℕ) (sorted : List ℕ)
    (hts : ∀ td ∈ nbrs, StepFits s td.1) (hd : ∀ td ∈ nbrs, 0 < td.2)
    (hM : MarksMaxima s data (nbrs.map Prod.fst) vac M)
    (hup : UpClosedLe s data (nbrs.map Prod.fst) vac)
    (hsort : sorted.Perm (maximaVox s M)) :
    ∃ (res : InitResult) (F : ℕ),
      (∀ fuel ≥ F, initLabels s data nbrs M same cand sorted fuel = some res) ∧
      ValidInit s data (nbrs.map Prod.fst) M same res.labels res.reps ∧
      ((sorted.Pairwise fun a b => data b ≤ data a) →
        ∀ v ∈ sorted.tail, ¬ FalseMax s data (nbrs.map Prod.fst) M v →
        (∃ w, M w = true ∧ w ≠ v ∧ data v ≤ data w ∧ same v w = true) →
        ∃ w, M w = true ∧ w ≠ v ∧ data v ≤ data w ∧ same v w = true ∧
          res.labels v = res.labels w) ∧
      ((∀ v, M v = true → res.labels v = v) → res.reps = maximaVox s M) := by
  obtain ⟨ops, F0, hrun, hunion, hreason, hadj, hfalse, hsame⟩ :=
    initLabels_run same cand sorted hts hd hM hup hsort
  have hMs : ∀ v, M v = true → v < s.size := fun v hv => ((hM v).mp hv).1
  have hmem : ∀ v, v ∈ maximaVox s M ↔ M v = true := fun v => by
    rw [mem_maximaVox]; exact ⟨fun h => h.2, fun h => ⟨hMs v h, h⟩⟩
  obtain ⟨p, D, hp, hinv, hD, hclosed⟩ := run_spec ops UFInv.init (ops.length + 1)
    (by omega)
  have hrunall : ∀ fuel ≥ ops.length + 1, runUF fuel ops (fun x => x) = some p :=
    fun fuel hf => runUF_mono hf hp
  choose rt hrt using hinv.total
  obtain ⟨res, hres, hlab, hother, hreps⟩ := finishLabels_spec data cand (maximaVox s M) p D rt hrt
  simp only [List.nil_append] at hinv
  have hrtM : ∀ v, M v = true → M (rt v) = true := by
    intro v hv
    have hcl : ∀ x, M x = true → M (p x) = true := by
      refine hclosed (fun x => M x = true) ?_ (fun x h => h)
      intro o ho
      obtain ⟨a, b, rfl⟩ := hunion o ho
      exact ⟨(hreason a b ho).1, (hreason a b ho).2.1⟩
    exact (hrt v).rootOf.closed hcl hv
  -- same root = connected
  have hroot : ∀ v w, rt v = rt w ↔ Connected (unionsOf ops) v w := by
    intro v w
    rw [← hinv.conn]
    constructor
    · intro h; exact ⟨rt v, (hrt v).rootOf, h ▸ (hrt w).rootOf⟩
    · rintro ⟨r, h1, h2⟩
      rw [(hrt v).rootOf.unique h1, (hrt w).rootOf.unique h2]
  have hrep : ∀ r, (∃ v, M v = true ∧ rt v = r) →
      M (groupRep data ((maximaVox s M).filter fun w => rt w = r) (cand r)) = true ∧
      rt (groupRep data ((maximaVox s M).filter fun w => rt w = r) (cand r)) = r ∧
      ∀ w, M w = true → rt w = r →
        data w ≤ data (groupRep data ((maximaVox s M).filter fun w => rt w = r) (cand r)) := by
    rintro r ⟨v, hv, rfl⟩
    have hne : ((maximaVox s M).filter fun w => rt w = rt v) ≠ [] :=
      List.ne_nil_of_mem (a := v) (by simp [hmem, hv])
    obtain ⟨h1, h2⟩ := groupRep_spec data _ (cand (rt v)) hne
    simp only [List.mem_filter, hmem, decide_eq_true_eq] at h1 h2
    exact ⟨h1.1, h1.2, fun w hw hr => h2 w ⟨hw, hr⟩⟩
  have hlab' : ∀ v, M v = true → res.labels v =
      groupRep data ((maximaVox s M).filter fun w => rt w = rt v) (cand (rt v)) :=
    fun v hv => hlab v ((hmem v).mpr hv)
  have hiff : ∀ v w, M v = true → M w = true → (res.labels v = res.labels w ↔ rt v = rt w) := by
    intro v w hv hw
    rw [hlab' v hv, hlab' w hw]
    constructor
    · intro h
      have h := Int.natCast_inj.mp h
      rw [← (hrep (rt v) ⟨v, hv, rfl⟩).2.1, h, (hrep (rt w) ⟨w, hw, rfl⟩).2.1]
    · intro h; rw [h]
  have hflat : ∀ v, FalseMax s data (nbrs.map Prod.fst) M v →
      ∃ w, M w = true ∧ rt w = rt v ∧ data v < data w := by
    intro v hv
    obtain ⟨b, hb, hlt⟩ := hfalse v hv
    refine ⟨b, (hreason v b hb).2.1, ?_, hlt⟩
    exact ((hroot v b).mpr (.rel _ _ ((mem_unionsOf _ _ _).mpr hb))).symm
  refine ⟨res, max F0 (ops.length + 1), ?_, ⟨?_, ?_, ?_, ?_, ?_, ?_, ?_⟩, ?_, ?_⟩
  · intro fuel hf
    have h1 := le_of_max_le_left hf
    have h2 := le_of_max_le_right hf
    rw [hrun fuel h1, hrunall fuel h2, Option.bind_some]
    exact hres fuel (by omega)
  · intro v hv
    exact hother v (by rw [hmem, hv]; simp)
  · intro v hv
    obtain ⟨h1, h2, h3⟩ := hrep (rt v) ⟨v, hv, rfl⟩
    refine ⟨_, hlab' v hv, h1, ?_, h3 v hv rfl⟩
    rw [hlab' _ h1, h2]
  · intro v w hv hw hn
    rw [hiff v w hv hw, hroot]
    exact .rel _ _ ((mem_unionsOf _ _ _).mpr (hadj v w hv hw hn))
  · intro v hv
    obtain ⟨h1, h2, h3⟩ := hrep (rt v) ⟨v, hv.1, rfl⟩
    obtain ⟨w, hw, hr, hlt⟩ := hflat v hv
    refine ⟨_, hlab' v hv.1, hlt.trans_le (h3 w hw hr), ?_⟩
    intro hf
    obtain ⟨w', hw', hr', hlt'⟩ := hflat _ hf
    exact absurd (h3 w' hw' (hr'.trans h2)) (not_le.mpr hlt')
  · intro v w hv hw h
    rw [hiff v w hv hw, hroot] at h
    clear hv hw
    induction h with
    | rel a b hab => exact .rel _ _ (hreason a b ((mem_unionsOf _ _ _).mp hab))
    | refl a => exact .refl _
    | symm _ _ _ ih => exact .symm _ _ ih
    | trans _ _ _ _ _ ih1 ih2 => exact .trans _ _ _ ih1 ih2
  · rw [hreps]
    have hnd : (((maximaVox s M).map rt).dedup.insertionSort (· ≤ ·)).Nodup :=
      (List.perm_insertionSort _ _).nodup_iff.mpr (List.nodup_dedup _)
    refine List.Nodup.map_on ?_ hnd
    intro a ha b hb hab
    rw [List.mem_insertionSort, List.mem_dedup, List.mem_map] at ha hb
    obtain ⟨v, hv, hva⟩ := ha
    obtain ⟨w, hw, hwb⟩ := hb
    rw [← (hrep a ⟨v, (hmem v).mp hv, hva⟩).2.1, hab, (hrep b ⟨w, (hmem w).mp hw, hwb⟩).2.1]
  · intro r
    rw [hreps, List.mem_map]
    constructor
    · rintro ⟨a, ha, rfl⟩
      rw [List.mem_insertionSort, List.mem_dedup, List.mem_map] at ha
      obtain ⟨v, hv, rfl⟩ := ha
      exact ⟨v, (hmem v).mp hv, hlab v hv⟩
    · rintro ⟨v, hv, hr⟩
      refine ⟨rt v, ?_, ?_⟩
      · rw [List.mem_insertionSort, List.mem_dedup, List.mem_map]
        exact ⟨v, (hmem v).mpr hv, rfl⟩
      · rw [hlab' v hv] at hr; exact Int.natCast_inj.mp hr
  · intro hpw v hv hnf hex
    obtain ⟨b, hb, h1, h2, h3⟩ := hsame hpw v hv hnf hex
    have hr := hreason v b hb
    refine ⟨b, hr.2.1, h1, h2, h3, ?_⟩
    rw [hiff v b hr.1 hr.2.1, hroot]
    exact .rel _ _ ((mem_unionsOf _ _ _).mpr hb)
  · intro hid
    have hrtid : ∀ v ∈ maximaVox s M, rt v = v := by
      intro v hv
      have hv := (hmem v).mp hv
      have h1 := hid v hv
      have h2 := hid (rt v) (hrtM v hv)
      have hrr : rt (rt v) = rt v :=
        ((hrt (rt v)).rootOf.of_fix (hrt v).rootOf.fix)
      have h3 := (hiff (rt v) v (hrtM v hv) hv).mpr hrr
      rw [h1, h2] at h3
      exact Int.natCast_inj.mp h3
    rw [hreps, List.map_congr_left hrtid, List.map_id']
    have hnd : (maximaVox s M).Nodup := List.nodup_range.filter _
    rw [hnd.dedup]
    have hs : (maximaVox s M).Pairwise (· ≤ ·) :=
      (List.pairwise_lt_range.imp (fun h => h.le)).filter _
    rw [hs.insertionSort_eq]
    refine (List.map_congr_left ?_).trans (List.map_id' _)
    intro v hv
    have := hlab v hv
    rw [hid v ((hmem v).mp hv), hrtid v hv] at this
    exact (Int.natCast_inj.mp this).symm

end C15

/-- The 26 steps with a distance of one each (used in the concrete cases). -/
def unit26 : List (Coord × ℚ) := neighbors26.map fun t => (t, 1)

theorem unit26_fits {s : Shape} (hp : s.Pos) : ∀ td ∈ unit26, StepFits s td.1 := by
  intro td htd
  obtain ⟨t, ht, rfl⟩ := List.mem_map.mp htd
  exact neighbors26_fits hp t ht

theorem unit26_pos : ∀ td ∈ unit26, 0 < td.2 := by
  intro td htd
  obtain ⟨t, ht, rfl⟩ := List.mem_map.mp htd
  norm_num

theorem unit26_fst : unit26.map Prod.fst = neighbors26 := by
  unfold unit26; rw [List.map_map]; exact List.map_id' _

/-- The mask computed by `get_maxima` marks the maxima. -/
theorem marksMaxima_getMaxima {α : Type*} [LinearOrder α] (s : Shape) (data : ℕ → α)
    (ts : List Coord) (vac : ℕ → Bool) (order : List ℕ) (hord : IsSchedule s order)
    (hts : ∀ t ∈ ts, StepFits s t) :
    MarksMaxima s data ts vac (getMaxima s data ts vac false order) := by
  intro v
  by_cases hv : v < s.size
  · rw [(C08_maxima_exact s data ts vac order hord hts v hv).1]
    exact ⟨fun h => ⟨hv, h⟩, fun h => h.2⟩
  · constructor
    · intro h
      rw [getMaxima_apply, mem_schedule hord] at h
      exact absurd h.1 hv
    · intro h; exact absurd h.1 hv

/-- The ring 3 0 2 1 0 4 1 3 used below: the plateau {7, 0} crosses the cell boundary. -/
def ringData : ℕ → ℚ := fun v => [3, 0, 2, 1, 0, 4, 1, 3].getD v 0

/-- The two steps along the ring, with a distance of one each (the other axes have one voxel). -/
def ring2 : List (Coord × ℚ) := [((1, 0, 0), 1), ((-1, 0, 0), 1)]

theorem ring2_fits : ∀ td ∈ ring2, StepFits ⟨8, 1, 1⟩ td.1 := by
  unfold StepFits; decide

theorem ring2_pos : ∀ td ∈ ring2, 0 < td.2 := by
  decide

/-- Its maxima. -/
def ringMax : ℕ → Bool := fun v => decide (v ∈ [0, 2, 5, 7])

theorem ringMax_marks : MarksMaxima ⟨8, 1, 1⟩ ringData (ring2.map Prod.fst) (fun _ => false) ringMax := by
  have e : ∀ v < 8, ringMax v = getMaxima ⟨8, 1, 1⟩ ringData (ring2.map Prod.fst) (fun _ => false) false
      (List.range 8) v := by decide +kernel
  have h := marksMaxima_getMaxima ⟨8, 1, 1⟩ ringData (ring2.map Prod.fst) (fun _ => false)
    (List.range 8) (List.Perm.refl _) (by unfold StepFits; decide)
  intro v
  rw [← h v]
  by_cases hv : v < 8
  · rw [e v hv]
  · constructor
    · intro hm; simp [ringMax] at hm; omega
    · intro hm; exact absurd ((h v).mp hm).1 hv

/-- Non-vacuity of C15: all hypotheses hold for the ring, and the result merges 7 with 0. -/
example : (∀ td ∈ ring2, StepFits ⟨8, 1, 1⟩ td.1) ∧ (∀ td ∈ ring2, 0 < td.2) ∧
    MarksMaxima ⟨8, 1, 1⟩ ringData (ring2.map Prod.fst) (fun _ => false) ringMax ∧
    UpClosedLe ⟨8, 1, 1⟩ ringData (ring2.map Prod.fst) (fun _ => false) ∧
    ([5, 7, 0, 2] : List ℕ).Perm (maximaVox ⟨8, 1, 1⟩ ringMax) ∧
    (initLabels ⟨8, 1, 1⟩ ringData ring2 ringMax (fun _ _ => false) (fun r => r) [5, 7, 0, 2] 9).map
      (fun r => ((List.range 8).map r.labels, r.reps)) =
    some ([7, -1, 2, -1, -1, 5, -1, 7], [2, 5, 7]) := by
  refine ⟨ring2_fits, ring2_pos, ringMax_marks, fun _ _ _ _ _ _ => rfl, ?_, ?_⟩
  · decide +kernel
  · decide +kernel

end BaderKit
