import Verif.Props.Neargrid
/-! # Property C22: the refinement of the neargrid method -/
set_option linter.unusedSectionVars false
namespace BaderKit
variable {K : Type*} [Field K] [LinearOrder K] [IsStrictOrderedRing K] [FloorRing K]

/-- The labels handed to the refinement: `-1` in the vacuum, basin numbers elsewhere. -/
def RankedLabels (s : Shape) (vac : ℕ → Bool) (labels : ℕ → ℤ) : Prop :=
  ∀ v < s.size, (vac v = true → labels v = -1) ∧ (vac v = false → 0 ≤ labels v)

theorem Refined.shift {I : NearIn K} {vac : ℕ → Bool} {labels : ℕ → ℤ} {S : ℕ → Prop} {v : ℕ} :
    Refined I vac (fun u => labels u + 1) S v ↔ Refined I vac labels S v := by
  constructor
  · intro h
    induction h with
    | start h => exact .start h
    | next _ hc hne hn hv ih => exact .next ih hc (fun e => hne (by simp [e])) hn hv
  · intro h
    induction h with
    | start h => exact .start h
    | next _ hc hne hn hv ih => exact .next ih hc (fun e => hne (by simpa using e)) hn hv

theorem refineStart_mask {I : NearIn K} {vac : ℕ → Bool} (hI : NearInput I vac) {order : List ℕ}
    (hord : IsSchedule I.s order) (labels : ℕ → ℤ) (v : ℕ) :
    (refineStart I vac order labels).mask v = true ↔ EdgeStart I vac labels v := by
  simp only [refineStart, EdgeStart]
  by_cases hm : I.maxm v = true
  · simp [hm]
  · simp only [hm, Bool.false_eq_true, if_false]
    rw [getEdges_apply, edgeScan_iff, mem_schedule hord]
    constructor
    · rintro ⟨hv, hvac, t, ht, hne, hn⟩
      exact ⟨hv, hvac, by simp, _, (isNbr_iff hI.fits' hv).mpr ⟨t, ht, rfl⟩, hn,
        fun e => hne (by simp [e])⟩
    · rintro ⟨hv, hvac, _, w, hw, hn, hne⟩
      obtain ⟨t, ht, rfl⟩ := (isNbr_iff hI.fits' hv).mp hw
      exact ⟨hv, hvac, t, ht, fun e => hne (by simpa using e), hn⟩

theorem refineStart_inv {I : NearIn K} {vac : ℕ → Bool} (hI : NearInput I vac) {F : ℕ} {top : ℕ → ℕ}
    (ht : IsTop I vac F top) {order : List ℕ} (hord : IsSchedule I.s order) {labels : ℕ → ℤ}
    (hlab : RankedLabels I.s vac labels) :
    LoopInv I vac top (fun v => labels v + 1) (EdgeStart I vac labels)
      (refineStart I vac order labels) := by
  have hmask := refineStart_mask hI hord labels
  have hpos : ∀ v < I.s.size, vac v = false → 0 < labels v + 1 := by
    intro v hv h; have := (hlab v hv).2 h; omega
  have hl : ∀ v, (refineStart I vac order labels).lab v =
      if (refineStart I vac order labels).mask v then -(labels v + 1) else labels v + 1 := fun _ => rfl
  have hneg : ∀ v, (refineStart I vac order labels).mask v = true →
      (refineStart I vac order labels).lab v < 0 := by
    intro v hv
    have he := (hmask v).mp hv
    rw [hl, if_pos hv]
    have := hpos v he.1 he.2.1; omega
  have hneg' : ∀ v, v < I.s.size → (refineStart I vac order labels).lab v < 0 →
      (refineStart I vac order labels).mask v = true := by
    intro v hv h
    by_contra hc
    rw [hl, if_neg hc] at h
    by_cases hvac : vac v = true
    · rw [(hlab v hv).1 hvac] at h; omega
    · have := hpos v hv (by simpa using hvac); omega
  refine { zero := ?_, mask := ?_, start := ?_, pos := ?_, todo := ?_, fin := ?_, nbrs := ?_, ref := ?_,
           top0 := ?_, noneg := ?_ }
  · intro v hv
    rw [hl]
    by_cases hvac : vac v = true
    · rw [(hlab v hv).1 hvac]; simp [hvac]
    · have := hpos v hv (by simpa using hvac)
      constructor
      · intro h; split_ifs at h <;> omega
      · intro h; exact absurd h hvac
  · intro v hv
    exact ⟨((hmask v).mp hv).1, hneg v hv⟩
  · intro v hv; exact hneg v ((hmask v).mpr hv)
  · intro v hv
    by_cases hm : (refineStart I vac order labels).mask v = true
    · exact absurd (hneg v hm) hv
    · rw [hl, if_neg hm]
  · intro v hv
    have he := (hmask v).mp hv
    rw [hl, if_pos hv, abs_neg, abs_of_pos (hpos v he.1 he.2.1)]
  · intro v hv h1 h2
    rw [hneg' v hv h1] at h2; exact absurd h2 (by simp)
  · intro v hv h1 h2
    rw [hneg' v hv h1] at h2; exact absurd h2 (by simp)
  · intro v hv h; exact .start ((hmask v).mp (hneg' v hv h))
  · intro v hv
    have hm := (hI.maxima v).mp hv
    have : ¬ (refineStart I vac order labels).mask v = true := by
      intro hc
      have := ((hmask v).mp hc).2.2.1
      rw [hv] at this; exact absurd this (by simp)
    rw [hl, if_neg this, abs_of_pos (hpos v hm.1 hm.2.1)]
  · intro v hv
    show 0 ≤ labels v + 1
    by_cases hvac : vac v = true
    · rw [(hlab v hv).1 hvac]; omega
    · have := hpos v hv (by simpa using hvac); omega

theorem refined_not_vac {I : NearIn K} {vac : ℕ → Bool} {labels : ℕ → ℤ} {v : ℕ}
    (h : Refined I vac labels (EdgeStart I vac labels) v) : vac v = false := by
  cases h with
  | start h => exact h.2.1
  | next _ _ _ _ hv => exact hv

/-- The specified result of the refinement. -/
def RefineSpec (I : NearIn K) (vac : ℕ → Bool) (labels out : ℕ → ℤ) : Prop :=
  ∀ v < I.s.size, (vac v = true → out v = -1) ∧
    (Refined I vac labels (EdgeStart I vac labels) v → ∀ m, ClimbsTo I vac v m → out v = labels m) ∧
    (¬ Refined I vac labels (EdgeStart I vac labels) v → out v = labels v)

theorem final_spec {I : NearIn K} {vac : ℕ → Bool} (hI : NearInput I vac) {F : ℕ} {top : ℕ → ℕ}
    (ht : IsTop I vac F top) {labels : ℕ → ℤ} (hlab : RankedLabels I.s vac labels) {m : RMem}
    (h : LoopInv I vac top (fun v => labels v + 1) (EdgeStart I vac labels) m)
    (hm : maskVox I.s m.mask = []) : RefineSpec I vac labels (fun v => |m.lab v| - 1) := by
  have hf := h.final hI ht (fun v hv => hv.1) hm
  intro v hv
  obtain ⟨_, h2, h3⟩ := hf v hv
  rw [Refined.shift] at h2 h3
  refine ⟨fun hvac => ?_, fun hr m' hc => ?_, fun hr => ?_⟩
  · have hr : ¬ Refined I vac labels (EdgeStart I vac labels) v := by
      intro hr; have := refined_not_vac hr; rw [hvac] at this; exact absurd this (by simp)
    show |m.lab v| - 1 = -1
    rw [h3 hr, (hlab v hv).1 hvac]; rfl
  · have := climbsTo_unique hc (ht.climbs v hv (refined_not_vac hr))
    show |m.lab v| - 1 = labels m'
    rw [h2 hr, this]; omega
  · show |m.lab v| - 1 = labels v
    rw [h3 hr]; omega

theorem RefineSpec.unique {I : NearIn K} {vac : ℕ → Bool} (hI : NearInput I vac)
    {labels out out' : ℕ → ℤ} (h : RefineSpec I vac labels out) (h' : RefineSpec I vac labels out') :
    ∀ v < I.s.size, out v = out' v := by
  intro v hv
  obtain ⟨a1, a2, a3⟩ := h v hv
  obtain ⟨b1, b2, b3⟩ := h' v hv
  by_cases hr : Refined I vac labels (EdgeStart I vac labels) v
  · obtain ⟨m, ⟨k, _, hk⟩, _⟩ := C21_climb I vac hI v hv (refined_not_vac hr)
    rw [a2 hr m ⟨k, hk⟩, b2 hr m ⟨k, hk⟩]
  · rw [a3 hr, b3 hr]

/-- **C22** The refinement terminates for every processing order of every pass.  Vacuum voxels keep `-1`;
the refined voxels are exactly the basin edges and, repeatedly, the neighbours of refined voxels whose
label changed; a refined voxel gets the label of the maximum at the end of its near-grid trajectory and
all others keep their label. -/
theorem C22_refine (I : NearIn K) (vac : ℕ → Bool) (hI : NearInput I vac) (labels : ℕ → ℤ)
    (hlab : RankedLabels I.s vac labels) (order : List ℕ) (hord : IsSchedule I.s order)
    (perm : List ℕ → List ℕ) (hperm : ∀ l, (perm l).Perm l) :
    ∃ (out : ℕ → ℤ) (F : ℕ),
      (∀ fuel ≥ F, ∀ rounds ≥ F, neargridRefine I vac order perm fuel rounds labels = some out) ∧
      RefineSpec I vac labels out := by
  obtain ⟨top, ht⟩ := exists_top hI
  obtain ⟨m, h1, h2, h3⟩ := refineLoop_spec hI ht (L0 := fun v => labels v + 1)
    (S := EdgeStart I vac labels) perm hperm (I.s.size * (I.s.size + 1) + I.s.size + 1) (by omega) _ _
    (refineStart_inv hI ht hord hlab) le_rfl
  refine ⟨fun v => |m.lab v| - 1, max (I.s.size * (I.s.size + 1) + I.s.size + 1)
    (posCount I.s (refineStart I vac order labels) + 2), fun fuel hf rounds hr => ?_,
    final_spec hI ht hlab h1 h2⟩
  obtain ⟨m', g1, g2, g3⟩ := refineLoop_spec hI ht (L0 := fun v => labels v + 1)
    (S := EdgeStart I vac labels) perm hperm fuel (by omega) _ _
    (refineStart_inv hI ht hord hlab) le_rfl
  have e : m' = m := by
    have a := g3 rounds (by omega)
    -- more fuel for the climbs does not change the result
    have key : ∀ k m0, LoopInv I vac top (fun v => labels v + 1) (EdgeStart I vac labels) m0 →
        refineLoop I perm fuel k m0 =
          refineLoop I perm (I.s.size * (I.s.size + 1) + I.s.size + 1) k m0 := by
      intro k
      induction k with
      | zero => intro m0 _; rfl
      | succ k ih =>
        intro m0 h0
        rw [refineLoop, refineLoop]
        by_cases hm : maskVox I.s m0.mask = []
        · rw [if_pos hm, if_pos hm]
        · rw [if_neg hm, if_neg hm]
          have hmem : ∀ v, v ∈ perm (maskVox I.s m0.mask) ↔ m0.mask v = true := by
            intro v
            rw [(hperm _).mem_iff, mem_maskVox]
            exact ⟨fun h => h.2, fun hv => ⟨(h0.mask v hv).1, hv⟩⟩
          have hnd : (perm (maskVox I.s m0.mask)).Nodup :=
            (hperm _).nodup_iff.mpr (List.nodup_range.filter _)
          have hvox : ∀ (l : List ℕ) (P : ℕ → Prop) (m1 : RMem) (c : ℕ), l.Nodup →
              (∀ v ∈ l, m0.mask v = true ∧ ¬ P v) → (∀ v, P v → m0.mask v = true) →
              AfterPass I top m0 P m1 →
              l.foldlM (refineVoxel I fuel) (m1, c) =
                l.foldlM (refineVoxel I (I.s.size * (I.s.size + 1) + I.s.size + 1)) (m1, c) := by
            intro l
            induction l with
            | nil => intros; rfl
            | cons v l ihl =>
              intro P m1 c hnd hin hP ha
              obtain ⟨hv, hvP⟩ := hin v (by simp)
              have hz := ha.zeroVac hI ht h0.toPassOK hP
              have e1 := ht.loop v (h0.mask v hv).1 (h0.nonvac hv) m1.lab hz fuel (by omega)
              have e2 := ht.loop v (h0.mask v hv).1 (h0.nonvac hv) m1.lab hz
                (I.s.size * (I.s.size + 1) + I.s.size + 1) (by omega)
              have e3 : refineVoxel I fuel (m1, c) v =
                  refineVoxel I (I.s.size * (I.s.size + 1) + I.s.size + 1) (m1, c) v := by
                simp only [refineVoxel, e1, e2]
              rw [List.foldlM_cons, List.foldlM_cons, e3]
              obtain ⟨m2, c2, e4, h4, _⟩ := refineVoxel_spec hI ht h0.toPassOK hP ha c hv hvP
                (I.s.size * (I.s.size + 1) + I.s.size + 1) (by omega)
              rw [e4]
              obtain ⟨hvn, hnd'⟩ := List.nodup_cons.mp hnd
              exact ihl (fun u => P u ∨ u = v) m2 c2 hnd'
                (fun u hu => ⟨(hin u (by simp [hu])).1, by
                  rintro (hc | rfl)
                  · exact (hin u (by simp [hu])).2 hc
                  · exact hvn hu⟩)
                (by rintro u (hu | rfl)
                    · exact hP u hu
                    · exact hv) h4
          have e5 : refineRound I fuel (perm (maskVox I.s m0.mask)) m0 =
              refineRound I (I.s.size * (I.s.size + 1) + I.s.size + 1) (perm (maskVox I.s m0.mask)) m0 :=
            hvox _ (fun _ => False) m0 0 hnd (fun v hv => ⟨(hmem v).mp hv, id⟩) (fun _ h => h.elim)
              afterPass_nil
          rw [e5]
          obtain ⟨m1, c1, e1, h1, _⟩ := refineRound_spec hI ht h0.toPassOK
            (I.s.size * (I.s.size + 1) + I.s.size + 1) (by omega)
            (perm (maskVox I.s m0.mask)) (fun _ => False) m0 0 hnd
            (fun v hv => ⟨(hmem v).mp hv, id⟩) (fun _ h => h.elim) afterPass_nil
          have h1' : AfterPass I top m0 (fun v => m0.mask v = true) m1 := by
            have : (fun v => m0.mask v = true) = fun u => False ∨ u ∈ perm (maskVox I.s m0.mask) := by
              funext u; simp [hmem]
            rw [this]; exact h1
          have e6 : refineRound I (I.s.size * (I.s.size + 1) + I.s.size + 1)
            (perm (maskVox I.s m0.mask)) m0 = some (m1, c1) := e1
          rw [e6]
          simp only [Option.bind_some]
          rw [ih m1 (h0.step hI ht h1')]
    have b := h3 rounds (by omega)
    rw [key rounds _ (refineStart_inv hI ht hord hlab), b] at a
    exact (Option.some.inj a).symm
  unfold neargridRefine
  rw [g3 rounds (by omega), e]
  rfl

/-- **C22** The result does not depend on the order in which the voxels of a pass are processed, nor on
the order used by the edge search. -/
theorem C22_order_independent (I : NearIn K) (vac : ℕ → Bool) (hI : NearInput I vac) (labels : ℕ → ℤ)
    (hlab : RankedLabels I.s vac labels) (order order' : List ℕ) (hord : IsSchedule I.s order)
    (hord' : IsSchedule I.s order') (perm perm' : List ℕ → List ℕ) (hperm : ∀ l, (perm l).Perm l)
    (hperm' : ∀ l, (perm' l).Perm l) :
    ∃ (out out' : ℕ → ℤ) (F : ℕ), (∀ fuel ≥ F, ∀ rounds ≥ F,
      neargridRefine I vac order perm fuel rounds labels = some out ∧
      neargridRefine I vac order' perm' fuel rounds labels = some out') ∧
      ∀ v < I.s.size, out v = out' v := by
  obtain ⟨o1, F1, h1, g1⟩ := C22_refine I vac hI labels hlab order hord perm hperm
  obtain ⟨o2, F2, h2, g2⟩ := C22_refine I vac hI labels hlab order' hord' perm' hperm'
  exact ⟨o1, o2, max F1 F2, fun fuel hf rounds hr =>
    ⟨h1 fuel (le_of_max_le_left hf) rounds (le_of_max_le_left hr),
     h2 fuel (le_of_max_le_right hf) rounds (le_of_max_le_right hr)⟩, g1.unique hI g2⟩

/-- **C22** The same result is obtained when the iterations of each pass run on threads whose reads and
writes of the shared arrays are interleaved arbitrarily. -/
theorem C22_threads (I : NearIn K) (vac : ℕ → Bool) (hI : NearInput I vac) (labels : ℕ → ℤ)
    (hlab : RankedLabels I.s vac labels) (order : List ℕ) (hord : IsSchedule I.s order) (m : RMem)
    (hrun : RefineRun I (refineStart I vac order labels) m) :
    RefineSpec I vac labels (fun v => |m.lab v| - 1) := by
  obtain ⟨top, ht⟩ := exists_top hI
  have key : ∀ m0 m, RefineRun I m0 m →
      LoopInv I vac top (fun v => labels v + 1) (EdgeStart I vac labels) m0 →
      LoopInv I vac top (fun v => labels v + 1) (EdgeStart I vac labels) m ∧
        maskVox I.s m.mask = [] := by
    intro m0 m h
    induction h with
    | stop hm => intro h0; exact ⟨h0, hm⟩
    | pass sched _ hdone _ ih =>
      intro h0
      exact ih (h0.step hI ht (rrun_afterPass hI ht h0.toPassOK sched hdone))
  obtain ⟨h1, h2⟩ := key _ _ hrun (refineStart_inv hI ht hord hlab)
  exact final_spec hI ht hlab h1 h2

/-- **C22** No thread of a pass can be held up: there is a number of steps after which every thread that
was scheduled that often is finished, whatever the others do. -/
theorem C22_threads_finish (I : NearIn K) (vac : ℕ → Bool) (hI : NearInput I vac) (m : RMem)
    (hz : ZeroVac I.s vac m.lab) (hm : ∀ v, m.mask v = true → v < I.s.size ∧ m.lab v < 0) :
    ∃ B, ∀ (sched : List ℕ) (v : ℕ), m.mask v = true → B ≤ sched.count v →
      (rrun I (maskVox I.s m.mask) m sched).2 v = .done := by
  obtain ⟨top, ht⟩ := exists_top hI
  refine ⟨tmeas I (.start : RPC K), fun sched v hv hB => tmeas_zero (I := I) ?_⟩
  have := rrun_meas hI ht ⟨hz, hm⟩ sched hv (m, fun _ => .start) rinv_init
  have h2 : tmeas I ((rrun I (maskVox I.s m.mask) m sched).2 v) ≤
      tmeas I (.start : RPC K) - sched.count v := this
  omega

/-- **C22** Each voxel is refined at most once: in the sequence of memories at the start of the passes no
voxel is marked twice. -/
theorem C22_once (I : NearIn K) (vac : ℕ → Bool) (hI : NearInput I vac) (labels : ℕ → ℤ)
    (hlab : RankedLabels I.s vac labels) (order : List ℕ) (hord : IsSchedule I.s order)
    (ms : ℕ → RMem) (n : ℕ) (h0 : ms 0 = refineStart I vac order labels)
    (hstep : ∀ k < n, ∃ sched, (∀ v ∈ maskVox I.s (ms k).mask,
      (rrun I (maskVox I.s (ms k).mask) (ms k) sched).2 v = .done) ∧
      ms (k + 1) = (rrun I (maskVox I.s (ms k).mask) (ms k) sched).1) :
    ∀ i j, i < j → j ≤ n → ∀ v, ¬ ((ms i).mask v = true ∧ (ms j).mask v = true) := by
  obtain ⟨top, ht⟩ := exists_top hI
  have hinv : ∀ k ≤ n, LoopInv I vac top (fun v => labels v + 1) (EdgeStart I vac labels) (ms k) := by
    intro k
    induction k with
    | zero => intro _; rw [h0]; exact refineStart_inv hI ht hord hlab
    | succ k ih =>
      intro hk
      have h := ih (by omega)
      obtain ⟨sched, hd, e⟩ := hstep k (by omega)
      rw [e]
      exact h.step hI ht (rrun_afterPass hI ht h.toPassOK sched hd)
  have hpass : ∀ k < n, AfterPass I top (ms k) (fun v => (ms k).mask v = true) (ms (k + 1)) := by
    intro k hk
    obtain ⟨sched, hd, e⟩ := hstep k hk
    rw [e]
    exact rrun_afterPass hI ht (hinv k hk.le).toPassOK sched hd
  have hneg : ∀ k < n, ∀ v, v < I.s.size → (ms k).lab v < 0 → (ms (k + 1)).lab v < 0 := by
    intro k hk v hv hl
    have hz := (hinv (k + 1) hk).zero
    by_cases hp : (ms k).mask v = true
    · have hnv := (hinv k hk.le).nonvac hp
      have : (ms (k + 1)).lab v ≠ 0 := by
        intro hc; have := (hz v hv).mp hc; rw [hnv] at this; exact absurd this (by simp)
      have h2 := (hpass k hk).lab_in v hp
      have := abs_nonneg ((ms k).lab (top v))
      omega
    · rw [(hpass k hk).lab_out v hp (fun hq => by have := hq.1; omega)]; exact hl
  intro i j hij hj v ⟨hi, hjm⟩
  obtain ⟨hvs, hl⟩ := (hinv i (by omega)).mask v hi
  have hl' : ∀ k, i ≤ k → k ≤ n → (ms k).lab v < 0 := by
    intro k hk
    induction k, hk using Nat.le_induction with
    | base => intro _; exact hl
    | succ k hk ih => intro hn; exact hneg k (by omega) v hvs (ih (by omega))
  obtain ⟨k, rfl⟩ : ∃ k, j = k + 1 := ⟨j - 1, by omega⟩
  have hk := hl' k (by omega) (by omega)
  have hp := hpass k (by omega)
  by_cases hm : (ms k).mask v = true
  · rw [hp.mask_in v hm] at hjm; exact absurd hjm (by simp)
  · rw [hp.mask_out v hm (fun hq => by have := hq.1; omega)] at hjm; exact hm hjm

end BaderKit
