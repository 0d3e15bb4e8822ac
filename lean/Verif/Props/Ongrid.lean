import Verif.Props.InitLabels
import Verif.Model.Merge
import Mathlib.Data.Rat.Floor
import Mathlib.Data.List.GetD
/-! # Properties C09 and C16: the ongrid method and the order of the reported maxima -/
set_option linter.unusedSectionVars false
namespace BaderKit
variable {K : Type*} [Field K] [LinearOrder K] [IsStrictOrderedRing K]

theorem steepestPointers_apply (s : Shape) (data : ℕ → K) (nbrs : List (Coord × K))
    (vac M : ℕ → Bool) (order : List ℕ) (labels : ℕ → ℤ) (v : ℕ) :
    steepestPointers s data nbrs vac M order labels v =
      if v ∈ order ∧ (vac v = false ∧ M v = false) then ((bestNeighbor s data nbrs v).2 : ℤ)
      else labels v := by
  have h := foldl_write_eq (fun u => !(vac u) && !(M u))
    (fun u => ((bestNeighbor s data nbrs u).2 : ℤ)) order labels v
  unfold steepestPointers
  have e : (fun l v => if vac v = true then l else if M v = true then l
      else Function.update l v ((bestNeighbor s data nbrs v).2 : ℤ)) =
      (fun (m : ℕ → ℤ) u => if (!(vac u) && !(M u)) = true then
        Function.update m u ((bestNeighbor s data nbrs u).2 : ℤ) else m) := by
    funext l u
    cases vac u <;> cases M u <;> rfl
  rw [e, h]
  simp

theorem steepestNbr_unique {s : Shape} {data : ℕ → K} {nbrs : List (Coord × K)} {v w w' : ℕ}
    (h : SteepestNbr s data nbrs v w) (h' : SteepestNbr s data nbrs v w') : w = w' := by
  obtain ⟨l1, td, l2, hl, hw, _, hmax, hlt⟩ := h
  obtain ⟨l1', td', l2', hl', hw', _, hmax', hlt'⟩ := h'
  have m1 : td ∈ nbrs := by rw [hl]; simp
  have m2 : td' ∈ nbrs := by rw [hl']; simp
  have e1 := hmax td' m2
  have e2 := hmax' td m1
  rw [← hw'] at e1
  rw [← hw] at e2
  rcases List.append_eq_append_iff.mp (hl.symm.trans hl') with ⟨c, hc, hc'⟩ | ⟨c, hc, hc'⟩
  · cases c with
    | nil =>
      simp only [List.nil_append, List.cons.injEq] at hc'
      rw [hw, hw', hc'.1]
    | cons x c =>
      simp only [List.cons_append, List.cons.injEq] at hc'
      have := hlt' td (by rw [hc, hc'.1]; simp)
      rw [← hw] at this
      exact absurd e1 (not_le.mpr this)
  · cases c with
    | nil =>
      simp only [List.nil_append, List.cons.injEq] at hc'
      rw [hw, hw', ← hc'.1]
    | cons x c =>
      simp only [List.cons_append, List.cons.injEq] at hc'
      have := hlt td' (by rw [hc, hc'.1]; simp)
      rw [← hw'] at this
      exact absurd e2 (not_le.mpr this)

theorem bestNeighbor_steepest {s : Shape} {data : ℕ → K} {nbrs : List (Coord × K)} {v : ℕ}
    (hd : ∀ td ∈ nbrs, 0 < td.2) (hex : ∃ td ∈ nbrs, data v < data (nbr s v td.1)) :
    SteepestNbr s data nbrs v (bestNeighbor s data nbrs v).2 := by
  obtain ⟨l1, td, l2, h1, h2, h3, h4, h5⟩ := C07_best_neighbor s data nbrs v hd hex
  exact ⟨l1, td, l2, h1, by rw [h2], by rw [h2]; exact h3, by rw [h2]; exact h4, by rw [h2]; exact h5⟩

theorem steepestNbr_not_max {s : Shape} {data : ℕ → K} {nbrs : List (Coord × K)} {v w : ℕ}
    (hts : ∀ t ∈ nbrs.map Prod.fst, StepFits s t) (hv : v < s.size)
    (h : SteepestNbr s data nbrs v w) : IsNbr s (nbrs.map Prod.fst) v w ∧
      ¬ IsLocalMax s data (nbrs.map Prod.fst) v := by
  obtain ⟨l1, td, l2, hl, hw, hlt, _⟩ := h
  have hn : IsNbr s (nbrs.map Prod.fst) v w := (isNbr_iff hts hv).mpr
    ⟨td.1, List.mem_map_of_mem (f := Prod.fst) (by rw [hl]; simp), hw.symm⟩
  exact ⟨hn, fun hm => absurd (hm w hn) (not_le.mpr hlt)⟩

/-- **C09** Steepest ascent from a voxel ends in exactly one local maximum. -/
theorem C09_ascent_unique (s : Shape) (data : ℕ → K) (nbrs : List (Coord × K))
    (hts : ∀ td ∈ nbrs, StepFits s td.1) (hd : ∀ td ∈ nbrs, 0 < td.2) (v : ℕ) (hv : v < s.size) :
    ∃! m, Ascends s data nbrs v m := by
  have hts' : ∀ t ∈ nbrs.map Prod.fst, StepFits s t := by
    intro t ht; obtain ⟨td, htd, rfl⟩ := List.mem_map.mp ht; exact hts td htd
  have hex : ∀ k v, v < s.size → above s data v ≤ k → ∃ m, Ascends s data nbrs v m := by
    intro k
    induction k using Nat.strong_induction_on with
    | _ k ih =>
      intro v hv hk
      by_cases hm : IsLocalMax s data (nbrs.map Prod.fst) v
      · exact ⟨v, .stop hm⟩
      · have hex : ∃ td ∈ nbrs, data v < data (nbr s v td.1) := by
          by_contra hno
          push Not at hno
          apply hm
          intro w hw
          obtain ⟨t, ht, rfl⟩ := (isNbr_iff hts' hv).mp hw
          obtain ⟨td, htd, rfl⟩ := List.mem_map.mp ht
          exact hno td htd
        have hs := bestNeighbor_steepest hd hex
        have hn := (steepestNbr_not_max hts' hv hs).1
        have hlt : data v < data (bestNeighbor s data nbrs v).2 := by
          obtain ⟨_, _, _, _, _, h, _⟩ := hs; exact h
        have := above_lt hn.1 hlt
        obtain ⟨m, hm⟩ := ih (k - 1) (by omega) _ hn.1 (by omega)
        exact ⟨m, .step hs hm⟩
  have huniq : ∀ v m, Ascends s data nbrs v m → v < s.size → ∀ m', Ascends s data nbrs v m' →
      m = m' := by
    intro v m h
    induction h with
    | stop hm =>
      intro hv m' h'
      cases h' with
      | stop _ => rfl
      | step hs _ => exact absurd hm (steepestNbr_not_max hts' hv hs).2
    | step hs _ ih =>
      intro hv m' h'
      cases h' with
      | stop hm => exact absurd hm (steepestNbr_not_max hts' hv hs).2
      | step hs' h'' =>
        obtain rfl := steepestNbr_unique hs hs'
        exact ih (steepestNbr_not_max hts' hv hs).1.1 m' h''
  obtain ⟨m, hm⟩ := hex _ v hv le_rfl
  exact ⟨m, hm, fun m' h' => (huniq v m hm hv m' h').symm⟩

theorem UpClosedLe.upClosed {α : Type*} [LinearOrder α] {s : Shape} {data : ℕ → α}
    {ts : List Coord} {vac : ℕ → Bool} (h : UpClosedLe s data ts vac) : UpClosed s data ts vac :=
  fun v hv h1 w hw hlt => h v hv h1 w hw hlt.le

/-- The ongrid method run on a valid initial labelling. -/
theorem ongrid_spec (s : Shape) (data : ℕ → K) (nbrs : List (Coord × K)) (vac M : ℕ → Bool)
    (same : ℕ → ℕ → Bool) (order : List ℕ) (nv : ℕ) (labels : ℕ → ℤ) (reps : List ℕ)
    (hts : ∀ td ∈ nbrs, StepFits s td.1) (hd : ∀ td ∈ nbrs, 0 < td.2)
    (hM : MarksMaxima s data (nbrs.map Prod.fst) vac M)
    (hup : UpClosed s data (nbrs.map Prod.fst) vac) (hord : IsSchedule s order)
    (hnv : nv = 0 → ∀ v < s.size, vac v = false)
    (hval : ValidInit s data (nbrs.map Prod.fst) M same labels reps) :
    ∃ (lab : ℕ → ℤ) (F : ℕ),
      (∀ fuel ≥ F, ongridLabels s data nbrs vac M order nv fuel labels = some lab) ∧
      (∀ v < s.size, vac v = true → lab v = -1) ∧
      (∀ v < s.size, vac v = false → (0 ≤ lab v ∧ lab v < reps.length) ∧
        ∀ m, Ascends s data nbrs v m → M m = true ∧ lab v = lab m) ∧
      (∀ v w, M v = true → M w = true → (lab v = lab w ↔ labels v = labels w)) ∧
      (∀ v w, M v = true → M w = true → (lab v < lab w ↔ labels v < labels w)) ∧
      (∀ b : ℕ, b < reps.length → ∃ v < s.size, lab v = b) := by
  have hts' : ∀ t ∈ nbrs.map Prod.fst, StepFits s t := by
    intro t ht; obtain ⟨td, htd, rfl⟩ := List.mem_map.mp ht; exact hts td htd
  have hMs : ∀ v, M v = true → v < s.size := fun v hv => ((hM v).mp hv).1
  set p := steepestPointers s data nbrs vac M order labels with hp
  have happ := steepestPointers_apply s data nbrs vac M order labels
  rw [← hp] at happ
  have pmax : ∀ v, M v = true → p v = labels v := by
    intro v hv; rw [happ, if_neg (by simp [hv])]
  have pvac : ∀ v, vac v = true → p v = -1 := by
    intro v hv
    rw [happ, if_neg (by simp [hv])]
    apply hval.other
    by_contra h
    have := ((hM v).mp (by simpa using h)).2.1
    rw [hv] at this; simp at this
  have hstep : ∀ v < s.size, vac v = false → M v = false →
      ∃ w : ℕ, p v = (w : ℤ) ∧ SteepestNbr s data nbrs v w ∧ w < s.size ∧ vac w = false ∧
        data v < data w := by
    intro v hv hvv hMv
    have hex : ∃ td ∈ nbrs, data v < data (nbr s v td.1) := by
      by_contra hno
      push Not at hno
      have : M v = true := (hM v).mpr ⟨hv, hvv, fun w hw => by
        obtain ⟨t, ht, rfl⟩ := (isNbr_iff hts' hv).mp hw
        obtain ⟨td, htd, rfl⟩ := List.mem_map.mp ht
        exact hno td htd⟩
      rw [hMv] at this; simp at this
    have hs := bestNeighbor_steepest hd hex
    have hn := (steepestNbr_not_max hts' hv hs).1
    have hlt : data v < data (bestNeighbor s data nbrs v).2 := by
      obtain ⟨_, _, _, _, _, h, _⟩ := hs; exact h
    refine ⟨_, ?_, hs, hn.1, hup v hv hvv _ hn hlt, hlt⟩
    rw [happ, if_pos ⟨(mem_schedule hord v).mpr hv, hvv, hMv⟩]
  have pne : ∀ v < s.size, vac v = false → p v ≠ -1 := by
    intro v hv hvv
    by_cases hMv : M v = true
    · rw [pmax v hMv]
      obtain ⟨r, hr, _⟩ := hval.rep v hMv
      rw [hr]; omega
    · obtain ⟨w, hw, _⟩ := hstep v hv hvv (by simpa using hMv)
      rw [hw]; omega
  have piff : ∀ v < s.size, (p v ≠ -1 ↔ vac v = false) := by
    intro v hv
    constructor
    · intro h
      by_contra hc
      exact h (pvac v (by simpa using hc))
    · exact pne v hv
  -- every non-vacuum voxel leads to the representative of the maximum it ascends to
  have hroot : ∀ v m, Ascends s data nbrs v m → v < s.size → vac v = false →
      M m = true ∧ ∃ r : ℕ, labels m = r ∧ IsRootOf p v r := by
    intro v m h
    induction h with
    | @stop v hm =>
      intro hv hvv
      have hMv := (hM v).mpr ⟨hv, hvv, hm⟩
      obtain ⟨r, hr, hMr, hrr, _⟩ := hval.rep v hMv
      refine ⟨hMv, r, hr, ⟨1, ?_⟩, ?_⟩
      · simp [chase, pmax v hMv, hr]
      · rw [pmax r hMr, hrr]
    | @step v w m hs _ ih =>
      intro hv hvv
      have hMv : M v = false := by
        by_contra h
        exact (steepestNbr_not_max hts' hv hs).2 ((hM v).mp (by simpa using h)).2.2
      obtain ⟨w', hw', hs', h1, h2, _⟩ := hstep v hv hvv hMv
      obtain rfl := steepestNbr_unique hs hs'
      obtain ⟨hMm, r, hr, ⟨k, hk⟩, hfix⟩ := ih h1 h2
      refine ⟨hMm, r, hr, ⟨k + 1, ?_⟩, hfix⟩
      simp [chase, hw', hk]
  have hasc : ∀ v < s.size, ∃ m, Ascends s data nbrs v m := fun v hv =>
    (C09_ascent_unique s data nbrs hts hd v hv).exists
  obtain ⟨r, ⟨F, hF⟩, _, hspec⟩ := C10_get_roots s.size nv p
    (fun h v hv => pne v hv (hnv h v hv))
    (by
      intro v hv hne
      have hvv := (piff v hv).mp hne
      by_cases hMv : M v = true
      · obtain ⟨r, hr, hMr, hrr, _⟩ := hval.rep v hMv
        have hrs := hMs r hMr
        rw [pmax v hMv, hr]
        refine ⟨by omega, by exact_mod_cast hrs, ?_⟩
        simpa using pne r hrs ((hM r).mp hMr).2.1
      · obtain ⟨w, hw, _, h1, h2, _⟩ := hstep v hv hvv (by simpa using hMv)
        rw [hw]
        exact ⟨by omega, by exact_mod_cast h1, by simpa using pne w h1 h2⟩)
    (by
      intro v hv hne
      obtain ⟨m, hm⟩ := hasc v hv
      obtain ⟨_, r, _, hr⟩ := hroot v m hm hv ((piff v hv).mp hne)
      exact ⟨r, hr⟩)
  have rv : ∀ v < s.size, vac v = false → ∀ m, Ascends s data nbrs v m → r v = labels m := by
    intro v hv hvv m hm
    obtain ⟨_, x, hx, hx'⟩ := hroot v m hm hv hvv
    obtain ⟨y, hy, hy'⟩ := (hspec v hv).2 (pne v hv hvv)
    rw [hy, hx, isRootOf_unique hy' hx']
  have rmax : ∀ v, M v = true → r v = labels v := by
    intro v hv
    have h := (hM v).mp hv
    exact rv v h.1 h.2.1 v (.stop h.2.2)
  have rvac : ∀ v < s.size, vac v = true → r v = -1 := fun v hv h => (hspec v hv).1 (pvac v h)
  have rge : ∀ v < s.size, -1 ≤ r v := by
    intro v hv
    by_cases h : vac v = true
    · rw [rvac v hv h]
    · obtain ⟨y, hy, _⟩ := (hspec v hv).2 (pne v hv (by simpa using h))
      rw [hy]; omega
  obtain ⟨h1, h2, h3, h4, h5⟩ := rankLabels_spec s.size r rge
  have hcard : (((Finset.range s.size).image r).erase (-1)).card = reps.length := by
    have : ((Finset.range s.size).image r).erase (-1) = (reps.map (fun x : ℕ => (x : ℤ))).toFinset := by
      ext x
      simp only [Finset.mem_erase, Finset.mem_image, Finset.mem_range, List.mem_toFinset,
        List.mem_map]
      constructor
      · rintro ⟨hne, v, hv, rfl⟩
        have hvv : vac v = false := by
          by_contra h; exact hne (rvac v hv (by simpa using h))
        obtain ⟨m, hm⟩ := hasc v hv
        obtain ⟨hMm, y, hy, _⟩ := hroot v m hm hv hvv
        exact ⟨y, (hval.reps_mem y).mpr ⟨m, hMm, hy⟩, by rw [rv v hv hvv m hm, hy]⟩
      · rintro ⟨y, hy, rfl⟩
        obtain ⟨v, hv, hvy⟩ := (hval.reps_mem y).mp hy
        exact ⟨by omega, v, hMs v hv, by rw [rmax v hv, hvy]⟩
    rw [this, List.toFinset_card_of_nodup]
    · simp
    · exact hval.reps_nodup.map (fun a b h => by exact_mod_cast h)
  refine ⟨rankLabels s.size r, F, ?_, ?_, ?_, ?_, ?_, ?_⟩
  · intro fuel hf
    unfold ongridLabels
    rw [← hp, hF fuel hf]; rfl
  · intro v hv h; exact (h3 v hv).mpr (rvac v hv h)
  · intro v hv hvv
    refine ⟨?_, ?_⟩
    · rw [← hcard]
      apply h4 v hv
      obtain ⟨y, hy, _⟩ := (hspec v hv).2 (pne v hv hvv)
      rw [hy]; omega
    · intro m hm
      have hMm := (hroot v m hm hv hvv).1
      exact ⟨hMm, (h2 v hv m (hMs m hMm)).mpr (by rw [rv v hv hvv m hm, rmax m hMm])⟩
  · intro v w hv hw
    rw [h2 v (hMs v hv) w (hMs w hw), rmax v hv, rmax w hw]
  · intro v w hv hw
    rw [h1 v (hMs v hv) w (hMs w hw), rmax v hv, rmax w hw]
  · rw [← hcard]; exact h5

/-- **C09** The complete ongrid pipeline (maxima, clean-up, steepest pointers in any parallel order,
root search, relabelling) terminates; vacuum voxels get `-1`; every other voxel gets a label in
`0..B-1`, `B` being the number of reported maxima; it is the label of the one maximum reached by
steepest ascent; two maxima share a label iff the clean-up merged them; every label is used. -/
theorem C09_ongrid (s : Shape) (data : ℕ → K) (nbrs : List (Coord × K)) (vac : ℕ → Bool)
    (same : ℕ → ℕ → Bool) (cand : ℕ → ℕ) (sorted order order' : List ℕ) (nv : ℕ)
    (hts : ∀ td ∈ nbrs, StepFits s td.1) (hd : ∀ td ∈ nbrs, 0 < td.2)
    (hup : UpClosedLe s data (nbrs.map Prod.fst) vac) (hord : IsSchedule s order)
    (hord' : IsSchedule s order') (hnv : nv = 0 → ∀ v < s.size, vac v = false)
    (hsort : sorted.Perm (maximaVox s (getMaxima s data (nbrs.map Prod.fst) vac false order'))) :
    let M := getMaxima s data (nbrs.map Prod.fst) vac false order'
    ∃ (res : InitResult) (lab : ℕ → ℤ) (F : ℕ),
      (∀ fuel ≥ F, initLabels s data nbrs M same cand sorted fuel = some res ∧
        ongridLabels s data nbrs vac M order nv fuel res.labels = some lab) ∧
      (∀ v < s.size, vac v = true → lab v = -1) ∧
      (∀ v < s.size, vac v = false → (0 ≤ lab v ∧ lab v < res.reps.length) ∧
        ∀ m, Ascends s data nbrs v m → M m = true ∧ lab v = lab m) ∧
      (∀ v w, M v = true → M w = true → (lab v = lab w ↔ res.labels v = res.labels w)) ∧
      (∀ b : ℕ, b < res.reps.length → ∃ v < s.size, lab v = b) ∧
      ValidInit s data (nbrs.map Prod.fst) M same res.labels res.reps := by
  intro M
  have hts' : ∀ t ∈ nbrs.map Prod.fst, StepFits s t := by
    intro t ht; obtain ⟨td, htd, rfl⟩ := List.mem_map.mp ht; exact hts td htd
  have hM := marksMaxima_getMaxima s data (nbrs.map Prod.fst) vac order' hord' hts'
  obtain ⟨res, F1, hF1, hval, _⟩ := C15_init_labels s data nbrs vac M same cand sorted hts hd hM hup
    hsort
  obtain ⟨lab, F2, hF2, h1, h2, h3, _, h5⟩ := ongrid_spec s data nbrs vac M same order nv res.labels
    res.reps hts hd hM hup.upClosed hord hnv hval
  exact ⟨res, lab, max F1 F2, fun fuel hf => ⟨hF1 fuel (le_of_max_le_left hf),
    hF2 fuel (le_of_max_le_right hf)⟩, h1, h2, h3, h5, hval⟩

/-- The voxel nearest to the merged coordinate, for the two-voxel plateau of the ring. -/
def ringCand (r : ℕ) : ℕ :=
  mergedVoxel ⟨8, 1, 1⟩ ringData (fun _ => false) (if r = 7 then [0, 7] else [r])

/-- Non-vacuity of C09: the ring `3 0 2 1 0 4 1 3` with its three basins, in the orders given. -/
example : IsSchedule ⟨8, 1, 1⟩ [3, 1, 2, 0, 7, 5, 6, 4] ∧
    UpClosedLe ⟨8, 1, 1⟩ ringData (ring2.map Prod.fst) (fun _ => false) ∧
    ((initLabels ⟨8, 1, 1⟩ ringData ring2 ringMax (fun _ _ => false) ringCand [5, 7, 0, 2] 9).bind
      fun r => (ongridLabels ⟨8, 1, 1⟩ ringData ring2 (fun _ => false) ringMax
        [3, 1, 2, 0, 7, 5, 6, 4] 0 9 r.labels).map fun l => (List.range 8).map l) =
    some [0, 0, 1, 1, 2, 2, 2, 0] := by
  refine ⟨by unfold IsSchedule; decide, fun _ _ _ _ _ _ => rfl, ?_⟩
  decide +kernel

theorem witness_bind {α β γ : Type*} (o : Option α) (f : α → Option β) (g : α × β → γ) (y : γ)
    (h : (o.bind fun r => (f r).map fun l => (r, l)).map g = some y) :
    ∃ r l, o = some r ∧ f r = some l ∧ g (r, l) = y := by
  cases o with
  | none => simp at h
  | some r =>
    cases hf : f r with
    | none => simp [hf] at h
    | some l => exact ⟨r, l, rfl, hf, by simpa [hf] using h⟩

/-- `initialize_labels_from_maxima` on the ring. -/
def ringInit : Option InitResult :=
  initLabels ⟨8, 1, 1⟩ ringData ring2 ringMax (fun _ _ => false) ringCand [5, 7, 0, 2] 9

/-- The ongrid method on the ring. -/
def ringOngrid (labels : ℕ → ℤ) : Option (ℕ → ℤ) :=
  ongridLabels ⟨8, 1, 1⟩ ringData ring2 (fun _ => false) ringMax (List.range 8) 0 9 labels

/-- **C16** (negative part) The order of the reported maxima and the basin labels of the ongrid (and
neargrid) method can disagree: on the ring `3 0 2 1 0 4 1 3`, whose plateau crosses the cell
boundary, the first reported maximum is voxel 2, but the label of voxel 2 is 1. -/
theorem C16_order_mismatch :
    ∃ (res : InitResult) (lab : ℕ → ℤ), ringInit = some res ∧ ringOngrid res.labels = some lab ∧
      (res.reps, res.reps.map lab) = ([2, 5, 0], [1, 2, 0]) :=
  witness_bind ringInit (fun r => ringOngrid r.labels) (fun x => (x.1.reps, x.1.reps.map x.2)) _
    (by decide +kernel)

theorem strictMono_fin_eq {n : ℕ} (f : ℕ → ℕ) (hlt : ∀ i < n, f i < n)
    (hmono : ∀ i j, i < j → j < n → f i < f j) : ∀ i < n, f i = i := by
  have h1 : ∀ i < n, i ≤ f i := by
    intro i
    induction i with
    | zero => intro _; omega
    | succ i ih =>
      intro hi
      have := ih (by omega)
      have := hmono i (i + 1) (by omega) hi
      omega
  have h2 : ∀ j, j < n → f (n - 1 - j) ≤ n - 1 - j := by
    intro j
    induction j with
    | zero => intro h; have := hlt (n - 1) (by omega); simp; omega
    | succ j ih =>
      intro h
      have := ih (by omega)
      have := hmono (n - 1 - (j + 1)) (n - 1 - j) (by omega) (by omega)
      omega
  intro i hi
  have a := h1 i hi
  have b := h2 (n - 1 - i) (by omega)
  rw [show n - 1 - (n - 1 - i) = i by omega] at b
  omega

/-- **C16** (partial) What holds: the reported maxima and the basin labels of the ongrid method agree
position by position when no maxima had to be merged, or more generally whenever the list of
representatives happens to be increasing in voxel order.  Missing: the general statement, which is
false (`C16_order_mismatch`). -/
theorem C16_order_partial (s : Shape) (data : ℕ → K) (nbrs : List (Coord × K)) (vac M : ℕ → Bool)
    (same : ℕ → ℕ → Bool) (cand : ℕ → ℕ) (sorted order : List ℕ) (nv : ℕ)
    (hts : ∀ td ∈ nbrs, StepFits s td.1) (hd : ∀ td ∈ nbrs, 0 < td.2)
    (hM : MarksMaxima s data (nbrs.map Prod.fst) vac M)
    (hup : UpClosedLe s data (nbrs.map Prod.fst) vac) (hord : IsSchedule s order)
    (hnv : nv = 0 → ∀ v < s.size, vac v = false) (hsort : sorted.Perm (maximaVox s M)) :
    ∃ (res : InitResult) (lab : ℕ → ℤ) (F : ℕ),
      (∀ fuel ≥ F, initLabels s data nbrs M same cand sorted fuel = some res ∧
        ongridLabels s data nbrs vac M order nv fuel res.labels = some lab) ∧
      ((∀ v, M v = true → res.labels v = v) → res.reps.Pairwise (· < ·)) ∧
      (res.reps.Pairwise (· < ·) → ∀ i (h : i < res.reps.length), lab res.reps[i] = i) := by
  obtain ⟨res, F1, hF1, hval, _, hid⟩ := C15_init_labels s data nbrs vac M same cand sorted hts hd hM
    hup hsort
  obtain ⟨lab, F2, hF2, _, h2, _, h4, _⟩ := ongrid_spec s data nbrs vac M same order nv res.labels
    res.reps hts hd hM hup.upClosed hord hnv hval
  refine ⟨res, lab, max F1 F2, fun fuel hf => ⟨hF1 fuel (le_of_max_le_left hf),
    hF2 fuel (le_of_max_le_right hf)⟩, ?_, ?_⟩
  · intro h
    rw [hid h]
    exact List.pairwise_lt_range.filter _
  · intro hpw i hi
    have hrep : ∀ i (h : i < res.reps.length), M res.reps[i] = true ∧
        res.labels res.reps[i] = res.reps[i] := by
      intro i h
      obtain ⟨v, hv, hl⟩ := (hval.reps_mem _).mp (List.getElem_mem h)
      obtain ⟨r, hr, h1, h2, _⟩ := hval.rep v hv
      rw [hl] at hr
      have hr : res.reps[i] = r := by exact_mod_cast hr
      rw [hr]; exact ⟨h1, h2⟩
    have hb : ∀ i (h : i < res.reps.length), 0 ≤ lab res.reps[i] ∧
        lab res.reps[i] < res.reps.length := by
      intro i h
      have hm := (hM _).mp (hrep i h).1
      exact (h2 _ hm.1 hm.2.1).1
    have := strictMono_fin_eq (n := res.reps.length) (fun i => (lab (res.reps.getD i 0)).toNat)
      (by
        intro i hi
        have := hb i hi
        simp only [List.getD_eq_getElem _ _ hi]
        omega)
      (by
        intro i j hij hj
        have hi : i < res.reps.length := by omega
        have hlt := (h4 _ _ (hrep i hi).1 (hrep j hj).1).mpr (by
          rw [(hrep i hi).2, (hrep j hj).2]
          exact_mod_cast List.pairwise_iff_getElem.mp hpw i j hi hj hij)
        have := hb i hi
        have := hb j hj
        simp only [List.getD_eq_getElem _ _ hi, List.getD_eq_getElem _ _ hj]
        omega) i hi
    have hb' := hb i hi
    simp only [List.getD_eq_getElem _ _ hi] at this
    omega

/-- Non-vacuity of C16_order_partial: five voxels, two isolated maxima. -/
example : let d : ℕ → ℚ := fun v => [0, 3, 1, 5, 2].getD v 0
    let M := getMaxima ⟨5, 1, 1⟩ d (ring2.map Prod.fst) (fun _ => false) false (List.range 5)
    (initLabels ⟨5, 1, 1⟩ d ring2 M (fun _ _ => false) (fun r => r) [3, 1] 9).map
      (fun r => ((maximaVox ⟨5, 1, 1⟩ M).map r.labels, r.reps)) = some ([1, 3], [1, 3]) := by
  decide +kernel

end BaderKit
