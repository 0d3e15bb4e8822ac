import Verif.Model.InitLabels
import Verif.Spec.InitLabels
import Verif.Lemmas.Nbr
import Verif.Lemmas.ShiftUF
import Mathlib.Data.List.Dedup
import Mathlib.Data.List.Perm.Subperm
import Mathlib.Data.Finset.Card
/-! # Lemmas for `initialize_labels_from_maxima` -/
set_option linter.unusedSectionVars false
namespace BaderKit

section flat
variable {α : Type*} [LinearOrder α]
variable {s : Shape} {data : ℕ → α} {ts : List Coord} {M : ℕ → Bool}

theorem scanFlat_some {mask : ℕ → Bool} {v n : ℕ} {l : List Coord}
    (h : scanFlat s data mask v l = some n) :
    (∃ t ∈ l, nbr s v t = n) ∧ data v ≤ data n ∧ mask n = false := by
  induction l with
  | nil => simp [scanFlat] at h
  | cons t l ih =>
    rw [scanFlat] at h
    split at h
    · obtain ⟨⟨t', ht', e⟩, h2⟩ := ih h
      exact ⟨⟨t', by simp [ht'], e⟩, h2⟩
    · rename_i hc
      obtain rfl : nbr s v t = n := by simpa using h
      push Not at hc
      exact ⟨⟨t, by simp, rfl⟩, hc.1, by simpa using hc.2⟩

theorem scanFlat_none {mask : ℕ → Bool} {v : ℕ} {l : List Coord}
    (h : scanFlat s data mask v l = none) :
    ∀ t ∈ l, data (nbr s v t) < data v ∨ mask (nbr s v t) = true := by
  induction l with
  | nil => simp
  | cons t l ih =>
    rw [scanFlat] at h
    split at h
    · rename_i hc
      intro t' ht'
      rcases List.mem_cons.mp ht' with rfl | ht'
      · exact hc
      · exact ih h t' ht'
    · simp at h

/-- Invariant of the clean-up loop.  `Good` is any property of voxels shared by the reported maxima
and inherited by neighbours that are not lower. -/
structure FlatInv (s : Shape) (data : ℕ → α) (ts : List Coord) (M : ℕ → Bool) (Good : ℕ → Prop)
    (st : FlatState) : Prop where
  sub : ∀ v, st.mask v = true → M v = true
  flat : ∀ v, v ∈ st.flat.map Prod.fst ↔ M v = true ∧ st.mask v = false
  nodup : (st.flat.map Prod.fst).Nodup
  false_ : ∀ e ∈ st.flat, FalseMax s data ts M e.1
  target : ∀ e ∈ st.flat, M e.2 = false ∧ data e.2 = data e.1 ∧ Good e.2

theorem flatTarget_spec {flat : List (ℕ × ℕ)} (n : ℕ) :
    ((n, flatTarget flat n) ∈ flat) ∨ (n ∉ flat.map Prod.fst ∧ flatTarget flat n = n) := by
  unfold flatTarget
  cases h : flat.find? (fun e => e.1 = n) with
  | none =>
    right
    refine ⟨?_, rfl⟩
    intro hn
    obtain ⟨e, he, rfl⟩ := List.mem_map.mp hn
    have := List.find?_eq_none.mp h e he
    simp at this
  | some e =>
    left
    have h1 := List.mem_of_find?_eq_some h
    have h2 := List.find?_some h
    simp only [decide_eq_true_eq] at h2
    rw [← h2]; exact h1

theorem falseMax_step (hM : ∀ v, M v = true → ∀ w, IsNbr s ts v w → data w ≤ data v) {v n : ℕ}
    (hv : M v = true) (hn : IsNbr s ts v n) (hle : data v ≤ data n)
    (h : M n = false ∨ FalseMax s data ts M n) : FalseMax s data ts M v := by
  rcases h with h | ⟨hMn, u, hc, hu⟩
  · exact ⟨hv, v, .refl, n, hn, h, hle⟩
  · refine ⟨hv, u, .head ⟨hn, hMn, le_antisymm (hM v hv n hn) hle⟩ hc, hu⟩

variable {Good : ℕ → Prop}

theorem FlatInv.step (hts : ∀ t ∈ ts, StepFits s t) (hMs : ∀ v, M v = true → v < s.size)
    (hM : ∀ v, M v = true → ∀ w, IsNbr s ts v w → data w ≤ data v)
    (hG : ∀ v, M v = true → ∀ w, IsNbr s ts v w → data v ≤ data w → Good w)
    {st : FlatState} (h : FlatInv s data ts M Good st) (v : ℕ) :
    FlatInv s data ts M Good (flatStep s data ts st v) := by
  unfold flatStep
  by_cases hm : st.mask v = false
  · rw [if_pos hm]; exact h
  · rw [if_neg hm]
    have hmv : st.mask v = true := by simpa using hm
    have hMv := h.sub v hmv
    cases hsc : scanFlat s data st.mask v ts with
    | none => exact h
    | some n =>
      obtain ⟨⟨t, ht, hn⟩, hle, hmn⟩ := scanFlat_some hsc
      have hnb : IsNbr s ts v n := (isNbr_iff hts (hMs v hMv)).mpr ⟨t, ht, hn⟩
      have heq : data n = data v := le_antisymm (hM v hMv n hnb) hle
      have hfn : M n = false ∨ FalseMax s data ts M n := by
        by_cases hMn : M n = true
        · right
          obtain ⟨e, he, rfl⟩ := List.mem_map.mp ((h.flat n).mpr ⟨hMn, hmn⟩)
          exact h.false_ e he
        · left; simpa using hMn
      have hvn : v ∉ st.flat.map Prod.fst := by
        rw [h.flat]; rintro ⟨_, h2⟩; rw [h2] at hmv; simp at hmv
      refine ⟨?_, ?_, ?_, ?_, ?_⟩
      · intro w hw
        by_cases hwv : w = v
        · subst hwv; exact hMv
        · dsimp only at hw
          rw [Function.update_of_ne hwv] at hw
          exact h.sub w hw
      · intro w
        simp only [List.map_append, List.map_cons, List.map_nil, List.mem_append,
          List.mem_singleton, h.flat]
        by_cases hwv : w = v
        · subst hwv; simp [hMv]
        · simp [hwv]
      · simp only [List.map_append, List.map_cons, List.map_nil]
        rw [List.nodup_append]
        refine ⟨h.nodup, by simp, ?_⟩
        intro a ha b hb hab
        simp only [List.mem_singleton] at hb
        rw [hab, hb] at ha
        exact hvn ha
      · intro e he
        rcases List.mem_append.mp he with he | he
        · exact h.false_ e he
        · simp only [List.mem_singleton] at he
          rw [he]
          exact falseMax_step hM hMv hnb hle hfn
      · intro e he
        rcases List.mem_append.mp he with he | he
        · exact h.target e he
        · simp only [List.mem_singleton] at he
          rw [he]
          rcases flatTarget_spec (flat := st.flat) n with hin | ⟨hnot, heq'⟩
          · obtain ⟨h1, h2, h3⟩ := h.target _ hin
            exact ⟨h1, h2.trans heq, h3⟩
          · dsimp only
            rw [heq']
            refine ⟨?_, heq, hG v hMv n hnb hle⟩
            rw [h.flat] at hnot
            by_contra hMn
            exact hnot ⟨by simpa using hMn, hmn⟩

theorem flatStep_len (st : FlatState) (v : ℕ) :
    flatStep s data ts st v = st ∨ st.flat.length < (flatStep s data ts st v).flat.length := by
  unfold flatStep
  split
  · exact Or.inl rfl
  · split
    · exact Or.inl rfl
    · right; simp

theorem flatPass_len (l : List ℕ) : ∀ st : FlatState,
    (flatPass s data ts l st = st ∧ ∀ v ∈ l, flatStep s data ts st v = st) ∨
      st.flat.length < (flatPass s data ts l st).flat.length := by
  induction l with
  | nil => intro st; left; exact ⟨rfl, by simp⟩
  | cons v l ih =>
    intro st
    have hp : flatPass s data ts (v :: l) st = flatPass s data ts l (flatStep s data ts st v) := rfl
    rw [hp]
    rcases flatStep_len (s := s) (data := data) (ts := ts) st v with h | h
    · rw [h]
      rcases ih st with ⟨h1, h2⟩ | h1
      · left
        refine ⟨h1, fun w hw => ?_⟩
        rcases List.mem_cons.mp hw with rfl | hw
        · exact h
        · exact h2 w hw
      · exact Or.inr h1
    · right
      rcases ih (flatStep s data ts st v) with ⟨h1, _⟩ | h1
      · rw [h1]; exact h
      · exact h.trans h1

theorem FlatInv.pass (hts : ∀ t ∈ ts, StepFits s t) (hMs : ∀ v, M v = true → v < s.size)
    (hM : ∀ v, M v = true → ∀ w, IsNbr s ts v w → data w ≤ data v)
    (hG : ∀ v, M v = true → ∀ w, IsNbr s ts v w → data v ≤ data w → Good w) (l : List ℕ) :
    ∀ {st : FlatState}, FlatInv s data ts M Good st →
      FlatInv s data ts M Good (flatPass s data ts l st) := by
  induction l with
  | nil => intro st h; exact h
  | cons v l ih => intro st h; exact ih (h.step hts hMs hM hG v)

theorem mem_maximaVox (v : ℕ) : v ∈ maximaVox s M ↔ v < s.size ∧ M v = true := by
  simp [maximaVox]

theorem FlatInv.len_le (hMs : ∀ v, M v = true → v < s.size) {st : FlatState}
    (h : FlatInv s data ts M Good st) : st.flat.length ≤ (maximaVox s M).length := by
  have : (st.flat.map Prod.fst).Subperm (maximaVox s M) := by
    refine List.subperm_of_subset h.nodup ?_
    intro v hv
    have := (h.flat v).mp hv
    exact (mem_maximaVox v).mpr ⟨hMs v this.1, this.1⟩
  simpa using this.length_le

/-- In a state that no step changes, exactly the maxima that are not false are left. -/
theorem FlatInv.fixpoint (hts : ∀ t ∈ ts, StepFits s t) (hMs : ∀ v, M v = true → v < s.size)
    {st : FlatState} (h : FlatInv s data ts M Good st)
    (hall : ∀ v ∈ maximaVox s M, flatStep s data ts st v = st) (v : ℕ) :
    st.mask v = true ↔ M v = true ∧ ¬ FalseMax s data ts M v := by
  constructor
  · intro hv
    refine ⟨h.sub v hv, ?_⟩
    rintro ⟨hMv, u, hc, n, hn, hMn, hle⟩
    have hnone : ∀ w, st.mask w = true → ∀ x, IsNbr s ts w x → data w ≤ data x →
        st.mask x = true := by
      intro w hw x hx hle
      have hws := hMs w (h.sub w hw)
      have := hall w ((mem_maximaVox w).mpr ⟨hws, h.sub w hw⟩)
      unfold flatStep at this
      rw [if_neg (by simp [hw])] at this
      cases hsc : scanFlat s data st.mask w ts with
      | none =>
        obtain ⟨t, ht, rfl⟩ := (isNbr_iff hts hws).mp hx
        rcases scanFlat_none hsc t ht with h1 | h1
        · exact absurd hle (not_le.mpr h1)
        · exact h1
      | some m =>
        rw [hsc] at this
        have := congrArg (fun q : FlatState => q.flat.length) this
        simp at this
    have hu : st.mask u = true := by
      clear hn hle
      induction hc with
      | refl => exact hv
      | tail _ hstep ih => exact hnone _ ih _ hstep.1 hstep.2.2.ge
    have := h.sub n (hnone u hu n hn hle)
    rw [hMn] at this; simp at this
  · rintro ⟨hMv, hnf⟩
    by_contra hv
    obtain ⟨e, he, hev⟩ := List.mem_map.mp ((h.flat v).mpr ⟨hMv, by simpa using hv⟩)
    exact hnf (hev ▸ h.false_ e he)

/-- The clean-up loop terminates in a state where nothing more can be removed. -/
theorem flatLoop_spec (hts : ∀ t ∈ ts, StepFits s t) (hMs : ∀ v, M v = true → v < s.size)
    (hM : ∀ v, M v = true → ∀ w, IsNbr s ts v w → data w ≤ data v)
    (hG : ∀ v, M v = true → ∀ w, IsNbr s ts v w → data v ≤ data w → Good w) :
    ∀ k (st : FlatState), FlatInv s data ts M Good st →
      (maximaVox s M).length - st.flat.length ≤ k →
      ∃ st', (∀ fuel > k, flatLoop s data ts (maximaVox s M) fuel st = some st') ∧
        FlatInv s data ts M Good st' ∧
        ∀ v, st'.mask v = true ↔ M v = true ∧ ¬ FalseMax s data ts M v := by
  intro k
  induction k with
  | zero =>
    intro st h hk
    have h' := FlatInv.pass hts hMs hM hG (maximaVox s M) h
    rcases flatPass_len (s := s) (data := data) (ts := ts) (maximaVox s M) st with ⟨e, hall⟩ | hlt
    · refine ⟨st, fun fuel hf => ?_, h, h.fixpoint hts hMs hall⟩
      obtain ⟨f, rfl⟩ : ∃ f, fuel = f + 1 := ⟨fuel - 1, by omega⟩
      rw [flatLoop]; simp only [e, if_true]
    · exfalso
      have := h'.len_le hMs
      omega
  | succ k ih =>
    intro st h hk
    have h' := FlatInv.pass hts hMs hM hG (maximaVox s M) h
    rcases flatPass_len (s := s) (data := data) (ts := ts) (maximaVox s M) st with ⟨e, hall⟩ | hlt
    · refine ⟨st, fun fuel hf => ?_, h, h.fixpoint hts hMs hall⟩
      obtain ⟨f, rfl⟩ : ∃ f, fuel = f + 1 := ⟨fuel - 1, by omega⟩
      rw [flatLoop]; simp only [e, if_true]
    · obtain ⟨st', e, hh⟩ := ih _ h' (by omega)
      refine ⟨st', fun fuel hf => ?_, hh⟩
      obtain ⟨f, rfl⟩ : ∃ f, fuel = f + 1 := ⟨fuel - 1, by omega⟩
      rw [flatLoop]
      have hne : (flatPass s data ts (maximaVox s M) st).flat.length ≠ st.flat.length := by omega
      simp only [hne, if_false]; exact e f (by omega)

end flat

section climb
variable {K : Type*} [Field K] [LinearOrder K] [IsStrictOrderedRing K]

/-- Number of voxels strictly above `v`. -/
def above (s : Shape) (data : ℕ → K) (v : ℕ) : ℕ :=
  ((Finset.range s.size).filter fun w => data v < data w).card

theorem above_lt {s : Shape} {data : ℕ → K} {v w : ℕ} (hw : w < s.size) (h : data v < data w) :
    above s data w < above s data v := by
  apply Finset.card_lt_card
  rw [Finset.ssubset_iff_of_subset]
  · exact ⟨w, by simp [hw, h], by simp⟩
  · intro x hx
    simp only [Finset.mem_filter, Finset.mem_range] at hx ⊢
    exact ⟨hx.1, h.trans hx.2⟩

theorem above_congr {s : Shape} {data : ℕ → K} {v w : ℕ} (h : data v = data w) :
    above s data w = above s data v := by unfold above; rw [h]

theorem above_le (s : Shape) (data : ℕ → K) (v : ℕ) : above s data v ≤ s.size := by
  unfold above
  refine (Finset.card_filter_le _ _).trans ?_
  simp

theorem hillClimb_spec {s : Shape} {data : ℕ → K} {nbrs : List (Coord × K)} {vac M : ℕ → Bool}
    {st : FlatState} (hts : ∀ td ∈ nbrs, StepFits s td.1) (hd : ∀ td ∈ nbrs, 0 < td.2)
    (hM : MarksMaxima s data (nbrs.map Prod.fst) vac M)
    (hup : UpClosedLe s data (nbrs.map Prod.fst) vac)
    (hst : FlatInv s data (nbrs.map Prod.fst) M (fun v => v < s.size ∧ vac v = false) st) :
    ∀ k cur, cur < s.size → vac cur = false → st.mask cur = false →
      2 * above s data cur + (if M cur = true then 1 else 0) ≤ k →
      ∃ best, (∀ fuel > k, hillClimb s data nbrs st fuel cur = some best) ∧
        st.mask best = true ∧ data cur < data best := by
  have hts' : ∀ t ∈ nbrs.map Prod.fst, StepFits s t := by
    intro t ht; obtain ⟨td, htd, rfl⟩ := List.mem_map.mp ht; exact hts td htd
  intro k
  induction k using Nat.strong_induction_on with
  | _ k ih =>
    intro cur hcs hcv hcm hk
    by_cases hMc : M cur = true
    · -- a false maximum: jump to its stored neighbour
      rw [if_pos hMc] at hk
      have hself : (bestNeighbor s data nbrs cur).2 = cur := by
        have := bestNeighbor_self s data cur nbrs hd (by
          intro td htd
          exact ((hM cur).mp hMc).2.2 _ ((isNbr_iff hts' hcs).mpr
            ⟨td.1, List.mem_map_of_mem (f := Prod.fst) htd, rfl⟩))
        rw [this]
      have hin : (cur, flatTarget st.flat cur) ∈ st.flat := by
        rcases flatTarget_spec (flat := st.flat) cur with h | ⟨h, _⟩
        · exact h
        · exact absurd ((hst.flat cur).mpr ⟨hMc, hcm⟩) h
      obtain ⟨h1, h2, h3, h4⟩ := hst.target _ hin
      dsimp only at h1 h2 h3 h4
      have hm' : st.mask (flatTarget st.flat cur) = false := by
        by_contra h
        have := hst.sub _ (by simpa using h)
        rw [h1] at this; simp at this
      obtain ⟨best, hb, hbm, hbd⟩ := ih (k - 1) (by omega) _ h3 h4 hm' (by
        rw [above_congr h2.symm, if_neg (by simp [h1])]; omega)
      refine ⟨best, fun fuel hf => ?_, hbm, h2 ▸ hbd⟩
      obtain ⟨f, rfl⟩ : ∃ f, fuel = f + 1 := ⟨fuel - 1, by omega⟩
      rw [hillClimb]
      simp only [hself, hcm, Bool.false_eq_true, if_false, if_true]
      exact hb f (by omega)
    · rw [if_neg hMc] at hk
      have hex : ∃ td ∈ nbrs, data cur < data (nbr s cur td.1) := by
        by_contra hno
        push Not at hno
        apply hMc
        rw [hM]
        refine ⟨hcs, hcv, fun w hw => ?_⟩
        obtain ⟨t, ht, rfl⟩ := (isNbr_iff hts' hcs).mp hw
        obtain ⟨td, htd, rfl⟩ := List.mem_map.mp ht
        exact hno td htd
      obtain ⟨hlt, td, htd, hb⟩ := bestNeighbor_higher s data cur nbrs hd hex
      rw [hb] at hlt
      dsimp only at hlt
      set n := nbr s cur td.1 with hn
      have hnb : IsNbr s (nbrs.map Prod.fst) cur n :=
        (isNbr_iff hts' hcs).mpr ⟨td.1, List.mem_map_of_mem (f := Prod.fst) htd, rfl⟩
      have hb2 : (bestNeighbor s data nbrs cur).2 = n := by rw [hb]
      by_cases hmn : st.mask n = true
      · refine ⟨n, fun fuel hf => ?_, hmn, hlt⟩
        obtain ⟨f, rfl⟩ : ∃ f, fuel = f + 1 := ⟨fuel - 1, by omega⟩
        rw [hillClimb]
        simp only [hb2, hmn, if_true]
      · have hns : n < s.size := hnb.1
        have hab := above_lt hns hlt
        have hne : cur ≠ n := by rintro h; rw [← h] at hlt; exact lt_irrefl _ hlt
        obtain ⟨best, hb', hbm, hbd⟩ := ih (k - 1) (by omega) n hns
          (hup cur hcs hcv n hnb hlt.le) (by simpa using hmn) (by split <;> omega)
        refine ⟨best, fun fuel hf => ?_, hbm, hlt.trans hbd⟩
        obtain ⟨f, rfl⟩ : ∃ f, fuel = f + 1 := ⟨fuel - 1, by omega⟩
        rw [hillClimb]
        simp only [hb2, hmn, Bool.false_eq_true, if_false, hne]
        exact hb' f (by omega)

end climb

section runs

theorem runUF_append {α : Type*} [DecidableEq α] (fuel : ℕ) (a b : List (UFOp α)) (p : α → α) :
    runUF fuel (a ++ b) p = (runUF fuel a p).bind (runUF fuel b) := by
  induction a generalizing p with
  | nil => rfl
  | cons o a ih =>
    simp only [List.cons_append, runUF]
    cases o.run fuel p with
    | none => rfl
    | some q => simpa using ih q

theorem foldlM_runUF {α β : Type*} [DecidableEq α] (fuel : ℕ) (f : (α → α) → β → Option (α → α))
    (ops : β → List (UFOp α)) (L : List β) (h : ∀ b ∈ L, ∀ p, f p b = runUF fuel (ops b) p) :
    ∀ p, L.foldlM f p = runUF fuel (L.flatMap ops) p := by
  induction L with
  | nil => intro p; rfl
  | cons b L ih =>
    intro p
    rw [List.foldlM_cons, List.flatMap_cons, runUF_append, h b (by simp)]
    cases runUF fuel (ops b) p with
    | none => rfl
    | some q => exact ih (fun b' hb' => h b' (by simp [hb'])) q

theorem findRoot_mono {α : Type*} [DecidableEq α] : ∀ {f g : ℕ}, f ≤ g → ∀ {p : α → α} {x r},
    findRoot f p x = some r → findRoot g p x = some r
  | 0, _, _, _, _, _, h => by simp [findRoot] at h
  | f + 1, g, hfg, p, x, r, h => by
    obtain ⟨g, rfl⟩ : ∃ k, g = k + 1 := ⟨g - 1, by omega⟩
    rw [findRoot] at h ⊢
    split
    · rename_i hx
      rw [if_pos hx] at h
      exact findRoot_mono (by omega) h
    · rename_i hx
      rw [if_neg hx] at h
      exact h

theorem findRootNC_mono {α : Type*} [DecidableEq α] : ∀ {f g : ℕ}, f ≤ g → ∀ {p : α → α} {x r},
    findRootNC f p x = some r → findRootNC g p x = some r
  | 0, _, _, _, _, _, h => by simp [findRootNC] at h
  | f + 1, g, hfg, p, x, r, h => by
    obtain ⟨g, rfl⟩ : ∃ k, g = k + 1 := ⟨g - 1, by omega⟩
    rw [findRootNC] at h ⊢
    split
    · rename_i hx
      rw [if_pos hx] at h
      exact findRootNC_mono (by omega) h
    · rename_i hx
      rw [if_neg hx] at h
      exact h

theorem union_mono {α : Type*} [DecidableEq α] {f g : ℕ} (hfg : f ≤ g) {p q : α → α} {x y : α}
    (h : union f p x y = some q) : union g p x y = some q := by
  unfold union at h ⊢
  cases h1 : findRoot f p x with
  | none => rw [h1] at h; simp at h
  | some r1 =>
    rw [h1] at h
    rw [findRoot_mono hfg h1]
    simp only [Option.bind_eq_bind, Option.bind_some] at h ⊢
    cases h2 : findRoot f r1.1 y with
    | none => rw [h2] at h; simp at h
    | some r2 =>
      rw [h2] at h
      rw [findRoot_mono hfg h2]
      exact h

theorem runUF_mono {α : Type*} [DecidableEq α] {f g : ℕ} (hfg : f ≤ g) :
    ∀ {os : List (UFOp α)} {p q : α → α}, runUF f os p = some q → runUF g os p = some q
  | [], _, _, h => h
  | o :: os, p, q, h => by
    rw [runUF] at h ⊢
    cases h1 : o.run f p with
    | none => rw [h1] at h; simp at h
    | some p1 =>
      rw [h1] at h
      have : o.run g p = some p1 := by
        cases o with
        | find x =>
          simp only [UFOp.run, Option.map_eq_some_iff] at h1 ⊢
          obtain ⟨a, ha, rfl⟩ := h1
          exact ⟨a, findRoot_mono hfg ha, rfl⟩
        | findNC x =>
          simp only [UFOp.run, Option.map_eq_some_iff] at h1 ⊢
          obtain ⟨a, ha, rfl⟩ := h1
          exact ⟨a, findRootNC_mono hfg ha, rfl⟩
        | union x y => exact union_mono hfg h1
      rw [this]
      exact runUF_mono hfg h

theorem unionsOf_append {α : Type*} (a b : List (UFOp α)) :
    unionsOf (a ++ b) = unionsOf a ++ unionsOf b := by
  induction a with
  | nil => rfl
  | cons o a ih => cases o <;> simp [unionsOf, ih]

theorem mem_unionsOf {α : Type*} (os : List (UFOp α)) (x y : α) :
    (x, y) ∈ unionsOf os ↔ UFOp.union x y ∈ os := by
  induction os with
  | nil => simp [unionsOf]
  | cons o os ih => cases o <;> simp [unionsOf, ih]

end runs

section finish
variable {K : Type*} [Field K] [LinearOrder K]

theorem highest_spec (data : ℕ → K) : ∀ (l : List ℕ) (acc : Option ℕ),
    (l ≠ [] ∨ acc ≠ none) → ∃ h, highest data l acc = some h ∧ (h ∈ l ∨ acc = some h) ∧
      (∀ v ∈ l, data v ≤ data h) ∧ ∀ b, acc = some b → data b ≤ data h
  | [], acc, h => by
    obtain ⟨b, rfl⟩ : ∃ b, acc = some b := by
      cases acc with
      | none => simp at h
      | some b => exact ⟨b, rfl⟩
    exact ⟨b, rfl, Or.inr rfl, by simp, fun c hc => by simp at hc; rw [hc]⟩
  | v :: l, none, _ => by
    obtain ⟨h, e, hm, hl, hb⟩ := highest_spec data l (some v) (by simp)
    refine ⟨h, e, ?_, ?_, by simp⟩
    · rcases hm with hm | hm
      · exact Or.inl (by simp [hm])
      · simp at hm; exact Or.inl (by simp [hm])
    · intro w hw
      rcases List.mem_cons.mp hw with rfl | hw
      · exact hb _ rfl
      · exact hl w hw
  | v :: l, some b, _ => by
    by_cases hvb : data v > data b
    · obtain ⟨h, e, hm, hl, hb⟩ := highest_spec data l (some v) (by simp)
      refine ⟨h, by rw [highest, if_pos hvb]; exact e, ?_, ?_, ?_⟩
      · rcases hm with hm | hm
        · exact Or.inl (by simp [hm])
        · simp at hm; exact Or.inl (by simp [hm])
      · intro w hw
        rcases List.mem_cons.mp hw with rfl | hw
        · exact hb _ rfl
        · exact hl w hw
      · intro c hc
        simp only [Option.some.injEq] at hc
        rw [← hc]; exact hvb.le.trans (hb v rfl)
    · obtain ⟨h, e, hm, hl, hb⟩ := highest_spec data l (some b) (by simp)
      refine ⟨h, by rw [highest, if_neg hvb]; exact e, ?_, ?_, hb⟩
      · rcases hm with hm | hm
        · exact Or.inl (by simp [hm])
        · exact Or.inr hm
      · intro w hw
        rcases List.mem_cons.mp hw with rfl | hw
        · exact (not_lt.mp hvb).trans (hb b rfl)
        · exact hl w hw

theorem groupRep_spec (data : ℕ → K) (g : List ℕ) (c : ℕ) (hg : g ≠ []) :
    groupRep data g c ∈ g ∧ ∀ v ∈ g, data v ≤ data (groupRep data g c) := by
  obtain ⟨h, e, hm, hl, _⟩ := highest_spec data g none (Or.inl hg)
  have hm : h ∈ g := by simpa using hm
  unfold groupRep
  rw [e]
  dsimp only
  split
  · exact ⟨hm, hl⟩
  · rename_i hc
    push Not at hc
    exact ⟨hc.1, fun v hv => (hl v hv).trans hc.2⟩

theorem foldl_update_const {β : Type*} (b : β) (g : List ℕ) : ∀ (l : ℕ → β) (v : ℕ),
    g.foldl (fun l v => Function.update l v b) l v = if v ∈ g then b else l v := by
  induction g with
  | nil => intro l v; simp
  | cons w g ih =>
    intro l v
    rw [List.foldl_cons, ih]
    by_cases hv : v ∈ g
    · simp [hv]
    · by_cases hvw : v = w
      · subst hvw; simp [hv]
      · simp [hv, hvw]

theorem foldl_groups {γ : Type*} (mem : γ → List ℕ) (val : γ → ℤ) : ∀ (G : List γ) (l : ℕ → ℤ) (v : ℕ),
    G.Pairwise (fun a b => ∀ x ∈ mem a, x ∉ mem b) →
    (∀ g ∈ G, v ∈ mem g → G.foldl (fun l g => (mem g).foldl
        (fun l v => Function.update l v (val g)) l) l v = val g) ∧
    ((∀ g ∈ G, v ∉ mem g) → G.foldl (fun l g => (mem g).foldl
        (fun l v => Function.update l v (val g)) l) l v = l v) := by
  intro G
  induction G with
  | nil => intro l v _; simp
  | cons g G ih =>
    intro l v hp
    rw [List.pairwise_cons] at hp
    obtain ⟨i1, i2⟩ := ih ((mem g).foldl (fun l v => Function.update l v (val g)) l) v hp.2
    constructor
    · intro g' hg' hv
      rw [List.foldl_cons]
      rcases List.mem_cons.mp hg' with rfl | hg'
      · rw [i2 (fun h hh => hp.1 h hh v hv), foldl_update_const, if_pos hv]
      · exact i1 g' hg' hv
    · intro hno
      rw [List.foldl_cons, i2 (fun h hh => hno h (by simp [hh])), foldl_update_const,
        if_neg (hno g (by simp))]

theorem mapM_some {α β : Type*} (f : α → Option β) (g : α → β) (l : List α)
    (h : ∀ a ∈ l, f a = some (g a)) : l.mapM f = some (l.map g) := by
  induction l with
  | nil => rfl
  | cons a l ih =>
    rw [List.mapM_cons, h a (by simp), ih (fun b hb => h b (by simp [hb]))]
    rfl

/-- Description of the final relabelling in terms of a root function. -/
theorem finishLabels_spec (data : ℕ → K) (cand : ℕ → ℕ) (maxima : List ℕ) (p : ℕ → ℕ) (D : ℕ)
    (rt : ℕ → ℕ) (hrt : ∀ v, RootIn p D v (rt v)) :
    ∃ res, (∀ fuel > D, finishLabels data cand fuel maxima p = some res) ∧
      (∀ v ∈ maxima, res.labels v =
        groupRep data (maxima.filter fun w => rt w = rt v) (cand (rt v))) ∧
      (∀ v, v ∉ maxima → res.labels v = -1) ∧
      res.reps = ((maxima.map rt).dedup.insertionSort (· ≤ ·)).map fun r =>
        groupRep data (maxima.filter fun w => rt w = r) (cand r) := by
  have hm : ∀ fuel > D, maxima.mapM (findRootNC fuel p) = some (maxima.map rt) := fun fuel hf =>
    mapM_some _ _ _ fun v _ => findRootNC_of_rootIn (hrt v) fuel hf
  have hz : maxima.zip (maxima.map rt) = maxima.map fun v => (v, rt v) := by
    clear hm
    induction maxima with
    | nil => rfl
    | cons a l ih => simp [ih]
  have hf : ∀ r, ((maxima.map fun v => (v, rt v)).filter fun e => e.2 = r).map Prod.fst =
      maxima.filter fun w => rt w = r := by
    intro r
    rw [List.filter_map, List.map_map]
    simp [Function.comp_def]
  refine ⟨InitResult.mk
      ((((maxima.map rt).dedup.insertionSort (· ≤ ·)).map fun r =>
        (maxima.filter fun w => rt w = r,
          groupRep data (maxima.filter fun w => rt w = r) (cand r))).foldl
        (fun l g => g.1.foldl (fun l v => Function.update l v (g.2 : ℤ)) l)
        (fun v => if v ∈ maxima then (p v : ℤ) else -1))
      (((maxima.map rt).dedup.insertionSort (· ≤ ·)).map fun r =>
        groupRep data (maxima.filter fun w => rt w = r) (cand r)), fun fuel h => ?_, ?_, ?_, ?_⟩
  · unfold finishLabels
    rw [hm fuel h]
    simp only [Option.bind_eq_bind, Option.bind_some, hz, List.map_map, Function.comp_def, hf]
  · intro v hv
    dsimp only
    have hpw : (((maxima.map rt).dedup.insertionSort (· ≤ ·)).map fun r =>
        ((maxima.filter fun w => rt w = r),
          groupRep data (maxima.filter fun w => rt w = r) (cand r))).Pairwise
          (fun a b => ∀ x ∈ a.1, x ∉ b.1) := by
      rw [List.pairwise_map]
      have hnd : ((maxima.map rt).dedup.insertionSort (· ≤ ·)).Nodup :=
        (List.perm_insertionSort _ _).nodup_iff.mpr (List.nodup_dedup _)
      refine hnd.imp ?_
      intro a b hab x hx hx'
      simp only [List.mem_filter, decide_eq_true_eq] at hx hx'
      exact hab (hx.2.symm.trans hx'.2)
    refine (foldl_groups (fun g : List ℕ × ℕ => g.1) (fun g => (g.2 : ℤ)) _ _ v hpw).1
      ((maxima.filter fun w => rt w = rt v),
          groupRep data (maxima.filter fun w => rt w = rt v) (cand (rt v))) ?_ ?_
    · refine List.mem_map.mpr ⟨rt v, ?_, rfl⟩
      rw [List.mem_insertionSort, List.mem_dedup]
      exact List.mem_map_of_mem hv
    · simp [hv]
  · intro v hv
    dsimp only
    have key : ∀ (G : List (List ℕ × ℕ)) (l : ℕ → ℤ), (∀ g ∈ G, v ∉ g.1) →
        G.foldl (fun l g => g.1.foldl (fun l v => Function.update l v (g.2 : ℤ)) l) l v = l v := by
      intro G
      induction G with
      | nil => intro l _; rfl
      | cons g G ih =>
        intro l hno
        rw [List.foldl_cons, ih _ (fun h hh => hno h (by simp [hh])), foldl_update_const,
          if_neg (hno g (by simp))]
    rw [key, if_neg hv]
    intro g hg
    obtain ⟨r, _, rfl⟩ := List.mem_map.mp hg
    simp [hv]
  · rfl

end finish

section main
variable {K : Type*} [Field K] [LinearOrder K] [IsStrictOrderedRing K]

theorem mergeTarget_some {data : ℕ → K} {same : ℕ → ℕ → Bool} {v w : ℕ} {l : List ℕ}
    (h : mergeTarget data same v l = some w) :
    w ∈ l ∧ w ≠ v ∧ data v ≤ data w ∧ same v w = true := by
  induction l with
  | nil => simp [mergeTarget] at h
  | cons a l ih =>
    rw [mergeTarget] at h
    split at h
    · obtain ⟨h1, h2⟩ := ih h; exact ⟨by simp [h1], h2⟩
    · split at h
      · simp at h
      · split at h
        · rename_i h1 h2 h3
          obtain rfl : a = w := by simpa using h
          exact ⟨by simp, h1, not_lt.mp h2, h3⟩
        · obtain ⟨h1, h2⟩ := ih h; exact ⟨by simp [h1], h2⟩

theorem mergeTarget_none {data : ℕ → K} {same : ℕ → ℕ → Bool} {v : ℕ} {l : List ℕ}
    (hl : l.Pairwise fun a b => data b ≤ data a) (h : mergeTarget data same v l = none) :
    ∀ w ∈ l, w ≠ v → data v ≤ data w → same v w = false := by
  induction l with
  | nil => simp
  | cons a l ih =>
    rw [List.pairwise_cons] at hl
    rw [mergeTarget] at h
    intro w hw hwv hle
    split at h
    · rename_i hav
      rcases List.mem_cons.mp hw with rfl | hw
      · exact absurd hav hwv
      · exact ih hl.2 h w hw hwv hle
    · split at h
      · rename_i hlt
        exfalso
        rcases List.mem_cons.mp hw with rfl | hw
        · exact absurd hle (not_le.mpr hlt)
        · exact absurd hle (not_le.mpr ((hl.1 w hw).trans_lt hlt))
      · split at h
        · simp at h
        · rename_i hs
          rcases List.mem_cons.mp hw with rfl | hw
          · simpa using hs
          · exact ih hl.2 h w hw hwv hle

/-- The unions performed by `initLabels` as one history of union-find operations. -/
theorem initLabels_run {s : Shape} {data : ℕ → K} {nbrs : List (Coord × K)} {vac M : ℕ → Bool}
    (same : ℕ → ℕ → Bool) (cand : ℕ → ℕ) (sorted : List ℕ)
    (hts : ∀ td ∈ nbrs, StepFits s td.1) (hd : ∀ td ∈ nbrs, 0 < td.2)
    (hM : MarksMaxima s data (nbrs.map Prod.fst) vac M)
    (hup : UpClosedLe s data (nbrs.map Prod.fst) vac)
    (hsort : sorted.Perm (maximaVox s M)) :
    ∃ (ops : List (UFOp ℕ)) (F : ℕ),
      (∀ fuel ≥ F, initLabels s data nbrs M same cand sorted fuel =
        (runUF fuel ops (fun x => x)).bind (finishLabels data cand fuel (maximaVox s M))) ∧
      (∀ o ∈ ops, ∃ a b, o = UFOp.union a b) ∧
      (∀ a b, UFOp.union a b ∈ ops → MergeReason s data (nbrs.map Prod.fst) M same a b) ∧
      (∀ a b, M a = true → M b = true → IsNbr s (nbrs.map Prod.fst) a b → UFOp.union a b ∈ ops) ∧
      (∀ a, FalseMax s data (nbrs.map Prod.fst) M a → ∃ b, UFOp.union a b ∈ ops ∧
        data a < data b) ∧
      ((sorted.Pairwise fun a b => data b ≤ data a) →
        ∀ a ∈ sorted.tail, ¬ FalseMax s data (nbrs.map Prod.fst) M a →
        (∃ b, M b = true ∧ b ≠ a ∧ data a ≤ data b ∧ same a b = true) →
        ∃ b, UFOp.union a b ∈ ops ∧ b ≠ a ∧ data a ≤ data b ∧ same a b = true) := by
  set ts := nbrs.map Prod.fst with hts_def
  have hts' : ∀ t ∈ ts, StepFits s t := by
    intro t ht; obtain ⟨td, htd, rfl⟩ := List.mem_map.mp ht; exact hts td htd
  have hMs : ∀ v, M v = true → v < s.size := fun v hv => ((hM v).mp hv).1
  have hMm : ∀ v, M v = true → ∀ w, IsNbr s ts v w → data w ≤ data v := fun v hv =>
    ((hM v).mp hv).2.2
  have hG : ∀ v, M v = true → ∀ w, IsNbr s ts v w → data v ≤ data w →
      (fun v => v < s.size ∧ vac v = false) w := fun v hv w hw hle =>
    ⟨hw.1, hup v (hMs v hv) ((hM v).mp hv).2.1 w hw hle⟩
  have hinit : FlatInv s data ts M (fun v => v < s.size ∧ vac v = false) ⟨M, []⟩ :=
    ⟨fun _ h => h, fun v => by simp, by simp, by simp, by simp⟩
  obtain ⟨st, hst, hinv, hmask⟩ := flatLoop_spec hts' hMs hMm hG _ _ hinit le_rfl
  have hflat : ∀ v, v ∈ st.flat.map Prod.fst ↔ FalseMax s data ts M v := by
    intro v
    rw [hinv.flat]
    constructor
    · rintro ⟨h1, h2⟩
      by_contra hn
      have := (hmask v).mpr ⟨h1, hn⟩
      rw [h2] at this; simp at this
    · intro h
      refine ⟨h.1, ?_⟩
      by_contra hm
      exact ((hmask v).mp (by simpa using hm)).2 h
  -- targets of the hill climb
  have hclimb : ∀ u, ∃ best, u ∈ st.flat.map Prod.snd →
      (∀ fuel > 2 * s.size + 1, hillClimb s data nbrs st fuel u = some best) ∧
        st.mask best = true ∧ data u < data best := by
    intro u
    by_cases hu : u ∈ st.flat.map Prod.snd
    · obtain ⟨e, he, rfl⟩ := List.mem_map.mp hu
      obtain ⟨h1, h2, h3, h4⟩ := hinv.target e he
      have hm' : st.mask e.2 = false := by
        by_contra h
        have := hinv.sub _ (by simpa using h)
        rw [h1] at this; simp at this
      obtain ⟨best, hb⟩ := hillClimb_spec hts hd hM hup hinv (2 * s.size + 1) e.2 h3 h4 hm' (by
        have := above_le s data e.2
        split <;> omega)
      exact ⟨best, fun _ => hb⟩
    · exact ⟨0, fun h => absurd h hu⟩
  choose best hbest using hclimb
  set uniq := ((st.flat.map Prod.snd).dedup).insertionSort (· ≤ ·) with huniq
  have hmemu : ∀ u, u ∈ uniq ↔ u ∈ st.flat.map Prod.snd := by
    intro u; rw [huniq, List.mem_insertionSort, List.mem_dedup]
  set ops1 : List (UFOp ℕ) := uniq.flatMap fun u => st.flat.flatMap fun e =>
    if e.2 ≠ u then [] else [UFOp.union e.1 (best u)] with hops1
  set ops2 : List (UFOp ℕ) := (maximaVox s M).flatMap fun v => ts.flatMap fun t =>
    if M (nbr s v t) = true then [UFOp.union v (nbr s v t)] else [] with hops2
  set ops3 : List (UFOp ℕ) := sorted.tail.flatMap fun v =>
    if v ∈ st.flat.map Prod.fst then [] else match mergeTarget data same v sorted with
      | none => []
      | some w => [UFOp.union v w] with hops3
  have one : ∀ (fuel : ℕ) (p : ℕ → ℕ) (x y : ℕ),
      runUF fuel [UFOp.union x y] p = union fuel p x y := by
    intro fuel p x y
    simp only [runUF, UFOp.run]
    cases union fuel p x y <;> rfl
  have e1 : ∀ fuel > 2 * s.size + 1, ∀ p, unionFlat s data nbrs st fuel p = runUF fuel ops1 p := by
    intro fuel hf p
    unfold unionFlat
    rw [hops1]
    dsimp only
    apply foldlM_runUF
    intro u hu p
    rw [((hbest u) ((hmemu u).mp hu)).1 fuel hf, Option.bind_some]
    apply foldlM_runUF
    intro e _ p
    split
    · rfl
    · rw [one]
  have e2 : ∀ fuel p, unionAdjacent s ts M fuel (maximaVox s M) p = runUF fuel ops2 p := by
    intro fuel p
    unfold unionAdjacent
    rw [hops2]
    apply foldlM_runUF
    intro v _ p
    apply foldlM_runUF
    intro t _ p
    split
    · rw [one]
    · rfl
  have e3 : ∀ fuel p, mergeVoxelated data same (fun v => decide (v ∈ st.flat.map Prod.fst)) fuel
      sorted p = runUF fuel ops3 p := by
    intro fuel p
    unfold mergeVoxelated
    rw [hops3]
    apply foldlM_runUF
    intro v _ p
    simp only [decide_eq_true_eq]
    split
    · rfl
    · cases mergeTarget data same v sorted with
      | none => rfl
      | some w => rw [one]
  refine ⟨ops1 ++ (ops2 ++ ops3), max ((maximaVox s M).length + 1) (2 * s.size + 2),
    ?_, ?_, ?_, ?_, ?_, ?_⟩
  · intro fuel hf
    have hf1 := le_of_max_le_left hf
    have hf2 := le_of_max_le_right hf
    unfold initLabels
    rw [runUF_append]
    simp only [Option.bind_eq_bind]
    rw [← hts_def, hst fuel (by simp only [List.length_nil]; omega), Option.bind_some, e1 fuel (by omega)]
    cases runUF fuel ops1 (fun x => x) with
    | none => rfl
    | some p1 =>
      simp only [Option.bind_some]
      rw [e2, runUF_append]
      cases runUF fuel ops2 p1 with
      | none => rfl
      | some p2 =>
        simp only [Option.bind_some]
        rw [e3]
  · intro o ho
    rcases List.mem_append.mp ho with ho | ho
    · rw [hops1, List.mem_flatMap] at ho
      obtain ⟨u, _, ho⟩ := ho
      rw [List.mem_flatMap] at ho
      obtain ⟨e, _, ho⟩ := ho
      split at ho
      · simp at ho
      · exact ⟨_, _, List.mem_singleton.mp ho⟩
    · rcases List.mem_append.mp ho with ho | ho
      · rw [hops2, List.mem_flatMap] at ho
        obtain ⟨u, _, ho⟩ := ho
        rw [List.mem_flatMap] at ho
        obtain ⟨e, _, ho⟩ := ho
        split at ho
        · exact ⟨_, _, List.mem_singleton.mp ho⟩
        · simp at ho
      · rw [hops3, List.mem_flatMap] at ho
        obtain ⟨u, _, ho⟩ := ho
        split at ho
        · simp at ho
        · split at ho
          · simp at ho
          · exact ⟨_, _, List.mem_singleton.mp ho⟩
  · intro a b hab
    rcases List.mem_append.mp hab with hab | hab
    · rw [hops1, List.mem_flatMap] at hab
      obtain ⟨u, hu, hab⟩ := hab
      rw [List.mem_flatMap] at hab
      obtain ⟨e, he, hab⟩ := hab
      split at hab
      · simp at hab
      · rename_i hne
        have hne : e.2 = u := not_not.mp hne
        simp only [List.mem_singleton, UFOp.union.injEq] at hab
        obtain ⟨rfl, rfl⟩ := hab
        obtain ⟨_, hb2, hb3⟩ := hbest u ((hmemu u).mp hu)
        obtain ⟨_, ht2, _⟩ := hinv.target e he
        have hfm : FalseMax s data ts M e.1 := hinv.false_ e he
        have hb := (hmask _).mp hb2
        exact ⟨hfm.1, hb.1, Or.inr (Or.inl ⟨hfm, hb.2, by rw [← ht2, hne]; exact hb3⟩)⟩
    · rcases List.mem_append.mp hab with hab | hab
      · rw [hops2, List.mem_flatMap] at hab
        obtain ⟨v, hv, hab⟩ := hab
        rw [List.mem_flatMap] at hab
        obtain ⟨t, ht, hab⟩ := hab
        split at hab
        · rename_i hm
          simp only [List.mem_singleton, UFOp.union.injEq] at hab
          obtain ⟨rfl, rfl⟩ := hab
          have hv := (mem_maximaVox _).mp hv
          exact ⟨hv.2, hm, Or.inl ((isNbr_iff hts' hv.1).mpr ⟨t, ht, rfl⟩)⟩
        · simp at hab
      · rw [hops3, List.mem_flatMap] at hab
        obtain ⟨v, hv, hab⟩ := hab
        split at hab
        · simp at hab
        · rename_i hnf
          split at hab
          · simp at hab
          · rename_i w hw
            simp only [List.mem_singleton, UFOp.union.injEq] at hab
            obtain ⟨rfl, rfl⟩ := hab
            obtain ⟨h1, _, h2, h3⟩ := mergeTarget_some hw
            have hv := (mem_maximaVox _).mp (hsort.mem_iff.mp (List.mem_of_mem_tail hv))
            have hw := (mem_maximaVox _).mp (hsort.mem_iff.mp h1)
            exact ⟨hv.2, hw.2, Or.inr (Or.inr ⟨fun h => hnf ((hflat _).mpr h), h3, h2⟩)⟩
  · intro a b ha hb hab
    apply List.mem_append_right
    apply List.mem_append_left
    rw [hops2, List.mem_flatMap]
    refine ⟨a, (mem_maximaVox a).mpr ⟨hMs a ha, ha⟩, ?_⟩
    obtain ⟨t, ht, rfl⟩ := (isNbr_iff hts' (hMs a ha)).mp hab
    rw [List.mem_flatMap]
    exact ⟨t, ht, by rw [if_pos hb]; simp⟩
  · intro a ha
    obtain ⟨e, he, rfl⟩ := List.mem_map.mp ((hflat a).mpr ha)
    have hu : e.2 ∈ st.flat.map Prod.snd := List.mem_map_of_mem he
    obtain ⟨_, hb2, hb3⟩ := hbest e.2 hu
    refine ⟨best e.2, ?_, ?_⟩
    · apply List.mem_append_left
      rw [hops1, List.mem_flatMap]
      refine ⟨e.2, (hmemu _).mpr hu, ?_⟩
      rw [List.mem_flatMap]
      exact ⟨e, he, by simp⟩
    · rw [← (hinv.target e he).2.1]; exact hb3
  · intro hpw a ha hnf hex
    cases hmt : mergeTarget data same a sorted with
    | none =>
      exfalso
      obtain ⟨b, hb, hba, hle, hs⟩ := hex
      have := mergeTarget_none hpw hmt b
        (hsort.mem_iff.mpr ((mem_maximaVox b).mpr ⟨hMs b hb, hb⟩)) hba hle
      rw [hs] at this; simp at this
    | some w =>
      obtain ⟨_, h1, h2, h3⟩ := mergeTarget_some hmt
      refine ⟨w, ?_, h1, h2, h3⟩
      apply List.mem_append_right
      apply List.mem_append_right
      rw [hops3, List.mem_flatMap]
      refine ⟨a, ha, ?_⟩
      rw [if_neg (fun h => hnf ((hflat a).mp h)), hmt]
      simp

end main
end BaderKit
