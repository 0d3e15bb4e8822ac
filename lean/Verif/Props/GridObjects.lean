import Mathlib.Data.List.Induction
import Verif.Model.GridObjects
/-!
# C100: grids do not influence each other
-/
set_option linter.unusedSectionVars false
namespace BaderKit

/-! ### Specification: grids as values -/

section spec
variable {D : Type}

/-- The grids of a session if every grid were a value of its own. -/
structure ValSt (D : Type) where
  count : ℕ
  val : ℕ → DKey → Option D

open Classical in
/-- What each operation does to the values. -/
noncomputable def valStep (v : ValSt D) : ObjOp D → ValSt D
  | .load d => ⟨v.count + 1, Function.update v.val v.count d⟩
  | .copy i => if i < v.count then ⟨v.count + 1, Function.update v.val v.count (v.val i)⟩ else v
  | .add lin i j =>
    if i < v.count ∧ j < v.count ∧ ∀ k, (v.val i k).isSome = (v.val j k).isSome then
      ⟨v.count + 1, Function.update v.val v.count fun k => (v.val i k).bind fun x => (v.val j k).map fun y => lin x y⟩
    else v
  | .assign i k x => if i < v.count then ⟨v.count, Function.update v.val i (Function.update (v.val i) k (some x))⟩ else v
  | .share i j k => if i < v.count ∧ j < v.count then ⟨v.count, Function.update v.val i (Function.update (v.val i) k (v.val j k))⟩ else v
  | .poke i k h => if i < v.count then ⟨v.count, Function.update v.val i (Function.update (v.val i) k ((v.val i k).map h))⟩ else v
  | .read _ _ => v

/-- A session on values. -/
noncomputable def valSession (ops : List (ObjOp D)) : ValSt D := ops.foldl valStep ⟨0, fun _ _ => none⟩

/-- The operation stores an array of one grid in another. -/
def ObjOp.shares : ObjOp D → Prop
  | .share _ _ _ => True
  | _ => False

/-- The operation reads the cached attribute `c`. -/
def ObjOp.reads (c : GCache) : ObjOp D → Prop
  | .read _ c' => c' = c
  | _ => False

end spec

/-! ### Proof -/

section proof
variable {D V : Type}

/-- Memory and values agree, and no address is used twice. -/
structure Agree (s : HeapSt D V) (v : ValSt D) : Prop where
  count : s.count = v.count
  view : ∀ i, i < s.count → (s.grid i).view s.cell = v.val i
  bound : ∀ i, i < s.count → ∀ k a, (s.grid i).data k = some a → a < s.next
  inj : ∀ i, i < s.count → ∀ j, j < s.count → ∀ k l a, (s.grid i).data k = some a → (s.grid j).data l = some a → i = j ∧ k = l

theorem DKey.code_inj {k l : DKey} (h : k.code = l.code) : k = l := by
  cases k <;> cases l <;> simp_all [DKey.code]

theorem DKey.code_lt (k : DKey) : k.code < 5 := by cases k <;> simp [DKey.code]

theorem allocCells_new (next : ℕ) (cell : ℕ → D) (d : DKey → Option D) (k : DKey) (x : D) (h : d k = some x) :
    allocCells next cell d (next + k.code) = x := by
  cases k <;> simp [allocCells, DKey.code, h]

theorem allocCells_old (next : ℕ) (cell : ℕ → D) (d : DKey → Option D) (a : ℕ) (h : a < next) : allocCells next cell d a = cell a := by
  simp [allocCells, Nat.not_le.mpr h]

theorem agree_new (s : HeapSt D V) (v : ValSt D) (h : Agree s v) (d : DKey → Option D) (g : HeapGrid V)
    (hg : g.data = fun k => (d k).map fun _ => s.next + k.code) :
    Agree ⟨s.next + 5, allocCells s.next s.cell d, s.count + 1, Function.update s.grid s.count g⟩
      ⟨v.count + 1, Function.update v.val v.count d⟩ := by
  have hold : ∀ i, i < s.count → Function.update s.grid s.count g i = s.grid i := fun i hi => Function.update_of_ne (by omega) _ _
  have hdat : ∀ k a, g.data k = some a → a = s.next + k.code ∧ ∃ x, d k = some x := by
    intro k a ha
    rw [hg] at ha
    cases hd : d k with
    | none => simp [hd] at ha
    | some x => simp [hd] at ha; exact ⟨ha.symm, x, rfl⟩
  refine ⟨by simp [h.count], ?_, ?_, ?_⟩
  · intro i hi
    simp only at hi ⊢
    rcases Nat.lt_succ_iff_lt_or_eq.mp hi with hi' | rfl
    · rw [hold i hi', Function.update_of_ne (by rw [← h.count]; omega), ← h.view i hi']
      funext k
      unfold HeapGrid.view
      cases hd : (s.grid i).data k with
      | none => rfl
      | some a => simp [allocCells_old s.next s.cell d a (h.bound i hi' k a hd)]
    · rw [Function.update_self, h.count, Function.update_self]
      funext k
      unfold HeapGrid.view
      rw [hg]
      cases hd : d k with
      | none => simp [hd]
      | some x => simp [hd, allocCells_new s.next s.cell d k x hd]
  · intro i hi k a ha
    simp only at hi ha ⊢
    rcases Nat.lt_succ_iff_lt_or_eq.mp hi with hi' | rfl
    · rw [hold i hi'] at ha
      have := h.bound i hi' k a ha
      omega
    · rw [Function.update_self] at ha
      have := (hdat k a ha).1
      have := k.code_lt
      omega
  · intro i hi j hj k l a ha hb
    simp only at hi hj ha hb
    rcases Nat.lt_succ_iff_lt_or_eq.mp hi with hi' | hi' <;> rcases Nat.lt_succ_iff_lt_or_eq.mp hj with hj' | hj'
    · rw [hold i hi'] at ha
      rw [hold j hj'] at hb
      exact h.inj i hi' j hj' k l a ha hb
    · subst hj'
      rw [hold i hi'] at ha
      rw [Function.update_self] at hb
      have := h.bound i hi' k a ha
      have := (hdat l a hb).1
      omega
    · subst hi'
      rw [hold j hj'] at hb
      rw [Function.update_self] at ha
      have := h.bound j hj' l a hb
      have := (hdat k a ha).1
      omega
    · subst hi'
      subst hj'
      rw [Function.update_self] at ha hb
      have h1 := (hdat k a ha).1
      have h2 := (hdat l a hb).1
      exact ⟨rfl, DKey.code_inj (by omega)⟩

theorem agree_step (f : GCache → (DKey → Option D) → V) (s : HeapSt D V) (v : ValSt D) (h : Agree s v) (o : ObjOp D) (ho : ¬o.shares) :
    Agree (o.step f s) (valStep v o) := by
  have hc := h.count
  cases o with
  | load d => exact agree_new s v h d _ rfl
  | copy i =>
    by_cases hi : i < s.count
    · simp only [ObjOp.step, valStep, hi, hc ▸ hi, if_true]
      rw [← h.view i hi]
      exact agree_new s v h _ _ rfl
    · simpa only [ObjOp.step, valStep, hi, hc ▸ hi, if_false] using h
  | add lin i j =>
    by_cases hi : i < s.count ∧ j < s.count
    · have hi' : i < v.count ∧ j < v.count := hc ▸ hi
      simp only [ObjOp.step, valStep]
      rw [if_pos hi]
      unfold sumData
      rw [h.view i hi.1, h.view j hi.2]
      by_cases hk : ∀ k ∈ [DKey.total, .diff, .diffX, .diffY, .diffZ], (v.val i k).isSome = (v.val j k).isSome
      · rw [if_pos hk, if_pos ⟨hi'.1, hi'.2, fun k => hk k (by cases k <;> simp)⟩]
        simp only [HeapSt.make, Function.update_idem]
        exact agree_new s v h _ _ rfl
      · rw [if_neg hk, if_neg (fun e => hk fun k _ => e.2.2 k)]
        exact h
    · simp only [ObjOp.step, valStep]
      rw [if_neg hi, if_neg (fun e => hi (hc ▸ ⟨e.1, e.2.1⟩))]
      exact h
  | assign i k x =>
    by_cases hi : i < s.count
    · have hi' : i < v.count := hc ▸ hi
      simp only [ObjOp.step, valStep, hi, hi', if_true]
      have hdat : ∀ l a, Function.update (s.grid i).data k (some s.next) l = some a →
          (l = k ∧ a = s.next) ∨ (l ≠ k ∧ (s.grid i).data l = some a) := by
        intro l a ha
        by_cases hl : l = k
        · subst hl; simp at ha; exact Or.inl ⟨rfl, ha.symm⟩
        · rw [Function.update_of_ne hl] at ha; exact Or.inr ⟨hl, ha⟩
      refine ⟨hc, ?_, ?_, ?_⟩
      · intro j hj
        simp only at hj ⊢
        by_cases hji : j = i
        · subst hji
          rw [Function.update_self, Function.update_self, ← h.view j hj]
          funext l
          unfold HeapGrid.view
          by_cases hl : l = k
          · subst hl; simp
          · simp only [Function.update_of_ne hl]
            cases hd : (s.grid j).data l with
            | none => rfl
            | some a =>
              have := h.bound j hj l a hd
              simp [Function.update_of_ne (show a ≠ s.next by omega)]
        · rw [Function.update_of_ne hji, Function.update_of_ne hji, ← h.view j hj]
          funext l
          unfold HeapGrid.view
          cases hd : (s.grid j).data l with
          | none => rfl
          | some a =>
            have := h.bound j hj l a hd
            simp [Function.update_of_ne (show a ≠ s.next by omega)]
      · intro j hj l a ha
        simp only at hj ha ⊢
        by_cases hji : j = i
        · subst hji
          rw [Function.update_self] at ha
          rcases hdat l a ha with ⟨_, rfl⟩ | ⟨_, ha'⟩
          · omega
          · have := h.bound j hj l a ha'; omega
        · rw [Function.update_of_ne hji] at ha
          have := h.bound j hj l a ha; omega
      · intro j hj j' hj' l l' a ha hb
        simp only at hj hj' ha hb
        by_cases hji : j = i <;> by_cases hji' : j' = i
        · subst hji; subst hji'
          rw [Function.update_self] at ha hb
          rcases hdat l a ha with ⟨rfl, rfl⟩ | ⟨_, ha'⟩ <;> rcases hdat l' _ hb with ⟨rfl, h2⟩ | ⟨_, hb'⟩
          · exact ⟨rfl, rfl⟩
          · have := h.bound _ hj l' _ hb'; omega
          · have := h.bound _ hj l _ ha'; omega
          · exact h.inj _ hj _ hj l l' a ha' hb'
        · subst hji
          rw [Function.update_self] at ha
          rw [Function.update_of_ne hji'] at hb
          rcases hdat l a ha with ⟨rfl, rfl⟩ | ⟨_, ha'⟩
          · have := h.bound _ hj' l' _ hb; omega
          · exact h.inj _ hj _ hj' l l' a ha' hb
        · subst hji'
          rw [Function.update_self] at hb
          rw [Function.update_of_ne hji] at ha
          rcases hdat l' a hb with ⟨rfl, rfl⟩ | ⟨_, hb'⟩
          · have := h.bound _ hj l _ ha; omega
          · exact h.inj _ hj _ hj' l l' a ha hb'
        · rw [Function.update_of_ne hji] at ha
          rw [Function.update_of_ne hji'] at hb
          exact h.inj _ hj _ hj' l l' a ha hb
    · simpa only [ObjOp.step, valStep, hi, hc ▸ hi, if_false] using h
  | share i j k => exact absurd trivial ho
  | poke i k u =>
    by_cases hi : i < s.count
    · have hi' : i < v.count := hc ▸ hi
      simp only [ObjOp.step, valStep, hi, hi', if_true]
      have hv := h.view i hi
      cases hd : (s.grid i).data k with
      | none =>
        have h0 : v.val i k = none := by rw [← hv]; simp [HeapGrid.view, hd]
        have : Function.update v.val i (Function.update (v.val i) k ((v.val i k).map u)) = v.val := by
          rw [h0]; simp only [Option.map_none]
          have : Function.update (v.val i) k none = v.val i := by
            rw [← h0]; exact Function.update_eq_self _ _
          rw [this]; exact Function.update_eq_self _ _
        simp only [this]
        exact h
      | some a0 =>
        refine ⟨hc, ?_, h.bound, h.inj⟩
        intro j hj
        simp only at hj ⊢
        by_cases hji : j = i
        · subst hji
          rw [Function.update_self, ← hv]
          funext l
          unfold HeapGrid.view
          by_cases hl : l = k
          · subst hl; simp [hd]
          · rw [Function.update_of_ne hl]
            cases hd' : (s.grid j).data l with
            | none => rfl
            | some a =>
              have : a ≠ a0 := by
                rintro rfl
                exact hl (h.inj j hj j hj l k a hd' hd).2
              simp [Function.update_of_ne this]
        · rw [Function.update_of_ne hji, ← h.view j hj]
          funext l
          unfold HeapGrid.view
          cases hd' : (s.grid j).data l with
          | none => rfl
          | some a =>
            have : a ≠ a0 := by
              rintro rfl
              exact hji (h.inj j hj i hi l k a hd' hd).1
            simp [Function.update_of_ne this]
    · simpa only [ObjOp.step, valStep, hi, hc ▸ hi, if_false] using h
  | read i c =>
    by_cases hi : i < s.count
    · simp only [ObjOp.step, valStep, hi, if_true]
      have hd : ∀ j, (Function.update s.grid i { s.grid i with
          cache := Function.update (s.grid i).cache c (some ((s.grid i).read f s.cell c)) } j).data = (s.grid j).data := by
        intro j
        by_cases hji : j = i
        · subst hji; rw [Function.update_self]
        · rw [Function.update_of_ne hji]
      refine ⟨hc, ?_, ?_, ?_⟩
      · intro j hj
        simp only at hj ⊢
        rw [← h.view j hj]
        funext k
        unfold HeapGrid.view
        rw [hd j]
      · intro j hj k a ha
        simp only at hj ha ⊢
        rw [hd j] at ha
        exact h.bound j hj k a ha
      · intro j hj j' hj' k l a ha hb
        simp only at hj hj' ha hb
        rw [hd] at ha hb
        exact h.inj j hj j' hj' k l a ha hb
    · simpa only [ObjOp.step, valStep, hi, if_false] using h

theorem agree_session (f : GCache → (DKey → Option D) → V) (blank : D) (ops : List (ObjOp D)) (ho : ∀ o ∈ ops, ¬o.shares) :
    Agree (runSession f blank ops) (valSession ops) := by
  unfold runSession valSession
  suffices H : ∀ (s : HeapSt D V) (v : ValSt D), Agree s v → Agree (ops.foldl (fun s o => o.step f s) s) (ops.foldl valStep v) by
    apply H
    exact ⟨rfl, fun i hi => absurd hi (Nat.not_lt_zero i), fun i hi => absurd hi (Nat.not_lt_zero i), fun i hi => absurd hi (Nat.not_lt_zero i)⟩
  induction ops with
  | nil => intro s v h; exact h
  | cons o ops ih =>
    intro s v h
    exact ih (fun o' h' => ho o' (List.mem_cons_of_mem _ h')) _ _ (agree_step f s v h o (ho o (List.mem_cons_self ..)))

end proof

/-! ### Theorems -/

section main
variable {D V : Type}

/-- **C100** In every session that makes, copies, adds, edits and reads grids, every grid shows at the end the arrays it would have if grids were
values: nothing done to one grid changes another.  The session stores no array of one grid in another (`C100_shared_array`). -/
theorem C100_values (f : GCache → (DKey → Option D) → V) (blank : D) (ops : List (ObjOp D)) (ho : ∀ o ∈ ops, ¬o.shares) :
    (runSession f blank ops).count = (valSession ops).count ∧
    ∀ i < (valSession ops).count, ((runSession f blank ops).grid i).view (runSession f blank ops).cell = (valSession ops).val i := by
  have h := agree_session f blank ops ho
  exact ⟨h.count, fun i hi => h.view i (h.count ▸ hi)⟩

/-- **C100** In particular an edit in place of one grid leaves all others as they were, also those it was copied from or to. -/
theorem C100_edit (f : GCache → (DKey → Option D) → V) (blank : D) (ops : List (ObjOp D)) (ho : ∀ o ∈ ops, ¬o.shares)
    (i j : ℕ) (hij : i ≠ j) (hi : i < (runSession f blank ops).count) (k : DKey) (h : D → D) :
    let s := runSession f blank ops
    let t := (ObjOp.poke j k h).step f s
    (t.grid i).view t.cell = (s.grid i).view s.cell := by
  intro s t
  have h1 := agree_session f blank ops ho
  have h2 := agree_step f s _ h1 (.poke j k h) (fun e => e)
  have hi2 : i < t.count := by
    have : t.count = s.count := by
      simp only [t, ObjOp.step]
      split
      · split <;> rfl
      · rfl
    rw [this]; exact hi
  rw [h2.view i hi2, h1.view i hi]
  simp only [valStep]
  split
  · simp only [Function.update_of_ne hij]
  · rfl

/-- **C100** (negative part) After `grid_i.total = grid_j.total` both grids use one array: an edit of grid `j` in place changes grid `i`. -/
theorem C100_shared_array (f : GCache → (DKey → Option D) → V) (s : HeapSt D V) (i j : ℕ) (hi : i < s.count) (hj : j < s.count)
    (k : DKey) (h : D → D) :
    let t := (ObjOp.poke j k h).step f ((ObjOp.share i j k).step f s)
    (t.grid i).view t.cell k = ((s.grid j).view s.cell k).map h := by
  intro t
  have e : (ObjOp.share i j k).step f s = { s with
        grid := Function.update s.grid i { s.grid i with
          data := Function.update (s.grid i).data k ((s.grid j).data k)
          cache := fun c => if c ∈ gridReset then none else (s.grid i).cache c } } := by
    simp [ObjOp.step, hi, hj]
  have hdj : (((ObjOp.share i j k).step f s).grid j).data k = (s.grid j).data k := by
    rw [e]
    by_cases hji : j = i
    · subst hji; simp
    · simp [Function.update_of_ne hji]
  have hdi : (((ObjOp.share i j k).step f s).grid i).data k = (s.grid j).data k := by
    rw [e]; simp
  have hc : ((ObjOp.share i j k).step f s).count = s.count := by rw [e]
  have hcell : ((ObjOp.share i j k).step f s).cell = s.cell := by rw [e]
  simp only [t]
  generalize (ObjOp.share i j k).step f s = s1 at *
  simp only [ObjOp.step, hc, hj, if_true, hdj]
  cases hd : (s.grid j).data k with
  | none => simp [HeapGrid.view, hdi, hd]
  | some a => simp [HeapGrid.view, hdi, hd, hcell]

theorem no_cache (f : GCache → (DKey → Option D) → V) (blank : D) (ops : List (ObjOp D)) (c : GCache) (hc : ∀ o ∈ ops, ¬o.reads c) (i : ℕ) :
    ((runSession f blank ops).grid i).cache c = none := by
  unfold runSession
  suffices H : ∀ s : HeapSt D V, (∀ i, (s.grid i).cache c = none) →
      ∀ i, ((ops.foldl (fun s o => o.step f s) s).grid i).cache c = none from H _ (fun _ => rfl) i
  induction ops with
  | nil => intro s h; exact h
  | cons o ops ih =>
    intro s h
    refine ih (fun o' h' => hc o' (List.mem_cons_of_mem _ h')) _ ?_
    have hnew : ∀ (i m : ℕ) (g : HeapGrid V), g.cache c = none → (Function.update s.grid m g i).cache c = none := by
      intro i m g hg
      by_cases him : i = m
      · subst him; rw [Function.update_self]; exact hg
      · rw [Function.update_of_ne him]; exact h i
    intro i
    have ho := hc o (List.mem_cons_self ..)
    cases o with
    | load d => exact hnew i _ _ rfl
    | copy j =>
      simp only [ObjOp.step]
      split
      · exact hnew i _ _ rfl
      · exact h i
    | add lin j l =>
      simp only [ObjOp.step]
      split
      · split
        · exact h i
        · simp only [HeapSt.make, Function.update_idem]
          exact hnew i _ _ (h j)
      · exact h i
    | assign j k x =>
      simp only [ObjOp.step]
      split
      · refine hnew i _ _ ?_
        simp only
        split
        · rfl
        · exact h j
      · exact h i
    | share j l k =>
      simp only [ObjOp.step]
      split
      · refine hnew i _ _ ?_
        simp only
        split
        · rfl
        · exact h j
      · exact h i
    | poke j k u =>
      simp only [ObjOp.step]
      split
      · split <;> exact h i
      · exact h i
    | read j c' =>
      simp only [ObjOp.step]
      split
      · refine hnew i _ _ ?_
        simp only
        rw [Function.update_of_ne (fun e => ho e.symm)]
        exact h j
      · exact h i

/-- **C100** (partial) A derived quantity that was not read before shows the value for the arrays the grid has now, in every session.  Missing: a
quantity that was read before (`C100_sum_stale`, `C100_edit_stale`). -/
theorem C100_derived_partial (f : GCache → (DKey → Option D) → V) (blank : D) (ops : List (ObjOp D)) (ho : ∀ o ∈ ops, ¬o.shares)
    (c : GCache) (hc : ∀ o ∈ ops, ¬o.reads c) (i : ℕ) (hi : i < (valSession ops).count) :
    ((runSession f blank ops).grid i).read f (runSession f blank ops).cell c = f c ((valSession ops).val i) := by
  unfold HeapGrid.read
  rw [no_cache f blank ops c hc i, (C100_values f blank ops ho).2 i hi]
  rfl

/-- **C100** Whatever was read or edited before, a copy shows the arrays of the original and all derived quantities for them, and is spin polarized
exactly if it has a second array. -/
theorem C100_copy (f : GCache → (DKey → Option D) → V) (blank : D) (ops : List (ObjOp D)) (ho : ∀ o ∈ ops, ¬o.shares)
    (i : ℕ) (hi : i < (runSession f blank ops).count) :
    let s := runSession f blank ops
    let t := (ObjOp.copy i).step f s
    t.count = s.count + 1 ∧ (t.grid s.count).view t.cell = (s.grid i).view s.cell ∧
    (∀ c, (t.grid s.count).read f t.cell c = f c ((s.grid i).view s.cell)) ∧
    ((t.grid s.count).polarized = true ↔ 2 ≤ keyCount ((s.grid i).view s.cell)) := by
  intro s t
  have h1 := agree_session f blank ops ho
  have h2 := agree_step f s _ h1 (.copy i) (fun e => e)
  have ht : t = s.make ((s.grid i).view s.cell) := by simp only [t, ObjOp.step]; rw [if_pos hi]
  have hview : (t.grid s.count).view t.cell = (s.grid i).view s.cell := by
    rw [h2.view s.count (by show s.count < t.count; rw [ht]; simp [HeapSt.make])]
    simp only [valStep]
    rw [if_pos (h1.count ▸ hi), ← h1.count, h1.view i hi]
    exact Function.update_self ..
  refine ⟨by rw [ht]; rfl, hview, ?_, ?_⟩
  · intro c
    unfold HeapGrid.read
    rw [hview, ht]
    simp [HeapSt.make]
  · rw [ht]
    simp [HeapSt.make]

/-- **C100** (negative part) Once a derived quantity of the first grid was read, its sum with another grid shows that value instead of the one for
the sum: the spline coefficients with which values at points are computed and the spin parts are those of the first grid. -/
theorem C100_sum_stale (f : GCache → (DKey → Option D) → V) (lin : D → D → D) (s : HeapSt D V) (i j : ℕ) (hi : i < s.count) (hj : j < s.count)
    (c : GCache) (hk : ∀ k, ((s.grid i).view s.cell k).isSome = ((s.grid j).view s.cell k).isSome) :
    let r := (ObjOp.read i c).step f s
    let t := (ObjOp.add lin i j).step f r
    t.count = s.count + 1 ∧ (t.grid s.count).read f t.cell c = (s.grid i).read f s.cell c := by
  intro r t
  have hr : r = { s with grid := Function.update s.grid i { s.grid i with
          cache := Function.update (s.grid i).cache c (some ((s.grid i).read f s.cell c)) } } := by
    simp [r, ObjOp.step, hi]
  have hd : ∀ m, (r.grid m).view r.cell = (s.grid m).view s.cell := by
    intro m
    rw [hr]
    unfold HeapGrid.view
    by_cases hm : m = i
    · subst hm; simp
    · simp [Function.update_of_ne hm]
  have hc : (r.grid i).cache c = some ((s.grid i).read f s.cell c) := by rw [hr]; simp
  have hn : r.count = s.count := by rw [hr]
  simp only [t, ObjOp.step, sumData, hd]
  rw [hn, if_pos ⟨hi, hj⟩, if_pos fun k _ => hk k]
  simp only [HeapSt.make, hn, Function.update_self, HeapGrid.read, hc, true_and]
  rfl

/-- **C100** (negative part) An edit in place does not reset any derived quantity. -/
theorem C100_edit_stale (f : GCache → (DKey → Option D) → V) (s : HeapSt D V) (i : ℕ) (hi : i < s.count) (c : GCache) (k : DKey) (h : D → D) :
    let t := (ObjOp.poke i k h).step f ((ObjOp.read i c).step f s)
    (t.grid i).view t.cell k = ((s.grid i).view s.cell k).map h ∧ (t.grid i).read f t.cell c = (s.grid i).read f s.cell c := by
  intro t
  have hr : (ObjOp.read i c).step f s = { s with grid := Function.update s.grid i { s.grid i with
          cache := Function.update (s.grid i).cache c (some ((s.grid i).read f s.cell c)) } } := by
    simp [ObjOp.step, hi]
  simp only [t, hr, ObjOp.step, hi, if_true, Function.update_self]
  cases hd : (s.grid i).data k with
  | none => simp [HeapGrid.view, HeapGrid.read, hd]
  | some a => simp [HeapGrid.view, HeapGrid.read, hd]

/-! #### The flag `is_spin_polarized` -/

/-- The operation makes grids with a total and assigns totals only. -/
def ObjOp.totalOnly : ObjOp D → Prop
  | .load d => (d .total).isSome = true
  | .assign _ k _ => k = .total
  | .share _ _ _ => False
  | _ => True

theorem keyCount_congr {α β : Type} (a : DKey → Option α) (b : DKey → Option β) (h : ∀ k, (a k).isSome = (b k).isSome) :
    keyCount a = keyCount b := by
  unfold keyCount
  simp only [h]

/-- **C100** (partial) The flag `is_spin_polarized` tells whether there is a second array, in every session that assigns totals only.  Missing:
sessions that assign another array (`C100_flag_stale`). -/
theorem C100_flag_partial (f : GCache → (DKey → Option D) → V) (blank : D) (ops : List (ObjOp D)) (ho : ∀ o ∈ ops, o.totalOnly)
    (i : ℕ) (hi : i < (valSession ops).count) :
    (((runSession f blank ops).grid i).polarized = true ↔ 2 ≤ keyCount ((valSession ops).val i)) := by
  have hs : ∀ o ∈ ops, ¬o.shares := by
    intro o hm hsh
    have := ho o hm
    cases o <;> simp_all [ObjOp.shares, ObjOp.totalOnly]
  suffices H : ∀ i < (runSession f blank ops).count,
      (((runSession f blank ops).grid i).view (runSession f blank ops).cell .total).isSome = true ∧
      (((runSession f blank ops).grid i).polarized = true ↔
        2 ≤ keyCount (((runSession f blank ops).grid i).view (runSession f blank ops).cell)) by
    have hv := C100_values f blank ops hs
    have := (H i (hv.1 ▸ hi)).2
    rwa [hv.2 i hi] at this
  clear hi i
  induction ops using List.reverseRecOn with
  | nil => intro i hi; exact absurd hi (Nat.not_lt_zero i)
  | append_singleton ops o ih =>
    have ih := ih (fun o' h' => ho o' (List.mem_append_left _ h')) (fun o' h' => hs o' (List.mem_append_left _ h'))
    have h1 := agree_session f blank ops (fun o' h' => hs o' (List.mem_append_left _ h'))
    have h2 := agree_step f _ _ h1 o (hs o (by simp))
    have ho := ho o (by simp)
    have e : runSession f blank (ops ++ [o]) = o.step f (runSession f blank ops) := by simp [runSession]
    rw [e]
    generalize runSession f blank ops = s at *
    generalize valSession ops = v at *
    intro i hi
    rw [h2.view i hi]
    have ih' : ∀ i < s.count, (v.val i .total).isSome = true ∧ ((s.grid i).polarized = true ↔ 2 ≤ keyCount (v.val i)) := by
      intro i hi
      have := ih i hi
      rwa [h1.view i hi] at this
    have hc := h1.count
    cases o with
    | load d =>
      simp only [ObjOp.step, HeapSt.make, valStep] at hi ⊢
      rcases Nat.lt_succ_iff_lt_or_eq.mp hi with hi' | rfl
      · rw [Function.update_of_ne (by omega), Function.update_of_ne (by omega)]; exact ih' i hi'
      · rw [Function.update_self, hc, Function.update_self]; exact ⟨ho, decide_eq_true_iff⟩
    | copy j =>
      by_cases hj : j < s.count
      · simp only [ObjOp.step, HeapSt.make, valStep, hj, hc ▸ hj, if_true] at hi ⊢
        rcases Nat.lt_succ_iff_lt_or_eq.mp hi with hi' | rfl
        · rw [Function.update_of_ne (by omega), Function.update_of_ne (by omega)]; exact ih' i hi'
        · rw [Function.update_self, hc, Function.update_self]; exact ⟨(ih' j hj).1, by rw [← h1.view j hj]; exact decide_eq_true_iff⟩
      · simp only [ObjOp.step, valStep, hj, hc ▸ hj, if_false] at hi ⊢
        exact ih' i hi
    | add lin j l =>
      simp only [ObjOp.step, valStep] at hi ⊢
      by_cases hj : j < s.count ∧ l < s.count
      · simp only [if_pos hj, sumData, h1.view j hj.1, h1.view l hj.2] at hi ⊢
        by_cases hk : ∀ k ∈ [DKey.total, .diff, .diffX, .diffY, .diffZ], (v.val j k).isSome = (v.val l k).isSome
        · have hk' : ∀ k, (v.val j k).isSome = (v.val l k).isSome := fun k => hk k (by cases k <;> simp)
          have hsum : ∀ k, ((v.val j k).bind fun x => (v.val l k).map fun y => lin x y).isSome = (v.val j k).isSome := by
            intro k
            have := hk' k
            cases h3 : v.val j k with
            | none => rfl
            | some x =>
              cases h4 : v.val l k with
              | none => rw [h3, h4] at this; exact absurd this (by simp)
              | some y => rfl
          rw [if_pos ⟨hc ▸ hj.1, hc ▸ hj.2, hk'⟩]
          simp only [if_pos hk] at hi ⊢
          simp only [HeapSt.make, Function.update_idem] at hi ⊢
          rcases Nat.lt_succ_iff_lt_or_eq.mp hi with hi' | rfl
          · rw [Function.update_of_ne (by omega), Function.update_of_ne (by omega)]; exact ih' i hi'
          · rw [Function.update_self, hc, Function.update_self]
            refine ⟨by rw [hsum]; exact (ih' j hj.1).1, ?_⟩
            rw [keyCount_congr _ (v.val j) hsum]
            exact (ih' j hj.1).2
        · rw [if_neg (fun e => hk fun k _ => e.2.2 k)]
          simp only [if_neg hk] at hi ⊢
          exact ih' i hi
      · simp only [if_neg hj] at hi ⊢
        rw [if_neg (fun e => hj (hc ▸ ⟨e.1, e.2.1⟩))]
        exact ih' i hi
    | assign j k x =>
      have hk : k = .total := ho
      subst hk
      by_cases hj : j < s.count
      · simp only [ObjOp.step, valStep, hj, hc ▸ hj, if_true] at hi ⊢
        by_cases hij : i = j
        · subst hij
          simp only [Function.update_self]
          refine ⟨rfl, ?_⟩
          rw [(ih' i hi).2, keyCount_congr (v.val i) (Function.update (v.val i) .total (some x))]
          intro k
          by_cases hk : k = .total
          · subst hk; simp only [Function.update_self, (ih' i hi).1]; rfl
          · rw [Function.update_of_ne hk]
        · rw [Function.update_of_ne hij, Function.update_of_ne hij]; exact ih' i hi
      · simp only [ObjOp.step, valStep, hj, hc ▸ hj, if_false] at hi ⊢
        exact ih' i hi
    | share j l k => exact absurd ho (fun e => e)
    | poke j k u =>
      by_cases hj : j < s.count
      · have hg : ((ObjOp.poke j k u).step f s).grid = s.grid ∧ ((ObjOp.poke j k u).step f s).count = s.count := by
          simp only [ObjOp.step, hj, if_true]
          split <;> exact ⟨rfl, rfl⟩
        rw [hg.2] at hi
        rw [hg.1]
        simp only [valStep, hc ▸ hj, if_true]
        have hsame : ∀ m k', (Function.update v.val j (Function.update (v.val j) k ((v.val j k).map u)) m k').isSome = (v.val m k').isSome := by
          intro m k'
          by_cases hm : m = j
          · subst hm
            rw [Function.update_self]
            by_cases hk : k' = k
            · subst hk; simp
            · rw [Function.update_of_ne hk]
          · rw [Function.update_of_ne hm]
        rw [hsame, keyCount_congr _ (v.val i) (hsame i)]
        exact ih' i hi
      · simp only [ObjOp.step, valStep, hj, hc ▸ hj, if_false] at hi ⊢
        exact ih' i hi
    | read j c =>
      by_cases hj : j < s.count
      · simp only [ObjOp.step, valStep, hj, if_true] at hi ⊢
        by_cases hij : i = j
        · subst hij; simp only [Function.update_self]; exact ih' i hi
        · rw [Function.update_of_ne hij]; exact ih' i hi
      · simp only [ObjOp.step, valStep, hj, if_false] at hi ⊢
        exact ih' i hi

/-- **C100** (negative part) Assigning a second array to a grid without one leaves the flag as it was: the grid has spin data but cannot be
split. -/
theorem C100_flag_stale (f : GCache → (DKey → Option D) → V) (s : HeapSt D V) (i : ℕ) (hi : i < s.count) (x : D)
    (hp : (s.grid i).polarized = false) :
    let t := (ObjOp.assign i .diff x).step f s
    (t.grid i).view t.cell .diff = some x ∧ (t.grid i).polarized = false := by
  simp [ObjOp.step, hi, HeapGrid.view, hp]

end main

/-- Non-vacuity of C100: a grid is loaded, its spline coefficients (here the data themselves) are read, it is copied, added to its copy, and the
copy and the grid are edited.  The sum still shows the coefficients of the first grid. -/
example :
    let f : GCache → (DKey → Option ℕ) → ℕ := fun _ d => (d .total).getD 0
    let ops : List (ObjOp ℕ) := [.load (fun k => if k = .total then some 3 else none), .read 0 .splineCoeffs, .copy 0, .add (· + ·) 0 1,
      .poke 1 .total (· + 10), .assign 0 .total 7]
    let s := runSession f 0 ops
    s.count = 3 ∧ (List.range 3).map (fun i => (s.grid i).view s.cell .total) = [some 7, some 13, some 6] ∧
    (List.range 3).map (fun i => (s.grid i).read f s.cell .splineCoeffs) = [3, 13, 3] ∧
    (List.range 3).map (fun i => (s.grid i).read f s.cell .pointDists) = [7, 13, 6] := by decide

end BaderKit
