import Verif.Lemmas.Parallel
/-!
# Parallel loops give the same result under every schedule (C102)
-/
set_option linter.unusedSectionVars false
namespace BaderKit

/-! ## Specification -/

variable {L V : Type} [DecidableEq L]

/-- A parallel loop over `range(n)` before it starts. -/
def loopStart (n : ℕ) (f : ℕ → Prog L V) (m : L → V) : ParSt L V := ⟨m, fun t => if t < n then f t else .done⟩

/-- Memory `m'` is a result of the loop from memory `m`: under some interleaving all iterations ended and left `m'`. -/
def LoopResult (n : ℕ) (f : ℕ → Prog L V) (m m' : L → V) : Prop :=
  ∃ sched : List ℕ, (∀ t, ((loopStart n f m).run sched).prog t = .done) ∧ ((loopStart n f m).run sched).mem = m'

/-- The same loop with `range` instead of `prange`. -/
def serialLoop (n : ℕ) (f : ℕ → Prog L V) (m : L → V) : L → V := (List.range n).foldl (fun m t => (f t).exec m) m

/-- The entries of a loop can be divided up: no entry is written by two iterations or written by one and read by another, except entries that
are only ever set to one value and not read. -/
def NoConflict (n : ℕ) (f : ℕ → Prog L V) : Prop := ∃ role : L → Role V, ∀ t < n, Owned role t (f t)

/-! ## Loops without conflicts -/

theorem owned_start {role : L → Role V} {n : ℕ} {f : ℕ → Prog L V} (h : ∀ t < n, Owned role t (f t)) (m : L → V) (t : ℕ) :
    Owned role t ((loopStart n f m).prog t) := by
  unfold loopStart
  by_cases ht : t < n
  · simpa [ht] using h t ht
  · simp only [ht, if_false]; trivial

theorem serial_run (n : ℕ) (f : ℕ → Prog L V) (m : L → V) : ∃ sched, (loopStart n f m).run sched = ⟨serialLoop n f m, fun _ => .done⟩ := by
  obtain ⟨sc, h⟩ := run_many n (loopStart n f m)
  refine ⟨sc, ?_⟩
  rw [h]
  simp only [ParSt.mk.injEq]
  constructor
  · unfold serialLoop
    refine List.foldl_ext _ _ _ fun m' t ht => ?_
    simp [loopStart, List.mem_range.1 ht]
  · funext t
    by_cases ht : t < n <;> simp [loopStart, ht]

/-- The serial loop is a result of every parallel loop, and the only one of a loop without conflicts. -/
theorem C102_serial (n : ℕ) (f : ℕ → Prog L V) (m m' : L → V) (h : NoConflict n f) : LoopResult n f m m' ↔ m' = serialLoop n f m := by
  obtain ⟨role, hr⟩ := h
  obtain ⟨sc, hs⟩ := serial_run n f m
  constructor
  · rintro ⟨sched, hd, rfl⟩
    have i0 : ParInv role m (loopStart n f m).prog (loopStart n f m) := parInv_start (owned_start hr m)
    have := parInv_final (parInv_run sched i0) (parInv_run sc i0) hd (by simp [hs])
    rw [this, hs]
  · rintro rfl
    exact ⟨sc, by simp [hs], by simp [hs]⟩

/-- A loop never gets stuck: whatever has been run, the iterations can be run to their ends. -/
theorem C102_completes (n : ℕ) (f : ℕ → Prog L V) (m : L → V) (begun : List ℕ) :
    ∃ rest, ∀ t, ((loopStart n f m).run (begun ++ rest)).prog t = .done := by
  obtain ⟨rest, h⟩ := run_many n ((loopStart n f m).run begun)
  refine ⟨rest, fun t => ?_⟩
  rw [run_append, h]
  by_cases ht : t < n
  · simp [ht]
  · simp only [ht, if_false]
    have : ∀ (sc : List ℕ) (s : ParSt L V), s.prog t = .done → (s.run sc).prog t = .done := by
      intro sc
      induction sc with
      | nil => intro s hs; exact hs
      | cons a as ih =>
        intro s hs
        refine ih (s.step a) ?_
        unfold ParSt.step
        by_cases e : a = t
        · subst e; simp [hs]
        · have e' : t ≠ a := fun q => e q.symm
          cases s.prog a <;> simp [e', hs]
    exact this _ _ (by simp [loopStart, ht])

/-- With two iterations that write different values to one entry the result depends on the schedule, so the condition matters. -/
theorem C102_conflict (idx : ℕ → ℕ) (value : ℕ → V) (h : idx 0 = idx 1) (hv : value 0 ≠ value 1) (m : ℕ → V) :
    ∃ m₁ m₂, LoopResult 2 (scatterIter idx value) m m₁ ∧ LoopResult 2 (scatterIter idx value) m m₂ ∧ m₁ ≠ m₂ := by
  have done2 : ∀ (a b : ℕ), (a = 0 ∧ b = 1 ∨ a = 1 ∧ b = 0) → ∀ t, ((loopStart 2 (scatterIter idx value) m).run [a, b]).prog t = .done := by
    intro a b hab t
    rcases hab with ⟨rfl, rfl⟩ | ⟨rfl, rfl⟩ <;>
    · by_cases h0 : t = 0
      · subst h0; simp [ParSt.run, ParSt.step, loopStart, scatterIter]
      · by_cases h1 : t = 1
        · subst h1; simp [ParSt.run, ParSt.step, loopStart, scatterIter]
        · have : ¬ t < 2 := by omega
          simp [ParSt.run, ParSt.step, loopStart, scatterIter, h0, h1, this]
  refine ⟨_, _, ⟨[0, 1], done2 0 1 (.inl ⟨rfl, rfl⟩), rfl⟩, ⟨[1, 0], done2 1 0 (.inr ⟨rfl, rfl⟩), rfl⟩, fun e => hv ?_⟩
  have := congrFun e (idx 0)
  simp only [ParSt.run, ParSt.step, loopStart, scatterIter, List.foldl_cons, List.foldl_nil] at this
  simp [h] at this
  exact this.symm

/-! ## The loops of the package -/

/-- The memory of `get_edges`: the labels and the mask. -/
def edgeMem {β : Type} (labels : ℕ → β) (mask : ℕ → Bool) : EdgeLoc → EdgeVal β
  | .label v => .label (labels v)
  | .edge v => .edge (mask v)

theorem edgeMem_update {β : Type} (labels : ℕ → β) (mask : ℕ → Bool) (v : ℕ) :
    Function.update (edgeMem labels mask) (.edge v) (.edge true) = edgeMem labels (Function.update mask v true) := by
  funext l
  cases l with
  | label u => simp [edgeMem]
  | edge u =>
    by_cases e : u = v
    · subst e; simp [edgeMem]
    · simp [edgeMem, e]

theorem edgeLoop_exec {β : Type} [DecidableEq β] (s : Shape) (vac : ℕ → Bool) (labels : ℕ → β) (mask : ℕ → Bool) (v : ℕ) (ts : List Coord) :
    (edgeLoop s vac v (.label (labels v)) ts).exec (edgeMem labels mask)
      = edgeMem labels (if edgeScan s labels vac v ts then Function.update mask v true else mask) := by
  induction ts with
  | nil => simp [edgeLoop, edgeScan, Prog.exec]
  | cons t ts ih =>
    simp only [edgeLoop, Prog.exec, edgeMem, edgeScan]
    by_cases h : labels (nbr s v t) ≠ labels v ∧ vac (nbr s v t) = false
    · simp [h, Prog.exec, edgeMem_update]
    · simp only [h, if_false, ih]

theorem edgeLoop_owned {β : Type} [DecidableEq β] (s : Shape) (vac : ℕ → Bool) (role : EdgeLoc → Role (EdgeVal β)) (i v : ℕ)
    (hl : ∀ u, role (.label u) = .const) (he : role (.edge v) = .own i) (x : EdgeVal β) (ts : List Coord) :
    Owned role i (edgeLoop s vac v x ts) := by
  induction ts with
  | nil => trivial
  | cons t ts ih =>
    refine ⟨.inl (hl _), fun y => ?_⟩
    cases x <;> cases y <;> try trivial
    simp only
    split
    · exact ⟨.inl he, trivial⟩
    · exact ih

/-- The edges found in parallel are those found in any order. -/
theorem C102_edges {β : Type} [DecidableEq β] (s : Shape) (ts : List Coord) (vac : ℕ → Bool) (labels : ℕ → β) (m' : EdgeLoc → EdgeVal β) :
    LoopResult s.nx (edgesIter s ts vac) (edgeMem labels fun _ => false) m' ↔
      m' = edgeMem labels (getEdges s labels ts vac (List.range s.size)) := by
  rw [C102_serial]
  · have : serialLoop s.nx (edgesIter s ts vac) (edgeMem labels fun _ => false) = edgeMem labels (getEdges s labels ts vac (List.range s.size)) := by
      unfold serialLoop getEdges Shape.size
      rw [Nat.mul_assoc, range_slabs]
      generalize hm : (fun _ : ℕ => false) = mask
      clear hm
      induction List.range s.nx generalizing mask with
      | nil => rfl
      | cons i is ih =>
        rw [List.foldl_cons, List.flatMap_cons, List.foldl_append, ← ih]
        congr 1
        unfold edgesIter
        rw [exec_forAll]
        change (slabVox s i).foldl _ _ = edgeMem labels ((slabVox s i).foldl _ _)
        induction slabVox s i generalizing mask with
        | nil => rfl
        | cons v vs ihv =>
          rw [List.foldl_cons, List.foldl_cons, ← ihv]
          congr 1
          unfold edgesStep
          by_cases hv : vac v
          · simp [hv, Prog.exec]
          · simp only [hv, Bool.false_eq_true, if_false, Prog.exec]
            exact edgeLoop_exec s vac labels mask v ts
    rw [this]
  · refine ⟨fun l => match l with | .label _ => .const | .edge v => .own (v / (s.ny * s.nz)), fun i _ => owned_forAll fun v hv => ?_⟩
    split
    · trivial
    · refine ⟨.inl rfl, fun x => edgeLoop_owned s vac _ i v (fun _ => rfl) ?_ x ts⟩
      simp [mem_slabVox hv]

section field
variable {K : Type} [Field K] [LinearOrder K]

/-- The pointers found in parallel are those found in any order. -/
theorem C102_pointers (s : Shape) (data : ℕ → K) (nbrs : List (Coord × K)) (vac maxm : ℕ → Bool) (labels m' : ℕ → ℤ) :
    LoopResult s.nx (pointersIter s data nbrs vac maxm) labels m' ↔ m' = steepestPointers s data nbrs vac maxm (List.range s.size) labels := by
  rw [C102_serial]
  · have : serialLoop s.nx (pointersIter s data nbrs vac maxm) labels = steepestPointers s data nbrs vac maxm (List.range s.size) labels := by
      unfold serialLoop steepestPointers Shape.size
      rw [Nat.mul_assoc, range_slabs, List.foldl_flatMap]
      refine List.foldl_ext _ _ _ fun m i _ => ?_
      unfold pointersIter
      rw [exec_forAll]
      refine List.foldl_ext _ _ _ fun m v _ => ?_
      by_cases h : vac v <;> by_cases h' : maxm v <;> simp [h, h', Prog.exec]
    rw [this]
  · refine ⟨fun v => .own (v / (s.ny * s.nz)), fun i _ => owned_forAll fun v hv => ?_⟩
    split
    · trivial
    · split
      · trivial
      · exact ⟨.inl (by simp [mem_slabVox hv]), trivial⟩

/-- The labels of the voxels inside one partition, found in parallel: although every iteration reads labels that the loop writes. -/
theorem C102_inside [FloorRing K] (s : Shape) (M : M3 K) (rows : List (PRow K)) (minDist : K) (vac : ℕ → Bool) (labels m' : ℕ → ℤ)
    (h : LoopResult s.nx (insideIter s M rows minDist vac) labels m') (v : ℕ) :
    m' v = if v < s.size then inLabels s M rows minDist vac labels v else labels v := by
  rw [C102_serial] at h
  · subst h
    have : serialLoop s.nx (insideIter s M rows minDist vac) labels = (List.range s.size).foldl (fun m v => Function.update m v
        ((fun (v : ℕ) (l : ℤ) => inLabels s M rows minDist vac (fun _ => l) v) v (m v))) labels := by
      unfold serialLoop Shape.size
      rw [Nat.mul_assoc, range_slabs, List.foldl_flatMap]
      refine List.foldl_ext _ _ _ fun m i _ => ?_
      unfold insideIter
      rw [exec_forAll]
      refine List.foldl_ext _ _ _ fun m v _ => ?_
      simp only [Prog.exec, inLabels]
      split
      · simp [Prog.exec]
      · split <;> simp [Prog.exec]
    rw [this]
    refine (foldl_own (fun (v : ℕ) (l : ℤ) => inLabels s M rows minDist vac (fun _ => l) v) _ List.nodup_range _ _).trans ?_
    simp only [List.mem_range, inLabels]
  · refine ⟨fun v => .own (v / (s.ny * s.nz)), fun i _ => owned_forAll fun v hv => ⟨.inr (by simp [mem_slabVox hv]), fun l => ?_⟩⟩
    simp only
    split
    · trivial
    · split
      · exact ⟨.inl (by simp [mem_slabVox hv]), trivial⟩
      · trivial

end field

section planes
variable {K : Type} [Field K] [DecidableEq K]

theorem discard_noConflict (site : ℕ → ℕ) (vol : ℕ → ℕ → K) (n : ℕ) : NoConflict n (discardIter site vol) := by
  refine ⟨fun l => match l with | .trans _ => .flag true | .plane c => .own (c / 27), fun p _ => owned_forAll fun t ht => ?_⟩
  have ht' := List.mem_range.1 ht
  split
  · exact ⟨.inr rfl, trivial⟩
  · split
    · exact ⟨.inl (by simp [div_slab p ht']), trivial⟩
    · trivial

theorem discard2_noConflict (site : ℕ → ℕ) (n : ℕ) : NoConflict n (discardIter2 site) := by
  refine ⟨fun l => match l with | .trans _ => .const | .plane c => .own (c / 27), fun p _ => owned_forAll fun t ht => ⟨.inl rfl, fun b => ?_⟩⟩
  have ht' := List.mem_range.1 ht
  simp only
  split
  · exact ⟨.inl (by simp [div_slab p ht']), trivial⟩
  · trivial

theorem discard_serial (site : ℕ → ℕ) (vol : ℕ → ℕ → K) (n : ℕ) (m : FlagLoc → Bool) (l : FlagLoc) :
    serialLoop n (discardIter site vol) m l = true ↔ m l = true ∨
      ∃ p < n, ∃ t < 27, (vol p t = 0 ∧ l = .trans (site p * 27 + t)) ∨ (vol p t ≠ 0 ∧ vol p t = 1 ∧ l = .plane (p * 27 + t)) := by
  have : serialLoop n (discardIter site vol) m = ((List.range n).flatMap fun p => (List.range 27).map fun t => (p, t)).foldl
      (fun m (a : ℕ × ℕ) => if vol a.1 a.2 = 0 ∨ vol a.1 a.2 = 1 then
        Function.update m (if vol a.1 a.2 = 0 then FlagLoc.trans (site a.1 * 27 + a.2) else .plane (a.1 * 27 + a.2)) true else m) m := by
    unfold serialLoop
    rw [List.foldl_flatMap]
    refine List.foldl_ext _ _ _ fun m p _ => ?_
    unfold discardIter
    rw [exec_forAll, List.foldl_map]
    refine List.foldl_ext _ _ _ fun m t _ => ?_
    by_cases h0 : vol p t = 0
    · simp [h0, Prog.exec]
    · by_cases h1 : vol p t = 1 <;> simp [h0, h1, Prog.exec]
  rw [this, foldl_flags (fun a : ℕ × ℕ => vol a.1 a.2 = 0 ∨ vol a.1 a.2 = 1)
    (fun a => if vol a.1 a.2 = 0 then FlagLoc.trans (site a.1 * 27 + a.2) else .plane (a.1 * 27 + a.2))]
  refine or_congr Iff.rfl ?_
  constructor
  · rintro ⟨⟨p, t⟩, hmem, hP, rfl⟩
    simp only [List.mem_flatMap, List.mem_map, List.mem_range, Prod.mk.injEq] at hmem
    obtain ⟨p', hp', t', ht', rfl, rfl⟩ := hmem
    refine ⟨p', hp', t', ht', ?_⟩
    by_cases h0 : vol p' t' = 0
    · exact .inl ⟨h0, by simp [h0]⟩
    · exact .inr ⟨h0, hP.resolve_left h0, by simp [h0]⟩
  · rintro ⟨p, hp, t, ht, h⟩
    refine ⟨(p, t), by simp [hp, ht], ?_⟩
    rcases h with ⟨h0, rfl⟩ | ⟨h0, h1, rfl⟩
    · simp [h0]
    · simp [h1]

theorem discard2_serial (site : ℕ → ℕ) (n : ℕ) (m : FlagLoc → Bool) (p t : ℕ) (hp : p < n) (ht : t < 27) :
    serialLoop n (discardIter2 site) m (.plane (p * 27 + t)) = true ↔ m (.plane (p * 27 + t)) = true ∨ m (.trans (site p * 27 + t)) = true := by
  have key : ∀ (as : List (ℕ × ℕ)) (m' : FlagLoc → Bool), (∀ c, m' (.trans c) = m (.trans c)) →
      as.foldl (fun m (a : ℕ × ℕ) => if m (.trans (site a.1 * 27 + a.2)) = true then Function.update m (.plane (a.1 * 27 + a.2)) true else m) m'
      = as.foldl (fun m₁ (a : ℕ × ℕ) => if m (.trans (site a.1 * 27 + a.2)) = true then
          Function.update m₁ (FlagLoc.plane (a.1 * 27 + a.2)) true else m₁) m' := by
    intro as
    induction as with
    | nil => intro _ _; rfl
    | cons a as ih =>
      intro m' h
      rw [List.foldl_cons, List.foldl_cons, h]
      apply ih
      intro c
      split
      · simpa using h c
      · exact h c
  have : serialLoop n (discardIter2 site) m = ((List.range n).flatMap fun p => (List.range 27).map fun t => (p, t)).foldl
      (fun m (a : ℕ × ℕ) => if m (.trans (site a.1 * 27 + a.2)) = true then Function.update m (.plane (a.1 * 27 + a.2)) true else m) m := by
    unfold serialLoop
    rw [List.foldl_flatMap]
    refine List.foldl_ext _ _ _ fun m p _ => ?_
    unfold discardIter2
    rw [exec_forAll, List.foldl_map]
    refine List.foldl_ext _ _ _ fun m t _ => ?_
    by_cases h0 : m (.trans (site p * 27 + t)) = true <;> simp [h0, Prog.exec]
  rw [this, key _ _ (fun _ => rfl), foldl_flags (fun a : ℕ × ℕ => m (.trans (site a.1 * 27 + a.2)) = true) (fun a => FlagLoc.plane (a.1 * 27 + a.2))]
  refine or_congr Iff.rfl ?_
  constructor
  · rintro ⟨⟨p', t'⟩, hmem, hP, h⟩
    simp only [List.mem_flatMap, List.mem_map, List.mem_range, Prod.mk.injEq] at hmem
    obtain ⟨a, _, b, hb, rfl, rfl⟩ := hmem
    simp only [FlagLoc.plane.injEq] at h
    have : a = p ∧ b = t := by omega
    obtain ⟨rfl, rfl⟩ := this
    exact hP
  · intro h
    exact ⟨(p, t), by simp [hp, ht], h, rfl⟩

/-- The planes that are left after the two loops over planes, one after the other, each in parallel: those that cut the cell, of the images of sites
all of whose planes have a part of the cell under them. -/
theorem C102_planes (site : ℕ → ℕ) (vol : ℕ → ℕ → K) (n : ℕ) (m₁ m₂ : FlagLoc → Bool)
    (h₁ : LoopResult n (discardIter site vol) (fun _ => false) m₁) (h₂ : LoopResult n (discardIter2 site) m₁ m₂)
    (p t : ℕ) (hp : p < n) (ht : t < 27) :
    m₂ (.plane (p * 27 + t)) = false ↔ vol p t ≠ 1 ∧ ∀ q < n, site q = site p → vol q t ≠ 0 := by
  rw [C102_serial _ _ _ _ (discard_noConflict site vol n)] at h₁
  rw [C102_serial _ _ _ _ (discard2_noConflict site n)] at h₂
  rw [← Bool.not_eq_true, h₂, discard2_serial site n m₁ p t hp ht, h₁, discard_serial, discard_serial]
  simp only [Bool.false_eq_true, false_or]
  constructor
  · intro h
    push Not at h
    obtain ⟨ha, hb⟩ := h
    constructor
    · intro h1
      exact (ha p hp t ht).2 (by rw [h1]; exact one_ne_zero) h1 rfl
    · intro q hq hs h0
      exact (hb q hq t ht).1 h0 (by rw [hs])
  · rintro ⟨h1, h0⟩ (⟨q, hq, u, hu, ⟨_, e⟩ | ⟨_, e1, e⟩⟩ | ⟨q, hq, u, hu, ⟨e0, e⟩ | ⟨_, _, e⟩⟩)
    · cases e
    · simp only [FlagLoc.plane.injEq] at e
      have : p = q ∧ t = u := by omega
      obtain ⟨rfl, rfl⟩ := this
      exact h1 e1
    · simp only [FlagLoc.trans.injEq] at e
      have : site p = site q ∧ t = u := by omega
      obtain ⟨hs, rfl⟩ := this
      exact h0 q hq hs.symm e0
    · cases e

end planes

/-- The planes left are those of the model of the function, `wrapVoronoi`. -/
theorem C102_wrapped {K : Type} [Field K] [LinearOrder K] [FloorRing K] (planes : List (ℕ × V3 K × V3 K)) (m₁ m₂ : FlagLoc → Bool)
    (h₁ : LoopResult planes.length (discardIter (fun p => (planes.getD p (0, (0, 0, 0), (0, 0, 0))).1) fun p t =>
      (movedPlane (planes.getD p (0, (0, 0, 0), (0, 0, 0))) (t, wrapTransforms.getD t (0, 0, 0))).vol) (fun _ => false) m₁)
    (h₂ : LoopResult planes.length (discardIter2 fun p => (planes.getD p (0, (0, 0, 0), (0, 0, 0))).1) m₁ m₂)
    (p t : ℕ) (hp : p < planes.length) (ht : t < 27) :
    m₂ (.plane (p * 27 + t)) = false ↔
      movedPlane (planes.getD p (0, (0, 0, 0), (0, 0, 0))) (t, wrapTransforms.getD t (0, 0, 0)) ∈ wrapVoronoi planes := by
  have hlen : wrapTransforms.length = 27 := by decide
  have hall : ∀ w : WPlane K, (w ∈ planes.flatMap fun pl => (wrapTransforms.zipIdx.map fun (tn : Coord × ℕ) => (tn.2, tn.1)).map fun ti => movedPlane pl ti) ↔
      ∃ q < planes.length, ∃ u < 27, w = movedPlane (planes.getD q (0, (0, 0, 0), (0, 0, 0))) (u, wrapTransforms.getD u (0, 0, 0)) := by
    intro w
    simp only [List.mem_flatMap, List.mem_map]
    constructor
    · rintro ⟨pl, hpl, ti, ⟨⟨c, u⟩, hcu, rfl⟩, rfl⟩
      obtain ⟨q, hq, rfl⟩ := List.mem_iff_getElem.1 hpl
      have := List.mem_zipIdx_iff_getElem?.1 hcu
      simp only at this
      have hu : u < wrapTransforms.length := by
        by_contra hge
        rw [List.getElem?_eq_none (by omega)] at this
        cases this
      refine ⟨q, hq, u, by omega, ?_⟩
      rw [List.getD_eq_getElem?_getD, List.getElem?_eq_getElem hq, List.getD_eq_getElem?_getD, this]
      rfl
    · rintro ⟨q, hq, u, hu, rfl⟩
      refine ⟨planes[q], List.getElem_mem hq, (u, wrapTransforms.getD u (0, 0, 0)), ⟨(wrapTransforms.getD u (0, 0, 0), u), ?_, rfl⟩, ?_⟩
      · rw [List.mem_zipIdx_iff_getElem?]
        simp only
        rw [List.getD_eq_getElem?_getD, List.getElem?_eq_getElem (by omega)]
        rfl
      · rw [List.getD_eq_getElem?_getD (l := planes), List.getElem?_eq_getElem hq]
        rfl
  rw [C102_planes _ _ _ m₁ m₂ h₁ h₂ p t hp ht]
  unfold wrapVoronoi
  simp only [List.mem_filter, Bool.and_eq_true, decide_eq_true_eq, hall, List.mem_map, not_exists, not_and]
  constructor
  · rintro ⟨h1, h0⟩
    refine ⟨⟨p, hp, t, ht, rfl⟩, h1, ?_⟩
    rintro w ⟨⟨q, hq, u, hu, rfl⟩, hv⟩ he
    simp only [movedPlane, Prod.mk.injEq] at he
    obtain ⟨hs, rfl⟩ := he
    exact h0 q hq hs hv
  · rintro ⟨_, h1, h0⟩
    refine ⟨h1, fun q hq hs hv => ?_⟩
    refine h0 _ ⟨⟨q, hq, t, ht, rfl⟩, hv⟩ ?_
    simp only [movedPlane, Prod.mk.injEq]
    exact ⟨hs, trivial⟩

/-- Loops over rows. -/
theorem C102_rows (w : ℕ) (row : ℕ → ℕ → Option V) (n : ℕ) (m m' : ℕ → V) (h : LoopResult n (rowIter w row) m m') (r c : ℕ) (hr : r < n)
    (hc : c < w) : m' (r * w + c) = (row r c).getD (m (r * w + c)) := by
  rw [C102_serial] at h
  · subst h
    have : serialLoop n (rowIter w row) m = (List.range (n * w)).foldl (fun m a => Function.update m a
        ((fun (a : ℕ) (x : V) => (row (a / w) (a % w)).getD x) a (m a))) m := by
      unfold serialLoop
      rw [range_slabs, List.foldl_flatMap]
      refine List.foldl_ext _ _ _ fun m r _ => ?_
      unfold rowIter
      rw [exec_forAll, List.foldl_map]
      refine List.foldl_ext _ _ _ fun m c hc => ?_
      have hc' := List.mem_range.1 hc
      have e : (r * w + c) % w = c := by rw [Nat.mul_comm, Nat.mul_add_mod, Nat.mod_eq_of_lt hc']
      simp only [div_slab r hc', e]
      cases row r c <;> simp [Prog.exec]
    have e : (r * w + c) % w = c := by rw [Nat.mul_comm, Nat.mul_add_mod, Nat.mod_eq_of_lt hc]
    have hm : r * w + c < n * w := by
      calc r * w + c < r * w + w := by omega
        _ = (r + 1) * w := by ring
        _ ≤ n * w := Nat.mul_le_mul_right w hr
    rw [this]
    refine (foldl_own (fun (a : ℕ) (x : V) => (row (a / w) (a % w)).getD x) _ List.nodup_range _ _).trans ?_
    rw [if_pos (List.mem_range.2 hm)]
    simp only [div_slab r hc, e]
  · refine ⟨fun v => .own (v / w), fun i _ => owned_forAll fun c hc => ?_⟩
    have hc' := List.mem_range.1 hc
    split
    · exact ⟨.inl (by simp [div_slab i hc']), trivial⟩
    · trivial

/-- Loops that write at given indices, when the indices differ. -/
theorem C102_scatter (idx : ℕ → ℕ) (value : ℕ → V) (n : ℕ) (m m' : ℕ → V) (h : LoopResult n (scatterIter idx value) m m')
    (hinj : ∀ a < n, ∀ b < n, idx a = idx b → a = b) :
    (∀ e < n, m' (idx e) = value e) ∧ ∀ i, (∀ e < n, idx e ≠ i) → m' i = m i := by
  rw [C102_serial] at h
  · subst h
    induction n with
    | zero => exact ⟨fun e he => absurd he (by omega), fun i _ => rfl⟩
    | succ n ih =>
      obtain ⟨ha, hb⟩ := ih fun a h b h' => hinj a (by omega) b (by omega)
      have hs : serialLoop (n + 1) (scatterIter idx value) m = Function.update (serialLoop n (scatterIter idx value) m) (idx n) (value n) := by
        simp [serialLoop, List.range_succ, scatterIter, Prog.exec]
      rw [hs]
      refine ⟨fun e he => ?_, fun i hi => ?_⟩
      · by_cases h : e = n
        · subst h; simp
        · have : idx e ≠ idx n := fun q => h (hinj e he n (by omega) q)
          rw [Function.update_of_ne this]
          exact ha e (by omega)
      · have : i ≠ idx n := fun q => hi n (by omega) q.symm
        rw [Function.update_of_ne this]
        exact hb i fun e he => hi e (by omega)
  · classical
    refine ⟨fun i => if h : ∃ e < n, idx e = i then .own h.choose else .const, fun e he => ?_⟩
    have hex : ∃ e' < n, idx e' = idx e := ⟨e, he, rfl⟩
    have := hinj _ hex.choose_spec.1 e he hex.choose_spec.2
    refine ⟨.inl ?_, trivial⟩
    simp only [dif_pos hex]
    rw [this]

/-! ## The hypotheses are met -/

/-- A 2×1×2 grid with three basins has a result with edges. -/
example : ∃ m', LoopResult 2 (edgesIter ⟨2, 1, 2⟩ [(1, 0, 0), (0, 0, 1)] fun _ => false)
    (edgeMem (fun v => if v < 2 then (0 : ℤ) else v) fun _ => false) m' :=
  ⟨_, (C102_edges ⟨2, 1, 2⟩ _ _ _ _).2 rfl⟩

/-- Two planes of one site, one of them above the cell: both are removed at that translation. -/
example : ∃ m₁ m₂, LoopResult 2 (discardIter (fun _ => 0) fun p t => if p = 0 ∧ t = 3 then (0 : ℚ) else 1 / 2) (fun _ => false) m₁ ∧
    LoopResult 2 (discardIter2 fun _ => 0) m₁ m₂ ∧ m₂ (.plane (1 * 27 + 3)) = true ∧ m₂ (.plane (1 * 27 + 4)) = false := by
  refine ⟨_, _, (C102_serial _ _ _ _ (discard_noConflict _ _ _)).2 rfl, (C102_serial _ _ _ _ (discard2_noConflict _ _)).2 rfl, ?_⟩
  decide +kernel

end BaderKit
