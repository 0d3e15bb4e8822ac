import Verif.Spec.BaderState
/-! # Properties C25 and C58: derived results are never stale -/
namespace BaderKit
open Fresh
variable {G V R A B : Type} {E : Engine G V R}

/-- Every filled cache holds the value for the current settings. -/
def Good (E : Engine G V R) (s : St G V R) : Prop :=
  ∀ p v, s.cache p = some v → raw E s.view p = some v

/-- Heap and settings did not change. -/
def Same (s s' : St G V R) : Prop := s'.heap = s.heap ∧ s'.next = s.next ∧ s'.cfg = s.cfg

theorem Same.view {s s' : St G V R} (h : Same s s') : s'.view = s.view := by
  obtain ⟨h1, _, h3⟩ := h
  simp [St.view, h1, h3]

theorem Same.trans {s s' s'' : St G V R} (h : Same s s') (h' : Same s' s'') : Same s s'' :=
  ⟨h'.1.trans h.1, h'.2.1.trans h.2.1, h'.2.2.trans h.2.2⟩

/-- The action returns `f` of the current grids and settings and keeps the caches good. -/
def Reads (E : Engine G V R) (a : Act G V R A) (f : View G R → Option A) : Prop :=
  ∀ s, Good E s → (a s).1 = f s.view ∧ Good E (a s).2 ∧ Same s (a s).2

theorem Reads.andThen {a : Act G V R A} {f : View G R → Option A} {b : A → Act G V R B}
    {g : View G R → Option B} (ha : Reads E a f)
    (hb : ∀ x s, Good E s → f s.view = some x →
      ((b x) s).1 = g s.view ∧ Good E ((b x) s).2 ∧ Same s ((b x) s).2)
    (hn : ∀ w, f w = none → g w = none) : Reads E (a.andThen b) g := by
  intro s hs
  obtain ⟨h1, h2, h3⟩ := ha s hs
  cases hx : a s with
  | mk o s' =>
    rw [hx] at h1 h2 h3
    simp only at h1 h2 h3
    cases o with
    | none =>
      simp only [Act.andThen, hx]
      exact ⟨(hn _ h1.symm).symm, h2, h3⟩
    | some x =>
      simp only [Act.andThen, hx]
      obtain ⟨g1, g2, g3⟩ := hb x s' h2 (by rw [h3.view]; exact h1.symm)
      exact ⟨by rw [g1, h3.view], g2, h3.trans g3⟩

theorem Reads.bind {a : Act G V R A} {f : View G R → Option A} {b : A → Act G V R B}
    {g : A → View G R → Option B} (ha : Reads E a f) (hb : ∀ x, Reads E (b x) (g x)) :
    Reads E (a.andThen b) (fun w => (f w).bind fun x => g x w) := by
  refine ha.andThen (fun x s hs hf => ?_) (fun w hw => by simp [hw])
  obtain ⟨h1, h2, h3⟩ := hb x s hs
  exact ⟨by rw [h1, hf]; rfl, h2, h3⟩

theorem Reads.lift {f : St G V R → Option A} {g : View G R → Option A} (h : ∀ s, f s = g s.view) :
    Reads E (Act.lift f) g := fun s hs => ⟨h s, hs, rfl, rfl, rfl⟩

theorem good_store {s : St G V R} (hs : Good E s) {p : PName} {v : V} (h : raw E s.view p = some v) :
    Good E { s with cache := Function.update s.cache p (some v) } := by
  intro q u hq
  by_cases e : q = p
  · subst e
    simp only [Function.update_self, Option.some.injEq] at hq
    rw [← hq]; exact h
  · simp only [Function.update_of_ne e] at hq
    exact hs q u hq

theorem good_storeAll {s : St G V R} (hs : Good E s) {ks : List PName} {r : PName → V}
    (h : ∀ p ∈ ks, raw E s.view p = some (r p)) :
    Good E { s with cache := fun p => if p ∈ ks then some (r p) else s.cache p } := by
  intro q u hq
  simp only at hq
  split_ifs at hq with hk
  · rw [Option.some.injEq] at hq
    rw [← hq]; exact h q hk
  · exact hs q u hq

/-- A lazily computed property: if computing stores the right value (or raises when there is none), reading
it returns the right value. -/
theorem Reads.lazily {p : PName} {c : Act G V R Unit}
    (h : ∀ s, Good E s → Good E (c s).2 ∧ Same s (c s).2 ∧
      ((c s).1 = none → raw E s.view p = none) ∧
      ((c s).1 = some () → ∃ v, (c s).2.cache p = some v)) :
    Reads E (Act.lazily p c) (fun w => raw E w p) := by
  intro s hs
  unfold Act.lazily
  cases hp : s.cache p with
  | some v => exact ⟨(hs p v hp).symm, hs, rfl, rfl, rfl⟩
  | none =>
    obtain ⟨h1, h2, h3, h4⟩ := h s hs
    simp only [Act.andThen]
    cases hc : c s with
    | mk o s' =>
      rw [hc] at h1 h2 h3 h4
      simp only at h1 h2 h3 h4
      cases o with
      | none => exact ⟨(h3 rfl).symm, h1, h2⟩
      | some u =>
        obtain ⟨v, hv⟩ := h4 rfl
        simp only [Act.fetch]
        refine ⟨?_, h1, h2⟩
        rw [hv, ← h2.view]
        exact (h1 p v hv).symm

/-- Computing one value and storing it. -/
theorem compute_store {p : PName} {a : Act G V R V} (ha : Reads E a (fun w => raw E w p))
    (s : St G V R) (hs : Good E s) :
    Good E ((a.andThen (Act.store p)) s).2 ∧ Same s ((a.andThen (Act.store p)) s).2 ∧
      (((a.andThen (Act.store p)) s).1 = none → raw E s.view p = none) ∧
      (((a.andThen (Act.store p)) s).1 = some () →
        ∃ v, ((a.andThen (Act.store p)) s).2.cache p = some v) := by
  obtain ⟨h1, h2, h3⟩ := ha s hs
  simp only [Act.andThen]
  cases hx : a s with
  | mk o s' =>
    rw [hx] at h1 h2 h3
    simp only at h1 h2 h3
    cases o with
    | none => exact ⟨h2, h3, fun _ => h1.symm, by simp⟩
    | some v =>
      simp only [Act.store]
      refine ⟨good_store h2 (by rw [h3.view]; exact h1.symm), h3, by simp, fun _ => ⟨v, by simp⟩⟩

theorem andThen_assoc {C : Type} (a : Act G V R A) (b : A → Act G V R B) (c : B → Act G V R C) :
    a.andThen (fun x => (b x).andThen c) = (a.andThen b).andThen c := by
  funext s
  simp only [Act.andThen]
  cases a s with
  | mk o s' => cases o <;> rfl

theorem reads_structure : Reads E (getStructure E) (fun w => raw E w .structure) :=
  Reads.lazily (compute_store (Reads.lift fun _ => rfl))

theorem reads_mask : Reads E (getVacuumMask E) (fun w => raw E w .vacuumMask) := by
  refine Reads.lazily fun s hs => ?_
  simp only
  have hval : ∀ (x : R), (∀ w : View G R, w.tol = s.cfg.tol → raw E w .vacuumMask =
      (raw E w .structure).bind (E.below (if w.useRef then w.ref else w.charge) x)) →
      let c : Act G V R Unit := (getStructure E).andThen fun st => (Act.lift fun _ =>
        E.below (if s.cfg.useRef then s.heap s.cfg.ref else s.heap s.cfg.charge) x st).andThen
          (Act.store .vacuumMask)
      Good E (c s).2 ∧ Same s (c s).2 ∧ ((c s).1 = none → raw E s.view .vacuumMask = none) ∧
        ((c s).1 = some () → ∃ v, (c s).2.cache .vacuumMask = some v) := by
    intro x hx
    have hx' := hx s.view rfl
    obtain ⟨h1, h2, h3⟩ := reads_structure (E := E) s hs
    simp only [Act.andThen]
    cases hst : getStructure E s with
    | mk o s' =>
      rw [hst] at h1 h2 h3
      simp only at h1 h2 h3
      cases o with
      | none => exact ⟨h2, h3, fun _ => by rw [hx', ← h1]; rfl, by simp⟩
      | some st =>
        rw [← h1] at hx'
        simp only [Option.bind_some] at hx'
        simp only [Act.lift]
        cases hb : E.below (if s.cfg.useRef then s.heap s.cfg.ref else s.heap s.cfg.charge) x st with
        | none => exact ⟨h2, h3, fun _ => hx'.trans hb, by simp⟩
        | some v =>
          simp only [Act.store]
          refine ⟨good_store h2 ?_, h3, by simp, fun _ => ⟨v, by simp⟩⟩
          rw [h3.view]; exact hx'.trans hb
  cases ht : s.cfg.tol with
  | off =>
    simp only [Act.store]
    refine ⟨good_store hs ?_, ⟨rfl, rfl, rfl⟩, by simp, fun _ => ⟨_, Function.update_self _ _ _⟩⟩
    simp [raw, mask, St.view, ht]
  | on =>
    exact hval E.one fun w hw => by simp [raw, mask, hw, ht]
  | val x =>
    exact hval x fun w hw => by simp [raw, mask, hw, ht]

theorem reads_num : Reads E (getNumVacuum E) (fun w => raw E w .numVacuum) := by
  unfold getNumVacuum
  rw [andThen_assoc]
  exact Reads.lazily (compute_store (reads_mask.bind fun m => Reads.lift (g := fun _ => E.count m)
    fun _ => rfl))

/-- The values stored by an action that stores a whole dictionary. -/
theorem dict_store {ks : List PName} {a : Act G V R (PName → V)} {f : View G R → Option (PName → V)}
    (ha : Reads E a f) (hk : ∀ p ∈ ks, ∀ w, raw E w p = (f w).map fun r => r p) :
    ∀ p ∈ ks, ∀ s, Good E s →
      Good E ((a.andThen (storeAll ks)) s).2 ∧ Same s ((a.andThen (storeAll ks)) s).2 ∧
      (((a.andThen (storeAll ks)) s).1 = none → raw E s.view p = none) ∧
      (((a.andThen (storeAll ks)) s).1 = some () →
        ∃ v, ((a.andThen (storeAll ks)) s).2.cache p = some v) := by
  intro p hp s hs
  obtain ⟨h1, h2, h3⟩ := ha s hs
  simp only [Act.andThen]
  cases hx : a s with
  | mk o s' =>
    rw [hx] at h1 h2 h3
    simp only at h1 h2 h3
    cases o with
    | none => exact ⟨h2, h3, fun _ => by rw [hk p hp, ← h1]; rfl, by simp⟩
    | some r =>
      simp only [storeAll]
      refine ⟨good_storeAll h2 fun q hq => ?_, h3, by simp, fun _ => ⟨r p, by simp [hp]⟩⟩
      rw [hk q hq, h3.view, ← h1]; rfl

/-- The part of `run_bader` before the results are stored. -/
theorem reads_runBaderPre : Reads E ((getVacuumMask E).andThen fun m => (getNumVacuum E).andThen fun n =>
    (Act.lift fun s : St G V R => E.run s.cfg.method (s.heap s.cfg.charge) (s.heap s.cfg.ref) m n))
    (Fresh.bader E) :=
  reads_mask.bind fun m => reads_num.bind fun n =>
    Reads.lift (g := fun w => E.run w.method w.charge w.ref m n) fun _ => rfl

theorem runBader_eq : runBader E = ((getVacuumMask E).andThen fun m => (getNumVacuum E).andThen fun n =>
    (Act.lift fun s : St G V R => E.run s.cfg.method (s.heap s.cfg.charge) (s.heap s.cfg.ref) m n)).andThen
      (storeAll runKeys) := by
  unfold runBader
  simp only [andThen_assoc]

theorem runBader_store : ∀ p ∈ runKeys, ∀ s, Good E s →
    Good E (runBader E s).2 ∧ Same s (runBader E s).2 ∧
    ((runBader E s).1 = none → raw E s.view p = none) ∧
    ((runBader E s).1 = some () → ∃ v, (runBader E s).2.cache p = some v) := by
  rw [runBader_eq]
  refine dict_store reads_runBaderPre fun p hp w => ?_
  simp only [runKeys, List.mem_cons, List.not_mem_nil, or_false] at hp
  rcases hp with rfl | rfl | rfl | rfl | rfl | rfl | rfl | rfl <;> rfl

theorem reads_run {p : PName} (hp : p ∈ runKeys) : Reads E (getRun E p) (fun w => raw E w p) :=
  Reads.lazily (runBader_store p hp)

theorem Reads.rounded {a : Act G V R V} {f : View G R → Option V} (ha : Reads E a f) :
    Reads E (BaderKit.rounded E a) (fun w => (f w).map E.rnd) := by
  have := ha.bind (b := fun v => Act.lift fun _ => some (E.rnd v)) (g := fun v _ => some (E.rnd v))
    fun _ => Reads.lift fun _ => rfl
  refine fun s hs => ?_
  obtain ⟨h1, h2⟩ := this s hs
  refine ⟨h1.trans ?_, h2⟩
  simp only
  cases f s.view <;> rfl

theorem Reads.congr {a : Act G V R A} {f g : View G R → Option A} (ha : Reads E a f)
    (h : ∀ w, f w = g w) : Reads E a g := by
  have : f = g := funext h
  rw [← this]; exact ha

theorem reads_runAtomsPre : Reads E (
    (getRun E .basinMaximaFrac).andThen fun _ => (getStructure E).andThen fun st =>
    (getRun E .basinMaximaFrac).andThen fun fr => (getRun E .basinLabels).andThen fun lb =>
    (rounded E (getRun E .basinCharges)).andThen fun bc =>
    (rounded E (getRun E .basinVolumes)).andThen fun bv =>
    (Act.lift fun _ : St G V R => E.assign st fr lb bc bv)) (Fresh.atoms E) := by
  have r1 := reads_run (E := E) (p := .basinMaximaFrac) (by simp [runKeys])
  have r2 := reads_run (E := E) (p := .basinLabels) (by simp [runKeys])
  have r3 := (reads_run (E := E) (p := .basinCharges) (by simp [runKeys])).rounded
  have r4 := (reads_run (E := E) (p := .basinVolumes) (by simp [runKeys])).rounded
  refine (r1.bind fun _ => reads_structure.bind fun st => r1.bind fun fr => r2.bind fun lb =>
    r3.bind fun bc => r4.bind fun bv =>
      Reads.lift (g := fun _ => E.assign st fr lb bc bv) fun _ => rfl).congr fun w => ?_
  simp only [raw, Fresh.atoms]
  cases Fresh.bader E w with
  | none => rfl
  | some r => cases E.structOf w.ref <;> rfl

theorem runAtoms_eq : runAtoms E = (
    (getRun E .basinMaximaFrac).andThen fun _ => (getStructure E).andThen fun st =>
    (getRun E .basinMaximaFrac).andThen fun fr => (getRun E .basinLabels).andThen fun lb =>
    (rounded E (getRun E .basinCharges)).andThen fun bc =>
    (rounded E (getRun E .basinVolumes)).andThen fun bv =>
    (Act.lift fun _ : St G V R => E.assign st fr lb bc bv)).andThen (storeAll atomKeys) := by
  unfold runAtoms
  simp only [andThen_assoc]

theorem runAtoms_store : ∀ p ∈ atomKeys, ∀ s, Good E s →
    Good E (runAtoms E s).2 ∧ Same s (runAtoms E s).2 ∧
    ((runAtoms E s).1 = none → raw E s.view p = none) ∧
    ((runAtoms E s).1 = some () → ∃ v, (runAtoms E s).2.cache p = some v) := by
  rw [runAtoms_eq]
  refine dict_store reads_runAtomsPre fun p hp w => ?_
  simp only [atomKeys, List.mem_cons, List.not_mem_nil, or_false] at hp
  rcases hp with rfl | rfl | rfl | rfl | rfl <;> rfl

theorem reads_atom {p : PName} (hp : p ∈ atomKeys) : Reads E (getAtom E p) (fun w => raw E w p) :=
  Reads.lazily (runAtoms_store p hp)

theorem reads_basinEdges : Reads E (getBasinEdges E) (fun w => raw E w .basinEdges) := by
  unfold getBasinEdges
  rw [andThen_assoc]
  refine Reads.lazily (compute_store (((reads_run (p := .basinLabels) (by simp [runKeys])).bind fun lb =>
    Reads.lift (g := fun w => E.edges lb w.ref) fun _ => rfl).congr fun w => ?_))
  simp only [raw, Fresh.basinEdges]
  cases Fresh.bader E w <;> rfl

theorem reads_atomEdges : Reads E (getAtomEdges E) (fun w => raw E w .atomEdges) := by
  unfold getAtomEdges
  rw [andThen_assoc]
  refine Reads.lazily (compute_store (((reads_atom (p := .atomLabels) (by simp [atomKeys])).bind fun lb =>
    Reads.lift (g := fun w => E.edges lb w.ref) fun _ => rfl).congr fun w => ?_))
  simp only [raw, Fresh.atomEdges]
  cases Fresh.atoms E w <;> rfl

/-- Storing the two surface distances. -/
theorem pair_store {p q : PName} (hpq : p ≠ q) {a : Act G V R (V × V)} {f : View G R → Option (V × V)}
    (ha : Reads E a f) (hp : ∀ w, raw E w p = (f w).map Prod.fst)
    (hq : ∀ w, raw E w q = (f w).map Prod.snd) :
    let c : Act G V R Unit := a.andThen fun r => (Act.store p r.1).andThen fun _ => Act.store q r.2
    ∀ s, Good E s → Good E (c s).2 ∧ Same s (c s).2 ∧ ((c s).1 = none → f s.view = none) ∧
      ((c s).1 = some () → ∃ v : V × V, (c s).2.cache p = some v.1 ∧ (c s).2.cache q = some v.2) := by
  intro c s hs
  obtain ⟨h1, h2, h3⟩ := ha s hs
  simp only [c, Act.andThen]
  cases hx : a s with
  | mk o s' =>
    rw [hx] at h1 h2 h3
    simp only at h1 h2 h3
    cases o with
    | none => exact ⟨h2, h3, fun _ => h1.symm, by simp⟩
    | some r =>
      simp only [Act.store]
      have g1 := good_store (p := p) (v := r.1) h2 (by rw [hp, h3.view, ← h1]; rfl)
      have g2 := good_store (p := q) (v := r.2) g1 (by
        have : (St.view { s' with cache := Function.update s'.cache p (some r.1) } : View G R) = s'.view :=
          rfl
        rw [this, hq, h3.view, ← h1]; rfl)
      exact ⟨g2, h3, by simp, fun _ => ⟨r, by simp [Function.update_of_ne hpq], by simp⟩⟩

theorem reads_basinSurfPre : Reads E (
    (getRun E .basinLabels).andThen fun lb => (getRun E .basinMaximaFrac).andThen fun fr =>
    (getBasinEdges E).andThen fun ed => (getStructure E).andThen fun st =>
    (Act.lift fun s : St G V R => E.surf lb fr ed (s.heap s.cfg.ref) st)) (Fresh.basinSurf E) := by
  refine ((reads_run (p := .basinLabels) (by simp [runKeys])).bind fun lb =>
    (reads_run (p := .basinMaximaFrac) (by simp [runKeys])).bind fun fr => reads_basinEdges.bind fun ed =>
    reads_structure.bind fun st => Reads.lift (g := fun w => E.surf lb fr ed w.ref st)
      fun _ => rfl).congr fun w => ?_
  simp only [raw, Fresh.basinSurf]
  cases Fresh.bader E w <;> rfl

theorem reads_atomSurfPre : Reads E (
    (getAtom E .atomLabels).andThen fun lb => (getStructure E).andThen fun st0 =>
    (getAtomEdges E).andThen fun ed => (getStructure E).andThen fun st =>
    (Act.lift fun s : St G V R => E.surf lb (E.fracOf st0) ed (s.heap s.cfg.ref) st))
    (Fresh.atomSurf E) := by
  refine ((reads_atom (p := .atomLabels) (by simp [atomKeys])).bind fun lb =>
    reads_structure.bind fun st0 => reads_atomEdges.bind fun ed =>
    reads_structure.bind fun st => Reads.lift (g := fun w => E.surf lb (E.fracOf st0) ed w.ref st)
      fun _ => rfl).congr fun w => ?_
  simp only [raw, Fresh.atomSurf]
  cases Fresh.atoms E w with
  | none => rfl
  | some r =>
    cases E.structOf w.ref with
    | none => rfl
    | some st => rfl

theorem basinSurf_store : ∀ s, Good E s → Good E (basinSurf E s).2 ∧ Same s (basinSurf E s).2 ∧
    ((basinSurf E s).1 = none → Fresh.basinSurf E s.view = none) ∧
    ((basinSurf E s).1 = some () → ∃ v : V × V, (basinSurf E s).2.cache .basinMinSurf = some v.1 ∧
      (basinSurf E s).2.cache .basinAvgSurf = some v.2) := by
  have := pair_store (p := .basinMinSurf) (q := .basinAvgSurf) (by decide) (reads_basinSurfPre (E := E))
    (fun _ => rfl) (fun _ => rfl)
  have e : basinSurf E = (((getRun E .basinLabels).andThen fun lb =>
      (getRun E .basinMaximaFrac).andThen fun fr =>
      (getBasinEdges E).andThen fun ed => (getStructure E).andThen fun st =>
      (Act.lift fun s : St G V R => E.surf lb fr ed (s.heap s.cfg.ref) st)).andThen fun r =>
      (Act.store .basinMinSurf r.1).andThen fun _ => Act.store .basinAvgSurf r.2) := by
    unfold basinSurf
    simp only [andThen_assoc]
  rw [e]
  exact this

theorem atomSurf_store : ∀ s, Good E s → Good E (atomSurf E s).2 ∧ Same s (atomSurf E s).2 ∧
    ((atomSurf E s).1 = none → Fresh.atomSurf E s.view = none) ∧
    ((atomSurf E s).1 = some () → ∃ v : V × V, (atomSurf E s).2.cache .atomMinSurf = some v.1 ∧
      (atomSurf E s).2.cache .atomAvgSurf = some v.2) := by
  have := pair_store (p := .atomMinSurf) (q := .atomAvgSurf) (by decide) (reads_atomSurfPre (E := E))
    (fun _ => rfl) (fun _ => rfl)
  have e : atomSurf E = (((getAtom E .atomLabels).andThen fun lb => (getStructure E).andThen fun st0 =>
      (getAtomEdges E).andThen fun ed => (getStructure E).andThen fun st =>
      (Act.lift fun s : St G V R => E.surf lb (E.fracOf st0) ed (s.heap s.cfg.ref) st)).andThen fun r =>
      (Act.store .atomMinSurf r.1).andThen fun _ => Act.store .atomAvgSurf r.2) := by
    unfold atomSurf
    simp only [andThen_assoc]
  rw [e]
  exact this

theorem reads_surf {p : PName} {c : Act G V R Unit} {f : View G R → Option (V × V)} {pr : V × V → V}
    (h : ∀ s, Good E s → Good E (c s).2 ∧ Same s (c s).2 ∧ ((c s).1 = none → f s.view = none) ∧
      ((c s).1 = some () → ∃ v, (c s).2.cache p = some v))
    (hp : ∀ w, raw E w p = (f w).map pr) : Reads E (Act.lazily p c) (fun w => raw E w p) := by
  refine Reads.lazily fun s hs => ?_
  obtain ⟨h1, h2, h3, h4⟩ := h s hs
  exact ⟨h1, h2, fun hn => by rw [hp, h3 hn]; rfl, h4⟩

/-- Every getter except the broken one shows the right value. -/
theorem reads_prop {p : PName} (hp : p ≠ .atomAvgSurf) :
    Reads E (getProp E p) (fun w => shown E w p) := by
  have run : ∀ {q : PName}, q ∈ runKeys → Reads E (getRun E q) (fun w => raw E w q) := reads_run
  have atom : ∀ {q : PName}, q ∈ atomKeys → Reads E (getAtom E q) (fun w => raw E w q) := reads_atom
  cases p with
  | atomAvgSurf => exact absurd rfl hp
  | basinLabels => exact run (by simp [runKeys])
  | basinMaximaFrac => exact run (by simp [runKeys])
  | basinMaximaVox => exact run (by simp [runKeys])
  | basinMaximaRefValues => exact (run (by simp [runKeys])).rounded
  | basinCharges => exact (run (by simp [runKeys])).rounded
  | basinVolumes => exact (run (by simp [runKeys])).rounded
  | vacuumCharge => exact (run (by simp [runKeys])).rounded
  | vacuumVolume => exact (run (by simp [runKeys])).rounded
  | basinMaximaChargeValues =>
    refine Reads.rounded ?_
    rw [andThen_assoc]
    refine Reads.lazily (compute_store (((run (q := .basinMaximaFrac) (by simp [runKeys])).bind fun fr =>
      Reads.lift (g := fun w => E.valuesAt w.charge fr) fun _ => rfl).congr fun w => ?_))
    simp only [raw]
    cases Fresh.bader E w <;> rfl
  | significantBasins =>
    simp only [getProp]
    rw [andThen_assoc]
    refine Reads.lazily (compute_store (((run (q := .basinCharges) (by simp [runKeys])).rounded.bind
      fun bc => Reads.lift (g := fun w => E.greater bc w.basinTol) fun _ => rfl).congr fun w => ?_))
    simp only [raw]
    cases Fresh.bader E w <;> rfl
  | vacuumMask => exact reads_mask
  | numVacuum => exact reads_num
  | «structure» => exact reads_structure
  | basinEdges => exact reads_basinEdges
  | atomEdges => exact reads_atomEdges
  | basinMinSurf =>
    refine Reads.rounded (reads_surf (pr := Prod.fst) (f := Fresh.basinSurf E) (fun s hs => ?_) fun _ => rfl)
    obtain ⟨h1, h2, h3, h4⟩ := basinSurf_store (E := E) s hs
    exact ⟨h1, h2, h3, fun h => by obtain ⟨v, hv, _⟩ := h4 h; exact ⟨_, hv⟩⟩
  | basinAvgSurf =>
    refine Reads.rounded (reads_surf (pr := Prod.snd) (f := Fresh.basinSurf E) (fun s hs => ?_) fun _ => rfl)
    obtain ⟨h1, h2, h3, h4⟩ := basinSurf_store (E := E) s hs
    exact ⟨h1, h2, h3, fun h => by obtain ⟨v, _, hv⟩ := h4 h; exact ⟨_, hv⟩⟩
  | atomMinSurf =>
    refine Reads.rounded (reads_surf (pr := Prod.fst) (f := Fresh.atomSurf E) (fun s hs => ?_) fun _ => rfl)
    obtain ⟨h1, h2, h3, h4⟩ := atomSurf_store (E := E) s hs
    exact ⟨h1, h2, h3, fun h => by obtain ⟨v, hv, _⟩ := h4 h; exact ⟨_, hv⟩⟩
  | basinAtoms => exact atom (by simp [atomKeys])
  | basinAtomDists => exact (atom (by simp [atomKeys])).rounded
  | atomLabels => exact atom (by simp [atomKeys])
  | atomCharges => exact (atom (by simp [atomKeys])).rounded
  | atomVolumes => exact (atom (by simp [atomKeys])).rounded

/-- The broken getter: it raises or shows the right value, and keeps the caches good. -/
theorem reads_atomAvg (s : St G V R) (hs : Good E s) :
    ((getProp E .atomAvgSurf s).1 = none ∨
      (getProp E .atomAvgSurf s).1 = shown E s.view .atomAvgSurf) ∧
    Good E (getProp E .atomAvgSurf s).2 ∧ Same s (getProp E .atomAvgSurf s).2 := by
  simp only [getProp, rounded, Act.andThen, Act.lazily]
  cases hp : s.cache .atomAvgSurf with
  | some v =>
    refine ⟨.inr ?_, hs, rfl, rfl, rfl⟩
    simp [Act.lift, shown, isRounded, hs _ _ hp]
  | none =>
    obtain ⟨h1, h2, _, _⟩ := basinSurf_store (E := E) s hs
    simp only
    cases hc : basinSurf E s with
    | mk o s' =>
      rw [hc] at h1 h2
      simp only at h1 h2
      cases o with
      | none => exact ⟨.inl rfl, h1, h2⟩
      | some u =>
        simp only [Act.fetch]
        cases hv : s'.cache .atomAvgSurf with
        | none => exact ⟨.inl rfl, h1, h2⟩
        | some v =>
          refine ⟨.inr ?_, h1, h2⟩
          have := h1 _ _ hv
          rw [h2.view] at this
          simp [Act.lift, shown, isRounded, this]

theorem reads_total {p q : PName} (hp : p ≠ .atomAvgSurf) (hq : q ≠ .atomAvgSurf) :
    Reads E ((getProp E p).andThen fun a => (getProp E q).andThen fun v =>
      Act.lift fun _ => some (E.addTotal a v))
      (fun w => (shown E w p).bind fun a => (shown E w q).bind fun v => some (E.addTotal a v)) :=
  (reads_prop hp).bind fun a => (reads_prop hq).bind fun v =>
    Reads.lift (g := fun _ => some (E.addTotal a v)) fun _ => rfl

theorem good_reset {s : St G V R} {incl excl : List PName}
    (h : ∀ p v, p ∉ incl ∨ p ∈ excl → s.cache p = some v → raw E s.view p = some v) :
    Good E (resetProps incl excl s) := by
  intro p v hp
  simp only [resetProps] at hp
  split_ifs at hp with hm
  refine h p v ?_ hp
  simp only [List.mem_filter, decide_eq_true_eq, not_and, not_not] at hm
  by_cases hi : p ∈ incl
  · exact .inr (hm hi)
  · exact .inl hi

theorem mem_allProps (p : PName) : p ∈ allProps := by cases p <;> decide

theorem good_reset_all (s : St G V R) : Good E (resetProps allProps [] s) :=
  good_reset fun p _ h _ => by
    rcases h with h | h
    · exact absurd (mem_allProps p) h
    · simp at h

/-- The property does not use the method. -/
theorem raw_method (w : View G R) (m : String) {p : PName} (hp : p = .vacuumMask ∨ p = .numVacuum) :
    raw E { w with method := m } p = raw E w p := by
  rcases hp with rfl | rfl <;> rfl

/-- Only one property uses the basin tolerance. -/
theorem raw_basinTol (w : View G R) (x : R) {p : PName} (hp : p ≠ .significantBasins) :
    raw E { w with basinTol := x } p = raw E w p := by
  cases p <;> first | rfl | exact absurd rfl hp

/-- One operation keeps the caches good, unless it changes a grid behind the object's back. -/
theorem good_step (o : Op G R) (ho : ∀ a g, o ≠ .mutate a g) (s : St G V R) (hs : Good E s) :
    Good E (o.step E s) := by
  cases o with
  | setCharge a => exact good_reset_all _
  | setRef a => exact good_reset_all _
  | setMethod m =>
    simp only [Op.step]
    split_ifs
    · refine good_reset fun p v h hc => ?_
      have hp : p = .vacuumMask ∨ p = .numVacuum := by
        rcases h with h | h
        · exact absurd (mem_allProps p) h
        · simpa using h
      have := hs p v hc
      exact (raw_method s.view m hp).trans this
    · exact hs
  | setTol t => exact good_reset_all _
  | setUseRef b => exact good_reset_all _
  | setBasinTol x =>
    refine good_reset fun p v h hc => ?_
    have hp : p ≠ .significantBasins := by
      rcases h with h | h
      · simpa using h
      · simp at h
    exact (raw_basinTol s.view x hp).trans (hs p v hc)
  | read p =>
    by_cases hp : p = .atomAvgSurf
    · subst hp; exact (reads_atomAvg s hs).2.1
    · exact (reads_prop hp s hs).2.1
  | totalElectrons => exact (reads_total (by decide) (by decide) s hs).2.1
  | totalVolume => exact (reads_total (by decide) (by decide) s hs).2.1
  | runBader => exact (runBader_store .basinLabels (by simp [runKeys]) s hs).1
  | runAtoms => exact (runAtoms_store .basinAtoms (by simp [atomKeys]) s hs).1
  | mutate a g => exact absurd rfl (ho a g)

theorem good_ops (ops : List (Op G R)) : ∀ s : St G V R, Good E s →
    (∀ o ∈ ops, ∀ a g, o ≠ Op.mutate a g) → Good E (runOps E ops s) := by
  induction ops with
  | nil => intro s hs _; exact hs
  | cons o ops ih =>
    intro s hs h
    exact ih _ (good_step o (h o (by simp)) s hs) fun o' ho' => h o' (by simp [ho'])

theorem good_construct {heap : ℕ → G} {next charge : ℕ} {ref : Option ℕ} {method : String} {tol : Tol R}
    {useRef : Bool} {basinTol : R} {s : St G V R}
    (h : construct E heap next charge ref method tol useRef basinTol = some s) : Good E s := by
  unfold construct at h
  split_ifs at h
  rw [Option.some.injEq] at h
  subst h
  intro p v hp
  cases ref <;> simp at hp

/-- **C25** After every history of setter calls, reads and runs on a new object — also one in which
computations raised exceptions — every read shows exactly what the current grids and settings give when
everything is computed from scratch, and so do the two totals.  (`atom_avg_surface_distances` is treated in
`C25_atom_avg`.) -/
theorem C25_never_stale (E : Engine G V R) (heap : ℕ → G) (next charge : ℕ) (ref : Option ℕ)
    (method : String) (tol : Tol R) (useRef : Bool) (basinTol : R) (s0 : St G V R)
    (h0 : construct E heap next charge ref method tol useRef basinTol = some s0)
    (ops : List (Op G R)) (hops : ∀ o ∈ ops, ∀ a g, o ≠ Op.mutate a g) :
    let s := runOps E ops s0
    (∀ p, p ≠ .atomAvgSurf → (getProp E p s).1 = shown E s.view p) ∧
    (getTotalElectrons E s).1 = ((shown E s.view .atomCharges).bind fun a =>
      (shown E s.view .vacuumCharge).bind fun v => some (E.addTotal a v)) ∧
    (getTotalVolume E s).1 = ((shown E s.view .atomVolumes).bind fun a =>
      (shown E s.view .vacuumVolume).bind fun v => some (E.addTotal a v)) := by
  intro s
  have hs : Good E s := good_ops ops s0 (good_construct h0) hops
  exact ⟨fun p hp => (reads_prop hp s hs).1, (reads_total (by decide) (by decide) s hs).1,
    (reads_total (by decide) (by decide) s hs).1⟩

/-- **C58** (partial) The same, comparing with a new object: reading any property (other than
`atom_avg_surface_distances`) after any history gives what the same read gives on an object constructed from
the current grids and settings, provided `vacuum_tol` is not currently `True`.  Missing: these two cases, in
which it is false (`C58_atom_avg_history`, `C58_true_tolerance`). -/
theorem C58_like_new_partial (E : Engine G V R) (heap : ℕ → G) (next charge : ℕ) (ref : Option ℕ)
    (method : String) (tol : Tol R) (useRef : Bool) (basinTol : R) (s0 : St G V R)
    (h0 : construct E heap next charge ref method tol useRef basinTol = some s0)
    (ops : List (Op G R)) (hops : ∀ o ∈ ops, ∀ a g, o ≠ Op.mutate a g) (p : PName)
    (hp : p ≠ .atomAvgSurf) :
    let s := runOps E ops s0
    s.cfg.tol ≠ .on →
    ∃ s1, construct E s.heap s.next s.cfg.charge (some s.cfg.ref) s.cfg.method s.cfg.tol s.cfg.useRef
        s.cfg.basinTol = some s1 ∧ (getProp E p s).1 = (getProp E p s1).1 := by
  intro s htol
  have hs : Good E s := good_ops ops s0 (good_construct h0) hops
  have hm : s.cfg.method ∈ methodNames := by
    have h0m : s0.cfg.method ∈ methodNames := by
      unfold construct at h0
      split_ifs at h0 with hm
      rw [Option.some.injEq] at h0
      subst h0
      cases ref <;> exact hm
    have : ∀ (ops : List (Op G R)) (s : St G V R), Good E s → (∀ o ∈ ops, ∀ a g, o ≠ Op.mutate a g) →
        s.cfg.method ∈ methodNames → (runOps E ops s).cfg.method ∈ methodNames := by
      intro ops
      induction ops with
      | nil => intro s _ _ h; exact h
      | cons o ops ih =>
        intro s hg hop h
        refine ih _ (good_step o (hop o (by simp)) s hg) (fun o' ho' => hop o' (by simp [ho'])) ?_
        cases o with
        | setCharge a => exact h
        | setRef a => exact h
        | setMethod m =>
          simp only [Op.step]
          split_ifs with hm
          · exact hm
          · exact h
        | setTol t => exact h
        | setUseRef b => exact h
        | setBasinTol x => exact h
        | read p =>
          have : Same s (getProp E p s).2 := by
            by_cases hp : p = .atomAvgSurf
            · subst hp; exact (reads_atomAvg s hg).2.2
            · exact (reads_prop hp s hg).2.2
          simp only [Op.step]; rw [this.2.2]; exact h
        | totalElectrons =>
          have := (reads_total (E := E) (p := .atomCharges) (q := .vacuumCharge) (by decide) (by decide) s hg).2.2
          simp only [Op.step, getTotalElectrons]; rw [this.2.2]; exact h
        | totalVolume =>
          have := (reads_total (E := E) (p := .atomVolumes) (q := .vacuumVolume) (by decide) (by decide) s hg).2.2
          simp only [Op.step, getTotalVolume]; rw [this.2.2]; exact h
        | runBader =>
          have := (runBader_store (E := E) .basinLabels (by simp [runKeys]) s hg).2.1
          simp only [Op.step]; rw [this.2.2]; exact h
        | runAtoms =>
          have := (runAtoms_store (E := E) .basinAtoms (by simp [atomKeys]) s hg).2.1
          simp only [Op.step]; rw [this.2.2]; exact h
        | mutate a g => exact absurd rfl (hop _ (by simp) a g)
    exact this ops s0 (good_construct h0) hops h0m
  refine ⟨⟨s.heap, s.next, s.cfg, fun _ => none⟩, ?_, ?_⟩
  · unfold construct
    rw [if_pos hm]
    cases ht : s.cfg.tol with
    | on => exact absurd ht htol
    | off => simp only [← ht]
    | val x => simp only [← ht]
  · rw [(reads_prop hp s hs).1, (reads_prop hp ⟨s.heap, s.next, s.cfg, fun _ => none⟩
      (fun p v h => by simp at h)).1]
    rfl

/-- **C25** `atom_avg_surface_distances` never shows a stale value either: after every history it raises or
shows the right value. -/
theorem C25_atom_avg (E : Engine G V R) (heap : ℕ → G) (next charge : ℕ) (ref : Option ℕ)
    (method : String) (tol : Tol R) (useRef : Bool) (basinTol : R) (s0 : St G V R)
    (h0 : construct E heap next charge ref method tol useRef basinTol = some s0)
    (ops : List (Op G R)) (hops : ∀ o ∈ ops, ∀ a g, o ≠ Op.mutate a g) :
    let s := runOps E ops s0
    (getProp E .atomAvgSurf s).1 = none ∨
      (getProp E .atomAvgSurf s).1 = shown E s.view .atomAvgSurf := by
  intro s
  exact (reads_atomAvg s (good_ops ops s0 (good_construct h0) hops)).1

/-- The basin routine does not fill the atom caches. -/
theorem lazily_cache {p q : PName} {c : Act G V R Unit}
    (hc : ∀ s, (c s).2.cache q = s.cache q) (s : St G V R) :
    (Act.lazily p c s).2.cache q = s.cache q := by
  unfold Act.lazily
  cases s.cache p with
  | some v => rfl
  | none =>
    simp only [Act.andThen]
    have := hc s
    cases h : c s with
    | mk o s' =>
      rw [h] at this
      cases o <;> exact this

/-- The action does not touch the cache of `q`. -/
def Keeps (q : PName) (a : Act G V R A) : Prop := ∀ s, (a s).2.cache q = s.cache q

theorem Keeps.andThen {q : PName} {a : Act G V R A} {b : A → Act G V R B} (ha : Keeps q a)
    (hb : ∀ x, Keeps q (b x)) : Keeps q (a.andThen b) := by
  intro s
  simp only [Act.andThen]
  have := ha s
  cases h : a s with
  | mk o s' =>
    rw [h] at this
    cases o with
    | none => exact this
    | some x => exact (hb x s').trans this

theorem Keeps.lift {q : PName} {f : St G V R → Option A} : Keeps q (Act.lift f) := fun _ => rfl

theorem Keeps.store {p q : PName} (h : q ≠ p) (v : V) : Keeps q (Act.store p v : Act G V R Unit) :=
  fun s => by simp [Act.store, Function.update_of_ne h]

theorem Keeps.lazily {p q : PName} {c : Act G V R Unit} (hc : Keeps q c) :
    Keeps q (Act.lazily p c) := lazily_cache hc

theorem keeps_basinSurf : Keeps .atomAvgSurf (basinSurf E) := by
  have h1 : Keeps .atomAvgSurf (getStructure E) :=
    Keeps.lazily (Keeps.lift.andThen fun _ => Keeps.store (by decide) _)
  have h2 : Keeps .atomAvgSurf (getVacuumMask E) := by
    refine Keeps.lazily fun s => ?_
    simp only
    cases s.cfg.tol with
    | off => exact Keeps.store (by decide) _ s
    | on => exact (h1.andThen fun st => Keeps.lift.andThen fun _ => Keeps.store (by decide) _) s
    | val x => exact (h1.andThen fun st => Keeps.lift.andThen fun _ => Keeps.store (by decide) _) s
  have h3 : Keeps .atomAvgSurf (getNumVacuum E) :=
    Keeps.lazily (h2.andThen fun _ => Keeps.lift.andThen fun _ => Keeps.store (by decide) _)
  have h4 : Keeps .atomAvgSurf (runBader E) :=
    h2.andThen fun _ => h3.andThen fun _ => Keeps.lift.andThen fun _ => fun s => by
      simp [storeAll, runKeys]
  have h5 : ∀ p ∈ runKeys, Keeps .atomAvgSurf (getRun E p) := fun _ _ => Keeps.lazily h4
  have h6 : Keeps .atomAvgSurf (getBasinEdges E) :=
    Keeps.lazily ((h5 _ (by simp [runKeys])).andThen fun _ =>
      Keeps.lift.andThen fun _ => Keeps.store (by decide) _)
  exact (h5 _ (by simp [runKeys])).andThen fun _ => (h5 _ (by simp [runKeys])).andThen fun _ =>
    h6.andThen fun _ => h1.andThen fun _ => Keeps.lift.andThen fun _ =>
      (Keeps.store (by decide) _).andThen fun _ => Keeps.store (by decide) _

/-- **C58** Without a reference grid the constructor makes a private copy of the charge grid: all grids that
existed before (addresses below `next`) keep their value, the copy has the value of the charge grid, no later
in-place change of an existing grid reaches the copy, and the next object allocated does not share it. -/
theorem C58_private_copy (E : Engine G V R) (heap : ℕ → G) (next charge : ℕ) (hc : charge < next)
    (method : String) (tol : Tol R) (useRef : Bool) (basinTol : R) (s0 : St G V R)
    (h0 : construct E heap next charge none method tol useRef basinTol = some s0) :
    (∀ a < next, s0.heap a = heap a) ∧ s0.heap s0.cfg.ref = heap charge ∧ s0.cfg.charge = charge ∧
    (∀ a < next, ∀ g, ((Op.mutate a g).step E s0).heap s0.cfg.ref = heap charge) ∧
    (∀ s1, construct E s0.heap s0.next charge none method tol useRef basinTol = some s1 →
      s1.cfg.ref ≠ s0.cfg.ref ∧ ∀ g, ((Op.mutate s0.cfg.ref g).step E s1).heap s1.cfg.ref = heap charge) := by
  unfold construct at h0
  split_ifs at h0 with hm
  rw [Option.some.injEq] at h0
  subst h0
  refine ⟨fun a ha => ?_, ?_, rfl, fun a ha g => ?_, fun s1 h1 => ?_⟩
  · simp [Nat.ne_of_lt ha]
  · simp
  · simp [Op.step, Nat.ne_of_gt ha]
  · unfold construct at h1
    rw [if_pos hm, Option.some.injEq] at h1
    subst h1
    refine ⟨by simp, fun g => ?_⟩
    simp [Op.step, Nat.ne_of_lt hc]

/-- **C58** (negative part) Whether `atom_avg_surface_distances` can be read depends on the history: on every
new object it raises, although the value exists; after reading `atom_min_surface_distances` it is shown. -/
theorem C58_atom_avg_history (E : Engine G V R) (heap : ℕ → G) (next charge : ℕ) (ref : Option ℕ)
    (method : String) (tol : Tol R) (useRef : Bool) (basinTol : R) (s0 : St G V R)
    (h0 : construct E heap next charge ref method tol useRef basinTol = some s0) (v : V)
    (hv : shown E s0.view .atomAvgSurf = some v) :
    (getProp E .atomAvgSurf s0).1 = none ∧
      (getProp E .atomAvgSurf (runOps E [.read .atomMinSurf] s0)).1 = some v := by
  have hs := good_construct h0
  have hempty : s0.cache .atomAvgSurf = none ∧ s0.cache .atomMinSurf = none := by
    unfold construct at h0
    split_ifs at h0
    rw [Option.some.injEq] at h0
    subst h0
    cases ref <;> exact ⟨rfl, rfl⟩
  constructor
  · simp only [getProp, rounded, Act.andThen, Act.lazily, hempty.1]
    have hk := keeps_basinSurf (E := E) s0
    cases hc : basinSurf E s0 with
    | mk o s' =>
      rw [hc, hempty.1] at hk
      simp only at hk
      cases o with
      | none => rfl
      | some u => simp [Act.fetch, hk]
  · obtain ⟨g1, g2, g3, g4⟩ := atomSurf_store (E := E) s0 hs
    have hval : ∃ r, Fresh.atomSurf E s0.view = some r := by
      simp only [shown, isRounded, if_true, raw, Option.map_map, Option.map_eq_some_iff] at hv
      obtain ⟨r, hr, _⟩ := hv
      exact ⟨r, hr⟩
    obtain ⟨r, hr⟩ := hval
    cases hc : atomSurf E s0 with
    | mk o s' =>
      rw [hc] at g1 g2 g3 g4
      simp only at g1 g2 g3 g4
      cases o with
      | none => rw [g3 rfl] at hr; simp at hr
      | some u =>
        obtain ⟨w, hw1, hw2⟩ := g4 rfl
        have e : (getProp E .atomMinSurf s0).2 = s' := by
          simp only [getProp, rounded, Act.andThen, Act.lazily, hempty.2, hc, Act.fetch, hw1, Act.lift]
        simp only [runOps, List.foldl_cons, List.foldl_nil, Op.step, e]
        have : (getProp E .atomAvgSurf s').1 = some (E.rnd w.2) := by
          simp only [getProp, rounded, Act.andThen, Act.lazily, hw2, Act.lift]
        rw [this]
        have h1 := g1 _ _ hw2
        rw [g2.view] at h1
        simp [shown, isRounded, h1] at hv
        rw [hv]

/-- A toy engine over numbers: grids are numbers, the structure is the constant 1, a voxel mask is the
comparison, charges are the charge grid, and so on. -/
def toyEngine : Engine ℕ ℕ ℕ where
  defaultTol := 7
  one := 1
  structOf _ := some 1
  zeros _ := 0
  below g x _ := some (if g < x then 1 else 0)
  count m := some m
  run _ c r m n := some fun _ => 100 * c + 10 * r + m + n
  valuesAt g f := some (g + f)
  greater a x := some (if a > x then 1 else 0)
  assign st fr lb bc bv := some fun _ => st + fr + lb + bc + bv
  edges l g := some (l + g)
  fracOf s := s
  surf a b c d e := some (a + b, c + d + e)
  rnd x := x
  addTotal a b := a + b

/-- **C25** (negative part) A grid changed from outside (`grid.total = …`) after a read leaves the old result
in place. -/
theorem C25_mutation_stale : ∃ s0 : St ℕ ℕ ℕ,
    construct toyEngine (fun _ => 5) 1 0 none "weight" .off true 0 = some s0 ∧
    let s := runOps toyEngine [.read .basinCharges, .mutate 0 6] s0
    (getProp toyEngine .basinCharges s).1 = some 550 ∧
      shown toyEngine s.view .basinCharges = some 650 := by
  refine ⟨_, rfl, by decide, by decide⟩

/-- **C58** (negative part) `vacuum_tol = True` means the default tolerance in the constructor and the
tolerance one in the setter, with different results. -/
theorem C58_true_tolerance : ∃ s0 s1 : St ℕ ℕ ℕ,
    construct toyEngine (fun _ => 5) 1 0 none "weight" .on true 0 = some s0 ∧
    construct toyEngine (fun _ => 5) 1 0 none "weight" .off true 0 = some s1 ∧
    (getProp toyEngine .vacuumMask s0).1 = some 1 ∧
    (getProp toyEngine .vacuumMask (runOps toyEngine [.setTol .on] s1)).1 = some 0 := by
  refine ⟨_, _, rfl, rfl, by decide, by decide⟩

/-- Non-vacuity of C25: reads between setters, with changing results. -/
example : ∃ s0 : St ℕ ℕ ℕ, construct toyEngine (fun a => a) 9 2 none "weight" (.val 3) true 0 = some s0 ∧
    (getProp toyEngine .basinCharges s0).1 = some 222 ∧
    (getProp toyEngine .basinCharges (runOps toyEngine
      [.read .basinCharges, .setRef 4, .read .atomEdges, .setMethod "neargrid", .setMethod "nonsense",
       .setBasinTol 3] s0)).1 = some 240 ∧
    (getProp toyEngine .significantBasins (runOps toyEngine
      [.read .significantBasins, .setBasinTol 300] s0)).1 = some 0 := by
  refine ⟨_, rfl, by decide, by decide, by decide⟩

end BaderKit
