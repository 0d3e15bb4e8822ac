import Verif.Model.Parallel
import Mathlib.Data.List.Flatten
import Mathlib.Tactic.Ring
/-!
# Parallel loops: lemmas
-/
namespace BaderKit

variable {L V : Type} [DecidableEq L]

/-- What the iterations may do with an array entry: only read it, keep it to one iteration, or set it to one value. -/
inductive Role (V : Type) where
  | const | own (t : ℕ) | flag (v : V)

/-- Iteration `t` keeps to the roles, whatever it reads. -/
def Owned (role : L → Role V) (t : ℕ) : Prog L V → Prop
  | .done => True
  | .read l k => (role l = .const ∨ role l = .own t) ∧ ∀ v, Owned role t (k v)
  | .write l v k => (role l = .own t ∨ role l = .flag v) ∧ Owned role t k

/-- The iteration writes the entry. -/
def Hits (l : L) : Prog L V → (L → V) → Prop
  | .done, _ => False
  | .read l' k, m => Hits l (k (m l')) m
  | .write l' v k, m => l' = l ∨ Hits l k (Function.update m l' v)

theorem exec_seq (p q : Prog L V) (m : L → V) : (p.seq q).exec m = q.exec (p.exec m) := by
  induction p generalizing m with
  | done => rfl
  | read l k ih => exact ih _ _
  | write l v k ih => exact ih _

theorem exec_forAll {α : Type} (f : α → Prog L V) (as : List α) (m : L → V) :
    (Prog.forAll f as).exec m = as.foldl (fun m a => (f a).exec m) m := by
  induction as generalizing m with
  | nil => rfl
  | cons a as ih => simp [Prog.forAll, exec_seq, ih]

theorem owned_seq {role : L → Role V} {t : ℕ} {p q : Prog L V} (hp : Owned role t p) (hq : Owned role t q) : Owned role t (p.seq q) := by
  induction p with
  | done => exact hq
  | read l k ih => exact ⟨hp.1, fun v => ih v (hp.2 v)⟩
  | write l v k ih => exact ⟨hp.1, ih hp.2⟩

theorem owned_forAll {α : Type} {role : L → Role V} {t : ℕ} {f : α → Prog L V} {as : List α} (h : ∀ a ∈ as, Owned role t (f a)) :
    Owned role t (Prog.forAll f as) := by
  induction as with
  | nil => trivial
  | cons a as ih => exact owned_seq (h a (by simp)) (ih fun b hb => h b (by simp [hb]))

/-- Two memories agree for iteration `t`. -/
def AgreeFor (role : L → Role V) (t : ℕ) (m m' : L → V) : Prop := ∀ l, role l = .const ∨ role l = .own t → m l = m' l

theorem AgreeFor.update_both {role : L → Role V} {t : ℕ} {m m' : L → V} (h : AgreeFor role t m m') (l : L) (v : V) :
    AgreeFor role t (Function.update m l v) (Function.update m' l v) := by
  intro l' hl'
  by_cases e : l' = l
  · subst e; simp
  · simpa [e] using h l' hl'

theorem exec_agree {role : L → Role V} {t : ℕ} (p : Prog L V) (hp : Owned role t p) {m m' : L → V} (h : AgreeFor role t m m') :
    AgreeFor role t (p.exec m) (p.exec m') := by
  induction p generalizing m m' with
  | done => exact h
  | read l k ih =>
    have := h l hp.1
    simp only [Prog.exec, this]
    exact ih _ (hp.2 _) h
  | write l v k ih => exact ih hp.2 (h.update_both l v)

theorem hits_agree {role : L → Role V} {t : ℕ} (x : L) (p : Prog L V) (hp : Owned role t p) {m m' : L → V} (h : AgreeFor role t m m') :
    Hits x p m ↔ Hits x p m' := by
  induction p generalizing m m' with
  | done => exact Iff.rfl
  | read l k ih =>
    have := h l hp.1
    simp only [Hits, this]
    exact ih _ (hp.2 _) h
  | write l v k ih => simp only [Hits]; rw [ih hp.2 (h.update_both l v)]

/-- A write of another iteration is not seen. -/
theorem agree_write {role : L → Role V} {t t' : ℕ} (ht : t' ≠ t) (m : L → V) (l : L) (v : V) (h : role l = .own t ∨ role l = .flag v) :
    AgreeFor role t' (Function.update m l v) m := by
  intro l' hl'
  by_cases e : l' = l
  · subst e
    rcases h with h | h <;> rcases hl' with g | g <;> rw [h] at g <;> cases g
    exact absurd rfl ht
  · simp [e]

/-- What stays true while the iterations run. -/
structure ParInv (role : L → Role V) (m0 : L → V) (p0 : ℕ → Prog L V) (s : ParSt L V) : Prop where
  owned : ∀ t, Owned role t (s.prog t)
  own : ∀ t l, role l = .own t → (s.prog t).exec s.mem l = (p0 t).exec m0 l
  const : ∀ l, role l = .const → s.mem l = m0 l
  flag : ∀ l v, role l = .flag v → ((s.mem l = v ∨ ∃ t, Hits l (s.prog t) s.mem) ↔ (m0 l = v ∨ ∃ t, Hits l (p0 t) m0))
  flagVal : ∀ l v, role l = .flag v → s.mem l = m0 l ∨ s.mem l = v

theorem parInv_step {role : L → Role V} {m0 : L → V} {p0 : ℕ → Prog L V} {s : ParSt L V} (h : ParInv role m0 p0 s) (t : ℕ) :
    ParInv role m0 p0 (s.step t) := by
  unfold ParSt.step
  have ho := h.owned t
  cases hp : s.prog t with
  | done => exact h
  | read l k =>
    rw [hp] at ho
    refine ⟨fun t' => ?_, fun t' l' hl' => ?_, h.const, fun l' v hl' => ?_, h.flagVal⟩
    · by_cases e : t' = t
      · subst e; simpa using ho.2 _
      · simpa [e] using h.owned t'
    · rw [← h.own t' l' hl']
      by_cases e : t' = t
      · subst e; simp [hp, Prog.exec]
      · simp [e]
    · rw [← h.flag l' v hl']
      refine or_congr Iff.rfl (exists_congr fun t' => ?_)
      by_cases e : t' = t
      · subst e; simp [hp, Hits]
      · simp [e]
  | write l v k =>
    rw [hp] at ho
    refine ⟨fun t' => ?_, fun t' l' hl' => ?_, fun l' hl' => ?_, fun l' v' hl' => ?_, fun l' v' hl' => ?_⟩
    · by_cases e : t' = t
      · subst e; simpa using ho.2
      · simpa [e] using h.owned t'
    · rw [← h.own t' l' hl']
      by_cases e : t' = t
      · subst e; simp [hp, Prog.exec]
      · simp only [Function.update_of_ne e]
        exact exec_agree _ (h.owned t') (agree_write e _ _ _ ho.1) l' (.inr hl')
    · have : l' ≠ l := by
        rintro rfl
        rcases ho.1 with g | g <;> rw [hl'] at g <;> cases g
      simpa [this] using h.const l' hl'
    · rw [← h.flag l' v' hl']
      by_cases e : l' = l
      · subst e
        have hv : v' = v := by
          rcases ho.1 with g | g <;> rw [hl'] at g <;> cases g
          rfl
        subst hv
        constructor
        · intro _; exact .inr ⟨t, by simp [hp, Hits]⟩
        · intro _; exact .inl (by simp)
      · simp only [Function.update_of_ne e]
        refine or_congr Iff.rfl (exists_congr fun t' => ?_)
        by_cases e' : t' = t
        · subst e'
          simp only [Function.update_self, hp, Hits]
          exact ⟨.inr, fun g => g.resolve_left fun q => e q.symm⟩
        · simp only [Function.update_of_ne e']
          exact hits_agree _ _ (h.owned t') (agree_write e' _ _ _ ho.1)
    · by_cases e : l' = l
      · subst e
        have hv : v' = v := by
          rcases ho.1 with g | g <;> rw [hl'] at g <;> cases g
          rfl
        exact .inr (by simp [hv])
      · simpa [e] using h.flagVal l' v' hl'

theorem parInv_run {role : L → Role V} {m0 : L → V} {p0 : ℕ → Prog L V} (sched : List ℕ) {s : ParSt L V} (h : ParInv role m0 p0 s) :
    ParInv role m0 p0 (s.run sched) := by
  induction sched generalizing s with
  | nil => exact h
  | cons t ts ih => exact ih (parInv_step h t)

theorem parInv_start {role : L → Role V} {m0 : L → V} {p0 : ℕ → Prog L V} (h : ∀ t, Owned role t (p0 t)) : ParInv role m0 p0 ⟨m0, p0⟩ :=
  ⟨h, fun _ _ _ => rfl, fun _ _ => rfl, fun _ _ _ => Iff.rfl, fun _ _ _ => .inl rfl⟩

/-- Two final states are the same. -/
theorem parInv_final {role : L → Role V} {m0 : L → V} {p0 : ℕ → Prog L V} {s s' : ParSt L V} (h : ParInv role m0 p0 s)
    (h' : ParInv role m0 p0 s') (hd : ∀ t, s.prog t = .done) (hd' : ∀ t, s'.prog t = .done) : s.mem = s'.mem := by
  funext l
  cases hr : role l with
  | const => rw [h.const l hr, h'.const l hr]
  | own t =>
    have a := h.own t l hr
    have b := h'.own t l hr
    rw [hd t] at a
    rw [hd' t] at b
    exact a.trans b.symm
  | flag v =>
    have a := h.flag l v hr
    have b := h'.flag l v hr
    simp only [hd, hd', Hits, exists_const, or_false] at a b
    have c := a.trans b.symm
    rcases h.flagVal l v hr with g | g <;> rcases h'.flagVal l v hr with g' | g'
    · rw [g, g']
    · rw [g', c.2 g']
    · rw [g, c.1 g]
    · rw [g, g']

theorem run_append (s : ParSt L V) (a b : List ℕ) : s.run (a ++ b) = (s.run a).run b := List.foldl_append ..

/-- An iteration can be run to its end. -/
theorem run_one (t : ℕ) (p : Prog L V) (s : ParSt L V) (hp : s.prog t = p) :
    ∃ sched, s.run sched = ⟨p.exec s.mem, Function.update s.prog t .done⟩ := by
  induction p generalizing s with
  | done => exact ⟨[], by cases s; simp only [ParSt.run, List.foldl_nil, Prog.exec, ParSt.mk.injEq, true_and]; simp at hp; rw [← hp]; simp⟩
  | read l k ih =>
    obtain ⟨sc, h⟩ := ih (s.mem l) (s.step t) (by simp [ParSt.step, hp])
    refine ⟨t :: sc, ?_⟩
    change (s.step t).run sc = _
    rw [h]
    simp [ParSt.step, hp, Prog.exec]
  | write l v k ih =>
    obtain ⟨sc, h⟩ := ih (s.step t) (by simp [ParSt.step, hp])
    refine ⟨t :: sc, ?_⟩
    change (s.step t).run sc = _
    rw [h]
    simp [ParSt.step, hp, Prog.exec]

theorem run_many (n : ℕ) (s : ParSt L V) : ∃ sched, s.run sched =
    ⟨(List.range n).foldl (fun m t => (s.prog t).exec m) s.mem, fun t => if t < n then .done else s.prog t⟩ := by
  induction n with
  | zero => exact ⟨[], by simp [ParSt.run]⟩
  | succ n ih =>
    obtain ⟨a, ha⟩ := ih
    obtain ⟨b, hb⟩ := run_one n (s.prog n) (s.run a) (by simp [ha])
    refine ⟨a ++ b, ?_⟩
    rw [run_append, hb, ha]
    simp only [List.range_succ, List.foldl_append, List.foldl_cons, List.foldl_nil, ParSt.mk.injEq, true_and]
    funext t
    by_cases e : t = n
    · subst e; simp
    · simp only [Function.update_of_ne e]
      have : t < n + 1 ↔ t < n := by omega
      simp [this]

theorem range_slabs (n w : ℕ) : List.range (n * w) = (List.range n).flatMap fun i => (List.range w).map fun c => i * w + c := by
  induction n with
  | zero => simp
  | succ n ih =>
    rw [Nat.succ_mul, List.range_add, ih, List.range_succ, List.flatMap_append]
    simp

theorem div_slab {w c : ℕ} (i : ℕ) (h : c < w) : (i * w + c) / w = i := by
  rw [Nat.mul_comm, Nat.mul_add_div (by omega), Nat.div_eq_of_lt h]; simp

theorem mem_slabVox {s : Shape} {i v : ℕ} (h : v ∈ slabVox s i) : v / (s.ny * s.nz) = i := by
  simp only [slabVox, List.mem_map, List.mem_range] at h
  obtain ⟨c, hc, rfl⟩ := h
  exact div_slab i hc

/-- A loop that sets flags. -/
theorem foldl_flags {α : Type} (P : α → Prop) [DecidablePred P] (loc : α → L) (as : List α) (m : L → Bool) (l : L) :
    as.foldl (fun m a => if P a then Function.update m (loc a) true else m) m l = true ↔ m l = true ∨ ∃ a ∈ as, P a ∧ loc a = l := by
  induction as generalizing m with
  | nil => simp
  | cons a as ih =>
    rw [List.foldl_cons, ih]
    by_cases hP : P a
    · simp only [hP, if_true]
      by_cases e : l = loc a
      · subst e; simp [hP]
      · have e' : loc a ≠ l := fun q => e q.symm
        simp [e, hP, e']
    · simp [hP]

/-- A loop in which every entry is computed from itself. -/
theorem foldl_own {β : Type} (g : ℕ → β → β) (as : List ℕ) (hn : as.Nodup) (m : ℕ → β) (v : ℕ) :
    as.foldl (fun m a => Function.update m a (g a (m a))) m v = if v ∈ as then g v (m v) else m v := by
  induction as generalizing m with
  | nil => simp
  | cons a as ih =>
    rw [List.nodup_cons] at hn
    rw [List.foldl_cons, ih hn.2]
    by_cases e : v = a
    · subst e; simp [hn.1]
    · simp [e]

end BaderKit
