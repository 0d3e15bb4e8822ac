import Verif.Model.CompressRoots
import Verif.Lemmas.UnionFind
import Mathlib.Logic.Function.Iterate
import Mathlib.Tactic.Linarith
/-! # Property C57: `compress_roots` is correct under every thread interleaving -/
namespace BaderKit

/-- `b` is an ancestor of `a` in the original array. -/
def Anc (p : ℤ → ℤ) (a b : ℤ) : Prop := ∃ k, p^[k] a = b

theorem Anc.refl (p : ℤ → ℤ) (a : ℤ) : Anc p a a := ⟨0, rfl⟩

theorem Anc.trans {p : ℤ → ℤ} {a b c : ℤ} (h : Anc p a b) (h' : Anc p b c) : Anc p a c := by
  obtain ⟨k, rfl⟩ := h
  obtain ⟨j, rfl⟩ := h'
  exact ⟨j + k, Function.iterate_add_apply p j k a⟩

theorem Anc.step {p : ℤ → ℤ} {a b : ℤ} (h : Anc p (p a) b) : Anc p a b :=
  Anc.trans ⟨1, rfl⟩ h

theorem Anc.rootOf {p : ℤ → ℤ} {a b : ℤ} (h : Anc p a b) (hb : p b = b) : RootOf p a b := by
  obtain ⟨k, hk⟩ := h
  induction k generalizing a with
  | zero => simp at hk; subst hk; exact .base hb
  | succ k ih => exact .step (ih (by simpa using hk))

/-- The hypothesis on the input array: the `-1` entries are not referenced, and following parents
from any other entry ends in a root. -/
structure CompInput (p0 : ℤ → ℤ) : Prop where
  closed : ∀ x, p0 x ≠ -1 → p0 (p0 x) ≠ -1
  ends : ∀ x, p0 x ≠ -1 → ∃ r, RootOf p0 x r

/-- Invariant of the shared array. -/
structure CInv (p0 p : ℤ → ℤ) : Prop where
  vac : ∀ x, p0 x = -1 → p x = -1
  root : ∀ x, p0 x ≠ -1 → p0 x = x → p x = x
  anc : ∀ x, p0 x ≠ -1 → p0 x ≠ x → Anc p0 (p0 x) (p x)

/-- Invariant of the local state of iteration `i`. -/
def LInv (p0 : ℤ → ℤ) (i : ℤ) : CPC → Prop
  | .start => True
  | .check x => p0 i ≠ -1 ∧ Anc p0 i x
  | .readP x => p0 i ≠ -1 ∧ Anc p0 i x ∧ p0 x ≠ x
  | .readG x a => p0 i ≠ -1 ∧ Anc p0 i x ∧ p0 x ≠ x ∧ Anc p0 (p0 x) a
  | .write x b => p0 i ≠ -1 ∧ Anc p0 i x ∧ p0 x ≠ x ∧ Anc p0 (p0 x) b
  | .adv x => p0 i ≠ -1 ∧ Anc p0 i x ∧ p0 x ≠ x
  | .done r => (p0 i = -1 ∧ r = -1) ∨ (p0 i ≠ -1 ∧ Anc p0 i r ∧ p0 r = r)

theorem anc_valid {p0 : ℤ → ℤ} (hI : CompInput p0) {a b : ℤ} (h : Anc p0 a b) (ha : p0 a ≠ -1) :
    p0 b ≠ -1 := by
  obtain ⟨k, hk⟩ := h
  induction k generalizing a with
  | zero => simp at hk; subst hk; exact ha
  | succ k ih => exact ih (hI.closed a ha) (by simpa using hk)

theorem CInv.anc' {p0 p : ℤ → ℤ} (h : CInv p0 p) {x : ℤ} (hx : p0 x ≠ -1) : Anc p0 x (p x) := by
  by_cases hr : p0 x = x
  · rw [h.root x hx hr]; exact Anc.refl _ _
  · exact (h.anc x hx hr).step

theorem anc_nonroot_ne {p0 : ℤ → ℤ} (hI : CompInput p0) {x y : ℤ} (hx : p0 x ≠ -1) (hne : p0 x ≠ x)
    (h : Anc p0 (p0 x) y) : y ≠ x := by
  rintro rfl
  -- a cycle through a non-root never ends in a root
  obtain ⟨k, hk⟩ := h
  obtain ⟨r, hr⟩ := hI.ends y hx
  have key : ∀ z, RootOf p0 z r → (∃ j, p0^[j] y = z) → False := by
    intro z hz
    induction hz with
    | @base r hfix =>
      rintro ⟨j, hj⟩
      -- r is fixed and reachable from y, y reachable from r
      have hper : ∀ m, p0^[m * (k + 1)] y = y := by
        intro m
        induction m with
        | zero => simp
        | succ m ih =>
          rw [Nat.succ_mul, Function.iterate_add_apply]
          have : p0^[k + 1] y = y := by simpa using hk
          rw [this, ih]
      have h1 := hper (j + 1)
      have h2 : (j + 1) * (k + 1) = ((j + 1) * (k + 1) - j) + j := by
        have : j ≤ (j + 1) * (k + 1) := by nlinarith
        omega
      rw [h2, Function.iterate_add_apply, hj, Function.iterate_fixed hfix] at h1
      subst h1
      exact hne hfix
    | @step z r _ ih =>
      rintro ⟨j, hj⟩
      exact ih hr ⟨j + 1, by rw [Function.iterate_succ_apply', hj]⟩
  exact key y hr ⟨0, rfl⟩

theorem CInv.fix_iff {p0 p : ℤ → ℤ} (hI : CompInput p0) (h : CInv p0 p) {x : ℤ} (hx : p0 x ≠ -1) :
    x = p x ↔ p0 x = x := by
  constructor
  · intro hp
    by_contra hne
    exact anc_nonroot_ne hI hx hne (h.anc x hx hne) hp.symm
  · intro hr; exact (h.root x hx hr).symm

theorem cstep_inv {p0 : ℤ → ℤ} (hI : CompInput p0) {p : ℤ → ℤ} (h : CInv p0 p) (i : ℤ) (pc : CPC)
    (hl : LInv p0 i pc) : CInv p0 (cstep i p pc).1 ∧ LInv p0 i (cstep i p pc).2 := by
  cases pc with
  | start =>
    refine ⟨h, ?_⟩
    simp only [cstep]
    by_cases hi : p0 i = -1
    · rw [if_pos (h.vac i hi)]; exact Or.inl ⟨hi, rfl⟩
    · have hpi : p i ≠ -1 := by
        intro hh
        have ha := h.anc' hi
        rw [hh] at ha
        -- `-1` could only be an ancestor if it is itself a valid entry; then it is a legal value
        have := h.anc' hi
        by_cases hr : p0 i = i
        · rw [h.root i hi hr] at hh
          exact hi (hr.trans hh)
        · obtain ⟨k, hk⟩ := ha
          -- p0^[k] i = -1 with k ≥ 1: some entry has value -1
          cases k with
          | zero =>
            simp at hk
            have h2 := h.anc i hi hr
            rw [hh, ← hk] at h2
            exact anc_nonroot_ne hI hi hr h2 rfl
          | succ k =>
            rw [Function.iterate_succ_apply'] at hk
            exact anc_valid hI ⟨k, rfl⟩ hi hk
      rw [if_neg hpi]
      exact ⟨hi, h.anc' hi⟩
  | check x =>
    refine ⟨h, ?_⟩
    obtain ⟨hi, ha⟩ := hl
    have hx := anc_valid hI ha hi
    simp only [cstep]
    by_cases hp : x = p x
    · rw [if_neg (by simpa using hp)]
      exact Or.inr ⟨hi, ha, (h.fix_iff hI hx).mp hp⟩
    · rw [if_pos hp]
      exact ⟨hi, ha, fun hr => hp ((h.fix_iff hI hx).mpr hr)⟩
  | readP x =>
    obtain ⟨hi, ha, hne⟩ := hl
    exact ⟨h, hi, ha, hne, h.anc x (anc_valid hI ha hi) hne⟩
  | readG x a =>
    obtain ⟨hi, ha, hne, haa⟩ := hl
    have hx := anc_valid hI ha hi
    exact ⟨h, hi, ha, hne, haa.trans (h.anc' (anc_valid hI haa (hI.closed x hx)))⟩
  | write x b =>
    obtain ⟨hi, ha, hne, hab⟩ := hl
    have hx := anc_valid hI ha hi
    refine ⟨⟨?_, ?_, ?_⟩, hi, ha, hne⟩
    · intro y hy
      have : y ≠ x := by rintro rfl; exact hx hy
      simp only [cstep, Function.update_of_ne this]; exact h.vac y hy
    · intro y hy hr
      have : y ≠ x := by rintro rfl; exact hne hr
      simp only [cstep, Function.update_of_ne this]; exact h.root y hy hr
    · intro y hy hr
      by_cases hyx : y = x
      · subst hyx; simpa [cstep] using hab
      · simp only [cstep, Function.update_of_ne hyx]; exact h.anc y hy hr
  | adv x =>
    obtain ⟨hi, ha, _⟩ := hl
    exact ⟨h, hi, ha.trans (h.anc' (anc_valid hI ha hi))⟩
  | done r => exact ⟨h, hl⟩

/-- Number of remaining own steps. -/
def cmeasure (rk : ℤ → ℕ) (i : ℤ) : CPC → ℕ
  | .start => 5 * rk i + 2
  | .check x => 5 * rk x + 1
  | .readP x => 5 * rk x
  | .readG x _ => 5 * rk x - 1
  | .write x _ => 5 * rk x - 2
  | .adv x => 5 * rk x - 3
  | .done _ => 0

theorem exists_rank {p0 : ℤ → ℤ} (hI : CompInput p0) :
    ∃ rk : ℤ → ℕ, ∀ x, p0 x ≠ -1 → p0 x ≠ x → rk (p0 x) < rk x := by
  classical
  have hex : ∀ x, p0 x ≠ -1 → ∃ n r, RootIn p0 n x r := by
    intro x hx
    obtain ⟨r, hr⟩ := hI.ends x hx
    obtain ⟨n, hn⟩ := hr.rootIn
    exact ⟨n, r, hn⟩
  refine ⟨fun x => if h : ∃ n r, RootIn p0 n x r then Nat.find h else 0, ?_⟩
  intro x hx hne
  have h1 := hex x hx
  have h2 := hex (p0 x) (hI.closed x hx)
  simp only [dif_pos h1, dif_pos h2]
  obtain ⟨r, hr⟩ := Nat.find_spec h1
  generalize hm : Nat.find h1 = m at hr
  cases hr with
  | base h => exact absurd h hne
  | @step n _ _ h => exact Nat.lt_succ_of_le (Nat.find_min' h2 ⟨r, h⟩)

theorem rank_anc {p0 : ℤ → ℤ} (hI : CompInput p0) {rk : ℤ → ℕ}
    (hrk : ∀ x, p0 x ≠ -1 → p0 x ≠ x → rk (p0 x) < rk x) {a b : ℤ} (ha : p0 a ≠ -1)
    (h : Anc p0 a b) : rk b ≤ rk a := by
  obtain ⟨k, hk⟩ := h
  induction k generalizing a with
  | zero => simp at hk; subst hk; exact le_rfl
  | succ k ih =>
    have := ih (hI.closed a ha) (by simpa using hk)
    by_cases hr : p0 a = a
    · rw [hr] at this; exact this
    · exact this.trans (hrk a ha hr).le

theorem cstep_measure {p0 : ℤ → ℤ} (hI : CompInput p0) {rk : ℤ → ℕ}
    (hrk : ∀ x, p0 x ≠ -1 → p0 x ≠ x → rk (p0 x) < rk x) {p : ℤ → ℤ} (h : CInv p0 p) (i : ℤ)
    (pc : CPC) (hl : LInv p0 i pc) :
    cmeasure rk i (cstep i p pc).2 ≤ cmeasure rk i pc - 1 := by
  cases pc with
  | start =>
    simp only [cstep]
    by_cases hpi : p i = -1
    · rw [if_pos hpi]; simp [cmeasure]
    · rw [if_neg hpi]
      have hi : p0 i ≠ -1 := fun hh => hpi (h.vac i hh)
      have := rank_anc hI hrk hi (h.anc' hi)
      simp only [cmeasure]; omega
  | check x =>
    simp only [cstep]
    by_cases hx : x ≠ p x
    · rw [if_pos hx]; simp [cmeasure]
    · rw [if_neg hx]; simp [cmeasure]
  | readP x => simp [cstep, cmeasure]
  | readG x a => simp only [cstep, cmeasure]; omega
  | write x b => simp only [cstep, cmeasure]; omega
  | adv x =>
    obtain ⟨hi, ha, hne⟩ := hl
    have hx := anc_valid hI ha hi
    have h1 := hrk x hx hne
    have h2 := rank_anc hI hrk (hI.closed x hx) (h.anc x hx hne)
    simp only [cstep, cmeasure]; omega
  | done r => simp [cstep, cmeasure]

theorem crun_inv {p0 : ℤ → ℤ} (hI : CompInput p0) (rk : ℤ → ℕ)
    (hrk : ∀ x, p0 x ≠ -1 → p0 x ≠ x → rk (p0 x) < rk x) (sched : List ℤ) :
    ∀ st : (ℤ → ℤ) × (ℤ → CPC), CInv p0 st.1 → (∀ i, LInv p0 i (st.2 i)) →
      CInv p0 (sched.foldl cstepAll st).1 ∧ (∀ i, LInv p0 i ((sched.foldl cstepAll st).2 i)) ∧
      ∀ i, cmeasure rk i ((sched.foldl cstepAll st).2 i) ≤ cmeasure rk i (st.2 i) - sched.count i := by
  induction sched with
  | nil => intro st h hl; exact ⟨h, hl, by simp⟩
  | cons j js ih =>
    intro st h hl
    obtain ⟨h1, h2⟩ := cstep_inv hI h j (st.2 j) (hl j)
    have hl' : ∀ i, LInv p0 i ((cstepAll st j).2 i) := by
      intro i
      by_cases hij : i = j
      · subst hij; simpa [cstepAll] using h2
      · simpa [cstepAll, hij] using hl i
    obtain ⟨a, b, c⟩ := ih (cstepAll st j) h1 hl'
    refine ⟨a, b, fun i => (c i).trans ?_⟩
    by_cases hij : i = j
    · subst hij
      have := cstep_measure hI hrk h i (st.2 i) (hl i)
      rw [List.count_cons_self]
      simp only [cstepAll, Function.update_self]
      omega
    · have hc : (j :: js).count i = js.count i := by
        rw [List.count_cons_of_ne (by simpa using Ne.symm hij)]
      rw [hc]; simp [cstepAll, hij]

/-- **C57** Whatever the interleaving of the parallel iterations of `compress_roots`, each
iteration that has finished holds the root of its entry in the *original* array (`-1` for `-1`
entries), every iteration finishes after a bounded number of its own steps, independently of what the others
do, and the roots in the shared array that the iterations overwrite are unchanged. -/
theorem C57_compress_roots_interleaving (p0 : ℤ → ℤ) (hI : CompInput p0) :
    (∀ sched i r, (crun p0 sched).2 i = .done r →
      (p0 i = -1 ∧ r = -1) ∨ (p0 i ≠ -1 ∧ RootOf p0 i r)) ∧
    (∀ i, ∃ B, ∀ sched : List ℤ, B ≤ sched.count i → ∃ r, (crun p0 sched).2 i = .done r) ∧
    (∀ sched x r, p0 x ≠ -1 → RootOf p0 x r → RootOf (crun p0 sched).1 x r) := by
  obtain ⟨rk, hrk⟩ := exists_rank hI
  have h0 : CInv p0 p0 := ⟨fun _ h => h, fun _ _ h => h, fun x _ _ => Anc.refl _ _⟩
  have hrun := fun sched => crun_inv hI rk hrk sched (p0, fun _ => .start) h0 (fun _ => trivial)
  refine ⟨?_, ?_, ?_⟩
  · intro sched i r hd
    have := (hrun sched).2.1 i
    change LInv p0 i ((crun p0 sched).2 i) at this
    rw [hd] at this
    rcases this with h | ⟨h1, h2, h3⟩
    · exact Or.inl h
    · exact Or.inr ⟨h1, h2.rootOf h3⟩
  · intro i
    refine ⟨5 * rk i + 2, fun sched hB => ?_⟩
    have hm : cmeasure rk i ((crun p0 sched).2 i) ≤ _ := (hrun sched).2.2 i
    have hl : LInv p0 i ((crun p0 sched).2 i) := (hrun sched).2.1 i
    simp only [cmeasure] at hm
    have hz : cmeasure rk i ((crun p0 sched).2 i) = 0 := by
      have : (5 * rk i + 2) - sched.count i = 0 := by omega
      simp only [cmeasure] at this hm ⊢
      omega
    have hpos : ∀ x, p0 i ≠ -1 → Anc p0 i x → p0 x ≠ x → 1 ≤ rk x := by
      intro x hi ha hne
      have := hrk x (anc_valid hI ha hi) hne
      omega
    cases hpc : (crun p0 sched).2 i with
    | done r => exact ⟨r, rfl⟩
    | start => rw [hpc] at hz; simp [cmeasure] at hz
    | check x => rw [hpc] at hz; simp [cmeasure] at hz
    | readP x =>
      rw [hpc] at hz hl; obtain ⟨a, b, c⟩ := hl
      have := hpos x a b c; simp only [cmeasure] at hz; omega
    | readG x y =>
      rw [hpc] at hz hl; obtain ⟨a, b, c, _⟩ := hl
      have := hpos x a b c; simp only [cmeasure] at hz; omega
    | write x y =>
      rw [hpc] at hz hl; obtain ⟨a, b, c, _⟩ := hl
      have := hpos x a b c; simp only [cmeasure] at hz; omega
    | adv x =>
      rw [hpc] at hz hl; obtain ⟨a, b, c⟩ := hl
      have := hpos x a b c; simp only [cmeasure] at hz; omega
  · intro sched x r hx hr
    have h := (hrun sched).1
    change CInv p0 (crun p0 sched).1 at h
    -- induction on the rank
    induction hn : rk x using Nat.strong_induction_on generalizing x with
    | _ n ih =>
      subst hn
      by_cases hfix : p0 x = x
      · rw [hr.of_fix hfix]; exact .base (h.root x hx hfix)
      · have ha := h.anc x hx hfix
        have hlt : rk ((crun p0 sched).1 x) < rk x :=
          lt_of_le_of_lt (rank_anc hI hrk (hI.closed x hx) ha) (hrk x hx hfix)
        have hv := anc_valid hI ha (hI.closed x hx)
        refine .step (ih _ hlt _ hv ?_ rfl)
        obtain ⟨k, hk⟩ := ha.step
        rw [← hk]
        clear hk
        induction k with
        | zero => exact hr
        | succ k ihk =>
          rw [Function.iterate_succ_apply']
          cases ihk with
          | base h => rw [h]; exact .base h
          | step h => exact h

/-- Non-vacuity of C57: a chain of length three plus an unused entry, run with the iterations of
the entries interleaved; all of them finish at the root 3. -/
example : let p0 : ℤ → ℤ := fun x => if x = 0 then 1 else if x = 1 then 2 else if x = 2 then 3
      else if x = 3 then 3 else -1
    CompInput p0 ∧ ([0, 1, 2, 3, 4].map
      (crun p0 ((List.replicate 20 [0, 1, 2, 3, 4, 1, 0]).flatten)).2) =
      [.done 3, .done 3, .done 3, .done 3, .done (-1)] := by
  intro p0
  refine ⟨⟨?_, ?_⟩, by decide +kernel⟩
  · intro x hx
    simp only [p0] at hx ⊢
    split_ifs at hx ⊢ <;> simp_all
  · intro x hx
    have h3 : RootOf p0 3 3 := .base (by decide)
    have h2 : RootOf p0 2 3 := .step h3
    have h1 : RootOf p0 1 3 := .step h2
    have h0 : RootOf p0 0 3 := .step h1
    by_cases e0 : x = 0
    · subst e0; exact ⟨_, h0⟩
    by_cases e1 : x = 1
    · subst e1; exact ⟨_, h1⟩
    by_cases e2 : x = 2
    · subst e2; exact ⟨_, h2⟩
    by_cases e3 : x = 3
    · subst e3; exact ⟨_, h3⟩
    exact absurd (by simp [p0, e0, e1, e2, e3]) hx

end BaderKit
