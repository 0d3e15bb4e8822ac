import Verif.Spec.UnionFind
import Mathlib.Tactic.Common
import Mathlib.Order.Basic
/-! # Lemmas on union-find -/
set_option linter.unusedSectionVars false
namespace BaderKit
variable {α : Type*}

/-- Root reached within `n` steps. -/
inductive RootIn (p : α → α) : ℕ → α → α → Prop
  | base {n r} : p r = r → RootIn p n r r
  | step {n x r} : RootIn p n (p x) r → RootIn p (n + 1) x r

theorem RootIn.mono {p : α → α} {n m x r} (h : RootIn p n x r) (hm : n ≤ m) : RootIn p m x r := by
  induction h generalizing m with
  | base h => exact .base h
  | step _ ih =>
    obtain ⟨k, rfl⟩ : ∃ k, m = k + 1 := ⟨m - 1, by omega⟩
    exact .step (ih (by omega))

theorem RootIn.rootOf {p : α → α} {n x r} (h : RootIn p n x r) : RootOf p x r := by
  induction h with
  | base h => exact .base h
  | step _ ih => exact .step ih

theorem RootOf.rootIn {p : α → α} {x r} (h : RootOf p x r) : ∃ n, RootIn p n x r := by
  induction h with
  | base h => exact ⟨0, .base h⟩
  | step _ ih => obtain ⟨n, hn⟩ := ih; exact ⟨n + 1, .step hn⟩

theorem RootOf.fix {p : α → α} {x r} (h : RootOf p x r) : p r = r := by
  induction h with
  | base h => exact h
  | step _ ih => exact ih

theorem RootOf.of_fix {p : α → α} {x r} (h : RootOf p x r) (hx : p x = x) : r = x := by
  induction h with
  | base h => rfl
  | step _ ih => rw [hx] at ih; exact ih hx

theorem RootOf.unique {p : α → α} {x r s} (h : RootOf p x r) (h' : RootOf p x s) : r = s := by
  induction h with
  | base h => exact (h'.of_fix h).symm
  | step h1 ih =>
    cases h' with
    | base h => exact h1.of_fix (by rw [h]; exact h) |>.trans h
    | step h => exact ih h

variable [DecidableEq α]

theorem findRootNC_rootOf {p : α → α} : ∀ {fuel x r}, findRootNC fuel p x = some r → RootOf p x r
  | 0, _, _, h => by simp [findRootNC] at h
  | fuel + 1, x, r, h => by
    rw [findRootNC] at h
    split at h
    · exact .step (findRootNC_rootOf h)
    · rename_i hx
      have hx : x = p x := not_not.mp hx
      obtain rfl : x = r := by simpa using h
      exact .base hx.symm

theorem findRootNC_of_rootIn {p : α → α} {n x r} (h : RootIn p n x r) :
    ∀ fuel > n, findRootNC fuel p x = some r := by
  induction h with
  | base h =>
    intro fuel hf
    obtain ⟨k, rfl⟩ : ∃ k, fuel = k + 1 := ⟨fuel - 1, by omega⟩
    simp [findRootNC, h]
  | @step n x r h1 ih =>
    intro fuel hf
    obtain ⟨k, rfl⟩ : ∃ k, fuel = k + 1 := ⟨fuel - 1, by omega⟩
    rw [findRootNC]
    split
    · exact ih k (by omega)
    · rename_i hx
      have hx : x = p x := not_not.mp hx
      have := h1.rootOf.of_fix (by rw [← hx]; exact hx.symm)
      rw [this, ← hx]

theorem halve_rootIn (p : α → α) (x : α) : ∀ n y r, RootIn p n y r →
    RootIn (Function.update p x (p (p x))) n y r := by
  have hbase : ∀ r, p r = r → Function.update p x (p (p x)) r = r := by
    intro r hr
    by_cases hrx : r = x
    · subst hrx; simp [hr]
    · simp [hrx, hr]
  intro n
  induction n using Nat.strong_induction_on with
  | _ n ih =>
    intro y r h
    cases h with
    | base hr => exact .base (hbase _ hr)
    | @step n _ _ h1 =>
      by_cases hy : y = x
      · subst hy
        cases h1 with
        | base hr =>
          apply RootIn.step
          have : Function.update p y (p (p y)) y = p y := by simp [hr]
          rw [this]
          exact .base (hbase _ hr)
        | @step m _ _ h2 =>
          apply RootIn.step
          simp only [Function.update_self]
          exact (ih m (by omega) _ _ h2).mono (by omega)
      · apply RootIn.step
        rw [Function.update_of_ne hy]
        exact ih n (by omega) _ _ h1

/-- What a sequence of path halvings may do to the array. -/
structure Compresses (p p' : α → α) : Prop where
  roots : ∀ n y s, RootIn p n y s → RootIn p' n y s
  closed : ∀ S : α → Prop, (∀ x, S x → S (p x)) → ∀ x, S x → S (p' x)
  fix : ∀ y, p y = y → p' y = y

theorem Compresses.refl (p : α → α) : Compresses p p := ⟨fun _ _ _ h => h, fun _ h => h, fun _ h => h⟩

theorem Compresses.trans {p q r : α → α} (h : Compresses p q) (h' : Compresses q r) :
    Compresses p r :=
  ⟨fun n y s hh => h'.roots n y s (h.roots n y s hh),
   fun S hS => h'.closed S (h.closed S hS), fun y hy => h'.fix y (h.fix y hy)⟩

theorem halve_compresses (p : α → α) (x : α) :
    Compresses p (Function.update p x (p (p x))) := by
  refine ⟨fun n y s h => halve_rootIn p x n y s h, ?_, ?_⟩
  · intro S hS y hy
    by_cases h : y = x
    · subst h; simpa using hS _ (hS _ hy)
    · simpa [h] using hS _ hy
  · intro y hy
    by_cases h : y = x
    · subst h; simp [hy]
    · simp [h, hy]

theorem findRoot_spec : ∀ n (p : α → α) x r, RootIn p n x r → ∀ fuel > n,
    ∃ p', findRoot fuel p x = some (p', r) ∧ Compresses p p' := by
  intro n
  induction n with
  | zero =>
    intro p x r h fuel hf
    obtain ⟨k, rfl⟩ : ∃ k, fuel = k + 1 := ⟨fuel - 1, by omega⟩
    cases h with
    | base h => exact ⟨p, by simp [findRoot, h], Compresses.refl p⟩
  | succ n ih =>
    intro p x r h fuel hf
    obtain ⟨k, rfl⟩ : ∃ k, fuel = k + 1 := ⟨fuel - 1, by omega⟩
    by_cases hx : x = p x
    · have := h.rootOf.of_fix hx.symm
      subst this
      exact ⟨p, by simp [findRoot, ← hx], Compresses.refl p⟩
    · have hstep : RootIn (Function.update p x (p (p x))) n
          (Function.update p x (p (p x)) x) r := by
        apply halve_rootIn
        simp only [Function.update_self]
        cases h with
        | base h => exact absurd h.symm hx
        | step h1 =>
          cases h1 with
          | base h2 => rw [h2]; exact .base h2
          | step h2 => exact h2.mono (by omega)
      obtain ⟨p', hp', hc⟩ := ih _ _ _ hstep k (by omega)
      refine ⟨p', ?_, (halve_compresses p x).trans hc⟩
      rw [findRoot]
      simp only [ne_eq, hx, not_false_eq_true, if_true]
      exact hp'

theorem Compresses.rootOf {p p' : α → α} (h : Compresses p p') {x r} (hr : RootOf p x r) :
    RootOf p' x r := by
  obtain ⟨n, hn⟩ := hr.rootIn
  exact (h.roots _ _ _ hn).rootOf

theorem attach_rootIn (p : α → α) (a b : α) (ha : p a = a) (hb : p b = b) {n y r}
    (h : RootIn p n y r) :
    RootIn (Function.update p a b) (n + 1) y (if r = a then b else r) := by
  have hfixb : Function.update p a b b = b := by
    by_cases hba : b = a
    · subst hba; simp
    · simp [hba, hb]
  induction h with
  | @base n r hr =>
    by_cases hra : r = a
    · subst hra
      rw [if_pos rfl]
      apply RootIn.step
      simp only [Function.update_self]
      exact .base hfixb
    · rw [if_neg hra]
      exact .base (by simp [hra, hr])
  | @step n x r h1 ih =>
    by_cases hxa : x = a
    · have : r = a := by
        subst hxa
        exact h1.rootOf.of_fix (by rw [ha, ha]) |>.trans ha
      rw [if_pos this]
      apply RootIn.step
      rw [hxa]; simp only [Function.update_self]
      exact .base hfixb
    · apply RootIn.step
      rw [Function.update_of_ne hxa]
      exact ih

/-- Same root. -/
def SameRoot (p : α → α) (a b : α) : Prop := ∃ r, RootOf p a r ∧ RootOf p b r

theorem connected_mono {l l' : List (α × α)} (h : ∀ e ∈ l, e ∈ l') {a b} (hc : Connected l a b) :
    Connected l' a b := by
  induction hc with
  | rel a b hab => exact .rel _ _ (h _ hab)
  | refl a => exact .refl _
  | symm _ _ _ ih => exact .symm _ _ ih
  | trans _ _ _ _ _ ih1 ih2 => exact .trans _ _ _ ih1 ih2

/-- Invariant of the structure after the requests `l`, with chains of length at most `D`. -/
structure UFInv (l : List (α × α)) (D : ℕ) (p : α → α) : Prop where
  total : ∀ x, ∃ r, RootIn p D x r
  conn : ∀ a b, SameRoot p a b ↔ Connected l a b

theorem UFInv.init : UFInv ([] : List (α × α)) 0 (fun x : α => x) := by
  refine ⟨fun x => ⟨x, .base rfl⟩, fun a b => ⟨?_, ?_⟩⟩
  · rintro ⟨r, h1, h2⟩
    have e1 : r = a := h1.of_fix rfl
    have e2 : r = b := h2.of_fix rfl
    rw [← e1, e2]; exact Relation.EqvGen.refl _
  · intro h
    induction h with
    | rel _ _ h => simp at h
    | refl x => exact ⟨x, .base rfl, .base rfl⟩
    | symm _ _ _ ih => obtain ⟨r, h1, h2⟩ := ih; exact ⟨r, h2, h1⟩
    | trans _ _ _ _ _ ih1 ih2 =>
      obtain ⟨r, h1, h2⟩ := ih1
      obtain ⟨s, h3, h4⟩ := ih2
      obtain rfl := h2.unique h3
      exact ⟨r, h1, h4⟩

theorem UFInv.compress {l : List (α × α)} {D : ℕ} {p p' : α → α} (h : UFInv l D p)
    (hc : Compresses p p') : UFInv l D p' := by
  refine ⟨fun x => ?_, fun a b => ?_⟩
  · obtain ⟨r, hr⟩ := h.total x; exact ⟨r, hc.roots _ _ _ hr⟩
  · rw [← h.conn]
    constructor
    · rintro ⟨r, h1, h2⟩
      obtain ⟨ra, hra⟩ := h.total a
      obtain ⟨rb, hrb⟩ := h.total b
      obtain rfl := (hc.rootOf hra.rootOf).unique h1
      obtain rfl := (hc.rootOf hrb.rootOf).unique h2
      exact ⟨_, hra.rootOf, hrb.rootOf⟩
    · rintro ⟨r, h1, h2⟩; exact ⟨r, hc.rootOf h1, hc.rootOf h2⟩

theorem UFInv.attach {l : List (α × α)} {D : ℕ} {p : α → α} (h : UFInv l D p) {x y rx ry : α}
    (hx : RootOf p x rx) (hy : RootOf p y ry) :
    UFInv (l ++ [(x, y)]) (D + 1) (Function.update p rx ry) := by
  have hat : ∀ {a r}, RootOf p a r →
      RootOf (Function.update p rx ry) a (if r = rx then ry else r) := by
    intro a r hr
    obtain ⟨n, hn⟩ := hr.rootIn
    exact (attach_rootIn p rx ry hx.fix hy.fix hn).rootOf
  have hmono : ∀ {a b}, Connected l a b → Connected (l ++ [(x, y)]) a b :=
    fun hc => connected_mono (by intro e he; simp [he]) hc
  have hxy : Connected (l ++ [(x, y)]) x y := Relation.EqvGen.rel _ _ (by simp)
  refine ⟨fun a => ?_, fun a b => ⟨?_, ?_⟩⟩
  · obtain ⟨r, hr⟩ := h.total a
    exact ⟨_, attach_rootIn p rx ry hx.fix hy.fix hr⟩
  · rintro ⟨r, h1, h2⟩
    obtain ⟨ra, hra⟩ := h.total a
    obtain ⟨rb, hrb⟩ := h.total b
    have hra := hra.rootOf
    have hrb := hrb.rootOf
    have e1 := (hat hra).unique h1
    have e2 := (hat hrb).unique h2
    have e : (if ra = rx then ry else ra) = (if rb = rx then ry else rb) := e1.trans e2.symm
    by_cases hab : ra = rb
    · subst hab; exact hmono ((h.conn a b).mp ⟨_, hra, hrb⟩)
    · by_cases h1 : ra = rx
      · have h2 : rb ≠ rx := fun h => hab (h1.trans h.symm)
        rw [if_pos h1, if_neg h2] at e
        have c1 := hmono ((h.conn a x).mp ⟨_, h1 ▸ hra, hx⟩)
        have c2 := hmono ((h.conn y b).mp ⟨_, hy, e ▸ hrb⟩)
        exact .trans _ _ _ c1 (.trans _ _ _ hxy c2)
      · rw [if_neg h1] at e
        by_cases h2 : rb = rx
        · rw [if_pos h2] at e
          have c1 := hmono ((h.conn b x).mp ⟨_, h2 ▸ hrb, hx⟩)
          have c2 := hmono ((h.conn y a).mp ⟨_, hy, e ▸ hra⟩)
          exact .symm _ _ (.trans _ _ _ c1 (.trans _ _ _ hxy c2))
        · rw [if_neg h2] at e; exact absurd e hab
  · intro hc
    induction hc with
    | rel a b hab =>
      rcases List.mem_append.mp hab with hab | hab
      · obtain ⟨r, h1, h2⟩ := (h.conn a b).mpr (.rel _ _ hab)
        exact ⟨_, hat h1, hat h2⟩
      · simp only [List.mem_singleton, Prod.mk.injEq] at hab
        obtain ⟨rfl, rfl⟩ := hab
        refine ⟨ry, by simpa using hat hx, ?_⟩
        have := hat hy
        by_cases hh : ry = rx
        · simpa [hh] using this
        · simpa [hh] using this
    | refl a =>
      obtain ⟨r, hr⟩ := h.total a
      exact ⟨_, hat hr.rootOf, hat hr.rootOf⟩
    | symm _ _ _ ih => obtain ⟨r, h1, h2⟩ := ih; exact ⟨r, h2, h1⟩
    | trans _ _ _ _ _ ih1 ih2 =>
      obtain ⟨r, h1, h2⟩ := ih1
      obtain ⟨s, h3, h4⟩ := ih2
      obtain rfl := h2.unique h3
      exact ⟨r, h1, h4⟩

/-- Everything about one call of `union`. -/
theorem union_spec {l : List (α × α)} {D : ℕ} {p : α → α} (h : UFInv l D p) (x y : α) (fuel : ℕ)
    (hf : D < fuel) : ∃ p2 rx ry, Compresses p p2 ∧ RootOf p x rx ∧ RootOf p y ry ∧
      union fuel p x y = some (Function.update p2 rx ry) ∧
      UFInv (l ++ [(x, y)]) (D + 1) (Function.update p2 rx ry) ∧
      ∃ p1, findRoot fuel p x = some (p1, rx) ∧ findRoot fuel p1 y = some (p2, ry) := by
  obtain ⟨rx, hx⟩ := h.total x
  obtain ⟨ry, hy⟩ := h.total y
  obtain ⟨p1, e1, c1⟩ := findRoot_spec D p x rx hx fuel hf
  obtain ⟨p2, e2, c2⟩ := findRoot_spec D p1 y ry (c1.roots _ _ _ hy) fuel hf
  have c := c1.trans c2
  refine ⟨p2, rx, ry, c, hx.rootOf, hy.rootOf, by simp [union, e1, e2], ?_, p1, e1, e2⟩
  exact (h.compress c).attach (c.rootOf hx.rootOf) (c.rootOf hy.rootOf)

theorem RootOf.closed {p : α → α} {S : α → Prop} (hS : ∀ x, S x → S (p x)) {x r}
    (h : RootOf p x r) (hx : S x) : S r := by
  induction h with
  | base _ => exact hx
  | step _ ih => exact ih (hS _ hx)

theorem run_spec (os : List (UFOp α)) : ∀ {l : List (α × α)} {D : ℕ} {p : α → α}, UFInv l D p →
    ∀ fuel, D + os.length < fuel → ∃ p' D', runUF fuel os p = some p' ∧
      UFInv (l ++ unionsOf os) D' p' ∧ D' ≤ D + os.length ∧
      ∀ S : α → Prop, (∀ o ∈ os, o.InSet S) → (∀ x, S x → S (p x)) → ∀ x, S x → S (p' x) := by
  induction os with
  | nil =>
    intro l D p h fuel hf
    exact ⟨p, D, rfl, by simpa [unionsOf] using h, by simp, fun S _ hS => hS⟩
  | cons o os ih =>
    intro l D p h fuel hf
    simp only [List.length_cons] at hf
    cases o with
    | find x =>
      obtain ⟨r, hr⟩ := h.total x
      obtain ⟨p1, e1, c1⟩ := findRoot_spec D p x r hr fuel (by omega)
      obtain ⟨p', D', e, hi, hD, hS⟩ := ih (h.compress c1) fuel (by omega)
      refine ⟨p', D', by simp [runUF, UFOp.run, e1, e], by simpa [unionsOf] using hi,
        by simp only [List.length_cons]; omega, ?_⟩
      intro S hin hcl
      exact hS S (fun o ho => hin o (by simp [ho])) (c1.closed S hcl)
    | findNC x =>
      obtain ⟨r, hr⟩ := h.total x
      have e1 := findRootNC_of_rootIn hr fuel (by omega)
      obtain ⟨p', D', e, hi, hD, hS⟩ := ih h fuel (by omega)
      refine ⟨p', D', by simp [runUF, UFOp.run, e1, e], by simpa [unionsOf] using hi,
        by simp only [List.length_cons]; omega, ?_⟩
      intro S hin hcl
      exact hS S (fun o ho => hin o (by simp [ho])) hcl
    | union x y =>
      obtain ⟨p2, rx, ry, c, hx, hy, e1, h1, _⟩ := union_spec h x y fuel (by omega)
      obtain ⟨p', D', e, hi, hD, hS⟩ := ih h1 fuel (by omega)
      refine ⟨p', D', by simp [runUF, UFOp.run, e1, e],
        by simpa [unionsOf] using hi, by simp only [List.length_cons]; omega, ?_⟩
      intro S hin hcl
      refine hS S (fun o ho => hin o (by simp [ho])) ?_
      intro z hz
      have hxy : S x ∧ S y := hin (.union x y) (by simp)
      by_cases hzr : z = rx
      · subst hzr; simpa using hy.closed hcl hxy.2
      · simpa [hzr] using c.closed S hcl z hz

end BaderKit
