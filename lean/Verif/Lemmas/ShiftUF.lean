import Verif.Lemmas.UnionFind
import Mathlib.Tactic.Abel
/-! # Lemmas on the shift-tracking union-find -/
set_option linter.unusedSectionVars false
namespace BaderKit
variable {α : Type*} {G : Type*} [AddCommGroup G]

/-- Root and accumulated offset, within `n` steps. -/
inductive RootC (p : α → α) (o : α → G) : ℕ → α → α → G → Prop
  | base {n r} : p r = r → RootC p o n r r 0
  | step {n x r c} : p x ≠ x → RootC p o n (p x) r c → RootC p o (n + 1) x r (o x + c)

variable {p p' : α → α} {o o' : α → G}

theorem RootC.mono {n m x r c} (h : RootC p o n x r c) (hm : n ≤ m) : RootC p o m x r c := by
  induction h generalizing m with
  | base h => exact .base h
  | step hx _ ih =>
    obtain ⟨k, rfl⟩ : ∃ k, m = k + 1 := ⟨m - 1, by omega⟩
    exact .step hx (ih (by omega))

theorem RootC.rootIn {n x r c} (h : RootC p o n x r c) : RootIn p n x r := by
  induction h with
  | base h => exact .base h
  | step _ _ ih => exact .step ih

theorem RootC.unique {n x r c m r' c'} (h : RootC p o n x r c) (h' : RootC p o m x r' c') :
    r = r' ∧ c = c' := by
  induction h generalizing m r' c' with
  | base h =>
    cases h' with
    | base _ => exact ⟨rfl, rfl⟩
    | step hx _ => exact absurd h hx
  | step hx _ ih =>
    cases h' with
    | base h => exact absurd h hx
    | step _ h2 => obtain ⟨rfl, rfl⟩ := ih h2; exact ⟨rfl, rfl⟩

variable [DecidableEq α]

theorem RootIn.rootC (o : α → G) {n x r} (h : RootIn p n x r) : ∃ c, RootC p o n x r c := by
  induction h with
  | base h => exact ⟨0, .base h⟩
  | @step n x r h1 ih =>
    obtain ⟨c, hc⟩ := ih
    by_cases hx : p x = x
    · have hrx : r = x := (RootIn.step h1).rootOf.of_fix hx
      subst hrx
      exact ⟨0, .base hx⟩
    · exact ⟨_, .step hx hc⟩

theorem no_two_cycle {n x r} (h : RootIn p n x r) (hx : p x ≠ x) : p (p x) ≠ x := by
  induction h with
  | base h => exact absurd h hx
  | @step n x r h1 ih =>
    intro h2
    have : p (p x) ≠ p x := by rw [h2]; exact hx.symm
    exact ih this (by rw [h2])

theorem halve_rootC (y : α) (hy : p y ≠ y) (hcyc : p (p y) ≠ y) (hpy : p (p y) ≠ p y) :
    ∀ n z r c, RootC p o n z r c →
      RootC (Function.update p y (p (p y))) (Function.update o y (o y + o (p y))) n z r c := by
  intro n
  induction n using Nat.strong_induction_on with
  | _ n ih =>
    intro z r c h
    cases h with
    | base hr =>
      refine .base ?_
      by_cases hzy : z = y
      · subst hzy; exact absurd hr hy
      · simp [hzy, hr]
    | @step n _ _ c hz h1 =>
      by_cases hzy : z = y
      · subst hzy
        cases h1 with
        | base hr => exact absurd hr hpy
        | @step m _ _ c' _ h2 =>
          have h3 := (ih m (by omega) _ _ _ h2)
          have : o z + (o (p z) + c') =
              Function.update o z (o z + o (p z)) z + c' := by simp [add_assoc]
          rw [this]
          apply RootC.step
          · simpa using hcyc
          · simp only [Function.update_self]
            exact h3.mono (by omega)
      · have : o z + c = Function.update o y (o y + o (p y)) z + c := by simp [hzy]
        rw [this]
        apply RootC.step
        · simpa [hzy] using hz
        · rw [Function.update_of_ne hzy]
          exact ih n (by omega) _ _ _ h1

/-- What path halving may do to the arrays. -/
structure CompressesS (p : α → α) (o : α → G) (p' : α → α) (o' : α → G) : Prop where
  roots : ∀ n y s c, RootC p o n y s c → RootC p' o' n y s c
  comp : Compresses p p'

theorem CompressesS.refl (p : α → α) (o : α → G) : CompressesS p o p o :=
  ⟨fun _ _ _ _ h => h, Compresses.refl p⟩

theorem CompressesS.trans {p q r : α → α} {o1 o2 o3 : α → G} (h : CompressesS p o1 q o2)
    (h' : CompressesS q o2 r o3) : CompressesS p o1 r o3 :=
  ⟨fun n y s c hh => h'.roots n y s c (h.roots n y s c hh), h.comp.trans h'.comp⟩

theorem halveShift_spec : ∀ n (p : α → α) (o : α → G) x r, RootIn p n x r → ∀ fuel > n,
    ∃ p' o', halveShift fuel (p, o) x = some (p', o') ∧ CompressesS p o p' o' := by
  intro n
  induction n with
  | zero =>
    intro p o x r h fuel hf
    obtain ⟨k, rfl⟩ : ∃ k, fuel = k + 1 := ⟨fuel - 1, by omega⟩
    cases h with
    | base h => exact ⟨p, o, by simp [halveShift, h], CompressesS.refl p o⟩
  | succ n ih =>
    intro p o x r h fuel hf
    obtain ⟨k, rfl⟩ : ∃ k, fuel = k + 1 := ⟨fuel - 1, by omega⟩
    by_cases hc : p x ≠ x ∧ p (p x) ≠ p x
    · have hcyc := no_two_cycle h hc.1
      have hstep : RootIn (Function.update p x (p (p x))) n
          (Function.update p x (p (p x)) x) r := by
        apply halve_rootIn
        simp only [Function.update_self]
        cases h with
        | base h => exact absurd h hc.1
        | step h1 =>
          cases h1 with
          | base h2 => exact absurd h2 hc.2
          | step h2 => exact h2.mono (by omega)
      obtain ⟨p', o', e, hC⟩ := ih _ (Function.update o x (o x + o (p x))) _ _ hstep k (by omega)
      refine ⟨p', o', ?_, CompressesS.trans ⟨halve_rootC x hc.1 hcyc hc.2, halve_compresses p x⟩ hC⟩
      rw [halveShift, if_pos hc]
      exact e
    · exact ⟨p, o, by rw [halveShift, if_neg hc], CompressesS.refl p o⟩

theorem climbShift_spec {n x r c} (h : RootC p o n x r c) :
    ∀ fuel > n, ∀ c0, climbShift fuel p o x c0 = some (r, c0 + c) := by
  induction h with
  | base h =>
    intro fuel hf c0
    obtain ⟨k, rfl⟩ : ∃ k, fuel = k + 1 := ⟨fuel - 1, by omega⟩
    simp [climbShift, h]
  | @step n x r c hx h1 ih =>
    intro fuel hf c0
    obtain ⟨k, rfl⟩ : ∃ k, fuel = k + 1 := ⟨fuel - 1, by omega⟩
    rw [climbShift, if_pos hx, ih k (by omega)]
    simp [add_assoc]

theorem findRootShift_spec {n x r c} (h : RootC p o n x r c) (fuel : ℕ) (hf : n < fuel) :
    ∃ p' o', findRootShift fuel p o x = some (p', o', r, c) ∧ CompressesS p o p' o' := by
  obtain ⟨p', o', e, hC⟩ := halveShift_spec n p o x r h.rootIn fuel hf
  refine ⟨p', o', ?_, hC⟩
  have := climbShift_spec (hC.roots _ _ _ _ h) fuel hf 0
  simp [findRootShift, e, this]

theorem attach_rootC (a b : α) (d : G) (ha : p a = a) (hb : p b = b) (hab : a ≠ b) {n x r c}
    (h : RootC p o n x r c) :
    RootC (Function.update p a b) (Function.update o a d) (n + 1) x (if r = a then b else r)
      (if r = a then c + d else c) := by
  induction h with
  | @base n r hr =>
    by_cases hra : r = a
    · subst hra
      rw [if_pos rfl, if_pos rfl]
      have : (0 : G) + d = Function.update o r d r + 0 := by simp
      rw [this]
      apply RootC.step
      · simpa using hab.symm
      · simp only [Function.update_self]
        exact .base (by simp [hab.symm, hb])
    · rw [if_neg hra, if_neg hra]
      exact .base (by simp [hra, hr])
  | @step n x r c hx h1 ih =>
    have hxa : x ≠ a := by rintro rfl; exact hx ha
    have : (if r = a then o x + c + d else o x + c) =
        Function.update o a d x + (if r = a then c + d else c) := by
      split <;> simp [hxa, add_assoc]
    rw [this]
    apply RootC.step
    · simpa [hxa] using hx
    · rw [Function.update_of_ne hxa]; exact ih

/-- Invariant of the shift-tracking union-find: `l` is the list of requests so far. -/
structure SInv (m0 : α → Bool) (l : List (α × α × G)) (D : ℕ) (st : ShiftUF α G) : Prop where
  uf : UFInv (pairsOf l) D st.parent
  mask : ∀ x, st.mask x = true ↔
    st.parent x = x ∧ (m0 x = true ∨ ∃ y, y ≠ x ∧ RootOf st.parent y x)

theorem CompressesS.rootC_iff {l : List (α × α)} {D : ℕ} (h : CompressesS p o p' o')
    (hi : UFInv l D p) {x r c} : (∃ n, RootC p' o' n x r c) ↔ (∃ n, RootC p o n x r c) := by
  constructor
  · rintro ⟨n, hn⟩
    obtain ⟨r', hr'⟩ := hi.total x
    obtain ⟨c', hc'⟩ := hr'.rootC o
    obtain ⟨rfl, rfl⟩ := (h.roots _ _ _ _ hc').unique hn
    exact ⟨_, hc'⟩
  · rintro ⟨n, hn⟩; exact ⟨n, h.roots _ _ _ _ hn⟩

theorem Compresses.rootOf_iff {l : List (α × α)} {D : ℕ} (h : Compresses p p')
    (hi : UFInv l D p) {x r} : RootOf p' x r ↔ RootOf p x r := by
  constructor
  · intro hr
    obtain ⟨r', hr'⟩ := hi.total x
    obtain rfl := (h.rootOf hr'.rootOf).unique hr
    exact hr'.rootOf
  · exact h.rootOf

theorem Compresses.fix_iff {l : List (α × α)} {D : ℕ} (h : Compresses p p') (hi : UFInv l D p)
    {x} : p' x = x ↔ p x = x := by
  constructor
  · intro hx
    have := (h.rootOf_iff hi).mp (RootOf.base hx)
    exact this.fix
  · exact h.fix x

/-- Shape of the result of `union_with_shift`. -/
theorem unionShift_spec {l : List (α × α × G)} {D : ℕ} {st : ShiftUF α G}
    (h : UFInv (pairsOf l) D st.parent) (a b : α) (s : G) (fuel : ℕ) (hf : D < fuel) :
    ∃ ra rb ca cb p2 o2, RootC st.parent st.off D a ra ca ∧ RootC st.parent st.off D b rb cb ∧
      CompressesS st.parent st.off p2 o2 ∧ ∃ st', unionShift fuel st a b s = some st' ∧
      ((ra = rb ∧ st' = { st with parent := p2, off := o2 }) ∨
       (ra ≠ rb ∧ st'.parent = Function.update p2 ra rb ∧
          st'.off = Function.update o2 ra (s + cb - ca) ∧
          st'.mask = Function.update (Function.update st.mask rb true) ra false ∧
          st'.size = Function.update st.size rb (st.size rb + st.size ra)) ∨
       (ra ≠ rb ∧ st'.parent = Function.update p2 rb ra ∧
          st'.off = Function.update o2 rb (-(s + cb - ca)) ∧
          st'.mask = Function.update (Function.update st.mask ra true) rb false ∧
          st'.size = Function.update st.size ra (st.size ra + st.size rb))) := by
  have hm : ∀ (m : α → Bool) (x y : α),
      (if (if !(m x) then Function.update m x true else m) y then
        Function.update (if !(m x) then Function.update m x true else m) y false
        else (if !(m x) then Function.update m x true else m)) =
      Function.update (Function.update m x true) y false := by
    intro m x y
    have h1 : (if !(m x) then Function.update m x true else m) = Function.update m x true := by
      by_cases h : m x = true
      · rw [if_neg (by simp [h]), ← h, Function.update_eq_self]
      · rw [if_pos (by simpa using h)]
    rw [h1]
    by_cases h : Function.update m x true y = true
    · rw [if_pos h]
    · rw [if_neg h]
      have : Function.update m x true y = false := by simpa using h
      rw [← this, Function.update_eq_self]
  obtain ⟨ra, ha⟩ := h.total a
  obtain ⟨rb, hb⟩ := h.total b
  obtain ⟨ca, hca⟩ := ha.rootC st.off
  obtain ⟨cb, hcb⟩ := hb.rootC st.off
  obtain ⟨p1, o1, e1, c1⟩ := findRootShift_spec hca fuel hf
  obtain ⟨p2, o2, e2, c2⟩ := findRootShift_spec (c1.roots _ _ _ _ hcb) fuel hf
  refine ⟨ra, rb, ca, cb, p2, o2, hca, hcb, c1.trans c2, ?_⟩
  by_cases hr : ra = rb
  · exact ⟨{ st with parent := p2, off := o2 }, by simp [unionShift, e1, e2, hr],
      Or.inl ⟨hr, rfl⟩⟩
  · by_cases hs : st.size ra < st.size rb
    · refine ⟨⟨Function.update p2 ra rb, Function.update o2 ra (s + cb - ca),
        Function.update st.size rb (st.size rb + st.size ra),
        Function.update (Function.update st.mask rb true) ra false⟩, ?_,
        Or.inr (Or.inl ⟨hr, rfl, rfl, rfl, rfl⟩)⟩
      simp only [unionShift, e1, e2, Option.bind_eq_bind, Option.bind_some, if_neg hr, if_pos hs, hm]
    · refine ⟨⟨Function.update p2 rb ra, Function.update o2 rb (-(s + cb - ca)),
        Function.update st.size ra (st.size ra + st.size rb),
        Function.update (Function.update st.mask ra true) rb false⟩, ?_,
        Or.inr (Or.inr ⟨hr, rfl, rfl, rfl, rfl⟩)⟩
      simp only [unionShift, e1, e2, Option.bind_eq_bind, Option.bind_some, if_neg hr, if_neg hs, hm]

theorem UFInv.swap_last {l : List (α × α)} {D : ℕ} {p : α → α} {x y : α}
    (h : UFInv (l ++ [(x, y)]) D p) : UFInv (l ++ [(y, x)]) D p := by
  refine ⟨h.total, fun a b => ?_⟩
  rw [h.conn]
  have : ∀ (u v : α) {a b}, Connected (l ++ [(u, v)]) a b → Connected (l ++ [(v, u)]) a b := by
    intro u v a b hc
    induction hc with
    | rel a b hab =>
      rcases List.mem_append.mp hab with hab | hab
      · exact .rel _ _ (by simp [hab])
      · simp only [List.mem_singleton, Prod.mk.injEq] at hab
        obtain ⟨rfl, rfl⟩ := hab
        exact .symm _ _ (.rel _ _ (by simp))
    | refl a => exact .refl _
    | symm _ _ _ ih => exact .symm _ _ ih
    | trans _ _ _ _ _ ih1 ih2 => exact .trans _ _ _ ih1 ih2
  exact ⟨this _ _, this _ _⟩

/-- A request between connected elements adds nothing. -/
theorem UFInv.redundant {l : List (α × α)} {D : ℕ} {p : α → α} {x y : α}
    (h : UFInv l D p) (hxy : SameRoot p x y) : UFInv (l ++ [(x, y)]) D p := by
  refine ⟨h.total, fun a b => ?_⟩
  rw [h.conn]
  constructor
  · exact connected_mono (by intro e he; simp [he])
  · intro hc
    induction hc with
    | rel a b hab =>
      rcases List.mem_append.mp hab with hab | hab
      · exact .rel _ _ hab
      · simp only [List.mem_singleton, Prod.mk.injEq] at hab
        obtain ⟨rfl, rfl⟩ := hab
        exact (h.conn _ _).mp hxy
    | refl a => exact .refl _
    | symm _ _ _ ih => exact .symm _ _ ih
    | trans _ _ _ _ _ ih1 ih2 => exact .trans _ _ _ ih1 ih2

theorem mask_attach {m0 : α → Bool} {l : List (α × α)} {D : ℕ} {p : α → α} {m : α → Bool} {u v : α}
    (hi : UFInv l D p) (hu : p u = u) (hv : p v = v) (huv : u ≠ v)
    (hm : ∀ x, m x = true ↔ p x = x ∧ (m0 x = true ∨ ∃ y, y ≠ x ∧ RootOf p y x)) (x : α) :
    Function.update (Function.update m v true) u false x = true ↔
      Function.update p u v x = x ∧
        (m0 x = true ∨ ∃ y, y ≠ x ∧ RootOf (Function.update p u v) y x) := by
  have hat : ∀ {a r}, RootOf p a r →
      RootOf (Function.update p u v) a (if r = u then v else r) := by
    intro a r hr
    obtain ⟨n, hn⟩ := hr.rootIn
    exact (attach_rootIn p u v hu hv hn).rootOf
  by_cases hxu : x = u
  · subst hxu
    simp only [Function.update_self, Bool.false_eq_true, false_iff, not_and]
    exact fun h => absurd h huv.symm
  · rw [Function.update_of_ne hxu, Function.update_of_ne hxu]
    by_cases hxv : x = v
    · subst hxv
      simp only [Function.update_self, true_iff]
      refine ⟨hv, Or.inr ⟨u, huv, ?_⟩⟩
      simpa using hat (RootOf.base hu)
    · rw [Function.update_of_ne hxv, hm]
      refine and_congr_right fun hpx => or_congr_right ⟨?_, ?_⟩
      · rintro ⟨y, hy, hr⟩
        refine ⟨y, hy, ?_⟩
        have := hat hr
        rwa [if_neg hxu] at this
      · rintro ⟨y, hy, hr⟩
        refine ⟨y, hy, ?_⟩
        obtain ⟨r, hr'⟩ := hi.total y
        have := (hat hr'.rootOf).unique hr
        by_cases hru : r = u
        · rw [if_pos hru] at this; exact absurd this.symm hxv
        · rw [if_neg hru] at this; rw [← this]; exact hr'.rootOf

/-- One `union_with_shift` preserves the invariant. -/
theorem SInv.union {m0 : α → Bool} {l : List (α × α × G)} {D : ℕ} {st : ShiftUF α G}
    (h : SInv m0 l D st) (a b : α) (s : G) (fuel : ℕ) (hf : D < fuel) :
    ∃ st', unionShift fuel st a b s = some st' ∧ SInv m0 (l ++ [(a, b, s)]) (D + 1) st' := by
  obtain ⟨ra, rb, ca, cb, p2, o2, ha, hb, hC, st', e, hcase⟩ :=
    unionShift_spec h.uf a b s fuel hf
  refine ⟨st', e, ?_⟩
  have hpl : pairsOf (l ++ [(a, b, s)]) = pairsOf l ++ [(a, b)] := by simp [pairsOf]
  have hi2 := h.uf.compress hC.comp
  have hm2 : ∀ x, st.mask x = true ↔ p2 x = x ∧ (m0 x = true ∨ ∃ y, y ≠ x ∧ RootOf p2 y x) := by
    intro x
    rw [h.mask, hC.comp.fix_iff h.uf]
    simp only [hC.comp.rootOf_iff h.uf]
  have hra : RootOf p2 a ra := hC.comp.rootOf ha.rootIn.rootOf
  have hrb : RootOf p2 b rb := hC.comp.rootOf hb.rootIn.rootOf
  rcases hcase with ⟨hr, rfl⟩ | ⟨hr, e1, _, e3, _⟩ | ⟨hr, e1, _, e3, _⟩
  · subst hr
    refine ⟨?_, hm2⟩
    rw [hpl]
    have := hi2.redundant (x := a) (y := b) ⟨_, hra, hrb⟩
    exact ⟨fun x => by obtain ⟨r, hr⟩ := this.total x; exact ⟨r, hr.mono (by omega)⟩, this.conn⟩
  · refine ⟨?_, ?_⟩
    · rw [hpl, e1]; exact hi2.attach hra hrb
    · rw [e1, e3]; exact mask_attach hi2 hra.fix hrb.fix hr hm2
  · refine ⟨?_, ?_⟩
    · rw [hpl, e1]; exact (hi2.attach hrb hra).swap_last
    · rw [e1, e3]; exact mask_attach hi2 hrb.fix hra.fix (Ne.symm hr) hm2

theorem SInv.find {m0 : α → Bool} {l : List (α × α × G)} {D : ℕ} {st : ShiftUF α G}
    (h : SInv m0 l D st) (x : α) (fuel : ℕ) (hf : D < fuel) :
    ∃ p2 o2 r c, findRootShift fuel st.parent st.off x = some (p2, o2, r, c) ∧
      CompressesS st.parent st.off p2 o2 ∧ RootC st.parent st.off D x r c ∧
      SInv m0 l D { st with parent := p2, off := o2 } := by
  obtain ⟨r, hr⟩ := h.uf.total x
  obtain ⟨c, hc⟩ := hr.rootC st.off
  obtain ⟨p2, o2, e, hC⟩ := findRootShift_spec hc fuel hf
  refine ⟨p2, o2, r, c, e, hC, hc, h.uf.compress hC.comp, ?_⟩
  intro y
  rw [h.mask, hC.comp.fix_iff h.uf]
  simp only [hC.comp.rootOf_iff h.uf]

/-- Offsets agree with the positions `pos`. -/
def PosInv (pos : α → G) (st : ShiftUF α G) : Prop :=
  ∀ n x r c, RootC st.parent st.off n x r c → pos r = pos x + c

theorem PosInv.compress {pos : α → G} {l : List (α × α)} {D : ℕ} {st : ShiftUF α G}
    (h : PosInv pos st) (hi : UFInv l D st.parent) {p2 : α → α} {o2 : α → G}
    (hC : CompressesS st.parent st.off p2 o2) :
    PosInv pos { st with parent := p2, off := o2 } := by
  intro n x r c hr
  obtain ⟨m, hm⟩ := (hC.rootC_iff hi).mp ⟨n, hr⟩
  exact h m x r c hm

/-- Root/offset after attaching, in terms of before. -/
theorem attach_inv {l : List (α × α)} {D : ℕ} (hi : UFInv l D p) (a b : α) (d : G) (ha : p a = a)
    (hb : p b = b) (hab : a ≠ b) {n x r c}
    (h : RootC (Function.update p a b) (Function.update o a d) n x r c) :
    ∃ r0 c0, RootC p o D x r0 c0 ∧ r = (if r0 = a then b else r0) ∧
      c = (if r0 = a then c0 + d else c0) := by
  obtain ⟨r0, hr0⟩ := hi.total x
  obtain ⟨c0, hc0⟩ := hr0.rootC o
  obtain ⟨h1, h2⟩ := (attach_rootC a b d ha hb hab hc0).unique h
  exact ⟨r0, c0, hc0, h1.symm, h2.symm⟩

theorem PosInv.union {pos : α → G} {m0 : α → Bool} {l : List (α × α × G)} {D : ℕ}
    {st st' : ShiftUF α G} (hp : PosInv pos st) (h : SInv m0 l D st) (a b : α) (s : G) (fuel : ℕ)
    (hf : D < fuel) (e : unionShift fuel st a b s = some st')
    (hres : ¬ Connected (pairsOf l) a b → Respects pos (a, b, s)) : PosInv pos st' := by
  obtain ⟨ra, rb, ca, cb, p2, o2, ha, hb, hC, st'', e', hcase⟩ :=
    unionShift_spec h.uf a b s fuel hf
  obtain rfl : st'' = st' := by rw [e'] at e; simpa using e
  have hp2 := hp.compress h.uf hC
  have hi2 := h.uf.compress hC.comp
  have hfa := hC.comp.fix _ ha.rootIn.rootOf.fix
  have hfb := hC.comp.fix _ hb.rootIn.rootOf.fix
  have hpa := hp _ _ _ _ ha
  have hpb := hp _ _ _ _ hb
  have hne : ra ≠ rb → pos b = pos a + s := by
    intro hr
    refine hres fun hc => hr ?_
    obtain ⟨r, h1, h2⟩ := (h.uf.conn a b).mpr hc
    rw [ha.rootIn.rootOf.unique h1, hb.rootIn.rootOf.unique h2]
  rcases hcase with ⟨_, rfl⟩ | ⟨hr, e1, e2, _⟩ | ⟨hr, e1, e2, _⟩
  · exact hp2
  · intro n x r c hx
    rw [e1, e2] at hx
    obtain ⟨r0, c0, h0, rfl, rfl⟩ := attach_inv hi2 ra rb _ hfa hfb hr hx
    have := hp2 _ _ _ _ h0
    split_ifs with hra
    · subst hra
      rw [hpb, hne hr]
      have h1 : pos x + c0 = pos a + ca := this.symm.trans hpa
      have : pos x + (c0 + (s + cb - ca)) = (pos x + c0) + (s + cb - ca) := by abel
      rw [this, h1]; abel
    · exact this
  · intro n x r c hx
    rw [e1, e2] at hx
    obtain ⟨r0, c0, h0, rfl, rfl⟩ := attach_inv hi2 rb ra _ hfb hfa (Ne.symm hr) hx
    have := hp2 _ _ _ _ h0
    split_ifs with hra
    · subst hra
      rw [hpa]
      have h1 : pos x + c0 = pos b + cb := this.symm.trans hpb
      have : pos x + (c0 + -(s + cb - ca)) = (pos x + c0) + -(s + cb - ca) := by abel
      rw [this, h1, hne hr]; abel
    · exact this

/-- The request is respected by the stored offsets. -/
def OffOK (st : ShiftUF α G) (e : α × α × G) : Prop :=
  ∃ n m r ca cb, RootC st.parent st.off n e.1 r ca ∧ RootC st.parent st.off m e.2.1 r cb ∧
    ca = e.2.2 + cb

theorem OffOK.compress {st : ShiftUF α G} {e : α × α × G} (h : OffOK st e) {p2 : α → α} {o2 : α → G}
    (hC : CompressesS st.parent st.off p2 o2) : OffOK { st with parent := p2, off := o2 } e := by
  obtain ⟨n, m, r, ca, cb, h1, h2, h3⟩ := h
  exact ⟨n, m, r, ca, cb, hC.roots _ _ _ _ h1, hC.roots _ _ _ _ h2, h3⟩

theorem OffOK.union {m0 : α → Bool} {l : List (α × α × G)} {D : ℕ}
    {st st' : ShiftUF α G} (h : SInv m0 l D st) (a b : α) (s : G) (fuel : ℕ)
    (hf : D < fuel) (e : unionShift fuel st a b s = some st') :
    (∀ q, OffOK st q → OffOK st' q) ∧ (¬ Connected (pairsOf l) a b → OffOK st' (a, b, s)) := by
  obtain ⟨ra, rb, ca, cb, p2, o2, ha, hb, hC, st'', e', hcase⟩ :=
    unionShift_spec h.uf a b s fuel hf
  obtain rfl : st'' = st' := by rw [e'] at e; simpa using e
  have hfa := hC.comp.fix _ ha.rootIn.rootOf.fix
  have hfb := hC.comp.fix _ hb.rootIn.rootOf.fix
  have key : ∀ (u v : α) (d : G), p2 u = u → p2 v = v → u ≠ v → ∀ q : α × α × G, OffOK st q →
      OffOK { parent := Function.update p2 u v, off := Function.update o2 u d,
              size := st''.size, mask := st''.mask } q := by
    intro u v d hu hv huv q hq
    obtain ⟨n, m, r, c1, c2, h1, h2, h3⟩ := hq
    have h1' := attach_rootC u v d hu hv huv (hC.roots _ _ _ _ h1)
    have h2' := attach_rootC u v d hu hv huv (hC.roots _ _ _ _ h2)
    refine ⟨_, _, _, _, _, h1', h2', ?_⟩
    split_ifs
    · rw [h3]; abel
    · exact h3
  have ha2 := hC.roots _ _ _ _ ha
  have hb2 := hC.roots _ _ _ _ hb
  rcases hcase with ⟨hr, rfl⟩ | ⟨hr, e1, e2, _⟩ | ⟨hr, e1, e2, _⟩
  · refine ⟨fun q hq => hq.compress hC, fun hc => absurd ?_ hc⟩
    subst hr
    exact (h.uf.conn a b).mp ⟨_, ha.rootIn.rootOf, hb.rootIn.rootOf⟩
  · have hst : st'' = ShiftUF.mk (Function.update p2 ra rb)
        (Function.update o2 ra (s + cb - ca)) st''.size st''.mask := by
      rw [← e1, ← e2]
    refine ⟨fun q hq => by rw [hst]; exact key _ _ _ hfa hfb hr q hq, fun _ => ?_⟩
    have h1' := attach_rootC ra rb (s + cb - ca) hfa hfb hr ha2
    have h2' := attach_rootC ra rb (s + cb - ca) hfa hfb hr hb2
    rw [if_pos rfl, if_pos rfl] at h1'
    rw [if_neg (Ne.symm hr), if_neg (Ne.symm hr)] at h2'
    rw [hst]
    exact ⟨_, _, _, _, _, h1', h2', by simp⟩
  · have hst : st'' = ShiftUF.mk (Function.update p2 rb ra)
        (Function.update o2 rb (-(s + cb - ca))) st''.size st''.mask := by
      rw [← e1, ← e2]
    refine ⟨fun q hq => by rw [hst]; exact key _ _ _ hfb hfa (Ne.symm hr) q hq, fun _ => ?_⟩
    have h1' := attach_rootC rb ra (-(s + cb - ca)) hfb hfa (Ne.symm hr) ha2
    have h2' := attach_rootC rb ra (-(s + cb - ca)) hfb hfa (Ne.symm hr) hb2
    rw [if_neg hr, if_neg hr] at h1'
    rw [if_pos rfl, if_pos rfl] at h2'
    rw [hst]
    exact ⟨_, _, _, _, _, h1', h2', by dsimp only; abel⟩

theorem SInv.init (m0 : α → Bool) :
    SInv m0 ([] : List (α × α × G)) 0 { (ShiftUF.init : ShiftUF α G) with mask := m0 } := by
  refine ⟨UFInv.init, fun x => ?_⟩
  simp only [ShiftUF.init, true_and]
  constructor
  · exact Or.inl
  · rintro (h | ⟨y, hy, hr⟩)
    · exact h
    · exact absurd (hr.of_fix rfl).symm hy

theorem runShift_spec (m0 : α → Bool) (os : List (ShiftOp α G)) :
    ∀ {l : List (α × α × G)} {D : ℕ} {st : ShiftUF α G}, SInv m0 l D st →
    ∀ fuel, D + os.length < fuel → ∃ st' D', runShift fuel os st = some st' ∧
      SInv m0 (l ++ requestsOf os) D' st' ∧ D' ≤ D + os.length ∧
      (∀ pos, PosInv pos st → (∀ e, Effective l (requestsOf os) e → Respects pos e) →
        PosInv pos st') ∧
      (∀ q, OffOK st q → OffOK st' q) ∧ (∀ e, Effective l (requestsOf os) e → OffOK st' e) := by
  induction os with
  | nil =>
    intro l D st h fuel hf
    refine ⟨st, D, rfl, by simpa [requestsOf] using h, by simp, fun pos hp _ => hp,
      fun q hq => hq, ?_⟩
    intro e he
    simp only [requestsOf] at he
    cases he
  | cons op os ih =>
    intro l D st h fuel hf
    simp only [List.length_cons] at hf
    cases op with
    | find x =>
      obtain ⟨p2, o2, r, c, e, hC, _, h2⟩ := h.find x fuel (by omega)
      obtain ⟨st', D', e', hi, hD, hpos, hq, heff⟩ := ih h2 fuel (by omega)
      refine ⟨st', D', by simp [runShift, ShiftOp.run, e, e'], by simpa [requestsOf] using hi,
        by simp only [List.length_cons]; omega, ?_, fun q hq' => hq q (hq'.compress hC), ?_⟩
      · intro pos hp hres
        exact hpos pos (hp.compress h.uf hC) (fun e he => hres e (by simpa [requestsOf] using he))
      · intro e he; exact heff e (by simpa [requestsOf] using he)
    | union a b s =>
      obtain ⟨st1, e, h1⟩ := h.union a b s fuel (by omega)
      obtain ⟨st', D', e', hi, hD, hpos, hq, heff⟩ := ih h1 fuel (by omega)
      have hO := OffOK.union h a b s fuel (by omega) e
      refine ⟨st', D', by simp [runShift, ShiftOp.run, e, e'], by simpa [requestsOf] using hi,
        by simp only [List.length_cons]; omega, ?_, fun q hq' => hq q (hO.1 q hq'), ?_⟩
      · intro pos hp hres
        refine hpos pos (hp.union h a b s fuel (by omega) e ?_) ?_
        · intro hc; exact hres _ (Effective.here hc)
        · intro e he; exact hres e (Effective.there he)
      · intro e he
        simp only [requestsOf] at he
        cases he with
        | here hc => exact hq _ (hO.2 hc)
        | there he => exact heff e he

end BaderKit
