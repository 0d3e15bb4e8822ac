import Mathlib.Data.Finset.Insert
import Mathlib.Data.List.Pairwise
import Verif.Lemmas.ShiftUF
import Mathlib.Algebra.Group.Int.Defs
import Mathlib.Tactic.Linarith
import Mathlib.Data.List.Dedup
import Mathlib.Data.List.GetD
/-! # Properties C03, C04, C05, C06: union-find -/
set_option linter.unusedSectionVars false
namespace BaderKit

section C03
variable {α : Type*} [DecidableEq α]

/-- **C03** After any history of finds (with or without compression) and unions, starting from
singletons, and with any fuel above the length of the history: the history terminates, finding a
root terminates and returns a fixed point of the parent array, two elements have the same root
iff they are connected by the requested unions, and indices stay inside any set (array range) that
contains the indices used. -/
theorem C03_union_find_equivalence (ops : List (UFOp α)) (fuel : ℕ) (hf : ops.length < fuel) :
    ∃ p, runUF fuel ops (fun x => x) = some p ∧
      (∀ x, ∃ r, findRootNC fuel p x = some r ∧ p r = r) ∧
      (∀ a b, findRootNC fuel p a = findRootNC fuel p b ↔ Connected (unionsOf ops) a b) ∧
      (∀ S : α → Prop, (∀ o ∈ ops, o.InSet S) → ∀ x, S x → S (p x)) := by
  obtain ⟨p, D, e, hi, hD, hS⟩ := run_spec ops (UFInv.init (α := α)) fuel (by omega)
  have hfr : ∀ x, ∃ r, findRootNC fuel p x = some r ∧ RootOf p x r := by
    intro x
    obtain ⟨r, hr⟩ := hi.total x
    exact ⟨r, findRootNC_of_rootIn hr fuel (by omega), hr.rootOf⟩
  refine ⟨p, e, ?_, ?_, fun S hin => hS S hin (fun x hx => hx)⟩
  · intro x; obtain ⟨r, h1, h2⟩ := hfr x; exact ⟨r, h1, h2.fix⟩
  · intro a b
    have := hi.conn a b
    rw [List.nil_append] at this
    rw [← this]
    obtain ⟨ra, ea, ha⟩ := hfr a
    obtain ⟨rb, eb, hb⟩ := hfr b
    rw [ea, eb]
    constructor
    · intro h; obtain rfl : ra = rb := by simpa using h
      exact ⟨_, ha, hb⟩
    · rintro ⟨r, h1, h2⟩; rw [ha.unique h1, hb.unique h2]

/-- **C03** `find_root` (with path halving) returns the same root as the version without
compression and changes nobody's root. -/
theorem C03_find_root_keeps_roots (ops : List (UFOp α)) (fuel : ℕ) (hf : ops.length < fuel)
    (p : α → α) (hp : runUF fuel ops (fun x => x) = some p) (x : α) :
    ∃ p' r, findRoot fuel p x = some (p', r) ∧ findRootNC fuel p x = some r ∧
      ∀ y, findRootNC fuel p' y = findRootNC fuel p y := by
  obtain ⟨q, D, e, hi, hD, _⟩ := run_spec ops (UFInv.init (α := α)) fuel (by omega)
  obtain rfl : q = p := by rw [e] at hp; simpa using hp
  obtain ⟨r, hr⟩ := hi.total x
  obtain ⟨p', e', c⟩ := findRoot_spec D q x r hr fuel (by omega)
  refine ⟨p', r, e', findRootNC_of_rootIn hr fuel (by omega), fun y => ?_⟩
  obtain ⟨s, hs⟩ := hi.total y
  rw [findRootNC_of_rootIn hs fuel (by omega),
    findRootNC_of_rootIn (c.roots _ _ _ hs) fuel (by omega)]

/-- Non-vacuity of C03: a history on ℕ with a chain that is compressed. -/
example : (runUF 10 [UFOp.union 0 1, .union 1 2, .union 2 3, .find 0, .union 5 6, .findNC 5]
    (fun x : ℕ => x)).map (fun p => (List.range 8).map p) = some [2, 2, 3, 3, 4, 6, 6, 7] := by
  decide

example : Connected [(0, 1), (1, 2)] 0 2 ∧ ¬ Connected [(0, 1), (1, 2)] 0 3 := by
  refine ⟨.trans _ 1 _ (.rel _ _ (by simp)) (.rel _ _ (by simp)), fun h => ?_⟩
  have : ∀ x y : ℕ, Connected [(0, 1), (1, 2)] x y → (x = 3 ↔ y = 3) := by
    intro x y h
    induction h with
    | rel x y h => simp at h; omega
    | refl => rfl
    | symm _ _ _ ih => exact ih.symm
    | trans _ _ _ _ _ h1 h2 => exact h1.trans h2
  have := this _ _ h
  omega

end C03

section C04

theorem toFun_extend (p : UFList) (m : ℕ) : (p.extend m).toFun = p.toFun := by
  funext x
  unfold UFList.toFun UFList.extend
  by_cases hx : x < p.length
  · simp [List.getD_eq_getElem?_getD, List.getElem?_append, hx]
  · simp only [List.getD_eq_getElem?_getD, List.getElem?_append, hx, if_false,
      List.getElem?_map]
    have h2 : p[x]? = none := List.getElem?_eq_none (by omega)
    rw [h2]
    by_cases hx2 : x - p.length < m + 1 - p.length
    · rw [List.getElem?_range hx2]; simp; omega
    · rw [List.getElem?_eq_none (by simpa using hx2)]; simp

theorem toFun_ofFun (n : ℕ) (f : ℕ → ℕ) (h : ∀ x, n ≤ x → f x = x) :
    (UFList.ofFun n f).toFun = f := by
  funext x
  unfold UFList.toFun UFList.ofFun
  by_cases hx : x < n
  · simp [List.getD_eq_getElem?_getD, List.getElem?_range hx]
  · rw [List.getD_eq_default _ _ (by simpa using hx), h x (by omega)]

/-- State of a `UnionFind` object reached by the unions `l`. -/
structure ListInv (l : List (ℕ × ℕ)) (D : ℕ) (p : UFList) : Prop where
  uf : UFInv l D p.toFun
  closed : ∀ x, x < p.length → p.toFun x < p.length
  alloc : ∀ e ∈ l, e.1 < p.length ∧ e.2 < p.length
  ne : 0 < p.length

theorem toFun_out (p : UFList) {x : ℕ} (h : p.length ≤ x) : p.toFun x = x := by
  unfold UFList.toFun; rw [List.getD_eq_default _ _ h]

theorem ListInv.union {l : List (ℕ × ℕ)} {D : ℕ} {p : UFList} (h : ListInv l D p) (x y fuel : ℕ)
    (hf : D < fuel) : ∃ p', UFList.union fuel p x y = some p' ∧ ListInv (l ++ [(x, y)]) (D + 1) p' ∧
      p'.length = max p.length (max x y + 1) := by
  have hq : (p.extend (max x y)).toFun = p.toFun := toFun_extend p _
  have hlen : (p.extend (max x y)).length = max p.length (max x y + 1) := by
    simp [UFList.extend]; omega
  obtain ⟨p2, rx, ry, c, hx, hy, e, hi, _⟩ := union_spec h.uf x y fuel hf
  set q := p.extend (max x y) with hqd
  have hcl : ∀ z, z < q.length → p.toFun z < q.length := by
    intro z hz
    by_cases hzp : z < p.length
    · have := h.closed z hzp; omega
    · rw [toFun_out p (by omega)]; exact hz
  have hxl : x < q.length := by omega
  have hyl : y < q.length := by omega
  have hrx := hx.closed (S := (· < q.length)) hcl hxl
  have hry := hy.closed (S := (· < q.length)) hcl hyl
  have hout : ∀ z, q.length ≤ z → Function.update p2 rx ry z = z := by
    intro z hz
    rw [Function.update_of_ne (by omega)]
    exact c.fix z (toFun_out p (by omega))
  have hfun := toFun_ofFun q.length _ hout
  refine ⟨UFList.ofFun q.length (Function.update p2 rx ry), ?_, ?_, ?_⟩
  · simp [UFList.union, ← hqd, hq, e]
  · refine ⟨by rw [hfun]; exact hi, ?_, ?_, ?_⟩
    · intro z hz
      have hz' : z < q.length := by simpa [UFList.ofFun] using hz
      rw [hfun]
      simp only [UFList.ofFun, List.length_map, List.length_range]
      by_cases hzr : z = rx
      · subst hzr; simpa using hry
      · rw [Function.update_of_ne hzr]
        exact c.closed (· < q.length) hcl z hz'
    · intro e' he'
      simp only [UFList.ofFun, List.length_map, List.length_range]
      rcases List.mem_append.mp he' with he' | he'
      · have := h.alloc e' he'; omega
      · simp only [List.mem_singleton] at he'; subst he'; exact ⟨hxl, hyl⟩
    · simp only [UFList.ofFun, List.length_map, List.length_range]; omega
  · simp only [UFList.ofFun, List.length_map, List.length_range, hlen]

theorem ListInv.run (os : List (ℕ × ℕ)) : ∀ {l : List (ℕ × ℕ)} {D : ℕ} {p : UFList},
    ListInv l D p → ∀ fuel, D + os.length < fuel →
    ∃ p' , UFList.runUnions fuel os p = some p' ∧ ListInv (l ++ os) (D + os.length) p' := by
  induction os with
  | nil => intro l D p h fuel hf; exact ⟨p, rfl, by simpa using h⟩
  | cons o os ih =>
    intro l D p h fuel hf
    simp only [List.length_cons] at hf
    obtain ⟨p1, e1, h1, _⟩ := h.union o.1 o.2 fuel (by omega)
    obtain ⟨p', e', h'⟩ := ih h1 fuel (by omega)
    refine ⟨p', by simp [UFList.runUnions, e1, e'], ?_⟩
    have : l ++ [(o.1, o.2)] ++ os = l ++ o :: os := by simp
    rw [this] at h'
    have h2 : D + 1 + os.length = D + (o :: os).length := by simp; omega
    rw [h2] at h'
    exact h'

theorem ListInv.init : ListInv [] 0 UFList.init := by
  have : UFList.init.toFun = fun x => x := by
    funext x; cases x <;> simp [UFList.init, UFList.toFun]
  refine ⟨by rw [this]; exact UFInv.init, ?_, by simp, by simp [UFList.init]⟩
  intro x hx; rw [this]; exact hx

theorem compressRoots_spec {l : List (ℕ × ℕ)} {D : ℕ} (fuel : ℕ) (hf : D < fuel) (order : List ℕ) :
    ∀ {p : ℕ → ℕ} {new : ℕ → ℕ}, UFInv l D p → ∃ p' new', compressRoots fuel order (p, new) =
      some (p', new') ∧ Compresses p p' ∧ (∀ i ∈ order, RootOf p i (new' i)) ∧
      (∀ i ∉ order, new' i = new i) := by
  induction order with
  | nil => intro p new h; exact ⟨p, new, rfl, Compresses.refl p, by simp, by simp⟩
  | cons i is ih =>
    intro p new h
    obtain ⟨r, hr⟩ := h.total (p i)
    obtain ⟨p1, e1, c1⟩ := findRoot_spec D p (p i) r hr fuel hf
    obtain ⟨p', new', e', c', hin, hout⟩ := ih (new := Function.update new i r) (h.compress c1)
    refine ⟨p', new', by simp [compressRoots, e1, e'], c1.trans c', ?_, ?_⟩
    · intro j hj
      by_cases hji : j ∈ is
      · exact (c1.rootOf_iff h).mp (hin j hji)
      · have : j = i := by
          rcases List.mem_cons.mp hj with h | h
          · exact h
          · exact absurd h hji
        subst this
        rw [hout j hji]
        simpa using RootOf.step hr.rootOf
    · intro j hj
      rw [hout j (fun h => hj (by simp [h])), Function.update_of_ne (by
        rintro rfl; exact hj (by simp))]

/-- **C04** After any sequence of unions on a fresh `UnionFind`, for every order in which
`compress_roots` visits the indices: the groups are pairwise disjoint and without repetition, their
members are exactly the allocated indices `0..n-1` (which include every index used), and two
allocated indices share a group iff the unions connect them. -/
theorem C04_groups_partition (os : List (ℕ × ℕ)) (fuel : ℕ) (hf : os.length < fuel) :
    ∃ p, UFList.runUnions fuel os UFList.init = some p ∧
      (∀ e ∈ os, e.1 < p.length ∧ e.2 < p.length) ∧
      ∀ order : List ℕ, order.Perm (List.range p.length) →
      ∃ gs, p.groups fuel order = some gs ∧
        gs.Pairwise (fun g h => ∀ x ∈ g, x ∉ h) ∧ (∀ g ∈ gs, g ≠ [] ∧ g.Nodup) ∧
        (∀ x, (∃ g ∈ gs, x ∈ g) ↔ x < p.length) ∧
        (∀ a < p.length, ∀ b < p.length, (∃ g ∈ gs, a ∈ g ∧ b ∈ g) ↔ Connected os a b) := by
  obtain ⟨p, e, h⟩ := ListInv.run os ListInv.init fuel (by omega)
  simp only [List.nil_append] at h
  refine ⟨p, e, h.alloc, fun order hord => ?_⟩
  obtain ⟨p', new', e', c', hin, _⟩ :=
    compressRoots_spec fuel (by omega) order (new := fun _ => 0) h.uf
  have hin' : ∀ i < p.length, RootOf p.toFun i (new' i) := fun i hi =>
    hin i (hord.mem_iff.mpr (by simpa using hi))
  refine ⟨_, by simp [UFList.groups, e']; rfl, ?_, ?_, ?_, ?_⟩
  · rw [List.pairwise_map]
    have hnd : (((List.range p.length).map new').dedup.insertionSort (· ≤ ·)).Nodup :=
      (List.perm_insertionSort _ _).nodup_iff.mpr (List.nodup_dedup _)
    refine List.Pairwise.imp ?_ hnd
    intro r s hrs x hx hx'
    simp only [List.mem_filter, List.mem_range, decide_eq_true_eq] at hx hx'
    exact hrs (hx.2.symm.trans hx'.2)
  · intro g hg
    simp only [List.mem_map, List.mem_insertionSort, List.mem_dedup] at hg
    obtain ⟨r, ⟨i, hi, rfl⟩, rfl⟩ := hg
    refine ⟨?_, List.nodup_range.filter _⟩
    refine List.ne_nil_of_mem (a := i) ?_
    simp only [List.mem_filter, hi, decide_true, and_self]
  · intro x
    constructor
    · rintro ⟨g, hg, hx⟩
      obtain ⟨r, _, rfl⟩ := List.mem_map.mp hg
      simpa using (List.mem_filter.mp hx).1
    · intro hx
      refine ⟨_, List.mem_map.mpr ⟨new' x, ?_, rfl⟩, ?_⟩
      · simp only [List.mem_insertionSort, List.mem_dedup, List.mem_map]
        exact ⟨x, by simpa using hx, rfl⟩
      · simp [hx]
  · intro a ha b hb
    rw [← h.uf.conn]
    constructor
    · rintro ⟨g, hg, hga, hgb⟩
      obtain ⟨r, _, rfl⟩ := List.mem_map.mp hg
      simp only [List.mem_filter, decide_eq_true_eq] at hga hgb
      refine ⟨r, ?_, ?_⟩
      · rw [← hga.2]; exact hin' a ha
      · rw [← hgb.2]; exact hin' b hb
    · rintro ⟨r, h1, h2⟩
      have ea := (hin' a ha).unique h1
      have eb := (hin' b hb).unique h2
      refine ⟨_, List.mem_map.mpr ⟨r, ?_, rfl⟩, ?_, ?_⟩
      · simp only [List.mem_insertionSort, List.mem_dedup, List.mem_map]
        exact ⟨a, by simpa using ha, ea⟩
      · simp [ha, ea]
      · simp [hb, eb]

/-- **C04** After any sequence of unions on a fresh `UnionFind`, `find_root` answers for exactly the allocated indices; its answer is allocated, two
indices have the same answer iff the unions connect them, and asking does not change the answers. -/
theorem C04_find_root (os : List (ℕ × ℕ)) (fuel : ℕ) (hf : os.length < fuel) :
    ∃ p, UFList.runUnions fuel os UFList.init = some p ∧
      (∀ x, (p.findRoot fuel x).isSome = true ↔ x < p.length) ∧
      (∀ a p' r, p.findRoot fuel a = some (p', r) → r < p.length ∧ p'.length = p.length ∧
        (∀ b, (p'.findRoot fuel b).map Prod.snd = (p.findRoot fuel b).map Prod.snd) ∧
        ∀ b q s, p.findRoot fuel b = some (q, s) → (r = s ↔ Connected os a b)) := by
  obtain ⟨p, e, h⟩ := ListInv.run os ListInv.init fuel (by omega)
  simp only [List.nil_append] at h
  have hfind : ∀ x < p.length, ∃ q r, BaderKit.findRoot fuel p.toFun x = some (q, r) ∧ RootIn p.toFun (0 + os.length) x r ∧ Compresses p.toFun q := by
    intro x _
    obtain ⟨r, hr⟩ := h.uf.total x
    obtain ⟨q, e', c⟩ := findRoot_spec _ p.toFun x r hr fuel (by omega)
    exact ⟨q, r, e', hr, c⟩
  refine ⟨p, e, fun x => ⟨fun hx => ?_, fun hx => ?_⟩, fun a p' r ha => ?_⟩
  · by_contra hlt
    unfold UFList.findRoot at hx
    rw [if_neg hlt] at hx
    cases hx
  · obtain ⟨q, r, e', -, -⟩ := hfind x hx
    unfold UFList.findRoot
    rw [if_pos hx, e']; rfl
  · by_cases hal : a < p.length
    swap
    · unfold UFList.findRoot at ha
      rw [if_neg hal] at ha
      cases ha
    obtain ⟨q, r', e', hr, c⟩ := hfind a hal
    have ha' := ha
    unfold UFList.findRoot at ha'
    rw [if_pos hal, e', Option.map_some, Option.some.injEq, Prod.mk.injEq] at ha'
    obtain ⟨rfl, rfl⟩ := ha'
    have hout : ∀ z, p.length ≤ z → q z = z := fun z hz => c.fix z (toFun_out p hz)
    have hq := toFun_ofFun p.length q hout
    have hql : (UFList.ofFun p.length q).length = p.length := by simp [UFList.ofFun]
    refine ⟨hr.rootOf.closed (S := (· < p.length)) h.closed hal, hql, fun b => ?_, fun b q' s hb => ?_⟩
    · unfold UFList.findRoot
      rw [hql]
      by_cases hb : b < p.length
      · obtain ⟨q1, r1, e1, hr1, -⟩ := hfind b hb
        obtain ⟨q2, e2, -⟩ := findRoot_spec _ q b r1 (c.roots _ _ _ hr1) fuel (by omega)
        rw [if_pos hb, if_pos hb, hq, e1, e2]; rfl
      · rw [if_neg hb, if_neg hb]
    · by_cases hbl : b < p.length
      swap
      · unfold UFList.findRoot at hb
        rw [if_neg hbl] at hb
        cases hb
      obtain ⟨q1, r1, e1, hr1, -⟩ := hfind b hbl
      unfold UFList.findRoot at hb
      rw [if_pos hbl, e1, Option.map_some, Option.some.injEq, Prod.mk.injEq] at hb
      obtain ⟨-, rfl⟩ := hb
      rw [← h.uf.conn]
      exact ⟨fun he => ⟨r', hr.rootOf, by have he' : r' = r1 := he
                                          rw [he']; exact hr1.rootOf⟩, fun ⟨x, h1, h2⟩ => (hr.rootOf.unique h1).trans (hr1.rootOf.unique h2).symm⟩

example : ((UFList.runUnions 10 [(0, 4), (2, 3), (4, 2)] UFList.init).map fun p =>
    (List.range 7).map fun x => (p.findRoot 10 x).map Prod.snd) = some [some 3, some 1, some 3, some 3, some 3, none, none] := by decide

/-- **C04** The sets that `groups_sets` reports do not depend on the order in which indices are visited: they are the classes of the allocated indices. -/
theorem C04_groups_sets (os : List (ℕ × ℕ)) (fuel : ℕ) (hf : os.length < fuel) :
    ∃ p, UFList.runUnions fuel os UFList.init = some p ∧
      ∀ order : List ℕ, order.Perm (List.range p.length) → ∃ gs, p.groupsSets fuel order = some gs ∧
        ∀ g : Finset ℕ, g ∈ gs ↔ ∃ a < p.length, ∀ b, b ∈ g ↔ b < p.length ∧ Connected os a b := by
  obtain ⟨p, e, _, h⟩ := C04_groups_partition os fuel hf
  refine ⟨p, e, fun order hord => ?_⟩
  obtain ⟨gs, e', h1, h2, h3, h4⟩ := h order hord
  refine ⟨_, by rw [UFList.groupsSets, e']; rfl, fun g => ?_⟩
  have cls : ∀ l ∈ gs, ∀ a ∈ l, ∀ b, b ∈ l.toFinset ↔ b < p.length ∧ Connected os a b := by
    intro l hl a ha b
    have hal := (h3 a).mp ⟨l, hl, ha⟩
    rw [List.mem_toFinset]
    constructor
    · intro hb
      have hbl := (h3 b).mp ⟨l, hl, hb⟩
      exact ⟨hbl, (h4 a hal b hbl).mp ⟨l, hl, ha, hb⟩⟩
    · rintro ⟨hbl, hc⟩
      obtain ⟨l', hl', ha', hb'⟩ := (h4 a hal b hbl).mpr hc
      by_cases el : l = l'
      · rw [el]; exact hb'
      · have : Std.Symm fun g h : List ℕ => ∀ x ∈ g, x ∉ h := ⟨fun x y hxy z hz hz' => hxy z hz' hz⟩
        exact absurd ha' (List.Pairwise.forall h1 hl hl' el a ha)
  simp only [List.mem_toFinset, List.mem_map]
  constructor
  · rintro ⟨l, hl, rfl⟩
    obtain ⟨a, ha⟩ := List.exists_mem_of_ne_nil l (h2 l hl).1
    exact ⟨a, (h3 a).mp ⟨l, hl, ha⟩, cls l hl a ha⟩
  · rintro ⟨a, hal, hg⟩
    obtain ⟨l, hl, ha⟩ := (h3 a).mpr hal
    refine ⟨l, hl, Finset.ext fun b => ?_⟩
    rw [cls l hl a ha b, hg b]

example : ((UFList.runUnions 10 [(0, 4), (2, 3), (4, 2)] UFList.init).bind fun p => p.groupsSets 10 [4, 0, 1, 3, 2]) =
    some {{1}, {0, 2, 3, 4}} := by decide

/-- **C04** (`bulk_union` is broken) Whatever list the object has, whatever pairs are given and whether or not numba compiles it: `bulk_union` with at least one pair
never leaves a usable object.  It raises, or it stores `None`.  With two or more pairs it raises, and at most the first pair has been united. -/
theorem C04_bulk_union (fuel : ℕ) (compiles : Bool) (p : UFList) (x y : ℕ) (rest : List (ℕ × ℕ)) :
    (∀ q, p.bulkUnion fuel compiles ((x, y) :: rest) ≠ some (.stored (some q))) ∧
    (rest ≠ [] → ∀ v, p.bulkUnion fuel compiles ((x, y) :: rest) ≠ some (.stored v)) ∧
    (∀ a b rest', x < p.length → y < p.length → ∀ q, p.union fuel x y = some q → rest = (a, b) :: rest' →
      p.bulkUnion fuel true ((x, y) :: rest) = some (.raised q)) := by
  have cases : ∀ o, p.bulkUnion fuel compiles ((x, y) :: rest) = some o → (∃ l, o = .raised l) ∨ (rest = [] ∧ o = .stored none) := by
    intro o ho
    unfold UFList.bulkUnion at ho
    split_ifs at ho
    · simp only [bulkLoop] at ho
      split_ifs at ho with h1 h2
      · obtain ⟨q, _, hq⟩ := Option.bind_eq_some_iff.mp ho
        cases rest with
        | nil => simp only [bulkLoop, Option.some.injEq] at hq; exact Or.inr ⟨rfl, hq.symm⟩
        | cons c r => simp only [bulkLoop, Option.some.injEq] at hq; exact Or.inl ⟨_, hq.symm⟩
      · obtain ⟨r, _, hr⟩ := Option.map_eq_some_iff.mp ho
        exact Or.inl ⟨_, hr.symm⟩
      · exact Or.inl ⟨_, (Option.some.inj ho).symm⟩
    · exact Or.inl ⟨_, (Option.some.inj ho).symm⟩
  refine ⟨fun q h => ?_, fun hr v h => ?_, fun a b rest' hx hy q hq hr => ?_⟩
  · rcases cases _ h with ⟨l, e⟩ | ⟨_, e⟩ <;> simp at e
  · rcases cases _ h with ⟨l, e⟩ | ⟨e, _⟩
    · cases e
    · exact hr e
  · subst hr
    have ext : p.extend (max x y) = p := by
      unfold UFList.extend
      rw [show max x y + 1 - p.length = 0 by omega]; simp
    unfold UFList.union at hq
    simp only [ext] at hq
    obtain ⟨f, e1, e2⟩ := Option.map_eq_some_iff.mp hq
    simp only [UFList.bulkUnion, if_true, bulkLoop, if_pos hx, if_pos hy, e1, Option.bind_some]
    rw [e2]

/-- Two pairs on `0..4`: only the first is united; one pair: `None` is stored; none: nothing changes. -/
example : (UFList.runUnions 10 [(4, 4)] UFList.init).map (fun p => (p, p.bulkUnion 10 true [(0, 1), (2, 3)], p.bulkUnion 10 true [(0, 1)], p.bulkUnion 10 true [])) =
    some ([0, 1, 2, 3, 4], some (.raised [1, 1, 2, 3, 4]), some (.stored none), some (.stored (some [0, 1, 2, 3, 4]))) := by decide

/-- Non-vacuity of C04. -/
example : ((UFList.runUnions 10 [(0, 4), (2, 3), (4, 2)] UFList.init).bind
    fun p => p.groups 10 [4, 0, 1, 3, 2]) = some [[1], [0, 2, 3, 4]] := by decide

end C04

section C05
variable {α : Type*} [DecidableEq α] {G : Type*} [AddCommGroup G]

/-- **C05** For any history of `find_root_with_shift` and `union_with_shift` calls on fresh arrays:
it terminates; finding terminates; two elements have the same root iff they are connected by the
requests; and the offset returned for `x` is the position difference `pos(root) - pos(x)` for
*every* assignment of positions that respects the shift of each request that joined two groups.
(The requests inside one group are the periodic cycles; they are not imposed.)  Such an assignment
always exists. -/
theorem C05_offsets_are_positions (ops : List (ShiftOp α G)) (fuel : ℕ) (hf : ops.length < fuel) :
    ∃ st : ShiftUF α G, runShift fuel ops ShiftUF.init = some st ∧
      (∀ x, ∃ p' o' r c, findRootShift fuel st.parent st.off x = some (p', o', r, c)) ∧
      (∀ a b pa oa ra ca pb ob rb cb,
        findRootShift fuel st.parent st.off a = some (pa, oa, ra, ca) →
        findRootShift fuel st.parent st.off b = some (pb, ob, rb, cb) →
        (ra = rb ↔ Connected (pairsOf (requestsOf ops)) a b)) ∧
      (∀ pos : α → G, (∀ e, Effective [] (requestsOf ops) e → Respects pos e) →
        ∀ x p' o' r c, findRootShift fuel st.parent st.off x = some (p', o', r, c) →
          pos r = pos x + c) ∧
      (∃ pos : α → G, ∀ e, Effective [] (requestsOf ops) e → Respects pos e) := by
  obtain ⟨st, D, e, hi, hD, hpos, _, heff⟩ :=
    runShift_spec (fun _ => false) ops (SInv.init (G := G) (fun _ : α => false)) fuel (by omega)
  simp only [List.nil_append] at hi
  have hfind : ∀ x, ∃ p' o' r c, findRootShift fuel st.parent st.off x = some (p', o', r, c) ∧
      RootC st.parent st.off D x r c := by
    intro x
    obtain ⟨p2, o2, r, c, e, _, hr, _⟩ := hi.find x fuel (by omega)
    exact ⟨p2, o2, r, c, e, hr⟩
  have hfind' : ∀ x p' o' r c, findRootShift fuel st.parent st.off x = some (p', o', r, c) →
      RootC st.parent st.off D x r c := by
    intro x p' o' r c e'
    obtain ⟨p2, o2, r2, c2, e2, h2⟩ := hfind x
    rw [e2] at e'
    simp only [Option.some.injEq, Prod.mk.injEq] at e'
    obtain ⟨_, _, rfl, rfl⟩ := e'
    exact h2
  refine ⟨st, e, fun x => ?_, ?_, ?_, ?_⟩
  · obtain ⟨p', o', r, c, h, _⟩ := hfind x; exact ⟨p', o', r, c, h⟩
  · intro a b pa oa ra ca pb ob rb cb ea eb
    have ha := hfind' _ _ _ _ _ ea
    have hb := hfind' _ _ _ _ _ eb
    rw [← hi.uf.conn]
    constructor
    · rintro rfl; exact ⟨_, ha.rootIn.rootOf, hb.rootIn.rootOf⟩
    · rintro ⟨r, h1, h2⟩
      rw [ha.rootIn.rootOf.unique h1, hb.rootIn.rootOf.unique h2]
  · intro pos hres x p' o' r c ex
    refine hpos pos ?_ hres _ _ _ _ (hfind' _ _ _ _ _ ex)
    intro n x r c hr
    cases hr with
    | base _ => simp
    | step h _ => exact absurd rfl h
  · choose p' o' r c hx using hfind
    refine ⟨fun x => - c x, fun e he => ?_⟩
    obtain ⟨n, m, r0, ca, cb, h1, h2, h3⟩ := heff e he
    have e1 := h1.unique (hx e.1).2
    have e2 := h2.unique (hx e.2.1).2
    simp only [Respects]
    rw [← e1.2, ← e2.2, h3]; abel

/-- Non-vacuity of C05: the one-dimensional ring 0 - 1 - 2 with periodic images; the last request
closes a cycle and is not effective; the offsets are those of the unrolled chain. -/
example : ((runShift 10 [ShiftOp.union 0 1 0, .union 2 1 (-1), .find 2, .union 2 0 (1:ℤ)]
      (ShiftUF.init : ShiftUF ℕ ℤ)).map fun st =>
      ((List.range 3).map st.parent, (List.range 3).map st.off, (List.range 3).map st.mask)) =
    some ([0, 0, 0], [0, 0, -1], [true, false, false]) := by decide

example : Effective [] [((0:ℕ), (1:ℕ), (0:ℤ)), (2, 1, -1)] (2, 1, -1) := by
  refine .there (.here fun h => ?_)
  have : ∀ x y : ℕ, Connected (pairsOf ([] ++ [((0:ℕ), (1:ℕ), (0:ℤ))])) x y → (x = 2 ↔ y = 2) := by
    intro x y h
    induction h with
    | rel x y h => simp [pairsOf] at h; omega
    | refl => rfl
    | symm _ _ _ ih => exact ih.symm
    | trans _ _ _ _ _ h1 h2 => exact h1.trans h2
  have := this _ _ h
  simp at this

end C05

section C06
variable {α : Type*} [DecidableEq α]

/-- Invariant of `union_w_roots`. -/
def WInv (m0 : α → Bool) (l : List (α × α)) (p : α → α) (m : α → Bool) : Prop :=
  ∀ x, m x = true ↔ p x = x ∧
    ∃ a, RootOf p a x ∧ (m0 a = true ∨ ∃ e ∈ l, e.1 = a ∨ e.2 = a)

theorem WInv.step {m0 : α → Bool} {l : List (α × α)} {D : ℕ} {p : α → α} {m : α → Bool}
    (hi : UFInv l D p) (h : WInv m0 l p m) (x y : α) (fuel : ℕ) (hf : D < fuel) :
    ∃ p' m', unionWRoots fuel p m x y = some (p', m') ∧ UFInv (l ++ [(x, y)]) (D + 1) p' ∧
      WInv m0 (l ++ [(x, y)]) p' m' := by
  obtain ⟨p2, rx, ry, c, hx, hy, _, hi', p1, e1, e2⟩ := union_spec hi x y fuel hf
  have hm : ∀ (m : α → Bool), (if !((if m rx then Function.update m rx false else m) ry) then
      Function.update (if m rx then Function.update m rx false else m) ry true
      else (if m rx then Function.update m rx false else m)) =
      Function.update (Function.update m rx false) ry true := by
    intro m
    have h1 : (if m rx then Function.update m rx false else m) = Function.update m rx false := by
      by_cases h : m rx = true
      · rw [if_pos h]
      · rw [if_neg h]
        have : m rx = false := by simpa using h
        rw [← this, Function.update_eq_self]
    rw [h1]
    by_cases h : Function.update m rx false ry = true
    · rw [if_neg (by simp [h]), ← h, Function.update_eq_self]
    · rw [if_pos (by simpa using h)]
  refine ⟨Function.update p2 rx ry, Function.update (Function.update m rx false) ry true, ?_, hi', ?_⟩
  · simp only [unionWRoots, e1, e2, Option.bind_eq_bind, Option.bind_some, hm]
  · intro z
    have hx2 := c.rootOf hx
    have hy2 := c.rootOf hy
    have hat : ∀ {a r}, RootOf p2 a r →
        RootOf (Function.update p2 rx ry) a (if r = rx then ry else r) := by
      intro a r hr
      obtain ⟨n, hn⟩ := hr.rootIn
      exact (attach_rootIn p2 rx ry hx2.fix hy2.fix hn).rootOf
    have hry : Function.update p2 rx ry ry = ry := by
      by_cases h : ry = rx
      · subst h; simp
      · rw [Function.update_of_ne h]; exact hy2.fix
    by_cases hzy : z = ry
    · subst hzy
      simp only [Function.update_self, true_iff]
      exact ⟨hry, x, by simpa using hat hx2, Or.inr ⟨(x, y), by simp, Or.inl rfl⟩⟩
    · rw [Function.update_of_ne hzy]
      by_cases hzx : z = rx
      · subst hzx
        simp only [Function.update_self, Bool.false_eq_true, false_iff, not_and]
        exact fun h => absurd h.symm hzy
      · rw [Function.update_of_ne hzx, Function.update_of_ne hzx, h z, c.fix_iff hi]
        refine and_congr_right fun hpz => ⟨?_, ?_⟩
        · rintro ⟨a, ha, hor⟩
          refine ⟨a, ?_, ?_⟩
          · have := hat (c.rootOf ha)
            rwa [if_neg hzx] at this
          · rcases hor with h | ⟨e, he, h⟩
            · exact Or.inl h
            · exact Or.inr ⟨e, by simp [he], h⟩
        · rintro ⟨a, ha, hor⟩
          obtain ⟨r, hr⟩ := hi.total a
          have hr := hr.rootOf
          have e := (hat (c.rootOf hr)).unique ha
          have hrz : r = z := by
            by_cases hrx : r = rx
            · rw [if_pos hrx] at e; exact absurd e.symm hzy
            · rwa [if_neg hrx] at e
          subst hrz
          refine ⟨a, hr, ?_⟩
          rcases hor with h | ⟨e, he, h⟩
          · exact Or.inl h
          · rcases List.mem_append.mp he with he | he
            · exact Or.inr ⟨e, he, h⟩
            · simp only [List.mem_singleton] at he
              subst he
              rcases h with h | h
              · dsimp only at h; subst h; exact absurd (hr.unique hx) hzx
              · dsimp only at h; subst h; exact absurd (hr.unique hy) hzy

theorem WInv.run (m0 : α → Bool) (os : List (α × α)) : ∀ {l : List (α × α)} {D : ℕ} {p : α → α}
    {m : α → Bool}, UFInv l D p → WInv m0 l p m → ∀ fuel, D + os.length < fuel →
    ∃ p' m' D', runUnionWRoots fuel os (p, m) = some (p', m') ∧ UFInv (l ++ os) D' p' ∧
      WInv m0 (l ++ os) p' m' := by
  induction os with
  | nil => intro l D p m hi h fuel hf; exact ⟨p, m, D, rfl, by simpa using hi, by simpa using h⟩
  | cons o os ih =>
    intro l D p m hi h fuel hf
    simp only [List.length_cons] at hf
    obtain ⟨p1, m1, e1, hi1, h1⟩ := WInv.step hi h o.1 o.2 fuel (by omega)
    obtain ⟨p', m', D', e', hi', h'⟩ := ih hi1 h1 fuel (by omega)
    refine ⟨p', m', D', by simp [runUnionWRoots, e1, e'], ?_, ?_⟩
    · simpa using hi'
    · simpa using h'

/-- An element is active: initially marked, or used in a union request. -/
def Active (m0 : α → Bool) (l : List (α × α)) (a : α) : Prop :=
  m0 a = true ∨ ∃ e ∈ l, e.1 = a ∨ e.2 = a

/-- **C06** `union_w_roots`: after any history, starting from singletons and any initial mask, every
marked element is connected to an active one and every active element is connected to *exactly one*
marked element.  Hence the number of marked entries is the number of groups that contain an active
element. -/
theorem C06_mask_one_per_group (m0 : α → Bool) (os : List (α × α)) (fuel : ℕ)
    (hf : os.length < fuel) :
    ∃ p m, runUnionWRoots fuel os (fun x => x, m0) = some (p, m) ∧
      (∀ x, m x = true → ∃ a, Active m0 os a ∧ Connected os a x) ∧
      (∀ a, Active m0 os a → ∃! x, m x = true ∧ Connected os a x) := by
  have h0 : WInv m0 [] (fun x : α => x) m0 := by
    intro x
    constructor
    · intro h; exact ⟨rfl, x, .base rfl, Or.inl h⟩
    · rintro ⟨_, a, ha, h | ⟨e, he, _⟩⟩
      · rw [show x = a from ha.of_fix rfl]; exact h
      · simp at he
  obtain ⟨p, m, D, e, hi, h⟩ := WInv.run m0 os UFInv.init h0 fuel (by omega)
  simp only [List.nil_append] at hi h
  refine ⟨p, m, e, ?_, ?_⟩
  · intro x hx
    obtain ⟨hpx, a, ha, hact⟩ := (h x).mp hx
    exact ⟨a, hact, (hi.conn a x).mp ⟨x, ha, .base hpx⟩⟩
  · intro a hact
    obtain ⟨r, hr⟩ := hi.total a
    have hr := hr.rootOf
    refine ⟨r, ⟨(h r).mpr ⟨hr.fix, a, hr, hact⟩, (hi.conn a r).mp ⟨r, hr, .base hr.fix⟩⟩, ?_⟩
    rintro y ⟨hy, hc⟩
    obtain ⟨s, h1, h2⟩ := (hi.conn a y).mpr hc
    have hyfix := ((h y).mp hy).1
    rw [← h2.of_fix hyfix, h1.unique hr]

/-- **C06** `union_with_shift`: after any history on fresh arrays with an initial mask `m0`, an
element is marked iff it is the root of its set and either its set has another element or it was
marked from the start; so every set with at least two elements has exactly one marked element. -/
theorem C06_shift_mask {G : Type*} [AddCommGroup G] (m0 : α → Bool) (ops : List (ShiftOp α G))
    (fuel : ℕ) (hf : ops.length < fuel) :
    ∃ st : ShiftUF α G, runShift fuel ops { ShiftUF.init with mask := m0 } = some st ∧
      (∀ x, st.mask x = true ↔ st.parent x = x ∧
        (m0 x = true ∨ ∃ y, y ≠ x ∧ Connected (pairsOf (requestsOf ops)) y x)) ∧
      (∀ a b, a ≠ b → Connected (pairsOf (requestsOf ops)) a b →
        ∃! x, st.mask x = true ∧ Connected (pairsOf (requestsOf ops)) a x) := by
  obtain ⟨st, D, e, hi, hD, _⟩ :=
    runShift_spec m0 ops (SInv.init (G := G) m0) fuel (by omega)
  simp only [List.nil_append] at hi
  have hmask : ∀ x, st.mask x = true ↔ st.parent x = x ∧
      (m0 x = true ∨ ∃ y, y ≠ x ∧ Connected (pairsOf (requestsOf ops)) y x) := by
    intro x
    rw [hi.mask]
    refine and_congr_right fun hx => or_congr_right (exists_congr fun y => and_congr_right fun _ => ?_)
    rw [← hi.uf.conn]
    constructor
    · intro hr; exact ⟨x, hr, .base hx⟩
    · rintro ⟨r, h1, h2⟩; rw [h2.of_fix hx] at h1; exact h1
  refine ⟨st, e, hmask, ?_⟩
  intro a b hab hc
  obtain ⟨r, h1, h2⟩ := (hi.uf.conn a b).mpr hc
  have har := (hi.uf.conn a r).mp ⟨r, h1, .base h1.fix⟩
  refine ⟨r, ⟨(hmask r).mpr ⟨h1.fix, Or.inr ?_⟩, har⟩, ?_⟩
  · by_cases hra : a = r
    · exact ⟨b, by rw [← hra]; exact hab.symm, (hi.uf.conn b r).mp ⟨r, h2, .base h1.fix⟩⟩
    · exact ⟨a, hra, har⟩
  · rintro y ⟨hy, hc'⟩
    obtain ⟨s, h3, h4⟩ := (hi.uf.conn a y).mpr hc'
    rw [← h4.of_fix ((hmask y).mp hy).1, h3.unique h1]

/-- Non-vacuity of C06: three requests, two groups, exactly two marks. -/
example : (runUnionWRoots 10 [(0, 1), (2, 3), (1, 4)] (fun x : ℕ => x, fun x => x == 6)).map
    (fun st => (List.range 7).filter st.2) = some [3, 4, 6] := by decide

end C06
end BaderKit
