import Verif.Lemmas.GramMerge
/-! # The cycles found for a solid span the translations of each group -/
set_option linter.unusedSectionVars false
namespace BaderKit
variable {K : Type} [Field K] [LinearOrder K] [IsStrictOrderedRing K]

/-! ## Lists indexed by roots -/

theorem searchRoot_get : ∀ {R : List ℕ} (_ : R.Pairwise (· < ·)) (i : ℕ) (hi : i < R.length), searchRoot R R[i] = i := by
  intro R
  induction R with
  | nil => intro _ i hi; simp at hi
  | cons a l ih =>
    intro hp i hi
    cases i with
    | zero =>
      simp only [List.getElem_cons_zero, searchRoot]
      rw [List.length_eq_zero_iff, List.filter_eq_nil_iff]
      intro x hx
      rcases List.mem_cons.mp hx with rfl | hx
      · simp
      · have := List.rel_of_pairwise_cons hp hx
        simp; omega
    | succ i =>
      have hi' : i < l.length := by simpa using hi
      simp only [List.getElem_cons_succ, searchRoot]
      have ha : a < l[i] := List.rel_of_pairwise_cons hp (List.getElem_mem _)
      have := ih hp.of_cons i hi'
      simp only [searchRoot] at this
      rw [List.filter_cons_of_pos (by simpa using ha), List.length_cons, this]

theorem searchRoot_spec {R : List ℕ} (hp : R.Pairwise (· < ·)) {r : ℕ} (hr : r ∈ R) :
    ∃ h : searchRoot R r < R.length, R[searchRoot R r] = r := by
  obtain ⟨i, hi, rfl⟩ := List.getElem_of_mem hr
  have := searchRoot_get hp i hi
  refine ⟨by rw [this]; exact hi, ?_⟩
  simp only [this]

theorem searchRoot_inj {R : List ℕ} (hp : R.Pairwise (· < ·)) {r r' : ℕ} (hr : r ∈ R) (hr' : r' ∈ R)
    (h : searchRoot R r = searchRoot R r') : r = r' := by
  obtain ⟨h1, e1⟩ := searchRoot_spec hp hr
  obtain ⟨h2, e2⟩ := searchRoot_spec hp hr'
  rw [← e1, ← e2]
  simp only [h]

/-- The entry of the root `r`. -/
def cycOf (R : List ℕ) (cs : List (List (V3 K))) (r : ℕ) : List (V3 K) := (cs[searchRoot R r]?).getD []

theorem cycOf_some {R : List ℕ} (hp : R.Pairwise (· < ·)) {cs : List (List (V3 K))} (hl : cs.length = R.length) {r : ℕ}
    (hr : r ∈ R) : cs[searchRoot R r]? = some (cycOf R cs r) := by
  obtain ⟨h1, _⟩ := searchRoot_spec hp hr
  unfold cycOf
  rw [List.getElem?_eq_getElem (by omega)]
  rfl

theorem cycOf_set {R : List ℕ} (hp : R.Pairwise (· < ·)) {cs : List (List (V3 K))} (hl : cs.length = R.length) {r r' : ℕ}
    (hr : r ∈ R) (hr' : r' ∈ R) (c : List (V3 K)) :
    cycOf R (cs.set (searchRoot R r) c) r' = if r' = r then c else cycOf R cs r' := by
  obtain ⟨h1, _⟩ := searchRoot_spec hp hr
  unfold cycOf
  rw [List.getElem?_set]
  by_cases h : r' = r
  · subst h
    rw [if_pos rfl, if_pos rfl, if_pos (by omega)]
    rfl
  · rw [if_neg h, if_neg (fun e => h (searchRoot_inj hp hr' hr e.symm))]

theorem zip_cycOf {R : List ℕ} (hp : R.Pairwise (· < ·)) {cs : List (List (V3 K))} (hl : cs.length = R.length) :
    R.zip cs = R.map fun r => (r, cycOf R cs r) := by
  apply List.ext_getElem
  · simp [hl]
  · intro i h1 h2
    have hi : i < R.length := by simpa using h2
    rw [List.getElem_zip, List.getElem_map]
    have : cycOf R cs R[i] = cs[i]'(by omega) := by
      unfold cycOf
      rw [searchRoot_get hp i hi, List.getElem?_eq_getElem (by omega)]
      rfl
    rw [this]

theorem rootsOf_sorted (N : ℕ) (mask : ℕ → Bool) : (rootsOf N mask).Pairwise (· < ·) :=
  List.Pairwise.filter _ List.pairwise_lt_range

theorem mem_rootsOf {N : ℕ} {mask : ℕ → Bool} {r : ℕ} : r ∈ rootsOf N mask ↔ r < N ∧ mask r = true := by
  simp [rootsOf]

theorem carry_spec (fuel : ℕ) (p : ℕ → ℕ) {R : List ℕ} (hp : R.Pairwise (· < ·)) (rt : ℕ → ℕ) :
    ∀ (P : List (ℕ × List (V3 K))) (acc : List (List (V3 K))), acc.length = R.length →
    (∀ q ∈ P, findRootNC fuel p q.1 = some (rt q.1) ∧ rt q.1 ∈ R) →
    ∃ acc', carryCycles fuel p R P acc = some acc' ∧ acc'.length = R.length ∧
      ∀ r ∈ R, cycOf R acc' r = cycOf R acc r ++ (P.filter fun q => decide (rt q.1 = r)).flatMap Prod.snd := by
  intro P
  induction P with
  | nil => intro acc hl _; exact ⟨acc, rfl, hl, by simp⟩
  | cons q P ih =>
    intro acc hl hq
    obtain ⟨r0, c⟩ := q
    obtain ⟨h1, h2⟩ := hq (r0, c) (by simp)
    simp only at h1 h2
    unfold carryCycles
    by_cases hc : c.isEmpty = true
    · rw [if_pos hc]
      obtain ⟨acc', e, hl', h'⟩ := ih acc hl (fun q hq' => hq q (by simp [hq']))
      refine ⟨acc', e, hl', fun r hr => ?_⟩
      rw [h' r hr]
      have hc' : c = [] := by simpa using hc
      subst hc'
      by_cases hr0 : rt r0 = r
      · rw [List.filter_cons_of_pos (by simpa using hr0)]; simp
      · rw [List.filter_cons_of_neg (by simpa using hr0)]
    · rw [if_neg hc, h1]
      have hs := cycOf_some hp hl h2
      simp only [Option.bind_eq_bind, Option.bind_some, modifyAt, hs]
      obtain ⟨acc', e, hl', h'⟩ := ih (acc.set (searchRoot R (rt r0)) (cycOf R acc (rt r0) ++ c)) (by simpa using hl)
        (fun q hq' => hq q (by simp [hq']))
      refine ⟨acc', e, hl', fun r hr => ?_⟩
      rw [h' r hr, cycOf_set hp hl h2 hr]
      by_cases hr0 : rt r0 = r
      · rw [if_pos hr0.symm, List.filter_cons_of_pos (by simpa using hr0), hr0]; simp
      · rw [if_neg (fun e => hr0 e.symm), List.filter_cons_of_neg (by simpa using hr0)]

theorem flatMap_single {β : Type*} (P : List (ℕ × List β)) (hnd : (P.map Prod.fst).Nodup)
    (h : ∀ q ∈ P, ∀ q' ∈ P, q.2 ≠ [] → q'.2 ≠ [] → q.1 = q'.1) :
    P.flatMap Prod.snd = [] ∨ ∃ q ∈ P, P.flatMap Prod.snd = q.2 := by
  induction P with
  | nil => left; rfl
  | cons q P ih =>
    simp only [List.map_cons, List.nodup_cons] at hnd
    rw [List.flatMap_cons]
    by_cases hq : q.2 = []
    · rcases ih hnd.2 (fun a ha b hb => h a (by simp [ha]) b (by simp [hb])) with e | ⟨a, ha, e⟩
      · left; rw [hq, e]; rfl
      · right; exact ⟨a, by simp [ha], by rw [hq, e]; rfl⟩
    · right
      refine ⟨q, by simp, ?_⟩
      have : P.flatMap Prod.snd = [] := by
        rw [List.flatMap_eq_nil_iff]
        intro a ha
        by_contra hne
        have := h q (by simp) a (by simp [ha]) hq hne
        exact hnd.1 (by rw [this]; exact List.mem_map_of_mem ha)
      rw [this, List.append_nil]

theorem mem_flatMap_length {β : Type*} {P : List (ℕ × List β)} {q : ℕ × List β} (h : q ∈ P) :
    q.2.length ≤ (P.flatMap Prod.snd).length := by
  induction P with
  | nil => simp at h
  | cons a P ih =>
    rw [List.flatMap_cons, List.length_append]
    rcases List.mem_cons.mp h with rfl | h
    · omega
    · have := ih h; omega

/-- The vector is in the span, or the list has three or more members. -/
def Covers (C : List (V3 K)) (x : V3 K) : Prop := x ∈ Submodule.span K {y | y ∈ C} ∨ 3 ≤ C.length

/-- A list that spans more and is not shorter. -/
def Grows (C C' : List (V3 K)) : Prop :=
  Submodule.span K {y | y ∈ C} ≤ Submodule.span K {y | y ∈ C'} ∧ C.length ≤ C'.length

theorem Grows.refl (C : List (V3 K)) : Grows C C := ⟨le_refl _, le_refl _⟩
theorem Grows.trans {A B C : List (V3 K)} (h : Grows A B) (h' : Grows B C) : Grows A C :=
  ⟨h.1.trans h'.1, h.2.trans h'.2⟩
theorem Covers.grow {C C' : List (V3 K)} {x : V3 K} (h : Covers C x) (hg : Grows C C') : Covers C' x :=
  h.imp (fun h => hg.1 h) (fun h => h.trans hg.2)
theorem Covers.zero (C : List (V3 K)) : Covers C 0 := Or.inl (Submodule.zero_mem _)
theorem Covers.neg {C : List (V3 K)} {x : V3 K} (h : Covers C x) : Covers C (-x) :=
  h.imp (fun h => Submodule.neg_mem _ h) id
theorem Covers.add {C : List (V3 K)} {x y : V3 K} (h : Covers C x) (h' : Covers C y) : Covers C (x + y) := by
  rcases h with h | h
  · rcases h' with h' | h'
    · exact Or.inl (Submodule.add_mem _ h h')
    · exact Or.inr h'
  · exact Or.inr h

/-! ## Scanning -/

/-- The arrays differ from `st1` by path compression only. -/
structure SameUF (m0 : ℕ → Bool) (l : List (ℕ × ℕ × Coord)) (D : ℕ) (st1 st : ShiftUF ℕ Coord) : Prop where
  sinv : SInv m0 l D st
  mask : st.mask = st1.mask
  roots : ∀ x r c, (∃ n, RootC st.parent st.off n x r c) ↔ ∃ n, RootC st1.parent st1.off n x r c

theorem SameUF.find {m0 : ℕ → Bool} {l : List (ℕ × ℕ × Coord)} {D : ℕ} {st1 st : ShiftUF ℕ Coord}
    (h : SameUF m0 l D st1 st) (x fuel : ℕ) (hf : D < fuel) :
    ∃ p' o' r c, findRootShift fuel st.parent st.off x = some (p', o', r, c) ∧
      (∃ n, RootC st1.parent st1.off n x r c) ∧ SameUF m0 l D st1 { st with parent := p', off := o' } := by
  obtain ⟨p2, o2, r, c, e, hC, hr, hi⟩ := h.sinv.find x fuel hf
  refine ⟨p2, o2, r, c, e, (h.roots x r c).mp ⟨_, hr⟩, hi, h.mask, fun y r' c' => ?_⟩
  rw [← h.roots]
  exact hC.rootC_iff h.sinv.uf

section scan
variable {s : Shape} {nbrs : List Coord} {S : ℕ → Bool} {l : List (ℕ × ℕ × Coord)} {m0 : ℕ → Bool} {D : ℕ}
  {st1 : ShiftUF ℕ Coord} {b : Prop}

/-- Root and offset of a voxel. -/
def HasRoot (st : ShiftUF ℕ Coord) (x r : ℕ) (c : Coord) : Prop := ∃ n, RootC st.parent st.off n x r c

theorem HasRoot.unique {st : ShiftUF ℕ Coord} {x r r' : ℕ} {c c' : Coord} (h : HasRoot st x r c) (h' : HasRoot st x r' c') :
    r = r' ∧ c = c' := by
  obtain ⟨n, h⟩ := h
  obtain ⟨m, h'⟩ := h'
  exact h.unique h'

theorem UInv.hasRoot (h : UInv s nbrs S l m0 D st1) (x : ℕ) : ∃ r c, HasRoot st1 x r c := by
  obtain ⟨r, hr⟩ := h.sinv.uf.total x
  obtain ⟨c, hc⟩ := hr.rootC st1.off
  exact ⟨r, c, _, hc⟩

theorem HasRoot.rootOf {st : ShiftUF ℕ Coord} {x r : ℕ} {c : Coord} (h : HasRoot st x r c) : RootOf st.parent x r := by
  obtain ⟨n, h⟩ := h; exact h.rootIn.rootOf

open Classical in
/-- The cycle closed by an edge is a translation of the group and is bounded. -/
theorem UInv.cycle (h : UInv s nbrs S l m0 D st1) (hn : NbrsOk nbrs) {v w r : ℕ} {t o o1 : Coord}
    (he : VoxEdge s nbrs S v w t) (h1 : HasRoot st1 v r o) (h2 : HasRoot st1 w r o1) :
    ShiftPath (VoxEdge s nbrs S) r r (o - o1 - t) ∧ maxAbs (o - o1 - t) ≤ s.size := by
  obtain ⟨n, h1⟩ := h1
  obtain ⟨m, h2⟩ := h2
  have hsym : ∀ x y t, VoxEdge s nbrs S x y t → VoxEdge s nbrs S y x (-t) := fun _ _ _ h => h.symm hn
  constructor
  · have p1 := (h.tree _ _ _ _ h1).symm hsym
    have p2 := (p1.trans (ShiftPath.single he)).trans (h.tree _ _ _ _ h2)
    have p3 := p2.symm hsym
    convert p3 using 1
    abel
  · have hd := h.diam _ _ v w r o o1 (Finset.mem_range.mpr he.1) (Finset.mem_range.mpr (he.lt hn)) h1 h2
    have hc := hd.trans ((Finset.card_filter_le (Finset.range s.size) _).trans_eq (Finset.card_range s.size))
    have hu := maxAbs_unit (he.unit hn)
    have ha := maxAbs_norm.add (o - o1) (-t)
    rw [maxAbs_norm.neg, ← sub_eq_add_neg] at ha
    omega

/-- A basis whose generators are translations of the group of `r`. -/
def GoodBasis (b : Prop) (s : Shape) (nbrs : List Coord) (S : ℕ → Bool) (r : ℕ) (C : List (V3 K)) : Prop :=
  ∃ gens, WGram b s.size C gens ∧ ∀ g ∈ gens, ShiftPath (VoxEdge s nbrs S) r r g

theorem scanNbrs_spec (h : UInv s nbrs S l m0 D st1) (hn : NbrsOk nbrs) {root : K → K} (hr : IsRoot root) {tol : K}
    (h0 : 0 ≤ tol) (ht : tol * (3 * (s.size : K) ^ 2) < 1) (fuel : ℕ) (hf : D < fuel) {v ra : ℕ} {o : Coord}
    (hv : v < s.size) (hS : S v = true) (hra : HasRoot st1 v ra o) :
    ∀ (ds : List Coord), (∀ d ∈ ds, d ∈ nbrs) → ∀ (st : ShiftUF ℕ Coord) (C : List (V3 K)),
    SameUF m0 l D st1 st → GoodBasis b s nbrs S ra C →
    ∃ st' C', scanNbrs fuel root tol s S v ra o ds (st, C) = some (st', C') ∧ SameUF m0 l D st1 st' ∧
      GoodBasis b s nbrs S ra C' ∧ Grows C C' ∧
      ∀ d ∈ ds, S (nbrShift s v d).1 = true → ∀ o1, HasRoot st1 (nbrShift s v d).1 ra o1 →
        Covers C' (castC K (o - o1 - (nbrShift s v d).2)) := by
  intro ds
  induction ds with
  | nil => intro _ st C h1 h2; exact ⟨st, C, rfl, h1, h2, Grows.refl _, by simp⟩
  | cons d ds ih =>
    intro hds st C h1 h2
    have hds' : ∀ d ∈ ds, d ∈ nbrs := fun x hx => hds x (by simp [hx])
    unfold scanNbrs
    by_cases hsol : S (nbrShift s v d).1 = true
    · simp only [hsol, Bool.not_true, Bool.false_eq_true, if_false]
      obtain ⟨p', o', rb, o1, e, hrb, hsame⟩ := h1.find (nbrShift s v d).1 fuel hf
      rw [e]
      simp only [Option.bind_eq_bind, Option.bind_some]
      have hE : VoxEdge s nbrs S v (nbrShift s v d).1 (nbrShift s v d).2 := ⟨hv, hS, hsol, d, hds d (by simp), rfl⟩
      by_cases hab : ra = rb
      · rw [if_neg (by simpa using hab)]
        subst hab
        obtain ⟨c1, c2⟩ := h.cycle hn hE hra hrb
        obtain ⟨gens, hg, hgp⟩ := h2
        obtain ⟨gens', hg', hor, hmem, hle, hlen⟩ := hg.add hr h0 ht _ c2
        have hgood : GoodBasis b s nbrs S ra (addCycle root tol C (o - o1 - (nbrShift s v d).2)) := by
          refine ⟨gens', hg', ?_⟩
          rcases hor with rfl | rfl
          · exact hgp
          · intro g hg
            rcases List.mem_append.mp hg with hg | hg
            · exact hgp g hg
            · simp only [List.mem_singleton] at hg
              rw [hg]; exact c1
        obtain ⟨st', C', e', q1, q2, q3, q4⟩ := ih hds' _ _ hsame hgood
        refine ⟨st', C', e', q1, q2, Grows.trans ⟨hle, hlen⟩ q3, ?_⟩
        intro d' hd' hs' o2 ho2
        rcases List.mem_cons.mp hd' with rfl | hd'
        · obtain ⟨_, rfl⟩ := HasRoot.unique hrb ho2
          exact Covers.grow (Or.inl hmem) q3
        · exact q4 d' hd' hs' o2 ho2
      · rw [if_pos hab]
        obtain ⟨st', C', e', q1, q2, q3, q4⟩ := ih hds' _ _ hsame h2
        refine ⟨st', C', e', q1, q2, q3, ?_⟩
        intro d' hd' hs' o2 ho2
        rcases List.mem_cons.mp hd' with rfl | hd'
        · exact absurd (HasRoot.unique hrb ho2).1.symm hab
        · exact q4 d' hd' hs' o2 ho2
    · have hsol' : S (nbrShift s v d).1 = false := by simpa using hsol
      simp only [hsol', Bool.not_false, if_true]
      obtain ⟨st', C', e', q1, q2, q3, q4⟩ := ih hds' st C h1 h2
      refine ⟨st', C', e', q1, q2, q3, ?_⟩
      intro d' hd' hs' o2 ho2
      rcases List.mem_cons.mp hd' with rfl | hd'
      · exact absurd hs' hsol
      · exact q4 d' hd' hs' o2 ho2

/-- The invariant of the search for cycles: `dn` are the voxels visited, `cs0` the cycles at the start. -/
structure ScanInv (b : Prop) (s : Shape) (nbrs : List Coord) (S S' : ℕ → Bool) (l : List (ℕ × ℕ × Coord)) (m0 : ℕ → Bool) (D : ℕ)
    (st1 : ShiftUF ℕ Coord) (R : List ℕ) (cs0 : List (List (V3 K))) (dn : List ℕ)
    (x : ShiftUF ℕ Coord × List (List (V3 K))) : Prop where
  uf : SameUF m0 l D st1 x.1
  len : x.2.length = R.length
  good : ∀ r ∈ R, GoodBasis b s nbrs S' r (cycOf R x.2 r)
  base : ∀ r ∈ R, Grows (cycOf R cs0 r) (cycOf R x.2 r)
  done : ∀ v ∈ dn, S' v = true → S v = false → ∀ w t, VoxEdge s nbrs S' v w t → ∀ r o o1,
    HasRoot st1 v r o → HasRoot st1 w r o1 → Covers (cycOf R x.2 r) (castC K (o - o1 - t))

theorem ScanInv.step {S' vac : ℕ → Bool} (h : UInv s nbrs S' l m0 D st1) (hn : NbrsOk nbrs)
    (hs : 2 ≤ s.nx ∧ 2 ≤ s.ny ∧ 2 ≤ s.nz) (hvac : ∀ v, S' v = true → vac v = false)
    {root : K → K} (hr : IsRoot root) {tol : K}
    (h0 : 0 ≤ tol) (ht : tol * (3 * (s.size : K) ^ 2) < 1) (fuel : ℕ) (hf : D < fuel) {cs0 : List (List (V3 K))}
    {dn : List ℕ} {x : ShiftUF ℕ Coord × List (List (V3 K))}
    (hi : ScanInv b s nbrs S S' l m0 D st1 (rootsOf s.size st1.mask) cs0 dn x) (v : ℕ) (hv : v < s.size) :
    ∃ x', scanVoxel fuel root tol s nbrs S' S vac (rootsOf s.size st1.mask) x v = some x' ∧
      ScanInv b s nbrs S S' l m0 D st1 (rootsOf s.size st1.mask) cs0 (dn ++ [v]) x' := by
  set R := rootsOf s.size st1.mask with hR
  have hp : R.Pairwise (· < ·) := rootsOf_sorted _ _
  unfold scanVoxel
  by_cases hsk : skipVoxel S' S vac v = true
  · rw [if_pos hsk]
    refine ⟨x, rfl, hi.uf, hi.len, hi.good, hi.base, ?_⟩
    intro y hy h1 h2
    rcases List.mem_append.mp hy with hy | hy
    · exact hi.done y hy h1 h2
    · simp only [List.mem_singleton] at hy
      subst hy
      simp [skipVoxel, h1, h2, hvac y h1] at hsk
  · rw [if_neg hsk]
    have hS' : S' v = true := by
      by_contra hc
      simp [skipVoxel, hc] at hsk
    obtain ⟨p', o', ra, o, e, hra, hsame⟩ := hi.uf.find v fuel hf
    have hraR : ra ∈ R := by
      have := h.marked hn hs hv hS' (HasRoot.rootOf hra)
      exact mem_rootsOf.mpr this
    rw [e]
    simp only [Option.bind_eq_bind, Option.bind_some, cycOf_some hp hi.len hraR]
    by_cases h3 : (cycOf R x.2 ra).length = 3
    · rw [if_pos h3]
      refine ⟨_, rfl, hsame, hi.len, hi.good, hi.base, ?_⟩
      intro y hy h1 h2 w t he r o2 o3 hr2 hr3
      rcases List.mem_append.mp hy with hy | hy
      · exact hi.done y hy h1 h2 w t he r o2 o3 hr2 hr3
      · simp only [List.mem_singleton] at hy
        subst hy
        obtain ⟨rfl, rfl⟩ := HasRoot.unique hra hr2
        exact Or.inr h3.ge
    · rw [if_neg h3]
      obtain ⟨st', C', e', q1, q2, q3, q4⟩ := scanNbrs_spec h hn hr h0 ht fuel hf hv hS' hra nbrs (fun d hd => hd) _ _
        hsame (hi.good ra hraR)
      rw [e']
      simp only [Option.bind_some]
      have hcs : ∀ r ∈ R, cycOf R (x.2.set (searchRoot R ra) C') r = if r = ra then C' else cycOf R x.2 r :=
        fun r hr => cycOf_set hp hi.len hraR hr C'
      have hmono : ∀ r ∈ R, Grows (cycOf R x.2 r) (cycOf R (x.2.set (searchRoot R ra) C') r) := by
        intro r hr
        rw [hcs r hr]
        by_cases hrr : r = ra
        · subst hrr; rw [if_pos rfl]; exact q3
        · rw [if_neg hrr]; exact Grows.refl _
      refine ⟨_, rfl, q1, by simpa using hi.len, ?_, fun r hr => (hi.base r hr).trans (hmono r hr), ?_⟩
      · intro r hr
        simp only
        rw [hcs r hr]
        by_cases hrr : r = ra
        · subst hrr; rw [if_pos rfl]; exact q2
        · rw [if_neg hrr]; exact hi.good r hr
      · intro y hy h1 h2 w t he r o2 o3 hr2 hr3
        have hrR : r ∈ R := mem_rootsOf.mpr (h.marked hn hs he.1 he.2.1 hr2.rootOf)
        rcases List.mem_append.mp hy with hy | hy
        · exact (hi.done y hy h1 h2 w t he r o2 o3 hr2 hr3).grow (hmono r hrR)
        · simp only [List.mem_singleton] at hy
          subst hy
          obtain ⟨rfl, rfl⟩ := HasRoot.unique hra hr2
          simp only
          rw [hcs ra hraR, if_pos rfl]
          obtain ⟨_, _, h5, d, hd, e5⟩ := he
          have := q4 d hd (by rw [e5]; exact h5) o3 (by rw [e5]; exact hr3)
          rwa [e5] at this

theorem ScanInv.run {S' vac : ℕ → Bool} (h : UInv s nbrs S' l m0 D st1) (hn : NbrsOk nbrs)
    (hs : 2 ≤ s.nx ∧ 2 ≤ s.ny ∧ 2 ≤ s.nz) (hvac : ∀ v, S' v = true → vac v = false)
    {root : K → K} (hr : IsRoot root) {tol : K}
    (h0 : 0 ≤ tol) (ht : tol * (3 * (s.size : K) ^ 2) < 1) (fuel : ℕ) (hf : D < fuel) {cs0 : List (List (V3 K))}
    (vs : List ℕ) (hvs : ∀ v ∈ vs, v < s.size) : ∀ {dn : List ℕ} {x : ShiftUF ℕ Coord × List (List (V3 K))},
    ScanInv b s nbrs S S' l m0 D st1 (rootsOf s.size st1.mask) cs0 dn x →
    ∃ x', vs.foldlM (scanVoxel fuel root tol s nbrs S' S vac (rootsOf s.size st1.mask)) x = some x' ∧
      ScanInv b s nbrs S S' l m0 D st1 (rootsOf s.size st1.mask) cs0 (dn ++ vs) x' := by
  induction vs with
  | nil => intro dn x hi; exact ⟨x, rfl, by simpa using hi⟩
  | cons v vs ih =>
    intro dn x hi
    obtain ⟨x1, e1, h1⟩ := ScanInv.step h hn hs hvac hr h0 ht fuel hf hi v (hvs v (by simp))
    obtain ⟨x2, e2, h2⟩ := ih (fun y hy => hvs y (by simp [hy])) h1
    exact ⟨x2, by rw [List.foldlM_cons, e1]; exact e2, by simpa using h2⟩

/-- What holds of all data after a call. -/
structure CycInv (b : Prop) (s : Shape) (nbrs : List Coord) (S : ℕ → Bool) (l : List (ℕ × ℕ × Coord)) (m0 : ℕ → Bool) (D : ℕ)
    (g : GroupState K) : Prop where
  uf : UInv s nbrs S l m0 D g.uf
  roots : g.roots = rootsOf s.size g.uf.mask
  len : g.cycles.length = g.roots.length
  good : ∀ r ∈ g.roots, GoodBasis b s nbrs S r (cycOf g.roots g.cycles r)
  full : ∀ r ∈ g.roots, ∀ t, ShiftPath (VoxEdge s nbrs S) r r t →
    Covers (cycOf g.roots g.cycles r) (castC K t)

theorem CycInv.init (hn : NbrsOk nbrs) : CycInv b s nbrs (fun _ => false) [] (fun _ => false) 0 (GroupState.init : GroupState K) := by
  refine ⟨UInv.init s nbrs hn, ?_, rfl, ?_, ?_⟩
  · simp [GroupState.init, rootsOf, ShiftUF.init]
  · intro r hr; simp [GroupState.init] at hr
  · intro r hr; simp [GroupState.init] at hr

theorem goodBasis_nil (r : ℕ) : GoodBasis b s nbrs S r ([] : List (V3 K)) :=
  ⟨[], ⟨[], ⟨⟨List.Pairwise.nil, by simp⟩, by simp, rfl, by simp⟩, rfl, le_refl _, fun _ => rfl⟩, by simp⟩

theorem GoodBasis.append {root : K → K} (hr : IsRoot root) {r : ℕ} {C1 C2 : List (V3 K)} (h1 : GoodBasis b s nbrs S r C1)
    (h2 : GoodBasis b s nbrs S r C2) (hb : ¬ b) : GoodBasis b s nbrs S r (C1 ++ C2) := by
  obtain ⟨g1, a1, a2⟩ := h1
  obtain ⟨g2, b1, b2⟩ := h2
  obtain ⟨g, k1, k2⟩ := a1.append hr b1 hb
  exact ⟨g, k1, fun x hx => (k2 x hx).elim (a2 x) (b2 x)⟩

theorem goodBasis_flatMap {root : K → K} (hr : IsRoot root) {r : ℕ} (hb : ¬ b) (P : List (ℕ × List (V3 K)))
    (h : ∀ q ∈ P, GoodBasis b s nbrs S r q.2) : GoodBasis b s nbrs S r (P.flatMap Prod.snd) := by
  induction P with
  | nil => exact goodBasis_nil r
  | cons q P ih =>
    rw [List.flatMap_cons]
    exact (h q (by simp)).append hr (ih fun q hq => h q (by simp [hq])) hb

theorem GoodBasis.nontrivial {r : ℕ} {C : List (V3 K)} (h : GoodBasis b s nbrs S r C) (hb : b) (hC : C ≠ []) :
    ∃ t, t ≠ 0 ∧ ShiftPath (VoxEdge s nbrs S) r r t := by
  by_contra hc
  push Not at hc
  obtain ⟨gens, ⟨C', hg, _, _, hCC⟩, hp⟩ := h
  have := hCC hb
  subst this
  have hz : ∀ g ∈ gens, g = 0 := by
    intro g hg
    by_contra h0
    exact hc g h0 (hp g hg)
  obtain ⟨q, hq⟩ := List.exists_mem_of_ne_nil C hC
  have h1 : q ∈ Submodule.span K {x | x ∈ C} := Submodule.subset_span hq
  rw [hg.span] at h1
  have h2 : Submodule.span K {x | x ∈ gens.map (castC K)} = ⊥ := by
    rw [Submodule.span_eq_bot]
    intro x hx
    obtain ⟨g, hg, rfl⟩ := List.mem_map.mp hx
    rw [hz g hg, castC_zero]
  rw [h2] at h1
  have h3 := hg.orth.2 q hq
  rw [(Submodule.mem_bot K).mp h1] at h3
  simp [norm2] at h3

/-- No two groups with periodic cycles are joined in the step. -/
def NoMerge (s : Shape) (nbrs : List Coord) (S S' : ℕ → Bool) : Prop :=
  ∀ v w, v < s.size → w < s.size → S v = true → S w = true → (∃ t, ConnTo s nbrs S' v w t) →
    ¬ (∃ t, ConnTo s nbrs S v w t) → (∀ t, ConnTo s nbrs S v v t → t = 0) ∨ (∀ t, ConnTo s nbrs S w w t → t = 0)

theorem path_conj {E : ℕ → ℕ → Coord → Prop} (hE : ∀ x y t, E x y t → E y x (-t)) {x y : ℕ} {c t : Coord}
    (h : ShiftPath E x y c) (ht : ShiftPath E x x t) : ShiftPath E y y t := by
  have := ((h.symm hE).trans ht).trans h
  convert this using 1
  abel

/-- One call. -/
theorem CycInv.step {S' vac : ℕ → Bool} {g : GroupState K} (hi : CycInv b s nbrs S l m0 D g) (hn : NbrsOk nbrs)
    (hs : 2 ≤ s.nx ∧ 2 ≤ s.ny ∧ 2 ≤ s.nz) (hvac : ∀ v, S' v = true → vac v = false)
    (hsub : ∀ v, S v = true → S' v = true) (hno : b → NoMerge s nbrs S S')
    {root : K → K} (hr : IsRoot root) {tol : K} (h0 : 0 ≤ tol) (ht : tol * (3 * (s.size : K) ^ 2) < 1) (fuel : ℕ)
    (hf : D + s.size * nbrs.length < fuel) :
    ∃ g' l' m0' D', connectedGroups fuel root tol s nbrs S' S vac g = some g' ∧ CycInv b s nbrs S' l' m0' D' g' ∧
      D' ≤ D + s.size * nbrs.length := by
  obtain ⟨st1, l1, m1, D1, e1, hu, hD1, hoff⟩ := hi.uf.grow hn hvac hsub fuel hf
  have hsymS : ∀ x y t, VoxEdge s nbrs S x y t → VoxEdge s nbrs S y x (-t) := fun _ _ _ h => h.symm hn
  have hsym : ∀ x y t, VoxEdge s nbrs S' x y t → VoxEdge s nbrs S' y x (-t) := fun _ _ _ h => h.symm hn
  set R := rootsOf s.size st1.mask with hR
  have hp : R.Pairwise (· < ·) := rootsOf_sorted _ _
  have hp0 : g.roots.Pairwise (· < ·) := by rw [hi.roots]; exact rootsOf_sorted _ _
  have hold : ∀ r ∈ g.roots, r < s.size ∧ S r = true ∧ g.uf.parent r = r := by
    intro r hr
    rw [hi.roots] at hr
    exact hi.uf.of_mark hn (mem_rootsOf.mp hr).2
  choose rt ct hrt using hu.hasRoot
  have hrtR : ∀ r ∈ g.roots, rt r ∈ R := by
    intro r hr
    obtain ⟨q1, q2, _⟩ := hold r hr
    exact mem_rootsOf.mpr (hu.marked hn hs q1 (hsub r q2) (hrt r).rootOf)
  have hzip := zip_cycOf hp0 hi.len
  obtain ⟨acc, e2, hlen, hacc⟩ := carry_spec (K := K) fuel st1.parent hp rt (g.roots.zip g.cycles) (R.map fun _ => [])
    (by simp) (by
      intro q hq
      rw [hzip] at hq
      obtain ⟨r, hr, rfl⟩ := List.mem_map.mp hq
      refine ⟨?_, hrtR r hr⟩
      obtain ⟨r', hr'⟩ := hu.sinv.uf.total r
      have : r' = rt r := hr'.rootOf.unique (hrt r).rootOf
      rw [← this]
      exact findRootNC_of_rootIn hr' fuel (by omega))
  have hcyc0 : ∀ r, cycOf R (R.map fun _ => ([] : List (V3 K))) r = [] := by
    intro r
    unfold cycOf
    cases h : (R.map fun _ => ([] : List (V3 K)))[searchRoot R r]? with
    | none => rfl
    | some c =>
      have := List.mem_of_getElem? h
      obtain ⟨_, _, rfl⟩ := List.mem_map.mp this
      rfl
  -- the carried bases
  have hgood : ∀ r ∈ R, GoodBasis b s nbrs S' r (cycOf R acc r) := by
    intro r hrR
    rw [hacc r hrR, hcyc0, List.nil_append]
    set P := (g.roots.zip g.cycles).filter fun q => decide (rt q.1 = r) with hP
    have hPm : ∀ q ∈ P, ∃ r0 ∈ g.roots, q = (r0, cycOf g.roots g.cycles r0) ∧ rt r0 = r := by
      intro q hq
      obtain ⟨hq1, hq2⟩ := List.mem_filter.mp hq
      rw [hzip] at hq1
      obtain ⟨r0, h1, rfl⟩ := List.mem_map.mp hq1
      exact ⟨r0, h1, rfl, by simpa using hq2⟩
    have hnd : (P.map Prod.fst).Nodup := by
      have h1 : (P.map Prod.fst).Sublist ((g.roots.zip g.cycles).map Prod.fst) := List.Sublist.map _ List.filter_sublist
      refine h1.nodup ?_
      rw [hzip, List.map_map]
      have : (Prod.fst ∘ fun r => (r, cycOf g.roots g.cycles r)) = id := rfl
      rw [this, List.map_id]
      exact hp0.imp (fun h => ne_of_lt h)
    have hPg : ∀ q ∈ P, GoodBasis b s nbrs S' r q.2 := by
      intro q hq
      obtain ⟨r0, h1, rfl, h2⟩ := hPm q hq
      obtain ⟨gens, hg, hgp⟩ := hi.good r0 h1
      refine ⟨gens, hg, fun x hx => ?_⟩
      have hpath := hu.tree _ _ _ _ (hrt r0).choose_spec
      rw [h2] at hpath
      exact path_conj hsym hpath ((hgp x hx).mono (fun e => e.mono hsub))
    by_cases hb : b
    swap
    · exact goodBasis_flatMap hr hb P hPg
    have hone : ∀ q ∈ P, ∀ q' ∈ P, q.2 ≠ [] → q'.2 ≠ [] → q.1 = q'.1 := by
      intro q hq q' hq' hne hne'
      obtain ⟨a, ha, rfl, ha2⟩ := hPm q hq
      obtain ⟨c, hc, rfl, hc2⟩ := hPm q' hq'
      by_contra hab
      simp only at hab hne hne'
      obtain ⟨a1, a2, a3⟩ := hold a ha
      obtain ⟨b1, b2, b3⟩ := hold c hc
      have hS' : ∃ t, ConnTo s nbrs S' a c t := by
        obtain ⟨t, hpt⟩ := hu.root_path hn (v := a) (w := c) ⟨r, by rw [← ha2]; exact (hrt a).rootOf,
          by rw [← hc2]; exact (hrt c).rootOf⟩
        exact ⟨t, (connTo_iff hn a1 b1).mpr hpt⟩
      have hS : ¬ ∃ t, ConnTo s nbrs S a c t := by
        rintro ⟨t, hpt⟩
        obtain ⟨r', h1, h2⟩ := hi.uf.path_root ((connTo_iff hn a1 b1).mp hpt)
        exact hab (by rw [← h1.of_fix a3, ← h2.of_fix b3])
      obtain ⟨t1, n1, p1⟩ := (hi.good a ha).nontrivial hb hne
      obtain ⟨t2, n2, p2⟩ := (hi.good c hc).nontrivial hb hne'
      rcases hno hb a c a1 b1 a2 b2 hS' hS with h | h
      · exact n1 (h t1 ((connTo_iff hn a1 a1).mpr p1))
      · exact n2 (h t2 ((connTo_iff hn b1 b1).mpr p2))
    rcases flatMap_single P hnd hone with e | ⟨q, hq, e⟩
    · rw [e]; exact goodBasis_nil r
    · rw [e]
      exact hPg q hq
  have hs0 : ScanInv b s nbrs S S' l1 m1 D1 st1 R acc [] (st1, acc) :=
    ⟨⟨hu.sinv, rfl, fun _ _ _ => Iff.rfl⟩, hlen, hgood, fun _ _ => Grows.refl _, by simp⟩
  obtain ⟨⟨st2, cs⟩, e3, hx⟩ := ScanInv.run hu hn hs hvac hr h0 ht fuel (by omega) (List.range s.size)
    (fun v hv => List.mem_range.mp hv) hs0
  simp only [List.nil_append] at hx
  have hrtb : ∀ x r c, HasRoot st2 x r c ↔ HasRoot st1 x r c := hx.uf.roots
  refine ⟨⟨st2, R, cs⟩, l1, m1, D1, ?_, ?_, hD1⟩
  · unfold connectedGroups findCycles
    rw [e1]
    simp only [Option.bind_eq_bind, Option.bind_some]
    rw [← hR, e2]
    simp only [Option.bind_some]
    rw [e3]
    rfl
  · have hmask : st2.mask = st1.mask := hx.uf.mask
    have htree : TreeInv (ShiftPath (VoxEdge s nbrs S')) st2 := by
      intro n x r c h
      obtain ⟨m, h⟩ := (hrtb x r c).mp ⟨n, h⟩
      exact hu.tree m x r c h
    have hro : ∀ x r, RootOf st2.parent x r ↔ RootOf st1.parent x r := by
      intro x r
      constructor
      · intro h
        obtain ⟨n, h⟩ := h.rootIn
        obtain ⟨c, h⟩ := h.rootC st2.off
        exact ((hrtb x r c).mp ⟨n, h⟩).rootOf
      · intro h
        obtain ⟨n, h⟩ := h.rootIn
        obtain ⟨c, h⟩ := h.rootC st1.off
        exact ((hrtb x r c).mpr ⟨n, h⟩).rootOf
    have hdiam : DiamInv maxAbs (Finset.range s.size) st2 := by
      intro n m x y r cx cy hx' hy' h1 h2
      obtain ⟨n', h1⟩ := (hrtb x r cx).mp ⟨n, h1⟩
      obtain ⟨m', h2⟩ := (hrtb y r cy).mp ⟨m, h2⟩
      refine (hu.diam n' m' x y r cx cy hx' hy' h1 h2).trans (Finset.card_le_card fun z hz => ?_)
      simp only [Finset.mem_filter] at hz ⊢
      exact ⟨hz.1, (hro z r).mpr hz.2⟩
    refine ⟨⟨hx.uf.sinv, hu.sound, hu.complete, hu.m0_solid, hu.iso, htree, hdiam⟩, by simp only [hmask, hR], hx.len,
      hx.good, ?_⟩
    -- all translations are found
    have key : ∀ {x y t}, ShiftPath (VoxEdge s nbrs S') x y t → ∃ r cx cy, HasRoot st1 x r cx ∧ HasRoot st1 y r cy ∧
        Covers (cycOf R cs r) (castC K (t - (cx - cy))) := by
      intro x y t hpth
      refine ShiftPath.ind (R := fun x y t => ∃ r cx cy, HasRoot st1 x r cx ∧ HasRoot st1 y r cy ∧
        Covers (cycOf R cs r) (castC K (t - (cx - cy)))) ?_ ?_ ?_ hpth
      · intro x
        refine ⟨rt x, ct x, ct x, hrt x, hrt x, ?_⟩
        rw [sub_self, sub_self, castC_zero]
        exact Covers.zero _
      · rintro x y z t u ⟨r, cx, cy, h1, h2, h3⟩ ⟨r', cy', cz, h4, h5, h6⟩
        obtain ⟨rfl, rfl⟩ := h2.unique h4
        refine ⟨r, cx, cz, h1, h5, ?_⟩
        have := h3.add h6
        rw [← castC_add] at this
        convert this using 2
        abel
      · intro x y t he
        obtain ⟨r, h1, h2⟩ := hu.edge_root he
        have e1 : rt x = r := (hrt x).rootOf.unique h1
        have e2 : rt y = r := (hrt y).rootOf.unique h2
        have hx1 : HasRoot st1 x r (ct x) := by rw [← e1]; exact hrt x
        have hy1 : HasRoot st1 y r (ct y) := by rw [← e2]; exact hrt y
        refine ⟨r, ct x, ct y, hx1, hy1, ?_⟩
        by_cases hSx : S x = true
        · by_cases hSy : S y = true
          · -- an edge of the old solid
            have he0 : VoxEdge s nbrs S x y t := ⟨he.1, hSx, hSy, he.2.2.2⟩
            obtain ⟨r0, k1, k2⟩ := hi.uf.edge_root he0
            obtain ⟨n1, k1⟩ := k1.rootIn
            obtain ⟨n2, k2⟩ := k2.rootIn
            obtain ⟨a, k1⟩ := k1.rootC g.uf.off
            obtain ⟨b, k2⟩ := k2.rootC g.uf.off
            obtain ⟨n3, n4, r3, ca, cb, k3, k4, k5⟩ := hoff (x, y, a - b) ⟨_, _, _, _, _, k1, k2, by simp⟩
            simp only at k3 k4 k5
            obtain ⟨_, rfl⟩ := hx1.unique ⟨_, k3⟩
            obtain ⟨_, rfl⟩ := hy1.unique ⟨_, k4⟩
            have hr0 : r0 ∈ g.roots := by
              rw [hi.roots]
              exact mem_rootsOf.mpr (hi.uf.marked hn hs he.1 hSx k1.rootIn.rootOf)
            have hc := (hi.uf.cycle hn he0 ⟨_, k1⟩ ⟨_, k2⟩).1
            have hm := hi.full r0 hr0 _ hc
            -- the root of `r0`
            have hr0r : rt r0 = r := by
              have hp1 := (hi.uf.tree _ _ _ _ k1).mono (E' := VoxEdge s nbrs S') (fun e => e.mono hsub)
              obtain ⟨r', q1, q2⟩ := hu.path_root hp1
              rw [← h1.unique q1] at q2
              exact (hrt r0).rootOf.unique q2
            have hrR : r ∈ R := by rw [← hr0r]; exact hrtR r0 hr0
            have hle : Grows (cycOf g.roots g.cycles r0) (cycOf R cs r) := by
              refine Grows.trans ?_ (hx.base r hrR)
              have hin : (r0, cycOf g.roots g.cycles r0) ∈ (g.roots.zip g.cycles).filter fun q => decide (rt q.1 = r) := by
                refine List.mem_filter.mpr ⟨?_, by simpa using hr0r⟩
                rw [hzip]
                exact List.mem_map.mpr ⟨r0, hr0, rfl⟩
              rw [hacc r hrR, hcyc0, List.nil_append]
              exact ⟨Submodule.span_mono fun z hz => List.mem_flatMap.mpr ⟨_, hin, hz⟩, mem_flatMap_length hin⟩
            have hm := (hm.grow hle).neg
            rw [← castC_neg] at hm
            convert hm using 2
            rw [k5]; abel
          · have := hx.done y (List.mem_range.mpr (he.lt hn)) he.2.2.1 (by simpa using hSy) x (-t) (he.symm hn) r _ _ hy1 hx1
            convert this using 2
            abel
        · have := hx.done x (List.mem_range.mpr he.1) he.2.1 (by simpa using hSx) y t he r _ _ hx1 hy1
          have := this.neg
          rw [← castC_neg] at this
          convert this using 2
          abel
    intro r hrR t hpth
    obtain ⟨r', cx, cy, h1, h2, h3⟩ := key hpth
    obtain ⟨_, rfl⟩ := h1.unique h2
    rw [sub_self, sub_zero] at h3
    have hfix : RootOf st1.parent r r := .base (hu.of_mark hn (mem_rootsOf.mp hrR).2).2.2
    rw [hfix.unique h1.rootOf]
    rw [← hfix.unique h1.rootOf] at h3 ⊢
    exact h3

end scan
end BaderKit
