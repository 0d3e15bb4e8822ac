import Verif.Spec.AtomRows
import Mathlib.Algebra.BigOperators.Group.List.Basic
/-! # The loop of `get_domains_surrounding_atoms` -/
set_option linter.unusedSectionVars false
namespace BaderKit
variable {K : Type} [LinearOrder K]

theorem zipIdx_flatMap_length (d : ℕ) (surr : List (List ℕ)) : ∀ n, ((surr.zipIdx n).flatMap fun x => (x.1.filter fun e => e == d).map fun _ => x.2).length =
    atomCount surr d := by
  induction surr with
  | nil => intro n; rfl
  | cons l ls ih =>
    intro n
    simp only [List.zipIdx_cons, List.flatMap_cons, List.length_append, List.length_map, ih, atomCount, List.map_cons, List.sum_cons]
    rw [List.count_eq_length_filter]

theorem atomsOf_length (surr : List (List ℕ)) (d : ℕ) : (atomsOf surr d).length = atomCount surr d := zipIdx_flatMap_length d surr 0

theorem atomCount_empty {surr : List (List ℕ)} (h : (surr.all fun l => l.isEmpty) = true) (d : ℕ) : atomCount surr d = 0 := by
  unfold atomCount
  rw [List.sum_eq_zero]
  intro n hn
  obtain ⟨l, hl, rfl⟩ := List.mem_map.mp hn
  have := List.all_eq_true.mp h l hl
  simp only [List.isEmpty_iff] at this
  simp [this]

theorem currentDoms_mem {inp : List (DomIn K)} {v : K} {d : ℕ} :
    d ∈ currentDoms inp v ↔ ∃ q, inp[d]? = some q ∧ q.minV ≤ v ∧ v < q.maxV := by
  unfold currentDoms
  rw [List.mem_filter, List.mem_range]
  constructor
  · rintro ⟨h1, h2⟩
    rw [List.getElem?_eq_getElem h1] at h2
    exact ⟨_, List.getElem?_eq_getElem h1, by simpa using h2⟩
  · rintro ⟨q, h1, h2⟩
    refine ⟨(List.getElem?_eq_some_iff.mp h1).1, ?_⟩
    rw [h1]
    simpa using h2

theorem currentDoms_nodup (inp : List (DomIn K)) (v : K) : (currentDoms inp v).Nodup := List.Nodup.filter _ List.nodup_range

/-- The state when for domain `d` the values in `done d` have been treated. -/
structure AInv (inp : List (DomIn K)) (surr : K → List (List ℕ)) (done : ℕ → K → Prop) (map : ℕ → Option ℕ) (rows : List (ARow K)) : Prop where
  mapSome : ∀ d k, map d = some k → ∃ q r, inp[d]? = some q ∧ rows[k]? = some r ∧ r.src = d ∧ r.maxV = q.maxV
  mapIff : ∀ (d : ℕ) (q : DomIn K), inp[d]? = some q → (map d ≠ none ↔ done d q.minV ∧ q.minV < q.maxV)
  part : ∀ r ∈ rows, ARowPart inp r
  pos : ∀ r ∈ rows, r.minV < r.maxV
  born : ∀ r ∈ rows, done r.src r.minV ∧ r.atoms = atomsOf (surr r.minV) r.src
  link : ∀ (k : ℕ) (r : ARow K), rows[k]? = some r → ARowLink inp rows k r
  cover : ∀ (d : ℕ) (q : DomIn K), inp[d]? = some q → done d q.minV → ∀ v, q.minV ≤ v → v < q.maxV → ARowAt rows d v
  count : ∀ r ∈ rows, ∀ v, done r.src v → r.minV ≤ v → v < r.maxV → r.atoms.length = atomCount (surr v) r.src

/-- The rows of a domain do not overlap, so that the last is the only one that goes up to its end. -/
theorem AInv.alone {inp : List (DomIn K)} {surr : K → List (List ℕ)} {done : ℕ → K → Prop} {map : ℕ → Option ℕ} {rows : List (ARow K)}
    (h : AInv inp surr done map rows) {d : ℕ} {q : DomIn K} (hq : inp[d]? = some q) (hd : done d q.minV) {k m : ℕ} {r s : ARow K}
    (hr : rows[k]? = some r) (hs : rows[m]? = some s) (hrd : r.src = d) (hsd : s.src = d) {v : K} (h1 : r.minV ≤ v) (h2 : v < r.maxV)
    (h3 : s.minV ≤ v) (h4 : v < s.maxV) : k = m := by
  obtain ⟨q', hq', -, -, hle, hge, -⟩ := h.part r (List.mem_of_getElem? hr)
  rw [hrd, hq] at hq'
  obtain rfl : q = q' := by simpa using hq'
  obtain ⟨n, _, hn⟩ := h.cover d q hq hd v (hle.trans h1) (h2.trans_le hge)
  exact (hn k ⟨r, hr, hrd, h1, h2⟩).trans (hn m ⟨s, hs, hsd, h3, h4⟩).symm

/-- Nothing happens to a domain that is not current. -/
theorem AInv.advance {inp : List (DomIn K)} {surr : K → List (List ℕ)} {done : ℕ → K → Prop} {map : ℕ → Option ℕ} {rows : List (ARow K)} {v : K}
    (h : AInv inp surr done map rows) : AInv inp surr (fun d w => done d w ∨ (d ∉ currentDoms inp v ∧ w = v)) map rows := by
  have hcur : ∀ (d : ℕ) (q : DomIn K), inp[d]? = some q → d ∉ currentDoms inp v → q.minV ≤ v → q.maxV ≤ v := by
    intro d q hq hd hle
    by_contra hcon
    exact hd (currentDoms_mem.mpr ⟨q, hq, hle, not_le.mp hcon⟩)
  refine ⟨h.mapSome, ?_, h.part, h.pos, fun r hr => ⟨Or.inl (h.born r hr).1, (h.born r hr).2⟩, h.link, ?_, ?_⟩
  · intro d q hq
    rw [h.mapIff d q hq]
    constructor
    · rintro ⟨h1, h2⟩; exact ⟨Or.inl h1, h2⟩
    · rintro ⟨h1 | ⟨h1, h3⟩, h2⟩
      · exact ⟨h1, h2⟩
      · exact absurd (hcur d q hq h1 h3.le) (not_le.mpr (h3 ▸ h2))
  · intro d q hq hd w h1 h2
    rcases hd with hd | ⟨hd, e⟩
    · exact h.cover d q hq hd w h1 h2
    · exact absurd (hcur d q hq hd e.le) (not_le.mpr (e ▸ h1.trans_lt h2))
  · intro r hr w hd h1 h2
    rcases hd with hd | ⟨hd, rfl⟩
    · exact h.count r hr w hd h1 h2
    · obtain ⟨q, hq, -, -, hle, hge, -⟩ := h.part r hr
      exact absurd (hcur _ q hq hd (hle.trans h1)) (not_le.mpr (h2.trans_le hge))

/-- One current domain at the value `v`. `u` is the value before, `None` at the first. -/
theorem appendDom_spec {inp : List (DomIn K)} {surr : K → List (List ℕ)} {values : List K} (hT : DomTree inp)
    (hvals : ∀ r ∈ inp, r.minV ∈ values) {done : ℕ → K → Prop} {v : K} {prev : List (ℕ × List ℕ)} {map : ℕ → Option ℕ} {rows : List (ARow K)}
    {d : ℕ} (h : AInv inp surr done map rows) (hcur : d ∈ currentDoms inp v)
    (hdone : ∀ w, done d w ↔ w ∈ values ∧ w < v) (hall : ∀ e w, w ∈ values → w < v → done e w) (hle : ∀ e w, done e w → w ≤ v)
    (hprev : ∀ q, inp[d]? = some q → q.minV < v → ∃ u, done d u ∧ q.minV ≤ u ∧ (∀ w, done d w → w ≤ u) ∧ (prev.find? fun p => p.1 == d) = some (d, atomsOf (surr u) d)) :
    ∃ map' rows', appendDom inp v prev (map, rows) (d, atomsOf (surr v) d) = some (map', rows') ∧
      AInv inp surr (fun e w => done e w ∨ (e = d ∧ w = v)) map' rows' := by
  obtain ⟨q, hq, hmin, hmax⟩ := currentDoms_mem.mp hcur
  have hlt : ∀ e ∈ rows, e.src = d → e.minV < v := fun e he hed => ((hdone _).mp (hed ▸ (h.born e he).1)).2
  by_cases hst : q.minV = v
  · -- the domain begins
    have hnone : map d = none := by
      by_contra hcon
      have := ((h.mapIff d q hq).mp hcon).1
      rw [hdone] at this
      exact absurd this.2 (by rw [hst]; exact lt_irrefl _)
    have hno : ∀ r ∈ rows, r.src ≠ d := by
      intro r hr hrd
      obtain ⟨q', hq', -, -, hle', -, -⟩ := h.part r hr
      rw [hrd, hq] at hq'
      obtain rfl : q = q' := by simpa using hq'
      exact absurd (hlt r hr hrd) (not_lt.mpr (hst ▸ hle'))
    set map' := Function.update map d (some rows.length) with hmap'
    set new : ARow K := ⟨q.basins, v, q.maxV, q.dim, q.parent.bind map', atomsOf (surr v) d, d⟩ with hnew
    have hstep : appendDom inp v prev (map, rows) (d, atomsOf (surr v) d) = some (map', rows ++ [new]) := by
      unfold appendDom
      simp only [hq, Option.bind_eq_bind, Option.bind_some, hst, if_true]
      rfl
    refine ⟨map', rows ++ [new], hstep, ?_⟩
    have hget : ∀ (k : ℕ) (r : ARow K), rows[k]? = some r → (rows ++ [new])[k]? = some r := by
      intro k r hr
      rw [List.getElem?_append_left (List.getElem?_eq_some_iff.mp hr).1]; exact hr
    have hgetn : (rows ++ [new])[rows.length]? = some new := by simp
    have hcase : ∀ (k : ℕ) (r : ARow K), (rows ++ [new])[k]? = some r → rows[k]? = some r ∨ (k = rows.length ∧ r = new) := by
      intro k r hr
      rcases Nat.lt_trichotomy k rows.length with hk | hk | hk
      · rw [List.getElem?_append_left hk] at hr; exact Or.inl hr
      · subst hk; rw [hgetn] at hr; exact Or.inr ⟨rfl, by simpa using hr.symm⟩
      · rw [List.getElem?_eq_none (by simp; omega)] at hr; cases hr
    refine ⟨?_, ?_, ?_, ?_, ?_, ?_, ?_, ?_⟩
    · intro e k hk
      by_cases he : e = d
      · subst he
        have : k = rows.length := by simpa [hmap'] using hk.symm
        exact ⟨q, new, hq, by rw [this]; exact hgetn, rfl, rfl⟩
      · have hk' : map e = some k := by simpa [hmap', Function.update_of_ne he] using hk
        obtain ⟨q', r, h1, h2, h3⟩ := h.mapSome e k hk'
        exact ⟨q', r, h1, hget k r h2, h3⟩
    · intro e q' hq'
      by_cases he : e = d
      · subst he
        rw [hq] at hq'
        obtain rfl : q = q' := by simpa using hq'
        simp only [hmap', Function.update_self, ne_eq, reduceCtorEq, not_false_eq_true, true_iff]
        exact ⟨Or.inr ⟨trivial, hst⟩, by rw [hst]; exact hmax⟩
      · simp only [hmap', Function.update_of_ne he, he, false_and, or_false]
        exact h.mapIff e q' hq'
    · intro r hr
      rcases List.mem_append.mp hr with hr | hr
      · exact h.part r hr
      · obtain rfl : r = new := by simpa using hr
        exact ⟨q, hq, rfl, rfl, hst.le, le_refl _, Or.inl hmax⟩
    · intro r hr
      rcases List.mem_append.mp hr with hr | hr
      · exact h.pos r hr
      · obtain rfl : r = new := by simpa using hr
        exact hmax
    · intro r hr
      rcases List.mem_append.mp hr with hr | hr
      · exact ⟨Or.inl (h.born r hr).1, (h.born r hr).2⟩
      · obtain rfl : r = new := by simpa using hr
        exact ⟨Or.inr ⟨rfl, rfl⟩, rfl⟩
    · intro k r hr
      rcases hcase k r hr with hr | ⟨rfl, rfl⟩
      · obtain ⟨s, hs, h1, h2⟩ := h.link k r hr
        refine ⟨s, hs, h1, fun p hp => ?_⟩
        obtain ⟨h3, t, ht, h4⟩ := h2 p hp
        exact ⟨h3, t, hget p t ht, h4⟩
      · refine ⟨q, hq, ?_, ?_⟩
        · intro hp
          refine ⟨?_, hst.symm⟩
          by_contra hcon
          obtain ⟨p, hpp⟩ := Option.ne_none_iff_exists'.mp hcon
          obtain ⟨hpd, s, hs, hsm, hslt⟩ := hT d q p hq hpp
          have hne : p ≠ d := by omega
          have hm : map p ≠ none := (h.mapIff p s hs).mpr
            ⟨hall p _ (hvals s (List.mem_of_getElem? hs)) (by rw [← hst, ← hsm]; exact hslt), hslt⟩
          simp [hnew, hpp, hmap', Function.update_of_ne hne] at hp
          exact hm hp
        · intro k hk
          obtain ⟨p, hpp, hpk⟩ := Option.bind_eq_some_iff.mp hk
          obtain ⟨hpd, s, hs, hsm, hslt⟩ := hT d q p hq hpp
          have hne : p ≠ d := by omega
          rw [hmap', Function.update_of_ne hne] at hpk
          obtain ⟨s', r, h1, h2, h3, h4⟩ := h.mapSome p k hpk
          rw [hs] at h1
          obtain rfl : s = s' := by simpa using h1
          refine ⟨(List.getElem?_eq_some_iff.mp h2).1, r, hget k r h2, ?_, Or.inr ⟨?_, hst.symm, s, by rw [h3]; exact hs, h4⟩⟩
          · rw [h4, hsm, hst]
          · rw [hpp, h3]
    · intro e q' hq' hd' w h1 h2
      by_cases he : e = d
      · subst he
        rw [hq] at hq'
        obtain rfl : q = q' := by simpa using hq'
        refine ⟨rows.length, ⟨new, hgetn, rfl, (show v ≤ w from hst ▸ h1), h2⟩, ?_⟩
        rintro m ⟨r, hr, hre, -⟩
        rcases hcase m r hr with hr | ⟨e, _⟩
        · exact absurd hre (hno r (List.mem_of_getElem? hr))
        · exact e
      · have hd'' : done e q'.minV := hd'.resolve_right fun hh => he hh.1
        obtain ⟨k, ⟨r, hr, hk⟩, huniq⟩ := h.cover e q' hq' hd'' w h1 h2
        refine ⟨k, ⟨r, hget k r hr, hk⟩, ?_⟩
        rintro m ⟨s, hs, hse, hs2⟩
        rcases hcase m s hs with hs | ⟨_, rfl⟩
        · exact huniq m ⟨s, hs, hse, hs2⟩
        · exact absurd hse.symm he
    · intro r hr w hd' h1 h2
      rcases List.mem_append.mp hr with hr | hr
      · have hne := hno r hr
        exact h.count r hr w (hd'.resolve_right fun hh => hne hh.1) h1 h2
      · obtain rfl : r = new := by simpa using hr
        have : w = v := by
          rcases hd' with hd' | ⟨_, e⟩
          · exact absurd ((hdone w).mp hd').2 (not_lt.mpr h1)
          · exact e
        rw [this]
        exact atomsOf_length _ _
  · -- the domain began before
    have hlt' : q.minV < v := lt_of_le_of_ne hmin hst
    obtain ⟨u, hu, hqu, humax, hfind⟩ := hprev q hq hlt'
    have huv : u < v := ((hdone u).mp hu).2
    have hqd : done d q.minV := (hdone _).mpr ⟨hvals q (List.mem_of_getElem? hq), hlt'⟩
    have hmd : map d ≠ none := (h.mapIff d q hq).mpr ⟨hqd, hlt'.trans hmax⟩
    obtain ⟨k, hk⟩ := Option.ne_none_iff_exists'.mp hmd
    obtain ⟨q', r, hq', hr, hrd, hrm⟩ := h.mapSome d k hk
    rw [hq] at hq'
    obtain rfl : q = q' := by simpa using hq'
    have hrmem := List.mem_of_getElem? hr
    have hru : r.minV ≤ u := humax _ (hrd ▸ (h.born r hrmem).1)
    have hcnt : r.atoms.length = atomCount (surr u) d := by
      rw [← hrd]
      exact h.count r hrmem u (hrd ▸ hu) hru (by rw [hrm]; exact huv.trans hmax)
    by_cases hch : atomCount (surr u) d = atomCount (surr v) d
    · -- same number of atoms
      have hstep : appendDom inp v prev (map, rows) (d, atomsOf (surr v) d) = some (map, rows) := by
        unfold appendDom
        simp only [hq, Option.bind_eq_bind, Option.bind_some, hst, if_false, hfind]
        rw [if_neg]
        simp only [atomsOf_length]
        exact not_not.mpr hch
      refine ⟨map, rows, hstep, h.mapSome, ?_, h.part, h.pos, fun r hr => ⟨Or.inl (h.born r hr).1, (h.born r hr).2⟩, h.link, ?_, ?_⟩
      · intro e q' hq'
        rw [h.mapIff e q' hq']
        constructor
        · rintro ⟨h1, h2⟩; exact ⟨Or.inl h1, h2⟩
        · rintro ⟨h1 | ⟨h1, h3⟩, h2⟩
          · exact ⟨h1, h2⟩
          · subst h1
            rw [hq] at hq'
            obtain rfl : q = q' := by simpa using hq'
            exact absurd h3 hst
      · intro e q' hq' hd' w h1 h2
        refine h.cover e q' hq' (hd'.resolve_right ?_) w h1 h2
        rintro ⟨h1, h3⟩
        subst h1
        rw [hq] at hq'
        obtain rfl : q = q' := by simpa using hq'
        exact hst h3
      · intro s hs w hd' h1 h2
        rcases hd' with hd' | ⟨e, rfl⟩
        · exact h.count s hs w hd' h1 h2
        · obtain ⟨m, hm⟩ := List.getElem?_of_mem hs
          have := h.alone hq hqd hm hr e hrd h1 h2 (hru.trans huv.le) (by rw [hrm]; exact hmax)
          rw [this, hr] at hm
          obtain rfl : r = s := by simpa using hm
          rw [e, hcnt, hch]
    · -- another number of atoms
      set map' := Function.update map d (some rows.length) with hmap'
      set new : ARow K := ⟨q.basins, v, q.maxV, q.dim, some k, atomsOf (surr v) d, d⟩ with hnew
      set r' : ARow K := { r with maxV := v } with hr'
      have hklt : k < rows.length := (List.getElem?_eq_some_iff.mp hr).1
      set rows' := (rows ++ [new]).modify k (fun q => { q with maxV := v }) with hrows'
      have hstep : appendDom inp v prev (map, rows) (d, atomsOf (surr v) d) = some (map', rows') := by
        unfold appendDom
        simp only [hq, Option.bind_eq_bind, Option.bind_some, hst, if_false, hfind]
        rw [if_pos (by simp only [atomsOf_length]; exact hch)]
        simp only [hk, Option.bind_some]
        rfl
      have hgetk : rows'[k]? = some r' := by
        rw [hrows', List.getElem?_modify, List.getElem?_append_left hklt, hr]; simp [hr']
      have hget : ∀ (m : ℕ) (s : ARow K), m ≠ k → rows[m]? = some s → rows'[m]? = some s := by
        intro m s hm hs
        rw [hrows', List.getElem?_modify, List.getElem?_append_left (List.getElem?_eq_some_iff.mp hs).1, hs]
        simp [Ne.symm hm]
      have hgetn : rows'[rows.length]? = some new := by
        rw [hrows', List.getElem?_modify]
        have : k ≠ rows.length := by omega
        simp [this]
      have hcase : ∀ (m : ℕ) (s : ARow K), rows'[m]? = some s → (m ≠ k ∧ rows[m]? = some s) ∨ (m = k ∧ s = r') ∨ (m = rows.length ∧ s = new) := by
        intro m s hs
        by_cases hmk : m = k
        · subst hmk; rw [hgetk] at hs; exact Or.inr (Or.inl ⟨rfl, by simpa using hs.symm⟩)
        · rcases Nat.lt_trichotomy m rows.length with hm | hm | hm
          · left
            have := hget m _ hmk (List.getElem?_eq_getElem hm)
            rw [this] at hs
            exact ⟨hmk, by rw [List.getElem?_eq_getElem hm]; exact hs⟩
          · subst hm; rw [hgetn] at hs; exact Or.inr (Or.inr ⟨rfl, by simpa using hs.symm⟩)
          · rw [List.getElem?_eq_none (by simp [hrows']; omega)] at hs; cases hs
      have hrpart := h.part r hrmem
      have hrmin : r.minV < v := hru.trans_lt huv
      -- no row hangs on `k` yet
      have hfree : ∀ s ∈ rows, s.parent ≠ some k := by
        intro s hs hp
        obtain ⟨m, hm⟩ := List.getElem?_of_mem hs
        obtain ⟨t, ht, -, hl⟩ := h.link m s hm
        obtain ⟨-, r1, hr1, hmx, hor⟩ := hl k hp
        rw [hr] at hr1
        obtain rfl : r = r1 := by simpa using hr1
        have : s.minV ≤ v := hle _ _ (h.born s hs).1
        rw [← hmx, hrm] at this
        exact absurd hmax (not_lt.mpr this)
      refine ⟨map', rows', hstep, ?_, ?_, ?_, ?_, ?_, ?_, ?_, ?_⟩
      · intro e m hm
        by_cases he : e = d
        · subst he
          have : m = rows.length := by simpa [hmap'] using hm.symm
          exact ⟨q, new, hq, by rw [this]; exact hgetn, rfl, rfl⟩
        · have hm' : map e = some m := by simpa [hmap', Function.update_of_ne he] using hm
          obtain ⟨q', s, h1, h2, h3, h4⟩ := h.mapSome e m hm'
          have hmk : m ≠ k := by
            rintro rfl
            rw [hr] at h2
            obtain rfl : r = s := by simpa using h2
            exact he (h3.symm.trans hrd)
          exact ⟨q', s, h1, hget m s hmk h2, h3, h4⟩
      · intro e q' hq'
        by_cases he : e = d
        · subst he
          rw [hq] at hq'
          obtain rfl : q = q' := by simpa using hq'
          simp only [hmap', Function.update_self, ne_eq, reduceCtorEq, not_false_eq_true, true_iff]
          exact ⟨Or.inl hqd, hlt'.trans hmax⟩
        · simp only [hmap', Function.update_of_ne he, he, false_and, or_false]
          exact h.mapIff e q' hq'
      · intro s hs
        obtain ⟨m, hm⟩ := List.getElem?_of_mem hs
        rcases hcase m s hm with ⟨_, hm⟩ | ⟨_, rfl⟩ | ⟨_, rfl⟩
        · exact h.part s (List.mem_of_getElem? hm)
        · obtain ⟨t, h1, h2, h3, h4, h5, -⟩ := hrpart
          have : t = q := by rw [hrd, hq] at h1; simpa using h1.symm
          subst this
          exact ⟨t, h1, h2, h3, h4, hmax.le, Or.inl hrmin⟩
        · exact ⟨q, hq, rfl, rfl, hmin, le_refl _, Or.inl hmax⟩
      · intro s hs
        obtain ⟨m, hm⟩ := List.getElem?_of_mem hs
        rcases hcase m s hm with ⟨_, hm⟩ | ⟨_, rfl⟩ | ⟨_, rfl⟩
        · exact h.pos s (List.mem_of_getElem? hm)
        · exact hrmin
        · exact hmax
      · intro s hs
        obtain ⟨m, hm⟩ := List.getElem?_of_mem hs
        rcases hcase m s hm with ⟨_, hm⟩ | ⟨_, rfl⟩ | ⟨_, rfl⟩
        · exact ⟨Or.inl (h.born s (List.mem_of_getElem? hm)).1, (h.born s (List.mem_of_getElem? hm)).2⟩
        · exact ⟨Or.inl (h.born r hrmem).1, (h.born r hrmem).2⟩
        · exact ⟨Or.inr ⟨rfl, rfl⟩, rfl⟩
      · -- links
        have hold : ∀ (m : ℕ) (s : ARow K), rows[m]? = some s → ∀ s' : ARow K, s'.src = s.src → s'.parent = s.parent → s'.minV = s.minV →
            s'.atoms = s.atoms → ARowLink inp rows' m s' := by
          intro m s hs s' e1 e2 e3 e4
          obtain ⟨t, ht, h1, h2⟩ := h.link m s hs
          refine ⟨t, by rw [e1]; exact ht, by rw [e2, e3]; exact h1, fun p hp => ?_⟩
          rw [e2] at hp
          obtain ⟨h3, r2, hr2, h4⟩ := h2 p hp
          have hpk : p ≠ k := fun e => hfree s (List.mem_of_getElem? hs) (e ▸ hp)
          rw [e1, e3, e4]
          exact ⟨h3, r2, hget p r2 hpk hr2, h4⟩
        intro m s hs
        rcases hcase m s hs with ⟨_, hm⟩ | ⟨rfl, rfl⟩ | ⟨rfl, rfl⟩
        · exact hold m s hm s rfl rfl rfl rfl
        · exact hold m r hr r' rfl rfl rfl rfl
        · refine ⟨q, hq, by simp [hnew], fun p hp => ?_⟩
          obtain rfl : k = p := by simpa [hnew] using hp
          refine ⟨hklt, r', hgetk, rfl, Or.inl ⟨hrd, ?_⟩⟩
          show r.atoms.length ≠ (atomsOf (surr v) d).length
          rw [hcnt, atomsOf_length]
          exact hch
      · -- cover
        intro e q' hq' hd' w h1 h2
        by_cases he : e = d
        · subst he
          rw [hq] at hq'
          obtain rfl : q = q' := by simpa using hq'
          by_cases hwv : v ≤ w
          · refine ⟨rows.length, ⟨new, hgetn, rfl, hwv, h2⟩, ?_⟩
            rintro m ⟨s, hs, hse, h3, h4⟩
            rcases hcase m s hs with ⟨hmk, hm⟩ | ⟨_, rfl⟩ | ⟨hm, _⟩
            · exfalso
              exact hmk (h.alone hq hqd hm hr hse hrd h3 h4 (hrmin.le.trans hwv) (by rw [hrm]; exact h2))
            · exact absurd h4 (not_lt.mpr hwv)
            · exact hm
          · have hwv := not_le.mp hwv
            obtain ⟨m, ⟨s, hs, hse, h3, h4⟩, huniq⟩ := h.cover e q hq hqd w h1 h2
            have key : ∀ (j : ℕ) (t : ARow K), rows'[j]? = some t → t.src = e → t.minV ≤ w → w < t.maxV → j = m := by
              intro j t ht hte h5 h6
              rcases hcase j t ht with ⟨_, hj⟩ | ⟨rfl, rfl⟩ | ⟨_, rfl⟩
              · exact huniq j ⟨t, hj, hte, h5, h6⟩
              · exact huniq j ⟨r, hr, hrd, h5, by rw [hrm]; exact h2⟩
              · exact absurd h5 (not_le.mpr hwv)
            refine ⟨m, ?_, fun j ⟨t, ht, hte, h5, h6⟩ => key j t ht hte h5 h6⟩
            by_cases hmk : m = k
            · subst hmk
              rw [hr] at hs
              obtain rfl : r = s := by simpa using hs
              exact ⟨r', hgetk, hrd, h3, hwv⟩
            · exact ⟨s, hget m s hmk hs, hse, h3, h4⟩
        · have hd'' : done e q'.minV := hd'.resolve_right fun hh => he hh.1
          obtain ⟨m, ⟨s, hs, hse, hm⟩, huniq⟩ := h.cover e q' hq' hd'' w h1 h2
          have hmk : m ≠ k := by
            rintro rfl
            rw [hr] at hs
            obtain rfl : r = s := by simpa using hs
            exact he (hse.symm.trans hrd)
          refine ⟨m, ⟨s, hget m s hmk hs, hse, hm⟩, ?_⟩
          rintro j ⟨t, ht, hte, ht2⟩
          rcases hcase j t ht with ⟨_, hj⟩ | ⟨_, rfl⟩ | ⟨_, rfl⟩
          · exact huniq j ⟨t, hj, hte, ht2⟩
          · exact absurd (hte.symm.trans hrd) he
          · exact absurd hte.symm he
      · -- counts
        intro s hs w hd' h1 h2
        obtain ⟨m, hm⟩ := List.getElem?_of_mem hs
        rcases hcase m s hm with ⟨hmk, hm1⟩ | ⟨_, rfl⟩ | ⟨_, rfl⟩
        · rcases hd' with hd' | ⟨e, rfl⟩
          · exact h.count s (List.mem_of_getElem? hm1) w hd' h1 h2
          · exact absurd (h.alone hq hqd hm1 hr e hrd h1 h2 hrmin.le (by rw [hrm]; exact hmax)) hmk
        · rcases hd' with hd' | ⟨_, rfl⟩
          · exact h.count r hrmem w hd' h1 (by rw [hrm]; exact (show w < v from h2).trans hmax)
          · exact absurd h2 (lt_irrefl _)
        · have : w = v := le_antisymm (hd'.elim (fun hh => hle _ _ hh) fun hh => hh.2.le) h1
          rw [this]
          exact atomsOf_length _ _


/-- A variant with an equivalent `done`. -/
theorem AInv.congr {inp : List (DomIn K)} {surr : K → List (List ℕ)} {done done' : ℕ → K → Prop} {map : ℕ → Option ℕ} {rows : List (ARow K)}
    (h : AInv inp surr done map rows) (e : ∀ d w, done d w ↔ done' d w) : AInv inp surr done' map rows := by
  have : done = done' := funext fun d => funext fun w => propext (e d w)
  exact this ▸ h

theorem find_prev {l : List ℕ} {f : ℕ → List ℕ} {d : ℕ} (h : d ∈ l) : ((l.map fun e => (e, f e)).find? fun p => p.1 == d) = some (d, f d) := by
  induction l with
  | nil => cases h
  | cons a l ih =>
    simp only [List.map_cons, List.find?_cons]
    by_cases e : a = d
    · subst e; simp
    · have : (a == d) = false := by simpa using e
      simp only [this]
      exact ih ((List.mem_cons.mp h).resolve_left (Ne.symm e))

/-- `prev` are the domains and atoms at the last value. -/
def PrevOk (inp : List (DomIn K)) (surr : K → List (List ℕ)) (pre : List K) (prev : List (ℕ × List ℕ)) : Prop :=
  ∀ u, pre.getLast? = some u → prev = (currentDoms inp u).map fun d => (d, atomsOf (surr u) d)

theorem sorted_last {pre : List K} (h : pre.Pairwise (· < ·)) {u : K} (hu : pre.getLast? = some u) : u ∈ pre ∧ ∀ w ∈ pre, w ≤ u := by
  obtain ⟨ys, rfl⟩ := List.getLast?_eq_some_iff.mp hu
  refine ⟨by simp, fun w hw => ?_⟩
  rcases List.mem_append.mp hw with hw | hw
  · exact ((List.pairwise_append.mp h).2.2 w hw u (by simp)).le
  · exact le_of_eq (by simpa using hw)

theorem appendDoms_spec {inp : List (DomIn K)} {surr : K → List (List ℕ)} {values : List K} (hT : DomTree inp)
    (hvals : ∀ r ∈ inp, r.minV ∈ values) {pre vs : List K} {v : K} (hsplit : values = pre ++ v :: vs) (hs : values.Pairwise (· < ·))
    {prev : List (ℕ × List ℕ)} (hprev : PrevOk inp surr pre prev) (l : List ℕ) :
    ∀ (map : ℕ → Option ℕ) (rows : List (ARow K)), l.Nodup → (∀ d ∈ l, d ∈ currentDoms inp v) →
      AInv inp surr (fun e w => w ∈ pre ∨ (e ∉ l ∧ w = v)) map rows →
      ∃ map' rows', (l.map fun d => (d, atomsOf (surr v) d)).foldlM (appendDom inp v prev) (map, rows) = some (map', rows') ∧
        AInv inp surr (fun _ w => w ∈ pre ∨ w = v) map' rows' := by
  have hpre : ∀ w, w ∈ pre ↔ w ∈ values ∧ w < v := by
    intro w
    rw [hsplit] at hs ⊢
    obtain ⟨-, h2, h3⟩ := List.pairwise_append.mp hs
    constructor
    · intro hw; exact ⟨List.mem_append_left _ hw, h3 w hw v (by simp)⟩
    · rintro ⟨hw, hlt⟩
      rcases List.mem_append.mp hw with hw | hw
      · exact hw
      · rcases List.mem_cons.mp hw with rfl | hw
        · exact absurd hlt (lt_irrefl _)
        · exact absurd hlt (not_lt.mpr ((List.pairwise_cons.mp h2).1 w hw).le)
  have hpres : pre.Pairwise (· < ·) := by rw [hsplit] at hs; exact (List.pairwise_append.mp hs).1
  induction l with
  | nil =>
    intro map rows _ _ h
    exact ⟨map, rows, rfl, h.congr (by simp)⟩
  | cons d l ih =>
    intro map rows hnd hcur h
    have hdl := (List.nodup_cons.mp hnd).1
    obtain ⟨map', rows', hstep, h'⟩ := appendDom_spec hT hvals h (hcur d (by simp)) (prev := prev)
      (by intro w; rw [← hpre]; simp)
      (fun e w hw hlt => Or.inl ((hpre w).mpr ⟨hw, hlt⟩))
      (fun e w hw => hw.elim (fun hw => ((hpre w).mp hw).2.le) fun hw => hw.2.le)
      (by
        intro q hq hlt
        have hqp := (hpre _).mpr ⟨hvals q (List.mem_of_getElem? hq), hlt⟩
        obtain ⟨u, hu⟩ : ∃ u, pre.getLast? = some u := by
          rcases hh : pre.getLast? with _ | u
          · rw [List.getLast?_eq_none_iff.mp hh] at hqp; cases hqp
          · exact ⟨u, rfl⟩
        obtain ⟨hup, hmax⟩ := sorted_last hpres hu
        refine ⟨u, Or.inl hup, hmax _ hqp, ?_, ?_⟩
        · rintro w (hw | ⟨hw, -⟩)
          · exact hmax w hw
          · exact absurd (List.mem_cons_self) hw
        · rw [hprev u hu]
          refine find_prev (currentDoms_mem.mpr ⟨q, hq, hmax _ hqp, ?_⟩)
          obtain ⟨q', hq', -, hm⟩ := currentDoms_mem.mp (hcur d (by simp))
          rw [hq] at hq'
          obtain rfl : q = q' := by simpa using hq'
          exact ((hpre u).mp hup).2.trans hm)
    obtain ⟨map'', rows'', hfold, hfin⟩ := ih map' rows' (List.nodup_cons.mp hnd).2 (fun e he => hcur e (by simp [he])) (h'.congr (by
      intro e w
      by_cases he : e = d
      · subst he; simp [hdl]
      · simp [he]))
    refine ⟨map'', rows'', ?_, hfin⟩
    rw [List.map_cons, List.foldlM_cons, hstep]
    exact hfold

theorem atomStep_spec {inp : List (DomIn K)} {surr : K → List (List ℕ)} {values : List K} (hT : DomTree inp)
    (hvals : ∀ r ∈ inp, r.minV ∈ values) {pre vs : List K} {v : K} (hsplit : values = pre ++ v :: vs) (hs : values.Pairwise (· < ·))
    {st : AState K} (hprev : PrevOk inp surr pre st.prev) (h : AInv inp surr (fun _ w => w ∈ pre) st.map st.rows) :
    ∃ st', atomStep inp surr st v = some st' ∧ PrevOk inp surr (pre ++ [v]) st'.prev ∧ AInv inp surr (fun _ w => w ∈ pre ++ [v]) st'.map st'.rows := by
  obtain ⟨map', rows', hf, h'⟩ := appendDoms_spec hT hvals hsplit hs hprev (currentDoms inp v) st.map st.rows (currentDoms_nodup inp v) (fun _ hd => hd)
    h.advance
  refine ⟨⟨map', rows', (currentDoms inp v).map fun d => (d, atomsOf (surr v) d)⟩, ?_, ?_, h'.congr (by simp)⟩
  · unfold atomStep
    simp only [Option.bind_eq_bind, hf, Option.bind_some]
  · intro u hu
    simp at hu
    subst hu
    rfl

theorem atomLoop_spec {inp : List (DomIn K)} {surr : K → List (List ℕ)} {values : List K} (hT : DomTree inp)
    (hvals : ∀ r ∈ inp, r.minV ∈ values) (hs : values.Pairwise (· < ·)) (vs : List K) :
    ∀ (pre : List K) (st : AState K), values = pre ++ vs → PrevOk inp surr pre st.prev → AInv inp surr (fun _ w => w ∈ pre) st.map st.rows →
      ∃ st' pre' post, atomLoop inp surr vs st = some st' ∧ values = pre' ++ post ∧ AInv inp surr (fun _ w => w ∈ pre') st'.map st'.rows ∧
        (post = [] ∨ ∃ u, pre'.getLast? = some u ∧ ((surr u).all fun l => l.isEmpty) = true) := by
  induction vs with
  | nil =>
    intro pre st hsplit _ h
    exact ⟨st, pre, [], rfl, hsplit, h, Or.inl rfl⟩
  | cons v vs ih =>
    intro pre st hsplit hprev h
    obtain ⟨st', hst, hp', h'⟩ := atomStep_spec hT hvals hsplit hs hprev h
    have hsplit' : values = (pre ++ [v]) ++ vs := by rw [hsplit]; simp
    by_cases he : ((surr v).all fun l => l.isEmpty) = true
    · refine ⟨st', pre ++ [v], vs, ?_, hsplit', h', Or.inr ⟨v, by simp, he⟩⟩
      unfold atomLoop
      rw [hst]
      simp only [Option.bind_eq_bind, Option.bind_some, he, if_true]
    · obtain ⟨st'', pre', post, h1, h2⟩ := ih (pre ++ [v]) st' hsplit' hp' h'
      refine ⟨st'', pre', post, ?_, h2⟩
      rw [← h1]
      conv_lhs => unfold atomLoop
      rw [hst]
      simp only [Option.bind_eq_bind, Option.bind_some]
      rw [if_neg he]

/-- The state while the remaining domains are appended. -/
structure FInv (inp : List (DomIn K)) (surr : K → List (List ℕ)) (values : List K) (map : ℕ → Option ℕ) (rows : List (ARow K)) : Prop where
  mapSome : ∀ d k, map d = some k → ∃ q r, inp[d]? = some q ∧ rows[k]? = some r ∧ r.src = d ∧ r.maxV = q.maxV
  mapNone : ∀ d, map d = none → ∀ r ∈ rows, r.src ≠ d
  part : ∀ r ∈ rows, ARowPart inp r
  born : ∀ r ∈ rows, r.minV < r.maxV → r.minV ∈ values ∧ r.atoms = atomsOf (surr r.minV) r.src
  link : ∀ (k : ℕ) (r : ARow K), rows[k]? = some r → ARowLink inp rows k r
  cover : ∀ (d : ℕ) (q : DomIn K), inp[d]? = some q → map d ≠ none → ∀ v, q.minV ≤ v → v < q.maxV → ARowAt rows d v
  one : ∀ (d : ℕ) (q : DomIn K), inp[d]? = some q → map d ≠ none → q.maxV ≤ q.minV → ∃! k : ℕ, ∃ r, rows[k]? = some r ∧ r.src = d
  count : ∀ r ∈ rows, ∀ v ∈ values, r.minV ≤ v → v < r.maxV → r.atoms.length = atomCount (surr v) r.src

/-- From the loop to the remaining domains. -/
theorem FInv.of_loop {inp : List (DomIn K)} {surr : K → List (List ℕ)} {values pre post : List K} (hvals : ∀ r ∈ inp, r.minV ∈ values)
    (hs : values.Pairwise (· < ·)) (hquiet : ∀ u ∈ values, ∀ w ∈ values, u < w → ((surr u).all fun l => l.isEmpty) = true → ((surr w).all fun l => l.isEmpty) = true)
    (hsplit : values = pre ++ post) {map : ℕ → Option ℕ} {rows : List (ARow K)} (h : AInv inp surr (fun _ w => w ∈ pre) map rows)
    (hend : post = [] ∨ ∃ u, pre.getLast? = some u ∧ ((surr u).all fun l => l.isEmpty) = true) : FInv inp surr values map rows := by
  have hsub : ∀ w ∈ pre, w ∈ values := fun w hw => by rw [hsplit]; exact List.mem_append_left _ hw
  refine ⟨h.mapSome, ?_, h.part, fun r hr _ => ⟨hsub _ (h.born r hr).1, (h.born r hr).2⟩, h.link, ?_, ?_, ?_⟩
  · intro d hd r hr hrd
    obtain ⟨q, hq, -, -, hle, hge, -⟩ := h.part r hr
    rw [hrd] at hq
    have hb := (h.born r hr).1
    have hqv := hvals q (List.mem_of_getElem? hq)
    have hqp : q.minV ∈ pre := by
      rw [hsplit] at hqv hs
      rcases List.mem_append.mp hqv with hh | hh
      · exact hh
      · exact absurd ((List.pairwise_append.mp hs).2.2 _ hb _ hh) (not_lt.mpr hle)
    exact (h.mapIff d q hq).mpr ⟨hqp, hle.trans_lt ((h.pos r hr).trans_le hge)⟩ hd
  · intro d q hq hd
    exact h.cover d q hq ((h.mapIff d q hq).mp hd).1
  · intro d q hq hd hle
    exact absurd ((h.mapIff d q hq).mp hd).2 (not_lt.mpr hle)
  · intro r hr v hv h1 h2
    by_cases hvp : v ∈ pre
    · exact h.count r hr v hvp h1 h2
    rcases hend with rfl | ⟨u, hu, he⟩
    · rw [hsplit] at hv; simp at hv; exact absurd hv hvp
    · have hpres : pre.Pairwise (· < ·) := by rw [hsplit] at hs; exact (List.pairwise_append.mp hs).1
      obtain ⟨hup, hmax⟩ := sorted_last hpres hu
      have huv : u < v := by
        rw [hsplit] at hv hs
        rcases List.mem_append.mp hv with hh | hh
        · exact absurd hh hvp
        · exact (List.pairwise_append.mp hs).2.2 u hup v hh
      have hrb := (h.born r hr).1
      rw [h.count r hr u hup (hmax _ hrb) (huv.trans h2), atomCount_empty he, atomCount_empty (hquiet u (hsub u hup) v hv huv he)]

theorem appendRest_spec {inp : List (DomIn K)} {surr : K → List (List ℕ)} {values : List K} (hT : DomTree inp) (hvals : ∀ r ∈ inp, r.minV ∈ values)
    {map : ℕ → Option ℕ} {rows : List (ARow K)} {d : ℕ} (h : FInv inp surr values map rows) (hd : d < inp.length) (hlow : ∀ e < d, map e ≠ none)
    (hempty : ∀ q, inp[d]? = some q → map d = none → q.minV < q.maxV → ∀ v ∈ values, q.minV ≤ v → ((surr v).all fun l => l.isEmpty) = true) :
    ∃ map' rows', appendRest inp (map, rows) d = some (map', rows') ∧ FInv inp surr values map' rows' ∧
      (∀ e, map' e = none ↔ map e = none ∧ e ≠ d) := by
  rcases hm : map d with _ | k
  · obtain ⟨q, hq⟩ : ∃ q, inp[d]? = some q := ⟨_, List.getElem?_eq_getElem hd⟩
    set map' := Function.update map d (some rows.length) with hmap'
    set new : ARow K := ⟨q.basins, q.minV, q.maxV, q.dim, q.parent.bind map', [], d⟩ with hnew
    have hget : ∀ (k : ℕ) (r : ARow K), rows[k]? = some r → (rows ++ [new])[k]? = some r := by
      intro k r hr
      rw [List.getElem?_append_left (List.getElem?_eq_some_iff.mp hr).1]; exact hr
    have hgetn : (rows ++ [new])[rows.length]? = some new := by simp
    have hcase : ∀ (k : ℕ) (r : ARow K), (rows ++ [new])[k]? = some r → rows[k]? = some r ∨ (k = rows.length ∧ r = new) := by
      intro k r hr
      rcases Nat.lt_trichotomy k rows.length with hk | hk | hk
      · rw [List.getElem?_append_left hk] at hr; exact Or.inl hr
      · subst hk; rw [hgetn] at hr; exact Or.inr ⟨rfl, by simpa using hr.symm⟩
      · rw [List.getElem?_eq_none (by simp; omega)] at hr; cases hr
    have hno := h.mapNone d hm
    have hone : ∃! k : ℕ, ∃ r, (rows ++ [new])[k]? = some r ∧ r.src = d := by
      refine ⟨rows.length, ⟨new, hgetn, rfl⟩, ?_⟩
      rintro m ⟨s, hs, hsd⟩
      rcases hcase m s hs with hs | ⟨e, _⟩
      · exact absurd hsd (hno s (List.mem_of_getElem? hs))
      · exact e
    refine ⟨map', rows ++ [new], ?_, ⟨?_, ?_, ?_, ?_, ?_, ?_, ?_, ?_⟩, ?_⟩
    · unfold appendRest
      simp only [hm, hq, Option.bind_eq_bind, Option.bind_some]
      rfl
    · intro e k hk
      by_cases he : e = d
      · subst he
        have : k = rows.length := by simpa [hmap'] using hk.symm
        exact ⟨q, new, hq, by rw [this]; exact hgetn, rfl, rfl⟩
      · have hk' : map e = some k := by simpa [hmap', Function.update_of_ne he] using hk
        obtain ⟨q', r, h1, h2, h3⟩ := h.mapSome e k hk'
        exact ⟨q', r, h1, hget k r h2, h3⟩
    · intro e he r hr
      have hed : e ≠ d := by rintro rfl; simp [hmap'] at he
      rw [hmap', Function.update_of_ne hed] at he
      rcases List.mem_append.mp hr with hr | hr
      · exact h.mapNone e he r hr
      · obtain rfl : r = new := by simpa using hr
        exact Ne.symm hed
    · intro r hr
      rcases List.mem_append.mp hr with hr | hr
      · exact h.part r hr
      · obtain rfl : r = new := by simpa using hr
        exact ⟨q, hq, rfl, rfl, le_refl _, le_refl _, Or.inr ⟨rfl, rfl⟩⟩
    · intro r hr hpos
      rcases List.mem_append.mp hr with hr | hr
      · exact h.born r hr hpos
      · obtain rfl : r = new := by simpa using hr
        have hqv := hvals q (List.mem_of_getElem? hq)
        refine ⟨hqv, ?_⟩
        have := atomsOf_length (surr q.minV) d
        rw [atomCount_empty (hempty q hq hm hpos _ hqv (le_refl _))] at this
        exact (List.length_eq_zero_iff.mp this).symm
    · intro k r hr
      rcases hcase k r hr with hr | ⟨rfl, rfl⟩
      · obtain ⟨s, hs, h1, h2⟩ := h.link k r hr
        refine ⟨s, hs, h1, fun p hp => ?_⟩
        obtain ⟨h3, t, ht, h4⟩ := h2 p hp
        exact ⟨h3, t, hget p t ht, h4⟩
      · refine ⟨q, hq, ?_, ?_⟩
        · intro hp
          refine ⟨?_, rfl⟩
          by_contra hcon
          obtain ⟨p, hpp⟩ := Option.ne_none_iff_exists'.mp hcon
          obtain ⟨hpd, -⟩ := hT d q p hq hpp
          have hne : p ≠ d := by omega
          simp [hnew, hpp, hmap', Function.update_of_ne hne] at hp
          exact hlow p hpd hp
        · intro k hk
          obtain ⟨p, hpp, hpk⟩ := Option.bind_eq_some_iff.mp hk
          obtain ⟨hpd, s, hs, hsm, hslt⟩ := hT d q p hq hpp
          have hne : p ≠ d := by omega
          rw [hmap', Function.update_of_ne hne] at hpk
          obtain ⟨s', r, h1, h2, h3, h4⟩ := h.mapSome p k hpk
          rw [hs] at h1
          obtain rfl : s = s' := by simpa using h1
          refine ⟨(List.getElem?_eq_some_iff.mp h2).1, r, hget k r h2, ?_, Or.inr ⟨?_, rfl, s, by rw [h3]; exact hs, h4⟩⟩
          · rw [h4, hsm]
          · rw [hpp, h3]
    · intro e q' hq' he w h1 h2
      by_cases hed : e = d
      · subst hed
        rw [hq] at hq'
        obtain rfl : q = q' := by simpa using hq'
        refine ⟨rows.length, ⟨new, hgetn, rfl, h1, h2⟩, ?_⟩
        rintro m ⟨s, hs, hse, -⟩
        exact hone.unique ⟨s, hs, hse⟩ ⟨new, hgetn, rfl⟩
      · rw [hmap', Function.update_of_ne hed] at he
        obtain ⟨k, ⟨r, hr, hk⟩, huniq⟩ := h.cover e q' hq' he w h1 h2
        refine ⟨k, ⟨r, hget k r hr, hk⟩, ?_⟩
        rintro m ⟨s, hs, hse, hs2⟩
        rcases hcase m s hs with hs | ⟨_, rfl⟩
        · exact huniq m ⟨s, hs, hse, hs2⟩
        · exact absurd hse.symm hed
    · intro e q' hq' he hle
      by_cases hed : e = d
      · subst hed; exact hone
      · rw [hmap', Function.update_of_ne hed] at he
        obtain ⟨k, ⟨r, hr, hk⟩, huniq⟩ := h.one e q' hq' he hle
        refine ⟨k, ⟨r, hget k r hr, hk⟩, ?_⟩
        rintro m ⟨s, hs, hse⟩
        rcases hcase m s hs with hs | ⟨_, rfl⟩
        · exact huniq m ⟨s, hs, hse⟩
        · exact absurd hse.symm hed
    · intro r hr v hv h1 h2
      rcases List.mem_append.mp hr with hr | hr
      · exact h.count r hr v hv h1 h2
      · obtain rfl : r = new := by simpa using hr
        rw [atomCount_empty (hempty q hq hm (lt_of_le_of_lt h1 h2) v hv h1)]
        rfl
    · intro e
      by_cases hed : e = d
      · subst hed; simp [hmap']
      · simp [hmap', Function.update_of_ne hed, hed]
  · refine ⟨map, rows, ?_, h, ?_⟩
    · unfold appendRest
      simp only [hm]
    · intro e
      constructor
      · intro he; exact ⟨he, by rintro rfl; rw [hm] at he; cases he⟩
      · exact fun he => he.1

theorem appendRests_spec {inp : List (DomIn K)} {surr : K → List (List ℕ)} {values : List K} (hT : DomTree inp) (hvals : ∀ r ∈ inp, r.minV ∈ values)
    {map : ℕ → Option ℕ} {rows : List (ARow K)} (h : FInv inp surr values map rows)
    (hempty : ∀ (d : ℕ) (q : DomIn K), inp[d]? = some q → map d = none → q.minV < q.maxV → ∀ v ∈ values, q.minV ≤ v → ((surr v).all fun l => l.isEmpty) = true) :
    ∀ n, n ≤ inp.length → ∃ map' rows', (List.range n).foldlM (appendRest inp) (map, rows) = some (map', rows') ∧ FInv inp surr values map' rows' ∧
      (∀ e, map' e = none ↔ map e = none ∧ n ≤ e) := by
  intro n
  induction n with
  | zero => intro _; exact ⟨map, rows, rfl, h, by simp⟩
  | succ n ih =>
    intro hn
    obtain ⟨map1, rows1, h1, h2, h3⟩ := ih (by omega)
    obtain ⟨map2, rows2, h4, h5, h6⟩ := appendRest_spec hT hvals (d := n) h2 (by omega) (fun e he hh => by have := ((h3 e).mp hh).2; omega)
      (fun q hq hh => hempty n q hq ((h3 n).mp hh).1)
    refine ⟨map2, rows2, ?_, h5, ?_⟩
    · rw [List.range_succ, List.foldlM_append, h1]
      simp only [Option.bind_eq_bind, Option.bind_some, List.foldlM_cons, List.foldlM_nil, h4]
      rfl
    · intro e
      rw [h6, h3]
      constructor
      · rintro ⟨⟨h7, h8⟩, h9⟩; exact ⟨h7, by omega⟩
      · rintro ⟨h7, h8⟩; exact ⟨⟨h7, by omega⟩, by omega⟩

/-- What the rows are. -/
theorem atomRows_spec {inp : List (DomIn K)} {surr : K → List (List ℕ)} {values : List K} (hT : DomTree inp) (hvals : ∀ r ∈ inp, r.minV ∈ values)
    (hs : values.Pairwise (· < ·))
    (hquiet : ∀ u ∈ values, ∀ w ∈ values, u < w → ((surr u).all fun l => l.isEmpty) = true → ((surr w).all fun l => l.isEmpty) = true) :
    ∃ out map, atomRows inp surr values = some out ∧ FInv inp surr values map out ∧ ∀ d < inp.length, map d ≠ none := by
  have h0 : AInv inp surr (fun _ w => w ∈ ([] : List K)) (fun _ => none) ([] : List (ARow K)) :=
    ⟨by simp, by simp, by simp, by simp, by simp, by simp, by simp, by simp⟩
  obtain ⟨st, pre, post, h1, h2, h3, h4⟩ := atomLoop_spec (surr := surr) hT hvals hs values [] ⟨fun _ => none, [], []⟩ rfl (by intro u hu; cases hu) h0
  have hF := FInv.of_loop hvals hs hquiet h2 h3 h4
  obtain ⟨map, out, h5, h6, h7⟩ := appendRests_spec hT hvals hF (by
    intro d q hq hm hlt v hv hle
    have hqv := hvals q (List.mem_of_getElem? hq)
    have hnp : q.minV ∉ pre := fun hh => (h3.mapIff d q hq).mpr ⟨hh, hlt⟩ hm
    have hqpost : q.minV ∈ post := by
      rw [h2] at hqv
      exact (List.mem_append.mp hqv).resolve_left hnp
    rcases h4 with rfl | ⟨u, hu, he⟩
    · cases hqpost
    · have hs' := hs
      rw [h2] at hs'
      obtain ⟨hup, -⟩ := sorted_last (List.pairwise_append.mp hs').1 hu
      have := (List.pairwise_append.mp hs').2.2 u hup _ hqpost
      exact hquiet u (by rw [h2]; exact List.mem_append_left _ hup) v hv (this.trans_le hle) he) inp.length (le_refl _)
  refine ⟨out, map, ?_, h6, fun d hd hh => ?_⟩
  · unfold atomRows
    rw [h1]
    simp only [Option.bind_eq_bind, Option.bind_some, h5]
  · have := ((h7 d).mp hh).2
    omega

end BaderKit
