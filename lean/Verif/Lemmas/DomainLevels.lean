import Verif.Lemmas.DomainLinks
/-! # The loop over the values: recorded levels -/
set_option linter.unusedSectionVars false
namespace BaderKit
variable {K : Type} [Field K] [LinearOrder K]

/-- A domain of the given dimensionality at the value. -/
def HereAt (conns : List (Conn K)) (dm : K → ℕ → ℕ) (v : K) (g : List ℕ) (d : ℕ) : Prop :=
  IsDomainAt conns v g ∧ dm v (g.headD 0) = d

/-- The groups are listed once. -/
theorem groupsOf_nodup (nb : ℕ) (st : LinkState) : (groupsOf nb st).Nodup := by
  have h := groupScan st nb
  rw [List.nodup_iff_injective_getElem]
  intro ⟨i, hi⟩ ⟨j, hj⟩ e
  have e' : (groupsOf nb st)[i] = (groupsOf nb st)[j] := e
  obtain ⟨b, hb⟩ := List.exists_mem_of_ne_nil _ (h.ne _ (List.getElem_mem hi))
  have h1 := (h.idx (st.parent b) i).mpr ⟨_, List.getElem?_eq_getElem hi, b, hb, rfl⟩
  have hb' : b ∈ (groupsOf nb st)[j] := e' ▸ hb
  have h2 := (h.idx (st.parent b) j).mpr ⟨_, List.getElem?_eq_getElem hj, b, hb', rfl⟩
  rw [h1] at h2
  simpa using h2

/-- The list of domains at a value is consistent: groups and ids occur once. -/
structure DomsOk (u : ℕ) (T : List Dom) : Prop where
  groups : (T.map fun x => x.1).Nodup
  ids : (T.map fun x => x.2.1).Nodup
  lt : ∀ x ∈ T, x.2.1 < u

theorem DomsOk.eq_of_group {u : ℕ} {T : List Dom} (h : DomsOk u T) {x y : Dom} (hx : x ∈ T) (hy : y ∈ T) (e : x.1 = y.1) : x = y :=
  List.inj_on_of_nodup_map h.groups hx hy e

theorem DomsOk.eq_of_id {u : ℕ} {T : List Dom} (h : DomsOk u T) {x y : Dom} (hx : x ∈ T) (hy : y ∈ T) (e : x.2.1 = y.2.1) : x = y :=
  List.inj_on_of_nodup_map h.ids hx hy e

/-- After giving ids to some groups. -/
structure IdOk (T : List Dom) (u0 : ℕ) (gs : List (List ℕ)) (x : List (List ℕ × ℕ) × ℕ × Bool) : Prop where
  groups : (x.1.map fun y => y.1) = gs
  ge : u0 ≤ x.2.1
  lt : ∀ y ∈ x.1, y.2 < x.2.1
  old : ∀ y ∈ x.1, y.2 < u0 → ∃ d, (y.1, y.2, d) ∈ T
  keep : ∀ y ∈ x.1, (∃ i d, (y.1, i, d) ∈ T) → y.2 < u0
  nodup : (x.1.map fun y => y.2).Nodup
  flag : x.2.2 = true → ∀ y ∈ x.1, y.2 < u0
  cnt : x.2.1 = u0 + (x.1.filter fun y => decide (u0 ≤ y.2)).length

theorem idGroup_fold {T : List Dom} {u0 : ℕ} (hT : DomsOk u0 T) (gs : List (List ℕ)) : ∀ {gs0 : List (List ℕ)}
    {x : List (List ℕ × ℕ) × ℕ × Bool}, IdOk T u0 gs0 x → (gs0 ++ gs).Nodup → IdOk T u0 (gs0 ++ gs) (gs.foldl (idGroup T) x) := by
  induction gs with
  | nil => intro gs0 x h _; simpa using h
  | cons g gs ih =>
    intro gs0 x h hnd
    have hg : g ∉ gs0 := by
      rw [List.nodup_append] at hnd
      intro hh
      exact hnd.2.2 g hh g (by simp) rfl
    rw [List.foldl_cons]
    have key : IdOk T u0 (gs0 ++ [g]) (idGroup T x g) := by
      rcases hf : T.find? (fun p => p.1 == g) with _ | p
      · have eid : idGroup T x g = (x.1 ++ [(g, x.2.1)], x.2.1 + 1, false) := by unfold idGroup; rw [hf]
        rw [eid]
        have hno : ∀ p ∈ T, p.1 ≠ g := by
          intro p hp e
          have := List.find?_eq_none.mp hf p hp
          simp [e] at this
        refine ⟨by simp [h.groups], by have := h.ge; simp only; omega, ?_, ?_, ?_, ?_, by simp,
          by have := h.cnt; simp [List.filter_append, List.filter_cons, h.ge]; omega⟩
        · intro y hy
          rcases List.mem_append.mp hy with hy | hy
          · have := h.lt y hy; simp only; omega
          · obtain rfl : y = (g, x.2.1) := by simpa using hy
            simp
        · intro y hy hlt
          rcases List.mem_append.mp hy with hy | hy
          · exact h.old y hy hlt
          · obtain rfl : y = (g, x.2.1) := by simpa using hy
            have := h.ge
            simp only at hlt; omega
        · rintro y hy ⟨i, d, hd⟩
          rcases List.mem_append.mp hy with hy | hy
          · exact h.keep y hy ⟨i, d, hd⟩
          · obtain rfl : y = (g, x.2.1) := by simpa using hy
            exact absurd rfl (hno _ hd)
        · rw [List.map_append, List.nodup_append]
          refine ⟨h.nodup, by simp, ?_⟩
          intro a ha b hb e
          obtain ⟨y, hy, rfl⟩ := List.mem_map.mp ha
          have := h.lt y hy
          simp at hb
          omega
      · have eid : idGroup T x g = (x.1 ++ [(g, p.2.1)], x.2.1, x.2.2) := by unfold idGroup; rw [hf]
        rw [eid]
        have hp : p ∈ T := List.mem_of_find?_eq_some hf
        have hpg : p.1 = g := by simpa using List.find?_some hf
        have hplt := hT.lt p hp
        refine ⟨by simp [h.groups], h.ge, ?_, ?_, ?_, ?_, ?_,
          by have := h.cnt; simp [List.filter_append, List.filter_cons, not_le.mpr hplt]; omega⟩
        · intro y hy
          rcases List.mem_append.mp hy with hy | hy
          · exact h.lt y hy
          · obtain rfl : y = (g, p.2.1) := by simpa using hy
            have := h.ge; simp only; omega
        · intro y hy hlt
          rcases List.mem_append.mp hy with hy | hy
          · exact h.old y hy hlt
          · obtain rfl : y = (g, p.2.1) := by simpa using hy
            exact ⟨p.2.2, by rw [← hpg]; exact hp⟩
        · rintro y hy hd
          rcases List.mem_append.mp hy with hy | hy
          · exact h.keep y hy hd
          · obtain rfl : y = (g, p.2.1) := by simpa using hy
            exact hplt
        · rw [List.map_append, List.nodup_append]
          refine ⟨h.nodup, by simp, ?_⟩
          intro a ha b hb e
          obtain ⟨y, hy, rfl⟩ := List.mem_map.mp ha
          have hb' : b = p.2.1 := by simpa using hb
          rw [hb'] at e
          obtain ⟨d, hd⟩ := h.old y hy (by rw [e]; exact hplt)
          have := hT.eq_of_id hd hp e
          have hyg : y.1 = g := by rw [← hpg, ← this]
          apply hg
          rw [← h.groups, ← hyg]
          exact List.mem_map_of_mem hy
        · intro hfl y hy
          rcases List.mem_append.mp hy with hy | hy
          · exact h.flag hfl y hy
          · obtain rfl : y = (g, p.2.1) := by simpa using hy
            exact hplt
    have := ih key (by simpa using hnd)
    simpa using this

/-- After the dimensionalities of some groups: relation to the domains at the value before. -/
structure DimOk (dm : ℕ → ℕ) (T : List Dom) (u0 u1 : ℕ) (ys : List (List ℕ × ℕ)) (x : List Dom × ℕ × Bool) : Prop where
  groups : (x.1.map fun y => y.1) = ys.map fun y => y.1
  ge : u1 ≤ x.2.1
  lt : ∀ y ∈ x.1, y.2.1 < x.2.1
  dims : ∀ y ∈ x.1, y.2.2 = dm (y.1.headD 0)
  src : ∀ y ∈ x.1, y.2.1 < u1 → (y.1, y.2.1) ∈ ys ∧ (y.2.1 < u0 → y ∈ T)
  keep : ∀ y ∈ x.1, (∃ i, (y.1, i, y.2.2) ∈ T) → y.2.1 < u0
  nodup : (x.1.map fun y => y.2.1).Nodup
  flag : x.2.2 = true → ∀ y ∈ x.1, y.2.1 < u0
  cnt : x.2.1 + (ys.filter fun y => decide (u0 ≤ y.2)).length = u1 + (x.1.filter fun y => decide (u0 ≤ y.2.1)).length

theorem dimGroup_fold {dim : ℕ → Option ℕ} {dm : ℕ → ℕ} {T : List Dom} {u0 u1 : ℕ} (hT : DomsOk u0 T) (h01 : u0 ≤ u1) (fl : Bool)
    (ysAll : List (List ℕ × ℕ)) (hold : ∀ y ∈ ysAll, y.2 < u0 → ∃ d, (y.1, y.2, d) ∈ T) (hlt : ∀ y ∈ ysAll, y.2 < u1)
    (hkeep : ∀ y ∈ ysAll, (∃ i d, (y.1, i, d) ∈ T) → y.2 < u0) (hnd : (ysAll.map fun y => y.2).Nodup)
    (hfl : fl = true → ∀ y ∈ ysAll, y.2 < u0)
    (hne : ∀ y ∈ ysAll, y.1 ≠ []) (hdim : ∀ y ∈ ysAll, ∀ b ∈ y.1, dim b = some (dm b)) (ys : List (List ℕ × ℕ)) :
    ∀ {ys0 : List (List ℕ × ℕ)} {x : List Dom × ℕ × Bool}, ys0 ++ ys = ysAll → DimOk dm T u0 u1 ys0 x → (x.2.2 = true → fl = true) →
    ∃ r, ys.foldlM (dimGroup dim T) x = some r ∧ DimOk dm T u0 u1 ysAll r ∧ (r.2.2 = true → fl = true) := by
  induction ys with
  | nil => intro ys0 x e h hf; exact ⟨x, rfl, by rw [← e]; simpa using h, hf⟩
  | cons y ys ih =>
    intro ys0 x e h hfx
    have hyA : y ∈ ysAll := by rw [← e]; simp
    have hy0 : ∀ z ∈ ys0, z.2 ≠ y.2 := by
      rw [← e, List.map_append, List.nodup_append] at hnd
      intro z hz ee
      exact hnd.2.2 z.2 (List.mem_map_of_mem hz) y.2 (by simp) ee
    obtain ⟨b, l, hbl⟩ := List.exists_cons_of_ne_nil (hne y hyA)
    have hd : dim b = some (dm b) := hdim y hyA b (by simp [hbl])
    have hhead : y.1.headD 0 = b := by simp [hbl]
    set changed : Bool := T.any fun p => p.2.1 == y.2 && p.2.2 != dm b with hch
    let r1 : List Dom × ℕ × Bool := if changed then (x.1 ++ [(y.1, x.2.1, dm b)], x.2.1 + 1, false)
      else (x.1 ++ [(y.1, y.2, dm b)], x.2.1, x.2.2)
    have hstep : dimGroup dim T x y = some r1 := by
      unfold dimGroup
      simp only [hbl, List.head?_cons, Option.bind_eq_bind, Option.bind_some, hd, r1, ← hch]
      cases changed <;> simp
    have hrest : DimOk dm T u0 u1 (ys0 ++ [y]) r1 ∧ (r1.2.2 = true → fl = true) := by
      have hge := h.ge
      by_cases hc : changed = true
      · have er : r1 = (x.1 ++ [(y.1, x.2.1, dm b)], x.2.1 + 1, false) := if_pos hc
        rw [er]
        have hyold : y.2 < u0 := by
          obtain ⟨p, hp, hpc⟩ := List.any_eq_true.mp hc
          simp only [Bool.and_eq_true, beq_iff_eq] at hpc
          rw [← hpc.1]; exact hT.lt p hp
        refine ⟨⟨by simp [h.groups], by simp only; omega, ?_, ?_, ?_, ?_, ?_, by simp,
          by have := h.cnt; have := h01.trans h.ge; simp [List.filter_append, List.filter_cons, not_le.mpr hyold, this]; omega⟩, by simp⟩
        · intro z hz
          rcases List.mem_append.mp hz with hz | hz
          · have := h.lt z hz; simp only; omega
          · obtain rfl : z = (y.1, x.2.1, dm b) := by simpa using hz
            simp
        · intro z hz
          rcases List.mem_append.mp hz with hz | hz
          · exact h.dims z hz
          · obtain rfl : z = (y.1, x.2.1, dm b) := by simpa using hz
            show dm b = dm (y.1.headD 0)
            rw [hhead]
        · intro z hz hlt'
          rcases List.mem_append.mp hz with hz | hz
          · obtain ⟨h1, h2⟩ := h.src z hz hlt'
            exact ⟨by simp [h1], h2⟩
          · obtain rfl : z = (y.1, x.2.1, dm b) := by simpa using hz
            simp only at hlt'; omega
        · rintro z hz ⟨i, hi⟩
          rcases List.mem_append.mp hz with hz | hz
          · exact h.keep z hz ⟨i, hi⟩
          · obtain rfl : z = (y.1, x.2.1, dm b) := by simpa using hz
            exfalso
            obtain ⟨p, hp, hpc⟩ := List.any_eq_true.mp hc
            simp only [Bool.and_eq_true, beq_iff_eq, bne_iff_ne, ne_eq] at hpc
            obtain ⟨d, hd'⟩ := hold y hyA (hkeep y hyA ⟨i, dm b, hi⟩)
            have e1 := hT.eq_of_id hd' hp hpc.1.symm
            have e2 := hT.eq_of_group hd' hi rfl
            apply hpc.2
            rw [← e1, e2]
        · rw [List.map_append, List.nodup_append]
          refine ⟨h.nodup, by simp, ?_⟩
          intro a ha c hb' ee
          obtain ⟨z, hz, rfl⟩ := List.mem_map.mp ha
          have := h.lt z hz
          simp at hb'
          omega
      · have er : r1 = (x.1 ++ [(y.1, y.2, dm b)], x.2.1, x.2.2) := if_neg hc
        have hnc : ∀ p ∈ T, p.2.1 = y.2 → p.2.2 = dm b := by
          intro p hp e1
          by_contra hcon
          apply hc
          rw [hch, List.any_eq_true]
          exact ⟨p, hp, by simp [e1, hcon]⟩
        have hyl := hlt y hyA
        rw [er]
        refine ⟨⟨by simp [h.groups], h.ge, ?_, ?_, ?_, ?_, ?_, ?_, ?_⟩, hfx⟩
        · intro z hz
          rcases List.mem_append.mp hz with hz | hz
          · exact h.lt z hz
          · obtain rfl : z = (y.1, y.2, dm b) := by simpa using hz
            simp only; omega
        · intro z hz
          rcases List.mem_append.mp hz with hz | hz
          · exact h.dims z hz
          · obtain rfl : z = (y.1, y.2, dm b) := by simpa using hz
            show dm b = dm (y.1.headD 0)
            rw [hhead]
        · intro z hz hlt'
          rcases List.mem_append.mp hz with hz | hz
          · obtain ⟨h1, h2⟩ := h.src z hz hlt'
            exact ⟨by simp [h1], h2⟩
          · obtain rfl : z = (y.1, y.2, dm b) := by simpa using hz
            refine ⟨by simp, fun hl0 => ?_⟩
            obtain ⟨d, hd'⟩ := hold y hyA hl0
            have := hnc _ hd' rfl
            simp only at this
            rw [← this]; exact hd'
        · rintro z hz ⟨i, hi⟩
          rcases List.mem_append.mp hz with hz | hz
          · exact h.keep z hz ⟨i, hi⟩
          · obtain rfl : z = (y.1, y.2, dm b) := by simpa using hz
            exact hkeep y hyA ⟨i, dm b, hi⟩
        · rw [List.map_append, List.nodup_append]
          refine ⟨h.nodup, by simp, ?_⟩
          intro a ha c hb' ee
          obtain ⟨z, hz, rfl⟩ := List.mem_map.mp ha
          have hc' : c = y.2 := by simpa using hb'
          rw [hc'] at ee
          have := (h.src z hz (by rw [ee]; exact hyl)).1
          exact hy0 _ this ee
        · intro hfl' z hz
          rcases List.mem_append.mp hz with hz | hz
          · exact h.flag hfl' z hz
          · obtain rfl : z = (y.1, y.2, dm b) := by simpa using hz
            exact hfl (hfx hfl') y hyA
        · have := h.cnt
          by_cases hu : u0 ≤ y.2 <;> simp [List.filter_append, List.filter_cons, hu] <;> omega
    obtain ⟨r, hr, h3, h4⟩ := ih (ys0 := ys0 ++ [y]) (x := r1) (by simpa using e) hrest.1 hrest.2
    exact ⟨r, by rw [List.foldlM_cons, hstep]; exact hr, h3, h4⟩

/-- The state after the value `v`. -/
structure StateAt (conns : List (Conn K)) (dm : K → ℕ → ℕ) (v : K) (st : BifState K) : Prop where
  prev : st.prev = v
  link : LinkOk conns v 1 st.link
  ok : DomsOk st.unique st.doms
  doms : ∀ g d, (∃ i, (g, i, d) ∈ st.doms) ↔ HereAt conns dm v g d

/-- One value: the new domains compared with those at the value before. -/
theorem bifStep_spec {fuel nb : ℕ} {dim : K → ℕ → Option ℕ} {dm : K → ℕ → ℕ} {conns : List (Conn K)} {st : BifState K} {u v : K}
    (hnb : ∀ c ∈ conns, c.i < nb ∧ c.j < nb) (hf : conns.length + 2 < fuel) (hv : v < u) (hprev : st.prev = u)
    (hlink : LinkOk conns u 1 st.link) (hok : DomsOk st.unique st.doms) (hdim : ∀ b < nb, dim v b = some (dm v b)) :
    ∃ st', bifStep fuel nb dim conns st v = some st' ∧ StateAt conns dm v st' ∧ st.unique ≤ st'.unique ∧
      (∀ x ∈ st'.doms, x.2.1 < st.unique → x ∈ st.doms) ∧
      (∀ x ∈ st'.doms, (∃ i, (x.1, i, x.2.2) ∈ st.doms) → x.2.1 < st.unique) ∧
      ((st'.levels = st.levels ∧ ∀ x ∈ st'.doms, x ∈ st.doms) ∨ st'.levels = st.levels ++ [⟨v, st'.doms⟩]) ∧
      st'.unique = st.unique + (st'.doms.filter fun x => decide (st.unique ≤ x.2.1)).length := by
  obtain ⟨link, e1, h1, hp⟩ := linkLevel_spec (st := st.link) hnb hf hv hlink
  have hg := groupsOf_spec hnb h1.seen hp
  have hid := idGroup_fold hok (groupsOf nb link) (gs0 := []) (x := ([], st.unique, true))
    ⟨rfl, le_refl _, by simp, by simp, by simp, by simp, by simp, by simp⟩ (by simpa using groupsOf_nodup nb link)
  rw [List.nil_append] at hid
  set a := (groupsOf nb link).foldl (idGroup st.doms) ([], st.unique, true) with ha
  clear_value a
  have hmem : ∀ y ∈ a.1, y.1 ∈ groupsOf nb link := by
    intro y hy; rw [← hid.groups]; exact List.mem_map_of_mem hy
  have hlt : ∀ b, BasinAt conns v b → b < nb := by
    rintro b ⟨c, hc, _, rfl | rfl⟩
    · exact (hnb c hc).1
    · exact (hnb c hc).2
  obtain ⟨r, e2, h2, _⟩ := dimGroup_fold (dim := dim v) (dm := dm v) hok hid.ge a.2.2 a.1 hid.old hid.lt hid.keep hid.nodup hid.flag
    (fun y hy => ((hg y.1).mp (hmem y hy)).1)
    (fun y hy b hb => hdim b (hlt b ((((hg y.1).mp (hmem y hy)).2.2 b hb b).mp hb).1)) a.1 (ys0 := []) (x := ([], a.2.1, a.2.2))
    (by simp) ⟨rfl, le_refl _, by simp, by simp, by simp, by simp, by simp, by simp, by simp⟩ (by simp)
  have hrg : (r.1.map fun y => y.1) = groupsOf nb link := by rw [h2.groups, hid.groups]
  refine ⟨⟨link, r.1, r.2.1, v, if r.2.2 then st.levels else st.levels ++ [⟨v, r.1⟩]⟩, ?_, ?_, hid.ge.trans h2.ge, ?_, h2.keep, ?_,
    by have h3 := h2.cnt; have h4 := hid.cnt; show r.2.1 = st.unique + (r.1.filter fun x => decide (st.unique ≤ x.2.1)).length; omega⟩
  · unfold bifStep
    rw [hprev, e1]
    simp only [Option.bind_eq_bind, Option.bind_some, ← ha, e2]
  · refine ⟨rfl, h1, ⟨by rw [hrg]; exact groupsOf_nodup nb link, h2.nodup, h2.lt⟩, fun g d => ?_⟩
    show (∃ i, (g, i, d) ∈ r.1) ↔ _
    unfold HereAt
    rw [← hg, ← hrg]
    constructor
    · rintro ⟨i, hi⟩
      exact ⟨List.mem_map.mpr ⟨_, hi, rfl⟩, (h2.dims _ hi).symm⟩
    · rintro ⟨h3, h4⟩
      obtain ⟨y, hy, rfl⟩ := List.mem_map.mp h3
      refine ⟨y.2.1, ?_⟩
      rw [← h4, ← h2.dims y hy]
      exact hy
  · intro x hx hl
    exact (h2.src x hx (lt_of_lt_of_le hl hid.ge)).2 hl
  · by_cases hfl : r.2.2 = true
    · refine Or.inl ⟨by simp [hfl], fun x hx => ?_⟩
      have hl := h2.flag hfl x hx
      exact (h2.src x hx (lt_of_lt_of_le hl hid.ge)).2 hl
    · exact Or.inr (by simp [hfl])

theorem connValues_mem {conns : List (Conn K)} {v : K} : v ∈ connValues conns ↔ ∃ c ∈ conns, c.val = v := by
  simp [connValues, List.mem_insertionSort]

/-- A recorded level lists the domains at its value. -/
structure LevelOk (conns : List (Conn K)) (dm : K → ℕ → ℕ) (l : Level K) : Prop where
  val : l.value ∈ connValues conns
  groups : (l.doms.map fun x => x.1).Nodup
  ids : (l.doms.map fun x => x.2.1).Nodup
  doms : ∀ g d, (∃ i, (g, i, d) ∈ l.doms) ↔ HereAt conns dm l.value g d

/-- Two consecutive levels, `o` below `n`. -/
structure AdjOk (conns : List (Conn K)) (dm : K → ℕ → ℕ) (vals : List K) (o n : Level K) : Prop where
  lt : o.value < n.value
  between : ∀ w ∈ vals, o.value < w → w ≤ n.value → ∀ g d, HereAt conns dm w g d ↔ HereAt conns dm n.value g d
  ids : ∀ x ∈ n.doms, (∃ y ∈ o.doms, y.2.1 = x.2.1) ↔ ∃ i, (x.1, i, x.2.2) ∈ o.doms

/-- Levels from low to high. -/
def ChainUp (conns : List (Conn K)) (dm : K → ℕ → ℕ) (vals : List K) : Level K → List (Level K) → Prop
  | o, [] => ∀ w ∈ vals, w ≤ o.value
  | o, n :: ls => AdjOk conns dm vals o n ∧ LevelOk conns dm n ∧ ChainUp conns dm vals n ls

/-- The domains of a level with an id that is not at the level below. -/
def newDoms (o n : Level K) : List Dom := n.doms.filter fun x => !(o.doms.any fun p => p.2.1 == x.2.1)

/-- How many domains appear on the way up. -/
def newCount : Level K → List (Level K) → ℕ
  | _, [] => 0
  | o, n :: ls => (newDoms o n).length + newCount n ls

theorem filter_length_compl {α : Type*} (l : List α) (p : α → Bool) : (l.filter p).length + (l.filter fun x => !p x).length = l.length := by
  induction l with
  | nil => rfl
  | cons a l ih =>
    cases h : p a
    · simp only [List.filter_cons, h, Bool.not_false, if_true, List.length_cons]; simp; omega
    · simp only [List.filter_cons, h, if_true, List.length_cons]; simp; omega

/-- The state of the loop after the value `v`. -/
structure LevelInv (conns : List (Conn K)) (dm : K → ℕ → ℕ) (vals : List K) (v : K) (st : BifState K) (o : Level K)
    (ls : List (Level K)) : Prop where
  state : StateAt conns dm v st
  rev : st.levels.reverse = o :: ls
  level : LevelOk conns dm o
  chain : ChainUp conns dm vals o ls
  cnt : st.unique = o.doms.length + newCount o ls
  le : v ≤ o.value
  same : ∀ x, x ∈ st.doms ↔ x ∈ o.doms
  low : ∀ w ∈ vals, v ≤ w → w ≤ o.value → ∀ g d, HereAt conns dm w g d ↔ HereAt conns dm o.value g d

theorem basinAt_domain {conns : List (Conn K)} {t : K} {b : ℕ} {nb : ℕ} (hnb : ∀ c ∈ conns, c.i < nb ∧ c.j < nb)
    (h : BasinAt conns t b) : ∃ g, IsDomainAt conns t g ∧ b ∈ g := by
  classical
  refine ⟨(List.range nb).filter fun c => decide (BasinAt conns t c ∧ JoinedAt conns t b c), ⟨?_, ?_, ?_⟩, ?_⟩
  · apply List.ne_nil_of_mem (a := b)
    simp only [List.mem_filter, List.mem_range, decide_eq_true_eq]
    refine ⟨?_, h, .refl _⟩
    obtain ⟨c, hc, _, rfl | rfl⟩ := h
    · exact (hnb c hc).1
    · exact (hnb c hc).2
  · exact List.Pairwise.filter _ List.pairwise_lt_range
  · intro a ha c
    simp only [List.mem_filter, List.mem_range, decide_eq_true_eq] at ha ⊢
    constructor
    · rintro ⟨_, h1, h2⟩; exact ⟨h1, .trans _ _ _ (.symm _ _ ha.2.2) h2⟩
    · rintro ⟨h1, h2⟩
      refine ⟨?_, h1, .trans _ _ _ ha.2.2 h2⟩
      obtain ⟨c, hc, _, rfl | rfl⟩ := h1
      · exact (hnb c hc).1
      · exact (hnb c hc).2
  · simp only [List.mem_filter, List.mem_range, decide_eq_true_eq]
    refine ⟨?_, h, .refl _⟩
    obtain ⟨c, hc, _, rfl | rfl⟩ := h
    · exact (hnb c hc).1
    · exact (hnb c hc).2

theorem LevelInv.step {fuel nb : ℕ} {dim : K → ℕ → Option ℕ} {dm : K → ℕ → ℕ} {conns : List (Conn K)} {vals : List K} {st : BifState K}
    {u v : K} {o : Level K} {ls : List (Level K)} (hnb : ∀ c ∈ conns, c.i < nb ∧ c.j < nb) (hf : conns.length + 2 < fuel) (hv : v < u)
    (h : LevelInv conns dm vals u st o ls) (hdim : ∀ b < nb, dim v b = some (dm v b)) (hnext : ∀ w ∈ vals, v < w → u ≤ w)
    (hval : v ∈ connValues conns) :
    ∃ st' o' ls', bifStep fuel nb dim conns st v = some st' ∧ LevelInv conns dm vals v st' o' ls' := by
  obtain ⟨st', e, hs, hu, hold, hkeep, hlev, hcnt⟩ := bifStep_spec hnb hf hv h.state.prev h.state.link h.state.ok hdim
  rcases hlev with ⟨hlev, hsub⟩ | hlev
  · have hsame : ∀ x, x ∈ st'.doms ↔ x ∈ st.doms := by
      intro x
      refine ⟨hsub x, fun hx => ?_⟩
      obtain ⟨hd, hdim'⟩ := (h.state.doms x.1 x.2.2).mp ⟨x.2.1, hx⟩
      obtain ⟨b, hb⟩ := List.exists_mem_of_ne_nil _ hd.1
      obtain ⟨g', hg', hb'⟩ := basinAt_domain hnb ((((hd.2.2 b hb b).mp hb).1).mono hv.le)
      obtain ⟨i, hi⟩ := (hs.doms g' _).mpr ⟨hg', rfl⟩
      have hi' := hsub _ hi
      have := (h.state.doms g' _).mp ⟨i, hi'⟩
      have hge : x.1 = g' := hd.eq this.1 hb hb'
      have := h.state.ok.eq_of_group hx hi' hge
      rw [this]; exact hi
    have hhere : ∀ g d, HereAt conns dm v g d ↔ HereAt conns dm u g d := by
      intro g d
      rw [← hs.doms, ← h.state.doms]
      simp only [hsame]
    refine ⟨st', o, ls, e, ⟨hs, by rw [hlev]; exact h.rev, h.level, h.chain, ?_, hv.le.trans h.le, fun x => (hsame x).trans (h.same x), ?_⟩⟩
    · have : (st'.doms.filter fun x => decide (st.unique ≤ x.2.1)) = [] := by
        rw [List.filter_eq_nil_iff]
        intro x hx
        have := h.state.ok.lt x (hsub x hx)
        simpa using this
      rw [hcnt, this, h.cnt]; simp
    intro w hw hvw hwo g d
    rcases hvw.lt_or_eq with hlt | rfl
    · exact h.low w hw (hnext w hw hlt) hwo g d
    · rw [hhere]
      have : ∀ g d, HereAt conns dm u g d ↔ HereAt conns dm o.value g d := by
        intro g d
        rw [← h.state.doms, ← h.level.doms]
        simp only [h.same]
      exact this g d
  · refine ⟨st', ⟨v, st'.doms⟩, o :: ls, e, ⟨hs, ?_, ⟨hval, hs.ok.groups, hs.ok.ids, hs.doms⟩, ⟨⟨hv.trans_le h.le, ?_, ?_⟩, h.level, h.chain⟩,
      ?_, le_refl _, fun x => Iff.rfl, ?_⟩⟩
    · rw [hlev, List.reverse_append, h.rev]; rfl
    · intro w hw hvw hwo g d
      exact h.low w hw (hnext w hw hvw) hwo g d
    · intro x hx
      have hx' := (h.same x).mpr hx
      constructor
      · rintro ⟨y, hy, hyx⟩
        have hlt : y.2.1 < st.unique := by rw [hyx]; exact h.state.ok.lt x hx'
        have := h.state.ok.eq_of_id (hold y hy hlt) hx' hyx
        exact ⟨y.2.1, by rw [this] at hy ⊢; exact hy⟩
      · rintro ⟨i, hi⟩
        have hlt := hkeep _ hi ⟨x.2.1, hx'⟩
        have := h.state.ok.eq_of_group (hold _ hi hlt) hx' rfl
        exact ⟨_, hi, by rw [this]⟩
    · -- the domains of the two levels with the same id are the same
      have hnd : ∀ {u : ℕ} {T : List Dom}, DomsOk u T → T.Nodup := fun hT => List.Nodup.of_map _ hT.ids
      have hperm : (st'.doms.filter fun x => decide (x.2.1 < st.unique)).Perm
          (o.doms.filter fun x => st'.doms.any fun p => p.2.1 == x.2.1) := by
        rw [List.perm_ext_iff_of_nodup ((hnd hs.ok).filter _) ((List.Nodup.of_map _ h.level.ids).filter _)]
        intro x
        simp only [List.mem_filter, decide_eq_true_eq, List.any_eq_true, beq_iff_eq]
        constructor
        · rintro ⟨h1, h2⟩
          exact ⟨(h.same x).mp (hold x h1 h2), x, h1, rfl⟩
        · rintro ⟨h1, y, hy, hyx⟩
          have hx' := (h.same x).mpr h1
          have hlt : y.2.1 < st.unique := by rw [hyx]; exact h.state.ok.lt x hx'
          have := h.state.ok.eq_of_id (hold y hy hlt) hx' hyx
          rw [← this]; exact ⟨hy, hlt⟩
      have e1 := filter_length_compl st'.doms (fun x => decide (st.unique ≤ x.2.1))
      have e2 := filter_length_compl o.doms (fun x => st'.doms.any fun p => p.2.1 == x.2.1)
      have e3 := hperm.length_eq
      have e4 : (st'.doms.filter fun x => !decide (st.unique ≤ x.2.1)) = st'.doms.filter fun x => decide (x.2.1 < st.unique) := by
        congr 1; funext x; rw [← decide_not]; simp
      rw [e4] at e1
      have := h.cnt
      simp only [newCount, newDoms]
      omega
    · intro w hw hvw hwo g d
      have : w = v := le_antisymm hwo hvw
      rw [this]

/-- The first value. -/
theorem LevelInv.first {fuel nb : ℕ} {dim : K → ℕ → Option ℕ} {dm : K → ℕ → ℕ} {conns : List (Conn K)} {vals : List K} {v : K}
    (hnb : ∀ c ∈ conns, c.i < nb ∧ c.j < nb) (hf : conns.length + 2 < fuel) (hbig : ∀ c ∈ conns, c.val < 10 ^ 12)
    (hvals : ∀ w ∈ vals, w ≤ v) (hin : ∃ c ∈ conns, c.val = v) (hdim : ∀ b < nb, dim v b = some (dm v b)) :
    ∃ st' o' ls', bifStep fuel nb dim conns BifState.init v = some st' ∧ LevelInv conns dm vals v st' o' ls' := by
  obtain ⟨c, hc, hcv⟩ := hin
  have hlink : LinkOk conns (10 ^ 12) 1 (BifState.init : BifState K).link := by
    refine ⟨⟨[], ?_, RootIn.weaken UFInv.init (by omega)⟩, ?_⟩
    · intro a b
      constructor
      · simp
      · rintro ⟨c, hc, h, _⟩; exact absurd h (not_le.mpr (hbig c hc))
    · intro b
      constructor
      · intro h; cases h
      · rintro ⟨c, hc, h, _⟩; exact absurd h (not_le.mpr (hbig c hc))
  obtain ⟨st', e, hs, hu, hold, hkeep, hlev, hcnt⟩ := bifStep_spec (dm := dm) (st := BifState.init) hnb hf (hcv ▸ hbig c hc) rfl hlink
    ⟨by simp [BifState.init], by simp [BifState.init], by simp [BifState.init]⟩ hdim
  have hrec : st'.levels = [⟨v, st'.doms⟩] := by
    rcases hlev with ⟨_, hsub⟩ | hlev
    · exfalso
      obtain ⟨g, hg, _⟩ := basinAt_domain (t := v) (b := c.i) hnb ⟨c, hc, hcv.ge, Or.inl rfl⟩
      obtain ⟨i, hi⟩ := (hs.doms g _).mpr ⟨hg, rfl⟩
      have := hsub _ hi
      simp [BifState.init] at this
    · simpa [BifState.init] using hlev
  refine ⟨st', ⟨v, st'.doms⟩, [], e, ⟨hs, by rw [hrec]; rfl, ⟨connValues_mem.mpr ⟨c, hc, hcv⟩, hs.ok.groups, hs.ok.ids, hs.doms⟩, hvals,
    by simpa [newCount, BifState.init] using hcnt, le_refl _, fun x => Iff.rfl, ?_⟩⟩
  intro w hw hvw hwo g d
  have : w = v := le_antisymm hwo hvw
  rw [this]

/-- What the loop leaves. `stop` is the last value that was used. -/
structure LoopEnd (conns : List (Conn K)) (dm : K → ℕ → ℕ) (vals : List K) (nb : ℕ) (stop : K) (st : BifState K) (o : Level K)
    (ls : List (Level K)) : Prop where
  inv : LevelInv conns dm vals stop st o ls
  below : ∀ w ∈ vals, w < stop → bifDone nb st.doms = true

theorem bifLoop_spec {fuel nb : ℕ} {dim : K → ℕ → Option ℕ} {dm : K → ℕ → ℕ} {conns : List (Conn K)} {vals : List K}
    (hnb : ∀ c ∈ conns, c.i < nb ∧ c.j < nb) (hf : conns.length + 2 < fuel) (hdim : ∀ v ∈ vals, ∀ b < nb, dim v b = some (dm v b))
    (hvals : ∀ v ∈ vals, v ∈ connValues conns) (vs : List K) : ∀ {u : K} {st : BifState K} {o : Level K} {ls : List (Level K)}, LevelInv conns dm vals u st o ls →
      (∀ w ∈ vals, w < u ↔ w ∈ vs) → (∀ w ∈ vs, w ∈ vals) → vs.Pairwise (fun a b => b < a) →
      ∃ stop st' o' ls', bifLoop fuel nb dim conns vs st = some st' ∧ LoopEnd conns dm vals nb stop st' o' ls' := by
  induction vs with
  | nil =>
    intro u st o ls h hvs _ _
    exact ⟨u, st, o, ls, rfl, h, fun w hw hlt => by simpa using (hvs w hw).mp hlt⟩
  | cons v vs ih =>
    intro u st o ls h hvs hin hpw
    have hvu : v < u := (hvs v (hin v (by simp))).mpr (by simp)
    rw [List.pairwise_cons] at hpw
    have hnext : ∀ w ∈ vals, v < w → u ≤ w := by
      intro w hw hlt
      by_contra hcon
      rcases List.mem_cons.mp ((hvs w hw).mp (not_le.mp hcon)) with rfl | hm
      · exact lt_irrefl _ hlt
      · exact lt_asymm hlt (hpw.1 w hm)
    obtain ⟨st', o', ls', e, h'⟩ := h.step hnb hf hvu (hdim v (hin v (by simp))) hnext (hvals v (hin v (by simp)))
    by_cases hd : bifDone nb st'.doms = true
    · exact ⟨v, st', o', ls', by simp [bifLoop, e, hd], h', fun _ _ _ => hd⟩
    · have hvs' : ∀ w ∈ vals, w < v ↔ w ∈ vs := by
        intro w hw
        constructor
        · intro hlt
          rcases List.mem_cons.mp ((hvs w hw).mp (hlt.trans hvu)) with rfl | hm
          · exact absurd hlt (lt_irrefl _)
          · exact hm
        · exact hpw.1 w
      obtain ⟨stop, st2, o2, ls2, e2, h2⟩ := ih h' hvs' (fun w hw => hin w (by simp [hw])) hpw.2
      exact ⟨stop, st2, o2, ls2, by simp [bifLoop, e, hd, e2], h2⟩

theorem connValues_pairwise (conns : List (Conn K)) : (connValues conns).Pairwise (fun a b => b < a) := by
  have h1 : (connValues conns).Pairwise (fun a b => b ≤ a) := List.pairwise_insertionSort _ _
  have h2 : (connValues conns).Nodup := (List.perm_insertionSort _ _).nodup_iff.mpr (List.nodup_dedup _)
  exact (h1.and h2).imp fun h => lt_of_le_of_ne h.1 (Ne.symm h.2)

/-- The whole loop. -/
theorem bifLoop_run {fuel nb : ℕ} {dim : K → ℕ → Option ℕ} {dm : K → ℕ → ℕ} {conns : List (Conn K)} (hne : conns ≠ [])
    (hnb : ∀ c ∈ conns, c.i < nb ∧ c.j < nb) (hf : conns.length + 2 < fuel) (hbig : ∀ c ∈ conns, c.val < 10 ^ 12)
    (hdim : ∀ v ∈ connValues conns, ∀ b < nb, dim v b = some (dm v b)) :
    ∃ stop st' o' ls', bifLoop fuel nb dim conns (connValues conns) BifState.init = some st' ∧
      LoopEnd conns dm (connValues conns) nb stop st' o' ls' := by
  have hpw := connValues_pairwise conns
  obtain ⟨c, hc⟩ := List.exists_mem_of_ne_nil _ hne
  have hmem : c.val ∈ connValues conns := connValues_mem.mpr ⟨c, hc, rfl⟩
  have hspec := fun (vals : List K) => bifLoop_spec (fuel := fuel) (dim := dim) (dm := dm) (vals := vals) hnb hf
  rcases hv : connValues conns with _ | ⟨v, vs⟩
  · rw [hv] at hmem; simp at hmem
  · rw [hv] at hpw hdim
    have hle : ∀ w ∈ v :: vs, w ≤ v := by
      intro w hw
      rcases List.mem_cons.mp hw with rfl | hm
      · exact le_refl _
      · exact ((List.pairwise_cons.mp hpw).1 w hm).le
    obtain ⟨st', o', ls', e, h⟩ := LevelInv.first (dm := dm) (dim := dim) (vals := v :: vs) hnb hf hbig hle
      (connValues_mem.mp (by rw [hv]; simp)) (hdim v (by simp))
    by_cases hd : bifDone nb st'.doms = true
    · exact ⟨v, st', o', ls', by simp [bifLoop, e, hd], h, fun _ _ _ => hd⟩
    · have hvs' : ∀ w ∈ v :: vs, w < v ↔ w ∈ vs := by
        intro w hw
        constructor
        · intro hlt
          rcases List.mem_cons.mp hw with rfl | hm
          · exact absurd hlt (lt_irrefl _)
          · exact hm
        · exact (List.pairwise_cons.mp hpw).1 w
      obtain ⟨stop, st2, o2, ls2, e2, h2⟩ := hspec (v :: vs) hdim (fun w hw => by rw [hv]; exact hw) vs h hvs' (fun w hw => by simp [hw]) (List.pairwise_cons.mp hpw).2
      exact ⟨stop, st2, o2, ls2, by simp [bifLoop, e, hd, e2], h2⟩

end BaderKit
