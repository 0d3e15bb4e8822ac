import Verif.Lemmas.DomainLevels
import Mathlib.Data.Finset.Card
import Mathlib.Data.Finset.Range
/-! # The rows made from the levels -/
set_option linter.unusedSectionVars false
namespace BaderKit
variable {K : Type} [Field K] [LinearOrder K]

theorem allIn_iff {g h : List ℕ} : allIn g h = true ↔ ∀ b ∈ g, b ∈ h := by
  simp [allIn, List.all_eq_true]

theorem parentOf_eq {rows : List (DomainRow K)} {g : List ℕ} {p : ℕ} {r : DomainRow K} (hr : rows[p]? = some r)
    (hin : ∀ b ∈ g, b ∈ r.basins) (hlast : ∀ m r', p < m → rows[m]? = some r' → ∃ b ∈ g, b ∉ r'.basins) : parentOf rows g = some p := by
  obtain ⟨hp, hpr⟩ := List.getElem?_eq_some_iff.mp hr
  have : rows.reverse.findIdx? (fun r => allIn g r.basins) = some (rows.length - 1 - p) := by
    rw [List.findIdx?_eq_some_iff_getElem]
    refine ⟨by rw [List.length_reverse]; omega, ?_, ?_⟩
    · rw [List.getElem_reverse]
      have e : rows.length - 1 - (rows.length - 1 - p) = p := by omega
      simp only [e, hpr]
      exact allIn_iff.mpr hin
    · intro j hj
      rw [List.getElem_reverse]
      have hlt : rows.length - 1 - j < rows.length := by omega
      obtain ⟨b, hb, hnb⟩ := hlast (rows.length - 1 - j) _ (by omega) (List.getElem?_eq_getElem hlt)
      rw [allIn_iff]
      intro h; exact hnb (h b hb)
  unfold parentOf
  rw [this]
  simp only [Option.map_some, Option.some.injEq]
  omega

/-- The rows in `ps` disappear at `v`. -/
def closeRows (ps : List ℕ) (v : K) (rows : List (DomainRow K)) : List (DomainRow K) :=
  rows.mapIdx fun n r => if n ∈ ps then { r with maxV := some v } else r

/-- The row of a new domain. -/
def newRow (ref : ℕ → K) (v : K) (P : Dom → ℕ) (d : Dom) : DomainRow K := ⟨d.1, v, leafValue ref d.1, d.2.2, some (P d)⟩

theorem closeRows_length (ps : List ℕ) (v : K) (rows : List (DomainRow K)) : (closeRows ps v rows).length = rows.length := by
  simp [closeRows]

theorem closeRows_get (ps : List ℕ) (v : K) (rows : List (DomainRow K)) (n : ℕ) : (closeRows ps v rows)[n]? =
    rows[n]?.map fun r => if n ∈ ps then { r with maxV := some v } else r := by
  simp [closeRows, List.getElem?_mapIdx]

theorem closeRows_modify (ps : List ℕ) (v : K) (rows : List (DomainRow K)) (p : ℕ) :
    (closeRows ps v rows).modify p (fun r => { r with maxV := some v }) = closeRows (ps ++ [p]) v rows := by
  apply List.ext_getElem?
  intro n
  rw [List.getElem?_modify, closeRows_get, closeRows_get]
  rcases rows[n]? with _ | r
  · simp
  · simp only [Option.map_some, Option.map_eq_map, List.mem_append, List.mem_singleton, Option.some.injEq]
    by_cases h1 : n ∈ ps <;> by_cases h2 : p = n
    · subst h2; simp [h1]
    · simp [h1, h2]
    · subst h2; simp [h1]
    · simp [h1, h2, Ne.symm h2]

theorem modify_append_lt {α : Type*} (A B : List α) (p : ℕ) (f : α → α) (h : p < A.length) : (A ++ B).modify p f = A.modify p f ++ B := by
  apply List.ext_getElem?
  intro n
  rw [List.getElem?_modify]
  by_cases hn : n < A.length
  · rw [List.getElem?_append_left hn, List.getElem?_append_left (by simpa using hn), List.getElem?_modify]
  · rw [List.getElem?_append_right (by omega), List.getElem?_append_right (by simp; omega)]
    have : p ≠ n := by omega
    simp [this]

/-- The loop over the domains of a level. -/
theorem addRow_fold {ref : ℕ → K} {old : Level K} {rows : List (DomainRow K)} {P : Dom → ℕ} {all : List Dom}
    (hP : ∀ x ∈ all, (old.doms.any fun p => p.2.1 == x.2.1) = false → ∃ r, rows[P x]? = some r ∧ (∀ b ∈ x.1, b ∈ r.basins) ∧
      ∀ m r', P x < m → rows[m]? = some r' → ∃ b ∈ x.1, b ∉ r'.basins)
    (hdis : ∀ x ∈ all, ∀ y ∈ all, x.1 ≠ y.1 → ∃ b ∈ x.1, b ∉ y.1) (hnd : (all.map fun x => x.1).Nodup) (xs : List Dom) :
    ∀ (done : List Dom), done ++ xs = all →
    xs.foldlM (addRow ref old) (closeRows ((done.filter fun x => !(old.doms.any fun p => p.2.1 == x.2.1)).map P) old.value rows ++
      (done.filter fun x => !(old.doms.any fun p => p.2.1 == x.2.1)).map (newRow ref old.value P)) =
    some (closeRows ((all.filter fun x => !(old.doms.any fun p => p.2.1 == x.2.1)).map P) old.value rows ++
      (all.filter fun x => !(old.doms.any fun p => p.2.1 == x.2.1)).map (newRow ref old.value P)) := by
  induction xs with
  | nil => intro done e; rw [← e]; simp
  | cons x xs ih =>
    intro done e
    have hx : x ∈ all := by rw [← e]; simp
    rw [List.foldlM_cons]
    by_cases ho : (old.doms.any fun p => p.2.1 == x.2.1) = true
    · rw [addRow, if_pos ho]
      have := ih (done ++ [x]) (by simpa using e)
      simp only [List.filter_append, ho, List.filter_cons, Bool.not_true, Bool.false_eq_true, if_false, List.filter_nil,
        List.append_nil] at this
      simpa using this
    · have ho' : (old.doms.any fun p => p.2.1 == x.2.1) = false := eq_false_of_ne_true ho
      obtain ⟨r, hr, hin, hlast⟩ := hP x hx ho'
      set dn := done.filter fun x => !(old.doms.any fun p => p.2.1 == x.2.1) with hdn
      have hplt : P x < rows.length := (List.getElem?_eq_some_iff.mp hr).1
      have hpar : parentOf (closeRows (dn.map P) old.value rows ++ dn.map (newRow ref old.value P)) x.1 = some (P x) := by
        obtain ⟨q, hq, hqb⟩ : ∃ q, (closeRows (dn.map P) old.value rows)[P x]? = some q ∧ q.basins = r.basins := by
          rw [closeRows_get, hr]
          refine ⟨_, rfl, ?_⟩
          simp only []
          split_ifs <;> rfl
        refine parentOf_eq (r := q) ?_ (by rw [hqb]; exact hin) ?_
        · rw [List.getElem?_append_left (by rw [closeRows_length]; exact hplt)]; exact hq
        · intro m r' hm hr'
          by_cases hmr : m < rows.length
          · rw [List.getElem?_append_left (by rw [closeRows_length]; exact hmr), closeRows_get, List.getElem?_eq_getElem hmr] at hr'
            simp only [Option.map_some, Option.some.injEq] at hr'
            obtain ⟨b, hb, hnb⟩ := hlast m _ hm (List.getElem?_eq_getElem hmr)
            refine ⟨b, hb, ?_⟩
            rw [← hr']
            split_ifs <;> exact hnb
          · rw [List.getElem?_append_right (by rw [closeRows_length]; omega)] at hr'
            have hmem := List.mem_of_getElem? hr'
            obtain ⟨y, hy, rfl⟩ := List.mem_map.mp hmem
            have hyd : y ∈ done := List.mem_of_mem_filter hy
            have hya : y ∈ all := by rw [← e]; simp [hyd]
            refine hdis x hx y hya ?_
            rw [← e, List.map_append, List.nodup_append] at hnd
            exact fun ee => hnd.2.2 y.1 (List.mem_map_of_mem hyd) x.1 (by simp) ee.symm
      have hstep : addRow ref old (closeRows (dn.map P) old.value rows ++ dn.map (newRow ref old.value P)) x =
          some (closeRows ((dn ++ [x]).map P) old.value rows ++ (dn ++ [x]).map (newRow ref old.value P)) := by
        rw [addRow, if_neg ho, hpar]
        simp only [Option.bind_eq_bind, Option.bind_some, List.map_append, List.map_cons, List.map_nil, ← closeRows_modify,
          ← List.append_assoc]
        rw [modify_append_lt _ _ _ _ (by rw [closeRows_length]; exact hplt)]
        rfl
      rw [hstep]
      have := ih (done ++ [x]) (by simpa using e)
      rw [List.filter_append, ← hdn] at this
      simp only [List.filter_cons, ho', Bool.not_false, if_true, List.filter_nil] at this
      exact this

/-- Above the lower end of a row; a root has none. -/
def AboveRow (r : DomainRow K) (w : K) : Prop := r.parent ≠ none → r.minV < w

/-- The row has no children and the maximum it was created with. -/
def FreshMax (ref : ℕ → K) (r : DomainRow K) : Prop :=
  (r.maxV = none ∧ (r.parent = none ∨ r.basins.length ≠ 1)) ∨ (∃ b, r.basins = [b] ∧ r.maxV = some (ref b) ∧ r.parent ≠ none)

/-- The domain of a row at a value.  Below `stop` the dimensionality was not looked at; it was three already. -/
def GoodAt (conns : List (Conn K)) (dm : K → ℕ → ℕ) (stop w : K) (r : DomainRow K) : Prop :=
  IsDomainAt conns w r.basins ∧
    (dm w (r.basins.headD 0) = r.dim ∨ (w < stop ∧ r.dim = 3 ∧ dm stop (r.basins.headD 0) = 3))

/-- Is the domain of row `n` there at the value `top`. -/
structure OpenRow (conns : List (Conn K)) (dm : K → ℕ → ℕ) (ref : ℕ → K) (stop top : K) (rows : List (DomainRow K)) (n : ℕ)
    (r : DomainRow K) : Prop where
  here : HereAt conns dm top r.basins r.dim
  above : AboveRow r top
  good : ∀ w ∈ connValues conns, AboveRow r w → w ≤ top → GoodAt conns dm stop w r
  later : ∀ m (r' : DomainRow K), n < m → rows[m]? = some r' → ∀ b ∈ r.basins, b ∉ r'.basins
  childless : ∀ r' ∈ rows, r'.parent ≠ some n
  fresh : FreshMax ref r

/-- The domain of row `n` has split or changed. -/
structure ClosedRow (conns : List (Conn K)) (dm : K → ℕ → ℕ) (stop top : K) (rows : List (DomainRow K)) (n : ℕ)
    (r : DomainRow K) (M : K) : Prop where
  mem : M ∈ connValues conns
  max : r.maxV = some M
  lt : M < top
  above : AboveRow r M
  good : ∀ w ∈ connValues conns, AboveRow r w → w ≤ M → GoodAt conns dm stop w r
  child : ∃ r' ∈ rows, r'.parent = some n

/-- No basin of row `n` is left. -/
structure DeadRow (conns : List (Conn K)) (dm : K → ℕ → ℕ) (ref : ℕ → K) (stop top : K) (rows : List (DomainRow K)) (n : ℕ)
    (r : DomainRow K) (L : K) : Prop where
  mem : L ∈ connValues conns
  lt : L < top
  above : AboveRow r L
  good : ∀ w ∈ connValues conns, AboveRow r w → w ≤ L → GoodAt conns dm stop w r
  gone : ∀ w ∈ connValues conns, L < w → ∀ b ∈ r.basins, ¬ BasinAt conns w b
  childless : ∀ r' ∈ rows, r'.parent ≠ some n
  fresh : FreshMax ref r

/-- The rows after the level `top`. -/
structure RowsOk (conns : List (Conn K)) (dm : K → ℕ → ℕ) (ref : ℕ → K) (minData stop top : K) (rows : List (DomainRow K)) : Prop where
  cover : ∀ g d, HereAt conns dm top g d → ∃ n r, rows[n]? = some r ∧ r.basins = g ∧ r.dim = d ∧ OpenRow conns dm ref stop top rows n r
  status : ∀ n (r : DomainRow K), rows[n]? = some r → OpenRow conns dm ref stop top rows n r ∨ (∃ M, ClosedRow conns dm stop top rows n r M) ∨
    ∃ L, DeadRow conns dm ref stop top rows n r L
  parent : ∀ n (r : DomainRow K) p, rows[n]? = some r → r.parent = some p → p < n ∧ ∃ q, rows[p]? = some q ∧ q.maxV = some r.minV ∧
    (∀ b ∈ r.basins, b ∈ q.basins) ∧ HereAt conns dm r.minV q.basins q.dim ∧ AboveRow q r.minV ∧ r.minV ∈ connValues conns ∧ r.minV < top ∧
    (r.basins = q.basins → r.dim ≠ q.dim)
  root : ∀ r ∈ rows, r.parent = none → r.minV = minData
  overlap : ∀ (m n : ℕ) (r r' : DomainRow K), m < n → rows[m]? = some r → rows[n]? = some r' → ∀ b ∈ r.basins, b ∈ r'.basins →
    r'.parent ≠ none ∧ ∃ M, r.maxV = some M ∧ M ≤ r'.minV
  all : ∀ w ∈ connValues conns, w ≤ top → ∀ g, IsDomainAt conns w g → ∃ (n : ℕ) (r : DomainRow K), rows[n]? = some r ∧ r.basins = g ∧ AboveRow r w ∧
    (FreshMax ref r ∨ ∃ M, r.maxV = some M ∧ w ≤ M)

theorem OpenRow.unique {conns : List (Conn K)} {dm : K → ℕ → ℕ} {ref : ℕ → K} {stop top : K} {rows : List (DomainRow K)} {m n : ℕ}
    {r r' : DomainRow K} (hm : rows[m]? = some r) (hn : rows[n]? = some r') (h : OpenRow conns dm ref stop top rows m r)
    (h' : OpenRow conns dm ref stop top rows n r') {b : ℕ} (hb : b ∈ r.basins) (hb' : b ∈ r'.basins) : m = n := by
  rcases Nat.lt_trichotomy m n with hlt | e | hlt
  · exact absurd hb' (h.later n r' hlt hn b hb)
  · exact e
  · exact absurd hb (h'.later m r hlt hm b hb')

theorem leafValue_fresh {ref : ℕ → K} {v : K} {P : Dom → ℕ} (d : Dom) : FreshMax ref (newRow ref v P d) := by
  obtain ⟨g, i, k⟩ := d
  rcases g with _ | ⟨b, _ | ⟨c, g⟩⟩
  · exact Or.inl ⟨rfl, Or.inr (by simp [newRow])⟩
  · exact Or.inr ⟨b, rfl, rfl, by simp [newRow]⟩
  · exact Or.inl ⟨rfl, Or.inr (by simp [newRow])⟩

/-- One level. -/
theorem RowsOk.step {conns : List (Conn K)} {dm : K → ℕ → ℕ} {ref : ℕ → K} {minData stop : K} {rows : List (DomainRow K)} {nb : ℕ}
    {o n : Level K} (hnb : ∀ c ∈ conns, c.i < nb ∧ c.j < nb) (h : RowsOk conns dm ref minData stop o.value rows)
    (ho : LevelOk conns dm o) (hn : LevelOk conns dm n) (hadj : AdjOk conns dm (connValues conns) o n) :
    ∃ rows', n.doms.foldlM (addRow ref o) rows = some rows' ∧ RowsOk conns dm ref minData stop n.value rows' ∧
      rows'.length = rows.length + (newDoms o n).length := by
  classical
  have hmono : ∀ x ∈ n.doms, ∃ p r, rows[p]? = some r ∧ OpenRow conns dm ref stop o.value rows p r ∧ ∀ b ∈ x.1, b ∈ r.basins := by
    intro x hx
    have hx' := (hn.doms x.1 x.2.2).mp ⟨x.2.1, hx⟩
    obtain ⟨b, hb⟩ := List.exists_mem_of_ne_nil _ hx'.1.1
    obtain ⟨g0, hg0, hb0⟩ := basinAt_domain hnb ((((hx'.1.2.2 b hb b).mp hb).1).mono hadj.lt.le)
    obtain ⟨p, r, hr, hrg, _, hop⟩ := h.cover g0 _ ⟨hg0, rfl⟩
    exact ⟨p, r, hr, hop, by rw [hrg]; exact hg0.sub hadj.lt.le hx'.1 hb0 hb⟩
  let P : Dom → ℕ := fun x => if hx : x ∈ n.doms then (hmono x hx).choose else 0
  have hP : ∀ x ∈ n.doms, ∃ r, rows[P x]? = some r ∧ OpenRow conns dm ref stop o.value rows (P x) r ∧ ∀ b ∈ x.1, b ∈ r.basins := by
    intro x hx
    have : P x = (hmono x hx).choose := by simp only [P]; rw [dif_pos hx]
    rw [this]
    exact (hmono x hx).choose_spec
  clear_value P
  have hdom : ∀ x ∈ n.doms, IsDomainAt conns n.value x.1 ∧ dm n.value (x.1.headD 0) = x.2.2 := fun x hx =>
    (hn.doms x.1 x.2.2).mp ⟨x.2.1, hx⟩
  have hgeq : ∀ x ∈ n.doms, ∀ y ∈ n.doms, ∀ b ∈ x.1, b ∈ y.1 → x = y := by
    intro x hx y hy b hb hb'
    exact List.inj_on_of_nodup_map hn.groups hx hy ((hdom x hx).1.eq (hdom y hy).1 hb hb')
  -- new domains
  have hnew : ∀ x ∈ n.doms, (o.doms.any fun p => p.2.1 == x.2.1) = false ↔ ¬ HereAt conns dm o.value x.1 x.2.2 := by
    intro x hx
    rw [← ho.doms, ← hadj.ids x hx, ← Bool.not_eq_true, List.any_eq_true]
    simp
  set news := n.doms.filter fun x => !(o.doms.any fun p => p.2.1 == x.2.1) with hnews
  have hmemnew : ∀ x, x ∈ news ↔ x ∈ n.doms ∧ ¬ HereAt conns dm o.value x.1 x.2.2 := by
    intro x
    rw [hnews, List.mem_filter]
    constructor
    · rintro ⟨h1, h2⟩; exact ⟨h1, (hnew x h1).mp (by simpa using h2)⟩
    · rintro ⟨h1, h2⟩; exact ⟨h1, by rw [(hnew x h1).mpr h2]; rfl⟩
  have hfold := addRow_fold (ref := ref) (old := o) (rows := rows) (P := P) (all := n.doms) (by
    intro x hx _
    obtain ⟨r, hr, hop, hsub⟩ := hP x hx
    refine ⟨r, hr, hsub, fun m r' hm hr' => ?_⟩
    obtain ⟨b, hb⟩ := List.exists_mem_of_ne_nil _ (hdom x hx).1.1
    exact ⟨b, hb, hop.later m r' hm hr' b (hsub b hb)⟩) (by
    intro x hx y hy hne
    obtain ⟨b, hb⟩ := List.exists_mem_of_ne_nil _ (hdom x hx).1.1
    exact ⟨b, hb, fun hb' => hne (by rw [hgeq x hx y hy b hb hb'])⟩) hn.groups n.doms [] (by simp)
  simp only [List.filter_nil, List.map_nil, List.append_nil, ← hnews] at hfold
  have hcl0 : closeRows [] o.value rows = rows := by
    apply List.ext_getElem?; intro k; rw [closeRows_get]; cases rows[k]? <;> simp
  rw [hcl0] at hfold
  refine ⟨_, hfold, ?_, by simp [closeRows_length, newDoms, hnews]⟩
  clear hfold hcl0
  set ps := news.map P with hps
  set rows' := closeRows ps o.value rows ++ news.map (newRow ref o.value P) with hrows'
  -- reading the rows
  have hold : ∀ k r, rows[k]? = some r → rows'[k]? = some (if k ∈ ps then { r with maxV := some o.value } else r) := by
    intro k r hr
    have hk : k < rows.length := (List.getElem?_eq_some_iff.mp hr).1
    rw [hrows', List.getElem?_append_left (by rw [closeRows_length]; exact hk), closeRows_get, hr]
    rfl
  have hnewget : ∀ k x, news[k]? = some x → rows'[rows.length + k]? = some (newRow ref o.value P x) := by
    intro k x hx
    rw [hrows', List.getElem?_append_right (by rw [closeRows_length]; omega), closeRows_length, Nat.add_sub_cancel_left,
      List.getElem?_map, hx]
    rfl
  have hcase : ∀ k r', rows'[k]? = some r' → (∃ r, rows[k]? = some r ∧ r' = if k ∈ ps then { r with maxV := some o.value } else r) ∨
      ∃ j x, k = rows.length + j ∧ news[j]? = some x ∧ r' = newRow ref o.value P x := by
    intro k r' hr'
    by_cases hk : k < rows.length
    · left
      refine ⟨_, List.getElem?_eq_getElem hk, ?_⟩
      have := hold k _ (List.getElem?_eq_getElem hk)
      rw [hr'] at this
      simpa using this
    · right
      rw [hrows', List.getElem?_append_right (by rw [closeRows_length]; omega), closeRows_length, List.getElem?_map] at hr'
      rcases hx : news[k - rows.length]? with _ | x
      · rw [hx] at hr'; cases hr'
      · rw [hx] at hr'
        exact ⟨k - rows.length, x, by omega, hx, by simpa using hr'.symm⟩
  have hbas : ∀ (k : ℕ) (r : DomainRow K), (if k ∈ ps then { r with maxV := some o.value } else r).basins = r.basins := by
    intro k r; split_ifs <;> rfl
  have hpar' : ∀ (k : ℕ) (r : DomainRow K), (if k ∈ ps then { r with maxV := some o.value } else r).parent = r.parent := by
    intro k r; split_ifs <;> rfl
  have hmin' : ∀ (k : ℕ) (r : DomainRow K), (if k ∈ ps then { r with maxV := some o.value } else r).minV = r.minV := by
    intro k r; split_ifs <;> rfl
  have hdim' : ∀ (k : ℕ) (r : DomainRow K), (if k ∈ ps then { r with maxV := some o.value } else r).dim = r.dim := by
    intro k r; split_ifs <;> rfl
  have hplt : ∀ x ∈ news, P x < rows.length := by
    intro x hx
    obtain ⟨r, hr, _⟩ := hP x ((hmemnew x).mp hx).1
    exact (List.getElem?_eq_some_iff.mp hr).1
  have hnewsdup : news.Nodup := (List.Nodup.of_map _ hn.groups).filter _
  -- a row that is there at `n` is not closed
  have hnotclosed : ∀ k r, rows[k]? = some r → HereAt conns dm n.value r.basins r.dim → HereAt conns dm o.value r.basins r.dim →
      k ∉ ps := by
    intro k r hr hhn hho hk
    obtain ⟨x, hx, rfl⟩ := List.mem_map.mp hk
    obtain ⟨hx1, hx2⟩ := (hmemnew x).mp hx
    obtain ⟨q, hq, hqo, hsub⟩ := hP x hx1
    rw [hq] at hr
    obtain rfl : q = r := by simpa using hr
    obtain ⟨b, hb⟩ := List.exists_mem_of_ne_nil _ (hdom x hx1).1.1
    have e := (hdom x hx1).1.eq hhn.1 hb (hsub b hb)
    apply hx2
    rw [e]
    refine ⟨hho.1, ?_⟩
    rw [hho.2, ← hhn.2, ← e, (hdom x hx1).2]
  -- a closed row was open
  have hclosedopen : ∀ k r, rows[k]? = some r → k ∈ ps → OpenRow conns dm ref stop o.value rows k r := by
    intro k r hr hk
    obtain ⟨x, hx, rfl⟩ := List.mem_map.mp hk
    obtain ⟨q, hq, hqo, _⟩ := hP x ((hmemnew x).mp hx).1
    rw [hq] at hr
    obtain rfl : q = r := by simpa using hr
    exact hqo
  have hbetween : ∀ w ∈ connValues conns, o.value < w → w ≤ n.value → ∀ g d, HereAt conns dm w g d ↔ HereAt conns dm n.value g d :=
    hadj.between
  have hbasin : ∀ w ∈ connValues conns, o.value < w → w ≤ n.value → ∀ b, BasinAt conns w b → BasinAt conns n.value b := by
    intro w hw h1 h2 b hb
    obtain ⟨g, hg, hbg⟩ := basinAt_domain hnb hb
    have := (hbetween w hw h1 h2 g _).mp ⟨hg, rfl⟩
    exact ((this.1.2.2 b hbg b).mp hbg).1
  -- an open row persists, is closed or is dead
  have hlaterR : ∀ k r, rows[k]? = some r → HereAt conns dm n.value r.basins r.dim → OpenRow conns dm ref stop o.value rows k r →
      ∀ m r', k < m → rows'[m]? = some r' → ∀ b ∈ r.basins, b ∉ r'.basins := by
    intro k r hr hhn hop m r' hm hr' b hb hb'
    rcases hcase m r' hr' with ⟨q, hq, rfl⟩ | ⟨j, x, rfl, hx, rfl⟩
    · rw [hbas] at hb'
      exact hop.later m q hm hq b hb hb'
    · obtain ⟨hx1, hx2⟩ := (hmemnew x).mp (List.mem_of_getElem? hx)
      have e := (hdom x hx1).1.eq hhn.1 hb' hb
      apply hx2
      rw [e]
      refine ⟨hop.here.1, ?_⟩
      rw [hop.here.2, ← hhn.2, ← e, (hdom x hx1).2]
  have hchildR : ∀ k r, rows[k]? = some r → k ∉ ps → (∀ r' ∈ rows, r'.parent ≠ some k) → ∀ r' ∈ rows', r'.parent ≠ some k := by
    intro k r hr hk hch r' hr'
    obtain ⟨m, hm⟩ := List.getElem?_of_mem hr'
    rcases hcase m r' hm with ⟨q, hq, rfl⟩ | ⟨j, x, rfl, hx, rfl⟩
    · rw [hpar']; exact hch q (List.mem_of_getElem? hq)
    · intro e
      apply hk
      have : P x = k := by simpa [newRow] using e
      rw [hps, List.mem_map]
      exact ⟨x, List.mem_of_getElem? hx, this⟩
  have hpersist : ∀ k r, rows[k]? = some r → OpenRow conns dm ref stop o.value rows k r → HereAt conns dm n.value r.basins r.dim →
      rows'[k]? = some r ∧ OpenRow conns dm ref stop n.value rows' k r := by
    intro k r hr hop hhn
    have hk := hnotclosed k r hr hhn hop.here
    have hg := hold k r hr
    rw [if_neg hk] at hg
    refine ⟨hg, hhn, fun hp => (hop.above hp).trans hadj.lt, ?_, hlaterR k r hr hhn hop, hchildR k r hr hk hop.childless, hop.fresh⟩
    intro w hw hab hwn
    by_cases hwo : w ≤ o.value
    · exact hop.good w hw hab hwo
    · have := (hbetween w hw (not_le.mp hwo) hwn _ _).mpr hhn
      exact ⟨this.1, Or.inl this.2⟩
  have hnewopen : ∀ j x, news[j]? = some x → OpenRow conns dm ref stop n.value rows' (rows.length + j) (newRow ref o.value P x) := by
    intro j x hx
    obtain ⟨hx1, hx2⟩ := (hmemnew x).mp (List.mem_of_getElem? hx)
    refine ⟨hdom x hx1, fun _ => hadj.lt, ?_, ?_, ?_, leafValue_fresh x⟩
    · intro w hw hab hwn
      have hlt : o.value < w := hab (by simp [newRow])
      have := (hbetween w hw hlt hwn _ _).mpr (hdom x hx1)
      exact ⟨this.1, Or.inl this.2⟩
    · intro m r' hm hr' b hb hb'
      rcases hcase m r' hr' with ⟨q, hq, _⟩ | ⟨j', y, rfl, hy, rfl⟩
      · have := (List.getElem?_eq_some_iff.mp hq).1
        omega
      · have hy1 := ((hmemnew y).mp (List.mem_of_getElem? hy)).1
        have e := hgeq x hx1 y hy1 b hb hb'
        subst e
        obtain ⟨hj, e1⟩ := List.getElem?_eq_some_iff.mp hx
        obtain ⟨hj', e2⟩ := List.getElem?_eq_some_iff.mp hy
        have := (List.Nodup.getElem_inj_iff hnewsdup).mp (e1.trans e2.symm)
        omega
    · intro r' hr' e
      obtain ⟨m, hm⟩ := List.getElem?_of_mem hr'
      rcases hcase m r' hm with ⟨q, hq, rfl⟩ | ⟨j', y, rfl, hy, rfl⟩
      · rw [hpar'] at e
        have h1 := (h.parent m q _ hq e).1
        have := (List.getElem?_eq_some_iff.mp hq).1
        omega
      · have : P y = rows.length + j := by simpa [newRow] using e
        have := hplt y (List.mem_of_getElem? hy)
        omega
  refine ⟨?_, ?_, ?_, ?_, ?_, ?_⟩
  · -- cover
    intro g d hgd
    obtain ⟨i, hi⟩ := (hn.doms g d).mpr hgd
    by_cases hho : HereAt conns dm o.value g d
    · obtain ⟨k, r, hr, rfl, rfl, hop⟩ := h.cover g d hho
      obtain ⟨h1, h2⟩ := hpersist k r hr hop hgd
      exact ⟨k, r, h1, rfl, rfl, h2⟩
    · have hx : (g, i, d) ∈ news := (hmemnew _).mpr ⟨hi, hho⟩
      obtain ⟨j, hj⟩ := List.getElem?_of_mem hx
      exact ⟨rows.length + j, _, hnewget j _ hj, rfl, rfl, hnewopen j _ hj⟩
  · -- status
    intro k r' hr'
    rcases hcase k r' hr' with ⟨r, hr, e⟩ | ⟨j, x, rfl, hx, rfl⟩
    · by_cases hk : k ∈ ps
      · rw [if_pos hk] at e
        subst e
        have hop := hclosedopen k r hr hk
        right; left
        refine ⟨o.value, ho.val, rfl, hadj.lt, hop.above, hop.good, ?_⟩
        obtain ⟨x, hx, hxk⟩ := List.mem_map.mp hk
        exact ⟨newRow ref o.value P x, by rw [hrows']; exact List.mem_append_right _ (List.mem_map_of_mem hx), by simp [newRow, hxk]⟩
      · rw [if_neg hk] at e
        subst e
        rcases h.status k r' hr with hop | ⟨M, hM⟩ | ⟨L, hL⟩
        · by_cases hhn : HereAt conns dm n.value r'.basins r'.dim
          · exact Or.inl (hpersist k r' hr hop hhn).2
          · right; right
            have hgone : ∀ b ∈ r'.basins, ¬ BasinAt conns n.value b := by
              intro b hb hbn
              obtain ⟨g', hg', hb'⟩ := basinAt_domain hnb hbn
              obtain ⟨i', hi'⟩ := (hn.doms g' _).mpr ⟨hg', rfl⟩
              by_cases hho : HereAt conns dm o.value g' (dm n.value (g'.headD 0))
              · have e := hho.1.eq hop.here.1 hb' hb
                apply hhn
                rw [← e]
                exact ⟨hg', by rw [← hop.here.2, ← e]; exact hho.2.symm⟩
              · have hx : (g', i', dm n.value (g'.headD 0)) ∈ news := (hmemnew _).mpr ⟨hi', hho⟩
                obtain ⟨q, hq, hqo, hsub⟩ := hP _ hi'
                have := OpenRow.unique hq hr hqo hop (hsub b hb') hb
                apply hk
                rw [← this]
                exact List.mem_map_of_mem hx
            refine ⟨o.value, ho.val, hadj.lt, hop.above, hop.good, ?_, hchildR k r' hr hk hop.childless, hop.fresh⟩
            intro w hw hlt b hb hbw
            by_cases hwn : w ≤ n.value
            · exact hgone b hb (hbasin w hw hlt hwn b hbw)
            · exact hgone b hb (hbw.mono (not_le.mp hwn).le)
        · right; left
          obtain ⟨c, hc, hcp⟩ := hM.child
          refine ⟨M, hM.mem, hM.max, hM.lt.trans hadj.lt, hM.above, hM.good, ?_⟩
          obtain ⟨m, hm⟩ := List.getElem?_of_mem hc
          exact ⟨_, List.mem_of_getElem? (hold m c hm), by rw [hpar']; exact hcp⟩
        · right; right
          exact ⟨L, hL.mem, hL.lt.trans hadj.lt, hL.above, hL.good, hL.gone, hchildR k r' hr hk hL.childless, hL.fresh⟩
    · exact Or.inl (hnewopen j x hx)
  · -- parent
    intro k r' p hr' hp
    rcases hcase k r' hr' with ⟨r, hr, rfl⟩ | ⟨j, x, rfl, hx, rfl⟩
    · rw [hpar'] at hp
      obtain ⟨h1, q, hq, h2, h3, h4, h5, h6, h7, h8⟩ := h.parent k r p hr hp
      have hnp : p ∉ ps := by
        intro hpp
        exact (hclosedopen p q hq hpp).childless r (List.mem_of_getElem? hr) hp
      have hg := hold p q hq
      rw [if_neg hnp] at hg
      simp only [hbas, hmin', hdim']
      exact ⟨h1, q, hg, h2, h3, h4, h5, h6, h7.trans hadj.lt, h8⟩
    · obtain ⟨hx1, hx2⟩ := (hmemnew x).mp (List.mem_of_getElem? hx)
      obtain rfl : P x = p := by simpa [newRow] using hp
      obtain ⟨q, hq, hqo, hsub⟩ := hP x hx1
      have hxp : P x ∈ ps := List.mem_map_of_mem (List.mem_of_getElem? hx)
      have hg := hold _ q hq
      rw [if_pos hxp] at hg
      exact ⟨by have := (List.getElem?_eq_some_iff.mp hq).1; omega, _, hg, rfl, hsub, hqo.here, hqo.above, ho.val, hadj.lt,
        fun e1 e2 => hx2 ⟨by have := hqo.here.1; rwa [← show x.1 = q.basins from e1] at this,
          by have := hqo.here.2; rwa [← show x.1 = q.basins from e1, ← show x.2.2 = q.dim from e2] at this⟩⟩
  · -- root
    intro r' hr' hp
    obtain ⟨m, hm⟩ := List.getElem?_of_mem hr'
    rcases hcase m r' hm with ⟨r, hr, rfl⟩ | ⟨j, x, rfl, hx, rfl⟩
    · rw [hpar'] at hp
      rw [hmin']
      exact h.root r (List.mem_of_getElem? hr) hp
    · simp [newRow] at hp
  · -- overlap
    intro m k r r' hmk hr hr' b hb hb'
    rcases hcase m r hr with ⟨q, hq, e⟩ | ⟨j, x, rfl, hx, rfl⟩
    · rcases hcase k r' hr' with ⟨q', hq', e'⟩ | ⟨j', y, rfl, hy, rfl⟩
      · rw [e, hbas] at hb
        rw [e', hbas] at hb'
        obtain ⟨h1, M, h2, h3⟩ := h.overlap m k q q' hmk hq hq' b hb hb'
        have hnm : m ∉ ps := by
          intro hm
          exact (hclosedopen m q hq hm).later k q' hmk hq' b hb hb'
        rw [if_neg hnm] at e
        rw [e, e', hpar', hmin']
        exact ⟨h1, M, h2, h3⟩
      · refine ⟨by simp [newRow], ?_⟩
        rw [e, hbas] at hb
        have hb' : b ∈ y.1 := hb'
        obtain ⟨hy1, hy2⟩ := (hmemnew y).mp (List.mem_of_getElem? hy)
        have hbn : BasinAt conns n.value b := (((hdom y hy1).1.2.2 b hb' b).mp hb').1
        by_cases hm : m ∈ ps
        · rw [if_pos hm] at e
          exact ⟨o.value, by rw [e], le_refl _⟩
        · rw [if_neg hm] at e
          subst e
          rcases h.status m _ hq with hop | ⟨M, hM⟩ | ⟨L, hL⟩
          · exfalso
            obtain ⟨q2, hq2, hqo, hsub⟩ := hP y hy1
            have := OpenRow.unique hq2 hq hqo hop (hsub b hb') hb
            apply hm
            rw [← this]
            exact List.mem_map_of_mem (List.mem_of_getElem? hy)
          · exact ⟨M, hM.max, hM.lt.le⟩
          · exact absurd (hbn.mono hadj.lt.le) (hL.gone o.value ho.val hL.lt b hb)
    · rcases hcase k r' hr' with ⟨q', hq', _⟩ | ⟨j', y, rfl, hy, rfl⟩
      · have := (List.getElem?_eq_some_iff.mp hq').1
        omega
      · exfalso
        exact (hnewopen j x hx).later _ _ hmk hr' b hb hb'
  · -- all
    intro w hw hwn g hg
    by_cases hwo : w ≤ o.value
    · obtain ⟨k, r, hr, hrg, hab, hm⟩ := h.all w hw hwo g hg
      refine ⟨k, _, hold k r hr, by rw [hbas]; exact hrg, ?_, ?_⟩
      · intro hp; rw [hpar'] at hp; rw [hmin']; exact hab hp
      · by_cases hk : k ∈ ps
        · rw [if_pos hk]; exact Or.inr ⟨o.value, rfl, hwo⟩
        · rw [if_neg hk]; exact hm
    · have hlt := not_le.mp hwo
      have hgn := (hbetween w hw hlt hwn g _).mp ⟨hg, rfl⟩
      obtain ⟨i, hi⟩ := (hn.doms g _).mpr hgn
      by_cases hho : HereAt conns dm o.value g (dm w (g.headD 0))
      · obtain ⟨k, r, hr, rfl, hrd, hop⟩ := h.cover g _ hho
        rw [← hrd] at hgn
        obtain ⟨h1, h2⟩ := hpersist k r hr hop hgn
        exact ⟨k, r, h1, rfl, fun hp => (hop.above hp).trans hlt, Or.inl h2.fresh⟩
      · obtain ⟨j, hj⟩ := List.getElem?_of_mem ((hmemnew _).mpr ⟨hi, hho⟩)
        exact ⟨rows.length + j, _, hnewget j _ hj, rfl, fun _ => hlt, Or.inl (hnewopen j _ hj).fresh⟩

theorem addLevels_spec {conns : List (Conn K)} {dm : K → ℕ → ℕ} {ref : ℕ → K} {minData stop : K} {nb : ℕ}
    (hnb : ∀ c ∈ conns, c.i < nb ∧ c.j < nb) (ls : List (Level K)) : ∀ {o : Level K} {rows : List (DomainRow K)},
    RowsOk conns dm ref minData stop o.value rows → LevelOk conns dm o → ChainUp conns dm (connValues conns) o ls →
    ∃ rows' top, addLevels ref o ls rows = some rows' ∧ RowsOk conns dm ref minData stop top rows' ∧ top ∈ connValues conns ∧
      (∀ w ∈ connValues conns, w ≤ top) ∧ rows'.length = rows.length + newCount o ls := by
  induction ls with
  | nil => intro o rows h ho hch; exact ⟨rows, o.value, rfl, h, ho.val, hch, by simp [newCount]⟩
  | cons n ls ih =>
    intro o rows h ho hch
    obtain ⟨hadj, hn, hch⟩ := hch
    obtain ⟨rows1, e1, h1, hl1⟩ := h.step hnb ho hn hadj
    obtain ⟨rows', top, e2, h2, h3, h4, hl2⟩ := ih h1 hn hch
    exact ⟨rows', top, by simp [addLevels, e1, e2], h2, h3, h4, by rw [hl2, hl1, newCount]; omega⟩

/-- All basins in one domain. -/
theorem domain_all {conns : List (Conn K)} {nb : ℕ} {t : K} {g : List ℕ} (hnb : ∀ c ∈ conns, c.i < nb ∧ c.j < nb) (h : IsDomainAt conns t g)
    (hl : g.length = nb) : ∀ b, b ∈ g ↔ b < nb := by
  have hlt : ∀ b ∈ g, b < nb := by
    intro b hb
    obtain ⟨c, hc, _, rfl | rfl⟩ := ((h.2.2 b hb b).mp hb).1
    · exact (hnb c hc).1
    · exact (hnb c hc).2
  have hnd : g.Nodup := h.2.1.imp fun hh => ne_of_lt hh
  have hsub : g.toFinset ⊆ Finset.range nb := by
    intro b hb
    rw [Finset.mem_range]
    exact hlt b (List.mem_toFinset.mp hb)
  have := Finset.eq_of_subset_of_card_le hsub (by rw [Finset.card_range, List.toFinset_card_of_nodup hnd, hl])
  intro b
  rw [← List.mem_toFinset, this, Finset.mem_range]

theorem domain_all_mono {conns : List (Conn K)} {nb : ℕ} {t w : K} {g : List ℕ} (hnb : ∀ c ∈ conns, c.i < nb ∧ c.j < nb)
    (h : IsDomainAt conns t g) (hl : g.length = nb) (hw : w ≤ t) : IsDomainAt conns w g := by
  have hall := domain_all hnb h hl
  refine ⟨h.1, h.2.1, fun b hb c => ⟨fun hc => ?_, fun hc => ?_⟩⟩
  · obtain ⟨h1, h2⟩ := (h.2.2 b hb c).mp hc
    exact ⟨h1.mono hw, h2.mono hw⟩
  · rw [hall]
    obtain ⟨d, hd, _, rfl | rfl⟩ := hc.1
    · exact (hnb d hd).1
    · exact (hnb d hd).2

/-- The rows of the lowest level. -/
theorem rowsOk_init {conns : List (Conn K)} {dm : K → ℕ → ℕ} {ref : ℕ → K} {minData stop : K} {nb : ℕ} {st : BifState K} {o : Level K}
    {ls : List (Level K)} (hnb : ∀ c ∈ conns, c.i < nb ∧ c.j < nb) (h : LoopEnd conns dm (connValues conns) nb stop st o ls) :
    RowsOk conns dm ref minData stop o.value (o.doms.map fun d => ⟨d.1, minData, none, d.2.2, none⟩) := by
  set rows : List (DomainRow K) := o.doms.map fun d => ⟨d.1, minData, none, d.2.2, none⟩ with hrows
  have hcase : ∀ (n : ℕ) (r : DomainRow K), rows[n]? = some r → ∃ d : Dom, o.doms[n]? = some d ∧ r = ⟨d.1, minData, none, d.2.2, none⟩ := by
    intro n r hr
    rw [hrows, List.getElem?_map] at hr
    rcases hd : o.doms[n]? with _ | d
    · rw [hd] at hr; cases hr
    · rw [hd] at hr; exact ⟨d, rfl, by simpa using hr.symm⟩
  have hhere : ∀ d ∈ o.doms, HereAt conns dm o.value d.1 d.2.2 := fun d hd => (h.inv.level.doms d.1 d.2.2).mp ⟨d.2.1, hd⟩
  have hsingle : bifDone nb st.doms = true → ∀ d ∈ o.doms, d.1.length = nb ∧ d.2.2 = 3 := by
    intro hdone d hd
    have hd' := (h.inv.same d).mpr hd
    revert hdone hd'
    rcases st.doms with _ | ⟨x, _ | ⟨y, l⟩⟩
    · simp
    · intro h1 h2
      obtain rfl : d = x := by simpa using h2
      simpa [bifDone] using h1
    · simp [bifDone]
  have hgood : ∀ d ∈ o.doms, ∀ w ∈ connValues conns, w ≤ o.value → IsDomainAt conns w d.1 ∧
      (dm w (d.1.headD 0) = d.2.2 ∨ (w < stop ∧ d.2.2 = 3 ∧ dm stop (d.1.headD 0) = 3)) := by
    intro d hd w hw hwo
    by_cases hs : stop ≤ w
    · have := (h.inv.low w hw hs hwo _ _).mpr (hhere d hd)
      exact ⟨this.1, Or.inl this.2⟩
    · have hlt := not_le.mp hs
      have hdone := h.below w hw hlt
      have hst := (h.inv.state.doms d.1 d.2.2).mp ⟨d.2.1, (h.inv.same d).mpr hd⟩
      have := hsingle hdone d hd
      exact ⟨domain_all_mono hnb hst.1 this.1 hlt.le, Or.inr ⟨hlt, this.2, hst.2.trans this.2⟩⟩
  have hdisj : ∀ (m n : ℕ) (d e : Dom), m < n → o.doms[m]? = some d → o.doms[n]? = some e → ∀ b ∈ d.1, b ∉ e.1 := by
    intro m n d e hmn hd he b hb hb'
    have eq := (hhere d (List.mem_of_getElem? hd)).1.eq (hhere e (List.mem_of_getElem? he)).1 hb hb'
    have eq' : d = e := List.inj_on_of_nodup_map h.inv.level.groups (List.mem_of_getElem? hd) (List.mem_of_getElem? he) eq
    subst eq'
    obtain ⟨hm, e1⟩ := List.getElem?_eq_some_iff.mp hd
    obtain ⟨hn, e2⟩ := List.getElem?_eq_some_iff.mp he
    have := (List.Nodup.getElem_inj_iff (List.Nodup.of_map _ h.inv.level.groups)).mp (e1.trans e2.symm)
    omega
  have hopen : ∀ (n : ℕ) (d : Dom), o.doms[n]? = some d → OpenRow conns dm ref stop o.value rows n ⟨d.1, minData, none, d.2.2, none⟩ := by
    intro n d hd
    refine ⟨hhere d (List.mem_of_getElem? hd), fun hp => absurd rfl hp, fun w hw _ hwo => hgood d (List.mem_of_getElem? hd) w hw hwo, ?_, ?_,
      Or.inl ⟨rfl, Or.inl rfl⟩⟩
    · intro m r' hm hr' b hb hb'
      obtain ⟨e, he, rfl⟩ := hcase m r' hr'
      exact hdisj n m d e hm hd he b hb hb'
    · intro r' hr'
      obtain ⟨m, hm⟩ := List.getElem?_of_mem hr'
      obtain ⟨e, he, rfl⟩ := hcase m r' hm
      simp
  refine ⟨?_, ?_, ?_, ?_, ?_, ?_⟩
  · intro g d hgd
    obtain ⟨i, hi⟩ := (h.inv.level.doms g d).mpr hgd
    obtain ⟨n, hn⟩ := List.getElem?_of_mem hi
    exact ⟨n, _, by rw [hrows, List.getElem?_map, hn]; rfl, rfl, rfl, hopen n _ hn⟩
  · intro n r hr
    obtain ⟨d, hd, rfl⟩ := hcase n r hr
    exact Or.inl (hopen n d hd)
  · intro n r p hr hp
    obtain ⟨d, hd, rfl⟩ := hcase n r hr
    cases hp
  · intro r hr _
    obtain ⟨d, hd, rfl⟩ := List.mem_map.mp hr
    rfl
  · intro m n r r' hmn hr hr' b hb hb'
    obtain ⟨d, hd, rfl⟩ := hcase m r hr
    obtain ⟨e, he, rfl⟩ := hcase n r' hr'
    exact absurd hb' (hdisj m n d e hmn hd he b hb)
  · intro w hw hwo g hg
    obtain ⟨b, hb⟩ := List.exists_mem_of_ne_nil _ hg.1
    obtain ⟨d, hd, rfl⟩ : ∃ d ∈ o.doms, d.1 = g := by
      by_cases hs : stop ≤ w
      · obtain ⟨i, hi⟩ := (h.inv.level.doms g _).mpr ((h.inv.low w hw hs hwo _ _).mp ⟨hg, rfl⟩)
        exact ⟨_, hi, rfl⟩
      · have hdone := h.below w hw (not_le.mp hs)
        rcases hst : st.doms with _ | ⟨x, l⟩
        · rw [hst] at hdone; cases hdone
        · have hx := (h.inv.same x).mp (by rw [hst]; simp)
          have hxw := (hgood x hx w hw hwo).1
          have hbn : b < nb := by
            obtain ⟨d, hd, _, rfl | rfl⟩ := ((hg.2.2 b hb b).mp hb).1
            · exact (hnb d hd).1
            · exact (hnb d hd).2
          exact ⟨x, hx, hxw.eq hg ((domain_all hnb hxw (hsingle hdone x hx).1 b).mpr hbn) hb⟩
    obtain ⟨n, hn⟩ := List.getElem?_of_mem hd
    exact ⟨n, _, by rw [hrows, List.getElem?_map, hn]; rfl, rfl, fun hp => absurd rfl hp, Or.inl (Or.inl ⟨rfl, Or.inl rfl⟩)⟩

/-- The whole function. -/
theorem domainRows_spec {fuel nb : ℕ} {dim : K → ℕ → Option ℕ} {dm : K → ℕ → ℕ} {ref : ℕ → K} {minData : K} {conns : List (Conn K)}
    (hne : conns ≠ []) (hnb : ∀ c ∈ conns, c.i < nb ∧ c.j < nb) (hf : conns.length + 2 < fuel) (hbig : ∀ c ∈ conns, c.val < 10 ^ 12)
    (hdim : ∀ v ∈ connValues conns, ∀ b < nb, dim v b = some (dm v b)) :
    ∃ stop top rows, domainRows fuel nb dim ref minData conns = some (rows, rows.length) ∧ RowsOk conns dm ref minData stop top rows ∧
      top ∈ connValues conns ∧ ∀ w ∈ connValues conns, w ≤ top := by
  obtain ⟨stop, st, o, ls, e, h⟩ := bifLoop_run hne hnb hf hbig hdim
  obtain ⟨rows, top, e1, h1, h2, h3, h4⟩ := addLevels_spec hnb ls (rowsOk_init (ref := ref) (minData := minData) hnb h) h.inv.level h.inv.chain
  refine ⟨stop, top, rows, ?_, h1, h2, h3⟩
  have hlen : st.unique = rows.length := by rw [h.inv.cnt, h4]; simp
  unfold domainRows
  rw [e]
  simp only [Option.bind_eq_bind, Option.bind_some]
  have : organise ref minData st.levels = some rows := by
    unfold organise
    rw [h.inv.rev]
    exact e1
  rw [this, hlen]
  rfl

end BaderKit
