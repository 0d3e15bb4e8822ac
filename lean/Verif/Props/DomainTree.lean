import Verif.Lemmas.DomainRows
import Verif.Spec.DomainTree
import Mathlib.Data.Finset.Max
import Mathlib.Data.Rat.Defs
import Mathlib.Algebra.Order.Ring.Rat
/-!
# C73: the domains of the bifurcation graph are the connected components of the basins

`domainRows` is `find_domain_bifurcations`.  The input are connections of basins at values; a basin is connected to itself at its maximum.
The result is a list of rows: basins, the value above which the domain exists, the value up to which it exists, dimensionality, parent.
-/
set_option linter.unusedSectionVars false
namespace BaderKit
variable {K : Type} [Field K] [LinearOrder K]

/-- What is assumed about the connections and the dimensionalities: there is a connection, basins are numbered below `nb`, the values are
below the start value of the loop, every dimensionality can be computed. -/
structure DomainInput (fuel nb : ℕ) (dim : K → ℕ → Option ℕ) (dm : K → ℕ → ℕ) (conns : List (Conn K)) : Prop where
  ne : conns ≠ []
  lt : ∀ c ∈ conns, c.i < nb ∧ c.j < nb
  fuel : conns.length + 2 < fuel
  big : ∀ c ∈ conns, c.val < 10 ^ 12
  dims : ∀ v b, b < nb → dim v b = some (dm v b)

/-- No connection of a basin is above its maximum. -/
def BelowPeak (conns : List (Conn K)) (ref : ℕ → K) : Prop := ∀ c ∈ conns, c.val ≤ ref c.i ∧ c.val ≤ ref c.j

/-- What `from_labeler` passes if basins touch strictly below their maxima: every basin is connected to itself at its maximum, and to others
strictly below. -/
structure PeakInput (nb : ℕ) (conns : List (Conn K)) (ref : ℕ → K) : Prop where
  self : ∀ b < nb, ∃ c ∈ conns, c.i = b ∧ c.j = b ∧ c.val = ref b
  below : ∀ c ∈ conns, c.i ≠ c.j → c.val < ref c.i ∧ c.val < ref c.j
  loops : ∀ c ∈ conns, c.i = c.j → c.val ≤ ref c.i

theorem PeakInput.belowPeak {nb : ℕ} {conns : List (Conn K)} {ref : ℕ → K} (h : PeakInput nb conns ref) : BelowPeak conns ref := by
  intro c hc
  by_cases e : c.i = c.j
  · exact ⟨h.loops c hc e, e ▸ h.loops c hc e⟩
  · exact ⟨(h.below c hc e).1.le, (h.below c hc e).2.le⟩

/-- The function returns, and the arrays it allocates have exactly as many rows as are written. -/
theorem C73_domain_rows_total {fuel nb : ℕ} {dim : K → ℕ → Option ℕ} {dm : K → ℕ → ℕ} {conns : List (Conn K)} (ref : ℕ → K) (minData : K)
    (hin : DomainInput fuel nb dim dm conns) :
    ∃ rows, domainRows fuel nb dim ref minData conns = some (rows, rows.length) := by
  obtain ⟨_, _, rows, e, _⟩ := domainRows_spec (ref := ref) (minData := minData) hin.ne hin.lt hin.fuel hin.big (fun v _ b hb => hin.dims v b hb)
  exact ⟨rows, e⟩

theorem domainRows_ok {fuel nb : ℕ} {dim : K → ℕ → Option ℕ} {dm : K → ℕ → ℕ} {conns : List (Conn K)} {ref : ℕ → K} {minData : K}
    {rows : List (DomainRow K)} {u : ℕ} (hin : DomainInput fuel nb dim dm conns) (h : domainRows fuel nb dim ref minData conns = some (rows, u)) :
    ∃ stop top, RowsOk conns dm ref minData stop top rows ∧ top ∈ connValues conns ∧ ∀ w ∈ connValues conns, w ≤ top := by
  obtain ⟨stop, top, rows', e, h1⟩ := domainRows_spec (ref := ref) (minData := minData) hin.ne hin.lt hin.fuel hin.big (fun v _ b hb => hin.dims v b hb)
  rw [e] at h
  obtain ⟨rfl, _⟩ : rows' = rows ∧ _ := by simpa using h
  exact ⟨stop, top, h1⟩

/-- Between two connection values nothing changes. -/
theorem leastValue {conns : List (Conn K)} {t : K} {b : ℕ} (h : BasinAt conns t b) : ∃ v ∈ connValues conns, t ≤ v ∧
    (∀ w ∈ connValues conns, t ≤ w → v ≤ w) ∧ (∀ c, BasinAt conns t c ↔ BasinAt conns v c) ∧ ∀ g, IsDomainAt conns t g ↔ IsDomainAt conns v g := by
  obtain ⟨c, hc, htc, _⟩ := h
  obtain ⟨v, hv, hmin⟩ := ((connValues conns).toFinset.filter fun w => t ≤ w).exists_min_image id
    ⟨c.val, by simp only [Finset.mem_filter, List.mem_toFinset]; exact ⟨connValues_mem.mpr ⟨c, hc, rfl⟩, htc⟩⟩
  simp only [Finset.mem_filter, List.mem_toFinset, id] at hv hmin
  have hval : ∀ c ∈ conns, t ≤ c.val ↔ v ≤ c.val := fun c hc =>
    ⟨fun h => hmin c.val ⟨connValues_mem.mpr ⟨c, hc, rfl⟩, h⟩, fun h => hv.2.trans h⟩
  have hb : ∀ c, BasinAt conns t c ↔ BasinAt conns v c := by
    intro c
    constructor
    · rintro ⟨d, hd, h1, h2⟩; exact ⟨d, hd, (hval d hd).mp h1, h2⟩
    · rintro ⟨d, hd, h1, h2⟩; exact ⟨d, hd, (hval d hd).mpr h1, h2⟩
  have hj : JoinedAt conns t = JoinedAt conns v := by
    unfold JoinedAt
    congr 1
    funext a b
    apply propext
    constructor
    · rintro ⟨d, hd, h1, h2⟩; exact ⟨d, hd, (hval d hd).mp h1, h2⟩
    · rintro ⟨d, hd, h1, h2⟩; exact ⟨d, hd, (hval d hd).mpr h1, h2⟩
  refine ⟨v, hv.1, hv.2, fun w hw h => hmin w ⟨hw, h⟩, hb, fun g => ?_⟩
  unfold IsDomainAt
  simp only [hb, hj]

theorem rowGood {conns : List (Conn K)} {dm : K → ℕ → ℕ} {ref : ℕ → K} {minData stop top : K} {rows : List (DomainRow K)}
    (h : RowsOk conns dm ref minData stop top rows) (htop : ∀ w ∈ connValues conns, w ≤ top) {r : DomainRow K} (hr : r ∈ rows) {t v : K}
    (ht : RowAlive r t) (hv : v ∈ connValues conns) (htv : t ≤ v) (hmin : ∀ w ∈ connValues conns, t ≤ w → v ≤ w) {b : ℕ} (hb : b ∈ r.basins)
    (hbv : BasinAt conns v b) : GoodAt conns dm stop v r := by
  obtain ⟨n, hn⟩ := List.getElem?_of_mem hr
  have hab : AboveRow r v := fun hp => (ht.1 hp).trans_le htv
  rcases h.status n r hn with ho | ⟨M, hM⟩ | ⟨L, hL⟩
  · exact ho.good v hv hab (htop v hv)
  · exact hM.good v hv hab (hmin M hM.mem (ht.2 M hM.max))
  · by_cases hvL : v ≤ L
    · exact hL.good v hv hab hvL
    · exact absurd hbv (hL.gone v hv (not_le.mp hvL) b hb)

/-- While a row exists, its basins are one connected component of the basins at that value (unless no basin of it is there any more). -/
theorem C73_rows_are_domains {fuel nb : ℕ} {dim : K → ℕ → Option ℕ} {dm : K → ℕ → ℕ} {conns : List (Conn K)} {ref : ℕ → K} {minData : K}
    {rows : List (DomainRow K)} {u : ℕ} (hin : DomainInput fuel nb dim dm conns) (h : domainRows fuel nb dim ref minData conns = some (rows, u))
    {r : DomainRow K} (hr : r ∈ rows) {t : K} (ht : RowAlive r t) {b : ℕ} (hb : b ∈ r.basins) (hbt : BasinAt conns t b) :
    IsDomainAt conns t r.basins := by
  obtain ⟨stop, top, hok, _, htop⟩ := domainRows_ok hin h
  obtain ⟨v, hv, htv, hmin, hbas, hdom⟩ := leastValue hbt
  exact (hdom _).mpr (rowGood hok htop hr ht hv htv hmin hb ((hbas b).mp hbt)).1

/-- Its dimensionality is the one at every connection value at which it exists, provided that a three-dimensional domain does not lose
dimensions as the value falls. -/
theorem C73_row_dimensionality {fuel nb : ℕ} {dim : K → ℕ → Option ℕ} {dm : K → ℕ → ℕ} {conns : List (Conn K)} {ref : ℕ → K} {minData : K}
    {rows : List (DomainRow K)} {u : ℕ} (hin : DomainInput fuel nb dim dm conns) (hdm : ∀ u w b, w ≤ u → dm u b = 3 → dm w b = 3)
    (h : domainRows fuel nb dim ref minData conns = some (rows, u)) {r : DomainRow K} (hr : r ∈ rows) {c : Conn K} (hc : c ∈ conns)
    (ht : RowAlive r c.val) {b : ℕ} (hb : b ∈ r.basins) (hbt : BasinAt conns c.val b) : dim c.val (r.basins.headD 0) = some r.dim := by
  obtain ⟨stop, top, hok, _, htop⟩ := domainRows_ok hin h
  have hg := rowGood hok htop hr ht (connValues_mem.mpr ⟨c, hc, rfl⟩) (le_refl _) (fun w _ h => h) hb hbt
  obtain ⟨x, l, hx⟩ := List.exists_cons_of_ne_nil hg.1.1
  have hlt : r.basins.headD 0 < nb := by
    have hm : x ∈ r.basins := by rw [hx]; simp
    rw [hx]
    obtain ⟨d, hd, _, e | e⟩ := ((hg.1.2.2 x hm x).mp hm).1
    · show x < nb; rw [e]; exact (hin.lt d hd).1
    · show x < nb; rw [e]; exact (hin.lt d hd).2
  rw [hin.dims _ _ hlt]
  rcases hg.2 with e | ⟨h1, h2, h3⟩
  · rw [e]
  · rw [hdm _ _ _ h1.le h3, h2]

/-- Every connected component at every value is a row that exists there, and only one. -/
theorem C73_domains_are_rows {fuel nb : ℕ} {dim : K → ℕ → Option ℕ} {dm : K → ℕ → ℕ} {conns : List (Conn K)} {ref : ℕ → K} {minData : K}
    {rows : List (DomainRow K)} {u : ℕ} (hin : DomainInput fuel nb dim dm conns) (hpeak : BelowPeak conns ref)
    (h : domainRows fuel nb dim ref minData conns = some (rows, u)) {t : K} {g : List ℕ} (hg : IsDomainAt conns t g) :
    ∃! n : ℕ, ∃ r, rows[n]? = some r ∧ r.basins = g ∧ RowAlive r t := by
  obtain ⟨stop, top, hok, _, htop⟩ := domainRows_ok hin h
  obtain ⟨b, hb⟩ := List.exists_mem_of_ne_nil _ hg.1
  obtain ⟨v, hv, htv, hmin, hbas, hdom⟩ := leastValue ((hg.2.2 b hb b).mp hb).1
  have hgv := (hdom g).mp hg
  have hmono : ∀ r : DomainRow K, r.basins = g → ∀ M, r.maxV = some M → (FreshMax ref r ∨ ∃ M, r.maxV = some M ∧ v ≤ M) → t ≤ M := by
    intro r hrg M hM hm
    rcases hm with (⟨hn, _⟩ | ⟨x, hx, hx1, _⟩) | ⟨M', hM', hvM⟩
    · rw [hn] at hM; cases hM
    · rw [hx1] at hM
      obtain rfl : ref x = M := by simpa using hM
      have hxg : x ∈ g := by rw [← hrg, hx]; simp
      obtain ⟨c, hc, h1, e | e⟩ := ((hg.2.2 x hxg x).mp hxg).1
      · rw [e]; exact h1.trans (hpeak c hc).1
      · rw [e]; exact h1.trans (hpeak c hc).2
    · rw [hM'] at hM
      obtain rfl : M' = M := by simpa using hM
      exact htv.trans hvM
  have huniq : ∀ (m n : ℕ) (r r' : DomainRow K), rows[m]? = some r → rows[n]? = some r' → r.basins = g → r'.basins = g → RowAlive r t →
      RowAlive r' t → ¬ m < n := by
    intro m n r r' hr hr' hrg hrg' ha ha' hlt
    obtain ⟨h1, M, h2, h3⟩ := hok.overlap m n r r' hlt hr hr' b (hrg ▸ hb) (hrg' ▸ hb)
    exact absurd (ha.2 M h2) (not_le.mpr (h3.trans_lt (ha'.1 h1)))
  -- the row must exist above its minimum also at `t`
  have hex : ∃ (n : ℕ) (r : DomainRow K), rows[n]? = some r ∧ r.basins = g ∧ RowAlive r t := by
    obtain ⟨n, r, hr, hrg, hab, hm⟩ := hok.all v hv (htop v hv) g hgv
    refine ⟨n, r, hr, hrg, fun hp => ?_, fun M hM => hmono r hrg M hM hm⟩
    by_contra hcon
    obtain ⟨p, hpp⟩ := Option.ne_none_iff_exists'.mp hp
    obtain ⟨_, q, _, _, _, _, _, hmem, _⟩ := hok.parent n r p hr hpp
    exact absurd (hab hp) (not_lt.mpr (hmin _ hmem (not_lt.mp hcon)))
  obtain ⟨n, r, hr, hrg, ha⟩ := hex
  refine ⟨n, ⟨r, hr, hrg, ha⟩, ?_⟩
  rintro m ⟨r', hr', hrg', ha'⟩
  rcases Nat.lt_trichotomy m n with hlt | e | hlt
  · exact absurd hlt (huniq m n r' r hr' hr hrg' hrg ha' ha)
  · exact e
  · exact absurd hlt (huniq n m r r' hr hr' hrg hrg' ha ha')

/-- Two rows that exist at the same value have no basin in common. -/
theorem C73_rows_disjoint {fuel nb : ℕ} {dim : K → ℕ → Option ℕ} {dm : K → ℕ → ℕ} {conns : List (Conn K)} {ref : ℕ → K} {minData : K}
    {rows : List (DomainRow K)} {u : ℕ} (hin : DomainInput fuel nb dim dm conns) (h : domainRows fuel nb dim ref minData conns = some (rows, u))
    {m n : ℕ} {r r' : DomainRow K} (hr : rows[m]? = some r) (hr' : rows[n]? = some r') (hmn : m ≠ n) {t : K} (ht : RowAlive r t)
    (ht' : RowAlive r' t) : ∀ b ∈ r.basins, b ∉ r'.basins := by
  obtain ⟨stop, top, hok, _, _⟩ := domainRows_ok hin h
  intro b hb hb'
  rcases Nat.lt_or_gt_of_ne hmn with hlt | hlt
  · obtain ⟨h1, M, h2, h3⟩ := hok.overlap m n r r' hlt hr hr' b hb hb'
    exact absurd (ht.2 M h2) (not_le.mpr (h3.trans_lt (ht'.1 h1)))
  · obtain ⟨h1, M, h2, h3⟩ := hok.overlap n m r' r hlt hr' hr b hb' hb
    exact absurd (ht'.2 M h2) (not_le.mpr (h3.trans_lt (ht.1 h1)))

/-- The parent of a row comes before it in the list, contains its basins, ends at the value where the row begins, is a domain at that value,
and differs from the row in its basins or its dimensionality.  A row without parent begins at the minimum of the data. -/
theorem C73_parents {fuel nb : ℕ} {dim : K → ℕ → Option ℕ} {dm : K → ℕ → ℕ} {conns : List (Conn K)} {ref : ℕ → K} {minData : K}
    {rows : List (DomainRow K)} {u : ℕ} (hin : DomainInput fuel nb dim dm conns) (h : domainRows fuel nb dim ref minData conns = some (rows, u))
    {n : ℕ} {r : DomainRow K} (hr : rows[n]? = some r) :
    (r.parent = none → r.minV = minData) ∧
    ∀ p, r.parent = some p → p < n ∧ ∃ q, rows[p]? = some q ∧ q.maxV = some r.minV ∧ (∀ b ∈ r.basins, b ∈ q.basins) ∧
      IsDomainAt conns r.minV q.basins ∧ RowAlive q r.minV ∧ (∃ c ∈ conns, c.val = r.minV) ∧ (r.basins = q.basins → r.dim ≠ q.dim) := by
  obtain ⟨stop, top, hok, _, _⟩ := domainRows_ok hin h
  refine ⟨hok.root r (List.mem_of_getElem? hr), fun p hp => ?_⟩
  obtain ⟨h1, q, hq, h2, h3, h4, h5, h6, h7, h8⟩ := hok.parent n r p hr hp
  exact ⟨h1, q, hq, h2, h3, h4.1, ⟨h5, fun M hM => by rw [h2] at hM; simp at hM; exact hM.le⟩, connValues_mem.mp h6, h8⟩

theorem rowExists {conns : List (Conn K)} {dm : K → ℕ → ℕ} {ref : ℕ → K} {minData stop top : K} {rows : List (DomainRow K)}
    (h : RowsOk conns dm ref minData stop top rows) (htm : top ∈ connValues conns) {n : ℕ} {r : DomainRow K} (hn : rows[n]? = some r) :
    ∃ w ∈ connValues conns, AboveRow r w ∧ IsDomainAt conns w r.basins ∧ (∀ M, (∃ r' ∈ rows, r'.parent = some n) → r.maxV = some M → w = M) := by
  rcases h.status n r hn with ho | ⟨M, hM⟩ | ⟨L, hL⟩
  · exact ⟨top, htm, ho.above, ho.here.1, fun _ hh _ => by obtain ⟨r', hr', hp⟩ := hh; exact absurd hp (ho.childless r' hr')⟩
  · exact ⟨M, hM.mem, hM.above, (hM.good M hM.mem hM.above le_rfl).1, fun M' _ e => by rw [hM.max] at e; simpa using e⟩
  · exact ⟨L, hL.mem, hL.above, (hL.good L hL.mem hL.above le_rfl).1,
      fun _ hh _ => by obtain ⟨r', hr', hp⟩ := hh; exact absurd hp (hL.childless r' hr')⟩

/-- A row that is not a root begins below where it ends. -/
theorem C73_min_below_max {fuel nb : ℕ} {dim : K → ℕ → Option ℕ} {dm : K → ℕ → ℕ} {conns : List (Conn K)} {ref : ℕ → K} {minData : K}
    {rows : List (DomainRow K)} {u : ℕ} (hin : DomainInput fuel nb dim dm conns) (hpeak : BelowPeak conns ref)
    (h : domainRows fuel nb dim ref minData conns = some (rows, u)) {r : DomainRow K} (hr : r ∈ rows) (hp : r.parent ≠ none) {M : K}
    (hM : r.maxV = some M) : r.minV < M := by
  obtain ⟨stop, top, hok, htm, _⟩ := domainRows_ok hin h
  obtain ⟨n, hn⟩ := List.getElem?_of_mem hr
  have hfr : ∀ w, AboveRow r w → IsDomainAt conns w r.basins → FreshMax ref r → r.minV < M := by
    intro w hab hd hf
    rcases hf with ⟨hn, _⟩ | ⟨x, hx, hx1, _⟩
    · rw [hn] at hM; cases hM
    · rw [hx1] at hM
      obtain rfl : ref x = M := by simpa using hM
      have hxg : x ∈ r.basins := by rw [hx]; simp
      obtain ⟨c, hc, h1, e | e⟩ := ((hd.2.2 x hxg x).mp hxg).1
      · rw [e]; exact (hab hp).trans_le (h1.trans (hpeak c hc).1)
      · rw [e]; exact (hab hp).trans_le (h1.trans (hpeak c hc).2)
  rcases hok.status n r hn with ho | ⟨M', hM'⟩ | ⟨L, hL⟩
  · exact hfr top ho.above ho.here.1 ho.fresh
  · have := hM'.max
    rw [hM] at this
    obtain rfl : M = M' := by simpa using this
    exact hM'.above hp
  · exact hfr L hL.above (hL.good L hL.mem hL.above le_rfl).1 hL.fresh

theorem joined_single {conns : List (Conn K)} {ref : ℕ → K} {nb : ℕ} (h : PeakInput nb conns ref) {a b : ℕ}
    {t : K} (hab : JoinedAt conns t a b) : a = b ∨ (t < ref a ∧ t < ref b) := by
  induction hab with
  | rel x y hxy =>
    obtain ⟨c, hc, h1, rfl, rfl⟩ := hxy
    by_cases e : c.i = c.j
    · exact Or.inl e
    · exact Or.inr ⟨h1.trans_lt (h.below c hc e).1, h1.trans_lt (h.below c hc e).2⟩
  | refl x => exact Or.inl rfl
  | symm x y _ ih => exact ih.elim (fun e => Or.inl e.symm) fun e => Or.inr ⟨e.2, e.1⟩
  | trans x y z _ _ ih1 ih2 =>
    rcases ih1 with rfl | h1
    · exact ih2
    · rcases ih2 with rfl | h2
      · exact Or.inr h1
      · exact Or.inr ⟨h1.1, h2.2⟩

/-- A childless row has one basin, and its maximum is the maximum of the basin; if it is a root its maximum is never written. -/
theorem C73_childless_rows {fuel nb : ℕ} {dim : K → ℕ → Option ℕ} {dm : K → ℕ → ℕ} {conns : List (Conn K)} {ref : ℕ → K} {minData : K}
    {rows : List (DomainRow K)} {u : ℕ} (hin : DomainInput fuel nb dim dm conns) (hpeak : PeakInput nb conns ref)
    (h : domainRows fuel nb dim ref minData conns = some (rows, u)) {n : ℕ} {r : DomainRow K} (hr : rows[n]? = some r)
    (hch : ∀ r' ∈ rows, r'.parent ≠ some n) :
    ∃ b, r.basins = [b] ∧ (r.parent ≠ none → r.maxV = some (ref b)) ∧ (r.parent = none → r.maxV = none) := by
  obtain ⟨stop, top, hok, htm, htop⟩ := domainRows_ok hin h
  have hkey : ∃ w, IsDomainAt conns w r.basins ∧ FreshMax ref r ∧ ∀ v ∈ connValues conns, w < v → ∀ b ∈ r.basins, ¬ BasinAt conns v b := by
    rcases hok.status n r hr with ho | ⟨M, hM⟩ | ⟨L, hL⟩
    · exact ⟨top, ho.here.1, ho.fresh, fun v hv hlt => absurd (htop v hv) (not_le.mpr hlt)⟩
    · obtain ⟨r', h1, h2⟩ := hM.child; exact absurd h2 (hch r' h1)
    · exact ⟨L, (hL.good L hL.mem hL.above le_rfl).1, hL.fresh, hL.gone⟩
  obtain ⟨w, hd, hf, hgone⟩ := hkey
  obtain ⟨b, l, hbl⟩ := List.exists_cons_of_ne_nil hd.1
  have hb : b ∈ r.basins := by rw [hbl]; simp
  have hbn : b < nb := by
    obtain ⟨c, hc, _, e | e⟩ := ((hd.2.2 b hb b).mp hb).1
    · rw [e]; exact (hin.lt c hc).1
    · rw [e]; exact (hin.lt c hc).2
  have hsingle : r.basins = [b] := by
    rcases l with _ | ⟨c, l⟩
    · exact hbl
    · exfalso
      have hc : c ∈ r.basins := by rw [hbl]; simp
      have hlt : b < c := by
        have := hd.2.1; rw [hbl, List.pairwise_cons] at this
        exact this.1 c (by simp)
      have hj := ((hd.2.2 b hb c).mp hc).2
      rcases joined_single hpeak hj with e | e
      · omega
      · obtain ⟨d, hd1, hd2, hd3, hd4⟩ := hpeak.self b hbn
        exact hgone (ref b) (connValues_mem.mpr ⟨d, hd1, hd4⟩) e.1 b hb ⟨d, hd1, hd4.ge, Or.inl hd2.symm⟩
  refine ⟨b, hsingle, ?_, ?_⟩
  · intro hp
    rcases hf with ⟨_, hf | hf⟩ | ⟨x, hx, hx1, _⟩
    · exact absurd hf hp
    · rw [hsingle] at hf; simp at hf
    · rw [hsingle] at hx
      obtain rfl : b = x := by simpa using hx
      exact hx1
  · intro hp
    rcases hf with ⟨hf, _⟩ | ⟨x, _, _, hx⟩
    · exact hf
    · exact absurd hp hx

/-- Every basin is the only basin of exactly one childless row. -/
theorem C73_irreducible_domains {fuel nb : ℕ} {dim : K → ℕ → Option ℕ} {dm : K → ℕ → ℕ} {conns : List (Conn K)} {ref : ℕ → K} {minData : K}
    {rows : List (DomainRow K)} {u : ℕ} (hin : DomainInput fuel nb dim dm conns) (hpeak : PeakInput nb conns ref)
    (h : domainRows fuel nb dim ref minData conns = some (rows, u)) {b : ℕ} (hb : b < nb) :
    ∃! n : ℕ, (∃ r, rows[n]? = some r ∧ r.basins = [b]) ∧ ∀ r' ∈ rows, r'.parent ≠ some n := by
  obtain ⟨stop, top, hok, htm, htop⟩ := domainRows_ok hin h
  have hle : ∀ v x, BasinAt conns v x → v ≤ ref x := by
    rintro v x ⟨c, hc, h1, rfl | rfl⟩
    · exact h1.trans (hpeak.belowPeak c hc).1
    · exact h1.trans (hpeak.belowPeak c hc).2
  have hdom : IsDomainAt conns (ref b) [b] := by
    refine ⟨by simp, by simp, fun a ha c => ?_⟩
    obtain rfl : a = b := by simpa using ha
    constructor
    · intro hc
      obtain rfl : c = a := by simpa using hc
      obtain ⟨d, hd1, hd2, hd3, hd4⟩ := hpeak.self c hb
      exact ⟨⟨d, hd1, hd4.ge, Or.inl hd2.symm⟩, .refl _⟩
    · rintro ⟨_, hj⟩
      rcases joined_single hpeak hj with e | e
      · simp [e]
      · exact absurd e.1 (lt_irrefl _)
  obtain ⟨n, ⟨r, hr, hrb, ha⟩, _⟩ := C73_domains_are_rows hin hpeak.belowPeak h hdom
  have hchild : ∀ r' ∈ rows, r'.parent ≠ some n := by
    intro r' hr' hp
    obtain ⟨m, hm⟩ := List.getElem?_of_mem hr'
    obtain ⟨_, q, hq, hqm, hsub, _⟩ := hok.parent m r' n hm hp
    rw [hr] at hq
    obtain rfl : r = q := by simpa using hq
    obtain ⟨w, _, hab, hd, _⟩ := rowExists hok htm hm
    obtain ⟨x, hx⟩ := List.exists_mem_of_ne_nil _ hd.1
    obtain rfl : x = b := by have := hsub x hx; rw [hrb] at this; simpa using this
    have h1 := hle w x ((hd.2.2 x hx x).mp hx).1
    have h2 := ha.2 _ hqm
    exact absurd (h1.trans h2) (not_le.mpr (hab (by rw [hp]; simp)))
  refine ⟨n, ⟨⟨r, hr, hrb⟩, hchild⟩, ?_⟩
  have hno : ∀ (m k : ℕ) (r r' : DomainRow K), m < k → rows[m]? = some r → rows[k]? = some r' → r.basins = [b] → r'.basins = [b] →
      (∀ s ∈ rows, s.parent ≠ some m) → False := by
    intro m k r r' hmk hr hr' hrb hrb' hch
    obtain ⟨h1, M, h2, h3⟩ := hok.overlap m k r r' hmk hr hr' b (by simp [hrb]) (by simp [hrb'])
    obtain ⟨x, hx, hx1, hx2⟩ := C73_childless_rows hin hpeak h hr hch
    obtain rfl : b = x := by rw [hrb] at hx; simpa using hx
    obtain ⟨w, _, hab, hd, _⟩ := rowExists hok htm hr'
    have hbm : b ∈ r'.basins := by rw [hrb']; simp
    have h4 := hle w b ((hd.2.2 b hbm b).mp hbm).1
    by_cases hp : r.parent = none
    · rw [hx2 hp] at h2; cases h2
    · rw [hx1 hp] at h2
      obtain rfl : ref b = M := by simpa using h2
      exact absurd (h4.trans h3) (not_le.mpr (hab h1))
  rintro m ⟨⟨r', hr', hrb'⟩, hch'⟩
  rcases Nat.lt_trichotomy m n with hlt | e | hlt
  · exact (hno m n r' r hlt hr' hr hrb' hrb hch').elim
  · exact e
  · exact (hno n m r r' hlt hr hr' hrb hrb' hchild).elim

/-- A domain that splits is divided among its children: every basin is in exactly one of them. -/
theorem C73_children_split {fuel nb : ℕ} {dim : K → ℕ → Option ℕ} {dm : K → ℕ → ℕ} {conns : List (Conn K)} {ref : ℕ → K} {minData : K}
    {rows : List (DomainRow K)} {u : ℕ} (hin : DomainInput fuel nb dim dm conns) (hpeak : PeakInput nb conns ref)
    (h : domainRows fuel nb dim ref minData conns = some (rows, u)) {n : ℕ} {r : DomainRow K} (hr : rows[n]? = some r)
    (hch : ∃ r' ∈ rows, r'.parent = some n) {b : ℕ} (hb : b ∈ r.basins) :
    ∃! m : ℕ, ∃ r', rows[m]? = some r' ∧ r'.parent = some n ∧ b ∈ r'.basins := by
  obtain ⟨stop, top, hok, htm, htop⟩ := domainRows_ok hin h
  obtain ⟨M, hM⟩ : ∃ M, ClosedRow conns dm stop top rows n r M := by
    obtain ⟨r', hr', hp⟩ := hch
    rcases hok.status n r hr with ho | hM | ⟨L, hL⟩
    · exact absurd hp (ho.childless r' hr')
    · exact hM
    · exact absurd hp (hL.childless r' hr')
  have hgood := (hM.good M hM.mem hM.above le_rfl).1
  have halive : RowAlive r M := ⟨hM.above, fun M' e => by rw [hM.max] at e; simp at e; exact e.le⟩
  -- the basin is there above `M`
  have hup : ∃ t, M < t ∧ BasinAt conns t b := by
    obtain ⟨r', hr', hp⟩ := hch
    obtain ⟨m, hm⟩ := List.getElem?_of_mem hr'
    obtain ⟨_, q, hq, hqm, hsub, _⟩ := hok.parent m r' n hm hp
    rw [hr] at hq
    obtain rfl : r = q := by simpa using hq
    have hmin : r'.minV = M := by rw [hM.max] at hqm; simpa using hqm.symm
    obtain ⟨w, _, hab, hd, _⟩ := rowExists hok htm hm
    obtain ⟨x, hx⟩ := List.exists_mem_of_ne_nil _ hd.1
    by_cases hxb : x = b
    · subst hxb
      exact ⟨w, hmin ▸ hab (by rw [hp]; simp), ((hd.2.2 x hx x).mp hx).1⟩
    · have hj := ((hgood.2.2 b hb x).mp (hsub x hx)).2
      rcases joined_single hpeak hj with e | e
      · exact absurd e.symm hxb
      · have hbn : b < nb := by
          obtain ⟨c, hc, _, e | e⟩ := ((hgood.2.2 b hb b).mp hb).1
          · rw [e]; exact (hin.lt c hc).1
          · rw [e]; exact (hin.lt c hc).2
        obtain ⟨d, hd1, hd2, hd3, hd4⟩ := hpeak.self b hbn
        exact ⟨ref b, e.1, d, hd1, hd4.ge, Or.inl hd2.symm⟩
  obtain ⟨t, hMt, hbt⟩ := hup
  -- the next connection value above `M`
  obtain ⟨w, hw, hMw, hnext, hbw⟩ : ∃ w ∈ connValues conns, M < w ∧ (∀ v ∈ connValues conns, M < v → w ≤ v) ∧ BasinAt conns w b := by
    obtain ⟨v, hv, htv, _, hbas, _⟩ := leastValue hbt
    obtain ⟨w, hw, hmin⟩ := ((connValues conns).toFinset.filter fun w => M < w).exists_min_image id
      ⟨v, by simp only [Finset.mem_filter, List.mem_toFinset]; exact ⟨hv, hMt.trans_le htv⟩⟩
    simp only [Finset.mem_filter, List.mem_toFinset, id] at hw hmin
    exact ⟨w, hw.1, hw.2, fun v hv h => hmin v ⟨hv, h⟩, ((hbas b).mp hbt).mono (hmin v ⟨hv, hMt.trans_le htv⟩)⟩
  obtain ⟨g, hg, hbg⟩ := basinAt_domain hin.lt hbw
  obtain ⟨m, ⟨r', hr', hrg, ha'⟩, _⟩ := C73_domains_are_rows hin hpeak.belowPeak h hg
  have hbr : b ∈ r'.basins := by rw [hrg]; exact hbg
  have hpar : r'.parent = some n := by
    have hp : r'.parent ≠ none := by
      rcases Nat.lt_trichotomy m n with hlt | e | hlt
      · obtain ⟨h1, M', h2, h3⟩ := hok.overlap m n r' r hlt hr' hr b hbr hb
        exact absurd ((ha'.2 M' h2).trans h3) (not_le.mpr ((hM.above h1).trans hMw))
      · subst e
        rw [hr] at hr'
        obtain rfl : r = r' := by simpa using hr'
        exact absurd (ha'.2 M hM.max) (not_le.mpr hMw)
      · exact (hok.overlap n m r r' hlt hr hr' b hb hbr).1
    obtain ⟨p, hpp⟩ := Option.ne_none_iff_exists'.mp hp
    obtain ⟨_, q, hq, hqm, hsub, _, hqa, hmem, _⟩ := hok.parent m r' p hr' hpp
    have hle : r'.minV ≤ M := by
      by_contra hcon
      exact absurd (hnext _ hmem (not_le.mp hcon)) (not_le.mpr (ha'.1 hp))
    have hne : m ≠ n := by
      rintro rfl
      rw [hr] at hr'
      obtain rfl : r = r' := by simpa using hr'
      exact absurd (ha'.2 M hM.max) (not_le.mpr hMw)
    have heq : r'.minV = M := by
      rcases hle.lt_or_eq with hlt | e
      · exact absurd hb (C73_rows_disjoint hin h hr' hr hne (t := M) ⟨fun _ => hlt, fun M' e => hMw.le.trans (ha'.2 M' e)⟩ halive b hbr)
      · exact e
    have hqn : p = n := by
      by_contra hcon
      refine C73_rows_disjoint hin h hq hr hcon (t := M) ⟨by rw [← heq]; exact hqa, fun M' e => ?_⟩ halive b (hsub b hbr) hb
      rw [hqm, heq] at e
      simp at e
      exact e.le
    rw [hpp, hqn]
  refine ⟨m, ⟨r', hr', hpar, hbr⟩, ?_⟩
  have hno : ∀ (m k : ℕ) (r1 r2 : DomainRow K), m < k → rows[m]? = some r1 → rows[k]? = some r2 → r1.parent = some n → r2.parent = some n →
      b ∈ r1.basins → b ∈ r2.basins → False := by
    intro m k r1 r2 hmk h1 h2 hp1 hp2 hb1 hb2
    obtain ⟨_, M', hM', hle⟩ := hok.overlap m k r1 r2 hmk h1 h2 b hb1 hb2
    have e1 : r1.minV = M := by
      obtain ⟨_, q, hq, hqm, _⟩ := hok.parent m r1 n h1 hp1
      rw [hr] at hq
      obtain rfl : r = q := by simpa using hq
      rw [hM.max] at hqm; simpa using hqm.symm
    have e2 : r2.minV = M := by
      obtain ⟨_, q, hq, hqm, _⟩ := hok.parent k r2 n h2 hp2
      rw [hr] at hq
      obtain rfl : r = q := by simpa using hq
      rw [hM.max] at hqm; simpa using hqm.symm
    have := C73_min_below_max hin hpeak.belowPeak h (List.mem_of_getElem? h1) (by rw [hp1]; simp) hM'
    rw [e1] at this
    rw [e2] at hle
    exact absurd this (not_lt.mpr hle)
  rintro k ⟨r2, hr2, hp2, hb2⟩
  rcases Nat.lt_trichotomy k m with hlt | e | hlt
  · exact (hno k m r2 r' hlt hr2 hr' hp2 hpar hb2 hbr).elim
  · exact e
  · exact (hno m k r' r2 hlt hr' hr2 hpar hp2 hbr hb2).elim

/-- The maximum of a crystal with a single basin is never written: `domain_max_values` is whatever `np.empty` returned. -/
theorem C73_single_basin_max_uninitialised (ref : ℕ → K) (minData v : K) (hv : v < 10 ^ 12) (d : ℕ) :
    domainRows 6 1 (fun _ _ => some d) ref minData [⟨0, 0, v⟩] = some ([⟨[0], minData, none, d, none⟩], 1) := by
  have hin : DomainInput 6 1 (fun _ _ => some d) (fun _ _ => d) [(⟨0, 0, v⟩ : Conn K)] :=
    ⟨by simp, by simp, by simp, by simpa using hv, fun _ _ _ => rfl⟩
  obtain ⟨rows, e⟩ := C73_domain_rows_total ref minData hin
  have hvals : connValues [(⟨0, 0, v⟩ : Conn K)] = [v] := by simp [connValues]
  simp only [domainRows, hvals, bifLoop, bifStep, linkLevel, BifState.init]
  simp [hv, linkOne, findRoot, compressRoots, groupsOf, List.range_succ, groupBasin, idGroup, dimGroup, bifDone, organise, addLevels]

/-- Connections at or above `1e12` are never used: with no other connection the function fails. -/
theorem C73_huge_values_ignored [IsStrictOrderedRing K] (dim : K → ℕ → Option ℕ) (ref : ℕ → K) (minData v : K) (hv : 10 ^ 12 ≤ v) :
    domainRows 6 1 dim ref minData [⟨0, 0, v⟩] = none := by
  have hvals : connValues [(⟨0, 0, v⟩ : Conn K)] = [v] := by simp [connValues]
  have hv' : ¬ v < 10 ^ 12 := not_lt.mpr hv
  simp only [domainRows, hvals, bifLoop, bifStep, linkLevel, BifState.init]
  simp [hv', findRoot, compressRoots, groupsOf, List.range_succ, groupBasin, bifDone, organise]

/-! ## An example

Three basins with maxima 10, 8, 6; the first two are connected at 5, the last two at 2, where the domain becomes three-dimensional. -/

def treeConns : List (Conn ℚ) := [⟨0, 0, 10⟩, ⟨1, 1, 8⟩, ⟨2, 2, 6⟩, ⟨0, 1, 5⟩, ⟨1, 2, 2⟩, ⟨0, 2, 1⟩]
def treeRef (b : ℕ) : ℚ := if b = 0 then 10 else if b = 1 then 8 else 6
def treeDim (v : ℚ) (_ : ℕ) : ℕ := if v ≤ 2 then 3 else 0

example : DomainInput 9 3 (fun v b => some (treeDim v b)) treeDim treeConns :=
  ⟨by simp [treeConns], by decide +kernel, by decide, by decide +kernel, fun _ _ _ => rfl⟩

example : PeakInput 3 treeConns treeRef := ⟨by decide +kernel, by decide +kernel, by decide +kernel⟩

example : ∀ u w b, w ≤ u → treeDim u b = 3 → treeDim w b = 3 := by
  intro u w b h hu
  unfold treeDim at *
  split_ifs at hu with h2
  · rw [if_pos (h.trans h2)]

set_option maxRecDepth 100000 in
example : domainRows 9 3 (fun v b => some (treeDim v b)) treeRef 0 treeConns =
    some ([⟨[0, 1, 2], 0, some 2, 3, none⟩, ⟨[0, 1], 2, some 5, 0, some 0⟩, ⟨[2], 2, some 6, 0, some 0⟩, ⟨[0], 5, some 10, 0, some 1⟩,
      ⟨[1], 5, some 8, 0, some 1⟩], 5) := by decide +kernel

end BaderKit
