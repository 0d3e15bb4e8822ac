import Verif.Lemmas.LabelerRun
/-!
# C117: the bifurcation graph of a labeler

`fromLabeler` is `BifurcationGraph.from_labeler` before the clean-up: from the values, labels and maxima of the grid and the voxels of the atoms to
the nodes.  The parts are C46, C73, C75, C76, C77, C78, C79 and C81; here they run one after the other, and nothing that one part needs is assumed
about the part before it.
-/
set_option linter.unusedSectionVars false
namespace BaderKit
variable {K : Type} [Field K] [LinearOrder K] [IsStrictOrderedRing K]

/-- No two basins meet at the lowest value of the grid.  Where they do, the graph is wrong (`C75_flat_root_loses_children`). -/
def MeetsAboveMin (m : Machine K) (I : LabelerIn K) : Prop := ∀ conns, labelerConns m I = some conns → ∀ c ∈ conns, ∃ w < I.s.size, I.data w < c.val

/-- **C117** The domains and the values are always found. -/
theorem C117_domains_total {m : Machine K} {I : LabelerIn K} (hI : LabelerOk I) (hm : MachineOk m I.s) :
    ∃ inp values, labelerDomains m I = some (inp, values) ∧ values.Pairwise (· < ·) := by
  obtain ⟨conns, rows, values, h⟩ := labeler_run hI hm
  exact ⟨_, _, h.domains, h.asc⟩

theorem surround_at {m : Machine K} {I : LabelerIn K} (hI : LabelerOk I) (hm : MachineOk m I.s) {inp : List (DomIn K)} {values : List K}
    (hd : labelerDomains m I = some (inp, values)) {v : K} (hv : v ∈ values) {ls : List (List ℕ)} (h : surroundAt m I inp values v = some ls) :
    ls.length = I.atoms.length ∧ ∀ (i a : ℕ) (l : List ℕ), I.atoms[i]? = some a → ls[i]? = some l → (l = [] ↔ OpenVoid I.s I.data v a) := by
  obtain ⟨conns, rows, values', hr⟩ := labeler_run hI hm
  rw [hr.domains] at hd
  obtain ⟨rfl, rfl⟩ : rowsIn m.junk rows = inp ∧ values' = values := by simpa using hd
  obtain ⟨b1, b2, b3⟩ := hI.basins.big
  exact surroundAt_spec hm ⟨by omega, by omega, by omega⟩ hI.vac hI.atoms hr.asc hr.short hv h

/-- **C117** An atom has no surrounding domain at a value exactly if the voxels at or below the value that hang together with the atom reach a
periodic copy of the atom. -/
theorem C117_unsurrounded {m : Machine K} {I : LabelerIn K} (hI : LabelerOk I) (hm : MachineOk m I.s) {inp : List (DomIn K)} {values : List K}
    (hd : labelerDomains m I = some (inp, values)) {v : K} (hv : v ∈ values) {ls : List (List ℕ)} (h : surroundAt m I inp values v = some ls) :
    ls.length = I.atoms.length ∧ ∀ (i a : ℕ) (l : List ℕ), I.atoms[i]? = some a → ls[i]? = some l → (l = [] ↔ OpenVoid I.s I.data v a) :=
  surround_at hI hm hd hv h

/-- **C117** Once no atom is surrounded none is at any higher value: stopping the loop there changes nothing. -/
theorem C117_quiet {m : Machine K} {I : LabelerIn K} (hI : LabelerOk I) (hm : MachineOk m I.s) {inp : List (DomIn K)} {values : List K}
    (hd : labelerDomains m I = some (inp, values)) {u w : K} (hu : u ∈ values) (hw : w ∈ values) (huw : u ≤ w) {lu lw : List (List ℕ)}
    (h1 : surroundAt m I inp values u = some lu) (h2 : surroundAt m I inp values w = some lw) (h : ∀ l ∈ lu, l = []) : ∀ l ∈ lw, l = [] := by
  obtain ⟨e1, f1⟩ := surround_at hI hm hd hu h1
  obtain ⟨e2, f2⟩ := surround_at hI hm hd hw h2
  intro l hl
  obtain ⟨i, hi⟩ := List.getElem?_of_mem hl
  have hil : i < lw.length := (List.getElem?_eq_some_iff.mp hi).1
  have ha : I.atoms[i]? = some I.atoms[i] := List.getElem?_eq_getElem (by omega)
  have hl' : lu[i]? = some lu[i] := List.getElem?_eq_getElem (by omega)
  exact (f2 i _ l ha hi).mpr (((f1 i _ _ ha hl').mp (h _ (List.getElem_mem _))).mono huw)

/-- What a run consists of. -/
structure GraphRun (m : Machine K) (I : LabelerIn K) (g : BGraph K) (conns : List (Conn K)) (rows : List (DomainRow K)) (values : List K)
    (surr : K → List (List ℕ)) (out : List (ARow K)) : Prop where
  run : LabelerRunOk m I conns rows values
  input : AtomInput (rowsIn m.junk rows) surr values
  atoms : atomRows (rowsIn m.junk rows) surr values = some out
  graph : buildGraph out = some g
  split : SplitTree (rowsIn m.junk rows) ∧ RootsCover (rowsIn m.junk rows) I.nb
  found : ∀ v ls, surroundAt m I (rowsIn m.junk rows) values v = some ls → surr v = ls
  stop : ∀ v ∈ values, surroundAt m I (rowsIn m.junk rows) values v = none → surr v = []
  quiet : ∀ v ∈ values, surroundAt m I (rowsIn m.junk rows) values v = none →
    ∃ x ∈ values, x ≤ v ∧ ∃ l, surroundAt m I (rowsIn m.junk rows) values x = some l ∧ ∀ e ∈ l, e = []

theorem graph_run {m : Machine K} {I : LabelerIn K} (hI : LabelerOk I) (hm : MachineOk m I.s) (hlow : MeetsAboveMin m I) {g : BGraph K}
    (hg : fromLabeler m I = some g) : ∃ conns rows values surr out, GraphRun m I g conns rows values surr out := by
  obtain ⟨conns, rows, values, hr⟩ := labeler_run hI hm
  have hmin : ∀ c ∈ conns, dataMin I.s I.data < c.val := fun c hc => by
    obtain ⟨w, hw, hlt⟩ := hlow conns hr.found c hc
    exact ((dataMin_spec I.s I.data (by omega)).2 w hw).trans_lt hlt
  obtain ⟨hT, hS, hR⟩ := C76_domains_divide_basins hr.input hr.ok.peak hmin hr.made m.junk
  unfold fromLabeler at hg
  simp only [hr.domains, Option.bind_eq_bind, Option.bind_some, Option.bind_eq_some_iff] at hg
  obtain ⟨out, hout, hg⟩ := hg
  unfold atomRowsM at hout
  simp only [Option.bind_eq_bind, Option.bind_eq_some_iff] at hout
  obtain ⟨st, hst, r, hrr, hout⟩ := hout
  obtain ⟨hloop, hstop⟩ := atomLoopM_some values _ st hr.asc hst
  have hrows : atomRows (rowsIn m.junk rows) (fun v => (surroundAt m I (rowsIn m.junk rows) values v).getD []) values = some out := by
    unfold atomRows
    simp only [hloop, Option.bind_eq_bind, Option.bind_some, hrr]
    exact hout
  refine ⟨conns, rows, values, _, out, hr, ⟨hT, hr.mins, hr.asc, ?_⟩, hrows, hg, ⟨hS, hR⟩, fun v ls h => by rw [h]; rfl, fun v _ h => by rw [h]; rfl,
    fun v hv h => ?_⟩
  rotate_left
  · rcases hstop with hall | ⟨x, hx, ⟨l, hl, hlemp⟩, hbelow⟩
    · obtain ⟨l, hl⟩ := hall v hv
      rw [hl] at h; cases h
    · refine ⟨x, hx, ?_, l, hl, hlemp⟩
      by_contra hlt
      obtain ⟨l, hl⟩ := hbelow v hv (not_le.mp hlt).le
      rw [hl] at h; cases h
  intro u hu w hw huw hemp
  rcases hw' : surroundAt m I (rowsIn m.junk rows) values w with _ | lw
  · simp
  · simp only [Option.getD_some]
    rcases hu' : surroundAt m I (rowsIn m.junk rows) values u with _ | lu
    · rcases hstop with hall | ⟨x, hx, ⟨l, hl, hlemp⟩, hbelow⟩
      · obtain ⟨l, hl⟩ := hall u hu
        rw [hl] at hu'; cases hu'
      · have hxu : x ≤ u := by
          by_contra hlt
          obtain ⟨l, hl⟩ := hbelow u hu (not_le.mp hlt).le
          rw [hl] at hu'; cases hu'
        exact C117_quiet hI hm hr.domains hx hw (hxu.trans huw.le) hl hw' hlemp
    · rw [hu'] at hemp
      exact C117_quiet hI hm hr.domains hu hw huw.le hu' hw' hemp

/-- **C117** The graph that is returned is a forest, a reducible node is divided among its children and ends where they begin, and the irreducible
nodes have every basin exactly once. -/
theorem C117_graph {m : Machine K} {I : LabelerIn K} (hI : LabelerOk I) (hm : MachineOk m I.s) (hlow : MeetsAboveMin m I) {g : BGraph K}
    (hg : fromLabeler m I = some g) : Forest g ∧ BasinsSplit g ∧ MaxOk g ∧ (leafBasins g).Perm (List.range I.nb) := by
  obtain ⟨conns, rows, values, surr, out, h⟩ := graph_run hI hm hlow hg
  exact C76_nodes_divide_basins h.input h.split.1 h.split.2 h.atoms h.graph

/-- **C117** The only way to get no graph is that the search for the surroundings of the atoms fails at some value. -/
theorem C117_total {m : Machine K} {I : LabelerIn K} (hI : LabelerOk I) (hm : MachineOk m I.s) (hlow : MeetsAboveMin m I)
    (hsurr : ∀ inp values, labelerDomains m I = some (inp, values) → ∀ v ∈ values, surroundAt m I inp values v ≠ none) : ∃ g, fromLabeler m I = some g := by
  obtain ⟨conns, rows, values, hr⟩ := labeler_run hI hm
  have hmin : ∀ c ∈ conns, dataMin I.s I.data < c.val := fun c hc => by
    obtain ⟨w, hw, hlt⟩ := hlow conns hr.found c hc
    exact ((dataMin_spec I.s I.data (by omega)).2 w hw).trans_lt hlt
  obtain ⟨hT, hS, hR⟩ := C76_domains_divide_basins hr.input hr.ok.peak hmin hr.made m.junk
  have hsome : ∀ v ∈ values, ∃ l, surroundAt m I (rowsIn m.junk rows) values v = some l := fun v hv =>
    Option.ne_none_iff_exists'.mp (hsurr _ _ hr.domains v hv)
  have hA : AtomInput (rowsIn m.junk rows) (fun v => (surroundAt m I (rowsIn m.junk rows) values v).getD []) values := by
    refine ⟨hT, hr.mins, hr.asc, fun u hu w hw huw hemp => ?_⟩
    obtain ⟨lu, hlu⟩ := hsome u hu
    obtain ⟨lw, hlw⟩ := hsome w hw
    simp only [hlu, hlw, Option.getD_some] at hemp ⊢
    exact C117_quiet hI hm hr.domains hu hw huw.le hlu hlw hemp
  obtain ⟨out, hout⟩ := C75_total hA
  obtain ⟨g, hg, -⟩ := C76_graph_of_rows (rows := out) (fun k r p hr hp => by
    obtain ⟨_, _, _, hl⟩ := C75_parents hA hout hr
    exact (hl p hp).1)
  refine ⟨g, ?_⟩
  have e : atomRowsM (rowsIn m.junk rows) (surroundAt m I (rowsIn m.junk rows) values) values = some out := by
    unfold atomRowsM
    rw [atomLoopM_all values _ hsome]
    exact hout
  unfold fromLabeler
  simp only [hr.domains, Option.bind_eq_bind, Option.bind_some, e]
  exact hg

/-! ## The nodes are the regions -/

/-- A value below `t` but not below any of the given values that are below `t`. -/
theorem last_below {l : List K} {t : K} (h : ∃ x ∈ l, x < t) : ∃ y ∈ l, y < t ∧ ∀ x ∈ l, x < t → x ≤ y := by
  obtain ⟨x, hx, hxt⟩ := h
  obtain ⟨y, hy, hmax⟩ := (l.toFinset.filter fun z => z < t).exists_max_image id ⟨x, by simp [hx, hxt]⟩
  simp only [Finset.mem_filter, List.mem_toFinset, id] at hy hmax
  exact ⟨y, hy.1, hy.2, fun z hz hzt => hmax z ⟨hz, hzt⟩⟩

theorem root_has_max {m : Machine K} {I : LabelerIn K} (hI : LabelerOk I) (h2 : 2 ≤ I.nb) {conns : List (Conn K)} {rows : List (DomainRow K)}
    {values : List K} (hr : LabelerRunOk m I conns rows values) {n : ℕ} {r : DomainRow K} (hn : rows[n]? = some r) : ∃ M, r.maxV = some M := by
  rcases hM : r.maxV with _ | M
  · exfalso
    obtain ⟨stop, top, hok, htm, htop⟩ := domainRows_ok hr.input hr.made
    have hch : ∀ r' ∈ rows, r'.parent ≠ some n := by
      intro r' hr' hp
      obtain ⟨k, hk⟩ := List.getElem?_of_mem hr'
      obtain ⟨-, q, hq, hqm, -⟩ := hok.parent k r' n hk hp
      rw [hn] at hq
      obtain rfl : r = q := by simpa using hq
      rw [hM] at hqm; cases hqm
    obtain ⟨b, hb, h1, -⟩ := C73_childless_rows hr.input hr.ok.peak hr.made hn hch
    have hp : r.parent = none := by
      by_contra hp
      rw [h1 hp] at hM; cases hM
    have hbm : b ∈ r.basins := by rw [hb]; simp
    obtain ⟨w, -, -, hdw, -⟩ := rowExists hok htm hn
    have hbn := ((hr.ok.basin w b).mp ((hdw.2.2 b hbm b).mp hbm).1).1
    have hpos : 0 < I.s.size := by have := hI.basins.top_lt b hbn; omega
    have hlo := (dataMin_spec I.s I.data hpos).2
    have hd := C73_rows_are_domains hr.input hr.made (List.mem_of_getElem? hn) (t := dataMin I.s I.data)
      ⟨fun h => absurd hp h, fun M h => by rw [hM] at h; cases h⟩ hbm ((hr.ok.basin _ b).mpr ⟨hbn, hlo _ (hI.basins.top_lt b hbn)⟩)
    obtain ⟨-, v, hv, -, hB⟩ := (hr.ok.region _ _).mp hd
    have hall : ∀ b' < I.nb, b' = b := by
      intro b' hb'
      have := (hB b').mpr ⟨hb', hlo _ (hI.basins.top_lt b' hb'), region_all hlo hv (hI.basins.top_lt b' hb')⟩
      rw [hb] at this
      simpa using this
    have h0 := hall 0 (by omega)
    have h1 := hall 1 (by omega)
    omega
  · exact ⟨M, rfl⟩

/-- **C117** The nodes are the connected regions of the grid.  For every value above the lowest one and every voxel at or above it exactly one node
reaches from below the value to it and has as basins those whose maxima hang together with the voxel through voxels at or above the value. -/
theorem C117_nodes_are_regions {m : Machine K} {I : LabelerIn K} (hI : LabelerOk I) (hm : MachineOk m I.s) (hlow : MeetsAboveMin m I) (h2 : 2 ≤ I.nb)
    {g : BGraph K} (hg : fromLabeler m I = some g) {t : K} (hlo : ∃ w < I.s.size, I.data w < t) {v : ℕ} (hv : v < I.s.size) (htv : t ≤ I.data v) :
    ∃! k : ℕ, k ∈ g.nodes ∧ (g.node k).minV < t ∧ t ≤ (g.node k).maxV ∧
      ∀ b, b ∈ (g.node k).basins ↔ b < I.nb ∧ t ≤ I.data (I.maxima b) ∧ RegionAt I.s I.data t v (I.maxima b) := by
  classical
  obtain ⟨conns, rows, values, surr, out, h⟩ := graph_run hI hm hlow hg
  have hr := h.run
  obtain ⟨stop, top, hok, htm, htop⟩ := domainRows_ok hr.input hr.made
  obtain ⟨g', hg', -, hnodes, hnode⟩ := C76_graph_of_rows (rows := out) (fun k r p hr hp => by
    obtain ⟨_, _, _, hl⟩ := C75_parents h.input h.atoms hr
    exact (hl p hp).1)
  rw [h.graph] at hg'
  obtain rfl : g = g' := by simpa using hg'
  have hmin : dataMin I.s I.data < t := by
    obtain ⟨w, hw, hlt⟩ := hlo
    exact ((dataMin_spec I.s I.data (by omega)).2 w hw).trans_lt hlt
  set B := (List.range I.nb).filter fun b => decide (t ≤ I.data (I.maxima b) ∧ RegionAt I.s I.data t v (I.maxima b)) with hB
  have hBs : B.Pairwise (· < ·) := List.pairwise_lt_range.filter _
  have hBm : ∀ b, b ∈ B ↔ b < I.nb ∧ t ≤ I.data (I.maxima b) ∧ RegionAt I.s I.data t v (I.maxima b) := fun b => by
    rw [hB, List.mem_filter, List.mem_range, decide_eq_true_eq]
  have hdom := (hr.ok.region t B).mpr ⟨hBs, v, hv, htv, hBm⟩
  obtain ⟨n, ⟨r, hn, hrB, ha⟩, hu⟩ := C73_domains_are_rows hr.input hr.ok.peak.belowPeak hr.made hdom
  obtain ⟨M, hM⟩ := root_has_max hI h2 hr hn
  have hq : (rowsIn m.junk rows)[n]? = some ⟨r.basins, r.minV, M, r.dim, r.parent⟩ := by rw [rowsIn_get, hn]; simp [hM]
  have hrmin : r.minV < t := by
    by_cases hp : r.parent = none
    · rw [hok.root r (List.mem_of_getElem? hn) hp]; exact hmin
    · exact ha.1 hp
  obtain ⟨y, hy, hyt, hymax⟩ := last_below (l := dataMin I.s I.data :: r.minV :: (out.map ARow.minV ++ out.map ARow.maxV)) (t := t) ⟨_, by simp, hmin⟩
  have hpiece : ∀ a ∈ out, (a.minV < t ∧ t ≤ a.maxV) ↔ (a.minV ≤ y ∧ y < a.maxV) := by
    intro a ha
    constructor
    · rintro ⟨h1, h2⟩
      exact ⟨hymax _ (by simp only [List.mem_cons, List.mem_append, List.mem_map]; exact Or.inr (Or.inr (Or.inl ⟨a, ha, rfl⟩))) h1, hyt.trans_le h2⟩
    · rintro ⟨h1, h2⟩
      refine ⟨h1.trans_lt hyt, ?_⟩
      by_contra hcon
      have := hymax a.maxV (by simp only [List.mem_cons, List.mem_append, List.mem_map]; exact Or.inr (Or.inr (Or.inr ⟨a, ha, rfl⟩))) (not_le.mp hcon)
      exact absurd h2 (not_lt.mpr this)
  obtain ⟨k, ⟨a, hk, hsrc, hk1, hk2⟩, huk⟩ := C75_one_row_at_a_value h.input h.atoms hq (v := y) (hymax _ (by simp) hrmin) (hyt.trans_le (ha.2 M hM))
  obtain ⟨e1, -, -, e4, e5, -⟩ := hnode k a hk
  have hka := (hpiece a (List.mem_of_getElem? hk)).mpr ⟨hk1, hk2⟩
  obtain ⟨q, hq', hab, -⟩ := C75_rows_are_pieces h.input h.atoms (List.mem_of_getElem? hk)
  rw [hsrc, hq] at hq'
  obtain rfl : _ = q := by simpa using hq'
  refine ⟨k, ⟨by rw [hnodes]; exact List.mem_range.mpr (List.getElem?_eq_some_iff.mp hk).1, by rw [e4]; exact hka.1, by rw [e5]; exact hka.2, fun b => ?_⟩, ?_⟩
  · rw [e1, hab]
    show b ∈ r.basins ↔ _
    rw [hrB, hBm]
  · rintro k' ⟨hk', f1, f2, f3⟩
    rw [hnodes, List.mem_range] at hk'
    have hk'' : out[k']? = some out[k'] := List.getElem?_eq_getElem hk'
    obtain ⟨d1, -, -, d4, d5, -⟩ := hnode k' _ hk''
    rw [d4] at f1
    rw [d5] at f2
    rw [d1] at f3
    obtain ⟨q', hq1, hb1, -, hmn, hmx, -⟩ := C75_rows_are_pieces h.input h.atoms (List.mem_of_getElem? hk'')
    obtain ⟨r', hr', rfl⟩ := rowsIn_some hq1
    have hb1 : out[k'].basins = r'.basins := hb1
    have hmn : r'.minV ≤ out[k'].minV := hmn
    have hmx : out[k'].maxV ≤ r'.maxV.getD (m.junk out[k'].src) := hmx
    obtain ⟨w, -, -, hdw, -⟩ := rowExists hok htm hr'
    have hbas : r'.basins = B := by
      refine List.Perm.eq_of_pairwise (le := (· < ·)) (fun a b _ _ h1 h2 => absurd h1 (not_lt.mpr h2.le)) hdw.2.1 hBs ?_
      refine (List.perm_ext_iff_of_nodup (hdw.2.1.imp fun h => ne_of_lt h) (hBs.imp fun h => ne_of_lt h)).mpr fun b => ?_
      rw [hBm, ← f3 b, hb1]
    have hsame : out[k'].src = n := hu _ ⟨r', hr', hbas, fun _ => hmn.trans_lt f1, fun M' hM' => by
      rw [hM'] at hmx; exact f2.trans hmx⟩
    obtain ⟨p1, p2⟩ := (hpiece _ (List.mem_of_getElem? hk'')).mp ⟨f1, f2⟩
    exact huk k' ⟨_, hk'', hsame, p1, p2⟩

theorem GraphRun.node {m : Machine K} {I : LabelerIn K} {g : BGraph K} {conns : List (Conn K)} {rows : List (DomainRow K)} {values : List K}
    {surr : K → List (List ℕ)} {out : List (ARow K)} (h : GraphRun m I g conns rows values surr out) {k : ℕ} (hk : k ∈ g.nodes) :
    ∃ (a : ARow K) (r : DomainRow K), out[k]? = some a ∧
      ((g.node k).basins = a.basins ∧ (g.node k).dim = a.dim ∧ (g.node k).minV = a.minV ∧ (g.node k).maxV = a.maxV) ∧ (g.node k).atoms = a.atoms ∧
      rows[a.src]? = some r ∧ (g.node k).parent = a.parent ∧ a.basins = r.basins ∧ a.dim = r.dim ∧ r.minV ≤ a.minV ∧
      a.maxV ≤ r.maxV.getD (m.junk a.src) := by
  obtain ⟨g', hg', -, hnodes, hnode⟩ := C76_graph_of_rows (rows := out) (fun k r p hr hp => by
    obtain ⟨_, _, _, hl⟩ := C75_parents h.input h.atoms hr
    exact (hl p hp).1)
  rw [h.graph] at hg'
  obtain rfl : g = g' := by simpa using hg'
  rw [hnodes, List.mem_range] at hk
  have hk' : out[k]? = some out[k] := List.getElem?_eq_getElem hk
  obtain ⟨d1, d2, d3, d4, d5, d6, -⟩ := hnode k _ hk'
  obtain ⟨q, hq, hb, hd, hmn, hmx, -⟩ := C75_rows_are_pieces h.input h.atoms (List.mem_of_getElem? hk')
  obtain ⟨r, hr, rfl⟩ := rowsIn_some hq
  exact ⟨_, r, hk', ⟨d1, d2, d4, d5⟩, d3, hr, d6, hb, hd, hmn, hmx⟩

theorem region_path {s : Shape} {data : ℕ → K} {c : K} {u v : ℕ} (hu : u < s.size) (h : RegionAt s data c u v) :
    v < s.size ∧ ∃ t, ShiftPath (VoxEdge s neighbors26 (solidAt data c)) u v t := by
  induction h with
  | refl => exact ⟨hu, 0, .refl u⟩
  | @tail a b _ hab ih =>
    obtain ⟨ha, t, ht⟩ := ih
    obtain ⟨h1, h2, d, hd, rfl⟩ := hab
    refine ⟨nbr_lt ha (neighbors26_fits (pos_of_lt_size hu) d hd), t + (nbrShift s a d).2, ht.tail ⟨ha, decide_eq_true h1, decide_eq_true h2, d, hd, ?_⟩⟩
    refine Prod.ext ?_ rfl
    show (nbrShift s a d).1 = nbr s a d
    unfold nbrShift nbr
    simp only
    rw [(C01_wrap_shift s (addC (flatToCoords s a) d)).1]

theorem networkRank_region {s : Shape} {data : ℕ → K} {c : K} (hp : s.Pos) {u v : ℕ} (hu : u < s.size) (h : RegionAt s data c u v) :
    networkRank K s neighbors26 (solidAt data c) u = networkRank K s neighbors26 (fun w => decide (c ≤ data w)) v := by
  obtain ⟨hv, t0, hpth⟩ := region_path hu h
  have hsym : ∀ x y t, VoxEdge s neighbors26 (solidAt data c) x y t → VoxEdge s neighbors26 (solidAt data c) y x (-t) := fun _ _ _ h => h.symm neighbors26_ok
  have e : {t | ConnTo s neighbors26 (solidAt data c) u u t} = {t | ConnTo s neighbors26 (solidAt data c) v v t} := by
    ext t
    simp only [Set.mem_setOf_eq]
    rw [connTo_iff neighbors26_ok hu hu, connTo_iff neighbors26_ok hv hv]
    exact ⟨fun h => path_conj hsym hpth h, fun h => path_conj hsym (hpth.symm hsym) h⟩
  show _ = networkRank K s neighbors26 (solidAt data c) v
  unfold networkRank
  rw [e]

/-- **C117** The dimensionality of a node is, at every connection value it contains, the number of independent lattice translations of its region, if
no two infinite regions join as the value falls. -/
theorem C117_node_dimension {m : Machine K} {I : LabelerIn K} (hI : LabelerOk I) (hm : MachineOk m I.s) (hlow : MeetsAboveMin m I)
    {g : BGraph K} (hg : fromLabeler m I = some g) {conns : List (Conn K)} (hcs : labelerConns m I = some conns)
    (hno : NoInfiniteJoin I.s neighbors26 I.data conns) {k : ℕ} (hk : k ∈ g.nodes) {c : Conn K} (hc : c ∈ conns) (h1 : (g.node k).minV < c.val)
    (h3 : c.val ≤ (g.node k).maxV) {b : ℕ} (hb : b ∈ (g.node k).basins) (hbt : c.val ≤ I.data (I.maxima b)) :
    (g.node k).dim = networkRank K I.s neighbors26 (fun w => decide (c.val ≤ I.data w)) (I.maxima b) := by
  obtain ⟨conns', rows, values, surr, out, h⟩ := graph_run hI hm hlow hg
  have hr := h.run
  have hcc := hr.found
  rw [hcs] at hcc
  obtain rfl : conns = conns' := by simpa using hcc
  obtain ⟨a, r, hka, e1, e2, hra, -, hab, had, hmn, hmx⟩ := h.node hk
  rw [e1.2.2.1] at h1
  rw [e1.2.2.2] at h3
  rw [e1.1, hab] at hb
  have halive : RowAlive r c.val := ⟨fun _ => hmn.trans_lt h1, fun M hM => by rw [hM] at hmx; exact h3.trans hmx⟩
  obtain ⟨stop, top, hok, htm, htop⟩ := domainRows_ok hr.input hr.made
  obtain ⟨w, -, -, hdw, -⟩ := rowExists hok htm hra
  have hbn := ((hr.ok.basin w b).mp ((hdw.2.2 b hb b).mp hb).1).1
  have hbt' := (hr.ok.basin c.val b).mpr ⟨hbn, hbt⟩
  have hpeak : BelowPeak conns fun b => I.data (I.maxima b) := fun d hd => by
    have := hr.ok.peak.belowPeak d hd
    rw [hI.ref _ (hr.ok.lt d hd).1, hI.ref _ (hr.ok.lt d hd).2] at this
    exact this
  rw [e1.2.1, had, C73_tree_dimension hr.level hr.ok.ne hr.ok.lt hr.len hr.big hpeak hno hr.made (List.mem_of_getElem? hra) hc halive hb hbt']
  have hdom := C73_rows_are_domains hr.input hr.made (List.mem_of_getElem? hra) halive hb hbt'
  obtain ⟨x, l, hx⟩ := List.exists_cons_of_ne_nil hdom.1
  have hxm : x ∈ r.basins := by rw [hx]; simp
  obtain ⟨-, v, hv, -, hB⟩ := (hr.ok.region _ _).mp hdom
  obtain ⟨hxn, -, hx3⟩ := (hB x).mp hxm
  obtain ⟨-, -, hb3⟩ := (hB b).mp hb
  rw [hx]
  exact networkRank_region hI.basins.pos (hI.basins.top_lt x hxn) ((hx3.symm hI.basins.pos hv).trans hb3)

/-- **C117** The atoms of a node: an atom is listed only if the voxels at or below the lowest value of the node that hang together with the atom do not
reach a periodic copy of it. -/
theorem C117_node_atoms {m : Machine K} {I : LabelerIn K} (hI : LabelerOk I) (hm : MachineOk m I.s) (hlow : MeetsAboveMin m I)
    {g : BGraph K} (hg : fromLabeler m I = some g) {k : ℕ} (hk : k ∈ g.nodes) (hlt : (g.node k).minV < (g.node k).maxV) {i a : ℕ} (hi : i ∈ (g.node k).atoms)
    (ha : I.atoms[i]? = some a) : ¬ OpenVoid I.s I.data (g.node k).minV a := by
  obtain ⟨conns, rows, values, surr, out, h⟩ := graph_run hI hm hlow hg
  obtain ⟨r, row, hka, e1, e2, -⟩ := h.node hk
  rw [e1.2.2.1, e1.2.2.2] at hlt
  rw [e2] at hi
  rw [e1.2.2.1]
  obtain ⟨map, hF, -⟩ := h.input.result h.atoms
  have hmem := (hF.born r (List.mem_of_getElem? hka) hlt).1
  obtain ⟨l, hl, hsrc⟩ := (C75_atoms_at_birth h.input h.atoms (List.mem_of_getElem? hka) hlt i).mp hi
  rcases hs : surroundAt m I (rowsIn m.junk rows) values r.minV with _ | ls
  · rw [h.stop _ hmem hs] at hl
    simp at hl
  · rw [h.found _ _ hs] at hl
    intro ho
    have := ((surround_at hI hm h.run.domains hmem hs).2 i a l ha hl).mpr ho
    rw [this] at hsrc
    cases hsrc

/-! ## The current domains -/

theorem next_above {l : List K} {v t : K} (h : v < t) : ∃ y, v < y ∧ y ≤ t ∧ ∀ x ∈ l, v < x → y ≤ x := by
  obtain ⟨y, hy, hmin⟩ := ((t :: l).toFinset.filter fun z => v < z).exists_min_image id ⟨t, by simp [h]⟩
  simp only [Finset.mem_filter, List.mem_toFinset, id, List.mem_cons] at hy hmin
  exact ⟨y, hy.2, hmin t ⟨Or.inl rfl, h⟩, fun x hx hvx => hmin x ⟨Or.inr hx, hvx⟩⟩

/-- **C117** At every value of the search every voxel above the value is labelled with a basin that is in exactly one current domain. -/
theorem C117_outside_labelled {m : Machine K} {I : LabelerIn K} (hI : LabelerOk I) (hm : MachineOk m I.s) (h2 : 2 ≤ I.nb)
    {inp : List (DomIn K)} {values : List K} (hd : labelerDomains m I = some (inp, values)) {v : K} (hv : v ∈ values) :
    OutsideLabelled I.s (fun w => decide (I.data w ≤ v)) I.nb I.labels inp (currentDoms inp v) := by
  obtain ⟨conns, rows, values', hr⟩ := labeler_run hI hm
  rw [hr.domains] at hd
  obtain ⟨rfl, rfl⟩ : rowsIn m.junk rows = inp ∧ values' = values := by simpa using hd
  obtain ⟨stop, top, hok, htm, htop⟩ := domainRows_ok hr.input hr.made
  intro w hw hS
  have hvw : v < I.data w := not_le.mp (of_decide_eq_false hS)
  obtain ⟨b, hb, hlb⟩ := hI.basins.label w hw
  have hbt := (region_top hI.basins _ w le_rfl hw b hb hlb).1
  have hlo : dataMin I.s I.data ≤ v := by
    obtain ⟨x, hx, rfl⟩ := hr.vals v hv
    exact (dataMin_spec I.s I.data (by omega)).2 x hx
  obtain ⟨t, hvt, htw, hnext⟩ := next_above (l := rows.map DomainRow.minV ++ rows.map fun r => r.maxV.getD 0) hvw
  have hBt := (hr.ok.basin t b).mpr ⟨hb, htw.trans hbt⟩
  obtain ⟨B, hB, hbB⟩ := basinAt_domain hr.input.lt hBt
  obtain ⟨n, ⟨r, hn, hrB, ha⟩, hu⟩ := C73_domains_are_rows hr.input hr.ok.peak.belowPeak hr.made hB
  obtain ⟨M, hM⟩ := root_has_max hI h2 hr hn
  have hcur : n ∈ currentDoms (rowsIn m.junk rows) v := by
    rw [currentDoms_mem]
    refine ⟨_, by rw [rowsIn_get, hn]; rfl, ?_, ?_⟩
    · show r.minV ≤ v
      by_cases hp : r.parent = none
      · rw [hok.root r (List.mem_of_getElem? hn) hp]; exact hlo
      · by_contra hcon
        have := hnext r.minV (List.mem_append_left _ (List.mem_map_of_mem (List.mem_of_getElem? hn))) (not_le.mp hcon)
        exact absurd (ha.1 hp) (not_lt.mpr this)
    · show v < r.maxV.getD (m.junk n)
      rw [hM]
      exact hvt.trans_le (ha.2 M hM)
  obtain ⟨i, hi, hin⟩ := List.getElem_of_mem hcur
  refine ⟨b, hlb, hb, i, hi, ⟨_, by rw [hin, rowsIn_get, hn]; rfl, by show b ∈ r.basins; rw [hrB]; exact hbB⟩, ?_⟩
  intro j hj q hq hbq
  obtain ⟨r', hr', rfl⟩ := rowsIn_some hq
  have hbq : b ∈ r'.basins := hbq
  have hjc : (currentDoms (rowsIn m.junk rows) v)[j] ∈ currentDoms (rowsIn m.junk rows) v := List.getElem_mem _
  rw [currentDoms_mem] at hjc
  obtain ⟨q', hq', h3, h4⟩ := hjc
  rw [hq] at hq'
  obtain rfl : _ = q' := by simpa using hq'
  have h3 : r'.minV ≤ v := h3
  have halive : RowAlive r' t := by
    refine ⟨fun _ => h3.trans_lt hvt, fun M' hM' => hnext M' (List.mem_append_right _ (List.mem_map.mpr ⟨r', List.mem_of_getElem? hr', by rw [hM']; rfl⟩)) ?_⟩
    have h4 : v < r'.maxV.getD (m.junk (currentDoms (rowsIn m.junk rows) v)[j]) := h4
    rw [hM'] at h4; exact h4
  have hdom := C73_rows_are_domains hr.input hr.made (List.mem_of_getElem? hr') halive hbq hBt
  have hsame : r'.basins = B := by
    refine List.Perm.eq_of_pairwise (le := (· < ·)) (fun a b _ _ h1 h2 => absurd h1 (not_lt.mpr h2.le)) hdom.2.1 hB.2.1 ?_
    refine (List.perm_ext_iff_of_nodup (hdom.2.1.imp fun h => ne_of_lt h) (hB.2.1.imp fun h => ne_of_lt h)).mpr fun c => ?_
    rw [hdom.2.2 b hbq c, hB.2.2 b hbB c]
  have hjn : (currentDoms (rowsIn m.junk rows) v)[j] = n := hu _ ⟨r', hr', hsame, halive⟩
  exact (List.Nodup.getElem_inj_iff (currentDoms_nodup _ _)).mp (hjn.trans hin.symm)

theorem surroundLoop_dom {nv nd : ℕ} {voidDim domDim : ℕ → ℕ} {counts : ℕ → ℕ → ℕ} {fuel d : ℕ} {l : List ℕ}
    (h : surroundLoop nv nd voidDim domDim counts fuel (.dom d) = some l) : d ∈ l := by
  cases fuel with
  | zero => simp [surroundLoop] at h
  | succ n =>
    simp only [surroundLoop] at h
    split_ifs at h with h0
    · obtain rfl : [d] = l := by simpa using h
      simp
    · obtain ⟨l', _, rfl⟩ := Option.map_eq_some_iff.mp h
      simp

theorem surround_inside {m : Machine K} {I : LabelerIn K} (hI : LabelerOk I) (hm : MachineOk m I.s) (h2 : 2 ≤ I.nb)
    {inp : List (DomIn K)} {values : List K} (hd : labelerDomains m I = some (inp, values)) {v : K} (hv : v ∈ values) {ls : List (List ℕ)}
    (h : surroundAt m I inp values v = some ls) {i a : ℕ} (ha : I.atoms[i]? = some a) (hva : v < I.data a) {e : ℕ} (he : e ∈ currentDoms inp v)
    {q : DomIn K} (hq : inp[e]? = some q) {b : ℕ} (hb : b ∈ q.basins) (hl : I.labels a = b) : ∃ l, ls[i]? = some l ∧ e ∈ l := by
  have hout := C117_outside_labelled hI hm h2 hd hv
  unfold surroundAt at h
  simp only [Option.bind_eq_bind, Option.bind_eq_some_iff] at h
  obtain ⟨g, -, counts, -, h⟩ := h
  obtain ⟨h1, h2⟩ := mapM_getElem h
  have hil : i < I.atoms.length := (List.getElem?_eq_some_iff.mp ha).1
  have hls : ls[i]? = some ls[i] := List.getElem?_eq_getElem (by omega)
  refine ⟨_, hls, ?_⟩
  have h3 := h2 i a _ ha hls
  rw [Option.bind_eq_some_iff] at h3
  obtain ⟨grp, hgrp, hfind⟩ := h3
  have hS : decide (I.data a ≤ v) = false := decide_eq_false (not_le.mpr hva)
  unfold atomGroup at hgrp
  rw [if_neg (by show ¬ decide (I.data a ≤ v) = true; rw [hS]; simp)] at hgrp
  obtain rfl : _ = grp := by simpa using hgrp
  obtain ⟨n, hn⟩ := List.getElem?_of_mem he
  have hidx := (domainIdx_iff hout (hI.atoms a (List.mem_of_getElem? ha)) hS (d := n)).mpr ⟨e, q, b, hn, hq, hb, hl⟩
  rw [hidx] at hfind
  obtain ⟨l, hl', hf⟩ := Option.map_eq_some_iff.mp hfind
  rw [← hf]
  refine List.mem_map.mpr ⟨n, surroundLoop_dom hl', ?_⟩
  rw [List.getD_eq_getElem?_getD, hn]
  rfl

/-- **C117** An atom whose voxel is above the lowest value of a node and has one of the basins of the node is listed as an atom of the node. -/
theorem C117_atom_in_node {m : Machine K} {I : LabelerIn K} (hI : LabelerOk I) (hm : MachineOk m I.s) (hlow : MeetsAboveMin m I) (h2 : 2 ≤ I.nb)
    {g : BGraph K} (hg : fromLabeler m I = some g) {k : ℕ} (hk : k ∈ g.nodes) (hlt : (g.node k).minV < (g.node k).maxV) {i a b : ℕ}
    (ha : I.atoms[i]? = some a) (hva : (g.node k).minV < I.data a) (hb : b ∈ (g.node k).basins) (hl : I.labels a = b) : i ∈ (g.node k).atoms := by
  obtain ⟨conns, rows, values, surr, out, h⟩ := graph_run hI hm hlow hg
  obtain ⟨r, row, hka, e1, e2, hra, -, hab, -, hmn, hmx⟩ := h.node hk
  rw [e1.2.2.1, e1.2.2.2] at hlt
  rw [e1.2.2.1] at hva
  rw [e1.1, hab] at hb
  rw [e2]
  obtain ⟨map, hF, -⟩ := h.input.result h.atoms
  have hmem := (hF.born r (List.mem_of_getElem? hka) hlt).1
  rw [C75_atoms_at_birth h.input h.atoms (List.mem_of_getElem? hka) hlt i]
  have hq : (rowsIn m.junk rows)[r.src]? = some ⟨row.basins, row.minV, row.maxV.getD (m.junk r.src), row.dim, row.parent⟩ := by
    rw [rowsIn_get, hra]; rfl
  have hcur : r.src ∈ currentDoms (rowsIn m.junk rows) r.minV := currentDoms_mem.mpr ⟨_, hq, hmn, hlt.trans_le hmx⟩
  rcases hs : surroundAt m I (rowsIn m.junk rows) values r.minV with _ | ls
  · exfalso
    obtain ⟨x, hx, hxv, l, hl1, hl2⟩ := h.quiet _ hmem hs
    obtain ⟨f1, f2⟩ := surround_at hI hm h.run.domains hx hl1
    have hil : i < I.atoms.length := (List.getElem?_eq_some_iff.mp ha).1
    have hli : l[i]? = some l[i] := List.getElem?_eq_getElem (by omega)
    have := (f2 i a _ ha hli).mp (hl2 _ (List.getElem_mem _))
    exact absurd (this.1.trans hxv) (not_le.mpr hva)
  · rw [h.found _ _ hs]
    exact surround_inside hI hm h2 h.run.domains hmem hs ha hva hcur hq hb hl

/-- **C117** There is a schedule of the contact counters for which a graph without atoms is returned. -/
theorem C117_schedule_exists {m : Machine K} {I : LabelerIn K} (hI : LabelerOk I) (hm : MachineOk m I.s) (hlow : MeetsAboveMin m I) (h2 : 2 ≤ I.nb)
    (h0 : I.atoms = []) : ∃ sched g, fromLabeler { m with sched := sched } I = some g := by
  classical
  obtain ⟨conns, rows, values, hr⟩ := labeler_run hI hm
  obtain ⟨b1, b2, b3⟩ := hI.basins.big
  have key : ∀ v ∈ values, ∃ sc, ∀ sched : K → List ℕ, sched v = sc → surroundAt { m with sched := sched } I (rowsIn m.junk rows) values v ≠ none := by
    intro v hv
    have hlast := voidsUp_last (data := I.data) hr.asc hv
    have hfuel : (voidsUp I.data values v).length * (I.s.size * neighbors26.length) < m.fuel := by
      have e1 : (voidsUp I.data values v).length ≤ I.s.size := by
        unfold voidsUp
        rw [List.length_map]
        exact (List.length_filter_le _ _).trans hr.short
      have e2 : neighbors26.length = 26 := rfl
      have := Nat.mul_le_mul_right (I.s.size * 26) e1
      have := hm.fuel
      rw [e2]
      nlinarith
    obtain ⟨g, _, _, _, e, -, -⟩ := groupsRun_inv (b := False) (root := m.root) (tol := m.tol) (vac := I.vac) neighbors26_ok ⟨by omega, by omega, by omega⟩ hm.root hm.tol0 hm.tol1 m.fuel (voidsUp I.data values v)
      (fun _ => false) [] (fun _ => false) 0 GroupState.init (CycInv.init neighbors26_ok) (voidsUp_grow hr.asc v) (fun h => absurd h id)
      (fun w _ => hI.vac w) (by omega)
    obtain ⟨⟨work, -, hser⟩, -⟩ := C81_contacts (by decide) neighbors26_ok ⟨by omega, by omega, by omega⟩ hm.root hm.tol0 hm.tol1 (voidsUp_grow hr.asc v)
      hlast.symm (fun w _ => hI.vac w) hfuel e (C117_outside_labelled hI hm h2 hr.domains hv) rfl
    obtain ⟨cnt, hcnt, -⟩ := hser (List.range I.s.nx) (List.Perm.refl _)
    refine ⟨serialSched (fun i => work.getD i []) (List.range I.s.nx), fun (sched : K → List ℕ) hsc => ?_⟩
    unfold surroundAt
    change (groupsRun m.fuel m.root m.tol I.s neighbors26 I.vac (fun _ => false) (voidsUp I.data values v) GroupState.init >>= _) ≠ none
    rw [e]
    simp only [Option.bind_eq_bind, Option.bind_some, hsc]
    change (contactCounts m.fuel g.uf.parent g.roots I.s neighbors26 (voidAt I.data v) I.vac _ _ >>= _) ≠ none
    rw [hcnt, h0]
    simp
  choose! sc hsc using key
  refine ⟨sc, C117_total hI (m := { m with sched := sc }) ⟨hm.order1, hm.order2, hm.root, hm.tol0, hm.tol1, hm.fuel⟩ hlow ?_⟩
  intro inp values' hd v hv
  have hd' : labelerDomains m I = some (inp, values') := hd
  rw [hr.domains] at hd'
  obtain ⟨rfl, rfl⟩ : rowsIn m.junk rows = inp ∧ values = values' := by simpa using hd'
  exact hsc v hv sc rfl

/-! ## When no two basins meet at the lowest value -/

/-- **C117** If for any two neighbours of different basins some voxel is lower than both, no two basins meet at the lowest value. -/
theorem C117_meets_above_min {m : Machine K} {I : LabelerIn K} (hI : LabelerOk I) (hm : MachineOk m I.s)
    (h : ∀ v w, v < I.s.size → IsNbr I.s neighbors26 v w → I.labels v ≠ I.labels w → ∃ u < I.s.size, I.data u < min (I.data v) (I.data w)) :
    MeetsAboveMin m I := by
  obtain ⟨sad, edge, hM, hrun⟩ := labelerConns_spec hI hm
  have hB := hI.basins
  intro conns hc c hcc
  rw [hrun] at hc
  obtain rfl : _ = conns := by simpa using hc
  rw [mem_uniqueConns] at hcc
  rcases List.mem_append.mp hcc with hcc | hcc
  · obtain ⟨hij, hj, v, w, hv, -, hw, hval, hor⟩ := C78_sound hB.fits hB.labelsOk hB.range hcc
    obtain ⟨u, hu, hlt⟩ := h v w hv hw (by rcases hor with ⟨e1, e2⟩ | ⟨e1, e2⟩ <;> rw [e1, e2] <;> omega)
    exact ⟨u, hu, by rw [hval]; exact hlt⟩
  · obtain ⟨b, hb, rfl⟩ := List.mem_map.mp hcc
    rw [List.mem_range] at hb
    show ∃ w < I.s.size, I.data w < I.ref b
    rw [hI.ref b hb]
    have htop := hB.top_lt b hb
    by_contra hcon
    push Not at hcon
    have key : ∀ w, RegionAt I.s I.data (I.data (I.maxima b)) (I.maxima b) w → w = I.maxima b := by
      intro w hw
      induction hw with
      | refl => rfl
      | @tail x y _ hxy ih =>
        subst ih
        obtain ⟨-, h2, d, hd, rfl⟩ := hxy
        have hl := nbr_lt htop (hB.fits d hd)
        have h3 := hB.top_max b hb _ ((isNbr_iff hB.fits htop).mpr ⟨d, hd, rfl⟩)
        exact hB.distinct _ hl _ htop (le_antisymm h3 h2)
    have hall : ∀ w < I.s.size, w = I.maxima b := fun w hw => key w (region_all hcon htop hw)
    obtain ⟨b1, b2, b3⟩ := hB.big
    have hsz : 2 ≤ I.s.size := by
      have h1 : 3 * 3 ≤ I.s.nx * I.s.ny := Nat.mul_le_mul b1 b2
      have h2 : 9 * 3 ≤ I.s.nx * I.s.ny * I.s.nz := Nat.mul_le_mul h1 b3
      unfold Shape.size
      omega
    have e0 := hall 0 (by omega)
    have e1 := hall 1 (by omega)
    omega

/-- **C117** The order in which the threads visit the voxels in the two loops that mark the edges of the basins does not matter. -/
theorem C117_any_order {m : Machine K} {I : LabelerIn K} {o1 o2 : List ℕ} (h1 : IsSchedule I.s m.order1) (h2 : IsSchedule I.s m.order2)
    (h1' : IsSchedule I.s o1) (h2' : IsSchedule I.s o2) : fromLabeler { m with order1 := o1, order2 := o2 } I = fromLabeler m I := by
  have key : ∀ (vac : ℕ → Bool) (a b : List ℕ), IsSchedule I.s a → IsSchedule I.s b →
      getEdges I.s I.labels neighbors26 vac a = getEdges I.s I.labels neighbors26 vac b := by
    intro vac a b ha hb
    funext v
    rw [Bool.eq_iff_iff, getEdges_apply, getEdges_apply, mem_schedule ha, mem_schedule hb]
  have e1 := key (fun _ => false) o1 m.order1 h1' h1
  have e2 := key I.vac o2 m.order2 h2' h2
  have hmask : ∀ greater, labelerMask { m with order1 := o1, order2 := o2 } I greater = labelerMask m I greater := by
    intro greater
    unfold labelerMask
    simp only [e1]
  have hconns : labelerConns { m with order1 := o1, order2 := o2 } I = labelerConns m I := by
    unfold labelerConns
    simp only [hmask, e2]
  have hdom : labelerDomains { m with order1 := o1, order2 := o2 } I = labelerDomains m I := by
    unfold labelerDomains
    simp only [hmask, hconns]
  unfold fromLabeler
  rw [hdom]
  rfl

/-! ## What the search for the surroundings finds -/

/-- **C117** At a value that does not end the grid the domains listed for an atom are those met on the way from the group of the atom to the first
infinite group, each time crossing to the group with the most contacts.  The voids are the connected pieces of the voxels at or below the value, one per
entry of `qs`; a void is infinite if it reaches a periodic copy of itself; a domain is as infinite as found; the counters are at most the true numbers
of contacts, and positive if those are (what the race between the threads leaves, C81). -/
theorem C117_surroundings {m : Machine K} {I : LabelerIn K} (hI : LabelerOk I) (hm : MachineOk m I.s) (h2 : 2 ≤ I.nb) {inp : List (DomIn K)}
    {values : List K} (hd : labelerDomains m I = some (inp, values)) {v : K} (hv : v ∈ values) (hup : ∃ w < I.s.size, v < I.data w) {ls : List (List ℕ)}
    (h : surroundAt m I inp values v = some ls) : ∃ (qs : List ℕ) (vdim : ℕ → ℕ) (counts : ℕ → ℕ → ℕ),
      (∀ w < I.s.size, I.data w ≤ v → ∃! r : ℕ, ∃ q, qs[r]? = some q ∧ ∃ t, ConnTo I.s neighbors26 (voidAt I.data v) w q t) ∧
      (∀ (r q : ℕ), qs[r]? = some q → (0 < vdim r ↔ OpenVoid I.s I.data v q) ∧ ∀ d,
        counts r d ≤ contactNumber I.s neighbors26 (voidAt I.data v) I.vac (fun w => ∃ t, ConnTo I.s neighbors26 (voidAt I.data v) w q t)
          (InDomain I.labels inp (currentDoms inp v) d) ∧
        (0 < counts r d ↔ 0 < contactNumber I.s neighbors26 (voidAt I.data v) I.vac (fun w => ∃ t, ConnTo I.s neighbors26 (voidAt I.data v) w q t)
          (InDomain I.labels inp (currentDoms inp v) d))) ∧
      ∀ (i a : ℕ) (l : List ℕ), I.atoms[i]? = some a → ls[i]? = some l → ∃ start c,
        SurroundChain qs.length (currentDoms inp v).length vdim (fun d => (inp[(currentDoms inp v).getD d 0]?).elim 0 DomIn.dim) counts start c ∧
        l = (c.map fun d => (currentDoms inp v).getD d 0) ∧
        (∀ r, start = .void r → I.data a ≤ v ∧ ∃ q, qs[r]? = some q ∧ ∃ t, ConnTo I.s neighbors26 (voidAt I.data v) a q t) ∧
        ∀ d, start = .dom d → v < I.data a ∧ InDomain I.labels inp (currentDoms inp v) d a := by
  have hout := C117_outside_labelled hI hm h2 hd hv
  obtain ⟨conns, rows, values', hr⟩ := labeler_run hI hm
  rw [hr.domains] at hd
  obtain ⟨rfl, rfl⟩ : rowsIn m.junk rows = inp ∧ values' = values := by simpa using hd
  obtain ⟨b1, b2, b3⟩ := hI.basins.big
  have hs : 2 ≤ I.s.nx ∧ 2 ≤ I.s.ny ∧ 2 ≤ I.s.nz := ⟨by omega, by omega, by omega⟩
  have hlast := voidsUp_last (data := I.data) hr.asc hv
  have hfuel : (voidsUp I.data values' v).length * (I.s.size * neighbors26.length) < m.fuel := by
    have e1 : (voidsUp I.data values' v).length ≤ I.s.size := by
      unfold voidsUp
      rw [List.length_map]
      exact (List.length_filter_le _ _).trans hr.short
    have e2 : neighbors26.length = 26 := rfl
    have := Nat.mul_le_mul_right (I.s.size * 26) e1
    have := hm.fuel
    rw [e2]
    nlinarith
  unfold surroundAt at h
  simp only [Option.bind_eq_bind, Option.bind_eq_some_iff] at h
  obtain ⟨g, hg, counts, hcnt, h⟩ := h
  change groupsRun m.fuel m.root m.tol I.s neighbors26 I.vac (fun _ => false) (voidsUp I.data values' v) GroupState.init = some g at hg
  obtain ⟨-, hC⟩ := C81_contacts (by decide) neighbors26_ok hs hm.root hm.tol0 hm.tol1 (voidsUp_grow hr.asc v) hlast.symm (fun w _ => hI.vac w) hfuel hg hout rfl
  have hspec := fun (w : ℕ) (hw : w < I.s.size) (hS : voidAt I.data v w = true) =>
    voidIdx_spec neighbors26_ok hs hm.root hm.tol0 hm.tol1 (voidsUp_grow hr.asc v) (fun w _ => hI.vac w) hfuel hg hw (by rw [hlast]; exact hS)
  rw [hlast] at hspec
  have hroot : ∀ q ∈ g.roots, q < I.s.size ∧ voidAt I.data v q = true := by
    obtain ⟨g', l', m', D', e', hinv, -⟩ := groupsRun_inv (b := False) (root := m.root) (tol := m.tol) (vac := I.vac) neighbors26_ok hs hm.root hm.tol0 hm.tol1
      m.fuel (voidsUp I.data values' v) (fun _ => false) [] (fun _ => false) 0 GroupState.init (CycInv.init neighbors26_ok) (voidsUp_grow hr.asc v)
      (fun h => absurd h id) (fun w _ => hI.vac w) (by omega)
    rw [hg] at e'
    obtain rfl := Option.some.inj e'
    intro q hq
    rw [hinv.roots] at hq
    have := hinv.uf.of_mark neighbors26_ok (mem_rootsOf.mp hq).2
    rw [hlast] at this
    exact ⟨this.1, this.2.1⟩
  obtain ⟨w0, hw0, e0⟩ := hr.vals v hv
  obtain ⟨r0, q0, -, hr0, -⟩ := hspec w0 hw0 (decide_eq_true e0.ge)
  have hnv : 0 < g.roots.length := by have := (List.getElem?_eq_some_iff.mp hr0).1; omega
  obtain ⟨w1, hw1, h1v⟩ := hup
  obtain ⟨_, -, -, i1, hi1, -⟩ := hout w1 hw1 (decide_eq_false (not_le.mpr h1v))
  have hne : currentDoms (rowsIn m.junk rows) v ≠ [] := fun e => by rw [e] at hi1; simp at hi1
  obtain ⟨h3, h4⟩ := mapM_getElem h
  refine ⟨g.roots, fun r => (g.cycles.getD r []).length, counts, ?_, ?_, ?_⟩
  · intro w hw hle
    obtain ⟨r, q, -, f2, f3, f4⟩ := hspec w hw (decide_eq_true hle)
    exact ⟨r, ⟨q, f2, f3⟩, fun r' ⟨q', f5, f6⟩ => f4 r' q' f5 f6⟩
  · intro r q hq
    obtain ⟨hqs, hqS⟩ := hroot q (List.mem_of_getElem? hq)
    obtain ⟨r', q', f1, -, -, f4⟩ := hspec q hqs hqS
    obtain rfl := f4 r q hq ⟨0, Relation.ReflTransGen.refl⟩
    have hdim := void_dim_iff neighbors26_ok hs hm.root hm.tol0 hm.tol1 (voidsUp_grow hr.asc v) (fun w _ => hI.vac w) hfuel hg hqs (by rw [hlast]; exact hqS) f1
    rw [hlast] at hdim
    exact ⟨hdim.trans ⟨fun hh => ⟨of_decide_eq_true hqS, hh⟩, fun hh => hh.2⟩, fun d => hC _ _ hcnt r d q hq⟩
  · intro i a l ha hl
    have h5 := h4 i a l ha hl
    rw [Option.bind_eq_some_iff] at h5
    obtain ⟨grp, hgrp, hfind⟩ := h5
    obtain ⟨grp', f1, f2, f3⟩ := C81_atom_group neighbors26_ok hs hm.root hm.tol0 hm.tol1 (voidsUp_grow hr.asc v) hlast.symm (fun w _ => hI.vac w) hfuel hg hout
      (hI.atoms a (List.mem_of_getElem? ha))
    have hgrp' : atomGroup m.fuel g.uf.parent g.roots (voidAt I.data v) _ a = some grp := hgrp
    rw [f1] at hgrp'
    obtain rfl := Option.some.inj hgrp'
    obtain ⟨c, hc, e⟩ := C74_surrounding_domains hnv hne _ _ _ hfind
    exact ⟨_, c, hc, e, fun r e => ⟨of_decide_eq_true (f2 r e).1, (f2 r e).2⟩, fun d e => ⟨not_le.mp (of_decide_eq_false (f3 d e).1), (f3 d e).2⟩⟩

/-- **C117** At every value of the search inside a node the node lists as many atoms as its domain surrounds there (an exchange of one atom for another
goes unnoticed, `C75_exchanged_atom_unnoticed`). -/
theorem C117_atom_number {m : Machine K} {I : LabelerIn K} (hI : LabelerOk I) (hm : MachineOk m I.s) (hlow : MeetsAboveMin m I)
    {g : BGraph K} (hg : fromLabeler m I = some g) {inp : List (DomIn K)} {values : List K} (hd : labelerDomains m I = some (inp, values)) {k : ℕ}
    (hk : k ∈ g.nodes) : ∃ (d : ℕ) (q : DomIn K), inp[d]? = some q ∧ q.basins = (g.node k).basins ∧ q.minV ≤ (g.node k).minV ∧ (g.node k).maxV ≤ q.maxV ∧
      ∀ v ∈ values, (g.node k).minV ≤ v → v < (g.node k).maxV → ∀ ls, surroundAt m I inp values v = some ls → (g.node k).atoms.length = atomCount ls d := by
  obtain ⟨conns, rows, values', surr, out, h⟩ := graph_run hI hm hlow hg
  rw [h.run.domains] at hd
  obtain ⟨rfl, rfl⟩ : rowsIn m.junk rows = inp ∧ values' = values := by simpa using hd
  obtain ⟨a, r, hka, e1, e2, hra, -, hab, -, hmn, hmx⟩ := h.node hk
  refine ⟨a.src, ⟨r.basins, r.minV, r.maxV.getD (m.junk a.src), r.dim, r.parent⟩, by rw [rowsIn_get, hra]; rfl, by rw [e1.1, hab], by rw [e1.2.2.1]; exact hmn,
    by rw [e1.2.2.2]; exact hmx, fun v hv h1 h2 ls hls => ?_⟩
  rw [e1.2.2.1] at h1
  rw [e1.2.2.2] at h2
  rw [e2, C75_atom_count h.input h.atoms (List.mem_of_getElem? hka) hv h1 h2, h.found v ls hls]

/-- **C117** A value is searched exactly if it is the lowest value of a domain or the value of a marked voxel on an edge of a basin (C77 with lower
voxels).  In particular a value at which two voids meet at such a voxel is searched. -/
theorem C117_values {m : Machine K} {I : LabelerIn K} (hI : LabelerOk I) (hm : MachineOk m I.s) {inp : List (DomIn K)} {values : List K}
    (hd : labelerDomains m I = some (inp, values)) : (∀ x, x ∈ values ↔ (∃ q ∈ inp, q.minV = x) ∨ ∃ v < I.s.size, I.data v = x ∧
      saddleMask I.s I.data (fun v => decide (∃ t ∈ neighbors26, I.labels (nbr I.s v t) ≠ I.labels v)) I.vac false v = some true) ∧
    ∀ v w1 w2, v < I.s.size → (∃ w, IsNbr I.s neighbors26 v w ∧ I.labels w ≠ I.labels v) → IsNbr I.s neighbors26 v w1 → IsNbr I.s neighbors26 v w2 →
      I.data w1 < I.data v → I.data w2 < I.data v → ¬ VoxJoined I.s neighbors26 (fun w => I.data w < I.data v) w1 w2 → I.data v ∈ values := by
  have hfit := hI.basins.fits
  have hE : ∀ v < I.s.size, getEdges I.s I.labels neighbors26 (fun _ => false) m.order1 v =
      decide (∃ t ∈ neighbors26, I.labels (nbr I.s v t) ≠ I.labels v) := by
    intro v hv
    rw [Bool.eq_iff_iff, getEdges_apply, edgeScan_iff, mem_schedule hm.order1, decide_eq_true_eq]
    exact ⟨fun ⟨_, _, t, ht, hne, _⟩ => ⟨t, ht, hne⟩, fun ⟨t, ht, hne⟩ => ⟨hv, rfl, t, ht, hne, rfl⟩⟩
  have hS : ∀ v < I.s.size, saddleMask I.s I.data (getEdges I.s I.labels neighbors26 (fun _ => false) m.order1) I.vac false v =
      saddleMask I.s I.data (fun v => decide (∃ t ∈ neighbors26, I.labels (nbr I.s v t) ≠ I.labels v)) I.vac false v := by
    intro v hv
    unfold saddleMask
    rw [hE v hv]
  obtain ⟨down, hdown, hlen, hmask⟩ := labelerMask_some m I false
  have key : ∀ x, x ∈ values ↔ (∃ q ∈ inp, q.minV = x) ∨ ∃ v < I.s.size, I.data v = x ∧
      saddleMask I.s I.data (fun v => decide (∃ t ∈ neighbors26, I.labels (nbr I.s v t) ≠ I.labels v)) I.vac false v = some true := by
    unfold labelerDomains at hd
    simp only [Option.bind_eq_bind, Option.bind_eq_some_iff] at hd
    obtain ⟨conns, -, r, -, down', hdown', hd⟩ := hd
    rw [hdown] at hdown'
    obtain rfl := Option.some.inj hdown'
    simp only [Option.some.injEq, Prod.mk.injEq] at hd
    obtain ⟨rfl, rfl⟩ := hd
    intro x
    rw [List.mem_insertionSort, List.mem_dedup, List.mem_append, or_comm]
    refine or_congr (by simp) ?_
    simp only [List.mem_map, List.mem_filter, List.mem_range]
    constructor
    · rintro ⟨v, ⟨hv, hb⟩, e⟩
      exact ⟨v, hv, e, by rw [← hS v hv, hmask v hv, hb]⟩
    · rintro ⟨v, hv, e, hb⟩
      rw [← hS v hv, hmask v hv] at hb
      exact ⟨v, ⟨hv, Option.some.inj hb⟩, e⟩
  refine ⟨key, fun v w1 w2 hv ⟨w, hw, hne⟩ h1 h2 hf1 hf2 hno => (key _).mpr (Or.inr ⟨v, hv, rfl, ?_⟩)⟩
  refine C77_saddle_found hI.basins.big hI.basins.distinct hv ?_ (hI.vac v) (fun t _ => hI.vac _) h1 h2 hf1 hf2 ?_
  · obtain ⟨t, ht, rfl⟩ := (isNbr_iff hfit hv).mp hw
    exact decide_eq_true ⟨t, ht, hne⟩
  · have e : (fun w => I.vac w = false ∧ Farther false (I.data w) (I.data v)) = fun w => I.data w < I.data v := by
      funext w
      simp [hI.vac w, Farther]
    rw [e]
    exact hno

/-! ## A case -/

/-- Six layers of 3 × 3 voxels; the layers 0 and 3 are high, the lowest voxel is within the layer 0. -/
def wellNat (v : ℕ) : ℕ :=
  if v = 0 then 1 else if v < 9 then 200 + v else if 27 ≤ v ∧ v < 36 then 300 + v else if (18 ≤ v ∧ v < 27) ∨ (36 ≤ v ∧ v < 45) then 50 + v else 100 + v

/-- The layers 5, 0 and 1 are the first basin, the others the second. -/
def wellLabel (v : ℕ) : ℕ := if 18 ≤ v ∧ v < 45 then 1 else 0

/-- The input of the case. -/
def wellIn (atoms : List ℕ) : LabelerIn ℝ :=
  ⟨⟨6, 3, 3⟩, fun v => (wellNat v : ℝ), fun v => (wellLabel v : ℤ), fun _ => false, 2, fun b => if b = 0 then 8 else 35,
    fun b => (wellNat (if b = 0 then 8 else 35) : ℝ), atoms⟩

/-- The machine of the case. -/
noncomputable def wellMachine (sched : ℝ → List ℕ) : Machine ℝ := ⟨List.range 54, List.range 54, sched, fun _ => 0, 300000, Real.sqrt, 1 / 10 ^ 12⟩

theorem well_fits : ∀ t ∈ neighbors26, StepFits ⟨6, 3, 3⟩ t := neighbors26_fits ⟨by decide, by decide, by decide⟩

theorem well_ok : LabelerOk (wellIn []) := by
  have hlt : ∀ {v : ℕ}, v < (⟨6, 3, 3⟩ : Shape).size → v < 54 := fun h => h
  refine ⟨⟨⟨by decide, by decide, by decide⟩, ?_, ?_, ?_, ?_, ?_, ?_, ?_⟩, fun _ => rfl, fun _ _ => rfl, ?_, by simp [wellIn]⟩
  · intro a ha b hb h
    have h' : wellNat a = wellNat b := Nat.cast_injective (R := ℝ) h
    exact (by decide +kernel : ∀ a < 54, ∀ b < 54, wellNat a = wellNat b → a = b) a (hlt ha) b (hlt hb) h'
  · intro w _
    have h2 : (-10 ^ 300 : ℝ) < 0 := by norm_num
    exact h2.trans_le (Nat.cast_nonneg _)
  · intro v _
    refine ⟨wellLabel v, ?_, rfl⟩
    show wellLabel v < 2
    unfold wellLabel; split_ifs <;> omega
  · intro b _
    show (if b = 0 then 8 else 35) < 54
    split_ifs <;> omega
  · intro b hb
    have hb : b < 2 := hb
    interval_cases b <;> rfl
  · intro b hb w hw
    have hb : b < 2 := hb
    obtain ⟨t, ht, rfl⟩ := (isNbr_iff well_fits (by show (if b = 0 then 8 else 35) < 54; split_ifs <;> omega)).mp hw
    have := (by decide +kernel : ∀ b < 2, ∀ t ∈ neighbors26, wellNat (nbr ⟨6, 3, 3⟩ (if b = 0 then 8 else 35) t) ≤ wellNat (if b = 0 then 8 else 35)) b hb t ht
    exact Nat.cast_le.mpr this
  · intro v hv b hb hl hne
    have hl' : wellLabel v = b := Nat.cast_injective (R := ℤ) hl
    have hb : b < 2 := hb
    obtain ⟨t, ht, h1, h2⟩ := (by decide +kernel : ∀ v < 54, ∀ b < 2, wellLabel v = b → v ≠ (if b = 0 then 8 else 35) →
      ∃ t ∈ neighbors26, wellLabel (nbr ⟨6, 3, 3⟩ v t) = b ∧ wellNat v < wellNat (nbr ⟨6, 3, 3⟩ v t)) v (hlt hv) b hb hl' hne
    exact ⟨_, (isNbr_iff well_fits hv).mpr ⟨t, ht, rfl⟩, by show ((wellLabel _ : ℕ) : ℤ) = _; rw [h1], Nat.cast_lt.mpr h2⟩
  · intro w hw
    have := (by decide +kernel : ∀ w < 54, wellNat w < 10 ^ 12) w (hlt hw)
    show (wellNat w : ℝ) < 10 ^ 12
    exact_mod_cast this

theorem well_machine (sched : ℝ → List ℕ) : MachineOk (wellMachine sched) ⟨6, 3, 3⟩ := by
  refine ⟨by unfold IsSchedule; exact .refl _, by unfold IsSchedule; exact .refl _, isRoot_sqrt, by norm_num [wellMachine], ?_, by show 54 ^ 3 + 26 * 54 ^ 2 + 2 < 300000; norm_num⟩
  show (1 / 10 ^ 12 : ℝ) * (3 * ((54 : ℕ) : ℝ) ^ 2) < 1
  norm_num

theorem well_meets (sched : ℝ → List ℕ) : MeetsAboveMin (wellMachine sched) (wellIn []) := by
  refine C117_meets_above_min well_ok (well_machine sched) ?_
  intro v w hv hw hne
  obtain ⟨t, ht, rfl⟩ := (isNbr_iff well_fits hv).mp hw
  have hne' : wellLabel v ≠ wellLabel (nbr ⟨6, 3, 3⟩ v t) := fun e => hne (congrArg (fun n : ℕ => (n : ℤ)) e)
  have := (by decide +kernel : ∀ v < 54, ∀ t ∈ neighbors26, wellLabel v ≠ wellLabel (nbr ⟨6, 3, 3⟩ v t) →
    1 < wellNat v ∧ 1 < wellNat (nbr ⟨6, 3, 3⟩ v t)) v hv t ht hne'
  refine ⟨0, by decide, ?_⟩
  show ((1 : ℕ) : ℝ) < min (wellNat v : ℝ) (wellNat (nbr ⟨6, 3, 3⟩ v t) : ℝ)
  exact lt_min (Nat.cast_lt.mpr this.1) (Nat.cast_lt.mpr this.2)

/-- Non-vacuity: two basins for which all hypotheses hold and a graph is returned. -/
example : ∃ sched g, LabelerOk (wellIn []) ∧ MachineOk (wellMachine sched) ⟨6, 3, 3⟩ ∧ MeetsAboveMin (wellMachine sched) (wellIn []) ∧
    2 ≤ (wellIn []).nb ∧ fromLabeler (wellMachine sched) (wellIn []) = some g := by
  obtain ⟨sched, g, hg⟩ := C117_schedule_exists well_ok (well_machine fun _ => []) (well_meets fun _ => []) le_rfl rfl
  exact ⟨sched, g, well_ok, well_machine sched, well_meets sched, le_rfl, hg⟩

end BaderKit
