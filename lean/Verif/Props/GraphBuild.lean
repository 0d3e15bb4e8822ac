import Verif.Lemmas.GraphBuild
import Verif.Spec.GraphBuild
import Verif.Props.AtomRows
import Verif.Props.BifTree
/-!
# C76: the graph has one node per row and its irreducible nodes divide the basins
-/
set_option linter.unusedSectionVars false
namespace BaderKit
variable {K : Type} [Field K] [LinearOrder K]

/-- C76. Rows whose parents come first give a graph: node `k` is row `k`, with the same parent; it is reducible exactly if it has a child; the
subtype says how it differs from its parent. -/
theorem C76_graph_of_rows {rows : List (ARow K)} (hp : ∀ (k : ℕ) (r : ARow K) (p : ℕ), rows[k]? = some r → r.parent = some p → p < k) :
    ∃ g, buildGraph rows = some g ∧ Forest g ∧ g.nodes = List.range rows.length ∧
      ∀ (k : ℕ) (r : ARow K), rows[k]? = some r →
        (g.node k).basins = r.basins ∧ (g.node k).dim = r.dim ∧ (g.node k).atoms = r.atoms ∧ (g.node k).minV = r.minV ∧ (g.node k).maxV = r.maxV ∧
        (g.node k).parent = r.parent ∧ ((g.node k).red = true ↔ ∃ c ∈ rows, c.parent = some k) ∧
        ((g.node k).red = true → TypeOk r (r.parent.bind fun p => rows[p]?) (g.node k).subtype) ∧
        ((g.node k).red = false → (g.node k).subtype = some "irreducible - point") := by
  obtain ⟨g, hg, hI⟩ := buildSteps_spec hp rows.length (le_refl _)
  obtain ⟨h1, h2, h3⟩ := setTypes_spec hI.forest
  have hsame : ∀ x, ((setTypes g).node x).parent = (g.node x).parent ∧ ((setTypes g).node x).children = (g.node x).children ∧
      ((setTypes g).node x).red = (g.node x).red ∧ ((setTypes g).node x).basins = (g.node x).basins ∧ ((setTypes g).node x).dim = (g.node x).dim ∧
      ((setTypes g).node x).atoms = (g.node x).atoms ∧ ((setTypes g).node x).minV = (g.node x).minV ∧ ((setTypes g).node x).maxV = (g.node x).maxV := by
    intro x
    rw [h3 x]
    split_ifs <;> exact ⟨rfl, rfl, rfl, rfl, rfl, rfl, rfl, rfl⟩
  refine ⟨setTypes g, by unfold buildGraph; rw [hg]; rfl, hI.forest.congr h1 h2 fun x => ⟨(hsame x).1, (hsame x).2.1, (hsame x).2.2.1⟩, h1.trans hI.nodes, ?_⟩
  intro k r hr
  have hk : k < rows.length := (List.getElem?_eq_some_iff.mp hr).1
  obtain ⟨a1, a2, a3, a4⟩ := hI.node k r hk hr
  obtain ⟨s1, -, s3, s4, s5, s6, s7, s8⟩ := hsame k
  obtain ⟨c1, c2, c3, c4, c5, c6, -⟩ := a2
  have hred : ((setTypes g).node k).red = true ↔ ∃ c ∈ rows, c.parent = some k := by rw [s3, c1]; exact hasChild_iff
  refine ⟨s4.trans c2, s5.trans c3, s6.trans c4, s7.trans c5, s8.trans a3, s1.trans a1, hred, ?_, ?_⟩
  · intro hr1
    have hin : k ∈ g.nodes ∧ (g.node k).red = true := ⟨by rw [hI.nodes]; simpa using hk, by rw [← s3]; exact hr1⟩
    rw [h3 k, if_pos hin]
    have e1 : (g.node k).basins = r.basins := c2
    have e2 : (g.node k).dim = r.dim := c3
    have e3 : (g.node k).atoms = r.atoms := c4
    show TypeOk r _ (reducibleType g (g.node k))
    unfold reducibleType
    rw [a1, e1, e2, e3]
    rcases hpar : r.parent with _ | p
    · exact ⟨fun _ => rfl, fun p hp' => by simp at hp'⟩
    · have hpk := hp k r p hr hpar
      obtain ⟨q, hq⟩ : ∃ q, rows[p]? = some q := ⟨_, List.getElem?_eq_getElem (by omega)⟩
      obtain ⟨-, b2, -, -⟩ := hI.node p q (by omega) hq
      have f1 : (g.node p).basins = q.basins := b2.2.1
      have f2 : (g.node p).dim = q.dim := b2.2.2.1
      have f3 : (g.node p).atoms = q.atoms := b2.2.2.2.1
      simp only [Option.bind_some, hq, f1, f2, f3]
      refine ⟨fun h => (by cases h), fun p' hp' => ?_⟩
      obtain rfl : q = p' := by simpa using hp'
      refine ⟨fun h => by rw [if_pos h], fun h h' => by rw [if_neg (not_not.mpr h), if_pos h'], fun h h' h'' => ?_⟩
      rw [if_neg (not_not.mpr h), if_neg (not_not.mpr h'), if_pos h'']
  · intro hr0
    have hnot : ¬ (k ∈ g.nodes ∧ (g.node k).red = true) := by rw [← s3, hr0]; simp
    rw [h3 k, if_neg hnot, c6]
    have : hasChild rows k = false := by rw [← hr0, s3, c1]; rfl
    simp [rowNode, this]

/-- C76. If the domains divide the basins then the nodes of the graph do: a reducible node is divided among its children and ends where they
begin, the irreducible nodes together have every basin exactly once. -/
theorem C76_nodes_divide_basins {inp : List (DomIn K)} {surr : K → List (List ℕ)} {values : List K} (h : AtomInput inp surr values) (hS : SplitTree inp)
    {nb : ℕ} (hR : RootsCover inp nb) {out : List (ARow K)} (ho : atomRows inp surr values = some out) {g : BGraph K} (hg : buildGraph out = some g) :
    Forest g ∧ BasinsSplit g ∧ MaxOk g ∧ (leafBasins g).Perm (List.range nb) := by
  obtain ⟨map, hF, hmap⟩ := h.result ho
  obtain ⟨g', hg', hFor, hnodes, hnode⟩ := C76_graph_of_rows (rows := out) (fun k r p hr hp => by
    obtain ⟨_, _, _, hl⟩ := hF.link k r hr
    exact (hl p hp).1)
  rw [hg] at hg'
  obtain rfl : g = g' := by simpa using hg'
  have hget : ∀ k ∈ g.nodes, ∃ r, out[k]? = some r := fun k hk => by
    rw [hnodes, List.mem_range] at hk
    exact ⟨_, List.getElem?_eq_getElem hk⟩
  have hmem : ∀ (k : ℕ) (r : ARow K), out[k]? = some r → k ∈ g.nodes := fun k r hr => by
    rw [hnodes, List.mem_range]; exact (List.getElem?_eq_some_iff.mp hr).1
  have hchild : ∀ (k : ℕ) (r : ARow K), out[k]? = some r → ∀ c, c ∈ (g.node k).children ↔ ∃ rc, out[c]? = some rc ∧ rc.parent = some k := by
    intro k r hr c
    rw [hFor.child_iff k (hmem k r hr) c]
    constructor
    · rintro ⟨hc, hp⟩
      obtain ⟨rc, hrc⟩ := hget c hc
      exact ⟨rc, hrc, (hnode c rc hrc).2.2.2.2.2.1.symm.trans hp⟩
    · rintro ⟨rc, hrc, hp⟩
      exact ⟨hmem c rc hrc, (hnode c rc hrc).2.2.2.2.2.1.trans hp⟩
  have hbas : ∀ (k : ℕ) (r : ARow K), out[k]? = some r → ∃ s, inp[r.src]? = some s ∧ (g.node k).basins = s.basins := by
    intro k r hr
    obtain ⟨s, hs, hb, -⟩ := hF.part r (List.mem_of_getElem? hr)
    exact ⟨s, hs, (hnode k r hr).1.trans hb⟩
  have hnd : ∀ k ∈ g.nodes, (g.node k).basins.Nodup := by
    intro k hk
    obtain ⟨r, hr⟩ := hget k hk
    obtain ⟨s, hs, hb⟩ := hbas k r hr
    rw [hb]
    exact hS.nodup s (List.mem_of_getElem? hs)
  have hsplit : BasinsSplit g := by
    intro k hk hred
    obtain ⟨r, hr⟩ := hget k hk
    obtain ⟨s, hs, hb⟩ := hbas k r hr
    obtain ⟨r0, hr0, hp0⟩ := (hnode k r hr).2.2.2.2.2.2.1.mp hred
    obtain ⟨c0, hc0⟩ := List.getElem?_of_mem hr0
    have hdis : (g.node k).children.Pairwise (fun a b => List.Disjoint (g.node a).basins (g.node b).basins) ∧
        ∀ b, (∃ c ∈ (g.node k).children, b ∈ (g.node c).basins) ↔ b ∈ (g.node k).basins := by
      rcases hF.children h.tree hmap hr hc0 hp0 with ⟨hsrc, huniq⟩ | ⟨⟨e0, s0, hs0, hps0⟩, hcs, hsc⟩
      · constructor
        · refine (hFor.childNodup k hk).imp_of_mem fun {a b} ha hb' hab => ?_
          obtain ⟨ra, hra, hpa⟩ := (hchild k r hr a).mp ha
          obtain ⟨rb, hrb, hpb⟩ := (hchild k r hr b).mp hb'
          exact absurd ((huniq a ra hra hpa).trans (huniq b rb hrb hpb).symm) hab
        · intro b
          obtain ⟨s', hs', hb'⟩ := hbas c0 r0 hc0
          rw [hsrc, hs] at hs'
          obtain rfl : s = s' := by simpa using hs'
          constructor
          · rintro ⟨c, hc, hbc⟩
            obtain ⟨rc, hrc, hpc⟩ := (hchild k r hr c).mp hc
            rw [huniq c rc hrc hpc, hb'] at hbc
            rw [hb]; exact hbc
          · intro hbk
            exact ⟨c0, (hchild k r hr c0).mpr ⟨r0, hc0, hp0⟩, by rw [hb', ← hb]; exact hbk⟩
      · have hone := hS.split r.src s hs ⟨s0, List.mem_of_getElem? hs0, hps0⟩
        constructor
        · refine (hFor.childNodup k hk).imp_of_mem fun {a b} ha hb' hab => ?_
          obtain ⟨ra, hra, hpa⟩ := (hchild k r hr a).mp ha
          obtain ⟨rb, hrb, hpb⟩ := (hchild k r hr b).mp hb'
          obtain ⟨sa, hsa, hpsa, hma⟩ := hcs a ra hra hpa
          obtain ⟨sb, hsb, hpsb, hmb⟩ := hcs b rb hrb hpb
          intro x hxa hxb
          obtain ⟨sa', hsa', hba⟩ := hbas a ra hra
          obtain ⟨sb', hsb', hbb⟩ := hbas b rb hrb
          rw [hsa] at hsa'
          obtain rfl : sa = sa' := by simpa using hsa'
          rw [hsb] at hsb'
          obtain rfl : sb = sb' := by simpa using hsb'
          rw [hba] at hxa
          rw [hbb] at hxb
          have hsrc := (hone x (hS.sub _ sa s _ hsa hpsa hs x hxa)).unique ⟨sa, hsa, hpsa, hxa⟩ ⟨sb, hsb, hpsb, hxb⟩
          rw [hsrc, hsb] at hsa
          obtain rfl : sb = sa := by simpa using hsa
          obtain ⟨k1, _, _, _, _, hk1, _⟩ := hF.first hmap hsb
          exact hab ((hk1 a ra hra hsrc hma).trans (hk1 b rb hrb rfl hmb).symm)
        · intro b
          constructor
          · rintro ⟨c, hc, hbc⟩
            obtain ⟨rc, hrc, hpc⟩ := (hchild k r hr c).mp hc
            obtain ⟨sc, hsc', hpsc, -⟩ := hcs c rc hrc hpc
            obtain ⟨sc', hsc'', hbc'⟩ := hbas c rc hrc
            rw [hsc'] at hsc''
            obtain rfl : sc = sc' := by simpa using hsc''
            rw [hb]
            exact hS.sub _ sc s _ hsc' hpsc hs b (hbc' ▸ hbc)
          · intro hbk
            rw [hb] at hbk
            obtain ⟨e, ⟨t, ht, hpt, hbt⟩, -⟩ := hone b hbk
            obtain ⟨c, rc, hrc, hpc, hce⟩ := hsc e t ht hpt
            obtain ⟨t', ht', hb'⟩ := hbas c rc hrc
            rw [hce, ht] at ht'
            obtain rfl : t = t' := by simpa using ht'
            exact ⟨c, (hchild k r hr c).mpr ⟨rc, hrc, hpc⟩, by rw [hb']; exact hbt⟩
    refine (List.perm_ext_iff_of_nodup ?_ (hnd k hk)).mpr fun b => ?_
    · rw [List.nodup_flatMap]
      exact ⟨fun c hc => hnd c ((hFor.child_iff k hk c).mp hc).1, hdis.1⟩
    · rw [List.mem_flatMap]; exact hdis.2 b
  refine ⟨hFor, hsplit, ?_, ?_⟩
  · intro k hk hred
    obtain ⟨r, hr⟩ := hget k hk
    obtain ⟨r0, hr0, hp0⟩ := (hnode k r hr).2.2.2.2.2.2.1.mp hred
    obtain ⟨c0, hc0⟩ := List.getElem?_of_mem hr0
    have key : ∀ (c : ℕ) (rc : ARow K), out[c]? = some rc → rc.parent = some k → (g.node k).maxV = (g.node c).minV := by
      intro c rc hc hpc
      obtain ⟨_, _, _, hl⟩ := hF.link c rc hc
      obtain ⟨_, q, hq, hqm, _⟩ := hl k hpc
      rw [hr] at hq
      obtain rfl : r = q := by simpa using hq
      rw [(hnode k r hr).2.2.2.2.1, (hnode c rc hc).2.2.2.1, hqm]
    refine ⟨fun c hc => ?_, c0, (hchild k r hr c0).mpr ⟨r0, hc0, hp0⟩, key c0 r0 hc0 hp0⟩
    obtain ⟨rc, hrc, hpc⟩ := (hchild k r hr c).mp hc
    exact (key c rc hrc hpc).le
  · refine (C44_leaves_cover hFor hsplit).trans ?_
    have hroot : ∀ k, k ∈ g.roots ↔ ∃ r, out[k]? = some r ∧ r.parent = none := by
      intro k
      rw [hFor.roots_iff]
      constructor
      · rintro ⟨hk, hp⟩
        obtain ⟨r, hr⟩ := hget k hk
        exact ⟨r, hr, (hnode k r hr).2.2.2.2.2.1.symm.trans hp⟩
      · rintro ⟨r, hr, hp⟩
        exact ⟨hmem k r hr, (hnode k r hr).2.2.2.2.2.1.trans hp⟩
    have hinfo : ∀ k ∈ g.roots, ∃ r s, out[k]? = some r ∧ inp[r.src]? = some s ∧ s.parent = none ∧ r.minV = s.minV ∧ (g.node k).basins = s.basins := by
      intro k hk
      obtain ⟨r, hr, hp⟩ := (hroot k).mp hk
      obtain ⟨s, hs, hb⟩ := hbas k r hr
      obtain ⟨s', hs', hl, _⟩ := hF.link k r hr
      rw [hs] at hs'
      obtain rfl : s = s' := by simpa using hs'
      exact ⟨r, s, hr, hs, (hl hp).1, (hl hp).2, hb⟩
    refine (List.perm_ext_iff_of_nodup ?_ List.nodup_range).mpr fun b => ?_
    · rw [List.nodup_flatMap]
      refine ⟨fun c hc => hnd c ((hFor.roots_iff c).mp hc).1, hFor.rootsNodup.imp_of_mem fun {a c} ha hc hac => ?_⟩
      intro x hxa hxc
      obtain ⟨ra, sa, hra, hsa, hpa, hma, hba⟩ := hinfo a ha
      obtain ⟨rc, sc, hrc, hsc, hpc, hmc, hbc⟩ := hinfo c hc
      change x ∈ (g.node a).basins at hxa
      change x ∈ (g.node c).basins at hxc
      rw [hba] at hxa
      rw [hbc] at hxc
      have hx := hR.2 sa (List.mem_of_getElem? hsa) hpa x hxa
      have hsrc := (hR.1 x hx).unique ⟨sa, hsa, hpa, hxa⟩ ⟨sc, hsc, hpc, hxc⟩
      rw [hsrc, hsc] at hsa
      obtain rfl : sc = sa := by simpa using hsa
      obtain ⟨k1, _, _, _, _, hk1, _⟩ := hF.first hmap hsc
      exact hac ((hk1 a ra hra hsrc hma).trans (hk1 c rc hrc rfl hmc).symm)
    · rw [List.mem_flatMap, List.mem_range]
      constructor
      · rintro ⟨k, hk, hbk⟩
        obtain ⟨r, s, hr, hs, hp, -, hb⟩ := hinfo k hk
        exact hR.2 s (List.mem_of_getElem? hs) hp b (hb ▸ hbk)
      · intro hb
        obtain ⟨d, ⟨s, hs, hp, hbs⟩, -⟩ := hR.1 b hb
        obtain ⟨k, r, hr, hrd, -, -, hpar, -⟩ := hF.first hmap hs
        have hrp : r.parent = none := by
          rcases e : r.parent with _ | p
          · rfl
          · obtain ⟨q, t, -, hpq, -⟩ := hpar p e
            rw [hp] at hpq; cases hpq
        obtain ⟨s', hs', hb'⟩ := hbas k r hr
        rw [hrd, hs] at hs'
        obtain rfl : s = s' := by simpa using hs'
        exact ⟨k, (hroot k).mpr ⟨r, hr, hrp⟩, by rw [hb']; exact hbs⟩

theorem rowsIn_get (junk : ℕ → K) (rows : List (DomainRow K)) (n : ℕ) :
    (rowsIn junk rows)[n]? = (rows[n]?).map fun r => ⟨r.basins, r.minV, r.maxV.getD (junk n), r.dim, r.parent⟩ := by
  unfold rowsIn
  rw [List.getElem?_map, List.getElem?_zipIdx]
  rcases rows[n]? with _ | r <;> simp

theorem rowsIn_some {junk : ℕ → K} {rows : List (DomainRow K)} {n : ℕ} {s : DomIn K} (h : (rowsIn junk rows)[n]? = some s) :
    ∃ r, rows[n]? = some r ∧ s = ⟨r.basins, r.minV, r.maxV.getD (junk n), r.dim, r.parent⟩ := by
  rw [rowsIn_get] at h
  obtain ⟨r, hr, e⟩ := Option.map_eq_some_iff.mp h
  exact ⟨r, hr, e.symm⟩

/-- The domains of `find_domain_bifurcations` form a tree that divides the basins, whatever the unwritten maxima are. -/
theorem C76_domains_divide_basins {fuel nb : ℕ} {dim : K → ℕ → Option ℕ} {dm : K → ℕ → ℕ} {conns : List (Conn K)} {ref : ℕ → K} {minData : K}
    {rows : List (DomainRow K)} {u : ℕ} (hin : DomainInput fuel nb dim dm conns) (hpeak : PeakInput nb conns ref) (hmin : ∀ c ∈ conns, minData < c.val)
    (h : domainRows fuel nb dim ref minData conns = some (rows, u)) (junk : ℕ → K) :
    DomTree (rowsIn junk rows) ∧ SplitTree (rowsIn junk rows) ∧ RootsCover (rowsIn junk rows) nb := by
  obtain ⟨stop, top, hok, htm, htop⟩ := domainRows_ok hin h
  have hdom : ∀ (n : ℕ) (r : DomainRow K), rows[n]? = some r → ∃ w ∈ connValues conns, IsDomainAt conns w r.basins := fun n r hr => by
    obtain ⟨w, hw, -, hd, -⟩ := rowExists hok htm hr
    exact ⟨w, hw, hd⟩
  have hlt : ∀ (n : ℕ) (r : DomainRow K), rows[n]? = some r → ∀ b ∈ r.basins, b < nb := by
    intro n r hr b hb
    obtain ⟨w, -, hd⟩ := hdom n r hr
    obtain ⟨c, hc, _, e | e⟩ := ((hd.2.2 b hb b).mp hb).1
    · rw [e]; exact (hin.lt c hc).1
    · rw [e]; exact (hin.lt c hc).2
  refine ⟨?_, ⟨?_, ?_, ?_⟩, ?_, ?_⟩
  · intro d s p hs hp
    obtain ⟨r, hr, rfl⟩ := rowsIn_some hs
    obtain ⟨hpd, q, hq, hqm, -, -, hab, hmem, -⟩ := hok.parent d r p hr hp
    refine ⟨hpd, _, by rw [rowsIn_get, hq]; rfl, by show q.maxV.getD (junk p) = r.minV; rw [hqm]; rfl, ?_⟩
    show q.minV < q.maxV.getD (junk p)
    rw [hqm]
    show q.minV < r.minV
    by_cases hqp : q.parent = none
    · rw [hok.root q (List.mem_of_getElem? hq) hqp]
      obtain ⟨c, hc, e⟩ := connValues_mem.mp hmem
      rw [← e]; exact hmin c hc
    · exact hab hqp
  · intro s hs
    obtain ⟨n, hn⟩ := List.getElem?_of_mem hs
    obtain ⟨r, hr, rfl⟩ := rowsIn_some hn
    obtain ⟨w, -, hd⟩ := hdom n r hr
    exact hd.2.1.imp fun {a b} hab => ne_of_lt hab
  · intro e t s d ht hp hs b hb
    obtain ⟨r, hr, rfl⟩ := rowsIn_some ht
    obtain ⟨r', hr', rfl⟩ := rowsIn_some hs
    obtain ⟨-, q, hq, -, hsub, -⟩ := hok.parent e r d hr hp
    rw [hr'] at hq
    obtain rfl : r' = q := by simpa using hq
    exact hsub b hb
  · intro d s hs hch b hb
    obtain ⟨r, hr, rfl⟩ := rowsIn_some hs
    obtain ⟨t, ht, hpt⟩ := hch
    obtain ⟨e, he⟩ := List.getElem?_of_mem ht
    obtain ⟨r', hr', rfl⟩ := rowsIn_some he
    obtain ⟨m, ⟨rm, hrm, hpm, hbm⟩, huniq⟩ := C73_children_split hin hpeak h hr ⟨r', List.mem_of_getElem? hr', hpt⟩ hb
    refine ⟨m, ⟨_, by rw [rowsIn_get, hrm]; rfl, hpm, hbm⟩, ?_⟩
    rintro m' ⟨t', ht', hp', hb'⟩
    obtain ⟨r'', hr'', rfl⟩ := rowsIn_some ht'
    exact huniq m' ⟨r'', hr'', hp', hb'⟩
  · intro b hb
    obtain ⟨c, hc, hci, -, -⟩ := hpeak.self b hb
    obtain ⟨v, hv, hvmin⟩ := (connValues conns).toFinset.exists_min_image id ⟨c.val, by simpa using connValues_mem.mpr ⟨c, hc, rfl⟩⟩
    simp only [List.mem_toFinset, id] at hv hvmin
    obtain ⟨g, hg, hbg⟩ := basinAt_domain (t := v) hin.lt ⟨c, hc, hvmin _ (connValues_mem.mpr ⟨c, hc, rfl⟩), Or.inl hci.symm⟩
    obtain ⟨n, r, hr, hrg, hab, -⟩ := hok.all v hv (htop v hv) g hg
    have hrp : r.parent = none := by
      by_contra hcon
      obtain ⟨p, hp⟩ := Option.ne_none_iff_exists'.mp hcon
      obtain ⟨-, -, -, -, -, -, -, hmem, -⟩ := hok.parent n r p hr hp
      exact absurd (hab hcon) (not_lt.mpr (hvmin _ hmem))
    refine ⟨n, ⟨_, by rw [rowsIn_get, hr]; rfl, hrp, by show b ∈ r.basins; rw [hrg]; exact hbg⟩, ?_⟩
    rintro m ⟨s, hs, hsp, hbs⟩
    obtain ⟨r', hr', rfl⟩ := rowsIn_some hs
    have hbr : b ∈ r.basins := by rw [hrg]; exact hbg
    rcases Nat.lt_trichotomy m n with hlt' | e | hlt'
    · exact absurd hrp (hok.overlap m n r' r hlt' hr' hr b hbs hbr).1
    · exact e
    · exact absurd hsp (hok.overlap n m r r' hlt' hr hr' b hbr hbs).1
  · intro s hs hp b hb
    obtain ⟨n, hn⟩ := List.getElem?_of_mem hs
    obtain ⟨r, hr, rfl⟩ := rowsIn_some hn
    exact hlt n r hr b hb

/-- C76. From the connections of the basins to the graph: it is always made, is a forest in which a reducible node is divided among its children
and ends where they begin, and its irreducible nodes have every basin exactly once.  `junk` are the maxima that are never written. -/
theorem C76_graph_from_connections {fuel nb : ℕ} {dim : K → ℕ → Option ℕ} {dm : K → ℕ → ℕ} {conns : List (Conn K)} {ref : ℕ → K} {minData : K}
    (hin : DomainInput fuel nb dim dm conns) (hpeak : PeakInput nb conns ref) (hmin : ∀ c ∈ conns, minData < c.val) (junk : ℕ → K)
    {surr : List (DomIn K) → K → List (List ℕ)} (hquiet : ∀ inp u w, u < w → (∀ l ∈ surr inp u, l = []) → ∀ l ∈ surr inp w, l = []) (extra : List K) :
    ∃ g, graphOf fuel nb dim ref minData conns junk surr extra = some g ∧ Forest g ∧ BasinsSplit g ∧ MaxOk g ∧ (leafBasins g).Perm (List.range nb) := by
  obtain ⟨rows, hrows⟩ := C73_domain_rows_total ref minData hin
  obtain ⟨hT, hS, hR⟩ := C76_domains_divide_basins hin hpeak hmin hrows junk
  set inp := rowsIn junk rows with hinp
  set values := ((extra ++ inp.map DomIn.minV).dedup).insertionSort (· ≤ ·) with hvalues
  have hA : AtomInput inp (surr inp) values := by
    refine ⟨hT, fun r hr => ?_, ?_, fun u _ w _ huw hh => hquiet inp u w huw hh⟩
    · rw [hvalues, List.mem_insertionSort, List.mem_dedup]
      exact List.mem_append_right _ (List.mem_map_of_mem hr)
    · have h1 : values.Pairwise (· ≤ ·) := List.pairwise_insertionSort _ _
      have h2 : values.Nodup := (List.perm_insertionSort _ _).nodup_iff.mpr (List.nodup_dedup _)
      exact h1.imp₂ (fun a b hab hne => lt_of_le_of_ne hab hne) h2
  obtain ⟨out, hout⟩ := C75_total hA
  obtain ⟨g, hg, -⟩ := C76_graph_of_rows (rows := out) (fun k r p hr hp => by
    obtain ⟨_, _, _, hl⟩ := C75_parents hA hout hr
    exact (hl p hp).1)
  refine ⟨g, ?_, C76_nodes_divide_basins hA hS hR hout hg⟩
  unfold graphOf
  simp only [hrows, Option.bind_eq_bind, Option.bind_some]
  rw [← hinp, ← hvalues, hout]
  exact hg

/-- C76. After the clean-up, if it does not raise, the irreducible nodes still have every basin exactly once. -/
theorem C76_clean_graph {fuel nb : ℕ} {dim : K → ℕ → Option ℕ} {dm : K → ℕ → ℕ} {conns : List (Conn K)} {ref : ℕ → K} {minData : K}
    (hin : DomainInput fuel nb dim dm conns) (hpeak : PeakInput nb conns ref) (hmin : ∀ c ∈ conns, minData < c.val) (junk : ℕ → K)
    {surr : List (DomIn K) → K → List (List ℕ)} (hquiet : ∀ inp u w, u < w → (∀ l ∈ surr inp u, l = []) → ∀ l ∈ surr inp w, l = []) (extra : List K)
    (shape : List ℕ → ℕ) (argsort : List (ℕ × K) → List (ℕ × K)) (hsort : ∀ l, (argsort l).Perm l) (cut1 cut2 : K) (fuel' : ℕ) {g g1 g2 : BGraph K}
    (h0 : graphOf fuel nb dim ref minData conns junk surr extra = some g)
    (h1 : removeShallow argsort cut1 g = some g1) (h2 : combineShallow shape argsort cut2 fuel' g1 = some g2) :
    Forest g2 ∧ BasinsSplit g2 ∧ (leafBasins g2).Perm (List.range nb) := by
  obtain ⟨g', hg', hFor, hB, -, hL⟩ := C76_graph_from_connections hin hpeak hmin junk hquiet extra
  rw [h0] at hg'
  obtain rfl : g = g' := by simpa using hg'
  obtain ⟨a1, a2, a3⟩ := C44_cleanup shape argsort hsort cut1 cut2 fuel' hFor hB h1 h2
  exact ⟨a1, a2, a3.trans hL⟩

/-- The tree of C73 with an atom that is surrounded by the first domain up to the value 1. -/
example : (∀ c ∈ treeConns, (0 : ℚ) < c.val) := by decide +kernel

def treeSurr (_ : List (DomIn ℚ)) (v : ℚ) : List (List ℕ) := if v < 1 then [[0]] else [[]]

example : ∀ inp u w, u < w → (∀ l ∈ treeSurr inp u, l = []) → ∀ l ∈ treeSurr inp w, l = [] := by
  intro inp u w huw hu
  unfold treeSurr at *
  split_ifs at hu with h
  · exact absurd (hu [0] (by simp)) (by simp)
  · rw [if_neg (not_lt.mpr ((not_lt.mp h).trans huw.le))]
    simp

set_option maxRecDepth 100000 in
example : (graphOf 9 3 (fun v b => some (treeDim v b)) treeRef 0 treeConns (fun _ => -7) treeSurr [1]).map
    (fun g => g.nodes.map fun k => ((g.node k).basins, (g.node k).parent, (g.node k).atoms, (g.node k).subtype)) =
    some [([0, 1, 2], none, [0], some "reducible - root"), ([0, 1, 2], some 0, [], some "reducible - contained atoms"),
      ([0, 1], some 1, [], some "reducible - domain"), ([2], some 1, [], some "irreducible - point"), ([0], some 2, [], some "irreducible - point"),
      ([1], some 2, [], some "irreducible - point")] := by decide +kernel

end BaderKit
