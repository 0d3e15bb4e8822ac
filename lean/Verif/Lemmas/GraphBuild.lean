import Verif.Model.GraphBuild
import Verif.Lemmas.AtomRows
import Verif.Lemmas.BifOps
import Mathlib.Data.List.Perm.Basic
/-! # From rows to the graph -/
set_option linter.unusedSectionVars false
namespace BaderKit
variable {K : Type} [Field K] [LinearOrder K]

theorem freshKey_range (g : BGraph K) (n : ℕ) (h : g.nodes = List.range n) : freshKey g = n := by
  unfold freshKey
  rw [h]
  rcases n with _ | n
  · rfl
  · rw [if_neg (by simp)]
    have h1 := (foldl_max_le (List.range (n + 1)) 0).2 n (by simp)
    have h2 : ∀ (l : List ℕ) (m B : ℕ), m ≤ B → (∀ x ∈ l, x ≤ B) → l.foldl max m ≤ B := by
      intro l
      induction l with
      | nil => intro m B hm _; exact hm
      | cons a l ih => intro m B hm hl; exact ih _ B (max_le hm (hl a (by simp))) fun x hx => hl x (by simp [hx])
    have := h2 (List.range (n + 1)) 0 n (Nat.zero_le _) (fun x hx => by rw [List.mem_range] at hx; omega)
    omega

theorem hasChild_iff {rows : List (ARow K)} {k : ℕ} : hasChild rows k = true ↔ ∃ r ∈ rows, r.parent = some k := by
  unfold hasChild
  rw [List.any_eq_true]
  simp

/-- The graph after some rows. -/
structure BuildInv (rows : List (ARow K)) (n : ℕ) (g : BGraph K) : Prop where
  forest : Forest g
  nodes : g.nodes = List.range n
  node : ∀ (k : ℕ) (r : ARow K), k < n → rows[k]? = some r → (g.node k).parent = r.parent ∧ SameContent (g.node k) (rowNode rows k r) ∧ (g.node k).maxV = r.maxV ∧
    (g.node k).depthC = none

theorem buildSteps_spec {rows : List (ARow K)} (hp : ∀ (k : ℕ) (r : ARow K) (p : ℕ), rows[k]? = some r → r.parent = some p → p < k) :
    ∀ n, n ≤ rows.length → ∃ g, (List.range n).foldlM (buildStep rows) (emptyGraph, []) = some (g, List.range n) ∧ BuildInv rows n g := by
  intro n
  induction n with
  | zero => intro _; exact ⟨emptyGraph, rfl, emptyGraph_forest, rfl, fun k r hk => by omega⟩
  | succ n ih =>
    intro hn
    obtain ⟨g, hg, hI⟩ := ih (by omega)
    obtain ⟨r, hr⟩ : ∃ r, rows[n]? = some r := ⟨_, List.getElem?_eq_getElem (by omega)⟩
    have hpar : parentKey (List.range n) r.parent = some r.parent := by
      rcases e : r.parent with _ | p
      · rfl
      · have := hp n r p hr e
        simp [parentKey, this]
    obtain ⟨g', h1, h2, h3, h4, h5⟩ := addNode_spec (g := g) (t := rowNode rows n r) hI.forest (key := none) (parent := r.parent)
      (by simpa using freshKey_not_mem g) (by
        intro p hpp
        have hlt := hp n r p hr hpp
        refine ⟨by rw [hI.nodes]; simpa using hlt, ?_⟩
        obtain ⟨q, hq⟩ : ∃ q, rows[p]? = some q := ⟨_, List.getElem?_eq_getElem (by omega)⟩
        rw [((hI.node p q hlt hq).2.1).1]
        exact hasChild_iff.mpr ⟨r, List.mem_of_getElem? hr, hpp⟩)
    simp only [Option.getD_none, freshKey_range g n hI.nodes] at h3 h4
    refine ⟨g', ?_, h2, ?_, ?_⟩
    · rw [List.range_succ, List.foldlM_append, hg]
      simp only [Option.bind_eq_bind, Option.bind_some, List.foldlM_cons, List.foldlM_nil]
      unfold buildStep
      simp only [hr, Option.bind_eq_bind, Option.bind_some]
      rw [hpar]
      simp only [Option.bind_some, h1, freshKey_range g n hI.nodes]
      rfl
    · rw [h3, hI.nodes, List.range_succ]
    · intro k q hk hq
      rcases Nat.lt_succ_iff_lt_or_eq.mp hk with hk | rfl
      · obtain ⟨h6, h7, h8, h9⟩ := h5 k (by rw [hI.nodes]; simpa using hk)
        obtain ⟨h10, h11, h12, h13⟩ := hI.node k q hk hq
        refine ⟨h6.trans h10, ?_, h8.trans h12, h9.trans h13⟩
        obtain ⟨a1, a2, a3, a4, a5, a6, a7, a8, a9, a10⟩ := h7
        obtain ⟨b1, b2, b3, b4, b5, b6, b7, b8, b9, b10⟩ := h11
        exact ⟨a1.trans b1, a2.trans b2, a3.trans b3, a4.trans b4, a5.trans b5, a6.trans b6, a7.trans b7, a8.trans b8, a9.trans b9, a10.trans b10⟩
      · rw [hr] at hq
        obtain rfl : r = q := by simpa using hq
        rw [h4]
        exact ⟨rfl, ⟨rfl, rfl, rfl, rfl, rfl, rfl, rfl, rfl, rfl, rfl⟩, rfl, rfl⟩

theorem reducibleType_congr {g h : BGraph K} (e : ∀ x, (h.node x).basins = (g.node x).basins ∧ (h.node x).dim = (g.node x).dim ∧ (h.node x).atoms = (g.node x).atoms)
    (n : TNode K) : reducibleType h n = reducibleType g n := by
  unfold reducibleType
  rcases n.parent with _ | p
  · rfl
  · simp only [(e p).1, (e p).2.1, (e p).2.2]

theorem setTypes_fold (g0 : BGraph K) (l : List ℕ) : ∀ g : BGraph K, l.Nodup →
    (∀ x, (g.node x).basins = (g0.node x).basins ∧ (g.node x).dim = (g0.node x).dim ∧ (g.node x).atoms = (g0.node x).atoms) →
    let h := l.foldl (fun h k => modNode h k fun n => { n with subtype := reducibleType h n }) g
    h.nodes = g.nodes ∧ h.roots = g.roots ∧ ∀ x, h.node x = if x ∈ l then { g.node x with subtype := reducibleType g0 (g.node x) } else g.node x := by
  induction l with
  | nil => intro g _ _; exact ⟨rfl, rfl, fun x => by simp⟩
  | cons k l ih =>
    intro g hnd he
    obtain ⟨hkl, hnd'⟩ := List.nodup_cons.mp hnd
    simp only [List.foldl_cons]
    obtain ⟨h1, h2, h3⟩ := ih (modNode g k fun n => { n with subtype := reducibleType g n }) hnd' (by
      intro x
      rw [modNode_node]
      by_cases e : x = k
      · subst e; simpa using he x
      · simpa [e] using he x)
    refine ⟨h1, h2, fun x => ?_⟩
    rw [h3 x, modNode_node]
    by_cases e : x = k
    · subst e
      simp only [hkl, if_false, if_true, List.mem_cons, true_or]
      rw [reducibleType_congr he]
    · simp [e]

theorem setTypes_spec {g : BGraph K} (hF : Forest g) : (setTypes g).nodes = g.nodes ∧ (setTypes g).roots = g.roots ∧
    ∀ x, (setTypes g).node x = if x ∈ g.nodes ∧ (g.node x).red = true then { g.node x with subtype := reducibleType g (g.node x) } else g.node x := by
  obtain ⟨h1, h2, h3⟩ := setTypes_fold g (g.nodes.filter fun k => (g.node k).red) g (hF.nodup.filter _) (fun _ => ⟨rfl, rfl, rfl⟩)
  refine ⟨h1, h2, fun x => ?_⟩
  have := h3 x
  rw [setTypes, this]
  simp only [List.mem_filter]

/-- Only the links matter for being a forest. -/
theorem Forest.congr {g h : BGraph K} (hF : Forest g) (h1 : h.nodes = g.nodes) (h2 : h.roots = g.roots)
    (h3 : ∀ x, (h.node x).parent = (g.node x).parent ∧ (h.node x).children = (g.node x).children ∧ (h.node x).red = (g.node x).red) : Forest h := by
  obtain ⟨a1, a2, a3, a4, a5, a6, rank, a7, a8⟩ := hF
  refine ⟨by rw [h1]; exact a1, by rw [h2]; exact a2, ?_, ?_, ?_, ?_, rank, by rw [h1]; exact a7, ?_⟩
  · intro k; rw [h1, h2, (h3 k).1]; exact a3 k
  · intro k hk p hp
    rw [h1] at hk ⊢
    rw [(h3 k).1] at hp
    rw [(h3 p).2.2]
    exact a4 k hk p hp
  · intro p hp c
    rw [h1] at hp ⊢
    rw [(h3 p).2.1, (h3 c).1]
    exact a5 p hp c
  · intro p hp
    rw [h1] at hp
    rw [(h3 p).2.1]
    exact a6 p hp
  · intro k hk p hp
    rw [h1] at hk
    rw [(h3 k).1] at hp
    exact a8 k hk p hp

/-- The first row of a domain. -/
theorem FInv.first {inp : List (DomIn K)} {surr : K → List (List ℕ)} {values : List K} {map : ℕ → Option ℕ} {out : List (ARow K)}
    (h : FInv inp surr values map out) (hmap : ∀ d < inp.length, map d ≠ none) {d : ℕ} {s : DomIn K} (hs : inp[d]? = some s) :
    ∃ k r, out[k]? = some r ∧ r.src = d ∧ r.minV = s.minV ∧
      (∀ (k' : ℕ) (r' : ARow K), out[k']? = some r' → r'.src = d → r'.minV = s.minV → k' = k) ∧
      (∀ p, r.parent = some p → ∃ q t, out[p]? = some q ∧ s.parent = some q.src ∧ inp[q.src]? = some t ∧ q.maxV = t.maxV) ∧
      (r.parent = none → s.parent = none) := by
  have hm := hmap d (List.getElem?_eq_some_iff.mp hs).1
  have hpart : ∀ (k' : ℕ) (r' : ARow K), out[k']? = some r' → r'.src = d → s.minV ≤ r'.minV ∧ r'.maxV ≤ s.maxV ∧
      (r'.minV < r'.maxV ∨ (r'.minV = s.minV ∧ r'.maxV = s.maxV)) := by
    intro k' r' hr' hd'
    obtain ⟨s', hs', -, -, h1, h2, h3⟩ := h.part r' (List.mem_of_getElem? hr')
    rw [hd', hs] at hs'
    obtain rfl : s = s' := by simpa using hs'
    exact ⟨h1, h2, h3⟩
  have hex : ∃ k r, out[k]? = some r ∧ r.src = d ∧ r.minV = s.minV ∧
      (∀ (k' : ℕ) (r' : ARow K), out[k']? = some r' → r'.src = d → r'.minV = s.minV → k' = k) := by
    by_cases hlt : s.minV < s.maxV
    · obtain ⟨k, ⟨r, hr, hrd, h1, h2⟩, huniq⟩ := h.cover d s hs hm s.minV (le_refl _) hlt
      refine ⟨k, r, hr, hrd, le_antisymm h1 (hpart k r hr hrd).1, fun k' r' hr' hd' hmin => ?_⟩
      refine huniq k' ⟨r', hr', hd', hmin.le, ?_⟩
      rcases (hpart k' r' hr' hd').2.2 with hh | ⟨-, hh⟩
      · rw [← hmin]; exact hh
      · rw [hh]; exact hlt
    · obtain ⟨k, ⟨r, hr, hrd⟩, huniq⟩ := h.one d s hs hm (not_lt.mp hlt)
      refine ⟨k, r, hr, hrd, ?_, fun k' r' hr' hd' _ => huniq k' ⟨r', hr', hd'⟩⟩
      obtain ⟨h1, h2, h3⟩ := hpart k r hr hrd
      rcases h3 with hh | hh
      · exact absurd ((h1.trans_lt hh).trans_le h2) hlt
      · exact hh.1
  obtain ⟨k, r, hr, hrd, hrmin, huniq⟩ := hex
  refine ⟨k, r, hr, hrd, hrmin, huniq, ?_, ?_⟩
  · intro p hp
    obtain ⟨s', hs', -, hl⟩ := h.link k r hr
    rw [hrd, hs] at hs'
    obtain rfl : s = s' := by simpa using hs'
    obtain ⟨hpk, q, hq, hqm, hor⟩ := hl p hp
    rcases hor with ⟨hsrc, hat⟩ | ⟨h1, h2, t, ht, h3⟩
    · exfalso
      have hqd : q.src = d := hsrc.trans hrd
      obtain ⟨h1, h2, h3⟩ := hpart p q hq hqd
      rcases h3 with hh | ⟨hh, hh2⟩
      · rw [hqm, hrmin] at hh
        exact absurd hh (not_lt.mpr h1)
      · have := huniq p q hq hqd hh
        omega
    · exact ⟨q, t, hq, h1, ht, h3⟩
  · intro hp
    obtain ⟨s', hs', hl, -⟩ := h.link k r hr
    rw [hrd, hs] at hs'
    obtain rfl : s = s' := by simpa using hs'
    exact (hl hp).1

/-- Only one row of a domain goes up to its end. -/
theorem FInv.last_unique {inp : List (DomIn K)} {surr : K → List (List ℕ)} {values : List K} {map : ℕ → Option ℕ} {out : List (ARow K)}
    (h : FInv inp surr values map out) (hmap : ∀ d < inp.length, map d ≠ none) {d : ℕ} {s : DomIn K} (hs : inp[d]? = some s) (hlt : s.minV < s.maxV)
    {k m : ℕ} {r q : ARow K} (hr : out[k]? = some r) (hq : out[m]? = some q) (hrd : r.src = d) (hqd : q.src = d) (hrm : r.maxV = s.maxV) (hqm : q.maxV = s.maxV) :
    k = m := by
  have hpart : ∀ (k' : ℕ) (r' : ARow K), out[k']? = some r' → r'.src = d → s.minV ≤ r'.minV ∧ r'.minV < r'.maxV := by
    intro k' r' hr' hd'
    obtain ⟨s', hs', -, -, h1, h2, h3⟩ := h.part r' (List.mem_of_getElem? hr')
    rw [hd', hs] at hs'
    obtain rfl : s = s' := by simpa using hs'
    refine ⟨h1, h3.elim id fun hh => by rw [hh.1, hh.2]; exact hlt⟩
  have h1 := hpart k r hr hrd
  have h2 := hpart m q hq hqd
  obtain ⟨n, -, huniq⟩ := h.cover d s hs (hmap d (List.getElem?_eq_some_iff.mp hs).1) (max r.minV q.minV) (h1.1.trans (le_max_left _ _))
    (max_lt (hrm ▸ h1.2) (hqm ▸ h2.2))
  exact (huniq k ⟨r, hr, hrd, le_max_left _ _, hrm ▸ max_lt (hrm ▸ h1.2) (hqm ▸ h2.2)⟩).trans
    (huniq m ⟨q, hq, hqd, le_max_right _ _, hqm ▸ max_lt (hrm ▸ h1.2) (hqm ▸ h2.2)⟩).symm

/-- The children of a row: either one row with the same basins, or the first rows of the children of its domain. -/
theorem FInv.children {inp : List (DomIn K)} {surr : K → List (List ℕ)} {values : List K} {map : ℕ → Option ℕ} {out : List (ARow K)} (hT : DomTree inp)
    (h : FInv inp surr values map out) (hmap : ∀ d < inp.length, map d ≠ none) {k c0 : ℕ} {r r0 : ARow K} (hr : out[k]? = some r)
    (hr0 : out[c0]? = some r0) (hp0 : r0.parent = some k) :
    (r0.src = r.src ∧ ∀ (c : ℕ) (rc : ARow K), out[c]? = some rc → rc.parent = some k → c = c0) ∨
    ((∃ (e : ℕ) (s : DomIn K), inp[e]? = some s ∧ s.parent = some r.src) ∧
     (∀ (c : ℕ) (rc : ARow K), out[c]? = some rc → rc.parent = some k → ∃ s, inp[rc.src]? = some s ∧ s.parent = some r.src ∧ rc.minV = s.minV) ∧
     (∀ (e : ℕ) (s : DomIn K), inp[e]? = some s → s.parent = some r.src → ∃ (c : ℕ) (rc : ARow K), out[c]? = some rc ∧ rc.parent = some k ∧ rc.src = e)) := by
  obtain ⟨s, hs, -, -, hle, hge, horR⟩ := h.part r (List.mem_of_getElem? hr)
  have hlinks : ∀ (c : ℕ) (rc : ARow K), out[c]? = some rc → rc.parent = some k → r.maxV = rc.minV ∧ k < c ∧
      ((r.src = rc.src ∧ r.atoms.length ≠ rc.atoms.length) ∨ (∃ s', inp[rc.src]? = some s' ∧ s'.parent = some r.src ∧ rc.minV = s'.minV ∧ r.maxV = s.maxV)) := by
    intro c rc hc hpc
    obtain ⟨s', hs', -, hl⟩ := h.link c rc hc
    obtain ⟨hkc, q, hq, hqm, hor⟩ := hl k hpc
    rw [hr] at hq
    obtain rfl : r = q := by simpa using hq
    refine ⟨hqm, hkc, ?_⟩
    rcases hor with hh | ⟨h1, h2, t, ht, h3⟩
    · exact Or.inl hh
    · rw [hs] at ht
      obtain rfl : s = t := by simpa using ht
      exact Or.inr ⟨s', hs', h1, h2, h3⟩
  -- a later row of the same domain begins before its end
  have hsame : ∀ (c : ℕ) (rc : ARow K), out[c]? = some rc → rc.parent = some k → r.src = rc.src → r.maxV < s.maxV ∧ rc.minV < rc.maxV ∧ rc.maxV ≤ s.maxV := by
    intro c rc hc hpc hsrc
    obtain ⟨hm, hkc, _⟩ := hlinks c rc hc hpc
    obtain ⟨s', hs', -, -, h1, h2, h3⟩ := h.part rc (List.mem_of_getElem? hc)
    rw [← hsrc, hs] at hs'
    obtain rfl : s = s' := by simpa using hs'
    have hlt : rc.minV < rc.maxV := by
      rcases h3 with hh | ⟨hh, hh2⟩
      · exact hh
      · by_contra hcon
        have hdeg : s.maxV ≤ s.minV := by rw [← hh, ← hh2]; exact not_lt.mp hcon
        have := (h.one r.src s hs (hmap _ (List.getElem?_eq_some_iff.mp hs).1) hdeg).unique ⟨r, hr, rfl⟩ ⟨rc, hc, hsrc.symm⟩
        omega
    exact ⟨hm ▸ hlt.trans_le h2, hlt, h2⟩
  obtain ⟨hm0, hkc0, hor0⟩ := hlinks c0 r0 hr0 hp0
  rcases hor0 with ⟨hsrc0, hat0⟩ | ⟨s0, hs0, hps0, hmin0, hmax0⟩
  · left
    refine ⟨hsrc0.symm, fun c rc hc hpc => ?_⟩
    obtain ⟨hm, -, hor⟩ := hlinks c rc hc hpc
    obtain ⟨a1, a2, a3⟩ := hsame c0 r0 hr0 hp0 hsrc0
    rcases hor with ⟨hsrc, -⟩ | ⟨_, _, _, _, hmax⟩
    · obtain ⟨b1, b2, b3⟩ := hsame c rc hc hpc hsrc
      have hsv : s.minV ≤ r.maxV := hle.trans (by
        rcases horR with hh | ⟨hh, hh2⟩
        · exact hh.le
        · exact absurd a1 (by rw [hh2]; exact lt_irrefl _))
      obtain ⟨n, -, huniq⟩ := h.cover r.src s hs (hmap _ (List.getElem?_eq_some_iff.mp hs).1) r.maxV hsv a1
      exact (huniq c ⟨rc, hc, hsrc.symm, hm.ge, hm ▸ b2⟩).trans (huniq c0 ⟨r0, hr0, hsrc0.symm, hm0.ge, hm0 ▸ a2⟩).symm
    · exact absurd a1 (by rw [hmax]; exact lt_irrefl _)
  · right
    refine ⟨⟨_, s0, hs0, hps0⟩, fun c rc hc hpc => ?_, fun e t ht hpt => ?_⟩
    · obtain ⟨hm, -, hor⟩ := hlinks c rc hc hpc
      rcases hor with ⟨hsrc, -⟩ | ⟨s', hs', h1, h2, -⟩
      · exact absurd (hsame c rc hc hpc hsrc).1 (by rw [hmax0]; exact lt_irrefl _)
      · exact ⟨s', hs', h1, h2⟩
    · obtain ⟨c, rc, hc, hcsrc, hcmin, -, hpar, hnone⟩ := h.first hmap ht
      rcases hcp : rc.parent with _ | p
      · rw [hnone hcp] at hpt; cases hpt
      · obtain ⟨q, t', hq, hpq, ht', hqm⟩ := hpar p hcp
        rw [hpt] at hpq
        have hqsrc : q.src = r.src := by simpa using hpq.symm
        rw [hqsrc, hs] at ht'
        obtain rfl : s = t' := by simpa using ht'
        obtain ⟨-, s1, hs1, -, hslt⟩ := hT e t r.src ht hpt
        rw [hs] at hs1
        obtain rfl : s = s1 := by simpa using hs1
        have := h.last_unique hmap hs hslt hq hr hqsrc rfl hqm hmax0
        exact ⟨c, rc, hc, by rw [hcp, this], hcsrc⟩

end BaderKit
