import Verif.Lemmas.BifTree
/-!
# The operations on a bifurcation graph keep it a forest
-/
namespace BaderKit

variable {K : Type} [Field K] [LinearOrder K]

section
variable {g : BGraph K}

theorem bgraph_ext {a b : BGraph K} (h1 : a.nodes = b.nodes) (h2 : a.roots = b.roots) (h3 : ∀ x, a.node x = b.node x) : a = b := by
  cases a; cases b
  simp only at h1 h2 h3
  subst h1; subst h2
  congr
  exact funext h3

theorem modNode_node (g : BGraph K) (k x : ℕ) (f : TNode K → TNode K) :
    (modNode g k f).node x = if x = k then f (g.node k) else g.node x := by
  unfold modNode
  by_cases h : x = k
  · subst h; simp
  · simp [h]

theorem emptyGraph_forest : Forest (emptyGraph : BGraph K) := by
  refine ⟨?_, ?_, ?_, ?_, ?_, ?_, fun _ => 0, ?_, ?_⟩ <;> simp [emptyGraph]

theorem foldl_max_le (l : List ℕ) (m : ℕ) : m ≤ l.foldl max m ∧ ∀ x ∈ l, x ≤ l.foldl max m := by
  induction l generalizing m with
  | nil => simp
  | cons a l ih =>
    obtain ⟨h1, h2⟩ := ih (max m a)
    simp only [List.foldl_cons, List.mem_cons, forall_eq_or_imp]
    exact ⟨(le_max_left _ _).trans h1, (le_max_right _ _).trans h1, h2⟩

theorem freshKey_not_mem (g : BGraph K) : freshKey g ∉ g.nodes := by
  unfold freshKey
  split_ifs with h
  · rw [h]; simp
  · intro hm
    have := (foldl_max_le g.nodes 0).2 _ hm
    omega

/-- Effect of the constructor. -/
theorem addNode_spec (hF : Forest g) {key parent : Option ℕ} {t : TNode K} (hk : key.getD (freshKey g) ∉ g.nodes)
    (hp : ∀ p, parent = some p → p ∈ g.nodes ∧ (g.node p).red = true) :
    ∃ g', addNode g key parent t = some g' ∧ Forest g' ∧ g'.nodes = g.nodes ++ [key.getD (freshKey g)] ∧
      g'.node (key.getD (freshKey g)) = { t with parent := parent, children := [], depthC := none } ∧
      (∀ x ∈ g.nodes, (g'.node x).parent = (g.node x).parent ∧ SameContent (g'.node x) (g.node x) ∧ (g'.node x).maxV = (g.node x).maxV ∧
        (g'.node x).depthC = (g.node x).depthC) := by
  set k := key.getD (freshKey g) with hkdef
  obtain ⟨rank, hr1, hr2⟩ := hF.order
  -- a rank above all others for the new node
  set top := (g.nodes.map rank).foldl max 0 + 1 with htop
  have hlt : ∀ x ∈ g.nodes, rank x < top := by
    intro x hx
    have := (foldl_max_le (g.nodes.map rank) 0).2 (rank x) (List.mem_map_of_mem hx)
    omega
  have hrank : ∀ x ∈ g.nodes, Function.update rank k top x = rank x := by
    intro x hx
    rw [Function.update_of_ne (by rintro rfl; exact hk hx)]
  have hpw : (g.nodes ++ [k]).Pairwise (fun a b => Function.update rank k top a < Function.update rank k top b) := by
    rw [List.pairwise_append]
    refine ⟨hr1.imp_of_mem (fun {a b} ha hb h => by rw [hrank a ha, hrank b hb]; exact h), List.pairwise_singleton _ _, ?_⟩
    intro a ha b hb
    rw [List.mem_singleton] at hb
    subst hb
    rw [hrank a ha, Function.update_self]
    exact hlt a ha
  have hnd : (g.nodes ++ [k]).Nodup := by
    rw [List.nodup_append]
    refine ⟨hF.nodup, by simp, ?_⟩
    intro a ha b hb e
    rw [List.mem_singleton] at hb
    subst hb; subst e
    exact hk ha
  cases parent with
  | none =>
    refine ⟨{ nodes := g.nodes ++ [k], roots := g.roots ++ [k], node := Function.update g.node k { t with parent := none, children := [], depthC := none } },
      ?_, ?_, rfl, by simp, ?_⟩
    · unfold addNode; simp only [← hkdef, if_neg hk]
    · have hne : ∀ x ∈ g.nodes, Function.update g.node k ({ t with parent := none, children := [], depthC := none } : TNode K) x = g.node x := by
        intro x hx; rw [Function.update_of_ne (by rintro rfl; exact hk hx)]
      constructor
      · exact hnd
      · rw [List.nodup_append]
        refine ⟨hF.rootsNodup, by simp, ?_⟩
        intro a ha b hb e
        rw [List.mem_singleton] at hb
        subst hb; subst e
        exact hk ((hF.roots_iff _).mp ha).1
      · intro x
        simp only [List.mem_append, List.mem_singleton]
        by_cases hx : x = k
        · subst hx; simp
        · rw [Function.update_of_ne hx, hF.roots_iff]
          simp [hx]
      · intro x hx q hq
        rcases List.mem_append.mp hx with hx | hx
        · simp only [hne x hx] at hq
          obtain ⟨a, b⟩ := hF.parent_ok x hx q hq
          refine ⟨List.mem_append_left _ a, ?_⟩
          simp only [hne q a]; exact b
        · rw [List.mem_singleton] at hx
          subst hx
          simp at hq
      · intro p hpn c
        rcases List.mem_append.mp hpn with hpn | hpn
        · simp only [hne p hpn]
          rw [hF.child_iff p hpn]
          simp only [List.mem_append, List.mem_singleton]
          by_cases hc : c = k
          · subst hc
            simp only [Function.update_self]
            constructor
            · rintro ⟨h, _⟩; exact absurd h hk
            · rintro ⟨_, h⟩; cases h
          · rw [Function.update_of_ne hc]; simp [hc]
        · rw [List.mem_singleton] at hpn
          subst hpn
          simp only [Function.update_self, List.not_mem_nil, false_iff, not_and]
          intro hc h
          rcases List.mem_append.mp hc with hc | hc
          · simp only [hne c hc] at h
            exact hk ((hF.parent_ok c hc _ h).1)
          · rw [List.mem_singleton] at hc
            subst hc
            simp at h
      · intro p hpn
        rcases List.mem_append.mp hpn with hpn | hpn
        · simp only [hne p hpn]; exact hF.childNodup p hpn
        · rw [List.mem_singleton] at hpn
          subst hpn; simp
      · refine ⟨Function.update rank k top, hpw, ?_⟩
        intro x hx q hq
        rcases List.mem_append.mp hx with hx | hx
        · simp only [hne x hx] at hq
          rw [hrank x hx, hrank q (hF.parent_ok x hx q hq).1]
          exact hr2 x hx q hq
        · rw [List.mem_singleton] at hx
          subst hx
          simp at hq
    · intro x hx
      simp only
      rw [Function.update_of_ne (by rintro rfl; exact hk hx)]
      exact ⟨rfl, ⟨rfl, rfl, rfl, rfl, rfl, rfl, rfl, rfl, rfl, rfl⟩, rfl, rfl⟩
  | some p =>
    obtain ⟨hpn, hpr⟩ := hp p rfl
    have hpk : p ≠ k := by rintro rfl; exact hk hpn
    set new : TNode K := { t with parent := some p, children := [], depthC := none } with hnew
    set g1 := modNode g p (fun n => { n with children := n.children ++ [k] }) with hg1
    refine ⟨{ nodes := g1.nodes ++ [k], roots := g1.roots, node := Function.update g1.node k new }, ?_, ?_, rfl, by simp, ?_⟩
    · unfold addNode
      simp only [← hkdef, if_neg hk]
      rw [if_pos ⟨hpn, hpr⟩]
    · have hk1 : ∀ x ∈ g.nodes, Function.update g1.node k new x = { g.node x with children := if x = p then (g.node p).children ++ [k] else (g.node x).children } := by
        intro x hx
        rw [Function.update_of_ne (by rintro rfl; exact hk hx)]
        simp only [hg1, modNode]
        by_cases hxp : x = p
        · subst hxp; simp
        · rw [Function.update_of_ne hxp]; simp [hxp]
      have hg1n : g1.nodes = g.nodes := rfl
      have hg1r : g1.roots = g.roots := rfl
      constructor
      · rw [hg1n]; exact hnd
      · rw [hg1r]; exact hF.rootsNodup
      · intro x
        simp only [hg1n, hg1r, List.mem_append, List.mem_singleton]
        by_cases hx : x = k
        · subst hx
          simp only [Function.update_self, hnew]
          constructor
          · intro h; exact absurd ((hF.roots_iff _).mp h).1 hk
          · rintro ⟨_, h⟩; cases h
        · rw [hF.roots_iff]
          constructor
          · rintro ⟨a, b⟩; exact ⟨.inl a, by rw [hk1 x a]; exact b⟩
          · rintro ⟨a | a, b⟩
            · exact ⟨a, by rw [hk1 x a] at b; exact b⟩
            · exact absurd a hx
      · intro x hx q hq
        simp only [hg1n] at hx ⊢
        rcases List.mem_append.mp hx with hx | hx
        · simp only [hk1 x hx] at hq
          obtain ⟨a, b⟩ := hF.parent_ok x hx q hq
          refine ⟨List.mem_append_left _ a, ?_⟩
          rw [hk1 q a]; exact b
        · rw [List.mem_singleton] at hx
          subst hx
          simp only [Function.update_self, hnew, Option.some.injEq] at hq
          subst hq
          refine ⟨List.mem_append_left _ hpn, ?_⟩
          rw [hk1 p hpn]; exact hpr
      · intro q hq c
        simp only [hg1n] at hq ⊢
        rcases List.mem_append.mp hq with hq | hq
        · rw [hk1 q hq]
          simp only [List.mem_append, List.mem_singleton]
          by_cases hc : c = k
          · subst hc
            have hnc : ∀ q' ∈ g.nodes, k ∉ (g.node q').children := fun q' hq' h => hk ((hF.child_iff q' hq' _).mp h).1
            simp only [Function.update_self, hnew]
            by_cases hqp : q = p
            · subst hqp; simp
            · rw [if_neg hqp]
              constructor
              · intro h; exact absurd h (hnc q hq)
              · rintro ⟨_, h⟩; exact absurd (Option.some.inj h).symm hqp
          · have : c ∈ (if q = p then (g.node p).children ++ [k] else (g.node q).children) ↔ c ∈ (g.node q).children := by
              split_ifs with h
              · subst h; simp [hc]
              · rfl
            rw [this, hF.child_iff q hq]
            constructor
            · rintro ⟨a, b⟩; exact ⟨.inl a, by rw [hk1 c a]; exact b⟩
            · rintro ⟨a | a, b⟩
              · exact ⟨a, by rw [hk1 c a] at b; exact b⟩
              · exact absurd a hc
        · rw [List.mem_singleton] at hq
          subst hq
          simp only [Function.update_self, hnew, List.not_mem_nil, false_iff, not_and]
          intro hc h
          rcases List.mem_append.mp hc with hc | hc
          · rw [hk1 c hc] at h
            exact hk ((hF.parent_ok c hc _ h).1)
          · rw [List.mem_singleton] at hc
            subst hc
            simp only [Function.update_self, Option.some.injEq] at h
            exact hpk h
      · intro q hq
        simp only [hg1n] at hq ⊢
        rcases List.mem_append.mp hq with hq | hq
        · rw [hk1 q hq]
          simp only
          split_ifs with h
          · rw [List.nodup_append]
            refine ⟨hF.childNodup p hpn, by simp, ?_⟩
            intro a ha b hb e
            rw [List.mem_singleton] at hb
            subst hb; subst e
            exact hk ((hF.child_iff p hpn _).mp ha).1
          · exact hF.childNodup q hq
        · rw [List.mem_singleton] at hq
          subst hq; simp [hnew]
      · refine ⟨Function.update rank k top, by rw [hg1n]; exact hpw, ?_⟩
        intro x hx q hq
        simp only [hg1n] at hx
        rcases List.mem_append.mp hx with hx | hx
        · simp only [hk1 x hx] at hq
          rw [hrank x hx, hrank q (hF.parent_ok x hx q hq).1]
          exact hr2 x hx q hq
        · rw [List.mem_singleton] at hx
          subst hx
          simp only [Function.update_self, hnew, Option.some.injEq] at hq
          subst hq
          rw [hrank p hpn, Function.update_self]
          exact hlt p hpn
    · intro x hx
      simp only
      rw [Function.update_of_ne (by rintro rfl; exact hk hx)]
      simp only [hg1, modNode]
      by_cases hxp : x = p
      · subst hxp; simp [SameContent]
      · rw [Function.update_of_ne hxp]
        exact ⟨rfl, ⟨rfl, rfl, rfl, rfl, rfl, rfl, rfl, rfl, rfl, rfl⟩, rfl, rfl⟩

/-- A failing constructor: the parent does not exist or cannot have children. -/
theorem addNode_none {key : Option ℕ} {p : ℕ} {t : TNode K} (hp : ¬ (p ∈ g.nodes ∧ (g.node p).red = true)) :
    addNode g key (some p) t = none := by
  unfold addNode
  simp only [if_neg hp, ite_self]

/-! ### Removal -/

/-- Handing all children of `k` to `p`. -/
theorem setParents_fold (k p : ℕ) (hkp : k ≠ p) :
    ∀ (cs : List ℕ) (h : BGraph K), cs.Nodup → (∀ c ∈ cs, (h.node c).parent = some k) → k ∉ cs → p ∉ cs → (h.node p).red = true →
    cs.foldlM (fun h c => setParent h c p) h = some { h with node := fun x =>
      { h.node x with
        parent := if x ∈ cs then some p else (h.node x).parent
        children := if x = k then (h.node k).children.filter (fun c => decide (c ∉ cs))
          else if x = p then (h.node p).children ++ cs else (h.node x).children } } := by
  intro cs
  induction cs with
  | nil =>
    intro h _ _ _ _ _
    simp only [List.foldlM_nil, List.not_mem_nil, if_false, not_false_eq_true, decide_true, List.append_nil, Option.pure_def, Option.some.injEq]
    refine bgraph_ext (by rfl) (by rfl) ?_
    intro x
    by_cases h1 : x = k
    · subst h1; simp
    · by_cases h2 : x = p
      · subst h2; simp [h1]
      · simp [h1, h2]
  | cons c cs ih =>
    intro h hnd hpar hk hp hred
    obtain ⟨hc, hnd'⟩ := List.nodup_cons.mp hnd
    simp only [List.mem_cons, not_or] at hk hp
    rw [List.foldlM_cons]
    have hcp := hpar c (by simp)
    set h1 : BGraph K := { h with node := fun x =>
      { h.node x with
        parent := if x = c then some p else (h.node x).parent
        children := if x = k then (h.node k).children.filter (fun d => decide (d ≠ c))
          else if x = p then (h.node p).children ++ [c] else (h.node x).children } } with hh1
    have hset : setParent h c p = some h1 := by
      unfold setParent
      rw [hcp]
      simp only
      rw [if_pos (by simp [modNode_node, hp.1, hkp.symm, hred])]
      congr 1
      refine bgraph_ext (by rfl) (by rfl) ?_
      intro x
      simp only [modNode_node, hh1]
      have hck : c ≠ k := Ne.symm hk.1
      by_cases e1 : x = p
      · subst e1
        simp [hp.1, hkp.symm]
      · by_cases e2 : x = c
        · subst e2
          simp [hck, e1]
        · by_cases e3 : x = k
          · subst e3; simp [e1, e2]
          · simp [e1, e2, e3]
    rw [hset]
    simp only [Option.bind_eq_bind, Option.bind_some]
    rw [ih h1 hnd' (fun d hd => by
      simp only [hh1]
      rw [if_neg (by rintro rfl; exact hc hd)]
      exact hpar d (by simp [hd])) hk.2 hp.2 (by simp only [hh1]; exact hred)]
    rw [hh1]
    congr 2
    funext x
    simp only
    by_cases e3 : x = k
    · subst e3
      have : x ≠ c := hk.1
      simp [this, hk.2, List.filter_filter, not_or, Bool.and_comm]
    · by_cases e1 : x = p
      · subst e1
        simp [hp.1, hp.2, e3]
      · by_cases e2 : x = c
        · subst e2; simp [e1, e3]
        · simp [e1, e2, e3]

/-- Handing all children of a removed root to nobody. -/
theorem rootChildren_fold :
    ∀ (cs : List ℕ) (h : BGraph K),
    cs.foldl (fun (h : BGraph K) c => modNode { h with roots := h.roots ++ [c] } c (fun n => { n with parent := none })) h =
      { h with roots := h.roots ++ cs, node := fun x => { h.node x with parent := if x ∈ cs then none else (h.node x).parent } } := by
  intro cs
  induction cs with
  | nil => intro h; simp
  | cons c cs ih =>
    intro h
    rw [List.foldl_cons, ih]
    simp only [modNode, List.append_assoc, List.singleton_append, List.mem_cons]
    congr 1
    funext x
    by_cases e : x = c
    · subst e; simp
    · rw [Function.update_of_ne e]; simp [e]

/-- What removing a node does to the others. -/
structure Removed (g : BGraph K) (k : ℕ) (g' : BGraph K) : Prop where
  nodes : g'.nodes = g.nodes.filter (fun c => decide (c ≠ k))
  parent : ∀ x ∈ g.nodes, (g'.node x).parent = if (g.node x).parent = some k then (g.node k).parent else (g.node x).parent
  content : ∀ x ∈ g.nodes, SameContent (g'.node x) (g.node x)
  maxV : ∀ x ∈ g.nodes, ((g.node k).red = false ∨ (g.node k).parent ≠ some x) → (g'.node x).maxV = (g.node x).maxV
  depthC : ∀ x ∈ g.nodes, (g'.node x).depthC = (g.node x).depthC
  newMax : ∀ p, (g.node k).red = true → (g.node k).parent = some p → (g'.node p).maxV ≤ (g.node k).maxV ∧
    (∀ c ∈ (g'.node p).children, (g'.node p).maxV ≤ (g'.node c).minV) ∧
    ((g'.node p).maxV = (g.node k).maxV ∨ ∃ c ∈ (g'.node p).children, (g'.node p).maxV = (g'.node c).minV)
  oldChildren : ∀ x ∈ g'.nodes, (g.node k).parent ≠ some x → (g'.node x).children = (g.node x).children

theorem foldl_low (f : ℕ → K) (l : List ℕ) (a : K) :
    l.foldl (fun m c => if f c < m then f c else m) a ≤ a ∧ (∀ c ∈ l, l.foldl (fun m c => if f c < m then f c else m) a ≤ f c) ∧
    (l.foldl (fun m c => if f c < m then f c else m) a = a ∨ ∃ c ∈ l, l.foldl (fun m c => if f c < m then f c else m) a = f c) := by
  induction l generalizing a with
  | nil => simp
  | cons c l ih =>
    simp only [List.foldl_cons]
    obtain ⟨h1, h2, h3⟩ := ih (if f c < a then f c else a)
    have ha : (if f c < a then f c else a) ≤ a ∧ (if f c < a then f c else a) ≤ f c := by
      split_ifs with h
      · exact ⟨h.le, le_refl _⟩
      · exact ⟨le_refl _, not_lt.mp h⟩
    refine ⟨h1.trans ha.1, ?_, ?_⟩
    · intro d hd
      rcases List.mem_cons.mp hd with rfl | hd
      · exact h1.trans ha.2
      · exact h2 d hd
    · rcases h3 with h | ⟨d, hd, h⟩
      · by_cases hc : f c < a
        · right; refine ⟨c, by simp, ?_⟩; rw [h, if_pos hc]
        · left; rw [h, if_neg hc]
      · exact .inr ⟨d, by simp [hd], h⟩

theorem forest_of_links {g' : BGraph K} (hF : Forest g) {k : ℕ} (hk : k ∈ g.nodes) (h : Removed g k g')
    (hroots : g'.roots.Nodup ∧ ∀ x, x ∈ g'.roots ↔ x ∈ g'.nodes ∧ (g'.node x).parent = none)
    (hch : ∀ p ∈ g'.nodes, (g'.node p).children.Nodup ∧ ∀ c, c ∈ (g'.node p).children ↔ c ∈ g'.nodes ∧ (g'.node c).parent = some p) :
    Forest g' := by
  have hmem : ∀ x, x ∈ g'.nodes ↔ x ∈ g.nodes ∧ x ≠ k := by
    intro x; rw [h.nodes, List.mem_filter]; simp
  obtain ⟨rank, hr1, hr2⟩ := hF.order
  have hpar : ∀ x ∈ g'.nodes, ∀ p, (g'.node x).parent = some p → (p ∈ g.nodes ∧ p ≠ k ∧ (g.node p).red = true) ∧ rank p < rank x := by
    intro x hx p hp
    obtain ⟨hxn, hxk⟩ := (hmem x).mp hx
    rw [h.parent x hxn] at hp
    split_ifs at hp with hpk
    · obtain ⟨a, b⟩ := hF.parent_ok k hk p hp
      refine ⟨⟨a, ?_, b⟩, (hr2 k hk p hp).trans (hr2 x hxn k hpk)⟩
      rintro rfl
      exact hF.parent_ne hk hp
    · obtain ⟨a, b⟩ := hF.parent_ok x hxn p hp
      refine ⟨⟨a, ?_, b⟩, hr2 x hxn p hp⟩
      rintro rfl
      exact hpk hp
  refine ⟨?_, hroots.1, hroots.2, ?_, fun p hp => (hch p hp).2, fun p hp => (hch p hp).1, rank, ?_, fun x hx p hp => (hpar x hx p hp).2⟩
  · rw [h.nodes]; exact hF.nodup.filter _
  · intro x hx p hp
    obtain ⟨⟨a, b, c⟩, _⟩ := hpar x hx p hp
    refine ⟨(hmem p).mpr ⟨a, b⟩, ?_⟩
    rw [(h.content p a).1]; exact c
  · rw [h.nodes]; exact hr1.filter _

/-- Removing a node from a forest. -/
theorem removeNode_spec (hF : Forest g) {k : ℕ} (hk : k ∈ g.nodes) (hok : (g.node k).red = true ∨ (g.node k).parent ≠ none) :
    ∃ g', removeNode g k = some g' ∧ Forest g' ∧ Removed g k g' := by
  have hself := hF.parent_ne hk
  have hcs := hF.child_iff k hk
  have hsc : ∀ (t : TNode K) p c m d, SameContent ({ t with parent := p, children := c, maxV := m, depthC := d } : TNode K) t :=
    fun t p c m d => ⟨rfl, rfl, rfl, rfl, rfl, rfl, rfl, rfl, rfl, rfl⟩
  have hparent_or : ∀ x ∈ g.nodes, (x ∈ (g.node k).children ↔ (g.node x).parent = some k) := fun x hx => by
    rw [hcs]; simp [hx]
  unfold removeNode
  rw [if_pos hk]
  by_cases hred : (g.node k).red = true
  · rw [if_pos hred]
    unfold removeRed
    cases hp : (g.node k).parent with
    | none =>
      simp only [rootChildren_fold]
      set g' : BGraph K := dropNode { g with
        roots := g.roots.filter (fun c => decide (c ≠ k)) ++ (g.node k).children
        node := fun x => { g.node x with parent := if x ∈ (g.node k).children then none else (g.node x).parent } } k with hg'
      have hR : Removed g k g' := by
        refine ⟨rfl, ?_, ?_, ?_, ?_, ?_, ?_⟩
        · intro x hx
          simp only [hg', dropNode]
          rw [hp]
          by_cases hx' : (g.node x).parent = some k
          · rw [if_pos ((hparent_or x hx).mpr hx'), if_pos hx']
          · rw [if_neg (fun h => hx' ((hparent_or x hx).mp h)), if_neg hx']
        · intro x hx; exact ⟨rfl, rfl, rfl, rfl, rfl, rfl, rfl, rfl, rfl, rfl⟩
        · intro x hx _; rfl
        · intro x hx; rfl
        · intro p _ h; rw [hp] at h; cases h
        · intro x _ _; rfl
      refine ⟨g', rfl, ?_, hR⟩
      have hmem : ∀ x, x ∈ g'.nodes ↔ x ∈ g.nodes ∧ x ≠ k := by
        intro x; rw [hR.nodes, List.mem_filter]; simp
      refine forest_of_links hF hk hR ⟨?_, ?_⟩ ?_
      · change (g.roots.filter (fun c => decide (c ≠ k)) ++ (g.node k).children).Nodup
        rw [List.nodup_append]
        refine ⟨hF.rootsNodup.filter _, hF.childNodup k hk, ?_⟩
        rintro x hx y hy rfl
        have h1 := ((hF.roots_iff x).mp (List.mem_of_mem_filter hx)).2
        have h2 := ((hcs x).mp hy).2
        rw [h1] at h2; cases h2
      · intro x
        change x ∈ g.roots.filter (fun c => decide (c ≠ k)) ++ (g.node k).children ↔ _
        rw [List.mem_append, List.mem_filter, hF.roots_iff, hmem]
        simp only [ne_eq, decide_eq_true_eq]
        constructor
        · rintro (⟨⟨a, b⟩, c⟩ | h)
          · refine ⟨⟨a, c⟩, ?_⟩
            rw [hR.parent x a, b]; simp
          · obtain ⟨a, b⟩ := (hcs x).mp h
            refine ⟨⟨a, ?_⟩, ?_⟩
            · rintro rfl; exact hself b
            · rw [hR.parent x a, if_pos b, hp]
        · rintro ⟨⟨a, b⟩, c⟩
          rw [hR.parent x a] at c
          split_ifs at c with h
          · exact .inr ((hcs x).mpr ⟨a, h⟩)
          · exact .inl ⟨⟨a, c⟩, b⟩
      · intro q hq
        obtain ⟨hqn, hqk⟩ := (hmem q).mp hq
        refine ⟨hF.childNodup q hqn, ?_⟩
        intro c
        change c ∈ (g.node q).children ↔ _
        rw [hF.child_iff q hqn, hmem]
        constructor
        · rintro ⟨a, b⟩
          refine ⟨⟨a, ?_⟩, ?_⟩
          · rintro rfl; rw [hp] at b; cases b
          · rw [hR.parent c a, if_neg, b]
            rw [b]; intro h; exact hqk (Option.some.inj h)
        · rintro ⟨⟨a, _⟩, b⟩
          rw [hR.parent c a] at b
          split_ifs at b with h
          · rw [hp] at b; cases b
          · exact ⟨a, b⟩
    | some p =>
      obtain ⟨hpn, hpr⟩ := hF.parent_ok k hk p hp
      have hkp : k ≠ p := by rintro rfl; exact hself hp
      have hkc : k ∉ (g.node k).children := fun h => hself ((hcs k).mp h).2
      have hpc : p ∉ (g.node k).children := fun h => hF.below_irrefl hk (.tail (.single hp) ((hcs p).mp h).2)
      simp only [Option.bind_eq_bind]
      rw [setParents_fold k p hkp (g.node k).children g (hF.childNodup k hk) (fun c hc => ((hcs c).mp hc).2) hkc hpc hpr]
      rw [Option.bind_some]
      simp only
      generalize hm : List.foldl _ _ _ = m
      have hm' : (((g.node p).children ++ (g.node k).children).filter (fun c => decide (c ≠ k))).foldl
          (fun m c => if (g.node c).minV < m then (g.node c).minV else m) (g.node k).maxV = m := by
        rw [← hm]
        have hcnt : ∀ c, ((modNode { g with node := fun x => { g.node x with
            parent := if x ∈ (g.node k).children then some p else (g.node x).parent
            children := if x = k then (g.node k).children.filter (fun c => decide (c ∉ (g.node k).children))
              else if x = p then (g.node p).children ++ (g.node k).children else (g.node x).children } } p
            (fun n => { n with children := n.children.filter (fun c => decide (c ≠ k)) })).node c).minV = (g.node c).minV := by
          intro c
          rw [modNode_node]
          split_ifs with h
          · subst h; rfl
          · rfl
        simp only [hcnt]
        simp only [modNode_node, if_true, if_neg hkp, if_neg hkp.symm]
      set g' : BGraph K := dropNode { g with node := fun x => { g.node x with
        parent := if x ∈ (g.node k).children then some p else (g.node x).parent
        children := if x = k then [] else if x = p then ((g.node p).children ++ (g.node k).children).filter (fun c => decide (c ≠ k))
          else (g.node x).children
        maxV := if x = p then m else (g.node x).maxV } } k with hg'
      have hnode : ∀ x, g'.node x = { g.node x with
        parent := if x ∈ (g.node k).children then some p else (g.node x).parent
        children := if x = k then [] else if x = p then ((g.node p).children ++ (g.node k).children).filter (fun c => decide (c ≠ k))
          else (g.node x).children
        maxV := if x = p then m else (g.node x).maxV } := fun x => rfl
      have hR : Removed g k g' := by
        refine ⟨rfl, ?_, ?_, ?_, ?_, ?_, ?_⟩
        · intro x hx
          rw [hnode, hp]
          simp only
          by_cases hx' : (g.node x).parent = some k
          · rw [if_pos ((hparent_or x hx).mpr hx'), if_pos hx']
          · rw [if_neg (fun h => hx' ((hparent_or x hx).mp h)), if_neg hx']
        · intro x hx; exact ⟨rfl, rfl, rfl, rfl, rfl, rfl, rfl, rfl, rfl, rfl⟩
        · intro x hx h
          rw [hnode]
          simp only
          rw [if_neg]
          rintro rfl
          rcases h with h | h
          · rw [hred] at h; cases h
          · exact h hp
        · intro x hx; rfl
        · intro p' _ hp'
          rw [hp] at hp'
          have : p = p' := Option.some.inj hp'
          subst this
          have e1 : (g'.node p).maxV = m := by rw [hnode]; simp
          have e2 : (g'.node p).children = ((g.node p).children ++ (g.node k).children).filter (fun c => decide (c ≠ k)) := by
            rw [hnode]; simp [hkp.symm]
          rw [e1, e2, ← hm']
          exact foldl_low _ _ _
        · intro x hx h
          have hxk : x ≠ k := by
            have : x ∈ g.nodes.filter (fun c => decide (c ≠ k)) := hx
            simpa using (List.mem_filter.mp this).2
          have hxp : x ≠ p := by rintro rfl; exact h hp
          rw [hnode]
          simp [hxk, hxp]
      have hmem : ∀ x, x ∈ g'.nodes ↔ x ∈ g.nodes ∧ x ≠ k := by
        intro x; rw [hR.nodes, List.mem_filter]; simp
      refine ⟨g', ?_, forest_of_links hF hk hR ⟨hF.rootsNodup, ?_⟩ ?_, hR⟩
      · congr 1
        refine bgraph_ext (by rfl) (by rfl) ?_
        intro x
        rw [hnode]
        simp only [dropNode, modNode_node]
        by_cases e1 : x = p
        · subst e1; simp [hkp.symm]
        · by_cases e2 : x = k
          · subst e2; simp [e1]
          · simp [e1, e2]
      · intro x
        change x ∈ g.roots ↔ _
        rw [hF.roots_iff, hmem]
        constructor
        · rintro ⟨a, b⟩
          refine ⟨⟨a, ?_⟩, ?_⟩
          · rintro rfl; rw [hp] at b; cases b
          · rw [hR.parent x a, b]; simp
        · rintro ⟨⟨a, _⟩, b⟩
          rw [hR.parent x a] at b
          split_ifs at b with h
          · rw [hp] at b; cases b
          · exact ⟨a, b⟩
      · intro q hq
        obtain ⟨hqn, hqk⟩ := (hmem q).mp hq
        have hchq : (g'.node q).children = if q = p then ((g.node p).children ++ (g.node k).children).filter (fun c => decide (c ≠ k))
          else (g.node q).children := by rw [hnode]; simp only; rw [if_neg hqk]
        rw [hchq]
        constructor
        · split_ifs
          · apply List.Nodup.filter
            rw [List.nodup_append]
            refine ⟨hF.childNodup p hpn, hF.childNodup k hk, ?_⟩
            rintro x hx y hy rfl
            have h1 := ((hF.child_iff p hpn x).mp hx).2
            rw [((hcs x).mp hy).2] at h1
            exact hkp (Option.some.inj h1)
          · exact hF.childNodup q hqn
        · intro c
          rw [hmem]
          split_ifs with h
          · subst h
            rw [List.mem_filter, List.mem_append, hF.child_iff q hqn, hcs]
            simp only [ne_eq, decide_eq_true_eq]
            constructor
            · rintro ⟨h | h, hck⟩
              · refine ⟨⟨h.1, hck⟩, ?_⟩
                rw [hR.parent c h.1, if_neg, h.2]
                rw [h.2]; intro h'; exact hqk (Option.some.inj h')
              · exact ⟨⟨h.1, hck⟩, by rw [hR.parent c h.1, if_pos h.2, hp]⟩
            · rintro ⟨⟨a, b⟩, hc⟩
              rw [hR.parent c a] at hc
              split_ifs at hc with h'
              · exact ⟨.inr ⟨a, h'⟩, b⟩
              · exact ⟨.inl ⟨a, hc⟩, b⟩
          · rw [hF.child_iff q hqn]
            constructor
            · rintro ⟨a, b⟩
              refine ⟨⟨a, ?_⟩, ?_⟩
              · rintro rfl
                rw [hp] at b
                exact h (Option.some.inj b).symm
              · rw [hR.parent c a, if_neg, b]
                rw [b]; intro h'; exact hqk (Option.some.inj h')
            · rintro ⟨⟨a, _⟩, b⟩
              rw [hR.parent c a] at b
              split_ifs at b with h'
              · rw [hp] at b
                exact absurd (Option.some.inj b).symm h
              · exact ⟨a, b⟩
  · rw [if_neg hred]
    unfold removeLeaf
    have hred' : (g.node k).red = false := by simpa using hred
    cases hp : (g.node k).parent with
    | none => rcases hok with h | h
              · exact absurd h hred
              · exact absurd hp h
    | some p =>
      obtain ⟨hpn, hpr⟩ := hF.parent_ok k hk p hp
      have hkp : k ≠ p := by rintro rfl; exact hself hp
      have hnil := hF.leaf_children hk hred'
      have hnone : ∀ x ∈ g.nodes, (g.node x).parent ≠ some k := by
        intro x hx h
        have := (hparent_or x hx).mpr h
        rw [hnil] at this; simp at this
      set g' : BGraph K := dropNode (modNode g p (fun n => { n with children := n.children.filter (fun c => decide (c ≠ k)) })) k with hg'
      have hnode : ∀ x, g'.node x = { g.node x with children := if x = p then (g.node p).children.filter (fun c => decide (c ≠ k)) else (g.node x).children } := by
        intro x
        simp only [hg', dropNode, modNode]
        by_cases h : x = p
        · subst h; simp
        · rw [Function.update_of_ne h]; simp [h]
      have hR : Removed g k g' := by
        refine ⟨rfl, ?_, ?_, ?_, ?_, ?_, ?_⟩
        · intro x hx
          rw [hnode, if_neg (hnone x hx)]
        · intro x hx; rw [hnode]; exact ⟨rfl, rfl, rfl, rfl, rfl, rfl, rfl, rfl, rfl, rfl⟩
        · intro x hx _; rw [hnode]
        · intro x hx; rw [hnode]
        · intro p' h; rw [hred'] at h; cases h
        · intro x _ h
          rw [hnode]
          simp only
          rw [if_neg]
          rintro rfl
          exact h hp
      have hmem : ∀ x, x ∈ g'.nodes ↔ x ∈ g.nodes ∧ x ≠ k := by
        intro x; rw [hR.nodes, List.mem_filter]; simp
      refine ⟨g', rfl, forest_of_links hF hk hR ⟨hF.rootsNodup, ?_⟩ ?_, hR⟩
      · intro x
        change x ∈ g.roots ↔ _
        rw [hF.roots_iff, hmem]
        constructor
        · rintro ⟨a, b⟩
          refine ⟨⟨a, ?_⟩, by rw [hnode]; exact b⟩
          rintro rfl; rw [hp] at b; cases b
        · rintro ⟨⟨a, _⟩, b⟩
          rw [hnode] at b
          exact ⟨a, b⟩
      · intro q hq
        obtain ⟨hqn, hqk⟩ := (hmem q).mp hq
        rw [hnode]
        simp only
        constructor
        · split_ifs
          · exact (hF.childNodup p hpn).filter _
          · exact hF.childNodup q hqn
        · intro c
          rw [hmem, hnode]
          simp only
          split_ifs with h
          · subst h
            rw [List.mem_filter, hF.child_iff q hqn]
            simp only [ne_eq, decide_eq_true_eq]
            tauto
          · rw [hF.child_iff q hqn]
            constructor
            · rintro ⟨a, b⟩
              refine ⟨⟨a, ?_⟩, b⟩
              rintro rfl
              rw [hp] at b
              exact h (Option.some.inj b).symm
            · rintro ⟨⟨a, _⟩, b⟩; exact ⟨a, b⟩

end
end BaderKit
