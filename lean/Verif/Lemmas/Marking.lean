import Verif.Spec.Marking
import Verif.Props.BifRules
import Verif.Lemmas.BifOps3
import Verif.Props.Assign
/-!
# Lemmas on the labelling of features
-/
namespace BaderKit
variable {K : Type}
set_option linter.unusedSectionVars false

/-- The graphs agree except for feature types, distances beyond atoms and cached depths. -/
structure Retyped (g h : BGraph K) : Prop where
  nodes : h.nodes = g.nodes
  roots : h.roots = g.roots
  node : ∀ x, h.node x = { g.node x with feature := (h.node x).feature, beyond := (h.node x).beyond, depthC := (h.node x).depthC }

theorem Retyped.refl (g : BGraph K) : Retyped g g := ⟨rfl, rfl, fun _ => rfl⟩

theorem Retyped.trans {a b c : BGraph K} (h1 : Retyped a b) (h2 : Retyped b c) : Retyped a c := by
  refine ⟨h2.nodes.trans h1.nodes, h2.roots.trans h1.roots, fun x => ?_⟩
  rw [h2.node x, h1.node x]

theorem SameTree.retyped {g h : BGraph K} (hS : SameTree g h) : Retyped g h :=
  ⟨hS.nodes, hS.roots, fun x => by rw [hS.node x]⟩

section
variable {g h : BGraph K}

theorem Retyped.parent (hS : Retyped g h) (x : ℕ) : (h.node x).parent = (g.node x).parent := by rw [hS.node x]
theorem Retyped.children (hS : Retyped g h) (x : ℕ) : (h.node x).children = (g.node x).children := by rw [hS.node x]
theorem Retyped.red (hS : Retyped g h) (x : ℕ) : (h.node x).red = (g.node x).red := by rw [hS.node x]
theorem Retyped.basins (hS : Retyped g h) (x : ℕ) : (h.node x).basins = (g.node x).basins := by rw [hS.node x]
theorem Retyped.atoms (hS : Retyped g h) (x : ℕ) : (h.node x).atoms = (g.node x).atoms := by rw [hS.node x]
theorem Retyped.dim (hS : Retyped g h) (x : ℕ) : (h.node x).dim = (g.node x).dim := by rw [hS.node x]
theorem Retyped.minV (hS : Retyped g h) (x : ℕ) : (h.node x).minV = (g.node x).minV := by rw [hS.node x]
theorem Retyped.maxV (hS : Retyped g h) (x : ℕ) : (h.node x).maxV = (g.node x).maxV := by rw [hS.node x]
theorem Retyped.subtype (hS : Retyped g h) (x : ℕ) : (h.node x).subtype = (g.node x).subtype := by rw [hS.node x]

theorem Retyped.forest (hS : Retyped g h) (hF : Forest g) : Forest h := by
  obtain ⟨a1, a2, a3, a4, a5, a6, a7⟩ := hF
  constructor
  · rw [hS.nodes]; exact a1
  · rw [hS.roots]; exact a2
  · intro k; rw [hS.roots, hS.nodes, hS.parent]; exact a3 k
  · intro k; rw [hS.nodes, hS.parent]; intro hk p hp; rw [hS.red]; exact a4 k hk p hp
  · intro p; rw [hS.nodes, hS.children]; intro hp c; rw [hS.parent]; exact a5 p hp c
  · intro p; rw [hS.nodes, hS.children]; exact a6 p
  · obtain ⟨rank, h1, h2⟩ := a7
    refine ⟨rank, by rw [hS.nodes]; exact h1, ?_⟩
    intro k; rw [hS.nodes, hS.parent]; exact h2 k

theorem Retyped.below (hS : Retyped g h) {a b : ℕ} : Below h a b ↔ Below g a b := by
  unfold Below
  simp only [hS.parent]

theorem Retyped.isLeaf (hS : Retyped g h) {a : ℕ} : IsLeaf h a ↔ IsLeaf g a := by
  unfold IsLeaf
  rw [hS.nodes, hS.red]

theorem Retyped.leafBasins (hS : Retyped g h) : leafBasins h = leafBasins g := by
  unfold BaderKit.leafBasins
  simp only [hS.nodes, hS.red, hS.basins]

theorem Retyped.nextLevel (hS : Retyped g h) (cur : List ℕ) : nextLevel h cur = nextLevel g cur := by
  unfold BaderKit.nextLevel
  simp only [hS.red, hS.children]

theorem Retyped.deepLoop (hS : Retyped g h) : ∀ (fuel : ℕ) (cur : List ℕ), deepLoop h fuel cur = deepLoop g fuel cur
  | 0, _ => rfl
  | fuel + 1, cur => by
    unfold BaderKit.deepLoop
    rw [hS.nextLevel, Retyped.deepLoop hS fuel]

theorem Retyped.deepChildren (hS : Retyped g h) (fuel k : ℕ) : deepChildren h fuel k = deepChildren g fuel k := by
  unfold BaderKit.deepChildren
  rw [hS.deepLoop, hS.children]

theorem Retyped.ancestors (hS : Retyped g h) : ∀ (fuel k : ℕ), ancestors h fuel k = ancestors g fuel k
  | 0, _ => rfl
  | fuel + 1, k => by
    unfold BaderKit.ancestors
    rw [hS.parent]
    cases (g.node k).parent with
    | none => rfl
    | some p => simp only; rw [Retyped.ancestors hS fuel p]

end

theorem Retyped.split {g h : BGraph K} (hS : Retyped g h) (hB : BasinsSplit g) : BasinsSplit h := by
  intro p hp hr
  rw [hS.nodes] at hp
  rw [hS.red] at hr
  rw [hS.children, hS.basins]
  simp only [hS.basins]
  exact hB p hp hr

/-- A fold whose steps change what is seen of the visited element only. -/
theorem foldlM_local {σ β : Type*} (view : σ → ℕ → β) (R : σ → σ → Prop) (hrefl : ∀ s, R s s) (htrans : ∀ a b c, R a b → R b c → R a c)
    (f : σ → ℕ → Option σ) (hstep : ∀ s k s', f s k = some s' → R s s' ∧ ∀ x, x ≠ k → view s' x = view s x) :
    ∀ (l : List ℕ) (s s' : σ), l.Nodup → l.foldlM f s = some s' → R s s' ∧ (∀ x, x ∉ l → view s' x = view s x) ∧
      ∀ k ∈ l, ∃ a b, R s a ∧ view a k = view s k ∧ f a k = some b ∧ R b s' ∧ view s' k = view b k := by
  intro l
  induction l with
  | nil =>
    intro s s' _ h
    cases h
    exact ⟨hrefl s, fun _ _ => rfl, fun k hk => by simp at hk⟩
  | cons c l ih =>
    intro s s' hnd h
    rw [List.foldlM_cons] at h
    cases e : f s c with
    | none => rw [e] at h; cases h
    | some s1 =>
      rw [e] at h
      have h' : l.foldlM f s1 = some s' := h
      obtain ⟨hc, hnd'⟩ := List.nodup_cons.mp hnd
      obtain ⟨r1, v1⟩ := hstep s c s1 e
      obtain ⟨r2, v2, w2⟩ := ih s1 s' hnd' h'
      refine ⟨htrans _ _ _ r1 r2, fun x hx => ?_, fun k hk => ?_⟩
      · rw [List.mem_cons, not_or] at hx
        rw [v2 x hx.2, v1 x hx.1]
      · rcases List.mem_cons.mp hk with rfl | hk
        · exact ⟨s, s1, hrefl s, rfl, e, r2, v2 k hc⟩
        · obtain ⟨a, b, ra, va, eb, rb, vb⟩ := w2 k hk
          have hkc : k ≠ c := fun e' => hc (e' ▸ hk)
          exact ⟨a, b, htrans _ _ _ r1 ra, by rw [va, v1 k hkc], eb, rb, vb⟩

theorem foldl_eq_foldlM {σ : Type*} (f : σ → ℕ → σ) (l : List ℕ) (s : σ) : l.foldlM (fun a b => some (f a b)) s = some (l.foldl f s) := by
  induction l generalizing s with
  | nil => rfl
  | cons c l ih => rw [List.foldlM_cons]; exact ih _

theorem setFeature_node (g : BGraph K) (k : ℕ) (f : String) (x : ℕ) :
    (setFeature g k f).node x = if x = k then { g.node x with feature := f } else g.node x := by
  unfold setFeature modNode
  simp only [Function.update_apply]
  by_cases hx : x = k
  · subst hx; simp
  · simp [hx]

theorem setFeature_retyped (g : BGraph K) (k : ℕ) (f : String) : Retyped g (setFeature g k f) := by
  refine ⟨rfl, rfl, fun x => ?_⟩
  rw [setFeature_node]
  by_cases hx : x = k <;> simp [hx]

theorem setFeature_other (g : BGraph K) {k x : ℕ} (f : String) (hx : x ≠ k) : (setFeature g k f).node x = g.node x := by
  rw [setFeature_node, if_neg hx]

theorem setFeature_feature (g : BGraph K) (k : ℕ) (f : String) : ((setFeature g k f).node k).feature = f := by
  rw [setFeature_node, if_pos rfl]

theorem mem_unassigned {g : BGraph K} {k : ℕ} : k ∈ unassigned g ↔ IsLeaf g k ∧ (g.node k).feature = "unknown" := by
  unfold unassigned IsLeaf
  simp [and_assoc]

theorem unassigned_nodup {g : BGraph K} (hF : Forest g) : (unassigned g).Nodup := hF.nodup.filter _

section
variable [Field K] [LinearOrder K]

/-! ### Cores and shells -/

theorem coreStep_some {env : MarkEnv K} {g g' : BGraph K} {k : ℕ} (h : coreStep env g k = some g') :
    g' = g ∨ (g' = setFeature g k "shell" ∧ (g.node k).atoms.length = 1) := by
  unfold coreStep at h
  split_ifs at h with h1 h2
  · cases h; exact .inl rfl
  · cases h; exact .inl rfl
  · obtain ⟨d, _, e⟩ := Option.map_eq_some_iff.mp h
    split_ifs at e
    · exact .inr ⟨e.symm, by omega⟩
    · exact .inl e.symm

theorem markCores_spec {env : MarkEnv K} {g g' : BGraph K} (hF : Forest g) (h : markCores env g = some g') : Retyped g g' ∧
    (∀ x, x ∉ unassigned g → g'.node x = g.node x) ∧
    ∀ k ∈ unassigned g, g'.node k = g.node k ∨ (g'.node k = { g.node k with feature := "shell" } ∧ (g.node k).atoms.length = 1) := by
  obtain ⟨hR, ho, hl⟩ := foldlM_local (fun (g : BGraph K) x => g.node x) Retyped Retyped.refl (fun _ _ _ => Retyped.trans) (coreStep env)
    (by
      intro s k s' e
      rcases coreStep_some e with rfl | ⟨rfl, _⟩
      · exact ⟨.refl _, fun _ _ => rfl⟩
      · exact ⟨setFeature_retyped _ _ _, fun x hx => setFeature_other _ _ hx⟩) _ _ _ (unassigned_nodup hF) h
  refine ⟨hR, ho, fun k hk => ?_⟩
  obtain ⟨a, b, _, va, eb, _, vb⟩ := hl k hk
  rcases coreStep_some eb with rfl | ⟨rfl, h1⟩
  · left; rw [vb, va]
  · right; rw [vb, setFeature_node, if_pos rfl, va]; exact ⟨rfl, by rw [← va]; exact h1⟩

theorem markOneAtom_spec {g : BGraph K} (hF : Forest g) : Retyped g (markOneAtom g) ∧
    (∀ x, x ∉ unassigned g → (markOneAtom g).node x = g.node x) ∧
    ∀ k ∈ unassigned g, (markOneAtom g).node k = if (g.node k).atoms.length = 1 then { g.node k with feature := "shell" } else g.node k := by
  have h := foldl_eq_foldlM (fun (h : BGraph K) k => if (h.node k).atoms.length = 1 then setFeature h k "shell" else h) (unassigned g) g
  obtain ⟨hR, ho, hl⟩ := foldlM_local (fun (g : BGraph K) x => g.node x) Retyped Retyped.refl (fun _ _ _ => Retyped.trans) _
    (by
      intro s k s' e
      have e' : (if (s.node k).atoms.length = 1 then setFeature s k "shell" else s) = s' := Option.some.inj e
      rw [← e']
      split_ifs
      · exact ⟨setFeature_retyped _ _ _, fun x hx => setFeature_other _ _ hx⟩
      · exact ⟨.refl _, fun _ _ => rfl⟩) _ _ _ (unassigned_nodup hF) h
  refine ⟨hR, ho, fun k hk => ?_⟩
  obtain ⟨a, b, _, va, eb, _, vb⟩ := hl k hk
  have e' : (if (a.node k).atoms.length = 1 then setFeature a k "shell" else a) = b := Option.some.inj eb
  change (markOneAtom g).node k = b.node k at vb
  rw [vb, ← e', va]
  split_ifs
  · rw [setFeature_node, if_pos rfl, va]
  · exact va


theorem highestMax_spec (g : BGraph K) (l : List ℕ) :
    IsGreatest ({0} ∪ {x | ∃ c ∈ l, x = (g.node c).maxV}) (highestMax g l) := by
  have key : ∀ (l : List ℕ) (m : K), let r := l.foldl (fun m c => if m < (g.node c).maxV then (g.node c).maxV else m) m
      (r = m ∨ ∃ c ∈ l, r = (g.node c).maxV) ∧ m ≤ r ∧ ∀ c ∈ l, (g.node c).maxV ≤ r := by
    intro l
    induction l with
    | nil => intro m; exact ⟨.inl rfl, le_refl _, by simp⟩
    | cons c l ih =>
      intro m
      simp only [List.foldl_cons]
      by_cases hm : m < (g.node c).maxV
      · rw [if_pos hm]
        obtain ⟨h1, h2, h3⟩ := ih (g.node c).maxV
        refine ⟨?_, hm.le.trans h2, ?_⟩
        · rcases h1 with h1 | ⟨d, hd, h1⟩
          · exact .inr ⟨c, by simp, h1⟩
          · exact .inr ⟨d, by simp [hd], h1⟩
        · intro d hd
          rcases List.mem_cons.mp hd with rfl | hd
          · exact h2
          · exact h3 d hd
      · rw [if_neg hm]
        obtain ⟨h1, h2, h3⟩ := ih m
        refine ⟨?_, h2, ?_⟩
        · rcases h1 with h1 | ⟨d, hd, h1⟩
          · exact .inl h1
          · exact .inr ⟨d, by simp [hd], h1⟩
        · intro d hd
          rcases List.mem_cons.mp hd with rfl | hd
          · exact (not_lt.mp hm).trans h2
          · exact h3 d hd
  obtain ⟨h1, h2, h3⟩ := key l 0
  constructor
  · rcases h1 with h1 | h1
    · exact .inl h1
    · exact .inr h1
  · rintro x (rfl | ⟨c, hc, rfl⟩)
    · exact h2
    · exact h3 c hc

theorem Retyped.shellRule {env : MarkEnv K} {g h : BGraph K} (hS : Retyped g h) {k : ℕ} : ShellRule env h k ↔ ShellRule env g k := by
  unfold ShellRule
  simp only [hS.dim, hS.atoms, hS.nodes, hS.parent, hS.below, hS.maxV, hS.minV]

theorem shellStep_spec {env : MarkEnv K} {fuel : ℕ} {st st' : BGraph K × List ℕ} {k : ℕ} (hF : Forest st.1) (hD : DepthFresh st.1) (hk : k ∈ st.1.nodes)
    (hfuel : st.1.nodes.length < fuel) (h : shellStep env fuel st k = some st') : SameTree st.1 st'.1 ∧ DepthFresh st'.1 ∧
      ((ShellRule env st.1 k ∧ st'.2 = st.2 ++ [k]) ∨ (¬ ShellRule env st.1 k ∧ st'.2 = st.2)) := by
  unfold shellStep at h
  by_cases h1 : 0 < (st.1.node k).dim ∨ (st.1.node k).atoms.length ≠ 1
  · rw [if_pos h1] at h
    cases h
    refine ⟨.refl _, hD, .inr ⟨fun hr => ?_, rfl⟩⟩
    rcases h1 with h1 | h1
    · rw [hr.1] at h1; exact absurd h1 (lt_irrefl 0)
    · exact h1 hr.2.1
  rw [if_neg h1] at h
  rw [not_or, not_lt, Nat.le_zero, not_not] at h1
  by_cases h2 : (st.1.node k).children.any (fun c => (st.1.node c).atoms.length == 1) = true
  · rw [if_pos h2] at h
    cases h
    refine ⟨.refl _, hD, .inr ⟨fun hr => ?_, rfl⟩⟩
    obtain ⟨c, hc, e⟩ := List.any_eq_true.mp h2
    obtain ⟨hcn, hcp⟩ := (hF.child_iff k hk c).mp hc
    exact hr.2.2.1 c hcn hcp (by simpa using e)
  rw [if_neg h2] at h
  have hS := readDepth_same st.1 k
  obtain ⟨hd, hD'⟩ := readDepth_fresh hD k
  have hR := hS.retyped
  obtain ⟨deep, e, hmem, _, _⟩ := (hS.forest hF).deepChildren_spec (k := k) (fuel := fuel) (by rw [hS.nodes]; exact hk) (by rw [hS.nodes]; exact hfuel)
  simp only [e, Option.bind_eq_bind, Option.bind_some] at h
  have hset : ({0} ∪ {x | ∃ c ∈ deep, x = ((readDepth st.1 k).2.node c).maxV} : Set K) =
      {0} ∪ {x | ∃ c ∈ st.1.nodes, Below st.1 c k ∧ x = (st.1.node c).maxV} := by
    congr 1
    ext x
    simp only [Set.mem_setOf_eq]
    constructor
    · rintro ⟨c, hc, rfl⟩
      obtain ⟨a, b⟩ := (hmem c).mp hc
      exact ⟨c, by rw [← hS.nodes]; exact a, hR.below.mp b, hR.maxV c⟩
    · rintro ⟨c, hc, hb, rfl⟩
      exact ⟨c, (hmem c).mpr ⟨by rw [hS.nodes]; exact hc, hR.below.mpr hb⟩, (hR.maxV c).symm⟩
  have hg := highestMax_spec (readDepth st.1 k).2 deep
  rw [hset] at hg
  have h2' : ∀ c ∈ st.1.nodes, (st.1.node c).parent = some k → (st.1.node c).atoms.length ≠ 1 := by
    intro c hc hp he
    exact h2 (List.any_eq_true.mpr ⟨c, (hF.child_iff k hk c).mpr ⟨hc, hp⟩, by simpa using he⟩)
  rw [hR.minV, hd] at h
  by_cases h3 : highestMax (readDepth st.1 k).2 deep - (st.1.node k).minV = 0
  · rw [if_pos h3] at h; cases h
  rw [if_neg h3] at h
  have h3' : highestMax (readDepth st.1 k).2 deep ≠ (st.1.node k).minV := fun e => h3 (by rw [e, sub_self])
  by_cases h4 : env.shellRatio < ((st.1.node k).maxV - (st.1.node k).minV) / (highestMax (readDepth st.1 k).2 deep - (st.1.node k).minV)
  · rw [if_pos h4] at h
    cases h
    exact ⟨hS, hD', .inl ⟨⟨h1.1, h1.2, h2', _, hg, h3', h4⟩, rfl⟩⟩
  · rw [if_neg h4] at h
    cases h
    refine ⟨hS, hD', .inr ⟨fun hr => h4 ?_, rfl⟩⟩
    obtain ⟨_, _, _, hi, hhi, _, hlt⟩ := hr
    rwa [hhi.unique hg] at hlt

theorem shellPick_spec {env : MarkEnv K} {fuel : ℕ} : ∀ (l : List ℕ) (st st' : BGraph K × List ℕ), Forest st.1 → DepthFresh st.1 →
    (∀ k ∈ l, k ∈ st.1.nodes) → st.1.nodes.length < fuel → l.foldlM (shellStep env fuel) st = some st' →
    SameTree st.1 st'.1 ∧ ∃ m, st'.2 = st.2 ++ m ∧ m.Sublist l ∧ ∀ k ∈ l, k ∈ m ↔ ShellRule env st.1 k := by
  intro l
  induction l with
  | nil => intro st st' _ _ _ _ h; cases h; exact ⟨.refl _, [], by simp, .refl _, by simp⟩
  | cons c l ih =>
    intro st st' hF hD hl hfuel h
    rw [List.foldlM_cons] at h
    cases e : shellStep env fuel st c with
    | none => rw [e] at h; cases h
    | some s1 =>
      rw [e] at h
      have h' : l.foldlM (shellStep env fuel) s1 = some st' := h
      obtain ⟨hS, hD', hor⟩ := shellStep_spec hF hD (hl c (by simp)) hfuel e
      obtain ⟨hS2, m, hm, hsub, hiff⟩ := ih s1 st' (hS.forest hF) hD' (fun k hk => by rw [hS.nodes]; exact hl k (by simp [hk]))
        (by rw [hS.nodes]; exact hfuel) h'
      have hiff' : ∀ k ∈ l, k ∈ m ↔ ShellRule env st.1 k := fun k hk => by rw [hiff k hk, hS.retyped.shellRule]
      rcases hor with ⟨hr, e2⟩ | ⟨hr, e2⟩
      · refine ⟨hS.trans hS2, c :: m, by rw [hm, e2]; simp, hsub.cons_cons c, fun k hk => ?_⟩
        rcases List.mem_cons.mp hk with rfl | hk
        · simp [hr]
        · rw [List.mem_cons, hiff' k hk]
          exact ⟨fun h => h.elim (fun e => e ▸ hr) id, .inr⟩
      · refine ⟨hS.trans hS2, m, by rw [hm, e2], hsub.cons c, fun k hk => ?_⟩
        rcases List.mem_cons.mp hk with rfl | hk
        · simp only [hr, iff_false]
          intro hkm
          exact hr ((hiff' k (hsub.subset hkm)).mp hkm)
        · exact hiff' k hk

theorem shellApply_some {env : MarkEnv K} {shape : List ℕ → ℕ} {fuel : ℕ} {g g' : BGraph K} {k : ℕ} (hc : env.combineShells = true) (hF : Forest g)
    (h : shellApply env shape fuel g k = some g') : k ∈ g.nodes ∧ (g.node k).red = true ∧ ∃ g1, Forest g1 ∧ Collapsed shape g k g1 ∧
      g' = setFeature g1 k "shell" ∧ (BasinsSplit g → Kept g g1) := by
  unfold shellApply at h
  rw [if_pos hc] at h
  obtain ⟨g1, e, rfl⟩ := Option.map_eq_some_iff.mp h
  obtain ⟨h1, h2, h3, h4⟩ := makeIrreducible_some shape hF e
  refine ⟨h1, h2, g1, h3, h4, rfl, fun hB => ?_⟩
  obtain ⟨b1, b2⟩ := h4.split hF h1 h3 hB
  exact ⟨h3, b1, b2⟩

/-- What collapsing a list of domains does. -/
structure ShellsMade (g : BGraph K) (l : List ℕ) (g' : BGraph K) : Prop where
  forest : Forest g'
  nodes : ∀ x, x ∈ g'.nodes ↔ x ∈ g.nodes ∧ ∀ k ∈ l, ¬ Below g x k
  parent : ∀ x ∈ g'.nodes, (g'.node x).parent = (g.node x).parent
  others : ∀ x ∈ g'.nodes, x ∉ l → SameContent (g'.node x) (g.node x)
  made : ∀ k ∈ l, k ∈ g'.nodes → (g'.node k).red = false ∧ (g'.node k).feature = "shell" ∧ (g'.node k).basins = (g.node k).basins ∧
    (g'.node k).atoms = (g.node k).atoms ∧ (g'.node k).dim = (g.node k).dim ∧ (g'.node k).minV = (g.node k).minV
  kept : BasinsSplit g → Kept g g'

theorem Retyped.kept {g h : BGraph K} (hS : Retyped g h) (hF : Forest g) (hB : BasinsSplit g) : Kept g h :=
  ⟨hS.forest hF, hS.split hB, by rw [hS.roots]; simp only [hS.basins]; exact .refl _⟩

theorem Collapsed.below {shape : List ℕ → ℕ} {g g' : BGraph K} {k : ℕ} (hF' : Forest g') (h : Collapsed shape g k g') {a b : ℕ} (ha : a ∈ g'.nodes) :
    Below g' a b ↔ Below g a b ∧ b ∈ g'.nodes := by
  constructor
  · intro hb
    induction hb with
    | single hp =>
      refine ⟨.single ?_, (hF'.parent_ok _ ha _ hp).1⟩
      rw [← h.parent _ ha]; exact hp
    | @tail c d _ hp ih =>
      refine ⟨ih.1.tail ?_, (hF'.parent_ok _ ih.2 _ hp).1⟩
      change (g.node c).parent = some d
      rw [← h.parent _ ih.2]; exact hp
  · rintro ⟨hb, hb0⟩
    clear hb0
    have key : b ∈ g'.nodes ∧ Below g' a b := by
      induction hb with
      | single hp =>
        have hp' : (g'.node a).parent = some _ := (h.parent a ha).trans hp
        exact ⟨(hF'.parent_ok a ha _ hp').1, .single hp'⟩
      | @tail c d _ hp ih =>
        have hp' : (g'.node c).parent = some d := (h.parent c ih.1).trans hp
        exact ⟨(hF'.parent_ok c ih.1 _ hp').1, ih.2.tail hp'⟩
    exact key.2

theorem shellsMade {env : MarkEnv K} {shape : List ℕ → ℕ} {fuel : ℕ} (hc : env.combineShells = true) : ∀ (l : List ℕ) (g g' : BGraph K), Forest g →
    l.Nodup → l.foldlM (shellApply env shape fuel) g = some g' → (∀ k ∈ l, k ∈ g.nodes) ∧ ShellsMade g l g' := by
  intro l
  induction l with
  | nil =>
    intro g g' hF _ h
    cases h
    exact ⟨by simp, hF, by simp, fun _ _ => rfl, fun _ _ _ => ⟨rfl, rfl, rfl, rfl, rfl, rfl, rfl, rfl, rfl, rfl⟩, by simp,
      fun hB => (SameTree.refl g).kept hF hB⟩
  | cons k l ih =>
    intro g g' hF hnd h
    rw [List.foldlM_cons] at h
    cases e : shellApply env shape fuel g k with
    | none => rw [e] at h; cases h
    | some g2 =>
      rw [e] at h
      have h' : l.foldlM (shellApply env shape fuel) g2 = some g' := h
      obtain ⟨hk, hred, g1, hF1, hC, rfl, hK⟩ := shellApply_some hc hF e
      have hR := setFeature_retyped g1 k "shell"
      have hF2 := hR.forest hF1
      obtain ⟨hkl, hnd'⟩ := List.nodup_cons.mp hnd
      have hk1 : k ∈ g1.nodes := (hC.nodes k).mpr ⟨hk, hF.below_irrefl hk⟩
      have hbel : ∀ a ∈ g1.nodes, ∀ b, Below (setFeature g1 k "shell") a b → Below g a b := fun a ha b hb =>
        ((hC.below hF1 ha).mp (hR.below.mp hb)).1
      -- the later ones are still there
      have hmem : ∀ (l : List ℕ) (h0 h1 : BGraph K), Forest h0 → l.foldlM (shellApply env shape fuel) h0 = some h1 → ∀ x ∈ l, x ∈ h0.nodes := by
        intro l
        induction l with
        | nil => intro _ _ _ _ x hx; simp at hx
        | cons c l ih2 =>
          intro h0 h1 hF0 hh x hx
          rw [List.foldlM_cons] at hh
          cases e0 : shellApply env shape fuel h0 c with
          | none => rw [e0] at hh; cases hh
          | some h2 =>
            rw [e0] at hh
            obtain ⟨q1, _, q2, q3, q4, rfl, _⟩ := shellApply_some hc hF0 e0
            rcases List.mem_cons.mp hx with rfl | hx
            · exact q1
            · exact ((q4.nodes x).mp (ih2 _ h1 ((setFeature_retyped _ _ _).forest q3) hh x hx)).1
      have hl1 := hmem l _ _ hF2 h'
      obtain ⟨_, hM⟩ := ih _ g' hF2 hnd' h'
      refine ⟨fun x hx => ?_, hM.forest, fun x => ?_, fun x hx => ?_, fun x hx hxl => ?_, fun x hx hxg' => ?_, fun hB => ?_⟩
      · rcases List.mem_cons.mp hx with rfl | hx
        · exact hk
        · exact ((hC.nodes x).mp (hl1 x hx)).1
      · rw [hM.nodes x]
        change (x ∈ g1.nodes ∧ _) ↔ _
        rw [hC.nodes x, and_assoc]
        refine and_congr_right fun hxg => ?_
        simp only [List.forall_mem_cons]
        refine and_congr_right fun hxk => forall₂_congr fun b hb => not_congr ?_
        have hx1 : x ∈ g1.nodes := (hC.nodes x).mpr ⟨hxg, hxk⟩
        rw [hR.below, hC.below hF1 hx1]
        have hb1 : b ∈ g1.nodes := hl1 b hb
        exact ⟨fun q => q.1, fun q => ⟨q, hb1⟩⟩
      · have hx1 : x ∈ g1.nodes := ((hM.nodes x).mp hx).1
        rw [hM.parent x hx, hR.parent, hC.parent x hx1]
      · rw [List.mem_cons, not_or] at hxl
        have hx1 : x ∈ g1.nodes := ((hM.nodes x).mp hx).1
        have s1 := hM.others x hx hxl.2
        rw [setFeature_other _ _ hxl.1] at s1
        have s2 := (hC.others x hx1 hxl.1).1
        obtain ⟨a1, a2, a3, a4, a5, a6, a7, a8, a9, a10⟩ := s1
        obtain ⟨b1, b2, b3, b4, b5, b6, b7, b8, b9, b10⟩ := s2
        exact ⟨a1.trans b1, a2.trans b2, a3.trans b3, a4.trans b4, a5.trans b5, a6.trans b6, a7.trans b7, a8.trans b8, a9.trans b9, a10.trans b10⟩
      · rcases List.mem_cons.mp hx with rfl | hxl
        · obtain ⟨a1, a2, a3, a4, a5, _, a7, _⟩ := hM.others x hxg' hkl
          rw [setFeature_feature] at a7
          rw [hR.red] at a1
          rw [hR.basins] at a2
          rw [hR.dim] at a3
          rw [hR.atoms] at a4
          rw [hR.minV] at a5
          exact ⟨a1.trans hC.leaf, a7, a2.trans hC.basins, a4.trans hC.atoms, a3.trans hC.dim, a5.trans hC.minV⟩
        · obtain ⟨c2, c3, c4, c5, c6, c7⟩ := hM.made x hxl hxg'
          have hxk : x ≠ k := fun e => hkl (e ▸ hxl)
          have s2 := (hC.others x (hl1 x hxl) hxk).1
          obtain ⟨b1, b2, b3, b4, b5, _⟩ := s2
          rw [setFeature_other _ _ hxk] at c4 c5 c6 c7
          exact ⟨c2, c3, c4.trans b2, c5.trans b4, c6.trans b3, c7.trans b5⟩
      · have k1 := hK hB
        have k2 := hR.kept hF1 k1.split
        exact (k1.trans k2).trans (hM.kept k2.split)

/-! ### Covalent features -/

theorem ancestors_find {g : BGraph K} (hF : Forest g) {fuel k p : ℕ} {l : List ℕ} (hk : k ∈ g.nodes) (h : ancestors g fuel k = some l) (P : ℕ → Bool) :
    l.find? P = some p ↔ Below g k p ∧ P p = true ∧ ∀ b, Below g k b → Below g b p → P b = false := by
  induction fuel generalizing k l with
  | zero => cases h
  | succ fuel ih =>
    unfold ancestors at h
    cases hp : (g.node k).parent with
    | none =>
      rw [hp] at h
      cases h
      simp only [List.find?_nil]
      refine ⟨fun q => (by cases q), fun ⟨hb, _⟩ => ?_⟩
      rcases below_cases hb with h' | ⟨p, h', -⟩ <;> rw [hp] at h' <;> cases h'
    | some r =>
      rw [hp] at h
      simp only [Option.map_eq_some_iff] at h
      obtain ⟨l', e, rfl⟩ := h
      have hr := (hF.parent_ok k hk r hp).1
      by_cases hP : P r = true
      · rw [List.find?_cons_of_pos hP]
        constructor
        · rintro q
          obtain rfl : r = p := Option.some.inj q
          refine ⟨.single hp, hP, fun b hb hbr => ?_⟩
          exfalso
          rcases below_cases hb with h' | ⟨r', h', h2⟩
          · rw [hp] at h'
            obtain rfl : r = b := Option.some.inj h'
            exact hF.below_irrefl hr hbr
          · rw [hp] at h'
            obtain rfl : r = r' := Option.some.inj h'
            exact hF.below_irrefl hr (h2.trans hbr)
        · rintro ⟨hb, hPp, hf⟩
          rcases below_cases hb with h' | ⟨r', h', h2⟩
          · rw [hp] at h'; exact h'
          · rw [hp] at h'
            obtain rfl : r = r' := Option.some.inj h'
            rw [hf r (.single hp) h2] at hP
            cases hP
      · rw [List.find?_cons_of_neg hP, ih hr e]
        constructor
        · rintro ⟨hb, hPp, hf⟩
          refine ⟨.head hp hb, hPp, fun b hb' hbp => ?_⟩
          rcases below_cases hb' with h' | ⟨r', h', h2⟩
          · rw [hp] at h'
            obtain rfl : r = b := Option.some.inj h'
            simpa using hP
          · rw [hp] at h'
            obtain rfl : r = r' := Option.some.inj h'
            exact hf b h2 hbp
        · rintro ⟨hb, hPp, hf⟩
          rcases below_cases hb with h' | ⟨r', h', h2⟩
          · rw [hp] at h'
            obtain rfl : r = p := Option.some.inj h'
            exact absurd hPp hP
          · rw [hp] at h'
            obtain rfl : r = r' := Option.some.inj h'
            exact ⟨h2, hPp, fun b hb' hbp => hf b (.head hp hb') hbp⟩

theorem firstAround_find {g : BGraph K} (hF : Forest g) {fuel k p : ℕ} {l : List ℕ} (hk : k ∈ g.nodes) (h : ancestors g fuel k = some l)
    (P : List ℕ → Prop) [DecidablePred P] : l.find? (fun x => decide (P (g.node x).atoms)) = some p ↔ FirstAround g k P p := by
  rw [ancestors_find hF hk h]
  unfold FirstAround
  simp

theorem bothLoop_eq (g : BGraph K) (a b : ℕ) : ∀ (l : List ℕ) (one : Option K), bothLoop g a b l one =
    (one.or ((l.find? fun x => decide (a ∈ (g.node x).atoms ∨ b ∈ (g.node x).atoms)).map fun x => (g.node x).maxV),
      (l.find? fun x => decide (a ∈ (g.node x).atoms ∧ b ∈ (g.node x).atoms)).map fun x => (g.node x).maxV) := by
  intro l
  induction l with
  | nil => intro one; cases one <;> rfl
  | cons p l ih =>
    intro one
    unfold bothLoop
    simp only [List.find?_cons]
    by_cases h2 : a ∈ (g.node p).atoms ∧ b ∈ (g.node p).atoms
    · have h1 : a ∈ (g.node p).atoms ∨ b ∈ (g.node p).atoms := .inl h2.1
      cases one <;> simp [h1, h2]
    · rw [if_neg h2, ih]
      by_cases h1 : a ∈ (g.node p).atoms ∨ b ∈ (g.node p).atoms
      · cases one <;> simp [h1, h2]
      · rw [not_or] at h1
        cases one <;> simp [h1.1, h1.2]

/-- The values up to which a domain with one, and with both atoms exists. -/
def BondValues (g : BGraph K) (k a b : ℕ) (u v : K) : Prop :=
  ∃ p q, FirstAround g k (fun l => a ∈ l ∨ b ∈ l) p ∧ FirstAround g k (fun l => a ∈ l ∧ b ∈ l) q ∧ u = (g.node p).maxV ∧ v = (g.node q).maxV

theorem bondQuot_spec {g : BGraph K} (hF : Forest g) {fuel k a b : ℕ} {l : List ℕ} (hk : k ∈ g.nodes) (h : ancestors g fuel k = some l) (x : K) :
    bondQuot (bothLoop g a b l none) = some x ↔ ∃ u v, BondValues g k a b u v ∧ u ≠ 0 ∧ x = v / u := by
  rw [bothLoop_eq]
  have f1 := fun p => firstAround_find hF (p := p) hk h (fun l => a ∈ l ∨ b ∈ l)
  have f2 := fun p => firstAround_find hF (p := p) hk h (fun l => a ∈ l ∧ b ∈ l)
  unfold BondValues
  simp only [← f1, ← f2]
  cases e1 : l.find? (fun x => decide (a ∈ (g.node x).atoms ∨ b ∈ (g.node x).atoms)) with
  | none => simp [bondQuot]
  | some p =>
    cases e2 : l.find? (fun x => decide (a ∈ (g.node x).atoms ∧ b ∈ (g.node x).atoms)) with
    | none => simp [bondQuot]
    | some q =>
      simp only [Option.map_some, Option.none_or, bondQuot, Option.some.injEq, exists_and_left, exists_eq_left']
      by_cases h0 : (g.node p).maxV = 0
      · simp [h0]
      · simp [h0, eq_comm]

/-- The type a bond between `a` and `b` gets. -/
def bondType (env : MarkEnv K) (a b : ℕ) (q : K) : String :=
  if env.isMetal a = true ∨ env.isMetal b = true then (if env.minBondCharge < q then "covalent-metallic" else "shallow covalent-metallic")
  else if env.minBondCharge < q then "covalent" else "unknown"

/-- What is seen of a feature. -/
def mview (s : MState K) (x : ℕ) : TNode K × Option (List ℕ) := (s.g.node x, s.coord x)

theorem covalentStep_some {env : MarkEnv K} {fuel : ℕ} {s s' : MState K} {k : ℕ} (hF : Forest s.g) (hk : k ∈ s.g.nodes)
    (hu : (s.g.node k).feature = "unknown") (hn : s.coord k = none) (h : covalentStep env fuel s k = some s') :
    (∃ a b, BondRule env s.g k a b ∧ s'.g = setFeature s.g k (bondType env a b (nodeCharge env (s.g.node k))) ∧
      ((bondType env a b (nodeCharge env (s.g.node k)) ≠ "unknown" ∧ s'.coord = Function.update s.coord k (some [a, b])) ∨
        (bondType env a b (nodeCharge env (s.g.node k)) = "unknown" ∧ s'.coord = Function.update s.coord k (some (env.cnn (s.g.node k).basins))))) ∨
    ((∀ a b, ¬ BondRule env s.g k a b) ∧ s'.g = s.g ∧
      (s'.coord = s.coord ∨ s'.coord = Function.update s.coord k (some (env.cnn (s.g.node k).basins)))) := by
  unfold covalentStep at h
  cases eb : env.bond (s.g.node k).basins with
  | none =>
    rw [eb] at h
    cases h
    refine .inr ⟨?_, rfl, .inl rfl⟩
    rintro a b ⟨h1, _⟩
    rw [eb] at h1; cases h1
  | some ab =>
    obtain ⟨a, b⟩ := ab
    rw [eb] at h
    simp only [bondStep, Option.bind_eq_bind, Option.bind_eq_some_iff] at h
    obtain ⟨anc, ea, q, eq, h⟩ := h
    have hq := fun x => bondQuot_spec hF (a := a) (b := b) hk ea x
    obtain ⟨u, v, ⟨p1, q1, hp1, hq1, rfl, rfl⟩, hu0, rfl⟩ := (hq q).mp eq
    have hrule : ∀ a' b', BondRule env s.g k a' b' ↔ (a', b') = (a, b) ∧ env.bondRatio ≤ (s.g.node q1).maxV / (s.g.node p1).maxV ∧
        (env.cnn (s.g.node k).basins).length = 2 := by
      intro a' b'
      unfold BondRule
      rw [eb, Option.some.injEq]
      refine ⟨fun ⟨h1, ⟨p2, q2, hp2, hq2, h2⟩, h3⟩ => ?_, fun ⟨h1, h2, h3⟩ => ?_⟩
      · cases h1
        rw [← firstAround_find hF hk ea] at hp1 hq1 hp2 hq2
        rw [hp1] at hp2
        rw [hq1] at hq2
        cases hp2; cases hq2
        exact ⟨rfl, h2, h3⟩
      · cases h1
        exact ⟨rfl, ⟨p1, q1, hp1, hq1, h2⟩, h3⟩
    by_cases h1 : (s.g.node q1).maxV / (s.g.node p1).maxV < env.bondRatio
    · rw [if_pos h1] at h
      cases h
      refine .inr ⟨fun a' b' hr => ?_, rfl, .inl rfl⟩
      exact absurd ((hrule a' b').mp hr).2.1 (not_le.mpr h1)
    rw [if_neg h1] at h
    have hrc : readCoord env s k = some (env.cnn (s.g.node k).basins,
        { s with coord := Function.update s.coord k (some (env.cnn (s.g.node k).basins)) }) := by
      unfold readCoord
      rw [hn]
      simp only
      rw [if_neg (by rw [hu]; decide)]
    rw [hrc] at h
    simp only [Option.bind_some] at h
    by_cases h2 : (env.cnn (s.g.node k).basins).length ≠ 2
    · rw [if_pos h2] at h
      cases h
      refine .inr ⟨fun a' b' hr => ?_, rfl, .inr rfl⟩
      exact h2 ((hrule a' b').mp hr).2.2
    rw [if_neg h2] at h
    rw [not_not] at h2
    cases h
    refine .inl ⟨a, b, (hrule a b).mpr ⟨rfl, not_lt.mp h1, h2⟩, ?_⟩
    unfold bondLabel bondType
    by_cases hm : env.isMetal a = true ∨ env.isMetal b = true
    · rw [if_pos (by simpa using hm), if_pos hm]
      refine ⟨rfl, .inl ⟨?_, by simp⟩⟩
      split_ifs <;> decide
    · rw [if_neg (by simpa using hm), if_neg hm]
      by_cases hc : env.minBondCharge < nodeCharge env (s.g.node k)
      · rw [if_pos hc, if_pos hc]
        exact ⟨rfl, .inl ⟨by decide, by simp⟩⟩
      · rw [if_neg hc, if_neg hc]
        refine ⟨?_, .inr ⟨rfl, rfl⟩⟩
        unfold setFeature modNode
        have : ({ s.g.node k with feature := "unknown" } : TNode K) = s.g.node k := by rw [← hu]
        simp only [this, Function.update_eq_self]

theorem Retyped.bondRule {env : MarkEnv K} {g h : BGraph K} (hS : Retyped g h) {k a b : ℕ} : BondRule env h k a b ↔ BondRule env g k a b := by
  unfold BondRule FirstAround
  simp only [hS.basins, hS.below, hS.atoms, hS.maxV]

theorem nodeCharge_retyped {env : MarkEnv K} {g h : BGraph K} (hS : Retyped g h) (k : ℕ) : nodeCharge env (h.node k) = nodeCharge env (g.node k) := by
  unfold nodeCharge
  rw [hS.basins]

theorem covalent_fold {env : MarkEnv K} {fuel : ℕ} : ∀ (l : List ℕ) (s s' : MState K), Forest s.g → l.Nodup →
    (∀ k ∈ l, k ∈ s.g.nodes ∧ (s.g.node k).feature = "unknown" ∧ s.coord k = none) → l.foldlM (covalentStep env fuel) s = some s' →
    Retyped s.g s'.g ∧ (∀ x ∉ l, s'.g.node x = s.g.node x ∧ s'.coord x = s.coord x) ∧
    ∀ k ∈ l, (∃ a b, BondRule env s.g k a b ∧ s'.g.node k = { s.g.node k with feature := bondType env a b (nodeCharge env (s.g.node k)) } ∧
      ((bondType env a b (nodeCharge env (s.g.node k)) ≠ "unknown" ∧ s'.coord k = some [a, b]) ∨ bondType env a b (nodeCharge env (s.g.node k)) = "unknown" ∧ s'.coord k = some (env.cnn (s.g.node k).basins))) ∨
      ((∀ a b, ¬ BondRule env s.g k a b) ∧ s'.g.node k = s.g.node k ∧ (s'.coord k = none ∨ s'.coord k = some (env.cnn (s.g.node k).basins))) := by
  intro l
  induction l with
  | nil => intro s s' _ _ _ h; cases h; exact ⟨.refl _, fun _ _ => ⟨rfl, rfl⟩, by simp⟩
  | cons c l ih =>
    intro s s' hF hnd hl h
    rw [List.foldlM_cons] at h
    cases e : covalentStep env fuel s c with
    | none => rw [e] at h; cases h
    | some s1 =>
      rw [e] at h
      have h' : l.foldlM (covalentStep env fuel) s1 = some s' := h
      obtain ⟨hc, hnd'⟩ := List.nodup_cons.mp hnd
      obtain ⟨c1, c2, c3⟩ := hl c (by simp)
      have hstep := covalentStep_some hF c1 c2 c3 e
      have hR : Retyped s.g s1.g ∧ ∀ x, x ≠ c → s1.g.node x = s.g.node x ∧ s1.coord x = s.coord x := by
        rcases hstep with ⟨a, b, _, e1, e2⟩ | ⟨_, e1, e2⟩
        · rw [e1]
          refine ⟨setFeature_retyped _ _ _, fun x hx => ⟨setFeature_other _ _ hx, ?_⟩⟩
          rcases e2 with ⟨_, e2⟩ | ⟨_, e2⟩ <;> rw [e2, Function.update_of_ne hx]
        · rw [e1]
          refine ⟨.refl _, fun x hx => ⟨rfl, ?_⟩⟩
          rcases e2 with e2 | e2
          · rw [e2]
          · rw [e2, Function.update_of_ne hx]
      obtain ⟨r2, o2, l2⟩ := ih s1 s' (hR.1.forest hF) hnd' (fun k hk => by
        obtain ⟨d1, d2, d3⟩ := hl k (by simp [hk])
        have hkc : k ≠ c := fun e' => hc (e' ▸ hk)
        rw [hR.1.nodes, (hR.2 k hkc).1, (hR.2 k hkc).2]
        exact ⟨d1, d2, d3⟩) h'
      refine ⟨hR.1.trans r2, fun x hx => ?_, fun k hk => ?_⟩
      · rw [List.mem_cons, not_or] at hx
        rw [(o2 x hx.2).1, (o2 x hx.2).2]
        exact hR.2 x hx.1
      · rcases List.mem_cons.mp hk with rfl | hk
        · rw [(o2 k hc).1, (o2 k hc).2]
          rcases hstep with ⟨a, b, hr, e1, e2⟩ | ⟨hr, e1, e2⟩
          · refine .inl ⟨a, b, hr, by rw [e1, setFeature_node, if_pos rfl], ?_⟩
            rcases e2 with ⟨e3, e2⟩ | ⟨e3, e2⟩
            · left; rw [e2, Function.update_self]; exact ⟨e3, rfl⟩
            · right; rw [e2, Function.update_self]; exact ⟨e3, rfl⟩
          · refine .inr ⟨hr, by rw [e1], ?_⟩
            rcases e2 with e2 | e2
            · left; rw [e2, c3]
            · right; rw [e2, Function.update_self]
        · have hkc : k ≠ c := fun e' => hc (e' ▸ hk)
          have := l2 k hk
          rw [(hR.2 k hkc).1] at this
          simpa only [hR.1.bondRule] using this

/-! ### Lone pairs -/

/-- The neighbours of a feature as they are found when lone pairs are looked for. -/
def coordAt (env : MarkEnv K) (s : MState K) (x : ℕ) : List ℕ := (s.coord x).getD (env.cnn (s.g.node x).basins)

/-- The reasons for the type of a feature after lone pairs have been looked for. -/
def Typed (env : MarkEnv K) (s0 : MState K) (f : ℕ → String) (x : ℕ) : Prop :=
  f x = (s0.g.node x).feature ∨ (Open (s0.g.node x).feature ∧
    ((f x = "shell" ∧ ∃ n ∈ s0.g.nodes, Below s0.g x n ∧ (s0.g.node n).dim = 0 ∧ (s0.g.node n).atoms.length = 1 ∧
        ∀ c, IsLeaf s0.g c → Below s0.g c n → f c = "shell") ∨
      (f x = "lone-pair" ∧ env.minBondCharge < nodeCharge env (s0.g.node x) ∧ ∃ n ∈ s0.g.nodes, Below s0.g x n ∧
        LonePairRule s0.g (fun c => (s0.g.node c).feature) f (coordAt env s0 x) n)))

theorem not_open_shell : ¬ Open "shell" := by unfold Open; decide
theorem not_open_lone : ¬ Open "lone-pair" := by unfold Open; decide

theorem Atomic.not_open {f : String} (h : Atomic f) : ¬ Open f := by
  rcases h with rfl | rfl | rfl <;> (unfold Open; decide)

theorem Cov.not_open {f : String} (h : Cov f) : ¬ Open f := by
  rcases h with rfl | rfl <;> (unfold Open; decide)

theorem Cov.not_atomic {f : String} (h : Cov f) : ¬ Atomic f := by
  rcases h with rfl | rfl <;> (unfold Atomic; decide)

theorem Typed.mono {env : MarkEnv K} {s0 : MState K} {f f' : ℕ → String} {x : ℕ} (hx : f' x = f x)
    (hf : ∀ c, IsLeaf s0.g c → ¬ Open (f c) → f' c = f c) (h : Typed env s0 f x) : Typed env s0 f' x := by
  unfold Typed at h ⊢
  rw [hx]
  rcases h with h | ⟨ho, ⟨h1, n, hn, hb, hd, ha, hall⟩ | ⟨h1, h2, n, hn, hb, hr⟩⟩
  · exact .inl h
  · refine .inr ⟨ho, .inl ⟨h1, n, hn, hb, hd, ha, fun c hc hcn => ?_⟩⟩
    rw [hf c hc (by rw [hall c hc hcn]; exact not_open_shell)]
    exact hall c hc hcn
  · refine .inr ⟨ho, .inr ⟨h1, h2, n, hn, hb, ?_⟩⟩
    rcases hr with ⟨q1, q2, ⟨c, hc, hcn, hca⟩, q4⟩ | hr
    · exact .inl ⟨q1, q2, ⟨c, hc, hcn, by rw [hf c hc hca.not_open]; exact hca⟩, q4⟩
    · exact .inr hr

theorem Typed.cov {env : MarkEnv K} {s0 : MState K} {f : ℕ → String} {x : ℕ} (h : Typed env s0 f x) : Cov (f x) ↔ Cov (s0.g.node x).feature := by
  rcases h with h | ⟨ho, h | h⟩
  · rw [h]
  · rw [h.1]
    refine ⟨fun q => absurd q (by unfold Cov; decide), fun q => absurd ho q.not_open⟩
  · rw [h.1]
    refine ⟨fun q => absurd q (by unfold Cov; decide), fun q => absurd ho q.not_open⟩

/-- What holds while lone pairs are looked for. -/
structure LPInv (env : MarkEnv K) (s0 : MState K) (s : MState K × List ℕ) : Prop where
  re : Retyped s0.g s.1.g
  done : ∀ x, IsLeaf s0.g x → ¬ Open (s.1.g.node x).feature → x ∈ s.2
  same : ∀ x, IsLeaf s0.g x → x ∉ s.2 → (s.1.g.node x).feature = (s0.g.node x).feature ∧
    (s.1.coord x = s0.coord x ∨ s.1.coord x = some (coordAt env s0 x))
  typed : ∀ x, IsLeaf s0.g x → Typed env s0 (fun c => (s.1.g.node c).feature) x

theorem LPInv.start (env : MarkEnv K) (s0 : MState K) : LPInv env s0 (s0, assignedNodes s0.g) where
  re := .refl _
  done := by
    intro x hx ho
    unfold assignedNodes
    rw [List.mem_filter]
    refine ⟨hx.1, ?_⟩
    unfold Open at ho
    simpa [hx.2] using ho
  same := fun x _ _ => ⟨rfl, .inl rfl⟩
  typed := fun x _ => .inl rfl

theorem LPInv.open {env : MarkEnv K} {s0 : MState K} {s : MState K × List ℕ} (h : LPInv env s0 s) {x : ℕ} (hx : IsLeaf s0.g x) (hn : x ∉ s.2) :
    Open (s0.g.node x).feature := by
  rw [← (h.same x hx hn).1]
  by_contra ho
  exact hn (h.done x hx ho)

theorem someCovalent_iff {g : BGraph K} {l : List ℕ} : someCovalent g l = true ↔ ∃ c ∈ l, Cov (g.node c).feature := by
  unfold someCovalent Cov
  simp

theorem someAtomic_iff {g : BGraph K} {l : List ℕ} : someAtomic g l = true ↔ ∃ c ∈ l, Atomic (g.node c).feature := by
  unfold someAtomic Atomic atomicTypes
  simp

/-- A leaf becomes a lone pair. -/
theorem LPInv.lone {env : MarkEnv K} {s0 : MState K} {s : MState K × List ℕ} (h : LPInv env s0 s) {x n : ℕ} (hx : IsLeaf s0.g x) (hxs : x ∉ s.2)
    (hn : n ∈ s0.g.nodes) (hb : Below s0.g x n) (hq : env.minBondCharge < nodeCharge env (s0.g.node x))
    (hr : LonePairRule s0.g (fun c => (s0.g.node c).feature) (fun c => (s.1.g.node c).feature) (coordAt env s0 x) n)
    (s1 : MState K × List ℕ) (e1 : s1.1.g = setFeature s.1.g x "lone-pair") (e2 : ∀ y, y ≠ x → s1.1.coord y = s.1.coord y) (e3 : s1.2 = s.2 ++ [x]) :
    LPInv env s0 s1 := by
  have hop := h.open hx hxs
  have hfx : (s.1.g.node x).feature = (s0.g.node x).feature := (h.same x hx hxs).1
  have hf : ∀ c, IsLeaf s0.g c → ¬ Open (s.1.g.node c).feature → (s1.1.g.node c).feature = (s.1.g.node c).feature := by
    intro c _ ho
    rw [e1, setFeature_other _ _]
    rintro rfl
    rw [hfx] at ho
    exact ho hop
  refine ⟨by rw [e1]; exact h.re.trans (setFeature_retyped _ _ _), fun y hy ho => ?_, fun y hy hys => ?_, fun y hy => ?_⟩
  · rw [e3, List.mem_append, List.mem_singleton]
    by_cases hyx : y = x
    · exact .inr hyx
    · rw [e1, setFeature_other _ _ hyx] at ho
      exact .inl (h.done y hy ho)
  · rw [e3, List.mem_append, List.mem_singleton, not_or] at hys
    rw [e1, setFeature_other _ _ hys.2, e2 y hys.2]
    exact h.same y hy hys.1
  · by_cases hyx : y = x
    · subst hyx
      have hfy : (s1.1.g.node y).feature = "lone-pair" := by rw [e1, setFeature_feature]
      refine .inr ⟨hop, .inr ⟨hfy, hq, n, hn, hb, ?_⟩⟩
      rcases hr with ⟨q1, q2, ⟨c, hc, hcn, hca⟩, q4⟩ | hr
      · refine .inl ⟨q1, q2, ⟨c, hc, hcn, ?_⟩, q4⟩
        simp only
        rw [hf c hc hca.not_open]; exact hca
      · exact .inr hr
    · exact (h.typed y hy).mono (by rw [e1, setFeature_other _ _ hyx]) hf

theorem ionicStep_inv {env : MarkEnv K} {s0 : MState K} {s : MState K × List ℕ} (h : LPInv env s0 s) {c n : ℕ} (hc : c ∈ s0.g.nodes)
    (hn : n ∈ s0.g.nodes) (hb : Below s0.g c n) (h0 : (s0.g.node n).dim = 0) (h1 : (s0.g.node n).atoms.length = 1)
    (ha : ∃ c, IsLeaf s0.g c ∧ Below s0.g c n ∧ Atomic (s.1.g.node c).feature) (hcov : ∀ c, IsLeaf s0.g c → Below s0.g c n → ¬ Cov (s0.g.node c).feature) :
    LPInv env s0 (ionicStep env s c) ∧ ∃ x, IsLeaf s0.g x ∧ Below s0.g x n ∧ Atomic ((ionicStep env s c).1.g.node x).feature := by
  unfold ionicStep
  by_cases hr : ((s.1.g.node c).red || s.2.contains c) = true
  · rw [if_pos hr]; exact ⟨h, ha⟩
  rw [if_neg hr]
  by_cases hq : env.minBondCharge < nodeCharge env (s.1.g.node c)
  · rw [if_pos hq]
    simp only [Bool.or_eq_true, List.contains_eq_mem, decide_eq_true_eq, not_or, Bool.not_eq_true] at hr
    have hl : IsLeaf s0.g c := ⟨hc, by rw [← h.re.red]; exact hr.1⟩
    refine ⟨h.lone hl hr.2 hn hb (by rw [← nodeCharge_retyped h.re]; exact hq) (.inl ⟨h0, h1, ha, hcov⟩) _ rfl (fun _ _ => rfl) rfl, c, hl, hb, ?_⟩
    simp only
    rw [setFeature_feature]
    exact .inr (.inr rfl)
  · rw [if_neg hq]; exact ⟨h, ha⟩

theorem ionic_fold {env : MarkEnv K} {s0 : MState K} {n : ℕ} (hn : n ∈ s0.g.nodes) (h0 : (s0.g.node n).dim = 0) (h1 : (s0.g.node n).atoms.length = 1)
    (hcov : ∀ c, IsLeaf s0.g c → Below s0.g c n → ¬ Cov (s0.g.node c).feature) : ∀ (l : List ℕ) (s : MState K × List ℕ), LPInv env s0 s →
    (∀ c ∈ l, c ∈ s0.g.nodes ∧ Below s0.g c n) → (∃ c, IsLeaf s0.g c ∧ Below s0.g c n ∧ Atomic (s.1.g.node c).feature) →
    LPInv env s0 (l.foldl (ionicStep env) s) := by
  intro l
  induction l with
  | nil => intro s h _ _; exact h
  | cons c l ih =>
    intro s h hl ha
    obtain ⟨a, b⟩ := ionicStep_inv h (hl c (by simp)).1 hn (hl c (by simp)).2 h0 h1 ha hcov
    exact ih _ a (fun c hc => hl c (by simp [hc])) b

theorem readCoord_inv {env : MarkEnv K} {s0 : MState K} {s : MState K × List ℕ} (h : LPInv env s0 s) {c : ℕ} (hl : IsLeaf s0.g c) (hc : c ∉ s.2)
    {r : List ℕ × MState K} (e : readCoord env s.1 c = some r) : r.1 = coordAt env s0 c ∧ LPInv env s0 (r.2, s.2) ∧ r.2.g = s.1.g := by
  have hop := h.open hl hc
  obtain ⟨hf, hco⟩ := h.same c hl hc
  unfold readCoord at e
  cases ec : s.1.coord c with
  | some l =>
    rw [ec] at e hco
    cases e
    refine ⟨?_, h, rfl⟩
    rcases hco with hco | hco
    · unfold coordAt; rw [← hco]; rfl
    · exact Option.some.inj hco
  | none =>
    rw [ec] at e hco
    simp only at e
    have hna : atomicTypes.contains (s.1.g.node c).feature = false := by
      rw [hf]
      rcases hop with q | q <;> rw [q] <;> decide
    rw [hna] at e
    simp only [Bool.false_eq_true, if_false, Option.some.injEq] at e
    subst e
    have hv : env.cnn (s.1.g.node c).basins = coordAt env s0 c := by
      rcases hco with hco | hco
      · unfold coordAt
        rw [← hco, h.re.basins]
        rfl
      · cases hco
    refine ⟨hv, ⟨h.re, h.done, fun x hx hxs => ⟨(h.same x hx hxs).1, ?_⟩, h.typed⟩, rfl⟩
    simp only
    by_cases hxc : x = c
    · subst hxc; right; rw [Function.update_self, hv]
    · rw [Function.update_of_ne hxc]; exact (h.same x hx hxs).2

theorem lonePairStep_inv {env : MarkEnv K} {s0 : MState K} {s s' : MState K × List ℕ} (h : LPInv env s0 s) {c n : ℕ} (hc : c ∈ s0.g.nodes)
    (hn : n ∈ s0.g.nodes) (hb : Below s0.g c n) (hcov : ∃ c, IsLeaf s0.g c ∧ Below s0.g c n ∧ Cov (s0.g.node c).feature)
    (e : lonePairStep env (s0.g.node n).atoms s c = some s') : LPInv env s0 s' := by
  unfold lonePairStep at e
  by_cases hr : ((s.1.g.node c).red || s.2.contains c) = true
  · rw [if_pos hr] at e; cases e; exact h
  rw [if_neg hr] at e
  simp only [Bool.or_eq_true, List.contains_eq_mem, decide_eq_true_eq, not_or, Bool.not_eq_true] at hr
  have hl : IsLeaf s0.g c := ⟨hc, by rw [← h.re.red]; exact hr.1⟩
  simp only [Option.bind_eq_bind, Option.bind_eq_some_iff] at e
  obtain ⟨r, er, e⟩ := e
  obtain ⟨r1, r2, r3⟩ := readCoord_inv h hl hr.2 er
  rw [r1] at e
  by_cases h1 : 1 < ((coordAt env s0 c).filter fun i => (s0.g.node n).atoms.contains i).length
  · rw [if_pos h1] at e; cases e; exact r2
  rw [if_neg h1] at e
  by_cases hq : env.minBondCharge < nodeCharge env (r.2.g.node c)
  · rw [if_pos hq] at e
    cases e
    refine r2.lone hl hr.2 hn hb (by rw [← nodeCharge_retyped h.re, ← r3]; exact hq) (.inr ⟨hcov, ?_⟩) _ rfl
      (fun y hy => by simp only; rw [Function.update_of_ne hy]) rfl
    simp only [List.contains_eq_mem] at h1
    omega
  · rw [if_neg hq] at e; cases e; exact r2

theorem lonePair_fold {env : MarkEnv K} {s0 : MState K} {n : ℕ} (hn : n ∈ s0.g.nodes)
    (hcov : ∃ c, IsLeaf s0.g c ∧ Below s0.g c n ∧ Cov (s0.g.node c).feature) : ∀ (l : List ℕ) (s s' : MState K × List ℕ), LPInv env s0 s →
    (∀ c ∈ l, c ∈ s0.g.nodes ∧ Below s0.g c n) → l.foldlM (lonePairStep env (s0.g.node n).atoms) s = some s' → LPInv env s0 s' := by
  intro l
  induction l with
  | nil => intro s s' h _ e; cases e; exact h
  | cons c l ih =>
    intro s s' h hl e
    rw [List.foldlM_cons] at e
    cases e1 : lonePairStep env (s0.g.node n).atoms s c with
    | none => rw [e1] at e; cases e
    | some s1 =>
      rw [e1] at e
      exact ih s1 s' (lonePairStep_inv h (hl c (by simp)).1 hn (hl c (by simp)).2 hcov e1) (fun c hc => hl c (by simp [hc])) e

theorem deepShell_fold (l : List ℕ) : ∀ (s : MState K × List ℕ), let r := l.foldl (fun s c => ({ s.1 with g := setFeature s.1.g c "shell" }, s.2 ++ [c])) s
    Retyped s.1.g r.1.g ∧ r.2 = s.2 ++ l ∧ r.1.coord = s.1.coord ∧ (∀ x ∈ l, (r.1.g.node x).feature = "shell") ∧ ∀ x ∉ l, r.1.g.node x = s.1.g.node x := by
  induction l with
  | nil => intro s; exact ⟨.refl _, by simp, rfl, by simp, fun _ _ => rfl⟩
  | cons c l ih =>
    intro s
    obtain ⟨h1, h2, h3, h4, h5⟩ := ih ({ s.1 with g := setFeature s.1.g c "shell" }, s.2 ++ [c])
    refine ⟨(setFeature_retyped _ _ _).trans h1, by rw [List.foldl_cons, h2]; simp, h3, fun x hx => ?_, fun x hx => ?_⟩
    · by_cases hxl : x ∈ l
      · exact h4 x hxl
      · obtain rfl : x = c := (List.mem_cons.mp hx).resolve_right hxl
        rw [List.foldl_cons, h5 x hxl]
        exact setFeature_feature _ _ _
    · rw [List.mem_cons, not_or] at hx
      rw [List.foldl_cons, h5 x hx.2]
      exact setFeature_other _ _ hx.1

theorem LPInv.deepShell {env : MarkEnv K} {s0 : MState K} {s r : MState K × List ℕ} (h : LPInv env s0 s) {n : ℕ} {l : List ℕ} (hn : n ∈ s0.g.nodes)
    (h0 : (s0.g.node n).dim = 0) (h1 : (s0.g.node n).atoms.length = 1) (hl : ∀ x, x ∈ l ↔ x ∈ s0.g.nodes ∧ Below s0.g x n)
    (hnone : ∀ c ∈ l, IsLeaf s0.g c → c ∉ s.2) (e1 : Retyped s.1.g r.1.g) (e2 : r.2 = s.2 ++ l) (e3 : r.1.coord = s.1.coord)
    (e4 : ∀ x ∈ l, (r.1.g.node x).feature = "shell") (e5 : ∀ x ∉ l, r.1.g.node x = s.1.g.node x) : LPInv env s0 r := by
  refine ⟨h.re.trans e1, fun y hy ho => ?_, fun y hy hys => ?_, fun y hy => ?_⟩
  · rw [e2, List.mem_append]
    by_cases hyl : y ∈ l
    · exact .inr hyl
    · rw [e5 y hyl] at ho; exact .inl (h.done y hy ho)
  · rw [e2, List.mem_append, not_or] at hys
    rw [e5 y hys.2, e3]
    exact h.same y hy hys.1
  · by_cases hyl : y ∈ l
    · exact .inr ⟨h.open hy (hnone y hyl hy), .inl ⟨e4 y hyl, n, hn, ((hl y).mp hyl).2, h0, h1,
        fun c hc hcn => e4 c ((hl c).mpr ⟨hc.1, hcn⟩)⟩⟩
    · refine (h.typed y hy).mono (by rw [e5 y hyl]) fun c hc ho => ?_
      rw [e5 c]
      intro hcl
      exact hnone c hcl hc (h.done c hc ho)

theorem lonePairNode_inv {env : MarkEnv K} {fuel : ℕ} {s0 : MState K} (hF : Forest s0.g) (hfuel : s0.g.nodes.length < fuel) {s s' : MState K × List ℕ}
    (h : LPInv env s0 s) {k : ℕ} (hk : k ∈ s0.g.nodes) (e : lonePairNode env fuel s k = some s') : LPInv env s0 s' := by
  obtain ⟨deep, ed, hmem, _, _⟩ := hF.deepChildren_spec hk hfuel
  have hleaf : ∀ c, c ∈ deep.filter (fun c => !(s.1.g.node c).red) ↔ IsLeaf s0.g c ∧ Below s0.g c k := by
    intro c
    rw [List.mem_filter, hmem, h.re.red]
    unfold IsLeaf
    simp only [Bool.not_eq_true']
    tauto
  unfold lonePairNode at e
  by_cases c1 : (s.1.g.node k).atoms.length = 0
  · rw [if_pos c1] at e; cases e; exact h
  rw [if_neg c1] at e
  rw [h.re.deepChildren, ed] at e
  simp only [Option.bind_eq_bind, Option.bind_some] at e
  have hall : ∀ {b : Bool}, (deep.filter (fun c => !(s.1.g.node c).red)).all (fun c => !(s.2.contains c)) = true →
      ∀ c ∈ deep, IsLeaf s0.g c → c ∉ s.2 := by
    intro _ q c hc hcl
    have := List.all_eq_true.mp q c ((hleaf c).mpr ⟨hcl, ((hmem c).mp hc).2⟩)
    simpa using this
  have hcovs : someCovalent s.1.g (deep.filter (fun c => !(s.1.g.node c).red)) = true ↔ ∃ c, IsLeaf s0.g c ∧ Below s0.g c k ∧ Cov (s0.g.node c).feature := by
    rw [someCovalent_iff]
    constructor
    · rintro ⟨c, hc, q⟩
      obtain ⟨a, b⟩ := (hleaf c).mp hc
      exact ⟨c, a, b, (h.typed c a).cov.mp q⟩
    · rintro ⟨c, a, b, q⟩
      exact ⟨c, (hleaf c).mpr ⟨a, b⟩, (h.typed c a).cov.mpr q⟩
  split_ifs at e with c2 c3 c4 c5 c6 c7
  · cases e; exact h
  · cases e
    obtain ⟨f1, f2, f3, f4, f5⟩ := deepShell_fold deep s
    rw [h.re.atoms, h.re.dim] at c3
    exact h.deepShell hk c3.2 c3.1 hmem (hall (b := true) c4) f1 f2 f3 f4 f5
  · cases e
    rw [h.re.atoms, h.re.dim] at c3
    rw [Bool.and_eq_true, Bool.not_eq_true'] at c5
    obtain ⟨c, hc, hca⟩ := someAtomic_iff.mp c5.1
    obtain ⟨a, b⟩ := (hleaf c).mp hc
    refine ionic_fold hk c3.2 c3.1 (fun c hc hcn hcc => ?_) deep s h (fun c hc => (hmem c).mp hc) ⟨c, a, b, hca⟩
    rw [hcovs.mpr ⟨c, hc, hcn, hcc⟩] at c5
    cases c5.2
  · cases e; exact h
  · cases e
    refine ⟨h.re, fun x hx ho => List.mem_append_left _ (h.done x hx ho), fun x hx hxs => h.same x hx (fun q => hxs (List.mem_append_left _ q)), h.typed⟩
  · cases e; exact h
  · rw [Bool.not_eq_true', Bool.not_eq_false] at c7
    rw [h.re.atoms] at e
    exact lonePair_fold hk (hcovs.mp c7) deep s s' h (fun c hc => (hmem c).mp hc) e

theorem lonePairs_inv {env : MarkEnv K} {fuel : ℕ} {s0 : MState K} (hF : Forest s0.g) (hfuel : s0.g.nodes.length < fuel) : ∀ (l : List ℕ)
    (s s' : MState K × List ℕ), (∀ k ∈ l, k ∈ s0.g.nodes) → LPInv env s0 s → l.foldlM (lonePairNode env fuel) s = some s' → LPInv env s0 s' := by
  intro l
  induction l with
  | nil => intro s s' _ h e; cases e; exact h
  | cons c l ih =>
    intro s s' hl h e
    rw [List.foldlM_cons] at e
    cases e1 : lonePairNode env fuel s c with
    | none => rw [e1] at e; cases e
    | some s1 =>
      rw [e1] at e
      exact ih s1 s' (fun k hk => hl k (by simp [hk])) (lonePairNode_inv hF hfuel h (hl c (by simp)) e1) e

end
end BaderKit
