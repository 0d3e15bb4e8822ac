import Verif.Lemmas.Marking2
/-!
# C80: The types of ELF features
-/
namespace BaderKit
variable {K : Type} [Field K] [LinearOrder K]
set_option linter.unusedSectionVars false

/-! ### Shells -/

theorem shells_spec {env : MarkEnv K} {shape : List ℕ → ℕ} {fuel : ℕ} {g g1 g2 : BGraph K} (hF : Forest g) (hD : DepthFresh g)
    (hfuel : g.nodes.length < fuel) (hc : env.combineShells = true) (h1 : markCores env g = some g1) (h2 : markShells env shape fuel g1 = some g2) :
    ∃ h m, Retyped g h ∧ (∀ x, IsLeaf g x → (h.node x).feature = if (g.node x).feature = "unknown" ∧ (g.node x).atoms.length = 1 then "shell" else (g.node x).feature) ∧
      (∀ k, k ∈ m ↔ k ∈ g.nodes ∧ (g.node k).red = true ∧ ShellRule env g k) ∧ ShellsMade h m g2 := by
  obtain ⟨r1, o1, u1⟩ := markCores_spec hF h1
  have hF1 := r1.forest hF
  obtain ⟨r2, o2, u2⟩ := markOneAtom_spec hF1
  unfold markShells at h2
  simp only [Option.bind_eq_bind, Option.bind_eq_some_iff] at h2
  obtain ⟨st, es, h2⟩ := h2
  have r12 := r1.trans r2
  have hD2 : DepthFresh (markOneAtom g1) := by
    intro x
    have e1 : (g1.node x).depthC = (g.node x).depthC := by
      by_cases hx : x ∈ unassigned g
      · rcases u1 x hx with q | ⟨q, _⟩ <;> rw [q]
      · rw [o1 x hx]
    have e2 : ((markOneAtom g1).node x).depthC = (g1.node x).depthC := by
      by_cases hx : x ∈ unassigned g1
      · rw [u2 x hx]; split_ifs <;> rfl
      · rw [o2 x hx]
    rw [e2, e1, r12.maxV, r12.minV]
    exact hD x
  obtain ⟨hS, m, em, hsub, hiff⟩ := shellPick_spec _ (markOneAtom g1, []) st (r2.forest hF1) hD2 (fun k hk => (List.mem_filter.mp hk).1)
    (by rw [r12.nodes]; exact hfuel) es
  simp only [List.nil_append] at em
  subst em
  obtain ⟨_, hM⟩ := shellsMade hc st.2 st.1 g2 (hS.forest (r2.forest hF1)) (((r2.forest hF1).nodup.filter _).sublist hsub) h2
  refine ⟨st.1, st.2, r12.trans hS.retyped, fun x hx => ?_, fun k => ?_, hM⟩
  · have e0 : (st.1.node x).feature = ((markOneAtom g1).node x).feature := by rw [hS.node x]
    rw [e0]
    by_cases hu : (g.node x).feature = "unknown"
    · have hxu := mem_unassigned.mpr ⟨hx, hu⟩
      have hl1 : IsLeaf g1 x := r1.isLeaf.mpr hx
      rcases u1 x hxu with q | ⟨q, qa⟩
      · have hu1 : x ∈ unassigned g1 := mem_unassigned.mpr ⟨hl1, by rw [q]; exact hu⟩
        rw [u2 x hu1, r1.atoms]
        by_cases ha : (g.node x).atoms.length = 1
        · rw [if_pos ha, if_pos ⟨hu, ha⟩]
        · rw [if_neg ha, if_neg (fun w => ha w.2), q]
      · have hn1 : x ∉ unassigned g1 := by
          rw [mem_unassigned, q]
          rintro ⟨_, w⟩
          exact absurd w (by simp)
        rw [o2 x hn1, q, if_pos ⟨hu, qa⟩]
    · have hxu : x ∉ unassigned g := fun w => hu (mem_unassigned.mp w).2
      have hn1 : x ∉ unassigned g1 := by
        rw [mem_unassigned, o1 x hxu]
        exact fun w => hu w.2
      rw [o2 x hn1, o1 x hxu, if_neg (fun w => hu w.1)]
  · constructor
    · intro hk
      have hkl := hsub.subset hk
      obtain ⟨a, b⟩ := List.mem_filter.mp hkl
      rw [r12.nodes] at a
      rw [r12.red] at b
      exact ⟨a, b, r12.shellRule.mp ((hiff k hkl).mp hk)⟩
    · rintro ⟨a, b, c⟩
      have hkl : k ∈ (markOneAtom g1).nodes.filter fun k => ((markOneAtom g1).node k).red := by
        rw [List.mem_filter, r12.nodes, r12.red]; exact ⟨a, b⟩
      exact (hiff k hkl).mpr (r12.shellRule.mpr c)

/-- **C80.** Marking cores and shells: a domain disappears if and only if it is part of a domain that meets the shell rule; what remains of those are
features of type shell with the same basins; of the other features those without a type that surround exactly one atom become shells, all others
keep their types.  (The distance to the atom and the shape, which the marking of cores checks, do not matter.) -/
theorem C80_shells {env : MarkEnv K} {shape : List ℕ → ℕ} {fuel : ℕ} {g g1 g2 : BGraph K} (hF : Forest g) (hD : DepthFresh g)
    (hfuel : g.nodes.length < fuel) (hc : env.combineShells = true) (h1 : markCores env g = some g1) (h2 : markShells env shape fuel g1 = some g2) :
    Forest g2 ∧ (∀ x, x ∈ g2.nodes ↔ x ∈ g.nodes ∧ ∀ k ∈ g.nodes, (g.node k).red = true → ShellRule env g k → ¬ Below g x k) ∧
    (∀ x ∈ g2.nodes, (g2.node x).parent = (g.node x).parent ∧ (g2.node x).basins = (g.node x).basins ∧ (g2.node x).atoms = (g.node x).atoms ∧
      (g2.node x).dim = (g.node x).dim ∧ (g2.node x).minV = (g.node x).minV) ∧
    (∀ x ∈ g2.nodes, (g.node x).red = true → ShellRule env g x → (g2.node x).red = false ∧ (g2.node x).feature = "shell") ∧
    (∀ x ∈ g2.nodes, (g.node x).red = true → ¬ ShellRule env g x → (g2.node x).red = true) ∧
    (∀ x, IsLeaf g x → x ∈ g2.nodes → (g2.node x).red = false ∧ (g2.node x).feature =
      if (g.node x).feature = "unknown" ∧ (g.node x).atoms.length = 1 then "shell" else (g.node x).feature) := by
  obtain ⟨h, m, hR, hf, hm, hM⟩ := shells_spec hF hD hfuel hc h1 h2
  refine ⟨hM.forest, fun x => ?_, fun x hx => ?_, fun x hx hr hs => ?_, fun x hx hr hs => ?_, fun x hx hx2 => ?_⟩
  · rw [hM.nodes, hR.nodes]
    simp only [hR.below, hm]
    exact and_congr_right fun _ => ⟨fun q k a b c => q k ⟨a, b, c⟩, fun q k w => q k w.1 w.2.1 w.2.2⟩
  · by_cases hxm : x ∈ m
    · obtain ⟨q1, q2, q3, q4, q5, q6⟩ := hM.made x hxm hx
      rw [hM.parent x hx, hR.parent, q3, q4, q5, q6, hR.basins, hR.atoms, hR.dim, hR.minV]
      exact ⟨rfl, rfl, rfl, rfl, rfl⟩
    · obtain ⟨q1, q2, q3, q4, q5, _⟩ := hM.others x hx hxm
      rw [hM.parent x hx, hR.parent, q2, q3, q4, q5, hR.basins, hR.atoms, hR.dim, hR.minV]
      exact ⟨rfl, rfl, rfl, rfl, rfl⟩
  · have hxg := ((hM.nodes x).mp hx).1
    rw [hR.nodes] at hxg
    obtain ⟨q1, q2, _⟩ := hM.made x ((hm x).mpr ⟨hxg, hr, hs⟩) hx
    exact ⟨q1, q2⟩
  · obtain ⟨q1, _⟩ := hM.others x hx (fun w => hs ((hm x).mp w).2.2)
    rw [q1, hR.red]; exact hr
  · have hxm : x ∉ m := fun w => by
      have := ((hm x).mp w).2.1
      rw [hx.2] at this; cases this
    obtain ⟨q1, _, _, _, _, _, q7, _⟩ := hM.others x hx2 hxm
    rw [q1, hR.red, q7, hf x hx]
    exact ⟨hx.2, rfl⟩

/-- **C80, negative.** Without `combine_shells` no domain is combined and no feature of a shell domain gets a type from it: the result has the types of
the first loop. -/
theorem C80_no_combine {env : MarkEnv K} {shape : List ℕ → ℕ} {fuel : ℕ} {g g' : BGraph K} (hF : Forest g) (hD : DepthFresh g)
    (hfuel : g.nodes.length < fuel) (hc : env.combineShells = false) (h : markShells env shape fuel g = some g') :
    g'.nodes = g.nodes ∧ ∀ x, IsLeaf g x → (g'.node x).red = false ∧ (g'.node x).feature =
      if (g.node x).feature = "unknown" ∧ (g.node x).atoms.length = 1 then "shell" else (g.node x).feature := by
  obtain ⟨r2, o2, u2⟩ := markOneAtom_spec hF
  unfold markShells at h
  simp only [Option.bind_eq_bind, Option.bind_eq_some_iff] at h
  obtain ⟨st, es, h⟩ := h
  have hD2 : DepthFresh (markOneAtom g) := by
    intro x
    have e2 : ((markOneAtom g).node x).depthC = (g.node x).depthC := by
      by_cases hx : x ∈ unassigned g
      · rw [u2 x hx]; split_ifs <;> rfl
      · rw [o2 x hx]
    rw [e2, r2.maxV, r2.minV]
    exact hD x
  obtain ⟨hS, _⟩ := shellPick_spec _ (markOneAtom g, []) st (r2.forest hF) hD2 (fun k hk => (List.mem_filter.mp hk).1)
    (by rw [r2.nodes]; exact hfuel) es
  have e : ∀ (l : List ℕ) (s : BGraph K), l.foldlM (shellApply env shape fuel) s = some s := by
    intro l
    induction l with
    | nil => intro s; rfl
    | cons c l ih =>
      intro s
      rw [List.foldlM_cons]
      have : shellApply env shape fuel s c = some s := by unfold shellApply; rw [hc]; rfl
      rw [this]
      exact ih s
  rw [e] at h
  cases h
  refine ⟨by rw [hS.nodes, r2.nodes], fun x hx => ?_⟩
  have e0 : (st.1.node x).feature = ((markOneAtom g).node x).feature := by rw [hS.node x]
  refine ⟨by rw [(r2.trans hS.retyped).red]; exact hx.2, ?_⟩
  rw [e0]
  by_cases hu : (g.node x).feature = "unknown"
  · rw [u2 x (mem_unassigned.mpr ⟨hx, hu⟩)]
    by_cases ha : (g.node x).atoms.length = 1
    · rw [if_pos ha, if_pos ⟨hu, ha⟩]
    · rw [if_neg ha, if_neg (fun w => ha w.2)]
  · rw [o2 x (fun w => hu (mem_unassigned.mp w).2), if_neg (fun w => hu w.1)]

/-! ### Covalent features -/

/-- **C80.** The search for bonds: a feature without a type gets one if and only if it meets the rule for a bond and has enough charge or one of the atoms is
a metal; with a metal the type depends on the charge.  All others keep their types. -/
theorem C80_covalent {env : MarkEnv K} {fuel : ℕ} {g : BGraph K} {s : MState K} (hF : Forest g) (h : markCovalent env fuel g = some s) :
    s.g.nodes = g.nodes ∧ (∀ x, IsLeaf g x → (g.node x).feature ≠ "unknown" → (s.g.node x).feature = (g.node x).feature) ∧
    (∀ x, IsLeaf g x → (g.node x).feature = "unknown" → (∀ a b, ¬ BondRule env g x a b) → (s.g.node x).feature = "unknown") ∧
    ∀ x a b, IsLeaf g x → (g.node x).feature = "unknown" → BondRule env g x a b → (s.g.node x).feature =
      if env.isMetal a = true ∨ env.isMetal b = true then
        (if env.minBondCharge < ((g.node x).basins.map env.basinCharge).sum then "covalent-metallic" else "shallow covalent-metallic")
      else if env.minBondCharge < ((g.node x).basins.map env.basinCharge).sum then "covalent" else "unknown" := by
  obtain ⟨hR, ho, hl⟩ := covalent_fold _ ⟨g, fun _ => none⟩ s hF (unassigned_nodup hF)
    (fun k hk => ⟨(mem_unassigned.mp hk).1.1, (mem_unassigned.mp hk).2, rfl⟩) h
  refine ⟨hR.nodes, fun x _ hu => ?_, fun x hx hu hn => ?_, fun x a b hx hu hr => ?_⟩
  · rw [(ho x (fun w => hu (mem_unassigned.mp w).2)).1]
  · rcases hl x (mem_unassigned.mpr ⟨hx, hu⟩) with ⟨a, b, hr, _⟩ | ⟨_, e, _⟩
    · exact absurd hr (hn a b)
    · rw [e]; exact hu
  · rcases hl x (mem_unassigned.mpr ⟨hx, hu⟩) with ⟨a', b', hr', e, _⟩ | ⟨hn, _⟩
    · have hab : (a', b') = (a, b) := Option.some.inj (hr'.1.symm.trans hr.1)
      cases hab
      rw [e]
      rfl
    · exact absurd hr (hn a b)

/-- **C80.** The stored neighbours after the search for bonds: the two atoms of a bond, nothing or the neighbours of the structure. -/
theorem C80_covalent_neighbours {env : MarkEnv K} {fuel : ℕ} {g : BGraph K} {s : MState K} (hF : Forest g) (h : markCovalent env fuel g = some s) {x : ℕ}
    (hx : IsLeaf g x) (hu : (g.node x).feature = "unknown") :
    ((s.g.node x).feature ≠ "unknown" → ∃ a b, env.bond (g.node x).basins = some (a, b) ∧ s.coord x = some [a, b]) ∧
    ((s.g.node x).feature = "unknown" → s.coord x = none ∨ s.coord x = some (env.cnn (g.node x).basins)) := by
  obtain ⟨hR, ho, hl⟩ := covalent_fold _ ⟨g, fun _ => none⟩ s hF (unassigned_nodup hF)
    (fun k hk => ⟨(mem_unassigned.mp hk).1.1, (mem_unassigned.mp hk).2, rfl⟩) h
  rcases hl x (mem_unassigned.mpr ⟨hx, hu⟩) with ⟨a, b, hr, e, e2⟩ | ⟨_, e, e2⟩
  · rw [e]
    refine ⟨fun q => ⟨a, b, hr.1, ?_⟩, fun q => ?_⟩
    · rcases e2 with ⟨_, e2⟩ | ⟨q2, _⟩
      · exact e2
      · exact absurd q2 q
    · rcases e2 with ⟨q2, _⟩ | ⟨_, e2⟩
      · exact absurd q q2
      · exact .inr e2
  · rw [e]
    exact ⟨fun q => absurd hu q, fun _ => e2⟩

theorem covalentStep_retyped {env : MarkEnv K} {fuel : ℕ} {s s' : MState K} {k : ℕ} (h : covalentStep env fuel s k = some s') : Retyped s.g s'.g := by
  unfold covalentStep at h
  cases eb : env.bond (s.g.node k).basins with
  | none => rw [eb] at h; cases h; exact .refl _
  | some ab =>
    obtain ⟨a, b⟩ := ab
    rw [eb] at h
    simp only [bondStep, Option.bind_eq_bind, Option.bind_eq_some_iff] at h
    obtain ⟨_, _, _, _, h⟩ := h
    split_ifs at h with q
    · cases h; exact .refl _
    · simp only [Option.bind_eq_some_iff] at h
      obtain ⟨r, er, h⟩ := h
      have hr : r.2.g = s.g := by
        unfold readCoord at er
        split at er
        · cases er; rfl
        · split_ifs at er
          · obtain ⟨_, _, er⟩ := Option.map_eq_some_iff.mp er
            cases er; rfl
          · cases er; rfl
      split_ifs at h
      · cases h; rw [hr]; exact .refl _
      · cases h
        unfold bondLabel
        rw [← hr]
        split_ifs
        all_goals first
          | exact setFeature_retyped _ _ _
          | exact .refl _

/-- **C80, negative.** A feature between two atoms for which no domain around it contains both of them, for instance a feature that is a domain of its own,
makes the search for bonds fail. -/
theorem C80_no_common_domain {env : MarkEnv K} {fuel : ℕ} {g : BGraph K} (hF : Forest g) {k a b : ℕ} (hk : IsLeaf g k) (hu : (g.node k).feature = "unknown")
    (hb : env.bond (g.node k).basins = some (a, b)) (hno : ∀ p, Below g k p → ¬ (a ∈ (g.node p).atoms ∧ b ∈ (g.node p).atoms)) :
    markCovalent env fuel g = none := by
  by_contra hne
  obtain ⟨s, h⟩ := Option.ne_none_iff_exists'.mp hne
  unfold markCovalent at h
  obtain ⟨_, _, hl⟩ := foldlM_local (fun (_ : MState K) (_ : ℕ) => ()) (fun a b => Retyped a.g b.g) (fun _ => .refl _) (fun _ _ _ => Retyped.trans)
    (covalentStep env fuel) (fun s k s' e => ⟨covalentStep_retyped e, fun _ _ => rfl⟩) _ _ _ (unassigned_nodup hF) h
  obtain ⟨s1, s2, hR, _, e, _, _⟩ := hl k (mem_unassigned.mpr ⟨hk, hu⟩)
  change Retyped g s1.g at hR
  unfold covalentStep at e
  rw [hR.basins, hb] at e
  simp only [bondStep, Option.bind_eq_bind, Option.bind_eq_some_iff] at e
  obtain ⟨anc, ea, q, eq, _⟩ := e
  obtain ⟨_, _, ⟨_, p, _, hp, _⟩, _⟩ := (bondQuot_spec (hR.forest hF) (by rw [hR.nodes]; exact hk.1) ea q).mp eq
  have := hp.2.1
  rw [hR.atoms] at this
  exact hno p (hR.below.mp hp.1) this

/-! ### Lone pairs -/

/-- `np.argsort` returns the entries in ascending order. -/
def IsArgsort (argsort : List (ℕ × K) → List (ℕ × K)) : Prop := ∀ l, (argsort l).Perm l ∧ (argsort l).Pairwise (fun a b => a.2 ≤ b.2)

theorem sorted_mem {argsort : List (ℕ × K) → List (ℕ × K)} (ha : IsArgsort argsort) {g : BGraph K} {k : ℕ} :
    k ∈ (sortedReducible argsort g).reverse ↔ k ∈ g.nodes ∧ (g.node k).red = true := by
  unfold sortedReducible
  rw [List.mem_reverse]
  have := ((ha ((g.nodes.filter (fun k => (g.node k).red)).map (fun k => (k, (g.node k).minV)))).1.map Prod.fst).mem_iff (a := k)
  rw [this]
  simp

theorem sorted_desc {argsort : List (ℕ × K) → List (ℕ × K)} (ha : IsArgsort argsort) {g : BGraph K} :
    (sortedReducible argsort g).reverse.Pairwise (fun a b => (g.node b).minV ≤ (g.node a).minV) := by
  unfold sortedReducible
  rw [List.pairwise_reverse, List.pairwise_map]
  refine (ha _).2.imp_of_mem fun {a b} h1 h2 h => ?_
  rw [(ha _).1.mem_iff] at h1 h2
  obtain ⟨x, _, rfl⟩ := List.mem_map.mp h1
  obtain ⟨y, _, rfl⟩ := List.mem_map.mp h2
  exact h

/-- **C80.** What the search for lone pairs may change: only features without a type or with a provisional one.  Those become shells, if they lie in a finite
domain around one atom all of whose features become shells; or lone pairs, if they have enough charge and a domain around them gives a reason. -/
theorem C80_lone_pairs_sound {env : MarkEnv K} {argsort : List (ℕ × K) → List (ℕ × K)} {fuel : ℕ} {s s' : MState K} (ha : IsArgsort argsort)
    (hF : Forest s.g) (hfuel : s.g.nodes.length < fuel) (h : markLonePairs env argsort fuel s = some s') :
    s'.g.nodes = s.g.nodes ∧ ∀ x, IsLeaf s.g x → (s'.g.node x).feature = (s.g.node x).feature ∨
      (Open (s.g.node x).feature ∧ (s'.g.node x).feature = "shell" ∧ ∃ n ∈ s.g.nodes, Below s.g x n ∧ (s.g.node n).dim = 0 ∧ (s.g.node n).atoms.length = 1 ∧
        ∀ c, IsLeaf s.g c → Below s.g c n → (s'.g.node c).feature = "shell") ∨
      (Open (s.g.node x).feature ∧ (s'.g.node x).feature = "lone-pair" ∧ env.minBondCharge < ((s.g.node x).basins.map env.basinCharge).sum ∧
        ∃ n ∈ s.g.nodes, Below s.g x n ∧ LonePairRule s.g (fun c => (s.g.node c).feature) (fun c => (s'.g.node c).feature)
          ((s.coord x).getD (env.cnn (s.g.node x).basins)) n) := by
  unfold markLonePairs at h
  obtain ⟨r, er, rfl⟩ := Option.map_eq_some_iff.mp h
  have hI := lonePairs_inv hF hfuel _ _ r (fun k hk => ((sorted_mem ha).mp hk).1) (LPInv.start env s) er
  refine ⟨hI.re.nodes, fun x hx => ?_⟩
  rcases hI.typed x hx with q | ⟨q1, q2 | q2⟩
  · exact .inl q
  · exact .inr (.inl ⟨q1, q2⟩)
  · exact .inr (.inr ⟨q1, q2⟩)

theorem below_chain {g : BGraph K} {x a b : ℕ} (ha : Below g x a) (hb : Below g x b) : a = b ∨ Below g a b ∨ Below g b a := by
  induction ha with
  | single hp =>
    rcases below_cases hb with h | ⟨r, h, h2⟩
    · left; rw [hp] at h; exact Option.some.inj h
    · rw [hp] at h
      obtain rfl := Option.some.inj h
      exact .inr (.inl h2)
  | @tail c d hc hp ih =>
    rcases ih with rfl | ih | ih
    · exact .inr (.inr (.single hp))
    · rcases below_cases ih with h | ⟨r, h, h2⟩
      · left; rw [hp] at h; exact Option.some.inj h
      · rw [hp] at h
        obtain rfl := Option.some.inj h
        exact .inr (.inl h2)
    · exact .inr (.inr (ih.tail hp))

/-- **C80.** All charge of a lone ion: in a finite domain around exactly one atom without covalent features, whose inner domains are finite and around at most
that atom, no feature with enough charge stays without a type.  (The values at which the outer domains form are lower than that of the domain; the types
before the search are those that can occur.) -/
theorem C80_lone_pairs_ionic {env : MarkEnv K} {argsort : List (ℕ × K) → List (ℕ × K)} {fuel : ℕ} {s s' : MState K} (ha : IsArgsort argsort)
    (hF : Forest s.g) (hfuel : s.g.nodes.length < fuel) (h : markLonePairs env argsort fuel s = some s') {n : ℕ} (hn : n ∈ s.g.nodes)
    (hr : (s.g.node n).red = true) (h0 : (s.g.node n).dim = 0) (h1 : (s.g.node n).atoms.length = 1)
    (htypes : ∀ c, IsLeaf s.g c → Below s.g c n → Open (s.g.node c).feature ∨ Atomic (s.g.node c).feature)
    (hin : ∀ m ∈ s.g.nodes, (s.g.node m).red = true → Below s.g m n → (s.g.node m).dim = 0 ∧ (s.g.node m).atoms.length ≤ 1)
    (hout : ∀ m, Below s.g n m → (s.g.node m).minV < (s.g.node n).minV) {x : ℕ} (hx : IsLeaf s.g x) (hb : Below s.g x n)
    (hq : env.minBondCharge < ((s.g.node x).basins.map env.basinCharge).sum) : Atomic (s'.g.node x).feature := by
  unfold markLonePairs at h
  obtain ⟨r, er, rfl⟩ := Option.map_eq_some_iff.mp h
  obtain ⟨l1, l2, hl⟩ := List.append_of_mem ((sorted_mem ha).mpr ⟨hn, hr⟩ : n ∈ (sortedReducible argsort s.g).reverse)
  have hmem : ∀ k ∈ l1 ++ n :: l2, k ∈ s.g.nodes ∧ (s.g.node k).red = true := fun k hk => (sorted_mem ha).mp (hl ▸ hk)
  have hdesc : (l1 ++ n :: l2).Pairwise (fun a b => (s.g.node b).minV ≤ (s.g.node a).minV) := hl ▸ sorted_desc ha
  rw [hl] at er
  obtain ⟨a, b, ea, Ia, hN, Ib, eb⟩ := lonePairs_at hF hfuel (fun k hk => (hmem k hk).1) (LPInv.start env s) er
  -- before the domain: all that is done has a type
  have hQ := lonePairs_keep hF hfuel (fun t => ∀ c, IsLeaf s.g c → Below s.g c n → c ∈ t.2 → ¬ Open (t.1.g.node c).feature) l1 _ a
    (fun k hk => (hmem k (by simp [hk])).1) (by
      intro k hk u v Iu hS hu c hc hcn hcv
      by_cases hcu : c ∈ u.2
      · rw [hS.feat c hc hcu]; exact hu c hc hcn hcu
      · obtain ⟨q1, q2, q3⟩ := hS.new c hc hcu hcv
        have hkn : Below s.g k n ∨ k = n := by
          rcases below_chain q1 hcn with rfl | w | w
          · exact .inr rfl
          · exact .inl w
          · exfalso
            have h1 := (List.pairwise_append.mp hdesc).2.2 k hk n (by simp)
            exact absurd (hout k w) (not_lt.mpr h1)
        rcases hkn with hkn | rfl
        · obtain ⟨w1, w2⟩ := hin k (hmem k (by simp [hk])).1 (hmem k (by simp [hk])).2 hkn
          have : (s.g.node k).atoms.length ≠ 0 := fun w => q2 (List.length_eq_zero_iff.mp w)
          exact q3 (by omega) w1
        · exact q3 h1 h0)
    (LPInv.start env s) (by
      intro c hc _ hcs
      unfold assignedNodes at hcs
      have := (List.mem_filter.mp hcs).2
      unfold Open
      simpa [hc.2] using this) ea
  have hatom : ∀ (t : MState K × List ℕ), LPInv env s t → ∀ c, IsLeaf s.g c → Below s.g c n → ¬ Open (t.1.g.node c).feature → Atomic (t.1.g.node c).feature := by
    intro t It c hc hcn hno
    rcases It.typed c hc with q | ⟨_, q | q⟩
    · simp only at q
      rw [q] at hno ⊢
      exact (htypes c hc hcn).resolve_left hno
    · exact .inl q.1
    · exact .inr (.inr q.1)
  have hxb : x ∈ b.2 := hN.ionic h1 h0 (fun c hc hcn hcov => by
      rcases htypes c hc hcn with w | w
      · exact hcov.not_open w
      · exact hcov.not_atomic w) (fun c hc hcn hca => hatom a Ia c hc hcn (hQ c hc hcn hca)) x hx hb hq
  have hnob : ¬ Open (b.1.g.node x).feature := by
    by_cases hxa : x ∈ a.2
    · rw [hN.feat x hx hxa]; exact hQ x hx hb hxa
    · exact (hN.new x hx hxa hxb).2.2 h1 h0
  rw [lonePairs_stays hF hfuel (fun k hk => (hmem k (by simp [hk])).1) Ib eb hx hxb]
  exact hatom b Ib x hx hb hnob

/-- **C80.** Lone pairs next to bonds: let `n` be the first domain around a feature that contains an atom, not a finite one around a single atom; if it has a
covalent feature and at most one neighbour of the feature in it, the feature becomes a lone pair, provided it has enough charge and no type. -/
theorem C80_lone_pairs_covalent {env : MarkEnv K} {argsort : List (ℕ × K) → List (ℕ × K)} {fuel : ℕ} {s s' : MState K} (ha : IsArgsort argsort)
    (hF : Forest s.g) (hfuel : s.g.nodes.length < fuel) (h : markLonePairs env argsort fuel s = some s') {n x : ℕ} (hn : n ∈ s.g.nodes)
    (hr : (s.g.node n).red = true) (hx : IsLeaf s.g x) (hfirst : FirstAround s.g x (fun l => l ≠ []) n)
    (h1 : ¬ ((s.g.node n).atoms.length = 1 ∧ (s.g.node n).dim = 0)) (hcov : ∃ c, IsLeaf s.g c ∧ Below s.g c n ∧ Cov (s.g.node c).feature)
    (hout : ∀ m, Below s.g n m → (s.g.node m).minV < (s.g.node n).minV) (hop : Open (s.g.node x).feature)
    (hnb : (((s.coord x).getD (env.cnn (s.g.node x).basins)).filter fun i => decide (i ∈ (s.g.node n).atoms)).length ≤ 1)
    (hq : env.minBondCharge < ((s.g.node x).basins.map env.basinCharge).sum) : (s'.g.node x).feature = "lone-pair" := by
  unfold markLonePairs at h
  obtain ⟨r, er, rfl⟩ := Option.map_eq_some_iff.mp h
  obtain ⟨l1, l2, hl⟩ := List.append_of_mem ((sorted_mem ha).mpr ⟨hn, hr⟩ : n ∈ (sortedReducible argsort s.g).reverse)
  have hmem : ∀ k ∈ l1 ++ n :: l2, k ∈ s.g.nodes ∧ (s.g.node k).red = true := fun k hk => (sorted_mem ha).mp (hl ▸ hk)
  have hdesc : (l1 ++ n :: l2).Pairwise (fun a b => (s.g.node b).minV ≤ (s.g.node a).minV) := hl ▸ sorted_desc ha
  have hnd : (l1 ++ n :: l2).Nodup := by
    rw [← hl, List.nodup_reverse]
    unfold sortedReducible
    refine ((ha _).1.map Prod.fst).nodup_iff.mpr ?_
    rw [List.map_map]
    exact (by simpa [Function.comp_def] using hF.nodup.filter _)
  rw [hl] at er
  obtain ⟨a, b, ea, Ia, hN, Ib, eb⟩ := lonePairs_at hF hfuel (fun k hk => (hmem k hk).1) (LPInv.start env s) er
  have hxa := lonePairs_keep hF hfuel (fun t => x ∉ t.2) l1 _ a
    (fun k hk => (hmem k (by simp [hk])).1) (by
      intro k hk u v Iu hS hu hv
      obtain ⟨q1, q2, _⟩ := hS.new x hx hu hv
      have hkn : k ≠ n := by
        rintro rfl
        exact (List.disjoint_of_nodup_append hnd hk) (by simp)
      rcases below_chain q1 hfirst.1 with w | w | w
      · exact hkn w
      · exact hfirst.2.2 k q1 w q2
      · have h1 := (List.pairwise_append.mp hdesc).2.2 k hk n (by simp)
        exact absurd (hout k w) (not_lt.mpr h1))
    (LPInv.start env s) (by
      intro hcs
      unfold assignedNodes at hcs
      have := (List.mem_filter.mp hcs).2
      rcases hop with w | w <;> simp [w] at this) ea
  have hfb := hN.lone hfirst.2.1 h1 hcov x hx hfirst.1 ⟨hnb, hq⟩ hxa
  rw [lonePairs_stays hF hfuel (fun k hk => (hmem k (by simp [hk])).1) Ib eb hx (Ib.done x hx (by rw [hfb]; exact not_open_lone))]
  exact hfb

/-! ### Bare electrons -/

/-- **C80.** The last step: features without a type (or of one of the two types that the step decides) become bare electrons if and only if all five values
exceed their limits, and multi-centered features otherwise.  All others keep their types.  Each feature gets its distance to the nearest surface of an atom. -/
theorem C80_bare {env : MarkEnv K} {fuel : ℕ} {g g' : BGraph K} (hF : Forest g) (hfuel : g.nodes.length < fuel) (h : markBare env fuel g = some g') :
    g'.nodes = g.nodes ∧ ∀ x, IsLeaf g x → ∃ b, ClosestSurface env (g.node x).basins b ∧ (g'.node x).beyond = some b ∧
      ((g.node x).feature ∉ ["metallic", "bare electron", "unknown"] → (g'.node x).feature = (g.node x).feature) ∧
      ((g.node x).feature ∈ ["metallic", "bare electron", "unknown"] → ∃ d, Openness g x d ∧
        ((g'.node x).feature = "bare electron" ↔ BareRule env g x d b) ∧ ((g'.node x).feature = "multi-centered" ↔ ¬ BareRule env g x d b)) := by
  obtain ⟨hR, hl⟩ := markBare_spec hF h
  refine ⟨hR.nodes, fun x hx => ?_⟩
  obtain ⟨b, eb, hb, hor⟩ := hl x hx
  refine ⟨b, beyondOf_spec eb, hb, fun hno => ?_, fun hyes => ?_⟩
  · rcases hor with ⟨_, q⟩ | ⟨q, _⟩
    · exact q
    · exact absurd (by simpa using q) hno
  · rcases hor with ⟨q, _⟩ | ⟨_, d, ed, q⟩
    · exact absurd (by simpa using hyes) q
    · refine ⟨d, openness_of hF hx.1 hfuel ed, ?_⟩
      rcases q with ⟨q1, q2⟩ | ⟨q1, q2⟩ <;> rw [q2] <;> simp [q1]

/-! ### The whole labelling -/

theorem markAll_parts {env : MarkEnv K} {shape : List ℕ → ℕ} {argsort : List (ℕ × K) → List (ℕ × K)} {fuel : ℕ} {g : BGraph K} {s : MState K}
    (h : markAll env shape argsort fuel g = some s) : ∃ g1 g2 s3 s4, markCores env g = some g1 ∧ markShells env shape fuel g1 = some g2 ∧
      markCovalent env fuel g2 = some s3 ∧ markLonePairs env argsort fuel s3 = some s4 ∧ markBare env fuel s4.g = some s.g ∧ s.coord = s4.coord := by
  unfold markAll at h
  simp only [Option.bind_eq_bind, Option.bind_eq_some_iff, Option.some.injEq] at h
  obtain ⟨g1, e1, g2, e2, s3, e3, s4, e4, g5, e5, rfl⟩ := h
  exact ⟨g1, g2, s3, s4, e1, e2, e3, e4, e5, rfl⟩

/-- What is known after cores and shells, with and without `combine_shells`. -/
theorem shells_any {env : MarkEnv K} {shape : List ℕ → ℕ} {fuel : ℕ} {g g1 g2 : BGraph K} (hF : Forest g) (hD : DepthFresh g)
    (hfuel : g.nodes.length < fuel) (h1 : markCores env g = some g1) (h2 : markShells env shape fuel g1 = some g2) :
    Forest g2 ∧ (∀ x ∈ g2.nodes, x ∈ g.nodes) ∧ (BasinsSplit g → Kept g g2) ∧
      ∀ x, IsLeaf g2 x → (g2.node x).feature = "shell" ∨ (IsLeaf g x ∧ (g2.node x).feature = (g.node x).feature) := by
  by_cases hc : env.combineShells = true
  · obtain ⟨h, m, hR, hf, hm, hM⟩ := shells_spec hF hD hfuel hc h1 h2
    refine ⟨hM.forest, fun x hx => by rw [← hR.nodes]; exact ((hM.nodes x).mp hx).1, fun hB => ?_, fun x hx => ?_⟩
    · have k1 := hR.kept hF hB
      exact k1.trans (hM.kept k1.split)
    · by_cases hxm : x ∈ m
      · exact .inl (hM.made x hxm hx.1).2.1
      · obtain ⟨q1, _, _, _, _, _, q7, _⟩ := hM.others x hx.1 hxm
        have hxg : IsLeaf g x := by
          refine ⟨by rw [← hR.nodes]; exact ((hM.nodes x).mp hx.1).1, ?_⟩
          rw [← hR.red, ← q1]; exact hx.2
        rw [q7, hf x hxg]
        split_ifs
        · exact .inl rfl
        · exact .inr ⟨hxg, rfl⟩
  · obtain ⟨r1, o1, u1⟩ := markCores_spec hF h1
    have hD1 : DepthFresh g1 := by
      intro x
      have e1 : (g1.node x).depthC = (g.node x).depthC := by
        by_cases hx : x ∈ unassigned g
        · rcases u1 x hx with q | ⟨q, _⟩ <;> rw [q]
        · rw [o1 x hx]
      rw [e1, r1.maxV, r1.minV]
      exact hD x
    have hF1 := r1.forest hF
    have hc' : env.combineShells = false := by simpa using hc
    obtain ⟨hn, hl⟩ := C80_no_combine hF1 hD1 (by rw [r1.nodes]; exact hfuel) hc' h2
    have hR2 : Retyped g1 g2 := by
      unfold markShells at h2
      simp only [Option.bind_eq_bind, Option.bind_eq_some_iff] at h2
      obtain ⟨st, es, h2⟩ := h2
      obtain ⟨r2, o2, u2⟩ := markOneAtom_spec hF1
      have hD2 : DepthFresh (markOneAtom g1) := by
        intro x
        have e2 : ((markOneAtom g1).node x).depthC = (g1.node x).depthC := by
          by_cases hx : x ∈ unassigned g1
          · rw [u2 x hx]; split_ifs <;> rfl
          · rw [o2 x hx]
        rw [e2, r2.maxV, r2.minV]
        exact hD1 x
      obtain ⟨hS, _⟩ := shellPick_spec _ (markOneAtom g1, []) st (r2.forest hF1) hD2 (fun k hk => (List.mem_filter.mp hk).1)
        (by rw [r2.nodes, r1.nodes]; exact hfuel) es
      have e : ∀ (l : List ℕ) (s : BGraph K), l.foldlM (shellApply env shape fuel) s = some s := by
        intro l
        induction l with
        | nil => intro s; rfl
        | cons c l ih =>
          intro s
          rw [List.foldlM_cons]
          have : shellApply env shape fuel s c = some s := by unfold shellApply; rw [hc']; rfl
          rw [this]
          exact ih s
      rw [e] at h2
      cases h2
      exact r2.trans hS.retyped
    refine ⟨hR2.forest hF1, fun x hx => by rw [hn, r1.nodes] at hx; exact hx, fun hB => (r1.trans hR2).kept hF hB, fun x hx => ?_⟩
    have hx1 : IsLeaf g1 x := hR2.isLeaf.mp hx
    have hx0 : IsLeaf g x := r1.isLeaf.mp hx1
    rw [(hl x hx1).2]
    split_ifs with q
    · exact .inl rfl
    · by_cases hxu : x ∈ unassigned g
      · rcases u1 x hxu with w | ⟨w, _⟩
        · right; rw [w]; exact ⟨hx0, rfl⟩
        · left; rw [w]
      · right; rw [o1 x hxu]; exact ⟨hx0, rfl⟩

theorem bondType_mem (env : MarkEnv K) (a b : ℕ) (q : K) :
    bondType env a b q ∈ ["covalent-metallic", "shallow covalent-metallic", "covalent", "unknown"] := by
  unfold bondType
  split_ifs <;> decide

/-- **C80.** Every feature has a type at the end, and only seven of the twelve types occur: a new graph, all of whose features are without a type, ends
with shells, bonds of three kinds, lone pairs, multi-centered features and bare electrons. -/
theorem C80_types {env : MarkEnv K} {shape : List ℕ → ℕ} {argsort : List (ℕ × K) → List (ℕ × K)} {fuel : ℕ} {g : BGraph K} {s : MState K}
    (ha : IsArgsort argsort) (hF : Forest g) (hD : DepthFresh g) (hfuel : g.nodes.length < fuel) (hnew : ∀ x, IsLeaf g x → (g.node x).feature = "unknown")
    (h : markAll env shape argsort fuel g = some s) : ∀ x, IsLeaf s.g x → (s.g.node x).feature ∈
      ["shell", "covalent", "covalent-metallic", "shallow covalent-metallic", "lone-pair", "multi-centered", "bare electron"] := by
  obtain ⟨g1, g2, s3, s4, e1, e2, e3, e4, e5, -⟩ := markAll_parts h
  obtain ⟨hF2, hsub, -, hf2⟩ := shells_any hF hD hfuel e1 e2
  have hlen : g2.nodes.length < fuel := lt_of_le_of_lt (List.Subperm.length_le (hF2.nodup.subperm hsub)) hfuel
  obtain ⟨R3, o3, l3⟩ := covalent_fold _ ⟨g2, fun _ => none⟩ s3 hF2 (unassigned_nodup hF2)
    (fun k hk => ⟨(mem_unassigned.mp hk).1.1, (mem_unassigned.mp hk).2, rfl⟩) e3
  change Retyped g2 s3.g at R3
  have hF3 := R3.forest hF2
  have f3 : ∀ x, IsLeaf s3.g x → (s3.g.node x).feature ∈ ["shell", "covalent-metallic", "shallow covalent-metallic", "covalent", "unknown"] := by
    intro x hx
    have hx2 : IsLeaf g2 x := R3.isLeaf.mp hx
    by_cases hu : (g2.node x).feature = "unknown"
    · rcases l3 x (mem_unassigned.mpr ⟨hx2, hu⟩) with ⟨a, b, _, e, _⟩ | ⟨_, e, _⟩
      · rw [e]
        exact List.mem_cons_of_mem _ (bondType_mem env a b _)
      · rw [e]; change (g2.node x).feature ∈ _; rw [hu]; decide
    · rw [(o3 x (fun w => hu (mem_unassigned.mp w).2)).1]
      rcases hf2 x hx2 with q | ⟨q1, q⟩
      · change (g2.node x).feature ∈ _; rw [q]; decide
      · rw [hnew x q1] at q; exact absurd q hu
  obtain ⟨hn4, l4⟩ := C80_lone_pairs_sound ha hF3 (by rw [R3.nodes]; exact hlen) e4
  have R4 : Retyped s3.g s4.g := by
    unfold markLonePairs at e4
    obtain ⟨r, er, rfl⟩ := Option.map_eq_some_iff.mp e4
    exact (lonePairs_inv hF3 (by rw [R3.nodes]; exact hlen) _ _ r (fun k hk => ((sorted_mem ha).mp hk).1) (LPInv.start env s3) er).re
  obtain ⟨R5, l5⟩ := markBare_spec (R4.forest hF3) e5
  intro x hx
  have hx4 : IsLeaf s4.g x := R5.isLeaf.mp hx
  have hx3 : IsLeaf s3.g x := R4.isLeaf.mp hx4
  obtain ⟨b, _, _, hor⟩ := l5 x hx4
  rcases hor with ⟨hno, e⟩ | ⟨_, d, _, ⟨_, e⟩ | ⟨_, e⟩⟩
  · rw [e]
    have h3 := f3 x hx3
    rcases l4 x hx3 with q | ⟨_, q, _⟩ | ⟨_, q, _⟩
    · rw [q] at hno ⊢
      simp only [List.mem_cons, List.not_mem_nil, or_false] at h3 ⊢
      tauto
    · rw [q]; decide
    · rw [q]; decide
  · rw [e]; decide
  · rw [e]; decide

/-- **C80.** The exception for features without a type can never occur. -/
theorem C80_no_unassigned {env : MarkEnv K} {shape : List ℕ → ℕ} {argsort : List (ℕ × K) → List (ℕ × K)} {fuel : ℕ} {g : BGraph K} {s : MState K}
    (ha : IsArgsort argsort) (hF : Forest g) (hD : DepthFresh g) (hfuel : g.nodes.length < fuel)
    (h : markAll env shape argsort fuel g = some s) (near : List ℕ) : unassigned s.g = [] ∧ finalCheck env s.g near ≠ some true := by
  obtain ⟨g1, g2, s3, s4, e1, e2, e3, e4, e5, -⟩ := markAll_parts h
  obtain ⟨hF2, hsub, -, hf2⟩ := shells_any hF hD hfuel e1 e2
  have hlen : g2.nodes.length < fuel := lt_of_le_of_lt (List.Subperm.length_le (hF2.nodup.subperm hsub)) hfuel
  obtain ⟨R3, -, -⟩ := covalent_fold _ ⟨g2, fun _ => none⟩ s3 hF2 (unassigned_nodup hF2)
    (fun k hk => ⟨(mem_unassigned.mp hk).1.1, (mem_unassigned.mp hk).2, rfl⟩) e3
  change Retyped g2 s3.g at R3
  have hF3 := R3.forest hF2
  have R4 : Retyped s3.g s4.g := by
    unfold markLonePairs at e4
    obtain ⟨r, er, rfl⟩ := Option.map_eq_some_iff.mp e4
    exact (lonePairs_inv hF3 (by rw [R3.nodes]; exact hlen) _ _ r (fun k hk => ((sorted_mem ha).mp hk).1) (LPInv.start env s3) er).re
  obtain ⟨R5, l5⟩ := markBare_spec (R4.forest hF3) e5
  have hnil : unassigned s.g = [] := by
    rw [List.eq_nil_iff_forall_not_mem]
    intro x hx
    obtain ⟨hl, hu⟩ := mem_unassigned.mp hx
    obtain ⟨b, _, _, hor⟩ := l5 x (R5.isLeaf.mp hl)
    rcases hor with ⟨hno, e⟩ | ⟨_, d, _, ⟨_, e⟩ | ⟨_, e⟩⟩
    · rw [hu] at e; exact hno (.inr (.inr e.symm))
    · rw [hu] at e; exact absurd e (by decide)
    · rw [hu] at e; exact absurd e (by decide)
  refine ⟨hnil, ?_⟩
  unfold finalCheck
  split_ifs with q1 q2
  · simp
  · exact absurd hnil q2
  · simp

/-- **C80.** Labelling neither loses nor duplicates a basin: the features have the same basins together as before. -/
theorem C80_basins_kept {env : MarkEnv K} {shape : List ℕ → ℕ} {argsort : List (ℕ × K) → List (ℕ × K)} {fuel : ℕ} {g : BGraph K} {s : MState K}
    (ha : IsArgsort argsort) (hF : Forest g) (hD : DepthFresh g) (hB : BasinsSplit g) (hfuel : g.nodes.length < fuel)
    (h : markAll env shape argsort fuel g = some s) : Forest s.g ∧ (leafBasins s.g).Perm (leafBasins g) := by
  obtain ⟨g1, g2, s3, s4, e1, e2, e3, e4, e5, -⟩ := markAll_parts h
  obtain ⟨hF2, hsub, hK2, hf2⟩ := shells_any hF hD hfuel e1 e2
  have hlen : g2.nodes.length < fuel := lt_of_le_of_lt (List.Subperm.length_le (hF2.nodup.subperm hsub)) hfuel
  obtain ⟨R3, -, -⟩ := covalent_fold _ ⟨g2, fun _ => none⟩ s3 hF2 (unassigned_nodup hF2)
    (fun k hk => ⟨(mem_unassigned.mp hk).1.1, (mem_unassigned.mp hk).2, rfl⟩) e3
  change Retyped g2 s3.g at R3
  have hF3 := R3.forest hF2
  have R4 : Retyped s3.g s4.g := by
    unfold markLonePairs at e4
    obtain ⟨r, er, rfl⟩ := Option.map_eq_some_iff.mp e4
    exact (lonePairs_inv hF3 (by rw [R3.nodes]; exact hlen) _ _ r (fun k hk => ((sorted_mem ha).mp hk).1) (LPInv.start env s3) er).re
  obtain ⟨R5, -⟩ := markBare_spec (R4.forest hF3) e5
  have R := (R3.trans R4).trans R5
  refine ⟨R.forest hF2, ?_⟩
  rw [R.leafBasins]
  exact (hK2 hB).leaves hF hB

/-- **C80.** If the labelling succeeds without `ignore_low_pseudopotentials`, every atom has a feature of its own: it is the closest atom of some feature of
an atomic type. -/
theorem C80_every_atom [IsStrictOrderedRing K] {env : MarkEnv K} {shape : List ℕ → ℕ} {argsort : List (ℕ × K) → List (ℕ × K)} {fuel : ℕ} {g : BGraph K} {s : MState K}
    (hd : ∀ l, (env.atomDists l).length = env.nAtoms) (hi : env.ignoreLow = false) (h : labelFeatures env shape argsort fuel g = some s) :
    markAll env shape argsort fuel g = some s ∧ ∀ i < env.nAtoms, ∃ x, IsLeaf s.g x ∧ Atomic (s.g.node x).feature ∧
      ∃ d, (env.atomDists (s.g.node x).basins)[i]? = some d ∧ ∀ (j : ℕ) (e : K), (env.atomDists (s.g.node x).basins)[j]? = some e → d ≤ e := by
  unfold labelFeatures at h
  simp only [Option.bind_eq_bind, Option.bind_eq_some_iff] at h
  obtain ⟨s', e1, near, e2, h⟩ := h
  split_ifs at h with hc
  cases h
  refine ⟨e1, fun i hlt => ?_⟩
  unfold nearestAtoms at e2
  have hmem : ∀ (l : List ℕ) (r : List ℕ), l.mapM (fun k => argmin (env.atomDists (s.g.node k).basins)) = some r →
      ∀ j ∈ r, ∃ k ∈ l, argmin (env.atomDists (s.g.node k).basins) = some j := by
    intro l
    induction l with
    | nil => intro r hr j hj; simp at hr; subst hr; simp at hj
    | cons c l ih =>
      intro r hr j hj
      rw [List.mapM_cons] at hr
      simp only [Option.bind_eq_bind, Option.bind_eq_some_iff] at hr
      obtain ⟨y, ey, r', er, hr⟩ := hr
      obtain rfl : y :: r' = r := Option.some.inj hr
      rcases List.mem_cons.mp hj with rfl | hj
      · exact ⟨c, by simp, ey⟩
      · obtain ⟨k, hk, e⟩ := ih r' er j hj
        exact ⟨k, by simp [hk], e⟩
  have hall := hmem _ _ e2
  have hlen : near.dedup.length = env.nAtoms := by
    unfold finalCheck at hc
    by_contra hne
    rw [if_pos ⟨hne, hi⟩] at hc
    cases hc
  have hin : i ∈ near.dedup := by
    have hsub : near.dedup ⊆ List.range env.nAtoms := by
      intro j hj
      obtain ⟨k, _, e⟩ := hall j (List.mem_dedup.mp hj)
      obtain ⟨hjl, _⟩ := argmin_spec e
      rw [hd] at hjl
      exact List.mem_range.mpr hjl
    have hp : near.dedup.Perm (List.range env.nAtoms) :=
      ((List.nodup_dedup near).subperm hsub).perm_of_length_le (by rw [hlen, List.length_range])
    exact hp.mem_iff.mpr (List.mem_range.mpr hlt)
  obtain ⟨k, hk, e⟩ := hall i (List.mem_dedup.mp hin)
  unfold featureNodes at hk
  obtain ⟨hk1, hk2⟩ := List.mem_filter.mp hk
  rw [Bool.and_eq_true, Bool.not_eq_true'] at hk2
  refine ⟨k, ⟨hk1, hk2.1⟩, ?_, ?_⟩
  · have := hk2.2
    unfold atomicTypes at this
    unfold Atomic
    simpa using this
  · obtain ⟨hil, hmin⟩ := argmin_spec e
    refine ⟨_, List.getElem?_eq_getElem hil, fun j y hj => ?_⟩
    obtain ⟨hjl, rfl⟩ := List.getElem?_eq_some_iff.mp hj
    exact (hmin j hjl).1

/-! ### An example -/

/-- A node of the example. -/
def mkNode (red : Bool) (dim : ℕ) (atoms basins : List ℕ) (lo hi : ℚ) (parent : Option ℕ) (children : List ℕ) : TNode ℚ :=
  ⟨red, basins, dim, atoms, lo, hi, parent, children, none, "unknown", none, none, none, none⟩

/-- An infinite domain with an ion, an atom without features of its own, a bond and a void. -/
def markGraph : BGraph ℚ where
  nodes := [0, 1, 2, 3, 4, 5, 6, 7, 8]
  roots := [0]
  node := fun k =>
    match k with
    | 0 => mkNode true 3 [0, 1] [0, 1, 2, 3, 4, 5] 0 (1/10) none [1, 2, 7, 8]
    | 1 => mkNode true 0 [0] [0, 1] (1/10) (8/10) (some 0) [3, 4]
    | 2 => mkNode true 0 [1] [2, 3] (1/10) (8/10) (some 0) [5, 6]
    | 3 => mkNode false 0 [0] [0] (8/10) (9/10) (some 1) []
    | 4 => mkNode false 0 [] [1] (8/10) (9/10) (some 1) []
    | 5 => mkNode false 0 [] [2] (8/10) (9/10) (some 2) []
    | 6 => mkNode false 0 [] [3] (8/10) (9/10) (some 2) []
    | 7 => mkNode false 0 [] [4] (1/10) (9/10) (some 0) []
    | _ => mkNode false 0 [] [5] (1/10) (7/10) (some 0) []

/-- Its surroundings. -/
def markEnv : MarkEnv ℚ where
  cnn := fun _ => [0, 1]
  atomDists := fun l => if l = [2, 3] ∨ l = [4] then [3, 1] else if l = [5] then [4, 5] else [1, 3]
  bond := fun l => if l = [4] then some (0, 1) else none
  isMetal := fun _ => false
  basinCharge := fun _ => 1
  basinVolume := fun _ => 2
  radii := [1, 1]
  nAtoms := 2
  coreDist := 1/2
  combineShells := true
  shellRatio := 3/4
  bondRatio := 1/2
  minBondCharge := 1/2
  minElf := 1/2
  minDepth := 1/5
  minCharge := 1/2
  minVolume := 1
  minBeyond := 1
  ignoreLow := false

/-- A stable sort by value. -/
def insSort (l : List (ℕ × ℚ)) : List (ℕ × ℚ) := l.insertionSort (fun a b => a.2 ≤ b.2)

theorem insSort_isArgsort : IsArgsort insSort := by
  intro l
  have hT : IsTrans (ℕ × ℚ) (fun a b => a.2 ≤ b.2) := ⟨fun a b c h1 h2 => le_trans h1 h2⟩
  have hTot : Std.Total (α := ℕ × ℚ) (fun a b => a.2 ≤ b.2) := ⟨fun a b => le_total a.2 b.2⟩
  exact ⟨List.perm_insertionSort _ _, List.pairwise_insertionSort _ _⟩

theorem markGraph_forest : Forest markGraph where
  nodup := by decide
  rootsNodup := by decide
  roots_iff := by
    intro k
    constructor
    · intro h
      obtain rfl : k = 0 := by simpa [markGraph] using h
      decide
    · rintro ⟨h, hp⟩
      have : ∀ k ∈ markGraph.nodes, (markGraph.node k).parent = none → k ∈ markGraph.roots := by decide
      exact this k h hp
  parent_ok := by
    have : ∀ k ∈ markGraph.nodes, ∀ p ∈ (markGraph.node k).parent, p ∈ markGraph.nodes ∧ (markGraph.node p).red = true := by decide
    exact fun k hk p hp => this k hk p hp
  child_iff := by
    intro p hp c
    have h1 : ∀ p ∈ markGraph.nodes, ∀ c ∈ (markGraph.node p).children, c ∈ markGraph.nodes ∧ (markGraph.node c).parent = some p := by decide
    have h2 : ∀ p ∈ markGraph.nodes, ∀ c ∈ markGraph.nodes, (markGraph.node c).parent = some p → c ∈ (markGraph.node p).children := by decide
    exact ⟨h1 p hp c, fun h => h2 p hp c h.1 h.2⟩
  childNodup := by decide
  order := ⟨id, by decide, by
    have : ∀ k ∈ markGraph.nodes, ∀ p ∈ (markGraph.node k).parent, p < k := by decide
    exact fun k hk p hp => this k hk p hp⟩

set_option maxRecDepth 100000 in
/-- The ion keeps its shell and gets a lone pair, the domain around the other atom becomes a shell, the bond is found, the void holds a bare electron. -/
example : (labelFeatures markEnv (fun _ => 0) insSort 10 markGraph).map (fun s => (s.g.nodes.filter (fun k => !(s.g.node k).red)).map fun k => (k, (s.g.node k).feature)) =
    some [(3, "shell"), (4, "lone-pair"), (7, "covalent"), (8, "bare electron"), (2, "shell")] := by
  decide +kernel

example : DepthFresh markGraph := by
  intro x
  left
  unfold markGraph
  simp only
  split <;> rfl

set_option maxRecDepth 100000 in
example : BasinsSplit markGraph := by
  unfold BasinsSplit
  decide +kernel

/-- A domain around one atom whose features are not of that atom alone. -/
def staleGraph : BGraph ℚ where
  nodes := [0, 1, 2, 3]
  roots := [0]
  node := fun k =>
    match k with
    | 0 => mkNode true 3 [0, 1] [0, 1] 0 (1/10) none [1]
    | 1 => mkNode true 0 [0] [0, 1] (1/10) (2/10) (some 0) [2, 3]
    | 2 => mkNode false 0 [] [0] (2/10) (9/10) (some 1) []
    | _ => mkNode false 0 [] [1] (2/10) (9/10) (some 1) []

set_option maxRecDepth 100000 in
/-- **C80, negative.** The neighbours of a shell: a feature that becomes a shell while lone pairs are looked for, and whose neighbours were needed before, keeps
these neighbours (here two atoms) instead of its nearest atom, which the other shell of the same atom has. -/
theorem C80_stale_neighbours :
    (markAll { markEnv with bond := fun l => if l = [0] then some (0, 1) else none, minBondCharge := 2 } (fun _ => 0) insSort 10 staleGraph).map
      (fun s => ((s.g.node 2).feature, (s.g.node 3).feature, (readCoord markEnv s 2).map Prod.fst, (readCoord markEnv s 3).map Prod.fst)) =
    some ("shell", "shell", some [0, 1], some [0]) := by
  decide +kernel

end BaderKit
