import Verif.Lemmas.Marking
/-!
# More lemmas on the labelling of features: when lone pairs are found
-/
namespace BaderKit
variable {K : Type} [Field K] [LinearOrder K]
set_option linter.unusedSectionVars false

/-- What a loop over the nodes below a node does. -/
structure Inner (s0 : MState K) (P : ℕ → Prop) (l : List ℕ) (s s' : MState K × List ℕ) : Prop where
  mem : ∀ x ∈ s.2, x ∈ s'.2
  feat : ∀ x ∈ s.2, (s'.1.g.node x).feature = (s.1.g.node x).feature
  new : ∀ x, x ∉ s.2 → x ∈ s'.2 → x ∈ l ∧ (s'.1.g.node x).feature = "lone-pair"
  all : ∀ c ∈ l, IsLeaf s0.g c → P c → c ∈ s'.2

theorem Inner.refl (s0 : MState K) (P : ℕ → Prop) (s : MState K × List ℕ) : Inner s0 P [] s s :=
  ⟨fun _ h => h, fun _ _ => rfl, fun _ h1 h2 => absurd h2 h1, by simp⟩

theorem Inner.cons {s0 : MState K} {P : ℕ → Prop} {c : ℕ} {l : List ℕ} {a b d : MState K × List ℕ} (h1 : Inner s0 P [c] a b) (h2 : Inner s0 P l b d) :
    Inner s0 P (c :: l) a d := by
  refine ⟨fun x hx => h2.mem x (h1.mem x hx), fun x hx => (h2.feat x (h1.mem x hx)).trans (h1.feat x hx), fun x hx hd => ?_, fun y hy hl hP => ?_⟩
  · by_cases hb : x ∈ b.2
    · obtain ⟨q1, q2⟩ := h1.new x hx hb
      exact ⟨by simp at q1; simp [q1], (h2.feat x hb).trans q2⟩
    · obtain ⟨q1, q2⟩ := h2.new x hb hd
      exact ⟨by simp [q1], q2⟩
  · rcases List.mem_cons.mp hy with rfl | hy
    · exact h2.mem y (h1.all y (by simp) hl hP)
    · exact h2.all y hy hl hP

theorem inner_same {s0 : MState K} {P : ℕ → Prop} {c : ℕ} {a b : MState K × List ℕ} (e1 : b.1.g = a.1.g) (e2 : b.2 = a.2)
    (h : IsLeaf s0.g c → P c → c ∈ a.2) : Inner s0 P [c] a b :=
  ⟨fun x hx => by rw [e2]; exact hx, fun x _ => by rw [e1], fun x h1 h2 => absurd (e2 ▸ h2) h1, fun y hy hl hP => by
    rw [e2]
    rw [List.mem_singleton] at hy
    subst hy
    exact h hl hP⟩

theorem inner_lone {s0 : MState K} {P : ℕ → Prop} {c : ℕ} {a b : MState K × List ℕ} (hc : c ∉ a.2) (e1 : b.1.g = setFeature a.1.g c "lone-pair")
    (e2 : b.2 = a.2 ++ [c]) : Inner s0 P [c] a b := by
  refine ⟨fun x hx => by rw [e2]; simp [hx], fun x hx => ?_, fun x h1 h2 => ?_, fun y hy _ _ => by rw [e2]; simp_all⟩
  · rw [e1, setFeature_other]
    rintro rfl
    exact hc hx
  · rw [e2, List.mem_append] at h2
    obtain h2 := h2.resolve_left h1
    refine ⟨h2, ?_⟩
    rw [List.mem_singleton] at h2
    subst h2
    rw [e1, setFeature_feature]

theorem ionicStep_inner {env : MarkEnv K} {s0 : MState K} {s : MState K × List ℕ} (h : Retyped s0.g s.1.g) (c : ℕ) :
    Inner s0 (fun x => env.minBondCharge < nodeCharge env (s0.g.node x)) [c] s (ionicStep env s c) := by
  unfold ionicStep
  by_cases hr : ((s.1.g.node c).red || s.2.contains c) = true
  · rw [if_pos hr]
    refine inner_same rfl rfl fun hl _ => ?_
    rw [h.red, hl.2] at hr
    simpa using hr
  rw [if_neg hr]
  simp only [Bool.or_eq_true, List.contains_eq_mem, decide_eq_true_eq, not_or, Bool.not_eq_true] at hr
  by_cases hq : env.minBondCharge < nodeCharge env (s.1.g.node c)
  · rw [if_pos hq]
    exact inner_lone hr.2 rfl rfl
  · rw [if_neg hq]
    refine inner_same rfl rfl fun _ hP => ?_
    rw [nodeCharge_retyped h] at hq
    exact absurd hP hq

theorem ionicStep_retyped {env : MarkEnv K} (s : MState K × List ℕ) (c : ℕ) : Retyped s.1.g (ionicStep env s c).1.g := by
  unfold ionicStep
  split_ifs
  · exact .refl _
  · exact setFeature_retyped _ _ _
  · exact .refl _

theorem ionic_inner {env : MarkEnv K} {s0 : MState K} : ∀ (l : List ℕ) (s : MState K × List ℕ), Retyped s0.g s.1.g →
    Inner s0 (fun x => env.minBondCharge < nodeCharge env (s0.g.node x)) l s (l.foldl (ionicStep env) s) := by
  intro l
  induction l with
  | nil => intro s _; exact .refl _ _ _
  | cons c l ih => intro s h; exact (ionicStep_inner h c).cons (ih _ (h.trans (ionicStep_retyped s c)))

/-- At most one neighbour in the domain, and enough charge. -/
def LoneIn (env : MarkEnv K) (s0 : MState K) (n x : ℕ) : Prop :=
  ((coordAt env s0 x).filter fun i => decide (i ∈ (s0.g.node n).atoms)).length ≤ 1 ∧ env.minBondCharge < nodeCharge env (s0.g.node x)

theorem lonePairStep_inner {env : MarkEnv K} {s0 : MState K} {s s' : MState K × List ℕ} (h : LPInv env s0 s) {c n : ℕ} (hc : c ∈ s0.g.nodes)
    (e : lonePairStep env (s0.g.node n).atoms s c = some s') : Inner s0 (LoneIn env s0 n) [c] s s' := by
  unfold lonePairStep at e
  by_cases hr : ((s.1.g.node c).red || s.2.contains c) = true
  · rw [if_pos hr] at e
    cases e
    refine inner_same rfl rfl fun hl _ => ?_
    rw [h.re.red, hl.2] at hr
    simpa using hr
  rw [if_neg hr] at e
  simp only [Bool.or_eq_true, List.contains_eq_mem, decide_eq_true_eq, not_or, Bool.not_eq_true] at hr
  have hl : IsLeaf s0.g c := ⟨hc, by rw [← h.re.red]; exact hr.1⟩
  simp only [Option.bind_eq_bind, Option.bind_eq_some_iff] at e
  obtain ⟨r, er, e⟩ := e
  obtain ⟨r1, r2, r3⟩ := readCoord_inv h hl hr.2 er
  rw [r1] at e
  simp only [List.contains_eq_mem] at e
  by_cases h1 : 1 < ((coordAt env s0 c).filter fun i => decide (i ∈ (s0.g.node n).atoms)).length
  · rw [if_pos h1] at e
    cases e
    exact inner_same r3 rfl fun _ hP => absurd hP.1 (not_le.mpr h1)
  rw [if_neg h1] at e
  by_cases hq : env.minBondCharge < nodeCharge env (r.2.g.node c)
  · rw [if_pos hq] at e
    cases e
    exact inner_lone hr.2 (by rw [← r3]) rfl
  · rw [if_neg hq] at e
    cases e
    refine inner_same r3 rfl fun _ hP => ?_
    rw [r3, nodeCharge_retyped h.re] at hq
    exact absurd hP.2 hq

theorem lonePair_inner {env : MarkEnv K} {s0 : MState K} {n : ℕ} (hn : n ∈ s0.g.nodes)
    (hcov : ∃ c, IsLeaf s0.g c ∧ Below s0.g c n ∧ Cov (s0.g.node c).feature) : ∀ (l : List ℕ) (s s' : MState K × List ℕ), LPInv env s0 s →
    (∀ c ∈ l, c ∈ s0.g.nodes ∧ Below s0.g c n) → l.foldlM (lonePairStep env (s0.g.node n).atoms) s = some s' → Inner s0 (LoneIn env s0 n) l s s' := by
  intro l
  induction l with
  | nil => intro s s' _ _ e; cases e; exact .refl _ _ _
  | cons c l ih =>
    intro s s' h hl e
    rw [List.foldlM_cons] at e
    cases e1 : lonePairStep env (s0.g.node n).atoms s c with
    | none => rw [e1] at e; cases e
    | some s1 =>
      rw [e1] at e
      exact (lonePairStep_inner h (hl c (by simp)).1 e1).cons
        (ih s1 s' (lonePairStep_inv h (hl c (by simp)).1 hn (hl c (by simp)).2 hcov e1) (fun c hc => hl c (by simp [hc])) e)

/-- What one domain does. -/
structure NodeStep (env : MarkEnv K) (s0 : MState K) (k : ℕ) (s s' : MState K × List ℕ) : Prop where
  mem : ∀ x ∈ s.2, x ∈ s'.2
  feat : ∀ x, IsLeaf s0.g x → x ∈ s.2 → (s'.1.g.node x).feature = (s.1.g.node x).feature
  new : ∀ x, IsLeaf s0.g x → x ∉ s.2 → x ∈ s'.2 → Below s0.g x k ∧ (s0.g.node k).atoms ≠ [] ∧
    ((s0.g.node k).atoms.length = 1 → (s0.g.node k).dim = 0 → ¬ Open (s'.1.g.node x).feature)
  /-- one atom: the rest below gets a type, if there is an atomic and no covalent feature -/
  ionic : (s0.g.node k).atoms.length = 1 → (s0.g.node k).dim = 0 → (∀ c, IsLeaf s0.g c → Below s0.g c k → ¬ Cov (s0.g.node c).feature) →
    (∀ c, IsLeaf s0.g c → Below s0.g c k → c ∈ s.2 → Atomic (s.1.g.node c).feature) →
    ∀ x, IsLeaf s0.g x → Below s0.g x k → env.minBondCharge < nodeCharge env (s0.g.node x) → x ∈ s'.2
  /-- next to covalent features -/
  lone : (s0.g.node k).atoms ≠ [] → ¬ ((s0.g.node k).atoms.length = 1 ∧ (s0.g.node k).dim = 0) →
    (∃ c, IsLeaf s0.g c ∧ Below s0.g c k ∧ Cov (s0.g.node c).feature) →
    ∀ x, IsLeaf s0.g x → Below s0.g x k → LoneIn env s0 k x → x ∉ s.2 → (s'.1.g.node x).feature = "lone-pair"

theorem lonePairNode_step {env : MarkEnv K} {fuel : ℕ} {s0 : MState K} (hF : Forest s0.g) (hfuel : s0.g.nodes.length < fuel) {s s' : MState K × List ℕ}
    (h : LPInv env s0 s) {k : ℕ} (hk : k ∈ s0.g.nodes) (e : lonePairNode env fuel s k = some s') : NodeStep env s0 k s s' := by
  obtain ⟨deep, ed, hmem, _, _⟩ := hF.deepChildren_spec hk hfuel
  have hleaf : ∀ c, c ∈ deep.filter (fun c => !(s.1.g.node c).red) ↔ IsLeaf s0.g c ∧ Below s0.g c k := by
    intro c
    rw [List.mem_filter, hmem, h.re.red]
    unfold IsLeaf
    simp only [Bool.not_eq_true']
    tauto
  unfold lonePairNode at e
  rw [h.re.atoms, h.re.dim] at e
  by_cases c1 : (s0.g.node k).atoms.length = 0
  · rw [if_pos c1] at e
    cases e
    refine ⟨fun _ q => q, fun _ _ _ => rfl, fun x _ h1 h2 => absurd h2 h1, fun q => by omega, fun q => ?_⟩
    exact absurd (List.length_eq_zero_iff.mp c1) q
  rw [if_neg c1] at e
  rw [h.re.deepChildren, ed] at e
  simp only [Option.bind_eq_bind, Option.bind_some] at e
  have hne : (s0.g.node k).atoms ≠ [] := fun q => c1 (by rw [q]; rfl)
  have hcovs : someCovalent s.1.g (deep.filter (fun c => !(s.1.g.node c).red)) = true ↔ ∃ c, IsLeaf s0.g c ∧ Below s0.g c k ∧ Cov (s0.g.node c).feature := by
    rw [someCovalent_iff]
    constructor
    · rintro ⟨c, hc, q⟩
      obtain ⟨a, b⟩ := (hleaf c).mp hc
      exact ⟨c, a, b, (h.typed c a).cov.mp q⟩
    · rintro ⟨c, a, b, q⟩
      exact ⟨c, (hleaf c).mpr ⟨a, b⟩, (h.typed c a).cov.mpr q⟩
  by_cases c2 : (deep.filter fun c => !(s.1.g.node c).red).all (fun c => s.2.contains c) = true
  · rw [if_pos c2] at e
    cases e
    have hall : ∀ x, IsLeaf s0.g x → Below s0.g x k → x ∈ s.2 := by
      intro x hx hb
      have := List.all_eq_true.mp c2 x ((hleaf x).mpr ⟨hx, hb⟩)
      simpa using this
    exact ⟨fun _ q => q, fun _ _ _ => rfl, fun x _ h1 h2 => absurd h2 h1, fun _ _ _ _ x hx hb _ => hall x hx hb,
      fun _ _ _ x hx hb _ q => absurd (hall x hx hb) q⟩
  rw [if_neg c2] at e
  by_cases c3 : (s0.g.node k).atoms.length = 1 ∧ (s0.g.node k).dim = 0
  · rw [if_pos c3] at e
    by_cases c4 : (deep.filter fun c => !(s.1.g.node c).red).all (fun c => !(s.2.contains c)) = true
    · rw [if_pos c4] at e
      cases e
      obtain ⟨f1, f2, f3, f4, f5⟩ := deepShell_fold deep s
      refine ⟨fun x hx => by rw [f2]; simp [hx], fun x hl hx => ?_, fun x hl h1 h2 => ?_, fun _ _ _ _ x hx hb _ => ?_, fun _ q => absurd c3 q⟩
      · rw [f5 x]
        intro hxd
        have := List.all_eq_true.mp c4 x ((hleaf x).mpr ⟨hl, ((hmem x).mp hxd).2⟩)
        simp [hx] at this
      · rw [f2, List.mem_append] at h2
        have h2 := h2.resolve_left h1
        exact ⟨((hmem x).mp h2).2, hne, fun _ _ => by rw [f4 x h2]; exact not_open_shell⟩
      · rw [f2, List.mem_append]
        exact .inr ((hmem x).mpr ⟨hx.1, hb⟩)
    · rw [if_neg c4] at e
      by_cases c5 : (someAtomic s.1.g (deep.filter fun c => !(s.1.g.node c).red) && !(someCovalent s.1.g (deep.filter fun c => !(s.1.g.node c).red))) = true
      · rw [if_pos c5] at e
        cases e
        have hI := ionic_inner (env := env) deep s h.re
        refine ⟨hI.mem, fun x _ hx => hI.feat x hx, fun x _ h1 h2 => ?_, fun _ _ _ _ x hx hb hq => ?_, fun _ q => absurd c3 q⟩
        · obtain ⟨q1, q2⟩ := hI.new x h1 h2
          exact ⟨((hmem x).mp q1).2, hne, fun _ _ => by rw [q2]; exact not_open_lone⟩
        · exact hI.all x ((hmem x).mpr ⟨hx.1, hb⟩) hx hq
      · rw [if_neg c5] at e
        cases e
        refine ⟨fun _ q => q, fun _ _ _ => rfl, fun x _ h1 h2 => absurd h2 h1, fun _ _ hnc hat x hx hb _ => ?_, fun _ q => absurd c3 q⟩
        exfalso
        apply c5
        rw [Bool.and_eq_true, Bool.not_eq_true', ← Bool.not_eq_true, hcovs, someAtomic_iff]
        refine ⟨?_, fun ⟨c, a, b, q⟩ => hnc c a b q⟩
        rw [Bool.not_eq_true, ← Bool.not_eq_true] at c4
        have : ∃ c ∈ deep.filter (fun c => !(s.1.g.node c).red), c ∈ s.2 := by
          by_contra hno
          push Not at hno
          exact c4 (List.all_eq_true.mpr fun c hc => by simpa using hno c hc)
        obtain ⟨c, hc, hcs⟩ := this
        obtain ⟨a, b⟩ := (hleaf c).mp hc
        exact ⟨c, hc, hat c a b hcs⟩
  rw [if_neg c3] at e
  by_cases c4 : (deep.filter fun c => !(s.1.g.node c).red).all (fun c => !(s.2.contains c)) = true
  · rw [if_pos c4] at e
    cases e
    refine ⟨fun x hx => List.mem_append_left _ hx, fun _ _ _ => rfl, fun x _ h1 h2 => ?_, fun q1 q2 => absurd ⟨q1, q2⟩ c3, fun _ _ hcov x _ _ _ _ => ?_⟩
    · rw [List.mem_append] at h2
      exact ⟨((hmem x).mp (h2.resolve_left h1)).2, hne, fun q1 q2 => absurd ⟨q1, q2⟩ c3⟩
    · exfalso
      obtain ⟨c, a, b, q⟩ := hcov
      have := List.all_eq_true.mp c4 c ((hleaf c).mpr ⟨a, b⟩)
      have h2 := h.done c a ((h.typed c a).cov.mpr q).not_open
      simp [h2] at this
  rw [if_neg c4] at e
  by_cases c5 : (!(someCovalent s.1.g (deep.filter fun c => !(s.1.g.node c).red))) = true
  · rw [if_pos c5] at e
    cases e
    refine ⟨fun _ q => q, fun _ _ _ => rfl, fun x _ h1 h2 => absurd h2 h1, fun q1 q2 => absurd ⟨q1, q2⟩ c3, fun _ _ hcov => ?_⟩
    rw [hcovs.mpr hcov] at c5
    cases c5
  rw [if_neg c5] at e
  rw [Bool.not_eq_true', Bool.not_eq_false] at c5
  have hI := lonePair_inner hk (hcovs.mp c5) deep s s' h (fun c hc => (hmem c).mp hc) e
  refine ⟨hI.mem, fun x _ hx => hI.feat x hx, fun x _ h1 h2 => ?_, fun q1 q2 => absurd ⟨q1, q2⟩ c3, fun _ _ _ x hx hb hP hxs => ?_⟩
  · obtain ⟨q1, q2⟩ := hI.new x h1 h2
    exact ⟨((hmem x).mp q1).2, hne, fun q1 q2 => absurd ⟨q1, q2⟩ c3⟩
  · exact (hI.new x hxs (hI.all x ((hmem x).mpr ⟨hx.1, hb⟩) hx hP)).2

/-- A property that the steps of a list of domains keep. -/
theorem lonePairs_keep {env : MarkEnv K} {fuel : ℕ} {s0 : MState K} (hF : Forest s0.g) (hfuel : s0.g.nodes.length < fuel) (Q : MState K × List ℕ → Prop) :
    ∀ (l : List ℕ) (s s' : MState K × List ℕ), (∀ k ∈ l, k ∈ s0.g.nodes) → (∀ k ∈ l, ∀ a b, LPInv env s0 a → NodeStep env s0 k a b → Q a → Q b) →
    LPInv env s0 s → Q s → l.foldlM (lonePairNode env fuel) s = some s' → Q s' := by
  intro l
  induction l with
  | nil => intro s s' _ _ _ hQ e; cases e; exact hQ
  | cons c l ih =>
    intro s s' hl hq h hQ e
    rw [List.foldlM_cons] at e
    cases e1 : lonePairNode env fuel s c with
    | none => rw [e1] at e; cases e
    | some s1 =>
      rw [e1] at e
      exact ih s1 s' (fun k hk => hl k (by simp [hk])) (fun k hk => hq k (by simp [hk])) (lonePairNode_inv hF hfuel h (hl c (by simp)) e1)
        (hq c (by simp) s s1 h (lonePairNode_step hF hfuel h (hl c (by simp)) e1) hQ) e

/-- The states before and after a domain. -/
theorem lonePairs_at {env : MarkEnv K} {fuel : ℕ} {s0 : MState K} (hF : Forest s0.g) (hfuel : s0.g.nodes.length < fuel) {l1 l2 : List ℕ} {n : ℕ}
    {s s' : MState K × List ℕ} (hl : ∀ k ∈ l1 ++ n :: l2, k ∈ s0.g.nodes) (h : LPInv env s0 s) (e : (l1 ++ n :: l2).foldlM (lonePairNode env fuel) s = some s') :
    ∃ a b, l1.foldlM (lonePairNode env fuel) s = some a ∧ LPInv env s0 a ∧ NodeStep env s0 n a b ∧ LPInv env s0 b ∧
      l2.foldlM (lonePairNode env fuel) b = some s' := by
  rw [List.foldlM_append] at e
  simp only [Option.bind_eq_bind, Option.bind_eq_some_iff] at e
  obtain ⟨a, ea, e⟩ := e
  rw [List.foldlM_cons] at e
  simp only [Option.bind_eq_bind, Option.bind_eq_some_iff] at e
  obtain ⟨b, eb, e⟩ := e
  have ha := lonePairs_inv hF hfuel l1 s a (fun k hk => hl k (by simp [hk])) h ea
  exact ⟨a, b, ea, ha, lonePairNode_step hF hfuel ha (hl n (by simp)) eb, lonePairNode_inv hF hfuel ha (hl n (by simp)) eb, e⟩

/-- A type found by a domain stays. -/
theorem lonePairs_stays {env : MarkEnv K} {fuel : ℕ} {s0 : MState K} (hF : Forest s0.g) (hfuel : s0.g.nodes.length < fuel) {l : List ℕ}
    {s s' : MState K × List ℕ} (hl : ∀ k ∈ l, k ∈ s0.g.nodes) (h : LPInv env s0 s) (e : l.foldlM (lonePairNode env fuel) s = some s') {x : ℕ}
    (hx : IsLeaf s0.g x) (hxs : x ∈ s.2) : (s'.1.g.node x).feature = (s.1.g.node x).feature :=
  (lonePairs_keep hF hfuel (fun t => x ∈ t.2 ∧ (t.1.g.node x).feature = (s.1.g.node x).feature) l s s' hl
    (fun _ _ a b _ hN hQ => ⟨hN.mem x hQ.1, (hN.feat x hx hQ.1).trans hQ.2⟩) h ⟨hxs, rfl⟩ e).2

/-! ### Bare electrons -/

theorem Retyped.depthToInfinite {g h : BGraph K} (hS : Retyped g h) (fuel k : ℕ) : depthToInfinite h fuel k = depthToInfinite g fuel k := by
  unfold BaderKit.depthToInfinite
  simp only [hS.dim, hS.ancestors, hS.maxV]

theorem ancestors_last {g : BGraph K} {fuel k a : ℕ} {l : List ℕ} (h : ancestors g fuel k = some l) (ha : l.getLast? = some a) :
    Below g k a ∧ (g.node a).parent = none := by
  induction fuel generalizing k l with
  | zero => cases h
  | succ fuel ih =>
    unfold ancestors at h
    cases hp : (g.node k).parent with
    | none => rw [hp] at h; cases h; cases ha
    | some r =>
      rw [hp] at h
      simp only [Option.map_eq_some_iff] at h
      obtain ⟨l', e, rfl⟩ := h
      cases l' with
      | nil =>
        simp only [List.getLast?_singleton, Option.some.injEq] at ha
        subst ha
        refine ⟨.single hp, ?_⟩
        cases fuel with
        | zero => cases e
        | succ fuel =>
          unfold ancestors at e
          cases hq : (g.node r).parent with
          | none => rfl
          | some q =>
            rw [hq] at e
            simp only [Option.map_eq_some_iff] at e
            obtain ⟨_, _, e⟩ := e
            cases e
      | cons y l' =>
        rw [List.getLast?_cons_cons] at ha
        obtain ⟨q1, q2⟩ := ih e ha
        exact ⟨.head hp q1, q2⟩

theorem openness_of {g : BGraph K} (hF : Forest g) {fuel k : ℕ} (hk : k ∈ g.nodes) (hfuel : g.nodes.length < fuel) {d : K}
    (h : depthToInfinite g fuel k = some d) : Openness g k d := by
  unfold depthToInfinite at h
  by_cases h0 : 0 < (g.node k).dim
  · rw [if_pos h0] at h
    cases h
    exact .inl ⟨h0, rfl⟩
  rw [if_neg h0] at h
  obtain ⟨l, e, _, hmem⟩ := (C44_queries hF hfuel).1 k hk
  rw [e] at h
  simp only [Option.bind_eq_bind, Option.bind_some] at h
  refine .inr ⟨by omega, ?_⟩
  cases ef : l.find? (fun a => decide (0 < (g.node a).dim)) with
  | some a =>
    rw [ef] at h
    cases h
    obtain ⟨q1, q2, q3⟩ := (ancestors_find hF hk e _).mp ef
    exact ⟨a, q1, rfl, .inl ⟨by simpa using q2, fun b hb hba => by simpa using q3 b hb hba⟩⟩
  | none =>
    rw [ef] at h
    cases el : l.getLast? with
    | none => simp only [el] at h; cases h
    | some a =>
      simp only [el] at h
      cases h
      obtain ⟨q1, q2⟩ := ancestors_last e el
      refine ⟨a, q1, rfl, .inr ⟨fun b hb => ?_, q2⟩⟩
      have := List.find?_eq_none.mp ef b ((hmem b).mpr hb)
      simpa using this

theorem npMin_spec {l : List K} {m : K} (h : npMin l = some m) : m ∈ l ∧ ∀ x ∈ l, m ≤ x := by
  cases l with
  | nil => cases h
  | cons y l =>
    simp only [npMin, Option.some.injEq] at h
    have key : ∀ (l : List K) (y : K), (l.foldl min y = y ∨ l.foldl min y ∈ l) ∧ l.foldl min y ≤ y ∧ ∀ x ∈ l, l.foldl min y ≤ x := by
      intro l
      induction l with
      | nil => intro y; exact ⟨.inl rfl, le_refl _, by simp⟩
      | cons a l ih =>
        intro y
        obtain ⟨h1, h2, h3⟩ := ih (min y a)
        simp only [List.foldl_cons]
        refine ⟨?_, h2.trans (min_le_left _ _), ?_⟩
        · rcases h1 with h1 | h1
          · rcases min_choice y a with q | q
            · left; rw [h1, q]
            · right; rw [h1, q]; simp
          · right; simp [h1]
        · intro x hx
          rcases List.mem_cons.mp hx with rfl | hx
          · exact h2.trans (min_le_right _ _)
          · exact h3 x hx
    obtain ⟨h1, h2, h3⟩ := key l y
    rw [h] at h1 h2 h3
    refine ⟨?_, ?_⟩
    · rcases h1 with h1 | h1
      · simp [h1]
      · simp [h1]
    · intro x hx
      rcases List.mem_cons.mp hx with rfl | hx
      · exact h2
      · exact h3 x hx

theorem beyondOf_spec {env : MarkEnv K} {n : TNode K} {b : K} (h : beyondOf env n = some b) : ClosestSurface env n.basins b := by
  unfold beyondOf at h
  by_cases hl : (env.atomDists n.basins).length ≠ env.radii.length
  · rw [if_pos hl] at h; cases h
  rw [if_neg hl] at h
  obtain ⟨h1, h2⟩ := npMin_spec h
  rw [not_not] at hl
  refine ⟨?_, ?_⟩
  · rw [List.mem_iff_getElem?] at h1
    obtain ⟨i, hi⟩ := h1
    rw [List.getElem?_zipWith'] at hi
    cases ed : (env.atomDists n.basins)[i]? with
    | none => simp [ed] at hi
    | some d =>
      cases er : env.radii[i]? with
      | none => simp [ed, er] at hi
      | some r =>
        simp [ed, er] at hi
        exact ⟨i, d, r, ed, er, hi.symm⟩
  · rintro x ⟨i, d, r, ed, er, rfl⟩
    apply h2
    rw [List.mem_iff_getElem?]
    refine ⟨i, ?_⟩
    rw [List.getElem?_zipWith']
    simp [ed, er]

theorem setBeyond_spec {env : MarkEnv K} {g g' : BGraph K} (hF : Forest g) (h : setBeyond env g = some g') : Retyped g g' ∧
    ∀ x, IsLeaf g x → ∃ b, beyondOf env (g.node x) = some b ∧ g'.node x = { g.node x with beyond := some b } := by
  unfold setBeyond at h
  have hmod : ∀ (s : BGraph K) (k x : ℕ) (d : K), (modNode s k fun n => { n with beyond := some d }).node x =
      if x = k then { s.node x with beyond := some d } else s.node x := by
    intro s k x d
    unfold modNode
    simp only [Function.update_apply]
    by_cases hx : x = k
    · subst hx; simp
    · simp [hx]
  obtain ⟨hR, _, hl⟩ := foldlM_local (fun (g : BGraph K) x => g.node x) Retyped Retyped.refl (fun _ _ _ => Retyped.trans) _
    (by
      intro s k s' e
      obtain ⟨d, _, e⟩ := Option.map_eq_some_iff.mp e
      subst e
      refine ⟨⟨rfl, rfl, fun x => ?_⟩, fun x hx => ?_⟩
      · rw [hmod]; by_cases hx : x = k <;> simp [hx]
      · rw [hmod, if_neg hx]) _ _ _ (hF.nodup.filter _) h
  refine ⟨hR, fun x hx => ?_⟩
  obtain ⟨a, b, _, va, eb, _, vb⟩ := hl x (by rw [List.mem_filter]; exact ⟨hx.1, by simp [hx.2]⟩)
  obtain ⟨d, ed, eb⟩ := Option.map_eq_some_iff.mp eb
  subst eb
  refine ⟨d, by rw [← va]; exact ed, ?_⟩
  rw [vb, hmod, if_pos rfl, va]

theorem bareStep_some {env : MarkEnv K} {fuel : ℕ} {g g' : BGraph K} {k : ℕ} (h : bareStep env fuel g k = some g') :
    (¬ ((g.node k).feature = "metallic" ∨ (g.node k).feature = "bare electron" ∨ (g.node k).feature = "unknown") ∧ g' = g) ∨
    (((g.node k).feature = "metallic" ∨ (g.node k).feature = "bare electron" ∨ (g.node k).feature = "unknown") ∧
      ∃ d b, BaderKit.depthToInfinite g fuel k = some d ∧ (g.node k).beyond = some b ∧
        ((BareRule env g k d b ∧ g' = setFeature g k "bare electron") ∨ (¬ BareRule env g k d b ∧ g' = setFeature g k "multi-centered"))) := by
  unfold bareStep at h
  by_cases hf : (!(["metallic", "bare electron", "unknown"].contains (g.node k).feature)) = true
  · rw [if_pos hf] at h
    cases h
    refine .inl ⟨?_, rfl⟩
    simpa using hf
  · rw [if_neg hf] at h
    refine .inr ⟨by simp at hf; tauto, ?_⟩
    obtain ⟨t, et, e⟩ := Option.map_eq_some_iff.mp h
    unfold bareTest at et
    simp only [Option.bind_eq_bind, Option.bind_eq_some_iff, Option.some.injEq] at et
    obtain ⟨d, ed, b, eb, rfl⟩ := et
    refine ⟨d, b, ed, eb, ?_⟩
    by_cases hb : BareRule env g k d b
    · refine .inl ⟨hb, ?_⟩
      rw [← e, if_pos]
      rw [decide_eq_true_eq]
      exact hb
    · refine .inr ⟨hb, ?_⟩
      rw [← e, if_neg]
      rw [decide_eq_true_eq]
      exact hb

theorem markBare_spec {env : MarkEnv K} {fuel : ℕ} {g g' : BGraph K} (hF : Forest g) (h : markBare env fuel g = some g') : Retyped g g' ∧
    ∀ x, IsLeaf g x → ∃ b, beyondOf env (g.node x) = some b ∧ (g'.node x).beyond = some b ∧
      ((¬ ((g.node x).feature = "metallic" ∨ (g.node x).feature = "bare electron" ∨ (g.node x).feature = "unknown") ∧
        (g'.node x).feature = (g.node x).feature) ∨
      (((g.node x).feature = "metallic" ∨ (g.node x).feature = "bare electron" ∨ (g.node x).feature = "unknown") ∧
        ∃ d, BaderKit.depthToInfinite g fuel x = some d ∧ ((BareRule env g x d b ∧ (g'.node x).feature = "bare electron") ∨
          (¬ BareRule env g x d b ∧ (g'.node x).feature = "multi-centered")))) := by
  unfold markBare at h
  simp only [Option.bind_eq_bind, Option.bind_eq_some_iff] at h
  obtain ⟨h1, e1, h⟩ := h
  obtain ⟨hR1, hb1⟩ := setBeyond_spec hF e1
  obtain ⟨hR, _, hl⟩ := foldlM_local (fun (g : BGraph K) x => g.node x) Retyped Retyped.refl (fun _ _ _ => Retyped.trans) _
    (by
      intro s k s' e
      rcases bareStep_some e with ⟨_, rfl⟩ | ⟨_, _, _, _, _, ⟨_, rfl⟩ | ⟨_, rfl⟩⟩
      · exact ⟨.refl _, fun _ _ => rfl⟩
      · exact ⟨setFeature_retyped _ _ _, fun x hx => setFeature_other _ _ hx⟩
      · exact ⟨setFeature_retyped _ _ _, fun x hx => setFeature_other _ _ hx⟩) _ _ _ ((hR1.forest hF).nodup.filter _) h
  refine ⟨hR1.trans hR, fun x hx => ?_⟩
  obtain ⟨b, eb, hn⟩ := hb1 x hx
  obtain ⟨s, s', rs, vs, es, _, vs'⟩ := hl x (by rw [List.mem_filter, hR1.nodes, hR1.red]; exact ⟨hx.1, by simp [hx.2]⟩)
  have hsf : (s.node x).feature = (g.node x).feature := by rw [vs, hn]
  have hsb : (s.node x).beyond = some b := by rw [vs, hn]
  have hrule : ∀ d b', BareRule env s x d b' ↔ BareRule env g x d b' := by
    intro d b'
    unfold BareRule
    rw [vs, hn]
  have hdep : BaderKit.depthToInfinite s fuel x = BaderKit.depthToInfinite g fuel x := by
    rw [rs.depthToInfinite, hR1.depthToInfinite]
  refine ⟨b, eb, ?_⟩
  rw [vs']
  rcases bareStep_some es with ⟨q, rfl⟩ | ⟨q, d, b', ed, eb', hor⟩
  · rw [hsf] at q
    exact ⟨hsb, .inl ⟨q, hsf⟩⟩
  · rw [hsf] at q
    rw [hdep] at ed
    rw [hsb] at eb'
    cases eb'
    rcases hor with ⟨hr, rfl⟩ | ⟨hr, rfl⟩
    · rw [hrule] at hr
      refine ⟨?_, .inr ⟨q, d, ed, .inl ⟨hr, setFeature_feature _ _ _⟩⟩⟩
      rw [setFeature_node, if_pos rfl]; exact hsb
    · rw [hrule] at hr
      refine ⟨?_, .inr ⟨q, d, ed, .inr ⟨hr, setFeature_feature _ _ _⟩⟩⟩
      rw [setFeature_node, if_pos rfl]; exact hsb

end BaderKit
