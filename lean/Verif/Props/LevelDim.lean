import Verif.Props.Groups
import Verif.Props.DomainTree
/-!
# C73: the dimensionality in the rows of the tree

The theorems on the tree take the dimensionality of a domain as a parameter; here it is the one the code computes from the solids of all
connection values so far.
-/
set_option linter.unusedSectionVars false
namespace BaderKit
variable {K : Type} [Field K] [LinearOrder K] [IsStrictOrderedRing K]

/-- The voxels at or above a value. -/
def solidAt (data : ℕ → K) (v : K) : ℕ → Bool := fun w => decide (v ≤ data w)

/-- The solids of the connection values down to a value, in the order in which they are visited. -/
def solidsDown (data : ℕ → K) (conns : List (Conn K)) (value : K) : List (ℕ → Bool) :=
  ((connValues conns).filter fun v => decide (value ≤ v)).map (solidAt data)

theorem growChain_solids (data : ℕ → K) : ∀ (vs : List K) (prev : ℕ → Bool), vs.Pairwise (fun a b => b < a) →
    (∀ v ∈ vs, ∀ w, prev w = true → v ≤ data w) → GrowChain prev (vs.map (solidAt data))
  | [], _, _, _ => trivial
  | v :: vs, prev, hp, h => by
    rw [List.pairwise_cons] at hp
    refine ⟨fun w hw => decide_eq_true (h v (by simp) w hw), growChain_solids data vs _ hp.2 fun u hu w hw => ?_⟩
    exact (hp.1 u hu).le.trans (of_decide_eq_true hw)

theorem lastSolid_solids (data : ℕ → K) : ∀ (vs : List K) (prev : ℕ → Bool), vs.Pairwise (fun a b => b < a) →
    (∀ v ∈ vs, ∀ w, prev w = true → v ≤ data w) →
    ∀ w, lastSolid prev (vs.map (solidAt data)) w = true ↔ (prev w = true ∨ ∃ v ∈ vs, v ≤ data w)
  | [], _, _, _, w => by simp [lastSolid]
  | v :: vs, prev, hp, h, w => by
    rw [List.pairwise_cons] at hp
    have := lastSolid_solids data vs (solidAt data v) hp.2 (fun u hu w hw => (hp.1 u hu).le.trans (of_decide_eq_true hw)) w
    show lastSolid (solidAt data v) _ w = true ↔ _
    rw [this]
    simp only [solidAt, decide_eq_true_eq, List.mem_cons, exists_eq_or_imp]
    constructor
    · rintro (h1 | h1)
      · exact Or.inr (Or.inl h1)
      · exact Or.inr (Or.inr h1)
    · rintro (h1 | h1 | h1)
      · exact Or.inl (h v (by simp) w h1)
      · exact Or.inl h1
      · exact Or.inr h1

theorem solidsDown_pairwise (conns : List (Conn K)) (value : K) :
    ((connValues conns).filter fun v => decide (value ≤ v)).Pairwise (fun a b => b < a) := (connValues_pairwise conns).filter _

theorem solidsDown_grow (data : ℕ → K) (conns : List (Conn K)) (value : K) : GrowChain (fun _ => false) (solidsDown data conns value) :=
  growChain_solids data _ _ (solidsDown_pairwise conns value) (by simp)

theorem solidsDown_last (data : ℕ → K) (conns : List (Conn K)) (value : K) (w : ℕ) :
    lastSolid (fun _ => false) (solidsDown data conns value) w = true ↔ ∃ c ∈ conns, value ≤ c.val ∧ c.val ≤ data w := by
  unfold solidsDown
  rw [lastSolid_solids data _ _ (solidsDown_pairwise conns value) (by simp)]
  simp only [Bool.false_eq_true, false_or, List.mem_filter, decide_eq_true_eq]
  constructor
  · rintro ⟨v, ⟨h1, h2⟩, h3⟩
    obtain ⟨c, hc, rfl⟩ := connValues_mem.mp h1
    exact ⟨c, hc, h2, h3⟩
  · rintro ⟨c, hc, h1, h2⟩
    exact ⟨c.val, ⟨connValues_mem.mpr ⟨c, hc, rfl⟩, h1⟩, h2⟩

theorem solidsDown_last_eq (data : ℕ → K) {conns : List (Conn K)} {c : Conn K} (hc : c ∈ conns) :
    lastSolid (fun _ => false) (solidsDown data conns c.val) = solidAt data c.val := by
  funext w
  rw [Bool.eq_iff_iff, solidsDown_last]
  simp only [solidAt, decide_eq_true_eq]
  exact ⟨fun ⟨d, _, h1, h2⟩ => h1.trans h2, fun h => ⟨c, hc, le_refl _, h⟩⟩

/-- What is assumed about the grid: at least two voxels per axis, symmetric neighbour steps, no vacuum voxel at or above a connection value,
maxima in the grid, enough steps, a tolerance that tells integer vectors apart. -/
structure LevelInput (fuel : ℕ) (root : K → K) (tol : K) (s : Shape) (nbrs : List Coord) (vac : ℕ → Bool) (data : ℕ → K) (maxima : ℕ → ℕ)
    (nb : ℕ) (conns : List (Conn K)) : Prop where
  steps : NbrsOk nbrs
  big : 2 ≤ s.nx ∧ 2 ≤ s.ny ∧ 2 ≤ s.nz
  root : IsRoot root
  tol0 : 0 ≤ tol
  tol1 : tol * (3 * (s.size : K) ^ 2) < 1
  noVac : ∀ c ∈ conns, ∀ w, c.val ≤ data w → vac w = false
  inGrid : ∀ b < nb, maxima b < s.size
  fuel : (connValues conns).length * (s.size * nbrs.length) < fuel

theorem path_start_solid {s : Shape} {nbrs : List Coord} {S : ℕ → Bool} {x y : ℕ} {t : Coord} (h : ShiftPath (VoxEdge s nbrs S) x y t)
    (hx : S x = true) : S y = true := by
  induction h with
  | refl => exact hx
  | tail _ he _ => exact he.2.2.1

theorem CycInv.dim_outside {b : Prop} {s : Shape} {nbrs : List Coord} {S : ℕ → Bool} {l : List (ℕ × ℕ × Coord)} {m0 : ℕ → Bool}
    {D : ℕ} {g : GroupState K} (h : CycInv b s nbrs S l m0 D g) (hn : NbrsOk nbrs) (fuel : ℕ) (hf : D < fuel) {v : ℕ} (hS : S v = false) :
    domainDim fuel g v = some 0 := by
  obtain ⟨p', o', r, c, e, _, hrc, _⟩ := h.uf.sinv.find v fuel hf
  have hsym : ∀ x y t, VoxEdge s nbrs S x y t → VoxEdge s nbrs S y x (-t) := fun _ _ _ h => h.symm hn
  have hpath := h.uf.tree _ _ _ _ hrc
  have hr : r ∉ g.roots := by
    intro hr
    rw [h.roots] at hr
    obtain ⟨-, h2, -⟩ := h.uf.of_mark hn (mem_rootsOf.mp hr).2
    rw [path_start_solid (hpath.symm hsym) h2] at hS
    cases hS
  unfold domainDim
  rw [e]
  simp only [Option.bind_eq_bind, Option.bind_some]
  have : (g.roots.zip g.cycles).find? (fun p => p.1 == r) = none := by
    rw [List.find?_eq_none]
    intro p hp hpr
    rw [beq_iff_eq] at hpr
    exact hr (hpr ▸ (List.of_mem_zip hp).1)
  rw [this]; rfl

theorem levelDim_run {fuel : ℕ} {root : K → K} {tol : K} {s : Shape} {nbrs : List Coord} {vac : ℕ → Bool} {data : ℕ → K} {maxima : ℕ → ℕ}
    {nb : ℕ} {conns : List (Conn K)} (h : LevelInput fuel root tol s nbrs vac data maxima nb conns) (value : K) (p : Prop)
    (hno : p → NoMergeChain s nbrs (fun _ => false) (solidsDown data conns value)) {b : ℕ} (hb : b < nb) :
    ∃ d, levelDim fuel root tol s nbrs vac data maxima conns value b = some d ∧
      (lastSolid (fun _ => false) (solidsDown data conns value) (maxima b) = false → d = 0) ∧
      (lastSolid (fun _ => false) (solidsDown data conns value) (maxima b) = true →
        networkRank K s nbrs (lastSolid (fun _ => false) (solidsDown data conns value)) (maxima b) ≤ d ∧
        (p → d = networkRank K s nbrs (lastSolid (fun _ => false) (solidsDown data conns value)) (maxima b))) := by
  have hlen : (solidsDown data conns value).length ≤ (connValues conns).length := by
    unfold solidsDown
    rw [List.length_map]
    exact List.length_filter_le _ _
  obtain ⟨g, l', m', D', e, hi, hD⟩ := groupsRun_inv (b := p) h.steps h.big (vac := vac) h.root h.tol0 h.tol1 fuel (solidsDown data conns value)
    (fun _ => false) [] (fun _ => false) 0 GroupState.init (CycInv.init h.steps) (solidsDown_grow data conns value) hno
    (fun v hv => by
      obtain ⟨c, hc, _, h2⟩ := (solidsDown_last data conns value v).mp hv
      exact h.noVac c hc v h2)
    (by have := Nat.mul_le_mul_right (s.size * nbrs.length) hlen; have := h.fuel; omega)
  have hrun : ∀ d, domainDim fuel g (maxima b) = some d → levelDim fuel root tol s nbrs vac data maxima conns value b = some d := by
    intro d hd
    unfold levelDim
    show (do
      let g ← groupsRun fuel root tol s nbrs vac (fun _ => false) (solidsDown data conns value) GroupState.init
      domainDim fuel g (maxima b)) = some d
    rw [e]
    exact hd
  cases hS : lastSolid (fun _ => false) (solidsDown data conns value) (maxima b) with
  | false => exact ⟨0, hrun 0 (hi.dim_outside h.steps fuel hD hS), fun _ => rfl, fun h => by cases h⟩
  | true =>
    obtain ⟨d, h1, h2, h3⟩ := hi.dim h.steps h.big fuel hD (h.inGrid b hb) hS
    exact ⟨d, hrun d h1, fun h => (by cases h), fun _ => ⟨h2, h3⟩⟩

section
variable {fuel : ℕ} {root : K → K} {tol : K} {s : Shape} {nbrs : List Coord} {vac : ℕ → Bool} {data : ℕ → K} {maxima : ℕ → ℕ}
  {nb : ℕ} {conns : List (Conn K)}

/-- **C73** The dimensionality is always computed: the assumption of the theorems on the tree is met by the code. -/
theorem C73_dimension_computed (h : LevelInput fuel root tol s nbrs vac data maxima nb conns) (hne : conns ≠ [])
    (hlt : ∀ c ∈ conns, c.i < nb ∧ c.j < nb) (hf : conns.length + 2 < fuel) (hbig : ∀ c ∈ conns, c.val < 10 ^ 12) :
    DomainInput fuel nb (levelDim fuel root tol s nbrs vac data maxima conns)
      (fun v b => if b < nb then (levelDim fuel root tol s nbrs vac data maxima conns v b).getD 0 else 0) conns :=
  ⟨hne, hlt, hf, hbig, fun v b hb => by
    obtain ⟨d, hd, _⟩ := levelDim_run h v False (fun h => h.elim) hb
    rw [if_pos hb, hd]; rfl⟩

/-- **C73** At every connection value the dimensionality of the domain of a basin whose maximum is not below the value is at least the number of
independent lattice translations of the connected region of the maximum among the voxels at or above the value. -/
theorem C73_dimension_ge (h : LevelInput fuel root tol s nbrs vac data maxima nb conns) {c : Conn K} (hc : c ∈ conns) {b : ℕ} (hb : b < nb)
    (hcb : c.val ≤ data (maxima b)) :
    ∃ d, levelDim fuel root tol s nbrs vac data maxima conns c.val b = some d ∧ networkRank K s nbrs (solidAt data c.val) (maxima b) ≤ d := by
  obtain ⟨d, hd, _, h2⟩ := levelDim_run h c.val False (fun h => h.elim) hb
  rw [solidsDown_last_eq data hc] at h2
  exact ⟨d, hd, (h2 (decide_eq_true hcb)).1⟩

theorem connTo_mono {S T : ℕ → Bool} (h : ∀ v, S v = true → T v = true) {v w : ℕ} {t : Coord} (hc : ConnTo s nbrs S v w t) : ConnTo s nbrs T v w t := by
  unfold ConnTo at hc ⊢
  generalize voxImage s w t = y at hc ⊢
  induction hc with
  | refl => exact .refl
  | tail _ e ih => exact ih.tail ⟨h _ e.1, h _ e.2.1, e.2.2⟩

theorem networkRank_mono {S T : ℕ → Bool} (h : ∀ v, S v = true → T v = true) (v : ℕ) : networkRank K s nbrs S v ≤ networkRank K s nbrs T v :=
  Submodule.finrank_mono (Submodule.span_mono (Set.image_mono fun _ ht => connTo_mono h ht))

theorem networkRank_le (S : ℕ → Bool) (v : ℕ) : networkRank K s nbrs S v ≤ 3 := by
  unfold networkRank
  refine le_trans (Submodule.finrank_le _) ?_
  have : Module.finrank K (V3 K) = 3 := by simp [V3, Module.finrank_prod]
  omega

theorem noMerge_prefix {prev : ℕ → Bool} : ∀ (l m : List (ℕ → Bool)), NoMergeChain s nbrs prev (l ++ m) → NoMergeChain s nbrs prev l := by
  intro l
  induction l generalizing prev with
  | nil => intro m _; trivial
  | cons S l ih => intro m h; exact ⟨h.1, ih m h.2⟩

theorem filter_prefix : ∀ (vs : List K), vs.Pairwise (fun a b => b < a) → ∀ t : K, ∃ m, vs = vs.filter (fun v => decide (t ≤ v)) ++ m := by
  intro vs
  induction vs with
  | nil => intro _ t; exact ⟨[], rfl⟩
  | cons v vs ih =>
    intro hp t
    rw [List.pairwise_cons] at hp
    by_cases h : t ≤ v
    · obtain ⟨m, hm⟩ := ih hp.2 t
      refine ⟨m, ?_⟩
      rw [List.filter_cons_of_pos (by simpa using h), List.cons_append, ← hm]
    · refine ⟨v :: vs, ?_⟩
      have : (v :: vs).filter (fun v => decide (t ≤ v)) = [] := by
        rw [List.filter_eq_nil_iff]
        intro w hw hd
        have h1 := of_decide_eq_true hd
        rcases List.mem_cons.mp hw with rfl | hw
        · exact h h1
        · exact h (h1.trans (hp.1 w hw).le)
      rw [this, List.nil_append]

/-- No two infinite regions are joined as the value falls through the connection values. -/
def NoInfiniteJoin (s : Shape) (nbrs : List Coord) (data : ℕ → K) (conns : List (Conn K)) : Prop :=
  NoMergeChain s nbrs (fun _ => false) ((connValues conns).map (solidAt data))

theorem NoInfiniteJoin.down (h : NoInfiniteJoin s nbrs data conns) (value : K) :
    NoMergeChain s nbrs (fun _ => false) (solidsDown data conns value) := by
  obtain ⟨m, hm⟩ := filter_prefix _ (connValues_pairwise conns) value
  unfold NoInfiniteJoin at h
  rw [hm, List.map_append] at h
  exact noMerge_prefix _ _ h

/-- **C73** The dimensionality in a row of the tree is, at every connection value at which the row exists and one of its basins takes part, the number of
independent lattice translations of the connected region of its first maximum among the voxels at or above the value, if no two infinite
regions join as the value falls.  When two infinite regions join it is wrong (`C46_merge_wrong`). -/
theorem C73_tree_dimension (h : LevelInput fuel root tol s nbrs vac data maxima nb conns) (hne : conns ≠ [])
    (hlt : ∀ c ∈ conns, c.i < nb ∧ c.j < nb) (hf : conns.length + 2 < fuel) (hbig : ∀ c ∈ conns, c.val < 10 ^ 12)
    (hpeak : BelowPeak conns fun b => data (maxima b)) (hno : NoInfiniteJoin s nbrs data conns) {ref : ℕ → K} {minData : K} {rows : List (DomainRow K)} {u : ℕ}
    (hrows : domainRows fuel nb (levelDim fuel root tol s nbrs vac data maxima conns) ref minData conns = some (rows, u))
    {r : DomainRow K} (hr : r ∈ rows) {c : Conn K} (hc : c ∈ conns) (ht : RowAlive r c.val) {b : ℕ} (hb : b ∈ r.basins)
    (hbt : BasinAt conns c.val b) :
    r.dim = networkRank K s nbrs (solidAt data c.val) (maxima (r.basins.headD 0)) := by
  have hin := C73_dimension_computed h hne hlt hf hbig
  have hval : ∀ (v : K) (b : ℕ), b < nb → ∃ d, levelDim fuel root tol s nbrs vac data maxima conns v b = some d ∧
      (lastSolid (fun _ => false) (solidsDown data conns v) (maxima b) = false → d = 0) ∧
      (lastSolid (fun _ => false) (solidsDown data conns v) (maxima b) = true →
        d = networkRank K s nbrs (lastSolid (fun _ => false) (solidsDown data conns v)) (maxima b)) := by
    intro v b hb
    obtain ⟨d, h1, h2, h3⟩ := levelDim_run h v True (fun _ => hno.down v) hb
    exact ⟨d, h1, h2, fun h => (h3 h).2 trivial⟩
  have hdm : ∀ (u w : K) (b : ℕ), w ≤ u →
      (if b < nb then (levelDim fuel root tol s nbrs vac data maxima conns u b).getD 0 else 0) = 3 →
      (if b < nb then (levelDim fuel root tol s nbrs vac data maxima conns w b).getD 0 else 0) = 3 := by
    intro u w b hwu h3
    by_cases hb : b < nb
    · rw [if_pos hb] at h3 ⊢
      obtain ⟨d, e1, o1, i1⟩ := hval u b hb
      obtain ⟨d', e2, -, i2⟩ := hval w b hb
      rw [e1] at h3
      rw [e2]
      have h3 : d = 3 := h3
      have hsub : ∀ v, lastSolid (fun _ => false) (solidsDown data conns u) v = true →
          lastSolid (fun _ => false) (solidsDown data conns w) v = true := by
        intro v hv
        rw [solidsDown_last] at hv ⊢
        obtain ⟨c, hc, h1, h2⟩ := hv
        exact ⟨c, hc, hwu.trans h1, h2⟩
      have hu : lastSolid (fun _ => false) (solidsDown data conns u) (maxima b) = true := by
        cases hS : lastSolid (fun _ => false) (solidsDown data conns u) (maxima b) with
        | false => have := o1 hS; omega
        | true => rfl
      have r1 := i1 hu
      have r2 := i2 (hsub _ hu)
      have m1 := networkRank_mono (K := K) (s := s) (nbrs := nbrs) hsub (maxima b)
      have m2 := networkRank_le (K := K) (s := s) (nbrs := nbrs) (lastSolid (fun _ => false) (solidsDown data conns w)) (maxima b)
      show d' = 3
      omega
    · rw [if_neg hb] at h3; omega
  have key := C73_row_dimensionality hin hdm hrows hr hc ht hb hbt
  have hdom := C73_rows_are_domains hin hrows hr ht hb hbt
  obtain ⟨x, l, hx⟩ := List.exists_cons_of_ne_nil hdom.1
  have hm : x ∈ r.basins := by rw [hx]; simp
  have hhead : r.basins.headD 0 = x := by rw [hx]; rfl
  obtain ⟨d, hd, hcd, hxd⟩ := ((hdom.2.2 x hm x).mp hm).1
  rw [hhead] at key ⊢
  have hxn : x < nb := by rcases hxd with e | e <;> rw [e] <;> [exact (hlt d hd).1; exact (hlt d hd).2]
  have hxt : c.val ≤ data (maxima x) := by
    rcases hxd with e | e <;> rw [e] <;> [exact hcd.trans (hpeak d hd).1; exact hcd.trans (hpeak d hd).2]
  obtain ⟨dd, e1, -, i1⟩ := hval c.val x hxn
  rw [solidsDown_last_eq data hc] at i1
  rw [e1] at key
  rw [← i1 (decide_eq_true hxt)]
  exact (Option.some.inj key).symm

end

/-! ## A case: one basin that becomes a chain through the crystal when the value falls to 1 -/

/-- The maximum is voxel 0, voxel 8 closes the chain along the first axis. -/
def chainData (v : ℕ) : ℝ := if v = 0 then 2 else if v = 8 then 1 else 0
/-- The basin is connected with itself at its maximum and across the cell. -/
def chainConns : List (Conn ℝ) := [⟨0, 0, 2⟩, ⟨0, 0, 1⟩]

theorem chainData_two {v : ℕ} (h : (2 : ℝ) ≤ chainData v) : v = 0 := by
  by_contra hv
  unfold chainData at h
  rw [if_neg hv] at h
  split_ifs at h <;> norm_num at h

example : LevelInput 1000 Real.sqrt (1 / 10 ^ 12) chainCell neighbors26 (fun _ => false) chainData (fun _ => 0) 1 chainConns := by
  refine ⟨neighbors26_ok, by decide, fun x hx => ⟨Real.sqrt_nonneg x, Real.mul_self_sqrt hx⟩, by positivity,
    by simp [chainCell, Shape.size]; norm_num, fun _ _ _ _ => rfl, fun _ _ => by decide, ?_⟩
  have h : (connValues chainConns).length ≤ 2 := by
    unfold connValues
    rw [List.length_insertionSort]
    exact (List.dedup_sublist _).length_le
  have := Nat.mul_le_mul_right (chainCell.size * neighbors26.length) h
  exact lt_of_le_of_lt this (by decide)

example : NoInfiniteJoin chainCell neighbors26 chainData chainConns := by
  have e : connValues chainConns = [2, 1] := by
    have h1 := connValues_pairwise chainConns
    have h2 : ∀ v, v ∈ connValues chainConns ↔ v ∈ [(2 : ℝ), 1] := by
      intro v
      rw [connValues_mem]
      simp [chainConns, eq_comm]
    have h3 : ([2, 1] : List ℝ).Pairwise (fun a b => b < a) := by simp
    exact List.Perm.eq_of_pairwise' h1 h3 ((List.perm_ext_iff_of_nodup (h1.imp fun h => h.ne') (h3.imp fun h => h.ne')).mpr h2)
  unfold NoInfiniteJoin
  rw [e]
  refine ⟨fun v w _ _ h => absurd h (by simp), fun v w _ _ h1 h2 _ h4 => ?_, trivial⟩
  have e1 := chainData_two (of_decide_eq_true h1)
  have e2 := chainData_two (of_decide_eq_true h2)
  subst e1; subst e2
  exact absurd ⟨0, .refl⟩ h4

example : BelowPeak chainConns (fun b => chainData ((fun _ => 0 : ℕ → ℕ) b)) ∧ (∀ c ∈ chainConns, c.val < 10 ^ 12) ∧
    RowAlive (⟨[0], 0, none, 1, none⟩ : DomainRow ℝ) 1 ∧ BasinAt chainConns 1 0 := by
  refine ⟨?_, ?_, ?_, ⟨⟨0, 0, 1⟩, by simp [chainConns], le_refl _, Or.inl rfl⟩⟩
  · intro c hc
    simp only [chainConns, List.mem_cons, List.not_mem_nil, or_false] at hc
    rcases hc with rfl | rfl <;> simp [chainData]
  · intro c hc
    simp only [chainConns, List.mem_cons, List.not_mem_nil, or_false] at hc
    rcases hc with rfl | rfl <;> norm_num
  · simp [RowAlive]

end BaderKit
