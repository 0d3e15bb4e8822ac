import Verif.Lemmas.GroupsCycles
import Verif.Lemmas.Nbr
import Mathlib.Data.Rat.Floor
import Mathlib.Data.Real.Sqrt
/-!
# C46: groups of a growing solid are its connected components, dimensionality is the rank of the translations
-/
set_option linter.unusedSectionVars false
namespace BaderKit
variable {K : Type} [Field K] [LinearOrder K] [IsStrictOrderedRing K]

/-- Every solid contains the one before. -/
def GrowChain : (ℕ → Bool) → List (ℕ → Bool) → Prop
  | _, [] => True
  | prev, S :: l => (∀ v, prev v = true → S v = true) ∧ GrowChain S l

/-- The solid after all calls. -/
def lastSolid : (ℕ → Bool) → List (ℕ → Bool) → ℕ → Bool
  | prev, [] => prev
  | _, S :: l => lastSolid S l

/-- At no step are two groups joined that are both infinite. -/
def NoMergeChain (s : Shape) (nbrs : List Coord) : (ℕ → Bool) → List (ℕ → Bool) → Prop
  | _, [] => True
  | prev, S :: l => NoMerge s nbrs prev S ∧ NoMergeChain s nbrs S l

/-- The number of independent lattice translations that map the connected network of `v` in the infinite
crystal to itself. -/
noncomputable def networkRank (K : Type) [Field K] (s : Shape) (nbrs : List Coord) (S : ℕ → Bool) (v : ℕ) : ℕ :=
  Module.finrank K (Submodule.span K (castC K '' {t | ConnTo s nbrs S v v t}))

theorem GrowChain.last {prev : ℕ → Bool} {l : List (ℕ → Bool)} (h : GrowChain prev l) {v : ℕ} (hv : prev v = true) :
    lastSolid prev l v = true := by
  induction l generalizing prev with
  | nil => exact hv
  | cons S l ih => exact ih h.2 (h.1 v hv)

theorem groupsRun_inv {b : Prop} {s : Shape} {nbrs : List Coord} (hn : NbrsOk nbrs) (hs : 2 ≤ s.nx ∧ 2 ≤ s.ny ∧ 2 ≤ s.nz)
    {vac : ℕ → Bool} {root : K → K} (hr : IsRoot root) {tol : K} (h0 : 0 ≤ tol) (ht : tol * (3 * (s.size : K) ^ 2) < 1)
    (fuel : ℕ) : ∀ (ls : List (ℕ → Bool)) (prev : ℕ → Bool) (l : List (ℕ × ℕ × Coord)) (m0 : ℕ → Bool) (D : ℕ)
    (g : GroupState K), CycInv b s nbrs prev l m0 D g → GrowChain prev ls → (b → NoMergeChain s nbrs prev ls) →
    (∀ v, lastSolid prev ls v = true → vac v = false) → D + ls.length * (s.size * nbrs.length) < fuel →
    ∃ g' l' m0' D', groupsRun fuel root tol s nbrs vac prev ls g = some g' ∧
      CycInv b s nbrs (lastSolid prev ls) l' m0' D' g' ∧ D' < fuel := by
  intro ls
  induction ls with
  | nil => intro prev l m0 D g hi _ _ _ hf; exact ⟨g, l, m0, D, rfl, hi, by omega⟩
  | cons S ls ih =>
    intro prev l m0 D g hi hg hno hv hf
    simp only [List.length_cons, Nat.add_mul, Nat.one_mul] at hf
    obtain ⟨g1, l1, m1, D1, e1, h1, hD⟩ := hi.step hn hs (vac := vac) (S' := S)
      (fun v hS => hv v (hg.2.last hS)) hg.1 (fun hb => (hno hb).1) hr h0 ht fuel (by omega)
    obtain ⟨g2, l2, m2, D2, e2, h2, hD2⟩ := ih S l1 m1 D1 g1 h1 hg.2 (fun hb => (hno hb).2) hv (by omega)
    refine ⟨g2, l2, m2, D2, ?_, h2, hD2⟩
    unfold groupsRun
    rw [e1]
    exact e2

theorem CycInv.dim {b : Prop} {s : Shape} {nbrs : List Coord} {S : ℕ → Bool} {l : List (ℕ × ℕ × Coord)} {m0 : ℕ → Bool}
    {D : ℕ} {g : GroupState K} (h : CycInv b s nbrs S l m0 D g) (hn : NbrsOk nbrs) (hs : 2 ≤ s.nx ∧ 2 ≤ s.ny ∧ 2 ≤ s.nz)
    (fuel : ℕ) (hf : D < fuel) {v : ℕ} (hv : v < s.size) (hS : S v = true) :
    ∃ d, domainDim fuel g v = some d ∧ networkRank K s nbrs S v ≤ d ∧ (b → d = networkRank K s nbrs S v) := by
  obtain ⟨p', o', r, c, e, _, hrc, _⟩ := h.uf.sinv.find v fuel hf
  have hsym : ∀ x y t, VoxEdge s nbrs S x y t → VoxEdge s nbrs S y x (-t) := fun _ _ _ h => h.symm hn
  have hpath := h.uf.tree _ _ _ _ hrc
  have hrR : r ∈ g.roots := by
    rw [h.roots]
    exact mem_rootsOf.mpr (h.uf.marked hn hs hv hS hrc.rootIn.rootOf)
  have hp0 : g.roots.Pairwise (· < ·) := by rw [h.roots]; exact rootsOf_sorted _ _
  have hfind : (g.roots.zip g.cycles).find? (fun p => p.1 == r) = some (r, cycOf g.roots g.cycles r) := by
    rw [zip_cycOf hp0 h.len]
    cases hq : (g.roots.map fun r => (r, cycOf g.roots g.cycles r)).find? (fun p => p.1 == r) with
    | none =>
      rw [List.find?_eq_none] at hq
      exact absurd (beq_self_eq_true r) (hq _ (List.mem_map.mpr ⟨r, hrR, rfl⟩))
    | some q =>
      have h1 := List.mem_of_find?_eq_some hq
      have h2 := List.find?_some hq
      obtain ⟨r', _, rfl⟩ := List.mem_map.mp h1
      simp only [beq_iff_eq] at h2
      rw [h2]
  set C := cycOf g.roots g.cycles r with hC
  obtain ⟨gens, ⟨C', hg, hsp, hle, hb⟩, hgp⟩ := h.good r hrR
  have hfull : ∀ t, ConnTo s nbrs S v v t → Covers C (castC K t) := fun t ht =>
    h.full r hrR t (path_conj hsym hpath ((connTo_iff hn hv hv).mp ht))
  refine ⟨C.length, ?_, ?_, ?_⟩
  · unfold domainDim
    rw [e]
    simp only [Option.bind_eq_bind, Option.bind_some, hfind, Option.elim_some]
  · unfold networkRank
    by_cases h3 : 3 ≤ C.length
    · refine le_trans (Submodule.finrank_le _) ?_
      have : Module.finrank K (V3 K) = 3 := by simp [V3, Module.finrank_prod]
      omega
    · have hsub : Submodule.span K (castC K '' {t | ConnTo s nbrs S v v t}) ≤ Submodule.span K {x | x ∈ C} := by
        rw [Submodule.span_le]
        rintro _ ⟨t, ht, rfl⟩
        exact (hfull t ht).resolve_right h3
      refine le_trans (Submodule.finrank_mono hsub) ?_
      rw [hsp, hg.orth.finrank]
      exact hle
  · intro hbb
    have hCC := hb hbb
    have hor : Orthonormal3 C := by rw [hC, hCC]; exact hg.orth
    unfold networkRank
    rw [← hor.finrank]
    suffices hh : Submodule.span K {x | x ∈ C} = Submodule.span K (castC K '' {t | ConnTo s nbrs S v v t}) by rw [hh]
    apply le_antisymm
    · rw [hsp, hg.span, Submodule.span_le]
      intro x hx
      obtain ⟨t, ht, rfl⟩ := List.mem_map.mp hx
      exact Submodule.subset_span ⟨t, (connTo_iff hn hv hv).mpr (path_conj hsym (hpath.symm hsym) (hgp t ht)), rfl⟩
    · rw [Submodule.span_le]
      rintro _ ⟨t, ht, rfl⟩
      rcases hfull t ht with h1 | h1
      · exact h1
      · rw [hor.span_top (le_antisymm hor.length_le h1)]
        trivial

variable {s : Shape} {nbrs : List Coord}

/-- After any sequence of growing solids the calls succeed; two voxels of the solid have the same root exactly when
they are connected in the infinite crystal, up to a lattice translation; the list of roots has exactly one member for each group. -/
theorem C46_groups (hn : NbrsOk nbrs) (hs : 2 ≤ s.nx ∧ 2 ≤ s.ny ∧ 2 ≤ s.nz) (vac : ℕ → Bool) {root : K → K} (hr : IsRoot root)
    {tol : K} (h0 : 0 ≤ tol) (ht : tol * (3 * (s.size : K) ^ 2) < 1) (fuel : ℕ) (ls : List (ℕ → Bool))
    (hg : GrowChain (fun _ => false) ls) (hv : ∀ v, lastSolid (fun _ => false) ls v = true → vac v = false)
    (hf : ls.length * (s.size * nbrs.length) < fuel) :
    ∃ g, groupsRun fuel root tol s nbrs vac (fun _ => false) ls GroupState.init = some g ∧
      (∀ v w, v < s.size → w < s.size → lastSolid (fun _ => false) ls v = true → lastSolid (fun _ => false) ls w = true →
        ((∃ r, RootOf g.uf.parent v r ∧ RootOf g.uf.parent w r) ↔ ∃ t, ConnTo s nbrs (lastSolid (fun _ => false) ls) v w t)) ∧
      (∀ v, v < s.size → lastSolid (fun _ => false) ls v = true → ∃ r ∈ g.roots, RootOf g.uf.parent v r) ∧
      g.roots.Nodup ∧ (∀ r ∈ g.roots, r < s.size ∧ lastSolid (fun _ => false) ls r = true ∧ RootOf g.uf.parent r r) ∧
      g.cycles.length = g.roots.length := by
  obtain ⟨g, l', m', D', e, h, _⟩ := groupsRun_inv (b := False) hn hs hr h0 ht fuel ls (fun _ => false) [] (fun _ => false) 0
    GroupState.init (CycInv.init hn) hg (fun h => absurd h id) hv (by omega)
  have hp0 : g.roots.Pairwise (· < ·) := by rw [h.roots]; exact rootsOf_sorted _ _
  refine ⟨g, e, ?_, ?_, hp0.imp (fun h => ne_of_lt h), ?_, h.len⟩
  · intro v w hv hw _ _
    constructor
    · intro hr
      obtain ⟨t, hp⟩ := h.uf.root_path hn hr
      exact ⟨t, (connTo_iff hn hv hw).mpr hp⟩
    · rintro ⟨t, hp⟩
      exact h.uf.path_root ((connTo_iff hn hv hw).mp hp)
  · intro v hv hS
    obtain ⟨r, hr⟩ := h.uf.sinv.uf.total v
    refine ⟨r, ?_, hr.rootOf⟩
    rw [h.roots]
    exact mem_rootsOf.mpr (h.uf.marked hn hs hv hS hr.rootOf)
  · intro r hr
    rw [h.roots] at hr
    obtain ⟨h1, h2, h3⟩ := h.uf.of_mark hn (mem_rootsOf.mp hr).2
    exact ⟨h1, h2, .base h3⟩

/-- The dimensionality is never below the number of independent lattice translations of the network, for any sequence of
growing solids. -/
theorem C46_dimension_ge (hn : NbrsOk nbrs) (hs : 2 ≤ s.nx ∧ 2 ≤ s.ny ∧ 2 ≤ s.nz) (vac : ℕ → Bool) {root : K → K}
    (hr : IsRoot root) {tol : K} (h0 : 0 ≤ tol) (ht : tol * (3 * (s.size : K) ^ 2) < 1) (fuel : ℕ) (ls : List (ℕ → Bool))
    (hg : GrowChain (fun _ => false) ls) (hv : ∀ v, lastSolid (fun _ => false) ls v = true → vac v = false)
    (hf : ls.length * (s.size * nbrs.length) < fuel) (v : ℕ) (hvs : v < s.size) (hS : lastSolid (fun _ => false) ls v = true) :
    ∃ g d, groupsRun fuel root tol s nbrs vac (fun _ => false) ls GroupState.init = some g ∧ domainDim fuel g v = some d ∧
      networkRank K s nbrs (lastSolid (fun _ => false) ls) v ≤ d := by
  obtain ⟨g, l', m', D', e, h, hD⟩ := groupsRun_inv (b := False) hn hs hr h0 ht fuel ls (fun _ => false) [] (fun _ => false) 0
    GroupState.init (CycInv.init hn) hg (fun h => absurd h id) hv (by omega)
  obtain ⟨d, h1, h2, _⟩ := h.dim hn hs fuel hD hvs hS
  exact ⟨g, d, e, h1, h2⟩

/-- If at no step two infinite groups are joined, the dimensionality is the number of independent lattice translations of
the network.  Missing: steps that join two infinite groups, for which the statement is false (`C46_merge_wrong`). -/
theorem C46_dimension_partial (hn : NbrsOk nbrs) (hs : 2 ≤ s.nx ∧ 2 ≤ s.ny ∧ 2 ≤ s.nz) (vac : ℕ → Bool) {root : K → K}
    (hr : IsRoot root) {tol : K} (h0 : 0 ≤ tol) (ht : tol * (3 * (s.size : K) ^ 2) < 1) (fuel : ℕ) (ls : List (ℕ → Bool))
    (hg : GrowChain (fun _ => false) ls) (hno : NoMergeChain s nbrs (fun _ => false) ls)
    (hv : ∀ v, lastSolid (fun _ => false) ls v = true → vac v = false)
    (hf : ls.length * (s.size * nbrs.length) < fuel) (v : ℕ) (hvs : v < s.size) (hS : lastSolid (fun _ => false) ls v = true) :
    ∃ g, groupsRun fuel root tol s nbrs vac (fun _ => false) ls GroupState.init = some g ∧
      domainDim fuel g v = some (networkRank K s nbrs (lastSolid (fun _ => false) ls) v) := by
  obtain ⟨g, l', m', D', e, h, hD⟩ := groupsRun_inv (b := True) hn hs hr h0 ht fuel ls (fun _ => false) [] (fun _ => false) 0
    GroupState.init (CycInv.init hn) hg (fun _ => hno) hv (by omega)
  obtain ⟨d, h1, _, h2⟩ := h.dim hn hs fuel hD hvs hS
  exact ⟨g, e, by rw [h1, h2 trivial]⟩

/-- In a single call the dimensionality is right. -/
theorem C46_dimension_single (hn : NbrsOk nbrs) (hs : 2 ≤ s.nx ∧ 2 ≤ s.ny ∧ 2 ≤ s.nz) (vac : ℕ → Bool) {root : K → K}
    (hr : IsRoot root) {tol : K} (h0 : 0 ≤ tol) (ht : tol * (3 * (s.size : K) ^ 2) < 1) (fuel : ℕ) (S : ℕ → Bool)
    (hv : ∀ v, S v = true → vac v = false) (hf : s.size * nbrs.length < fuel) (v : ℕ) (hvs : v < s.size) (hS : S v = true) :
    ∃ g, connectedGroups fuel root tol s nbrs S (fun _ => false) vac GroupState.init = some g ∧
      domainDim fuel g v = some (networkRank K s nbrs S v) := by
  obtain ⟨g, e, h⟩ := C46_dimension_partial hn hs vac hr h0 ht fuel [S] ⟨by simp, trivial⟩
    ⟨fun _ _ _ _ h => absurd h (by simp), trivial⟩ hv (by simpa using hf) v hvs hS
  refine ⟨g, ?_, h⟩
  unfold groupsRun at e
  cases hc : connectedGroups fuel root tol s nbrs S (fun _ => false) vac GroupState.init with
  | none => rw [hc] at e; simp at e
  | some g' =>
    rw [hc] at e
    simpa [groupsRun] using e

/-- The twenty-six neighbours satisfy the hypothesis of the theorems above. -/
theorem neighbors26_ok : NbrsOk neighbors26 := by
  refine ⟨fun d hd => (neighbors26_unit d hd), fun d hd => neighbors26_neg d hd, ?_⟩
  decide

/-! ## Cases -/

/-- The root of a rational square. -/
def rootQ (x : ℚ) : ℚ := (Nat.sqrt x.num.toNat : ℚ) / (Nat.sqrt x.den : ℚ)

theorem rootQ_sq {x : ℚ} (h : 0 ≤ x) : rootQ (x * x) = x := by
  unfold rootQ
  rw [Rat.mul_self_num, Rat.mul_self_den, Nat.sqrt_eq]
  have h1 : (x.num * x.num).toNat = x.num.toNat * x.num.toNat := by
    have := Rat.num_nonneg.mpr h
    obtain ⟨n, hn⟩ := Int.eq_ofNat_of_zero_le this
    rw [hn]
    norm_cast
  rw [h1, Nat.sqrt_eq]
  have h2 : ((x.num.toNat : ℕ) : ℚ) = (x.num : ℚ) := by
    have := Int.toNat_of_nonneg (Rat.num_nonneg.mpr h)
    exact_mod_cast this
  rw [h2]
  exact Rat.num_div_den x

/-- A cell of 2 × 4 × 2 voxels. -/
def chainCell : Shape := ⟨2, 4, 2⟩
/-- A solid given by a list of voxels. -/
def solidOf (l : List ℕ) (v : ℕ) : Bool := l.contains v

theorem solidAdj_mem {s : Shape} {nbrs : List Coord} (hn : NbrsOk nbrs) {S : ℕ → Bool} {a b : Coord} (h : SolidAdj s nbrs S a b) :
    S (voxelOf s a) = true ∧ S (voxelOf s b) = true ∧ UnitStep (b.1 - a.1, b.2.1 - a.2.1, b.2.2 - a.2.2) := by
  obtain ⟨h1, h2, d, hd, rfl⟩ := h
  refine ⟨h1, h2, ?_⟩
  have := hn.unit d hd
  simpa [addC] using this

/-- A point of the crystal whose voxel is in a solid with no voxel at `y = 3` is not there. -/
theorem gap_y {l : List ℕ} (hl : ∀ i < 2, ∀ k < 2, i * 8 + 6 + k ∉ l) {a : Coord} (h : solidOf l (voxelOf chainCell a) = true) :
    a.2.1 % 4 ≠ 3 := by
  intro h3
  have e : voxelOf chainCell a = (a.1 % 2).toNat * 8 + 6 + (a.2.2 % 2).toNat := by
    simp only [voxelOf, coordsToFlat, chainCell]
    push_cast
    rw [h3]
    omega
  rw [e] at h
  refine hl (a.1 % 2).toNat (by omega) (a.2.2 % 2).toNat (by omega) ?_
  simpa [solidOf] using h

/-- Without voxels at `y = 3` the network does not repeat along the second axis. -/
theorem no_y_translation {l : List ℕ} (hl : ∀ i < 2, ∀ k < 2, i * 8 + 6 + k ∉ l) {t : Coord}
    (h : ConnTo chainCell neighbors26 (solidOf l) 0 0 t) : t.2.1 = 0 := by
  have key : ∀ a b : Coord, Relation.ReflTransGen (SolidAdj chainCell neighbors26 (solidOf l)) a b → a.2.1 / 4 = b.2.1 / 4 := by
    intro a b hab
    induction hab with
    | refl => rfl
    | tail _ hs ih =>
      obtain ⟨h1, h2, h3⟩ := solidAdj_mem neighbors26_ok hs
      have g1 := gap_y hl h1
      have g2 := gap_y hl h2
      obtain ⟨_, h4, _⟩ := h3
      simp only at h4
      omega
  have := key _ _ h
  have h0 : (flatToCoords chainCell 0).2.1 = 0 := by decide
  simp only [voxImage, h0, chainCell] at this
  simp at this
  omega

theorem rank_le_two {l : List ℕ} (hl : ∀ i < 2, ∀ k < 2, i * 8 + 6 + k ∉ l) :
    networkRank K chainCell neighbors26 (solidOf l) 0 ≤ 2 := by
  unfold networkRank
  have hsub : Submodule.span K (castC K '' {t | ConnTo chainCell neighbors26 (solidOf l) 0 0 t}) ≤
      Submodule.span K ((({((1 : K), (0 : K), (0 : K)), ((0 : K), (0 : K), (1 : K))} : Finset (V3 K)) : Set (V3 K))) := by
    rw [Submodule.span_le]
    rintro _ ⟨t, ht, rfl⟩
    have h0 := no_y_translation hl ht
    have : castC K t = (t.1 : K) • ((1 : K), (0 : K), (0 : K)) + (t.2.2 : K) • ((0 : K), (0 : K), (1 : K)) := by
      simp [castC, h0]
    rw [this]
    exact Submodule.add_mem _ (Submodule.smul_mem _ _ (Submodule.subset_span (by simp)))
      (Submodule.smul_mem _ _ (Submodule.subset_span (by simp)))
  refine (Submodule.finrank_mono hsub).trans ((finrank_span_finset_le_card _).trans Finset.card_le_two)

set_option maxRecDepth 100000 in
/-- Two sheets that are first separate and then joined by a bridge are given four dimensions, the network has at most two.
The cycles of both are put into one list and are not made independent. -/
theorem C46_merge_wrong :
    GrowChain (fun _ => false) [solidOf [0, 1, 8, 9, 4, 5, 12, 13], solidOf [0, 1, 8, 9, 4, 5, 12, 13, 2]] ∧
    ((groupsRun 200 rootQ (1 / 10 ^ 12) chainCell neighbors26 (fun _ => false) (fun _ => false)
      [solidOf [0, 1, 8, 9, 4, 5, 12, 13], solidOf [0, 1, 8, 9, 4, 5, 12, 13, 2]] GroupState.init).bind
        fun g => domainDim 200 g 0) = some 4 ∧
    networkRank ℚ chainCell neighbors26 (solidOf [0, 1, 8, 9, 4, 5, 12, 13, 2]) 0 ≤ 2 := by
  refine ⟨⟨by simp, ?_, trivial⟩, by decide +kernel, rank_le_two (by decide)⟩
  intro v hv
  simp only [solidOf, List.contains_iff_mem, List.mem_cons, List.not_mem_nil, or_false] at hv ⊢
  tauto

set_option maxRecDepth 100000 in
/-- A step that joins nothing infinite: a chain to which a side voxel is added keeps its one dimension. -/
example : ((groupsRun 200 rootQ (1 / 10 ^ 12) chainCell neighbors26 (fun _ => false) (fun _ => false)
      [solidOf [0, 8], solidOf [0, 8, 2]] GroupState.init).bind fun g => domainDim 200 g 0) = some 1 := by
  decide +kernel

set_option maxRecDepth 100000 in
/-- A vacuum voxel that is part of the solid joins the groups on both sides: only the visited voxel and not the neighbour is
compared with the vacuum. The solid comes from the reference grid and the vacuum from the charge density, so that
they can overlap. -/
theorem C46_vacuum_bridges :
    ((groupsRun 200 rootQ (1 / 10 ^ 12) chainCell neighbors26 (solidOf [2]) (fun _ => false) [solidOf [0, 2, 4]]
      GroupState.init).bind fun g => some (decide (findRootNC 200 g.uf.parent 0 = findRootNC 200 g.uf.parent 4))) = some true ∧
    ¬ ∃ t, ConnTo chainCell neighbors26 (fun v => solidOf [0, 2, 4] v && !solidOf [2] v) 0 4 t := by
  refine ⟨by decide +kernel, ?_⟩
  rintro ⟨t, h⟩
  have hmem : ∀ a : Coord, (solidOf [0, 2, 4] (voxelOf chainCell a) && !solidOf [2] (voxelOf chainCell a)) = true →
      a.2.1 % 4 = 0 ∨ a.2.1 % 4 = 2 := by
    intro a ha
    have e : voxelOf chainCell a = (a.1 % 2).toNat * 8 + (a.2.1 % 4).toNat * 2 + (a.2.2 % 2).toNat := by
      simp only [voxelOf, coordsToFlat, chainCell]
      push_cast
      omega
    rw [e] at ha
    simp [solidOf] at ha
    omega
  have key : ∀ a b : Coord, Relation.ReflTransGen
      (SolidAdj chainCell neighbors26 (fun v => solidOf [0, 2, 4] v && !solidOf [2] v)) a b → a.2.1 = b.2.1 := by
    intro a b hab
    induction hab with
    | refl => rfl
    | tail _ hs ih =>
      obtain ⟨h1, h2, h3⟩ := solidAdj_mem neighbors26_ok hs
      have g1 := hmem _ h1
      have g2 := hmem _ h2
      obtain ⟨_, h4, _⟩ := h3
      simp only at h4
      omega
  have := key _ _ h
  have h0 : (flatToCoords chainCell 0).2.1 = 0 := by decide
  have h1 : (flatToCoords chainCell 4).2.1 = 2 := by decide
  have h2 : (voxImage chainCell 0 0).2.1 = 0 := by simp [voxImage, h0]
  have h3 : (voxImage chainCell 4 t).2.1 = 2 + t.2.1 * 4 := by
    simp only [voxImage, h1]; rfl
  rw [h2, h3] at this
  omega

set_option maxRecDepth 100000 in
/-- With one voxel along an axis a voxel is its own neighbour, the root of a group of one voxel is not marked, and the call
fails. -/
theorem C46_axis_one_fails :
    (groupsRun 200 rootQ (1 / 10 ^ 12) ⟨1, 4, 4⟩ neighbors26 (fun _ => false) (fun _ => false) [solidOf [0]]
      (GroupState.init : GroupState ℚ)).isNone = true := by
  decide +kernel

/-- The hypotheses of the theorems hold for real numbers, the cell above and a growing pair of solids. -/
example : ∃ g : GroupState ℝ, connectedGroups 1000 Real.sqrt (1 / 10 ^ 12) chainCell neighbors26 (solidOf [0, 8, 2]) (fun _ => false)
    (fun _ => false) GroupState.init = some g ∧
    domainDim 1000 g 0 = some (networkRank ℝ chainCell neighbors26 (solidOf [0, 8, 2]) 0) :=
  C46_dimension_single neighbors26_ok (by decide) (fun _ => false) (fun x hx => ⟨Real.sqrt_nonneg x, Real.mul_self_sqrt hx⟩)
    (by positivity) (by simp [chainCell, Shape.size]; norm_num) 1000 (solidOf [0, 8, 2]) (fun _ _ => rfl) (by decide) 0
    (by decide) (by decide)

end BaderKit
