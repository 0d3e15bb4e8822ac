import Verif.Props.Groups
/-!
# No cycle that is kept is zero

A group has a cycle only when some lattice translation other than zero maps it to itself, also when cycles of joined groups are repeated.
-/
set_option linter.unusedSectionVars false
namespace BaderKit
variable {K : Type} [Field K] [LinearOrder K] [IsStrictOrderedRing K]

/-- No entry of a list of cycles is the zero vector. -/
def CycNZ (cs : List (List (V3 K))) : Prop := ∀ C ∈ cs, ∀ x ∈ C, x ≠ 0

theorem addCycle_nz {root : K → K} (hr : IsRoot root) {tol : K} (h0 : 0 ≤ tol) {C : List (V3 K)} (hC : ∀ x ∈ C, x ≠ 0) (c : Coord) :
    ∀ x ∈ addCycle root tol C c, x ≠ 0 := by
  unfold addCycle
  split
  · exact hC
  · simp only
    split
    · rename_i hlt
      intro x hx
      rcases List.mem_append.mp hx with hx | hx
      · exact hC x hx
      · simp only [List.mem_singleton] at hx
        rintro rfl
        generalize residual C _ = v at hx hlt
        have hn : root (norm2 v) ≠ 0 := (lt_of_le_of_lt h0 hlt).ne'
        simp only [Prod.ext_iff, Prod.fst_zero, Prod.snd_zero] at hx
        obtain ⟨h1, h2, h3⟩ := hx
        have e1 : v.1 = 0 := by rcases div_eq_zero_iff.mp h1.symm with h | h; exacts [h, absurd h hn]
        have e2 : v.2.1 = 0 := by rcases div_eq_zero_iff.mp h2.symm with h | h; exacts [h, absurd h hn]
        have e3 : v.2.2 = 0 := by rcases div_eq_zero_iff.mp h3.symm with h | h; exacts [h, absurd h hn]
        have e : norm2 v = 0 := by simp [norm2, e1, e2, e3]
        have := (hr (norm2 v) (by rw [e])).2
        rw [e] at this hn
        exact hn (mul_self_eq_zero.mp this)
    · exact hC

theorem scanNbrs_nz {root : K → K} (hr : IsRoot root) {tol : K} (h0 : 0 ≤ tol) {fuel : ℕ} {s : Shape} {S : ℕ → Bool} {v ra : ℕ} {o : Coord} :
    ∀ (ds : List Coord) (x y : ShiftUF ℕ Coord × List (V3 K)), scanNbrs fuel root tol s S v ra o ds x = some y → (∀ c ∈ x.2, c ≠ 0) → ∀ c ∈ y.2, c ≠ 0
  | [], x, y, h, hx => by
    simp only [scanNbrs, Option.some.injEq] at h
    subst h; exact hx
  | d :: ds, (st, C), y, h, hx => by
    simp only [scanNbrs] at h
    split at h
    · exact scanNbrs_nz hr h0 ds _ _ h hx
    · simp only [Option.bind_eq_bind, Option.bind_eq_some_iff] at h
      obtain ⟨⟨p', o', rb, o1⟩, _, h⟩ := h
      simp only at h
      split at h
      · exact scanNbrs_nz hr h0 ds _ _ h hx
      · exact scanNbrs_nz hr h0 ds _ _ h (addCycle_nz hr h0 hx _)

theorem scanVoxel_nz {root : K → K} (hr : IsRoot root) {tol : K} (h0 : 0 ≤ tol) {fuel : ℕ} {s : Shape} {nbrs : List Coord} {S P vac : ℕ → Bool}
    {R : List ℕ} {x y : ShiftUF ℕ Coord × List (List (V3 K))} {v : ℕ} (h : scanVoxel fuel root tol s nbrs S P vac R x v = some y) (hx : CycNZ x.2) :
    CycNZ y.2 := by
  unfold scanVoxel at h
  split at h
  · simp only [Option.some.injEq] at h
    subst h; exact hx
  · simp only [Option.bind_eq_bind, Option.bind_eq_some_iff] at h
    obtain ⟨⟨p', o', ra, o⟩, _, C, hC, h⟩ := h
    simp only at h
    split at h
    · simp only [Option.some.injEq] at h
      subst h; exact hx
    · simp only [Option.bind_eq_some_iff] at h
      obtain ⟨⟨st, C'⟩, h1, h2⟩ := h
      simp only [Option.some.injEq] at h2
      subst h2
      intro D hD
      rcases List.mem_or_eq_of_mem_set hD with hD | rfl
      · exact hx D hD
      · exact scanNbrs_nz hr h0 _ _ _ h1 (hx C (List.mem_of_getElem? hC))

theorem scanAll_nz {root : K → K} (hr : IsRoot root) {tol : K} (h0 : 0 ≤ tol) {fuel : ℕ} {s : Shape} {nbrs : List Coord} {S P vac : ℕ → Bool}
    {R : List ℕ} : ∀ (vs : List ℕ) (x y : ShiftUF ℕ Coord × List (List (V3 K))),
    vs.foldlM (scanVoxel fuel root tol s nbrs S P vac R) x = some y → CycNZ x.2 → CycNZ y.2
  | [], x, y, h, hx => by
    simp only [List.foldlM_nil, Option.pure_def, Option.some.injEq] at h
    subst h; exact hx
  | v :: vs, x, y, h, hx => by
    simp only [List.foldlM_cons, Option.bind_eq_bind, Option.bind_eq_some_iff] at h
    obtain ⟨z, h1, h2⟩ := h
    exact scanAll_nz hr h0 vs z y h2 (scanVoxel_nz hr h0 h1 hx)

theorem carryCycles_nz {fuel : ℕ} {p : ℕ → ℕ} {R : List ℕ} : ∀ (l : List (ℕ × List (V3 K))) (acc out : List (List (V3 K))),
    carryCycles fuel p R l acc = some out → (∀ q ∈ l, ∀ x ∈ q.2, x ≠ 0) → CycNZ acc → CycNZ out
  | [], acc, out, h, _, hacc => by
    simp only [carryCycles, Option.some.injEq] at h
    subst h; exact hacc
  | (r, c) :: l, acc, out, h, hl, hacc => by
    have hl' : ∀ q ∈ l, ∀ x ∈ q.2, x ≠ 0 := fun q hq => hl q (List.mem_cons_of_mem _ hq)
    simp only [carryCycles] at h
    split at h
    · exact carryCycles_nz l acc out h hl' hacc
    · simp only [Option.bind_eq_bind, Option.bind_eq_some_iff] at h
      obtain ⟨r', _, acc', h1, h2⟩ := h
      refine carryCycles_nz l acc' out h2 hl' ?_
      unfold modifyAt at h1
      split at h1
      · cases h1
      · rename_i C hC
        simp only [Option.some.injEq] at h1
        subst h1
        intro D hD
        rcases List.mem_or_eq_of_mem_set hD with hD | rfl
        · exact hacc D hD
        · intro x hx
          rcases List.mem_append.mp hx with hx | hx
          · exact hacc C (List.mem_of_getElem? hC) x hx
          · exact hl (r, c) List.mem_cons_self x hx

theorem connectedGroups_nz {root : K → K} (hr : IsRoot root) {tol : K} (h0 : 0 ≤ tol) {fuel : ℕ} {s : Shape} {nbrs : List Coord} {S P vac : ℕ → Bool}
    {g g' : GroupState K} (h : connectedGroups fuel root tol s nbrs S P vac g = some g') (hg : CycNZ g.cycles) : CycNZ g'.cycles := by
  unfold connectedGroups findCycles at h
  simp only [Option.bind_eq_bind, Option.bind_eq_some_iff] at h
  obtain ⟨st, _, acc, h1, ⟨st', cs⟩, h2, h3⟩ := h
  simp only [Option.some.injEq] at h3
  subst h3
  refine scanAll_nz hr h0 _ _ _ h2 (carryCycles_nz _ _ _ h1 ?_ ?_)
  · intro q hq
    exact hg q.2 (List.of_mem_zip hq).2
  · intro C hC
    obtain ⟨_, _, rfl⟩ := List.mem_map.mp hC
    simp

theorem groupsRun_nz {root : K → K} (hr : IsRoot root) {tol : K} (h0 : 0 ≤ tol) {fuel : ℕ} {s : Shape} {nbrs : List Coord} {vac : ℕ → Bool} :
    ∀ (ls : List (ℕ → Bool)) (P : ℕ → Bool) (g g' : GroupState K), groupsRun fuel root tol s nbrs vac P ls g = some g' → CycNZ g.cycles → CycNZ g'.cycles
  | [], P, g, g', h, hg => by
    simp only [groupsRun, Option.some.injEq] at h
    subst h; exact hg
  | S :: ls, P, g, g', h, hg => by
    simp only [groupsRun, Option.bind_eq_bind, Option.bind_eq_some_iff] at h
    obtain ⟨g1, h1, h2⟩ := h
    exact groupsRun_nz hr h0 ls S g1 g' h2 (connectedGroups_nz hr h0 h1 hg)

/-- A group has a cycle exactly when some translation other than zero maps it to itself. -/
theorem CycInv.cycles_iff {b : Prop} {s : Shape} {nbrs : List Coord} {S : ℕ → Bool} {l : List (ℕ × ℕ × Coord)} {m0 : ℕ → Bool}
    {D : ℕ} {g : GroupState K} (h : CycInv b s nbrs S l m0 D g) (hz : CycNZ g.cycles) {r : ℕ} (hr : r ∈ g.roots) :
    0 < (cycOf g.roots g.cycles r).length ↔ ∃ t, t ≠ 0 ∧ ShiftPath (VoxEdge s nbrs S) r r t := by
  have hp : g.roots.Pairwise (· < ·) := by rw [h.roots]; exact rootsOf_sorted _ _
  have hmem : cycOf g.roots g.cycles r ∈ g.cycles := List.mem_of_getElem? (cycOf_some hp h.len hr)
  constructor
  · intro hl
    obtain ⟨q, hq⟩ := List.exists_mem_of_ne_nil _ (List.ne_nil_of_length_pos hl)
    by_contra hc
    push Not at hc
    obtain ⟨gens, ⟨C', hg, hsp, _, _⟩, hpth⟩ := h.good r hr
    have h1 : q ∈ Submodule.span K {x | x ∈ cycOf g.roots g.cycles r} := Submodule.subset_span hq
    rw [hsp, hg.span] at h1
    have h2 : Submodule.span K {x | x ∈ gens.map (castC K)} = ⊥ := by
      rw [Submodule.span_eq_bot]
      intro x hx
      obtain ⟨c, hc', rfl⟩ := List.mem_map.mp hx
      have : c = 0 := by
        by_contra h0
        exact hc c h0 (hpth c hc')
      rw [this, castC_zero]
    rw [h2] at h1
    exact hz _ hmem q hq ((Submodule.mem_bot K).mp h1)
  · rintro ⟨t, h0, ht⟩
    by_contra hl
    have hnil : cycOf g.roots g.cycles r = [] := List.eq_nil_of_length_eq_zero (by omega)
    rcases h.full r hr t ht with hc | hc
    · rw [hnil] at hc
      simp only [List.not_mem_nil, Set.setOf_false, Submodule.span_empty, Submodule.mem_bot] at hc
      have h1 := norm2_castC_ge (K := K) h0
      rw [hc] at h1
      simp [norm2] at h1
      linarith
    · rw [hnil] at hc
      simp at hc

end BaderKit
