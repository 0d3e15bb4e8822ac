import Verif.Props.Groups
/-!
# Vacuum voxels are left out of the connected groups
-/
namespace BaderKit
variable {K : Type} [Field K] [LinearOrder K]

/-- The solid without the vacuum. -/
def withoutVac (vac S : ℕ → Bool) (v : ℕ) : Bool := S v && !vac v

/-- No vacuum voxel of the solid is the neighbour of a voxel of the solid outside the vacuum. -/
def VacApart (s : Shape) (nbrs : List Coord) (vac S : ℕ → Bool) : Prop :=
  ∀ a b, SolidAdj s nbrs S a b → vac (voxelOf s a) = false → vac (voxelOf s b) = false

theorem VacApart.nbr {s : Shape} {nbrs : List Coord} (hn : NbrsOk nbrs) {vac S : ℕ → Bool} (h : VacApart s nbrs vac S) {v : ℕ} (hv : v < s.size)
    (hS : S v = true) (hvac : vac v = false) {d : Coord} (hd : d ∈ nbrs) : withoutVac vac S (nbrShift s v d).1 = S (nbrShift s v d).1 := by
  unfold withoutVac
  cases hw : S (nbrShift s v d).1 with
  | false => rfl
  | true =>
    obtain ⟨h1, h2, -⟩ := nbrShift_spec hv (hn.unit d hd)
    have := h (voxImage s v 0) (voxImage s (nbrShift s v d).1 (0 + (nbrShift s v d).2))
      ⟨by rw [voxelOf_image hv]; exact hS, by rw [voxelOf_image h1]; exact hw, d, hd, (h2 0).symm⟩ (by rw [voxelOf_image hv]; exact hvac)
    rw [voxelOf_image h1] at this
    rw [this]; rfl

theorem skip_vac {vac S prev : ℕ → Bool} (v : ℕ) : skipVoxel (withoutVac vac S) (withoutVac vac prev) vac v = skipVoxel S prev vac v := by
  unfold skipVoxel withoutVac
  cases S v <;> cases prev v <;> cases vac v <;> rfl

theorem not_skip {vac S prev : ℕ → Bool} {v : ℕ} (h : ¬ skipVoxel S prev vac v = true) : S v = true ∧ vac v = false := by
  unfold skipVoxel at h
  revert h
  cases S v <;> cases prev v <;> cases vac v <;> simp

theorem unionCalls_vac {s : Shape} {nbrs : List Coord} (hn : NbrsOk nbrs) {vac S : ℕ → Bool} (h : VacApart s nbrs vac S) {v : ℕ} (hv : v < s.size)
    (hS : S v = true) (hvac : vac v = false) : unionCalls s nbrs (withoutVac vac S) v = unionCalls s nbrs S v := by
  unfold unionCalls
  apply List.filterMap_congr
  intro d hd
  simp only [h.nbr hn hv hS hvac hd]

theorem foldlM_congr_mem {α β : Type} {f g : β → α → Option β} : ∀ (l : List α) (b : β), (∀ x ∈ l, ∀ b, f b x = g b x) → l.foldlM f b = l.foldlM g b := by
  intro l
  induction l with
  | nil => intro b _; rfl
  | cons a l ih =>
    intro b h
    rw [List.foldlM_cons, List.foldlM_cons, h a (by simp)]
    congr 1
    funext c
    exact ih c fun x hx => h x (by simp [hx])

theorem scanNbrs_vac {fuel : ℕ} {root : K → K} {tol : K} {s : Shape} {vac S : ℕ → Bool} {v ra : ℕ} {o : Coord} : ∀ (ds : List Coord)
    (x : ShiftUF ℕ Coord × List (V3 K)), (∀ d ∈ ds, withoutVac vac S (nbrShift s v d).1 = S (nbrShift s v d).1) →
    scanNbrs fuel root tol s (withoutVac vac S) v ra o ds x = scanNbrs fuel root tol s S v ra o ds x := by
  intro ds
  induction ds with
  | nil => intro x _; rfl
  | cons d ds ih =>
    rintro ⟨st, basis⟩ h
    have hds := fun x => ih x fun d hd => h d (by simp [hd])
    simp only [scanNbrs, h d (by simp), hds]

theorem connectedGroups_vac {fuel : ℕ} {root : K → K} {tol : K} {s : Shape} {nbrs : List Coord} (hn : NbrsOk nbrs) {vac S prev : ℕ → Bool}
    (h : VacApart s nbrs vac S) (g : GroupState K) :
    connectedGroups fuel root tol s nbrs (withoutVac vac S) (withoutVac vac prev) vac g = connectedGroups fuel root tol s nbrs S prev vac g := by
  have h1 : ∀ st, connectAll fuel s nbrs (withoutVac vac S) (withoutVac vac prev) vac st = connectAll fuel s nbrs S prev vac st := by
    intro st
    refine foldlM_congr_mem _ _ fun v hv b => ?_
    unfold connectVoxel
    rw [skip_vac]
    by_cases hs : skipVoxel S prev vac v = true
    · rw [if_pos hs, if_pos hs]
    · rw [if_neg hs, if_neg hs, unionCalls_vac hn h (List.mem_range.mp hv) (not_skip hs).1 (not_skip hs).2]
  have h2 : ∀ st, findCycles fuel root tol s nbrs (withoutVac vac S) (withoutVac vac prev) vac g st =
      findCycles fuel root tol s nbrs S prev vac g st := by
    intro st
    unfold findCycles
    simp only
    congr 1
    funext carried
    congr 1
    refine foldlM_congr_mem _ _ fun v hv b => ?_
    unfold scanVoxel
    rw [skip_vac]
    by_cases hs : skipVoxel S prev vac v = true
    · rw [if_pos hs, if_pos hs]
    · rw [if_neg hs, if_neg hs]
      have := fun (ra : ℕ) (o : Coord) x => scanNbrs_vac (fuel := fuel) (root := root) (tol := tol) (s := s) (vac := vac) (S := S) (v := v) (ra := ra) (o := o) nbrs x
        fun d hd => h.nbr hn (List.mem_range.mp hv) (not_skip hs).1 (not_skip hs).2 hd
      simp only [this]
  unfold connectedGroups
  rw [h1]
  congr 1
  funext st
  exact h2 st

/-- **C46.** Vacuum voxels inside the solid are left out: as long as no vacuum voxel of a solid neighbours the rest of that solid, the groups,
roots and dimensionalities are those of the solids without the vacuum. -/
theorem C46_vacuum_left_out {s : Shape} {nbrs : List Coord} (hn : NbrsOk nbrs) (vac : ℕ → Bool) (fuel : ℕ) (root : K → K) (tol : K) :
    ∀ (ls : List (ℕ → Bool)) (_ : ∀ S ∈ ls, VacApart s nbrs vac S) (prev : ℕ → Bool) (g : GroupState K),
      groupsRun fuel root tol s nbrs vac prev ls g = groupsRun fuel root tol s nbrs vac (withoutVac vac prev) (ls.map (withoutVac vac)) g := by
  intro ls
  induction ls with
  | nil => intro _ prev g; rfl
  | cons S ls ih =>
    intro h prev g
    rw [List.map_cons, groupsRun, groupsRun, connectedGroups_vac hn (h S (by simp))]
    congr 1
    funext g'
    exact ih (fun S hS => h S (by simp [hS])) S g'

/-- **C46.** A vacuum voxel is never the root of a group, if the vacuum in the solids is apart from the rest. -/
theorem C46_no_vacuum_groups [IsStrictOrderedRing K] {s : Shape} {nbrs : List Coord} (hn : NbrsOk nbrs) (hs : 2 ≤ s.nx ∧ 2 ≤ s.ny ∧ 2 ≤ s.nz) (vac : ℕ → Bool) {root : K → K} (hr : IsRoot root)
    {tol : K} (h0 : 0 ≤ tol) (ht : tol * (3 * (s.size : K) ^ 2) < 1) (fuel : ℕ) (ls : List (ℕ → Bool))
    (hg : GrowChain (fun _ => false) ls) (hap : ∀ S ∈ ls, VacApart s nbrs vac S)
    (hf : ls.length * (s.size * nbrs.length) < fuel) :
    ∃ g, groupsRun fuel root tol s nbrs vac (fun _ => false) ls GroupState.init = some g ∧
      (∀ r ∈ g.roots, vac r = false ∧ lastSolid (fun _ => false) ls r = true) ∧
      ∀ v w, v < s.size → w < s.size → lastSolid (fun _ => false) ls v = true → vac v = false → lastSolid (fun _ => false) ls w = true → vac w = false →
        ((∃ r, RootOf g.uf.parent v r ∧ RootOf g.uf.parent w r) ↔ ∃ t, ConnTo s nbrs (lastSolid (fun _ => false) ls) v w t) := by
  have hlast : ∀ (ls : List (ℕ → Bool)) (p : ℕ → Bool), lastSolid (withoutVac vac p) (ls.map (withoutVac vac)) = withoutVac vac (lastSolid p ls) := by
    intro ls
    induction ls with
    | nil => intro p; rfl
    | cons S ls ih => intro p; exact ih S
  have hchain : ∀ (ls : List (ℕ → Bool)) (p : ℕ → Bool), GrowChain p ls → GrowChain (withoutVac vac p) (ls.map (withoutVac vac)) := by
    intro ls
    induction ls with
    | nil => intro p _; trivial
    | cons S ls ih =>
      intro p h
      refine ⟨fun v hv => ?_, ih S h.2⟩
      unfold withoutVac at hv ⊢
      rw [Bool.and_eq_true] at hv ⊢
      exact ⟨h.1 v hv.1, hv.2⟩
  have hp : withoutVac vac (fun _ => false) = fun _ => false := rfl
  have hL := hlast ls (fun _ => false)
  rw [hp] at hL
  obtain ⟨g, e, h1, h2, -, h3, -⟩ := C46_groups hn hs vac hr h0 ht fuel (ls.map (withoutVac vac)) (by have := hchain ls _ hg; rwa [hp] at this)
    (by rw [hL]; intro v hv; unfold withoutVac at hv; rw [Bool.and_eq_true] at hv; simpa using hv.2) (by simpa using hf)
  rw [hL] at h1 h3
  refine ⟨g, by rw [C46_vacuum_left_out hn vac fuel root tol ls hap]; exact e, ?_, ?_⟩
  · intro r hr
    have := (h3 r hr).2.1
    unfold withoutVac at this
    rw [Bool.and_eq_true] at this
    exact ⟨by simpa using this.2, this.1⟩
  · intro v w hv hw a1 a2 b1 b2
    rw [h1 v w hv hw (by simp [withoutVac, a1, a2]) (by simp [withoutVac, b1, b2])]
    have hapL : VacApart s nbrs vac (lastSolid (fun _ => false) ls) := by
      have : ∀ (ls : List (ℕ → Bool)) (p : ℕ → Bool), VacApart s nbrs vac p → (∀ S ∈ ls, VacApart s nbrs vac S) → VacApart s nbrs vac (lastSolid p ls) := by
        intro ls
        induction ls with
        | nil => intro p h _; exact h
        | cons S ls ih => intro p _ h; exact ih S (h S (by simp)) fun T hT => h T (by simp [hT])
      exact this ls _ (fun a b h => absurd h.1 (by simp)) hap
    constructor
    · rintro ⟨t, h⟩
      refine ⟨t, Relation.ReflTransGen.mono ?_ _ _ h⟩
      rintro a b ⟨x, y, z⟩
      unfold withoutVac at x y
      rw [Bool.and_eq_true] at x y
      exact ⟨x.1, y.1, z⟩
    · rintro ⟨t, h⟩
      refine ⟨t, ?_⟩
      have key : ∀ b, Relation.ReflTransGen (SolidAdj s nbrs (lastSolid (fun _ => false) ls)) (voxImage s v 0) b →
          vac (voxelOf s b) = false ∧ Relation.ReflTransGen (SolidAdj s nbrs (withoutVac vac (lastSolid (fun _ => false) ls))) (voxImage s v 0) b := by
        intro b hb
        induction hb with
        | refl => exact ⟨by rw [voxelOf_image hv]; exact a2, .refl⟩
        | @tail c d _ hcd ih =>
          have hd := hapL _ _ hcd ih.1
          refine ⟨hd, ih.2.tail ⟨?_, ?_, hcd.2.2⟩⟩
          · simp [withoutVac, hcd.1, ih.1]
          · simp [withoutVac, hcd.2.1, hd]
      exact (key _ h).2

set_option maxRecDepth 100000 in
/-- A solid with a vacuum voxel apart from the rest: one group remains of the two. -/
example : ((groupsRun 200 rootQ (1 / 10 ^ 12) chainCell neighbors26 (solidOf [4]) (fun _ => false) [solidOf [0, 4]]
      GroupState.init).map fun g => g.roots) = some [0] ∧
    (∀ a b : Fin 16, solidOf [0, 4] a = true → solidOf [4] a = false → ∀ d ∈ neighbors26, (nbrShift chainCell a d).1 = b → solidOf [0, 4] b = true →
      solidOf [4] b = false) := by
  refine ⟨by decide +kernel, by decide +kernel⟩

end BaderKit
