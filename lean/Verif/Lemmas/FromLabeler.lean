import Verif.Model.FromLabeler
import Verif.Lemmas.CyclesNonzero
import Verif.Props.Contacts
import Verif.Props.LevelDim
import Verif.Props.Solids
import Verif.Props.GraphBuild
/-! # Lemmas on the way from the labels to the graph -/
set_option linter.unusedSectionVars false
namespace BaderKit
variable {K : Type} [Field K] [LinearOrder K] [IsStrictOrderedRing K]

/-! ## The voids -/

/-- The voxels at or below a value. -/
def voidAt (data : ℕ → K) (v : K) : ℕ → Bool := fun w => decide (data w ≤ v)

theorem growChain_voids (data : ℕ → K) : ∀ (vs : List K) (prev : ℕ → Bool), vs.Pairwise (fun a b => a < b) →
    (∀ v ∈ vs, ∀ w, prev w = true → data w ≤ v) → GrowChain prev (vs.map (voidAt data))
  | [], _, _, _ => trivial
  | v :: vs, prev, hp, h => by
    rw [List.pairwise_cons] at hp
    refine ⟨fun w hw => decide_eq_true (h v (by simp) w hw), growChain_voids data vs _ hp.2 fun u hu w hw => ?_⟩
    exact (of_decide_eq_true hw).trans (hp.1 u hu).le

theorem lastSolid_append (prev S : ℕ → Bool) : ∀ l : List (ℕ → Bool), lastSolid prev (l ++ [S]) = S := by
  intro l
  induction l generalizing prev with
  | nil => rfl
  | cons T l ih => exact ih T

/-- In a list that ascends the values up to one of them end with it. -/
theorem filter_le_last {v : K} : ∀ {vs : List K}, vs.Pairwise (fun a b => a < b) → v ∈ vs → ∃ l, (vs.filter fun u => decide (u ≤ v)) = l ++ [v]
  | [], _, hv => by simp at hv
  | u :: vs, hp, hv => by
    rw [List.pairwise_cons] at hp
    rcases List.mem_cons.mp hv with rfl | hv
    · refine ⟨[], ?_⟩
      rw [List.filter_cons_of_pos (by simp), List.nil_append]
      congr 1
      rw [List.filter_eq_nil_iff]
      intro x hx
      simpa using hp.1 x hx
    · obtain ⟨l, hl⟩ := filter_le_last hp.2 hv
      refine ⟨u :: l, ?_⟩
      rw [List.filter_cons_of_pos (by simpa using (hp.1 v hv).le), hl]
      rfl

/-- The solids of the values up to one of them. -/
def voidsUp (data : ℕ → K) (values : List K) (v : K) : List (ℕ → Bool) := (values.filter fun u => decide (u ≤ v)).map (voidAt data)

theorem voidsUp_last {data : ℕ → K} {values : List K} (hp : values.Pairwise (· < ·)) {v : K} (hv : v ∈ values) :
    lastSolid (fun _ => false) (voidsUp data values v) = voidAt data v := by
  obtain ⟨l, hl⟩ := filter_le_last hp hv
  unfold voidsUp
  rw [hl, List.map_append]
  exact lastSolid_append _ _ _

theorem voidsUp_grow {data : ℕ → K} {values : List K} (hp : values.Pairwise (· < ·)) (v : K) : GrowChain (fun _ => false) (voidsUp data values v) :=
  growChain_voids data _ _ (hp.filter _) (by simp)

theorem surroundLoop_nil {nv nd : ℕ} {voidDim domDim : ℕ → ℕ} {counts : ℕ → ℕ → ℕ} (fuel : ℕ) : ∀ (g : Group) (l : List ℕ),
    surroundLoop nv nd voidDim domDim counts fuel g = some l → (l = [] ↔ ∃ r, g = .void r ∧ 0 < voidDim r) := by
  induction fuel with
  | zero => intro g l h; simp [surroundLoop] at h
  | succ n ih =>
    intro g l h
    rcases g with v | d
    · simp only [surroundLoop] at h
      split_ifs at h with h0
      · obtain rfl : [] = l := by simpa using h
        exact ⟨fun _ => ⟨v, rfl, h0⟩, fun _ => rfl⟩
      · have := ih _ _ h
        simp only [reduceCtorEq, false_and, exists_false, iff_false] at this
        refine ⟨fun e => absurd e this, ?_⟩
        rintro ⟨r, e, hr⟩
        cases e
        exact absurd hr h0
    · simp only [surroundLoop] at h
      split_ifs at h with h0
      · obtain rfl : [d] = l := by simpa using h
        simp
      · obtain ⟨l', _, rfl⟩ := Option.map_eq_some_iff.mp h
        simp

theorem findAtomDomains_nil {nv : ℕ} {doms : List ℕ} {voidDim domDim : ℕ → ℕ} {counts : ℕ → ℕ → ℕ} {g : Group} {l : List ℕ}
    (h : findAtomDomains nv doms voidDim domDim counts g = some l) : l = [] ↔ ∃ r, g = .void r ∧ 0 < voidDim r := by
  obtain ⟨m, hm, rfl⟩ := Option.map_eq_some_iff.mp h
  rw [List.map_eq_nil_iff]
  exact surroundLoop_nil _ _ _ hm

/-- The number of cycles of the void of a voxel is positive exactly when the void repeats along some lattice direction. -/
theorem void_dim_iff {fuel : ℕ} {root : K → K} {tol : K} {s : Shape} {nbrs : List Coord} {vac : ℕ → Bool} (hn : NbrsOk nbrs)
    (hs : 2 ≤ s.nx ∧ 2 ≤ s.ny ∧ 2 ≤ s.nz) (hr : IsRoot root) (h0 : 0 ≤ tol) (ht : tol * (3 * (s.size : K) ^ 2) < 1) {ls : List (ℕ → Bool)}
    (hg : GrowChain (fun _ => false) ls) (hv : ∀ v, lastSolid (fun _ => false) ls v = true → vac v = false)
    (hf : ls.length * (s.size * nbrs.length) < fuel) {g : GroupState K}
    (e : groupsRun fuel root tol s nbrs vac (fun _ => false) ls GroupState.init = some g) {a r : ℕ} (ha : a < s.size)
    (hS : lastSolid (fun _ => false) ls a = true) (hidx : voidIdx fuel g.uf.parent g.roots a = some r) :
    0 < (g.cycles.getD r []).length ↔ ∃ t, t ≠ 0 ∧ ConnTo s nbrs (lastSolid (fun _ => false) ls) a a t := by
  obtain ⟨r', q, h1, h2, ⟨t0, h3⟩, -⟩ := voidIdx_spec hn hs hr h0 ht hg hv hf e ha hS
  rw [hidx] at h1
  obtain rfl : r = r' := by simpa using h1
  obtain ⟨g', l', m', D', e', h, hD⟩ := groupsRun_inv (b := False) hn hs hr h0 ht fuel ls (fun _ => false) [] (fun _ => false) 0
    GroupState.init (CycInv.init hn) hg (fun h => absurd h id) hv (by omega)
  rw [e] at e'
  obtain rfl := Option.some.inj e'
  have hp0 : g.roots.Pairwise (· < ·) := by rw [h.roots]; exact rootsOf_sorted _ _
  have hq : q ∈ g.roots := List.mem_of_getElem? h2
  have hqs : q < s.size := by
    have := hq
    rw [h.roots] at this
    exact (h.uf.of_mark hn (mem_rootsOf.mp this).2).1
  have hidx' : searchRoot g.roots q = r := by
    obtain ⟨hlt, rfl⟩ := List.getElem?_eq_some_iff.mp h2
    exact searchRoot_get hp0 r hlt
  have hcyc : g.cycles.getD r [] = cycOf g.roots g.cycles q := by
    unfold cycOf
    rw [hidx', List.getD_eq_getElem?_getD]
  have hsym : ∀ x y t, VoxEdge s nbrs (lastSolid (fun _ => false) ls) x y t → VoxEdge s nbrs (lastSolid (fun _ => false) ls) y x (-t) := fun _ _ _ h => h.symm hn
  have hpth := (connTo_iff hn ha hqs).mp h3
  rw [hcyc, h.cycles_iff (groupsRun_nz hr h0 _ _ _ _ e (by intro C hC; simp [GroupState.init] at hC)) hq]
  constructor
  · rintro ⟨t, ht0, hpt⟩
    exact ⟨t, ht0, (connTo_iff hn ha ha).mpr (path_conj hsym (hpth.symm hsym) hpt)⟩
  · rintro ⟨t, ht0, hpt⟩
    exact ⟨t, ht0, path_conj hsym hpth ((connTo_iff hn ha ha).mp hpt)⟩

/-- The voxels at or below the value around a voxel reach a periodic copy of the voxel. -/
def OpenVoid (s : Shape) (data : ℕ → K) (v : K) (a : ℕ) : Prop := data a ≤ v ∧ ∃ t, t ≠ 0 ∧ ConnTo s neighbors26 (voidAt data v) a a t

theorem OpenVoid.mono {s : Shape} {data : ℕ → K} {u v : K} {a : ℕ} (h : OpenVoid s data u a) (huv : u ≤ v) : OpenVoid s data v a := by
  obtain ⟨h1, t, h2, h3⟩ := h
  exact ⟨h1.trans huv, t, h2, connTo_mono (fun w hw => decide_eq_true ((of_decide_eq_true hw).trans huv)) h3⟩

/-- What the machine needs: a square root, a small tolerance, enough rounds. -/
structure MachineOk (m : Machine K) (s : Shape) : Prop where
  order1 : IsSchedule s m.order1
  order2 : IsSchedule s m.order2
  root : IsRoot m.root
  tol0 : 0 ≤ m.tol
  tol1 : m.tol * (3 * (s.size : K) ^ 2) < 1
  fuel : s.size ^ 3 + 26 * s.size ^ 2 + 2 < m.fuel

theorem surroundAt_spec {m : Machine K} {I : LabelerIn K} (hm : MachineOk m I.s) (hs : 2 ≤ I.s.nx ∧ 2 ≤ I.s.ny ∧ 2 ≤ I.s.nz)
    (hvac : ∀ v, I.vac v = false) (hat : ∀ a ∈ I.atoms, a < I.s.size) {inp : List (DomIn K)} {values : List K} (hp : values.Pairwise (· < ·))
    (hlen : values.length ≤ I.s.size) {v : K} (hv : v ∈ values) {ls : List (List ℕ)} (h : surroundAt m I inp values v = some ls) :
    ls.length = I.atoms.length ∧ ∀ (i a : ℕ) (l : List ℕ), I.atoms[i]? = some a → ls[i]? = some l → (l = [] ↔ OpenVoid I.s I.data v a) := by
  unfold surroundAt at h
  simp only [Option.bind_eq_bind, Option.bind_eq_some_iff] at h
  obtain ⟨g, hg, counts, -, h⟩ := h
  change groupsRun m.fuel m.root m.tol I.s neighbors26 I.vac (fun _ => false) (voidsUp I.data values v) GroupState.init = some g at hg
  obtain ⟨h1, h2⟩ := mapM_getElem h
  refine ⟨h1, fun i a l ha hl => ?_⟩
  have h3 := h2 i a l ha hl
  rw [Option.bind_eq_some_iff] at h3
  obtain ⟨grp, hgrp, hfind⟩ := h3
  have has := hat a (List.mem_of_getElem? ha)
  have hfuel : (voidsUp I.data values v).length * (I.s.size * neighbors26.length) < m.fuel := by
    have e1 : (voidsUp I.data values v).length ≤ I.s.size := by
      unfold voidsUp
      rw [List.length_map]
      exact (List.length_filter_le _ _).trans hlen
    have e2 : neighbors26.length = 26 := rfl
    have := Nat.mul_le_mul_right (I.s.size * 26) e1
    have := hm.fuel
    rw [e2]
    nlinarith
  rw [findAtomDomains_nil hfind]
  unfold atomGroup at hgrp
  split_ifs at hgrp with hS
  · obtain ⟨r, hr, rfl⟩ := Option.map_eq_some_iff.mp hgrp
    have hlast := voidsUp_last (data := I.data) hp hv
    have hd := void_dim_iff neighbors26_ok hs hm.root hm.tol0 hm.tol1 (voidsUp_grow hp v) (fun w _ => hvac w) hfuel hg has
      (by rw [hlast]; exact hS) hr
    rw [hlast] at hd
    constructor
    · rintro ⟨r', e, h0⟩
      cases e
      exact ⟨of_decide_eq_true hS, hd.mp h0⟩
    · intro ho
      exact ⟨r, rfl, hd.mpr ho.2⟩
  · obtain rfl : _ = grp := by simpa using hgrp
    constructor
    · rintro ⟨r, e, -⟩; cases e
    · intro ho
      exact absurd (decide_eq_true ho.1) hS

/-! ## The loop that stops early -/

theorem atomLoopM_some {inp : List (DomIn K)} {surr : K → Option (List (List ℕ))} : ∀ (vs : List K) (st st' : AState K), vs.Pairwise (· < ·) →
    atomLoopM inp surr vs st = some st' → atomLoop inp (fun v => (surr v).getD []) vs st = some st' ∧
      ((∀ v ∈ vs, ∃ l, surr v = some l) ∨ ∃ u ∈ vs, (∃ l, surr u = some l ∧ ∀ x ∈ l, x = []) ∧ ∀ v ∈ vs, v ≤ u → ∃ l, surr v = some l)
  | [], st, st', _, h => ⟨h, Or.inl (by simp)⟩
  | v :: vs, st, st', hp, h => by
    rw [List.pairwise_cons] at hp
    simp only [atomLoopM, Option.bind_eq_bind, Option.bind_eq_some_iff] at h
    obtain ⟨su, hsu, st1, h1, h2⟩ := h
    have e1 : atomStep inp (fun v => (surr v).getD []) st v = some st1 := by
      rw [← h1]
      unfold atomStep
      simp only [hsu, Option.getD_some]
    simp only [atomLoop, e1, Option.bind_eq_bind, Option.bind_some, hsu, Option.getD_some]
    split_ifs at h2 ⊢ with hall
    · refine ⟨h2, Or.inr ⟨v, by simp, ⟨su, hsu, ?_⟩, ?_⟩⟩
      · rw [List.all_eq_true] at hall
        intro x hx
        simpa using hall x hx
      · intro w hw hle
        rcases List.mem_cons.mp hw with rfl | hw
        · exact ⟨su, hsu⟩
        · exact absurd (hp.1 w hw) (not_lt.mpr hle)
    · obtain ⟨a, b⟩ := atomLoopM_some vs st1 st' hp.2 h2
      refine ⟨a, ?_⟩
      rcases b with b | ⟨u, hu, b1, b2⟩
      · refine Or.inl fun w hw => ?_
        rcases List.mem_cons.mp hw with rfl | hw
        · exact ⟨su, hsu⟩
        · exact b w hw
      · refine Or.inr ⟨u, List.mem_cons_of_mem _ hu, b1, fun w hw hle => ?_⟩
        rcases List.mem_cons.mp hw with rfl | hw
        · exact ⟨su, hsu⟩
        · exact b2 w hw hle

theorem atomLoopM_all {inp : List (DomIn K)} {surr : K → Option (List (List ℕ))} : ∀ (vs : List K) (st : AState K), (∀ v ∈ vs, ∃ l, surr v = some l) →
    atomLoopM inp surr vs st = atomLoop inp (fun v => (surr v).getD []) vs st
  | [], st, _ => rfl
  | v :: vs, st, h => by
    obtain ⟨l, hl⟩ := h v (by simp)
    have ih := fun st => atomLoopM_all (inp := inp) vs st fun w hw => h w (List.mem_cons_of_mem _ hw)
    have e1 : atomStep inp (fun v => (surr v).getD []) st v = atomStep inp (fun _ => l) st v := by
      unfold atomStep
      simp only [hl, Option.getD_some]
    simp only [atomLoopM, atomLoop, hl, Option.bind_eq_bind, Option.bind_some, e1, Option.getD_some, ih]

/-! ## The connections -/

theorem mem_uniqueConns {l : List (Conn K)} {c : Conn K} : c ∈ uniqueConns l ↔ c ∈ l := by
  unfold uniqueConns
  rw [List.mem_insertionSort, List.mem_dedup]

theorem nodup_uniqueConns (l : List (Conn K)) : (uniqueConns l).Nodup := (List.perm_insertionSort _ _).nodup_iff.mpr (List.nodup_dedup _)

theorem dataMin_spec (s : Shape) (data : ℕ → K) (hs : 0 < s.size) : (∃ w < s.size, dataMin s data = data w) ∧ ∀ w < s.size, dataMin s data ≤ data w := by
  unfold dataMin
  have key : ∀ n, ∀ m0 : K, m0 = data 0 → let m := (List.range n).foldl (fun m v => min m (data v)) m0
      (∃ w, (w < n ∨ w = 0) ∧ m = data w) ∧ (∀ w < n, m ≤ data w) := by
    intro n m0 h0
    induction n with
    | zero => exact ⟨⟨0, Or.inr rfl, h0⟩, by simp⟩
    | succ n ih =>
      obtain ⟨⟨w, hw, e⟩, h2⟩ := ih
      simp only [List.range_succ, List.foldl_append, List.foldl_cons, List.foldl_nil]
      constructor
      · rcases min_choice ((List.range n).foldl (fun m v => min m (data v)) m0) (data n) with h | h
        · exact ⟨w, by omega, by rw [h]; exact e⟩
        · exact ⟨n, by omega, h⟩
      · intro x hx
        rcases Nat.lt_succ_iff_lt_or_eq.mp hx with hx | rfl
        · exact (min_le_left _ _).trans (h2 x hx)
        · exact min_le_right _ _
  obtain ⟨⟨w, hw, e⟩, h2⟩ := key s.size (data 0) rfl
  exact ⟨⟨w, by omega, e⟩, h2⟩

/-- A list without repetitions whose entries are values of the grid is not longer than the grid. -/
theorem length_le_size {n : ℕ} {data : ℕ → K} {l : List K} (hl : l.Nodup) (h : ∀ x ∈ l, ∃ w < n, x = data w) : l.length ≤ n := by
  have : l ⊆ (List.range n).map data := fun x hx => by
    obtain ⟨w, hw, rfl⟩ := h x hx
    exact List.mem_map_of_mem (List.mem_range.mpr hw)
  have := (hl.subperm this).length_le
  simpa using this

theorem conns_length_le {n nb : ℕ} {data : ℕ → K} {l : List (Conn K)} (hl : l.Nodup) (h : ∀ c ∈ l, c.i < nb ∧ c.j < nb ∧ ∃ w < n, c.val = data w) :
    l.length ≤ nb * nb * n := by
  have : l ⊆ (List.range nb).flatMap fun i => (List.range nb).flatMap fun j => (List.range n).map fun w => ⟨i, j, data w⟩ := fun c hc => by
    obtain ⟨h1, h2, w, hw, h3⟩ := h c hc
    refine List.mem_flatMap.mpr ⟨c.i, List.mem_range.mpr h1, List.mem_flatMap.mpr ⟨c.j, List.mem_range.mpr h2, List.mem_map.mpr ⟨w, List.mem_range.mpr hw, ?_⟩⟩⟩
    rw [← h3]
  have := (hl.subperm this).length_le
  simp only [List.length_flatMap, List.length_map, List.length_range, List.map_const', List.sum_replicate, smul_eq_mul] at this
  rwa [← Nat.mul_assoc] at this

theorem isDomainAt_congr {l l' : List (Conn K)} (h : ∀ c, c ∈ l ↔ c ∈ l') (t : K) (B : List ℕ) : IsDomainAt l t B ↔ IsDomainAt l' t B := by
  have h1 : ∀ b, BasinAt l t b ↔ BasinAt l' t b := fun b => by unfold BasinAt; simp only [h]
  have h2 : JoinedAt l t = JoinedAt l' t := by unfold JoinedAt; simp only [h]
  unfold IsDomainAt
  simp only [h1, h2]

end BaderKit
