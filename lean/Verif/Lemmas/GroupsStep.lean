import Verif.Lemmas.GroupsGraph
/-! # One growth step of the union-find of a periodic solid -/
set_option linter.unusedSectionVars false
namespace BaderKit

/-- Largest component of a shift. -/
def maxAbs (c : Coord) : ℕ := max c.1.natAbs (max c.2.1.natAbs c.2.2.natAbs)

theorem maxAbs_norm : ShiftNorm maxAbs := by
  refine ⟨by simp [maxAbs], ?_, ?_⟩
  · intro a; simp [maxAbs]
  · intro a b
    unfold maxAbs
    simp only [Prod.fst_add, Prod.snd_add]
    have h1 := Int.natAbs_add_le a.1 b.1
    have h2 := Int.natAbs_add_le a.2.1 b.2.1
    have h3 := Int.natAbs_add_le a.2.2 b.2.2
    omega

theorem maxAbs_unit {t : Coord} (h : UnitStep t) : maxAbs t ≤ 1 := by
  obtain ⟨⟨a, b⟩, ⟨c, d⟩, ⟨e, f⟩⟩ := h
  unfold maxAbs
  omega

theorem requestsOf_unionCalls {s : Shape} {nbrs : List Coord} {solid : ℕ → Bool} {v : ℕ} {e : ℕ × ℕ × Coord} :
    e ∈ requestsOf (unionCalls s nbrs solid v) ↔
      ∃ d ∈ nbrs, solid (nbrShift s v d).1 = true ∧ e = (v, (nbrShift s v d).1, (nbrShift s v d).2) := by
  unfold unionCalls
  induction nbrs with
  | nil => simp [requestsOf]
  | cons d ds ih =>
    simp only [List.filterMap_cons]
    by_cases h : solid (nbrShift s v d).1 = true
    · simp only [h, if_true, requestsOf, List.mem_cons, ih]
      constructor
      · rintro (rfl | ⟨d', h1, h2⟩)
        · exact ⟨d, by simp, h, rfl⟩
        · exact ⟨d', by simp [h1], h2⟩
      · rintro ⟨d', rfl | h1, h2, h3⟩
        · exact Or.inl h3
        · exact Or.inr ⟨d', h1, h2, h3⟩
    · simp only [h, if_neg, Bool.false_eq_true, not_false_eq_true, ih, List.mem_cons]
      constructor
      · rintro ⟨d', h1, h2⟩; exact ⟨d', Or.inr h1, h2⟩
      · rintro ⟨d', rfl | h1, h2, h3⟩
        · exact absurd h2 h
        · exact ⟨d', h1, h2, h3⟩

theorem unionCalls_length (s : Shape) (nbrs : List Coord) (solid : ℕ → Bool) (v : ℕ) :
    (unionCalls s nbrs solid v).length ≤ nbrs.length := List.length_filterMap_le _ _

theorem unionCalls_empty {s : Shape} {nbrs : List Coord} {solid : ℕ → Bool} {v : ℕ} :
    (unionCalls s nbrs solid v).isEmpty = true ↔ ∀ d ∈ nbrs, solid (nbrShift s v d).1 = false := by
  unfold unionCalls
  rw [List.isEmpty_iff, List.filterMap_eq_nil_iff]
  refine forall_congr' fun d => forall_congr' fun _ => ?_
  cases h : solid (nbrShift s v d).1 <;> simp [h]

theorem connected_isolated {α : Type*} {l : List (α × α)} {v : α} (h : ∀ e ∈ l, e.1 ≠ v ∧ e.2 ≠ v) {a b : α}
    (hc : Connected l a b) : a = v ↔ b = v := by
  induction hc with
  | rel a b hab =>
    have := h _ hab
    exact ⟨fun e => absurd e this.1, fun e => absurd e this.2⟩
  | refl => rfl
  | symm _ _ _ ih => exact ih.symm
  | trans _ _ _ _ _ i1 i2 => exact i1.trans i2

/-- An element that occurs in no request is its own root and may be marked. -/
theorem SInv.markIsolated {m0 : ℕ → Bool} {l : List (ℕ × ℕ × Coord)} {D : ℕ} {st : ShiftUF ℕ Coord}
    (h : SInv m0 l D st) {v : ℕ} (hv : ∀ e ∈ l, e.1 ≠ v ∧ e.2.1 ≠ v) :
    SInv (Function.update m0 v true) l D { st with mask := Function.update st.mask v true } := by
  have hfix : st.parent v = v := by
    obtain ⟨r, hr⟩ := h.uf.total v
    have hr := hr.rootOf
    have hc := (h.uf.conn v r).mp ⟨r, hr, .base hr.fix⟩
    have : r = v := (connected_isolated (v := v) (by
      intro e he
      simp only [pairsOf, List.mem_map] at he
      obtain ⟨q, hq, rfl⟩ := he
      exact hv q hq) hc).mp rfl
    rw [this] at hr
    exact hr.fix
  refine ⟨h.uf, fun x => ?_⟩
  simp only
  by_cases hx : x = v
  · subst hx
    simp [hfix]
  · rw [Function.update_of_ne hx, Function.update_of_ne hx]
    exact h.mask x

/-- What holds of the union-find arrays of a solid. -/
structure UInv (s : Shape) (nbrs : List Coord) (S : ℕ → Bool) (l : List (ℕ × ℕ × Coord)) (m0 : ℕ → Bool) (D : ℕ)
    (st : ShiftUF ℕ Coord) : Prop where
  sinv : SInv m0 l D st
  sound : ∀ e ∈ l, VoxEdge s nbrs S e.1 e.2.1 e.2.2
  complete : ∀ v w t, VoxEdge s nbrs S v w t → (v, w, t) ∈ l ∨ (w, v, -t) ∈ l
  m0_solid : ∀ x, m0 x = true → S x = true ∧ x < s.size
  iso : ∀ x, x < s.size → S x = true → m0 x = true ∨ ∃ y t, VoxEdge s nbrs S x y t
  tree : TreeInv (ShiftPath (VoxEdge s nbrs S)) st
  diam : DiamInv maxAbs (Finset.range s.size) st

/-- The invariant inside the loop: `dn` are the voxels visited. -/
structure SolidInv (s : Shape) (nbrs : List Coord) (S S' : ℕ → Bool) (l0 : List (ℕ × ℕ × Coord)) (m00 : ℕ → Bool)
    (st0 : ShiftUF ℕ Coord) (dn : List ℕ) (l : List (ℕ × ℕ × Coord)) (m0 : ℕ → Bool) (D : ℕ)
    (st : ShiftUF ℕ Coord) : Prop where
  sinv : SInv m0 l D st
  sound : ∀ e ∈ l, VoxEdge s nbrs S' e.1 e.2.1 e.2.2
  old : ∀ e ∈ l0, e ∈ l
  done : ∀ v ∈ dn, S' v = true → S v = false → ∀ w t, VoxEdge s nbrs S' v w t → (v, w, t) ∈ l
  m0_solid : ∀ x, m0 x = true → S' x = true ∧ x < s.size
  m0_old : ∀ x, m00 x = true → m0 x = true
  iso : ∀ v ∈ dn, S' v = true → S v = false → m0 v = true ∨ ∃ y t, VoxEdge s nbrs S' v y t
  tree : TreeInv (ShiftPath (VoxEdge s nbrs S')) st
  diam : DiamInv maxAbs (Finset.range s.size) st
  off : ∀ q, OffOK st0 q → OffOK st q

theorem SolidInv.step {s : Shape} {nbrs : List Coord} (hn : NbrsOk nbrs) {S S' vac : ℕ → Bool}
    (hvac : ∀ v, S' v = true → vac v = false) {l0 : List (ℕ × ℕ × Coord)} {m00 : ℕ → Bool} {st0 : ShiftUF ℕ Coord}
    {dn : List ℕ} {l : List (ℕ × ℕ × Coord)} {m0 : ℕ → Bool} {D : ℕ} {st : ShiftUF ℕ Coord}
    (h : SolidInv s nbrs S S' l0 m00 st0 dn l m0 D st) (v : ℕ) (hv : v < s.size) (fuel : ℕ)
    (hf : D + nbrs.length < fuel) :
    ∃ st' l' m0' D', connectVoxel fuel s nbrs S' S vac st v = some st' ∧
      SolidInv s nbrs S S' l0 m00 st0 (dn ++ [v]) l' m0' D' st' ∧ D' ≤ D + nbrs.length := by
  unfold connectVoxel
  by_cases hsk : skipVoxel S' S vac v = true
  · rw [if_pos hsk]
    refine ⟨st, l, m0, D, rfl, ⟨h.sinv, h.sound, h.old, ?_, h.m0_solid, h.m0_old, ?_, h.tree, h.diam, h.off⟩, by omega⟩
    · intro x hx h1 h2
      rcases List.mem_append.mp hx with hx | hx
      · exact h.done x hx h1 h2
      · simp only [List.mem_singleton] at hx
        subst hx
        simp [skipVoxel, h1, h2, hvac x h1] at hsk
    · intro x hx h1 h2
      rcases List.mem_append.mp hx with hx | hx
      · exact h.iso x hx h1 h2
      · simp only [List.mem_singleton] at hx
        subst hx
        simp [skipVoxel, h1, h2, hvac x h1] at hsk
  · rw [if_neg hsk]
    have hS' : S' v = true := by
      by_contra hc
      simp [skipVoxel, hc] at hsk
    have hedge : ∀ d ∈ nbrs, S' (nbrShift s v d).1 = true →
        VoxEdge s nbrs S' v (nbrShift s v d).1 (nbrShift s v d).2 := by
      intro d hd h1
      exact ⟨hv, hS', h1, d, hd, rfl⟩
    have hlen := unionCalls_length s nbrs S' v
    have hreq : ∀ e ∈ requestsOf (unionCalls s nbrs S' v), VoxEdge s nbrs S' e.1 e.2.1 e.2.2 := by
      intro e he
      obtain ⟨d, hd, h1, rfl⟩ := requestsOf_unionCalls.mp he
      exact hedge d hd h1
    obtain ⟨st1, D1, e1, hi1, hD1, ht1, hd1⟩ := runShift_tree
      (ShiftPath.groupoid (E := VoxEdge s nbrs S') (fun _ _ _ h => VoxEdge.symm hn h)) maxAbs_norm (V := Finset.range s.size)
      m0 (unionCalls s nbrs S' v) (by
        intro e he
        have := hreq e he
        exact ⟨ShiftPath.single this, maxAbs_unit (this.unit hn), Finset.mem_range.mpr this.1,
          Finset.mem_range.mpr (this.lt hn)⟩) h.sinv fuel (by omega)
    obtain ⟨st2, D2, e2, _, _, _, hoff, _⟩ := runShift_spec m0 (unionCalls s nbrs S' v) h.sinv fuel (by omega)
    obtain rfl : st1 = st2 := by rw [e1] at e2; simpa using e2
    have hsound : ∀ e ∈ l ++ requestsOf (unionCalls s nbrs S' v), VoxEdge s nbrs S' e.1 e.2.1 e.2.2 := by
      intro e he
      rcases List.mem_append.mp he with he | he
      · exact h.sound e he
      · exact hreq e he
    have hdone : ∀ x ∈ dn ++ [v], S' x = true → S x = false → ∀ w t, VoxEdge s nbrs S' x w t →
        (x, w, t) ∈ l ++ requestsOf (unionCalls s nbrs S' v) := by
      intro x hx h1 h2 w t he
      rcases List.mem_append.mp hx with hx | hx
      · exact List.mem_append_left _ (h.done x hx h1 h2 w t he)
      · simp only [List.mem_singleton] at hx
        subst hx
        obtain ⟨_, _, h3, d, hd, e⟩ := he
        refine List.mem_append_right _ (requestsOf_unionCalls.mpr ⟨d, hd, by rw [e]; exact h3, by rw [e]⟩)
    rw [e1]
    by_cases hem : (unionCalls s nbrs S' v).isEmpty = true
    · simp only [Option.bind_eq_bind, Option.bind_some, hem, if_true]
      have hno := unionCalls_empty.mp hem
      have hnov : ∀ y t, ¬ VoxEdge s nbrs S' v y t := by
        rintro y t ⟨_, _, h3, d, hd, e⟩
        have := hno d hd
        rw [e] at this
        simp only at this
        rw [this] at h3
        exact absurd h3 (by simp)
      refine ⟨_, l ++ requestsOf (unionCalls s nbrs S' v), Function.update m0 v true, D1, rfl,
        ⟨hi1.markIsolated ?_, hsound, fun e he => List.mem_append_left _ (h.old e he), hdone, ?_, ?_, ?_,
          ht1 h.tree, hd1 h.diam, fun q hq => hoff q (h.off q hq)⟩, by omega⟩
      · intro e he
        have hE := hsound e he
        constructor
        · rintro h1
          rw [h1] at hE
          exact hnov _ _ hE
        · rintro h1
          have := hE.symm hn
          rw [h1] at this
          exact hnov _ _ this
      · intro x hx
        by_cases hxv : x = v
        · subst hxv; exact ⟨hS', hv⟩
        · rw [Function.update_of_ne hxv] at hx; exact h.m0_solid x hx
      · intro x hx
        by_cases hxv : x = v
        · subst hxv; simp
        · rw [Function.update_of_ne hxv]; exact h.m0_old x hx
      · intro x hx h1 h2
        by_cases hxv : x = v
        · subst hxv; left; simp
        · rw [Function.update_of_ne hxv]
          rcases List.mem_append.mp hx with hx | hx
          · exact h.iso x hx h1 h2
          · exact absurd (by simpa using hx) hxv
    · simp only [Option.bind_eq_bind, Option.bind_some, hem]
      refine ⟨_, l ++ requestsOf (unionCalls s nbrs S' v), m0, D1, rfl,
        ⟨hi1, hsound, fun e he => List.mem_append_left _ (h.old e he), hdone, h.m0_solid, h.m0_old, ?_,
          ht1 h.tree, hd1 h.diam, fun q hq => hoff q (h.off q hq)⟩, by omega⟩
      intro x hx h1 h2
      rcases List.mem_append.mp hx with hx | hx
      · exact h.iso x hx h1 h2
      · simp only [List.mem_singleton] at hx
        subst hx
        right
        have : ¬ ∀ d ∈ nbrs, S' (nbrShift s x d).1 = false := fun hc => hem (unionCalls_empty.mpr hc)
        push Not at this
        obtain ⟨d, hd, h3⟩ := this
        exact ⟨_, _, hedge d hd (by simpa using h3)⟩

theorem SolidInv.run {s : Shape} {nbrs : List Coord} (hn : NbrsOk nbrs) {S S' vac : ℕ → Bool}
    (hvac : ∀ v, S' v = true → vac v = false) {l0 : List (ℕ × ℕ × Coord)} {m00 : ℕ → Bool} {st0 : ShiftUF ℕ Coord}
    (fuel : ℕ) (vs : List ℕ) (hvs : ∀ v ∈ vs, v < s.size) :
    ∀ {dn : List ℕ} {l : List (ℕ × ℕ × Coord)} {m0 : ℕ → Bool} {D : ℕ} {st : ShiftUF ℕ Coord},
    SolidInv s nbrs S S' l0 m00 st0 dn l m0 D st → D + vs.length * nbrs.length < fuel →
    ∃ st' l' m0' D', vs.foldlM (connectVoxel fuel s nbrs S' S vac) st = some st' ∧
      SolidInv s nbrs S S' l0 m00 st0 (dn ++ vs) l' m0' D' st' ∧ D' ≤ D + vs.length * nbrs.length := by
  induction vs with
  | nil => intro dn l m0 D st h hf; exact ⟨st, l, m0, D, rfl, by simpa using h, by simp⟩
  | cons v vs ih =>
    intro dn l m0 D st h hf
    simp only [List.length_cons, Nat.add_mul, Nat.one_mul] at hf ⊢
    obtain ⟨st1, l1, m1, D1, e1, h1, hD1⟩ := h.step hn hvac v (hvs v (by simp)) fuel (by omega)
    obtain ⟨st2, l2, m2, D2, e2, h2, hD2⟩ := ih (fun x hx => hvs x (by simp [hx])) h1 (by omega)
    refine ⟨st2, l2, m2, D2, ?_, ?_, by omega⟩
    · rw [List.foldlM_cons, e1]; exact e2
    · simpa using h2

/-- The union-find of a solid, extended to a larger solid. -/
theorem UInv.grow {s : Shape} {nbrs : List Coord} (hn : NbrsOk nbrs) {S S' vac : ℕ → Bool}
    (hvac : ∀ v, S' v = true → vac v = false) (hsub : ∀ v, S v = true → S' v = true)
    {l : List (ℕ × ℕ × Coord)} {m0 : ℕ → Bool} {D : ℕ} {st : ShiftUF ℕ Coord} (h : UInv s nbrs S l m0 D st) (fuel : ℕ)
    (hf : D + s.size * nbrs.length < fuel) :
    ∃ st' l' m0' D', connectAll fuel s nbrs S' S vac st = some st' ∧ UInv s nbrs S' l' m0' D' st' ∧
      D' ≤ D + s.size * nbrs.length ∧ ∀ q, OffOK st q → OffOK st' q := by
  have h0 : SolidInv s nbrs S S' l m0 st [] l m0 D st :=
    ⟨h.sinv, fun e he => (h.sound e he).mono hsub, fun e he => he, by simp,
      fun x hx => ⟨hsub x (h.m0_solid x hx).1, (h.m0_solid x hx).2⟩, fun x hx => hx, by simp,
      fun n x r c hr => (h.tree n x r c hr).mono (fun e => e.mono hsub), h.diam, fun q hq => hq⟩
  obtain ⟨st', l', m', D', e, hi, hD⟩ := SolidInv.run hn hvac fuel (List.range s.size)
    (fun v hv => List.mem_range.mp hv) h0 (by simpa using hf)
  simp only [List.length_range, List.nil_append] at hD hi
  refine ⟨st', l', m', D', e, ⟨hi.sinv, hi.sound, ?_, hi.m0_solid, ?_, hi.tree, hi.diam⟩, hD, hi.off⟩
  · intro v w t he
    have hw := he.lt hn
    by_cases h1 : S v = true
    · by_cases h2 : S w = true
      · rcases h.complete v w t ⟨he.1, h1, h2, he.2.2.2⟩ with h3 | h3
        · exact Or.inl (hi.old _ h3)
        · exact Or.inr (hi.old _ h3)
      · exact Or.inr (hi.done w (List.mem_range.mpr hw) he.2.2.1 (by simpa using h2) _ _ (he.symm hn))
    · exact Or.inl (hi.done v (List.mem_range.mpr he.1) he.2.1 (by simpa using h1) _ _ he)
  · intro x hx hS
    by_cases h1 : S x = true
    · rcases h.iso x hx h1 with h2 | ⟨y, t, h2⟩
      · exact Or.inl (hi.m0_old x h2)
      · exact Or.inr ⟨y, t, h2.mono hsub⟩
    · exact hi.iso x (List.mem_range.mpr hx) hS (by simpa using h1)

theorem UInv.init (s : Shape) (nbrs : List Coord) (hn : NbrsOk nbrs) :
    UInv s nbrs (fun _ => false) [] (fun _ => false) 0 ShiftUF.init := by
  refine ⟨SInv.init _, by simp, ?_, by simp, by simp, TreeInv.init (ShiftPath.groupoid (fun _ _ _ h => VoxEdge.symm hn h)),
    DiamInv.init maxAbs_norm _⟩
  rintro v w t ⟨_, h, _⟩
  exact absurd h (by simp)

section facts
variable {s : Shape} {nbrs : List Coord} {S : ℕ → Bool} {l : List (ℕ × ℕ × Coord)} {m0 : ℕ → Bool} {D : ℕ}
  {st : ShiftUF ℕ Coord}

theorem ShiftPath.lt (hn : NbrsOk nbrs) {x y : ℕ} {t : Coord} (h : ShiftPath (VoxEdge s nbrs S) x y t) (hx : x < s.size) :
    y < s.size := by
  induction h with
  | refl => exact hx
  | tail _ e _ => exact e.lt hn

/-- Neighbours have the same root. -/
theorem UInv.edge_root (h : UInv s nbrs S l m0 D st) {v w : ℕ} {t : Coord} (he : VoxEdge s nbrs S v w t) :
    SameRoot st.parent v w := by
  rw [h.sinv.uf.conn]
  rcases h.complete v w t he with h1 | h1
  · exact .rel _ _ (List.mem_map.mpr ⟨_, h1, rfl⟩)
  · exact .symm _ _ (.rel _ _ (List.mem_map.mpr ⟨_, h1, rfl⟩))

theorem UInv.path_root (h : UInv s nbrs S l m0 D st) {v w : ℕ} {t : Coord} (he : ShiftPath (VoxEdge s nbrs S) v w t) :
    SameRoot st.parent v w := by
  rw [h.sinv.uf.conn]
  induction he with
  | refl => exact .refl _
  | tail _ e ih => exact .trans _ _ _ ih ((h.sinv.uf.conn _ _).mp (h.edge_root e))

theorem UInv.root_path (h : UInv s nbrs S l m0 D st) (hn : NbrsOk nbrs) {v w : ℕ} (he : SameRoot st.parent v w) :
    ∃ t, ShiftPath (VoxEdge s nbrs S) v w t := by
  obtain ⟨r, h1, h2⟩ := he
  obtain ⟨n, h1⟩ := h1.rootIn
  obtain ⟨m, h2⟩ := h2.rootIn
  obtain ⟨c, h1⟩ := h1.rootC st.off
  obtain ⟨d, h2⟩ := h2.rootC st.off
  exact ⟨_, (h.tree _ _ _ _ h1).trans ((h.tree _ _ _ _ h2).symm (fun _ _ _ h => VoxEdge.symm hn h))⟩

/-- The root of a voxel of the solid is marked. -/
theorem UInv.marked (h : UInv s nbrs S l m0 D st) (hn : NbrsOk nbrs) (hs : 2 ≤ s.nx ∧ 2 ≤ s.ny ∧ 2 ≤ s.nz)
    {v r : ℕ} (hv : v < s.size) (hS : S v = true) (hr : RootOf st.parent v r) :
    r < s.size ∧ st.mask r = true := by
  constructor
  · obtain ⟨n, h1⟩ := hr.rootIn
    obtain ⟨c, h1⟩ := h1.rootC st.off
    exact (h.tree _ _ _ _ h1).lt hn hv
  · rw [h.sinv.mask]
    refine ⟨hr.fix, ?_⟩
    by_cases hvr : v = r
    · subst hvr
      rcases h.iso v hv hS with h1 | ⟨y, t, h1⟩
      · exact Or.inl h1
      · right
        refine ⟨y, (h1.ne hn hs).symm, ?_⟩
        obtain ⟨r', h2, h3⟩ := h.edge_root h1
        rw [h2.of_fix hr.fix] at h3
        exact h3
    · exact Or.inr ⟨v, hvr, hr⟩

/-- Marked elements are voxels of the solid. -/
theorem UInv.of_mark (h : UInv s nbrs S l m0 D st) (hn : NbrsOk nbrs) {r : ℕ} (hr : st.mask r = true) :
    r < s.size ∧ S r = true ∧ st.parent r = r := by
  obtain ⟨h1, h2⟩ := (h.sinv.mask r).mp hr
  rcases h2 with h2 | ⟨y, hy, h2⟩
  · exact ⟨(h.m0_solid r h2).2, (h.m0_solid r h2).1, h1⟩
  · obtain ⟨n, h3⟩ := h2.rootIn
    obtain ⟨c, h3⟩ := h3.rootC st.off
    have hp := h.tree _ _ _ _ h3
    cases hp with
    | refl => exact absurd rfl hy
    | tail _ e => exact ⟨e.lt hn, e.2.2.1, h1⟩

end facts
end BaderKit
