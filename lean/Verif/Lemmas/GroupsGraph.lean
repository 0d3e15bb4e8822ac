import Verif.Model.Groups
import Verif.Spec.Groups
import Verif.Lemmas.Index
import Verif.Lemmas.GroupsUF
import Verif.Props.Index
/-! # The periodic graph of voxels and the infinite crystal -/
namespace BaderKit

/-- Edges of the periodic graph of a solid. -/
def VoxEdge (s : Shape) (nbrs : List Coord) (solid : ℕ → Bool) (v w : ℕ) (t : Coord) : Prop :=
  v < s.size ∧ solid v = true ∧ solid w = true ∧ ∃ d ∈ nbrs, nbrShift s v d = (w, t)

/-- Paths of a graph with shifts. -/
inductive ShiftPath (E : ℕ → ℕ → Coord → Prop) : ℕ → ℕ → Coord → Prop
  | refl (x) : ShiftPath E x x 0
  | tail {x y z t u} : ShiftPath E x y t → E y z u → ShiftPath E x z (t + u)

/-- What is needed of the list of neighbours: symmetric, unit steps, no zero step. -/
structure NbrsOk (nbrs : List Coord) : Prop where
  unit : ∀ d ∈ nbrs, UnitStep d
  neg : ∀ d ∈ nbrs, negC d ∈ nbrs
  ne : ∀ d ∈ nbrs, d ≠ (0, 0, 0)

theorem voxImage_coords (s : Shape) (v : ℕ) : voxImage s v 0 = flatToCoords s v := by
  simp [voxImage]

theorem nbrShift_spec {s : Shape} {v : ℕ} {d : Coord} (hv : v < s.size) (hd : UnitStep d) :
    (nbrShift s v d).1 < s.size ∧
    (∀ t : Coord, addC (voxImage s v t) d = voxImage s (nbrShift s v d).1 (t + (nbrShift s v d).2)) ∧
    UnitStep (nbrShift s v d).2 := by
  have hp := pos_of_lt_size hv
  have hf := hd.fits hp
  obtain ⟨e0, e1, e2, e3⟩ := C01_wrap_shift s (addC (flatToCoords s v) d)
  have hn : (nbrShift s v d).1 = nbr s v d := by
    unfold nbrShift nbr; simp only; rw [e0]
  have hs : (nbrShift s v d).2 = (wrapPointShift s (addC (flatToCoords s v) d)).2 := rfl
  rw [hn, hs]
  refine ⟨nbr_lt hv hf, ?_, ?_⟩
  · intro t
    unfold voxImage
    rw [flatToCoords_nbr hv hf, ← e0]
    generalize wrapPointShift s (addC (flatToCoords s v) d) = w at e1 e2 e3
    simp only [addC] at e1 e2 e3 ⊢
    refine Prod.ext ?_ (Prod.ext ?_ ?_)
    · simp only [Prod.fst_add]; linarith
    · simp only [Prod.fst_add, Prod.snd_add]; linarith
    · simp only [Prod.snd_add]; linarith
  · unfold wrapPointShift UnitStep
    have : ∀ i n : ℤ, -1 ≤ (wrapAxisShift i n).2 ∧ (wrapAxisShift i n).2 ≤ 1 := by
      intro i n; unfold wrapAxisShift; split_ifs <;> simp
    exact ⟨this _ _, this _ _, this _ _⟩

theorem voxelOf_image {s : Shape} {v : ℕ} (hv : v < s.size) (t : Coord) : voxelOf s (voxImage s v t) = v := by
  have hr := flatToCoords_inRange (s := s) (v := v) (by positivity) (by exact_mod_cast hv) (pos_of_lt_size hv)
  obtain ⟨⟨a, b⟩, ⟨a', b'⟩, ⟨a'', b''⟩⟩ := hr
  unfold voxelOf voxImage
  simp only [Int.add_mul_emod_self_right]
  rw [Int.emod_eq_of_lt a b, Int.emod_eq_of_lt a' b', Int.emod_eq_of_lt a'' b'']
  have := coordsToFlat_flatToCoords (s := s) (v : ℤ)
  have e : ((flatToCoords s v).1, (flatToCoords s v).2.1, (flatToCoords s v).2.2) = flatToCoords s v := rfl
  rw [e, this]
  simp

theorem voxImage_inj {s : Shape} {v w : ℕ} {t u : Coord} (hv : v < s.size) (hw : w < s.size)
    (h : voxImage s v t = voxImage s w u) : v = w ∧ t = u := by
  have e : v = w := by rw [← voxelOf_image hv t, h, voxelOf_image hw u]
  subst e
  refine ⟨rfl, ?_⟩
  obtain ⟨h1, h2, h3⟩ := pos_of_lt_size hv
  unfold voxImage at h
  simp only [Prod.mk.injEq, add_right_inj, mul_eq_mul_right_iff] at h
  obtain ⟨a, b, c⟩ := h
  refine Prod.ext (a.resolve_right (by omega)) (Prod.ext (b.resolve_right (by omega)) (c.resolve_right (by omega)))

theorem VoxEdge.lt {s : Shape} {nbrs : List Coord} (hn : NbrsOk nbrs) {solid : ℕ → Bool} {v w : ℕ} {t : Coord}
    (h : VoxEdge s nbrs solid v w t) : w < s.size := by
  obtain ⟨hv, _, _, d, hd, e⟩ := h
  have := (nbrShift_spec hv (hn.unit d hd)).1
  rw [e] at this; exact this

theorem VoxEdge.symm {s : Shape} {nbrs : List Coord} (hn : NbrsOk nbrs) {solid : ℕ → Bool} {v w : ℕ} {t : Coord}
    (h : VoxEdge s nbrs solid v w t) : VoxEdge s nbrs solid w v (-t) := by
  have hw := h.lt hn
  obtain ⟨hv, h1, h2, d, hd, e⟩ := h
  refine ⟨hw, h2, h1, negC d, hn.neg d hd, ?_⟩
  obtain ⟨a1, a2, _⟩ := nbrShift_spec hv (hn.unit d hd)
  obtain ⟨b1, b2, _⟩ := nbrShift_spec hw (hn.unit _ (hn.neg d hd))
  rw [e] at a1 a2
  have h0 := a2 0
  have h1' := b2 t
  rw [zero_add] at h0
  rw [← h0] at h1'
  have hb : addC (addC (voxImage s v 0) d) (negC d) = voxImage s v 0 := by simp [addC, negC]
  rw [hb] at h1'
  obtain ⟨e1, e2⟩ := voxImage_inj hv b1 h1'
  refine Prod.ext e1.symm ?_
  simp only
  have : t + (nbrShift s w (negC d)).2 = 0 := e2.symm
  exact eq_neg_of_add_eq_zero_right this

theorem VoxEdge.unit {s : Shape} {nbrs : List Coord} (hn : NbrsOk nbrs) {solid : ℕ → Bool} {v w : ℕ} {t : Coord}
    (h : VoxEdge s nbrs solid v w t) : UnitStep t := by
  obtain ⟨hv, _, _, d, hd, e⟩ := h
  have := (nbrShift_spec hv (hn.unit d hd)).2.2
  rw [e] at this; exact this

/-- With at least two voxels along each axis no voxel is its own neighbour. -/
theorem VoxEdge.ne {s : Shape} {nbrs : List Coord} (hn : NbrsOk nbrs) (hs : 2 ≤ s.nx ∧ 2 ≤ s.ny ∧ 2 ≤ s.nz)
    {solid : ℕ → Bool} {v w : ℕ} {t : Coord} (h : VoxEdge s nbrs solid v w t) : v ≠ w := by
  rintro rfl
  obtain ⟨hv, _, _, d, hd, e⟩ := h
  have hu := hn.unit d hd
  have := (nbrShift_spec hv hu).2.1 0
  rw [e] at this
  unfold voxImage addC at this
  simp only [Prod.mk.injEq, Prod.fst_zero, Prod.snd_zero, zero_mul, add_zero, add_right_inj, zero_add] at this
  obtain ⟨e1, e2, e3⟩ := this
  have key : ∀ (x y : ℤ) (n : ℕ), 2 ≤ n → -1 ≤ x → x ≤ 1 → x = y * n → x = 0 := by
    intro x y n hn h1 h2 h
    rcases lt_trichotomy y 0 with hy | hy | hy
    · nlinarith
    · rw [h, hy, zero_mul]
    · nlinarith
  refine hn.ne d hd (Prod.ext ?_ (Prod.ext ?_ ?_))
  · exact key _ _ _ hs.1 hu.1.1 hu.1.2 e1
  · exact key _ _ _ hs.2.1 hu.2.1.1 hu.2.1.2 e2
  · exact key _ _ _ hs.2.2 hu.2.2.1 hu.2.2.2 e3

theorem VoxEdge.mono {s : Shape} {nbrs : List Coord} {S S' : ℕ → Bool} (h : ∀ v, S v = true → S' v = true)
    {v w : ℕ} {t : Coord} (e : VoxEdge s nbrs S v w t) : VoxEdge s nbrs S' v w t :=
  ⟨e.1, h _ e.2.1, h _ e.2.2.1, e.2.2.2⟩

section path
variable {E E' : ℕ → ℕ → Coord → Prop}

theorem ShiftPath.trans {x y z t u} (h : ShiftPath E x y t) (h' : ShiftPath E y z u) : ShiftPath E x z (t + u) := by
  induction h' with
  | refl => simpa using h
  | tail _ e ih => rw [← add_assoc]; exact ih.tail e

theorem ShiftPath.single {x y t} (h : E x y t) : ShiftPath E x y t := by
  have := (ShiftPath.refl (E := E) x).tail h
  simpa using this

theorem ShiftPath.symm (hE : ∀ x y t, E x y t → E y x (-t)) {x y t} (h : ShiftPath E x y t) :
    ShiftPath E y x (-t) := by
  induction h with
  | refl => simpa using ShiftPath.refl _
  | tail _ e ih =>
    have := (ShiftPath.single (hE _ _ _ e)).trans ih
    rw [neg_add, add_comm]
    exact this

theorem ShiftPath.groupoid (hE : ∀ x y t, E x y t → E y x (-t)) : Groupoid (ShiftPath E) :=
  ⟨ShiftPath.refl, fun h => ShiftPath.symm hE h, fun h h' => h.trans h'⟩

theorem ShiftPath.mono (h : ∀ {x y t}, E x y t → E' x y t) {x y t} (p : ShiftPath E x y t) : ShiftPath E' x y t := by
  induction p with
  | refl => exact .refl _
  | tail _ e ih => exact ih.tail (h e)

theorem ShiftPath.ind {R : ℕ → ℕ → Coord → Prop} (refl : ∀ x, R x x 0)
    (trans : ∀ {x y z t u}, R x y t → R y z u → R x z (t + u)) (edge : ∀ {x y t}, E x y t → R x y t)
    {x y t} (p : ShiftPath E x y t) : R x y t := by
  induction p with
  | refl => exact refl _
  | tail _ e ih => exact trans ih (edge e)
end path

/-- The connections of the infinite crystal are the paths of the periodic graph. -/
theorem connTo_iff {s : Shape} {nbrs : List Coord} (hn : NbrsOk nbrs) {solid : ℕ → Bool} {v w : ℕ} {t : Coord}
    (hv : v < s.size) (hw : w < s.size) :
    ConnTo s nbrs solid v w t ↔ ShiftPath (VoxEdge s nbrs solid) v w t := by
  constructor
  · intro h
    have key : ∀ b, Relation.ReflTransGen (SolidAdj s nbrs solid) (voxImage s v 0) b →
        ∃ x u, x < s.size ∧ b = voxImage s x u ∧ ShiftPath (VoxEdge s nbrs solid) v x u := by
      intro b hb
      induction hb with
      | refl => exact ⟨v, 0, hv, rfl, .refl _⟩
      | tail _ e ih =>
        obtain ⟨x, u, hx, rfl, hp⟩ := ih
        obtain ⟨h1, h2, d, hd, rfl⟩ := e
        obtain ⟨q1, q2, q3⟩ := nbrShift_spec hx (hn.unit d hd)
        refine ⟨(nbrShift s x d).1, u + (nbrShift s x d).2, q1, q2 u, hp.tail ⟨hx, ?_, ?_, d, hd, rfl⟩⟩
        · rwa [voxelOf_image hx] at h1
        · rwa [q2 u, voxelOf_image q1] at h2
    obtain ⟨x, u, hx, e, hp⟩ := key _ h
    obtain ⟨rfl, rfl⟩ := voxImage_inj hw hx e
    exact hp
  · intro h
    have : ConnTo s nbrs solid v w t := by
      clear hw
      induction h with
      | refl => exact .refl
      | tail _ e ih =>
        have ih := ih
        obtain ⟨hy, h1, h2, d, hd, e⟩ := e
        obtain ⟨q1, q2, _⟩ := nbrShift_spec hy (hn.unit d hd)
        rw [e] at q1 q2
        refine Relation.ReflTransGen.tail ih ⟨?_, ?_, d, hd, (q2 _).symm⟩
        · rwa [voxelOf_image hy]
        · rwa [voxelOf_image q1]
    exact this

end BaderKit
