import Verif.Props.Origin
import Verif.Props.GridOps
/-!
# C119: a supercell repeats the results of its cell

The same crystal described by a cell and by a block of copies of that cell.
-/
set_option linter.unusedSectionVars false
namespace BaderKit
open Finset
variable {K : Type} [Field K] [LinearOrder K] [IsStrictOrderedRing K] [FloorRing K]

/-! ## Specification -/

/-- The voxel `w` of the supercell is a copy of the voxel `v` of the cell: their coordinates differ by whole cells. -/
def CopyOf (s s' : Shape) (w v : ℕ) : Prop := w < s'.size ∧ v < s.size ∧ SamePoint s (flatToCoords s' w) (flatToCoords s v)

/-- Number of cells in the block. -/
def cellsOf (n : ℕ × ℕ × ℕ) : ℕ := n.1 * n.2.1 * n.2.2

/-- `s'` is a block of `n` cells of shape `s`. -/
structure BlockOf (n : ℕ × ℕ × ℕ) (s s' : Shape) : Prop where
  x : s'.nx = n.1 * s.nx
  y : s'.ny = n.2.1 * s.ny
  z : s'.nz = n.2.2 * s.nz
  pos : 0 < n.1 ∧ 0 < n.2.1 ∧ 0 < n.2.2

/-- `G'` describes a block of `n` cells of `G`.  The stored value at a copy is `k` times the stored value on the reference grid and `q` times that on the charge
grid: files store the density times the cell volume, so `k = q = cellsOf n` for densities and `k = 1` for a reference such as the ELF.  If a vacuum is
cut off, the grid it is read from is a density. -/
structure SupercellOf (n : ℕ × ℕ × ℕ) (k q : K) (G G' : RunInput K) : Prop where
  block : BlockOf n G.shape G'.shape
  nbrs : G'.nbrs = G.nbrs
  volume : G'.volume = cellsOf n * G.volume
  tol : G'.tol = G.tol
  useRef : G'.useRef = G.useRef
  up : 0 < k
  ref : ∀ w v, CopyOf G.shape G'.shape w v → G'.ref w = k * G.ref v
  charge : ∀ w v, CopyOf G.shape G'.shape w v → G'.charge w = q * G.charge v
  density : G.tol ≠ none → (if G.useRef then k else q) = cellsOf n

/-- Everything around a maximum is lower. -/
def RunInput.Peaked (G : RunInput K) : Prop := ∀ v w, G.IsMax v → IsNbr G.shape (G.nbrs.map Prod.fst) v w → G.ref w < G.ref v

/-- No two maxima are taken for one. -/
def RunAid.Apart (A : RunAid K) (G : RunInput K) : Prop := ∀ a b, G.IsMax a → G.IsMax b → a ≠ b → A.same a b = false

/-- What a user expects of the results of the supercell `o'`, given those of the cell `o`: a copy is vacuum when its voxel is; each basin of the supercell is
a copy of one basin of the cell, with one copy of each of its voxels; charges and volumes of basins are those of the cell; there are as many copies of each
basin as cells. -/
structure Repeats (n : ℕ × ℕ × ℕ) (q : K) (G G' : RunInput K) (o o' : RunOut K) : Prop where
  vacuum : ∀ w v, CopyOf G.shape G'.shape w v → (o'.labels w = -1 ↔ o.labels v = -1)
  parts : ∀ w v w2 v2, CopyOf G.shape G'.shape w v → CopyOf G.shape G'.shape w2 v2 → o'.labels w = o'.labels w2 → o.labels v = o.labels v2
  once : ∀ w v v2, CopyOf G.shape G'.shape w v → v2 < G.shape.size → o.labels v ≠ -1 → o.labels v2 = o.labels v →
    ∃! w2, CopyOf G.shape G'.shape w2 v2 ∧ o'.labels w2 = o'.labels w
  charge : ∀ w v, CopyOf G.shape G'.shape w v → o.labels v ≠ -1 →
    o'.basins.charges (o'.labels w).toNat = q / cellsOf n * o.basins.charges (o.labels v).toNat
  volume : ∀ w v, CopyOf G.shape G'.shape w v → o.labels v ≠ -1 →
    o'.basins.volumes (o'.labels w).toNat = o.basins.volumes (o.labels v).toNat
  vacCharge : o'.basins.vacCharge = q * o.basins.vacCharge
  vacVolume : o'.basins.vacVolume = cellsOf n * o.basins.vacVolume
  count : o'.maxima.length = cellsOf n * o.maxima.length

/-! ## Copies -/

section copies
variable {n : ℕ × ℕ × ℕ} {s s' : Shape}

theorem BlockOf.cells_pos (h : BlockOf n s s') : 0 < cellsOf n := by
  obtain ⟨h1, h2, h3⟩ := h.pos
  unfold cellsOf; positivity

theorem BlockOf.size (h : BlockOf n s s') : s'.size = cellsOf n * s.size := by
  unfold Shape.size cellsOf
  rw [h.x, h.y, h.z]; ring

theorem BlockOf.same (h : BlockOf n s s') {c d : Coord} (hc : SamePoint s' c d) : SamePoint s c d := by
  obtain ⟨⟨a, ha⟩, ⟨b, hb⟩, ⟨e, he⟩⟩ := hc
  rw [h.x] at ha; rw [h.y] at hb; rw [h.z] at he
  refine ⟨⟨a * n.1, ?_⟩, ⟨b * n.2.1, ?_⟩, ⟨e * n.2.2, ?_⟩⟩
  · rw [ha]; push_cast; ring
  · rw [hb]; push_cast; ring
  · rw [he]; push_cast; ring

theorem BlockOf.le (h : BlockOf n s s') : s.nx ≤ s'.nx ∧ s.ny ≤ s'.ny ∧ s.nz ≤ s'.nz := by
  obtain ⟨h1, h2, h3⟩ := h.pos
  rw [h.x, h.y, h.z]
  exact ⟨Nat.le_mul_of_pos_left _ h1, Nat.le_mul_of_pos_left _ h2, Nat.le_mul_of_pos_left _ h3⟩

theorem BlockOf.fits (h : BlockOf n s s') {t : Coord} (ht : StepFits s t) : StepFits s' t := by
  obtain ⟨h1, h2, h3⟩ := h.le
  unfold StepFits at *
  omega

theorem flat_inj {s : Shape} {v w : ℕ} (h : flatToCoords s v = flatToCoords s w) : v = w := by
  have e1 := coordsToFlat_flatToCoords (s := s) (v : ℤ)
  have e2 := coordsToFlat_flatToCoords (s := s) (w : ℤ)
  rw [h, e2] at e1
  exact_mod_cast e1.symm

theorem flat_inRange {s : Shape} {v : ℕ} (hv : v < s.size) : InRange s (flatToCoords s v) :=
  flatToCoords_inRange (by positivity) (by exact_mod_cast hv) (pos_of_lt_size hv)

theorem exists_flat {s : Shape} {c : Coord} (hc : InRange s c) : ∃ v < s.size, flatToCoords s v = c := by
  obtain ⟨h1, h2⟩ := coordsToFlat_range hc
  refine ⟨(coordsToFlat s c).toNat, by omega, ?_⟩
  rw [Int.toNat_of_nonneg h1]
  exact flatToCoords_coordsToFlat hc

theorem samePoint_refl (s : Shape) (c : Coord) : SamePoint s c c := ⟨⟨0, by ring⟩, ⟨0, by ring⟩, ⟨0, by ring⟩⟩

theorem exists_inRange (hp : s.Pos) (c : Coord) : ∃ d, InRange s d ∧ SamePoint s c d := by
  obtain ⟨h1, h2, h3⟩ := hp
  refine ⟨(c.1 % s.nx, c.2.1 % s.ny, c.2.2 % s.nz), ?_, ?_⟩
  · refine ⟨⟨Int.emod_nonneg _ (by omega), Int.emod_lt_of_pos _ (by omega)⟩, ⟨Int.emod_nonneg _ (by omega), Int.emod_lt_of_pos _ (by omega)⟩,
      ⟨Int.emod_nonneg _ (by omega), Int.emod_lt_of_pos _ (by omega)⟩⟩
  · refine ⟨⟨c.1 / s.nx, ?_⟩, ⟨c.2.1 / s.ny, ?_⟩, ⟨c.2.2 / s.nz, ?_⟩⟩
    · show c.1 = c.1 % s.nx + c.1 / s.nx * s.nx
      linarith [Int.emod_add_mul_ediv c.1 s.nx, mul_comm (c.1 / (s.nx : ℤ)) s.nx]
    · show c.2.1 = c.2.1 % s.ny + c.2.1 / s.ny * s.ny
      linarith [Int.emod_add_mul_ediv c.2.1 s.ny, mul_comm (c.2.1 / (s.ny : ℤ)) s.ny]
    · show c.2.2 = c.2.2 % s.nz + c.2.2 / s.nz * s.nz
      linarith [Int.emod_add_mul_ediv c.2.2 s.nz, mul_comm (c.2.2 / (s.nz : ℤ)) s.nz]

theorem copy_exists (hp : s.Pos) {w : ℕ} (hw : w < s'.size) : ∃ v, CopyOf s s' w v := by
  obtain ⟨d, hd, hs⟩ := exists_inRange hp (flatToCoords s' w)
  obtain ⟨v, hv, rfl⟩ := exists_flat hd
  exact ⟨v, hw, hv, hs⟩

theorem copy_unique {w v v2 : ℕ} (h : CopyOf s s' w v) (h2 : CopyOf s s' w v2) : v = v2 :=
  flat_inj (samePoint_unique (flat_inRange h.2.1) (flat_inRange h2.2.1) (h.2.2.symm.trans h2.2.2))

theorem copy_lift (h : BlockOf n s s') {v : ℕ} (hv : v < s.size) : ∃ w, CopyOf s s' w v := by
  obtain ⟨h1, h2, h3⟩ := flat_inRange hv
  obtain ⟨l1, l2, l3⟩ := h.le
  have hr : InRange s' (flatToCoords s v) := by unfold InRange; omega
  obtain ⟨w, hw, e⟩ := exists_flat hr
  exact ⟨w, hw, hv, by rw [e]; exact samePoint_refl _ _⟩

theorem copy_nbr (h : BlockOf n s s') {w v : ℕ} (hc : CopyOf s s' w v) {t : Coord} (ht : StepFits s t) :
    CopyOf s s' (nbr s' w t) (nbr s v t) := by
  have ht' := h.fits ht
  refine ⟨nbr_lt hc.1 ht', nbr_lt hc.2.1 ht, ?_⟩
  rw [flatToCoords_nbr hc.1 ht', flatToCoords_nbr hc.2.1 ht]
  exact ((h.same (wrapPoint_same s' _)).symm.trans (samePoint_addC hc.2.2 t)).trans (wrapPoint_same s _)

/-- Whole cells. -/
def WholeCells (s : Shape) (c : Coord) : Prop := (∃ a : ℤ, c.1 = a * s.nx) ∧ (∃ a : ℤ, c.2.1 = a * s.ny) ∧ (∃ a : ℤ, c.2.2 = a * s.nz)

theorem copy_move {w v : ℕ} (h : BlockOf n s s') (hc : CopyOf s s' w v) {c : Coord} (hf : StepFits s' c) (hw : WholeCells s c) : CopyOf s s' (nbr s' w c) v := by
  refine ⟨nbr_lt hc.1 hf, hc.2.1, ?_⟩
  rw [flatToCoords_nbr hc.1 hf]
  refine (h.same (wrapPoint_same s' _)).symm.trans ?_
  obtain ⟨⟨a, ha⟩, ⟨b, hb⟩, ⟨d, hd⟩⟩ := hw
  obtain ⟨⟨a', ha'⟩, ⟨b', hb'⟩, ⟨d', hd'⟩⟩ := hc.2.2
  refine ⟨⟨a + a', ?_⟩, ⟨b + b', ?_⟩, ⟨d + d', ?_⟩⟩ <;> simp only [addC]
  · rw [ha, ha']; ring
  · rw [hb, hb']; ring
  · rw [hd, hd']; ring

theorem copy_apart {w1 w2 v : ℕ} (h1 : CopyOf s s' w1 v) (h2 : CopyOf s s' w2 v) : ∃ c, StepFits s' c ∧ WholeCells s c ∧ nbr s' w1 c = w2 := by
  have r1 := flat_inRange h1.1
  have r2 := flat_inRange h2.1
  set c1 := flatToCoords s' w1
  set c2 := flatToCoords s' w2
  have hf : StepFits s' (c2.1 - c1.1, c2.2.1 - c1.2.1, c2.2.2 - c1.2.2) := by
    unfold InRange at r1 r2; unfold StepFits; dsimp only; omega
  refine ⟨_, hf, ?_, ?_⟩
  · obtain ⟨⟨a, ha⟩, ⟨b, hb⟩, ⟨d, hd⟩⟩ := h2.2.2.trans h1.2.2.symm
    exact ⟨⟨a, by show c2.1 - c1.1 = _; linarith⟩, ⟨b, by show c2.2.1 - c1.2.1 = _; linarith⟩, ⟨d, by show c2.2.2 - c1.2.2 = _; linarith⟩⟩
  · apply flat_inj (s := s')
    apply samePoint_unique (flat_inRange (nbr_lt h1.1 hf)) r2
    rw [flatToCoords_nbr h1.1 hf]
    refine (wrapPoint_same s' _).symm.trans ?_
    have e : addC (flatToCoords s' w1) (c2.1 - c1.1, c2.2.1 - c1.2.1, c2.2.2 - c1.2.2) = c2 := by
      show (c1.1 + _, c1.2.1 + _, c1.2.2 + _) = c2
      simp
    rw [e]
    exact samePoint_refl _ _

/-- A move that fixes one voxel fixes all. -/
theorem move_fix {a b : ℕ} {c : Coord} (hc : StepFits s c) (ha : a < s.size) (hb : b < s.size) (h : nbr s a c = a) : nbr s b c = b := by
  apply flat_inj (s := s)
  apply samePoint_unique (flat_inRange (nbr_lt hb hc)) (flat_inRange hb)
  rw [flatToCoords_nbr hb hc]
  refine (wrapPoint_same s _).symm.trans ?_
  have e := flatToCoords_nbr ha hc
  rw [h] at e
  have := wrapPoint_same s (addC (flatToCoords s a) c)
  rw [← e] at this
  obtain ⟨⟨x, hx⟩, ⟨y, hy⟩, ⟨z, hz⟩⟩ := this
  simp only [addC] at hx hy hz
  exact ⟨⟨x, by simp only [addC]; linarith⟩, ⟨y, by simp only [addC]; linarith⟩, ⟨z, by simp only [addC]; linarith⟩⟩

/-- Each voxel has one copy per cell, so sums over the supercell are multiples of sums over the cell. -/
theorem sum_copies (h : BlockOf n s s') (P P' : ℕ → Prop) [DecidablePred P] [DecidablePred P'] (f g : ℕ → K)
    (hP : ∀ w v, CopyOf s s' w v → (P' w ↔ P v)) (hf : ∀ w v, CopyOf s s' w v → g w = f v) :
    ∑ w ∈ (range s'.size).filter P', g w = cellsOf n * ∑ v ∈ (range s.size).filter P, f v := by
  have key : ∑ p ∈ (range n.1 ×ˢ range n.2.1 ×ˢ range n.2.2) ×ˢ (range s.size).filter P, f p.2 = ∑ w ∈ (range s'.size).filter P', g w := by
    have hr : ∀ p : (ℕ × ℕ × ℕ) × ℕ, p.1.1 < n.1 → p.1.2.1 < n.2.1 → p.1.2.2 < n.2.2 → p.2 < s.size →
        InRange s' ((flatToCoords s p.2).1 + p.1.1 * s.nx, (flatToCoords s p.2).2.1 + p.1.2.1 * s.ny, (flatToCoords s p.2).2.2 + p.1.2.2 * s.nz) := by
      rintro ⟨⟨a, b, d⟩, v⟩ ha hb hd hv
      dsimp only at ha hb hd hv ⊢
      obtain ⟨⟨x0, x1⟩, ⟨y0, y1⟩, ⟨z0, z1⟩⟩ := flat_inRange hv
      have m1 : (a + 1) * s.nx ≤ n.1 * s.nx := Nat.mul_le_mul_right _ ha
      have m2 : (b + 1) * s.ny ≤ n.2.1 * s.ny := Nat.mul_le_mul_right _ hb
      have m3 : (d + 1) * s.nz ≤ n.2.2 * s.nz := Nat.mul_le_mul_right _ hd
      rw [← h.x] at m1; rw [← h.y] at m2; rw [← h.z] at m3
      zify at m1 m2 m3
      have p1 : (0 : ℤ) ≤ a * s.nx := by positivity
      have p2 : (0 : ℤ) ≤ b * s.ny := by positivity
      have p3 : (0 : ℤ) ≤ d * s.nz := by positivity
      refine ⟨⟨?_, ?_⟩, ⟨?_, ?_⟩, ⟨?_, ?_⟩⟩ <;> dsimp only <;> linarith
    let i : (ℕ × ℕ × ℕ) × ℕ → ℕ := fun p =>
      (coordsToFlat s' ((flatToCoords s p.2).1 + p.1.1 * s.nx, (flatToCoords s p.2).2.1 + p.1.2.1 * s.ny, (flatToCoords s p.2).2.2 + p.1.2.2 * s.nz)).toNat
    have hi : ∀ p : (ℕ × ℕ × ℕ) × ℕ, p.1.1 < n.1 → p.1.2.1 < n.2.1 → p.1.2.2 < n.2.2 → p.2 < s.size → i p < s'.size ∧
        flatToCoords s' (i p) = ((flatToCoords s p.2).1 + p.1.1 * s.nx, (flatToCoords s p.2).2.1 + p.1.2.1 * s.ny, (flatToCoords s p.2).2.2 + p.1.2.2 * s.nz) := by
      intro p ha hb hd hv
      have hR := hr p ha hb hd hv
      obtain ⟨g1, g2⟩ := coordsToFlat_range hR
      refine ⟨by show (coordsToFlat s' _).toNat < _; omega, ?_⟩
      show flatToCoords s' ((coordsToFlat s' _).toNat : ℤ) = _
      rw [Int.toNat_of_nonneg g1]
      exact flatToCoords_coordsToFlat hR
    have hcp : ∀ p : (ℕ × ℕ × ℕ) × ℕ, p.1.1 < n.1 → p.1.2.1 < n.2.1 → p.1.2.2 < n.2.2 → p.2 < s.size → CopyOf s s' (i p) p.2 := by
      intro p ha hb hd hv
      obtain ⟨g1, g2⟩ := hi p ha hb hd hv
      refine ⟨g1, hv, ?_⟩
      rw [g2]
      exact ⟨⟨p.1.1, rfl⟩, ⟨p.1.2.1, rfl⟩, ⟨p.1.2.2, rfl⟩⟩
    refine Finset.sum_bij (fun p _ => i p) ?_ ?_ ?_ ?_
    · intro p hp
      simp only [Finset.mem_product, Finset.mem_range, Finset.mem_filter] at hp ⊢
      obtain ⟨⟨ha, hb, hd⟩, hv, hPv⟩ := hp
      have := hcp p ha hb hd hv
      exact ⟨this.1, (hP _ _ this).mpr hPv⟩
    · intro p hp p2 hp2 e
      simp only [Finset.mem_product, Finset.mem_range, Finset.mem_filter] at hp hp2
      obtain ⟨⟨ha, hb, hd⟩, hv, _⟩ := hp
      obtain ⟨⟨ha2, hb2, hd2⟩, hv2, _⟩ := hp2
      have c1 := hcp p ha hb hd hv
      have c2 := hcp p2 ha2 hb2 hd2 hv2
      have e : i p = i p2 := e
      rw [← e] at c2
      have ev := copy_unique c1 c2
      have g1 := (hi p ha hb hd hv).2
      have g2 := (hi p2 ha2 hb2 hd2 hv2).2
      rw [← e, g1, ← ev] at g2
      obtain ⟨q1, q2, q3⟩ := pos_of_lt_size hv
      simp only [Prod.mk.injEq, add_right_inj] at g2
      obtain ⟨k1, k2, k3⟩ := g2
      have j1 := mul_right_cancel₀ (by exact_mod_cast q1.ne') k1
      have j2 := mul_right_cancel₀ (by exact_mod_cast q2.ne') k2
      have j3 := mul_right_cancel₀ (by exact_mod_cast q3.ne') k3
      exact Prod.ext (Prod.ext (by exact_mod_cast j1) (Prod.ext (by exact_mod_cast j2) (by exact_mod_cast j3))) ev
    · intro w hw
      simp only [Finset.mem_range, Finset.mem_filter] at hw
      have hsp : 0 < s.size := by
        have : 0 < cellsOf n * s.size := by rw [← h.size]; omega
        exact Nat.pos_of_mul_pos_left this
      have hp : s.Pos := pos_of_lt_size hsp
      obtain ⟨v, hc⟩ := copy_exists (s := s) hp hw.1
      obtain ⟨⟨a, ha⟩, ⟨b, hb⟩, ⟨d, hd⟩⟩ := hc.2.2
      obtain ⟨⟨x0, x1⟩, ⟨y0, y1⟩, ⟨z0, z1⟩⟩ := flat_inRange hc.2.1
      obtain ⟨⟨X0, X1⟩, ⟨Y0, Y1⟩, ⟨Z0, Z1⟩⟩ := flat_inRange hc.1
      rw [h.x] at X1; rw [h.y] at Y1; rw [h.z] at Z1
      obtain ⟨q1, q2, q3⟩ := hp
      have bound : ∀ (a x X : ℤ) (m l : ℕ), 0 < l → 0 ≤ x → x < l → 0 ≤ X → X < ((m * l : ℕ) : ℤ) → X = x + a * l → 0 ≤ a ∧ a < m := by
        intro a x X m l hl h0 h1 H0 H1 e
        push_cast at H1
        have hl' : (0 : ℤ) < l := by exact_mod_cast hl
        constructor
        · by_contra hneg
          have : a ≤ -1 := by omega
          nlinarith
        · by_contra hneg
          have : (m : ℤ) ≤ a := by omega
          nlinarith
      obtain ⟨a0, a1⟩ := bound a _ _ n.1 s.nx q1 x0 x1 X0 X1 ha
      obtain ⟨b0, b1⟩ := bound b _ _ n.2.1 s.ny q2 y0 y1 Y0 Y1 hb
      obtain ⟨d0, d1⟩ := bound d _ _ n.2.2 s.nz q3 z0 z1 Z0 Z1 hd
      lift a to ℕ using a0
      lift b to ℕ using b0
      lift d to ℕ using d0
      refine ⟨((a, b, d), v), ?_, ?_⟩
      · simp only [Finset.mem_product, Finset.mem_range, Finset.mem_filter]
        exact ⟨⟨by exact_mod_cast a1, by exact_mod_cast b1, by exact_mod_cast d1⟩, hc.2.1, (hP _ _ hc).mp hw.2⟩
      · have := (hi ((a, b, d), v) (by exact_mod_cast a1) (by exact_mod_cast b1) (by exact_mod_cast d1) hc.2.1).2
        apply flat_inj (s := s')
        rw [this]
        exact Prod.ext ha.symm (Prod.ext hb.symm hd.symm)
    · intro p hp
      simp only [Finset.mem_product, Finset.mem_range, Finset.mem_filter] at hp
      obtain ⟨⟨ha, hb, hd⟩, hv, _⟩ := hp
      exact (hf _ _ (hcp p ha hb hd hv)).symm
  rw [← key, Finset.sum_product]
  simp only [Finset.sum_const, Finset.card_product, Finset.card_range, nsmul_eq_mul, cellsOf]
  push_cast; ring

end copies

/-! ## The ascent in the supercell -/

section ascent
variable {n : ℕ × ℕ × ℕ} {k q : K} {G G' : RunInput K}

theorem SupercellOf.cells_pos (S : SupercellOf n k q G G') : (0 : K) < cellsOf n := by exact_mod_cast S.block.cells_pos

theorem SupercellOf.vacuum (S : SupercellOf n k q G G') {w v : ℕ} (hc : CopyOf G.shape G'.shape w v) : G'.vacuum w = G.vacuum v := by
  have hN := S.cells_pos
  have hd := S.density
  unfold RunInput.vacuum
  rw [S.tol, S.useRef, S.volume]
  cases ht : G.tol with
  | none => rfl
  | some t =>
    rw [ht] at hd
    have hd := hd (by simp)
    cases hu : G.useRef with
    | true =>
      rw [hu] at hd
      simp only [if_true] at hd ⊢
      rw [S.ref w v hc, hd, mul_left_comm]
      simp only [mul_lt_mul_iff_right₀ hN]
    | false =>
      rw [hu] at hd
      simp only [Bool.false_eq_true, if_false] at hd ⊢
      rw [S.charge w v hc, hd, mul_left_comm]
      simp only [mul_lt_mul_iff_right₀ hN]

/-- Moving the supercell by whole cells does not change it. -/
theorem SupercellOf.moved (S : SupercellOf n k q G G') (hp : G.shape.Pos) {c : Coord} (hf : StepFits G'.shape c) (hw : WholeCells G.shape c) : OriginMoved c G' G' := by
  refine ⟨hf, rfl, rfl, rfl, rfl, rfl, rfl, ?_, ?_⟩ <;>
  · intro w w2 hw1 hm
    obtain rfl := (movedTo_iff hf hw1).mp hm
    obtain ⟨v, hv⟩ := copy_exists (s := G.shape) hp hw1
    have hv2 := copy_move S.block hv hf hw
    first
      | rw [S.ref _ _ hv, S.ref _ _ hv2]
      | rw [S.charge _ _ hv, S.charge _ _ hv2]

variable (hf : ∀ td ∈ G.nbrs, StepFits G.shape td.1)
include hf

theorem SupercellOf.fits' (S : SupercellOf n k q G G') : ∀ td ∈ G'.nbrs, StepFits G'.shape td.1 := by
  intro td htd
  rw [S.nbrs] at htd
  exact S.block.fits (hf td htd)

theorem SupercellOf.localMax (S : SupercellOf n k q G G') {w v : ℕ} (hc : CopyOf G.shape G'.shape w v) :
    IsLocalMax G'.shape G'.ref (G'.nbrs.map Prod.fst) w ↔ IsLocalMax G.shape G.ref (G.nbrs.map Prod.fst) v := by
  have hf' := S.fits' hf
  unfold IsLocalMax
  constructor
  · intro H u hu
    obtain ⟨t, ht, rfl⟩ := (isNbr_iff (fitsOf hf) hc.2.1).mp hu
    have := H (nbr G'.shape w t) ((isNbr_iff (fitsOf hf') hc.1).mpr ⟨t, by rw [S.nbrs]; exact ht, rfl⟩)
    rw [S.ref _ _ hc, S.ref _ _ (copy_nbr S.block hc (fitsOf hf t ht))] at this
    exact le_of_mul_le_mul_left this S.up
  · intro H u hu
    obtain ⟨t, ht, rfl⟩ := (isNbr_iff (fitsOf hf') hc.1).mp hu
    rw [S.nbrs] at ht
    rw [S.ref _ _ hc, S.ref _ _ (copy_nbr S.block hc (fitsOf hf t ht))]
    exact mul_le_mul_of_nonneg_left (H _ ((isNbr_iff (fitsOf hf) hc.2.1).mpr ⟨t, ht, rfl⟩)) S.up.le

theorem SupercellOf.isMax (S : SupercellOf n k q G G') {w v : ℕ} (hc : CopyOf G.shape G'.shape w v) : G'.IsMax w ↔ G.IsMax v := by
  unfold RunInput.IsMax
  rw [S.localMax hf hc, S.vacuum hc]
  simp [hc.1, hc.2.1]

theorem SupercellOf.peaked (S : SupercellOf n k q G G') (hp : G.shape.Pos) (hP : G.Peaked) : G'.Peaked := by
  intro w u hw hu
  obtain ⟨v, hc⟩ := copy_exists (s := G.shape) hp hw.1
  obtain ⟨t, ht, rfl⟩ := (isNbr_iff (fitsOf (S.fits' hf)) hw.1).mp hu
  rw [S.nbrs] at ht
  rw [S.ref _ _ hc, S.ref _ _ (copy_nbr S.block hc (fitsOf hf t ht))]
  exact mul_lt_mul_of_pos_left (hP v _ ((S.isMax hf hc).mp hw) ((isNbr_iff (fitsOf hf) hc.2.1).mpr ⟨t, ht, rfl⟩)) S.up

theorem SupercellOf.steepest (S : SupercellOf n k q G G') {w v u : ℕ} (hc : CopyOf G.shape G'.shape w v) (hs : SteepestNbr G.shape G.ref G.nbrs v u) :
    ∃ w2, CopyOf G.shape G'.shape w2 u ∧ SteepestNbr G'.shape G'.ref G'.nbrs w w2 := by
  obtain ⟨l1, td, l2, hl, hu, hlt, hm, hb⟩ := hs
  have htd : td ∈ G.nbrs := by rw [hl]; simp
  have hcu : CopyOf G.shape G'.shape (nbr G'.shape w td.1) u := by rw [hu]; exact copy_nbr S.block hc (hf td htd)
  have e : ∀ (a b d : K), (k * a - k * b) / d = k * ((a - b) / d) := by intro a b d; rw [← mul_sub, mul_div_assoc]
  refine ⟨_, hcu, l1, td, l2, by rw [S.nbrs, hl], rfl, ?_, ?_, ?_⟩
  · rw [S.ref _ _ hc, S.ref _ _ hcu]
    exact mul_lt_mul_of_pos_left hlt S.up
  · intro td' h'
    rw [S.nbrs] at h'
    rw [S.ref _ _ hc, S.ref _ _ hcu, S.ref _ _ (copy_nbr S.block hc (hf td' h')), e, e]
    exact mul_le_mul_of_nonneg_left (hm td' h') S.up.le
  · intro td' h'
    have h'' : td' ∈ G.nbrs := by rw [hl]; simp [h']
    rw [S.ref _ _ hc, S.ref _ _ hcu, S.ref _ _ (copy_nbr S.block hc (hf td' h'')), e, e]
    exact mul_lt_mul_of_pos_left (hb td' h') S.up

theorem SupercellOf.ascends (S : SupercellOf n k q G G') {v m : ℕ} (ha : Ascends G.shape G.ref G.nbrs v m) :
    ∀ w, CopyOf G.shape G'.shape w v → ∃ w2, CopyOf G.shape G'.shape w2 m ∧ Ascends G'.shape G'.ref G'.nbrs w w2 := by
  induction ha with
  | stop hm => exact fun w hc => ⟨w, hc, .stop ((S.localMax hf hc).mpr hm)⟩
  | step hs _ ih =>
    intro w hc
    obtain ⟨w2, h2, hs2⟩ := S.steepest hf hc hs
    obtain ⟨w3, h3, ha3⟩ := ih w2 h2
    exact ⟨w3, h3, .step hs2 ha3⟩

end ascent

/-! ## The runs -/

theorem Grouped.ofApart {G : RunInput K} {A : RunAid K} (hA : A.Apart G)
    (hs : ∀ l, (A.sortMax l).Pairwise fun a b => G.ref b ≤ G.ref a) : Grouped G A := by
  refine ⟨fun a b ha hb h => ?_, fun a b d ha hb hd hne h1 h2 => ?_, fun a b ha hb hne h => ?_, hs⟩
  · by_cases e : a = b
    · subst e; exact h
    · rw [hA a b ha hb e] at h; cases h
  · by_cases e : a = b
    · subst e; exact h2
    · rw [hA a b ha hb e] at h1; cases h1
  · rw [hA a b ha hb hne] at h; cases h

/-- The two runs: no maximum has an equal neighbour and none are taken for one. -/
structure CellRuns (n : ℕ × ℕ × ℕ) (k q : K) (G G' : RunInput K) (A A' : RunAid K) (ε : K) : Prop where
  super : SupercellOf n k q G G'
  ready : RunReady G A ε
  ready' : RunReady G' A' ε
  twoSided : TwoSided G.nbrs
  peaked : G.Peaked
  apart : A.Apart G
  apart' : A'.Apart G'
  sorted : ∀ l, (A.sortMax l).Pairwise fun a b => G.ref b ≤ G.ref a
  sorted' : ∀ l, (A'.sortMax l).Pairwise fun a b => G'.ref b ≤ G'.ref a

theorem length_maximaVox (s : Shape) (M : ℕ → Bool) : (maximaVox s M).length = ((range s.size).filter fun v => M v = true).card := by
  unfold maximaVox
  rw [Finset.card_filter, ← sum_range_list]
  induction List.range s.size with
  | nil => rfl
  | cons a l ih => by_cases h : M a <;> simp [h, ih, add_comm]

/-- **C119** The results of a supercell repeat those of its cell, for any block, any values and any order in which the voxels are visited, if everything around
a maximum is lower and no two maxima are taken for one.  Without this the claim is false: `C119_plateau`. -/
theorem C119_repeats_partial (n : ℕ × ℕ × ℕ) (k q : K) (G G' : RunInput K) (A A' : RunAid K) (ε : K) (T : CellRuns n k q G G' A A' ε)
    (order order' : List ℕ) (hord : IsSchedule G.shape order) (hord' : IsSchedule G'.shape order') :
    ∃ (o o' : RunOut K) (F : ℕ), (∀ fuel ≥ F, G.run A (.ongrid order) fuel = some o ∧ G'.run A' (.ongrid order') fuel = some o') ∧
      Repeats n q G G' o o' := by
  have S := T.super
  have hf := T.ready.fits
  have hf' := T.ready'.fits
  have hp : G.shape.Pos := pos_of_lt_size T.ready.voxels
  have hN := S.cells_pos
  have hPk' := S.peaked hf hp T.peaked
  have bool : ∀ b : Bool, b = true ∨ b = false := by decide
  obtain ⟨o, F1, hF1, t1, l1, l2, l3, l4, l5, l6, _, l8⟩ := ongrid_groups G A ε T.ready order hord T.twoSided (fun v w hv hw _ => T.peaked v w hv hw)
    (.ofApart T.apart T.sorted)
  obtain ⟨o', F2, hF2, t2, r1, r2, r3, r4, r5, r6, _, r8⟩ := ongrid_groups G' A' ε T.ready' order' hord' (by rw [S.nbrs]; exact T.twoSided)
    (fun v w hv hw _ => hPk' v w hv hw) (.ofApart T.apart' T.sorted')
  -- labels are equal exactly for equal ascents
  have L : ∀ v w m p, v < G.shape.size → w < G.shape.size → G.vacuum v = false → G.vacuum w = false → Ascends G.shape G.ref G.nbrs v m →
      Ascends G.shape G.ref G.nbrs w p → (o.labels v = o.labels w ↔ m = p) := by
    intro v w m p hv hw hvv hwv hm hp
    rw [l3 v w m p hv hw hvv hwv hm hp]
    constructor
    · rintro (h | h)
      · exact h
      · by_contra hne
        rw [T.apart m p (l4 v m hv hvv hm) (l4 w p hw hwv hp) hne] at h; cases h
    · exact Or.inl
  have R : ∀ v w m p, v < G'.shape.size → w < G'.shape.size → G'.vacuum v = false → G'.vacuum w = false → Ascends G'.shape G'.ref G'.nbrs v m →
      Ascends G'.shape G'.ref G'.nbrs w p → (o'.labels v = o'.labels w ↔ m = p) := by
    intro v w m p hv hw hvv hwv hm hp
    rw [r3 v w m p hv hw hvv hwv hm hp]
    constructor
    · rintro (h | h)
      · exact h
      · by_contra hne
        rw [T.apart' m p (r4 v m hv hvv hm) (r4 w p hw hwv hp) hne] at h; cases h
    · exact Or.inl
  have vac : ∀ v < G.shape.size, (o.labels v = -1 ↔ G.vacuum v = true) := by
    intro v hv
    cases h : G.vacuum v with
    | true => simp [l1 v hv h]
    | false => have := (l2 v hv h).1; simp; omega
  have vac' : ∀ v < G'.shape.size, (o'.labels v = -1 ↔ G'.vacuum v = true) := by
    intro v hv
    cases h : G'.vacuum v with
    | true => simp [r1 v hv h]
    | false => have := (r2 v hv h).1; simp; omega
  have vacuum : ∀ w v, CopyOf G.shape G'.shape w v → (o'.labels w = -1 ↔ o.labels v = -1) := by
    intro w v hc
    rw [vac v hc.2.1, vac' w hc.1, S.vacuum hc]
  have asc := fun v hv => (C09_ascent_unique G.shape G.ref G.nbrs hf T.ready.pos v hv).exists
  have parts : ∀ w v w2 v2, CopyOf G.shape G'.shape w v → CopyOf G.shape G'.shape w2 v2 → o'.labels w = o'.labels w2 → o.labels v = o.labels v2 := by
    intro w v w2 v2 hc hc2 e
    cases hv : G.vacuum v with
    | true =>
      have h1 := (vac v hc.2.1).mpr hv
      rw [(vacuum w v hc).mpr h1] at e
      rw [h1, (vacuum w2 v2 hc2).mp e.symm]
    | false =>
      have hv2 : G.vacuum v2 = false := by
        rcases bool (G.vacuum v2) with h | h
        · exfalso
          have h1 := (vac v2 hc2.2.1).mpr h
          rw [(vacuum w2 v2 hc2).mpr h1] at e
          have := (vac v hc.2.1).mp ((vacuum w v hc).mp e)
          rw [hv] at this; cases this
        · exact h
      obtain ⟨m, hm⟩ := asc v hc.2.1
      obtain ⟨m2, hm2⟩ := asc v2 hc2.2.1
      obtain ⟨w', h1, h2⟩ := S.ascends hf hm w hc
      obtain ⟨w2', h3, h4⟩ := S.ascends hf hm2 w2 hc2
      have := (R w w2 w' w2' hc.1 hc2.1 ((S.vacuum hc).trans hv) ((S.vacuum hc2).trans hv2) h2 h4).mp e
      subst this
      exact (L v v2 m m2 hc.2.1 hc2.2.1 hv hv2 hm hm2).mpr (copy_unique h1 h3)
  have once : ∀ w v v2, CopyOf G.shape G'.shape w v → v2 < G.shape.size → o.labels v ≠ -1 → o.labels v2 = o.labels v →
      ∃! w2, CopyOf G.shape G'.shape w2 v2 ∧ o'.labels w2 = o'.labels w := by
    intro w v v2 hc hv2 hne e
    have nv : G.vacuum v = false := by
      rcases bool (G.vacuum v) with h | h
      · exact absurd ((vac v hc.2.1).mpr h) hne
      · exact h
    have nv2 : G.vacuum v2 = false := by
      rcases bool (G.vacuum v2) with h | h
      · exact absurd ((vac v2 hv2).mpr h) (by rw [e]; exact hne)
      · exact h
    obtain ⟨m, hm⟩ := asc v hc.2.1
    obtain ⟨m2, hm2⟩ := asc v2 hv2
    obtain rfl := (L v2 v m2 m hv2 hc.2.1 nv2 nv hm2 hm).mp e
    obtain ⟨w', hw', ha'⟩ := S.ascends hf hm w hc
    obtain ⟨w0, hw0⟩ := copy_lift S.block hv2
    obtain ⟨m0, hm0, ha0⟩ := S.ascends hf hm2 w0 hw0
    obtain ⟨c, c1, c2, c3⟩ := copy_apart hm0 hw'
    have mv := S.moved hp c1 c2
    have h1 := copy_move S.block hw0 c1 c2
    have h2 := mv.ascends hf' ha0 hw0.1
    rw [c3] at h2
    refine ⟨_, ⟨h1, (R _ _ _ _ h1.1 hc.1 ((S.vacuum h1).trans nv2) ((S.vacuum hc).trans nv) h2 ha').mpr rfl⟩, ?_⟩
    rintro w3 ⟨h3, e3⟩
    obtain ⟨d, d1, d2, d3⟩ := copy_apart h1 h3
    have mv2 := (S.moved hp d1 d2).ascends hf' h2 h1.1
    rw [d3] at mv2
    have := (R _ _ _ _ h3.1 hc.1 ((S.vacuum h3).trans nv2) ((S.vacuum hc).trans nv) mv2 ha').mp e3
    rw [← d3]
    exact move_fix d1 hw'.1 h1.1 this
  obtain ⟨b1, b2, b3, b4⟩ := C12_per_basin G.shape G.charge o.labels G.volume
  obtain ⟨d1, d2, d3, d4⟩ := C12_per_basin G'.shape G'.charge o'.labels G'.volume
  rw [← l6] at b1 b2 b3 b4
  rw [← r6] at d1 d2 d3 d4
  have hs0 : ((G.shape.size : ℕ) : K) ≠ 0 := by exact_mod_cast T.ready.voxels.ne'
  have hsz : ((G'.shape.size : ℕ) : K) = cellsOf n * G.shape.size := by rw [S.block.size]; push_cast; rfl
  -- sums over one basin
  have basin : ∀ (f g : ℕ → K) w v, CopyOf G.shape G'.shape w v → o.labels v ≠ -1 → (∀ w v, CopyOf G.shape G'.shape w v → g w = f v) →
      ∑ w2 ∈ (range G'.shape.size).filter (fun w2 => o'.labels w2 = ((o'.labels w).toNat : ℕ)), g w2 =
        ∑ v2 ∈ (range G.shape.size).filter (fun v2 => o.labels v2 = ((o.labels v).toNat : ℕ)), f v2 := by
    intro f g w v hc hne hfg
    have nv : G.vacuum v = false := by
      rcases bool (G.vacuum v) with h | h
      · exact absurd ((vac v hc.2.1).mpr h) hne
      · exact h
    rw [Int.toNat_of_nonneg (l2 v hc.2.1 nv).1, Int.toNat_of_nonneg (r2 w hc.1 ((S.vacuum hc).trans nv)).1]
    have fold : ∀ w2, ∃ v2, w2 < G'.shape.size → CopyOf G.shape G'.shape w2 v2 := by
      intro w2
      by_cases h : w2 < G'.shape.size
      · obtain ⟨v2, h2⟩ := copy_exists (s := G.shape) hp h
        exact ⟨v2, fun _ => h2⟩
      · exact ⟨0, fun h' => absurd h' h⟩
    choose π hπ using fold
    refine Finset.sum_bij (fun w2 _ => π w2) ?_ ?_ ?_ ?_
    · intro w2 hw2
      simp only [Finset.mem_filter, Finset.mem_range] at hw2 ⊢
      have h2 := hπ w2 hw2.1
      exact ⟨h2.2.1, parts _ _ _ _ h2 hc hw2.2⟩
    · intro w2 hw2 w3 hw3 e
      simp only [Finset.mem_filter, Finset.mem_range] at hw2 hw3
      have h2 := hπ w2 hw2.1
      have h3 := hπ w3 hw3.1
      have e : π w2 = π w3 := e
      rw [← e] at h3
      exact (once w v (π w2) hc h2.2.1 hne (parts _ _ _ _ h2 hc hw2.2)).unique ⟨h2, hw2.2⟩ ⟨h3, hw3.2⟩
    · intro v2 hv2
      simp only [Finset.mem_filter, Finset.mem_range] at hv2
      obtain ⟨w2, ⟨h2, e2⟩, _⟩ := once w v v2 hc hv2.1 hne hv2.2
      refine ⟨w2, by simp only [Finset.mem_filter, Finset.mem_range]; exact ⟨h2.1, e2⟩, copy_unique (hπ w2 h2.1) h2⟩
    · intro w2 hw2
      simp only [Finset.mem_filter, Finset.mem_range] at hw2
      exact hfg _ _ (hπ w2 hw2.1)
  have neg : ∀ w v, CopyOf G.shape G'.shape w v → (o'.labels w < 0 ↔ o.labels v < 0) := by
    intro w v hc
    have h := vacuum w v hc
    have e := S.vacuum hc
    cases hv : G.vacuum v with
    | true => rw [l1 v hc.2.1 hv, r1 w hc.1 (e.trans hv)]
    | false =>
      have := (l2 v hc.2.1 hv).1
      have := (r2 w hc.1 (e.trans hv)).1
      omega
  refine ⟨o, o', max F1 F2, fun fuel hfu => ⟨hF1 fuel (le_of_max_le_left hfu), hF2 fuel (le_of_max_le_right hfu)⟩, vacuum, parts, once, ?_, ?_, ?_, ?_, ?_⟩
  · intro w v hc hne
    rw [b1, d1, basin (fun v => q * G.charge v) G'.charge w v hc hne S.charge, ← Finset.mul_sum, hsz]
    field_simp
  · intro w v hc hne
    rw [b2, d2]
    have := basin (fun _ => 1) (fun _ => 1) w v hc hne (fun _ _ _ => rfl)
    simp only [Finset.sum_const, nsmul_eq_mul, mul_one] at this
    rw [this, hsz, S.volume]
    field_simp
  · rw [b3, d3, sum_copies S.block (fun v => o.labels v < 0) (fun w => o'.labels w < 0) (fun v => q * G.charge v) G'.charge neg S.charge, ← Finset.mul_sum, hsz]
    field_simp
  · have := sum_copies S.block (K := K) (fun v => o.labels v < 0) (fun w => o'.labels w < 0) (fun _ => 1) (fun _ => 1) neg (fun _ _ _ => rfl)
    simp only [Finset.sum_const, nsmul_eq_mul, mul_one] at this
    rw [b4, d4, this, hsz, S.volume]
    field_simp
  · rw [(l8 T.apart).1, (r8 T.apart').1, length_maximaVox, length_maximaVox]
    have := sum_copies S.block (K := K) (fun v => getMaxima G.shape G.ref (G.nbrs.map Prod.fst) G.vacuum false A.order v = true)
      (fun v => getMaxima G'.shape G'.ref (G'.nbrs.map Prod.fst) G'.vacuum false A'.order v = true) (fun _ => 1) (fun _ => 1)
      (fun w v hc => by rw [getMaxima_isMax G' A' T.ready', getMaxima_isMax G A T.ready, S.isMax hf hc]) (fun _ _ _ => rfl)
    simp only [Finset.sum_const, nsmul_eq_mul, mul_one] at this
    exact_mod_cast this

/-- **C119** For densities, which a file stores times the volume of its cell, basins have the same charges and volumes in the supercell, there are as many of each
as cells and the totals in the vacuum are multiplied by the number of cells. -/
theorem C119_density_partial (n : ℕ × ℕ × ℕ) (k : K) (G G' : RunInput K) (A A' : RunAid K) (ε : K) (T : CellRuns n k (cellsOf n) G G' A A' ε)
    (order order' : List ℕ) (hord : IsSchedule G.shape order) (hord' : IsSchedule G'.shape order') :
    ∃ (o o' : RunOut K) (F : ℕ), (∀ fuel ≥ F, G.run A (.ongrid order) fuel = some o ∧ G'.run A' (.ongrid order') fuel = some o') ∧
      (∀ w v, CopyOf G.shape G'.shape w v → o.labels v ≠ -1 →
        o'.basins.charges (o'.labels w).toNat = o.basins.charges (o.labels v).toNat ∧
        o'.basins.volumes (o'.labels w).toNat = o.basins.volumes (o.labels v).toNat) ∧
      o'.basins.vacCharge = cellsOf n * o.basins.vacCharge ∧ o'.basins.vacVolume = cellsOf n * o.basins.vacVolume ∧
      o'.maxima.length = cellsOf n * o.maxima.length := by
  obtain ⟨o, o', F, hF, R⟩ := C119_repeats_partial n k _ G G' A A' ε T order order' hord hord'
  refine ⟨o, o', F, hF, fun w v hc hne => ⟨?_, R.volume w v hc hne⟩, R.vacCharge, R.vacVolume, R.count⟩
  rw [R.charge w v hc hne, div_self T.super.cells_pos.ne', one_mul]

/-- The run reads its grids from `g` (charge) and `r` (reference), voxels in C order. -/
structure ReadFrom (g r : GridData K) (G : RunInput K) : Prop where
  shape : G.shape = ⟨g.total.nx, g.total.ny, g.total.nz⟩
  refShape : G.shape = ⟨r.total.nx, r.total.ny, r.total.nz⟩
  volume : G.volume = g.volume
  charge : ∀ i j l : ℕ, i < G.shape.nx → j < G.shape.ny → l < G.shape.nz → G.charge (coordsToFlat G.shape (i, j, l)).toNat = g.total.val i j l
  ref : ∀ i j l : ℕ, i < G.shape.nx → j < G.shape.ny → l < G.shape.nz → G.ref (coordsToFlat G.shape (i, j, l)).toNat = r.total.val i j l

theorem flat_nat {s : Shape} {v : ℕ} (hv : v < s.size) : ∃ i j l : ℕ, i < s.nx ∧ j < s.ny ∧ l < s.nz ∧ flatToCoords s v = ((i : ℤ), (j : ℤ), (l : ℤ)) ∧
    v = (coordsToFlat s (i, j, l)).toNat := by
  obtain ⟨⟨x0, x1⟩, ⟨y0, y1⟩, ⟨z0, z1⟩⟩ := flat_inRange hv
  have e := coordsToFlat_flatToCoords (s := s) (v : ℤ)
  rcases hc : flatToCoords s v with ⟨a, b, d⟩
  rw [hc] at x0 x1 y0 y1 z0 z1 e
  dsimp only at x0 x1 y0 y1 z0 z1
  lift a to ℕ using x0
  lift b to ℕ using y0
  lift d to ℕ using z0
  exact ⟨a, b, d, by exact_mod_cast x1, by exact_mod_cast y1, by exact_mod_cast z1, rfl, by rw [e]; simp⟩

theorem copy_nat {n : ℕ × ℕ × ℕ} {s s' : Shape} (h : BlockOf n s s') {i j l : ℕ} (hi : i < s'.nx) (hj : j < s'.ny) (hl : l < s'.nz) {v : ℕ}
    (hc : CopyOf s s' (coordsToFlat s' (i, j, l)).toNat v) : v = (coordsToFlat s ((i % s.nx : ℕ), (j % s.ny : ℕ), (l % s.nz : ℕ))).toNat := by
  obtain ⟨q1, q2, q3⟩ := pos_of_lt_size hc.2.1
  have hR : InRange s' ((i : ℤ), (j : ℤ), (l : ℤ)) := by unfold InRange; dsimp only; omega
  have hr : InRange s (((i % s.nx : ℕ) : ℤ), ((j % s.ny : ℕ) : ℤ), ((l % s.nz : ℕ) : ℤ)) := by
    have := Nat.mod_lt i q1; have := Nat.mod_lt j q2; have := Nat.mod_lt l q3
    unfold InRange; dsimp only; omega
  have e1 : flatToCoords s' ((coordsToFlat s' (i, j, l)).toNat : ℤ) = ((i : ℤ), (j : ℤ), (l : ℤ)) := by
    rw [Int.toNat_of_nonneg (coordsToFlat_range hR).1, flatToCoords_coordsToFlat hR]
  have e2 : flatToCoords s (((coordsToFlat s ((i % s.nx : ℕ), (j % s.ny : ℕ), (l % s.nz : ℕ))).toNat : ℕ) : ℤ) = (((i % s.nx : ℕ) : ℤ), ((j % s.ny : ℕ) : ℤ), ((l % s.nz : ℕ) : ℤ)) := by
    rw [Int.toNat_of_nonneg (coordsToFlat_range hr).1, flatToCoords_coordsToFlat hr]
  refine copy_unique hc ⟨hc.1, ?_, ?_⟩
  · obtain ⟨g1, g2⟩ := coordsToFlat_range hr
    omega
  · rw [e1, e2]
    have key : ∀ a m : ℕ, (a : ℤ) = ((a % m : ℕ) : ℤ) + ((a / m : ℕ) : ℤ) * m := by
      intro a m
      have := Nat.mod_add_div a m
      rw [mul_comm] at this
      exact_mod_cast this.symm
    exact ⟨⟨_, key i s.nx⟩, ⟨_, key j s.ny⟩, ⟨_, key l s.nz⟩⟩

/-- **C119** (negative part) `make_supercell` copies the stored values without multiplying them: when both grids of a run without vacuum are replaced by their
supercells, each charge is that of the cell divided by the number of cells. -/
theorem C119_tiled (n : ℕ × ℕ × ℕ) (hn : 0 < n.1 ∧ 0 < n.2.1 ∧ 0 < n.2.2) (g g' r r' : GridData K) (hg : g.diff = none) (hr : r.diff = none)
    (hg' : makeSupercell g n = .ok g') (hr' : makeSupercell r n = .ok r') (G G' : RunInput K) (hG : ReadFrom g r G) (hG' : ReadFrom g' r' G')
    (hnb : G'.nbrs = G.nbrs) (ht : G.tol = none) (ht' : G'.tol = none) (hu : G'.useRef = G.useRef) (A A' : RunAid K) (ε : K)
    (ready : RunReady G A ε) (ready' : RunReady G' A' ε) (two : TwoSided G.nbrs) (peaked : G.Peaked) (apart : A.Apart G) (apart' : A'.Apart G')
    (sorted : ∀ l, (A.sortMax l).Pairwise fun a b => G.ref b ≤ G.ref a) (sorted' : ∀ l, (A'.sortMax l).Pairwise fun a b => G'.ref b ≤ G'.ref a)
    (order order' : List ℕ) (hord : IsSchedule G.shape order) (hord' : IsSchedule G'.shape order') :
    ∃ (o o' : RunOut K) (F : ℕ), (∀ fuel ≥ F, G.run A (.ongrid order) fuel = some o ∧ G'.run A' (.ongrid order') fuel = some o') ∧
      ∀ w v, CopyOf G.shape G'.shape w v →
        cellsOf n * o'.basins.charges (o'.labels w).toNat = o.basins.charges (o.labels v).toNat := by
  obtain ⟨g2, a1, _, a2, a3, a4, a5, a6, _⟩ := C32_supercell_partial g hg n hn
  rw [hg'] at a1; cases a1
  obtain ⟨r2, b1, _, b2, b3, b4, b5, b6, _⟩ := C32_supercell_partial r hr n hn
  rw [hr'] at b1; cases b1
  have sx : ∀ {a : Shape} {x y z : ℕ}, a = ⟨x, y, z⟩ → a.nx = x ∧ a.ny = y ∧ a.nz = z := by rintro a x y z rfl; exact ⟨rfl, rfl, rfl⟩
  obtain ⟨u1, u2, u3⟩ := sx hG.shape
  obtain ⟨v1, v2, v3⟩ := sx hG'.shape
  obtain ⟨u1', u2', u3'⟩ := sx hG.refShape
  obtain ⟨v1', v2', v3'⟩ := sx hG'.refShape
  have hB : BlockOf n G.shape G'.shape := ⟨by rw [v1, u1, a2], by rw [v2, u2, a3], by rw [v3, u3, a4], hn⟩
  have hS : SupercellOf n (1 : K) 1 G G' := by
    refine ⟨hB, hnb, ?_, by rw [ht, ht'], hu, one_pos, ?_, ?_, fun h => absurd ht h⟩
    · rw [hG'.volume, a5, hG.volume, cellsOf]; push_cast; ring
    · intro w v hc
      obtain ⟨i, j, l, hi, hj, hl, _, rfl⟩ := flat_nat hc.1
      obtain ⟨q1, q2, q3⟩ := pos_of_lt_size hc.2.1
      rw [hG'.ref i j l hi hj hl, b6 i j l (by omega) (by omega) (by omega), copy_nat hB hi hj hl hc,
        hG.ref _ _ _ (Nat.mod_lt _ q1) (Nat.mod_lt _ q2) (Nat.mod_lt _ q3), u1', u2', u3', one_mul]
    · intro w v hc
      obtain ⟨i, j, l, hi, hj, hl, _, rfl⟩ := flat_nat hc.1
      obtain ⟨q1, q2, q3⟩ := pos_of_lt_size hc.2.1
      rw [hG'.charge i j l hi hj hl, a6 i j l (by omega) (by omega) (by omega), copy_nat hB hi hj hl hc,
        hG.charge _ _ _ (Nat.mod_lt _ q1) (Nat.mod_lt _ q2) (Nat.mod_lt _ q3), u1, u2, u3, one_mul]
  have T : CellRuns n (1 : K) 1 G G' A A' ε := ⟨hS, ready, ready', two, peaked, apart, apart', sorted, sorted'⟩
  obtain ⟨o, o', F, hF, R⟩ := C119_repeats_partial n 1 1 G G' A A' ε T order order' hord hord'
  refine ⟨o, o', F, hF, fun w v hc => ?_⟩
  have hne : o.labels v ≠ -1 := by
    obtain ⟨o2, F2, hF2, _, l1, l2, _⟩ := ongrid_groups G A ε ready order hord two (fun v w hv hw _ => peaked v w hv hw) (.ofApart apart sorted)
    have e := (hF (max F F2) (le_max_left _ _)).1
    rw [hF2 _ (le_max_right _ _)] at e
    cases e
    have := (l2 v hc.2.1 (by simp [RunInput.vacuum, ht])).1
    omega
  rw [R.charge w v hc hne]
  have := hS.cells_pos.ne'
  field_simp

/-! ## Concrete crystals, and what goes wrong -/

theorem line_copy {L m w v : ℕ} (h : CopyOf ⟨L, 1, 1⟩ ⟨m * L, 1, 1⟩ w v) : w < m * L ∧ v = w % L := by
  obtain ⟨h1, h2, ⟨a, ha⟩, _⟩ := h
  have h1 : w < m * L * 1 * 1 := h1
  have h2 : v < L * 1 * 1 := h2
  refine ⟨by omega, ?_⟩
  simp only [flatToCoords, Int.fdiv_one, Nat.cast_one, mul_one] at ha
  have e : (w : ℤ) % L = v := by
    rw [ha, Int.add_mul_emod_self_right]
    exact Int.emod_eq_of_lt (by omega) (by omega)
  exact_mod_cast e.symm

theorem lineRun_super (m : ℕ) (hm : 0 < m) (l l' : List ℚ) (hl : l'.length = m * l.length) (atoms atoms' : List (V3 ℚ)) (tol : Option ℚ)
    (h : ∀ w < m * l.length, l'.getD w 0 = m * l.getD (w % l.length) 0) :
    SupercellOf (m, 1, 1) (m : ℚ) m (lineRun l atoms tol) (lineRun l' atoms' tol) := by
  refine ⟨⟨hl, rfl, rfl, hm, Nat.one_pos, Nat.one_pos⟩, rfl, ?_, rfl, rfl, by exact_mod_cast hm, ?_, ?_, fun _ => ?_⟩
  · show ((l'.length : ℕ) : ℚ) = ((m * 1 * 1 : ℕ) : ℚ) * (l.length : ℕ)
    rw [hl]; push_cast; ring
  · intro w v hc
    simp only [lineRun, hl] at hc
    obtain ⟨h1, rfl⟩ := line_copy hc
    exact h w h1
  · intro w v hc
    simp only [lineRun, hl] at hc
    obtain ⟨h1, rfl⟩ := line_copy hc
    exact h w h1
  · show (m : ℚ) = ((m * 1 * 1 : ℕ) : ℚ)
    simp

theorem lineAid_apart (l : List ℚ) (G : RunInput ℚ) : (lineAid l fun _ _ => false).Apart G := fun _ _ _ _ _ => rfl

theorem line_peaked (l : List ℚ) (hl : 2 ≤ l.length) (atoms : List (V3 ℚ)) (tol : Option ℚ)
    (h : ∀ v < l.length, (∀ t ∈ ring2.map Prod.fst, l.getD (nbr ⟨l.length, 1, 1⟩ v t) 0 ≤ l.getD v 0) →
      ∀ t ∈ ring2.map Prod.fst, l.getD (nbr ⟨l.length, 1, 1⟩ v t) 0 < l.getD v 0) : (lineRun l atoms tol).Peaked := by
  have hf := fitsOf (lineRun_ready l hl [(0, 0, 0)] (by simp) tol fun _ _ => false).fits
  intro v w hv hw
  have hv1 : v < l.length * 1 * 1 := hv.1
  obtain ⟨t, ht, rfl⟩ := (isNbr_iff hf hv.1).mp hw
  exact h v (by omega) (fun t ht => hv.2.2 _ ((isNbr_iff hf hv.1).mpr ⟨t, ht, rfl⟩)) t ht

/-- A ring of four voxels with two peaks and one voxel of vacuum, and three such cells in a row: the hypotheses hold and the results are those claimed. -/
example : CellRuns (3, 1, 1) (3 : ℚ) (cellsOf (3, 1, 1)) (lineRun [5, 2, 3, 1] [(0, 0, 0)] (some (3 / 8)))
      (lineRun [15, 6, 9, 3, 15, 6, 9, 3, 15, 6, 9, 3] [(0, 0, 0), (1 / 3, 0, 0), (2 / 3, 0, 0)] (some (3 / 8)))
      (lineAid [5, 2, 3, 1] fun _ _ => false) (lineAid [15, 6, 9, 3, 15, 6, 9, 3, 15, 6, 9, 3] fun _ _ => false) 0 ∧
    ((lineRun [5, 2, 3, 1] [(0, 0, 0)] (some (3 / 8))).run (lineAid [5, 2, 3, 1] fun _ _ => false) (.ongrid (List.range 4)) 50).map
      (lineNumbers 4 1) = some ([0, 2], [0, 0, 1, -1], [7 / 4, 3 / 4], [0, 0, 0, -1], [5 / 2]) ∧
    ((lineRun [15, 6, 9, 3, 15, 6, 9, 3, 15, 6, 9, 3] [(0, 0, 0), (1 / 3, 0, 0), (2 / 3, 0, 0)] (some (3 / 8))).run
      (lineAid [15, 6, 9, 3, 15, 6, 9, 3, 15, 6, 9, 3] fun _ _ => false) (.ongrid (List.range 12)) 50).map (fun o => (lineNumbers 12 3 o).2.2.1) =
        some [7 / 4, 3 / 4, 7 / 4, 3 / 4, 7 / 4, 3 / 4] := by
  refine ⟨⟨?_, lineRun_ready _ (by decide) _ (by simp) _ _, lineRun_ready _ (by decide) _ (by simp) _ _, by unfold TwoSided; decide, ?_, lineAid_apart _ _,
    lineAid_apart _ _, lineAid_sorted _ _, lineAid_sorted _ _⟩, by decide +kernel, by decide +kernel⟩
  · have := lineRun_super 3 (by decide) [5, 2, 3, 1] [15, 6, 9, 3, 15, 6, 9, 3, 15, 6, 9, 3] rfl [(0, 0, 0)] [(0, 0, 0), (1 / 3, 0, 0), (2 / 3, 0, 0)] (some (3 / 8))
      (by decide +kernel)
    simpa [cellsOf] using this
  · exact line_peaked _ (by decide) _ _ (by decide +kernel)

/-- The hypotheses of `C119_tiled`: the ring of four voxels as a grid, doubled with `make_supercell`. -/
example : ∃ g g' : GridData ℚ, g.diff = none ∧ makeSupercell g (2, 1, 1) = .ok g' ∧ ReadFrom g g (lineRun [5, 2, 3, 1] [(0, 0, 0)] none) ∧
    ReadFrom g' g' (lineRun [5, 2, 3, 1, 5, 2, 3, 1] [(0, 0, 0), (1 / 2, 0, 0)] none) := by
  let g : GridData ℚ := ⟨⟨4, 1, 1, fun i _ _ => [5, 2, 3, 1].getD i 0⟩, none, 4, 4⟩
  obtain ⟨g', h1, _, h2, h3, h4, h5, h6, _⟩ := C32_supercell_partial g rfl (2, 1, 1) ⟨by decide, by decide, by decide⟩
  have flat : ∀ (s : Shape) (i j l : ℕ), s.ny = 1 → s.nz = 1 → j < s.ny → l < s.nz → (coordsToFlat s (i, j, l)).toNat = i := by
    intro s i j l hy hz hj hl
    have : j = 0 := by omega
    have : l = 0 := by omega
    subst_vars
    simp [coordsToFlat, hy, hz]
  have val : ∀ i j l, i < 8 → j < 1 → l < 1 → ([5, 2, 3, 1, 5, 2, 3, 1] : List ℚ).getD i 0 = g'.total.val i j l := by
    intro i j l hi hj hl
    rw [h6 i j l (by rw [h2]; exact hi) (by rw [h3]; exact hj) (by rw [h4]; exact hl)]
    have key : ∀ i < 8, ([5, 2, 3, 1, 5, 2, 3, 1] : List ℚ).getD i 0 = ([5, 2, 3, 1] : List ℚ).getD (i % 4) 0 := by decide +kernel
    exact key i hi
  refine ⟨g, g', rfl, h1, ⟨rfl, rfl, by norm_num [lineRun, g], ?_, ?_⟩, ⟨?_, ?_, ?_, ?_, ?_⟩⟩
  · intro i j l hi hj hl
    rw [flat _ i j l rfl rfl hj hl]; rfl
  · intro i j l hi hj hl
    rw [flat _ i j l rfl rfl hj hl]; rfl
  · rw [h2, h3, h4]; rfl
  · rw [h2, h3, h4]; rfl
  · rw [h5]; norm_num [lineRun, g]
  · intro i j l hi hj hl
    rw [flat _ i j l rfl rfl hj hl]
    exact val i j l hi hj hl
  · intro i j l hi hj hl
    rw [flat _ i j l rfl rfl hj hl]
    exact val i j l hi hj hl

/-- **C119** (negative part) A flat maximum that runs through the cell is one basin in the supercell as well, with the charge of all cells: a density without
structure in a cell of two voxels and in two such cells. -/
theorem C119_plateau : ∃ (G G' : RunInput ℚ) (A A' : RunAid ℚ), SupercellOf (2, 1, 1) 2 2 G G' ∧ RunReady G A 0 ∧ RunReady G' A' 0 ∧ TwoSided G.nbrs ∧
    A.Apart G ∧ A'.Apart G' ∧
    (G.run A (.ongrid (List.range 2)) 50).map (fun o => (o.maxima.length, o.basins.charges 0)) = some (1, 1) ∧
    (G'.run A' (.ongrid (List.range 4)) 50).map (fun o => (o.maxima.length, o.basins.charges 0)) = some (1, 2) := by
  refine ⟨lineRun [1, 1] [(0, 0, 0)] none, lineRun [2, 2, 2, 2] [(0, 0, 0), (1 / 2, 0, 0)] none, lineAid [1, 1] fun _ _ => false, lineAid [2, 2, 2, 2] fun _ _ => false,
    ?_, lineRun_ready _ (by decide) _ (by simp) _ _, lineRun_ready _ (by decide) _ (by simp) _ _, by unfold TwoSided; decide, lineAid_apart _ _, lineAid_apart _ _,
    by decide +kernel, by decide +kernel⟩
  simpa using lineRun_super 2 (by decide) [1, 1] [2, 2, 2, 2] rfl [(0, 0, 0)] [(0, 0, 0), (1 / 2, 0, 0)] none (by decide +kernel)

end BaderKit
