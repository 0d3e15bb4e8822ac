import Verif.Model.Regrid
import Verif.Props.Interp
import Verif.Props.GridOps
import Verif.Props.CubeFraction
import Verif.Lemmas.Neargrid
/-! # Properties C93 and C94: regridding, values at points -/
set_option linter.unusedSectionVars false
namespace BaderKit
variable {K : Type*} [Field K] [LinearOrder K] [IsStrictOrderedRing K] [FloorRing K]

/-! ## Specification -/

/-- The shape of an array. -/
def Arr3.shape {α : Type*} (a : Arr3 α) : ℕ × ℕ × ℕ := (a.nx, a.ny, a.nz)

/-- The field that an array stands for: its interpolated value at a fractional coordinate. -/
def fieldOf (interp : Arr3 K → V3 K → K) (a : Arr3 K) (x : V3 K) : K := interp a (fracToGrid a.shape x)

/-- The interpolation goes through the data. -/
def ThroughData (interp : Arr3 K → V3 K → K) (a : Arr3 K) : Prop :=
  ∀ i j k : ℕ, interp a ((i : K), (j : K), (k : K)) = a.val i j k

/-- Half the difference of the widths of the voxels, in fractional coordinates. -/
def halfDiff (m n : ℕ × ℕ × ℕ) : V3 K :=
  ((1 / (m.1 : K) - 1 / (n.1 : K)) / 2, (1 / (m.2.1 : K) - 1 / (n.2.1 : K)) / 2, (1 / (m.2.2 : K) - 1 / (n.2.2 : K)) / 2)

/-- The ratio of two shapes. -/
def ratio (m n : ℕ × ℕ × ℕ) : V3 K := ((m.1 : K) / (n.1 : K), (m.2.1 : K) / (n.2.1 : K), (m.2.2 : K) / (n.2.2 : K))

/-! ## The array -/

theorem zoom_size {n m : ℕ} (hn : 0 < n) : (roundHE ((n : K) * ((m : K) / (n : K)))).toNat = m := by
  have : (n : K) * ((m : K) / (n : K)) = ((m : ℤ) : K) := by
    have : (n : K) ≠ 0 := Nat.cast_ne_zero.mpr (by omega)
    field_simp
    simp
  rw [this, roundHE_intCast]
  simp

theorem zoomCoord_frac {n m o : ℕ} (hn : 0 < n) (hm : 0 < m) :
    zoomCoord n m o = ((o : K) / (m : K) + (1 / (m : K) - 1 / (n : K)) / 2) * (n : K) := by
  have h1 : (n : K) ≠ 0 := Nat.cast_ne_zero.mpr (by omega)
  have h2 : (m : K) ≠ 0 := Nat.cast_ne_zero.mpr (by omega)
  unfold zoomCoord
  field_simp
  ring

/-- **C93** The new array has the requested shape, and each of its values is the value of the old field not at the position of the voxel but at
that position plus half the difference of the widths of the voxels. -/
theorem C93_position (interp : Arr3 K → V3 K → K) (a : Arr3 K) (ha : a.NonEmpty) (m : ℕ × ℕ × ℕ) (hm : 0 < m.1 ∧ 0 < m.2.1 ∧ 0 < m.2.2) :
    (zoomGrid interp a (ratio m a.shape)).shape = m ∧
    ∀ i j k : ℕ, (zoomGrid interp a (ratio m a.shape)).val i j k =
      fieldOf interp a (addV (gridToFrac m ((i : K), (j : K), (k : K))) (halfDiff m a.shape)) := by
  obtain ⟨h1, h2, h3⟩ := ha
  obtain ⟨m1, m2, m3⟩ := m
  simp only at hm
  constructor
  · simp only [zoomGrid, ratio, Arr3.shape]
    rw [zoom_size h1, zoom_size h2, zoom_size h3]
  · intro i j k
    simp only [zoomGrid, ratio, Arr3.shape, fieldOf, fracToGrid, addV, gridToFrac, halfDiff]
    rw [zoom_size h1, zoom_size h2, zoom_size h3, zoomCoord_frac h1 hm.1, zoomCoord_frac h2 hm.2.1, zoomCoord_frac h3 hm.2.2]

/-- **C93** The values belong to the positions of the voxels for every axis whose size is kept, and for no other. -/
theorem C93_shift_zero (m n : ℕ × ℕ × ℕ) (hm : 0 < m.1 ∧ 0 < m.2.1 ∧ 0 < m.2.2) (hn : 0 < n.1 ∧ 0 < n.2.1 ∧ 0 < n.2.2) :
    (((halfDiff m n : V3 K).1 = 0 ↔ m.1 = n.1) ∧ ((halfDiff m n : V3 K).2.1 = 0 ↔ m.2.1 = n.2.1) ∧
      ((halfDiff m n : V3 K).2.2 = 0 ↔ m.2.2 = n.2.2)) := by
  have key : ∀ x y : ℕ, 0 < x → 0 < y → ((1 / (x : K) - 1 / (y : K)) / 2 = 0 ↔ x = y) := by
    intro x y hx hy
    have h1 : (x : K) ≠ 0 := Nat.cast_ne_zero.mpr (by omega)
    have h2 : (y : K) ≠ 0 := Nat.cast_ne_zero.mpr (by omega)
    constructor
    · intro h
      have : 1 / (x : K) = 1 / (y : K) := by linarith
      have : (x : K) = (y : K) := by
        field_simp at this
        exact this.symm
      exact_mod_cast this
    · rintro rfl
      ring
  exact ⟨key _ _ hm.1 hn.1, key _ _ hm.2.1 hn.2.1, key _ _ hm.2.2 hn.2.2⟩

/-- **C93** With the shape unchanged the data are unchanged. -/
theorem C93_same_shape (interp : Arr3 K → V3 K → K) (a : Arr3 K) (ha : a.NonEmpty) (hi : ThroughData interp a) :
    zoomGrid interp a (ratio a.shape a.shape) = a := by
  obtain ⟨nx, ny, nz, v⟩ := a
  obtain ⟨h1, h2, h3⟩ := ha
  simp only at h1 h2 h3
  have e : ∀ {n : ℕ} (o : ℕ), 0 < n → zoomCoord (K := K) n n o = (o : K) := by
    intro n o hn
    have : (n : K) ≠ 0 := Nat.cast_ne_zero.mpr (by omega)
    unfold zoomCoord
    rw [div_self this]
    ring
  simp only [zoomGrid, ratio, Arr3.shape]
  rw [zoom_size h1, zoom_size h2, zoom_size h3]
  simp only [e _ h1, e _ h2, e _ h3, Arr3.mk.injEq, true_and]
  funext i j k
  exact hi i j k

theorem zoomCoord_mul {n c o : ℕ} (hn : 0 < n) (hc : 0 < c) : zoomCoord (K := K) n (c * n) o = ((o : K) + 1 / 2) / (c : K) - 1 / 2 := by
  have h1 : (n : K) ≠ 0 := Nat.cast_ne_zero.mpr (by omega)
  have h2 : (c : K) ≠ 0 := Nat.cast_ne_zero.mpr (by omega)
  unfold zoomCoord
  push_cast
  field_simp

/-- **C93** On a grid that is `c` times finer, voxel `c * i` is at the place of the old voxel `i`, but it is voxel `o` with
`2 * o + 1 = c * (2 * i + 1)` that is computed there; with an even factor none of the old values is found again. -/
theorem C93_finer {n c : ℕ} (hn : 0 < n) (hc : 0 < c) :
    (∀ i : ℕ, ((c * i : ℕ) : K) / ((c * n : ℕ) : K) = (i : K) / (n : K)) ∧
    (∀ o : ℕ, ∀ i : ℤ, zoomCoord (K := K) n (c * n) o = (i : K) ↔ (2 * o + 1 : ℤ) = c * (2 * i + 1)) ∧
    (Even c → ∀ o : ℕ, ∀ i : ℤ, zoomCoord (K := K) n (c * n) o ≠ (i : K)) ∧
    (Odd c → ∀ i : ℕ, zoomCoord (K := K) n (c * n) (c * i + c / 2) = (i : K)) := by
  have h1 : (n : K) ≠ 0 := Nat.cast_ne_zero.mpr (by omega)
  have h2 : (c : K) ≠ 0 := Nat.cast_ne_zero.mpr (by omega)
  have key : ∀ o : ℕ, ∀ i : ℤ, zoomCoord (K := K) n (c * n) o = (i : K) ↔ (2 * o + 1 : ℤ) = c * (2 * i + 1) := by
    intro o i
    rw [zoomCoord_mul hn hc]
    have e : ((o : K) + 1 / 2) / (c : K) - 1 / 2 = (i : K) ↔ (2 * (o : K) + 1) = (c : K) * (2 * (i : K) + 1) := by
      constructor
      · intro h
        have : ((o : K) + 1 / 2) / (c : K) = (i : K) + 1 / 2 := by linarith
        rw [div_eq_iff h2] at this
        linear_combination 2 * this
      · intro h
        have : ((o : K) + 1 / 2) / (c : K) = (i : K) + 1 / 2 := by
          rw [div_eq_iff h2]
          linear_combination h / 2
        linarith
    rw [e]
    constructor
    · intro h; exact_mod_cast h
    · intro h; exact_mod_cast h
  refine ⟨fun i => ?_, key, ?_, ?_⟩
  · push_cast
    field_simp
  · rintro ⟨d, rfl⟩ o i h
    have := (key o i).mp h
    have : (2 * o + 1 : ℤ) = 2 * (d * (2 * i + 1)) := by rw [this]; push_cast; ring
    omega
  · rintro ⟨d, rfl⟩ i
    have h := (key ((2 * d + 1) * i + (2 * d + 1) / 2) (i : ℤ)).mpr (by
      have : (2 * d + 1) / 2 = d := by omega
      rw [this]
      push_cast
      ring)
    simpa using h

/-! ## The charge -/

theorem sum_finer (g : K → K) (c : ℕ) (hc : 0 < c) (n : ℕ) :
    ∑ o ∈ Finset.range (c * n), g (((o : K) + 1 / 2) / (c : K) - 1 / 2) =
      ∑ r ∈ Finset.range c, ∑ i ∈ Finset.range n, g ((i : K) + (((r : K) + 1 / 2) / (c : K) - 1 / 2)) := by
  induction n with
  | zero => simp
  | succ n ih =>
    rw [Nat.mul_succ, Finset.sum_range_add, ih]
    simp only [Finset.sum_range_succ, Finset.sum_add_distrib]
    congr 1
    refine Finset.sum_congr rfl fun r _ => ?_
    congr 1
    have h2 : (c : K) ≠ 0 := Nat.cast_ne_zero.mpr (by omega)
    push_cast
    field_simp
    ring

/-- The sum of an interpolated array over all translates of a point by voxels is the sum of the data. -/
def KeepsSum (interp : Arr3 K → V3 K → K) (a : Arr3 K) : Prop :=
  ∀ t : V3 K, ∑ i ∈ Finset.range a.nx, ∑ j ∈ Finset.range a.ny, ∑ k ∈ Finset.range a.nz,
    interp a ((i : K) + t.1, (j : K) + t.2.1, (k : K) + t.2.2) =
      ∑ i ∈ Finset.range a.nx, ∑ j ∈ Finset.range a.ny, ∑ k ∈ Finset.range a.nz, a.val i j k

/-- **C93** The charge of the cell is kept if every axis is refined by a whole factor. -/
theorem C93_charge_whole_factors (interp : Arr3 K → V3 K → K) (a : Arr3 K) (ha : a.NonEmpty) (hs : KeepsSum interp a) (c : ℕ × ℕ × ℕ)
    (hc : 0 < c.1 ∧ 0 < c.2.1 ∧ 0 < c.2.2) :
    cellCharge (zoomGrid interp a (ratio (c.1 * a.nx, c.2.1 * a.ny, c.2.2 * a.nz) a.shape)) = cellCharge a := by
  obtain ⟨c1, c2, c3⟩ := c
  obtain ⟨hc1, hc2, hc3⟩ := hc
  obtain ⟨h1, h2, h3⟩ := ha
  simp only at hc1 hc2 hc3
  rw [cellCharge_eq, cellCharge_eq]
  simp only [zoomGrid, ratio, Arr3.shape]
  rw [zoom_size h1, zoom_size h2, zoom_size h3]
  simp only [zoomCoord_mul h1 hc1, zoomCoord_mul h2 hc2, zoomCoord_mul h3 hc3]
  have e3 : ∀ x y : K, ∑ k ∈ Finset.range (c3 * a.nz), interp a (x, y, ((k : K) + 1 / 2) / (c3 : K) - 1 / 2) =
      ∑ r ∈ Finset.range c3, ∑ k ∈ Finset.range a.nz, interp a (x, y, (k : K) + (((r : K) + 1 / 2) / (c3 : K) - 1 / 2)) :=
    fun x y => sum_finer (fun z => interp a (x, y, z)) c3 hc3 a.nz
  simp only [e3]
  have e2 : ∀ x : K, ∑ j ∈ Finset.range (c2 * a.ny), ∑ r ∈ Finset.range c3, ∑ k ∈ Finset.range a.nz,
        interp a (x, ((j : K) + 1 / 2) / (c2 : K) - 1 / 2, (k : K) + (((r : K) + 1 / 2) / (c3 : K) - 1 / 2)) =
      ∑ q ∈ Finset.range c2, ∑ j ∈ Finset.range a.ny, ∑ r ∈ Finset.range c3, ∑ k ∈ Finset.range a.nz,
        interp a (x, (j : K) + (((q : K) + 1 / 2) / (c2 : K) - 1 / 2), (k : K) + (((r : K) + 1 / 2) / (c3 : K) - 1 / 2)) :=
    fun x => sum_finer (fun y => ∑ r ∈ Finset.range c3, ∑ k ∈ Finset.range a.nz,
      interp a (x, y, (k : K) + (((r : K) + 1 / 2) / (c3 : K) - 1 / 2))) c2 hc2 a.ny
  simp only [e2]
  have e1 := sum_finer (fun x => ∑ q ∈ Finset.range c2, ∑ j ∈ Finset.range a.ny, ∑ r ∈ Finset.range c3, ∑ k ∈ Finset.range a.nz,
        interp a (x, (j : K) + (((q : K) + 1 / 2) / (c2 : K) - 1 / 2), (k : K) + (((r : K) + 1 / 2) / (c3 : K) - 1 / 2))) c1 hc1 a.nx
  rw [e1]
  have e4 : ∑ p ∈ Finset.range c1, ∑ i ∈ Finset.range a.nx, ∑ q ∈ Finset.range c2, ∑ j ∈ Finset.range a.ny,
        ∑ r ∈ Finset.range c3, ∑ k ∈ Finset.range a.nz, interp a ((i : K) + (((p : K) + 1 / 2) / (c1 : K) - 1 / 2),
          (j : K) + (((q : K) + 1 / 2) / (c2 : K) - 1 / 2), (k : K) + (((r : K) + 1 / 2) / (c3 : K) - 1 / 2)) =
      ∑ p ∈ Finset.range c1, ∑ q ∈ Finset.range c2, ∑ r ∈ Finset.range c3, ∑ i ∈ Finset.range a.nx, ∑ j ∈ Finset.range a.ny,
        ∑ k ∈ Finset.range a.nz, interp a ((i : K) + (((p : K) + 1 / 2) / (c1 : K) - 1 / 2),
          (j : K) + (((q : K) + 1 / 2) / (c2 : K) - 1 / 2), (k : K) + (((r : K) + 1 / 2) / (c3 : K) - 1 / 2)) := by
    refine Finset.sum_congr rfl fun p _ => ?_
    rw [Finset.sum_comm]
    refine Finset.sum_congr rfl fun q _ => ?_
    rw [← Finset.sum_comm]
    rw [Finset.sum_comm]
    calc _ = ∑ i ∈ Finset.range a.nx, ∑ r ∈ Finset.range c3, ∑ j ∈ Finset.range a.ny,
        ∑ k ∈ Finset.range a.nz, interp a ((i : K) + (((p : K) + 1 / 2) / (c1 : K) - 1 / 2),
          (j : K) + (((q : K) + 1 / 2) / (c2 : K) - 1 / 2), (k : K) + (((r : K) + 1 / 2) / (c3 : K) - 1 / 2)) :=
          Finset.sum_congr rfl fun i _ => Finset.sum_comm
      _ = _ := Finset.sum_comm
  rw [e4]
  have e5 : ∀ p q r : ℕ, _ := fun p q r => hs (((p : K) + 1 / 2) / (c1 : K) - 1 / 2, ((q : K) + 1 / 2) / (c2 : K) - 1 / 2,
    ((r : K) + 1 / 2) / (c3 : K) - 1 / 2)
  simp only at e5
  simp only [e5, Finset.sum_const, Finset.card_range, nsmul_eq_mul]
  have g1 : (a.nx : K) ≠ 0 := Nat.cast_ne_zero.mpr (by omega)
  have g2 : (a.ny : K) ≠ 0 := Nat.cast_ne_zero.mpr (by omega)
  have g3 : (a.nz : K) ≠ 0 := Nat.cast_ne_zero.mpr (by omega)
  have k1 : (c1 : K) ≠ 0 := Nat.cast_ne_zero.mpr (by omega)
  have k2 : (c2 : K) ≠ 0 := Nat.cast_ne_zero.mpr (by omega)
  have k3 : (c3 : K) ≠ 0 := Nat.cast_ne_zero.mpr (by omega)
  push_cast
  field_simp

theorem sum_rotate {M : Type*} [AddCommMonoid M] (n : ℕ) (s : ℤ) (f : ℕ → M) :
    ∑ i ∈ Finset.range n, f ((((i : ℤ) + s) % n).toNat) = ∑ i ∈ Finset.range n, f i := by
  rcases Nat.eq_zero_or_pos n with rfl | hn
  · simp
  have hz : (n : ℤ) ≠ 0 := by omega
  refine Finset.sum_nbij' (fun i : ℕ => (((i : ℤ) + s) % n).toNat) (fun i : ℕ => (((i : ℤ) - s) % n).toNat) ?_ ?_ ?_ ?_ ?_
  · intro i _
    have := Int.emod_lt_of_pos ((i : ℤ) + s) (by omega : (0 : ℤ) < n)
    have := Int.emod_nonneg ((i : ℤ) + s) hz
    rw [Finset.mem_range]; omega
  · intro i _
    have := Int.emod_lt_of_pos ((i : ℤ) - s) (by omega : (0 : ℤ) < n)
    have := Int.emod_nonneg ((i : ℤ) - s) hz
    rw [Finset.mem_range]; omega
  · intro i hi
    rw [Finset.mem_range] at hi
    rw [Int.toNat_of_nonneg (Int.emod_nonneg _ hz), Int.emod_sub_emod, add_sub_cancel_right,
      Int.emod_eq_of_lt (by omega) (by omega)]
    simp
  · intro i hi
    rw [Finset.mem_range] at hi
    rw [Int.toNat_of_nonneg (Int.emod_nonneg _ hz), Int.emod_add_emod, sub_add_cancel,
      Int.emod_eq_of_lt (by omega) (by omega)]
    simp
  · intro i _; rfl

theorem periodic_sum_shift (a : Arr3 K) (x y z : ℤ) :
    ∑ i ∈ Finset.range a.nx, ∑ j ∈ Finset.range a.ny, ∑ k ∈ Finset.range a.nz, a.periodic (i + x) (j + y) (k + z) =
      ∑ i ∈ Finset.range a.nx, ∑ j ∈ Finset.range a.ny, ∑ k ∈ Finset.range a.nz, a.val i j k := by
  unfold Arr3.periodic
  rw [sum_rotate a.nx x (fun i => ∑ j ∈ Finset.range a.ny, ∑ k ∈ Finset.range a.nz,
    a.val i (((j : ℤ) + y) % a.ny).toNat (((k : ℤ) + z) % a.nz).toNat)]
  refine Finset.sum_congr rfl fun i _ => ?_
  rw [sum_rotate a.ny y (fun j => ∑ k ∈ Finset.range a.nz, a.val i j (((k : ℤ) + z) % a.nz).toNat)]
  exact Finset.sum_congr rfl fun j _ => sum_rotate a.nz z (fun k => a.val i j k)

/-- The sum of the translates of the spline of any coefficients is the sum of the coefficients. -/
theorem spline_sum (c : Arr3 K) (t : V3 K) :
    ∑ i ∈ Finset.range c.nx, ∑ j ∈ Finset.range c.ny, ∑ k ∈ Finset.range c.nz,
      interpSpline c false ((i : K) + t.1, (j : K) + t.2.1, (k : K) + t.2.2) =
    ∑ i ∈ Finset.range c.nx, ∑ j ∈ Finset.range c.ny, ∑ k ∈ Finset.range c.nz, c.val i j k := by
  have hfl : ∀ (i : ℕ) (x : K), ⌊(i : K) + x⌋ = (i : ℤ) + ⌊x⌋ := fun i x => Int.floor_natCast_add i x
  have w : ∀ x : K, ∑ i ∈ Finset.range 4, splineWeight (x - ⌊x⌋) i = 1 := fun x =>
    (C33_weights _ (by linarith [Int.floor_le x]) (by linarith [Int.lt_floor_add_one x])).2.2.1
  have e : ∀ i j k : ℕ, interpSpline c false ((i : K) + t.1, (j : K) + t.2.1, (k : K) + t.2.2) =
      ∑ y ∈ Finset.range 4, ∑ z ∈ Finset.range 4, ∑ x ∈ Finset.range 4,
        splineWeight (t.1 - ⌊t.1⌋) x * splineWeight (t.2.1 - ⌊t.2.1⌋) y * splineWeight (t.2.2 - ⌊t.2.2⌋) z *
          c.periodic ((i : ℤ) + (⌊t.1⌋ - 1 + x)) ((j : ℤ) + (⌊t.2.1⌋ - 1 + y)) ((k : ℤ) + (⌊t.2.2⌋ - 1 + z)) := by
    intro i j k
    rw [interpSpline_eq]
    simp only [toVox, Bool.false_eq_true, if_false, hfl]
    refine Finset.sum_congr rfl fun y _ => Finset.sum_congr rfl fun z _ => Finset.sum_congr rfl fun x _ => ?_
    congr 1
    · congr 1
      · congr 1 <;> congr 1 <;> push_cast <;> ring
      · congr 1; push_cast; ring
    · congr 1 <;> ring
  simp only [e]
  have sw : ∀ F : ℕ → ℕ → ℕ → ℕ → ℕ → ℕ → K,
      ∑ i ∈ Finset.range c.nx, ∑ j ∈ Finset.range c.ny, ∑ k ∈ Finset.range c.nz,
        ∑ y ∈ Finset.range 4, ∑ z ∈ Finset.range 4, ∑ x ∈ Finset.range 4, F i j k y z x =
      ∑ y ∈ Finset.range 4, ∑ z ∈ Finset.range 4, ∑ x ∈ Finset.range 4,
        ∑ i ∈ Finset.range c.nx, ∑ j ∈ Finset.range c.ny, ∑ k ∈ Finset.range c.nz, F i j k y z x := by
    intro F
    have p1 : ∀ G : ℕ → ℕ → ℕ → ℕ → K, ∑ i ∈ Finset.range c.nx, ∑ j ∈ Finset.range c.ny, ∑ k ∈ Finset.range c.nz,
        ∑ y ∈ Finset.range 4, G i j k y = ∑ y ∈ Finset.range 4, ∑ i ∈ Finset.range c.nx, ∑ j ∈ Finset.range c.ny,
          ∑ k ∈ Finset.range c.nz, G i j k y := by
      intro G
      calc _ = ∑ i ∈ Finset.range c.nx, ∑ j ∈ Finset.range c.ny, ∑ y ∈ Finset.range 4, ∑ k ∈ Finset.range c.nz, G i j k y :=
            Finset.sum_congr rfl fun i _ => Finset.sum_congr rfl fun j _ => Finset.sum_comm
        _ = ∑ i ∈ Finset.range c.nx, ∑ y ∈ Finset.range 4, ∑ j ∈ Finset.range c.ny, ∑ k ∈ Finset.range c.nz, G i j k y :=
            Finset.sum_congr rfl fun i _ => Finset.sum_comm
        _ = _ := Finset.sum_comm
    rw [p1]
    refine Finset.sum_congr rfl fun y _ => ?_
    rw [p1]
    refine Finset.sum_congr rfl fun z _ => ?_
    rw [p1]
  rw [sw]
  simp only [← Finset.mul_sum, periodic_sum_shift]
  simp only [← Finset.sum_mul]
  rw [show (∑ y ∈ Finset.range 4, ∑ z ∈ Finset.range 4, (∑ x ∈ Finset.range 4, splineWeight (t.1 - ⌊t.1⌋) x) *
      splineWeight (t.2.1 - ⌊t.2.1⌋) y * splineWeight (t.2.2 - ⌊t.2.2⌋) z) = 1 by
    rw [w t.1]
    simp only [one_mul, ← Finset.mul_sum, w, mul_one]]
  rw [one_mul]

/-- **C93** Spline coefficients of the data, as `scipy` computes them, keep the sum, so the default interpolation of `regrid` keeps the charge
of the cell for whole factors. -/
theorem C93_spline_keeps_sum (filt : Arr3 K → Arr3 K) (a : Arr3 K) (hsh : (filt a).shape = a.shape)
    (hdat : ∀ i j k : ℕ, i < a.nx → j < a.ny → k < a.nz → interpSpline (filt a) false ((i : K), (j : K), (k : K)) = a.val i j k) :
    KeepsSum (fun b p => interpSpline (filt b) false p) a := by
  intro t
  simp only [Arr3.shape, Prod.mk.injEq] at hsh
  have h := spline_sum (filt a) t
  have h0 := spline_sum (filt a) (0, 0, 0)
  rw [hsh.1, hsh.2.1, hsh.2.2] at h h0
  rw [h, ← h0]
  refine Finset.sum_congr rfl fun i hi => Finset.sum_congr rfl fun j hj => Finset.sum_congr rfl fun k hk => ?_
  rw [Finset.mem_range] at hi hj hk
  simp only [add_zero]
  exact hdat i j k hi hj hk

/-- Coefficients of a spike on three voxels. -/
def spike : Arr3 ℚ := ⟨3, 1, 1, fun i _ _ => if i = 0 then 1 else 0⟩

/-- The data whose spline coefficients are a given array. -/
def splineData (c : Arr3 ℚ) : Arr3 ℚ := ⟨c.nx, c.ny, c.nz, fun i j k => interpSpline c false ((i : ℚ), (j : ℚ), (k : ℚ))⟩

/-- **C93** From three voxels to two the charge of the cell changes; and the voxel at the origin, a point of both grids, does not keep its
value, neither there nor with twice as many voxels. -/
theorem C93_charge_and_origin_lost :
    cellCharge (zoomGrid (fun _ p => interpSpline spike false p) (splineData spike) (ratio (2, 1, 1) (3, 1, 1))) ≠ cellCharge (splineData spike) ∧
    (zoomGrid (fun _ p => interpSpline spike false p) (splineData spike) (ratio (2, 1, 1) (3, 1, 1))).val 0 0 0 ≠ (splineData spike).val 0 0 0 ∧
    (zoomGrid (fun _ p => interpSpline spike false p) (splineData spike) (ratio (6, 1, 1) (3, 1, 1))).val 0 0 0 ≠ (splineData spike).val 0 0 0 := by
  refine ⟨?_, ?_, ?_⟩ <;> decide +kernel

/-- Non-vacuity: the spline through the data of the spike meets the assumptions, and with twice as many voxels the charge is kept. -/
example : KeepsSum (fun (_ : Arr3 ℚ) p => interpSpline spike false p) (splineData spike) :=
  C93_spline_keeps_sum (fun _ => spike) (splineData spike) rfl (fun _ _ _ _ _ _ => rfl)

example : cellCharge (zoomGrid (fun _ p => interpSpline spike false p) (splineData spike) (ratio (6, 1, 1) (3, 1, 1))) = 1 / 3 ∧
    cellCharge (splineData spike) = 1 / 3 := by
  constructor <;> decide +kernel

example : ThroughData (fun (_ : Arr3 ℚ) p => interpSpline spike false p) (splineData spike) ∧ (splineData spike).NonEmpty :=
  ⟨fun _ _ _ => rfl, by decide, by decide, by decide⟩

/-! ## The shape -/

/-- **C93** Without a requested shape every axis has the number of voxels nearest to the old one times the cube root of the ratio of the
resolutions; if these products are whole the resolution is the requested one; an axis vanishes if its product is at most one half. -/
theorem C93_shape (root3 : K → K) (hroot : ∀ x, 0 ≤ x → 0 ≤ root3 x ∧ root3 x ^ 3 = x) (res volume : K) (hr : 0 ≤ res) (hv : 0 < volume)
    (sh : ℕ × ℕ × ℕ) (hsh : 0 < sh.1 ∧ 0 < sh.2.1 ∧ 0 < sh.2.2) :
    ∃ s : K, 0 ≤ s ∧ s ^ 3 * ((sh.1 * sh.2.1 * sh.2.2 : ℕ) / volume) = res ∧
      (∀ (n m : ℕ), (n, m) ∈ [(sh.1, (regridShape root3 res volume sh).1), (sh.2.1, (regridShape root3 res volume sh).2.1),
          (sh.2.2, (regridShape root3 res volume sh).2.2)] →
        |(m : K) - n * s| ≤ 1 / 2 ∧ ((n : K) * s ≤ 1 / 2 → m = 0) ∧ (∀ q : ℕ, (n : K) * s = q → m = q)) ∧
      ((∃ q : ℕ × ℕ × ℕ, (sh.1 : K) * s = q.1 ∧ (sh.2.1 : K) * s = q.2.1 ∧ (sh.2.2 : K) * s = q.2.2) →
        (((regridShape root3 res volume sh).1 * (regridShape root3 res volume sh).2.1 * (regridShape root3 res volume sh).2.2 : ℕ) : K) / volume = res) := by
  obtain ⟨n1, n2, n3⟩ := sh
  simp only at hsh
  have hN : (0 : K) < ((n1 * n2 * n3 : ℕ) : K) := by exact_mod_cast Nat.mul_pos (Nat.mul_pos hsh.1 hsh.2.1) hsh.2.2
  obtain ⟨hs0, hs⟩ := hroot (res * volume / ((n1 * n2 * n3 : ℕ) : K)) (by positivity)
  set s := root3 (res * volume / ((n1 * n2 * n3 : ℕ) : K)) with hsd
  have hres : s ^ 3 * (((n1 * n2 * n3 : ℕ) : K) / volume) = res := by
    rw [hs]
    field_simp
  have axis : ∀ n : ℕ, |(axisSize s n : K) - n * s| ≤ 1 / 2 ∧ ((n : K) * s ≤ 1 / 2 → axisSize s n = 0) ∧
      (∀ q : ℕ, (n : K) * s = q → axisSize s n = q) := by
    intro n
    have hp : 0 ≤ (n : K) * s := by positivity
    have hnear := roundHE_near ((n : K) * s)
    have hnn : 0 ≤ roundHE ((n : K) * s) := by
      by_contra hneg
      push Not at hneg
      have h1 : roundHE ((n : K) * s) ≤ -1 := by omega
      have h2 : ((roundHE ((n : K) * s) : ℤ) : K) ≤ -1 := by exact_mod_cast h1
      rw [abs_le] at hnear
      linarith
    have hcast : ((axisSize s n : ℕ) : K) = ((roundHE ((n : K) * s) : ℤ) : K) := by
      unfold axisSize
      have : (((roundHE ((n : K) * s)).toNat : ℤ) : K) = ((roundHE ((n : K) * s) : ℤ) : K) := by rw [Int.toNat_of_nonneg hnn]
      exact_mod_cast this
    refine ⟨?_, ?_, ?_⟩
    · rw [hcast]
      rw [abs_le] at hnear ⊢
      constructor <;> linarith [hnear.1, hnear.2]
    · intro h
      unfold axisSize
      rw [roundHE_small (by rw [abs_of_nonneg hp]; exact h)]
      rfl
    · intro q hq
      unfold axisSize
      rw [hq, show ((q : ℕ) : K) = ((q : ℤ) : K) by simp, roundHE_intCast]
      simp
  have hsh' : regridShape root3 res volume (n1, n2, n3) = (axisSize s n1, axisSize s n2, axisSize s n3) := rfl
  refine ⟨s, hs0, hres, ?_, ?_⟩
  · intro n m h
    rw [hsh'] at h
    simp only [List.mem_cons, Prod.mk.injEq, List.not_mem_nil, or_false] at h
    rcases h with ⟨rfl, rfl⟩ | ⟨rfl, rfl⟩ | ⟨rfl, rfl⟩
    · exact axis n
    · exact axis n
    · exact axis n
  · rintro ⟨⟨q1, q2, q3⟩, h1, h2, h3⟩
    rw [hsh']
    simp only at h1 h2 h3
    simp only
    rw [(axis n1).2.2 q1 h1, (axis n2).2.2 q2 h2, (axis n3).2.2 q3 h3]
    push_cast
    rw [← h1, ← h2, ← h3, ← hres]
    push_cast
    ring

/-- Non-vacuity: from 2 x 2 x 4 voxels at resolution 2 to resolution 16; with a resolution of 1/1000 nothing is left (`root3` is correct for
the value that occurs). -/
example : regridShape (K := ℚ) (fun _ => 2) 16 8 (2, 2, 4) = (4, 4, 8) ∧ (4 * 4 * 8 : ℚ) / 8 = 16 ∧ (2 : ℚ) ^ 3 = 16 * 8 / (2 * 2 * 4) ∧
    regridShape (K := ℚ) (fun _ => 1 / 10) (16 / 8000) 8 (2, 2, 4) = (0, 0, 0) := by
  decide +kernel

/-! ## The grid -/

/-- **C93** The new grid has the same arrays under the same names, all regridded, and the same structure; it is a charge grid in VASP format
without augmentation data, whatever it was made from. -/
theorem C93_grid (interp : Arr3 K → V3 K → K) (root3 : K → K) (res : K) (m sh : ℕ × ℕ × ℕ) (g : GridObj K)
    (hm : 0 < m.1 ∧ 0 < m.2.1 ∧ 0 < m.2.2) (hg : ∀ kd ∈ g.data, kd.2.shape = sh ∧ kd.2.NonEmpty) :
    let r := regrid interp root3 res (some m) sh g
    r.volume = g.volume ∧ r.kind = .charge ∧ r.format = .vasp ∧ r.aug = false ∧ r.data.map Prod.fst = g.data.map Prod.fst ∧
    ∀ (t : ℕ) (h : t < g.data.length), ∃ b : Arr3 K, r.data[t]? = some (g.data[t].1, b) ∧ b.shape = m ∧
      ∀ i j k : ℕ, b.val i j k = fieldOf interp g.data[t].2 (addV (gridToFrac m ((i : K), (j : K), (k : K))) (halfDiff m sh)) := by
  intro r
  refine ⟨rfl, rfl, rfl, rfl, ?_, ?_⟩
  · simp [r, regrid, Function.comp_def]
  · intro t h
    obtain ⟨h1, h2⟩ := hg g.data[t] (List.getElem_mem h)
    have := C93_position interp g.data[t].2 h2 m hm
    rw [h1] at this
    refine ⟨_, ?_, this.1, this.2⟩
    simp only [r, regrid, List.getElem?_map, List.getElem?_eq_getElem h, Option.map_some, Option.getD_some]
    rfl

/-- **C93** An ELF grid with both spins, regridded, is taken apart as if it held a charge and a magnetisation: instead of the two channels one
gets half their sum and half their difference. -/
theorem C93_elf_split_wrong (interp : Arr3 K → V3 K → K) (root3 : K → K) (res : K) (m sh : ℕ × ℕ × ℕ) (g : GridObj K) (up down : Arr3 K)
    (hg : g.data = [("total", up), ("diff", down)]) (hk : g.kind = .elf) :
    let r := regrid interp root3 res (some m) sh g
    let f := ratio m sh
    r.data = [("total", zoomGrid interp up f), ("diff", zoomGrid interp down f)] ∧
    splitToSpin g.kind (zoomGrid interp up f) (some (zoomGrid interp down f)) = some (zoomGrid interp up f, zoomGrid interp down f) ∧
    ∃ u d, splitToSpin r.kind (zoomGrid interp up f) (some (zoomGrid interp down f)) = some (u, d) ∧
      ∀ i j k, u.val i j k = ((zoomGrid interp up f).val i j k + (zoomGrid interp down f).val i j k) / 2 ∧
        d.val i j k = ((zoomGrid interp up f).val i j k - (zoomGrid interp down f).val i j k) / 2 := by
  refine ⟨?_, ?_, ?_⟩
  · simp [regrid, hg, ratio]
  · simp [splitToSpin, hk]
  · refine ⟨_, _, rfl, fun i j k => ?_⟩
    simp only [Arr3.map₂]
    constructor <;> ring

/-! ## Values at points -/

/-- **C94** Whatever the order of the parallel loop, entry `t` is the interpolated value at point `t`, one after the other or all at once. -/
theorem C94_values (filt : Arr3 K → Arr3 K) (method : String) (hmeth : method ∈ ["nearest", "linear", "cubic"]) (a : Arr3 K) (pts : List (V3 K))
    (junk : ℕ → Option K) (order : List ℕ) (ho : ∀ t < pts.length, t ∈ order) :
    ∀ (t : ℕ) (h : t < pts.length),
      some (valuesAt filt method a pts junk order t) = pointValue filt method a pts[t] ∧
      ∀ junk', valueAt filt method a pts[t] junk' = valuesAt filt method a pts junk order t := by
  obtain ⟨val, hval⟩ : ∃ val : V3 K → Option K, ∀ p, pointValue filt method a p = some (val p) := by
    simp only [List.mem_cons, List.not_mem_nil, or_false] at hmeth
    rcases hmeth with rfl | rfl | rfl
    · exact ⟨_, fun p => by simp [pointValue]; rfl⟩
    · exact ⟨_, fun p => by simp [pointValue]; rfl⟩
    · exact ⟨_, fun p => by simp [pointValue]; rfl⟩
  have key : ∀ (qs : List (V3 K)) (ord : List ℕ) (out : ℕ → Option K) (t : ℕ) (h : t < qs.length),
      (t ∈ ord ∨ out t = val qs[t]) → valuesAt filt method a qs out ord t = val qs[t] := by
    intro qs ord
    induction ord with
    | nil => intro out t h hc; exact hc.resolve_left (by simp)
    | cons s ord ih =>
      intro out t h hc
      unfold valuesAt
      rw [List.foldl_cons]
      refine ih _ t h ?_
      by_cases hs : s = t
      · right
        subst hs
        simp [List.getElem?_eq_getElem h, hval]
      · rcases hc with hc | hc
        · left
          rcases List.mem_cons.mp hc with rfl | hc
          · exact absurd rfl hs
          · exact hc
        · right
          cases hq : qs[s]? with
          | none => simpa using hc
          | some p =>
            simp only [hval]
            rw [Function.update_of_ne (Ne.symm hs)]
            exact hc
  intro t h
  have h1 := key pts order junk t h (Or.inl (ho t h))
  refine ⟨by rw [h1, hval], fun junk' => ?_⟩
  rw [h1]
  exact key [pts[t]] [0] junk' 0 (by simp) (Or.inl (by simp))

/-- **C94** At a grid point, in any periodic image that the code can read, every method returns the datum; the cubic one if its coefficients
belong to the data. -/
theorem C94_at_grid_points (filt : Arr3 K → Arr3 K) (a : Arr3 K) (ha : a.NonEmpty) (i j k : ℤ)
    (hc : (filt a).shape = a.shape ∧ ∀ x y z : ℤ, interpSpline (filt a) false ((x : K), (y : K), (z : K)) = a.periodic x y z)
    (hw : ReadWindow a.nx (i : K) ∧ ReadWindow a.ny (j : K) ∧ ReadWindow a.nz (k : K)) :
    ∀ method ∈ ["nearest", "linear", "cubic"],
      pointValue filt method a (gridToFrac a.shape ((i : K), (j : K), (k : K))) = some (some (a.periodic i j k)) := by
  obtain ⟨h1, h2, h3⟩ := ha
  have g1 : (a.nx : K) ≠ 0 := Nat.cast_ne_zero.mpr (by omega)
  have g2 : (a.ny : K) ≠ 0 := Nat.cast_ne_zero.mpr (by omega)
  have g3 : (a.nz : K) ≠ 0 := Nat.cast_ne_zero.mpr (by omega)
  have hv : toVox a true (gridToFrac a.shape ((i : K), (j : K), (k : K))) = ((i : K), (j : K), (k : K)) := by
    simp only [toVox, gridToFrac, Arr3.shape, if_true]
    rw [div_mul_cancel₀ _ g1, div_mul_cancel₀ _ g2, div_mul_cancel₀ _ g3]
  intro method hmeth
  simp only [List.mem_cons, List.not_mem_nil, or_false] at hmeth
  rcases hmeth with rfl | rfl | rfl
  · simp only [pointValue, if_true, interpNearest, hv, roundHE_intCast]
    rfl
  · have := (C34_exact a ⟨h1, h2, h3⟩ true (gridToFrac a.shape ((i : K), (j : K), (k : K))) (by rw [hv]; exact hw.1)
      (by rw [hv]; exact hw.2.1) (by rw [hv]; exact hw.2.2)).1 i j k hv
    simp [pointValue, this]
  · have hs := hc.1
    simp only [Arr3.shape, Prod.mk.injEq] at hs
    have hv' : toVox (filt a) true (gridToFrac a.shape ((i : K), (j : K), (k : K))) = ((i : K), (j : K), (k : K)) := by
      refine Eq.trans ?_ hv
      unfold toVox
      rw [hs.1, hs.2.1, hs.2.2]
    have e : interpSpline (filt a) true (gridToFrac a.shape ((i : K), (j : K), (k : K))) =
        interpSpline (filt a) false ((i : K), (j : K), (k : K)) := by
      rw [interpSpline_eq, interpSpline_eq, hv']
      simp only [toVox, Bool.false_eq_true, if_false]
    simp only [pointValue]
    rw [if_neg (by decide), if_neg (by decide), if_pos trivial, e, hc.2]

/-- **C94** Any other name of a method raises nothing: the results are what the memory happened to hold. -/
theorem C94_unknown_method (filt : Arr3 K → Arr3 K) (method : String) (hmeth : method ∉ ["nearest", "linear", "cubic"]) (a : Arr3 K)
    (pts : List (V3 K)) (junk : ℕ → Option K) (order : List ℕ) : valuesAt filt method a pts junk order = junk := by
  have h : ∀ p, pointValue filt method a p = none := by
    intro p
    simp only [List.mem_cons, List.not_mem_nil, or_false, not_or] at hmeth
    simp [pointValue, hmeth.1, hmeth.2.1, hmeth.2.2]
  unfold valuesAt
  induction order generalizing junk with
  | nil => rfl
  | cons s order ih =>
    rw [List.foldl_cons]
    have : (match pts[s]? with
      | none => junk
      | some p => match pointValue filt method a p with
        | none => junk
        | some v => Function.update junk s v) = junk := by
      cases pts[s]? with
      | none => rfl
      | some p => simp [h]
    have ih' := ih junk
    rw [← this] at ih'
    exact ih'.trans this

/-- Non-vacuity: three points of a grid of two voxels, in a shuffled order; and the name `quintic`, mentioned in a comment of the code. -/
example : (List.range 3).map (valuesAt (K := ℚ) id "linear" ⟨2, 1, 1, fun i _ _ => i⟩ [(0, 0, 0), (1 / 4, 0, 0), (1 / 2, 0, 0)]
      (fun _ => none) [2, 0, 1]) = [some 0, some (1 / 2), some 1] ∧
    (List.range 2).map (valuesAt (K := ℚ) id "quintic" ⟨2, 1, 1, fun i _ _ => i⟩ [(0, 0, 0), (1 / 4, 0, 0)] (fun _ => some 77) [0, 1]) =
      [some 77, some 77] := by
  constructor <;> decide +kernel

end BaderKit
