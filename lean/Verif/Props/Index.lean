import Verif.Lemmas.Index
/-! # Properties C01, C02: periodic wrapping and flat indices -/
namespace BaderKit

/-- **C01** Wrapping a point of the window returns the unique voxel inside the grid that is the
same crystal point. -/
theorem C01_wrap_periodic (s : Shape) (c : Coord) (h : InWindow s c) :
    InRange s (wrapPoint s c) ∧ SamePoint s c (wrapPoint s c) ∧
      ∀ d, InRange s d → SamePoint s c d → d = wrapPoint s c :=
  ⟨wrapPoint_inRange h, wrapPoint_same s c, fun _ hd hs =>
    samePoint_unique hd (wrapPoint_inRange h) (hs.symm.trans (wrapPoint_same s c))⟩

example : InWindow ⟨3, 4, 5⟩ (3, -1, 2) ∧ wrapPoint ⟨3, 4, 5⟩ (3, -1, 2) = (0, 3, 2) :=
  ⟨by simp [InWindow], by decide⟩

/-- **C01** A unit step from a voxel of the grid stays in the window, so every neighbour access of
the library wraps correctly, on every non-empty grid (even one voxel thick). -/
theorem C01_unit_step (s : Shape) (c t : Coord) (hc : InRange s c) (ht : UnitStep t) :
    InRange s (wrapPoint s (addC c t)) ∧ SamePoint s (addC c t) (wrapPoint s (addC c t)) :=
  ⟨wrapPoint_inRange (inWindow_step hc (ht.fits hc.pos)), wrapPoint_same s _⟩

example : InRange ⟨1, 4, 5⟩ (0, 3, 4) ∧ UnitStep (1, 1, -1) := by simp [InRange, UnitStep]

/-- **C01** `wrap_point_w_shift` wraps to the same voxel and reports the number of cells crossed
along each axis. -/
theorem C01_wrap_shift (s : Shape) (c : Coord) :
    (wrapPointShift s c).1 = wrapPoint s c ∧
      c.1 = (wrapPointShift s c).1.1 + (wrapPointShift s c).2.1 * s.nx ∧
      c.2.1 = (wrapPointShift s c).1.2.1 + (wrapPointShift s c).2.2.1 * s.ny ∧
      c.2.2 = (wrapPointShift s c).1.2.2 + (wrapPointShift s c).2.2.2 * s.nz := by
  have h1 : ∀ i n : ℤ, (wrapAxisShift i n).1 = wrapAxis i n := by
    intro i n; unfold wrapAxisShift wrapAxis; split_ifs <;> rfl
  have h2 : ∀ i n : ℤ, i = (wrapAxisShift i n).1 + (wrapAxisShift i n).2 * n := by
    intro i n; unfold wrapAxisShift; split_ifs <;> simp
  refine ⟨?_, h2 _ _, h2 _ _, h2 _ _⟩
  simp only [wrapPointShift, wrapPoint, h1]

/-- **C01** (negative part) Outside the window the result can be out of range: two steps on a grid
that is one voxel thick. -/
theorem C01_outside_window_fails :
    ∃ (s : Shape) (c t : Coord), InRange s c ∧ t = (2, 0, 0) ∧
      ¬ InRange s (wrapPoint s (addC c t)) := by
  refine ⟨⟨1, 1, 1⟩, (0, 0, 0), (2, 0, 0), by simp [InRange], rfl, ?_⟩
  simp [InRange, wrapPoint, addC, wrapAxis]

/-- **C01** Neighbour relation is symmetric: the step `-t` undoes the step `t`, on every grid, for
every step not longer than the cell (in particular for unit steps). -/
theorem C01_neighbor_symm (s : Shape) (v : ℕ) (t : Coord) (hv : v < s.size) (ht : StepFits s t) :
    nbr s v t < s.size ∧ nbr s (nbr s v t) (negC t) = v :=
  ⟨nbr_lt hv ht, nbr_neg hv ht⟩

example : (7 : ℕ) < (⟨2, 2, 3⟩ : Shape).size ∧ nbr ⟨2, 2, 3⟩ 7 (1, -1, 1) = 5 := by decide

/-- **C02** `coords_to_flat` and `flat_to_coords` are inverse bijections between the voxels of the
grid and `0 .. N-1`. -/
theorem C02_flat_bijection (s : Shape) :
    (∀ c, InRange s c → 0 ≤ coordsToFlat s c ∧ coordsToFlat s c < s.size ∧
      flatToCoords s (coordsToFlat s c) = c) ∧
    (∀ v : ℤ, 0 ≤ v → v < s.size → InRange s (flatToCoords s v) ∧
      coordsToFlat s (flatToCoords s v) = v) := by
  refine ⟨fun c hc => ⟨(coordsToFlat_range hc).1, (coordsToFlat_range hc).2,
    flatToCoords_coordsToFlat hc⟩, fun v h0 h1 => ⟨?_, coordsToFlat_flatToCoords v⟩⟩
  have : v.toNat < s.size := by omega
  exact flatToCoords_inRange h0 h1 (pos_of_lt_size this)

/-- **C02** The C-order triple loop over the grid visits the flat indices `0, 1, …, N-1` in
order. -/
theorem C02_loop_order (s : Shape) :
    (tripleLoop s).map (coordsToFlat s) = (List.range s.size).map (fun v : ℕ => (v : ℤ)) :=
  tripleLoop_flat s

example : flatToCoords ⟨2, 3, 4⟩ 17 = (1, 1, 1) ∧ coordsToFlat ⟨2, 3, 4⟩ (1, 1, 1) = 17 := by decide

end BaderKit
