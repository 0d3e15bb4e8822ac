import Verif.Spec.Index
import Mathlib.Data.List.Basic
import Mathlib.Data.Prod.Basic
/-! # Lemmas on indices -/
namespace BaderKit

theorem wrapAxis_range {i n : ℤ} (h1 : -n ≤ i) (h2 : i < 2 * n) :
    0 ≤ wrapAxis i n ∧ wrapAxis i n < n := by
  unfold wrapAxis; split_ifs <;> omega

theorem wrapAxis_congr (i n : ℤ) : ∃ a : ℤ, i = wrapAxis i n + a * n := by
  unfold wrapAxis; split_ifs
  · exact ⟨1, by ring⟩
  · exact ⟨-1, by ring⟩
  · exact ⟨0, by ring⟩

theorem wrapAxis_of_range {i n : ℤ} (h1 : 0 ≤ i) (h2 : i < n) : wrapAxis i n = i := by
  unfold wrapAxis; split_ifs <;> omega

theorem unique_mod {a b n q : ℤ} (ha : 0 ≤ a) (ha' : a < n) (hb : 0 ≤ b) (hb' : b < n)
    (h : a = b + q * n) : a = b := by
  have hn : 0 < n := by omega
  rcases lt_trichotomy q 0 with hq | hq | hq
  · nlinarith
  · subst hq; simpa using h
  · nlinarith

theorem flatToCoords_eq (s : Shape) (v : ℤ) :
    flatToCoords s v = (v / ((s.ny : ℤ) * s.nz), v % ((s.ny : ℤ) * s.nz) / s.nz, v % s.nz) := by
  have h : (0:ℤ) ≤ (s.ny : ℤ) * s.nz := by positivity
  unfold flatToCoords
  rw [Int.fdiv_eq_ediv_of_nonneg _ h, Int.fmod_eq_emod_of_nonneg _ h,
    Int.fdiv_eq_ediv_of_nonneg _ (by positivity), Int.fmod_eq_emod_of_nonneg _ (by positivity)]

theorem size_cast (s : Shape) : ((s.size : ℕ) : ℤ) = (s.nx : ℤ) * (s.ny * s.nz) := by
  unfold Shape.size; push_cast; ring

theorem pos_of_lt_size {s : Shape} {v : ℕ} (h : v < s.size) : s.Pos := by
  unfold Shape.size at h
  refine ⟨Nat.pos_of_ne_zero ?_, Nat.pos_of_ne_zero ?_, Nat.pos_of_ne_zero ?_⟩ <;>
    · intro h0
      simp [h0] at h

theorem flatToCoords_inRange {s : Shape} {v : ℤ} (h0 : 0 ≤ v) (h1 : v < s.size) (hp : s.Pos) :
    InRange s (flatToCoords s v) := by
  obtain ⟨hx, hy, hz⟩ := hp
  rw [size_cast] at h1
  have hz' : (0:ℤ) < s.nz := by exact_mod_cast hz
  have hy' : (0:ℤ) < s.ny := by exact_mod_cast hy
  have hyz : (0:ℤ) < (s.ny : ℤ) * s.nz := by positivity
  rw [flatToCoords_eq]
  refine ⟨⟨Int.ediv_nonneg h0 hyz.le, ?_⟩, ⟨?_, ?_⟩, ⟨Int.emod_nonneg _ hz'.ne', Int.emod_lt_of_pos _ hz'⟩⟩
  · exact Int.ediv_lt_of_lt_mul hyz h1
  · exact Int.ediv_nonneg (Int.emod_nonneg _ hyz.ne') hz'.le
  · exact Int.ediv_lt_of_lt_mul hz' (Int.emod_lt_of_pos _ hyz)

theorem coordsToFlat_range {s : Shape} {c : Coord} (h : InRange s c) :
    0 ≤ coordsToFlat s c ∧ coordsToFlat s c < s.size := by
  obtain ⟨⟨hi, hi'⟩, ⟨hj, hj'⟩, ⟨hk, hk'⟩⟩ := h
  rw [size_cast]; unfold coordsToFlat
  constructor
  · positivity
  · have h1 : c.2.1 * s.nz + c.2.2 < s.ny * s.nz := by nlinarith
    have h2 : (0:ℤ) ≤ (s.ny : ℤ) * s.nz := by positivity
    nlinarith

theorem coordsToFlat_flatToCoords {s : Shape} (v : ℤ) :
    coordsToFlat s (flatToCoords s v) = v := by
  rw [flatToCoords_eq]; unfold coordsToFlat
  simp only
  have h1 : v % ((s.ny:ℤ) * s.nz) / s.nz * s.nz + v % s.nz = v % ((s.ny:ℤ) * s.nz) := by
    have : v % ((s.ny:ℤ) * s.nz) % s.nz = v % s.nz :=
      Int.emod_emod_of_dvd _ (Dvd.intro_left _ rfl)
    rw [← this, mul_comm]; exact Int.mul_ediv_add_emod _ _
  have h2 := Int.mul_ediv_add_emod v ((s.ny:ℤ) * s.nz)
  rw [add_assoc, h1, mul_comm]; exact h2

theorem flatToCoords_coordsToFlat {s : Shape} {c : Coord} (h : InRange s c) :
    flatToCoords s (coordsToFlat s c) = c := by
  obtain ⟨⟨hi, hi'⟩, ⟨hj, hj'⟩, ⟨hk, hk'⟩⟩ := h
  rw [flatToCoords_eq]; unfold coordsToFlat
  have hz : (0:ℤ) < s.nz := by omega
  have hy : (0:ℤ) < s.ny := by omega
  have hyz : (0:ℤ) < (s.ny : ℤ) * s.nz := by positivity
  have hr : c.2.1 * s.nz + c.2.2 < s.ny * s.nz := by nlinarith
  have hr0 : 0 ≤ c.2.1 * s.nz + c.2.2 := by positivity
  have e1 : (c.1 * ((s.ny:ℤ) * s.nz) + c.2.1 * s.nz + c.2.2) / ((s.ny:ℤ) * s.nz) = c.1 := by
    rw [add_assoc, add_comm, Int.add_mul_ediv_right _ _ hyz.ne', Int.ediv_eq_zero_of_lt hr0 hr,
      zero_add]
  have e2 : (c.1 * ((s.ny:ℤ) * s.nz) + c.2.1 * s.nz + c.2.2) % ((s.ny:ℤ) * s.nz)
      = c.2.1 * s.nz + c.2.2 := by
    rw [add_assoc, add_comm, Int.add_mul_emod_self_right, Int.emod_eq_of_lt hr0 hr]
  have e3 : (c.2.1 * (s.nz:ℤ) + c.2.2) / s.nz = c.2.1 := by
    rw [add_comm, Int.add_mul_ediv_right _ _ hz.ne', Int.ediv_eq_zero_of_lt hk hk', zero_add]
  have e4 : (c.1 * ((s.ny:ℤ) * s.nz) + c.2.1 * s.nz + c.2.2) % s.nz = c.2.2 := by
    have : c.1 * ((s.ny:ℤ) * s.nz) + c.2.1 * s.nz + c.2.2
        = c.2.2 + (c.1 * s.ny + c.2.1) * s.nz := by ring
    rw [this, Int.add_mul_emod_self_right, Int.emod_eq_of_lt hk hk']
  rw [e1, e2, e3, e4]

theorem inWindow_step {s : Shape} {c t : Coord} (hc : InRange s c) (ht : StepFits s t) :
    InWindow s (addC c t) := by
  obtain ⟨⟨a, b⟩, ⟨a', b'⟩, ⟨a'', b''⟩⟩ := hc
  obtain ⟨⟨d, e⟩, ⟨d', e'⟩, ⟨d'', e''⟩⟩ := ht
  simp only [InWindow, addC]
  refine ⟨⟨?_, ?_⟩, ⟨?_, ?_⟩, ⟨?_, ?_⟩⟩ <;> omega

theorem wrapPoint_inRange {s : Shape} {c : Coord} (h : InWindow s c) :
    InRange s (wrapPoint s c) := by
  obtain ⟨⟨a, b⟩, ⟨a', b'⟩, ⟨a'', b''⟩⟩ := h
  exact ⟨wrapAxis_range a b, wrapAxis_range a' b', wrapAxis_range a'' b''⟩

theorem wrapPoint_same (s : Shape) (c : Coord) : SamePoint s c (wrapPoint s c) :=
  ⟨wrapAxis_congr _ _, wrapAxis_congr _ _, wrapAxis_congr _ _⟩

theorem samePoint_unique {s : Shape} {c d : Coord} (hc : InRange s c) (hd : InRange s d)
    (h : SamePoint s c d) : c = d := by
  obtain ⟨⟨a, b⟩, ⟨a', b'⟩, ⟨a'', b''⟩⟩ := hc
  obtain ⟨⟨d1, e⟩, ⟨d', e'⟩, ⟨d'', e''⟩⟩ := hd
  obtain ⟨⟨x, hx⟩, ⟨y, hy⟩, ⟨z, hz⟩⟩ := h
  exact Prod.ext (unique_mod a b d1 e hx) (Prod.ext (unique_mod a' b' d' e' hy)
    (unique_mod a'' b'' d'' e'' hz))

theorem SamePoint.symm {s : Shape} {c d : Coord} (h : SamePoint s c d) : SamePoint s d c := by
  obtain ⟨⟨x, hx⟩, ⟨y, hy⟩, ⟨z, hz⟩⟩ := h
  exact ⟨⟨-x, by rw [hx]; ring⟩, ⟨-y, by rw [hy]; ring⟩, ⟨-z, by rw [hz]; ring⟩⟩

theorem SamePoint.trans {s : Shape} {c d e : Coord} (h : SamePoint s c d) (h' : SamePoint s d e) :
    SamePoint s c e := by
  obtain ⟨⟨x, hx⟩, ⟨y, hy⟩, ⟨z, hz⟩⟩ := h
  obtain ⟨⟨x', hx'⟩, ⟨y', hy'⟩, ⟨z', hz'⟩⟩ := h'
  exact ⟨⟨x + x', by rw [hx, hx']; ring⟩, ⟨y + y', by rw [hy, hy']; ring⟩,
    ⟨z + z', by rw [hz, hz']; ring⟩⟩

theorem samePoint_addC {s : Shape} {c d : Coord} (h : SamePoint s c d) (t : Coord) :
    SamePoint s (addC c t) (addC d t) := by
  obtain ⟨⟨x, hx⟩, ⟨y, hy⟩, ⟨z, hz⟩⟩ := h
  exact ⟨⟨x, by simp only [addC]; rw [hx]; ring⟩, ⟨y, by simp only [addC]; rw [hy]; ring⟩,
    ⟨z, by simp only [addC]; rw [hz]; ring⟩⟩

theorem UnitStep.fits {s : Shape} {t : Coord} (ht : UnitStep t) (hp : s.Pos) : StepFits s t := by
  obtain ⟨⟨d, e⟩, ⟨d', e'⟩, ⟨d'', e''⟩⟩ := ht
  obtain ⟨h1, h2, h3⟩ := hp
  refine ⟨⟨?_, ?_⟩, ⟨?_, ?_⟩, ⟨?_, ?_⟩⟩ <;> omega

theorem InRange.pos {s : Shape} {c : Coord} (h : InRange s c) : s.Pos := by
  obtain ⟨⟨a, b⟩, ⟨a', b'⟩, ⟨a'', b''⟩⟩ := h
  refine ⟨?_, ?_, ?_⟩ <;> omega

theorem nbr_cast {s : Shape} {v : ℕ} {t : Coord} (hv : v < s.size) (ht : StepFits s t) :
    ((nbr s v t : ℕ) : ℤ) = coordsToFlat s (wrapPoint s (addC (flatToCoords s v) t)) := by
  have hr := flatToCoords_inRange (s := s) (v := v) (by positivity) (by exact_mod_cast hv)
    (pos_of_lt_size hv)
  have := (coordsToFlat_range (wrapPoint_inRange (inWindow_step hr ht))).1
  unfold nbr; omega

theorem nbr_lt {s : Shape} {v : ℕ} {t : Coord} (hv : v < s.size) (ht : StepFits s t) :
    nbr s v t < s.size := by
  have hr := flatToCoords_inRange (s := s) (v := v) (by positivity) (by exact_mod_cast hv)
    (pos_of_lt_size hv)
  have := (coordsToFlat_range (wrapPoint_inRange (inWindow_step hr ht))).2
  rw [← nbr_cast hv ht] at this; exact_mod_cast this

theorem flatToCoords_nbr {s : Shape} {v : ℕ} {t : Coord} (hv : v < s.size) (ht : StepFits s t) :
    flatToCoords s (nbr s v t) = wrapPoint s (addC (flatToCoords s v) t) := by
  have hr := flatToCoords_inRange (s := s) (v := v) (by positivity) (by exact_mod_cast hv)
    (pos_of_lt_size hv)
  rw [nbr_cast hv ht, flatToCoords_coordsToFlat (wrapPoint_inRange (inWindow_step hr ht))]

theorem StepFits.neg {s : Shape} {t : Coord} (ht : StepFits s t) : StepFits s (negC t) := by
  obtain ⟨⟨d, e⟩, ⟨d', e'⟩, ⟨d'', e''⟩⟩ := ht
  simp only [StepFits, negC]
  refine ⟨⟨?_, ?_⟩, ⟨?_, ?_⟩, ⟨?_, ?_⟩⟩ <;> omega

/-- Stepping along `t` and then along `-t` returns to the start. -/
theorem nbr_neg {s : Shape} {v : ℕ} {t : Coord} (hv : v < s.size) (ht : StepFits s t) :
    nbr s (nbr s v t) (negC t) = v := by
  have hp := pos_of_lt_size hv
  have hr := flatToCoords_inRange (s := s) (v := v) (by positivity) (by exact_mod_cast hv) hp
  have hn := nbr_lt hv ht
  have key : wrapPoint s (addC (flatToCoords s (nbr s v t)) (negC t)) = flatToCoords s v := by
    apply samePoint_unique
    · apply wrapPoint_inRange
      apply inWindow_step _ ht.neg
      exact flatToCoords_inRange (by positivity) (by exact_mod_cast hn) hp
    · exact hr
    · refine (wrapPoint_same _ _).symm.trans ?_
      rw [flatToCoords_nbr hv ht]
      have h1 := samePoint_addC (wrapPoint_same s (addC (flatToCoords s v) t)).symm (negC t)
      have h2 : addC (addC (flatToCoords s v) t) (negC t) = flatToCoords s v := by
        simp [addC, negC]
      rw [h2] at h1; exact h1
  have := nbr_cast hn ht.neg
  rw [key, coordsToFlat_flatToCoords] at this
  exact_mod_cast this

theorem range_flatMap (n m : ℕ) :
    ((List.range n).flatMap fun i => (List.range m).map fun j => i * m + j) = List.range (n * m) := by
  induction n with
  | zero => simp
  | succ n ih =>
    rw [List.range_succ, List.flatMap_append, ih, Nat.succ_mul, List.range_add]
    simp

theorem tripleLoop_flat (s : Shape) :
    (tripleLoop s).map (coordsToFlat s) = (List.range s.size).map (fun v : ℕ => (v : ℤ)) := by
  have h : (List.range s.size) = (List.range s.nx).flatMap fun i =>
      ((List.range s.ny).flatMap fun j => (List.range s.nz).map fun k =>
        i * (s.ny * s.nz) + (j * s.nz + k)) := by
    have := range_flatMap s.nx (s.ny * s.nz)
    rw [← range_flatMap s.ny s.nz] at this
    unfold Shape.size
    rw [mul_assoc, ← this]
    simp [List.map_flatMap, Function.comp_def]
  rw [h]
  unfold tripleLoop coordsToFlat
  simp only [List.map_flatMap, List.map_map, Function.comp_def]
  push_cast
  simp only [add_assoc]

theorem StepFits.pos_fits {s : Shape} {v : ℕ} {t : Coord} (hv : v < s.size) (ht : UnitStep t) :
    StepFits s t := ht.fits (pos_of_lt_size hv)

end BaderKit
