import Verif.Lemmas.Voxels
import Verif.Spec.Voxels
import Mathlib.Tactic.IntervalCases
/-! # The neighbour function realises the neighbour relation -/
namespace BaderKit

theorem isNbr_iff {s : Shape} {ts : List Coord} (hts : ∀ t ∈ ts, StepFits s t) {v w : ℕ}
    (hv : v < s.size) : IsNbr s ts v w ↔ ∃ t ∈ ts, nbr s v t = w := by
  have hp := pos_of_lt_size hv
  constructor
  · rintro ⟨hw, t, ht, hsame⟩
    refine ⟨t, ht, ?_⟩
    have h1 := flatToCoords_nbr hv (hts t ht)
    have hw' := flatToCoords_inRange (s := s) (v := w) (by positivity) (by exact_mod_cast hw) hp
    have hn := nbr_lt hv (hts t ht)
    have hn' := flatToCoords_inRange (s := s) (v := nbr s v t) (by positivity) (by exact_mod_cast hn) hp
    have h2 : flatToCoords s (nbr s v t) = flatToCoords s w := by
      apply samePoint_unique hn' hw'
      rw [h1]; exact (wrapPoint_same s _).symm.trans hsame
    have h3 := congrArg (coordsToFlat s) h2
    rw [coordsToFlat_flatToCoords, coordsToFlat_flatToCoords] at h3
    exact_mod_cast h3
  · rintro ⟨t, ht, rfl⟩
    refine ⟨nbr_lt hv (hts t ht), t, ht, ?_⟩
    rw [flatToCoords_nbr hv (hts t ht)]
    exact wrapPoint_same s _

theorem isNbr_symm {s : Shape} {ts : List Coord} (hts : ∀ t ∈ ts, StepFits s t)
    (hneg : ∀ t ∈ ts, negC t ∈ ts) {v w : ℕ} (hv : v < s.size) (h : IsNbr s ts v w) :
    IsNbr s ts w v := by
  obtain ⟨t, ht, rfl⟩ := (isNbr_iff hts hv).mp h
  exact (isNbr_iff hts h.1).mpr ⟨negC t, hneg t ht, nbr_neg hv (hts t ht)⟩

theorem neighbors26_unit : ∀ t ∈ neighbors26, UnitStep t := by
  have : ∀ t ∈ neighbors26, (-1 ≤ t.1 ∧ t.1 ≤ 1) ∧ (-1 ≤ t.2.1 ∧ t.2.1 ≤ 1) ∧
      (-1 ≤ t.2.2 ∧ t.2.2 ≤ 1) := by decide
  exact this

theorem neighbors26_neg : ∀ t ∈ neighbors26, negC t ∈ neighbors26 := by decide

theorem neighbors26_complete (t : Coord) : t ∈ neighbors26 ↔ UnitStep t ∧ t ≠ (0, 0, 0) := by
  obtain ⟨i, j, k⟩ := t
  constructor
  · intro h
    refine ⟨neighbors26_unit _ h, ?_⟩
    intro he
    rw [he] at h
    revert h; decide
  · rintro ⟨⟨h1, h2, h3⟩, hne⟩
    simp only at h1 h2 h3
    obtain ⟨h1, h1'⟩ := h1
    obtain ⟨h2, h2'⟩ := h2
    obtain ⟨h3, h3'⟩ := h3
    interval_cases i <;> interval_cases j <;> interval_cases k <;> revert hne <;> decide

theorem neighbors26_fits {s : Shape} (hp : s.Pos) : ∀ t ∈ neighbors26, StepFits s t :=
  fun t ht => (neighbors26_unit t ht).fits hp

theorem mem_schedule {s : Shape} {order : List ℕ} (h : IsSchedule s order) (v : ℕ) :
    v ∈ order ↔ v < s.size := by
  rw [List.Perm.mem_iff h, List.mem_range]

end BaderKit
