import Verif.Model.Vec
import Mathlib.MeasureTheory.Measure.Lebesgue.Basic
/-!
# Specification: the volume of a cube under a plane

The Lebesgue measure of the part of the unit cube on one side of a plane.
-/
namespace BaderKit
open MeasureTheory

/-- The points of the unit cube with `a x + b y + c z + d ≤ 0`. -/
def cubeUnder (p : V3 ℝ) (d : ℝ) : Set (ℝ × ℝ × ℝ) :=
  {q | q.1 ∈ Set.Icc (0 : ℝ) 1 ∧ q.2.1 ∈ Set.Icc (0 : ℝ) 1 ∧ q.2.2 ∈ Set.Icc (0 : ℝ) 1 ∧
    p.1 * q.1 + p.2.1 * q.2.1 + p.2.2 * q.2.2 + d ≤ 0}

/-- The volume of the part of the unit cube under the plane. -/
noncomputable def volUnder (p : V3 ℝ) (d : ℝ) : ℝ := (volume (cubeUnder p d)).toReal

end BaderKit
