import Verif.Spec.Index
import Mathlib.Logic.Relation
/-!
# Independent specification of labels of connected regions
-/
namespace BaderKit

/-- Both points are in the array and not zero and their difference is in the structuring element. -/
def BoxNbr (st : List Coord) (s : Shape) (f : Coord → ℕ) (a b : Coord) : Prop :=
  InRange s a ∧ InRange s b ∧ f a ≠ 0 ∧ f b ≠ 0 ∧ ∃ d ∈ st, b = addC a d

/-- What `scipy.ndimage.label` returns: zero where the array is zero, equal labels on the components of the array without
periodicity, labels numbered from 1. -/
structure IsLabeling (st : List Coord) (s : Shape) (f g : Coord → ℕ) : Prop where
  zero : ∀ a, InRange s a → (g a = 0 ↔ f a = 0)
  same : ∀ a b, InRange s a → InRange s b → f a ≠ 0 → f b ≠ 0 →
    (g a = g b ↔ Relation.ReflTransGen (BoxNbr st s f) a b)
  dense : ∀ a, InRange s a → ∀ m, 0 < m → m ≤ g a → ∃ b, InRange s b ∧ g b = m

/-- The point of the array to which a point of the infinite crystal belongs. -/
def homePoint (s : Shape) (a : Coord) : Coord := (a.1 % s.nx, a.2.1 % s.ny, a.2.2 % s.nz)

/-- Adjacent points of the infinite crystal that are not zero. -/
def CrystalStep (st : List Coord) (s : Shape) (f : Coord → ℕ) (a b : Coord) : Prop :=
  f (homePoint s a) ≠ 0 ∧ f (homePoint s b) ≠ 0 ∧ ∃ d ∈ st, b = addC a d

/-- `a` is connected to some periodic image of `b`. -/
def PeriodicConn (st : List Coord) (s : Shape) (f : Coord → ℕ) (a b : Coord) : Prop :=
  ∃ b', SamePoint s b' b ∧ Relation.ReflTransGen (CrystalStep st s f) a b'

end BaderKit
