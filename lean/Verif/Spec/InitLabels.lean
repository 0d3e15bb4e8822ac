import Verif.Spec.Voxels
import Verif.Spec.UnionFind
import Mathlib.Logic.Relation
/-!
# Independent specification for the maxima clean-up and the ongrid method
-/
namespace BaderKit

/-- Weak upward closure of the non-vacuum region: a neighbour that is not lower than a non-vacuum
voxel is not vacuum (true when the vacuum is a threshold on the same data). -/
def UpClosedLe {α : Type*} [LinearOrder α] (s : Shape) (data : ℕ → α) (ts : List Coord)
    (vac : ℕ → Bool) : Prop :=
  ∀ v < s.size, vac v = false → ∀ w, IsNbr s ts v w → data v ≤ data w → vac w = false

/-- `M` marks exactly the non-vacuum local maxima of the grid. -/
def MarksMaxima {α : Type*} [LinearOrder α] (s : Shape) (data : ℕ → α) (ts : List Coord)
    (vac M : ℕ → Bool) : Prop :=
  ∀ v, M v = true ↔ v < s.size ∧ vac v = false ∧ IsLocalMax s data ts v

/-- A chain of neighbouring reported maxima of the same value. -/
def FlatChain {α : Type*} [LinearOrder α] (s : Shape) (data : ℕ → α) (ts : List Coord)
    (M : ℕ → Bool) : ℕ → ℕ → Prop :=
  Relation.ReflTransGen fun a b => IsNbr s ts a b ∧ M b = true ∧ data b = data a

/-- A false maximum of a flat region: a reported maximum from which a chain of equally high reported
maxima leads to a maximum that has a neighbour which is not lower and not a reported maximum. -/
def FalseMax {α : Type*} [LinearOrder α] (s : Shape) (data : ℕ → α) (ts : List Coord)
    (M : ℕ → Bool) (v : ℕ) : Prop :=
  M v = true ∧ ∃ u, FlatChain s data ts M v u ∧
    ∃ n, IsNbr s ts u n ∧ M n = false ∧ data u ≤ data n

/-- The reasons for which two reported maxima may be merged: they are neighbours; or the first is a
false maximum and the second a higher true one; or the geometric test `same` says that they are the
same maximum and the second is not lower. -/
def MergeReason {α : Type*} [LinearOrder α] (s : Shape) (data : ℕ → α) (ts : List Coord)
    (M : ℕ → Bool) (same : ℕ → ℕ → Bool) (a b : ℕ) : Prop :=
  M a = true ∧ M b = true ∧
    (IsNbr s ts a b ∨
     (FalseMax s data ts M a ∧ ¬ FalseMax s data ts M b ∧ data a < data b) ∨
     (¬ FalseMax s data ts M a ∧ same a b = true ∧ data a ≤ data b))

/-- `w` is the steepest neighbour of `v`: strictly higher, of the largest slope, and no earlier
neighbour of the list has the same slope. -/
def SteepestNbr {K : Type*} [Field K] [LinearOrder K] (s : Shape) (data : ℕ → K)
    (nbrs : List (Coord × K)) (v w : ℕ) : Prop :=
  ∃ l1 td l2, nbrs = l1 ++ td :: l2 ∧ w = nbr s v td.1 ∧ data v < data w ∧
    (∀ td' ∈ nbrs, (data (nbr s v td'.1) - data v) / td'.2 ≤ (data w - data v) / td.2) ∧
    (∀ td' ∈ l1, (data (nbr s v td'.1) - data v) / td'.2 < (data w - data v) / td.2)

/-- `m` is the local maximum reached from `v` by steepest ascent. -/
inductive Ascends {K : Type*} [Field K] [LinearOrder K] (s : Shape) (data : ℕ → K)
    (nbrs : List (Coord × K)) : ℕ → ℕ → Prop
  | stop {v} : IsLocalMax s data (nbrs.map Prod.fst) v → Ascends s data nbrs v v
  | step {v w m} : SteepestNbr s data nbrs v w → Ascends s data nbrs w m → Ascends s data nbrs v m

/-- What the initial labelling of the maxima must satisfy: `labels` sends each reported maximum to
the voxel of the representative of its group and everything else to `-1`; `reps` lists the
representatives. -/
structure ValidInit {α : Type*} [LinearOrder α] (s : Shape) (data : ℕ → α) (ts : List Coord)
    (M : ℕ → Bool) (same : ℕ → ℕ → Bool) (labels : ℕ → ℤ) (reps : List ℕ) : Prop where
  /-- voxels that are not maxima are not labelled -/
  other : ∀ v, M v = false → labels v = -1
  /-- each maximum is labelled by a maximum of its own group which is the highest of the group -/
  rep : ∀ v, M v = true → ∃ r : ℕ, labels v = r ∧ M r = true ∧ labels r = r ∧ data v ≤ data r
  /-- neighbouring maxima are in one group -/
  adjacent : ∀ v w, M v = true → M w = true → IsNbr s ts v w → labels v = labels w
  /-- a false maximum of a flat region is attached to a strictly higher true maximum -/
  flat : ∀ v, FalseMax s data ts M v →
    ∃ r : ℕ, labels v = r ∧ data v < data r ∧ ¬ FalseMax s data ts M r
  /-- maxima are only merged for one of the documented reasons -/
  reason : ∀ v w, M v = true → M w = true → labels v = labels w →
    Relation.EqvGen (MergeReason s data ts M same) v w
  /-- the representatives are listed once each -/
  reps_nodup : reps.Nodup
  /-- the listed representatives are the labels in use -/
  reps_mem : ∀ r : ℕ, r ∈ reps ↔ ∃ v, M v = true ∧ labels v = r

end BaderKit
