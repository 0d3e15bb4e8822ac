import Verif.Spec.Index
import Mathlib.Algebra.Order.Field.Basic
import Mathlib.Data.Finset.Card
import Mathlib.Data.Finset.Image
/-!
# Independent specification of voxel-level notions
-/
namespace BaderKit

/-- `w` is a periodic neighbour of `v` for the list of steps `ts`: the coordinate of `w` is the
coordinate of `v` plus a step, up to whole cells. -/
def IsNbr (s : Shape) (ts : List Coord) (v w : ℕ) : Prop :=
  w < s.size ∧ ∃ t ∈ ts, SamePoint s (addC (flatToCoords s v) t) (flatToCoords s w)

/-- `v` is a local maximum: nothing among its periodic neighbours is higher. -/
def IsLocalMax {α : Type*} [LinearOrder α] (s : Shape) (data : ℕ → α) (ts : List Coord) (v : ℕ) :
    Prop := ∀ w, IsNbr s ts v w → data w ≤ data v

/-- `v` is a local minimum. -/
def IsLocalMin {α : Type*} [LinearOrder α] (s : Shape) (data : ℕ → α) (ts : List Coord) (v : ℕ) :
    Prop := ∀ w, IsNbr s ts v w → data v ≤ data w

/-- A visiting order of the voxels: every voxel exactly once. -/
def IsSchedule (s : Shape) (order : List ℕ) : Prop := order.Perm (List.range s.size)

/-- Non-vacuum voxels only have non-vacuum voxels above them (true when the vacuum is a threshold on
the same data). -/
def UpClosed {α : Type*} [LinearOrder α] (s : Shape) (data : ℕ → α) (ts : List Coord)
    (vac : ℕ → Bool) : Prop :=
  ∀ v < s.size, vac v = false → ∀ w, IsNbr s ts v w → data v < data w → vac w = false

/-- Follow a pointer array `k` times. -/
def chase (p : ℕ → ℤ) : ℕ → ℕ → ℕ
  | 0, v => v
  | k + 1, v => chase p k (p v).toNat

/-- `r` is the end of the pointer chain starting at `v`. -/
def IsRootOf (p : ℕ → ℤ) (v r : ℕ) : Prop := (∃ k, chase p k v = r) ∧ p r = r

end BaderKit
