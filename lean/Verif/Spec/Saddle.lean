import Verif.Model.Saddle
import Verif.Spec.Index
import Mathlib.Logic.Relation
/-!
# Specification of saddle points

The box of size `n` around a voxel is the set of the displacements with all entries at most `n`.  Two displacements in a set are in the
same group if there is a path of neighbouring displacements between them inside the set.
-/
namespace BaderKit

/-- The displacement lies in the box. -/
def InBox (n : ℕ) (p : Coord) : Prop := |p.1| ≤ n ∧ |p.2.1| ≤ n ∧ |p.2.2| ≤ n

/-- Two different displacements that differ by at most one along each axis. -/
def Touch (p q : Coord) : Prop := p ≠ q ∧ |q.1 - p.1| ≤ 1 ∧ |q.2.1 - p.2.1| ≤ 1 ∧ |q.2.2 - p.2.2| ≤ 1

/-- There is a path from `p` to `q` of touching displacements inside `S`. -/
def GroupedIn (S : Coord → Prop) : Coord → Coord → Prop := Relation.ReflTransGen fun a b => S a ∧ S b ∧ Touch a b

/-- The set has `n` groups: there is a list of `n` representatives such that every displacement of the set is in the group of exactly one. -/
def HasGroups (S : Coord → Prop) (n : ℕ) : Prop :=
  ∃ reps : List Coord, reps.Nodup ∧ reps.length = n ∧ (∀ r ∈ reps, S r) ∧ ∀ p, S p → ∃! r, r ∈ reps ∧ GroupedIn S p r

section
variable {α : Type*} [LinearOrder α]

/-- The value is on the far side: higher, or lower when looking for the points where voids connect. -/
def Farther (greater : Bool) (a b : α) : Prop := if greater then b < a else a < b

/-- The displacements of the box whose voxel is not in the vacuum and on the far side of the value at the centre. -/
def FarIn (n : ℕ) (s : Shape) (data : ℕ → α) (vac : ℕ → Bool) (greater : Bool) (v : ℕ) (p : Coord) : Prop :=
  InBox n p ∧ vac (nbr s v p) = false ∧ Farther greater (data (nbr s v p)) (data v)

/-- The displacements of the box whose voxel is not in the vacuum and has the value of the centre. -/
def LevelIn (n : ℕ) (s : Shape) (data : ℕ → α) (vac : ℕ → Bool) (v : ℕ) (p : Coord) : Prop :=
  InBox n p ∧ vac (nbr s v p) = false ∧ data (nbr s v p) = data v

/-- The far displacements, and the displacements at the value that touch a far one or another one at the value. -/
def FarOrLevelIn (n : ℕ) (s : Shape) (data : ℕ → α) (vac : ℕ → Bool) (greater : Bool) (v : ℕ) (p : Coord) : Prop :=
  FarIn n s data vac greater v p ∨
    (LevelIn n s data vac v p ∧ ∃ q, Touch p q ∧ (FarIn n s data vac greater v q ∨ LevelIn n s data vac v q))

/-- Voxels connected through the voxels of a set. -/
def VoxJoined (s : Shape) (nbrs : List Coord) (S : ℕ → Prop) : ℕ → ℕ → Prop :=
  Relation.ReflTransGen fun a b => S a ∧ S b ∧ ∃ t ∈ nbrs, b = nbr s a t

end
end BaderKit
