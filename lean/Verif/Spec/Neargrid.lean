import Verif.Spec.InitLabels
import Verif.Model.Neargrid
/-!
# Independent specification for the neargrid method
-/
namespace BaderKit
variable {K : Type*} [Field K] [LinearOrder K]

/-- All three components have absolute value at most `b`. -/
def Within (b : K) (x : K × K × K) : Prop := |x.1| ≤ b ∧ |x.2.1| ≤ b ∧ |x.2.2| ≤ b

/-- What the refinement is given: the steps fit the grid, distances are positive, the mask marks the local
maxima outside the vacuum, the region outside the vacuum is closed upwards, and the stored gradients are
normalised. -/
structure NearInput (I : NearIn K) (vac : ℕ → Bool) : Prop where
  fits : ∀ td ∈ I.nbrs, StepFits I.s td.1
  pos : ∀ td ∈ I.nbrs, 0 < td.2
  maxima : MarksMaxima I.s I.data (I.nbrs.map Prod.fst) vac I.maxm
  up : UpClosed I.s I.data (I.nbrs.map Prod.fst) vac
  grad : ∀ v, Within 1 (I.grad v)

/-- The memory agrees with the vacuum: a label is zero exactly in the vacuum. -/
def ZeroVac (s : Shape) (vac : ℕ → Bool) (lab : ℕ → ℤ) : Prop :=
  ∀ v < s.size, lab v = 0 ↔ vac v = true

/-- `w` is a voxel of the grid at most one step away from `v` along each axis (periodically). -/
def Near (s : Shape) (v w : ℕ) : Prop :=
  w < s.size ∧ ∃ t, UnitStep t ∧ SamePoint s (addC (flatToCoords s v) t) (flatToCoords s w)

/-- The maximum `m` (of the mask `M`) can be reached from `v` over strictly rising steps between near
voxels. -/
inductive Rises {α : Type*} [LinearOrder α] (s : Shape) (data : ℕ → α) (M : ℕ → Bool) : ℕ → ℕ → Prop
  | stop {v} : M v = true → Rises s data M v v
  | step {v w m} : Near s v w → data v < data w → Rises s data M w m → Rises s data M v m

section floor
variable [FloorRing K]

/-- The near-grid target from voxel `v` with accumulated offset `td`: the voxel step `t` is the rounded
gradient plus the rounded offset that has accumulated, `td'` is what is left over. -/
def NearTarget (I : NearIn K) (v : ℕ) (td : K × K × K) (n : ℕ) (td' : K × K × K) : Prop :=
  let g := I.grad v
  ∃ t : Coord,
    t.1 = roundHE g.1 + roundHE (td.1 + (g.1 - roundHE g.1)) ∧
    t.2.1 = roundHE g.2.1 + roundHE (td.2.1 + (g.2.1 - roundHE g.2.1)) ∧
    t.2.2 = roundHE g.2.2 + roundHE (td.2.2 + (g.2.2 - roundHE g.2.2)) ∧
    td' = (td.1 + g.1 - t.1, td.2.1 + g.2.1 - t.2.1, td.2.2 + g.2.2 - t.2.2) ∧
    n < I.s.size ∧ SamePoint I.s (addC (flatToCoords I.s v) t) (flatToCoords I.s n)

/-- A near-grid trajectory from voxel `v` (offset `td`, visited voxels `path`) to the maximum `m`, with
`k` near-grid steps: the near-grid target is taken unless it was visited before or is vacuum, in which
case the steepest neighbour is taken and the offset is forgotten. -/
inductive NearTraj (I : NearIn K) (vac : ℕ → Bool) : ℕ → K × K × K → List ℕ → ℕ → ℕ → Prop
  | top {v td path} : I.maxm v = true → NearTraj I vac v td path 0 v
  | near {v td path n td' k m} : I.maxm v = false → NearTarget I v td n td' → n ∉ v :: path →
      vac n = false → NearTraj I vac n td' (v :: path) k m → NearTraj I vac v td path (k + 1) m
  | ongrid {v td path n td' w k m} : I.maxm v = false → NearTarget I v td n td' →
      (n ∈ v :: path ∨ vac n = true) → SteepestNbr I.s I.data I.nbrs v w →
      NearTraj I vac w (0, 0, 0) (v :: path) k m → NearTraj I vac v td path k m

/-- The maximum to which the near-grid trajectory of `v` leads. -/
def ClimbsTo (I : NearIn K) (vac : ℕ → Bool) (v m : ℕ) : Prop :=
  ∃ k, NearTraj I vac v (0, 0, 0) [] k m

/-- The voxels that must be refined: those of the starting set, and the neighbours outside the vacuum of
a refined voxel whose label changes. -/
inductive Refined (I : NearIn K) (vac : ℕ → Bool) (labels : ℕ → ℤ) (start : ℕ → Prop) : ℕ → Prop
  | start {v} : start v → Refined I vac labels start v
  | next {v w m} : Refined I vac labels start v → ClimbsTo I vac v m → labels m ≠ labels v →
      IsNbr I.s (I.nbrs.map Prod.fst) v w → vac w = false → Refined I vac labels start w

/-- The voxels refined first: not vacuum, not a maximum, with a neighbour outside the vacuum of another
label. -/
def EdgeStart (I : NearIn K) (vac : ℕ → Bool) (labels : ℕ → ℤ) (v : ℕ) : Prop :=
  v < I.s.size ∧ vac v = false ∧ I.maxm v = false ∧
    ∃ w, IsNbr I.s (I.nbrs.map Prod.fst) v w ∧ vac w = false ∧ labels w ≠ labels v

/-- A run of the whole refinement on threads: passes follow each other until nothing is marked, and in
each pass the iterations for the marked voxels are interleaved arbitrarily until all are finished. -/
inductive RefineRun (I : NearIn K) : RMem → RMem → Prop
  | stop {m} : maskVox I.s m.mask = [] → RefineRun I m m
  | pass {m m'} (sched : List ℕ) : maskVox I.s m.mask ≠ [] →
      (∀ v ∈ maskVox I.s m.mask, ((rrun I (maskVox I.s m.mask) m sched).2 v) = .done) →
      RefineRun I (rrun I (maskVox I.s m.mask) m sched).1 m' → RefineRun I m m'

end floor
end BaderKit
