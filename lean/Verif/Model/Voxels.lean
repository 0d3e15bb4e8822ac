import Verif.Model.Index
import Mathlib.Algebra.Order.Field.Basic
import Mathlib.Logic.Function.Basic
import Mathlib.Data.List.Sort
/-!
# Voxel-local kernels

Model of `src/baderkit/core/bader/methods/shared_numba.py` lines 1-236,
`methods/base.py` lines 279-329 and the label ranking in `methods/ongrid/ongrid_method.py`.

3D arrays are functions of the flat index (`C02_flat_bijection`).  Floats are elements of an
ordered field `K`, or of any linear order where the code only compares.
-/
namespace BaderKit

section field
variable {K : Type*} [Field K] [LinearOrder K]

/-- Body of the loop of `get_best_neighbor`, `shared_numba.py:74-84`.
The accumulator is `(best, (bti,btj,btk), (bni,bnj,bnk))`. -/
def bestNeighborStep (s : Shape) (data : ℕ → K) (v : ℕ) (acc : K × Coord × ℕ) (td : Coord × K) :
    K × Coord × ℕ :=
  let n := nbr s v td.1
  let diff := (data n - data v) / td.2
  if diff > acc.1 then (diff, td.1, n) else acc

/-- `get_best_neighbor`, `shared_numba.py:24-90`.  `nbrs` is
`zip(neighbor_transforms, neighbor_dists)`; returns the transform and the flat index of the
neighbour. -/
def bestNeighbor (s : Shape) (data : ℕ → K) (nbrs : List (Coord × K)) (v : ℕ) : Coord × ℕ :=
  (nbrs.foldl (bestNeighborStep s data v) (0, (0, 0, 0), v)).2

end field

section order
variable {α : Type*} [LinearOrder α]

/-- Inner loop of `get_maxima`, `shared_numba.py:221-233`: `is_max` after scanning the transforms,
with early exit. -/
def maxScan (s : Shape) (data : ℕ → α) (useMinima : Bool) (v : ℕ) : List Coord → Bool
  | [] => true
  | t :: ts =>
    if !useMinima then
      if data (nbr s v t) > data v then false else maxScan s data useMinima v ts
    else
      if data (nbr s v t) < data v then false else maxScan s data useMinima v ts

/-- Body of the voxel loop of `get_maxima`, `shared_numba.py:217-235`. -/
def maximaStep (s : Shape) (data : ℕ → α) (ts : List Coord) (vac : ℕ → Bool) (useMinima : Bool)
    (m : ℕ → Bool) (v : ℕ) : ℕ → Bool :=
  if vac v then m
  else if maxScan s data useMinima v ts then Function.update m v true else m

/-- `get_maxima`, `shared_numba.py:182-236`.  `order` is the order in which the `prange` loop visits
the voxels. -/
def getMaxima (s : Shape) (data : ℕ → α) (ts : List Coord) (vac : ℕ → Bool) (useMinima : Bool)
    (order : List ℕ) : ℕ → Bool :=
  order.foldl (maximaStep s data ts vac useMinima) (fun _ => false)

end order

/-- Inner loop of `get_edges`, `shared_numba.py:132-143`: is an edge found before the transforms run
out. -/
def edgeScan {β : Type*} [DecidableEq β] (s : Shape) (labels : ℕ → β) (vac : ℕ → Bool) (v : ℕ) :
    List Coord → Bool
  | [] => false
  | t :: ts =>
    if labels (nbr s v t) ≠ labels v ∧ vac (nbr s v t) = false then true
    else edgeScan s labels vac v ts

/-- Body of the voxel loop of `get_edges`, `shared_numba.py:127-143`. -/
def edgesStep {β : Type*} [DecidableEq β] (s : Shape) (labels : ℕ → β) (ts : List Coord)
    (vac : ℕ → Bool) (m : ℕ → Bool) (v : ℕ) : ℕ → Bool :=
  if vac v then m
  else if edgeScan s labels vac v ts then Function.update m v true else m

/-- `get_edges`, `shared_numba.py:94-144`; `order` is the visiting order of the `prange` loop. -/
def getEdges {β : Type*} [DecidableEq β] (s : Shape) (labels : ℕ → β) (ts : List Coord)
    (vac : ℕ → Bool) (order : List ℕ) : ℕ → Bool :=
  order.foldl (edgesStep s labels ts vac) (fun _ => false)

/-- Integration state of `get_basin_charges_and_volumes`, `shared_numba.py:157-160`. -/
structure ChargeAcc (K : Type*) where
  charges : ℕ → K
  volumes : ℕ → K
  vacCharge : K
  vacVolume : K

section field
variable {K : Type*} [Field K]

/-- Body of the voxel loop of `get_basin_charges_and_volumes`, `shared_numba.py:165-172`. -/
def chargeStep (data : ℕ → K) (labels : ℕ → ℤ) (a : ChargeAcc K) (v : ℕ) : ChargeAcc K :=
  if labels v < 0 then
    { a with vacCharge := a.vacCharge + data v, vacVolume := a.vacVolume + 1 }
  else
    { a with
      charges := Function.update a.charges (labels v).toNat (a.charges (labels v).toNat + data v)
      volumes := Function.update a.volumes (labels v).toNat (a.volumes (labels v).toNat + 1) }

/-- `get_basin_charges_and_volumes`, `shared_numba.py:148-178`.  The arrays `charges`/`volumes` of
length `maxima_num` are functions of the label (only labels below `maxima_num` are meaningful). -/
def basinChargesVolumes (s : Shape) (data : ℕ → K) (labels : ℕ → ℤ) (cellVolume : K) : ChargeAcc K :=
  let a := (List.range s.size).foldl (chargeStep data labels)
    ⟨fun _ => 0, fun _ => 0, 0, 0⟩
  { charges := fun b => a.charges b / (s.size : K)
    volumes := fun b => a.volumes b * cellVolume / (s.size : K)
    vacVolume := a.vacVolume * cellVolume / (s.size : K)
    vacCharge := a.vacCharge / (s.size : K) }

end field

/-- Numpy indexing with a possibly negative index into an array of length `N`:
negative `i` means `N + i`. For `base.py:303-307`. -/
def pyIdx (N : ℕ) (i : ℤ) : ℕ := if i < 0 then (i + N).toNat else i.toNat

/-- One round of `get_roots`, `base.py:303-307` (and `318-322` with `valid` everywhere true):
`new_parents[valid] = pointers[pointers[valid]]`. -/
def rootsRound (N : ℕ) (valid : ℕ → Bool) (p : ℕ → ℤ) : ℕ → ℤ :=
  fun v => if valid v then p (pyIdx N (p v)) else p v

/-- The `while True` loop of `get_roots`, `base.py:301-314,316-328`; `fuel` bounds the number of
rounds, `none` means not finished yet. -/
def rootsLoop (N : ℕ) (valid : ℕ → Bool) : ℕ → (ℕ → ℤ) → Option (ℕ → ℤ)
  | 0, _ => none
  | fuel + 1, p =>
    let q := rootsRound N valid p
    if ∀ v < N, q v = p v then some p else rootsLoop N valid fuel q

/-- `get_roots`, `base.py:279-329`: the mask `valid` is computed once from the input pointers when
`num_vacuum > 0`, otherwise every entry is valid. -/
def getRoots (N numVacuum : ℕ) (fuel : ℕ) (p : ℕ → ℤ) : Option (ℕ → ℤ) :=
  rootsLoop N (if numVacuum ≠ 0 then fun v => decide (p v ≠ -1) else fun _ => true) fuel p

/-- `np.unique` on an integer list: sorted, without repetitions
(used at `ongrid_method.py:54`, `neargrid_method.py:80`, `shared_numba.py:480`). -/
def npUnique (l : List ℤ) : List ℤ := l.dedup.insertionSort (· ≤ ·)

/-- `ongrid_method.py:54-58` (same in `neargrid_method.py:80-83`):
`unique_roots, labels = np.unique(labels, return_inverse=True)` and subtraction of one if `-1`
occurs. -/
def rankLabels (N : ℕ) (roots : ℕ → ℤ) : ℕ → ℤ :=
  let u := npUnique ((List.range N).map roots)
  fun v => (u.idxOf (roots v) : ℤ) - if (-1 : ℤ) ∈ u then 1 else 0

section field
variable {K : Type*} [Field K] [LinearOrder K]

/-- `get_steepest_pointers`, `ongrid_numba.py:12-75`; `order` is the `prange` visiting order. -/
def steepestPointers (s : Shape) (data : ℕ → K) (nbrs : List (Coord × K)) (vac maxm : ℕ → Bool)
    (order : List ℕ) (labels : ℕ → ℤ) : ℕ → ℤ :=
  order.foldl (fun l v =>
    if vac v then l
    else if maxm v then l
    else Function.update l v ((bestNeighbor s data nbrs v).2 : ℤ)) labels

end field

end BaderKit
