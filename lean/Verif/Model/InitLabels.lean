import Verif.Model.Voxels
import Verif.Model.UnionFind
/-!
# Initial labels from the maxima

Model of `initialize_labels_from_maxima`,
`src/baderkit/core/bader/methods/shared_numba.py:242-542`, and of the ongrid method
(`methods/ongrid/ongrid_method.py:17-69`).

Simplifications.
* `labels` has the value `-1` at non-maxima.  The union-find part of the model works on an array
  that is the identity there; the unions only touch maxima (proved), and the final labels put the
  `-1` back.
* The geometric test of lines 412-465 (distance cut-off and significant minimum of the cubic spline
  along the segment) is an arbitrary Boolean function `same`.
* The voxel closest to the merged coordinate (lines 515-525) is an arbitrary function `cand` of the group;
  the merged fractional coordinate itself is modelled in `Model/Merge.lean`.
* `np.argsort` is not stable; the sorted order of the maxima is an argument.
-/
namespace BaderKit

/-- `np.argwhere(maxima_mask)` as flat indices, `base.py:200` (C order). -/
def maximaVox (s : Shape) (mask : ℕ → Bool) : List ℕ := (List.range s.size).filter mask

/-- State of the flat-maxima clean-up: the current `maxima_mask` and
`zip(flat_maxima_labels, best_neigh)`, `shared_numba.py:284-287`. -/
structure FlatState where
  mask : ℕ → Bool
  flat : List (ℕ × ℕ)

section
variable {α : Type*} [LinearOrder α]

/-- The neighbour scan `shared_numba.py:298-304`: the first neighbour that is not lower and not in
the current mask. -/
def scanFlat (s : Shape) (data : ℕ → α) (mask : ℕ → Bool) (v : ℕ) : List Coord → Option ℕ
  | [] => none
  | t :: ts =>
    let n := nbr s v t
    if data n < data v ∨ mask n = true then scanFlat s data mask v ts else some n

/-- `shared_numba.py:311-320`: the neighbour itself, or the stored neighbour if it is already in the
flat set. -/
def flatTarget (flat : List (ℕ × ℕ)) (n : ℕ) : ℕ :=
  match flat.find? (fun e => e.1 = n) with
  | some e => e.2
  | none => n

/-- Body of the `for` loop, `shared_numba.py:291-322`. -/
def flatStep (s : Shape) (data : ℕ → α) (ts : List Coord) (st : FlatState) (v : ℕ) : FlatState :=
  if st.mask v = false then st
  else match scanFlat s data st.mask v ts with
    | none => st
    | some n =>
      { mask := Function.update st.mask v false
        flat := st.flat ++ [(v, flatTarget st.flat n)] }

/-- One pass of the `while True` loop over all maxima, `shared_numba.py:291-322`. -/
def flatPass (s : Shape) (data : ℕ → α) (ts : List Coord) (maxima : List ℕ) (st : FlatState) :
    FlatState := maxima.foldl (flatStep s data ts) st

/-- The `while True` loop, `shared_numba.py:290-327`. -/
def flatLoop (s : Shape) (data : ℕ → α) (ts : List Coord) (maxima : List ℕ) :
    ℕ → FlatState → Option FlatState
  | 0, _ => none
  | fuel + 1, st =>
    let st' := flatPass s data ts maxima st
    if st'.flat.length = st.flat.length then some st'
    else flatLoop s data ts maxima fuel st'

/-- Step 2, `shared_numba.py:372-379`: union of each maximum with its neighbouring maxima. -/
def unionAdjacent (s : Shape) (ts : List Coord) (mask : ℕ → Bool) (fuel : ℕ) (maxima : List ℕ)
    (p : ℕ → ℕ) : Option (ℕ → ℕ) :=
  maxima.foldlM (fun p v => ts.foldlM (fun p t =>
    if mask (nbr s v t) = true then union fuel p v (nbr s v t) else some p) p) p

/-- The search for a higher maximum to merge with, `shared_numba.py:402-470`. -/
def mergeTarget (data : ℕ → α) (same : ℕ → ℕ → Bool) (v : ℕ) : List ℕ → Option ℕ
  | [] => none
  | w :: ws =>
    if w = v then mergeTarget data same v ws
    else if data w < data v then none
    else if same v w = true then some w
    else mergeTarget data same v ws

/-- Step 3, `shared_numba.py:389-470`: `sorted` is `np.flip(np.argsort(maxima_values))`. -/
def mergeVoxelated (data : ℕ → α) (same : ℕ → ℕ → Bool) (isFlat : ℕ → Bool) (fuel : ℕ)
    (sorted : List ℕ) (p : ℕ → ℕ) : Option (ℕ → ℕ) :=
  sorted.tail.foldlM (fun p v =>
    if isFlat v = true then some p
    else match mergeTarget data same v sorted with
      | none => some p
      | some w => union fuel p v w) p

/-- First strict maximum of the group, `shared_numba.py:500-512`. -/
def highest (data : ℕ → α) : List ℕ → Option ℕ → Option ℕ
  | [], acc => acc
  | v :: vs, none => highest data vs (some v)
  | v :: vs, some b => highest data vs (if data v > data b then some v else some b)

/-- Choice of the representative, `shared_numba.py:519-533`: the candidate voxel if it is in the
group and as high as the highest, else the highest. -/
def groupRep (data : ℕ → α) (group : List ℕ) (cand : ℕ) : ℕ :=
  match highest data group none with
  | none => cand
  | some h => if cand ∉ group ∨ data cand < data h then h else cand

end

section field
variable {K : Type*} [Field K] [LinearOrder K]

/-- The hill climb from the neighbour of a flat maximum to a true maximum,
`shared_numba.py:333-355`. -/
def hillClimb (s : Shape) (data : ℕ → K) (nbrs : List (Coord × K)) (st : FlatState) :
    ℕ → ℕ → Option ℕ
  | 0, _ => none
  | fuel + 1, cur =>
    let n := (bestNeighbor s data nbrs cur).2
    if st.mask n = true then some n
    else
      let n' := if cur = n then flatTarget st.flat n else n
      hillClimb s data nbrs st fuel n'

/-- Union of the flat maxima that share a neighbour with the maximum above them,
`shared_numba.py:329-360`. -/
def unionFlat (s : Shape) (data : ℕ → K) (nbrs : List (Coord × K)) (st : FlatState) (fuel : ℕ)
    (p : ℕ → ℕ) : Option (ℕ → ℕ) :=
  let uniq := ((st.flat.map Prod.snd).dedup).insertionSort (· ≤ ·)
  uniq.foldlM (fun p u =>
    (hillClimb s data nbrs st fuel u).bind fun best =>
      st.flat.foldlM (fun p e => if e.2 ≠ u then some p else union fuel p e.1 best) p) p

/-- Result of `initialize_labels_from_maxima`: the labels and the voxels of the representatives (in
the order in which they are returned, `shared_numba.py:536-537`). -/
structure InitResult where
  labels : ℕ → ℤ
  reps : List ℕ

/-- The last part, `shared_numba.py:472-542`. -/
def finishLabels (data : ℕ → K) (cand : ℕ → ℕ) (fuel : ℕ) (maxima : List ℕ) (p : ℕ → ℕ) :
    Option InitResult := do
  let roots ← maxima.mapM (findRootNC fuel p)
  let pairs := maxima.zip roots
  let uniq := roots.dedup.insertionSort (· ≤ ·)
  let groups := uniq.map fun r => (r, (pairs.filter fun e => e.2 = r).map Prod.fst)
  let reps := groups.map fun g => (g.2, groupRep data g.2 (cand g.1))
  let labels0 : ℕ → ℤ := fun v => if v ∈ maxima then (p v : ℤ) else -1
  some { labels := reps.foldl (fun l g => g.1.foldl (fun l v => Function.update l v (g.2 : ℤ)) l) labels0
         reps := reps.map Prod.snd }

/-- `initialize_labels_from_maxima`, `shared_numba.py:242-542`. -/
def initLabels (s : Shape) (data : ℕ → K) (nbrs : List (Coord × K)) (mask : ℕ → Bool)
    (same : ℕ → ℕ → Bool) (cand : ℕ → ℕ) (sorted : List ℕ) (fuel : ℕ) : Option InitResult := do
  let ts := nbrs.map Prod.fst
  let maxima := maximaVox s mask
  let st ← flatLoop s data ts maxima fuel ⟨mask, []⟩
  let p1 ← unionFlat s data nbrs st fuel (fun x => x)
  let p2 ← unionAdjacent s ts mask fuel maxima p1
  let p3 ← mergeVoxelated data same (fun v => decide (v ∈ st.flat.map Prod.fst)) fuel sorted p2
  finishLabels data cand fuel maxima p3

/-- The ongrid method: `ongrid_method.py:17-58` on the labels of `initialize_labels_from_maxima`;
`order` is the parallel visiting order, `numVacuum` the number of vacuum voxels. -/
def ongridLabels (s : Shape) (data : ℕ → K) (nbrs : List (Coord × K)) (vac mask : ℕ → Bool)
    (order : List ℕ) (numVacuum fuel : ℕ) (labels0 : ℕ → ℤ) : Option (ℕ → ℤ) :=
  (getRoots s.size numVacuum fuel (steepestPointers s data nbrs vac mask order labels0)).map
    (rankLabels s.size)

end field
end BaderKit
