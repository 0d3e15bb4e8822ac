import Verif.Model.Transforms
import Verif.Model.UnionFind
/-!
# Saddle points

Model of `check_if_possible_saddle`, `check_if_saddle` and `find_potential_saddle_points`,
`src/baderkit/core/labelers/bifurcation_graph/graph_numba/bifurcation_base.py:140-330`.

Simplifications: the positions of the box are numbered by integers (`uint8` in the code, large enough for 125 positions); the loop over the
voxels (`prange`) writes each entry of the mask once, so the mask is a function of the voxel.  The union-find takes the number of
connections as fuel.
-/
namespace BaderKit
variable {α : Type*} [LinearOrder α]

/-- `(greater and neigh_value > value) or (not greater and neigh_value < value)`, `bifurcation_base.py:178,237`. -/
def beyond (greater : Bool) (neigh value : α) : Bool :=
  (greater && decide (value < neigh)) || (!greater && decide (neigh < value))

/-- The result of the loop over the shifts in `check_if_possible_saddle`. For `bifurcation_base.py:167-184`. -/
inductive Scan3 where
  /-- `return False`, `bifurcation_base.py:174-175` -/
  | vacuum
  /-- `no_same = False; break`, `bifurcation_base.py:182-184` -/
  | same
  /-- the loop ends with this `value_mask` (the `root_mask` is the same) -/
  | mask (m : ℤ → Bool)

/-- The loop over the shifts, `bifurcation_base.py:167-184`. -/
def scan3 (s : Shape) (data : ℕ → α) (vac : ℕ → Bool) (greater : Bool) (v : ℕ) : List (Coord × ℕ) → (ℤ → Bool) → Scan3
  | [], m => .mask m
  | (t, n) :: l, m =>
    if n = 13 then scan3 s data vac greater v l m
    else if vac (nbr s v t) then .vacuum
    else if beyond greater (data (nbr s v t)) (data v) then scan3 s data vac greater v l (Function.update m (n : ℤ) true)
    else if data (nbr s v t) = data v then .same
    else scan3 s data vac greater v l m

/-- `np.count_nonzero(root_mask)`, `bifurcation_base.py:199,255,261`. -/
def countMask (n : ℕ) (m : ℤ → Bool) : ℕ := ((List.range n).filter fun i : ℕ => m (i : ℤ)).length

/-- `check_if_possible_saddle`, `bifurcation_base.py:140-201`. -/
def possibleSaddle (s : Shape) (data : ℕ → α) (vac : ℕ → Bool) (greater : Bool) (v : ℕ) : Option Bool :=
  match scan3 s data vac greater v (boxShifts 1).zipIdx (fun _ => false) with
  | .vacuum => some false
  | .same => some true
  | .mask m =>
    (runUnionWRoots ((boxConnections 1).length + 1) ((boxConnections 1).filter fun c => m c.1 && m c.2) (fun x => x, m)).map
      fun r => decide (1 < countMask 27 r.2)

/-- `value_mask` of `check_if_saddle`, `bifurcation_base.py:224-242`. -/
def scan5 (s : Shape) (data : ℕ → α) (vac : ℕ → Bool) (greater : Bool) (v : ℕ) (l : List (Coord × ℕ)) (m : ℤ → ℕ) : ℤ → ℕ :=
  l.foldl (fun m (x : Coord × ℕ) =>
    if vac (nbr s v x.1) then m
    else if beyond greater (data (nbr s v x.1)) (data v) then Function.update m (x.2 : ℤ) 2
    else if data (nbr s v x.1) = data v then Function.update m (x.2 : ℤ) 1
    else m) m

/-- `check_if_saddle`, `bifurcation_base.py:204-265`. -/
def isSaddle (s : Shape) (data : ℕ → α) (vac : ℕ → Bool) (greater : Bool) (v : ℕ) : Option Bool := do
  let m := scan5 s data vac greater v (boxShifts 2).zipIdx (fun _ => 0)
  let fuel := (boxConnections 2).length + 1
  let r1 ← runUnionWRoots fuel ((boxConnections 2).filter fun c => min (m c.1) (m c.2) == 2) (fun x => x, fun x => m x == 2)
  let nExclude := countMask 125 r1.2
  let r2 ← runUnionWRoots fuel ((boxConnections 2).filter fun c => min (m c.1) (m c.2) == 1) r1
  let nInclude := countMask 125 r2.2
  some (decide (nExclude ≠ nInclude))

/-- The entry of `find_potential_saddle_points` for one voxel, `bifurcation_base.py:288-328`. -/
def saddleMask (s : Shape) (data : ℕ → α) (edge vac : ℕ → Bool) (greater : Bool) (v : ℕ) : Option Bool :=
  if !(edge v) || vac v then some false
  else do
    let p ← possibleSaddle s data vac greater v
    if p then isSaddle s data vac greater v else some false

end BaderKit
