import Verif.Model.Voxels
import Verif.Model.Merge
/-!
# The neargrid method

Model of `src/baderkit/core/bader/methods/neargrid/neargrid_numba.py` and
`neargrid_method.py`.  Floats are elements of an ordered field (the code stores the gradients in
`float32`; the theorems hold for every stored gradient of absolute value at most one).
-/
namespace BaderKit
variable {K : Type*} [Field K] [LinearOrder K]

/-- The central difference of one axis with the zeroing of `get_gradient_simple`,
`neargrid_numba.py:47-56`: `up`/`down` are the values at the two neighbours, `c` at the voxel. -/
def axisGrad (c up down : K) : K :=
  if up ≤ c ∧ down ≤ c then 0 else (up - down) / 2

/-- Product of a `3×3` matrix (given by rows) and a vector, `neargrid_numba.py:61-63,119-121`. -/
def matVec (M : (K × K × K) × (K × K × K) × (K × K × K)) (x : K × K × K) : K × K × K :=
  (M.1.1 * x.1 + M.1.2.1 * x.2.1 + M.1.2.2 * x.2.2,
   M.2.1.1 * x.1 + M.2.1.2.1 * x.2.1 + M.2.1.2.2 * x.2.2,
   M.2.2.1 * x.1 + M.2.2.2.1 * x.2.1 + M.2.2.2.2 * x.2.2)

/-- `get_gradient_simple`, `neargrid_numba.py:12-64`.  `(i + 1) % nx` is the same voxel as the wrapped
`i + 1`. -/
def gradientSimple (s : Shape) (data : ℕ → K)
    (dir2lat : (K × K × K) × (K × K × K) × (K × K × K)) (v : ℕ) : K × K × K :=
  matVec dir2lat
    (axisGrad (data v) (data (nbr s v (1, 0, 0))) (data (nbr s v (-1, 0, 0))),
     axisGrad (data v) (data (nbr s v (0, 1, 0))) (data (nbr s v (0, -1, 0))),
     axisGrad (data v) (data (nbr s v (0, 0, 1))) (data (nbr s v (0, 0, -1))))

/-- `diffs` of `get_gradient_overdetermined`, `neargrid_numba.py:89-110`. -/
def overDiffs (s : Shape) (data : ℕ → K) (half : List (Coord × K)) (v : ℕ) : List K :=
  half.map fun td =>
    let up := data (nbr s v td.1)
    let lo := data (nbr s v (-td.1.1, -td.1.2.1, -td.1.2.2))
    if lo ≤ data v ∧ up ≤ data v then 0 else (up - lo) / (2 * td.2)

/-- Dot product of a row and a list, the rows of `inv_norm_cart_trans @ diffs`,
`neargrid_numba.py:117`. -/
def dotL (row xs : List K) : K := (List.zipWith (· * ·) row xs).sum

/-- `get_gradient_overdetermined`, `neargrid_numba.py:72-124`; `inv` holds the three rows of the
pseudo inverse. -/
def gradientOver (s : Shape) (data : ℕ → K) (half : List (Coord × K))
    (car2lat : (K × K × K) × (K × K × K) × (K × K × K)) (inv : List K × List K × List K) (v : ℕ) :
    K × K × K :=
  let d := overDiffs s data half v
  matVec car2lat (dotL inv.1 d, dotL inv.2.1 d, dotL inv.2.2 d)

/-- `max_grad`, `neargrid_numba.py:197-201`. -/
def maxGrad (g : K × K × K) : K :=
  let step := fun (m x : K) => if |x| > m then |x| else m
  step (step (step 0 g.1) g.2.1) g.2.2

section floor
variable [FloorRing K]

/-- `round` of the three components, `neargrid_numba.py:224,475-477`. -/
def round3 (g : K × K × K) : Coord := (roundHE g.1, roundHE g.2.1, roundHE g.2.2)

/-- The pointer and the stored gradient of one voxel, `neargrid_numba.py:197-241` (same code at
`328-371`), for the gradient `g` computed at the voxel. -/
def gradPointer (s : Shape) (data : ℕ → K) (nbrs : List (Coord × K)) (g : K × K × K) (v : ℕ) :
    ℕ × (K × K × K) :=
  let m := maxGrad g
  if m < 1 / 10 ^ 30 then
    let b := bestNeighbor s data nbrs v
    (b.2, ((b.1.1 : K), (b.1.2.1 : K), (b.1.2.2 : K)))
  else
    let g' := (g.1 / m, g.2.1 / m, g.2.2 / m)
    let n := nbr s v (round3 g')
    if data v ≥ data n then ((bestNeighbor s data nbrs v).2, g') else (n, g')

/-- `get_gradient_pointers_simple`, `neargrid_numba.py:131-242`, and
`get_gradient_pointers_overdetermined`, `251-372`; `grad` is the gradient function
(`gradientSimple` or `gradientOver`), `order` the `prange` visiting order.  Returns the pointers and
the stored gradients. -/
def gradientPointers (s : Shape) (data : ℕ → K) (nbrs : List (Coord × K)) (grad : ℕ → K × K × K)
    (vac maxm : ℕ → Bool) (order : List ℕ) (labels : ℕ → ℤ) :
    (ℕ → ℤ) × (ℕ → K × K × K) :=
  order.foldl (fun (st : (ℕ → ℤ) × (ℕ → K × K × K)) v =>
    if vac v then st
    else if maxm v then st
    else
      let r := gradPointer s data nbrs (grad v) v
      (Function.update st.1 v (r.1 : ℤ), Function.update st.2 v r.2))
    (labels, fun _ => (0, 0, 0))

/-- The read-only inputs of `refine_fast_neargrid`, `neargrid_numba.py:376-384`. -/
structure NearIn (K : Type*) where
  /-- shape of the grid -/
  s : Shape
  /-- reference data -/
  data : ℕ → K
  /-- neighbour transforms and distances -/
  nbrs : List (Coord × K)
  /-- `maxima_mask` -/
  maxm : ℕ → Bool
  /-- stored gradients -/
  grad : ℕ → K × K × K

/-- Local variables of the climb: current voxel, `(tdi, tdj, tdk)` and `path` (latest first). For `neargrid_numba.py:434-438`. -/
structure Climb (K : Type*) where
  cur : ℕ
  td : K × K × K
  path : List ℕ

/-- `tdi, tdj, tdk = (0.0, 0.0, 0.0)`, the start voxel and `path = []`, `neargrid_numba.py:434-438`. -/
def Climb.init (v : ℕ) : Climb K := ⟨v, (0, 0, 0), []⟩

/-- The neargrid part of a climbing step, `neargrid_numba.py:473-494`: the wrapped new voxel and the new
`td`. -/
def nearStep (I : NearIn K) (c : Climb K) : ℕ × (K × K × K) :=
  let g := I.grad c.cur
  let p := round3 g
  let td1 : K × K × K := (c.td.1 + (g.1 - (p.1 : K)), c.td.2.1 + (g.2.1 - (p.2.1 : K)),
    c.td.2.2 + (g.2.2 - (p.2.2 : K)))
  let q := round3 td1
  let td2 : K × K × K := (td1.1 - (q.1 : K), td1.2.1 - (q.2.1 : K), td1.2.2 - (q.2.2 : K))
  (nbr I.s c.cur (addC p q), td2)

/-- One iteration of the climb at a voxel that is not a maximum, `neargrid_numba.py:466-510`.  `lab` is
the current content of `labels` (only whether it is zero matters here). -/
def climbStep (I : NearIn K) (lab : ℕ → ℤ) (c : Climb K) : Climb K :=
  let path := c.cur :: c.path
  let r := nearStep I c
  if r.1 ∈ path ∨ lab r.1 = 0 then
    ⟨(bestNeighbor I.s I.data I.nbrs c.cur).2, (0, 0, 0), path⟩
  else ⟨r.1, r.2, path⟩

/-- The `while True` loop of the climb, `neargrid_numba.py:440-510`, up to the maximum at which it
stops. -/
def climbLoop (I : NearIn K) (lab : ℕ → ℤ) : ℕ → Climb K → Option ℕ
  | 0, _ => none
  | fuel + 1, c => if I.maxm c.cur then some c.cur else climbLoop I lab fuel (climbStep I lab c)

/-- The shared memory of the refinement: `labels` and `refinement_mask`. For `neargrid_numba.py:451-461`. -/
structure RMem where
  lab : ℕ → ℤ
  mask : ℕ → Bool

/-- The neighbour loop after a reassignment, `neargrid_numba.py:451-461`. -/
def pushNbrs (I : NearIn K) (v : ℕ) (m : RMem) : RMem :=
  I.nbrs.foldl (fun (m : RMem) td =>
    let n := nbr I.s v td.1
    if m.lab n > 0 then ⟨Function.update m.lab n (-|m.lab n|), Function.update m.mask n true⟩ else m) m

/-- The body of the `prange` loop, `neargrid_numba.py:428-464`, for one voxel run on its own: the climb
and the updates at the maximum.  Also returns the new `reassignments`. -/
def refineVoxel (I : NearIn K) (fuel : ℕ) (st : RMem × ℕ) (v : ℕ) : Option (RMem × ℕ) :=
  let label := |st.1.lab v|
  (climbLoop I st.1.lab fuel (Climb.init v)).map fun top =>
    let cur := |st.1.lab top|
    let m1 : RMem := ⟨st.1.lab, Function.update st.1.mask v false⟩
    let m2 := if label ≠ cur then pushNbrs I v m1 else m1
    (⟨Function.update m2.lab v (-cur), m2.mask⟩, if label ≠ cur then st.2 + 1 else st.2)

/-- One pass of the `while reassignments > 0` loop, `neargrid_numba.py:418-511`: the voxels of the mask
in the order `pi` gives them (`np.argwhere` order in a sequential run). -/
def refineRound (I : NearIn K) (fuel : ℕ) (order : List ℕ) (m : RMem) : Option (RMem × ℕ) :=
  order.foldlM (refineVoxel I fuel) (m, 0)

/-- `np.argwhere(refinement_mask)`, `neargrid_numba.py:419`. -/
def maskVox (s : Shape) (mask : ℕ → Bool) : List ℕ := (List.range s.size).filter fun v => mask v

/-- The `while reassignments > 0` loop, `neargrid_numba.py:416-513`.  `perm` is the order in which the
parallel loop handles the listed voxels; `rounds` bounds the passes and `fuel` the climbs. -/
def refineLoop (I : NearIn K) (perm : List ℕ → List ℕ) (fuel : ℕ) : ℕ → RMem → Option RMem
  | 0, _ => none
  | rounds + 1, m =>
    if maskVox I.s m.mask = [] then some m
    else
      (refineRound I fuel (perm (maskVox I.s m.mask)) m).bind fun r =>
        if r.2 > 0 then refineLoop I perm fuel rounds r.1 else some r.1

/-- `neargrid_method.py:84-104`: the ranked labels are shifted by one, the edges that are not maxima are
put in the refinement mask and negated.  `order` is the visiting order of `get_edges`. -/
def refineStart (I : NearIn K) (vac : ℕ → Bool) (order : List ℕ) (labels : ℕ → ℤ) : RMem :=
  let l1 := fun v => labels v + 1
  let edges := getEdges I.s l1 (I.nbrs.map Prod.fst) vac order
  let mask := fun v => if I.maxm v then false else edges v
  ⟨fun v => if mask v then -(l1 v) else l1 v, mask⟩

/-- `neargrid_method.py:84-117`: refinement of the ranked labels and the shift back. -/
def neargridRefine (I : NearIn K) (vac : ℕ → Bool) (order : List ℕ) (perm : List ℕ → List ℕ)
    (fuel rounds : ℕ) (labels : ℕ → ℤ) : Option (ℕ → ℤ) :=
  (refineLoop I perm fuel rounds (refineStart I vac order labels)).map fun m => fun v => |m.lab v| - 1

/-- `NeargridMethod._run_bader`, `neargrid_method.py:34-117`, from the initial labels of the maxima:
pointers, roots, ranking, refinement.  `o1`, `o2` are visiting orders, `numVac` is
`self.num_vacuum`. -/
def neargridLabels (s : Shape) (data : ℕ → K) (nbrs : List (Coord × K)) (grad : ℕ → K × K × K)
    (vac maxm : ℕ → Bool) (numVac : ℕ) (o1 o2 : List ℕ) (perm : List ℕ → List ℕ) (fuel : ℕ)
    (labels0 : ℕ → ℤ) : Option (ℕ → ℤ) :=
  let pg := gradientPointers s data nbrs grad vac maxm o1 labels0
  (getRoots s.size numVac fuel pg.1).bind fun roots =>
    neargridRefine ⟨s, data, nbrs, maxm, pg.2⟩ vac o2 perm fuel fuel (rankLabels s.size roots)

/-! ## Thread-level model of one refinement pass -/

/-- Program counter of one iteration of the `prange` loop. For `neargrid_numba.py:428-511`. -/
inductive RPC (K : Type*) where
  /-- before `label = abs(labels[i, j, k])` (line 432) -/
  | start
  /-- at the head of the `while True` loop (line 442) -/
  | climb (label : ℤ) (c : Climb K)
  /-- at a maximum, before `refinement_mask[i, j, k] = False` (line 444) -/
  | unmask (label : ℤ) (top : ℕ)
  /-- before `current_label = abs(labels[ii, jj, kk])` (line 446) -/
  | readTop (label : ℤ) (top : ℕ)
  /-- in the neighbour loop, before the test `labels[ni, nj, nk] > 0` (line 457) -/
  | test (cur : ℤ) (todo : List ℕ)
  /-- before `refinement_mask[ni, nj, nk] = True` (line 458) -/
  | setMask (cur : ℤ) (n : ℕ) (todo : List ℕ)
  /-- before the read of `labels[ni, nj, nk]` in line 461 -/
  | readNbr (cur : ℤ) (n : ℕ) (todo : List ℕ)
  /-- before the store of line 461, `x` is the value read -/
  | setNbr (cur x : ℤ) (n : ℕ) (todo : List ℕ)
  /-- before `labels[i, j, k] = -current_label` (line 463) -/
  | relabel (cur : ℤ)
  /-- the iteration is over -/
  | done

/-- One atomic step of the iteration for voxel `i`.  Every step makes at most one access to a shared
location; `reassignments` is left out because it only decides whether another pass is made, and a pass
without reassignment leaves an empty mask. For `neargrid_numba.py:428-511`. -/
def rstep (I : NearIn K) (i : ℕ) (m : RMem) : RPC K → RMem × RPC K
  | .start => (m, .climb |m.lab i| (Climb.init i))
  | .climb label c =>
    (m, if I.maxm c.cur then .unmask label c.cur else .climb label (climbStep I m.lab c))
  | .unmask label top => (⟨m.lab, Function.update m.mask i false⟩, .readTop label top)
  | .readTop label top =>
    (m, if label ≠ |m.lab top| then .test |m.lab top| (I.nbrs.map fun td => nbr I.s i td.1)
        else .relabel |m.lab top|)
  | .test cur [] => (m, .relabel cur)
  | .test cur (n :: todo) => (m, if m.lab n > 0 then .setMask cur n todo else .test cur todo)
  | .setMask cur n todo => (⟨m.lab, Function.update m.mask n true⟩, .readNbr cur n todo)
  | .readNbr cur n todo => (m, .setNbr cur (m.lab n) n todo)
  | .setNbr cur x n todo => (⟨Function.update m.lab n (-|x|), m.mask⟩, .test cur todo)
  | .relabel cur => (⟨Function.update m.lab i (-cur), m.mask⟩, .done)
  | .done => (m, .done)

/-- One step of the parallel loop over the voxels `vs`: the scheduler picks a voxel; voxels that are not
part of the pass do nothing. For `neargrid_numba.py:428-511`. -/
def rstepAll (I : NearIn K) (vs : List ℕ) (st : RMem × (ℕ → RPC K)) (i : ℕ) : RMem × (ℕ → RPC K) :=
  if i ∈ vs then
    let r := rstep I i st.1 (st.2 i)
    (r.1, Function.update st.2 i r.2)
  else st

/-- One refinement pass under the schedule `sched`. For `neargrid_numba.py:428-511`. -/
def rrun (I : NearIn K) (vs : List ℕ) (m : RMem) (sched : List ℕ) : RMem × (ℕ → RPC K) :=
  sched.foldl (rstepAll I vs) (m, fun _ => .start)

end floor
end BaderKit
