import Verif.Model.InitLabels
/-!
# The weight method

Model of `get_weight_assignments` and `sort_maxima_frac`,
`src/baderkit/core/bader/methods/weight/weight_numba.py:11-418`, and of the surrounding
`weight_method.py:17-96`.

Simplifications.
* Voxels of `sorted_indices` are referred to by their flat index instead of their position in
  `sorted_indices`; `edge_sorted_indices`, `idx_to_edge`, `all_weights`, `all_labels` are indexed by
  the voxel.  The position is a bijection because `sorted_indices` has no repetitions.
* The two `prange` phases write one row per voxel each and read nothing that they write; they are
  functions of the voxel.
* `np.empty` contents are never read for the inputs of the theorems; the model has the empty list there.
* Division by a zero charge (line 383) gives zero instead of a `ZeroDivisionError`.
* `weight_mask` is represented by membership in `current_labels`.
* `np.argsort` at line 354 is an arbitrary function `argsortW` giving an order of the list.
-/
namespace BaderKit

/-- The arguments of `get_weight_assignments`, `weight_numba.py:12-23`: `vor` is
`zip(neighbor_transforms, neighbor_alpha)`, `all` is
`zip(all_neighbor_transforms, all_neighbor_dists)`. -/
structure WeightIn (K : Type*) where
  s : Shape
  ref : ℕ → K
  vor : List (Coord × K)
  all : List (Coord × K)
  mask : ℕ → Bool
  maxIdx : List ℕ

/-- State of the interior phase, `weight_numba.py:35-36,102-103`; `stale` is the variable `label`, which
is read again at line 230. -/
structure IntState (K : Type*) where
  labels : ℕ → ℤ
  charges : ℕ → K
  volumes : ℕ → K
  edges : List ℕ
  added : List ℕ
  stale : ℤ

/-- `np.searchsorted(a, x)` (left) for a sorted `a`, `weight_numba.py:157`. -/
def searchSorted (a : List ℕ) (x : ℕ) : ℕ := (a.filter (fun (y : ℕ) => decide (y < x))).length

/-- `sort_maxima_frac`, `weight_numba.py:398-418`: the flat indices of the maxima in increasing order,
together with the permuted payload (coordinates). -/
def sortMaxima {β : Type*} (maxima : List (ℕ × β)) : List (ℕ × β) :=
  maxima.insertionSort (fun a b => a.1 ≤ b.1)

/-- Scan of the neighbours of a voxel, `weight_numba.py:113-127`: returns `best_label` and the last
value of `label`. -/
def interiorScan (labels : ℕ → ℤ) : List ℕ → ℤ → ℤ → ℤ × ℤ
  | [], best, lab => (best, lab)
  | n :: ns, best, _ =>
    if labels n = -1 then (-1, labels n)
    else if labels n ≠ best ∧ best ≠ -1 then (-1, labels n)
    else interiorScan labels ns (labels n) (labels n)

section field
variable {K : Type*} [Field K] [LinearOrder K]

/-- Neighbours that are higher, `weight_numba.py:68-79` (and `201-208`). -/
def higherVor (W : WeightIn K) (v : ℕ) : List (Coord × K) :=
  W.vor.filter (fun (t : Coord × K) => decide (W.ref v < W.ref (nbr W.s v t.1)))

/-- The row of `neigh_array` of a voxel, `weight_numba.py:58-96`; empty for a maximum. -/
def weightNbrs (W : WeightIn K) (v : ℕ) : List ℕ :=
  if W.mask v = true then []
  else if higherVor W v = [] then [(bestNeighbor W.s W.ref W.all v).2]
  else (higherVor W v).map (fun (t : Coord × K) => nbr W.s v t.1)

/-- `labels[idx] = b; charges[b] += flat_charge[idx]; volumes[b] += 1.0`, `weight_numba.py:131-133`,
`158-160`, `166-168`. -/
def creditVoxel (chg : ℕ → K) (st : IntState K) (idx : ℕ) (b : ℤ) : IntState K :=
  { st with
    labels := Function.update st.labels idx b
    charges := Function.update st.charges b.toNat (st.charges b.toNat + chg idx)
    volumes := Function.update st.volumes b.toNat (st.volumes b.toNat + 1) }

/-- Root maximum not added yet, `weight_numba.py:155-162`. -/
def addRoot (W : WeightIn K) (chg : ℕ → K) (st : IntState K) (root : ℕ) : IntState K :=
  if root ∈ st.added then st
  else { creditVoxel chg st root (searchSorted W.maxIdx root) with added := st.added ++ [root] }

/-- Body of the interior loop, `weight_numba.py:107-168`. -/
def interiorStep (W : WeightIn K) (chg : ℕ → K) (st : IntState K) (idx : ℕ) : IntState K :=
  if weightNbrs W idx ≠ [] then
    let bl := interiorScan st.labels (weightNbrs W idx) (-1) st.stale
    if bl.1 ≠ -1 then { creditVoxel chg st idx bl.2 with stale := bl.2 }
    else { st with edges := st.edges ++ [idx], stale := bl.2 }
  else if idx ∈ st.added then st
  else
    let root := (st.labels idx).toNat
    let st1 := addRoot W chg { st with stale := st.labels idx } root
    if idx = root then st1 else creditVoxel chg st1 idx (st1.labels root)

/-- The interior phase, `weight_numba.py:98-168`. -/
def interiorPhase (W : WeightIn K) (chg : ℕ → K) (labels0 : ℕ → ℤ) (sorted : List ℕ) : IntState K :=
  sorted.foldl (interiorStep W chg) ⟨labels0, fun _ => 0, fun _ => 0, [], [], 0⟩

/-- Lines 224-233: add the flux to the first stored entry whose label equals the *stale* variable. For `weight_numba.py:209-237`. -/
def bumpStale (stale : ℤ) (flux : K) : List (K × ℤ) → Option (List (K × ℤ))
  | [] => none
  | e :: es => if stale = e.2 then some ((e.1 + flux, e.2) :: es)
    else (bumpStale stale flux es).map (fun l => e :: l)

/-- Body of the neighbour loop of the flux phase, `weight_numba.py:209-237`; the accumulator is the
list of `(flux, label)` and `total_flux`. -/
def fluxStep (W : WeightIn K) (labels : ℕ → ℤ) (stale : ℤ) (v : ℕ) (acc : List (K × ℤ) × K)
    (t : Coord × K) : List (K × ℤ) × K :=
  let n := nbr W.s v t.1
  let flux := (W.ref n - W.ref v) * t.2
  if labels n = -1 then (acc.1 ++ [(flux, -(n : ℤ) - 1)], acc.2 + flux)
  else match bumpStale stale flux acc.1 with
    | some l => (l, acc.2 + flux)
    | none => (acc.1 ++ [(flux, labels n)], acc.2 + flux)

/-- The row of `flux_array`/`neigh_array` of an edge voxel, `weight_numba.py:183-267`. -/
def fluxRow (W : WeightIn K) (labels : ℕ → ℤ) (stale : ℤ) (v : ℕ) : List (K × ℤ) :=
  let r := (higherVor W v).foldl (fluxStep W labels stale v) ([], 0)
  if r.1 = [] then
    let n := (bestNeighbor W.s W.ref W.all v).2
    [(1 / 1, if 0 ≤ labels n then labels n else -(n : ℤ) - 1)]
  else r.1.map (fun (e : K × ℤ) => (e.1 / r.2, e.2))

/-- State of the edge phase, `weight_numba.py:274-279`; `stored` is `all_labels`/`all_weights`. -/
structure EdgeState (K : Type*) where
  labels : ℕ → ℤ
  charges : ℕ → K
  volumes : ℕ → K
  approx : ℕ → K
  stored : ℕ → List (ℕ × K)

/-- `scratch_weights[label] += w` and registration in `current_labels`, `weight_numba.py:297-300`,
`312-315`. -/
def scratchAdd (acc : (ℕ → K) × List ℕ) (label : ℕ) (w : K) : (ℕ → K) × List ℕ :=
  (Function.update acc.1 label (acc.1 label + w),
    if label ∈ acc.2 then acc.2 else acc.2 ++ [label])

/-- The weights gathered at an edge voxel, `weight_numba.py:287-315`. -/
def gather (stored : ℕ → List (ℕ × K)) (row : List (K × ℤ)) : (ℕ → K) × List ℕ :=
  row.foldl (fun acc e =>
    if 0 ≤ e.2 then scratchAdd acc e.2.toNat e.1
    else (stored (-e.2 - 1).toNat).foldl (fun acc lw => scratchAdd acc lw.1 (e.1 * lw.2)) acc)
    (fun _ => 0, [])

/-- State of the loop `weight_numba.py:320-349`. -/
structure CreditState (K : Type*) where
  charges : ℕ → K
  volumes : ℕ → K
  best : ℤ
  bestW : K
  tied : Bool
  reduced : List (ℕ × K)
  total : K

/-- The tolerance `1e-6`, `weight_numba.py:325`. -/
def wTol : K := 1 / 10 ^ 6

/-- The cut-off `1e-30`, `weight_numba.py:337`. -/
def wCut : K := 1 / 10 ^ 30

/-- Body of the loop `weight_numba.py:330-349`. -/
def creditStep (scratch : ℕ → K) (charge : K) (c : CreditState K) (label : ℕ) : CreditState K :=
  let w := scratch label
  let c1 : CreditState K := { c with
    charges := Function.update c.charges label (c.charges label + charge * w)
    volumes := Function.update c.volumes label (c.volumes label + w) }
  if w < wCut then c1
  else
    let c2 : CreditState K :=
      if w > c1.bestW + wTol then { c1 with best := (label : ℤ), bestW := w, tied := false }
      else if w > c1.bestW - wTol then { c1 with tied := true }
      else c1
    { c2 with reduced := c2.reduced ++ [(label, w)], total := c2.total + w }

/-- Cap and normalisation of the stored weights, `weight_numba.py:351-360`. -/
def capWeights (argsortW : List (ℕ × K) → List (ℕ × K)) (reduced : List (ℕ × K)) (total : K) :
    List (ℕ × K) :=
  let l := if reduced.length > 26 then (argsortW reduced).drop (reduced.length - 26) else reduced
  let tot := if reduced.length > 26 then (l.map Prod.snd).sum else total
  l.map (fun (e : ℕ × K) => (e.1, e.2 / tot))

/-- The choice between tied basins, `weight_numba.py:374-386`. -/
def tieBreak (charges approx : ℕ → K) (charge bestW : K) (stored : List (ℕ × K)) (best : ℤ) : ℤ :=
  (stored.foldl (fun (acc : K × ℤ) (e : ℕ × K) =>
    if e.2 < bestW - wTol then acc
    else
      let diff := approx e.1 - charges e.1
      let improvement := (|diff| - |diff + charge|) / charges e.1
      if improvement > acc.1 + wTol then (improvement, (e.1 : ℤ)) else acc) (-1, best)).2

/-- Body of the edge loop, `weight_numba.py:280-388`. -/
def edgeStep (W : WeightIn K) (chg : ℕ → K) (argsortW : List (ℕ × K) → List (ℕ × K))
    (row : ℕ → List (K × ℤ)) (st : EdgeState K) (v : ℕ) : EdgeState K :=
  let g := gather st.stored (row v)
  let current := g.2.insertionSort (· ≤ ·)
  let c := current.foldl (creditStep g.1 (chg v))
    ⟨st.charges, st.volumes, -1, 0, false, [], 0⟩
  let stored := capWeights argsortW c.reduced c.total
  let b := if c.tied then tieBreak c.charges st.approx (chg v) c.bestW stored c.best else c.best
  { labels := Function.update st.labels v b
    charges := c.charges
    volumes := c.volumes
    approx := Function.update st.approx (pyIdx W.maxIdx.length b)
      (st.approx (pyIdx W.maxIdx.length b) + chg v)
    stored := Function.update st.stored v stored }

/-- `get_weight_assignments`, `weight_numba.py:12-394`. -/
def weightAssign (W : WeightIn K) (chg : ℕ → K) (argsortW : List (ℕ × K) → List (ℕ × K))
    (labels0 : ℕ → ℤ) (sorted : List ℕ) : EdgeState K :=
  let st := interiorPhase W chg labels0 sorted
  st.edges.foldl (edgeStep W chg argsortW (fluxRow W st.labels st.stale))
    ⟨st.labels, st.charges, st.volumes, st.charges, fun _ => []⟩

/-- The results of the weight method, `weight_method.py:72-95`: charges in electrons, volumes in
physical units; `cell` is `structure.volume`, `point_volume` is `cell / ngridpts` (`grid.py:293-303`). -/
def weightResults (W : WeightIn K) (chg : ℕ → K) (argsortW : List (ℕ × K) → List (ℕ × K))
    (vac : ℕ → Bool) (labels0 : ℕ → ℤ) (sorted : List ℕ) (cell : K) : ChargeAcc K :=
  let r := weightAssign W chg argsortW labels0 sorted
  let vacuum := (List.range W.s.size).filter vac
  { charges := fun b => r.charges b / (W.s.size : K)
    volumes := fun b => r.volumes b * (cell / (W.s.size : K))
    vacCharge := (vacuum.map chg).sum / (W.s.size : K)
    vacVolume := (vacuum.length : K) / (W.s.size : K) * cell }

end field
end BaderKit
