import Verif.Model.Weight
import Verif.Model.Neargrid
/-!
# The neargrid-weight method: splitting of the edge voxels

Model of `src/baderkit/core/bader/methods/neargrid_weight/neargrid_weight_numba.py:12-159` and of the last part of
`neargrid_weight_method.py:118-179`.  The labels come from the refinement (`Model/Neargrid.lean`).

Simplifications.
* The rows of `flux_array`/`neigh_array` are lists; rows are independent of each other (`prange`, lines 75-128).
* `np.argsort(edge_data, kind="stable")` is the stable insertion sort.
-/
namespace BaderKit

variable {K : Type*} [Field K] [LinearOrder K]

/-- The charges and volumes during the method, `neargrid_weight_numba.py:21-24,67-69`. -/
structure NWState (K : Type*) where
  charges : ℕ → K
  volumes : ℕ → K
  flatC : ℕ → K
  flatV : ℕ → K

/-- The arguments of `get_edge_charges_volumes`, `neargrid_weight_numba.py:46-58`; `nb` is the length of `charges`. -/
structure NWIn (K : Type*) where
  s : Shape
  ref : ℕ → K
  chg : ℕ → K
  vor : List (Coord × K)
  all : List (Coord × K)
  labels : ℕ → ℤ
  edge : ℕ → Bool
  nb : ℕ

/-- Body of the loop of `get_interior_basin_charges_and_volumes`, `neargrid_weight_numba.py:29-38`. -/
def nwInteriorStep (W : NWIn K) (a : ChargeAcc K) (v : ℕ) : ChargeAcc K :=
  if W.edge v = true then a
  else if W.labels v < 0 then { a with vacCharge := a.vacCharge + W.chg v, vacVolume := a.vacVolume + 1 }
  else { a with
    charges := Function.update a.charges (W.labels v).toNat (a.charges (W.labels v).toNat + W.chg v)
    volumes := Function.update a.volumes (W.labels v).toNat (a.volumes (W.labels v).toNat + 1) }

/-- `get_interior_basin_charges_and_volumes`, `neargrid_weight_numba.py:12-41`. -/
def nwInterior (W : NWIn K) : ChargeAcc K :=
  (List.range W.s.size).foldl (nwInteriorStep W) ⟨fun _ => 0, fun _ => 0, 0, 0⟩

/-- The row of an edge voxel, `neargrid_weight_numba.py:75-128`: pairs of flux and neighbour. -/
def nwRow (W : NWIn K) (v : ℕ) : List (K × ℕ) :=
  let higher := W.vor.filter (fun (t : Coord × K) => !decide (W.ref (nbr W.s v t.1) ≤ W.ref v))
  let row := higher.map (fun (t : Coord × K) => ((W.ref (nbr W.s v t.1) - W.ref v) * t.2, nbr W.s v t.1))
  let total := (row.map Prod.fst).sum
  if total = 0 then [(1, (bestNeighbor W.s W.ref W.all v).2)]
  else row.map (fun (e : K × ℕ) => (e.1 / total, e.2))

/-- Body of the neighbour loop, `neargrid_weight_numba.py:142-157`. -/
def nwPush (W : NWIn K) (charge volume : K) (st : NWState K) (e : K × ℕ) : NWState K :=
  if st.flatC e.2 = 0 then
    let b := pyIdx W.nb (W.labels e.2)
    { st with
      charges := Function.update st.charges b (st.charges b + charge * e.1)
      volumes := Function.update st.volumes b (st.volumes b + volume * e.1) }
  else
    { st with
      flatC := Function.update st.flatC e.2 (st.flatC e.2 + charge * e.1)
      flatV := Function.update st.flatV e.2 (st.flatV e.2 + volume * e.1) }

/-- Body of the loop over the edges, `neargrid_weight_numba.py:131-157`. -/
def nwEdge (W : NWIn K) (st : NWState K) (v : ℕ) : NWState K :=
  (nwRow W v).foldl (nwPush W (st.flatC v) (st.flatV v)) st

/-- The edges in the order of the loop, `neargrid_weight_method.py:164-167`: by the *charge* data. -/
def nwOrder (W : NWIn K) : List ℕ :=
  ((List.range W.s.size).filter (fun v => W.edge v)).insertionSort (fun a b => W.chg a ≤ W.chg b)

/-- `get_edge_charges_volumes`, `neargrid_weight_numba.py:45-159`. -/
def nwEdges (W : NWIn K) (charges volumes : ℕ → K) : NWState K :=
  (nwOrder W).foldl (nwEdge W) ⟨charges, volumes, fun v => if v < W.s.size ∧ W.edge v = true then W.chg v else 0, fun _ => 1⟩

/-- The results, `neargrid_weight_method.py:128-179`: the vacuum is not divided by the number of points. -/
def nwResults (W : NWIn K) (cell : K) : ChargeAcc K :=
  let i := nwInterior W
  let e := nwEdges W i.charges i.volumes
  { charges := fun b => e.charges b / W.s.size
    volumes := fun b => e.volumes b * cell / W.s.size
    vacCharge := i.vacCharge
    vacVolume := i.vacVolume }

/-- `NeargridWeightMethod._run_bader`, `neargrid_weight_method.py:38-189`, from the initial labels of the maxima: the labels are those of the neargrid
method (the same calls, `:38-116`), `maxNum` is the number of reported maxima, `o3` the visiting order of the last `get_edges`.  The overdetermined branch
is switched off by the class, `:24`. -/
def nwRun [FloorRing K] (s : Shape) (data chg : ℕ → K) (nbrs vor : List (Coord × K)) (grad : ℕ → K × K × K) (vac maxm : ℕ → Bool) (numVac maxNum : ℕ) (cell : K)
    (o1 o2 o3 : List ℕ) (perm : List ℕ → List ℕ) (fuel : ℕ) (labels0 : ℕ → ℤ) : Option ((ℕ → ℤ) × ChargeAcc K) :=
  (neargridLabels s data nbrs grad vac maxm numVac o1 o2 perm fuel labels0).map fun lab =>
    (lab, nwResults ⟨s, data, chg, vor, nbrs, lab, getEdges s lab (nbrs.map Prod.fst) vac o3, maxNum⟩ cell)

end BaderKit
