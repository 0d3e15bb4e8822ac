import Verif.Model.Vec
import Verif.Model.Voxels
import Verif.Model.Merge
/-!
# From basins to atoms

Model of `Bader.assign_basins_to_structure`, `get_oxidation_from_potcar`
(`src/baderkit/core/bader/bader.py:741-846`) and `get_min_avg_surface_dists`
(`methods/shared_numba.py:545-595`).

Simplifications.
* `np.linalg.norm` and `** 0.5` are `root (norm2 …)` for an arbitrary function `root`; the theorems that
  need it assume that it is monotone.
* The properties `basin_charges` and `basin_volumes` round to ten decimals before the sums; the lists
  `bc` and `bv` are the values after that rounding.
-/
namespace BaderKit
variable {K : Type*} [Field K] [LinearOrder K]

/-- `diffs += np.where(diffs <= -0.5, 1, 0); diffs -= np.where(diffs >= 0.5, 1, 0)`,
`bader.py:754-755`, one component. -/
def wrapHalf (d : K) : K :=
  let d1 := d + (if d ≤ -(1 / 2) then 1 else 0)
  d1 - (if d1 ≥ 1 / 2 then 1 else 0)

/-- The same for the three components. For `bader.py:752-759`. -/
def wrapHalfV (d : V3 K) : V3 K := (wrapHalf d.1, wrapHalf d.2.1, wrapHalf d.2.2)

/-- `np.argmin` of one row, `bader.py:762`: the first index of the minimum; an empty row raises. -/
def argmin : List K → Option ℕ
  | [] => none
  | x :: xs => some (xs.foldl (fun (st : ℕ × ℕ × K) y =>
      (st.1 + 1, if y < st.2.2 then (st.1, y) else st.2)) (1, 0, x)).2.1

/-- `np.bincount(xs, weights=ws, minlength=n)`, `bader.py:772-777`, as a function of the bin. -/
def bincount (xs : List ℕ) (ws : List K) : ℕ → K :=
  (xs.zip ws).foldl (fun (acc : ℕ → K) e => Function.update acc e.1 (acc e.1 + e.2)) (fun _ => 0)

/-- The returned tuple, `bader.py:779`. -/
structure Assignment (K : Type*) where
  atomLabels : ℕ → ℤ
  charges : ℕ → K
  volumes : ℕ → K
  basinAtoms : List ℕ
  dists : List K

/-- The row of distances from one basin maximum to all atoms, `bader.py:752-759`. -/
def distRow (root : K → K) (L : M3 K) (atoms : List (V3 K)) (b : V3 K) : List K :=
  atoms.map fun a => root (norm2 (vecMat (wrapHalfV (subV a b)) L))

/-- `assign_basins_to_structure`, `bader.py:741-779`. -/
def assignBasins (root : K → K) (L : M3 K) (atoms basins : List (V3 K)) (labels : ℕ → ℤ)
    (bc bv : List K) : Option (Assignment K) :=
  let rows := basins.map (distRow root L atoms)
  (rows.mapM argmin).map fun idx =>
    let ext : List ℤ := idx.map (fun (i : ℕ) => (i : ℤ)) ++ [-1]
    { atomLabels := fun v => ext.getD (pyIdx ext.length (labels v)) 0
      charges := bincount idx bc
      volumes := bincount idx bv
      basinAtoms := idx
      dists := List.zipWith (fun (row : List K) (i : ℕ) => row.getD i 0) rows idx }

/-- `nelectron_data`, `bader.py:835-836`: the dictionary built from the POTCAR entries, later entries
replace earlier ones; `none` is a missing key. -/
def nelectronData (potcars : List (String × K)) : String → Option K :=
  potcars.foldl (fun (d : String → Option K) e => Function.update d e.1 (some e.2)) (fun _ => none)

/-- `get_oxidation_from_potcar`, `bader.py:834-844`: `sites` are the element names; a missing element is
a `KeyError`. -/
def oxidation (potcars : List (String × K)) (sites : List String) (charges : List K) :
    Option (List K) :=
  (sites.zip charges).mapM fun e => (nelectronData potcars e.1).map fun n => n - e.2

section floor
variable [FloorRing K]

/-- The distance of an edge voxel to the fractional coordinate `f`, `shared_numba.py:568-584`. -/
def surfDist (root : K → K) (s : Shape) (L : M3 K) (f : V3 K) (v : ℕ) : K :=
  let d := subV f (voxFrac s v)
  root (norm2 (vecMat (d.1 - (roundHE d.1 : K), d.2.1 - (roundHE d.2.1 : K),
    d.2.2 - (roundHE d.2.2 : K)) L))

/-- The three accumulators of `get_min_avg_surface_dists`, `shared_numba.py:554-557`. -/
structure SurfAcc (K : Type*) where
  dists : ℕ → K
  sums : ℕ → K
  totals : ℕ → K

/-- Body of the voxel loop, `shared_numba.py:561-591`; `n` is `len(frac_coords)`. -/
def surfStep (root : K → K) (s : Shape) (L : M3 K) (n : ℕ) (frac : ℕ → V3 K) (labels : ℕ → ℤ)
    (edge : ℕ → Bool) (a : SurfAcc K) (v : ℕ) : SurfAcc K :=
  if edge v = false then a
  else
    let b := pyIdx n (labels v)
    let d := surfDist root s L (frac b) v
    { dists := if d < a.dists b then Function.update a.dists b d else a.dists
      sums := Function.update a.sums b (a.sums b + d)
      totals := Function.update a.totals b (a.totals b + 1) }

/-- `get_min_avg_surface_dists`, `shared_numba.py:545-595`: minimum and average distance. -/
def surfaceDists (root : K → K) (s : Shape) (L : M3 K) (n : ℕ) (frac : ℕ → V3 K) (labels : ℕ → ℤ)
    (edge : ℕ → Bool) (maxValue : K) : (ℕ → K) × (ℕ → K) :=
  let a := (List.range s.size).foldl (surfStep root s L n frac labels edge)
    ⟨fun _ => maxValue, fun _ => 0, fun _ => 0⟩
  (a.dists, fun b => a.sums b / a.totals b)

end floor
end BaderKit
