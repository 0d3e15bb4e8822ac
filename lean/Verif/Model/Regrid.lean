import Verif.Model.Interp
import Verif.Model.CubeFile
/-!
# Regridding

Model of `Grid.regrid` (`src/baderkit/core/toolkit/grid.py:866-914`) and of the values at points (`grid.py:549-623`,
`toolkit/interpolator.py:31-42`, `utilities/interpolation.py:155-194`).

`scipy.ndimage.zoom` with `grid_mode=True` and `mode="grid-wrap"` is modelled by its documentation: the size of an axis is the rounded product
of the old size and the factor, and voxel `o` of the new array is the interpolated value of the old array at the voxel coordinate
`(o + 1/2) * old / new - 1/2`.  The interpolation of the requested order is a parameter `interp` in voxel coordinates (`interpSpline` of the
filtered data for the default order).
-/
namespace BaderKit
variable {K : Type*} [Field K] [LinearOrder K] [FloorRing K]

/-- What the constructor of a grid is given, `grid.py:88-145`: the arrays, the volume of the structure, the kind of the data, the file format
and whether there are augmentation data. -/
structure GridObj (K : Type*) where
  data : List (String × Arr3 K)
  volume : K
  kind : DataKind
  format : FileFormat
  aug : Bool

/-- `new_shape` for one axis, `grid.py:899-903`; `s` is `scale_factor`. -/
def axisSize (s : K) (n : ℕ) : ℕ := (roundHE ((n : K) * s)).toNat

/-- `new_shape`, `grid.py:896-903`; `root3` is the cube root. -/
def regridShape (root3 : K → K) (res : K) (volume : K) (sh : ℕ × ℕ × ℕ) : ℕ × ℕ × ℕ :=
  let s := root3 (res * volume / ((sh.1 * sh.2.1 * sh.2.2 : ℕ) : K))
  (axisSize s sh.1, axisSize s sh.2.1, axisSize s sh.2.2)

/-- The coordinate of the old array that `zoom` reads for index `o` of an axis. For `grid.py:908-911`. -/
def zoomCoord (n m o : ℕ) : K := ((o : K) + 1 / 2) * ((n : K) / (m : K)) - 1 / 2

/-- `zoom(data, zoom_factor, order, mode="grid-wrap", grid_mode=True)`, `grid.py:908-911`, with `zoom_factor = new_shape / shape`. -/
def zoomGrid (interp : Arr3 K → V3 K → K) (a : Arr3 K) (f : V3 K) : Arr3 K :=
  let m : ℕ × ℕ × ℕ := ((roundHE ((a.nx : K) * f.1)).toNat, (roundHE ((a.ny : K) * f.2.1)).toNat, (roundHE ((a.nz : K) * f.2.2)).toNat)
  ⟨m.1, m.2.1, m.2.2, fun i j k => interp a (zoomCoord a.nx m.1 i, zoomCoord a.ny m.2.1 j, zoomCoord a.nz m.2.2 k)⟩

/-- `regrid`, `grid.py:866-914`: the new grid is made from the structure and the arrays alone, so the kind of the data is the default of the
constructor (`grid.py:94`), the format that of VASP (`grid.py:126`) and there are no augmentation data.  `sh` is the shape of the total data;
`new` is the argument `new_shape`. -/
def regrid (interp : Arr3 K → V3 K → K) (root3 : K → K) (res : K) (new : Option (ℕ × ℕ × ℕ)) (sh : ℕ × ℕ × ℕ) (g : GridObj K) : GridObj K :=
  let m := new.getD (regridShape root3 res g.volume sh)
  let f : V3 K := ((m.1 : K) / (sh.1 : K), (m.2.1 : K) / (sh.2.1 : K), (m.2.2 : K) / (sh.2.2 : K))
  { data := g.data.map fun (kd : String × Arr3 K) => (kd.1, zoomGrid interp kd.2 f)
    volume := g.volume
    kind := .charge
    format := .vasp
    aug := false }

/-- The interpolation of one point by name, `interpolation.py:180-192`; `filt` are the spline coefficients of the data (`grid.py:577-580`) and
`none` a name that is not known. -/
def pointValue (filt : Arr3 K → Arr3 K) (method : String) (a : Arr3 K) (p : V3 K) : Option (Option K) :=
  if method = "nearest" then some (some (interpNearest a true p))
  else if method = "linear" then some (interpLinear a true p)
  else if method = "cubic" then some (some (interpSpline (filt a) true p))
  else none

/-- `values_at` and `interpolate_points`, `grid.py:591-623`, `interpolation.py:174-194`: the array of results starts with what the memory holds
(`junk`), and the iterations of the parallel loop run in the order `order`. -/
def valuesAt (filt : Arr3 K → Arr3 K) (method : String) (a : Arr3 K) (pts : List (V3 K)) (junk : ℕ → Option K) (order : List ℕ) : ℕ → Option K :=
  order.foldl (fun (out : ℕ → Option K) (t : ℕ) =>
    match pts[t]? with
    | none => out
    | some p => match pointValue filt method a p with
      | none => out
      | some v => Function.update out t v) junk

/-- `value_at`, `grid.py:549-589`: the only entry for one point. -/
def valueAt (filt : Arr3 K → Arr3 K) (method : String) (a : Arr3 K) (p : V3 K) (junk : ℕ → Option K) : Option K :=
  valuesAt filt method a [p] junk [0] 0

end BaderKit
