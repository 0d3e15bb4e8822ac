import Verif.Model.Transforms
import Verif.Model.Interp
import Verif.Model.GridOps
/-!
# Where the parts of a plot are drawn

`src/baderkit/plotting/core/plotter.py:430-618,887-899,1292-1370,1400-1490`.
-/
namespace BaderKit

section field
variable {K : Type*} [Field K] [LinearOrder K]

/-- The shifts along one axis, `plotter.py:449-452`. -/
def edgeShift (tol x : K) : List ℤ := if |x| < tol then [0, 1] else if |x - 1| < tol then [0, -1] else [0]

/-- `get_edge_atom_fracs`, `plotter.py:430-455`; the order of the set is left open by the code, here it is the one of the product. -/
def edgeFracs (tol : K) (f : V3 K) : List (V3 K) :=
  (edgeShift tol f.1).flatMap fun (i : ℤ) => (edgeShift tol f.2.1).flatMap fun (j : ℤ) => (edgeShift tol f.2.2).map fun (k : ℤ) => (f.1 + (i : K), f.2.1 + (j : K), f.2.2 + (k : K))

/-- The corners of the cell, `plotter.py:594-596`. -/
def latticeCorners (L : M3 K) : List (V3 K) :=
  [(0, 0, 0), L.1, L.2.1, L.2.2, addV L.1 L.2.1, addV L.1 L.2.2, addV L.2.1 L.2.2, addV (addV L.1 L.2.1) L.2.2]

/-- The pairs of corners, `plotter.py:598-611`. -/
def latticePairs : List (ℕ × ℕ) := [(0, 1), (0, 2), (0, 3), (1, 4), (1, 5), (2, 4), (2, 6), (3, 5), (3, 6), (4, 7), (5, 7), (6, 7)]

/-- `get_lattice_mesh`, `plotter.py:583-618`: the lines. -/
def latticeLines (L : M3 K) : List (V3 K × V3 K) :=
  latticePairs.map fun p => ((latticeCorners L).getD p.1 (0, 0, 0), (latticeCorners L).getD p.2 (0, 0, 0))

/-- The upward direction before the rotation, `plotter.py:506-515`. -/
def viewUp (root : K → K) (n : V3 K) : V3 K :=
  let z : V3 K := (0, 0, 1)
  let up := subV z (smulV (dotV z n) n)
  if root (norm2 up) < 1 / 10 ^ 14 then
    let y : V3 K := (0, 1, 0)
    subV y (smulV (dotV y n) n)
  else up

/-- `get_camera_position_from_miller`, `plotter.py:457-529`: position, focal point and upward direction; `co` and `si` are the cosine and the sine of the
rotation, `rmax` is the largest radius. -/
def cameraFrom (root : K → K) (L : M3 K) (rmax co si : K) (h k l : ℤ) : Option (V3 K × V3 K × V3 K) :=
  let m := if h = 0 ∧ k = 0 ∧ l = 0 then ((1, 0, 0) : ℤ × ℤ × ℤ) else (h, k, l)
  (millerNormal root L m.1 m.2.1 m.2.2).map fun n =>
    let dist := root (norm2 L.1) + root (norm2 L.2.1) + root (norm2 L.2.2) + rmax
    let focal := smulV (1 / 2) (addV (addV L.1 L.2.1) L.2.2)
    let up := viewUp root n
    (addV focal (smulV dist n), focal, addV (smulV co up) (smulV si (crossV n up)))

/-- The reciprocal vector without the factor 2π; `Lattice.d_hkl` of pymatgen is the inverse of its length. For `plotter.py:1324-1329`. -/
def recipVec (L : M3 K) (h k l : ℤ) : V3 K :=
  smulV (1 / dotV (crossV L.1 L.2.1) L.2.2)
    (addV (addV (smulV (h : K) (crossV L.2.1 L.2.2)) (smulV (k : K) (crossV L.2.2 L.1))) (smulV (l : K) (crossV L.1 L.2.1)))

/-- The plane of `get_slice_plot`, `plotter.py:1324-1329`: its normal and the origin. -/
def slicePlane (root : K → K) (L : M3 K) (d : K) (h k l : ℤ) : Option (V3 K × V3 K) :=
  (millerNormal root L h k l).map fun n => (n, smulV (1 / root (norm2 (recipVec L h k l)) * d) n)

/-- The atoms of a slice, `plotter.py:1342-1357`: all sites, also the ones that are not in `visible_atoms`. -/
def sliceAtoms (plane : V3 K × V3 K) (sites : List (V3 K × K)) : List ℕ :=
  (List.range sites.length).filter fun i =>
    let s := sites.getD i ((0, 0, 0), 0)
    decide (|dotV (subV s.1 plane.2) plane.1| ≤ s.2)

/-- The radius of the sphere of an atom, `plotter.py:561`. -/
def sphereRadius (r : K) : K := r * (3 / 10)

/-! ### The data on the points -/

/-- `np.pad(values, ((0, 1), (0, 1), (0, 1)), mode="wrap")`, `plotter.py:888,1400-1405`. -/
def padFar {α : Type*} (s : Shape) (g : ℕ → ℕ → ℕ → α) : ℕ → ℕ → ℕ → α := fun i j k => g (i % s.nx) (j % s.ny) (k % s.nz)

/-- The shape of the padded data. For `plotter.py:898-899`. -/
def padFarShape (s : Shape) : Shape := ⟨s.nx + 1, s.ny + 1, s.nz + 1⟩

/-- `values.ravel(order="F")`, `plotter.py:890,1408-1409`, and `np.indices(shape).reshape(3, -1, order="F").T`, `plotter.py:898`. -/
def ravelFar {α : Type*} (s : Shape) (g : ℕ → ℕ → ℕ → α) : List α :=
  (List.range s.nz).flatMap fun k => (List.range s.ny).flatMap fun j => (List.range s.nx).map fun i => g i j k

/-- `points`, `plotter.py:898-899`. -/
def plotPoints (s : Shape) (L : M3 K) : List (V3 K) :=
  (ravelFar (padFarShape s) fun i j k => ((i, j, k) : ℕ × ℕ × ℕ)).map fun c => gridToCart L (s.nx, s.ny, s.nz) ((c.1 : K), (c.2.1 : K), (c.2.2 : K))

/-- `_update_plotter_mask`, `plotter.py:1464-1486`: the values of the hidden points are replaced by -1. -/
def maskedValues (s : Shape) (data : ℕ → ℕ → ℕ → K) (basins atoms : ℕ → ℕ → ℕ → ℤ) (visB visA : List ℤ) : List K :=
  let vals := ravelFar (padFarShape s) (padFar s data)
  let fb := ravelFar (padFarShape s) (padFar s basins)
  let fa := ravelFar (padFarShape s) (padFar s atoms)
  vals.zipWith (fun v hid => if hid then -1 else v) (fb.zipWith (fun b a => !(decide (b ∈ visB) || decide (a ∈ visA))) fa)

end field

/-- `structure.sort()`, `plotter.py:68`: the indices of the sites in the order of the plot; the key is the electronegativity. -/
def plotOrder {K : Type*} [LinearOrder K] (key : ℕ → K) (n : ℕ) : List ℕ := (List.range n).insertionSort fun a b => key a ≤ key b

end BaderKit
