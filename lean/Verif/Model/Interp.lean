import Verif.Model.GridOps
import Verif.Model.Merge
/-!
# Interpolation on periodic grids

Model of `src/baderkit/core/utilities/interpolation.py`.
-/
namespace BaderKit
variable {K : Type*} [Field K] [LinearOrder K]

/-- `if is_frac: i = i * nx; j = j * ny; k = k * nz`, `interpolation.py:19-22,40-44,108-111`. -/
def toVox (a : Arr3 K) (isFrac : Bool) (p : V3 K) : V3 K :=
  if isFrac then (p.1 * (a.nx : K), p.2.1 * (a.ny : K), p.2.2 * (a.nz : K)) else p

/-- One axis of `wrap_point` applied to floats, `basic.py:54-65`, called in `interpolation.py:47`. -/
def wrapAxisK (i : K) (n : ℕ) : K := if i ≥ (n : K) then i - n else if i < 0 then i + n else i

/-- Reading an axis of length `n` at integer `r` in compiled code: negative indices count from the end,
anything else outside is out of bounds (no check is made: undefined behaviour), here `none`. For `interpolation.py:36-78`. -/
def readIdx (n : ℕ) (r : ℤ) : Option ℕ :=
  if 0 ≤ r ∧ r < n then some r.toNat
  else if -(n : ℤ) ≤ r ∧ r < 0 then some (r + n).toNat
  else none

section floor
variable [FloorRing K]

/-- `interp_nearest`, `interpolation.py:16-29`. -/
def interpNearest (a : Arr3 K) (isFrac : Bool) (p : V3 K) : K :=
  let q := toVox a isFrac p
  a.val (roundHE q.1 % a.nx).toNat (roundHE q.2.1 % a.ny).toNat (roundHE q.2.2 % a.nz).toNat

/-- `interp_linear`, `interpolation.py:36-78`; `none` is an access outside the array. -/
def interpLinear (a : Arr3 K) (isFrac : Bool) (p : V3 K) : Option K :=
  let q := toVox a isFrac p
  let i := wrapAxisK q.1 a.nx
  let j := wrapAxisK q.2.1 a.ny
  let k := wrapAxisK q.2.2 a.nz
  let ri : ℤ := ⌊i⌋
  let rj : ℤ := ⌊j⌋
  let rk : ℤ := ⌊k⌋
  let di := i - ri
  let dj := j - rj
  let dk := k - rk
  (readIdx a.nx ri).bind fun i0 => (readIdx a.ny rj).bind fun j0 => (readIdx a.nz rk).map fun k0 =>
    let i1 := ((ri + 1) % a.nx).toNat
    let j1 := ((rj + 1) % a.ny).toNat
    let k1 := ((rk + 1) % a.nz).toNat
    (1 - di) * (1 - dj) * (1 - dk) * a.val i0 j0 k0
      + di * (1 - dj) * (1 - dk) * a.val i1 j0 k0
      + (1 - di) * dj * (1 - dk) * a.val i0 j1 k0
      + (1 - di) * (1 - dj) * dk * a.val i0 j0 k1
      + di * dj * (1 - dk) * a.val i1 j1 k0
      + di * (1 - dj) * dk * a.val i1 j0 k1
      + (1 - di) * dj * dk * a.val i0 j1 k1
      + di * dj * dk * a.val i1 j1 k1

end floor

/-- `cubic_bspline_weights`, `interpolation.py:87-100`: weight number `i` for the offset `d`. -/
def splineWeight (d : K) (i : ℕ) : K :=
  let x := |((i : K) - 1) - d|
  if x < 1 then (4 - 6 * x * x + 3 * x * x * x) / 6
  else if x < 2 then
    let t := 2 - x
    (t * t * t) / 6
  else 0

section floor
variable [FloorRing K]

/-- `interp_spline`, `interpolation.py:104-146`; `a` holds the spline coefficients. -/
def interpSpline (a : Arr3 K) (isFrac : Bool) (p : V3 K) : K :=
  let q := toVox a isFrac p
  let ri : ℤ := ⌊q.1⌋
  let rj : ℤ := ⌊q.2.1⌋
  let rk : ℤ := ⌊q.2.2⌋
  let di := q.1 - ri
  let dj := q.2.1 - rj
  let dk := q.2.2 - rk
  let tmp : ℕ → ℕ → K := fun joff koff =>
    ((List.range 4).map fun (ioff : ℕ) => splineWeight di ioff *
      a.val ((ri - 1 + ioff) % a.nx).toNat ((rj - 1 + joff) % a.ny).toNat
        ((rk - 1 + koff) % a.nz).toNat).sum
  ((List.range 4).map fun (joff : ℕ) => ((List.range 4).map fun (koff : ℕ) =>
    splineWeight dj joff * splineWeight dk koff * tmp joff koff).sum).sum

end floor

/-- `np.linspace(x, y, num=n)` for one coordinate, `interpolation.py:207-209`, `grid.py:659-661`. -/
def linspace (x y : K) (n : ℕ) : List K :=
  (List.range n).map fun (t : ℕ) => if n = 1 then x else x + (t : K) * ((y - x) / ((n : K) - 1))

/-- `np.column_stack` of the three coordinates, `interpolation.py:210`. -/
def slicePoints (p1 p2 : V3 K) (n : ℕ) : List (V3 K) :=
  List.zipWith (fun (x : K) (yz : K × K) => (x, yz)) (linspace p1.1 p2.1 n)
    (List.zipWith (fun (y z : K) => (y, z)) (linspace p1.2.1 p2.2.1 n) (linspace p1.2.2 p2.2.2 n))

/-- `linear_slice`, `interpolation.py:198-212`: the interpolation method at each point of the line; each
iteration of the parallel loop writes its own entry. -/
def linearSlice (f : V3 K → K) (p1 p2 : V3 K) (n : ℕ) : List K := (slicePoints p1 p2 n).map f

/-- The fitted quadratic of `refine_frac_max_parabolic`, `interpolation.py:297-300`. -/
structure Quad (K : Type*) where
  a0 : K
  lin : V3 K
  axx : K
  ayy : K
  azz : K
  axy : K
  axz : K
  ayz : K

/-- Value of the quadratic at an offset, `interpolation.py:332-343`. -/
def Quad.eval (c : Quad K) (o : V3 K) : K :=
  c.a0 + c.lin.1 * o.1 + c.lin.2.1 * o.2.1 + c.lin.2.2 * o.2.2 + c.axx * o.1 * o.1 + c.ayy * o.2.1 * o.2.1
    + c.azz * o.2.2 * o.2.2 + c.axy * o.1 * o.2.1 + c.axz * o.1 * o.2.2 + c.ayz * o.2.1 * o.2.2

/-- Scalar multiple of a vector. For `interpolation.py:303-316`. -/
def smulV (c : K) (x : V3 K) : V3 K := (c * x.1, c * x.2.1, c * x.2.2)

/-- Left matrix product `M @ x`, used for the linear systems of `interpolation.py:319,351`. -/
def mulVecM (M : M3 K) (x : V3 K) : V3 K := (dotV M.1 x, dotV M.2.1 x, dotV M.2.2 x)

/-- The linear system of step 5, `interpolation.py:303-316`: matrix and gradient, both negated for a
positive trace. -/
def quadSystem (c : Quad K) : M3 K × V3 K :=
  let M : M3 K := ((2 * c.axx, c.axy, c.axz), (c.axy, 2 * c.ayy, c.ayz), (c.axz, c.ayz, 2 * c.azz))
  if 2 * c.axx + 2 * c.ayy + 2 * c.azz > 0 then
    ((smulV (-1) M.1, smulV (-1) M.2.1, smulV (-1) M.2.2), smulV (-1) c.lin)
  else (M, c.lin)

/-- The square of entry `i` of `step_cart`, `interpolation.py:325`: the entries of a row of the lattice are
divided by the shape *per Cartesian column*. -/
def stepCart2 (a : Arr3 K) (row : V3 K) : K :=
  norm2 (row.1 / (a.nx : K), row.2.1 / (a.ny : K), row.2.2 / (a.nz : K))

/-- The square of `max_step`, `interpolation.py:325-326`. -/
def maxStep2 (a : Arr3 K) (L : M3 K) : K :=
  max (max (stepCart2 a L.1) (stepCart2 a L.2.1)) (stepCart2 a L.2.2)

section floor
variable [FloorRing K]

/-- The 27 entries of `region`, `interpolation.py:246-256`. -/
def region27 (a : Arr3 K) (f : V3 K) : List K :=
  let ix := roundHE (f.1 * (a.nx : K)) % a.nx
  let iy := roundHE (f.2.1 * (a.ny : K)) % a.ny
  let iz := roundHE (f.2.2 * (a.nz : K)) % a.nz
  ([-1, 0, 1] : List ℤ).flatMap fun dx => ([-1, 0, 1] : List ℤ).flatMap fun dy =>
    ([-1, 0, 1] : List ℤ).map fun dz =>
      a.val ((ix + dx) % a.nx).toNat ((iy + dy) % a.ny).toNat ((iz + dz) % a.nz).toNat

/-- `np.max` of a list that is not empty. For `interpolation.py:219-357`. -/
def listMax (d : K) (xs : List K) : K := xs.foldl max d

/-- Step 6, `interpolation.py:318-322`: the stationary point; zero when the solver raises. -/
def fitOffset (solve : M3 K → V3 K → Option (V3 K)) (c : Quad K) : V3 K :=
  let sys := quadSystem c
  (solve sys.1 (smulV (-1) sys.2)).getD (0, 0, 0)

/-- Step 7, `interpolation.py:324-329`: the offset is shortened to the length of `max_step`, whose square is
`m2`. -/
def clampOffset (root : K → K) (m2 : K) (o : V3 K) : V3 K :=
  if root (norm2 o) > root m2 then smulV (root m2 / root (norm2 o)) o else o

/-- `refine_frac_max_parabolic`, `interpolation.py:219-357`.  Parameters: `root` the square root, `fit` the
regularised least squares fit of the region (steps 3 and 4), `solve` the 3x3 solver (`none` when it raises),
`fracOf` the solution of `lattice.T @ x = offset`. -/
def refineParabolic (root : K → K) (fit : List K → Quad K) (solve : M3 K → V3 K → Option (V3 K))
    (fracOf : V3 K → V3 K) (a : Arr3 K) (L : M3 K) (f : V3 K) : V3 K × K :=
  let region := region27 a f
  let c := fit region
  let off1 := clampOffset root (maxStep2 a L) (fitOffset solve c)
  let v0 := c.eval off1
  let rmax := listMax (region.headD 0) region
  let v := if v0 < rmax then rmax else v0
  let off := if v0 < rmax then (0, 0, 0) else off1
  let fo := fracOf off
  ((mod1 (f.1 + fo.1), mod1 (f.2.1 + fo.2.1), mod1 (f.2.2 + fo.2.2)), v)

/-- `refine_maxima`, `interpolation.py:361-376`; `refine` is the refinement of one coordinate. -/
def refineMaxima (refine : V3 K → V3 K × K) (coords : List (V3 K)) : List (V3 K) × List K :=
  let r := coords.map refine
  (r.map fun x => (mod1 (roundDec 6 x.1.1), mod1 (roundDec 6 x.1.2.1), mod1 (roundDec 6 x.1.2.2)),
   r.map Prod.snd)

end floor
end BaderKit
