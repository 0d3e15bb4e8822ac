import Verif.Model.Merge
import Verif.Model.Vec
import Verif.Model.Voxels
/-!
# Radii from the ELF

Model of `src/baderkit/core/labelers/elf_labeler/elf_radii_numba.py` and of the bookkeeping of canonical bonds in
`elf_radii.py:258-300`.  Spline interpolation (`interp_spline`) and nearest label (`interp_nearest`) are functions
of the fractional coordinate.
-/
namespace BaderKit
variable {K : Type*} [Field K] [LinearOrder K]

/-- `num_points`, `elf_radii_numba.py:63-68`. -/
def numPoints [FloorRing K] (dist lineRes : K) : ℕ :=
  let n := (roundHE (dist * lineRes)).toNat
  if n % 2 = 0 then n + 1 else n

/-- `step_vec`, `elf_radii_numba.py:71`. -/
def stepVec (n : ℕ) (a b : V3 K) : V3 K :=
  let d := subV b a
  (d.1 / ((n : K) - 1), d.2.1 / ((n : K) - 1), d.2.2 / ((n : K) - 1))

/-- `atom_coords + x * step_vec`, `elf_radii_numba.py:78,197`. -/
def onLine (a st : V3 K) (x : K) : V3 K := (a.1 + x * st.1, a.2.1 + x * st.2.1, a.2.2 + x * st.2.2)

/-- The label of a point of the line, `elf_radii_numba.py:81-92`. -/
def lineLabel (num : ℕ) (coords : ℕ → V3 K) (lab : V3 K → ℤ) (p : V3 K) : ℤ :=
  let l := lab p
  let v := subV (coords (pyIdx num l)) p
  if max (max |v.1| |v.2.1|) |v.2.2| > 1 / 2 then l + num else l

/-- The loop for the covalent maximum, `elf_radii_numba.py:123-150`; `cov` is `covalent_labels`. -/
def maxSearch (n num : ℕ) (vals : ℕ → K) (labels : ℕ → ℤ) (cov : ℤ → Bool) : Option ℕ × K :=
  (List.range n).foldl (fun (st : Option ℕ × K) i =>
    if cov (labels i % num) = false then st
    else if i = 0 ∨ i = n - 1 then st
    else if vals (i - 1) ≤ vals i ∧ vals i > vals (i + 1) then
      let d := |(i : K) - ((n : K) - 1) / 2|
      if d < st.2 then (some i, d) else st
    else st) (none, 10 ^ 6)

/-- The first point that is not the atom's, `elf_radii_numba.py:160-169`. -/
def firstOther (n : ℕ) (labels : ℕ → ℤ) (atom : ℕ) : ℤ :=
  match (List.range n).find? fun i => labels i ≠ -1 ∧ labels i ≠ atom with
  | some i => i
  | none => -1

/-- The loop for the minimum, `elf_radii_numba.py:170-187`. -/
def minSearch (n : ℕ) (vals : ℕ → K) (mid : ℤ) : Option ℕ × K :=
  (List.range n).foldl (fun (st : Option ℕ × K) i =>
    if i = 0 ∨ i = n - 1 then st
    else if vals (i - 1) ≥ vals i ∧ vals i < vals (i + 1) then
      let d := |(i : K) - (mid : K)|
      if d < st.2 then (some i, d) else st
    else st) (none, 10 ^ 6)

/-- State of the refinement: coordinate, value and index, `elf_radii_numba.py:197-241`. -/
structure RefSt (K : Type*) where
  coord : V3 K
  value : K
  idx : K

/-- One refinement step, `elf_radii_numba.py:208-241`; `m` is `step_mult` after the division. -/
def refineStep (spline : V3 K → K) (step : V3 K) (useMax : Bool) (st : RefSt K) (m : K) : RefSt K :=
  let s : V3 K := (step.1 * m, step.2.1 * m, step.2.2 * m)
  let u := addV st.coord s
  let d := subV st.coord s
  if useMax then
    if spline u > st.value ∧ spline u ≥ spline d then ⟨u, spline u, st.idx + m⟩
    else if spline d > st.value then ⟨d, spline d, st.idx - m⟩
    else st
  else
    if spline u < st.value ∧ spline u ≤ spline d then ⟨u, spline u, st.idx + m⟩
    else if spline d < st.value then ⟨d, spline d, st.idx - m⟩
    else st

/-- The refinement, `elf_radii_numba.py:197-241`; `steps` is `n` (22 for the default `line_res`). -/
def refine (spline : V3 K → K) (atom step : V3 K) (useMax : Bool) (start : ℕ) (steps : ℕ) : RefSt K :=
  let c := onLine atom step (start : K)
  ((List.range steps).map fun (i : ℕ) => (1 : K) / 2 ^ (i + 1)).foldl (refineStep spline step useMax)
    ⟨c, spline c, (start : K)⟩

/-- `get_elf_radius_frac`, `elf_radii_numba.py:16-245`, from the number of points on: the fraction, whether the bond
is covalent and whether no radius was found.  The loop over the unique labels is replaced by the two questions it
answers (it stops only after setting `other_atoms`, which ends the function). -/
def elfRadiusFrac (spline : V3 K → K) (lab : V3 K → ℤ) (num : ℕ) (coords : ℕ → V3 K) (cov : ℤ → Bool) (atomIdx : ℕ)
    (atom neigh : V3 K) (n steps : ℕ) : K × Bool × Bool :=
  let step := stepVec n atom neigh
  let vals : ℕ → K := fun i => spline (onLine atom step (i : K))
  let labels : ℕ → ℤ := fun i => lineLabel num coords lab (onLine atom step (i : K))
  if (List.range n).all fun i => labels i = labels 0 then (1 / 2, true, false)
  else if (List.range n).any fun i => !(cov (labels i % num)) && decide (labels i ≠ labels 0 ∧ labels i ≠ labels (n - 1)) then
    (1 / 2, true, false)
  else
    let covalent := (List.range n).any fun i => cov (labels i % num)
    let mx := if covalent then (maxSearch n num vals labels cov).1 else none
    match mx with
    | some i => ((refine spline atom step true i steps).idx / ((n : K) - 1), true, false)
    | none =>
      match (minSearch n vals (firstOther n labels atomIdx)).1 with
      | some i => ((refine spline atom step false i steps).idx / ((n : K) - 1), false, false)
      | none => (1 / 2, true, true)

/-! ### Bonds counted once -/

/-- A bond: its canonical key, whether it was reversed to reach it (`canonical_bonds[:, 0]`), its length, the
fraction computed for it in its own direction, and whether the two atoms are equivalent. For `elf_radii_numba.py:398-426`. -/
structure RBond (κ K : Type*) where
  key : κ
  rev : Bool
  dist : K
  raw : K
  equiv : Bool

/-- `get_all_atom_elf_radii` for one bond, `elf_radii_numba.py:398-426`: radius and fraction in the canonical direction. -/
def bondRadius {κ : Type*} (b : RBond κ K) : K × K :=
  if b.equiv then (b.dist * (1 / 2), 1 / 2)
  else if b.rev then (b.dist - b.dist * b.raw, 1 - b.raw)
  else (b.dist * b.raw, b.raw)

/-- The fractions of all bonds, `elf_radii.py:270-300`: computed for the first bond with the same key
(`np.unique(..., return_index=True, return_inverse=True)`) and turned round for the reversed bonds. -/
def bondFracs {κ : Type*} [DecidableEq κ] (bs : List (RBond κ K)) : List K :=
  bs.map fun b =>
    let f := match bs.find? fun c => c.key = b.key with
      | some c => (bondRadius c).2
      | none => 0
    if b.rev then 1 - f else f

end BaderKit
