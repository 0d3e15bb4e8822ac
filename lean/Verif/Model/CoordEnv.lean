import Verif.Model.Vec
import Verif.Model.Index
import Mathlib.Data.List.Basic
/-!
# Distances between sites in neighbouring cells

Model of `src/baderkit/core/utilities/coord_env.py`.  Nested loops are one fold over the list of the visited
index tuples, in the order of the code; the parallel loops write one entry per iteration and are maps.  The
square root is an arbitrary function `root`.
-/
namespace BaderKit
variable {K : Type*} [Field K] [LinearOrder K]

/-- `for si in (-1, 0, 1): for sj in (-1, 0, 1): for sk in (-1, 0, 1)`, `coord_env.py:32-34,72-74,131-133`. -/
def images27 : List Coord :=
  ([-1, 0, 1] : List ℤ).flatMap fun i => ([-1, 0, 1] : List ℤ).flatMap fun j =>
    ([-1, 0, 1] : List ℤ).map fun k => (i, j, k)

/-- `ti = fi + si; ...`, `coord_env.py:36-38`. -/
def shiftFrac (f : V3 K) (s : Coord) : V3 K := (f.1 + (s.1 : K), f.2.1 + (s.2.1 : K), f.2.2 + (s.2.2 : K))

/-- The distances visited by `get_atom_nearest_neighbors` for atom `i`, `coord_env.py:32-48`, with the atom
and the stored image `(-si, -sj, -sk)`. -/
def nnCandidates (root : K → K) (L : M3 K) (frac cart : List (V3 K)) (i : ℕ) : List (K × ℕ × Coord) :=
  images27.flatMap fun s => cart.zipIdx.filterMap fun (c : V3 K × ℕ) =>
    if c.2 = i ∧ s = (0, 0, 0) then none
    else some (root (norm2 (subV c.1 (vecMat (shiftFrac (frac.getD i (0, 0, 0)) s) L))), c.2,
      (-s.1, -s.2.1, -s.2.2))

/-- `if dist < best_dists[i]: ...`, `coord_env.py:51-54`; `none` is the uninitialised entry of `np.empty`. -/
def nnStep (st : K × Option (ℕ × Coord)) (c : K × ℕ × Coord) : K × Option (ℕ × Coord) :=
  if c.1 < st.1 then (c.1, some c.2) else st

/-- `get_atom_nearest_neighbors` for atom `i`, `coord_env.py:16-56`. -/
def nearestNeighbor (root : K → K) (L : M3 K) (frac cart : List (V3 K)) (i : ℕ) :
    K × Option (ℕ × Coord) :=
  (nnCandidates root L frac cart i).foldl nnStep (100, none)

/-- `get_dists_to_atoms` for one atom at `c`, `coord_env.py:60-104`. -/
def distToAtom (root : K → K) (L : M3 K) (f c : V3 K) : K :=
  (images27.map fun s => root (norm2 (subV c (vecMat (shiftFrac f s) L)))).foldl
    (fun (best d : K) => if d ≤ best then d else best) (10 ^ 6)

/-- `get_dists_to_atoms`, `coord_env.py:60-104`. -/
def distsToAtoms (root : K → K) (L : M3 K) (f : V3 K) (cart : List (V3 K)) : List K :=
  cart.map (distToAtom root L f)

/-- The running selection of `check_covalent`, `coord_env.py:119-127`. -/
structure Three (K : Type*) where
  d1 : K
  d2 : K
  d3 : K
  v1 : V3 K
  v2 : V3 K
  a1 : ℤ
  a2 : ℤ

/-- Body of the innermost loop, `coord_env.py:144-166`: distance, vector and atom. -/
def threeStep (st : Three K) (c : K × V3 K × ℕ) : Three K :=
  if c.1 ≤ st.d1 then
    { d3 := st.d2, d2 := st.d1, v2 := st.v1, a2 := st.a1, d1 := c.1, v1 := c.2.1, a1 := c.2.2 }
  else if c.1 ≤ st.d2 then
    { st with d3 := st.d2, d2 := c.1, v2 := c.2.1, a2 := c.2.2 }
  else if c.1 < st.d3 then { st with d3 := c.1 }
  else st

/-- The visited distances of `check_covalent`, `coord_env.py:130-144`. -/
def covCandidates (root : K → K) (L : M3 K) (f : V3 K) (cart : List (V3 K)) : List (K × V3 K × ℕ) :=
  images27.flatMap fun s => cart.zipIdx.map fun (c : V3 K × ℕ) =>
    let d := subV c.1 (vecMat (shiftFrac f s) L)
    (root (norm2 d), d, c.2)

/-- The selection after the loops; the vectors start uninitialised (`junk`). For `coord_env.py:108-191`. -/
def threeNearest (root : K → K) (L : M3 K) (f : V3 K) (cart : List (V3 K)) (junk : V3 K) : Three K :=
  (covCandidates root L f cart).foldl threeStep ⟨10 ^ 6, 10 ^ 6, 10 ^ 6, junk, junk, -1, -1⟩

/-- `check_covalent`, `coord_env.py:108-191`: the verdict and the two atoms; `angle` is the angle between two
vectors (with the clamped cosine), `none` is the division by a zero distance. -/
def checkCovalent (root : K → K) (angle : V3 K → V3 K → K) (L : M3 K) (f : V3 K) (cart : List (V3 K))
    (junk : V3 K) (minAngle : K) : Option (Bool × ℤ × ℤ) :=
  let t := threeNearest root L f cart junk
  if t.d2 = 0 then none
  else if (t.d3 - t.d2) / t.d2 < 1 / 100 then some (false, t.a1, t.a2)
  else if angle t.v1 t.v2 < minAngle then some (false, t.a1, t.a2)
  else some (true, t.a1, t.a2)

end BaderKit
