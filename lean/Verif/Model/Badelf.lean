import Verif.Model.Voronoi
/-!
# Badelf voxel assignment

Model of `src/baderkit/core/badelf/badelf_numba.py`.  Arrays over the grid are functions of the flat index
(C order), float data live in an ordered field.
-/
namespace BaderKit
variable {K : Type*} [Field K] [LinearOrder K] [FloorRing K]

/-- A row of the partition: site, transformation, normal and offset of the plane equation. For `badelf_numba.py:49-89`. -/
structure PRow (K : Type*) where
  site : ℕ
  trans : ℕ
  normal : V3 K
  off : K

/-- Cartesian coordinates of a voxel, `badelf_numba.py:24-28,75-78`. -/
def voxCart (s : Shape) (L : M3 K) (v : ℕ) : V3 K :=
  let c := flatToCoords s v
  let row (r : V3 K) (n : ℕ) : V3 K := (r.1 / (n : K), r.2.1 / (n : K), r.2.2 / (n : K))
  vecMat ((c.1 : K), (c.2.1 : K), (c.2.2 : K)) (row L.1 s.nx, row L.2.1 s.ny, row L.2.2 s.nz)

/-- The loop over the planes for one voxel, `badelf_numba.py:49-89`, with `current_site`, `current_transform`
and `atom_assigned`; `dist` is the distance of the voxel to the plane of a row. -/
def inScan (dist : PRow K → K) (minDist : K) : List (PRow K) → ℤ → ℤ → Bool → ℤ × Bool
  | [], cs, _, a => (cs, a)
  | r :: rs, cs, ct, a =>
    if (r.site : ℤ) ≠ cs ∨ ct ≠ (r.trans : ℤ) then
      if a then (cs, a)
      else inScan dist minDist rs r.site r.trans (if dist r > -minDist then false else true)
    else if a = false then inScan dist minDist rs cs ct a
    else inScan dist minDist rs cs ct (if dist r > -minDist then false else a)

/-- The labels after the first parallel loop, `badelf_numba.py:41-93`: every iteration writes only its own
voxels. -/
def inLabels (s : Shape) (L : M3 K) (rows : List (PRow K)) (minDist : K) (vac : ℕ → Bool) (labels : ℕ → ℤ) :
    ℕ → ℤ := fun v =>
  if labels v ≠ -1 ∨ vac v then labels v
  else
    let r := inScan (fun r => planeDist (voxCart s L v) r.normal r.off) minDist rows (-1) (-1) false
    if r.2 then r.1 else labels v

/-- Charges and volumes of the voxels assigned as a whole, `badelf_numba.py:95-103`. -/
def inCharges (s : Shape) (num : ℕ) (data : ℕ → K) (labels : ℕ → ℤ) : (ℕ → K) × (ℕ → K) :=
  (List.range s.size).foldl (fun (st : (ℕ → K) × (ℕ → K)) v =>
    if labels v = -1 then st
    else
      let l := pyIdx num (labels v)
      (Function.update st.1 l (st.1 l + data v), Function.update st.2 l (st.2 l + 1)))
    (fun _ => 0, fun _ => 0)

/-- The neighbour of a voxel with `%` on each axis, `badelf_numba.py:147-149`. -/
def nbrMod (s : Shape) (v : ℕ) (t : Coord) : ℕ :=
  let c := addC (flatToCoords s v) t
  (coordsToFlat s (c.1 % s.nx, c.2.1 % s.ny, c.2.2 % s.nz)).toNat

/-- Counters of the loop over the shells, `badelf_numba.py:133-141`. -/
structure ShellSt (K : Type*) where
  counts : ℕ → K
  found : List ℕ
  total : K
  hit : Bool

/-- One neighbour, `badelf_numba.py:152-158`. -/
def shellVisit (labels : ℕ → ℤ) (maxLabel : ℕ) (n : ℕ) (dist : K) (st : ShellSt K) : ShellSt K :=
  if labels n ≠ -1 ∧ labels n < maxLabel then
    let l := (labels n).toNat
    { hit := true
      found := if st.counts l = 0 then st.found ++ [l] else st.found
      counts := Function.update st.counts l (st.counts l + 1 / dist)
      total := st.total + 1 / dist }
  else st

/-- The fractions of the sites found, `badelf_numba.py:161-178` (`max_fracs = 10`; for more sites the first ten
of the ascending order of the counts are kept). -/
def shellFracs (st : ShellSt K) : List (ℕ × K) :=
  let reduced := st.found.map fun l => (l, st.counts l)
  if reduced.length > 10 then
    let kept := (reduced.insertionSort fun a b => a.2 ≤ b.2).take 10
    let total := (kept.map fun p => p.2).sum
    kept.map fun p => (p.1, p.2 / total)
  else reduced.map fun p => (p.1, p.2 / st.total)

/-- The loop over the transformations, `badelf_numba.py:142-187`; `i` is `trans_idx`, `brk` the remaining
breaks, the first one the current.  The result is the non-zero part of the row of `site_fractions`. -/
def shellScan (s : Shape) (labels : ℕ → ℤ) (maxLabel v : ℕ) :
    List (Coord × K) → ℕ → List ℕ → ShellSt K → List (ℕ × K)
  | [], _, _, _ => []
  | _, _, [], _ => []
  | (t, d) :: ts, i, b :: brk, st =>
    let st' := shellVisit labels maxLabel (nbrMod s v t) d st
    if i = b ∧ st'.hit then shellFracs st'
    else if i = b then shellScan s labels maxLabel v ts (i + 1) brk st'
    else shellScan s labels maxLabel v ts (i + 1) (b :: brk) st'

/-- The row of fractions of an unassigned voxel. For `badelf_numba.py:107-276`. -/
def voxFracs (s : Shape) (labels : ℕ → ℤ) (maxLabel : ℕ) (trans : List (Coord × K)) (breaks : List ℕ) (v : ℕ) :
    List (ℕ × K) :=
  shellScan s labels maxLabel v trans 0 breaks ⟨fun _ => 0, [], 0, false⟩

/-- The best fraction and whether it is tied, `badelf_numba.py:199-214`. -/
def bestFrac (tol : K) (fr : List (ℕ × K)) : K × ℤ × Bool :=
  (fr.takeWhile fun p => p.2 ≠ 0).foldl (fun (st : K × ℤ × Bool) p =>
    if p.2 > st.1 + tol then (p.2, (p.1 : ℤ), false)
    else if p.2 > st.1 - tol then (st.1, st.2.1, true)
    else st) (0, -1, false)

/-- `charges[site] += charge * frac` for the sites of a voxel, `badelf_numba.py:221-226,243-248`. -/
def addShares (f : ℕ → K) (c : K) (fr : List (ℕ × K)) : ℕ → K :=
  (fr.takeWhile fun p => p.2 ≠ 0).foldl (fun (f : ℕ → K) p => Function.update f p.1 (f p.1 + c * p.2)) f

/-- `volumes[site] += frac`. For `badelf_numba.py:194-231`. -/
def addVols (f : ℕ → K) (fr : List (ℕ × K)) : ℕ → K :=
  (fr.takeWhile fun p => p.2 ≠ 0).foldl (fun (f : ℕ → K) p => Function.update f p.1 (f p.1 + p.2)) f

/-- State of the sequential part; `cur` are the Python variables `sites`, `fracs`. For `badelf_numba.py:194-231`. -/
structure OutSt (K : Type*) where
  labels : ℕ → ℤ
  charges : ℕ → K
  volumes : ℕ → K
  approx : ℕ → K
  ties : List (ℕ × K)
  cur : List (ℕ × K)

/-- The loop over the unassigned voxels, `badelf_numba.py:194-231`. -/
def outStep (num : ℕ) (tol : K) (data : ℕ → K) (fr : ℕ → List (ℕ × K)) (st : OutSt K) (v : ℕ) : OutSt K :=
  let b := bestFrac tol (fr v)
  if b.2.2 then { st with ties := st.ties ++ [(v, data v)], cur := fr v }
  else
    { st with
      labels := Function.update st.labels v b.2.1
      approx := Function.update st.approx (pyIdx num b.2.1) (st.approx (pyIdx num b.2.1) + data v)
      charges := addShares st.charges (data v) (fr v)
      volumes := addVols st.volumes (fr v)
      cur := fr v }

/-- The choice of the label of a tied voxel, `badelf_numba.py:255-272`. -/
def bestImprovement (tol : K) (approx charges : ℕ → K) (charge : K) (fr : List (ℕ × K)) : ℤ :=
  ((fr.takeWhile fun p => p.2 ≠ 0).foldl (fun (st : K × ℤ) p =>
    if p.2 < 0 - tol then st
    else
      let diff := approx p.1 - charges p.1
      let imp := (|diff| - |diff + charge|) / charges p.1
      if imp > st.1 then (imp, (p.1 : ℤ)) else st) (-1, -1)).2

/-- The loop over the tied voxels, `badelf_numba.py:237-274`: the charge is distributed with the variables
`sites`, `fracs` left over from before, then they are set to those of the voxel. -/
def tieStep (num : ℕ) (tol : K) (fr : ℕ → List (ℕ × K)) (st : OutSt K) (e : ℕ × K) : OutSt K :=
  let charges := addShares st.charges e.2 st.cur
  let volumes := addVols st.volumes st.cur
  let b := bestImprovement tol st.approx charges e.2 (fr e.1)
  { st with
    charges := charges
    volumes := volumes
    labels := Function.update st.labels e.1 b
    approx := Function.update st.approx (pyIdx num b) (st.approx (pyIdx num b) + e.2)
    cur := fr e.1 }

/-- `get_outside_partition_assignments`, `badelf_numba.py:107-276`; `sortTies` is the sort by charge. -/
def outAssign (s : Shape) (num : ℕ) (sortTies : List (ℕ × K) → List (ℕ × K)) (data : ℕ → K) (labels : ℕ → ℤ)
    (vac : ℕ → Bool) (trans : List (Coord × K)) (breaks : List ℕ) (maxLabel : ℕ) (charges volumes : ℕ → K) :
    OutSt K :=
  let tol : K := 1 / 10 ^ 6
  let un := (List.range s.size).filter fun v => decide (labels v = -1) && !vac v
  let fr := voxFracs s labels maxLabel trans breaks
  let st := un.foldl (outStep num tol data fr) ⟨labels, charges, volumes, charges, [], []⟩
  (sortTies st.ties).foldl (tieStep num tol fr) st

/-- `get_badelf_assignments`, `badelf_numba.py:279-322`. -/
def badelfAssign (s : Shape) (L : M3 K) (rows : List (PRow K)) (minDist : K) (num : ℕ)
    (sortTies : List (ℕ × K) → List (ℕ × K)) (data : ℕ → K) (labels : ℕ → ℤ)
    (vac : ℕ → Bool) (trans : List (Coord × K)) (breaks : List ℕ) (maxLabel : ℕ) : OutSt K :=
  let lab := inLabels s L rows minDist vac labels
  let cv := inCharges s num data lab
  outAssign s num sortTies data lab vac trans breaks maxLabel cv.1 cv.2

end BaderKit
