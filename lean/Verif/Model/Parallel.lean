import Verif.Model.Voxels
import Verif.Model.Badelf
import Verif.Model.Voronoi
/-!
# Parallel loops

Model of the `prange` loops under arbitrary interleavings of their memory accesses.  Every iteration is a thread; reading one array entry and writing
one array entry are the atomic steps.  The neargrid refinement, `compress_roots` and the contacts of voids have models of their own
(`Model/Neargrid`, `Model/CompressRoots`, `Model/Contacts`).

Simplifications.
* Accesses are sequentially consistent; numba runs several iterations in one thread, which is one of the interleavings.
* Arrays that no iteration of a loop writes are constants of the program, except where a property is about reading them.
* Local variables and arrays are part of the program.
-/
namespace BaderKit

/-- The accesses of one iteration: what it does next may depend on what it has read. For `shared_numba.py:131-143`. -/
inductive Prog (L V : Type) where
  | done
  | read (l : L) (k : V → Prog L V)
  | write (l : L) (v : V) (k : Prog L V)

/-- Shared memory and the rest of every iteration. For `shared_numba.py:123-143`. -/
structure ParSt (L V : Type) where
  mem : L → V
  prog : ℕ → Prog L V

variable {L V : Type} [DecidableEq L]

/-- Iteration `t` makes its next access. For `shared_numba.py:123-143`. -/
def ParSt.step (s : ParSt L V) (t : ℕ) : ParSt L V :=
  match s.prog t with
  | .done => s
  | .read l k => { s with prog := Function.update s.prog t (k (s.mem l)) }
  | .write l v k => ⟨Function.update s.mem l v, Function.update s.prog t k⟩

/-- The accesses in the order of a schedule. For `shared_numba.py:123-143`. -/
def ParSt.run (s : ParSt L V) (sched : List ℕ) : ParSt L V := sched.foldl ParSt.step s

/-- One iteration on its own. For `shared_numba.py:131-143`. -/
def Prog.exec : Prog L V → (L → V) → L → V
  | .done, m => m
  | .read l k, m => (k (m l)).exec m
  | .write l v k, m => k.exec (Function.update m l v)

/-- One after the other. For `shared_numba.py:131-143`. -/
def Prog.seq : Prog L V → Prog L V → Prog L V
  | .done, q => q
  | .read l k, q => .read l fun v => (k v).seq q
  | .write l v k, q => .write l v (k.seq q)

/-- An inner `for` loop. For `shared_numba.py:123-143`, `elf_labeler_numba.py:44-69`. -/
def Prog.forAll {α : Type} (f : α → Prog L V) : List α → Prog L V
  | [] => .done
  | a :: as => (f a).seq (Prog.forAll f as)

/-- The voxels of slab `i`: `for j in range(ny): for k in range(nz)`, as flat indices (e.g. `shared_numba.py:123-125`). -/
def slabVox (s : Shape) (i : ℕ) : List ℕ := (List.range (s.ny * s.nz)).map fun c => i * (s.ny * s.nz) + c

/-- Locations of `get_edges`. For `shared_numba.py:131-143`. -/
inductive EdgeLoc where
  | label (v : ℕ) | edge (v : ℕ)
  deriving DecidableEq

/-- Values of `get_edges`. For `shared_numba.py:131-143`. -/
inductive EdgeVal (β : Type) where
  | label (x : β) | edge (b : Bool)

/-- The neighbour loop of `get_edges`, `shared_numba.py:131-143`. -/
def edgeLoop {β : Type} [DecidableEq β] (s : Shape) (vac : ℕ → Bool) (v : ℕ) (x : EdgeVal β) : List Coord → Prog EdgeLoc (EdgeVal β)
  | [] => .done
  | t :: ts => .read (.label (nbr s v t)) fun y =>
      match x, y with
      | .label a, .label b => if b ≠ a ∧ vac (nbr s v t) = false then .write (.edge v) (.edge true) .done else edgeLoop s vac v x ts
      | _, _ => .done

/-- One iteration of `get_edges`, `shared_numba.py:123-143` (and of `get_feature_edges`, `elf_labeler_numba.py:44-69`). -/
def edgesIter {β : Type} [DecidableEq β] (s : Shape) (ts : List Coord) (vac : ℕ → Bool) (i : ℕ) : Prog EdgeLoc (EdgeVal β) :=
  Prog.forAll (fun v => if vac v then .done else .read (.label v) fun x => edgeLoop s vac v x ts) (slabVox s i)

/-- One iteration of `get_steepest_pointers`, `ongrid_numba.py:51-74`. -/
def pointersIter {K : Type} [Field K] [LinearOrder K] (s : Shape) (data : ℕ → K) (nbrs : List (Coord × K)) (vac maxm : ℕ → Bool) (i : ℕ) :
    Prog ℕ ℤ :=
  Prog.forAll (fun v => if vac v then .done else if maxm v then .done else .write v ((bestNeighbor s data nbrs v).2 : ℤ) .done) (slabVox s i)

/-- One iteration of the first loop of BadELF, `badelf_numba.py:41-93`: the label is read and written. -/
def insideIter {K : Type} [Field K] [LinearOrder K] [FloorRing K] (s : Shape) (M : M3 K) (rows : List (PRow K)) (minDist : K) (vac : ℕ → Bool)
    (i : ℕ) : Prog ℕ ℤ :=
  Prog.forAll (fun v => .read v fun l =>
    if l ≠ -1 ∨ vac v then .done
    else
      let r := inScan (fun r => planeDist (voxCart s M v) r.normal r.off) minDist rows (-1) (-1) false
      if r.2 then .write v r.1 .done else .done) (slabVox s i)

/-- The flags of `get_cell_wrapped_voronoi`: `discard_trans` and `discard_planes`. For `voronoi.py:199-239`. -/
inductive FlagLoc where
  | trans (c : ℕ) | plane (c : ℕ)
  deriving DecidableEq

/-- One iteration of the first loop, `voronoi.py:199-239`, as far as the flags go; `vol` is the fraction of the cell under the moved plane.  Several
planes of one site write the same flag. -/
def discardIter {K : Type} [Field K] [DecidableEq K] (site : ℕ → ℕ) (vol : ℕ → ℕ → K) (p : ℕ) : Prog FlagLoc Bool :=
  Prog.forAll (fun t => if vol p t = 0 then .write (.trans (site p * 27 + t)) true .done
    else if vol p t = 1 then .write (.plane (p * 27 + t)) true .done else .done) (List.range 27)

/-- One iteration of the second loop, `voronoi.py:244-250`. -/
def discardIter2 (site : ℕ → ℕ) (p : ℕ) : Prog FlagLoc Bool :=
  Prog.forAll (fun t => .read (.trans (site p * 27 + t)) fun b => if b then .write (.plane (p * 27 + t)) true .done else .done) (List.range 27)

/-- One iteration of a loop that fills rows: row `r` of an array with `w` columns, as in `site_fractions[point_idx, idx]`,
`badelf_numba.py:131-187`; `all_bonds[bond_idx + trans_idx]`, `voronoi.py:478-560`; `neigh_array[sorted_idx, n]`, `weight_numba.py:43-91`. -/
def rowIter (w : ℕ) (row : ℕ → ℕ → Option V) (r : ℕ) : Prog ℕ V :=
  Prog.forAll (fun c => match row r c with
    | some x => .write (r * w + c) x .done
    | none => .done) (List.range w)

/-- One iteration of a loop that writes at a given index, as in `idx_to_edge[idx] = edge_idx` and `flat_charge[idx] = ...`,
`weight_numba.py:43-50,183-195`. -/
def scatterIter (idx : ℕ → ℕ) (value : ℕ → V) (e : ℕ) : Prog ℕ V := .write (idx e) (value e) .done

end BaderKit
