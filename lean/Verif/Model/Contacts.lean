import Verif.Model.Groups
import Verif.Model.AtomRows
import Verif.Model.Voxels
/-!
# Contacts between voids and domains

Model of the loop of `get_connected_voids`, `src/baderkit/core/labelers/bifurcation_graph/graph_numba/surrounded_atoms.py:66-99`, and of
`basin_domain_map`, `surrounded_atoms.py:292-314`.

The loop over the first axis is a `prange` loop and `connection_counts[root_idx, domain] += 1` is not protected ("this isn't technically
safe").  Here every slab `i` is a thread, an increment is a read followed by a write, and the slabs are interleaved arbitrarily (a worker that
runs several slabs one after the other is one of these interleavings).  Memory is sequentially consistent; the counters do not overflow.
-/
namespace BaderKit
variable {K : Type} [LinearOrder K]

/-- A counter: number of the void, number of the domain. For `surrounded_atoms.py:74-99`. -/
abbrev Cell := ℕ × ℕ

/-- `basin_domain_map`, `surrounded_atoms.py:292-312`: -1 for basins that are in no current domain. -/
def basinDomainMap (inp : List (DomIn K)) (cur : List ℕ) : ℕ → ℤ :=
  cur.zipIdx.foldl (fun m x => (inp[x.1]?).elim m fun r => r.basins.foldl (fun m b => Function.update m b (x.2 : ℤ)) m) fun _ => -1

/-- `root_idx`, `surrounded_atoms.py:88-91` (also `136-139`). -/
def voidIdx (fuel : ℕ) (parent : ℕ → ℕ) (roots : List ℕ) (v : ℕ) : Option ℕ := (findRootNC fuel parent v).map (searchRoot roots)

/-- The column that is used for a neighbour, `surrounded_atoms.py:93-94,99`; a negative index counts from the end. -/
def domainIdx (numBasins nd : ℕ) (labels map : ℕ → ℤ) (w : ℕ) : ℕ := pyIdx nd (map (pyIdx numBasins (labels w)))

/-- The counters incremented for one voxel, in order, `surrounded_atoms.py:74-99`. -/
def voxelCells (fuel : ℕ) (parent : ℕ → ℕ) (roots : List ℕ) (s : Shape) (nbrs : List Coord) (solid vac : ℕ → Bool) (dom : ℕ → ℕ) (v : ℕ) :
    Option (List Cell) :=
  if !(solid v) || vac v then some []
  else
    let out := nbrs.filter fun d => !(solid (nbr s v d))
    if out.isEmpty then some []
    else (voidIdx fuel parent roots v).map fun r => out.map fun d => (r, dom (nbr s v d))

/-- The voxels of the slab `i`, `surrounded_atoms.py:71-72`. -/
def slab (s : Shape) (i : ℕ) : List ℕ := (List.range (s.ny * s.nz)).map fun j => i * (s.ny * s.nz) + j

/-- The counters incremented in the slab `i`, in order, `surrounded_atoms.py:70-99`. -/
def slabCells (fuel : ℕ) (parent : ℕ → ℕ) (roots : List ℕ) (s : Shape) (nbrs : List Coord) (solid vac : ℕ → Bool) (dom : ℕ → ℕ) (i : ℕ) :
    Option (List Cell) :=
  ((slab s i).mapM (voxelCells fuel parent roots s nbrs solid vac dom)).map List.flatten

/-- A thread: the increments that are left and, between read and write, the value read. For `surrounded_atoms.py:99`. -/
structure Adder where
  todo : List Cell
  reg : Option ℕ

/-- One atomic step of a thread, `surrounded_atoms.py:99`. -/
def Adder.step (m : Cell → ℕ) (w : Adder) : (Cell → ℕ) × Adder :=
  match w.todo, w.reg with
  | [], _ => (m, w)
  | c :: l, none => (m, ⟨c :: l, some (m c)⟩)
  | c :: l, some a => (Function.update m c (a + 1), ⟨l, none⟩)

/-- The scheduler picks the slab `i`. For `surrounded_atoms.py:68-99`. -/
def adderStep (st : (Cell → ℕ) × (ℕ → Adder)) (i : ℕ) : (Cell → ℕ) × (ℕ → Adder) :=
  ((st.2 i).step st.1 |>.1, Function.update st.2 i ((st.2 i).step st.1).2)

/-- The loop with the increments `work i` in the slab `i`, `surrounded_atoms.py:68-99`. -/
def adderRun (work : ℕ → List Cell) (sched : List ℕ) : (Cell → ℕ) × (ℕ → Adder) :=
  sched.foldl adderStep (fun _ => 0, fun i => ⟨work i, none⟩)

/-- The slabs one after the other. For `surrounded_atoms.py:74-99`. -/
def serialSched (work : ℕ → List Cell) (order : List ℕ) : List ℕ := order.flatMap fun i => List.replicate (2 * (work i).length) i

/-- The increments of all slabs, `surrounded_atoms.py:70-99`. -/
def contactWork (fuel : ℕ) (parent : ℕ → ℕ) (roots : List ℕ) (s : Shape) (nbrs : List Coord) (solid vac : ℕ → Bool) (dom : ℕ → ℕ) :
    Option (List (List Cell)) :=
  (List.range s.nx).mapM (slabCells fuel parent roots s nbrs solid vac dom)

/-- `connection_counts` with the schedule `sched`, `surrounded_atoms.py:66-99`; no value while a slab is not finished. -/
def contactCounts (fuel : ℕ) (parent : ℕ → ℕ) (roots : List ℕ) (s : Shape) (nbrs : List Coord) (solid vac : ℕ → Bool) (dom : ℕ → ℕ)
    (sched : List ℕ) : Option (ℕ → ℕ → ℕ) := do
  let work ← contactWork fuel parent roots s nbrs solid vac dom
  let st := adderRun (fun i => work.getD i []) sched
  if (List.range s.nx).all fun i => (st.2 i).todo.isEmpty then some fun r d => st.1 (r, d) else none

/-- The void or the domain an atom sits in, `surrounded_atoms.py:135-144`. -/
def atomGroup (fuel : ℕ) (parent : ℕ → ℕ) (roots : List ℕ) (solid : ℕ → Bool) (dom : ℕ → ℕ) (v : ℕ) : Option Group :=
  if solid v then (voidIdx fuel parent roots v).map .void else some (.dom (dom v))

end BaderKit
