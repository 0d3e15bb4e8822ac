import Verif.Model.GridOps
import Verif.Model.VaspFile
/-!
# Grids as objects

Model of what several `Grid` objects of one session share: the arrays in memory, the caches and the flags fixed when a grid is made
(`src/baderkit/core/toolkit/grid.py`).

Simplifications.
* The arrays live in a memory `ℕ → D`; a dictionary of data maps each of the five possible keys to an address.  The order of the keys is not kept
  (the readers always write them in this order).
* Five consecutive addresses are reserved for each new grid or assigned array.
* A session that raises leaves everything as it was, as Python does for these methods.
* The structure, the augmentation charges and the number of significant figures are left out.
-/
namespace BaderKit

/-- Position of a key in the order of the readers, `file_parsers.py:262-290`. -/
def DKey.code : DKey → ℕ
  | .total => 0 | .diff => 1 | .diffX => 2 | .diffY => 3 | .diffZ => 4

/-- A grid object: where its arrays are, the flag `is_spin_polarized` and the caches, `grid.py:105-154`. -/
structure HeapGrid (V : Type) where
  data : DKey → Option ℕ
  polarized : Bool
  cache : GCache → Option V

/-- Memory and the grids of the session, in the order in which they were made. For `grid.py:88-154`. -/
structure HeapSt (D V : Type) where
  next : ℕ
  cell : ℕ → D
  count : ℕ
  grid : ℕ → HeapGrid V

/-- What a session does with its grids. For `grid.py:847-864`, `grid.py:1078-1113`. -/
inductive ObjOp (D : Type)
  /-- `Grid(structure, data)` -/
  | load (d : DKey → Option D)
  /-- `grid_i.copy()` -/
  | copy (i : ℕ)
  /-- `grid_i.linear_add(grid_j, scale)`, also `grid_i + grid_j` and `grid_i - grid_j`; the function adds two arrays -/
  | add (lin : D → D → D) (i j : ℕ)
  /-- `grid_i.total = array`, `grid_i.diff = array` with an array that is used nowhere else -/
  | assign (i : ℕ) (k : DKey) (v : D)
  /-- `grid_i.total = grid_j.total`, `grid_i.diff = grid_j.diff` -/
  | share (i j : ℕ) (k : DKey)
  /-- an array of `grid_i` is edited in place, e.g. `grid_i.total[mask] = 0` -/
  | poke (i : ℕ) (k : DKey) (f : D → D)
  /-- a cached attribute of `grid_i` is read -/
  | read (i : ℕ) (c : GCache)

variable {D V : Type}

/-- The arrays of a grid. For `grid.py:208-300`. -/
def HeapGrid.view (cell : ℕ → D) (g : HeapGrid V) : DKey → Option D := fun k => (g.data k).map cell

/-- `np.array(v)` for every key: new arrays at new addresses, `grid.py:112`. -/
def allocCells (next : ℕ) (cell : ℕ → D) (d : DKey → Option D) : ℕ → D := fun a =>
  if next ≤ a then
    (if a = next then d .total else if a = next + 1 then d .diff else if a = next + 2 then d .diffX else if a = next + 3 then d .diffY
      else if a = next + 4 then d .diffZ else none).getD (cell a)
  else cell a

/-- Number of keys of a dictionary. For `grid.py:88-154`. -/
def keyCount {α : Type} (d : DKey → Option α) : ℕ := ([DKey.total, .diff, .diffX, .diffY, .diffZ].filter fun k => (d k).isSome).length

/-- `Grid.__init__`, `grid.py:88-154`: the arrays are copied, the flag is set from the number of keys and the caches are empty. -/
def HeapSt.make (s : HeapSt D V) (d : DKey → Option D) : HeapSt D V :=
  { next := s.next + 5
    cell := allocCells s.next s.cell d
    count := s.count + 1
    grid := Function.update s.grid s.count
      { data := fun k => (d k).map fun _ => s.next + k.code, polarized := decide (2 ≤ keyCount d), cache := fun _ => none } }

/-- The sum of two dictionaries with the same keys, `grid.py:1099-1108`. -/
def sumData (lin : D → D → D) (a b : DKey → Option D) : Option (DKey → Option D) :=
  if ∀ k ∈ [DKey.total, .diff, .diffX, .diffY, .diffZ], (a k).isSome = (b k).isSome then
    some fun k => (a k).bind fun x => (b k).map fun y => lin x y
  else none

/-- Reading a cached attribute of one grid object, `grid.py:208-300`; `f` computes it from the arrays; for the masks of maxima and minima,
whose getters always raise (`C59_masks_raise`), the value stands for the exception. -/
def HeapGrid.read (f : GCache → (DKey → Option D) → V) (cell : ℕ → D) (g : HeapGrid V) (c : GCache) : V :=
  (g.cache c).getD (f c (g.view cell))

/-- One step of a session.  `copy` is `grid.py:847-864`, `add` is `linear_add`, `grid.py:1078-1113` (a deep copy of the first grid whose data are
replaced), `assign` and `share` are the setters `grid.py:169-192`. -/
def ObjOp.step (f : GCache → (DKey → Option D) → V) : ObjOp D → HeapSt D V → HeapSt D V
  | .load d, s => s.make d
  | .copy i, s => if i < s.count then s.make ((s.grid i).view s.cell) else s
  | .add lin i j, s =>
    if i < s.count ∧ j < s.count then
      match sumData lin ((s.grid i).view s.cell) ((s.grid j).view s.cell) with
      | none => s
      | some d => { s.make d with
          grid := Function.update (s.make d).grid s.count
            { data := fun k => (d k).map fun _ => s.next + k.code, polarized := (s.grid i).polarized, cache := (s.grid i).cache } }
    else s
  | .assign i k v, s =>
    if i < s.count then
      { s with
        next := s.next + 5
        cell := Function.update s.cell s.next v
        grid := Function.update s.grid i { s.grid i with
          data := Function.update (s.grid i).data k (some s.next)
          cache := fun c => if c ∈ gridReset then none else (s.grid i).cache c } }
    else s
  | .share i j k, s =>
    if i < s.count ∧ j < s.count then
      { s with
        grid := Function.update s.grid i { s.grid i with
          data := Function.update (s.grid i).data k ((s.grid j).data k)
          cache := fun c => if c ∈ gridReset then none else (s.grid i).cache c } }
    else s
  | .poke i k h, s =>
    if i < s.count then
      match (s.grid i).data k with
      | none => s
      | some a => { s with cell := Function.update s.cell a (h (s.cell a)) }
    else s
  | .read i c, s =>
    if i < s.count then
      { s with grid := Function.update s.grid i { s.grid i with
          cache := Function.update (s.grid i).cache c (some ((s.grid i).read f s.cell c)) } }
    else s

/-- A session from the start. For `grid.py:847-864`, `grid.py:1078-1113`. -/
def runSession (f : GCache → (DKey → Option D) → V) (blank : D) (ops : List (ObjOp D)) : HeapSt D V :=
  ops.foldl (fun s o => o.step f s) ⟨0, fun _ => blank, 0, fun _ => ⟨fun _ => none, false, fun _ => none⟩⟩

end BaderKit
