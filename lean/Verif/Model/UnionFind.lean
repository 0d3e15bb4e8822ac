import Mathlib.Logic.Function.Basic
import Mathlib.Algebra.Group.Basic
import Mathlib.Data.List.Sort
import Mathlib.Data.Finset.Dedup
/-!
# Union-find

Model of `src/baderkit/core/utilities/union_find.py` and `src/baderkit/core/toolkit/union_finder.py`.

A parent array is a function `α → α` (`α` is the index type: `ℕ` for flat arrays, `ℤ` for label
arrays).  The `while` loops take fuel and return `none` when it runs out.  The three offset arrays
`offset_x, offset_y, offset_z` are one function into a commutative group `G` (`ℤ × ℤ × ℤ`);
`int8` overflow of the offsets is not modelled.
-/
namespace BaderKit

section plain
variable {α : Type*} [DecidableEq α]

/-- `find_root`, `union_find.py:11-16`: path halving; returns the modified array and the root. -/
def findRoot : ℕ → (α → α) → α → Option ((α → α) × α)
  | 0, _, _ => none
  | fuel + 1, p, x =>
    if x ≠ p x then
      let p' := Function.update p x (p (p x))
      findRoot fuel p' (p' x)
    else some (p, x)

/-- `find_root_no_compression`, `union_find.py:20-24`. -/
def findRootNC : ℕ → (α → α) → α → Option α
  | 0, _, _ => none
  | fuel + 1, p, x => if x ≠ p x then findRootNC fuel p (p x) else some x

/-- `union`, `union_find.py:96-101` (also the body of `_union`, `union_finder.py:15-18`). -/
def union (fuel : ℕ) (p : α → α) (x y : α) : Option (α → α) := do
  let (p1, rx) ← findRoot fuel p x
  let (p2, ry) ← findRoot fuel p1 y
  some (Function.update p2 rx ry)

/-- `union_w_roots`, `union_find.py:82-92`: union with update of the root mask. -/
def unionWRoots (fuel : ℕ) (p : α → α) (m : α → Bool) (x y : α) :
    Option ((α → α) × (α → Bool)) := do
  let (p1, rx) ← findRoot fuel p x
  let (p2, ry) ← findRoot fuel p1 y
  let p3 := Function.update p2 rx ry
  let m1 := if m rx then Function.update m rx false else m
  let m2 := if !(m1 ry) then Function.update m1 ry true else m1
  some (p3, m2)

/-- One use of the union-find structure by a client. For `union_find.py:11-16,96-101`. -/
inductive UFOp (α : Type*) where
  /-- `find_root(parent, x)` -/
  | find (x : α)
  /-- `find_root_no_compression(parent, x)` -/
  | findNC (x : α)
  /-- `union(parents, x, y)` -/
  | union (x y : α)

/-- Effect of one operation on the parent array. For `union_find.py:11-16,96-101`. -/
def UFOp.run (fuel : ℕ) (p : α → α) : UFOp α → Option (α → α)
  | .find x => (findRoot fuel p x).map Prod.fst
  | .findNC x => (findRootNC fuel p x).map fun _ => p
  | .union x y => BaderKit.union fuel p x y

/-- Effect of a history of operations. For `union_find.py:11-16,96-101`. -/
def runUF (fuel : ℕ) : List (UFOp α) → (α → α) → Option (α → α)
  | [], p => some p
  | o :: os, p => (o.run fuel p).bind (runUF fuel os)

/-- A history of `union_w_roots` calls. For `union_find.py:82-92`. -/
def runUnionWRoots (fuel : ℕ) : List (α × α) → (α → α) × (α → Bool) →
    Option ((α → α) × (α → Bool))
  | [], st => some st
  | xy :: os, st => (unionWRoots fuel st.1 st.2 xy.1 xy.2).bind (runUnionWRoots fuel os)

end plain

section growing

/-- State of the toolkit `UnionFind` object: the list `parent`, `union_finder.py:26-27`. -/
abbrev UFList := List ℕ

/-- `UnionFind.__init__`, `union_finder.py:26-27`. -/
def UFList.init : UFList := [0]

/-- The `while len(parent) <= higher: parent.append(len(parent))` loop, `union_finder.py:11-13`. -/
def UFList.extend (p : UFList) (higher : ℕ) : UFList :=
  p ++ (List.range (higher + 1 - p.length)).map (fun k => p.length + k)

/-- The list seen as an array (read outside the list never happens for valid operations; the model
returns the index itself there). For `union_finder.py:9-18,32-33`. -/
def UFList.toFun (p : UFList) : ℕ → ℕ := fun x => p.getD x x

/-- The array of a given length as a list. For `union_finder.py:9-18,32-33`. -/
def UFList.ofFun (n : ℕ) (f : ℕ → ℕ) : UFList := (List.range n).map f

/-- `UnionFind.union`, `union_finder.py:9-18,32-33`. -/
def UFList.union (fuel : ℕ) (p : UFList) (x y : ℕ) : Option UFList :=
  let q := p.extend (max x y)
  (BaderKit.union fuel q.toFun x y).map (UFList.ofFun q.length)

/-- `UnionFind.find_root`, `union_finder.py:29-30`: `none` stands for the `IndexError` (or for
running out of fuel). -/
def UFList.findRoot (fuel : ℕ) (p : UFList) (x : ℕ) : Option (UFList × ℕ) :=
  if x < p.length then
    (BaderKit.findRoot fuel p.toFun x).map fun r => (UFList.ofFun p.length r.1, r.2)
  else none

/-- `compress_roots`, `union_find.py:161-171`, for arrays without `-1` entries, one index at a time
in the order `order` (see `Model/CompressRoots.lean` for the interleaved version).
Returns the mutated parents and the new array. -/
def compressRoots (fuel : ℕ) : List ℕ → (ℕ → ℕ) × (ℕ → ℕ) → Option ((ℕ → ℕ) × (ℕ → ℕ))
  | [], st => some st
  | i :: is, st =>
    (BaderKit.findRoot fuel st.1 (st.1 i)).bind fun r =>
      compressRoots fuel is (r.1, Function.update st.2 i r.2)

/-- `UnionFind.groups`, `union_finder.py:39-44`: the classes listed by increasing root.
Simplification: `parent` is treated as an array (the code reads `parents.dtype`). -/
def UFList.groups (fuel : ℕ) (order : List ℕ) (p : UFList) : Option (List (List ℕ)) :=
  (compressRoots fuel order (p.toFun, fun _ => 0)).map fun st =>
    let roots := st.2
    let uniq := (((List.range p.length).map roots).dedup).insertionSort (· ≤ ·)
    uniq.map fun r => (List.range p.length).filter fun i => roots i = r

/-- How a call of `UnionFind.bulk_union` ends, `union_finder.py:35-37`: with an exception that leaves the attribute `parent` on the (mutated) list,
or by storing a value in it, where `none` is Python's `None`. -/
inductive BulkOut where
  /-- An exception; the object still has this list. -/
  | raised (p : UFList)
  /-- The call returned and stored this value. -/
  | stored (v : Option UFList)
  deriving DecidableEq

/-- The loop of `bulk_union`, `union_find.py:105-109`, run as Python: `list` is the list of the object, `var` the local name `parent`.  `union`
(`union_find.py:96-101`) unites in place and returns nothing, so `var` is `None` after the first pair.  It does not extend the list: an index outside
raises (`none` for running out of fuel). -/
def bulkLoop (fuel : ℕ) : List (ℕ × ℕ) → (list : UFList) → (var : Option UFList) → Option BulkOut
  | [], _, var => some (.stored var)
  | _ :: _, list, none => some (.raised list)
  | (x, y) :: rest, list, some _ =>
    if x < list.length then
      if y < list.length then
        (BaderKit.union fuel list.toFun x y).bind fun q => bulkLoop fuel rest (UFList.ofFun list.length q) none
      else (UFList.findRoot fuel list x).map fun r => .raised r.1
    else some (.raised list)

/-- `UnionFind.bulk_union`, `union_finder.py:35-37`.  `compiles` says whether numba accepts a name that is a list and then `None`; if not the call raises
before the loop. -/
def UFList.bulkUnion (fuel : ℕ) (compiles : Bool) (p : UFList) (pairs : List (ℕ × ℕ)) : Option BulkOut :=
  if compiles then bulkLoop fuel pairs p (some p) else some (.raised p)

/-- `UnionFind.groups_sets`, `union_finder.py:46-47`. -/
def UFList.groupsSets (fuel : ℕ) (order : List ℕ) (p : UFList) : Option (Finset (Finset ℕ)) :=
  (p.groups fuel order).map fun gs => (gs.map List.toFinset).toFinset

/-- A history of `UnionFind.union` calls on a fresh object. For `union_finder.py:9-18,32-33`. -/
def UFList.runUnions (fuel : ℕ) : List (ℕ × ℕ) → UFList → Option UFList
  | [], p => some p
  | xy :: os, p => (UFList.union fuel p xy.1 xy.2).bind (UFList.runUnions fuel os)

end growing

section shift
variable {α : Type*} [DecidableEq α] {G : Type*} [AddCommGroup G]

/-- The arrays `parent, offset_*, size, root_mask` of the shift-tracking union-find,
`union_find.py:113-115`. -/
structure ShiftUF (α G : Type*) where
  parent : α → α
  off : α → G
  size : α → ℕ
  mask : α → Bool

/-- Path-halving loop of `find_root_with_shift`, `union_find.py:36-45`. -/
def halveShift : ℕ → (α → α) × (α → G) → α → Option ((α → α) × (α → G))
  | 0, _, _ => none
  | fuel + 1, (p, o), y =>
    if p y ≠ y ∧ p (p y) ≠ p y then
      let q := p y
      let o' := Function.update o y (o y + o q)
      let p' := Function.update p y (p q)
      halveShift fuel (p', o') (p' y)
    else some (p, o)

/-- Final climb of `find_root_with_shift`, `union_find.py:48-58`; also
`find_root_with_shift_no_compression`, `union_find.py:62-73`. -/
def climbShift : ℕ → (α → α) → (α → G) → α → G → Option (α × G)
  | 0, _, _, _, _ => none
  | fuel + 1, p, o, y, c => if p y ≠ y then climbShift fuel p o (p y) (c + o y) else some (y, c)

/-- `find_root_with_shift`, `union_find.py:28-58`: new arrays, root and accumulated offset. -/
def findRootShift (fuel : ℕ) (p : α → α) (o : α → G) (x : α) :
    Option ((α → α) × (α → G) × α × G) := do
  let (p', o') ← halveShift fuel (p, o) x
  let (r, c) ← climbShift fuel p' o' x 0
  some (p', o', r, c)

/-- `union_with_shift`, `union_find.py:113-154`. -/
def unionShift (fuel : ℕ) (st : ShiftUF α G) (a b : α) (s : G) : Option (ShiftUF α G) := do
  let (p1, o1, ra, oa) ← findRootShift fuel st.parent st.off a
  let (p2, o2, rb, ob) ← findRootShift fuel p1 o1 b
  if ra = rb then some { st with parent := p2, off := o2 }
  else
    let c := s + ob - oa
    if st.size ra < st.size rb then
      let m1 := if !(st.mask rb) then Function.update st.mask rb true else st.mask
      let m2 := if m1 ra then Function.update m1 ra false else m1
      some { parent := Function.update p2 ra rb
             off := Function.update o2 ra c
             size := Function.update st.size rb (st.size rb + st.size ra)
             mask := m2 }
    else
      let m1 := if !(st.mask ra) then Function.update st.mask ra true else st.mask
      let m2 := if m1 rb then Function.update m1 rb false else m1
      some { parent := Function.update p2 rb ra
             off := Function.update o2 rb (-c)
             size := Function.update st.size ra (st.size ra + st.size rb)
             mask := m2 }

/-- One use of the shift-tracking union-find. For `union_find.py:28-58,113-154`. -/
inductive ShiftOp (α G : Type*) where
  /-- `find_root_with_shift(parent, offsets, x)` -/
  | find (x : α)
  /-- `union_with_shift(root_mask, parent, offsets, size, a, b, shift)` -/
  | union (a b : α) (s : G)

/-- Effect of one operation. For `union_find.py:28-58,113-154`. -/
def ShiftOp.run (fuel : ℕ) (st : ShiftUF α G) : ShiftOp α G → Option (ShiftUF α G)
  | .find x => (findRootShift fuel st.parent st.off x).map fun r =>
      { st with parent := r.1, off := r.2.1 }
  | .union a b s => unionShift fuel st a b s

/-- Effect of a history. For `union_find.py:28-58,113-154`. -/
def runShift (fuel : ℕ) : List (ShiftOp α G) → ShiftUF α G → Option (ShiftUF α G)
  | [], st => some st
  | o :: os, st => (o.run fuel st).bind (runShift fuel os)

/-- Initial arrays: `np.arange`, zero offsets, sizes one, empty mask
(`domain_bifurcations.py:173-183`). -/
def ShiftUF.init : ShiftUF α G := ⟨fun x => x, fun _ => 0, fun _ => 1, fun _ => false⟩

end shift
end BaderKit
