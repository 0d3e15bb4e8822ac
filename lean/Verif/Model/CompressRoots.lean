import Mathlib.Logic.Function.Basic
import Mathlib.Data.Int.Basic
/-!
# `compress_roots` under arbitrary interleavings

`compress_roots`, `src/baderkit/core/utilities/union_find.py:161-171`, runs
`new_parents[i] = find_root(parents, current_val)` in a `prange` loop although `find_root`
(`union_find.py:11-16`) writes to the shared array.  Here every array access is one atomic step and
the iterations are threads interleaved arbitrarily (any number of worker threads, any chunking:
running several iterations one after the other in a worker is one of these interleavings).
Memory is sequentially consistent; weaker memory models are not covered.
-/
namespace BaderKit

/-- Program counter of one loop iteration with its local variables. For `union_find.py:11-16,161-171`. -/
inductive CPC where
  /-- before `current_val = parents[i]` (line 165) -/
  | start
  /-- before the loop test `x != parent[x]` (line 13) -/
  | check (x : ℤ)
  /-- before the inner read of `parent[parent[x]]` (line 14) -/
  | readP (x : ℤ)
  /-- before the outer read, `a` is the value of the inner read (line 14) -/
  | readG (x a : ℤ)
  /-- before the store `parent[x] = b` (line 14) -/
  | write (x b : ℤ)
  /-- before `x = parent[x]` (line 15) -/
  | adv (x : ℤ)
  /-- `new_parents[i] = r` has been stored (lines 168, 170) -/
  | done (r : ℤ)
deriving DecidableEq

/-- One atomic step of iteration `i`: new shared array and new program counter. For `union_find.py:11-16,161-171`. -/
def cstep (i : ℤ) (p : ℤ → ℤ) : CPC → (ℤ → ℤ) × CPC
  | .start => (p, if p i = -1 then .done (-1) else .check (p i))
  | .check x => (p, if x ≠ p x then .readP x else .done x)
  | .readP x => (p, .readG x (p x))
  | .readG x a => (p, .write x (p a))
  | .write x b => (Function.update p x b, .adv x)
  | .adv x => (p, .check (p x))
  | .done r => (p, .done r)

/-- One step of the whole loop: the scheduler picks iteration `i`. For `union_find.py:11-16,161-171`. -/
def cstepAll (st : (ℤ → ℤ) × (ℤ → CPC)) (i : ℤ) : (ℤ → ℤ) × (ℤ → CPC) :=
  let r := cstep i st.1 (st.2 i)
  (r.1, Function.update st.2 i r.2)

/-- The parallel loop under the schedule `sched` (which iteration makes the next step). For `union_find.py:11-16,161-171`. -/
def crun (p : ℤ → ℤ) (sched : List ℤ) : (ℤ → ℤ) × (ℤ → CPC) :=
  sched.foldl cstepAll (p, fun _ => .start)

end BaderKit
