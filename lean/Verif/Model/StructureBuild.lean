import Verif.Model.Merge
import Verif.Model.Interp
/-!
# Building and editing structures

Model of `Structure.__init__`, `insert`, the setter `labels` and `merge_frac_coords`, `src/baderkit/core/toolkit/structure.py:24-103,289-302`.

The constructor and the `insert` of pymatgen are external: the constructor makes one site for each species at the coordinates it is given, and takes them
as Cartesian with `coords_are_cartesian=True`; `insert` puts one site at an index.  Whether pymatgen keeps references to arrays or dictionaries it is
given is not modelled.  Arrays of floats are rows of a store, so that changes in place can be seen by the caller.
-/
namespace BaderKit

variable {K : Type} [Field K] [LinearOrder K] [FloorRing K]

/-- The coordinates given to the constructor: rows of float arrays (a two-dimensional array or a list of arrays), rows of integer arrays, or lists.
For `structure.py:33-34`. -/
inductive CoordArg (K : Type)
  | floats (rows : List ℕ)
  | ints (rows : List (ℤ × ℤ × ℤ))
  | lists (rows : List (V3 K))

/-- `coord %= 1.0` on a row of floats. For `structure.py:33-34`. -/
def wrapRow (c : V3 K) : V3 K := (mod1 c.1, mod1 c.2.1, mod1 c.2.2)

/-- The loop over the rows, `structure.py:33-34`.  `%=` is not defined for a list and a float, and the result of integers modulo 1.0 cannot be stored
in an integer array; no row, no error. -/
def cleanRows (mem : ℕ → V3 K) : CoordArg K → Option (ℕ → V3 K)
  | .floats rows => some (rows.foldl (fun m r => Function.update m r (wrapRow (m r))) mem)
  | .ints [] => some mem
  | .ints (_ :: _) => none
  | .lists [] => some mem
  | .lists (_ :: _) => none

/-- The coordinates that are then passed on, `structure.py:35`. -/
def argRows (mem : ℕ → V3 K) : CoordArg K → List (V3 K)
  | .floats rows => rows.map mem
  | .ints rows => rows.map fun r => ((r.1 : K), (r.2.1 : K), (r.2.2 : K))
  | .lists rows => rows

/-- A site: species, Cartesian position and the label in the properties. For `structure.py:24-39`. -/
structure BSite (K S : Type) where
  species : S
  pos : V3 K
  label : String

/-- `Structure.__init__`, `structure.py:24-39`: the store afterwards and the sites.  `L` has the lattice vectors as rows; different numbers of species
and coordinates raise in pymatgen. -/
def buildStructure {S : Type} (symbol : S → String) (L : M3 K) (mem : ℕ → V3 K) (species : List S) (arg : CoordArg K) (cartesian : Bool) :
    Option ((ℕ → V3 K) × List (BSite K S)) := do
  let mem' ← cleanRows mem arg
  let rows := argRows mem' arg
  if species.length = rows.length then
    some (mem', (species.zip rows).map fun x => ⟨x.1, if cartesian = true then x.2 else vecMat x.2 L, symbol x.1⟩)
  else none

/-- `list.insert`. For `structure.py:47-87`. -/
def pyInsert {α : Type} (l : List α) (i : ℤ) (x : α) : List α :=
  let j : ℕ := if i < 0 then (i + l.length).toNat else min i.toNat l.length
  l.take j ++ x :: l.drop j

/-- `insert`, `structure.py:47-87`.  Dictionaries are entries of a store (only the key `label`); `none` is `properties=None`. -/
def insertSite {S : Type} (name : S → String) (L : M3 K) (dicts : ℕ → Option String) (sites : List (BSite K S)) (i : ℤ) (sp : S) (c : V3 K)
    (cartesian : Bool) (props : Option ℕ) : (ℕ → Option String) × List (BSite K S) :=
  let pos := if cartesian = true then c else vecMat c L
  match props with
  | none => (dicts, pyInsert sites i ⟨sp, pos, name sp⟩)
  | some d =>
    match dicts d with
    | some l => (dicts, pyInsert sites i ⟨sp, pos, l⟩)
    | none => (Function.update dicts d (some (name sp)), pyInsert sites i ⟨sp, pos, name sp⟩)

/-- The setter `labels`, `structure.py:101-103`: only the length is checked. -/
def setLabels {S : Type} (sites : List (BSite K S)) (labels : List String) : Option (List (BSite K S)) :=
  if labels.length = sites.length then some sites else none

/-- The argument of `merge_frac_coords` after `np.asarray`: a single row of numbers, or rows of equal length. For `structure.py:289-302`. -/
inductive MergeArg (K : Type)
  | flat (xs : List K)
  | rows (width : ℕ) (xs : List (List K))

/-- What `merge_frac_coords` does. For `structure.py:289-302`. -/
inductive MergeResult (K : Type)
  | nothing
  | value (xs : List K)
  | raises
deriving DecidableEq

/-- `Structure.merge_frac_coords`, `structure.py:289-302`: a two-dimensional array has no `shape[2]`. -/
def mergeFracStatic : MergeArg K → MergeResult K
  | .flat [] => .nothing
  | .flat xs => .value xs
  | .rows _ [] => .nothing
  | .rows _ _ => .raises

end BaderKit
