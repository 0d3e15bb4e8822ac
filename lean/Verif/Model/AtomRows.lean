import Verif.Model.DomainTree
import Mathlib.Data.List.Basic
import Mathlib.Logic.Function.Basic
/-!
# Atoms surrounded by domains

Model of `src/baderkit/core/labelers/bifurcation_graph/graph_numba/surrounded_atoms.py:114-465`.

Simplifications.
* The voids and the contacts between voids and domains (`get_connected_voids`) enter as the parameters of `findAtomDomains`; the function
  `get_domains_surrounding_atoms` takes the lists of surrounding domains at each value as the parameter `surr`.
* The five parallel lists of rows are one list.  `src` is bookkeeping that the code does not have: the index of the row in the input.
* The entries of `domain_max_values` are numbers here, whatever they are.
-/
namespace BaderKit
variable {K : Type}

/-- The group an atom is in: a void (index into `void_roots`) or a domain (position among the current domains).
For `surrounded_atoms.py:156-184`. -/
inductive Group where
  | void (i : ℕ)
  | dom (i : ℕ)
  deriving DecidableEq

/-- `np.argmax` of a row or column of `connection_counts`: the first of the largest. For `surrounded_atoms.py:156-184`. -/
def argmaxFirst (n : ℕ) (f : ℕ → ℕ) : ℕ := (List.range n).foldl (fun b i => if f b < f i then i else b) 0

/-- The loop of `find_atom_domains`, `surrounded_atoms.py:156-184`.  `fuel` is the number of rounds that are left, 101 in the code; with
none left an exception is raised.  `voidDim`, `domDim` are the dimensionalities, `counts v d` the contacts. -/
def surroundLoop (nv nd : ℕ) (voidDim domDim : ℕ → ℕ) (counts : ℕ → ℕ → ℕ) : ℕ → Group → Option (List ℕ)
  | 0, _ => none
  | fuel + 1, .void v =>
    if 0 < voidDim v then some []
    else surroundLoop nv nd voidDim domDim counts fuel (.dom (argmaxFirst nd (counts v)))
  | fuel + 1, .dom d =>
    if 0 < domDim d then some [d]
    else (surroundLoop nv nd voidDim domDim counts fuel (.void (argmaxFirst nv fun v => counts v d))).map fun l => d :: l

/-- `find_atom_domains`, `surrounded_atoms.py:114-184`; the loop raises when `while_count` exceeds 100.  `doms` are the current domains. -/
def findAtomDomains (nv : ℕ) (doms : List ℕ) (voidDim domDim : ℕ → ℕ) (counts : ℕ → ℕ → ℕ) (start : Group) : Option (List ℕ) :=
  (surroundLoop nv doms.length voidDim (fun d => domDim (doms.getD d 0)) counts 101 start).map fun l => l.map fun d => doms.getD d 0

/-- A domain as found by `find_domain_bifurcations`, with some number as maximum. For `surrounded_atoms.py:293-313`. -/
structure DomIn (K : Type) where
  basins : List ℕ
  minV : K
  maxV : K
  dim : ℕ
  parent : Option ℕ

/-- A row of the result, `surrounded_atoms.py:458-465`. -/
structure ARow (K : Type) where
  basins : List ℕ
  minV : K
  maxV : K
  dim : ℕ
  parent : Option ℕ
  atoms : List ℕ
  src : ℕ
  deriving DecidableEq

/-- The variables of the loop: `new_domain_map`, the rows, `current_domains` with `current_domain_atoms`. For `surrounded_atoms.py:291-427`. -/
structure AState (K : Type) where
  map : ℕ → Option ℕ
  rows : List (ARow K)
  prev : List (ℕ × List ℕ)

variable [LinearOrder K]

/-- `current_domains`, `surrounded_atoms.py:293-313`. -/
def currentDoms (inp : List (DomIn K)) (v : K) : List ℕ :=
  (List.range inp.length).filter fun d => (inp[d]?).elim false fun r => decide (r.minV ≤ v ∧ v < r.maxV)

/-- The atoms of a domain, `surrounded_atoms.py:369-383`; `surr` lists for every atom the domains that surround it. -/
def atomsOf (surr : List (List ℕ)) (d : ℕ) : List ℕ :=
  surr.zipIdx.flatMap fun x => (x.1.filter fun e => e == d).map fun _ => x.2

/-- One domain of the loop that appends rows, `surrounded_atoms.py:385-427`.  An index -1 (a domain that changed but has no row) is a
failure in the model. -/
def appendDom (inp : List (DomIn K)) (v : K) (prev : List (ℕ × List ℕ)) (st : (ℕ → Option ℕ) × List (ARow K)) (x : ℕ × List ℕ) :
    Option ((ℕ → Option ℕ) × List (ARow K)) := do
  let r ← inp[x.1]?
  if r.minV = v then
    let map := Function.update st.1 x.1 (some st.2.length)
    some (map, st.2 ++ [⟨r.basins, v, r.maxV, r.dim, r.parent.bind map, x.2, x.1⟩])
  else
    match prev.find? fun p => p.1 == x.1 with
    | none => some st
    | some p =>
      if p.2.length ≠ x.2.length then do
        let k ← st.1 x.1
        let rows := st.2 ++ [⟨r.basins, v, r.maxV, r.dim, some k, x.2, x.1⟩]
        some (Function.update st.1 x.1 (some st.2.length), rows.modify k fun q => { q with maxV := v })
      else some st

/-- One value, `surrounded_atoms.py:291-427`. -/
def atomStep (inp : List (DomIn K)) (surr : K → List (List ℕ)) (st : AState K) (v : K) : Option (AState K) := do
  let cur := (currentDoms inp v).map fun d => (d, atomsOf (surr v) d)
  let r ← cur.foldlM (appendDom inp v st.prev) (st.map, st.rows)
  some ⟨r.1, r.2, cur⟩

/-- The loop over the values; it ends when no atom is surrounded, `surrounded_atoms.py:291-432`. -/
def atomLoop (inp : List (DomIn K)) (surr : K → List (List ℕ)) : List K → AState K → Option (AState K)
  | [], st => some st
  | v :: vs, st => do
    let st' ← atomStep inp surr st v
    if (surr v).all fun l => l.isEmpty then some st' else atomLoop inp surr vs st'

/-- A domain without a row, `surrounded_atoms.py:434-456`. -/
def appendRest (inp : List (DomIn K)) (st : (ℕ → Option ℕ) × List (ARow K)) (d : ℕ) : Option ((ℕ → Option ℕ) × List (ARow K)) :=
  match st.1 d with
  | some _ => some st
  | none => do
    let r ← inp[d]?
    let map := Function.update st.1 d (some st.2.length)
    some (map, st.2 ++ [⟨r.basins, r.minV, r.maxV, r.dim, r.parent.bind map, [], d⟩])

/-- `get_domains_surrounding_atoms`, `surrounded_atoms.py:234-465`. -/
def atomRows (inp : List (DomIn K)) (surr : K → List (List ℕ)) (values : List K) : Option (List (ARow K)) := do
  let st ← atomLoop inp surr values ⟨fun _ => none, [], []⟩
  let r ← (List.range inp.length).foldlM (appendRest inp) (st.map, st.rows)
  some r.2

end BaderKit
