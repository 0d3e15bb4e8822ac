import Verif.Model.UnionFind
import Verif.Model.Groups
import Mathlib.Algebra.Order.Field.Basic
/-!
# The domains of the bifurcation graph

Model of `find_domain_bifurcations`,
`src/baderkit/core/labelers/bifurcation_graph/graph_numba/domain_bifurcations.py:145-462`.

Simplifications.
* `basin_connections` is a pair: the parents, with the identity for basins that are still `-1`, and a mask of the basins that are not `-1`.
* The parallel lists `domain_groups`, `domain_ids`, `new_dimensionalities` are one list of triples.
* `compress_roots` visits the basins in increasing order (`C57_compress_roots_interleaving` covers other schedules).
* The dimensionality of a domain at a value is the parameter `dim` (value, first basin of the domain); `levelDim` is the one of the code.
* The result arrays have length `unique_domains`; the model lists the rows that are written.  An entry of `domain_max_values` that is
  never written (`np.empty`) is `none`.
-/
namespace BaderKit
variable {K : Type} [Field K] [LinearOrder K]

/-- A connection of two basins at a value, `connection_pairs` and `connection_values`, `domain_bifurcations.py:146-148`. -/
structure Conn (K : Type) where
  i : ℕ
  j : ℕ
  val : K

/-- `np.flip(np.unique(connection_values))`, `domain_bifurcations.py:165`. -/
def connValues (conns : List (Conn K)) : List K := ((conns.map Conn.val).dedup).insertionSort (fun a b => b ≤ a)

/-- `basin_connections`, `domain_bifurcations.py:196`. -/
structure LinkState where
  parent : ℕ → ℕ
  seen : ℕ → Bool

/-- One connection, `domain_bifurcations.py:237-251`. -/
def linkOne (fuel : ℕ) (st : LinkState) (c : Conn K) : Option LinkState := do
  let seen := Function.update (Function.update st.seen c.i true) c.j true
  let (p1, ri) ← findRoot fuel st.parent c.i
  let (p2, rj) ← findRoot fuel p1 c.j
  if ri = rj then some ⟨p2, seen⟩
  else do
    let p3 ← union fuel p2 c.i c.j
    some ⟨p3, seen⟩

/-- All connections at a value, and `compress_roots`, `domain_bifurcations.py:226-254`. -/
def linkLevel (fuel nb : ℕ) (conns : List (Conn K)) (prev value : K) (st : LinkState) : Option LinkState := do
  let st1 ← (conns.filter fun c => decide (value ≤ c.val ∧ c.val < prev)).foldlM (linkOne fuel) st
  let r ← compressRoots fuel (List.range nb) (st1.parent, fun x => x)
  some ⟨r.2, st1.seen⟩

/-- One basin of the loop that collects the groups, `domain_bifurcations.py:265-282`; the state is `domain_group_indices` (`none` for -1)
and `domain_groups`. -/
def groupBasin (st : LinkState) (x : (ℕ → Option ℕ) × List (List ℕ)) (b : ℕ) : (ℕ → Option ℕ) × List (List ℕ) :=
  if st.seen b = false then x
  else match x.1 (st.parent b) with
    | none => (Function.update x.1 (st.parent b) (some x.2.length), x.2 ++ [[b]])
    | some k => (x.1, x.2.modify k fun g => g ++ [b])

/-- `domain_groups`, `domain_bifurcations.py:256-282`. -/
def groupsOf (nb : ℕ) (st : LinkState) : List (List ℕ) :=
  ((List.range nb).foldl (groupBasin st) (fun _ => none, [])).2

/-- A domain at a value: basins, id, dimensionality. For `domain_bifurcations.py:293-315`. -/
abbrev Dom := List ℕ × ℕ × ℕ

/-- The id of a group: the one of the same group at the value before, or a new one, `domain_bifurcations.py:293-315`. State: groups with
ids, `unique_domains`, `same_groups`. -/
def idGroup (prev : List Dom) (x : List (List ℕ × ℕ) × ℕ × Bool) (g : List ℕ) : List (List ℕ × ℕ) × ℕ × Bool :=
  match prev.find? fun p => p.1 == g with
  | some p => (x.1 ++ [(g, p.2.1)], x.2.1, x.2.2)
  | none => (x.1 ++ [(g, x.2.1)], x.2.1 + 1, false)

/-- The dimensionality of a group, and a new id if it changed, `domain_bifurcations.py:344-369`. -/
def dimGroup (dim : ℕ → Option ℕ) (prev : List Dom) (x : List Dom × ℕ × Bool) (g : List ℕ × ℕ) : Option (List Dom × ℕ × Bool) := do
  let b ← g.1.head?
  let d ← dim b
  if prev.any fun p => p.2.1 == g.2 && p.2.2 != d then some (x.1 ++ [(g.1, x.2.1, d)], x.2.1 + 1, false)
  else some (x.1 ++ [(g.1, g.2, d)], x.2.1, x.2.2)

/-- A recorded bifurcation, `domain_bifurcations.py:372-376`. -/
structure Level (K : Type) where
  value : K
  doms : List Dom

/-- The variables of the loop over the values. For `domain_bifurcations.py:165-221`. -/
structure BifState (K : Type) where
  link : LinkState
  doms : List Dom
  unique : ℕ
  prev : K
  levels : List (Level K)

/-- The variables before the loop, `domain_bifurcations.py:165-221`. -/
def BifState.init : BifState K := ⟨⟨fun x => x, fun _ => false⟩, [], 0, 10 ^ 12, []⟩

/-- The body of the loop over the values, `domain_bifurcations.py:222-379`. -/
def bifStep (fuel nb : ℕ) (dim : K → ℕ → Option ℕ) (conns : List (Conn K)) (st : BifState K) (value : K) : Option (BifState K) := do
  let link ← linkLevel fuel nb conns st.prev value st.link
  let a := (groupsOf nb link).foldl (idGroup st.doms) ([], st.unique, true)
  let r ← a.1.foldlM (dimGroup (dim value) st.doms) ([], a.2.1, a.2.2)
  some ⟨link, r.1, r.2.1, value, if r.2.2 then st.levels else st.levels ++ [⟨value, r.1⟩]⟩

/-- A single domain with all basins that is three-dimensional ends the loop, `domain_bifurcations.py:383-385`. -/
def bifDone (nb : ℕ) (doms : List Dom) : Bool :=
  match doms with
  | [d] => d.1.length == nb && d.2.2 == 3
  | _ => false

/-- The loop over the values, `domain_bifurcations.py:220-385`. -/
def bifLoop (fuel nb : ℕ) (dim : K → ℕ → Option ℕ) (conns : List (Conn K)) : List K → BifState K → Option (BifState K)
  | [], st => some st
  | v :: vs, st => do
    let st' ← bifStep fuel nb dim conns st v
    if bifDone nb st'.doms then some st' else bifLoop fuel nb dim conns vs st'

/-- A row of the result, `domain_bifurcations.py:456-462`. -/
structure DomainRow (K : Type) where
  basins : List ℕ
  minV : K
  maxV : Option K
  dim : ℕ
  parent : Option ℕ
  deriving DecidableEq

/-- `np.all(np.isin(dom_basins, parent_basins))`, `domain_bifurcations.py:437`. -/
def allIn (g h : List ℕ) : Bool := g.all fun b => h.contains b

/-- The last row that contains the basins, `domain_bifurcations.py:433-439`. -/
def parentOf (rows : List (DomainRow K)) (g : List ℕ) : Option ℕ :=
  (rows.reverse.findIdx? fun r => allIn g r.basins).map fun idx => rows.length - idx - 1

/-- The maximum written for a new domain: the one of its basin if it has only one, `domain_bifurcations.py:449-450`. -/
def leafValue (ref : ℕ → K) : List ℕ → Option K
  | [b] => some (ref b)
  | _ => none

/-- One domain of the level above, `domain_bifurcations.py:416-453`.  Without a parent the variable `parent_idx` is unbound or stale. -/
def addRow (ref : ℕ → K) (old : Level K) (rows : List (DomainRow K)) (d : Dom) : Option (List (DomainRow K)) :=
  if old.doms.any fun p => p.2.1 == d.2.1 then some rows
  else do
    let p ← parentOf rows d.1
    let rows' := rows.modify p fun r => { r with maxV := some old.value }
    some (rows' ++ [⟨d.1, old.value, leafValue ref d.1, d.2.2, some p⟩])

/-- The loop over the levels from low to high, `domain_bifurcations.py:406-453`. -/
def addLevels (ref : ℕ → K) : Level K → List (Level K) → List (DomainRow K) → Option (List (DomainRow K))
  | _, [], rows => some rows
  | old, new :: ls, rows => do
    let rows' ← new.doms.foldlM (addRow ref old) rows
    addLevels ref new ls rows'

/-- `domain_bifurcations.py:387-462`; without any level `bifurcation_domains[0]` fails. -/
def organise (ref : ℕ → K) (minData : K) (levels : List (Level K)) : Option (List (DomainRow K)) :=
  match levels.reverse with
  | [] => none
  | l0 :: ls => addLevels ref l0 ls (l0.doms.map fun d => ⟨d.1, minData, none, d.2.2, none⟩)

/-- `find_domain_bifurcations`, `domain_bifurcations.py:145-462`: the rows and `unique_domains`. -/
def domainRows (fuel nb : ℕ) (dim : K → ℕ → Option ℕ) (ref : ℕ → K) (minData : K) (conns : List (Conn K)) :
    Option (List (DomainRow K) × ℕ) := do
  let st ← bifLoop fuel nb dim conns (connValues conns) BifState.init
  let rows ← organise ref minData st.levels
  some (rows, st.unique)

/-- The dimensionality in the code: the groups of the solids `data >= value` for all values so far, at the voxel of the maximum of the
first basin, `domain_bifurcations.py:317-356`. -/
def levelDim (fuel : ℕ) (root : K → K) (tol : K) (s : Shape) (nbrs : List Coord) (vac : ℕ → Bool) (data : ℕ → K) (maxima : ℕ → ℕ)
    (conns : List (Conn K)) (value : K) (b : ℕ) : Option ℕ := do
  let solids := ((connValues conns).filter fun v => decide (value ≤ v)).map fun v => fun w => decide (v ≤ data w)
  let g ← groupsRun fuel root tol s nbrs vac (fun _ => false) solids GroupState.init
  domainDim fuel g (maxima b)

end BaderKit
