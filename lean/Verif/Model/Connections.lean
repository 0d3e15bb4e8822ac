import Verif.Model.Saddle
import Verif.Model.Voxels
import Verif.Model.DomainTree
/-!
# The connections between basins

Model of `find_domain_connections`,
`src/baderkit/core/labelers/bifurcation_graph/graph_numba/domain_bifurcations.py:13-143`, and of the part of `from_labeler` that adds the basin
maxima, `bifurcation_graph/graph.py:390-434`.

Simplifications: the three lists of points and values are one list of connections; `new_connections` is indexed by the basin instead of its
number among the missing basins (`basin_map`, `uint16`, so at most 65536 missing basins).
-/
namespace BaderKit
variable {K : Type} [Field K] [LinearOrder K]

deriving instance DecidableEq for Conn

/-- `neigh_labels` and `neigh_vals`, `domain_bifurcations.py:57-69`. -/
def neighVals (s : Shape) (data : ℕ → K) (labels : ℕ → ℤ) (ts : List Coord) (v : ℕ) : List (ℤ × K) :=
  ts.filterMap fun t =>
    if labels (nbr s v t) = labels v ∨ labels (nbr s v t) = -1 then none
    else some (labels (nbr s v t), min (data v) (data (nbr s v t)))

/-- `unique_neigh_labels`, `domain_bifurcations.py:71-74`. -/
def uniqueLabels (l : List (ℤ × K)) : List ℤ :=
  l.foldl (fun acc x => if acc.contains x.1 then acc else acc ++ [x.1]) []

/-- `best_val`, `domain_bifurcations.py:77-83`. -/
def bestVal (l : List (ℤ × K)) (u : ℤ) : K :=
  l.foldl (fun best x => if x.1 ≠ u then best else if best < x.2 then x.2 else best) (-10 ^ 300)

/-- The connections added at one voxel of the mask, `domain_bifurcations.py:44-87`. -/
def voxelConns (s : Shape) (data : ℕ → K) (labels : ℕ → ℤ) (ts : List Coord) (sad vac : ℕ → Bool) (v : ℕ) : List (Conn K) :=
  if !(sad v) || vac v then []
  else if labels v = -1 then []
  else
    let l := neighVals s data labels ts v
    (uniqueLabels l).map fun u => ⟨(min u (labels v)).toNat, (max u (labels v)).toNat, bestVal l u⟩

/-- The first loop over the voxels, `domain_bifurcations.py:40-87`. -/
def firstConns (s : Shape) (data : ℕ → K) (labels : ℕ → ℤ) (ts : List Coord) (sad vac : ℕ → Bool) : List (Conn K) :=
  (List.range s.size).flatMap (voxelConns s data labels ts sad vac)

/-- `found_mask`, `domain_bifurcations.py:35,89-90`: both labels of every connection are marked. -/
def foundMask (conns : List (Conn K)) (b : ℕ) : Bool := conns.any fun c => c.i == b || c.j == b

/-- One neighbour of an edge voxel of a missing basin, `domain_bifurcations.py:117-127`. -/
def missNbr (s : Shape) (data : ℕ → K) (labels : ℕ → ℤ) (v : ℕ) (m : ℕ → ℕ → K) (t : Coord) : ℕ → ℕ → K :=
  let w := nbr s v t
  if labels w = labels v ∨ labels w = -1 then m
  else if m (labels v).toNat (labels w).toNat < min (data w) (data v) then
    Function.update m (labels v).toNat (Function.update (m (labels v).toNat) (labels w).toNat (min (data w) (data v)))
  else m

/-- One voxel of the second loop, `domain_bifurcations.py:104-127`. -/
def missVoxel (s : Shape) (data : ℕ → K) (labels : ℕ → ℤ) (ts : List Coord) (edge vac : ℕ → Bool) (found : ℕ → Bool) (m : ℕ → ℕ → K) (v : ℕ) :
    ℕ → ℕ → K :=
  if !(edge v) || vac v then m
  else if labels v = -1 then m
  else if found (labels v).toNat then m
  else ts.foldl (missNbr s data labels v) m

/-- `new_connections`, `domain_bifurcations.py:94-127`. -/
def missTable (s : Shape) (data : ℕ → K) (labels : ℕ → ℤ) (ts : List Coord) (edge vac : ℕ → Bool) (found : ℕ → Bool) : ℕ → ℕ → K :=
  (List.range s.size).foldl (missVoxel s data labels ts edge vac found) fun _ _ => 0

/-- The connections of the missing basins, `domain_bifurcations.py:92-137`. -/
def missConns (s : Shape) (data : ℕ → K) (labels : ℕ → ℤ) (ts : List Coord) (edge vac : ℕ → Bool) (nb : ℕ) (found : ℕ → Bool) : List (Conn K) :=
  ((List.range nb).filter fun b => !(found b)).flatMap fun b =>
    (List.range nb).filterMap fun c =>
      let val := missTable s data labels ts edge vac found b c
      if val = 0 then none else some ⟨min c b, max c b, val⟩

/-- `find_domain_connections`, `domain_bifurcations.py:13-143`. -/
def domainConns (s : Shape) (data : ℕ → K) (labels : ℕ → ℤ) (ts : List Coord) (sad edge vac : ℕ → Bool) (nb : ℕ) : List (Conn K) :=
  let l := firstConns s data labels ts sad vac
  l ++ missConns s data labels ts edge vac nb (foundMask l)

/-- The connections used for the graph: those found, and each basin with itself at the value of its maximum, `graph.py:416-434`.
Simplification: `np.unique` sorts the rows and drops duplicates; the order does not matter for the rest. -/
def graphConns (s : Shape) (data : ℕ → K) (labels : ℕ → ℤ) (ts : List Coord) (sad edge vac : ℕ → Bool) (nb : ℕ) (ref : ℕ → K) : List (Conn K) :=
  domainConns s data labels ts sad edge vac nb ++ (List.range nb).map fun b => ⟨b, b, ref b⟩

end BaderKit
