import Verif.Model.Merge
import Verif.Model.Vec
/-!
# Point, ring or cage

Model of `get_pt_ring_cage`, `src/baderkit/core/labelers/bifurcation_graph/graph_numba/bifurcation_base.py:18-74`, and of its use in
`make_irreducible`, `src/baderkit/core/labelers/bifurcation_graph/nodes.py:306-313`.

Simplifications.
* Coordinates are exact.
* `np.linalg.svd` is a parameter: it gives the largest and the smallest singular value of the rows.
* Division by zero in compiled code is an exception.
-/
namespace BaderKit
variable {K : Type*} [Field K] [LinearOrder K] [FloorRing K]

/-- The result of `get_pt_ring_cage` and the subtype chosen for it, `nodes.py:308-313`. -/
inductive SetKind where
  | point | ring | cage
  deriving DecidableEq

/-- The image nearest to the reference, `bifurcation_base.py:53-55`. -/
def unwrapAt (ref p : V3 K) : V3 K :=
  (p.1 - (roundHE (p.1 - ref.1) : K), p.2.1 - (roundHE (p.2.1 - ref.2.1) : K), p.2.2 - (roundHE (p.2.2 - ref.2.2) : K))

/-- The loop over the points, `bifurcation_base.py:33-55`: the first one is the reference. -/
def unwrapSet (ps : List (V3 K)) : List (V3 K) :=
  match ps with
  | [] => []
  | p :: _ => ps.map (unwrapAt p)

/-- The average of the points, `bifurcation_base.py:58-61`. -/
def avgV (ps : List (V3 K)) : V3 K :=
  let t := ps.foldl addV (0, 0, 0)
  (t.1 / (ps.length : K), t.2.1 / (ps.length : K), t.2.2 / (ps.length : K))

/-- `get_pt_ring_cage`, `bifurcation_base.py:18-74`; `none` is a division by zero. -/
def ptRingCage (svd : List (V3 K) → K × K) (ps : List (V3 K)) : Option SetKind :=
  if ps.length < 3 then some .point
  else if ps.length = 3 then some .ring
  else
    let u := unwrapSet ps
    let pts := u.map fun p => subV p (avgV u)
    let s := svd pts
    if s.1 = 0 then none
    else if s.2 / s.1 < 1 / 10 ^ 3 then some .ring
    else some .cage

end BaderKit
