import Verif.Model.BifTree
import Mathlib.Algebra.Order.Field.Basic
/-!
# The picture of a bifurcation graph

Model of `BifurcationGraph.get_plot`, `src/baderkit/core/labelers/bifurcation_graph/graph.py:678-856`: the heights of the nodes, the connecting
lines, the marks and boxes, the legend and the range of the horizontal axis.  The functions of plotly, colours, hover texts and the title are left
out.  An exception, and a mean of no heights (not a number, `graph.py:706`), is `none`.  `rnd` is `round(x, 4)`.
-/
namespace BaderKit

variable {K : Type} [Field K] [LinearOrder K]

/-- `y_counter` and `y_positions`, `graph.py:709-710`. -/
structure YState (K : Type) where
  next : ℕ
  y : ℕ → Option K

/-- `np.mean` of a list that is not empty. For `graph.py:694-706`. -/
def meanY (l : List K) : K := l.sum / (l.length : K)

/-- `assign_y_positions`, `graph.py:694-706`. -/
def assignY (g : BGraph K) : ℕ → YState K → ℕ → Option (YState K)
  | 0, _, _ => none
  | fuel + 1, st, k =>
    if (g.node k).red = false then some ⟨st.next + 1, Function.update st.y k (some (st.next : K))⟩
    else do
      let st1 ← (g.node k).children.foldlM (fun s c => assignY g fuel s c) st
      let ys ← (g.node k).children.mapM st1.y
      if ys = [] then none else some { st1 with y := Function.update st1.y k (some (meanY ys)) }

/-- All roots, `graph.py:709-715`. -/
def assignAll (g : BGraph K) (fuel : ℕ) : Option (YState K) := g.roots.foldlM (fun s c => assignY g fuel s c) ⟨0, fun _ => none⟩

/-- `Yn`, `graph.py:718-726`; the lowest of no heights is an error. -/
def normY : List K → Option (List K)
  | [] => none
  | a :: t =>
    let l := (a :: t).map (fun y => y - t.foldl min a)
    let top := (t.map (fun y => y - t.foldl min a)).foldl max (a - t.foldl min a)
    some (if 0 < top then l.map (fun y => y / top * 2) else l)

/-- One piece of a connecting line, `graph.py:749-755`. -/
structure Segment (K : Type) where
  x0 : K
  y0 : K
  x1 : K
  y1 : K
deriving DecidableEq

/-- The drawing of a node: a circle at a point or a box, with the name in the legend and whether the name is listed, `graph.py:779-829`. -/
inductive Shown (K : Type)
  | circle (key : ℕ) (x y : K) (name : String) (listed : Bool)
  | box (key : ℕ) (x0 x1 y0 y1 : K) (name : String) (listed : Bool)
deriving DecidableEq

/-- The figure. For `graph.py:678-856`. -/
structure GraphFig (K : Type) where
  lines : List (Segment K)
  shapes : List (Shown K)
  axis : K × K
deriving DecidableEq

/-- `Xn[indices.index(key)]` and the like, `graph.py:744-747`. -/
def atKey (g : BGraph K) (l : List K) (k : ℕ) : Option K := l[g.nodes.idxOf k]?

/-- The two pieces for a child, `graph.py:742-755`. -/
def childLines (g : BGraph K) (xs ys : List K) (k c : ℕ) : Option (List (Segment K)) := do
  let px ← atKey g xs k
  let py ← atKey g ys k
  let cx ← atKey g xs c
  let cy ← atKey g ys c
  some [⟨px, py, px, cy⟩, ⟨px, cy, cx, cy⟩]

/-- All pieces, `graph.py:738-755`. -/
def allLines (g : BGraph K) (xs ys : List K) : Option (List (Segment K)) := do
  let l ← (g.nodes.filter (fun k => (g.node k).red)).mapM (fun k => (g.node k).children.mapM (childLines g xs ys k))
  some l.flatten.flatten

/-- One node of the loop over the nodes, `graph.py:779-829`: the names seen so far and the shapes.  A node without a subtype has no `.value`. -/
def shapeStep (g : BGraph K) (half : K) (s : List String × List (Shown K)) (x : ℕ × K × K × K) : Option (List String × List (Shown K)) :=
  if (g.node x.1).red = true then
    match (g.node x.1).subtype with
    | none => none
    | some name => some (if name ∈ s.1 then s.1 else s.1 ++ [name], s.2 ++ [.circle x.1 x.2.1 x.2.2.2 name (decide (name ∉ s.1))])
  else
    let name := (g.node x.1).feature
    some (if name ∈ s.1 then s.1 else s.1 ++ [name],
      s.2 ++ [.box x.1 x.2.1 (max x.2.2.1 (x.2.1 + 1 / 100)) (x.2.2.2 - half) (x.2.2.2 + half) name (decide (name ∉ s.1))])

/-- The range of the horizontal axis, `graph.py:835-848`. -/
def axisRange (xs xs1 : List K) : Option (K × K) :=
  match xs, xs1 with
  | a :: t, b :: u => let lo := t.foldl min a
                      let hi := u.foldl max b
                      some (lo - (hi - lo) * (5 / 100), hi + (hi - lo) * (5 / 100))
  | _, _ => none

/-- `get_plot`, `graph.py:678-856`. -/
def graphFig (rnd : K → K) (g : BGraph K) (fuel : ℕ) : Option (GraphFig K) := do
  let st ← assignAll g fuel
  let raw ← g.nodes.mapM st.y
  let ys ← normY raw
  if g.nodes.filter (fun k => !(g.node k).red) = [] then none
  else
    let division := 2 / ((g.nodes.filter (fun k => !(g.node k).red)).length : K)
    let xs := g.nodes.map (fun k => rnd (g.node k).minV)
    let xs1 := g.nodes.map (fun k => rnd (g.node k).maxV)
    let lines ← allLines g xs ys
    let s ← (g.nodes.zip (xs.zip (xs1.zip ys))).foldlM (shapeStep g (division / 3)) ([], [])
    let axis ← axisRange xs xs1
    some ⟨lines, s.2, axis⟩

end BaderKit
