import Verif.Model.Index
import Mathlib.Data.Finset.Sort
import Mathlib.Data.Finset.Prod
import Mathlib.Order.Interval.Finset.Nat
import Mathlib.Data.Int.Interval
/-!
# Labels of connected regions

Model of `Grid.label`, `toolkit/grid.py:982-1076`.  Arrays are functions on coordinates of which only the values inside
the shape are used.  `scipy.ndimage.label` is the parameter `lab` (shape, array); its second result, the number of labels,
is not used by the code.
-/
namespace BaderKit

/-- The coordinates of an array. For `grid.py:1025-1026`. -/
def boxOf (s : Shape) : Finset Coord :=
  Finset.Ico (0 : ℤ) s.nx ×ˢ Finset.Ico (0 : ℤ) s.ny ×ˢ Finset.Ico (0 : ℤ) s.nz

/-- `np.unique` of an array. For `grid.py:1019-1034`. -/
def uniqueVals (s : Shape) (f : Coord → ℕ) : List ℕ := ((boxOf s).image f).sort (· ≤ ·)

/-- The shape after `np.pad(x, 1, "wrap")`, `grid.py:1012,1016`. -/
def padShape (s : Shape) : Shape := ⟨s.nx + 2, s.ny + 2, s.nz + 2⟩

/-- `np.pad(x, 1, "wrap")`, `grid.py:1012,1016`. -/
def padWrap (s : Shape) (f : Coord → ℕ) (c : Coord) : ℕ :=
  f ((c.1 - 1) % s.nx, (c.2.1 - 1) % s.ny, (c.2.2 - 1) % s.nz)

/-- `list(np.unique(padded_featured_grid[relabeled_array == i]))`, `grid.py:1025-1026`. -/
def featuresOf (s : Shape) (P R : Coord → ℕ) (i : ℕ) : List ℕ :=
  (((boxOf (padShape s)).filter fun c => R c = i).image P).sort (· ≤ ·)

/-- `grid.py:1030-1034`: every feature is connected with all others in the list. An index beyond the list is an error. -/
def addFeatures (conns : List (Finset ℕ)) (fs : List ℕ) : Option (List (Finset ℕ)) :=
  fs.foldlM (fun conns j =>
    match conns[j]? with
    | none => none
    | some c => some (conns.set j (c ∪ (fs.filter fun k => k ≠ j).toFinset))) conns

/-- `grid.py:1019-1034`. The entries `list(np.unique(..))` are kept as sets. -/
def featureConns (s : Shape) (k : ℕ) (P R : Coord → ℕ) : Option (List (Finset ℕ)) :=
  (uniqueVals (padShape s) R).foldlM (fun conns i => addFeatures conns (featuresOf s P R i)) (List.replicate k ∅)

/-- The loop `while connections != new_connections`, `grid.py:1049-1056`. All members are indices of `conns` since they were
used as indices before. -/
def closeConns (conns : List (Finset ℕ)) : ℕ → Finset ℕ → Finset ℕ → Finset ℕ → Option (Finset ℕ × Finset ℕ)
  | 0, _, _, _ => none
  | fuel + 1, cur, new, already =>
    if cur = new then some (new, already)
    else closeConns conns fuel new (new ∪ new.biUnion fun j => conns.getD j ∅) (already ∪ new)

/-- The loop over all connections, `grid.py:1036-1060`: the features already connected and the list of groups. -/
def reduceConns (fuel : ℕ) (conns : List (Finset ℕ)) : Option (Finset ℕ × List (List ℕ)) :=
  (List.range conns.length).foldlM (fun (x : Finset ℕ × List (List ℕ)) i =>
    if i ∈ x.1 then some x
    else do
      let (grp, already) ← closeConns conns fuel ∅ (conns.getD i ∅) x.1
      some (already, if grp = ∅ then x.2 else x.2 ++ [grp.sort (· ≤ ·)])) (∅, [])

/-- `np.where(labeled_array == old, new, labeled_array)`. For `grid.py:1062-1070`. -/
def replaceVal (f : Coord → ℕ) (old new : ℕ) (c : Coord) : ℕ := if f c = old then new else f c

/-- Labels of a group become the lowest, `grid.py:1062-1070`. -/
def mergeGroups (groups : List (List ℕ)) (f : Coord → ℕ) : Coord → ℕ :=
  groups.foldl (fun f g => match g with
    | [] => f
    | low :: rest => rest.foldl (fun f h => replaceVal f h low) f) f

/-- Labels are numbered from 0, `grid.py:1072-1074`. -/
def renumber (s : Shape) (f : Coord → ℕ) : Coord → ℕ :=
  (uniqueVals s f).zipIdx.foldl (fun f p => replaceVal f p.1 p.2) f

/-- `grid.py:1018-1076`, common to both branches. -/
def mergeLabels (lab : Shape → (Coord → ℕ) → Coord → ℕ) (s : Shape) (L : Coord → ℕ) : Option (Coord → ℕ) := do
  let P := padWrap s L
  let R := lab (padShape s) P
  let conns ← featureConns s (uniqueVals s L).length P R
  let (_, groups) ← reduceConns (conns.length + 2) conns
  some (renumber s (mergeGroups groups L))

/-- `Grid.label` with a structure, `grid.py:1003-1013`. -/
def gridLabel (lab : Shape → (Coord → ℕ) → Coord → ℕ) (s : Shape) (input : Coord → ℕ) : Option (Coord → ℕ) :=
  let L := lab s input
  if (uniqueVals s L).length = 1 then some L else mergeLabels lab s L

/-- `Grid.label` with `structure=None`, `grid.py:1014-1017`. -/
def gridLabelNone (lab : Shape → (Coord → ℕ) → Coord → ℕ) (s : Shape) (input : Coord → ℕ) : Option (Coord → ℕ) :=
  mergeLabels lab s (lab s input)

end BaderKit
