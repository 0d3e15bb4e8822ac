import Verif.Model.ElfCharges
import Mathlib.Algebra.BigOperators.Group.Finset.Basic
import Mathlib.Algebra.BigOperators.Intervals
/-!
# How the charge of a feature should be divided

Only the data of the features is used.
-/
namespace BaderKit
variable {K : Type} [Field K]

/-- Unnormalised weight of a coordinated atom `a` at distance `d`. -/
def splitWeight (m : Splitting) (radii en : ℕ → K) (p : ℕ × K) : K :=
  match m with
  | .equal => 1
  | .pauling => en p.1
  | .dist => 1 / p.2
  | .weightedDist => radii p.1 / p.2
  | _ => 0

/-- The fraction of atom `a` among the coordinated atoms `ps` (with distances): its weights over all weights. -/
def idealShare (m : Splitting) (radii en : ℕ → K) (ps : List (ℕ × K)) (a : ℕ) : K :=
  ((ps.filter (fun p => decide (p.1 = a))).map (splitWeight m radii en)).sum / (ps.map (splitWeight m radii en)).sum

/-- Coordination used for a feature, with or without electrides. -/
def usedCoord (useE : Bool) (f : ElfFeature K) : List ℕ := if useE then f.coordE else f.coord
/-- Distances used for a feature, with or without electrides. -/
def usedDists (useE : Bool) (f : ElfFeature K) : List K := if useE then f.distsE else f.dists

/-- Fraction of a feature with coordinated atoms `cs` at distances `ds` given to atom `i`. -/
def coordinatedShare (m : Splitting) (radii en : ℕ → K) (cs : List ℕ) (ds : List K) (i : ℕ) : K :=
  match cs with
  | [a] => if i = a then 1 else 0
  | _ => idealShare m radii en (cs.zip ds) i

/-- Fraction of the `j`-th feature that site `i` should receive: an electride keeps everything as the next site after the atoms and the earlier
electrides; a feature with one coordinated atom gives everything to it; all others are divided by weight. -/
def idealFraction (m : Splitting) (useE : Bool) (radii en : ℕ → K) (atoms : ℕ) (fs : List (ElfFeature K)) (j i : ℕ) : K :=
  match fs[j]? with
  | none => 0
  | some f =>
    if useE = true ∧ f.bare = true then (if i = atoms + ((fs.take j).filter (fun f => f.bare)).length then 1 else 0)
    else coordinatedShare m radii en (usedCoord useE f) (usedDists useE f) i

end BaderKit
