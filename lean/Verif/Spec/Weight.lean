import Verif.Spec.InitLabels
import Verif.Model.Weight
import Mathlib.Algebra.BigOperators.Group.Finset.Basic
/-!
# Independent specification for the weight method
-/
namespace BaderKit
variable {K : Type*} [Field K] [LinearOrder K]

/-- What the weight method is given: facet weights and distances are positive, steps fit the grid, the
mask marks the local maxima (of the 26-neighbour list `all`), the region outside the vacuum is closed
upwards for both neighbour lists, the initial labels send each maximum to the representative of its
group, `maxIdx` lists the representatives in increasing order, and `sorted` lists the voxels outside the
vacuum once each, from high to low. -/
structure WeightInput (W : WeightIn K) (vac : ℕ → Bool) (labels0 : ℕ → ℤ) (sorted : List ℕ) :
    Prop where
  vor_fits : ∀ t ∈ W.vor, StepFits W.s t.1
  vor_pos : ∀ t ∈ W.vor, 0 < t.2
  all_fits : ∀ t ∈ W.all, StepFits W.s t.1
  all_pos : ∀ t ∈ W.all, 0 < t.2
  maxima : MarksMaxima W.s W.ref (W.all.map Prod.fst) vac W.mask
  up_vor : UpClosed W.s W.ref (W.vor.map Prod.fst) vac
  up_all : UpClosed W.s W.ref (W.all.map Prod.fst) vac
  other : ∀ v, W.mask v = false → labels0 v = -1
  rep : ∀ v, W.mask v = true → ∃ r : ℕ, labels0 v = r ∧ W.mask r = true ∧ labels0 r = r
  idx_sorted : W.maxIdx.Pairwise (· < ·)
  idx_mem : ∀ r : ℕ, r ∈ W.maxIdx ↔ ∃ v, W.mask v = true ∧ labels0 v = r
  sorted_nodup : sorted.Nodup
  sorted_mem : ∀ v, v ∈ sorted ↔ v < W.s.size ∧ vac v = false
  sorted_desc : sorted.Pairwise (fun a b => W.ref b ≤ W.ref a)

/-- A share of every voxel outside the vacuum among `B` basins: not negative and adding up to one. -/
def IsShare (N B : ℕ) (vac : ℕ → Bool) (w : ℕ → ℕ → K) : Prop :=
  ∀ v < N, vac v = false → (∀ b, 0 ≤ w v b) ∧ (∀ b, B ≤ b → w v b = 0) ∧
    ∑ b ∈ Finset.range B, w v b = 1

/-- The higher facet neighbours of a voxel with the flux towards them. -/
def fluxes (W : WeightIn K) (v : ℕ) : List (ℕ × K) :=
  (W.vor.map fun t => (nbr W.s v t.1, (W.ref (nbr W.s v t.1) - W.ref v) * t.2)).filter
    fun e => decide (W.ref v < W.ref e.1)

/-- The flux equation of the weight method at voxel `v`: the share of `v` in basin `b` is the
flux-weighted mean of the shares of its higher neighbours. -/
def FluxEq (W : WeightIn K) (w : ℕ → ℕ → K) (v : ℕ) : Prop :=
  ∀ b, w v b = ((fluxes W v).map fun e => e.2 * w e.1 b).sum / ((fluxes W v).map Prod.snd).sum

/-- The share of voxel `v` in basin `b`, as seen from outside: the charge of basin `b` when the charge
density is one at `v` and zero elsewhere. -/
def shareOf (W : WeightIn K) (argsortW : List (ℕ × K) → List (ℕ × K)) (labels0 : ℕ → ℤ)
    (sorted : List ℕ) (v b : ℕ) : K :=
  (weightAssign W (fun u => if u = v then 1 else 0) argsortW labels0 sorted).charges b

end BaderKit
