import Verif.Model.Merge
import Verif.Model.Vec
import Verif.Model.Index
import Mathlib.Data.List.MinMax
/-!
# Dimensionality of the electride and combination of the spin channels

Model of `src/baderkit/core/badelf/badelf.py:611-809` and `badelf_spin.py:141-288`.
-/
namespace BaderKit

/-- `transformations`, `badelf.py:670-681`, in units of the cell. -/
def dimCells : List Coord :=
  [(0, 0, 0), (1, 0, 0), (0, 1, 0), (0, 0, 1), (1, 1, 0), (1, 0, 1), (0, 1, 1), (1, 1, 1)]

/-- `connections`, `badelf.py:685-702`. -/
def dimPairs : List (ℕ × ℕ) :=
  [(0, 1), (0, 2), (0, 3), (0, 4), (0, 5), (0, 6), (3, 1), (3, 2), (1, 2), (0, 7), (1, 6), (2, 5), (3, 4)]

/-- `trans + coord` for transformation number `i`, `badelf.py:681,720`. -/
def imageOf (s : Shape) (c : Coord) (i : ℕ) : Coord :=
  let t := dimCells.getD i (0, 0, 0)
  (t.1 * s.nx + c.1, t.2.1 * s.ny + c.2.1, t.2.2 * s.nz + c.2.2)

/-- `connections_num`, `badelf.py:716-732`; `lbl` are the labels of the supercell. -/
def connCount (s : Shape) (lbl : Coord → ℕ) (c : Coord) : ℕ :=
  dimPairs.countP fun p => lbl (imageOf s c p.1) = lbl (imageOf s c p.2)

/-- The ladder of `badelf.py:733-740`; `none` when nothing is appended. -/
def dimOfCount (n : ℕ) : Option ℕ :=
  if n = 0 then some 0
  else if n = 1 then some 1
  else if 1 < n ∧ n ≤ 4 then some 2
  else if 5 < n ∧ n ≤ 13 then some 3
  else none

/-- `_get_ELF_dimensionality`, `badelf.py:611-742`, from the mask on; `feats` are the rounded voxel indices of the
electride sites; `none` is an exception: an index outside the array or `max` of an empty list. -/
def elfDim (s : Shape) (mask : Coord → Bool) (feats : List Coord) (lbl : Coord → ℕ) : Option ℕ :=
  if (tripleLoop s).all fun c => !mask c then some 0
  else if feats.any fun c => decide (c.1 ≥ s.nx ∨ c.2.1 ≥ s.ny ∨ c.2.2 ≥ s.nz) then none
  else
    let inside := feats.filter fun c => mask c
    if inside = [] then some 0
    else (inside.filterMap fun c => dimOfCount (connCount s lbl c)).max?

section field
variable {K : Type*} [Field K] [LinearOrder K] [FloorRing K]

/-- `np.round(frac_to_grid(...)).astype(int)`, `badelf.py:653-656`. -/
def featIndex (s : Shape) (f : V3 K) : Coord :=
  (roundHE (f.1 * (s.nx : K)), roundHE (f.2.1 * (s.ny : K)), roundHE (f.2.2 * (s.nz : K)))

/-- One refinement step, `badelf.py:792-804`. -/
def bisectStep (dim : K → ℕ) (d : ℕ) (st : K × Bool) (a : K) : K × Bool :=
  if dim st.1 > d then (st.1 + a, st.2)
  else if dim st.1 < d then (st.1 - a, st.2)
  else (st.1 - a, true)

/-- `amounts_to_change`, `badelf.py:782-786`. -/
def bisectAmounts : List K := (List.range 15).map fun (i : ℕ) => 1 / 2 ^ (i + 1 + 1)

/-- The refinement of one dimension, `badelf.py:787-804`: the guess and whether the dimension was met. -/
def bisectDim (dim : K → ℕ) (d : ℕ) : K × Bool := (bisectAmounts).foldl (bisectStep dim d) (1 / 2, false)

/-- `_get_electride_dimensionality`, `badelf.py:744-809`, for a dimensionality function without exceptions; the
assignments made when there are no electrides are overwritten at the end. -/
def electrideDims (dim : K → ℕ) : List (ℕ × K) :=
  (dim 0, 0) :: ((List.range (dim 0)).reverse.filterMap fun d =>
    let r := bisectDim dim d
    if r.2 then some (d, roundDec 4 r.1) else none)

/-- `all_electride_dims` and `all_electride_dim_cutoffs`, `badelf.py:560-594`: the getters return `None` only for
the marker `-1`, which `_get_electride_dimensionality` sets and then overwrites (`badelf.py:754-756,808-809`). -/
def allElectrideDims (_nelectrides : ℕ) (dim : K → ℕ) : Option (List (ℕ × K)) := some (electrideDims dim)

/-! ### Spin channels -/

/-- `structure_up.index(site)` for a site that is in the structure, `badelf_spin.py:280-281`; `eqv` is the equality
of sites. -/
def siteIndex {σ : Type*} (eqv : σ → σ → Bool) (up : List σ) (x : σ) : Option ℕ := up.findIdx? fun y => eqv y x

/-- The loop over the spin-down sites for one list of values, `badelf_spin.py:278-286`. -/
def spinMerge {σ : Type*} (eqv : σ → σ → Bool) (up : List σ) (vals : List K) (down : List (σ × K)) : List K :=
  down.foldl (fun (acc : List K) (xc : σ × K) =>
    match siteIndex eqv up xc.1 with
    | some i => acc.set i (acc.getD i 0 + xc.2)
    | none => acc ++ [xc.2]) vals

/-- `_get_charges_and_volumes`, `badelf_spin.py:260-288`, before the rounding of the getters. -/
def spinCharges {σ : Type*} (eqv : σ → σ → Bool) (up down : List σ) (cu cd vu vd : List K) : List K × List K :=
  (spinMerge eqv up cu (down.zip cd), (spinMerge eqv up vu (down.zip vd)).map fun x => x / 2)

/-- `labeled_structure`, `badelf_spin.py:154-184`: atoms, all spin-up features, the spin-down features that are not
in the spin-up structure; the renaming of species is recorded as the channel (`none` for both). -/
def spinLabeled {σ : Type*} (eqv : σ → σ → Bool) (atoms featUp featDown : List σ) : List (σ × Option Bool) :=
  (atoms.map fun a => (a, none)) ++
  (featUp.map fun x => (x, if (atoms ++ featDown).any fun y => eqv y x then none else some true)) ++
  ((featDown.filter fun x => !((atoms ++ featUp).any fun y => eqv y x)).map fun x => (x, some false))

/-- `electride_structure`, `badelf_spin.py:200-215`: the atoms and the bare sites of the labelled structure. -/
def spinElectride {σ : Type*} (eqv : σ → σ → Bool) (bare : σ → Bool) (atoms featUp featDown : List σ) : List σ :=
  atoms ++ ((spinLabeled eqv atoms featUp featDown).filter fun x => bare x.1).map fun x => x.1

end field
end BaderKit
