import Verif.Model.BadelfDim
/-!
# The getters of the electride dimensionality

Model of `src/baderkit/core/badelf/badelf.py:560-609,744-809` with the exceptions of `_get_ELF_dimensionality`, and of
`badelf_spin.py:243-258`.
-/
namespace BaderKit

variable {K : Type} [Field K] [LinearOrder K] [FloorRing K]

/-- What the calculation reads from a `Badelf`: the shape and values of the reference grid, the labels of the voxels,
the number of atoms and the fractional coordinates of the electride sites (`electride_structure` behind the atoms);
`label` is `scipy.ndimage.label` on the doubled mask.  Charge and reference grid have one shape. -/
structure DimInput (K : Type) where
  s : Shape
  ref : Coord → K
  atomLabels : Coord → ℕ
  nAtoms : ℕ
  sites : List (V3 K)
  label : (Coord → Bool) → Coord → ℕ

/-- `electride_mask`, `badelf.py:763-769`. -/
def DimInput.emask (D : DimInput K) (v : Coord) : Bool :=
  decide (D.nAtoms ≤ D.atomLabels v ∧ D.atomLabels v < D.nAtoms + D.sites.length)

/-- `electride_mask & (self.reference_grid.total >= cutoff)`, `badelf.py:646`. -/
def DimInput.above (D : DimInput K) (cutoff : K) (v : Coord) : Bool :=
  D.emask v && decide (D.ref v ≥ cutoff)

/-- `_get_ELF_dimensionality(electride_mask, cutoff)`, `badelf.py:611-742`; `none` is an exception. -/
def DimInput.dimAt (D : DimInput K) (cutoff : K) : Option ℕ :=
  elfDim D.s (D.above cutoff) (D.sites.map (featIndex D.s)) (D.label (D.above cutoff))

/-- One step of the refinement with exceptions, `badelf.py:792-804`. -/
def bisectStepE (dim : K → Option ℕ) (d : ℕ) (st : K × Bool) (a : K) : Option (K × Bool) :=
  match dim st.1 with
  | none => none
  | some n =>
    if n > d then some (st.1 + a, st.2)
    else if n < d then some (st.1 - a, st.2)
    else some (st.1 - a, true)

/-- The loop over the dimensions, `badelf.py:787-807`. -/
def refineDims (dim : K → Option ℕ) : List ℕ → Option (List (ℕ × K))
  | [] => some []
  | d :: ds =>
    match bisectAmounts.foldlM (bisectStepE dim d) (1 / 2, false) with
    | none => none
    | some r =>
      match refineDims dim ds with
      | none => none
      | some L => some (if r.2 then (d, roundDec 4 r.1) :: L else L)

/-- `_get_electride_dimensionality` from the mask on, `badelf.py:771-807`. -/
def dimTable (dim : K → Option ℕ) : Option (List (ℕ × K)) :=
  match dim 0 with
  | none => none
  | some h =>
    match refineDims dim (List.range h).reverse with
    | none => none
    | some L => some ((h, 0) :: L)

/-- The three fields, `badelf.py:156-158`: the outer `none` is `None`, the inner `none` is the marker `-1`. -/
structure DimFields (K : Type) where
  dims : Option (Option (List ℕ)) := none
  cuts : Option (Option (List K)) := none
  dim : Option ℕ := none

/-- `_get_electride_dimensionality`, `badelf.py:744-809`: the fields after it and whether it raised.  The early exit
without electrides has no `return`. -/
def DimFields.compute (D : DimInput K) (st : DimFields K) : DimFields K × Bool :=
  let st1 := if D.sites.length = 0 then { st with dims := some none, cuts := some none } else st
  match dimTable D.dimAt with
  | none => (st1, true)
  | some L => ({ st1 with dims := some (some (L.map Prod.fst)), cuts := some (some (L.map Prod.snd)) }, false)

/-- `all_electride_dims`, `badelf.py:560-577`; the answer `none` is an exception, `some none` is `None`. -/
def DimFields.readDims (D : DimInput K) (st : DimFields K) : DimFields K × Option (Option (List ℕ)) :=
  match st.dims with
  | some d => (st, some d)
  | none =>
    let r := st.compute D
    if r.2 then (r.1, none) else (r.1, some r.1.dims.join)

/-- `all_electride_dim_cutoffs`, `badelf.py:579-594`. -/
def DimFields.readCuts (D : DimInput K) (st : DimFields K) : DimFields K × Option (Option (List K)) :=
  match st.cuts with
  | some c => (st, some c)
  | none =>
    let r := st.compute D
    if r.2 then (r.1, none) else (r.1, some r.1.cuts.join)

/-- `electride_dimensionality`, `badelf.py:596-609`; the first entry of an empty list raises. -/
def DimFields.readDim (D : DimInput K) (st : DimFields K) : DimFields K × Option (Option ℕ) :=
  match st.dim with
  | some d => (st, some (some d))
  | none =>
    match st.readDims D with
    | (st1, none) => (st1, none)
    | (st1, some none) => (st1, some none)
    | (st1, some (some [])) => (st1, none)
    | (st1, some (some (d :: _))) => ({ st1 with dim := some d }, some (some d))

/-- The three getters. -/
inductive DimRead where
  | dims
  | cuts
  | dim
deriving DecidableEq

/-- What a getter hands out. -/
inductive DimAnswer (K : Type) where
  | raised
  | nothing
  | dims (l : List ℕ)
  | cuts (l : List K)
  | dim (d : ℕ)
deriving DecidableEq

/-- An outcome as an answer. -/
def DimAnswer.of {α : Type} (f : α → DimAnswer K) : Option (Option α) → DimAnswer K
  | none => .raised
  | some none => .nothing
  | some (some a) => f a

/-- One read. -/
def DimFields.read (D : DimInput K) (st : DimFields K) : DimRead → DimFields K × DimAnswer K
  | .dims => ((st.readDims D).1, DimAnswer.of .dims (st.readDims D).2)
  | .cuts => ((st.readCuts D).1, DimAnswer.of .cuts (st.readCuts D).2)
  | .dim => ((st.readDim D).1, DimAnswer.of .dim (st.readDim D).2)

/-- The answers of a sequence of reads. -/
def DimFields.session (D : DimInput K) : DimFields K → List DimRead → List (DimAnswer K)
  | _, [] => []
  | st, r :: rs => (st.read D r).2 :: DimFields.session D (st.read D r).1 rs

/-- `SpinBadelf.electride_dimensionality`, `badelf_spin.py:243-258`: `max` of two numbers; `max` with `None` raises. -/
def spinDim (up down : DimAnswer K) : DimAnswer K :=
  match up, down with
  | .dim a, .dim b => .dim (max a b)
  | _, _ => .raised

end BaderKit
