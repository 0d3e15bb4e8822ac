import Verif.Model.FileTools
import Verif.Props.Commands
import Verif.Props.GridOps
/-!
# C101: summing and converting files
-/
set_option linter.unusedSectionVars false
namespace BaderKit

section filetools
variable {F G K : Type} [Field K] [CharZero K]

/-! ### Specification -/

/-- A file written in the format and read back has the same arrays. -/
def KeepsData (lib : GridLib F G) (arrays : G → List (String × Arr3 K)) (m : FileFormat) : Prop :=
  ∀ g f, lib.write m g = some f → ∃ g', readAs lib false m f = some g' ∧ arrays g' = arrays g

/-- `add` is the sum of `C60` and keeps the format of the first grid. -/
def AddsGrids (lib : GridLib F G) (arrays : G → List (String × Arr3 K)) (add : G → G → Option G) : Prop :=
  ∀ g h, (add g h).map arrays = linearAdd (arrays g) (arrays h) 1 ∧ ∀ s, add g h = some s → lib.source s = lib.source g

/-- Reading the total only leaves one array. -/
def TotalOnly (lib : GridLib F G) (arrays : G → List (String × Arr3 K)) : Prop :=
  ∀ f g, lib.readVasp true f = some g → (arrays g).map Prod.fst = ["total"]

/-- The arrays `c` are the sums of the arrays `a` and `b`, point by point. -/
def SumOf (a b c : List (String × Arr3 K)) : Prop :=
  a.map Prod.fst = b.map Prod.fst ∧ c.map Prod.fst = a.map Prod.fst ∧
  ∀ (m : ℕ) (h1 : m < a.length) (h2 : m < b.length) (h3 : m < c.length) (i j k : ℕ),
    (c[m].2.nx, c[m].2.ny, c[m].2.nz) = (a[m].2.nx, a[m].2.ny, a[m].2.nz) ∧ c[m].2.val i j k = a[m].2.val i j k + b[m].2.val i j k

/-! ### Theorems -/

/-- **C101.** `sum` writes one file; reading it back gives at every point the sum of what the two files give there, total and spin.  The format is
the one asked for, else that of the first file; no other file changes. -/
theorem C101_sum (lib : GridLib F G) (arrays : G → List (String × Arr3 K)) (shape : G → ℕ × ℕ × ℕ) (add : G → G → Option G)
    (hd : DetectsOwn lib) (ha : AddsGrids lib arrays add) (hk : ∀ m, KeepsData lib arrays m) (disk disk' : Disk F) (file1 file2 out : String)
    (inFmt outFmt : FmtArg) (h : sumCommand lib shape add disk file1 file2 out inFmt outFmt = some disk') :
    ∃ g1 g2 g : G, gridDynamic lib disk file1 inFmt false = some g1 ∧ gridDynamic lib disk file2 inFmt false = some g2 ∧
      gridDynamic lib disk' out .none false = some g ∧ SumOf (arrays g1) (arrays g2) (arrays g) ∧
      (∃ m f, disk' out = some f ∧ lib.detect f = some m ∧ (outFmt = .none → m = lib.source g1) ∧ (∀ n, outFmt = .member n → m = n)) ∧
      ∀ p, p ≠ out → disk' p = disk p := by
  unfold sumCommand at h
  rw [Option.bind_eq_some_iff] at h
  obtain ⟨g1, h1, h⟩ := h
  rw [Option.bind_eq_some_iff] at h
  obtain ⟨g2, h2, h⟩ := h
  split_ifs at h with hs
  rw [Option.bind_eq_some_iff] at h
  obtain ⟨s, hadd, h⟩ := h
  obtain ⟨m, f, hm1, hm2, _, hw, hr, _, ho⟩ := C96_write_read lib hd s out outFmt disk disk' false h
  obtain ⟨g, hg, hobs⟩ := hk m s f hw
  have hsum := (ha g1 g2).1
  rw [hadd, Option.map_some] at hsum
  have hC := C60_linear_add (arrays g1) (arrays g2) 1
  obtain ⟨hkeys, hval⟩ := hC.2 _ hsum.symm
  have hf : disk' out = some f := by
    unfold gridWrite at h
    rw [Option.bind_eq_some_iff] at h
    obtain ⟨m', hm', h⟩ := h
    rw [Option.map_eq_some_iff] at h
    obtain ⟨f', hf', rfl⟩ := h
    have : m' = m := by
      cases outFmt with
      | none => rw [hm1 rfl]; simpa using hm'.symm
      | member n => rw [hm2 n rfl]; simpa using hm'.symm
      | text t =>
        rename_i h3
        have := h3 t rfl
        simp only at hm'
        rw [this] at hm'
        simpa using hm'.symm
    subst this
    rw [Function.update_self, ← hf', hw]
  refine ⟨g1, g2, g, h1, h2, by rw [hr, hg], ⟨hC.1.mp (by rw [← hsum]; rfl), by rw [hobs]; exact hkeys, ?_⟩,
    ⟨m, f, hf, hd m s f hw, fun e => by rw [hm1 e, (ha g1 g2).2 s hadd], hm2⟩, ho⟩
  intro q q1 q2 q3 i j k
  have q3' : q < (arrays s).length := by rw [← hobs]; exact q3
  have := hval q q1 q2 q3'
  have e : (arrays g)[q] = (arrays s)[q] := by simp only [hobs]
  rw [e]
  exact ⟨this.1, by rw [this.2 i j k, one_mul]⟩

/-- **C101.** Files of different shape, or of which only one has spin, are refused: nothing is written. -/
theorem C101_sum_refused (lib : GridLib F G) (arrays : G → List (String × Arr3 K)) (shape : G → ℕ × ℕ × ℕ) (add : G → G → Option G)
    (ha : AddsGrids lib arrays add) (disk : Disk F) (file1 file2 out : String) (inFmt outFmt : FmtArg) (g1 g2 : G)
    (h1 : gridDynamic lib disk file1 inFmt false = some g1) (h2 : gridDynamic lib disk file2 inFmt false = some g2)
    (h : shape g1 ≠ shape g2 ∨ (arrays g1).map Prod.fst ≠ (arrays g2).map Prod.fst) :
    sumCommand lib shape add disk file1 file2 out inFmt outFmt = none := by
  unfold sumCommand
  rw [h1, h2]
  simp only [Option.bind_some]
  split_ifs with hs
  · have hne := h.resolve_left (fun e => e hs)
    have hsum := (ha g1 g2).1
    have : (linearAdd (arrays g1) (arrays g2) 1).isSome ≠ true := fun e => hne ((C60_linear_add _ _ 1).1.mp e)
    rw [← hsum] at this
    cases hadd : add g1 g2 with
    | none => rfl
    | some s => rw [hadd] at this; exact absurd rfl this
  · rfl

/-- **C101** (partial) A converted file has the arrays of the source, in the format asked for, and no other file changes.  Missing: sources in the
format of VASP, of which only the total is converted (`C101_convert_spin_lost`). -/
theorem C101_convert_partial (lib : GridLib F G) (arrays : G → List (String × Arr3 K)) (hd : DetectsOwn lib)
    (hk : ∀ m, KeepsData lib arrays m) (disk disk' : Disk F) (file out : String) (outFmt : FileFormat) (inFmt : FmtArg)
    (hm : ¬Chosen lib disk file inFmt .vasp) (h : convertCommand lib disk file out outFmt inFmt = some disk') :
    ∃ g g' : G, gridDynamic lib disk file inFmt false = some g ∧ gridDynamic lib disk' out (.member outFmt) false = some g' ∧
      gridDynamic lib disk' out .none false = some g' ∧ arrays g' = arrays g ∧ ∀ p, p ≠ out → disk' p = disk p := by
  unfold convertCommand at h
  rw [Option.bind_eq_some_iff] at h
  obtain ⟨g, hg, h⟩ := h
  obtain ⟨m, f, _, hm2, _, hw, hr, hr', ho⟩ := C96_write_read lib hd g out (.member outFmt) disk disk' false h
  obtain rfl := hm2 outFmt rfl
  obtain ⟨g', hg', hobs⟩ := hk m g f hw
  refine ⟨g, g', ?_, by rw [hr', hg'], by rw [hr, hg'], hobs, ho⟩
  obtain ⟨n, hn, f0, hf0, hread⟩ := (C96_read lib disk file inFmt true g).mp hg
  refine (C96_read lib disk file inFmt false g).mpr ⟨n, hn, f0, hf0, ?_⟩
  cases n with
  | vasp => exact absurd hn hm
  | cube => exact hread
  | hdf5 => exact hread

/-- **C101 (exception).** A file of VASP with spin is converted to one without: only the total is left. -/
theorem C101_convert_spin_lost (lib : GridLib F G) (arrays : G → List (String × Arr3 K)) (hd : DetectsOwn lib)
    (hk : ∀ m, KeepsData lib arrays m) (ht : TotalOnly lib arrays) (disk disk' : Disk F) (file out : String) (outFmt : FileFormat)
    (inFmt : FmtArg) (hm : Chosen lib disk file inFmt .vasp) (h : convertCommand lib disk file out outFmt inFmt = some disk') :
    ∃ g' : G, gridDynamic lib disk' out .none false = some g' ∧ (arrays g').map Prod.fst = ["total"] := by
  unfold convertCommand at h
  rw [Option.bind_eq_some_iff] at h
  obtain ⟨g, hg, h⟩ := h
  obtain ⟨m, f, _, _, _, hw, hr, _, ho⟩ := C96_write_read lib hd g out (.member outFmt) disk disk' false h
  obtain ⟨g', hg', hobs⟩ := hk m g f hw
  refine ⟨g', by rw [hr, hg'], ?_⟩
  rw [hobs]
  obtain ⟨n, hn, f0, hf0, hread⟩ := (C96_read lib disk file inFmt true g).mp hg
  have : n = .vasp := by
    cases inFmt with
    | none =>
      obtain ⟨f1, e1, e2⟩ := hn
      obtain ⟨f2, e3, e4⟩ := hm
      rw [e1, Option.some.injEq] at e3
      subst e3
      rw [e2] at e4
      simpa using e4
    | member q => exact hn.symm.trans hm
    | text t => exact absurd hn (fun e => e)
  subst this
  exact ht f0 g hread

end filetools

/-! ### A case -/

/-- A library of grids for examples: a file is its format and its arrays, here of one point. -/
def demoLib : GridLib (FileFormat × List (String × ℚ)) (FileFormat × List (String × ℚ)) where
  detect f := some f.1
  readVasp t f := if f.1 = .vasp then some (.vasp, if t then f.2.take 1 else f.2) else none
  readCube f := if f.1 = .cube then some f else none
  readHdf5 f := if f.1 = .hdf5 then some f else none
  source g := g.1
  write m g := some (m, g.2)
  polarized g := decide (2 ≤ g.2.length)
  split _ := none

/-- The arrays of the examples. -/
def demoArrays (g : FileFormat × List (String × ℚ)) : List (String × Arr3 ℚ) := g.2.map fun x => (x.1, ⟨1, 1, 1, fun _ _ _ => x.2⟩)

example : DetectsOwn demoLib := fun _ _ _ h => by
  simp only [demoLib, Option.some.injEq] at h ⊢
  exact congrArg Prod.fst h.symm

example : ∀ m, KeepsData demoLib demoArrays m := by
  intro m g f h
  simp only [demoLib, Option.some.injEq] at h
  subst h
  cases m <;> exact ⟨_, rfl, rfl⟩

/-- Non-vacuity of C101: two files with spin are summed; the first is converted. -/
example :
    let disk : Disk (FileFormat × List (String × ℚ)) := fun p =>
      if p = "a" then some (.vasp, [("total", 3), ("diff", 1)]) else if p = "b" then some (.vasp, [("total", 4), ("diff", 2)]) else none
    let add := fun g h : FileFormat × List (String × ℚ) => if g.2.map Prod.fst = h.2.map Prod.fst then
      some (g.1, List.zipWith (fun x y => (x.1, x.2 + y.2)) g.2 h.2) else none
    ((sumCommand demoLib (fun _ => (1, 1, 1)) add disk "a" "b" "c" .none .none).bind fun d => d "c") = some (.vasp, [("total", 7), ("diff", 3)]) ∧
    ((convertCommand demoLib disk "a" "c" .hdf5 .none).bind fun d => d "c") = some (.hdf5, [("total", 3)]) := by decide +kernel

end BaderKit
