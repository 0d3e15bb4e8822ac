import Verif.Model.Vec
import Mathlib.Data.List.Basic
import Mathlib.Logic.Function.Basic
/-!
# Operations on `Grid` objects

Model of parts of `src/baderkit/core/toolkit/grid.py`: construction of supercells, spin splitting, linear
combination, box slices, coordinate conversions and the caching of derived data; and of the exporters of
`bader.py:1020-1412` and `badelf.py:1181-1448`.
-/
namespace BaderKit

/-- A three-dimensional array: the lengths of the axes and the entries. For `grid.py:697`. -/
structure Arr3 (α : Type*) where
  nx : ℕ
  ny : ℕ
  nz : ℕ
  val : ℕ → ℕ → ℕ → α

/-- Pointwise map of an array. For `grid.py:697`. -/
def Arr3.map {α β : Type*} (f : α → β) (a : Arr3 α) : Arr3 β := ⟨a.nx, a.ny, a.nz, fun i j k => f (a.val i j k)⟩

/-- Pointwise combination of two arrays of the same shape (`a + b`). For `grid.py:1078-1113`. -/
def Arr3.map₂ {α β γ : Type*} (f : α → β → γ) (a : Arr3 α) (b : Arr3 β) : Arr3 γ :=
  ⟨a.nx, a.ny, a.nz, fun i j k => f (a.val i j k) (b.val i j k)⟩

/-- `np.concatenate([a, b], axis=0)`. For `grid.py:693-698`. -/
def Arr3.cat0 {α : Type*} (a b : Arr3 α) : Arr3 α :=
  ⟨a.nx + b.nx, a.ny, a.nz, fun i j k => if i < a.nx then a.val i j k else b.val (i - a.nx) j k⟩

/-- `np.concatenate([a, b], axis=1)`. For `grid.py:693-698`. -/
def Arr3.cat1 {α : Type*} (a b : Arr3 α) : Arr3 α :=
  ⟨a.nx, a.ny + b.ny, a.nz, fun i j k => if j < a.ny then a.val i j k else b.val i (j - a.ny) k⟩

/-- `np.concatenate([a, b], axis=2)`. For `grid.py:693-698`. -/
def Arr3.cat2 {α : Type*} (a b : Arr3 α) : Arr3 α :=
  ⟨a.nx, a.ny, a.nz + b.nz, fun i j k => if k < a.nz then a.val i j k else b.val i j (k - a.nz)⟩

/-- `np.concatenate([data for j in range(n)], axis)`, `grid.py:697`; an empty list raises. -/
def repeatCat {α : Type*} (cat : Arr3 α → Arr3 α → Arr3 α) (a : Arr3 α) : ℕ → Option (Arr3 α)
  | 0 => none
  | 1 => some a
  | n + 2 => (repeatCat cat a (n + 1)).map (fun b => cat b a)

/-- `_tile_data`, `grid.py:693-698`. -/
def tileData {α : Type*} (a : Arr3 α) (n : ℕ × ℕ × ℕ) : Option (Arr3 α) :=
  (repeatCat Arr3.cat0 a n.1).bind fun a1 => (repeatCat Arr3.cat1 a1 n.2.1).bind fun a2 =>
    repeatCat Arr3.cat2 a2 n.2.2

/-- What `make_supercell` works on.  `ngridpts` is the attribute set once in the constructor,
`grid.py:114`; the lattice is represented by the cell volume. -/
structure GridData (K : Type*) where
  total : Arr3 K
  diff : Option (Arr3 K)
  volume : K
  ngridpts : ℕ

/-- Outcome of an operation that can raise after having changed the object. For `grid.py:700-744`. -/
inductive Outcome (S : Type*)
  | ok (s : S)
  | raised (s : S)

section field
variable {K : Type*} [Field K]

/-- `if array:` for a numpy array: empty arrays are false, one entry is its truth value, more raise. For `grid.py:700-744`. -/
def arrTruth [DecidableEq K] (a : Arr3 K) : Option Bool :=
  if a.nx * a.ny * a.nz = 0 then some false
  else if a.nx * a.ny * a.nz = 1 then some (decide (a.val 0 0 0 ≠ 0))
  else none

/-- `make_supercell` with three scaling factors, `grid.py:700-744`.  `structure.make_supercell` (pymatgen)
multiplies the volume by the product of the factors. -/
def makeSupercell [DecidableEq K] (g : GridData K) (n : ℕ × ℕ × ℕ) : Outcome (GridData K) :=
  match tileData g.total n with
  | none => .raised g
  | some t =>
    let g1 := { g with total := t }
    let vol := g.volume * ((n.1 * n.2.1 * n.2.2 : ℕ) : K)
    match g.diff with
    | none => .ok { g1 with volume := vol }
    | some d =>
      match arrTruth d with
      | none => .raised g1
      | some false => .ok { g1 with volume := vol }
      | some true =>
        match tileData d n with
        | none => .raised g1
        | some d' => .ok { g1 with diff := some d', volume := vol }

/-- `point_volume`, `grid.py:293-303`. -/
def pointVolume (g : GridData K) : K := g.volume / (g.ngridpts : K)

/-- Charge of a cell: mean of the data (VASP convention density times cell volume), as used in
`methods/shared_numba.py:170-175`. -/
def cellCharge (a : Arr3 K) : K :=
  ((List.range a.nx).map fun i => ((List.range a.ny).map fun j => ((List.range a.nz).map fun k =>
    a.val i j k).sum).sum).sum / ((a.nx * a.ny * a.nz : ℕ) : K)

/-- The two kinds of data, `grid.py:28-40`. -/
inductive DataKind | charge | elf
  deriving DecidableEq

/-- `spin_data` (pymatgen): half the sum and half the difference. For `grid.py:916-980`. -/
def spinData (total diff : Arr3 K) : Arr3 K × Arr3 K :=
  (Arr3.map₂ (fun t d => 1 / 2 * (t + d)) total diff, Arr3.map₂ (fun t d => 1 / 2 * (t - d)) total diff)

/-- `split_to_spin`, `grid.py:916-980`; `none` is the failed assertion for a grid without spin. -/
def splitToSpin (kind : DataKind) (total : Arr3 K) (diff : Option (Arr3 K)) :
    Option (Arr3 K × Arr3 K) :=
  diff.map fun d => match kind with
    | .elf => (total, d)
    | .charge => spinData total d

/-- `linear_add`, `grid.py:1078-1113`: the data are dictionaries, here lists of keys and arrays; different
keys raise. -/
def linearAdd (a b : List (String × Arr3 K)) (scale : K) : Option (List (String × Arr3 K)) :=
  if a.map Prod.fst = b.map Prod.fst then
    some (List.zipWith (fun (x y : String × Arr3 K) =>
      (x.1, Arr3.map₂ (fun u v => u + scale * v) x.2 y.2)) a b)
  else none

/-- Index vector of one axis in `cubic_slice`, `grid.py:688`: `np.arange(c - size, c + 2) % dim`. -/
def sliceIdx (c : ℤ) (size : ℕ) (dim : ℕ) : List ℤ :=
  (List.range (size + 2)).map fun (t : ℕ) => (c - size + t) % dim

/-- `cubic_slice`, `grid.py:667-691`. -/
def cubicSlice {α : Type*} (a : Arr3 α) (p : ℤ × ℤ × ℤ) (size : ℕ) : List (List (List α)) :=
  (sliceIdx p.1 size a.nx).map fun i => (sliceIdx p.2.1 size a.ny).map fun j =>
    (sliceIdx p.2.2 size a.nz).map fun k => a.val i.toNat j.toNat k.toNat

/-- `frac_to_cart`, `grid.py:1221-1237`. -/
def fracToCart (L : M3 K) (f : V3 K) : V3 K := vecMat f L

/-- `cart_to_frac`, `grid.py:1183-1199`; `inv` is `np.linalg.inv(self.matrix)`. -/
def cartToFrac (inv : M3 K) (c : V3 K) : V3 K := vecMat c inv

/-- `grid_to_frac`, `grid.py:1239-1255`. -/
def gridToFrac (s : ℕ × ℕ × ℕ) (v : V3 K) : V3 K :=
  (v.1 / (s.1 : K), v.2.1 / (s.2.1 : K), v.2.2 / (s.2.2 : K))

/-- `frac_to_grid`, `grid.py:1257-1272`. -/
def fracToGrid (s : ℕ × ℕ × ℕ) (f : V3 K) : V3 K :=
  (f.1 * (s.1 : K), f.2.1 * (s.2.1 : K), f.2.2 * (s.2.2 : K))

/-- `grid_to_cart`, `grid.py:1274-1291`. -/
def gridToCart (L : M3 K) (s : ℕ × ℕ × ℕ) (v : V3 K) : V3 K := fracToCart L (gridToFrac s v)

/-- `cart_to_grid`, `grid.py:1201-1217`. -/
def cartToGrid (inv : M3 K) (s : ℕ × ℕ × ℕ) (c : V3 K) : V3 K := fracToGrid s (cartToFrac inv c)

end field

/-! ## Exporters -/

/-- One file of `write_basin_volumes` or `write_atom_volumes`, `bader.py:1070-1085,1227-1242`: the entries
whose label differs are set to zero. -/
def exportOne {α : Type*} [Zero α] (data : ℕ → α) (labels : ℕ → ℤ) (i : ℤ) : ℕ → α :=
  fun v => if labels v ≠ i then 0 else data v

/-- `write_basin_volumes` and `write_atom_volumes`: one file per index, named by it. For `bader.py:1070-1085,1227-1242`. -/
def exportEach {α : Type*} [Zero α] (data : ℕ → α) (labels : ℕ → ℤ) (idx : List ℤ) :
    List (ℤ × (ℕ → α)) := idx.map fun i => (i, exportOne data labels i)

/-- `write_all_basin_volumes`, `bader.py:1119`: the indices of the significant basins. -/
def significantIdx {R : Type*} [LinearOrder R] (charges : List R) (tol : R) : List ℤ :=
  ((List.range charges.length).filter fun b => (charges[b]?.elim false fun c => decide (c > tol))).map
    fun (b : ℕ) => (b : ℤ)

/-- `write_basin_volumes_sum`, `write_atom_volumes_sum` and `write_species_volume`,
`bader.py:1171-1176,1320-1326,1396-1402`: the entries whose label is not in the list are set to zero. -/
def exportSum {α : Type*} [Zero α] (data : ℕ → α) (labels : ℕ → ℤ) (idx : List ℤ) : ℕ → α :=
  fun v => if labels v ∈ idx then data v else 0

/-- `Badelf.write_atom_volumes`, `badelf.py:1223-1245`: the grid is copied once, and for each atom the
entries *of that atom* are set to zero before the file is written. -/
def badelfExport {α : Type*} [Zero α] (data : ℕ → α) (labels : ℕ → ℤ) (idx : List ℤ) :
    List (ℤ × (ℕ → α)) :=
  (idx.foldl (fun (st : (ℕ → α) × List (ℤ × (ℕ → α))) i =>
    let g : ℕ → α := fun v => if labels v = i then 0 else st.1 v
    (g, st.2 ++ [(i, g)])) (data, [])).2

/-! ## Cached data of a grid -/

/-- The cached attributes of a grid, `grid.py:116,135,147-154`. -/
inductive GCache
  | spinData | splineCoeffs | gridIndices | flatGridIndices | pointDists | maxPointDist
  | gridNeighborTransforms | maximaMask | minimaMask
  deriving DecidableEq

/-- `_reset_cache`, `grid.py:147-154`. -/
def gridReset : List GCache :=
  [.gridIndices, .flatGridIndices, .pointDists, .maxPointDist, .gridNeighborTransforms, .maximaMask,
   .minimaMask]

/-- A grid object: the data, the structure and the caches. For `grid.py:116,135,147-154`. -/
structure GSt (D V : Type*) where
  total : D
  diff : D
  cache : GCache → Option V

/-- Operations: assigning the data (`grid.py:169-173,188-192`) and reading a cached attribute. -/
inductive GOp (D : Type*)
  | setTotal (d : D) | setDiff (d : D) | read (c : GCache)

/-- Attributes whose getter imports `get_maxima` from `baderkit.core.methods.shared_numba`, `grid.py:505-547`: there is no such module, so the import
raises before anything is stored. -/
def GCache.importsMissing : GCache → Bool
  | .maximaMask | .minimaMask => true
  | _ => false

/-- Reading a cached attribute; `f` computes it from the data, `none` is an exception. For `grid.py:116,135,147-154,505-547`. -/
def gread {D V : Type*} (f : GCache → D → D → V) (c : GCache) (s : GSt D V) : Option V × GSt D V :=
  match s.cache c with
  | some v => (some v, s)
  | none =>
    if c.importsMissing then (none, s)
    else (some (f c s.total s.diff), { s with cache := Function.update s.cache c (some (f c s.total s.diff)) })

/-- One operation. For `grid.py:116,135,147-154`. -/
def GOp.step {D V : Type*} (f : GCache → D → D → V) : GOp D → GSt D V → GSt D V
  | .setTotal d, s => { s with total := d, cache := fun c => if c ∈ gridReset then none else s.cache c }
  | .setDiff d, s => { s with diff := d, cache := fun c => if c ∈ gridReset then none else s.cache c }
  | .read c, s => (gread f c s).2

end BaderKit
