import Verif.Model.Exporters
import Verif.Model.Commands
/-!
# Writing the volumes of atoms and basins to files

Model of the exporters of `Bader` (`src/baderkit/core/bader/bader.py:1020-1412`) and of `Badelf`
(`src/baderkit/core/badelf/badelf.py:1181-1422`), with the files of `Model/Exporters.lean`.

Simplifications.
* As in `Model/Exporters.lean`: files are a map, every directory exists, the content of a file is what is given to `Grid.write`.
* Indices are natural numbers (`-1` would select the vacuum).
* The label arrays, the structures and the symbols of their sites are given.
* Keyword arguments for the writers are left out.
-/
namespace BaderKit

/-- What the exporters use of a grid. For `grid.py:89-146`. -/
structure SrcGrid (K : Type) where
  total : ℕ → K
  /-- `diff`, the second array of a spin-polarised grid -/
  diff : Option (ℕ → K)
  /-- `source_format` -/
  fmt : FileFormat
  /-- `data_type.prefix` -/
  pre : String

/-- What is written to a file. For `bader.py:1067-1081,1407-1412`. -/
structure VolFile (K S : Type) where
  total : ℕ → K
  diff : Option (ℕ → K)
  sites : S
  fmt : FileFormat

/-- What the exporters use of an analysis. For `bader.py:1053-1061`, `badelf.py:1222-1233`. -/
structure VolSource (K S : Type) where
  ref : SrcGrid K
  chg : SrcGrid K
  sites : S
  /-- `electride_structure` -/
  dummySites : S

/-- The arguments. For `bader.py:1020-1028`, `badelf.py:1181-1190`. -/
structure VolOpts where
  dir : Dir
  /-- `write_reference` -/
  useRef : Bool
  pre : Option String
  fmt : FmtArg
  /-- `include_dummy_atoms`, only for `Badelf` -/
  dummies : Bool

/-- The format that is used, `grid.py:1637-1641`: that of the grid if none is requested, an unknown one raises. -/
def FmtArg.use (own : FileFormat) : FmtArg → Option FileFormat
  | .none => some own
  | .member m => some m
  | .text s => formatOf s

section
variable {K S : Type} [Zero K]

/-- `self.reference_grid` or `self.charge_grid`, `bader.py:1054-1059`, `badelf.py:1223-1226`. -/
def VolSource.grid (B : VolSource K S) (o : VolOpts) : SrcGrid K := if o.useRef then B.ref else B.chg

/-- `prefix_override`, `bader.py:1075-1077`, `badelf.py:1232-1234`. -/
def VolSource.prefix (B : VolSource K S) (o : VolOpts) : String := o.pre.getD (B.grid o).pre

/-- `grid.write(filename=directory / name, output_format=output_format)`, `bader.py:1079-1081`; `own` is the source format of the written grid. -/
def writeVol (o : VolOpts) (own : FileFormat) (name : String) (total : ℕ → K) (diff : Option (ℕ → K)) (sites : S) (fs : Files (VolFile K S)) :
    Wrote (VolFile K S) :=
  match o.fmt.use own with
  | none => (fs, false)
  | some f => fwrite o.dir.default.base name ⟨total, diff, sites, f⟩ fs

/-- `write_basin_volumes` (`tag` is `_b`) and `write_atom_volumes` (`_a`), `bader.py:1053-1081,1221-1249`: a new `Grid` is made of the total only and
without a source format, which is then VASP (`grid.py:125-127`). -/
def baderVolumes (B : VolSource K S) (o : VolOpts) (labels : ℕ → ℤ) (tag : String) (idxs : List ℕ) : Files (VolFile K S) → Wrote (VolFile K S) :=
  forEach (fun i => writeVol o .vasp (B.prefix o ++ tag ++ Nat.repr i) (exportOne (B.grid o).total labels i) none B.sites) idxs

/-- `np.where(mask)[0]`, `bader.py:1114`. -/
def whereTrue (mask : List Bool) : List ℕ := (List.range mask.length).filter fun b => mask.getD b false

/-- `write_all_basin_volumes`, `bader.py:1083-1122`. -/
def baderAllBasins (B : VolSource K S) (o : VolOpts) (labels : ℕ → ℤ) (significant : List Bool) : Files (VolFile K S) → Wrote (VolFile K S) :=
  baderVolumes B o labels "_b" (whereTrue significant)

/-- `write_all_atom_volumes`, `bader.py:1251-1293`. -/
def baderAllAtoms (B : VolSource K S) (o : VolOpts) (labels : ℕ → ℤ) (nAtoms : ℕ) : Files (VolFile K S) → Wrote (VolFile K S) :=
  baderVolumes B o labels "_a" (List.range nAtoms)

/-- `write_basin_volumes_sum` (`_bsum`) and `write_atom_volumes_sum` (`_asum`), `bader.py:1158-1185,1329-1354`. -/
def baderVolumesSum (B : VolSource K S) (o : VolOpts) (labels : ℕ → ℤ) (tag : String) (idxs : List ℕ) : Files (VolFile K S) → Wrote (VolFile K S) :=
  writeVol o .vasp (B.prefix o ++ tag) (exportSum (B.grid o).total labels (idxs.map fun (i : ℕ) => (i : ℤ))) none B.sites

/-- `structure.indices_from_symbol(species)`, `bader.py:1396`: none if there is no such site. -/
def indicesFromSymbol (symbols : List String) (species : String) : List ℕ :=
  (List.range symbols.length).filter fun i => symbols.getD i "" == species

/-- `write_species_volume`, `bader.py:1385-1412`: a copy of the grid, with its second array and source format. -/
def baderSpecies (B : VolSource K S) (o : VolOpts) (labels : ℕ → ℤ) (symbols : List String) (species : String) :
    Files (VolFile K S) → Wrote (VolFile K S) :=
  let idx := (indicesFromSymbol symbols species).map fun (i : ℕ) => (i : ℤ)
  writeVol o (B.grid o).fmt (B.prefix o ++ "_" ++ species) (exportSum (B.grid o).total labels idx)
    ((B.grid o).diff.map fun d => exportSum d labels idx) B.sites

/-- `grid.structure`, `badelf.py:1229-1230`. -/
def VolSource.badelfSites (B : VolSource K S) (o : VolOpts) : S := if o.dummies then B.dummySites else B.sites

/-- The entries of one atom are set to zero, `badelf.py:1238-1241`. -/
def zeroAt (labels : ℕ → ℤ) (i : ℕ) (data : ℕ → K) : ℕ → K := fun v => if labels v = i then 0 else data v

/-- The loop of `Badelf.write_atom_volumes`, `badelf.py:1237-1245`: the same arrays are changed and written in every round. -/
def badelfLoop (B : VolSource K S) (o : VolOpts) (labels : ℕ → ℤ) : (ℕ → K) → Option (ℕ → K) → List ℕ → Files (VolFile K S) → Wrote (VolFile K S)
  | _, _, [], fs => (fs, true)
  | total, diff, i :: is, fs =>
    (writeVol o (B.grid o).fmt (B.prefix o ++ "_a" ++ Nat.repr i) (zeroAt labels i total) (diff.map (zeroAt labels i)) (B.badelfSites o) fs).andThen
      (badelfLoop B o labels (zeroAt labels i total) (diff.map (zeroAt labels i)) is)

/-- `Badelf.write_atom_volumes`, `badelf.py:1181-1245`. -/
def badelfVolumes (B : VolSource K S) (o : VolOpts) (labels : ℕ → ℤ) (idxs : List ℕ) : Files (VolFile K S) → Wrote (VolFile K S) :=
  badelfLoop B o labels (B.grid o).total (B.grid o).diff idxs

/-- The methods of `Badelf` that write volumes, `badelf.py:1181,1247,1297,1364`. -/
def badelfWriters : List String := ["write_atom_volumes", "write_all_atom_volumes", "write_atom_volumes_sum", "write_species_volume"]

/-- `Badelf.write_all_atom_volumes`, `badelf.py:1247-1295`: it calls `self.write_volumes`; a name that the class does not have raises an
`AttributeError`. -/
def badelfAll (B : VolSource K S) (o : VolOpts) (labels : ℕ → ℤ) (nSites : ℕ) (fs : Files (VolFile K S)) : Wrote (VolFile K S) :=
  if "write_volumes" ∈ badelfWriters then badelfVolumes B o labels (List.range nSites) fs else (fs, false)

/-- `Badelf.write_atom_volumes_sum`, `badelf.py:1334-1362`. -/
def badelfSum (B : VolSource K S) (o : VolOpts) (labels : ℕ → ℤ) (idxs : List ℕ) : Files (VolFile K S) → Wrote (VolFile K S) :=
  writeVol o .vasp (B.prefix o ++ "_asum") (exportSum (B.grid o).total labels (idxs.map fun (i : ℕ) => (i : ℤ))) none (B.badelfSites o)

/-- `Badelf.write_species_volume`, `badelf.py:1395-1422`; `symbols` are those of the structure with the electrides. -/
def badelfSpecies (B : VolSource K S) (o : VolOpts) (labels : ℕ → ℤ) (symbols : List String) (species : String) :
    Files (VolFile K S) → Wrote (VolFile K S) :=
  let idx := (indicesFromSymbol symbols species).map fun (i : ℕ) => (i : ℤ)
  writeVol o (B.grid o).fmt (B.prefix o ++ "_" ++ species) (exportSum (B.grid o).total labels idx)
    ((B.grid o).diff.map fun d => exportSum d labels idx) (B.badelfSites o)

end
end BaderKit
