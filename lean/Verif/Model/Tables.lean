import Verif.Model.Commands
/-!
# Tables of results

Model of `get_atom_results_dataframe`, `get_basin_results_dataframe`, `write_atom_tsv` and `write_basin_tsv` of `Bader`
(`src/baderkit/core/bader/bader.py:1414-1559`); `Badelf` and `SpinBadelf` write their tables in the same way
(`badelf/badelf.py:1424-1497`, `badelf_spin.py:922-1006`).

Simplifications.
* A file is its text.  Numbers are elements of the field: `inf` and `nan` are left out.
* A table whose columns differ in length is refused by pandas: `none`.
* With `write_spin`, a path given as a string raises in `SpinBadelf.write_atom_tsv` before anything is written (`badelf_spin.py:965-970`).
-/
namespace BaderKit
variable {K : Type} [Field K] [LinearOrder K] [FloorRing K]

/-- `f"{x:.5f}"`, `bader.py:1483-1485`. -/
def fixed5 (x : K) : Text :=
  let r := (roundHE (x * 10 ^ 5)).natAbs
  (if x < 0 then ['-'] else []) ++ (strNat (r / 10 ^ 5) ++ '.' :: zeroPad 5 (r % 10 ^ 5))

/-- An entry of a table. For `bader.py:1481-1485`. -/
inductive TCell (K : Type) where
  | text (t : Text) | num (x : K)

/-- The text of an entry, `bader.py:1481-1485`: only columns of numbers are formatted. -/
def TCell.shown : TCell K → Text
  | .text t => t
  | .num x => fixed5 x

/-- A column. For `bader.py:1488-1491`. -/
structure TColumn (K : Type) where
  name : Text
  cells : List (TCell K)

/-- `col_widths`, `bader.py:1488-1491`. -/
def TColumn.width (c : TColumn K) : ℕ := (c.cells.map fun x => x.shown.length).foldl max c.name.length

/-- `"\t".join(...)`, `bader.py:1499,1506`. -/
def joinTab : List Text → Text
  | [] => []
  | [t] => t
  | t :: ts => t ++ '\t' :: joinTab ts

/-- The header, `bader.py:1499-1502`. -/
def tableHeader (cols : List (TColumn K)) : Text := joinTab (cols.map fun c => padRight c.width c.name)

/-- One row, `bader.py:1505-1509`. -/
def tableRow (cols : List (TColumn K)) (i : ℕ) : Text := joinTab (cols.map fun c => padRight c.width (c.cells[i]?.elim [] TCell.shown))

/-- `pd.DataFrame({...})`: the number of rows, if all columns agree, `bader.py:1426-1436`. -/
def frameRows (cols : List (TColumn K)) : Option ℕ :=
  match cols with
  | [] => some 0
  | c :: cs => if cs.all fun d => d.cells.length = c.cells.length then some c.cells.length else none

/-- The table without footer, `bader.py:1497-1509,1550-1559`. -/
def tableText (cols : List (TColumn K)) : Option Text :=
  (frameRows cols).map fun n => ((tableHeader cols :: (List.range n).map (tableRow cols)).map fun l => l ++ ['\n']).flatten

/-- The columns of the atoms, `bader.py:1424-1436`. -/
def atomColumns (labels : List Text) (frac : List (V3 K)) (charges volumes dists : List K) : List (TColumn K) :=
  [⟨"label".toList, labels.map .text⟩, ⟨"x".toList, frac.map fun v => .num v.1⟩, ⟨"y".toList, frac.map fun v => .num v.2.1⟩,
    ⟨"z".toList, frac.map fun v => .num v.2.2⟩, ⟨"charge".toList, charges.map .num⟩, ⟨"volume".toList, volumes.map .num⟩,
    ⟨"surface_dist".toList, dists.map .num⟩]

/-- `write_atom_tsv`, `bader.py:1465-1514`. -/
def atomTable (labels : List Text) (frac : List (V3 K)) (charges volumes dists : List K) (vacCharge vacVolume electrons volume : K) : Option Text :=
  (tableText (atomColumns labels frac charges volumes dists)).map fun t =>
    t ++ '\n' :: ("Vacuum Charge:\t\t".toList ++ fixed5 vacCharge ++ '\n' :: ("Vacuum Volume:\t\t".toList ++ fixed5 vacVolume ++ '\n' ::
      ("Total Electrons:\t".toList ++ fixed5 electrons ++ '\n' :: ("Total Volume:\t".toList ++ fixed5 volume ++ ['\n']))))

/-- What the table of basins uses. For `bader.py:1448-1463`. -/
structure BasinRow (K : Type) where
  significant : Bool
  atom : ℕ
  frac : V3 K
  charge : K
  volume : K
  dist : K
  atomDist : K

/-- The columns of the significant basins, `bader.py:1448-1463`; `none` if a basin belongs to an atom that has no label. -/
def basinColumns (labels : List Text) (basins : List (BasinRow K)) : Option (List (TColumn K)) :=
  let rows := basins.filter fun b => b.significant
  (rows.mapM fun b => labels[b.atom]?).map fun ls =>
    [⟨"atoms".toList, ls.map .text⟩, ⟨"x".toList, rows.map fun b => .num b.frac.1⟩, ⟨"y".toList, rows.map fun b => .num b.frac.2.1⟩,
      ⟨"z".toList, rows.map fun b => .num b.frac.2.2⟩, ⟨"charge".toList, rows.map fun b => .num b.charge⟩,
      ⟨"volume".toList, rows.map fun b => .num b.volume⟩, ⟨"surface_dist".toList, rows.map fun b => .num b.dist⟩,
      ⟨"atom_dist".toList, rows.map fun b => .num b.atomDist⟩]

/-- `write_basin_tsv`, `bader.py:1516-1559`. -/
def basinTable (labels : List Text) (basins : List (BasinRow K)) : Option Text := (basinColumns labels basins).bind tableText

end BaderKit
