import Verif.Model.Commands
/-!
# The commands `sum` and `convert`

Model of the commands `sum` and `convert` (`src/baderkit/command_line/base.py`).

Simplifications: as in `Model/Commands`; the shape of a grid and the sum of two grids (`linear_add`, modelled in `Model/GridOps`) are given.
-/
namespace BaderKit
variable {F G : Type}

/-- The command `sum`, `command_line/base.py:167-222`; `add` is `linear_add`, which raises if one grid has spin and the other has not. -/
def sumCommand (lib : GridLib F G) (shape : G → ℕ × ℕ × ℕ) (add : G → G → Option G) (disk : Disk F) (file1 file2 out : String)
    (inFmt outFmt : FmtArg) : Option (Disk F) :=
  (gridDynamic lib disk file1 inFmt false).bind fun g1 =>
    (gridDynamic lib disk file2 inFmt false).bind fun g2 =>
      if shape g1 = shape g2 then (add g1 g2).bind fun g => gridWrite lib g out outFmt disk else none

/-- The command `convert`, `command_line/base.py:359-395`: the grid is read with the default `total_only=True`. -/
def convertCommand (lib : GridLib F G) (disk : Disk F) (file out : String) (outFmt : FileFormat) (inFmt : FmtArg) : Option (Disk F) :=
  (gridDynamic lib disk file inFmt true).bind fun g => gridWrite lib g out (.member outFmt) disk

end BaderKit
