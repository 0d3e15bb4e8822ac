import Mathlib.Data.List.Basic
import Mathlib.Algebra.Field.Basic
/-!
# The window: running and exporting

Model of `src/baderkit/plotting/gui/tabs/bader_tab.py:79-197` and `src/baderkit/plotting/gui/tabs/export_tab.py:99-136`.

* Qt is external: a button that is disabled cannot be pressed; `textChanged` is emitted when the text changes; signals of the worker arrive in the main thread.
* A `QThread` object that is replaced is destroyed, and Qt ends the process when the thread of a destroyed `QThread` still runs.
* What a run gives is `outcome`: a result, an error that is caught (`bader_tab.py:177-179,192-194`), or an exception that is not (`:182-188`).
-/
set_option linter.unusedSectionVars false
namespace BaderKit

/-- What a worker does, `bader_tab.py:166-197`. -/
inductive RunOutcome (R : Type)
  | ok (r : R)
  | failed
  | raised

/-- The inputs of a run: both paths and the options (method and tolerances), `bader_tab.py:106-112`. -/
structure RunJob (O : Type) where
  charge : List Char
  reference : List Char
  opts : O

/-- The run tab: its fields, whether the button is enabled, whether the thread of `self.thread` still runs, the run that has not ended, the result that the window
shows, and whether the process has ended. For `bader_tab.py:36-82`. -/
structure RunSt (O R : Type) where
  charge : List Char
  reference : List Char
  opts : O
  enabled : Bool
  live : Bool
  job : Option (RunJob O)
  shown : Option R
  ended : Bool

/-- A new window, `bader_tab.py:36-82`. -/
def RunSt.start {O R : Type} (o : O) : RunSt O R := ⟨[], [], o, false, false, none, none, false⟩

/-- What happens: a field is edited, the button is pressed, the worker ends. For `bader_tab.py:36-43,81`. -/
inductive RunEv (O : Type)
  | charge (t : List Char)
  | reference (t : List Char)
  | opts (o : O)
  | press
  | done

variable {O R : Type}

/-- `check_paths`, `bader_tab.py:89-98`: `not reference_path` is never true, a `Path` has no truth value of its own; `present` is `Path(text).exists()`. -/
def RunSt.checkPaths (present : List Char → Bool) (s : RunSt O R) : RunSt O R := { s with enabled := present s.charge && (present s.reference || false) }

/-- `run_bader`, `bader_tab.py:100-130`. -/
def RunSt.run (s : RunSt O R) : RunSt O R :=
  if s.live then { s with ended := true }
  else { s with enabled := false, live := true, job := some ⟨s.charge, s.reference, s.opts⟩ }

/-- `on_bader_finished`, `on_bader_error` and `thread.quit`, `bader_tab.py:125-140`: the thread is ended after a result only. -/
def RunSt.over (s : RunSt O R) : RunOutcome R → RunSt O R
  | .ok r => { s with shown := some r, enabled := true, live := false, job := none }
  | .failed => { s with enabled := true, job := none }
  | .raised => { s with job := none }

/-- One event, `bader_tab.py:36-43,81`. -/
def RunSt.step (present : List Char → Bool) (outcome : RunJob O → RunOutcome R) (s : RunSt O R) (e : RunEv O) : RunSt O R :=
  if s.ended then s
  else match e with
    | .charge t => if t = s.charge then s else { s with charge := t }.checkPaths present
    | .reference t => if t = s.reference then s else { s with reference := t }.checkPaths present
    | .opts o => { s with opts := o }
    | .press => if s.enabled then s.run else s
    | .done => match s.job with
      | some j => s.over (outcome j)
      | none => s

/-- A session. For `bader_tab.py:36-82`. -/
def RunSt.session (present : List Char → Bool) (outcome : RunJob O → RunOutcome R) (s : RunSt O R) (es : List (RunEv O)) : RunSt O R :=
  es.foldl (fun s e => s.step present outcome e) s

/-! ## Export -/

/-- `Format`, `file_parsers.py:19-22`. -/
inductive ExportFormat
  | vasp
  | cube
  | hdf5
deriving DecidableEq

/-- `Format(text)`, `grid.py:1640`. -/
def ExportFormat.ofText (t : List Char) : Option ExportFormat :=
  if t = "vasp".toList then some .vasp else if t = "cube".toList then some .cube else if t = "hdf5".toList then some .hdf5 else none

/-- The text between the first pair of brackets up to a blank, without stars, `export_tab.py:109-114`. -/
def filterExt (f : List Char) : List Char :=
  (((((f.dropWhile (· ≠ '(')).drop 1).takeWhile (fun c => c ≠ '(' ∧ c ≠ ')')).dropWhile (· = ' ')).takeWhile (· ≠ ' ')).filter (· ≠ '*')

/-- The name of a file in its path. For `export_tab.py:117`. -/
def baseName (p : List Char) : List Char := (p.reverse.takeWhile (· ≠ '/')).reverse

/-- `Path(name).suffix`, used in `export_tab.py:117`: from the last dot, when there is something before and after it. -/
def pathSuffix (p : List Char) : List Char :=
  let n := baseName p
  let t := n.reverse.takeWhile (· ≠ '.')
  if t ≠ [] ∧ t.length + 1 < n.length then '.' :: t.reverse else []

/-- `text.strip(".")`. For `export_tab.py:99-136`. -/
def stripDots (t : List Char) : List Char := (((t.dropWhile (· = '.')).reverse).dropWhile (· = '.')).reverse

/-- The grid that a user selects. For `export_tab.py:128-131`. -/
inductive DataSource
  | charge
  | reference
deriving DecidableEq

/-- The grid that is copied, `export_tab.py:128-131`: a method is compared with a text, so the test is always false. -/
def exportSource (_ : DataSource) : DataSource := if false then .charge else .reference

/-- `export_basins`, `export_tab.py:99-136`: the name of the file, its format and the values; `none` is an exception (an empty name: `ext` is not bound). -/
def exportBasins {K : Type} [Zero K] (src : DataSource) (labels : ℕ → ℕ) (visible : List ℕ) (charge reference : ℕ → K) (filename filter : List Char) :
    Option (List Char × ExportFormat × (ℕ → K)) :=
  if filename = [] then none
  else
    let (name, ext) := if '.' ∈ filename then (filename, pathSuffix filename) else (filename ++ filterExt filter, filterExt filter)
    let total := match exportSource src with
      | .charge => charge
      | .reference => reference
    (ExportFormat.ofText (stripDots ext)).map fun f => (name, f, fun v => if labels v ∈ visible then total v else 0)

end BaderKit
