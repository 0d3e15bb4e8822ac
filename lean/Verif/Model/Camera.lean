import Verif.Model.PlotGeometry
import Verif.Model.Merge
/-!
# The camera of a plot

`src/baderkit/plotting/core/plotter.py:78-90,349-428,800-842` and `src/baderkit/plotting/gui/tabs/view_tab.py:110-138`.

* `fit` stands for `reset_camera` of pyvista, which moves the camera along its line of sight and centres it.
* `cosd` and `sind` are the cosine and the sine of an angle in degrees.
* A position given as one vector is read as Miller indices; here these are whole numbers.
* The largest radius is part of the state, as radii can be assigned between two views.
-/
namespace BaderKit

/-- A camera: position, focal point and upward direction. For `plotter.py:398-411`. -/
abbrev Cam (K : Type*) := V3 K × V3 K × V3 K

/-- What `camera_rotation` holds: the initial value is a tuple with one entry, `plotter.py:82`, assigned values are numbers, `plotter.py:396`. -/
inductive RotVal (K : Type*)
  | tuple (x : K)
  | number (x : K)
deriving DecidableEq

/-- The angle of a rotation; the arithmetic of numpy spreads a tuple with one entry. For `plotter.py:519-522`. -/
def RotVal.angle {K : Type*} : RotVal K → K
  | .tuple x => x
  | .number x => x

/-- The part of a plot that belongs to the view, `plotter.py:81-82,88-89`. -/
structure CamSt (K : Type*) where
  view : ℤ × ℤ × ℤ
  rot : RotVal K
  cam : Cam K
  rmax : K

/-- What the view depends on. For `plotter.py:457-529`. -/
structure CamEnv (K : Type*) where
  root : K → K
  cell : M3 K
  cosd : K → K
  sind : K → K
  fit : Cam K → Cam K

section field
variable {K : Type*} [Field K] [LinearOrder K]

/-- `get_camera_position_from_miller` of a plot, `plotter.py:457-529`. -/
def CamEnv.place (E : CamEnv K) (rmax : K) (v : ℤ × ℤ × ℤ) (angle : K) : Option (Cam K) :=
  cameraFrom E.root E.cell rmax (E.cosd angle) (E.sind angle) v.1 v.2.1 v.2.2

/-- The statements that concern the camera. For `plotter.py:349-428`. -/
inductive CamOp (K : Type*)
  /-- `plot.view_indices = [...]`; entries that are not of type `int` are `none`. -/
  | view (v : List (Option ℤ))
  /-- `plot.camera_rotation = r` -/
  | rotate (r : K)
  /-- `plot.camera_position = [position, focal point, upward]` -/
  | position (c : Cam K)
  /-- `plot.camera_position = [h, k, l]` -/
  | miller (h k l : ℤ)
  /-- "Set View" in the window. -/
  | button (h k l : ℤ) (r : K)
  /-- Radii are assigned. -/
  | radii (rmax : K)

/-- The setter `view_indices`, `plotter.py:361-373`; the flag says that no exception was raised. -/
def CamSt.setView (E : CamEnv K) (s : CamSt K) : List (Option ℤ) → CamSt K × Bool
  | [some h, some k, some l] =>
    match E.place s.rmax (h, k, l) s.rot.angle with
    | none => (s, false)
    | some c => ({ s with cam := E.fit c, view := (h, k, l) }, true)
  | _ => (s, false)

/-- The setter `camera_rotation`, `plotter.py:389-396`. -/
def CamSt.setRot (E : CamEnv K) (s : CamSt K) (r : K) : CamSt K × Bool :=
  match E.place s.rmax s.view r with
  | none => (s, false)
  | some c => ({ s with cam := E.fit c, rot := .number r }, true)

/-- One statement: the setters, `plotter.py:361-373,389-396,413-427`, and `set_view`, `view_tab.py:124-138`. -/
def CamSt.step (E : CamEnv K) (s : CamSt K) : CamOp K → CamSt K × Bool
  | .view v => s.setView E v
  | .rotate r => s.setRot E r
  | .position c => ({ s with cam := c }, true)
  | .miller h k l =>
    match E.place s.rmax (h, k, l) 0 with
    | none => (s, false)
    | some c => ({ s with cam := c }, true)
  | .button h k l r =>
    match E.place s.rmax (h, k, l) r with
    | none => (s, false)
    | some c => ({ s with cam := c }, true)
  | .radii m => ({ s with rmax := m }, true)

/-- A new plot, `plotter.py:78-89`; `c` is the camera that pyvista starts with. -/
def CamSt.new (E : CamEnv K) (rmax : K) (c : Cam K) : CamSt K :=
  (({ view := (1, 0, 0), rot := .tuple 0, cam := c, rmax := rmax } : CamSt K).setView E [some 1, some 0, some 0]).1

/-- Several statements; an exception is caught by the user. For `plotter.py:349-428`. -/
def CamSt.session (E : CamEnv K) (s : CamSt K) (os : List (CamOp K)) : CamSt K := os.foldl (fun t o => (t.step E o).1) s

/-! ### Fitting the picture -/

/-- The widths of the bounding box in the picture, horizontally and vertically, as `_set_camera_tight` takes them, `plotter.py:812-823`; `dir` is the unit
vector along the line of sight. -/
def tightDists (size dir up : V3 K) : K × K := (|dotV size (crossV dir up)|, |dotV size up|)

/-- The parallel scale, `plotter.py:825-827`; it is half of the height that is shown. -/
def tightScale (aspect padding : K) (d : K × K) : K := max (d.1 / aspect) d.2 / 2 * (1 + padding)

/-- The size of the window, `plotter.py:832-842`.  A division by zero gives nan or infinity in numpy: rounding nan raises (`none`), a height divided by
infinity is zero. -/
def tightWindow [FloorRing K] (w h : ℤ) (d : K × K) : Option (ℤ × ℤ) :=
  if d.2 = 0 then if d.1 = 0 then none else some (w, 0)
  else
    let resize := d.1 / d.2 / ((w : K) / h)
    if resize < 1 then some (roundHE ((w : K) * resize), h) else some (w, roundHE ((h : K) / resize))

end field
end BaderKit
