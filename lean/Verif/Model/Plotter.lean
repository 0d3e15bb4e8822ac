import Mathlib.Algebra.Order.Field.Basic
/-!
# The state of a plot

Model of `src/baderkit/plotting/core/plotter.py:35-347,605-709,845-1290,1464-1490`: the settings of `StructurePlotter`, `GridPlotter` and `BaderPlotter` and the actors
of the `pyvista` window that their setters change.

* An actor is what is drawn: a mesh, its style and whether it is visible.  `add_mesh` with a name replaces the actor of that name by a visible one.
* The actor of an atom is found by its label; the labels are unique (`relabel_sites`, see C54), so atoms are numbered here.
* Contours are functions `contour`, `banded` of the data on the points (`pyvista`), `noPoints` tells that a mesh is empty.
* Background, axes, camera and projection are left out (the camera is in `Model/PlotGeometry.lean`).
-/
set_option linter.unusedSectionVars false
namespace BaderKit
variable {K : Type} [Field K] [LinearOrder K]

/-- The sphere of an atom: its radius and colour, `metallic`, and whether it is visible. For `plotter.py:70-86,875-902`. -/
structure AtomActor (K C : Type) where
  radius : K
  color : C
  metal : K
  shown : Bool
deriving DecidableEq

/-- The colour of a surface: one colour, or a colour map with its limits, `plotter.py:1171-1222`. -/
inductive Paint (K C : Type)
  | solid (c : C)
  | map (m : C) (lo hi : K)
deriving DecidableEq

/-- A surface: its mesh, opacity, colour, and whether it is visible. For `plotter.py:875-902,1171-1222`. -/
structure SurfActor (K C M : Type) where
  mesh : M
  opacity : K
  paint : Paint K C
  shown : Bool
deriving DecidableEq

/-- The outline of the cell. For `plotter.py:70-86,875-902`. -/
structure LatticeActor (K : Type) where
  width : K
  shown : Bool
deriving DecidableEq

/-- What is in a window, `self.plotter.actors`. For `plotter.py:70-86,875-902`. -/
structure Window (K C M : Type) where
  atoms : ℕ → AtomActor K C
  lattice : LatticeActor K
  iso : Option (SurfActor K C M)
  cap : Option (SurfActor K C M)

/-- The contours of `pyvista`, `plotter.py:1166-1169,1236,1251`. -/
structure Contours (K D M : Type) where
  /-- `structured_grid.contour([iso])` -/
  contour : D → K → M
  /-- `surface.contour_banded(2, rng=[iso, max])` -/
  banded : D → K → K → M
  /-- `len(mesh["values"]) == 0` -/
  noPoints : M → Bool

/-- The fields of a `GridPlotter`, `plotter.py:70-86,875-902`. -/
structure PlotSt (K C D M : Type) where
  /-- number of atoms -/
  n : ℕ
  visible : List ℕ
  colors : ℕ → C
  radii : ℕ → K
  metal : K
  showLattice : Bool
  width : K
  /-- `structured_grid` and `surface` -/
  data : D
  showSurface : Bool
  showCaps : Bool
  surfaceOpacity : K
  capOpacity : K
  colormap : C
  solidSurface : Bool
  solidCap : Bool
  surfaceColor : C
  capColor : C
  minVal : K
  maxVal : K
  isoVal : K
  /-- `self.iso`, `self.cap` -/
  isoMesh : M
  capMesh : M
  /-- `self.plotter` -/
  win : Window K C M

variable {C D M : Type}

/-- `_get_surface_kwargs`, `plotter.py:1171-1196` (the colour is ignored when scalars are given). -/
def PlotSt.surfacePaint (s : PlotSt K C D M) : Paint K C :=
  if s.solidSurface then .solid s.surfaceColor else .map s.colormap s.minVal s.maxVal

/-- `_get_cap_kwargs`, `plotter.py:1198-1222`. -/
def PlotSt.capPaint (s : PlotSt K C D M) : Paint K C :=
  if s.solidCap then .solid s.capColor else .map s.colormap s.minVal s.maxVal

/-- `_update_surface_mesh`, `plotter.py:1152-1169`. -/
def PlotSt.updateMesh (P : Contours K D M) (s : PlotSt K C D M) (v : K) : PlotSt K C D M :=
  { s with isoMesh := P.contour s.data v, capMesh := P.banded s.data v s.maxVal }

/-- `_add_iso_mesh`, `plotter.py:1224-1237`. -/
def PlotSt.addIso (P : Contours K D M) (s : PlotSt K C D M) : PlotSt K C D M :=
  if s.showSurface then
    { s with win := { s.win with iso := if P.noPoints s.isoMesh then none else some ⟨s.isoMesh, s.surfaceOpacity, s.surfacePaint, true⟩ } }
  else s

/-- `_add_cap_mesh`, `plotter.py:1239-1252`: the test is made on `self.iso`. -/
def PlotSt.addCap (P : Contours K D M) (s : PlotSt K C D M) : PlotSt K C D M :=
  if s.showCaps then
    { s with win := { s.win with cap := if P.noPoints s.isoMesh then none else some ⟨s.capMesh, s.capOpacity, s.capPaint, true⟩ } }
  else s

/-- `_create_structure_plot`, `plotter.py:620-670`: the atoms and the outline of a new window. -/
def PlotSt.structureWindow (s : PlotSt K C D M) : Window K C M :=
  ⟨fun i => ⟨s.radii i, s.colors i, s.metal, decide (i ∈ s.visible)⟩, ⟨s.width, true⟩, none, none⟩

/-- `_create_grid_plot` and `rebuild`, `plotter.py:1254-1290`: the object afterwards, and the new window.  `rebuild` does not use the window as its own. -/
def PlotSt.gridWindow (P : Contours K D M) (s : PlotSt K C D M) : PlotSt K C D M × Window K C M :=
  let s' := s.updateMesh P s.isoVal
  (s', { s'.structureWindow with
    iso := if P.noPoints s'.isoMesh then none else some ⟨s'.isoMesh, s'.surfaceOpacity, s'.surfacePaint, true⟩
    cap := if P.noPoints s'.capMesh then none else some ⟨s'.capMesh, s'.capOpacity, s'.capPaint, true⟩ })

/-- The settings that a new plot starts from: the atoms, the data, its smallest and its largest value. For `plotter.py:65-91,869-904`. -/
structure PlotIn (K C D : Type) where
  n : ℕ
  colors : ℕ → C
  radii : ℕ → K
  data : D
  lo : K
  hi : K
  /-- "viridis" and "#BA8E23" -/
  viridis : C
  gold : C

/-- `GridPlotter.__init__`, `plotter.py:65-91,869-904`: all atoms and both surfaces are visible; `_min_val` is raised by a factor. -/
def PlotSt.new (P : Contours K D M) (x : PlotIn K C D) : PlotSt K C D M :=
  let lo := x.lo + 1 / 10 ^ 7 * x.lo
  let s : PlotSt K C D M :=
    { n := x.n, visible := List.range x.n, colors := x.colors, radii := x.radii, metal := 0, showLattice := true, width := 1 / 10, data := x.data,
      showSurface := true, showCaps := true, surfaceOpacity := 8 / 10, capOpacity := 8 / 10, colormap := x.viridis, solidSurface := false,
      solidCap := false, surfaceColor := x.gold, capColor := x.gold, minVal := lo, maxVal := x.hi, isoVal := lo,
      isoMesh := P.contour x.data lo, capMesh := P.banded x.data lo x.hi,
      win := ⟨fun i => ⟨x.radii i, x.colors i, 0, true⟩, ⟨1 / 10, true⟩, none, none⟩ }
  let r := s.gridWindow P
  { r.1 with win := r.2 }

/-- The assignments of a user; lists of colours and radii have one entry for each atom.
For `plotter.py:107-119,132-136,159-163,177-183,258-285,299-308,941-1150,1464-1490`. -/
inductive PlotOp (K C D : Type)
  | visibleAtoms (l : List ℕ)
  | colors (f : ℕ → C)
  | radii (f : ℕ → K)
  | metallic (x : K)
  | showLattice (b : Bool)
  | thickness (x : K)
  | showSurface (b : Bool)
  | showCaps (b : Bool)
  | surfaceOpacity (x : K)
  | capOpacity (x : K)
  | colormap (c : C)
  | minVal (x : K)
  | maxVal (x : K)
  | solidSurface (b : Bool)
  | solidCap (b : Bool)
  | surfaceColor (c : C)
  | capColor (c : C)
  | isoVal (x : K)
  /-- `BaderPlotter._update_plotter_mask` with new data on the points, `plotter.py:1464-1490` -/
  | mask (d : D)

/-- A negative radius or zero is replaced, `plotter.py:260-264`. -/
def fixRadius (x : K) : K := if x ≤ 0 then 1 / 100 else x

/-- The setter of `iso_val`, `plotter.py:1143-1150`. -/
def PlotSt.setIso (P : Contours K D M) (s : PlotSt K C D M) (x : K) : PlotSt K C D M :=
  let v := max s.minVal (min x s.maxVal)
  (({ s with isoVal := v }.updateMesh P v).addIso P).addCap P

/-- One assignment, `plotter.py:107-119,132-136,159-163,177-183,258-285,299-308,941-1150,1464-1490`. -/
def PlotSt.op [DecidableEq C] (P : Contours K D M) (s : PlotSt K C D M) : PlotOp K C D → PlotSt K C D M
  | .visibleAtoms l => { s with visible := l, win := { s.win with atoms := fun i => { s.win.atoms i with shown := decide (i ∈ l) } } }
  | .colors f =>
    { s with
      colors := f
      win := { s.win with atoms := fun i => if s.colors i = f i then s.win.atoms i else { s.win.atoms i with color := f i } } }
  | .radii f =>
    { s with
      radii := fun i => fixRadius (f i)
      win := { s.win with atoms := fun i => if s.radii i = fixRadius (f i) then s.win.atoms i else ⟨fixRadius (f i), s.colors i, s.metal, true⟩ } }
  | .metallic x => { s with metal := x, win := { s.win with atoms := fun i => { s.win.atoms i with metal := x } } }
  | .showLattice b => { s with showLattice := b, win := { s.win with lattice := { s.win.lattice with shown := b } } }
  | .thickness x => { s with width := x, win := { s.win with lattice := { s.win.lattice with width := x } } }
  | .showSurface b => { s with showSurface := b, win := { s.win with iso := s.win.iso.map fun a => { a with shown := b } } }
  | .showCaps b => { s with showCaps := b, win := { s.win with cap := s.win.cap.map fun a => { a with shown := b } } }
  | .surfaceOpacity x => { s with surfaceOpacity := x, win := { s.win with iso := s.win.iso.map fun a => { a with opacity := x } } }
  | .capOpacity x => { s with capOpacity := x, win := { s.win with cap := s.win.cap.map fun a => { a with opacity := x } } }
  | .colormap c =>
    let s := { s with colormap := c }
    let s := if s.solidSurface then s else s.addIso P
    if s.solidCap then s else s.addCap P
  | .minVal x => { s with minVal := min s.maxVal x }.addCap P
  | .maxVal x => { s with maxVal := max s.minVal x }.addCap P
  | .solidSurface b => { s with solidSurface := b }.addIso P
  | .solidCap b => { s with solidCap := b }.addCap P
  | .surfaceColor c => let s := { s with surfaceColor := c }; if s.solidSurface then s.addIso P else s
  | .capColor c => let s := { s with capColor := c }; if s.solidCap then s.addCap P else s
  | .isoVal x => s.setIso P x
  | .mask d => { s with data := d }.setIso P s.isoVal

/-- A session. For `plotter.py:107-119,132-136,159-163,177-183,258-285,299-308,941-1150,1464-1490`. -/
def PlotSt.session [DecidableEq C] (P : Contours K D M) (s : PlotSt K C D M) (os : List (PlotOp K C D)) : PlotSt K C D M := os.foldl (fun s o => s.op P o) s

/-- The setter of `atom_df`, `plotter.py:337-347`: visible atoms, colours, radii, in this order. -/
def PlotSt.setTable [DecidableEq C] (P : Contours K D M) (s : PlotSt K C D M) (visible : ℕ → Bool) (colors : ℕ → C) (radii : ℕ → K) : PlotSt K C D M :=
  s.session P [.visibleAtoms ((List.range s.n).filter fun i => visible i), .colors colors, .radii radii]

/-- `rebuild`, which `get_plot_screenshot` draws, `plotter.py:697-709,778-798,1278-1290`. -/
def PlotSt.screenshot (P : Contours K D M) (s : PlotSt K C D M) : Window K C M := (s.gridWindow P).2

end BaderKit
