import Verif.Model.Plotter
import Mathlib.Data.List.Range
/-!
# The window: controls and plot

Model of the tabs of `src/baderkit/plotting/gui` that change the plot: `main.py:70-144`, `tabs/basin_tab.py`, `tabs/surface_tab.py`, `tabs/atom_tab.py`,
`tabs/view_tab.py`, `widgets/color_picker.py`, `widgets/float_select.py`.

* Qt is external: a check box that is clicked changes and emits `toggled`/`clicked`, `setChecked` emits only when the state changes; a spin box rounds its
  value to its decimals (`rnd`) and keeps it in its range; typing and committing a value are one event.
* The table of atoms has a row for each atom of `bader.structure`; the plot sorts its copy of the structure (`plotter.py:66-69`), `order j` is the atom
  that the plot has as number `j`.
* Background, projection, camera and the layout of the widgets are left out.
-/
set_option linter.unusedSectionVars false
namespace BaderKit
variable {K : Type} [Field K] [LinearOrder K] {C D M : Type} [DecidableEq C]

/-- What is read from a Bader object: atoms, their order in the plot, default radii and colours, basins, the data with all but some basins masked.
For `plotter.py:1412-1419`. -/
structure GuiIn (K C D : Type) where
  n : ℕ
  species : ℕ → ℕ
  order : ℕ → ℕ
  radius : ℕ → K
  color : ℕ → C
  nb : ℕ
  basinAtom : ℕ → ℕ
  full : D
  masked : List ℕ → D
  lo : K
  hi : K
  viridis : C
  gold : C

/-- The controls of the tabs. For `plotter.py:1412-1419`. -/
structure Controls (K C : Type) where
  lattice : Bool
  thickness : K
  metal : K
  showSurface : Bool
  showCaps : Bool
  solidSurface : Bool
  solidCap : Bool
  surfaceColor : C
  capColor : C
  colormap : C
  surfaceOpacity : K
  capOpacity : K
  iso : K
  atomVisible : ℕ → Bool
  atomRadius : ℕ → K
  atomColor : ℕ → C
  speciesVisible : ℕ → Bool
  speciesRadius : ℕ → K
  basinOn : ℕ → Bool
  atomBasinOn : ℕ → Bool

/-- The window with a result: the controls, the plot and its set of visible basins, `plotter.py:1412-1419`. -/
structure Gui (K C D M : Type) where
  inp : GuiIn K C D
  ctl : Controls K C
  plot : PlotSt K C D M
  basins : List ℕ

/-- The value of a spin box, `float_select.py:22-25`: rounded and in the range. -/
def spin (rnd : ℕ → K → K) (d : ℕ) (lo hi x : K) : K := max (rnd d lo) (min (rnd d hi) (rnd d x))

/-- Radii: two decimals from 0.01 to 10, `atom_tab.py:87-94,133-140`. -/
def spinRadius (rnd : ℕ → K → K) (x : K) : K := spin rnd 2 (1 / 100) 10 x

/-- What the plot is built from, `plotter.py:66-86,1394-1396`. -/
def GuiIn.plotIn (x : GuiIn K C D) : PlotIn K C D :=
  ⟨x.n, fun j => x.color (x.order j), fun j => x.radius (x.order j), x.full, x.lo, x.hi, x.viridis, x.gold⟩

/-- The basins of the first atom, `plotter.py:1412-1418`. -/
def GuiIn.firstBasins (x : GuiIn K C D) : List ℕ := (List.range x.nb).filter fun b => decide (x.basinAtom b = 0)

/-- `set_bader` of the window and of its tabs, `main.py:70-135`, `basin_tab.py:42-110`, `surface_tab.py:166-184`, `atom_tab.py:62-173`, `view_tab.py:110-122`:
a new plot; the controls that are set again are the limits, the values of spin boxes, the colour of the caps and the two tables. -/
def Gui.load (P : Contours K D M) (rnd : ℕ → K → K) (c : Controls K C) (x : GuiIn K C D) : Gui K C D M :=
  let p0 := (PlotSt.new P x.plotIn).session P [.mask (x.masked x.firstBasins), .mask (x.masked x.firstBasins)]
  let p := p0.op P (.capColor p0.capColor)
  { inp := x, plot := p, basins := x.firstBasins
    ctl := { c with
      iso := spin rnd 4 p.minVal p.maxVal p.isoVal
      surfaceOpacity := spin rnd 2 0 1 p.surfaceOpacity
      capOpacity := spin rnd 2 0 1 p.capOpacity
      capColor := p0.capColor
      metal := spin rnd 2 0 1 p.metal
      thickness := spin rnd 2 (1 / 100) 10 p.width
      atomVisible := fun _ => true
      atomRadius := fun i => spinRadius rnd (x.radius i)
      atomColor := x.color
      speciesVisible := fun _ => true
      speciesRadius := fun s => match (List.range x.n).find? (fun i => decide (x.species i = s)) with
        | some i => spinRadius rnd (x.radius i)
        | none => 0
      basinOn := fun b => decide (x.basinAtom b = 0)
      atomBasinOn := fun a => decide (a = 0) } }

/-- The controls of a window that was just opened, `surface_tab.py:54-161`, `view_tab.py:41-67`; the others are set by `load`. -/
def Controls.fresh (viridis gold : C) : Controls K C :=
  { lattice := true, thickness := 0, metal := 0, showSurface := true, showCaps := true, solidSurface := false, solidCap := false, surfaceColor := gold
    capColor := gold, colormap := viridis, surfaceOpacity := 0, capOpacity := 0, iso := 0, atomVisible := fun _ => true, atomRadius := fun _ => 0
    atomColor := fun _ => gold, speciesVisible := fun _ => true, speciesRadius := fun _ => 0, basinOn := fun _ => false, atomBasinOn := fun _ => false }

/-- What a user does. For `main.py:137-144`, `surface_tab.py:44-161`. -/
inductive GuiEv (K C D : Type)
  | lattice (b : Bool)
  | thickness (x : K)
  | metallic (x : K)
  | showSurface (b : Bool)
  | showCaps (b : Bool)
  | solidSurface (b : Bool)
  | solidCap (b : Bool)
  | surfaceColor (c : C)
  | capColor (c : C)
  | colormap (c : C)
  | surfaceOpacity (x : K)
  | capOpacity (x : K)
  | iso (x : K)
  | atomVisible (i : ℕ)
  | speciesVisible (s : ℕ)
  | atomRadius (i : ℕ) (x : K)
  | speciesRadius (s : ℕ) (x : K)
  | atomColor (i : ℕ) (c : C)
  | speciesColor (s : ℕ) (c : C)
  | basin (b : ℕ)
  | atomBasins (a : ℕ)
  /-- a new result of the Bader tab -/
  | rerun (x : GuiIn K C D)

/-- The check box of an atom changes, `atom_tab.py:156-161,189-194`. -/
def Gui.setVisible (P : Contours K D M) (g : Gui K C D M) (i : ℕ) (v : Bool) : Gui K C D M :=
  let f := Function.update g.ctl.atomVisible i v
  { g with ctl := { g.ctl with atomVisible := f }, plot := g.plot.op P (.visibleAtoms ((List.range g.inp.n).filter fun i => f i)) }

/-- `setChecked` of an atom, `atom_tab.py:161`: nothing happens without a change. -/
def Gui.checkVisible (P : Contours K D M) (g : Gui K C D M) (i : ℕ) (v : Bool) : Gui K C D M :=
  if g.ctl.atomVisible i = v then g else g.setVisible P i v

/-- The colour of an atom is set, `atom_tab.py:147-153,182-187`. -/
def Gui.setColor (P : Contours K D M) (g : Gui K C D M) (i : ℕ) (c : C) : Gui K C D M :=
  let f := Function.update g.ctl.atomColor i c
  { g with ctl := { g.ctl with atomColor := f }, plot := g.plot.op P (.colors f) }

/-- All radii of the table are assigned, `atom_tab.py:175-180`. -/
def Gui.setRadii (P : Contours K D M) (g : Gui K C D M) (f : ℕ → K) : Gui K C D M :=
  { g with ctl := { g.ctl with atomRadius := f }, plot := g.plot.op P (.radii f) }

/-- The check box of a basin changes, `basin_tab.py:92-97,112-116`. -/
def Gui.setBasin (P : Contours K D M) (g : Gui K C D M) (b : ℕ) (v : Bool) : Gui K C D M :=
  let f := Function.update g.ctl.basinOn b v
  let l := (List.range g.inp.nb).filter fun b => f b
  { g with ctl := { g.ctl with basinOn := f }, basins := l, plot := g.plot.op P (.mask (g.inp.masked l)) }

/-- `setChecked` of a basin, `basin_tab.py:99`. -/
def Gui.checkBasin (P : Contours K D M) (g : Gui K C D M) (b : ℕ) (v : Bool) : Gui K C D M :=
  if g.ctl.basinOn b = v then g else g.setBasin P b v

/-- The rows of a species, `atom_tab.py:129-131`. -/
def GuiIn.rowsOf (x : GuiIn K C D) (s : ℕ) : List ℕ := (List.range x.n).filter fun i => decide (x.species i = s)

/-- The basins of an atom, `basin_tab.py:83,99`. -/
def GuiIn.basinsOf (x : GuiIn K C D) (a : ℕ) : List ℕ := (List.range x.nb).filter fun b => decide (x.basinAtom b = a)

/-- One event, `main.py:137-144` with the connections of the tabs (`surface_tab.py:44-161`, `view_tab.py:41-53`, `atom_tab.py:95-161`, `basin_tab.py:97-99`). -/
def Gui.step (P : Contours K D M) (rnd : ℕ → K → K) (g : Gui K C D M) : GuiEv K C D → Gui K C D M
  | .lattice b => { g with ctl := { g.ctl with lattice := b }, plot := g.plot.op P (.showLattice b) }
  | .thickness x => let v := spin rnd 2 (1 / 100) 10 x; { g with ctl := { g.ctl with thickness := v }, plot := g.plot.op P (.thickness v) }
  | .metallic x => let v := spin rnd 2 0 1 x; { g with ctl := { g.ctl with metal := v }, plot := g.plot.op P (.metallic v) }
  | .showSurface b => { g with ctl := { g.ctl with showSurface := b }, plot := g.plot.op P (.showSurface b) }
  | .showCaps b => { g with ctl := { g.ctl with showCaps := b }, plot := g.plot.op P (.showCaps b) }
  /- the picker that is enabled sets its colour again, `color_picker.py:57-65` -/
  | .solidSurface b =>
    { g with
      ctl := { g.ctl with solidSurface := b }
      plot := g.plot.session P (if b then [.solidSurface b, .surfaceColor g.ctl.surfaceColor] else [.solidSurface b]) }
  | .solidCap b =>
    { g with
      ctl := { g.ctl with solidCap := b }
      plot := g.plot.session P (if b then [.solidCap b, .capColor g.ctl.capColor] else [.solidCap b]) }
  | .surfaceColor c => { g with ctl := { g.ctl with surfaceColor := c }, plot := g.plot.op P (.surfaceColor c) }
  | .capColor c => { g with ctl := { g.ctl with capColor := c }, plot := g.plot.op P (.capColor c) }
  | .colormap c => { g with ctl := { g.ctl with colormap := c }, plot := g.plot.op P (.colormap c) }
  | .surfaceOpacity x => let v := spin rnd 2 0 1 x; { g with ctl := { g.ctl with surfaceOpacity := v }, plot := g.plot.op P (.surfaceOpacity v) }
  | .capOpacity x => let v := spin rnd 2 0 1 x; { g with ctl := { g.ctl with capOpacity := v }, plot := g.plot.op P (.capOpacity v) }
  | .iso x => let v := spin rnd 4 g.plot.minVal g.plot.maxVal x; { g with ctl := { g.ctl with iso := v }, plot := g.plot.op P (.isoVal v) }
  | .atomVisible i => g.setVisible P i (!g.ctl.atomVisible i)
  | .speciesVisible s =>
    let v := !g.ctl.speciesVisible s
    (g.inp.rowsOf s).foldl (fun g i => g.checkVisible P i v) { g with ctl := { g.ctl with speciesVisible := Function.update g.ctl.speciesVisible s v } }
  | .atomRadius i x => g.setRadii P (Function.update g.ctl.atomRadius i (spinRadius rnd x))
  /- the rows of the species follow when the value changes, `atom_tab.py:145` -/
  | .speciesRadius s x =>
    let v := spinRadius rnd x
    let f := if v = g.ctl.speciesRadius s then g.ctl.atomRadius else fun i => if g.inp.species i = s then v else g.ctl.atomRadius i
    { g with ctl := { g.ctl with speciesRadius := Function.update g.ctl.speciesRadius s v } }.setRadii P f
  | .atomColor i c => g.setColor P i c
  | .speciesColor s c => (g.inp.rowsOf s).foldl (fun g i => g.setColor P i c) g
  | .basin b => g.setBasin P b (!g.ctl.basinOn b)
  | .atomBasins a =>
    let v := !g.ctl.atomBasinOn a
    (g.inp.basinsOf a).foldl (fun g b => g.checkBasin P b v) { g with ctl := { g.ctl with atomBasinOn := Function.update g.ctl.atomBasinOn a v } }
  | .rerun x => Gui.load P rnd g.ctl x

/-- A session. For `main.py:137-144`, `surface_tab.py:44-161`. -/
def Gui.session (P : Contours K D M) (rnd : ℕ → K → K) (g : Gui K C D M) (es : List (GuiEv K C D)) : Gui K C D M := es.foldl (fun g e => g.step P rnd e) g

end BaderKit
