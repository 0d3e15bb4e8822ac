import Verif.Model.Plotter
import Mathlib.Algebra.Order.Ring.Rat
import Mathlib.Tactic.Linarith
import Mathlib.Tactic.NormNum
/-!
# What a plot shows after any session of assignments
-/
set_option linter.unusedSectionVars false
namespace BaderKit
variable {K : Type} [Field K] [LinearOrder K] {C D M : Type} [DecidableEq C]

/-! ## Specification -/

/-- Every atom is drawn with its radius, colour and gloss, and is visible when it is listed. -/
def AtomsShown (s : PlotSt K C D M) (w : Window K C M) : Prop := ∀ i < s.n, w.atoms i = ⟨s.radii i, s.colors i, s.metal, decide (i ∈ s.visible)⟩

/-- The outline of the cell is drawn as set. -/
def LatticeShown (s : PlotSt K C D M) (w : Window K C M) : Prop := w.lattice = ⟨s.width, s.showLattice⟩

/-- A surface that is switched on and not empty is drawn with its mesh and style; otherwise nothing is visible. -/
def SurfShown (on : Bool) (none? : Bool) (mesh : M) (opacity : K) (paint : Paint K C) (a : Option (SurfActor K C M)) : Prop :=
  if on = true ∧ none? = false then a = some ⟨mesh, opacity, paint, true⟩ else ∀ b, a = some b → b.shown = false

/-- How the isosurface is coloured. -/
def isoPaint (s : PlotSt K C D M) : Paint K C := if s.solidSurface then .solid s.surfaceColor else .map s.colormap s.minVal s.maxVal

/-- How the caps are coloured. -/
def capsPaint (s : PlotSt K C D M) : Paint K C := if s.solidCap then .solid s.capColor else .map s.colormap s.minVal s.maxVal

/-- The isosurface is the contour of the data at the value that is set. -/
def IsoShown (P : Contours K D M) (s : PlotSt K C D M) (w : Window K C M) : Prop :=
  SurfShown s.showSurface (P.noPoints (P.contour s.data s.isoVal)) (P.contour s.data s.isoVal) s.surfaceOpacity (isoPaint s) w.iso

/-- The caps cover the part of the boundary from the value of the surface to the largest one. -/
def CapsShown (P : Contours K D M) (s : PlotSt K C D M) (w : Window K C M) : Prop :=
  SurfShown s.showCaps (P.noPoints (P.banded s.data s.isoVal s.maxVal)) (P.banded s.data s.isoVal s.maxVal) s.capOpacity (capsPaint s) w.cap

/-- The radii that are assigned do not change the radius of a hidden atom. -/
def KeepsHidden (s : PlotSt K C D M) : PlotOp K C D → Prop
  | .radii f => ∀ i < s.n, i ∉ s.visible → fixRadius (f i) = s.radii i
  | _ => True

/-- The assignments of a session that keep `Q`, each in the state in which it is made. -/
def Along (P : Contours K D M) (Q : PlotSt K C D M → PlotOp K C D → Prop) : PlotSt K C D M → List (PlotOp K C D) → Prop
  | _, [] => True
  | s, o :: os => Q s o ∧ Along P Q (s.op P o) os

/-- Assignments other than hiding a surface and changing the limits of the colours. -/
def KeepsOn : PlotOp K C D → Prop
  | .showSurface b => b = true
  | .showCaps b => b = true
  | .minVal _ => False
  | .maxVal _ => False
  | _ => True

/-! ## The setters -/

theorem addIso_rest (P : Contours K D M) (s : PlotSt K C D M) : ∃ w : Option (SurfActor K C M), s.addIso P = { s with win := { s.win with iso := w } } := by
  unfold PlotSt.addIso
  by_cases h : s.showSurface = true
  · rw [if_pos h]; exact ⟨_, rfl⟩
  · rw [if_neg h]; exact ⟨s.win.iso, rfl⟩

theorem addCap_rest (P : Contours K D M) (s : PlotSt K C D M) : ∃ w : Option (SurfActor K C M), s.addCap P = { s with win := { s.win with cap := w } } := by
  unfold PlotSt.addCap
  by_cases h : s.showCaps = true
  · rw [if_pos h]; exact ⟨_, rfl⟩
  · rw [if_neg h]; exact ⟨s.win.cap, rfl⟩

theorem setIso_rest (P : Contours K D M) (s : PlotSt K C D M) (x : K) : ∃ w w' : Option (SurfActor K C M), s.setIso P x =
    { s with
      isoVal := max s.minVal (min x s.maxVal), isoMesh := P.contour s.data (max s.minVal (min x s.maxVal))
      capMesh := P.banded s.data (max s.minVal (min x s.maxVal)) s.maxVal, win := { s.win with iso := w, cap := w' } } := by
  unfold PlotSt.setIso
  obtain ⟨w, h⟩ := addIso_rest P (({ s with isoVal := max s.minVal (min x s.maxVal) } : PlotSt K C D M).updateMesh P (max s.minVal (min x s.maxVal)))
  dsimp only
  rw [h]
  obtain ⟨w', h'⟩ := addCap_rest P ({ (({ s with isoVal := max s.minVal (min x s.maxVal) } : PlotSt K C D M).updateMesh P (max s.minVal (min x s.maxVal))) with
    win := { s.win with iso := w } } : PlotSt K C D M)
  exact ⟨w, w', h'⟩

/-- The atoms and the outline depend only on their own settings. -/
theorem surf_op_rest (P : Contours K D M) (s : PlotSt K C D M) (o : PlotOp K C D) :
    (∃ l, o = .visibleAtoms l) ∨ (∃ f, o = .colors f) ∨ (∃ f, o = .radii f) ∨ (∃ x, o = .metallic x) ∨ (∃ b, o = .showLattice b) ∨ (∃ x, o = .thickness x) ∨
    ((s.op P o).win.atoms = s.win.atoms ∧ (s.op P o).win.lattice = s.win.lattice ∧ (s.op P o).n = s.n ∧ (s.op P o).visible = s.visible ∧
      (s.op P o).colors = s.colors ∧ (s.op P o).radii = s.radii ∧ (s.op P o).metal = s.metal ∧ (s.op P o).width = s.width ∧
      (s.op P o).showLattice = s.showLattice) := by
  cases o with
  | visibleAtoms l => exact Or.inl ⟨l, rfl⟩
  | colors f => exact Or.inr (Or.inl ⟨f, rfl⟩)
  | radii f => exact Or.inr (Or.inr (Or.inl ⟨f, rfl⟩))
  | metallic x => exact Or.inr (Or.inr (Or.inr (Or.inl ⟨x, rfl⟩)))
  | showLattice b => exact Or.inr (Or.inr (Or.inr (Or.inr (Or.inl ⟨b, rfl⟩))))
  | thickness x => exact Or.inr (Or.inr (Or.inr (Or.inr (Or.inr (Or.inl ⟨x, rfl⟩)))))
  | showSurface b => right; right; right; right; right; right; exact ⟨rfl, rfl, rfl, rfl, rfl, rfl, rfl, rfl, rfl⟩
  | showCaps b => right; right; right; right; right; right; exact ⟨rfl, rfl, rfl, rfl, rfl, rfl, rfl, rfl, rfl⟩
  | surfaceOpacity x => right; right; right; right; right; right; exact ⟨rfl, rfl, rfl, rfl, rfl, rfl, rfl, rfl, rfl⟩
  | capOpacity x => right; right; right; right; right; right; exact ⟨rfl, rfl, rfl, rfl, rfl, rfl, rfl, rfl, rfl⟩
  | colormap c =>
    right; right; right; right; right; right
    simp only [PlotSt.op]
    obtain ⟨w, h⟩ := addIso_rest P ({ s with colormap := c } : PlotSt K C D M)
    rw [h]
    obtain ⟨w1, h1⟩ := addCap_rest P ({ s with colormap := c } : PlotSt K C D M)
    obtain ⟨w2, h2⟩ := addCap_rest P ({ s with colormap := c, win := { s.win with iso := w } } : PlotSt K C D M)
    split_ifs
    · exact ⟨rfl, rfl, rfl, rfl, rfl, rfl, rfl, rfl, rfl⟩
    · rw [h1]; exact ⟨rfl, rfl, rfl, rfl, rfl, rfl, rfl, rfl, rfl⟩
    · exact ⟨rfl, rfl, rfl, rfl, rfl, rfl, rfl, rfl, rfl⟩
    · rw [h2]; exact ⟨rfl, rfl, rfl, rfl, rfl, rfl, rfl, rfl, rfl⟩
  | minVal x =>
    right; right; right; right; right; right
    obtain ⟨w, h⟩ := addCap_rest P ({ s with minVal := min s.maxVal x } : PlotSt K C D M)
    simp only [PlotSt.op, h, and_self]
  | maxVal x =>
    right; right; right; right; right; right
    obtain ⟨w, h⟩ := addCap_rest P ({ s with maxVal := max s.minVal x } : PlotSt K C D M)
    simp only [PlotSt.op, h, and_self]
  | solidSurface b =>
    right; right; right; right; right; right
    obtain ⟨w, h⟩ := addIso_rest P ({ s with solidSurface := b } : PlotSt K C D M)
    simp only [PlotSt.op, h, and_self]
  | solidCap b =>
    right; right; right; right; right; right
    obtain ⟨w, h⟩ := addCap_rest P ({ s with solidCap := b } : PlotSt K C D M)
    simp only [PlotSt.op, h, and_self]
  | surfaceColor c =>
    right; right; right; right; right; right
    obtain ⟨w, h⟩ := addIso_rest P ({ s with surfaceColor := c } : PlotSt K C D M)
    simp only [PlotSt.op, h]
    split_ifs <;> exact ⟨rfl, rfl, rfl, rfl, rfl, rfl, rfl, rfl, rfl⟩
  | capColor c =>
    right; right; right; right; right; right
    obtain ⟨w, h⟩ := addCap_rest P ({ s with capColor := c } : PlotSt K C D M)
    simp only [PlotSt.op, h]
    split_ifs <;> exact ⟨rfl, rfl, rfl, rfl, rfl, rfl, rfl, rfl, rfl⟩
  | isoVal x =>
    right; right; right; right; right; right
    obtain ⟨w, w', h⟩ := setIso_rest P s x
    simp only [PlotSt.op, h, and_self]
  | mask d =>
    right; right; right; right; right; right
    obtain ⟨w, w', h⟩ := setIso_rest P ({ s with data := d } : PlotSt K C D M) s.isoVal
    simp only [PlotSt.op, h, and_self]

theorem op_n (P : Contours K D M) (s : PlotSt K C D M) (o : PlotOp K C D) : (s.op P o).n = s.n := by
  rcases surf_op_rest P s o with ⟨l, rfl⟩ | ⟨f, rfl⟩ | ⟨f, rfl⟩ | ⟨x, rfl⟩ | ⟨b, rfl⟩ | ⟨x, rfl⟩ | ⟨_, _, h, _⟩
  iterate 6 rfl
  exact h

theorem atoms_op (P : Contours K D M) {s : PlotSt K C D M} (h : AtomsShown s s.win) (o : PlotOp K C D) (hk : KeepsHidden s o) :
    AtomsShown (s.op P o) (s.op P o).win := by
  intro i hi
  rw [op_n] at hi
  have e := h i hi
  rcases surf_op_rest P s o with ⟨l, rfl⟩ | ⟨f, rfl⟩ | ⟨f, rfl⟩ | ⟨x, rfl⟩ | ⟨b, rfl⟩ | ⟨x, rfl⟩ | ⟨h1, _, _, h2, h3, h4, h5, _⟩
  · simp only [PlotSt.op, e]; rfl
  · simp only [PlotSt.op, e]
    split_ifs with hc
    · rw [hc]
    · rfl
  · simp only [PlotSt.op, e]
    split_ifs with hc
    · rw [hc]; rfl
    · have : i ∈ s.visible := by
        by_contra hv
        exact hc (hk i hi hv).symm
      simp [this]
  · simp only [PlotSt.op, e]; rfl
  · exact e
  · exact e
  · rw [h1, h2, h3, h4, h5]; exact e

theorem new_atoms (P : Contours K D M) (x : PlotIn K C D) : AtomsShown (PlotSt.new P x : PlotSt K C D M) (PlotSt.new P x).win := fun _ _ => rfl

/-- **C106** After any session of assignments in which no radius of a hidden atom is changed, every atom is drawn with the radius, colour and gloss that
are set, and is visible exactly when it is listed in `visible_atoms`.  Missing for the full claim: changed radii of hidden atoms
(`C106_radius_shows_hidden`). -/
theorem C106_atoms_partial (P : Contours K D M) (x : PlotIn K C D) (os : List (PlotOp K C D)) (hk : Along P KeepsHidden (PlotSt.new P x) os) :
    AtomsShown ((PlotSt.new P x).session P os) ((PlotSt.new P x).session P os).win := by
  have key : ∀ (os : List (PlotOp K C D)) (s : PlotSt K C D M), AtomsShown s s.win → Along P KeepsHidden s os →
      AtomsShown (s.session P os) (s.session P os).win := by
    intro os
    induction os with
    | nil => intro s h _; exact h
    | cons o os ih => intro s h hk; exact ih _ (atoms_op P h o hk.1) hk.2
  exact key os _ (new_atoms P x) hk

/-- **C106** (negative part) A new radius makes a hidden atom visible, whatever was done before; it stays off the list. -/
theorem C106_radius_shows_hidden (P : Contours K D M) (s : PlotSt K C D M) (f : ℕ → K) (i : ℕ) (hv : i ∉ s.visible) (hr : fixRadius (f i) ≠ s.radii i) :
    ((s.op P (.radii f)).win.atoms i).shown = true ∧ i ∉ (s.op P (.radii f)).visible := by
  refine ⟨?_, hv⟩
  simp only [PlotSt.op, if_neg (Ne.symm hr)]

/-- **C106** Whatever was done before: after an assignment of `visible_atoms` exactly the atoms of the list are visible. -/
theorem C106_visible_restored (P : Contours K D M) (s : PlotSt K C D M) (l : List ℕ) (i : ℕ) :
    ((s.op P (.visibleAtoms l)).win.atoms i).shown = decide (i ∈ l) ∧ (s.op P (.visibleAtoms l)).visible = l := ⟨rfl, rfl⟩

/-- **C106** (negative part) A table of the atoms that hides an atom and gives it a new radius leaves it visible. -/
theorem C106_table_shows_hidden (P : Contours K D M) (s : PlotSt K C D M) (visible : ℕ → Bool) (colors : ℕ → C) (radii : ℕ → K) (i : ℕ)
    (hv : visible i = false) (hr : fixRadius (radii i) ≠ s.radii i) : ((s.setTable P visible colors radii).win.atoms i).shown = true := by
  have := C106_radius_shows_hidden P ((s.op P (.visibleAtoms ((List.range s.n).filter fun i => visible i))).op P (.colors colors)) radii i (by
    simp only [PlotSt.op, List.mem_filter, hv, Bool.false_eq_true, and_false, not_false_eq_true]) hr
  exact this.1

/-- **C106** The outline of the cell follows its settings after any session. -/
theorem C106_lattice (P : Contours K D M) (x : PlotIn K C D) (os : List (PlotOp K C D)) :
    LatticeShown ((PlotSt.new P x).session P os) ((PlotSt.new P x : PlotSt K C D M).session P os).win := by
  have key : ∀ (os : List (PlotOp K C D)) (s : PlotSt K C D M), LatticeShown s s.win → LatticeShown (s.session P os) (s.session P os).win := by
    intro os
    induction os with
    | nil => intro s h; exact h
    | cons o os ih =>
      intro s h
      refine ih _ ?_
      have h' : s.win.lattice = ⟨s.width, s.showLattice⟩ := h
      show (s.op P o).win.lattice = ⟨(s.op P o).width, (s.op P o).showLattice⟩
      rcases surf_op_rest P s o with ⟨l, rfl⟩ | ⟨f, rfl⟩ | ⟨f, rfl⟩ | ⟨x, rfl⟩ | ⟨b, rfl⟩ | ⟨x, rfl⟩ | ⟨_, h1, _, _, _, _, _, h2, h3⟩
      · exact h'
      · exact h'
      · exact h'
      · exact h'
      · simp only [PlotSt.op, h']
      · simp only [PlotSt.op, h']
      · rw [h1, h2, h3]; exact h'
  exact key os _ rfl

/-! ## The surfaces -/

/-- Both surfaces are on, their meshes belong to the settings, and they are drawn. -/
structure SurfOk (P : Contours K D M) (s : PlotSt K C D M) : Prop where
  on : s.showSurface = true
  onC : s.showCaps = true
  mesh : s.isoMesh = P.contour s.data s.isoVal
  meshC : s.capMesh = P.banded s.data s.isoVal s.maxVal
  iso : s.win.iso = if P.noPoints s.isoMesh then none else some ⟨s.isoMesh, s.surfaceOpacity, isoPaint s, true⟩
  cap : s.win.cap = if P.noPoints s.isoMesh then none else some ⟨s.capMesh, s.capOpacity, capsPaint s, true⟩

theorem surfOk_setIso (P : Contours K D M) (s : PlotSt K C D M) (x : K) (h : s.showSurface = true) (hc : s.showCaps = true) : SurfOk P (s.setIso P x) := by
  unfold PlotSt.setIso PlotSt.updateMesh PlotSt.addIso
  dsimp only
  rw [if_pos h]
  unfold PlotSt.addCap
  dsimp only
  rw [if_pos hc]
  exact ⟨h, hc, rfl, rfl, rfl, rfl⟩

theorem addIso_on (P : Contours K D M) (u : PlotSt K C D M) (hu : u.showSurface = true) : u.addIso P =
    { u with win := { u.win with iso := if P.noPoints u.isoMesh then none else some ⟨u.isoMesh, u.surfaceOpacity, u.surfacePaint, true⟩ } } := by
  unfold PlotSt.addIso
  rw [if_pos hu]

theorem addCap_on (P : Contours K D M) (u : PlotSt K C D M) (hu : u.showCaps = true) : u.addCap P =
    { u with win := { u.win with cap := if P.noPoints u.isoMesh then none else some ⟨u.capMesh, u.capOpacity, u.capPaint, true⟩ } } := by
  unfold PlotSt.addCap
  rw [if_pos hu]

theorem surfOk_op (P : Contours K D M) {s : PlotSt K C D M} (h : SurfOk P s) (o : PlotOp K C D) (hk : KeepsOn o) : SurfOk P (s.op P o) := by
  cases o with
  | visibleAtoms l => exact ⟨h.on, h.onC, h.mesh, h.meshC, h.iso, h.cap⟩
  | colors f => exact ⟨h.on, h.onC, h.mesh, h.meshC, h.iso, h.cap⟩
  | radii f => exact ⟨h.on, h.onC, h.mesh, h.meshC, h.iso, h.cap⟩
  | metallic x => exact ⟨h.on, h.onC, h.mesh, h.meshC, h.iso, h.cap⟩
  | showLattice b => exact ⟨h.on, h.onC, h.mesh, h.meshC, h.iso, h.cap⟩
  | thickness x => exact ⟨h.on, h.onC, h.mesh, h.meshC, h.iso, h.cap⟩
  | showSurface b =>
    have hb : b = true := hk
    subst hb
    refine ⟨rfl, h.onC, h.mesh, h.meshC, ?_, h.cap⟩
    simp only [PlotSt.op, h.iso]
    split_ifs <;> rfl
  | showCaps b =>
    have hb : b = true := hk
    subst hb
    refine ⟨h.on, rfl, h.mesh, h.meshC, h.iso, ?_⟩
    simp only [PlotSt.op, h.cap]
    split_ifs <;> rfl
  | surfaceOpacity x =>
    refine ⟨h.on, h.onC, h.mesh, h.meshC, ?_, h.cap⟩
    simp only [PlotSt.op, h.iso]
    split_ifs <;> rfl
  | capOpacity x =>
    refine ⟨h.on, h.onC, h.mesh, h.meshC, h.iso, ?_⟩
    simp only [PlotSt.op, h.cap]
    split_ifs <;> rfl
  | colormap c =>
    simp only [PlotSt.op]
    rw [addIso_on P { s with colormap := c } h.on]
    have hi : s.solidSurface = true → s.win.iso = if P.noPoints s.isoMesh then none
        else some ⟨s.isoMesh, s.surfaceOpacity, isoPaint ({ s with colormap := c } : PlotSt K C D M), true⟩ := fun h1 => by
      simp only [h.iso, isoPaint, h1, if_true]
    have hj : s.solidCap = true → s.win.cap = if P.noPoints s.isoMesh then none
        else some ⟨s.capMesh, s.capOpacity, capsPaint ({ s with colormap := c } : PlotSt K C D M), true⟩ := fun h1 => by
      simp only [h.cap, capsPaint, h1, if_true]
    by_cases h1 : s.solidSurface = true <;> by_cases h2 : s.solidCap = true
    · rw [if_pos h1, if_pos h2]
      exact ⟨h.on, h.onC, h.mesh, h.meshC, hi h1, hj h2⟩
    · rw [if_pos h1, if_neg h2, addCap_on P _ (by exact h.onC)]
      exact ⟨h.on, h.onC, h.mesh, h.meshC, hi h1, rfl⟩
    · rw [if_neg h1, if_pos h2]
      exact ⟨h.on, h.onC, h.mesh, h.meshC, rfl, hj h2⟩
    · rw [if_neg h1, if_neg h2, addCap_on P _ (by exact h.onC)]
      exact ⟨h.on, h.onC, h.mesh, h.meshC, rfl, rfl⟩
  | minVal x => exact hk.elim
  | maxVal x => exact hk.elim
  | solidSurface b =>
    simp only [PlotSt.op]
    rw [addIso_on P _ (by exact h.on)]
    exact ⟨h.on, h.onC, h.mesh, h.meshC, rfl, h.cap⟩
  | solidCap b =>
    simp only [PlotSt.op]
    rw [addCap_on P _ (by exact h.onC)]
    exact ⟨h.on, h.onC, h.mesh, h.meshC, h.iso, rfl⟩
  | surfaceColor c =>
    simp only [PlotSt.op]
    split_ifs with h1
    · rw [addIso_on P _ (by exact h.on)]
      exact ⟨h.on, h.onC, h.mesh, h.meshC, rfl, h.cap⟩
    · exact ⟨h.on, h.onC, h.mesh, h.meshC, by simp only [h.iso, isoPaint, h1, Bool.false_eq_true, if_false], h.cap⟩
  | capColor c =>
    simp only [PlotSt.op]
    split_ifs with h1
    · rw [addCap_on P _ (by exact h.onC)]
      exact ⟨h.on, h.onC, h.mesh, h.meshC, h.iso, rfl⟩
    · exact ⟨h.on, h.onC, h.mesh, h.meshC, h.iso, by simp only [h.cap, capsPaint, h1, Bool.false_eq_true, if_false]⟩
  | isoVal x => exact surfOk_setIso P s x h.on h.onC
  | mask d => exact surfOk_setIso P { s with data := d } s.isoVal h.on h.onC

theorem surfOk_shown {P : Contours K D M} {s : PlotSt K C D M} (h : SurfOk P s) : IsoShown P s s.win ∧
    (P.noPoints (P.contour s.data s.isoVal) = P.noPoints (P.banded s.data s.isoVal s.maxVal) → CapsShown P s s.win) := by
  constructor
  · unfold IsoShown SurfShown
    rw [h.iso, h.mesh]
    cases hn : P.noPoints (P.contour s.data s.isoVal) <;> simp [h.on]
  · intro e
    unfold CapsShown SurfShown
    rw [h.cap, h.mesh, h.meshC, ← e]
    cases hn : P.noPoints (P.contour s.data s.isoVal) <;> simp [h.onC]

theorem new_surfOk (P : Contours K D M) (hP : ∀ d v w, P.noPoints (P.contour d v) = P.noPoints (P.banded d v w)) (x : PlotIn K C D) :
    SurfOk P (PlotSt.new P x : PlotSt K C D M) := by
  refine ⟨rfl, rfl, rfl, rfl, rfl, ?_⟩
  show (if P.noPoints (P.banded _ _ _) then none else _) = _
  rw [← hP x.data (x.lo + 1 / 10 ^ 7 * x.lo) x.hi]
  rfl

/-- **C106** After any session of assignments that hides no surface and leaves the limits of the colours alone, the isosurface and the caps are those of
the value, the data (also after basins were shown or hidden), the opacity and the colours that are set, if caps are empty only together with the surface.
Missing for the full claim: hidden surfaces (`C106_stale_surface`), limits (`C106_limits_stale`, `C106_band_stale`), caps without a surface
(`C106_caps_missing`). -/
theorem C106_surfaces_partial (P : Contours K D M) (hP : ∀ d v w, P.noPoints (P.contour d v) = P.noPoints (P.banded d v w)) (x : PlotIn K C D)
    (os : List (PlotOp K C D)) (hk : ∀ o ∈ os, KeepsOn o) :
    let s : PlotSt K C D M := (PlotSt.new P x).session P os
    IsoShown P s s.win ∧ CapsShown P s s.win := by
  have key : ∀ (os : List (PlotOp K C D)) (s : PlotSt K C D M), (∀ o ∈ os, KeepsOn o) → SurfOk P s → SurfOk P (s.session P os) := by
    intro os
    induction os with
    | nil => intro s _ h; exact h
    | cons o os ih => intro s hk h; exact ih _ (fun o' ho => hk o' (List.mem_cons_of_mem _ ho)) (surfOk_op P h o (hk o List.mem_cons_self))
  intro s
  have h := surfOk_shown (key os (PlotSt.new P x) hk (new_surfOk P hP x))
  exact ⟨h.1, h.2 (hP _ _ _)⟩

/-- **C106** Whatever was done before, an assignment of `iso_val` while both surfaces are switched on draws the isosurface of that value, limited to the
range, with the current settings, and the caps if the surface is not empty. -/
theorem C106_surfaces_restored (P : Contours K D M) (s : PlotSt K C D M) (x : K) (h : s.showSurface = true) (hc : s.showCaps = true) :
    let t := s.op P (.isoVal x)
    t.isoVal = max s.minVal (min x s.maxVal) ∧ IsoShown P t t.win ∧
      (P.noPoints (P.contour s.data t.isoVal) = false → P.noPoints (P.banded s.data t.isoVal s.maxVal) = false → CapsShown P t t.win) := by
  intro t
  obtain ⟨w, w', e⟩ := setIso_rest P s x
  have et : t = s.setIso P x := rfl
  have hs := surfOk_shown (surfOk_setIso P s x h hc)
  have hv : t.isoVal = max s.minVal (min x s.maxVal) := by rw [et, e]
  have hd : t.data = s.data := by rw [et, e]
  have hm : t.maxVal = s.maxVal := by rw [et, e]
  refine ⟨hv, hs.1, fun h1 h2 => hs.2 ?_⟩
  rw [← et, hd, hm, h1, h2]

/-- **C106** (negative part) While the surface is hidden a new value does not change it; shown again it is the old one, but `iso_val` is the new value. -/
theorem C106_stale_surface (P : Contours K D M) (s : PlotSt K C D M) (a : SurfActor K C M) (h : s.win.iso = some a) (x : K) :
    let t := s.session P [.showSurface false, .isoVal x, .showSurface true]
    t.win.iso = some { a with shown := true } ∧ t.isoVal = max s.minVal (min x s.maxVal) ∧ t.showSurface = true := by
  intro t
  have key : ∀ u : PlotSt K C D M, u.showSurface = false → (u.setIso P x).win.iso = u.win.iso ∧ (u.setIso P x).isoVal = max u.minVal (min x u.maxVal) := by
    intro u hu
    refine ⟨?_, by obtain ⟨w, w', e⟩ := setIso_rest P u x; rw [e]⟩
    unfold PlotSt.setIso
    dsimp only
    have e : ∀ v : PlotSt K C D M, v.showSurface = false → v.addIso P = v := fun v hv => by
      unfold PlotSt.addIso
      rw [if_neg (by rw [hv]; exact Bool.false_ne_true)]
    rw [e _ (by exact hu)]
    obtain ⟨w, h'⟩ := addCap_rest P (({ u with isoVal := max u.minVal (min x u.maxVal) } : PlotSt K C D M).updateMesh P (max u.minVal (min x u.maxVal)))
    rw [h']
    rfl
  obtain ⟨k1, k2⟩ := key (s.op P (.showSurface false)) rfl
  refine ⟨?_, k2, rfl⟩
  show (((s.op P (.showSurface false)).setIso P x).win.iso).map _ = _
  rw [k1]
  simp only [PlotSt.op, h, Option.map_some]

/-- **C106** (negative part) New limits of the colours are used for the caps only. -/
theorem C106_limits_stale (P : Contours K D M) (s : PlotSt K C D M) (x : K) :
    (s.op P (.minVal x)).win.iso = s.win.iso ∧ (s.op P (.maxVal x)).win.iso = s.win.iso ∧
    (s.op P (.minVal x)).minVal = min s.maxVal x ∧ (s.op P (.maxVal x)).maxVal = max s.minVal x := by
  obtain ⟨w, h⟩ := addCap_rest P ({ s with minVal := min s.maxVal x } : PlotSt K C D M)
  obtain ⟨w', h'⟩ := addCap_rest P ({ s with maxVal := max s.minVal x } : PlotSt K C D M)
  refine ⟨?_, ?_, ?_, ?_⟩
  · show (({ s with minVal := min s.maxVal x } : PlotSt K C D M).addCap P).win.iso = _; rw [h]
  · show (({ s with maxVal := max s.minVal x } : PlotSt K C D M).addCap P).win.iso = _; rw [h']
  · show (({ s with minVal := min s.maxVal x } : PlotSt K C D M).addCap P).minVal = _; rw [h]
  · show (({ s with maxVal := max s.minVal x } : PlotSt K C D M).addCap P).maxVal = _; rw [h']

/-- **C106** (negative part) A new largest value: the caps are still those up to the old one. -/
theorem C106_band_stale (P : Contours K D M) (s : PlotSt K C D M) (x : K) (h : SurfOk P s) (hn : P.noPoints s.isoMesh = false) :
    ((s.op P (.maxVal x)).win.cap.map fun a => a.mesh) = some (P.banded s.data s.isoVal s.maxVal) := by
  show ((({ s with maxVal := max s.minVal x } : PlotSt K C D M).addCap P).win.cap.map fun a => a.mesh) = _
  unfold PlotSt.addCap
  rw [if_pos (show ({ s with maxVal := max s.minVal x } : PlotSt K C D M).showCaps = true from h.onC)]
  dsimp only
  rw [hn]
  simp only [Bool.false_eq_true, if_false, Option.map_some, h.meshC]

/-! ## The range of values -/

/-- **C106** The limits stay in order during any session, and the value of the surface lies between the limits that were set when it was assigned. -/
theorem C106_range (P : Contours K D M) {s : PlotSt K C D M} (h : s.minVal ≤ s.maxVal) (os : List (PlotOp K C D)) (x : K) :
    (s.session P os).minVal ≤ (s.session P os).maxVal ∧
    (let t := (s.session P os).op P (.isoVal x)
     t.minVal ≤ t.isoVal ∧ t.isoVal ≤ t.maxVal ∧ (t.minVal ≤ x → x ≤ t.maxVal → t.isoVal = x)) := by
  have rest : ∀ (s : PlotSt K C D M) (o : PlotOp K C D), s.minVal ≤ s.maxVal → (s.op P o).minVal ≤ (s.op P o).maxVal := by
    intro s o h
    cases o with
    | colormap c =>
      simp only [PlotSt.op]
      obtain ⟨w, e⟩ := addIso_rest P ({ s with colormap := c } : PlotSt K C D M)
      rw [e]
      obtain ⟨w1, e1⟩ := addCap_rest P ({ s with colormap := c } : PlotSt K C D M)
      obtain ⟨w2, e2⟩ := addCap_rest P ({ s with colormap := c, win := { s.win with iso := w } } : PlotSt K C D M)
      split_ifs
      · exact h
      · rw [e1]; exact h
      · exact h
      · rw [e2]; exact h
    | minVal x =>
      obtain ⟨w, e⟩ := addCap_rest P ({ s with minVal := min s.maxVal x } : PlotSt K C D M)
      simp only [PlotSt.op, e]
      exact min_le_left _ _
    | maxVal x =>
      obtain ⟨w, e⟩ := addCap_rest P ({ s with maxVal := max s.minVal x } : PlotSt K C D M)
      simp only [PlotSt.op, e]
      exact le_max_left _ _
    | solidSurface b =>
      obtain ⟨w, e⟩ := addIso_rest P ({ s with solidSurface := b } : PlotSt K C D M)
      simp only [PlotSt.op, e]; exact h
    | solidCap b =>
      obtain ⟨w, e⟩ := addCap_rest P ({ s with solidCap := b } : PlotSt K C D M)
      simp only [PlotSt.op, e]; exact h
    | surfaceColor c =>
      obtain ⟨w, e⟩ := addIso_rest P ({ s with surfaceColor := c } : PlotSt K C D M)
      simp only [PlotSt.op, e]
      split_ifs <;> exact h
    | capColor c =>
      obtain ⟨w, e⟩ := addCap_rest P ({ s with capColor := c } : PlotSt K C D M)
      simp only [PlotSt.op, e]
      split_ifs <;> exact h
    | isoVal x =>
      obtain ⟨w, w', e⟩ := setIso_rest P s x
      simp only [PlotSt.op, e]; exact h
    | mask d =>
      obtain ⟨w, w', e⟩ := setIso_rest P ({ s with data := d } : PlotSt K C D M) s.isoVal
      simp only [PlotSt.op, e]; exact h
    | _ => exact h
  have all : ∀ (os : List (PlotOp K C D)) (s : PlotSt K C D M), s.minVal ≤ s.maxVal → (s.session P os).minVal ≤ (s.session P os).maxVal := by
    intro os
    induction os with
    | nil => intro s h; exact h
    | cons o os ih => intro s h; exact ih _ (rest s o h)
  have hf := all os s h
  refine ⟨hf, ?_⟩
  obtain ⟨w, w', e⟩ := setIso_rest P (s.session P os) x
  simp only [PlotSt.op, e]
  refine ⟨le_max_left _ _, max_le hf (min_le_right _ _), fun h1 h2 => ?_⟩
  rw [min_eq_left h2, max_eq_right h1]

/-! ## Pictures -/

/-- **C106** A picture is drawn from the settings: the atoms as set, and if nothing is switched off also the outline and both surfaces, whatever was done
before. -/
theorem C106_picture_partial (P : Contours K D M) (s : PlotSt K C D M) :
    AtomsShown s (s.screenshot P) ∧ (s.showLattice = true → LatticeShown s (s.screenshot P)) ∧
    (s.showSurface = true → IsoShown P s (s.screenshot P)) ∧ (s.showCaps = true → CapsShown P s (s.screenshot P)) := by
  refine ⟨fun _ _ => rfl, fun h => by show (⟨s.width, true⟩ : LatticeActor K) = ⟨s.width, s.showLattice⟩; rw [h], fun h => ?_, fun h => ?_⟩
  · show SurfShown s.showSurface (P.noPoints (P.contour s.data s.isoVal)) (P.contour s.data s.isoVal) s.surfaceOpacity (isoPaint s)
      (if P.noPoints (P.contour s.data s.isoVal) then none else some ⟨P.contour s.data s.isoVal, s.surfaceOpacity, isoPaint s, true⟩)
    unfold SurfShown
    rw [h]
    cases P.noPoints (P.contour s.data s.isoVal) <;> simp
  · show SurfShown s.showCaps (P.noPoints (P.banded s.data s.isoVal s.maxVal)) (P.banded s.data s.isoVal s.maxVal) s.capOpacity (capsPaint s)
      (if P.noPoints (P.banded s.data s.isoVal s.maxVal) then none else some ⟨P.banded s.data s.isoVal s.maxVal, s.capOpacity, capsPaint s, true⟩)
    unfold SurfShown
    rw [h]
    cases P.noPoints (P.banded s.data s.isoVal s.maxVal) <;> simp

/-- **C106** (negative part) A picture shows the outline and the surfaces although they are switched off. -/
theorem C106_picture_shows_hidden (P : Contours K D M) (s : PlotSt K C D M) :
    (s.screenshot P).lattice.shown = true ∧ (P.noPoints (P.contour s.data s.isoVal) = false → ∃ a, (s.screenshot P).iso = some a ∧ a.shown = true) ∧
    (P.noPoints (P.banded s.data s.isoVal s.maxVal) = false → ∃ a, (s.screenshot P).cap = some a ∧ a.shown = true) := by
  refine ⟨rfl, fun h => ⟨⟨P.contour s.data s.isoVal, s.surfaceOpacity, isoPaint s, true⟩, ?_, rfl⟩,
    fun h => ⟨⟨P.banded s.data s.isoVal s.maxVal, s.capOpacity, capsPaint s, true⟩, ?_, rfl⟩⟩
  · show (if P.noPoints (P.contour s.data s.isoVal) then none else some _) = _
    rw [h]; rfl
  · show (if P.noPoints (P.banded s.data s.isoVal s.maxVal) then none else some _) = _
    rw [h]; rfl

/-! ## Examples -/

/-- Data from `d.1` to `d.2`: a surface exists for values in between, caps for values not above the largest. -/
def smallPlot : Contours ℚ (ℚ × ℚ) (List ℚ) where
  contour := fun d v => if d.1 ≤ v ∧ v ≤ d.2 then [v] else []
  banded := fun d v w => if v ≤ d.2 then [v, w] else []
  noPoints := fun m => m.isEmpty

/-- Two atoms in data from 0 to 3. -/
def smallPlotIn : PlotIn ℚ ℕ (ℚ × ℚ) := ⟨2, fun i => i, fun _ => 1, (0, 3), 0, 3, 7, 8⟩

/-- Of `C106_atoms_partial`: an atom is hidden and the radius of the other one is changed. -/
example : Along smallPlot KeepsHidden (PlotSt.new smallPlot smallPlotIn) [.visibleAtoms [1], .radii fun i => if i = 0 then 1 else -3] ∧
    (let s := (PlotSt.new smallPlot smallPlotIn).session smallPlot [.visibleAtoms [1], .radii fun i => if i = 0 then 1 else -3]
     s.win.atoms 0 = ⟨1, 0, 0, false⟩ ∧ s.win.atoms 1 = ⟨1 / 100, 1, 0, true⟩) := by
  refine ⟨⟨trivial, ?_, trivial⟩, by decide +kernel, by decide +kernel⟩
  intro i hi hv
  have h2 : i < 2 := hi
  have h1 : i ∉ [1] := hv
  have h0 : i = 0 := by
    simp only [List.mem_singleton] at h1
    omega
  subst h0
  decide +kernel

/-- Of `C106_surfaces_partial`: contours that are empty together, and a session. -/
example : let P : Contours ℚ (ℚ × ℚ) (List ℚ) := ⟨smallPlot.contour, fun d v w => if d.1 ≤ v ∧ v ≤ d.2 then [v, w] else [], smallPlot.noPoints⟩
    (∀ d v w, P.noPoints (P.contour d v) = P.noPoints (P.banded d v w)) ∧
    ((PlotSt.new P smallPlotIn).session P [.isoVal 2, .solidSurface true, .surfaceColor 5, .mask (0, 5 / 2)]).win.iso = some ⟨[2], 8 / 10, .solid 5, true⟩ := by
  refine ⟨fun d v w => ?_, by decide +kernel⟩
  show (if d.1 ≤ v ∧ v ≤ d.2 then [v] else []).isEmpty = (if d.1 ≤ v ∧ v ≤ d.2 then [v, w] else []).isEmpty
  split_ifs <;> rfl

/-- **C106** (negative part) Caps without a surface: the new plot and a picture show them, an assignment of the same value removes them. -/
theorem C106_caps_missing :
    let s := PlotSt.new smallPlot { smallPlotIn with lo := -1, data := (0, 3) }
    (s.win.cap.map fun a => (a.mesh, a.shown)) = some ([-1 - 1 / 10 ^ 7, 3], true) ∧ (s.op smallPlot (.isoVal s.isoVal)).win.cap = none ∧
    (((s.op smallPlot (.isoVal s.isoVal)).screenshot smallPlot).cap.map fun a => (a.mesh, a.shown)) = some ([-1 - 1 / 10 ^ 7, 3], true) := by
  decide +kernel

/-- **C106** (negative part) Data that vary by less than a ten millionth: the smallest value of the plot is above the largest one and neither surface nor caps are drawn. -/
theorem C106_flat_data :
    let s := PlotSt.new smallPlot { smallPlotIn with lo := 1, hi := 1, data := (1, 1) }
    s.maxVal < s.minVal ∧ s.maxVal < s.isoVal ∧ s.win.iso = none ∧ s.win.cap = none := by decide +kernel

end BaderKit
