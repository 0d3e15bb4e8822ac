import Verif.Model.Gui
import Verif.Props.Plotter
import Mathlib.Algebra.Order.Floor.Ring
import Mathlib.Data.Rat.Floor
/-!
# The controls of the window and the plot
-/
set_option linter.unusedSectionVars false
namespace BaderKit
variable {K : Type} [Field K] [LinearOrder K] {C D M : Type} [DecidableEq C]

/-! ## Specification -/

/-- Rounding to decimals, as a spin box does it. -/
structure Rounds (rnd : ℕ → K → K) : Prop where
  mono : ∀ d, Monotone (rnd d)
  idem : ∀ d x, rnd d (rnd d x) = rnd d x
  cent : 0 < rnd 2 (1 / 100)

/-- The controls show what is set in the plot, numbers rounded to the decimals of their box: the row of an atom is about the same atom of the plot,
the row of a basin about that basin, and the data of the plot are the ones of the checked basins. -/
structure ControlsAgree (rnd : ℕ → K → K) (x : GuiIn K C D) (c : Controls K C) (l : List ℕ) (p : PlotSt K C D M) : Prop where
  lattice : c.lattice = p.showLattice
  thickness : c.thickness = spin rnd 2 (1 / 100) 10 p.width
  metal : c.metal = spin rnd 2 0 1 p.metal
  showSurface : c.showSurface = p.showSurface
  showCaps : c.showCaps = p.showCaps
  solidSurface : c.solidSurface = p.solidSurface
  solidCap : c.solidCap = p.solidCap
  surfaceColor : c.surfaceColor = p.surfaceColor
  capColor : c.capColor = p.capColor
  colormap : c.colormap = p.colormap
  surfaceOpacity : c.surfaceOpacity = spin rnd 2 0 1 p.surfaceOpacity
  capOpacity : c.capOpacity = spin rnd 2 0 1 p.capOpacity
  iso : c.iso = spin rnd 4 p.minVal p.maxVal p.isoVal
  atomVisible : ∀ j < x.n, c.atomVisible (x.order j) = decide (j ∈ p.visible)
  atomRadius : ∀ j < x.n, c.atomRadius (x.order j) = spinRadius rnd (p.radii j)
  atomColor : ∀ j < x.n, c.atomColor (x.order j) = p.colors j
  basin : ∀ b < x.nb, c.basinOn b = decide (b ∈ l)
  data : p.data = x.masked l

/-- The controls of the window agree with its plot. -/
def Gui.Agree (rnd : ℕ → K → K) (g : Gui K C D M) : Prop := ControlsAgree rnd g.inp g.ctl g.basins g.plot

/-- No new result arrives. -/
def GuiEv.noRun : GuiEv K C D → Prop
  | .rerun _ => False
  | _ => True

/-- No radius is edited. -/
def GuiEv.noRadius : GuiEv K C D → Prop
  | .atomRadius _ _ => False
  | .speciesRadius _ _ => False
  | _ => True

/-- The structure is in the order of the plot. -/
def GuiIn.Sorted (x : GuiIn K C D) : Prop := ∀ j < x.n, x.order j = j

/-- The smallest value of the plot is not above the largest. -/
def GuiIn.Range (x : GuiIn K C D) : Prop := x.lo + 1 / 10 ^ 7 * x.lo ≤ x.hi

/-! ## Spin boxes -/

variable {rnd : ℕ → K → K}

theorem spin_mem (h : Rounds rnd) (d : ℕ) {lo hi : K} (hl : lo ≤ hi) (x : K) : rnd d lo ≤ spin rnd d lo hi x ∧ spin rnd d lo hi x ≤ rnd d hi :=
  ⟨le_max_left _ _, max_le (h.mono d hl) (min_le_left _ _)⟩

theorem spin_fix (h : Rounds rnd) (d : ℕ) {lo hi v : K} (h1 : rnd d lo ≤ v) (h2 : v ≤ rnd d hi) (h3 : rnd d v = v) : spin rnd d lo hi v = v := by
  unfold spin
  rw [h3, min_eq_right h2, max_eq_right h1]

theorem spin_round (h : Rounds rnd) (d : ℕ) (lo hi x : K) : rnd d (spin rnd d lo hi x) = spin rnd d lo hi x := by
  unfold spin
  rcases max_choice (rnd d lo) (min (rnd d hi) (rnd d x)) with e | e <;> rw [e]
  · exact h.idem _ _
  · rcases min_choice (rnd d hi) (rnd d x) with e | e <;> rw [e] <;> exact h.idem _ _

theorem spin_idem (h : Rounds rnd) (d : ℕ) {lo hi : K} (hl : lo ≤ hi) (x : K) : spin rnd d lo hi (spin rnd d lo hi x) = spin rnd d lo hi x :=
  spin_fix h d (spin_mem h d hl x).1 (spin_mem h d hl x).2 (spin_round h d lo hi x)

theorem spin_clamp (h : Rounds rnd) (d : ℕ) {lo hi : K} (hl : lo ≤ hi) (x : K) : spin rnd d lo hi (max lo (min x hi)) = spin rnd d lo hi x := by
  unfold spin
  rw [(h.mono d).map_max, (h.mono d).map_min]
  have := h.mono d hl
  rw [min_max_distrib_left, min_eq_right this, ← max_assoc, max_self, min_comm (rnd d x), ← min_assoc, min_self]

theorem spinRadius_pos [IsStrictOrderedRing K] (h : Rounds rnd) (x : K) : 0 < spinRadius rnd x :=
  lt_of_lt_of_le h.cent (le_max_left _ _)

theorem cent_le [IsStrictOrderedRing K] : (1 / 100 : K) ≤ 10 := by
  have : (0 : K) < 100 := by norm_num
  rw [div_le_iff₀ this]; norm_num

theorem spinRadius_fix [IsStrictOrderedRing K] (h : Rounds rnd) (x : K) : fixRadius (spinRadius rnd x) = spinRadius rnd x := by
  unfold fixRadius
  rw [if_neg (not_le.mpr (spinRadius_pos h x))]

/-! ## The settings after an assignment -/

theorem op_colormap (P : Contours K D M) (s : PlotSt K C D M) (c : C) :
    ∃ w, s.op P (.colormap c) = { s with colormap := c, win := w } := by
  simp only [PlotSt.op]
  obtain ⟨w, h⟩ := addIso_rest P ({ s with colormap := c } : PlotSt K C D M)
  rw [h]
  obtain ⟨w1, h1⟩ := addCap_rest P ({ s with colormap := c } : PlotSt K C D M)
  obtain ⟨w2, h2⟩ := addCap_rest P ({ s with colormap := c, win := { s.win with iso := w } } : PlotSt K C D M)
  rw [apply_ite (fun u : PlotSt K C D M => u.addCap P)]
  rw [h1, h2]
  split_ifs <;> exact ⟨_, rfl⟩

theorem op_solidSurface (P : Contours K D M) (s : PlotSt K C D M) (b : Bool) : ∃ w, s.op P (.solidSurface b) = { s with solidSurface := b, win := w } := by
  obtain ⟨w, h⟩ := addIso_rest P ({ s with solidSurface := b } : PlotSt K C D M)
  exact ⟨_, h⟩

theorem op_solidCap (P : Contours K D M) (s : PlotSt K C D M) (b : Bool) : ∃ w, s.op P (.solidCap b) = { s with solidCap := b, win := w } := by
  obtain ⟨w, h⟩ := addCap_rest P ({ s with solidCap := b } : PlotSt K C D M)
  exact ⟨_, h⟩

theorem op_surfaceColor (P : Contours K D M) (s : PlotSt K C D M) (c : C) : ∃ w, s.op P (.surfaceColor c) = { s with surfaceColor := c, win := w } := by
  obtain ⟨w, h⟩ := addIso_rest P ({ s with surfaceColor := c } : PlotSt K C D M)
  simp only [PlotSt.op, h]
  split_ifs <;> exact ⟨_, rfl⟩

theorem op_capColor (P : Contours K D M) (s : PlotSt K C D M) (c : C) : ∃ w, s.op P (.capColor c) = { s with capColor := c, win := w } := by
  obtain ⟨w, h⟩ := addCap_rest P ({ s with capColor := c } : PlotSt K C D M)
  simp only [PlotSt.op, h]
  split_ifs <;> exact ⟨_, rfl⟩

theorem op_isoVal (P : Contours K D M) (s : PlotSt K C D M) (x : K) :
    ∃ w a b, s.op P (.isoVal x) = { s with isoVal := max s.minVal (min x s.maxVal), isoMesh := a, capMesh := b, win := w } := by
  obtain ⟨w, w', h⟩ := setIso_rest P s x
  exact ⟨_, _, _, h⟩

theorem op_mask (P : Contours K D M) (s : PlotSt K C D M) (d : D) :
    ∃ w a b, s.op P (.mask d) = { s with data := d, isoVal := max s.minVal (min s.isoVal s.maxVal), isoMesh := a, capMesh := b, win := w } := by
  obtain ⟨w, w', h⟩ := setIso_rest P ({ s with data := d } : PlotSt K C D M) s.isoVal
  exact ⟨_, _, _, h⟩

/-! ## The first result -/

/-- The state of a window right after a result, apart from what is drawn. -/
theorem load_plot (P : Contours K D M) (rnd : ℕ → K → K) (c : Controls K C) (x : GuiIn K C D) : ∃ w a b,
    (Gui.load P rnd c x).plot = { (PlotSt.new P x.plotIn : PlotSt K C D M) with
      data := x.masked x.firstBasins, isoVal := (Gui.load P rnd c x : Gui K C D M).plot.isoVal, win := w, isoMesh := a, capMesh := b } := by
  obtain ⟨w1, a1, b1, e1⟩ := op_mask P (PlotSt.new P x.plotIn : PlotSt K C D M) (x.masked x.firstBasins)
  obtain ⟨w2, a2, b2, e2⟩ := op_mask P ((PlotSt.new P x.plotIn : PlotSt K C D M).op P (.mask (x.masked x.firstBasins))) (x.masked x.firstBasins)
  obtain ⟨w3, e3⟩ := op_capColor P (((PlotSt.new P x.plotIn : PlotSt K C D M).op P (.mask (x.masked x.firstBasins))).op P (.mask (x.masked x.firstBasins)))
    (((PlotSt.new P x.plotIn : PlotSt K C D M).op P (.mask (x.masked x.firstBasins))).op P (.mask (x.masked x.firstBasins))).capColor
  refine ⟨w3, a2, b2, ?_⟩
  simp only [Gui.load, PlotSt.session, List.foldl_cons, List.foldl_nil]
  rw [e3, e2, e1]

/-- The controls that `load` does not set: they agree with a new plot when they are as in a new window. -/
def Controls.AtDefault (c : Controls K C) (x : GuiIn K C D) : Prop :=
  c.lattice = true ∧ c.showSurface = true ∧ c.showCaps = true ∧ c.solidSurface = false ∧ c.solidCap = false ∧ c.surfaceColor = x.gold ∧ c.colormap = x.viridis

theorem load_agree_iff (P : Contours K D M) (rnd : ℕ → K → K) (c : Controls K C) (x : GuiIn K C D) :
    (Gui.load P rnd c x : Gui K C D M).Agree rnd ↔ c.AtDefault x := by
  obtain ⟨w, a, b, e⟩ := load_plot P rnd c x
  constructor
  · intro h
    refine ⟨h.lattice.trans ?_, h.showSurface.trans ?_, h.showCaps.trans ?_, h.solidSurface.trans ?_, h.solidCap.trans ?_, h.surfaceColor.trans ?_,
      h.colormap.trans ?_⟩ <;> (rw [e]; rfl)
  · rintro ⟨h1, h2, h3, h4, h5, h6, h7⟩
    constructor
    · exact h1.trans (by rw [e]; rfl)
    · rfl
    · rfl
    · exact h2.trans (by rw [e]; rfl)
    · exact h3.trans (by rw [e]; rfl)
    · exact h4.trans (by rw [e]; rfl)
    · exact h5.trans (by rw [e]; rfl)
    · exact h6.trans (by rw [e]; rfl)
    · obtain ⟨w3, e3⟩ := op_capColor P ((PlotSt.new P x.plotIn : PlotSt K C D M).session P [.mask (x.masked x.firstBasins), .mask (x.masked x.firstBasins)])
        ((PlotSt.new P x.plotIn : PlotSt K C D M).session P [.mask (x.masked x.firstBasins), .mask (x.masked x.firstBasins)]).capColor
      show _ = (PlotSt.op P _ _).capColor
      rw [e3]; rfl
    · exact h7.trans (by rw [e]; rfl)
    · rfl
    · rfl
    · rfl
    · intro j hj
      have hj' : j < x.n := hj
      rw [e]
      show true = decide (j ∈ List.range x.n)
      simp [hj']
    · intro j hj
      rw [e]
      show spinRadius rnd (x.radius (x.order j)) = spinRadius rnd (x.radius (x.order j))
      rfl
    · intro j hj
      rw [e]
      rfl
    · intro b hb
      have hb' : b < x.nb := hb
      show decide (x.basinAtom b = 0) = decide (b ∈ x.firstBasins)
      simp [GuiIn.firstBasins, hb']
    · rw [e]; rfl

/-! ## Events -/

/-- What every event keeps, in a structure that is sorted. -/
structure GuiInv (rnd : ℕ → K → K) (g : Gui K C D M) : Prop where
  sorted : g.inp.Sorted
  agree : g.Agree rnd
  range : g.plot.minVal ≤ g.plot.maxVal
  spun : ∀ i, ∃ y, g.ctl.atomRadius i = spinRadius rnd y

theorem inv_visible (P : Contours K D M) {g : Gui K C D M} (h : GuiInv rnd g) (i : ℕ) (v : Bool) : GuiInv rnd (g.setVisible P i v) := by
  refine ⟨h.sorted, ?_, h.range, h.spun⟩
  refine { h.agree with atomVisible := ?_ }
  intro j hj
  have hj' : j < g.inp.n := hj
  show Function.update g.ctl.atomVisible i v (g.inp.order j) = decide (j ∈ (List.range g.inp.n).filter fun k => Function.update g.ctl.atomVisible i v k)
  rw [h.sorted j hj]
  simp [hj']

theorem inv_color (P : Contours K D M) {g : Gui K C D M} (h : GuiInv rnd g) (i : ℕ) (c : C) : GuiInv rnd (g.setColor P i c) := by
  refine ⟨h.sorted, ?_, h.range, h.spun⟩
  refine { h.agree with atomColor := ?_ }
  intro j hj
  show Function.update g.ctl.atomColor i c (g.inp.order j) = Function.update g.ctl.atomColor i c j
  rw [h.sorted j hj]

theorem inv_radii [IsStrictOrderedRing K] (hr : Rounds rnd) (P : Contours K D M) {g : Gui K C D M} (h : GuiInv rnd g) (f : ℕ → K)
    (hf : ∀ i, ∃ y, f i = spinRadius rnd y) : GuiInv rnd (g.setRadii P f) := by
  refine ⟨h.sorted, ?_, h.range, hf⟩
  refine { h.agree with atomRadius := ?_ }
  intro j hj
  show f (g.inp.order j) = spinRadius rnd (fixRadius (f j))
  rw [h.sorted j hj]
  obtain ⟨y, e⟩ := hf j
  rw [e, spinRadius_fix hr]
  exact (spin_idem hr 2 cent_le y).symm

theorem inv_basin (hr : Rounds rnd) (P : Contours K D M) {g : Gui K C D M} (h : GuiInv rnd g) (b : ℕ) (v : Bool) : GuiInv rnd (g.setBasin P b v) := by
  obtain ⟨w, a, b', e⟩ := op_mask P g.plot (g.inp.masked ((List.range g.inp.nb).filter fun k => Function.update g.ctl.basinOn b v k))
  refine ⟨h.sorted, ?_, ?_, h.spun⟩
  · unfold Gui.Agree
    simp only [Gui.setBasin, e]
    refine { h.agree with iso := ?_, basin := ?_, data := rfl }
    · show g.ctl.iso = spin rnd 4 g.plot.minVal g.plot.maxVal (max g.plot.minVal (min g.plot.isoVal g.plot.maxVal))
      rw [spin_clamp hr 4 h.range]
      exact h.agree.iso
    · intro k hk
      show Function.update g.ctl.basinOn b v k = decide (k ∈ (List.range g.inp.nb).filter fun k => Function.update g.ctl.basinOn b v k)
      simp [hk]
  · simp only [Gui.setBasin, e]
    exact h.range

theorem inv_foldl {α : Type} (Q : Gui K C D M → Prop) (f : Gui K C D M → α → Gui K C D M) (hf : ∀ g a, Q g → Q (f g a)) (l : List α) (g : Gui K C D M) (h : Q g) :
    Q (l.foldl f g) := by
  induction l generalizing g with
  | nil => exact h
  | cons a l ih => exact ih _ (hf g a h)

theorem inv_step [IsStrictOrderedRing K] (hr : Rounds rnd) (P : Contours K D M) {g : Gui K C D M} (h : GuiInv rnd g) (e : GuiEv K C D) (he : e.noRun) :
    GuiInv rnd (g.step P rnd e) := by
  have ha := h.agree
  cases e with
  | lattice b => exact ⟨h.sorted, { ha with lattice := rfl }, h.range, h.spun⟩
  | thickness x => exact ⟨h.sorted, { ha with thickness := (spin_idem hr 2 cent_le x).symm }, h.range, h.spun⟩
  | metallic x => exact ⟨h.sorted, { ha with metal := (spin_idem hr 2 zero_le_one x).symm }, h.range, h.spun⟩
  | showSurface b => exact ⟨h.sorted, { ha with showSurface := rfl }, h.range, h.spun⟩
  | showCaps b => exact ⟨h.sorted, { ha with showCaps := rfl }, h.range, h.spun⟩
  | solidSurface b =>
    cases b with
    | false =>
      obtain ⟨w, e⟩ := op_solidSurface P g.plot false
      have e' : (g.plot.session P [.solidSurface false]) =
        { g.plot with solidSurface := false, win := w } := e
      simp only [Gui.step, Bool.false_eq_true, if_false, if_true, e']
      exact ⟨h.sorted, { ha with solidSurface := rfl }, h.range, h.spun⟩
    | true =>
      obtain ⟨w, e⟩ := op_solidSurface P g.plot true
      obtain ⟨w2, e2⟩ := op_surfaceColor P (g.plot.op P (.solidSurface true)) g.ctl.surfaceColor
      have e' : (g.plot.session P [.solidSurface true, .surfaceColor g.ctl.surfaceColor]) =
        { g.plot with solidSurface := true, surfaceColor := g.ctl.surfaceColor, win := w2 } := by
        simp only [PlotSt.session, List.foldl_cons, List.foldl_nil]
        rw [e2, e]
      simp only [Gui.step, Bool.false_eq_true, if_false, if_true, e']
      exact ⟨h.sorted, { ha with solidSurface := rfl, surfaceColor := rfl }, h.range, h.spun⟩
  | solidCap b =>
    cases b with
    | false =>
      obtain ⟨w, e⟩ := op_solidCap P g.plot false
      have e' : (g.plot.session P [.solidCap false]) =
        { g.plot with solidCap := false, win := w } := e
      simp only [Gui.step, Bool.false_eq_true, if_false, if_true, e']
      exact ⟨h.sorted, { ha with solidCap := rfl }, h.range, h.spun⟩
    | true =>
      obtain ⟨w, e⟩ := op_solidCap P g.plot true
      obtain ⟨w2, e2⟩ := op_capColor P (g.plot.op P (.solidCap true)) g.ctl.capColor
      have e' : (g.plot.session P [.solidCap true, .capColor g.ctl.capColor]) =
        { g.plot with solidCap := true, capColor := g.ctl.capColor, win := w2 } := by
        simp only [PlotSt.session, List.foldl_cons, List.foldl_nil]
        rw [e2, e]
      simp only [Gui.step, Bool.false_eq_true, if_false, if_true, e']
      exact ⟨h.sorted, { ha with solidCap := rfl, capColor := rfl }, h.range, h.spun⟩
  | surfaceColor c =>
    obtain ⟨w, e⟩ := op_surfaceColor P g.plot c
    simp only [Gui.step, e]
    exact ⟨h.sorted, { ha with surfaceColor := rfl }, h.range, h.spun⟩
  | capColor c =>
    obtain ⟨w, e⟩ := op_capColor P g.plot c
    simp only [Gui.step, e]
    exact ⟨h.sorted, { ha with capColor := rfl }, h.range, h.spun⟩
  | colormap c =>
    obtain ⟨w, e⟩ := op_colormap P g.plot c
    simp only [Gui.step, e]
    exact ⟨h.sorted, { ha with colormap := rfl }, h.range, h.spun⟩
  | surfaceOpacity x => exact ⟨h.sorted, { ha with surfaceOpacity := (spin_idem hr 2 zero_le_one x).symm }, h.range, h.spun⟩
  | capOpacity x => exact ⟨h.sorted, { ha with capOpacity := (spin_idem hr 2 zero_le_one x).symm }, h.range, h.spun⟩
  | iso x =>
    obtain ⟨w, a, b, e⟩ := op_isoVal P g.plot (spin rnd 4 g.plot.minVal g.plot.maxVal x)
    simp only [Gui.step, e]
    refine ⟨h.sorted, { ha with iso := ?_ }, h.range, h.spun⟩
    show spin rnd 4 g.plot.minVal g.plot.maxVal x = spin rnd 4 g.plot.minVal g.plot.maxVal (max g.plot.minVal (min _ g.plot.maxVal))
    rw [spin_clamp hr 4 h.range, spin_idem hr 4 h.range]
  | atomVisible i => exact inv_visible P h i _
  | speciesVisible s =>
    refine inv_foldl (GuiInv rnd) _ (fun g i hg => ?_) _ _ ⟨h.sorted, { ha with }, h.range, h.spun⟩
    unfold Gui.checkVisible
    split_ifs
    · exact hg
    · exact inv_visible P hg i _
  | atomRadius i x =>
    refine inv_radii hr P h _ fun k => ?_
    by_cases hk : k = i
    · subst hk; exact ⟨x, by simp⟩
    · rw [Function.update_of_ne hk]; exact h.spun k
  | speciesRadius s x =>
    refine inv_radii (g := { g with ctl := { g.ctl with speciesRadius := Function.update g.ctl.speciesRadius s (spinRadius rnd x) } }) hr P
      ⟨h.sorted, { ha with }, h.range, h.spun⟩ _ fun k => ?_
    by_cases h1 : spinRadius rnd x = g.ctl.speciesRadius s
    · rw [if_pos h1]; exact h.spun k
    · rw [if_neg h1]
      by_cases h2 : g.inp.species k = s
      · rw [if_pos h2]; exact ⟨x, rfl⟩
      · rw [if_neg h2]; exact h.spun k
  | atomColor i c => exact inv_color P h i c
  | speciesColor s c => exact inv_foldl (GuiInv rnd) _ (fun g i hg => inv_color P hg i c) _ _ h
  | basin b => exact inv_basin hr P h b _
  | atomBasins a =>
    refine inv_foldl (GuiInv rnd) _ (fun g i hg => ?_) _ _ ⟨h.sorted, { ha with }, h.range, h.spun⟩
    unfold Gui.checkBasin
    split_ifs
    · exact hg
    · exact inv_basin hr P hg i _
  | rerun x => exact he.elim

theorem load_inv (P : Contours K D M) (c : Controls K C) (x : GuiIn K C D) (hs : x.Sorted) (hx : x.Range) (hc : c.AtDefault x) :
    GuiInv rnd (Gui.load P rnd c x : Gui K C D M) := by
  obtain ⟨w, a, b, e⟩ := load_plot P rnd c x
  refine ⟨hs, (load_agree_iff P rnd c x).mpr hc, ?_, fun i => ⟨x.radius i, rfl⟩⟩
  rw [e]
  exact hx

/-- **C110** In a structure that is in the order of the plot, after the first result of a window and any sequence of clicks and edits, every control
shows what is set in the plot. -/
theorem C110_agree [IsStrictOrderedRing K] (hr : Rounds rnd) (P : Contours K D M) (x : GuiIn K C D) (hs : x.Sorted) (hx : x.Range) (es : List (GuiEv K C D))
    (he : ∀ e ∈ es, e.noRun) : ((Gui.load P rnd (.fresh x.viridis x.gold) x : Gui K C D M).session P rnd es).Agree rnd := by
  have key : ∀ (es : List (GuiEv K C D)) (g : Gui K C D M), (∀ e ∈ es, e.noRun) → GuiInv rnd g → GuiInv rnd (g.session P rnd es) := by
    intro es
    induction es with
    | nil => intro g _ h; exact h
    | cons e es ih =>
      intro g he h
      exact ih _ (fun e' h' => he e' (List.mem_cons_of_mem _ h')) (inv_step hr P h e (he e List.mem_cons_self))
  exact (key es _ he (load_inv P _ x hs hx ⟨rfl, rfl, rfl, rfl, rfl, rfl, rfl⟩)).agree

/-- **C110** After a further result, whatever was done before, the controls agree with the new plot exactly when seven of them had been left as in a new
window: outline, surface, caps, the two solid colours, the colour of the surface and the colour map. -/
theorem C110_rerun (P : Contours K D M) (rnd : ℕ → K → K) (g : Gui K C D M) (x : GuiIn K C D) : (g.step P rnd (.rerun x)).Agree rnd ↔
    g.ctl.lattice = true ∧ g.ctl.showSurface = true ∧ g.ctl.showCaps = true ∧ g.ctl.solidSurface = false ∧ g.ctl.solidCap = false ∧
      g.ctl.surfaceColor = x.gold ∧ g.ctl.colormap = x.viridis := load_agree_iff P rnd g.ctl x

/-- **C110** (negative part) Whoever hides the outline and runs again has an outline and an empty box. -/
theorem C110_rerun_lattice (P : Contours K D M) (rnd : ℕ → K → K) (g : Gui K C D M) (x : GuiIn K C D) :
    (g.session P rnd [.lattice false, .rerun x]).ctl.lattice = false ∧ (g.session P rnd [.lattice false, .rerun x]).plot.showLattice = true := by
  refine ⟨rfl, ?_⟩
  show (Gui.load P rnd _ x).plot.showLattice = true
  obtain ⟨w, a, b, e⟩ := load_plot (M := M) P rnd (g.step P rnd (.lattice false)).ctl x
  rw [e]
  rfl

/-- **C110** (negative part) In a structure that is in another order, the box of an atom hides another atom: atom `i` is number `j` of the plot, and stays
visible when its box is cleared; the one that is hidden is number `i`. -/
theorem C110_unsorted (P : Contours K D M) (rnd : ℕ → K → K) (c : Controls K C) (x : GuiIn K C D) (i j : ℕ) (hj : j < x.n)
    (ho : x.order j = i) (hij : j ≠ i) :
    let g := (Gui.load P rnd c x : Gui K C D M).step P rnd (.atomVisible i)
    g.ctl.atomVisible (x.order j) = false ∧ (g.plot.win.atoms j).shown = true ∧ (g.plot.win.atoms i).shown = false ∧ ¬ g.Agree rnd := by
  have h1 : ((Gui.load P rnd c x : Gui K C D M).step P rnd (.atomVisible i)).ctl.atomVisible (x.order j) = false := by
    rw [ho]
    show Function.update (fun _ => true) i (!true) i = false
    simp
  have h2 : decide (j ∈ (List.range x.n).filter fun k => Function.update (fun _ => true) i (!true) k) = true := by simp [hj, hij]
  refine ⟨h1, h2, ?_, fun h => ?_⟩
  · show decide (i ∈ (List.range x.n).filter fun k => Function.update (fun _ => true) i (!true) k) = false
    simp
  · exact Bool.false_ne_true (h1.symm.trans ((h.atomVisible j hj).trans h2))

/-! ## Rows that set other rows -/

theorem foldl_visible (P : Contours K D M) (v : Bool) (l : List ℕ) (g : Gui K C D M) : (l.foldl (fun g i => g.checkVisible P i v) g).ctl =
    { g.ctl with atomVisible := fun k => if k ∈ l then v else g.ctl.atomVisible k } := by
  induction l generalizing g with
  | nil => simp
  | cons a l ih =>
    rw [List.foldl_cons, ih]
    unfold Gui.checkVisible
    split_ifs with h
    · have e : (fun k => if k ∈ l then v else g.ctl.atomVisible k) = fun k => if k ∈ a :: l then v else g.ctl.atomVisible k := by
        funext k
        by_cases hk : k = a
        · subst hk; simp [h]
        · simp [hk]
      rw [e]
    · simp only [Gui.setVisible]
      congr 1
      funext k
      by_cases hk : k = a
      · subst hk; simp
      · simp [hk]

theorem foldl_color (P : Contours K D M) (c : C) (l : List ℕ) (g : Gui K C D M) : (l.foldl (fun g i => g.setColor P i c) g).ctl =
    { g.ctl with atomColor := fun k => if k ∈ l then c else g.ctl.atomColor k } := by
  induction l generalizing g with
  | nil => simp
  | cons a l ih =>
    rw [List.foldl_cons, ih]
    simp only [Gui.setColor]
    congr 1
    funext k
    by_cases hk : k = a
    · subst hk; simp
    · simp [hk]

theorem foldl_basin (P : Contours K D M) (v : Bool) (l : List ℕ) (g : Gui K C D M) : (l.foldl (fun g i => g.checkBasin P i v) g).ctl =
    { g.ctl with basinOn := fun k => if k ∈ l then v else g.ctl.basinOn k } := by
  induction l generalizing g with
  | nil => simp
  | cons a l ih =>
    rw [List.foldl_cons, ih]
    unfold Gui.checkBasin
    split_ifs with h
    · have e : (fun k => if k ∈ l then v else g.ctl.basinOn k) = fun k => if k ∈ a :: l then v else g.ctl.basinOn k := by
        funext k
        by_cases hk : k = a
        · subst hk; simp [h]
        · simp [hk]
      rw [e]
    · simp only [Gui.setBasin]
      congr 1
      funext k
      by_cases hk : k = a
      · subst hk; simp
      · simp [hk]

/-- The controls `c'` are `c` with one of them set. -/
def SetsTo (c c' : Controls K C) (set : Controls K C → Controls K C) : Prop := c' = set c

/-- **C110** Every click and every edit sets its own control to what the user asked for (a number as the box shows it), and no other. -/
theorem C110_sets (P : Contours K D M) (rnd : ℕ → K → K) (g : Gui K C D M) :
    (∀ b, SetsTo g.ctl (g.step P rnd (.lattice b)).ctl fun c => { c with lattice := b }) ∧
    (∀ x, SetsTo g.ctl (g.step P rnd (.thickness x)).ctl fun c => { c with thickness := spin rnd 2 (1 / 100) 10 x }) ∧
    (∀ x, SetsTo g.ctl (g.step P rnd (.metallic x)).ctl fun c => { c with metal := spin rnd 2 0 1 x }) ∧
    (∀ b, SetsTo g.ctl (g.step P rnd (.showSurface b)).ctl fun c => { c with showSurface := b }) ∧
    (∀ b, SetsTo g.ctl (g.step P rnd (.showCaps b)).ctl fun c => { c with showCaps := b }) ∧
    (∀ b, SetsTo g.ctl (g.step P rnd (.solidSurface b)).ctl fun c => { c with solidSurface := b }) ∧
    (∀ b, SetsTo g.ctl (g.step P rnd (.solidCap b)).ctl fun c => { c with solidCap := b }) ∧
    (∀ x, SetsTo g.ctl (g.step P rnd (.surfaceColor x)).ctl fun c => { c with surfaceColor := x }) ∧
    (∀ x, SetsTo g.ctl (g.step P rnd (.capColor x)).ctl fun c => { c with capColor := x }) ∧
    (∀ x, SetsTo g.ctl (g.step P rnd (.colormap x)).ctl fun c => { c with colormap := x }) ∧
    (∀ x, SetsTo g.ctl (g.step P rnd (.surfaceOpacity x)).ctl fun c => { c with surfaceOpacity := spin rnd 2 0 1 x }) ∧
    (∀ x, SetsTo g.ctl (g.step P rnd (.capOpacity x)).ctl fun c => { c with capOpacity := spin rnd 2 0 1 x }) ∧
    (∀ x, SetsTo g.ctl (g.step P rnd (.iso x)).ctl fun c => { c with iso := spin rnd 4 g.plot.minVal g.plot.maxVal x }) ∧
    (∀ i, SetsTo g.ctl (g.step P rnd (.atomVisible i)).ctl fun c => { c with atomVisible := Function.update c.atomVisible i (!c.atomVisible i) }) ∧
    (∀ i x, SetsTo g.ctl (g.step P rnd (.atomRadius i x)).ctl fun c => { c with atomRadius := Function.update c.atomRadius i (spinRadius rnd x) }) ∧
    (∀ i x, SetsTo g.ctl (g.step P rnd (.atomColor i x)).ctl fun c => { c with atomColor := Function.update c.atomColor i x }) ∧
    (∀ b, SetsTo g.ctl (g.step P rnd (.basin b)).ctl fun c => { c with basinOn := Function.update c.basinOn b (!c.basinOn b) }) :=
  ⟨fun _ => rfl, fun _ => rfl, fun _ => rfl, fun _ => rfl, fun _ => rfl, fun _ => rfl, fun _ => rfl, fun _ => rfl, fun _ => rfl, fun _ => rfl, fun _ => rfl,
    fun _ => rfl, fun _ => rfl, fun _ => rfl, fun _ _ => rfl, fun _ _ => rfl, fun _ => rfl⟩

/-- **C110** A number that the box can show is taken as it is: rounded already, and inside the limits. -/
theorem C110_exact (d : ℕ) (lo hi x : K) (h1 : rnd d lo ≤ x) (h2 : x ≤ rnd d hi) (h3 : rnd d x = x) : spin rnd d lo hi x = x := by
  unfold spin
  rw [h3, min_eq_right h2, max_eq_right h1]

/-- **C110** The box of an atom in the basins tab sets the boxes of all its basins to its own new state, and no other control. -/
theorem C110_atom_box (P : Contours K D M) (rnd : ℕ → K → K) (g : Gui K C D M) (a : ℕ) : (g.step P rnd (.atomBasins a)).ctl =
    { g.ctl with
      atomBasinOn := Function.update g.ctl.atomBasinOn a (!g.ctl.atomBasinOn a)
      basinOn := fun b => if b < g.inp.nb ∧ g.inp.basinAtom b = a then !g.ctl.atomBasinOn a else g.ctl.basinOn b } := by
  simp only [Gui.step, foldl_basin, GuiIn.basinsOf, List.mem_filter, List.mem_range, decide_eq_true_eq]

/-- **C110** The box of a species sets the boxes of all its atoms to its own new state, and no other control. -/
theorem C110_species_box (P : Contours K D M) (rnd : ℕ → K → K) (g : Gui K C D M) (s : ℕ) : (g.step P rnd (.speciesVisible s)).ctl =
    { g.ctl with
      speciesVisible := Function.update g.ctl.speciesVisible s (!g.ctl.speciesVisible s)
      atomVisible := fun i => if i < g.inp.n ∧ g.inp.species i = s then !g.ctl.speciesVisible s else g.ctl.atomVisible i } := by
  simp only [Gui.step, foldl_visible, GuiIn.rowsOf, List.mem_filter, List.mem_range, decide_eq_true_eq]

/-- **C110** The colour of a species is given to all its atoms, and no other control changes. -/
theorem C110_species_color (P : Contours K D M) (rnd : ℕ → K → K) (g : Gui K C D M) (s : ℕ) (c : C) : (g.step P rnd (.speciesColor s c)).ctl =
    { g.ctl with atomColor := fun i => if i < g.inp.n ∧ g.inp.species i = s then c else g.ctl.atomColor i } := by
  simp only [Gui.step, foldl_color, GuiIn.rowsOf, List.mem_filter, List.mem_range, decide_eq_true_eq]

/-- **C110** A new radius of a species is given to all its atoms. -/
theorem C110_species_radius (P : Contours K D M) (rnd : ℕ → K → K) (g : Gui K C D M) (s : ℕ) (x : K) (hv : spinRadius rnd x ≠ g.ctl.speciesRadius s) (i : ℕ) :
    (g.step P rnd (.speciesRadius s x)).ctl.atomRadius i = if g.inp.species i = s then spinRadius rnd x else g.ctl.atomRadius i := by
  simp only [Gui.step, Gui.setRadii, if_neg hv]

/-- **C110** (negative part) The radius that the box of the species shows already is not given to the atoms, even when theirs were edited. -/
theorem C110_species_radius_same (P : Contours K D M) (rnd : ℕ → K → K) (g : Gui K C D M) (s : ℕ) (x : K) (hv : spinRadius rnd x = g.ctl.speciesRadius s) :
    (g.step P rnd (.speciesRadius s x)).ctl.atomRadius = g.ctl.atomRadius := by
  simp only [Gui.step, Gui.setRadii, if_pos hv]

/-! ## What is drawn -/

theorem session_append (P : Contours K D M) (s : PlotSt K C D M) (a b : List (PlotOp K C D)) : s.session P (a ++ b) = (s.session P a).session P b :=
  List.foldl_append ..

/-- Assignments other than of radii. -/
def NotRadii : PlotOp K C D → Prop
  | .radii _ => False
  | _ => True

/-- The plot of `g'` comes from the one of `g` by assignments with `R`; the structure is the same. -/
def Path (P : Contours K D M) (R : PlotOp K C D → Prop) (g g' : Gui K C D M) : Prop :=
  g'.inp = g.inp ∧ ∃ os, (∀ o ∈ os, R o) ∧ g'.plot = g.plot.session P os

theorem path_one (P : Contours K D M) {R : PlotOp K C D → Prop} {g g' : Gui K C D M} (o : PlotOp K C D) (ho : R o) (hi : g'.inp = g.inp)
    (h : g'.plot = g.plot.op P o) : Path P R g g' := ⟨hi, [o], by simpa using ho, h⟩

theorem path_refl (P : Contours K D M) (R : PlotOp K C D → Prop) (g : Gui K C D M) : Path P R g g := ⟨rfl, [], by simp, rfl⟩

theorem path_trans (P : Contours K D M) {R : PlotOp K C D → Prop} {g g' g'' : Gui K C D M} (h : Path P R g g') (h' : Path P R g' g'') : Path P R g g'' := by
  obtain ⟨i, os, ho, e⟩ := h
  obtain ⟨i', os', ho', e'⟩ := h'
  refine ⟨i'.trans i, os ++ os', fun o h => ?_, by rw [e', e, session_append]⟩
  rcases List.mem_append.mp h with h | h
  · exact ho o h
  · exact ho' o h

theorem path_foldl {α : Type} (P : Contours K D M) {R : PlotOp K C D → Prop} (f : Gui K C D M → α → Gui K C D M) (hf : ∀ g a, Path P R g (f g a)) (l : List α)
    (g g' : Gui K C D M) (h : Path P R g g') : Path P R g (l.foldl f g') := by
  induction l generalizing g' with
  | nil => exact h
  | cons a l ih => exact ih _ (path_trans P h (hf g' a))

theorem path_step (P : Contours K D M) (rnd : ℕ → K → K) (R : PlotOp K C D → Prop) (hR : ∀ o, NotRadii o → R o) (g : Gui K C D M) (e : GuiEv K C D)
    (hn : e.noRun) (he : e.noRadius ∨ ∀ o, R o) : Path P R g (g.step P rnd e) := by
  have same : ∀ c : Controls K C, Path P R g { g with ctl := c } := fun c => ⟨rfl, [], by simp, rfl⟩
  cases e with
  | lattice b => exact path_one P (.showLattice b) (hR _ trivial) rfl rfl
  | thickness x => exact path_one P (.thickness (spin rnd 2 (1 / 100) 10 x)) (hR _ trivial) rfl rfl
  | metallic x => exact path_one P (.metallic (spin rnd 2 0 1 x)) (hR _ trivial) rfl rfl
  | showSurface b => exact path_one P (.showSurface b) (hR _ trivial) rfl rfl
  | showCaps b => exact path_one P (.showCaps b) (hR _ trivial) rfl rfl
  | solidSurface b =>
    refine ⟨rfl, if b then [.solidSurface b, .surfaceColor g.ctl.surfaceColor] else [.solidSurface b], fun o ho => hR o ?_, rfl⟩
    cases b <;> simp only [Bool.false_eq_true, if_false, if_true, List.mem_cons, List.not_mem_nil, or_false] at ho
    · subst ho; trivial
    · rcases ho with rfl | rfl <;> trivial
  | solidCap b =>
    refine ⟨rfl, if b then [.solidCap b, .capColor g.ctl.capColor] else [.solidCap b], fun o ho => hR o ?_, rfl⟩
    cases b <;> simp only [Bool.false_eq_true, if_false, if_true, List.mem_cons, List.not_mem_nil, or_false] at ho
    · subst ho; trivial
    · rcases ho with rfl | rfl <;> trivial
  | surfaceColor c => exact path_one P (.surfaceColor c) (hR _ trivial) rfl rfl
  | capColor c => exact path_one P (.capColor c) (hR _ trivial) rfl rfl
  | colormap c => exact path_one P (.colormap c) (hR _ trivial) rfl rfl
  | surfaceOpacity x => exact path_one P (.surfaceOpacity (spin rnd 2 0 1 x)) (hR _ trivial) rfl rfl
  | capOpacity x => exact path_one P (.capOpacity (spin rnd 2 0 1 x)) (hR _ trivial) rfl rfl
  | iso x => exact path_one P (.isoVal (spin rnd 4 g.plot.minVal g.plot.maxVal x)) (hR _ trivial) rfl rfl
  | atomVisible i => exact path_one P (.visibleAtoms _) (hR _ trivial) rfl rfl
  | speciesVisible s =>
    refine path_foldl P _ (fun g i => ?_) _ _ _ (same _)
    unfold Gui.checkVisible
    split_ifs
    · exact path_refl P R g
    · exact path_one P (.visibleAtoms _) (hR _ trivial) rfl rfl
  | atomRadius i x =>
    have hall : ∀ o, R o := he.resolve_left (fun h => h)
    exact path_one P (.radii _) (hall _) rfl rfl
  | speciesRadius s x =>
    have hall : ∀ o, R o := he.resolve_left (fun h => h)
    exact path_one P (.radii _) (hall _) rfl rfl
  | atomColor i c => exact path_one P (.colors _) (hR _ trivial) rfl rfl
  | speciesColor s c =>
    refine path_foldl P (fun g i => g.setColor P i c) (fun g i => ?_) _ _ _ (path_refl P R g)
    exact path_one P (.colors _) (hR _ trivial) rfl rfl
  | basin b => exact path_one P (.mask _) (hR _ trivial) rfl rfl
  | atomBasins a =>
    refine path_foldl P _ (fun g i => ?_) _ _ _ (same _)
    unfold Gui.checkBasin
    split_ifs
    · exact path_refl P R g
    · exact path_one P (.mask _) (hR _ trivial) rfl rfl
  | rerun x => exact hn.elim

/-- The plot of a window was made by assignments. -/
def Gui.Made (P : Contours K D M) (g : Gui K C D M) : Prop := ∃ x os, g.plot = (PlotSt.new P x).session P os

theorem load_made (P : Contours K D M) (rnd : ℕ → K → K) (c : Controls K C) (x : GuiIn K C D) : (Gui.load P rnd c x : Gui K C D M).Made P :=
  ⟨x.plotIn, [.mask (x.masked x.firstBasins), .mask (x.masked x.firstBasins),
    .capColor ((PlotSt.new P x.plotIn : PlotSt K C D M).session P [.mask (x.masked x.firstBasins), .mask (x.masked x.firstBasins)]).capColor], rfl⟩

theorem made_step (P : Contours K D M) (rnd : ℕ → K → K) {g : Gui K C D M} (h : g.Made P) (e : GuiEv K C D) : (g.step P rnd e).Made P := by
  by_cases hn : e.noRun
  · obtain ⟨x, os, e1⟩ := h
    obtain ⟨_, os', _, e2⟩ := path_step P rnd (fun _ => True) (fun _ _ => trivial) g e hn (Or.inr fun _ => trivial)
    exact ⟨x, os ++ os', by rw [e2, e1, session_append]⟩
  · cases e with
    | rerun x => exact load_made P rnd g.ctl x
    | _ => exact (hn trivial).elim

/-- **C110** In any window, after any events and any number of results, the outline is drawn as it is set in the plot. -/
theorem C110_lattice_drawn (P : Contours K D M) (rnd : ℕ → K → K) (c : Controls K C) (x : GuiIn K C D) (es : List (GuiEv K C D)) :
    LatticeShown ((Gui.load P rnd c x).session P rnd es).plot ((Gui.load P rnd c x : Gui K C D M).session P rnd es).plot.win := by
  have key : ∀ (es : List (GuiEv K C D)) (g : Gui K C D M), g.Made P → (g.session P rnd es).Made P := by
    intro es
    induction es with
    | nil => intro g h; exact h
    | cons e es ih => intro g h; exact ih _ (made_step P rnd h e)
  obtain ⟨y, os, e⟩ := key es _ (load_made P rnd c x)
  rw [e]
  exact C106_lattice P y os

theorem keeps_of_notRadii {o : PlotOp K C D} (ho : NotRadii o) (s : PlotSt K C D M) : KeepsHidden s o := by
  cases o <;> first | exact ho.elim | trivial

/-- The atoms are drawn as they are set, with the first radii. -/
theorem atoms_session (P : Contours K D M) (l : List (PlotOp K C D)) (s : PlotSt K C D M) (h : AtomsShown s s.win) (hl : ∀ o ∈ l, NotRadii o) :
    AtomsShown (s.session P l) (s.session P l).win ∧ (s.session P l).radii = s.radii ∧ (s.session P l).n = s.n := by
  induction l generalizing s with
  | nil => exact ⟨h, rfl, rfl⟩
  | cons o l ih =>
    have ho := hl o List.mem_cons_self
    obtain ⟨h1, h2, h3⟩ := ih (s.op P o) (atoms_op P h o (keeps_of_notRadii ho s)) fun o' ho' => hl o' (List.mem_cons_of_mem _ ho')
    refine ⟨h1, h2.trans ?_, h3.trans (op_n P s o)⟩
    rcases surf_op_rest P s o with ⟨l, rfl⟩ | ⟨f, rfl⟩ | ⟨f, rfl⟩ | ⟨x, rfl⟩ | ⟨b, rfl⟩ | ⟨x, rfl⟩ | ⟨_, _, _, _, _, h4, _⟩
    · rfl
    · rfl
    · exact ho.elim
    · rfl
    · rfl
    · rfl
    · exact h4

theorem load_atoms (P : Contours K D M) (rnd : ℕ → K → K) (c : Controls K C) (x : GuiIn K C D) :
    AtomsShown (Gui.load P rnd c x : Gui K C D M).plot (Gui.load P rnd c x : Gui K C D M).plot.win := by
  refine atoms_op P (atoms_session P _ _ (new_atoms P _) ?_).1 _ trivial
  intro o ho
  simp only [List.mem_cons, List.not_mem_nil, or_false, or_self] at ho
  subst ho
  exact trivial

/-- **C110** In a sorted structure, after the first result and any clicks and edits other than of radii, the picture has every atom with the colour of its
row, visible exactly when its box is checked.  Missing for the full claim: edited radii (`C110_radius_shows_hidden`) and other orders (`C110_unsorted`). -/
theorem C110_drawn_partial [IsStrictOrderedRing K] (hr : Rounds rnd) (P : Contours K D M) (x : GuiIn K C D) (hs : x.Sorted) (hx : x.Range)
    (es : List (GuiEv K C D)) (he : ∀ e ∈ es, e.noRun) (hrad : ∀ e ∈ es, e.noRadius) (i : ℕ) (hi : i < x.n) :
    let g := (Gui.load P rnd (.fresh x.viridis x.gold) x : Gui K C D M).session P rnd es
    (g.plot.win.atoms i).shown = g.ctl.atomVisible i ∧ (g.plot.win.atoms i).color = g.ctl.atomColor i ∧ (g.plot.win.atoms i).radius = x.radius i := by
  intro g
  have key : ∀ (es : List (GuiEv K C D)) (g0 : Gui K C D M), (∀ e ∈ es, e.noRun) → (∀ e ∈ es, e.noRadius) → Path P NotRadii g0 (g0.session P rnd es) := by
    intro es
    induction es with
    | nil => intro g0 _ _; exact path_refl P _ g0
    | cons e es ih =>
      intro g0 h1 h2
      exact path_trans P (path_step P rnd NotRadii (fun _ h => h) g0 e (h1 e List.mem_cons_self) (Or.inl (h2 e List.mem_cons_self)))
        (ih _ (fun e' h' => h1 e' (List.mem_cons_of_mem _ h')) (fun e' h' => h2 e' (List.mem_cons_of_mem _ h')))
  obtain ⟨hinp, os, hos, hp⟩ := key es (Gui.load P rnd (.fresh x.viridis x.gold) x) he hrad
  have hA : g.Agree rnd := C110_agree hr P x hs hx es he
  obtain ⟨h1, h2, h3⟩ := atoms_session P os _ (load_atoms P rnd (.fresh x.viridis x.gold) x) hos
  rw [← hp] at h1 h2 h3
  obtain ⟨w, a, b, e⟩ := load_plot (M := M) P rnd (.fresh x.viridis x.gold) x
  have hginp : g.inp = x := hinp
  have hn : (Gui.load P rnd (.fresh x.viridis x.gold) x : Gui K C D M).plot.n = x.n := by rw [e]; rfl
  have hrd : (Gui.load P rnd (.fresh x.viridis x.gold) x : Gui K C D M).plot.radii i = x.radius i := by
    rw [e]
    show x.radius (x.order i) = x.radius i
    rw [hs i hi]
  have hw := h1 i (by rw [h3, hn]; exact hi)
  have ev := hA.atomVisible i (by rw [hginp]; exact hi)
  have ec := hA.atomColor i (by rw [hginp]; exact hi)
  rw [hginp, hs i hi] at ev ec
  refine ⟨?_, ?_, ?_⟩
  · exact (congrArg AtomActor.shown hw).trans ev.symm
  · exact (congrArg AtomActor.color hw).trans ec.symm
  · exact (congrArg AtomActor.radius hw).trans ((congrFun h2 i).trans hrd)

/-- **C110** (negative part) Whoever clears the box of an atom and then gives it another radius sees the atom, with an empty box. -/
theorem C110_radius_shows_hidden (P : Contours K D M) (rnd : ℕ → K → K) (g : Gui K C D M) (i : ℕ) (y : K) (hv : g.ctl.atomVisible i = true)
    (hr : fixRadius (spinRadius rnd y) ≠ g.plot.radii i) :
    let g' := g.session P rnd [.atomVisible i, .atomRadius i y]
    g'.ctl.atomVisible i = false ∧ (g'.plot.win.atoms i).shown = true := by
  refine ⟨?_, ?_⟩
  · show Function.update g.ctl.atomVisible i (!g.ctl.atomVisible i) i = false
    simp [hv]
  · exact (C106_radius_shows_hidden P (g.step P rnd (.atomVisible i)).plot _ i (by
      show i ∉ (List.range g.inp.n).filter fun k => Function.update g.ctl.atomVisible i (!g.ctl.atomVisible i) k
      simp [hv]) (by
      show fixRadius (Function.update g.ctl.atomRadius i (spinRadius rnd y) i) ≠ g.plot.radii i
      rw [Function.update_self]
      exact hr)).1

/-! ## A window -/

/-- Rounding of rational numbers to decimals. -/
def decRnd (d : ℕ) (x : ℚ) : ℚ := (⌊x * 10 ^ d + 1 / 2⌋ : ℤ) / 10 ^ d

theorem decRnd_rounds : Rounds decRnd := by
  have hp : ∀ d : ℕ, (0 : ℚ) < 10 ^ d := fun d => by positivity
  refine ⟨fun d a b h => ?_, fun d x => ?_, ?_⟩
  · unfold decRnd
    rw [div_le_div_iff_of_pos_right (hp d)]
    exact_mod_cast Int.floor_le_floor (by nlinarith [hp d])
  · unfold decRnd
    rw [div_mul_cancel₀ _ (ne_of_gt (hp d))]
    congr 2
    rw [Int.floor_eq_iff]
    constructor <;> linarith
  · have : ⌊(1 / 100 : ℚ) * 10 ^ 2 + 1 / 2⌋ = 1 := by rw [Int.floor_eq_iff]; norm_num
    unfold decRnd
    rw [this]; norm_num

/-- A salt of two atoms and three basins; the data of a plot are the basins that are shown. -/
def saltIn (order : ℕ → ℕ) : GuiIn ℚ ℕ (List ℕ) :=
  ⟨2, fun i => i, order, fun i => if i = 0 then 18 / 10 else 1, fun i => i + 10, 3, fun b => if b < 2 then 0 else 1, [0, 1, 2], fun l => l, 1, 5, 100, 200⟩

/-- Contours that are never empty. -/
def plainContours : Contours ℚ (List ℕ) (List ℕ × ℚ) := ⟨fun d v => (d, v), fun d v _ => (d, v), fun _ => false⟩

example : (saltIn id).Sorted ∧ (saltIn id).Range := ⟨fun _ _ => rfl, by norm_num [GuiIn.Range, saltIn]⟩

/-- Clicks and edits of many kinds: the controls still agree, atom 1 and the basins of atom 0 are hidden. -/
example : ((Gui.load plainContours decRnd (.fresh 100 200) (saltIn id)).session plainContours decRnd
    [.lattice false, .iso (31 / 10), .speciesVisible 1, .atomBasins 0, .speciesColor 0 7, .atomRadius 0 3, .solidCap true]).Agree decRnd :=
  C110_agree decRnd_rounds plainContours (saltIn id) (fun _ _ => rfl) (by norm_num [GuiIn.Range, saltIn]) _ (by
    intro e he
    simp only [List.mem_cons, List.not_mem_nil, or_false] at he
    rcases he with rfl | rfl | rfl | rfl | rfl | rfl | rfl <;> trivial)

example : ((Gui.load plainContours decRnd (.fresh 100 200) (saltIn id)).session plainContours decRnd
    [.speciesVisible 1, .basin 2, .atomBasins 0]).basins = [2] ∧
    ((Gui.load plainContours decRnd (.fresh 100 200) (saltIn id)).session plainContours decRnd [.speciesVisible 1, .basin 2, .atomBasins 0]).plot.visible = [0] := by
  decide +kernel

/-- The atoms in the other order: the box of atom 0 hides atom 1, which is number 0 of the plot. -/
example : let g := (Gui.load plainContours decRnd (.fresh 100 200) (saltIn fun j => 1 - j)).step plainContours decRnd (.atomVisible 0)
    g.ctl.atomVisible 0 = false ∧ (g.plot.win.atoms 1).shown = true ∧ (g.plot.win.atoms 1).radius = 18 / 10 ∧ (g.plot.win.atoms 0).shown = false := by
  decide +kernel

/-- A hidden atom that gets a new radius. -/
example : let g := (Gui.load plainContours decRnd (.fresh 100 200) (saltIn id)).session plainContours decRnd [.atomVisible 1, .atomRadius 1 3]
    g.ctl.atomVisible 1 = false ∧ (g.plot.win.atoms 1).shown = true := by
  decide +kernel

end BaderKit
