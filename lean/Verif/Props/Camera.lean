import Verif.Model.Camera
import Verif.Props.PlotGeometry
import Verif.Props.Merge
import Verif.Props.CubeFraction
import Mathlib.Tactic.Linarith
import Mathlib.Tactic.Positivity
/-!
# The camera of a plot after any session, and whether the fitted picture shows everything
-/
set_option linter.unusedSectionVars false
namespace BaderKit

section field
variable {K : Type*} [Field K] [LinearOrder K] [IsStrictOrderedRing K]

/-! ## Specification -/

/-- The camera `c` looks from outside along the normal of the plane with the indices `v`, turned by the angle `a`. -/
def LooksAlong (E : CamEnv K) (c : Cam K) (v : ℤ × ℤ × ℤ) (a : K) : Prop :=
  ∃ n : V3 K, millerNormal E.root E.cell (viewIndices v.1 v.2.1 v.2.2).1 (viewIndices v.1 v.2.1 v.2.2).2.1 (viewIndices v.1 v.2.1 v.2.2).2.2 = some n ∧
    (∃ t, 0 < t ∧ subV c.1 c.2.1 = smulV t n) ∧
    ∃ u, 0 < u ∧ c.2.2 = smulV u (addV (smulV (E.cosd a) (viewUp E.root n)) (smulV (E.sind a) (crossV n (viewUp E.root n))))

/-- `reset_camera` keeps the line of sight and the upward direction. -/
def FitKeeps (fit : Cam K → Cam K) : Prop :=
  ∀ c : Cam K, (∃ t, 0 < t ∧ subV (fit c).1 (fit c).2.1 = smulV t (subV c.1 c.2.1)) ∧ ∃ u, 0 < u ∧ (fit c).2.2 = smulV u c.2.2

/-- A cell with a volume, real roots, an angle with its cosine and sine. -/
structure GoodEnv (E : CamEnv K) : Prop where
  root : IsRoot E.root
  cell : det3 E.cell.1 E.cell.2.1 E.cell.2.2 ≠ 0
  angle : ∀ a, E.cosd a ^ 2 + E.sind a ^ 2 = 1
  fit : FitKeeps E.fit

/-- The indices that were assigned last, in a session with the last statement first. -/
def lastView : List (CamOp K) → ℤ × ℤ × ℤ
  | [] => (1, 0, 0)
  | .view [some h, some k, some l] :: _ => (h, k, l)
  | _ :: os => lastView os

/-- The rotation that was assigned last, in a session with the last statement first; the value of a new plot is a tuple. -/
def lastRot : List (CamOp K) → RotVal K
  | [] => .tuple 0
  | .rotate r :: _ => .number r
  | _ :: os => lastRot os

/-- What the picture shows: a view by indices and angle, or a camera that the user placed. -/
inductive ShownView (K : Type*)
  | along (v : ℤ × ℤ × ℤ) (a : K)
  | placed (c : Cam K)

/-- What the last statement about the camera asked for, in a session with the last statement first. -/
def lastShown : List (CamOp K) → ShownView K
  | [] => .along (1, 0, 0) 0
  | .view [some h, some k, some l] :: os => .along (h, k, l) (lastRot os).angle
  | .rotate r :: os => .along (lastView os) r
  | .position c :: _ => .placed c
  | .miller h k l :: _ => .along (h, k, l) 0
  | .button h k l r :: _ => .along (h, k, l) r
  | _ :: os => lastShown os

/-- The camera shows what was asked for. -/
def ShowsIt (E : CamEnv K) (c : Cam K) : ShownView K → Prop
  | .along v a => LooksAlong E c v a
  | .placed p => c = p

/-- The radii that are assigned are not negative. -/
def RadiiOk (os : List (CamOp K)) : Prop := ∀ o ∈ os, ∀ m, o = .radii m → 0 ≤ m

/-! ## Sessions -/

theorem subV_addV_left (a b : V3 K) : subV (addV a b) a = b := by
  unfold subV addV
  refine Prod.ext ?_ (Prod.ext ?_ ?_) <;> · simp only; ring

theorem one_smulV' (a : V3 K) : smulV 1 a = a := by
  unfold smulV
  simp

theorem smulV_smulV' (s t : K) (a : V3 K) : smulV s (smulV t a) = smulV (s * t) a := by
  unfold smulV
  simp [mul_assoc]

theorem place_looks {E : CamEnv K} (hE : GoodEnv E) {rmax : K} (hm : 0 ≤ rmax) (v : ℤ × ℤ × ℤ) (a : K) :
    ∃ c, E.place rmax v a = some c ∧ LooksAlong E c v a := by
  obtain ⟨n, pos, focal, up, hn, hn1, hc, hf, ht, hv, -, -⟩ :=
    C107_camera E.root hE.root E.cell hE.cell rmax (E.cosd a) (E.sind a) (hE.angle a) v.1 v.2.1 v.2.2
  obtain ⟨t, ht⟩ := ht
  refine ⟨(pos, focal, up), hc, n, hn, ⟨t, ?_, ht⟩, 1, one_pos, ?_⟩
  · have h1 := hv (1 / 2, 1 / 2, 1 / 2) 0 (by norm_num) (by norm_num) (by norm_num) hm
    rw [← hf] at h1
    have h2 : dotV (subV pos focal) n = t * norm2 n := by rw [ht]; unfold dotV smulV norm2; ring
    have h3 : dotV (subV pos focal) n = dotV pos n - dotV focal n := by unfold dotV subV; ring
    rw [hn1] at h2
    linarith
  · unfold cameraFrom at hc
    change ((millerNormal E.root E.cell (viewIndices v.1 v.2.1 v.2.2).1 (viewIndices v.1 v.2.1 v.2.2).2.1 (viewIndices v.1 v.2.1 v.2.2).2.2).map _) = _ at hc
    rw [hn] at hc
    rw [one_smulV']
    have := congrArg (fun (x : Option (V3 K × V3 K × V3 K)) => x.map fun y => y.2.2) hc
    simpa using this.symm

theorem looks_fit {E : CamEnv K} (hE : GoodEnv E) {c : Cam K} {v : ℤ × ℤ × ℤ} {a : K} (h : LooksAlong E c v a) : LooksAlong E (E.fit c) v a := by
  obtain ⟨n, hn, ⟨t, ht, e⟩, u, hu, f⟩ := h
  obtain ⟨⟨t', ht', e'⟩, u', hu', f'⟩ := hE.fit c
  refine ⟨n, hn, ⟨t' * t, by positivity, ?_⟩, u' * u, by positivity, ?_⟩
  · rw [e', e, smulV_smulV']
  · rw [f', f, smulV_smulV']

theorem session_cons (E : CamEnv K) (s : CamSt K) (os : List (CamOp K)) (o : CamOp K) :
    s.session E (os ++ [o]) = ((s.session E os).step E o).1 := by
  unfold CamSt.session
  rw [List.foldl_append]
  rfl

/-- What holds after every session: what is reported, what is shown, and that the radii are not negative. -/
theorem session_inv {E : CamEnv K} (hE : GoodEnv E) {rmax : K} (hm : 0 ≤ rmax) (c₀ : Cam K) (os : List (CamOp K)) (hr : RadiiOk os) :
    let s := (CamSt.new E rmax c₀).session E os.reverse
    s.view = lastView os ∧ s.rot = lastRot os ∧ ShowsIt E s.cam (lastShown os) ∧ 0 ≤ s.rmax := by
  induction os with
  | nil =>
    obtain ⟨c, hc, hl⟩ := place_looks hE hm (1, 0, 0) 0
    have : (CamSt.new E rmax c₀) = ⟨(1, 0, 0), .tuple 0, E.fit c, rmax⟩ := by
      unfold CamSt.new CamSt.setView
      simp only [RotVal.angle, hc]
    intro s
    have hs : s = ⟨(1, 0, 0), .tuple 0, E.fit c, rmax⟩ := this
    rw [hs]
    exact ⟨rfl, rfl, looks_fit hE hl, hm⟩
  | cons o os ih =>
    have hr' : RadiiOk os := fun o' ho' => hr o' (List.mem_cons_of_mem _ ho')
    obtain ⟨i1, i2, i3, i4⟩ := ih hr'
    intro s
    have hs : s = (((CamSt.new E rmax c₀).session E os.reverse).step E o).1 := by
      show (CamSt.new E rmax c₀).session E (o :: os).reverse = _
      rw [List.reverse_cons, session_cons]
    rw [hs]
    generalize (CamSt.new E rmax c₀).session E os.reverse = t at i1 i2 i3 i4
    cases o with
    | view v =>
      by_cases hv : ∃ h k l, v = [some h, some k, some l]
      · obtain ⟨h, k, l, rfl⟩ := hv
        obtain ⟨c, hc, hl⟩ := place_looks hE i4 (h, k, l) t.rot.angle
        have : (t.step E (.view [some h, some k, some l])).1 = { t with cam := E.fit c, view := (h, k, l) } := by
          simp only [CamSt.step, CamSt.setView, hc]
        rw [this]
        refine ⟨rfl, i2, ?_, i4⟩
        show LooksAlong E (E.fit c) (h, k, l) (lastRot os).angle
        rw [← i2]
        exact looks_fit hE hl
      · have e1 : (t.step E (.view v)).1 = t := by
          simp only [CamSt.step]
          unfold CamSt.setView
          split
          · exact absurd ⟨_, _, _, rfl⟩ hv
          · rfl
        have e2 : lastView (.view v :: os) = lastView os := by
          rw [lastView.eq_def]
          split
          · rename_i h; cases h
          · rename_i h; cases h; exact absurd ⟨_, _, _, rfl⟩ hv
          · rename_i h; cases h; rfl
        have e3 : lastShown (.view v :: os) = lastShown os := by
          rw [lastShown.eq_def]
          split <;> rename_i h <;> first | (cases h; exact absurd ⟨_, _, _, rfl⟩ hv) | (cases h; rfl) | cases h
        rw [e1, e2, e3]
        exact ⟨i1, i2, i3, i4⟩
    | rotate r =>
      obtain ⟨c, hc, hl⟩ := place_looks hE i4 t.view r
      have : (t.step E (.rotate r)).1 = { t with cam := E.fit c, rot := .number r } := by
        simp only [CamSt.step, CamSt.setRot, hc]
      rw [this]
      refine ⟨i1, rfl, ?_, i4⟩
      show LooksAlong E (E.fit c) (lastView os) r
      rw [← i1]
      exact looks_fit hE hl
    | position c => exact ⟨i1, i2, rfl, i4⟩
    | miller h k l =>
      obtain ⟨c, hc, hl⟩ := place_looks hE i4 (h, k, l) 0
      have : (t.step E (.miller h k l)).1 = { t with cam := c } := by simp only [CamSt.step, hc]
      rw [this]
      exact ⟨i1, i2, hl, i4⟩
    | button h k l r =>
      obtain ⟨c, hc, hl⟩ := place_looks hE i4 (h, k, l) r
      have : (t.step E (.button h k l r)).1 = { t with cam := c } := by simp only [CamSt.step, hc]
      rw [this]
      exact ⟨i1, i2, hl, i4⟩
    | radii m => exact ⟨i1, i2, i3, hr _ (List.mem_cons_self) m rfl⟩

/-- **C112** After any session (`os`, the last statement first) the view indices and the rotation are the ones assigned last, and the picture shows what the
last statement about the camera asked for. -/
theorem C112_session {E : CamEnv K} (hE : GoodEnv E) {rmax : K} (hm : 0 ≤ rmax) (c₀ : Cam K) (os : List (CamOp K)) (hr : RadiiOk os) :
    let s := (CamSt.new E rmax c₀).session E os.reverse
    s.view = lastView os ∧ s.rot = lastRot os ∧ ShowsIt E s.cam (lastShown os) := by
  obtain ⟨h1, h2, h3, -⟩ := session_inv hE hm c₀ os hr
  exact ⟨h1, h2, h3⟩

/-- Statements that set indices, the rotation or radii, not the camera itself. -/
def CamOp.plain : CamOp K → Bool
  | .view _ | .rotate _ | .radii _ => true
  | _ => false

theorem lastShown_plain (os : List (CamOp K)) (h : ∀ o ∈ os, o.plain = true) : lastShown os = .along (lastView os) (lastRot os).angle := by
  induction os with
  | nil => rfl
  | cons o os ih =>
    have i := ih fun o' ho' => h o' (List.mem_cons_of_mem _ ho')
    have ho := h o List.mem_cons_self
    cases o with
    | view v =>
      by_cases hv : ∃ h k l, v = [some h, some k, some l]
      · obtain ⟨h, k, l, rfl⟩ := hv
        rfl
      · have e2 : lastView (.view v :: os) = lastView os := by
          rw [lastView.eq_def]
          split
          · rename_i h; cases h
          · rename_i h; cases h; exact absurd ⟨_, _, _, rfl⟩ hv
          · rename_i h; cases h; rfl
        have e3 : lastShown (.view v :: os) = lastShown os := by
          rw [lastShown.eq_def]
          split <;> rename_i h <;> first | (cases h; exact absurd ⟨_, _, _, rfl⟩ hv) | (cases h; rfl) | cases h
        rw [e3, i, e2]
        rfl
    | rotate r => rfl
    | radii m => exact i
    | position c => simp [CamOp.plain] at ho
    | miller h k l => simp [CamOp.plain] at ho
    | button h k l r => simp [CamOp.plain] at ho

/-- **C112** (partial) As long as the camera itself is not assigned and "Set View" is not pressed, the picture shows the view indices and the rotation that
the plot reports.  Missing: those two statements, for which it is false (`C112_stale`). -/
theorem C112_reported_partial {E : CamEnv K} (hE : GoodEnv E) {rmax : K} (hm : 0 ≤ rmax) (c₀ : Cam K) (os : List (CamOp K)) (hr : RadiiOk os)
    (hp : ∀ o ∈ os, o.plain = true) :
    let s := (CamSt.new E rmax c₀).session E os.reverse
    LooksAlong E s.cam s.view s.rot.angle := by
  obtain ⟨h1, h2, h3⟩ := C112_session hE hm c₀ os hr
  intro s
  rw [lastShown_plain os hp, ← h1, ← h2] at h3
  exact h3

/-- **C112** (negative part) "Set View" shows the indices and the angle of the window, but the plot keeps reporting the old ones; the next rotation goes back
to the old indices, and the next indices go back to the old rotation. -/
theorem C112_button {E : CamEnv K} (hE : GoodEnv E) {rmax : K} (hm : 0 ≤ rmax) (c₀ : Cam K) (os : List (CamOp K)) (hr : RadiiOk os) (h k l : ℤ) (a b : K)
    (h' k' l' : ℤ) :
    let s := (CamSt.new E rmax c₀).session E os.reverse
    let t := (s.step E (.button h k l a)).1
    LooksAlong E t.cam (h, k, l) a ∧ t.view = s.view ∧ t.rot = s.rot ∧
    LooksAlong E (t.step E (.rotate b)).1.cam s.view b ∧
    LooksAlong E (t.step E (.view [some h', some k', some l'])).1.cam (h', k', l') s.rot.angle := by
  intro s t
  have ok : ∀ os' : List (CamOp K), (∀ o ∈ os', ∀ m, o ≠ .radii m) → RadiiOk (os' ++ os) := fun os' h' o ho m hm' => by
    rcases List.mem_append.mp ho with ho | ho
    · exact absurd hm' (h' o ho m)
    · exact hr o ho m hm'
  obtain ⟨s1, s2, -⟩ := C112_session hE hm c₀ os hr
  have ht : (CamSt.new E rmax c₀).session E (.button h k l a :: os).reverse = t := by
    rw [List.reverse_cons, session_cons]
  have e1 := C112_session hE hm c₀ (.button h k l a :: os) (ok [.button h k l a] (by simp))
  have e2 := C112_session hE hm c₀ (.rotate b :: .button h k l a :: os) (ok [.rotate b, .button h k l a] (by simp))
  have e3 := C112_session hE hm c₀ (.view [some h', some k', some l'] :: .button h k l a :: os)
    (ok [.view [some h', some k', some l'], .button h k l a] (by simp))
  rw [List.reverse_cons, session_cons, ht] at e2 e3
  rw [ht] at e1
  refine ⟨e1.2.2, e1.1.trans s1.symm, e1.2.1.trans s2.symm, ?_, ?_⟩
  · rw [show s.view = lastView os from s1]
    exact e2.2.2
  · rw [show s.rot = lastRot os from s2]
    exact e3.2.2

/-- **C112** Indices that are not three Python integers are refused, and nothing changes. -/
theorem C112_refused (E : CamEnv K) (s : CamSt K) (v : List (Option ℤ)) (h : v.length ≠ 3 ∨ none ∈ v) : s.step E (.view v) = (s, false) := by
  simp only [CamSt.step]
  unfold CamSt.setView
  split
  · simp at h
  · rfl

/-- The planes of two triples of indices are parallel; all zeros stand for 1 0 0. -/
def SamePlane (K : Type*) [Field K] (v w : ℤ × ℤ × ℤ) : Prop :=
  let v' := viewIndices v.1 v.2.1 v.2.2
  let w' := viewIndices w.1 w.2.1 w.2.2
  ∀ x : V3 K, (v'.1 : K) * x.1 + v'.2.1 * x.2.1 + v'.2.2 * x.2.2 = 0 ↔ (w'.1 : K) * x.1 + w'.2.1 * x.2.1 + w'.2.2 * x.2.2 = 0

theorem viewIndices_ne (v : ℤ × ℤ × ℤ) : ¬ ((viewIndices v.1 v.2.1 v.2.2).1 = 0 ∧ (viewIndices v.1 v.2.1 v.2.2).2.1 = 0 ∧
    (viewIndices v.1 v.2.1 v.2.2).2.2 = 0) := by
  unfold viewIndices
  split_ifs with hc
  · simp
  · exact hc

/-- A camera that looks along two triples of indices: their planes are parallel. -/
theorem looks_plane [FloorRing K] {E : CamEnv K} (hE : GoodEnv E) {c : Cam K} {v w : ℤ × ℤ × ℤ} {a b : K} (hv : LooksAlong E c v a) (hw : LooksAlong E c w b) :
    SamePlane K v w := by
  obtain ⟨n, hn, ⟨t, ht, e⟩, -⟩ := hv
  obtain ⟨n', hn', ⟨t', ht', e'⟩, -⟩ := hw
  obtain ⟨m, hm, -, p⟩ := C68_normal E.root hE.root E.cell hE.cell _ _ _ (viewIndices_ne v)
  obtain ⟨m', hm', -, p'⟩ := C68_normal E.root hE.root E.cell hE.cell _ _ _ (viewIndices_ne w)
  rw [hn] at hm
  rw [hn'] at hm'
  cases hm
  cases hm'
  intro x
  refine (p x).trans (Iff.trans ?_ (p' x).symm)
  have h1 : dotV (subV c.1 c.2.1) (vecMat x E.cell) = t * dotV n (vecMat x E.cell) := by rw [e]; unfold dotV smulV; ring
  have h2 : dotV (subV c.1 c.2.1) (vecMat x E.cell) = t' * dotV n' (vecMat x E.cell) := by rw [e']; unfold dotV smulV; ring
  have h3 : t * dotV n (vecMat x E.cell) = t' * dotV n' (vecMat x E.cell) := h1.symm.trans h2
  constructor
  · intro h
    rw [h, mul_zero] at h3
    exact (mul_eq_zero.mp h3.symm).resolve_left ht'.ne'
  · intro h
    rw [h, mul_zero] at h3
    exact (mul_eq_zero.mp h3).resolve_left ht.ne'

/-- **C112** (negative part) After "Set View" with indices of another plane the plot does not show the view indices that it reports, whatever the rotation. -/
theorem C112_stale [FloorRing K] {E : CamEnv K} (hE : GoodEnv E) {rmax : K} (hm : 0 ≤ rmax) (c₀ : Cam K) (os : List (CamOp K)) (hr : RadiiOk os) (h k l : ℤ) (a b : K)
    (hne : ¬ SamePlane K (h, k, l) (lastView os)) :
    let t := (CamSt.new E rmax c₀).session E (.button h k l a :: os).reverse
    ¬ LooksAlong E t.cam t.view b := by
  intro t hb
  obtain ⟨e1, -, e3⟩ := C112_session hE hm c₀ (.button h k l a :: os) (fun o ho m hm' => by
    rcases List.mem_cons.mp ho with rfl | ho
    · cases hm'
    · exact hr o ho m hm')
  rw [show t.view = lastView (.button h k l a :: os) from e1] at hb
  exact hne (looks_plane hE e3 hb)

end field

/-- The hypotheses are met: a unit cube, and an angle of 90 degrees for every rotation but zero. -/
noncomputable def cubeEnv : CamEnv ℝ where
  root := Real.sqrt
  cell := ((1, 0, 0), (0, 1, 0), (0, 0, 1))
  cosd := fun a => if a = 0 then 1 else 0
  sind := fun a => if a = 0 then 0 else 1
  fit := fun c => (addV c.2.1 (smulV 2 (subV c.1 c.2.1)), c.2.1, c.2.2)

theorem cubeEnv_good : GoodEnv cubeEnv where
  root := isRoot_sqrt
  cell := by norm_num [cubeEnv, det3, dotV, crossV]
  angle := fun a => by
    by_cases h : a = 0 <;> simp [cubeEnv, h]
  fit := fun c => ⟨⟨2, two_pos, by
    show subV (addV c.2.1 (smulV 2 (subV c.1 c.2.1))) c.2.1 = _
    rw [subV_addV_left]⟩, 1, one_pos, (one_smulV' _).symm⟩

/-- "Set View" to 0 0 1 in a new plot: the plot reports 1 0 0, which is not what is shown. -/
example (c₀ : Cam ℝ) (b : ℝ) :
    let t := (CamSt.new cubeEnv 1 c₀).session cubeEnv [.button 0 0 1 0]
    t.view = (1, 0, 0) ∧ t.rot = .tuple 0 ∧ LooksAlong cubeEnv t.cam (0, 0, 1) 0 ∧ ¬ LooksAlong cubeEnv t.cam t.view b := by
  have hr : RadiiOk ([] : List (CamOp ℝ)) := fun o ho => by cases ho
  have hr1 : RadiiOk ([.button 0 0 1 0] : List (CamOp ℝ)) := fun o ho m hm => by
    rcases List.mem_singleton.mp ho with rfl
    cases hm
  obtain ⟨e1, e2, e3⟩ := C112_session cubeEnv_good zero_le_one c₀ [.button 0 0 1 0] hr1
  refine ⟨e1, e2, e3, C112_stale cubeEnv_good zero_le_one c₀ [] hr 0 0 1 0 b fun h => ?_⟩
  have := h (1, 0, 0)
  simp [viewIndices, lastView] at this

/-! ## The fitted picture -/

section field
variable {K : Type*} [Field K] [LinearOrder K] [IsStrictOrderedRing K]

/-- A point of the bounding box. -/
def InBounds (lo hi p : V3 K) : Prop := (lo.1 ≤ p.1 ∧ p.1 ≤ hi.1) ∧ (lo.2.1 ≤ p.2.1 ∧ p.2.1 ≤ hi.2.1) ∧ (lo.2.2 ≤ p.2.2 ∧ p.2.2 ≤ hi.2.2)

/-- A parallel projection with half of the height `halfH` and half of the width `halfW`: the point is in the picture. -/
def InPicture (focal dir up : V3 K) (halfW halfH : K) (p : V3 K) : Prop :=
  |dotV (subV p focal) (crossV dir up)| ≤ halfW ∧ |dotV (subV p focal) up| ≤ halfH

/-- The components have no opposite signs. -/
def OneSign (v : V3 K) : Prop := (0 ≤ v.1 ∧ 0 ≤ v.2.1 ∧ 0 ≤ v.2.2) ∨ (v.1 ≤ 0 ∧ v.2.1 ≤ 0 ∧ v.2.2 ≤ 0)

/-- The camera looks at the centre of the box. -/
def Centred (lo hi focal dir : V3 K) : Prop := ∃ t, focal = addV (smulV (1 / 2) (addV lo hi)) (smulV t dir)

theorem half_extent {x lo hi : K} (h : lo ≤ x ∧ x ≤ hi) : |x - 1 / 2 * (lo + hi)| ≤ (hi - lo) / 2 := by
  rw [abs_le]
  constructor <;> linarith [h.1, h.2]

theorem extent_bound {lo hi p focal dir v : V3 K} (hp : InBounds lo hi p) (hc : Centred lo hi focal dir) (hv : dotV dir v = 0) :
    |dotV (subV p focal) v| ≤ ((hi.1 - lo.1) * |v.1| + (hi.2.1 - lo.2.1) * |v.2.1| + (hi.2.2 - lo.2.2) * |v.2.2|) / 2 := by
  obtain ⟨t, rfl⟩ := hc
  have e : dotV (subV p (addV (smulV (1 / 2) (addV lo hi)) (smulV t dir))) v =
      (p.1 - 1 / 2 * (lo.1 + hi.1)) * v.1 + (p.2.1 - 1 / 2 * (lo.2.1 + hi.2.1)) * v.2.1 + (p.2.2 - 1 / 2 * (lo.2.2 + hi.2.2)) * v.2.2 - t * dotV dir v := by
    unfold dotV subV addV smulV
    ring
  rw [e, hv, mul_zero, sub_zero]
  refine (abs_add_three _ _ _).trans ?_
  rw [abs_mul, abs_mul, abs_mul]
  have h1 := mul_le_mul_of_nonneg_right (half_extent hp.1) (abs_nonneg v.1)
  have h2 := mul_le_mul_of_nonneg_right (half_extent hp.2.1) (abs_nonneg v.2.1)
  have h3 := mul_le_mul_of_nonneg_right (half_extent hp.2.2) (abs_nonneg v.2.2)
  linarith

theorem oneSign_extent {lo hi v : V3 K} (h1 : lo.1 ≤ hi.1) (h2 : lo.2.1 ≤ hi.2.1) (h3 : lo.2.2 ≤ hi.2.2) (hv : OneSign v) :
    (hi.1 - lo.1) * |v.1| + (hi.2.1 - lo.2.1) * |v.2.1| + (hi.2.2 - lo.2.2) * |v.2.2| = |dotV (subV hi lo) v| := by
  have d1 := sub_nonneg.mpr h1
  have d2 := sub_nonneg.mpr h2
  have d3 := sub_nonneg.mpr h3
  rcases hv with ⟨a, b, c⟩ | ⟨a, b, c⟩
  · have : 0 ≤ dotV (subV hi lo) v := by unfold dotV subV; simp only; positivity
    rw [abs_of_nonneg this, abs_of_nonneg a, abs_of_nonneg b, abs_of_nonneg c]
    rfl
  · have : dotV (subV hi lo) v ≤ 0 := by
      unfold dotV subV
      simp only
      nlinarith [mul_nonneg d1 (neg_nonneg.mpr a), mul_nonneg d2 (neg_nonneg.mpr b), mul_nonneg d3 (neg_nonneg.mpr c)]
    rw [abs_of_nonpos this, abs_of_nonpos a, abs_of_nonpos b, abs_of_nonpos c]
    unfold dotV subV
    ring

theorem InBounds.le {lo hi p : V3 K} (h : InBounds lo hi p) : lo.1 ≤ hi.1 ∧ lo.2.1 ≤ hi.2.1 ∧ lo.2.2 ≤ hi.2.2 :=
  ⟨h.1.1.trans h.1.2, h.2.1.1.trans h.2.1.2, h.2.2.1.trans h.2.2.2⟩

theorem dot_cross_self (a b : V3 K) : dotV a (crossV a b) = 0 := by
  unfold dotV crossV
  ring

/-- **C112** (partial) A camera that looks at the centre of the box, with upward and horizontal directions that have no components of opposite signs: with
the parallel scale that is set, every point of the box is in the picture of the window of `w` by `h` pixels.  Missing: other directions, for which it is
false (`C112_cut`, `C112_diagonal`), and other focal points, as for slices of oblique cells (`C112_off_centre`). -/
theorem C112_fit_partial {lo hi focal dir up p : V3 K} {w h padding : K} (hw : 0 < w) (hh : 0 < h) (hpad : 0 ≤ padding) (hc : Centred lo hi focal dir)
    (hperp : dotV dir up = 0) (h1 : OneSign up) (h2 : OneSign (crossV dir up)) (hp : InBounds lo hi p) :
    let scale := tightScale (w / h) padding (tightDists (subV hi lo) dir up)
    InPicture focal dir up (scale * (w / h)) scale p := by
  intro scale
  obtain ⟨b1, b2, b3⟩ := hp.le
  have hasp : 0 < w / h := by positivity
  have eu := extent_bound hp hc hperp
  have er := extent_bound hp hc (dot_cross_self dir up)
  rw [oneSign_extent b1 b2 b3 h1] at eu
  rw [oneSign_extent b1 b2 b3 h2] at er
  set hd := |dotV (subV hi lo) (crossV dir up)| with hhd
  set vd := |dotV (subV hi lo) up| with hvd
  have hs : scale = max (hd / (w / h)) vd / 2 * (1 + padding) := rfl
  have m0 : 0 ≤ max (hd / (w / h)) vd := le_trans (abs_nonneg _) (le_max_right _ _)
  have hs' : max (hd / (w / h)) vd / 2 ≤ scale := by rw [hs]; nlinarith
  constructor
  · have : hd / (w / h) * (w / h) = hd := by field_simp
    have h3 := mul_le_mul_of_nonneg_right (le_max_left (hd / (w / h)) vd) hasp.le
    have h4 := mul_le_mul_of_nonneg_right hs' hasp.le
    linarith
  · have := le_max_right (hd / (w / h)) vd
    linarith

/-- **C112** (negative part) If the picture is not wider than the taken height asks for and the upward direction has components of opposite signs, a corner
of the box is outside of the picture. -/
theorem C112_cut {lo hi focal dir up : V3 K} {aspect : K} (hc : Centred lo hi focal dir) (hperp : dotV dir up = 0) (h1 : lo.1 < hi.1)
    (h2 : lo.2.1 < hi.2.1) (h3 : lo.2.2 < hi.2.2) (hs : ¬ OneSign up) (hlow : (tightDists (subV hi lo) dir up).1 / aspect ≤ (tightDists (subV hi lo) dir up).2) :
    ∃ p, InBounds lo hi p ∧ ∀ halfW, ¬ InPicture focal dir up halfW (tightScale aspect 0 (tightDists (subV hi lo) dir up)) p := by
  have hscale : tightScale aspect 0 (tightDists (subV hi lo) dir up) = |dotV (subV hi lo) up| / 2 := by
    unfold tightScale
    rw [max_eq_right hlow, add_zero, mul_one]
    rfl
  refine ⟨(if 0 ≤ up.1 then hi.1 else lo.1, if 0 ≤ up.2.1 then hi.2.1 else lo.2.1, if 0 ≤ up.2.2 then hi.2.2 else lo.2.2), ?_, ?_⟩
  · refine ⟨?_, ?_, ?_⟩ <;> simp only <;> split_ifs <;> constructor <;> linarith
  · intro halfW hin
    have hv := hin.2
    rw [hscale] at hv
    obtain ⟨t, rfl⟩ := hc
    have a1 : ∀ x lo hi : K, ((if 0 ≤ x then hi else lo) - 1 / 2 * (lo + hi)) * x = (hi - lo) * |x| / 2 := by
      intro x lo hi
      split_ifs with hx
      · rw [abs_of_nonneg hx]; ring
      · rw [abs_of_neg (not_le.mp hx)]; ring
    have e : dotV (subV (if 0 ≤ up.1 then hi.1 else lo.1, if 0 ≤ up.2.1 then hi.2.1 else lo.2.1, if 0 ≤ up.2.2 then hi.2.2 else lo.2.2)
        (addV (smulV (1 / 2) (addV lo hi)) (smulV t dir))) up =
        (hi.1 - lo.1) * |up.1| / 2 + (hi.2.1 - lo.2.1) * |up.2.1| / 2 + (hi.2.2 - lo.2.2) * |up.2.2| / 2 := by
      rw [← a1, ← a1, ← a1]
      have : t * dotV dir up = 0 := by rw [hperp, mul_zero]
      unfold dotV at this
      unfold dotV subV addV smulV
      simp only
      linear_combination -this
    rw [e] at hv
    have d1 := sub_pos.mpr h1
    have d2 := sub_pos.mpr h2
    have d3 := sub_pos.mpr h3
    have hle := (le_abs_self _).trans hv
    have hx : |dotV (subV hi lo) up| = |(hi.1 - lo.1) * up.1 + (hi.2.1 - lo.2.1) * up.2.1 + (hi.2.2 - lo.2.2) * up.2.2| := rfl
    rw [hx] at hle
    apply hs
    generalize hi.1 - lo.1 = x at *
    generalize hi.2.1 - lo.2.1 = y at *
    generalize hi.2.2 - lo.2.2 = z at *
    rcases abs_cases (x * up.1 + y * up.2.1 + z * up.2.2) with ⟨q, -⟩ | ⟨q, -⟩ <;> rw [q] at hle
    · left
      have p1 := le_abs_self up.1
      have p2 := le_abs_self up.2.1
      have p3 := le_abs_self up.2.2
      have m1 := mul_le_mul_of_nonneg_left p1 d1.le
      have m2 := mul_le_mul_of_nonneg_left p2 d2.le
      have m3 := mul_le_mul_of_nonneg_left p3 d3.le
      have n1 : x * up.1 = x * |up.1| := by linarith
      have n2 : y * up.2.1 = y * |up.2.1| := by linarith
      have n3 : z * up.2.2 = z * |up.2.2| := by linarith
      exact ⟨(mul_left_cancel₀ d1.ne' n1) ▸ abs_nonneg _, (mul_left_cancel₀ d2.ne' n2) ▸ abs_nonneg _, (mul_left_cancel₀ d3.ne' n3) ▸ abs_nonneg _⟩
    · right
      have p1 := neg_abs_le up.1
      have p2 := neg_abs_le up.2.1
      have p3 := neg_abs_le up.2.2
      have m1 := mul_le_mul_of_nonneg_left p1 d1.le
      have m2 := mul_le_mul_of_nonneg_left p2 d2.le
      have m3 := mul_le_mul_of_nonneg_left p3 d3.le
      have n1 : x * up.1 = x * -|up.1| := by linarith
      have n2 : y * up.2.1 = y * -|up.2.1| := by linarith
      have n3 : z * up.2.2 = z * -|up.2.2| := by linarith
      have k1 := mul_left_cancel₀ d1.ne' n1
      have k2 := mul_left_cancel₀ d2.ne' n2
      have k3 := mul_left_cancel₀ d3.ne' n3
      exact ⟨by linarith [abs_nonneg up.1], by linarith [abs_nonneg up.2.1], by linarith [abs_nonneg up.2.2]⟩

/-- **C112** (negative part) Looking along the diagonal of the bounding box, as for the slice 1 1 1 of a cubic cell: both widths are taken as zero, so the
scale is zero and the size of the window cannot be computed, for every rotation. -/
theorem C112_diagonal [FloorRing K] {size dir up : V3 K} {c : K} (hd : size = smulV c dir) (hperp : dotV dir up = 0) (aspect padding : K) (w h : ℤ) :
    tightScale aspect padding (tightDists size dir up) = 0 ∧ tightWindow w h (tightDists size dir up) = none := by
  have e1 : dotV size (crossV dir up) = 0 := by
    rw [hd]
    unfold dotV smulV crossV
    ring
  have e2 : dotV size up = 0 := by
    rw [hd]
    have : c * dotV dir up = 0 := by rw [hperp, mul_zero]
    unfold dotV at this
    unfold dotV smulV
    linear_combination this
  have e : tightDists size dir up = (0, 0) := by
    unfold tightDists
    rw [e1, e2, abs_zero]
  rw [e]
  exact ⟨by simp [tightScale], by simp [tightWindow]⟩

/-- **C112** The size of the window is changed to the proportions of the taken widths: one of the two numbers of pixels stays, the other shrinks and is the
exact value up to half a pixel. -/
theorem C112_window [FloorRing K] {w h : ℤ} (hw : 0 < w) (hh : 0 < h) {d : K × K} (h1 : 0 < d.1) (h2 : 0 < d.2) :
    ∃ w' h' : ℤ, tightWindow w h d = some (w', h') ∧ w' ≤ w ∧ h' ≤ h ∧
      ((h' = h ∧ |(w' : K) - d.1 / d.2 * h| ≤ 1 / 2) ∨ (w' = w ∧ |(h' : K) - d.2 / d.1 * w| ≤ 1 / 2)) := by
  have hwK : (0 : K) < w := by exact_mod_cast hw
  have hhK : (0 : K) < h := by exact_mod_cast hh
  unfold tightWindow
  rw [if_neg h2.ne']
  simp only
  split_ifs with hlt
  · refine ⟨_, _, rfl, ?_, le_rfl, Or.inl ⟨rfl, ?_⟩⟩
    · have : (w : K) * (d.1 / d.2 / ((w : K) / h)) ≤ ((w : ℤ) : K) := by nlinarith
      have := roundHE_mono this
      rwa [roundHE_intCast] at this
    · have e : (w : K) * (d.1 / d.2 / ((w : K) / h)) = d.1 / d.2 * h := by field_simp
      rw [e, abs_sub_comm]
      exact roundHE_near _
  · have hge := not_lt.mp hlt
    refine ⟨_, _, rfl, le_rfl, ?_, Or.inr ⟨rfl, ?_⟩⟩
    · have : (h : K) / (d.1 / d.2 / ((w : K) / h)) ≤ ((h : ℤ) : K) := by
        rw [div_le_iff₀ (by linarith)]
        nlinarith
      have := roundHE_mono this
      rwa [roundHE_intCast] at this
    · have e : (h : K) / (d.1 / d.2 / ((w : K) / h)) = d.2 / d.1 * w := by field_simp
      rw [e, abs_sub_comm]
      exact roundHE_near _

/-- **C112** (negative part) The picture of a box that is wider than the window is not tight: the height that is shown is more than the height of the box,
and it stays so when the window is resized. -/
theorem C112_margin {w h : K} (hw : 0 < w) (hh : 0 < h) {d : K × K} (h2 : 0 < d.2) (hwide : w / h < d.1 / d.2) : d.2 < 2 * tightScale (w / h) 0 d := by
  have hasp : 0 < w / h := by positivity
  have : d.2 < d.1 / (w / h) := by
    rw [lt_div_iff₀ hasp]
    rw [lt_div_iff₀ h2] at hwide
    linarith
  unfold tightScale
  rw [max_eq_left this.le]
  linarith

end field

/-- **C112** (negative part) The slice 0 0 1 through the origin of an oblique cell fills the unit square; the camera looks at the centre of the cell, which is not
above the centre of the square, and a corner is outside of the picture. -/
theorem C112_off_centre :
    let L : M3 ℚ := ((1, 0, 0), (0, 1, 0), (1, 0, 1))
    let focal := vecMat (1 / 2, 1 / 2, 1 / 2) L
    let scale := tightScale (4 / 3) 0 (tightDists (subV (1, 1, 0) (0, 0, 0)) (0, 0, -1) (0, 1, 0))
    InBounds (0, 0, 0) (1, 1, 0) ((0, 0, 0) : V3 ℚ) ∧ ¬ InPicture focal (0, 0, -1) (0, 1, 0) (scale * (4 / 3)) scale (0, 0, 0) := by
  refine ⟨by norm_num [InBounds], ?_⟩
  norm_num [InPicture, tightScale, tightDists, dotV, subV, crossV, vecMat]

/-- A box of sizes 2, 3, 4 seen along the first axis: everything is shown. -/
example : ∀ p : V3 ℚ, InBounds (0, 0, 0) (2, 3, 4) p → InPicture (1, 3 / 2, 2) (-1, 0, 0) (0, 0, 1) (2 * (4 / 3)) 2 p := by
  intro p hp
  have := C112_fit_partial (w := (4 : ℚ)) (h := 3) (padding := 0) (focal := (1, 3 / 2, 2)) (dir := (-1, 0, 0)) (up := (0, 0, 1)) (by norm_num) (by norm_num) le_rfl
    ⟨0, by norm_num [addV, smulV]⟩ (by norm_num [dotV]) (Or.inl (by norm_num)) (Or.inl (by norm_num [crossV])) hp
  norm_num [tightScale, tightDists, dotV, subV, crossV] at this
  norm_num
  exact this

/-- The unit cube seen along the third axis, turned: a corner is not shown. -/
example : ∃ p : V3 ℚ, InBounds (0, 0, 0) (1, 1, 1) p ∧
    ∀ halfW, ¬ InPicture (1 / 2, 1 / 2, 1 / 2) (0, 0, -1) (3 / 5, -4 / 5, 0) halfW (tightScale 10 0 (tightDists (subV (1, 1, 1) (0, 0, 0)) (0, 0, -1) (3 / 5, -4 / 5, 0))) p :=
  C112_cut ⟨0, by norm_num [addV, smulV]⟩ (by norm_num [dotV]) (by norm_num) (by norm_num) (by norm_num) (by unfold OneSign; norm_num)
    (by norm_num [tightDists, dotV, subV, crossV])

/-- The cube seen along its diagonal. -/
example : tightScale (4 / 3) 0 (tightDists ((1, 1, 1) : V3 ℚ) (-1, -1, -1) (-1, -1, 2)) = 0 :=
  (C112_diagonal (c := -1) (by norm_num [smulV]) (by norm_num [dotV]) _ _ 4 3).1

end BaderKit
