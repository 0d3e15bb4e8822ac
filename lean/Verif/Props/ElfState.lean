import Verif.Model.ElfState
/-!
# Reading an `ElfLabeler` and a `Badelf` in any order, after exceptions and after changes
-/
set_option linter.unusedSectionVars false
namespace BaderKit
variable {σ G R A V ι P B : Type}

/-! ## Specification -/

/-- The labelling with settings `c` succeeds: the features are marked one kind after the other, both tests are passed, and `g` is the complete graph, `r`
the radii of the neighbours and `a` those of the atoms. -/
def Labelled (W : LabelWork σ G R A V ι) (c : σ) (g : G) (r : R) (a : A) : Prop :=
  ∃ g0 g1 g2 g3 g4 g5, W.init c = some g0 ∧ W.cores c g0 = (g1, true) ∧ W.shells c g1 = (g2, true) ∧ W.covalent c g2 = (g3, true) ∧
    W.lonePairs c g3 = (g4, true) ∧ W.nnRadii c g4 false = some r ∧ W.siteRadii c r = some a ∧ W.multi c a g4 = (g5, true) ∧
    W.check c g5 = true ∧ W.surface c g5 = (g, true)

/-- Everything is marked, but the tests at the end raise: `g` is the marked graph. -/
def TestRaises (W : LabelWork σ G R A V ι) (c : σ) (g : G) (r : R) (a : A) : Prop :=
  ∃ g0 g1 g2 g3 g4, W.init c = some g0 ∧ W.cores c g0 = (g1, true) ∧ W.shells c g1 = (g2, true) ∧ W.covalent c g2 = (g3, true) ∧
    W.lonePairs c g3 = (g4, true) ∧ W.nnRadii c g4 false = some r ∧ W.siteRadii c r = some a ∧ W.multi c a g4 = (g, true) ∧
    W.check c g = false

/-- The radii of the neighbours when electrides count as atoms. -/
def radiiE (W : LabelWork σ G R A V ι) (c : σ) (g : G) (r : R) : Option R := if W.hasBare c g then W.nnRadii c g true else some r

/-- What a user expects from a read. -/
def expected (W : LabelWork σ G R A V ι) (c : σ) (g : G) (r : R) (a : A) : ElfRead ι → Option (ElfAns R A V)
  | .feature i => (W.prop i g).map .feature
  | .nn => some (.nn (some r))
  | .sites => some (.sites a)
  | .nnE => (radiiE W c g r).map fun x => .nn (some x)
  | .sitesE => ((radiiE W c g r).bind (W.siteRadiiE c g)).map .sites

/-- What a user expects as planes and as results of BadELF. -/
def expectedPlanes (W : LabelWork σ G R A V ι) (U : BadelfWork G R A P B) (c : σ) (g : G) (r : R) (m : BMethod) : Option P :=
  (if m = .badelf then some r else radiiE W c g r).bind U.wrap

/-- See `expectedPlanes`. -/
def expectedResult (W : LabelWork σ G R A V ι) (U : BadelfWork G R A P B) (c : σ) (g : G) (r : R) (m : BMethod) : Option B :=
  if m = .zeroFlux then
    if U.needsRadii g then ((radiiE W c g r).bind (W.siteRadiiE c g)).bind fun x => U.zeroFlux g (some x) else U.zeroFlux g none
  else (expectedPlanes W U c g r m).bind (U.assign (decide (m = .badelf)) g)

/-! ## The run -/

theorem label_success {W : LabelWork σ G R A V ι} {c : σ} {g : G} {r : R} {a : A} (h : Labelled W c g r a) :
    (ElfSt.new c : ElfSt σ G R A).label W = (⟨c, some g, true, some r, some a, none, none, 1⟩, true) := by
  obtain ⟨g0, g1, g2, g3, g4, g5, h0, h1, h2, h3, h4, h5, h6, h7, h8, h9⟩ := h
  simp [ElfSt.label, labelSteps, ElfSt.new, initStep, ElfSt.mark, covalentMark, radiiStep, multiStep, ElfSt.siteOf, checkStep, h0, h1, h2, h3, h4, h5,
    h6, h7, h8, h9]

theorem label_test {W : LabelWork σ G R A V ι} {c : σ} {g : G} {r : R} {a : A} (h : TestRaises W c g r a) :
    (ElfSt.new c : ElfSt σ G R A).label W = (⟨c, some g, true, some r, some a, none, none, 1⟩, false) := by
  obtain ⟨g0, g1, g2, g3, g4, h0, h1, h2, h3, h4, h5, h6, h7, h8⟩ := h
  simp [ElfSt.label, labelSteps, ElfSt.new, initStep, ElfSt.mark, covalentMark, radiiStep, multiStep, ElfSt.siteOf, checkStep, h0, h1, h2, h3, h4, h5,
    h6, h7, h8]

theorem label_ok {W : LabelWork σ G R A V ι} {c : σ} (h : ((ElfSt.new c : ElfSt σ G R A).label W).2 = true) : ∃ g r a, Labelled W c g r a := by
  cases h0 : W.init c with
  | none => simp [ElfSt.label, labelSteps, ElfSt.new, initStep, ElfSt.mark, covalentMark, radiiStep, multiStep, ElfSt.siteOf, checkStep, h0] at h
  | some g0 =>
  rcases h1 : W.cores c g0 with ⟨g1, _ | _⟩
  · simp [ElfSt.label, labelSteps, ElfSt.new, initStep, ElfSt.mark, covalentMark, radiiStep, multiStep, ElfSt.siteOf, checkStep, h0, h1] at h
  rcases h2 : W.shells c g1 with ⟨g2, _ | _⟩
  · simp [ElfSt.label, labelSteps, ElfSt.new, initStep, ElfSt.mark, covalentMark, radiiStep, multiStep, ElfSt.siteOf, checkStep, h0, h1, h2] at h
  rcases h3 : W.covalent c g2 with ⟨g3, _ | _⟩
  · simp [ElfSt.label, labelSteps, ElfSt.new, initStep, ElfSt.mark, covalentMark, radiiStep, multiStep, ElfSt.siteOf, checkStep, h0, h1, h2, h3] at h
  rcases h4 : W.lonePairs c g3 with ⟨g4, _ | _⟩
  · simp [ElfSt.label, labelSteps, ElfSt.new, initStep, ElfSt.mark, covalentMark, radiiStep, multiStep, ElfSt.siteOf, checkStep, h0, h1, h2, h3, h4] at h
  cases h5 : W.nnRadii c g4 false with
  | none => simp [ElfSt.label, labelSteps, ElfSt.new, initStep, ElfSt.mark, covalentMark, radiiStep, multiStep, ElfSt.siteOf, checkStep, h0, h1, h2, h3, h4, h5] at h
  | some r =>
  cases h6 : W.siteRadii c r with
  | none => simp [ElfSt.label, labelSteps, ElfSt.new, initStep, ElfSt.mark, covalentMark, radiiStep, multiStep, ElfSt.siteOf, checkStep, h0, h1, h2, h3, h4, h5, h6] at h
  | some a =>
  rcases h7 : W.multi c a g4 with ⟨g5, _ | _⟩
  · simp [ElfSt.label, labelSteps, ElfSt.new, initStep, ElfSt.mark, covalentMark, radiiStep, multiStep, ElfSt.siteOf, checkStep, h0, h1, h2, h3, h4, h5, h6, h7] at h
  cases h8 : W.check c g5 with
  | false => simp [ElfSt.label, labelSteps, ElfSt.new, initStep, ElfSt.mark, covalentMark, radiiStep, multiStep, ElfSt.siteOf, checkStep, h0, h1, h2, h3, h4, h5, h6, h7, h8] at h
  | true =>
  rcases h9 : W.surface c g5 with ⟨g, _ | _⟩
  · simp [ElfSt.label, labelSteps, ElfSt.new, initStep, ElfSt.mark, covalentMark, radiiStep, multiStep, ElfSt.siteOf, checkStep, h0, h1, h2, h3, h4, h5, h6, h7, h8, h9] at h
  exact ⟨g, r, a, g0, g1, g2, g3, g4, g5, h0, h1, h2, h3, h4, h5, h6, h7, h8, h9⟩

/-- The state after the labelling: `x`, `y` are what was read with electrides as atoms. -/
def doneSt (c : σ) (g : G) (r : R) (a : A) (x : Option R) (y : Option A) : ElfSt σ G R A := ⟨c, some g, true, some r, some a, x, y, 1⟩

/-- What may be stored with electrides as atoms. -/
def StoredE (W : LabelWork σ G R A V ι) (c : σ) (g : G) (r : R) (x : Option R) (y : Option A) : Prop :=
  (x = none ∨ (x = radiiE W c g r ∧ x.isSome)) ∧ (y = none ∨ (y = (radiiE W c g r).bind (W.siteRadiiE c g) ∧ y.isSome))

theorem done_graph (W : LabelWork σ G R A V ι) (c : σ) (g : G) (r : R) (a : A) (x : Option R) (y : Option A) :
    (doneSt c g r a x y).readGraph W = (some g, doneSt c g r a x y) := rfl

theorem done_nn (W : LabelWork σ G R A V ι) (c : σ) (g : G) (r : R) (a : A) (x : Option R) (y : Option A) :
    (doneSt c g r a x y).readNN W = (some (some r), doneSt c g r a x y) := rfl

theorem done_sites (W : LabelWork σ G R A V ι) (c : σ) (g : G) (r : R) (a : A) (x : Option R) (y : Option A) :
    (doneSt c g r a x y).readSites W = (some a, doneSt c g r a x y) := rfl

theorem done_nnE {W : LabelWork σ G R A V ι} {c : σ} {g : G} {r : R} (a : A) {x : Option R} {y : Option A} (h : StoredE W c g r x y) :
    ∃ x', StoredE W c g r x' y ∧ (doneSt c g r a x y).readNNE W = ((radiiE W c g r).map some, doneSt c g r a x' y) := by
  rcases h.1 with rfl | ⟨hx, hs⟩
  · by_cases hb : W.hasBare c g = true
    · have he : radiiE W c g r = W.nnRadii c g true := by simp [radiiE, hb]
      cases hn : W.nnRadii c g true with
      | none =>
        refine ⟨none, h, ?_⟩
        simp [ElfSt.readNNE, doneSt, ElfSt.readGraph, hb, hn, he]
      | some z =>
        refine ⟨some z, ⟨Or.inr ⟨by rw [he, hn], rfl⟩, h.2⟩, ?_⟩
        simp [ElfSt.readNNE, doneSt, ElfSt.readGraph, hb, hn, he]
    · have he : radiiE W c g r = some r := by simp [radiiE, hb]
      refine ⟨some r, ⟨Or.inr ⟨he.symm, rfl⟩, h.2⟩, ?_⟩
      simp [ElfSt.readNNE, doneSt, ElfSt.readGraph, ElfSt.readNN, hb, he]
  · obtain ⟨z, rfl⟩ := Option.isSome_iff_exists.mp hs
    refine ⟨some z, h, ?_⟩
    rw [← hx]; rfl

theorem done_sitesE {W : LabelWork σ G R A V ι} {c : σ} {g : G} {r : R} (a : A) {x : Option R} {y : Option A} (h : StoredE W c g r x y) :
    ∃ x' y', StoredE W c g r x' y' ∧
      (doneSt c g r a x y).readSitesE W = ((radiiE W c g r).bind (W.siteRadiiE c g), doneSt c g r a x' y') := by
  rcases h.2 with rfl | ⟨hy, hs⟩
  · obtain ⟨x', h', e⟩ := done_nnE a h
    have e' : (doneSt c g r a x none).readSitesE W = (match (radiiE W c g r).map some, doneSt c g r a x' none with
      | none, u => (none, u)
      | some q, u => match q.bind (W.siteRadiiE u.cfg g) with
        | none => (none, u)
        | some b => (some b, { u with siteRE := some b })) := by
      show (match (doneSt c g r a x none).readNNE W with
        | (none, u) => (none, u)
        | (some q, u) => match q.bind (W.siteRadiiE u.cfg g) with
          | none => (none, u)
          | some b => (some b, { u with siteRE := some b })) = _
      rw [e]
      cases radiiE W c g r <;> rfl
    cases hr : radiiE W c g r with
    | none => exact ⟨x', none, h', by rw [e', hr]; rfl⟩
    | some z =>
      cases hz : W.siteRadiiE c g z with
      | none => exact ⟨x', none, h', by rw [e', hr]; simp [doneSt, hz]⟩
      | some b => exact ⟨x', some b, ⟨h'.1, Or.inr ⟨by simp [hr, hz], rfl⟩⟩, by rw [e', hr]; simp [doneSt, hz]⟩
  · obtain ⟨z, rfl⟩ := Option.isSome_iff_exists.mp hs
    exact ⟨x, some z, h, by rw [← hy]; rfl⟩

theorem done_read {W : LabelWork σ G R A V ι} {c : σ} {g : G} {r : R} (a : A) {x : Option R} {y : Option A} (h : StoredE W c g r x y)
    (q : ElfRead ι) : ∃ x' y', StoredE W c g r x' y' ∧ (doneSt c g r a x y).read W q = (expected W c g r a q, doneSt c g r a x' y') := by
  cases q with
  | feature i => exact ⟨x, y, h, rfl⟩
  | nn => exact ⟨x, y, h, rfl⟩
  | sites => exact ⟨x, y, h, rfl⟩
  | nnE =>
    obtain ⟨x', h', e⟩ := done_nnE a h
    refine ⟨x', y, h', ?_⟩
    simp only [ElfSt.read, e, expected, Option.map_map]; rfl
  | sitesE =>
    obtain ⟨x', y', h', e⟩ := done_sitesE a h
    refine ⟨x', y', h', ?_⟩
    simp only [ElfSt.read, e, expected]

theorem stored_none (W : LabelWork σ G R A V ι) (c : σ) (g : G) (r : R) : StoredE W c g r none none := ⟨Or.inl rfl, Or.inl rfl⟩

/-- The first read of a new labeler is that of a labelled one. -/
theorem new_read {W : LabelWork σ G R A V ι} {c : σ} {g : G} {r : R} {a : A} (h : Labelled W c g r a) (q : ElfRead ι) :
    (ElfSt.new c : ElfSt σ G R A).read W q = (doneSt c g r a none none).read W q := by
  have e := label_success h
  have eg : (ElfSt.new c : ElfSt σ G R A).readGraph W = (some g, doneSt c g r a none none) := by
    show (let r := (ElfSt.new c : ElfSt σ G R A).label W; (if r.2 then r.1.graph else none, r.1)) = _
    rw [e]; rfl
  have en : (ElfSt.new c : ElfSt σ G R A).readNN W = (some (some r), doneSt c g r a none none) := by
    show (match (ElfSt.new c : ElfSt σ G R A).readGraph W with
      | (none, t) => (none, t)
      | (some _, t) => (some t.nn, t)) = _
    rw [eg]; rfl
  have ee : (ElfSt.new c : ElfSt σ G R A).readNNE W = (doneSt c g r a none none).readNNE W := by
    simp only [ElfSt.readNNE, eg, done_graph]; rfl
  cases q with
  | feature i => simp only [ElfSt.read, eg, done_graph]
  | nn => simp only [ElfSt.read, en, done_nn]
  | sites =>
    have : (ElfSt.new c : ElfSt σ G R A).readSites W = (doneSt c g r a none none).readSites W := by
      show (match (ElfSt.new c : ElfSt σ G R A).readNN W with
        | (none, t) => (none, t)
        | (some _, t) => t.siteOf W) = _
      rw [en]; rfl
    simp only [ElfSt.read, this]
  | nnE => simp only [ElfSt.read, ee]
  | sitesE =>
    have : (ElfSt.new c : ElfSt σ G R A).readSitesE W = (doneSt c g r a none none).readSitesE W := by
      simp only [ElfSt.readSitesE, eg, done_graph]; rfl
    simp only [ElfSt.read, this]

/-! ## Reads in any order -/

/-- **C105** If the labelling succeeds, every read answers what the complete labelling gives, whatever was read before and in whatever order, and the
labelling is run once.  Missing for the full claim: labellings that raise (`C105_test_raises`, `C105_unfinished`) and changes of the settings
(`C105_settings_ignored`, `C105_settings_mixed`). -/
theorem C105_reads_partial {W : LabelWork σ G R A V ι} {c : σ} {g : G} {r : R} {a : A} (h : Labelled W c g r a) (qs : List (ElfRead ι)) :
    let t := (ElfSt.new c : ElfSt σ G R A).session W (qs.map .read)
    t.1 = qs.map (expected W c g r a) ∧ t.2.runs = if qs = [] then 0 else 1 := by
  have key : ∀ (qs : List (ElfRead ι)) (x y), StoredE W c g r x y →
      ((doneSt c g r a x y).session W (qs.map .read)).1 = qs.map (expected W c g r a) ∧
      ((doneSt c g r a x y).session W (qs.map .read)).2.runs = 1 := by
    intro qs
    induction qs with
    | nil => intro x y _; exact ⟨rfl, rfl⟩
    | cons q qs ih =>
      intro x y hs
      obtain ⟨x', y', hs', e⟩ := done_read a hs q
      obtain ⟨i1, i2⟩ := ih x' y' hs'
      simp only [List.map_cons, ElfSt.session, ElfSt.op, e, Option.toList_some, List.singleton_append, i1, i2, and_self]
  cases qs with
  | nil => exact ⟨rfl, rfl⟩
  | cons q qs =>
    obtain ⟨x', y', hs', e⟩ := done_read a (stored_none W c g r) q
    obtain ⟨i1, i2⟩ := key qs x' y' hs'
    simp only [List.map_cons, ElfSt.session, ElfSt.op, new_read h q, e, Option.toList_some, List.singleton_append, i1, i2, reduceCtorEq, if_false,
      and_self]

/-! ## After an exception -/

/-- An object that has a graph keeps it, and is never labelled again. -/
theorem graph_kept {W : LabelWork σ G R A V ι} {s : ElfSt σ G R A} {g : G} (h : s.graph = some g) (o : ElfOp σ ι) :
    (s.op W o).2.graph = some g ∧ (s.op W o).2.nn = s.nn ∧ (s.op W o).2.labeledCov = s.labeledCov ∧ (s.op W o).2.runs = s.runs := by
  have eg : s.readGraph W = (some g, s) := by unfold ElfSt.readGraph; rw [h]
  have en : s.readNN W = (some s.nn, s) := by
    unfold ElfSt.readNN
    cases hn : s.nn with
    | none => simp only [eg, hn]
    | some r => rfl
  have es : ∀ t : ElfSt σ G R A, (t.siteOf W).2.graph = t.graph ∧ (t.siteOf W).2.nn = t.nn ∧ (t.siteOf W).2.labeledCov = t.labeledCov ∧
      (t.siteOf W).2.runs = t.runs := by
    intro t
    unfold ElfSt.siteOf
    cases t.siteR with
    | some a => exact ⟨rfl, rfl, rfl, rfl⟩
    | none => cases t.nn.bind (W.siteRadii t.cfg) <;> exact ⟨rfl, rfl, rfl, rfl⟩
  have ee : (s.readNNE W).2.graph = some g ∧ (s.readNNE W).2.nn = s.nn ∧ (s.readNNE W).2.labeledCov = s.labeledCov ∧
      (s.readNNE W).2.runs = s.runs := by
    unfold ElfSt.readNNE
    cases s.nnE with
    | some r => exact ⟨h, rfl, rfl, rfl⟩
    | none =>
      simp only [eg, en]
      split_ifs
      · cases W.nnRadii s.cfg g true <;> exact ⟨h, rfl, rfl, rfl⟩
      · exact ⟨h, rfl, rfl, rfl⟩
      · exact ⟨h, rfl, rfl, rfl⟩
  cases o with
  | set c => exact ⟨h, rfl, rfl, rfl⟩
  | read q =>
    cases q with
    | feature i => simp only [ElfSt.op, ElfSt.read, eg, h, and_self]
    | nn => simp only [ElfSt.op, ElfSt.read, en, h, and_self]
    | sites =>
      simp only [ElfSt.op, ElfSt.read]
      unfold ElfSt.readSites
      cases s.siteR with
      | some a => exact ⟨h, rfl, rfl, rfl⟩
      | none =>
        simp only [en]
        obtain ⟨h1, h2, h3, h4⟩ := es s
        exact ⟨h1.trans h, h2, h3, h4⟩
    | nnE => exact ee
    | sitesE =>
      simp only [ElfSt.op, ElfSt.read]
      unfold ElfSt.readSitesE
      cases s.siteRE with
      | some a => exact ⟨h, rfl, rfl, rfl⟩
      | none =>
        simp only [eg]
        obtain ⟨h1, h2, h3, h4⟩ := ee
        rcases hq : s.readNNE W with ⟨_ | q, u⟩
        · rw [hq] at h1 h2 h3 h4; exact ⟨h1, h2, h3, h4⟩
        · rw [hq] at h1 h2 h3 h4
          dsimp only
          cases hb : q.bind (W.siteRadiiE u.cfg g) with
          | none => exact ⟨h1, h2, h3, h4⟩
          | some b => exact ⟨h1, h2, h3, h4⟩

theorem session_kept {W : LabelWork σ G R A V ι} {g : G} (os : List (ElfOp σ ι)) : ∀ {s : ElfSt σ G R A}, s.graph = some g →
    (s.session W os).2.graph = some g ∧ (s.session W os).2.nn = s.nn ∧ (s.session W os).2.labeledCov = s.labeledCov ∧
    (s.session W os).2.runs = s.runs := by
  induction os with
  | nil => intro s h; exact ⟨h, rfl, rfl, rfl⟩
  | cons o os ih =>
    intro s h
    obtain ⟨h1, h2, h3, h4⟩ := graph_kept (W := W) h o
    obtain ⟨k1, k2, k3, k4⟩ := ih h1
    exact ⟨k1, k2.trans h2, k3.trans h3, k4.trans h4⟩

/-- Feature reads and neighbour reads of an object with a graph. -/
theorem kept_answers {W : LabelWork σ G R A V ι} {s : ElfSt σ G R A} {g : G} (h : s.graph = some g) (i : ι) :
    (s.read W (.feature i)).1 = (W.prop i g).map .feature ∧ (s.read W .nn).1 = some (.nn s.nn) := by
  have eg : s.readGraph W = (some g, s) := by unfold ElfSt.readGraph; rw [h]
  refine ⟨by simp only [ElfSt.read, eg, Option.bind_some], ?_⟩
  simp only [ElfSt.read]
  unfold ElfSt.readNN
  cases hn : s.nn with
  | none => simp only [eg, hn, Option.map_some]
  | some r => rfl

/-- **C105** (negative part) The tests at the end of the labelling, such as the one for pseudopotentials without core electrons, raise only once: the
first read raises, whatever it is; every later read of the features, after any session, answers from the marked graph as if the test had been passed. -/
theorem C105_test_raises {W : LabelWork σ G R A V ι} {c : σ} {g : G} {r : R} {a : A} (h : TestRaises W c g r a) (q : ElfRead ι)
    (os : List (ElfOp σ ι)) (i : ι) :
    let first := (ElfSt.new c : ElfSt σ G R A).read W q
    let later := (first.2.session W os).2
    first.1 = none ∧ (later.read W (.feature i)).1 = (W.prop i g).map .feature ∧ (later.read W .nn).1 = some (.nn (some r)) ∧ later.runs = 1 := by
  have e := label_test h
  have eg : (ElfSt.new c : ElfSt σ G R A).readGraph W = (none, doneSt c g r a none none) := by
    show (let r := (ElfSt.new c : ElfSt σ G R A).label W; (if r.2 then r.1.graph else none, r.1)) = _
    rw [e]; rfl
  have en : (ElfSt.new c : ElfSt σ G R A).readNN W = (none, doneSt c g r a none none) := by
    show (match (ElfSt.new c : ElfSt σ G R A).readGraph W with
      | (none, t) => (none, t)
      | (some _, t) => (some t.nn, t)) = _
    rw [eg]
  have ef : (ElfSt.new c : ElfSt σ G R A).read W q = (none, doneSt c g r a none none) := by
    cases q with
    | feature i => simp only [ElfSt.read, eg, Option.bind_none, Option.map_none]
    | nn => simp only [ElfSt.read, en, Option.map_none]
    | sites =>
      have : (ElfSt.new c : ElfSt σ G R A).readSites W = (none, doneSt c g r a none none) := by
        show (match (ElfSt.new c : ElfSt σ G R A).readNN W with
          | (none, t) => (none, t)
          | (some _, t) => t.siteOf W) = _
        rw [en]
      simp only [ElfSt.read, this, Option.map_none]
    | nnE =>
      have : (ElfSt.new c : ElfSt σ G R A).readNNE W = (none, doneSt c g r a none none) := by
        simp only [ElfSt.readNNE, eg]; rfl
      simp only [ElfSt.read, this, Option.map_none]
    | sitesE =>
      have : (ElfSt.new c : ElfSt σ G R A).readSitesE W = (none, doneSt c g r a none none) := by
        simp only [ElfSt.readSitesE, eg]; rfl
      simp only [ElfSt.read, this, Option.map_none]
  intro first later
  have hf : first = (none, doneSt c g r a none none) := ef
  obtain ⟨k1, k2, _, k4⟩ := session_kept (W := W) os (s := doneSt c g r a none none) (g := g) rfl
  have hl : later = ((doneSt c g r a none none).session W os).2 := by rw [show later = (first.2.session W os).2 from rfl, hf]
  rw [hl]
  obtain ⟨m1, m2⟩ := kept_answers (W := W) k1 i
  exact ⟨by rw [hf], m1, by rw [m2, k2]; rfl, k4⟩

/-- **C105** (negative part) An exception in any step of the labelling after the graph exists: `g` is the graph it leaves.  Later reads of the features
answer from the unfinished graph, and reads of the neighbours answer `None` if the exception came before the radii. -/
theorem C105_unfinished {W : LabelWork σ G R A V ι} {c : σ} {s : ElfSt σ G R A} {g : G}
    (h : (ElfSt.new c : ElfSt σ G R A).label W = (s, false)) (hg : s.graph = some g) (j : ι) (os : List (ElfOp σ ι)) (i : ι) :
    let first := (ElfSt.new c : ElfSt σ G R A).read W (.feature j)
    let later := (first.2.session W os).2
    first.1 = none ∧ (later.read W (.feature i)).1 = (W.prop i g).map .feature ∧ (later.read W .nn).1 = some (.nn s.nn) ∧ later.runs = s.runs := by
  have ef : (ElfSt.new c : ElfSt σ G R A).read W (.feature j) = (none, s) := by
    simp only [ElfSt.read]
    have : (ElfSt.new c : ElfSt σ G R A).readGraph W = (none, s) := by
      show (let r := (ElfSt.new c : ElfSt σ G R A).label W; (if r.2 then r.1.graph else none, r.1)) = _
      rw [h]; rfl
    rw [this]; rfl
  intro first later
  have hf : first = (none, s) := ef
  obtain ⟨k1, k2, _, k4⟩ := session_kept (W := W) os hg
  have hl : later = (s.session W os).2 := by rw [show later = (first.2.session W os).2 from rfl, hf]
  rw [hl]
  obtain ⟨m1, m2⟩ := kept_answers (W := W) k1 i
  exact ⟨by rw [hf], m1, by rw [m2, k2], k4⟩

/-- Markings one after the other, until one of them raises and leaves the graph `g'`. -/
inductive RaisesAfter (c : σ) : List (σ → G → G × Bool) → G → G → Prop
  | here {f : σ → G → G × Bool} {fs : List (σ → G → G × Bool)} {g g' : G} : f c g = (g', false) → RaisesAfter c (f :: fs) g g'
  | next {f : σ → G → G × Bool} {fs : List (σ → G → G × Bool)} {g g₁ g' : G} : f c g = (g₁, true) → RaisesAfter c fs g₁ g' → RaisesAfter c (f :: fs) g g'

/-- **C105** (negative part) A marking of cores, shells, covalent bonds or lone pairs that raises: the marks of the earlier steps and those the raising
step made before its exception stay.  The first read raises, all later reads of the features answer from this graph `g'`. -/
theorem C105_half_marked {W : LabelWork σ G R A V ι} {c : σ} {g₀ g' : G} (h0 : W.init c = some g₀)
    (h : RaisesAfter c [W.cores, W.shells, W.covalent, W.lonePairs] g₀ g') (j : ι) (os : List (ElfOp σ ι)) (i : ι) :
    let first := (ElfSt.new c : ElfSt σ G R A).read W (.feature j)
    let later := (first.2.session W os).2
    first.1 = none ∧ (later.read W (.feature i)).1 = (W.prop i g').map .feature ∧ (later.read W .nn).1 = some (.nn none) ∧ later.runs = 1 := by
  have key : ∃ s : ElfSt σ G R A, (ElfSt.new c : ElfSt σ G R A).label W = (s, false) ∧ s.graph = some g' ∧ s.nn = none ∧ s.runs = 1 := by
    cases h with
    | here h1 =>
      refine ⟨⟨c, some g', false, none, none, none, none, 1⟩, ?_, rfl, rfl, rfl⟩
      simp [ElfSt.label, labelSteps, ElfSt.new, initStep, ElfSt.mark, h0, h1]
    | next h1 h =>
    cases h with
    | here h2 =>
      refine ⟨⟨c, some g', false, none, none, none, none, 1⟩, ?_, rfl, rfl, rfl⟩
      simp [ElfSt.label, labelSteps, ElfSt.new, initStep, ElfSt.mark, h0, h1, h2]
    | next h2 h =>
    cases h with
    | here h3 =>
      refine ⟨⟨c, some g', false, none, none, none, none, 1⟩, ?_, rfl, rfl, rfl⟩
      simp [ElfSt.label, labelSteps, ElfSt.new, initStep, ElfSt.mark, covalentMark, h0, h1, h2, h3]
    | next h3 h =>
    cases h with
    | here h4 =>
      refine ⟨⟨c, some g', true, none, none, none, none, 1⟩, ?_, rfl, rfl, rfl⟩
      simp [ElfSt.label, labelSteps, ElfSt.new, initStep, ElfSt.mark, covalentMark, h0, h1, h2, h3, h4]
    | next h4 h => cases h
  obtain ⟨s, hs, hg, hn, hr⟩ := key
  have := C105_unfinished (W := W) hs hg j os i
  rw [hn, hr] at this
  exact this

/-- **C105** If the Bader analysis or the graph itself raises, nothing is stored: every read raises and tries again. -/
theorem C105_no_graph {W : LabelWork σ G R A V ι} {c : σ} (h : W.init c = none) (qs : List (ElfRead ι)) :
    let t := (ElfSt.new c : ElfSt σ G R A).session W (qs.map .read)
    t.1 = qs.map (fun _ => none) ∧ t.2.runs = qs.length ∧ t.2.graph = none := by
  have key : ∀ (qs : List (ElfRead ι)) (n : ℕ), (({ ElfSt.new c with runs := n } : ElfSt σ G R A).session W (qs.map .read)) =
      (qs.map (fun _ => none), { ElfSt.new c with runs := n + qs.length }) := by
    intro qs
    induction qs with
    | nil => intro n; rfl
    | cons q qs ih =>
      intro n
      have el : ({ ElfSt.new c with runs := n } : ElfSt σ G R A).label W = ({ ElfSt.new c with runs := n + 1 }, false) := by
        simp [ElfSt.label, labelSteps, ElfSt.new, initStep, h]
      have eg : ({ ElfSt.new c with runs := n } : ElfSt σ G R A).readGraph W = (none, { ElfSt.new c with runs := n + 1 }) := by
        show (let r := ({ ElfSt.new c with runs := n } : ElfSt σ G R A).label W; (if r.2 then r.1.graph else none, r.1)) = _
        rw [el]; rfl
      have en : ({ ElfSt.new c with runs := n } : ElfSt σ G R A).readNN W = (none, { ElfSt.new c with runs := n + 1 }) := by
        show (match ({ ElfSt.new c with runs := n } : ElfSt σ G R A).readGraph W with
          | (none, t) => (none, t)
          | (some _, t) => (some t.nn, t)) = _
        rw [eg]
      have er : ({ ElfSt.new c with runs := n } : ElfSt σ G R A).read W q = (none, { ElfSt.new c with runs := n + 1 }) := by
        cases q with
        | feature i => simp only [ElfSt.read, eg]; rfl
        | nn => simp only [ElfSt.read, en]; rfl
        | sites =>
          have : ({ ElfSt.new c with runs := n } : ElfSt σ G R A).readSites W = (none, { ElfSt.new c with runs := n + 1 }) := by
            show (match ({ ElfSt.new c with runs := n } : ElfSt σ G R A).readNN W with
              | (none, t) => (none, t)
              | (some _, t) => t.siteOf W) = _
            rw [en]
          simp only [ElfSt.read, this]; rfl
        | nnE =>
          have : ({ ElfSt.new c with runs := n } : ElfSt σ G R A).readNNE W = (none, { ElfSt.new c with runs := n + 1 }) := by
            simp only [ElfSt.readNNE, eg]; rfl
          simp only [ElfSt.read, this]; rfl
        | sitesE =>
          have : ({ ElfSt.new c with runs := n } : ElfSt σ G R A).readSitesE W = (none, { ElfSt.new c with runs := n + 1 }) := by
            simp only [ElfSt.readSitesE, eg]; rfl
          simp only [ElfSt.read, this]; rfl
      simp only [List.map_cons, ElfSt.session, ElfSt.op, er, ih (n + 1), List.length_cons, Option.toList_some, List.singleton_append]
      rw [show n + 1 + qs.length = n + (qs.length + 1) by omega]
  have := key qs 0
  simp only [Nat.zero_add] at this
  intro t
  have e : t = (qs.map (fun _ => none), { ElfSt.new c with runs := qs.length }) := this
  rw [e]
  exact ⟨rfl, rfl, rfl⟩

/-- **C105** A first read of the features that answers comes from a complete labelling: if any step or test of it raises, so does the first read. -/
theorem C105_first_answer {W : LabelWork σ G R A V ι} {c : σ} {i : ι} {x : ElfAns R A V} (h : ((ElfSt.new c : ElfSt σ G R A).read W (.feature i)).1 = some x) :
    ∃ g r a, Labelled W c g r a ∧ expected W c g r a (.feature i) = some x := by
  have hok : ((ElfSt.new c : ElfSt σ G R A).label W).2 = true := by
    cases hb : ((ElfSt.new c : ElfSt σ G R A).label W).2 with
    | true => rfl
    | false =>
      have : ((ElfSt.new c : ElfSt σ G R A).readGraph W).1 = none := by
        show (let r := (ElfSt.new c : ElfSt σ G R A).label W; (if r.2 then r.1.graph else none, r.1)).1 = _
        simp [hb]
      simp [ElfSt.read, this] at h
  obtain ⟨g, r, a, hl⟩ := label_ok hok
  refine ⟨g, r, a, hl, ?_⟩
  rw [new_read hl] at h
  exact h

/-! ## After a change of the settings -/

/-- **C105** (negative part) Settings that are changed after the first read are ignored: reads of features and of atoms answer as with the settings of
the first read, after any session. -/
theorem C105_settings_ignored {W : LabelWork σ G R A V ι} {c : σ} {g : G} {r : R} {a : A} (h : Labelled W c g r a) (q : ElfRead ι)
    (os : List (ElfOp σ ι)) (i : ι) :
    let later := (((ElfSt.new c : ElfSt σ G R A).read W q).2.session W os).2
    (later.read W (.feature i)).1 = expected W c g r a (.feature i) ∧ (later.read W .nn).1 = expected W c g r a .nn := by
  obtain ⟨x', y', hs', e⟩ := done_read a (stored_none W c g r) q
  intro later
  obtain ⟨k1, k2, _, _⟩ := session_kept (W := W) os (s := doneSt c g r a x' y') (g := g) rfl
  have hl : later = ((doneSt c g r a x' y').session W os).2 := by
    show (((ElfSt.new c : ElfSt σ G R A).read W q).2.session W os).2 = _
    rw [new_read h q, e]
  rw [hl]
  obtain ⟨m1, m2⟩ := kept_answers (W := W) k1 i
  exact ⟨m1, by rw [m2, k2]; rfl⟩

/-! ## `Badelf` -/

/-- A labeler with settings `c` of which nothing or something was read. -/
def LabOk (W : LabelWork σ G R A V ι) (c : σ) (g : G) (r : R) (a : A) (s : ElfSt σ G R A) : Prop :=
  s = ElfSt.new c ∨ ∃ x y, StoredE W c g r x y ∧ s = doneSt c g r a x y

theorem labOk_read {W : LabelWork σ G R A V ι} {c : σ} {g : G} {r : R} {a : A} (h : Labelled W c g r a) {s : ElfSt σ G R A}
    (hs : LabOk W c g r a s) (q : ElfRead ι) : (s.read W q).1 = expected W c g r a q ∧ ∃ x y, StoredE W c g r x y ∧ (s.read W q).2 = doneSt c g r a x y := by
  rcases hs with rfl | ⟨x, y, hs, rfl⟩
  · rw [new_read h q]
    obtain ⟨x', y', hs', e⟩ := done_read a (stored_none W c g r) q
    rw [e]; exact ⟨rfl, x', y', hs', rfl⟩
  · obtain ⟨x', y', hs', e⟩ := done_read a hs q
    rw [e]; exact ⟨rfl, x', y', hs', rfl⟩

theorem labOk_session {W : LabelWork σ G R A V ι} {c : σ} {g : G} {r : R} {a : A} (h : Labelled W c g r a) (qs : List (ElfRead ι)) :
    ∀ {s : ElfSt σ G R A}, LabOk W c g r a s → LabOk W c g r a (s.session W (qs.map .read)).2 := by
  induction qs with
  | nil => intro s hs; exact hs
  | cons q qs ih => intro s hs; exact ih (Or.inr (labOk_read h hs q).2)

theorem labOk_graph {W : LabelWork σ G R A V ι} {c : σ} {g : G} {r : R} {a : A} (h : Labelled W c g r a) {s : ElfSt σ G R A}
    (hs : LabOk W c g r a s) : ∃ x y, StoredE W c g r x y ∧ s.readGraph W = (some g, doneSt c g r a x y) := by
  rcases hs with rfl | ⟨x, y, hs, rfl⟩
  · refine ⟨none, none, stored_none W c g r, ?_⟩
    show (let r := (ElfSt.new c : ElfSt σ G R A).label W; (if r.2 then r.1.graph else none, r.1)) = _
    rw [label_success h]; rfl
  · exact ⟨x, y, hs, rfl⟩

theorem labOk_nn {W : LabelWork σ G R A V ι} {c : σ} {g : G} {r : R} {a : A} (h : Labelled W c g r a) {s : ElfSt σ G R A}
    (hs : LabOk W c g r a s) : ∃ x y, StoredE W c g r x y ∧ s.readNN W = (some (some r), doneSt c g r a x y) := by
  rcases hs with rfl | ⟨x, y, hs, rfl⟩
  · refine ⟨none, none, stored_none W c g r, ?_⟩
    obtain ⟨x, y, hs, e⟩ := labOk_graph h (Or.inl rfl)
    have e1 : (ElfSt.new c : ElfSt σ G R A).readGraph W = (some g, doneSt c g r a none none) := by
      show (let r := (ElfSt.new c : ElfSt σ G R A).label W; (if r.2 then r.1.graph else none, r.1)) = _
      rw [label_success h]; rfl
    show (match (ElfSt.new c : ElfSt σ G R A).readGraph W with
      | (none, t) => (none, t)
      | (some _, t) => (some t.nn, t)) = _
    rw [e1]; rfl
  · exact ⟨x, y, hs, rfl⟩

theorem labOk_nnE {W : LabelWork σ G R A V ι} {c : σ} {g : G} {r : R} {a : A} (h : Labelled W c g r a) {s : ElfSt σ G R A}
    (hs : LabOk W c g r a s) : ∃ x y, StoredE W c g r x y ∧ s.readNNE W = ((radiiE W c g r).map some, doneSt c g r a x y) := by
  rcases hs with rfl | ⟨x, y, hs, rfl⟩
  · obtain ⟨x', h', e⟩ := done_nnE a (stored_none W c g r)
    refine ⟨x', none, h', ?_⟩
    have e1 : (ElfSt.new c : ElfSt σ G R A).readGraph W = (some g, doneSt c g r a none none) := by
      show (let r := (ElfSt.new c : ElfSt σ G R A).label W; (if r.2 then r.1.graph else none, r.1)) = _
      rw [label_success h]; rfl
    rw [← e]
    simp only [ElfSt.readNNE, e1, done_graph]; rfl
  · obtain ⟨x', h', e⟩ := done_nnE a hs
    exact ⟨x', y, h', e⟩

/-- A `Badelf` object with complete or missing results. -/
structure BOk (W : LabelWork σ G R A V ι) (U : BadelfWork G R A P B) (c : σ) (g : G) (r : R) (a : A) (m : BMethod) (s : BadelfSt σ G R A P B) :
    Prop where
  lab : LabOk W c g r a s.lab
  method : s.method = m
  planes : s.planes = none ∨ (s.planes = expectedPlanes W U c g r m ∧ s.planes.isSome ∧ m ≠ .zeroFlux)
  result : s.result = none ∨ (s.result = expectedResult W U c g r m ∧ s.result.isSome)

theorem bok_planes {W : LabelWork σ G R A V ι} {U : BadelfWork G R A P B} {c : σ} {g : G} {r : R} {a : A} (h : Labelled W c g r a) {m : BMethod}
    (hm : m ≠ .zeroFlux) {s : BadelfSt σ G R A P B} (hs : BOk W U c g r a m s) :
    (s.readPlanes W U).1 = expectedPlanes W U c g r m ∧ BOk W U c g r a m (s.readPlanes W U).2 := by
  rcases hp : s.planes with _ | p
  · have key : ∃ x y, StoredE W c g r x y ∧ (if s.method = .badelf then s.lab.readNN W else s.lab.readNNE W) =
        ((if m = .badelf then some r else radiiE W c g r).map some, doneSt c g r a x y) := by
      rw [hs.method]
      split_ifs
      · obtain ⟨x, y, h1, h2⟩ := labOk_nn h hs.lab; exact ⟨x, y, h1, h2⟩
      · exact labOk_nnE h hs.lab
    obtain ⟨x, y, h1, h2⟩ := key
    have e : s.readPlanes W U = (match expectedPlanes W U c g r m with
      | none => (none, { s with lab := doneSt c g r a x y })
      | some p => (some p, { s with lab := doneSt c g r a x y, planes := some p })) := by
      unfold BadelfSt.readPlanes
      rw [hp]
      dsimp only
      rw [h2]
      unfold expectedPlanes
      cases (if m = .badelf then some r else radiiE W c g r) <;> rfl
    rw [e]
    cases he : expectedPlanes W U c g r m with
    | none => exact ⟨rfl, ⟨Or.inr ⟨x, y, h1, rfl⟩, hs.method, Or.inl hp, hs.result⟩⟩
    | some p => exact ⟨rfl, ⟨Or.inr ⟨x, y, h1, rfl⟩, hs.method, Or.inr ⟨he.symm, rfl, hm⟩, hs.result⟩⟩
  · have e : s.readPlanes W U = (some p, s) := by unfold BadelfSt.readPlanes; rw [hp]
    rw [e]
    refine ⟨?_, hs⟩
    rcases hs.planes with h' | ⟨h', _⟩
    · rw [hp] at h'; simp at h'
    · rw [← h', hp]

theorem labOk_sitesE {W : LabelWork σ G R A V ι} {c : σ} {g : G} {r : R} (a : A) {x : Option R} {y : Option A} (h : StoredE W c g r x y) :
    ∃ x' y', StoredE W c g r x' y' ∧
      (doneSt c g r a x y).readSitesE W = ((radiiE W c g r).bind (W.siteRadiiE c g), doneSt c g r a x' y') := done_sitesE a h

theorem bok_result {W : LabelWork σ G R A V ι} {U : BadelfWork G R A P B} {c : σ} {g : G} {r : R} {a : A} (h : Labelled W c g r a) {m : BMethod}
    {s : BadelfSt σ G R A P B} (hs : BOk W U c g r a m s) :
    (s.readResult W U).1 = expectedResult W U c g r m ∧ BOk W U c g r a m (s.readResult W U).2 := by
  rcases hp : s.result with _ | b
  swap
  · have e : s.readResult W U = (some b, s) := by unfold BadelfSt.readResult; rw [hp]
    rw [e]
    refine ⟨?_, hs⟩
    rcases hs.result with h' | ⟨h', _⟩
    · rw [hp] at h'; simp at h'
    · rw [← h', hp]
  have e : s.readResult W U = s.assign W U := by unfold BadelfSt.readResult; rw [hp]
  rw [e]
  unfold BadelfSt.assign
  rw [hs.method]
  by_cases hm : m = .zeroFlux
  · obtain ⟨x, y, h1, h2⟩ := labOk_graph h hs.lab
    rw [if_pos hm, h2]
    dsimp only
    have hE : expectedResult W U c g r m = (if U.needsRadii g then ((radiiE W c g r).bind (W.siteRadiiE c g)).map some else some none).bind
        (U.zeroFlux g) := by
      unfold expectedResult
      rw [if_pos hm]
      split_ifs
      · cases (radiiE W c g r).bind (W.siteRadiiE c g) <;> rfl
      · rfl
    by_cases hn : U.needsRadii g = true
    · obtain ⟨x', y', h3, h4⟩ := done_sitesE (W := W) a h1
      rw [if_pos hn] at hE ⊢
      rw [h4]
      dsimp only
      rw [← hE]
      cases he : expectedResult W U c g r m with
      | none => exact ⟨rfl, ⟨Or.inr ⟨x', y', h3, rfl⟩, rfl, hs.planes, Or.inl hp⟩⟩
      | some b => exact ⟨rfl, ⟨Or.inr ⟨x', y', h3, rfl⟩, rfl, hs.planes, Or.inr ⟨he.symm, rfl⟩⟩⟩
    · rw [if_neg hn] at hE ⊢
      dsimp only
      rw [← hE]
      cases he : expectedResult W U c g r m with
      | none => exact ⟨rfl, ⟨Or.inr ⟨x, y, h1, rfl⟩, rfl, hs.planes, Or.inl hp⟩⟩
      | some b => exact ⟨rfl, ⟨Or.inr ⟨x, y, h1, rfl⟩, rfl, hs.planes, Or.inr ⟨he.symm, rfl⟩⟩⟩
  · rw [if_neg hm]
    have hE : expectedResult W U c g r m = (expectedPlanes W U c g r m).bind (U.assign (decide (m = .badelf)) g) := by
      unfold expectedResult; rw [if_neg hm]
    obtain ⟨p1, p2⟩ := bok_planes h hm hs
    have hres : (s.readPlanes W U).2.result = none := by
      unfold BadelfSt.readPlanes
      cases s.planes with
      | some p => exact hp
      | none =>
        dsimp only
        split <;> exact hp
    rcases hq : s.readPlanes W U with ⟨_ | p, t⟩
    · rw [hq] at p1 p2
      rw [hE, ← p1]
      exact ⟨rfl, p2⟩
    · rw [hq] at p1 p2 hres
      dsimp only at p1 p2 hres ⊢
      obtain ⟨x, y, h1, h2⟩ := labOk_graph h p2.lab
      rw [hE, ← p1, h2]
      dsimp only [Option.bind_some]
      cases he : U.assign (decide (m = .badelf)) g p with
      | none => exact ⟨rfl, ⟨Or.inr ⟨x, y, h1, rfl⟩, p2.method, p2.planes, Or.inl hres⟩⟩
      | some b =>
        refine ⟨rfl, ⟨Or.inr ⟨x, y, h1, rfl⟩, p2.method, p2.planes, Or.inr ⟨?_, rfl⟩⟩⟩
        rw [hE, ← p1]; exact he.symm

/-- The reads of a `Badelf` object and of its labeler. -/
inductive BadelfRead (ι : Type) | planes | result | labeler (q : ElfRead ι)

/-- As operations of a session. -/
def BadelfRead.op : BadelfRead ι → BadelfOp σ ι
  | .planes => .planes
  | .result => .result
  | .labeler q => .labeler (.read q)

/-- Whether the results are read. -/
def BadelfRead.isResult : BadelfRead ι → Bool
  | .result => true
  | _ => false

/-- **C105** If the labelling succeeds, every read of the labels, charges and volumes of BadELF answers what the method gives for the complete labelling:
whatever was read before from the object or from its labeler, and also when the labeler was used before it was given to `Badelf`.  Missing for the full
claim: labellings that raise (`C105_badelf_after_exception`) and changes of `method` (`C105_method_ignored`, `C105_method_mixed`). -/
theorem C105_badelf_partial {W : LabelWork σ G R A V ι} {U : BadelfWork G R A P B} {c : σ} {g : G} {r : R} {a : A} (h : Labelled W c g r a)
    (before : List (ElfRead ι)) (m : BMethod) (qs : List (BadelfRead ι)) :
    ((BadelfSt.new ((ElfSt.new c : ElfSt σ G R A).session W (before.map .read)).2 m : BadelfSt σ G R A P B).session W U (qs.map BadelfRead.op)).1 =
      List.replicate (qs.filter BadelfRead.isResult).length (expectedResult W U c g r m) := by
  have key : ∀ (qs : List (BadelfRead ι)) (s : BadelfSt σ G R A P B), BOk W U c g r a m s → (s.session W U (qs.map BadelfRead.op)).1 =
      List.replicate (qs.filter BadelfRead.isResult).length (expectedResult W U c g r m) := by
    intro qs
    induction qs with
    | nil => intro s _; rfl
    | cons q qs ih =>
      intro s hs
      cases q with
      | planes =>
        by_cases hm : m = .zeroFlux
        · have : s.op W U .planes = ((some none, none), s) := by
            unfold BadelfSt.op; rw [hs.method]; simp only [hm, if_true]
          simp only [List.map_cons, BadelfSt.session, BadelfRead.op, this]
          simpa [BadelfRead.isResult] using ih s hs
        · have : (s.op W U .planes).1.2 = none ∧ (s.op W U .planes).2 = (s.readPlanes W U).2 := by
            unfold BadelfSt.op; rw [hs.method]; simp [hm]
          simp only [List.map_cons, BadelfSt.session, BadelfRead.op, this.1, this.2]
          simpa [BadelfRead.isResult] using ih _ (bok_planes h hm hs).2
      | result =>
        obtain ⟨h1, h2⟩ := bok_result h hs
        have := ih _ h2
        simp only [List.map_cons, BadelfSt.session, BadelfRead.op, BadelfSt.op, h1, this]
        rw [List.filter_cons_of_pos (by rfl), List.length_cons, List.replicate_succ]; rfl
      | labeler q =>
        have := ih { s with lab := (s.lab.read W q).2 } ⟨Or.inr (labOk_read h hs.lab q).2, hs.method, hs.planes, hs.result⟩
        simp only [List.map_cons, BadelfSt.session, BadelfRead.op, BadelfSt.op, ElfSt.op]
        simpa [BadelfRead.isResult] using this
  exact key qs _ ⟨labOk_session h before (Or.inl rfl), rfl, Or.inl rfl, Or.inl rfl⟩

/-- **C105** (negative part) When a test of the labelling raises, so does the first read of the charges of BadELF; the second one answers with numbers
computed from the rejected labelling. -/
theorem C105_badelf_after_exception {W : LabelWork σ G R A V ι} {U : BadelfWork G R A P B} {c : σ} {g : G} {r : R} {a : A} (h : TestRaises W c g r a)
    (m : BMethod) :
    ((BadelfSt.new (ElfSt.new c : ElfSt σ G R A) m : BadelfSt σ G R A P B).session W U [.result, .result]).1 =
      [none, expectedResult W U c g r m] := by
  -- the labelling that is accepted from the same graph on
  have e := label_test h
  have eg : (ElfSt.new c : ElfSt σ G R A).readGraph W = (none, doneSt c g r a none none) := by
    show (let r := (ElfSt.new c : ElfSt σ G R A).label W; (if r.2 then r.1.graph else none, r.1)) = _
    rw [e]; rfl
  have en : (ElfSt.new c : ElfSt σ G R A).readNN W = (none, doneSt c g r a none none) := by
    show (match (ElfSt.new c : ElfSt σ G R A).readGraph W with
      | (none, t) => (none, t)
      | (some _, t) => (some t.nn, t)) = _
    rw [eg]
  have ee : (ElfSt.new c : ElfSt σ G R A).readNNE W = (none, doneSt c g r a none none) := by
    simp only [ElfSt.readNNE, eg]; rfl
  have first : (BadelfSt.new (ElfSt.new c : ElfSt σ G R A) m : BadelfSt σ G R A P B).readResult W U =
      (none, BadelfSt.new (doneSt c g r a none none) m) := by
    show (BadelfSt.new (ElfSt.new c : ElfSt σ G R A) m : BadelfSt σ G R A P B).assign W U = _
    cases m with
    | zeroFlux => simp only [BadelfSt.assign, BadelfSt.new, eg, if_true]
    | badelf => simp [BadelfSt.assign, BadelfSt.new, BadelfSt.readPlanes, en]
    | voronelf => simp [BadelfSt.assign, BadelfSt.new, BadelfSt.readPlanes, ee]
  have second : ((BadelfSt.new (doneSt c g r a none none) m : BadelfSt σ G R A P B).readResult W U).1 = expectedResult W U c g r m := by
    show ((BadelfSt.new (doneSt c g r a none none) m : BadelfSt σ G R A P B).assign W U).1 = _
    obtain ⟨x1, h1, e1⟩ := done_nnE (W := W) a (stored_none W c g r)
    obtain ⟨x2, y2, h2, e2⟩ := done_sitesE (W := W) a (stored_none W c g r)
    cases m with
    | zeroFlux =>
      simp only [BadelfSt.assign, BadelfSt.new, done_graph, if_true, expectedResult]
      by_cases hn : U.needsRadii g = true
      · simp only [hn, if_true, e2]
        cases (radiiE W c g r).bind (W.siteRadiiE c g) with
        | none => rfl
        | some z => simp only [Option.map_some, Option.bind_some]; cases U.zeroFlux g (some z) <;> rfl
      · simp only [hn, Bool.false_eq_true, if_false, Option.bind_some]
        cases U.zeroFlux g none <;> rfl
    | badelf =>
      simp only [BadelfSt.assign, BadelfSt.new, BadelfSt.readPlanes, done_nn, if_true, expectedResult, expectedPlanes, reduceCtorEq, if_false,
        Option.join_some, Option.bind_some]
      cases U.wrap r with
      | none => rfl
      | some p => simp only [done_graph, Option.bind_some]; cases U.assign _ g p <;> rfl
    | voronelf =>
      simp only [BadelfSt.assign, BadelfSt.new, BadelfSt.readPlanes, e1, expectedResult, expectedPlanes, reduceCtorEq, if_false]
      cases radiiE W c g r with
      | none => rfl
      | some z =>
        simp only [Option.map_some, Option.join_some, Option.bind_some]
        cases U.wrap z with
        | none => rfl
        | some p => simp only [done_graph, Option.bind_some]; cases U.assign _ g p <;> rfl
  simp only [BadelfSt.session, BadelfSt.op, first, second, Option.toList_some, List.singleton_append, List.append_nil]

/-- **C105** (negative part) A method that is assigned after the charges were read has no effect on labels, charges and volumes. -/
theorem C105_method_ignored {W : LabelWork σ G R A V ι} {U : BadelfWork G R A P B} (os : List (BadelfOp σ ι)) : ∀ {s : BadelfSt σ G R A P B} {b : B},
    s.result = some b → (s.session W U os).2.result = some b ∧ ∀ x ∈ (s.session W U os).1, x = some b := by
  induction os with
  | nil => intro s b h; exact ⟨h, fun x hx => absurd hx (by simp [BadelfSt.session])⟩
  | cons o os ih =>
    intro s b h
    have e : (s.op W U o).2.result = some b ∧ ∀ x ∈ (s.op W U o).1.2, x = some b := by
      cases o with
      | planes =>
        unfold BadelfSt.op
        split_ifs
        · exact ⟨h, fun x hx => by simp at hx⟩
        · refine ⟨?_, fun x hx => by simp at hx⟩
          unfold BadelfSt.readPlanes
          dsimp only
          cases s.planes with
          | some p => exact h
          | none =>
            dsimp only
            split <;> exact h
      | result =>
        have : s.readResult W U = (some b, s) := by unfold BadelfSt.readResult; rw [h]
        simp only [BadelfSt.op, this]
        exact ⟨h, fun x hx => by simpa using hx.symm⟩
      | labeler o => exact ⟨h, fun x hx => by simp [BadelfSt.op] at hx⟩
      | setMethod m => exact ⟨h, fun x hx => by simp [BadelfSt.op] at hx⟩
    obtain ⟨i1, i2⟩ := ih e.1
    refine ⟨i1, fun x hx => ?_⟩
    rcases List.mem_append.mp hx with hx | hx
    · exact e.2 x (by simpa using hx)
    · exact i2 x hx

/-- A small labeler: settings are the least charge `c` of an electride, the graph is the charge of a feature and its label (0 unknown, 1 electride,
2 shared), the radii are the settings they were computed with. -/
def smallWork : LabelWork ℕ (ℕ × ℕ) (ℕ × Bool) ℕ ℕ Unit where
  init := fun _ => some (5, 0)
  cores := fun _ g => (g, true)
  shells := fun _ g => (g, true)
  covalent := fun c g => (g, c != 9)
  lonePairs := fun _ g => (g, true)
  nnRadii := fun c _ e => some (c, e)
  siteRadii := fun _ r => some r.1
  siteRadiiE := fun _ _ r => some r.1
  multi := fun c _ g => ((g.1, if c < g.1 then 1 else 2), true)
  check := fun c _ => c != 8
  surface := fun _ g => (g, true)
  hasBare := fun _ g => g.2 == 1
  prop := fun _ g => some g.2

/-- The hypotheses of the theorems above for this labeler: settings 3 are complete, settings 8 fail the test, settings 9 raise in the third step. -/
example : Labelled smallWork 3 (5, 1) (3, false) 3 ∧ TestRaises smallWork 8 (5, 2) (8, false) 8 ∧
    ((ElfSt.new 9 : ElfSt ℕ (ℕ × ℕ) (ℕ × Bool) ℕ).label smallWork).2 = false ∧
    ((ElfSt.new 9 : ElfSt ℕ (ℕ × ℕ) (ℕ × Bool) ℕ).label smallWork).1.graph = some (5, 0) :=
  ⟨⟨(5, 0), (5, 0), (5, 0), (5, 0), (5, 0), (5, 1), by decide⟩, ⟨(5, 0), (5, 0), (5, 0), (5, 0), (5, 0), by decide⟩, by decide, by decide⟩

/-- A marking that changes the label of the feature before it raises. -/
example : RaisesAfter 0 [fun _ g => (g, true), fun _ g => ((g.1, 4), false), fun _ g => (g, true)] ((5, 0) : ℕ × ℕ) (5, 4) :=
  .next rfl (.here rfl)

/-- **C105** (negative part) Settings changed between two reads are mixed: the features are those of the first settings, the radii with electrides are
computed with the second ones. -/
theorem C105_settings_mixed :
    ((ElfSt.new 3 : ElfSt ℕ (ℕ × ℕ) (ℕ × Bool) ℕ).session smallWork [.read (.feature ()), .set 7, .read (.feature ()), .read .nnE]).1 =
      [some (.feature 1), some (.feature 1), some (.nn (some (7, true)))] ∧
    ((ElfSt.new 7 : ElfSt ℕ (ℕ × ℕ) (ℕ × Bool) ℕ).session smallWork [.read (.feature ()), .read .nnE]).1 =
      [some (.feature 2), some (.nn (some (7, false)))] ∧
    ((ElfSt.new 3 : ElfSt ℕ (ℕ × ℕ) (ℕ × Bool) ℕ).session smallWork [.read (.feature ()), .read .nnE]).1 =
      [some (.feature 1), some (.nn (some (3, true)))] := by decide

/-- Results that show what they were computed from. -/
def smallBadelf : BadelfWork (ℕ × ℕ) (ℕ × Bool) ℕ (ℕ × Bool) (Bool × (ℕ × Bool)) where
  wrap := some
  needsRadii := fun _ => true
  zeroFlux := fun g a => a.map fun x => (true, (x + g.1, false))
  assign := fun b _ p => some (b, p)

/-- **C105** (negative part) A method that is assigned after the planes were read: `voronelf` works with the planes of `badelf`. -/
theorem C105_method_mixed :
    ((BadelfSt.new (ElfSt.new 3) .badelf : BadelfSt ℕ (ℕ × ℕ) (ℕ × Bool) ℕ (ℕ × Bool) (Bool × (ℕ × Bool))).session smallWork smallBadelf
      [.planes, .setMethod .voronelf, .result]).1 = [some (false, (3, false))] ∧
    expectedResult smallWork smallBadelf 3 (5, 1) (3, false) .voronelf = some (false, (3, true)) := by decide

/-- The three methods, and the charges after an exception. -/
example : ((BadelfSt.new (ElfSt.new 3) .zeroFlux : BadelfSt ℕ (ℕ × ℕ) (ℕ × Bool) ℕ (ℕ × Bool) (Bool × (ℕ × Bool))).session smallWork smallBadelf
      [.labeler (.read .nnE), .planes, .result, .labeler (.read .sites), .result]).1 = [some (true, (8, false)), some (true, (8, false))] ∧
    ((BadelfSt.new (ElfSt.new 3) .voronelf : BadelfSt ℕ (ℕ × ℕ) (ℕ × Bool) ℕ (ℕ × Bool) (Bool × (ℕ × Bool))).session smallWork smallBadelf
      [.result]).1 = [some (false, (3, true))] ∧
    ((BadelfSt.new (ElfSt.new 8) .badelf : BadelfSt ℕ (ℕ × ℕ) (ℕ × Bool) ℕ (ℕ × Bool) (Bool × (ℕ × Bool))).session smallWork smallBadelf
      [.result, .result]).1 = [none, some (true, (8, false))] := by decide

/-- The exception of the test is seen once; an exception before the radii leaves features without type and neighbours that are `None`. -/
example : ((ElfSt.new 8 : ElfSt ℕ (ℕ × ℕ) (ℕ × Bool) ℕ).session smallWork [.read .sites, .read .sites, .read (.feature ())]).1 =
      [none, some (.sites 8), some (.feature 2)] ∧
    ((ElfSt.new 9 : ElfSt ℕ (ℕ × ℕ) (ℕ × Bool) ℕ).session smallWork [.read (.feature ()), .read (.feature ()), .read .nn, .read .sites]).1 =
      [none, some (.feature 0), some (.nn none), none] := by decide

end BaderKit
