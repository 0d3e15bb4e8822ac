import Verif.Model.GraphDict
import Verif.Props.BifTree
/-!
# C118: dictionaries and JSON texts of a bifurcation graph, and membership

A dictionary can be read once: reading takes entries out of the dictionary and out of the dictionaries of its nodes.  A text can be read any
number of times.  A graph read from a dictionary shares the options of the neighbour search with the graph it was written from; one read from
a text does not.
-/
set_option linter.unusedSectionVars false
namespace BaderKit

variable {S T K W : Type} [Field K] [LinearOrder K]

/-! ## Specification -/

/-- The graph `a` has everything that is written of the graph `b`: structure, labeler, data of the basins, nodes, roots, links and the
attributes of the nodes.  (The options of the neighbour search are an object of the memory and compared separately.) -/
structure SameWritten (a b : GObj S K) : Prop where
  struct : a.struct = b.struct
  labeler : a.labelerType = b.labelerType
  maxima : a.maxima = b.maxima
  charges : a.charges = b.charges
  volumes : a.volumes = b.volumes
  nodes : a.tree.nodes = b.tree.nodes
  roots : a.tree.roots.Perm b.tree.roots
  content : ∀ x ∈ b.tree.nodes, Restored (a.tree.node x) (b.tree.node x) ∧ (a.tree.node x).children.Perm (b.tree.node x).children

/-- The options of the neighbour search of a graph, as they are now. -/
def optionsOf (m : GMem S T K W) (g : GObj S K) : Option W := m.kws[g.kw]?

/-- The caller changes the options object at an address. -/
def setOptions (m : GMem S T K W) (a : ℕ) (w : W) : GMem S T K W := { m with kws := m.kws.set a w }

/-- All objects of the memory `m` are in `m'` with the same contents. -/
def Untouched (m m' : GMem S T K W) : Prop :=
  (∀ a < m.nd.length, m'.nd[a]? = m.nd[a]?) ∧ (∀ a < m.gd.length, m'.gd[a]? = m.gd[a]?) ∧ (∀ a < m.kws.length, m'.kws[a]? = m.kws[a]?)

/-! ## Reading the nodes -/

/-- The dictionaries at the addresses `as` are those of `ds`, unread. -/
def Unread (m : GMem S T K W) (as : List ℕ) (ds : List (NodeDict K)) : Prop :=
  List.Forall₂ (fun a d => m.nd[a]? = some ⟨some d.red, d⟩) as ds

theorem unread_mono {m m' : GMem S T K W} {as : List ℕ} {ds : List (NodeDict K)} (h : Unread m as ds) :
    (∀ a ∈ as, m'.nd[a]? = m.nd[a]?) → Unread m' as ds := by
  unfold Unread at h ⊢
  induction h with
  | nil => intro _; exact .nil
  | cons h1 h2 ih =>
    intro ha
    exact .cons (by rw [ha _ (List.mem_cons_self ..)]; exact h1) (ih (fun b hb => ha b (List.mem_cons_of_mem _ hb)))

theorem readNodes_ok (as : List ℕ) : ∀ (ds : List (NodeDict K)) (m : GMem S T K W) (t t' : BGraph K), as.Nodup → Unread m as ds →
    ds.foldlM nodeFromDict t = some t' →
    ∃ m', readNodes m t as = (m', .ok t') ∧ m'.gd = m.gd ∧ m'.kws = m.kws ∧ m'.nd.length = m.nd.length ∧
      (∀ a, a ∉ as → m'.nd[a]? = m.nd[a]?) ∧ ∀ a ∈ as, ∃ d, m'.nd[a]? = some d ∧ d.typ = none := by
  induction as with
  | nil =>
    intro ds m t t' _ hu hf
    cases hu
    have : t = t' := by simpa using hf
    subst this
    exact ⟨m, rfl, rfl, rfl, rfl, fun _ _ => rfl, fun a ha => by simp at ha⟩
  | cons a as ih =>
    intro ds m t t' hn hu hf
    cases hu with
    | cons h1 h2 =>
      rename_i d ds
      rw [List.nodup_cons] at hn
      rw [List.foldlM_cons] at hf
      obtain ⟨t1, e1, e2⟩ := Option.bind_eq_some_iff.mp hf
      have hlen : a < m.nd.length := (List.getElem?_eq_some_iff.mp h1).1
      let m1 : GMem S T K W := { m with nd := m.nd.set a { typ := none, body := d } }
      have hu' : Unread m1 as ds := by
        refine unread_mono (m := m) h2 ?_
        intro b hb
        have hne : a ≠ b := fun h => hn.1 (h ▸ hb)
        show (m.nd.set a _)[b]? = _
        rw [List.getElem?_set_ne hne]
      obtain ⟨m', r1, r2, r3, r4, r5, r6⟩ := ih ds m1 t1 t' hn.2 hu' e2
      refine ⟨m', ?_, r2, r3, ?_, ?_, ?_⟩
      · have hr : readNode m t a = (m1, .ok t1) := by
          simp only [readNode, h1]
          have : nodeFromDict t { d with red := d.red } = some t1 := e1
          rw [this]
        simp only [readNodes, hr]
        exact r1
      · rw [r4]; simp [m1]
      · intro b hb
        rw [List.mem_cons, not_or] at hb
        rw [r5 b hb.2]
        show (m.nd.set a _)[b]? = _
        rw [List.getElem?_set_ne (Ne.symm hb.1)]
      · intro b hb
        by_cases hba : b ∈ as
        · exact r6 b hba
        · have : b = a := by
            rcases List.mem_cons.mp hb with h | h
            · exact h
            · exact absurd h hba
          subst this
          refine ⟨{ typ := none, body := d }, ?_, rfl⟩
          rw [r5 b hba]
          show (m.nd.set b _)[b]? = _
          rw [List.getElem?_set_self hlen]

/-- The dictionary at the address `a` is one of `g` as written, with the options at the address `kw`. -/
def Describes (toText : S → T) (m : GMem S T K W) (a : ℕ) (g : GObj S K) (kw : ℕ) (ns : List ℕ) : Prop :=
  m.gd[a]? = some ⟨some ns, .text (toText g.struct), g.labelerType, g.maxima, g.charges, g.volumes, none, kw⟩ ∧ ns.Nodup ∧
    Unread m ns (graphDict g.tree)

theorem fromDict_describes {toText : S → T} {fromText : T → Option S} (hT : ∀ s, fromText (toText s) = some s) {m : GMem S T K W} {a kw : ℕ}
    {g : GObj S K} {ns : List ℕ} (hF : Forest g.tree) (hd : Describes toText m a g kw ns) :
    ∃ m' g', fromDict fromText m a = (m', .ok g') ∧ SameWritten g' g ∧ Forest g'.tree ∧ g'.kw = kw ∧
      graphFromDict (graphDict g.tree) = some g'.tree ∧ m'.kws = m.kws ∧ m'.nd.length = m.nd.length ∧ m'.gd.length = m.gd.length ∧
      (∀ b, b ∉ ns → m'.nd[b]? = m.nd[b]?) ∧ (∀ b, b ≠ a → m'.gd[b]? = m.gd[b]?) ∧
      (∀ b ∈ ns, ∃ d, m'.nd[b]? = some d ∧ d.typ = none) ∧
      m'.gd[a]? = some ⟨none, .obj g.struct, g.labelerType, g.maxima, g.charges, g.volumes, none, kw⟩ := by
  obtain ⟨h1, h2, h3⟩ := hd
  obtain ⟨t', e, hF', hn, hr, hc, -, -⟩ := C45_round_trip hF
  have hlen : a < m.gd.length := (List.getElem?_eq_some_iff.mp h1).1
  let d' : GDict S T K := ⟨none, .obj g.struct, g.labelerType, g.maxima, g.charges, g.volumes, none, kw⟩
  let m2 : GMem S T K W := { m with gd := m.gd.set a d' }
  obtain ⟨m', r1, r2, r3, r4, r5, r6⟩ := readNodes_ok ns (graphDict g.tree) m2 emptyGraph t' h2 h3 e
  refine ⟨m', ⟨g.struct, g.labelerType, g.maxima, g.charges, g.volumes, kw, t'⟩, ?_, ⟨rfl, rfl, rfl, rfl, rfl, hn, hr, hc⟩, hF', rfl, e, r3, r4,
    ?_, r5, ?_, r6, ?_⟩
  · simp only [fromDict, h1, hT, mkGraph]
    have : readNodes { m with gd := m.gd.set a d' } emptyGraph ns = (m', .ok t') := r1
    simp only [d'] at this
    rw [this]
  · rw [r2]; simp [m2]
  · intro b hb
    rw [r2]
    show (m.gd.set a d')[b]? = _
    rw [List.getElem?_set_ne (Ne.symm hb)]
  · rw [r2]
    show (m.gd.set a d')[a]? = _
    rw [List.getElem?_set_self hlen]

/-- The addresses of new objects are new. -/
theorem unread_new (l : List (NDict K)) (ds : List (NodeDict K)) (gd : List (GDict S T K)) (kws : List W) :
    Unread (⟨l ++ ds.map (fun d => (⟨some d.red, d⟩ : NDict K)), gd, kws⟩ : GMem S T K W)
      ((List.range ds.length).map (fun i => l.length + i)) ds := by
  unfold Unread
  rw [List.forall₂_iff_get]
  refine ⟨by simp, ?_⟩
  intro i h1 h2
  simp only [List.get_eq_getElem, List.getElem_map, List.getElem_range]
  rw [List.getElem?_append_right (by omega), Nat.add_sub_cancel_left, List.getElem?_map]
  simp [List.getElem?_eq_getElem h2]

theorem nodup_new (n k : ℕ) : ((List.range k).map (fun i => n + i)).Nodup :=
  List.nodup_range.map (fun a b h => by simpa using h)

theorem mem_new {n k a : ℕ} : a ∈ (List.range k).map (fun i => n + i) ↔ n ≤ a ∧ a < n + k := by
  simp only [List.mem_map, List.mem_range]
  exact ⟨fun ⟨i, h, e⟩ => by omega, fun h => ⟨a - n, by omega, by omega⟩⟩

theorem toDict_describes (toText : S → T) (m : GMem S T K W) (g : GObj S K) :
    Describes toText (toDict toText m g).1 (toDict toText m g).2 g g.kw
      ((List.range g.tree.nodes.length).map (fun i => m.nd.length + i)) := by
  refine ⟨?_, nodup_new _ _, ?_⟩
  · simp [toDict, graphDict]
  · have := unread_new m.nd (graphDict g.tree) (toDict toText m g).1.gd m.kws
    have hl : (graphDict g.tree).length = g.tree.nodes.length := by simp [graphDict]
    rw [hl] at this
    exact this

theorem loads_describes (toText : S → T) (m : GMem S T K W) (g : GObj S K) (w : W) :
    Describes toText
      (loadsGraph m ⟨graphDict g.tree, toText g.struct, g.labelerType, g.maxima, g.charges, g.volumes, none, w⟩).1
      (loadsGraph m ⟨graphDict g.tree, toText g.struct, g.labelerType, g.maxima, g.charges, g.volumes, none, w⟩).2 g m.kws.length
      ((List.range g.tree.nodes.length).map (fun i => m.nd.length + i)) := by
  have hl : (graphDict g.tree).length = g.tree.nodes.length := by simp [graphDict]
  refine ⟨?_, nodup_new _ _, ?_⟩
  · simp [loadsGraph, hl]
  · have := unread_new m.nd (graphDict g.tree)
      (loadsGraph m ⟨graphDict g.tree, toText g.struct, g.labelerType, g.maxima, g.charges, g.volumes, none, w⟩).1.gd (m.kws ++ [w])
    rw [hl] at this
    exact this

/-! ## Dictionaries -/

/-- **C118, writing.** `to_dict` changes no object: it makes new ones. -/
theorem C118_to_dict_pure (toText : S → T) (m : GMem S T K W) (g : GObj S K) : Untouched m (toDict toText m g).1 := by
  refine ⟨fun a ha => ?_, fun a ha => ?_, fun a _ => rfl⟩
  · simp only [toDict]; rw [List.getElem?_append_left ha]
  · simp only [toDict]; rw [List.getElem?_append_left ha]

/-- **C118, reading once.** Reading the dictionary written from any well formed graph succeeds and gives the graph back; the objects that
existed before writing are unchanged, and the new graph has the very options object of the old one. -/
theorem C118_from_dict_once {toText : S → T} {fromText : T → Option S} (hT : ∀ s, fromText (toText s) = some s) (m : GMem S T K W)
    {g : GObj S K} (hF : Forest g.tree) :
    ∃ m' g', fromDict fromText (toDict toText m g).1 (toDict toText m g).2 = (m', .ok g') ∧ SameWritten g' g ∧ Forest g'.tree ∧ g'.kw = g.kw ∧
      Untouched m m' := by
  have hd := toDict_describes toText m g
  obtain ⟨m', g', e, hs, hF', hk, -, q1, -, -, q2, q3, -, -⟩ := fromDict_describes hT hF hd
  refine ⟨m', g', e, hs, hF', hk, fun a ha => ?_, fun a ha => ?_, fun a ha => ?_⟩
  · rw [q2 a (by rw [mem_new]; omega)]
    exact (C118_to_dict_pure toText m g).1 a ha
  · have h2 : (toDict toText m g).2 = m.gd.length := rfl
    rw [q3 a (by rw [h2]; omega)]
    exact (C118_to_dict_pure toText m g).2.1 a ha
  · rw [q1]; rfl

/-- **C118, reading twice.** A dictionary that was read cannot be read again: the second call raises `KeyError`. -/
theorem C118_consumed {toText : S → T} {fromText : T → Option S} (hT : ∀ s, fromText (toText s) = some s) (m : GMem S T K W)
    {g : GObj S K} (hF : Forest g.tree) {m' : GMem S T K W} {r : Except GErr (GObj S K)}
    (h : fromDict fromText (toDict toText m g).1 (toDict toText m g).2 = (m', r)) :
    fromDict fromText m' (toDict toText m g).2 = (m', .error .keyError) := by
  obtain ⟨m'', g', e, -, -, -, -, -, -, -, -, -, -, q⟩ := fromDict_describes hT hF (toDict_describes toText m g)
  rw [h] at e
  obtain ⟨rfl, rfl⟩ := Prod.mk.injEq .. ▸ e
  simp only [fromDict, q]

/-- **C118, copies.** A copy `dict(d)` made before reading `d` does not help when the graph has nodes: the dictionaries of the nodes are
shared and have lost their type. -/
theorem C118_shallow_copy {toText : S → T} {fromText : T → Option S} (hT : ∀ s, fromText (toText s) = some s) (m : GMem S T K W)
    {g : GObj S K} (hF : Forest g.tree) (hne : g.tree.nodes ≠ []) {m1 m2 : GMem S T K W} {c : ℕ}
    (hc : shallowCopy (toDict toText m g).1 (toDict toText m g).2 = some (m1, c)) {r : Except GErr (GObj S K)}
    (h : fromDict fromText m1 (toDict toText m g).2 = (m2, r)) :
    (∃ g', r = .ok g' ∧ SameWritten g' g) ∧ (fromDict fromText m2 c).2 = .error .keyError := by
  obtain ⟨d1, d2, d3⟩ := toDict_describes toText m g
  simp only [shallowCopy, d1, Option.map_some, Option.some.injEq, Prod.mk.injEq] at hc
  obtain ⟨hm1, hcc⟩ := hc
  have ha : (toDict toText m g).2 < (toDict toText m g).1.gd.length := (List.getElem?_eq_some_iff.mp d1).1
  have hd : Describes toText m1 (toDict toText m g).2 g g.kw ((List.range g.tree.nodes.length).map (fun i => m.nd.length + i)) := by
    refine ⟨?_, d2, ?_⟩
    · rw [← hm1]
      show ((toDict toText m g).1.gd ++ _)[_]? = _
      rw [List.getElem?_append_left ha]
      exact d1
    · rw [← hm1]
      exact d3
  obtain ⟨m', g', e, hs, -, -, -, -, -, -, -, q2, q3, -⟩ := fromDict_describes hT hF hd
  rw [h] at e
  obtain ⟨rfl, rfl⟩ := Prod.mk.injEq .. ▸ e
  refine ⟨⟨g', rfl, hs⟩, ?_⟩
  have hcne : c ≠ (toDict toText m g).2 := by omega
  have hgc : m2.gd[c]? = some ⟨some ((List.range g.tree.nodes.length).map (fun i => m.nd.length + i)), .text (toText g.struct), g.labelerType,
      g.maxima, g.charges, g.volumes, none, g.kw⟩ := by
    rw [q2 c hcne, ← hm1, ← hcc]
    simp
  obtain ⟨n, hn⟩ : ∃ n, g.tree.nodes.length = n + 1 := ⟨g.tree.nodes.length - 1, by
    have := List.length_pos_iff.mpr hne
    omega⟩
  have hhead : (List.range g.tree.nodes.length).map (fun i => m.nd.length + i) =
      m.nd.length :: (List.range n).map (fun i => m.nd.length + (i + 1)) := by
    rw [hn, List.range_succ_eq_map]
    simp [Function.comp_def]
  obtain ⟨d, hd1, hd2⟩ := q3 m.nd.length (by rw [hhead]; simp)
  simp only [fromDict, hgc, hT, hhead, readNodes, readNode, hd1, hd2]

/-- **C118, writing twice.** Two dictionaries written from a graph are independent: both can be read, with the same result. -/
theorem C118_two_dicts {toText : S → T} {fromText : T → Option S} (hT : ∀ s, fromText (toText s) = some s) (m : GMem S T K W)
    {g : GObj S K} (hF : Forest g.tree) :
    ∃ m1 g1 m2 g2,
      fromDict fromText (toDict toText (toDict toText m g).1 g).1 (toDict toText m g).2 = (m1, .ok g1) ∧
      fromDict fromText m1 (toDict toText (toDict toText m g).1 g).2 = (m2, .ok g2) ∧ SameWritten g1 g ∧ SameWritten g2 g ∧ g1.tree = g2.tree := by
  set m0 := (toDict toText m g).1 with hm0
  obtain ⟨d1, d2, d3⟩ := toDict_describes toText m g
  have ha : (toDict toText m g).2 < m0.gd.length := (List.getElem?_eq_some_iff.mp d1).1
  have hlen : m0.nd.length = m.nd.length + g.tree.nodes.length := by simp [hm0, toDict, graphDict]
  have hd : Describes toText (toDict toText m0 g).1 (toDict toText m g).2 g g.kw
      ((List.range g.tree.nodes.length).map (fun i => m.nd.length + i)) := by
    refine ⟨?_, d2, ?_⟩
    · rw [(C118_to_dict_pure toText m0 g).2.1 _ ha]
      exact d1
    · refine unread_mono d3 ?_
      intro b hb
      rw [(C118_to_dict_pure toText m0 g).1 b (by rw [mem_new] at hb; omega)]
  obtain ⟨m1, g1, e1, s1, -, -, t1, -, -, -, q1, q2, -, -⟩ := fromDict_describes hT hF hd
  obtain ⟨c1, c2, c3⟩ := toDict_describes toText m0 g
  have hd' : Describes toText m1 (toDict toText m0 g).2 g g.kw ((List.range g.tree.nodes.length).map (fun i => m0.nd.length + i)) := by
    refine ⟨?_, c2, ?_⟩
    · have : (toDict toText m0 g).2 = m0.gd.length := rfl
      rw [q2 _ (by rw [this]; omega)]
      exact c1
    · refine unread_mono c3 ?_
      intro b hb
      rw [q1 b (by rw [mem_new] at hb ⊢; omega)]
  obtain ⟨m2, g2, e2, s2, -, -, t2, -⟩ := fromDict_describes hT hF hd'
  refine ⟨m1, g1, m2, g2, e1, e2, s1, s2, ?_⟩
  rw [t1] at t2
  exact Option.some.inj t2

/-- **C118, shared options.** After reading a dictionary a change of the options of either graph is a change of the options of the other. -/
theorem C118_shared_options {toText : S → T} {fromText : T → Option S} (hT : ∀ s, fromText (toText s) = some s) (m : GMem S T K W)
    {g : GObj S K} (hF : Forest g.tree) (hk : g.kw < m.kws.length) (w : W) {m' : GMem S T K W} {g' : GObj S K}
    (h : fromDict fromText (toDict toText m g).1 (toDict toText m g).2 = (m', .ok g')) :
    optionsOf (setOptions m' g'.kw w) g = some w ∧ optionsOf (setOptions m' g.kw w) g' = some w := by
  obtain ⟨m'', g'', e, -, -, hkw, hun⟩ := C118_from_dict_once hT m hF
  rw [h] at e
  simp only [Prod.mk.injEq, Except.ok.injEq] at e
  obtain ⟨rfl, rfl⟩ := e
  have hlt : g.kw < m'.kws.length := by
    have := hun.2.2 g.kw hk
    rw [List.getElem?_eq_getElem hk] at this
    exact (List.getElem?_eq_some_iff.mp this).1
  unfold optionsOf setOptions
  rw [hkw]
  exact ⟨List.getElem?_set_self hlt, List.getElem?_set_self hlt⟩

/-- **C118, atomic radii.** The radii given to the constructor are never written: two graphs that differ in them have the same dictionary. -/
theorem C118_radii_lost (toText : S → T) (m : GMem S T K W) (s : S) (lt : String) (mx ch vo : Option (List K)) (kw : ℕ)
    (radii radii' : Option (List K)) :
    toDict toText m (mkGraph s lt mx ch vo kw radii) = toDict toText m (mkGraph s lt mx ch vo kw radii') ∧
    (toDict toText m (mkGraph s lt mx ch vo kw radii)).1.gd.map GDict.radii = m.gd.map GDict.radii ++ [none] := by
  refine ⟨rfl, ?_⟩
  simp [toDict]

/-! ## Texts -/

/-- **C118, texts.** `to_json` raises only when the options cannot be written.  The text can be read in any memory, so any number of times;
every time the same graph comes back, no object that existed is changed, and the options are a new object with the content of the text. -/
theorem C118_json {toText : S → T} {fromText : T → Option S} (hT : ∀ s, fromText (toText s) = some s) {viaJson : W → Option W}
    {m0 : GMem S T K W} {g : GObj S K} (hF : Forest g.tree) {w w' : W} (hw : optionsOf m0 g = some w) (hv : viaJson w = some w') :
    ∃ x, toJson toText viaJson m0 g = .ok x ∧ ∃ t, ∀ m : GMem S T K W,
      ∃ m' g', fromJson fromText m x = (m', .ok g') ∧ SameWritten g' g ∧ g'.tree = t ∧ Untouched m m' ∧ m.kws.length ≤ g'.kw ∧
        optionsOf m' g' = some w' := by
  have hbind : (m0.kws[g.kw]?).bind viaJson = some w' := by
    unfold optionsOf at hw
    rw [hw]
    exact hv
  refine ⟨⟨graphDict g.tree, toText g.struct, g.labelerType, g.maxima, g.charges, g.volumes, none, w'⟩, ?_, ?_⟩
  · simp only [toJson, hbind]
  · obtain ⟨t, ht, -⟩ := C45_round_trip hF
    refine ⟨t, fun m => ?_⟩
    obtain ⟨m', g', e, hs, -, hk, q, q1, q1a, q1b, q2, q3, -, -⟩ := fromDict_describes hT hF (loads_describes toText m g w')
    refine ⟨m', g', e, hs, ?_, ⟨fun a ha => ?_, fun a ha => ?_, fun a ha => ?_⟩, by rw [hk], ?_⟩
    · rw [ht] at q
      exact (Option.some.inj q).symm
    · rw [q2 a (by rw [mem_new]; omega)]
      simp only [loadsGraph]
      rw [List.getElem?_append_left ha]
    · have h2 : (loadsGraph m (⟨graphDict g.tree, toText g.struct, g.labelerType, g.maxima, g.charges, g.volumes, none, w'⟩ : GText T K W)).2 =
        m.gd.length := rfl
      rw [q3 a (by rw [h2]; omega)]
      simp only [loadsGraph]
      rw [List.getElem?_append_left ha]
    · rw [q1]
      simp only [loadsGraph]
      rw [List.getElem?_append_left ha]
    · unfold optionsOf
      rw [hk, q1]
      simp [loadsGraph]

/-- **C118, options of a text.** After reading a text, changing the options of the old graph leaves those of the new one, and the other way
round. -/
theorem C118_json_options_apart {toText : S → T} {fromText : T → Option S} (hT : ∀ s, fromText (toText s) = some s) {viaJson : W → Option W}
    {m m' : GMem S T K W} {g g' : GObj S K} (hF : Forest g.tree) {x : GText T K W} (hx : toJson toText viaJson m g = .ok x)
    (h : fromJson fromText m x = (m', .ok g')) (v : W) :
    optionsOf (setOptions m' g.kw v) g' = optionsOf m' g' ∧ optionsOf (setOptions m' g'.kw v) g = optionsOf m g := by
  have hw : ∃ w w', optionsOf m g = some w ∧ viaJson w = some w' := by
    unfold toJson at hx
    cases hb : (m.kws[g.kw]?).bind viaJson with
    | none => rw [hb] at hx; simp at hx
    | some w' =>
      obtain ⟨w, h1, h2⟩ := Option.bind_eq_some_iff.mp hb
      exact ⟨w, w', h1, h2⟩
  obtain ⟨w, w', hw1, hw2⟩ := hw
  obtain ⟨x', hx', t, hall⟩ := C118_json hT hF hw1 hw2
  rw [hx] at hx'
  obtain rfl : x = x' := by simpa using hx'
  obtain ⟨m'', g'', e, -, -, hun, hge, -⟩ := hall m
  rw [h] at e
  simp only [Prod.mk.injEq, Except.ok.injEq] at e
  obtain ⟨rfl, rfl⟩ := e
  have hlt : g.kw < m.kws.length := (List.getElem?_eq_some_iff.mp hw1).1
  have hne : g.kw ≠ g'.kw := by omega
  unfold optionsOf setOptions
  refine ⟨List.getElem?_set_ne hne, ?_⟩
  rw [List.getElem?_set_ne (Ne.symm hne)]
  exact hun.2.2 g.kw hlt

/-! ## Membership -/

/-- **C118, membership of a node.** For a node object of this graph `in` tells whether the graph has a node with its key. -/
theorem C118_contains_key (gid uid key : ℕ) (ns : List (ℕ × ℕ)) (huid : ∀ k, (uid, k) ∈ ns → k = key) :
    inGraph gid ns (.node gid uid key) = .ok (decide (key ∈ ns.map Prod.snd)) := by
  induction ns with
  | nil => rfl
  | cons n ns ih =>
    obtain ⟨u, k⟩ := n
    have ih := ih (fun k hk => huid k (List.mem_cons_of_mem _ hk))
    by_cases hu : uid = u
    · subst hu
      have := huid k (List.mem_cons_self ..)
      subst this
      simp [inGraph]
    · by_cases hk : k = key
      · subst hk
        simp [inGraph, nodeEq, hu]
      · simp only [inGraph, nodeEq, hu, and_false, decide_false, Bool.false_eq_true, if_false, if_true, hk, ih, List.map_cons, List.mem_cons]
        have : key ≠ k := fun h => hk h.symm
        simp [this]

/-- **C118, membership of anything else.** A number, or a node of another graph, is not answered with `False`: `in` raises unless the graph
is empty. -/
theorem C118_contains_raises (gid : ℕ) (n : ℕ × ℕ) (ns : List (ℕ × ℕ)) (h uid key : ℕ) (hne : h ≠ gid) :
    inGraph gid (n :: ns) .other = .error .attributeError ∧ inGraph gid (n :: ns) (.node h uid key) = .error .assertionError ∧
      inGraph gid [] .other = .ok false ∧ inGraph gid [] (.node h uid key) = .ok false := by
  obtain ⟨u, k⟩ := n
  refine ⟨by simp [inGraph, nodeEq], by simp [inGraph, nodeEq, hne, Ne.symm hne], rfl, rfl⟩

/-- **C118, stale nodes.** The key of the newest node is given again after its removal: if the last key of `g` is one above all others and
that node is removed, the next node gets the same key, and the removed node is reported to be in the graph. -/
theorem C118_stale_node {g g1 g2 : BGraph K} {k : ℕ} {ks : List ℕ} {parent : Option ℕ} {t : TNode K} (hn : g.nodes = ks ++ [k])
    (hks : ∀ x ∈ ks, x < k) (hk : k ≠ 0 → k - 1 ∈ ks) (hleaf : (g.node k).red = false)
    (h1 : removeNode g k = some g1) (h2 : addNode g1 none parent t = some g2) (gid old new : ℕ) (uids : List ℕ) (hu : uids.length = ks.length)
    (hold : old ∉ uids ++ [new]) :
    g1.nodes = ks ∧ g2.nodes = ks ++ [k] ∧ inGraph gid (uids.zip ks) (.node gid old k) = .ok false ∧
      inGraph gid ((uids ++ [new]).zip g2.nodes) (.node gid old k) = .ok true := by
  have hmem : k ∈ g.nodes := by rw [hn]; simp
  have e1 : g1.nodes = ks := by
    unfold removeNode at h1
    rw [if_pos hmem, if_neg (by rw [hleaf]; simp)] at h1
    unfold removeLeaf at h1
    cases hp : (g.node k).parent with
    | none => rw [hp] at h1; simp at h1
    | some p =>
      rw [hp] at h1
      simp only [Option.some.injEq] at h1
      rw [← h1]
      show List.filter _ (g.nodes) = ks
      rw [hn, List.filter_append]
      have : ks.filter (fun c => decide (c ≠ k)) = ks := List.filter_eq_self.mpr (fun x hx => by
        have := hks x hx
        simp only [decide_eq_true_eq]
        omega)
      rw [this]
      simp
  have hmax : ∀ (l : List ℕ) (i : ℕ), (∀ x ∈ l, x ≤ l.foldl max i) ∧ i ≤ l.foldl max i ∧ (l.foldl max i = i ∨ l.foldl max i ∈ l) := by
    intro l
    induction l with
    | nil => intro i; simp
    | cons a l ih =>
      intro i
      obtain ⟨p1, p2, p3⟩ := ih (max i a)
      simp only [List.foldl_cons]
      refine ⟨fun x hx => ?_, by omega, ?_⟩
      · rcases List.mem_cons.mp hx with rfl | hx
        · omega
        · exact p1 x hx
      · rcases p3 with p3 | p3
        · rcases le_total i a with h | h
          · right; rw [p3, max_eq_right h]; simp
          · left; rw [p3, max_eq_left h]
        · right; exact List.mem_cons_of_mem _ p3
  have hfresh : freshKey g1 = k := by
    unfold freshKey
    rw [e1]
    by_cases hkz : k = 0
    · subst hkz
      have : ks = [] := List.eq_nil_iff_forall_not_mem.mpr (fun x hx => by have := hks x hx; omega)
      rw [if_pos this]
    · have hin := hk hkz
      rw [if_neg (fun h => by rw [h] at hin; simp at hin)]
      obtain ⟨p1, p2, p3⟩ := hmax ks 0
      have q1 := p1 _ hin
      rcases p3 with p3 | p3
      · omega
      · have := hks _ p3
        omega
  have e2 : g2.nodes = ks ++ [k] := by
    unfold addNode at h2
    simp only [Option.getD_none, hfresh] at h2
    split_ifs at h2
    cases parent with
    | none =>
      simp only [Option.some.injEq] at h2
      rw [← h2, ← e1]
    | some p =>
      simp only at h2
      split_ifs at h2
      simp only [Option.some.injEq] at h2
      rw [← h2, ← e1]
      rfl
  have hz1 : ∀ x, (old, x) ∈ uids.zip ks → x = k := fun x hx =>
    absurd (List.mem_append_left _ (List.of_mem_zip hx).1) hold
  have hz2 : ∀ x, (old, x) ∈ (uids ++ [new]).zip (ks ++ [k]) → x = k := fun x hx => absurd (List.of_mem_zip hx).1 hold
  refine ⟨e1, e2, ?_, ?_⟩
  · rw [C118_contains_key gid old k _ hz1]
    have : k ∉ (uids.zip ks).map Prod.snd := by
      rw [List.map_snd_zip hu.ge]
      intro h
      have := hks k h
      omega
    simp only [this, decide_false]
  · rw [e2, C118_contains_key gid old k _ hz2]
    have : k ∈ ((uids ++ [new]).zip (ks ++ [k])).map Prod.snd := by
      rw [List.map_snd_zip (by simp [hu])]
      simp
    simp only [this, decide_true]

/-! ## A case -/

set_option maxRecDepth 100000 in
/-- The example of four nodes, written to a dictionary and read: the first reading succeeds, the second raises, and a text of it can be
read twice. -/
example : ∃ (t : BGraph ℚ) (m : GMem ℕ ℕ ℚ ℕ) (g : GObj ℕ ℚ), exRun [] = some t ∧ Forest t ∧ g.tree = t ∧ g.tree.nodes = [0, 1, 2, 3] ∧
    g.kw < m.kws.length ∧ optionsOf m g = some 5 := by
  have hsome : (exRun []).isSome = true := by decide +kernel
  obtain ⟨t, ht⟩ := Option.isSome_iff_exists.mp hsome
  have hnodes : (exRun []).map (fun g => g.nodes) = some [0, 1, 2, 3] := by decide +kernel
  rw [ht, Option.map_some] at hnodes
  have hF : Forest t := by
    refine C44_forest (fun _ => 0) (exOps ++ []) emptyGraph t emptyGraph_forest ?_
    exact ht
  exact ⟨t, ⟨[], [], [5]⟩, ⟨7, "ELF", some [0], some [1], some [2], 0, t⟩, ht, hF, rfl, Option.some.inj hnodes, Nat.one_pos, rfl⟩

set_option maxRecDepth 100000 in
/-- The hypotheses of `C118_stale_node` are met by the example: the leaf with key 3 is removed and a leaf is added below node 1. -/
example : (exRun []).map (fun g => (g.nodes, (g.node 3).red)) = some ([0, 1, 2, 3], false) ∧
    (exRun []).bind (fun g => (removeNode g 3).bind (fun g1 => (addNode g1 none (some 1) (exNode false 0 [1] 5 8)).map (fun g2 =>
      (g1.nodes, g2.nodes)))) = some ([0, 1, 2], [0, 1, 2, 3]) ∧
    (inGraph 0 ([10, 11, 12].zip [0, 1, 2]) (.node 0 13 3)).toOption = some false ∧
    (inGraph 0 ([10, 11, 12, 14].zip [0, 1, 2, 3]) (.node 0 13 3)).toOption = some true := by
  refine ⟨?_, ?_, ?_, ?_⟩ <;> decide +kernel

end BaderKit
