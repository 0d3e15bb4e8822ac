import Verif.Model.Coordination
import Mathlib.Tactic.Ring
import Mathlib.Tactic.Tauto
/-!
# C113: the neighbours of a feature

The lists `coord_indices` (atoms only) and `coord_indices_e` (atoms and bare electrons) of the features of a graph after any statements: which sites they
are computed with, which types count, and when the species and the plot can be had.
-/
set_option linter.unusedSectionVars false
namespace BaderKit

variable {P : Type}

/-! ### Specification -/

/-- The atomic types: the only neighbour is the nearest atom. -/
def OnAtom (t : String) : Prop := t = "shell" ∨ t = "core" ∨ t = "lone-pair"

/-- The types that are sites of their own. -/
def IsBare (t : String) : Prop := t = "electride" ∨ t = "bare electron"

instance (t : String) : Decidable (OnAtom t) := by unfold OnAtom; infer_instance
instance (t : String) : Decidable (IsBare t) := by unfold IsBare; infer_instance

/-- Types and positions of the features. -/
def CGraph.view (g : CGraph P) : List (String × P) := g.feats.map fun f => (f.type, f.pos)

/-- The sites of the bare electrons. -/
def bareSites (fs : List (String × P)) : List (String × P) := (fs.filter fun f => IsBare f.1).map fun f => ("H-", f.2)

/-- The atoms next to feature `i`. -/
def IsNeigh (W : CWork P) (atoms fs : List (String × P)) (i : ℕ) (l : List ℕ) : Prop :=
  ∃ t p, fs[i]? = some (t, p) ∧ (OnAtom t → l = [W.near p]) ∧ (¬ OnAtom t → l = W.nn (atoms ++ [("H-", p)]) atoms.length)

/-- The atoms and bare electrons next to feature `i`: a bare feature is looked up at its own site, any other one is added. -/
def IsNeighE (W : CWork P) (atoms fs : List (String × P)) (i : ℕ) (l : List ℕ) : Prop :=
  ∃ t p, fs[i]? = some (t, p) ∧ (OnAtom t → l = [W.near p]) ∧
    (IsBare t → l = W.nn (atoms ++ bareSites fs) (atoms.length + (bareSites (fs.take i)).length)) ∧
    (¬ OnAtom t → ¬ IsBare t → l = W.nn (atoms ++ bareSites fs ++ [("H-", p)]) (atoms ++ bareSites fs).length)

/-- The types after the assignments among some statements. -/
def retype (fs : List (String × P)) : List COp → List (String × P)
  | [] => fs
  | .setType i t :: os => retype (fs.modify i fun f => (t, f.2)) os
  | _ :: os => retype fs os

/-- Nothing is stored. -/
def CGraph.Unread (g : CGraph P) : Prop := ∀ f ∈ g.feats, f.coord = none ∧ f.coordE = none

/-- Keys are used once. -/
def CGraph.Keyed (g : CGraph P) : Prop := (g.feats.map CFeat.key).Nodup

/-! ### Lemmas -/

theorem onAtom_iff (t : String) : atomicTypes.contains t = true ↔ OnAtom t := by unfold atomicTypes OnAtom; simp
theorem isBare_iff (t : String) : bareTypes.contains t = true ↔ IsBare t := by unfold bareTypes IsBare; simp

theorem not_onAtom_of_bare {t : String} (h : IsBare t) : ¬ OnAtom t := by
  unfold OnAtom; rcases h with rfl | rfl <;> decide

theorem bare_filter : (fun f : CFeat P => bareTypes.contains f.type) = fun f => decide (IsBare f.type) := by
  funext f
  rw [Bool.eq_iff_iff, isBare_iff, decide_eq_true_iff]

theorem bare_sites (l : List (CFeat P)) :
    (l.filter fun f => bareTypes.contains f.type).map (fun f => (("H-", f.pos) : String × P)) = bareSites (l.map fun f => (f.type, f.pos)) := by
  rw [bare_filter]
  unfold bareSites
  rw [List.filter_map, List.map_map]
  rfl

theorem hSites_view (g : CGraph P) : g.hSites = g.atoms ++ bareSites g.view := by
  unfold CGraph.hSites CGraph.bare CGraph.view
  rw [bare_sites]

theorem keyIndex_bare (l : List (CFeat P)) (hk : (l.map CFeat.key).Nodup) (i : ℕ) (f : CFeat P) (hi : l[i]? = some f) (hb : IsBare f.type) :
    keyIndex (l.filter fun f => bareTypes.contains f.type) f.key = some (bareSites ((l.map fun f => (f.type, f.pos)).take i)).length := by
  rw [bare_filter]
  induction l generalizing i with
  | nil => cases hi
  | cons a l ih =>
    rw [List.map_cons, List.nodup_cons] at hk
    cases i with
    | zero =>
      rw [List.getElem?_cons_zero, Option.some.injEq] at hi
      subst hi
      rw [List.filter_cons, if_pos (by simpa using hb)]
      simp [keyIndex, List.findIdx?_cons, bareSites]
    | succ i =>
      rw [List.getElem?_cons_succ] at hi
      have hne : a.key ≠ f.key := fun e => hk.1 (List.mem_map.mpr ⟨f, List.mem_of_getElem? hi, e.symm⟩)
      have h := ih hk.2 i hi
      by_cases ha : IsBare a.type
      · unfold keyIndex bareSites at h ⊢
        rw [List.filter_cons, if_pos (by simpa using ha), List.findIdx?_cons]
        simp [hne, ha, h]
      · unfold bareSites at h ⊢
        rw [List.filter_cons, if_neg (by simpa using ha), h]
        simp [ha]

theorem coordNew_spec (W : CWork P) (g : CGraph P) (i : ℕ) (f : CFeat P) (hi : g.feats[i]? = some f) : IsNeigh W g.atoms g.view i (coordNew W g f) := by
  refine ⟨f.type, f.pos, by simp [CGraph.view, hi], fun h => ?_, fun h => ?_⟩
  · unfold coordNew; rw [if_pos ((onAtom_iff _).mpr h)]
  · unfold coordNew; rw [if_neg (by rw [onAtom_iff]; exact h)]

theorem coordNewE_spec (W : CWork P) (g : CGraph P) (hk : g.Keyed) (i : ℕ) (f : CFeat P) (hi : g.feats[i]? = some f) :
    ∃ l, coordNewE W g f = some l ∧ IsNeighE W g.atoms g.view i l := by
  have hv : g.view[i]? = some (f.type, f.pos) := by simp [CGraph.view, hi]
  unfold coordNewE
  by_cases h1 : OnAtom f.type
  · rw [if_pos ((onAtom_iff _).mpr h1)]
    exact ⟨_, rfl, f.type, f.pos, hv, fun _ => rfl, fun h => absurd h1 (not_onAtom_of_bare h), fun h => absurd h1 h⟩
  · rw [if_neg (by rw [onAtom_iff]; exact h1)]
    by_cases h2 : IsBare f.type
    · rw [if_pos ((isBare_iff _).mpr h2)]
      have := keyIndex_bare g.feats hk i f hi h2
      unfold CGraph.bare
      rw [this]
      refine ⟨_, rfl, f.type, f.pos, hv, fun h => absurd h h1, fun _ => ?_, fun _ h => absurd h2 h⟩
      rw [hSites_view]
      rfl
    · rw [if_neg (by rw [isBare_iff]; exact h2), hSites_view]
      exact ⟨_, rfl, f.type, f.pos, hv, fun h => absurd h h1, fun h => absurd h h2, fun _ _ => rfl⟩

theorem put_view {g : CGraph P} {i : ℕ} {f f' : CFeat P} (hi : g.feats[i]? = some f) (e : f'.type = f.type) (e' : f'.pos = f.pos) : (g.put i f').view = g.view := by
  unfold CGraph.view CGraph.put
  simp only
  rw [List.map_set]
  apply List.ext_getElem?
  intro j
  rw [List.getElem?_set]
  split
  · next h => subst h; simp [hi, e, e']; exact (List.getElem?_eq_some_iff.mp hi).1
  · rfl

theorem put_keys {g : CGraph P} {i : ℕ} {f f' : CFeat P} (hi : g.feats[i]? = some f) (e : f'.key = f.key) (hk : g.Keyed) : (g.put i f').Keyed := by
  unfold CGraph.Keyed CGraph.put at *
  simp only
  have : (g.feats.set i f').map CFeat.key = g.feats.map CFeat.key := by
    rw [List.map_set]
    apply List.ext_getElem?
    intro j
    rw [List.getElem?_set]
    split
    · next h => subst h; simp [hi, e]; exact (List.getElem?_eq_some_iff.mp hi).1
    · rfl
  rw [this]
  exact hk

/-- What a statement leaves of atoms, keys and types. -/
theorem step_rest (W : CWork P) (g : CGraph P) (o : COp) :
    (g.step W o).2.atoms = g.atoms ∧ (g.Keyed → (g.step W o).2.Keyed) ∧ (g.step W o).2.view = retype g.view [o] := by
  cases o with
  | read i =>
    simp only [CGraph.step, CGraph.readC]
    cases e : g.feats[i]? with
    | none => exact ⟨rfl, id, rfl⟩
    | some f =>
      cases e' : f.coord with
      | some l => exact ⟨by simp only [e'], by simp only [e']; exact id, by simp only [e']; rfl⟩
      | none => exact ⟨by simp only [e']; rfl, by simp only [e']; exact put_keys e rfl, by simp only [e']; exact put_view e rfl rfl⟩
  | readE i =>
    simp only [CGraph.step, CGraph.readE]
    cases e : g.feats[i]? with
    | none => exact ⟨rfl, id, rfl⟩
    | some f =>
      cases e' : f.coordE with
      | some l => exact ⟨by simp only [e'], by simp only [e']; exact id, by simp only [e']; rfl⟩
      | none =>
        cases e'' : coordNewE W g f with
        | none => exact ⟨by simp only [e', e''], by simp only [e', e'']; exact id, by simp only [e', e'']; rfl⟩
        | some l =>
          exact ⟨by simp only [e', e'']; rfl, by simp only [e', e'']; exact put_keys e rfl, by simp only [e', e'']; exact put_view e rfl rfl⟩
  | setType i t =>
    simp only [CGraph.step]
    cases e : g.feats[i]? with
    | none =>
      refine ⟨rfl, id, ?_⟩
      simp only [retype]
      apply List.ext_getElem?
      intro j
      rw [List.getElem?_modify]
      by_cases h : i = j
      · subst h; simp [CGraph.view, e]
      · simp [h]
    | some f =>
      refine ⟨rfl, put_keys e rfl, ?_⟩
      simp only [retype, CGraph.view, CGraph.put]
      apply List.ext_getElem?
      intro j
      rw [List.getElem?_modify, List.map_set, List.getElem?_set]
      by_cases h : i = j
      · subst h
        have := List.getElem?_eq_some_iff.mp e
        simp [this.1, this.2]
      · simp [h]

theorem retype_append (fs : List (String × P)) (a b : List COp) : retype fs (a ++ b) = retype (retype fs a) b := by
  induction a generalizing fs with
  | nil => rfl
  | cons o a ih => cases o <;> exact ih _

theorem session_rest (W : CWork P) (g : CGraph P) (os : List COp) :
    (g.session W os).2.atoms = g.atoms ∧ (g.Keyed → (g.session W os).2.Keyed) ∧ (g.session W os).2.view = retype g.view os := by
  induction os generalizing g with
  | nil => exact ⟨rfl, id, rfl⟩
  | cons o os ih =>
    obtain ⟨a, b, c⟩ := step_rest W g o
    obtain ⟨a', b', c'⟩ := ih (g.step W o).2
    refine ⟨a'.trans a, fun h => b' (b h), ?_⟩
    show ((g.step W o).2.session W os).2.view = _
    rw [c', c, ← retype_append]
    rfl

theorem session_length (W : CWork P) (g : CGraph P) (os : List COp) : (g.session W os).1.length = os.length := by
  induction os generalizing g with
  | nil => rfl
  | cons o os ih => exact congrArg (· + 1) (ih _)

theorem cSession_append (W : CWork P) (g : CGraph P) (a b : List COp) :
    g.session W (a ++ b) = ((g.session W a).1 ++ ((g.session W a).2.session W b).1, ((g.session W a).2.session W b).2) := by
  induction a generalizing g with
  | nil => rfl
  | cons o a ih =>
    show ((g.step W o).1 :: ((g.step W o).2.session W (a ++ b)).1, ((g.step W o).2.session W (a ++ b)).2) = _
    rw [ih]
    rfl

/-- The stored list of atoms. -/
def CGraph.slot (g : CGraph P) (i : ℕ) : Option (List ℕ) := (g.feats[i]?).bind CFeat.coord
/-- The stored list of atoms and bare electrons. -/
def CGraph.slotE (g : CGraph P) (i : ℕ) : Option (List ℕ) := (g.feats[i]?).bind CFeat.coordE

theorem put_slot {g : CGraph P} {i : ℕ} {f f' : CFeat P} (hi : g.feats[i]? = some f) (j : ℕ) :
    (g.put i f').slot j = (if i = j then f'.coord else g.slot j) ∧ (g.put i f').slotE j = (if i = j then f'.coordE else g.slotE j) := by
  unfold CGraph.slot CGraph.slotE CGraph.put
  simp only
  rw [List.getElem?_set]
  by_cases h : i = j
  · subst h; simp [(List.getElem?_eq_some_iff.mp hi).1]
  · simp [h]

/-- A statement changes the list of atoms of a feature only by reading it first. -/
theorem step_slot (W : CWork P) (g : CGraph P) (o : COp) (i : ℕ) :
    (∀ l, g.slot i = some l → (g.step W o).2.slot i = some l) ∧ (∀ l, g.slotE i = some l → (g.step W o).2.slotE i = some l) ∧
    (o ≠ .read i → (g.step W o).2.slot i = g.slot i) ∧ (o ≠ .readE i → (g.step W o).2.slotE i = g.slotE i) := by
  cases o with
  | read j =>
    simp only [CGraph.step, CGraph.readC]
    cases e : g.feats[j]? with
    | none => simp
    | some f =>
      cases e' : f.coord with
      | some l => simp [e']
      | none =>
        simp only [e']
        obtain ⟨p, q⟩ := put_slot (f' := { f with coord := some (coordNew W g f) }) e i
        rw [p, q]
        by_cases h : j = i
        · subst h
          have a : g.slot j = none := by simp [CGraph.slot, e, e']
          have b : g.slotE j = f.coordE := by simp [CGraph.slotE, e]
          simp [a, b]
        · simp [h]
  | readE j =>
    simp only [CGraph.step, CGraph.readE]
    cases e : g.feats[j]? with
    | none => simp
    | some f =>
      cases e' : f.coordE with
      | some l => simp [e']
      | none =>
        cases e'' : coordNewE W g f with
        | none => simp [e', e'']
        | some l =>
          simp only [e', e'']
          obtain ⟨p, q⟩ := put_slot (f' := { f with coordE := some l }) e i
          rw [p, q]
          by_cases h : j = i
          · subst h
            have a : g.slotE j = none := by simp [CGraph.slotE, e, e']
            have b : g.slot j = f.coord := by simp [CGraph.slot, e]
            simp [a, b]
          · simp [h]
  | setType j t =>
    simp only [CGraph.step]
    cases e : g.feats[j]? with
    | none => simp
    | some f =>
      obtain ⟨p, q⟩ := put_slot (f' := { f with type := t }) e i
      simp only
      rw [p, q]
      by_cases h : j = i
      · subst h
        have a : g.slotE j = f.coordE := by simp [CGraph.slotE, e]
        have b : g.slot j = f.coord := by simp [CGraph.slot, e]
        simp [a, b]
      · simp [h]

theorem session_slot (W : CWork P) (g : CGraph P) (os : List COp) (i : ℕ) :
    (∀ l, g.slot i = some l → (g.session W os).2.slot i = some l) ∧ (∀ l, g.slotE i = some l → (g.session W os).2.slotE i = some l) ∧
    (COp.read i ∉ os → (g.session W os).2.slot i = g.slot i) ∧ (COp.readE i ∉ os → (g.session W os).2.slotE i = g.slotE i) := by
  induction os generalizing g with
  | nil => exact ⟨fun _ h => h, fun _ h => h, fun _ => rfl, fun _ => rfl⟩
  | cons o os ih =>
    obtain ⟨a, b, c, d⟩ := step_slot W g o i
    obtain ⟨a', b', c', d'⟩ := ih (g.step W o).2
    refine ⟨fun l h => a' l (a l h), fun l h => b' l (b l h), fun h => ?_, fun h => ?_⟩
    · exact (c' fun x => h (List.mem_cons_of_mem _ x)).trans (c fun x => h (x ▸ List.mem_cons_self))
    · exact (d' fun x => h (List.mem_cons_of_mem _ x)).trans (d fun x => h (x ▸ List.mem_cons_self))

theorem readC_spec (W : CWork P) (g : CGraph P) (i : ℕ) (h : i < g.feats.length) :
    ∃ l, (g.readC W i).1 = some l ∧ (g.readC W i).2.slot i = some l ∧ (∀ l', g.slot i = some l' → l' = l) ∧
      (g.slot i = none → IsNeigh W g.atoms g.view i l) := by
  have e : g.feats[i]? = some g.feats[i] := List.getElem?_eq_getElem h
  unfold CGraph.readC
  simp only [e]
  cases e' : g.feats[i].coord with
  | some l => exact ⟨l, by simp, by simp [CGraph.slot, e, e'], by simp [CGraph.slot, e, e'], by simp [CGraph.slot, e, e']⟩
  | none =>
    refine ⟨_, rfl, ?_, by simp [CGraph.slot, e, e'], fun _ => coordNew_spec W g i _ e⟩
    simp only
    rw [(put_slot e i).1, if_pos rfl]

theorem readE_spec (W : CWork P) (g : CGraph P) (hk : g.Keyed) (i : ℕ) (h : i < g.feats.length) :
    ∃ l, (g.readE W i).1 = some l ∧ (g.readE W i).2.slotE i = some l ∧ (∀ l', g.slotE i = some l' → l' = l) ∧
      (g.slotE i = none → IsNeighE W g.atoms g.view i l) := by
  have e : g.feats[i]? = some g.feats[i] := List.getElem?_eq_getElem h
  obtain ⟨l, hl, hs⟩ := coordNewE_spec W g hk i _ e
  unfold CGraph.readE
  simp only [e]
  cases e' : g.feats[i].coordE with
  | some l => exact ⟨l, by simp, by simp [CGraph.slotE, e, e'], by simp [CGraph.slotE, e, e'], by simp [CGraph.slotE, e, e']⟩
  | none =>
    simp only [hl]
    refine ⟨l, rfl, ?_, by simp [CGraph.slotE, e, e'], fun _ => hs⟩
    rw [(put_slot e i).2, if_pos rfl]

theorem view_length (g : CGraph P) : g.view.length = g.feats.length := by simp [CGraph.view]

theorem retype_length (fs : List (String × P)) (os : List COp) : (retype fs os).length = fs.length := by
  induction os generalizing fs with
  | nil => rfl
  | cons o os ih => cases o <;> simp [retype, ih]

theorem session_feats_length (W : CWork P) (g : CGraph P) (os : List COp) : (g.session W os).2.feats.length = g.feats.length := by
  rw [← view_length, (session_rest W g os).2.2, retype_length, view_length]

/-! ### Theorems -/

/-- Of a graph where nothing has been read, every read of the atoms next to a feature, in any session of reads and type assignments, gives what belongs to
the types at the *first* such read. -/
theorem C113_atoms (W : CWork P) (g : CGraph P) (hu : g.Unread) (i : ℕ) (hi : i < g.feats.length) (pre post : List COp)
    (hpre : COp.read i ∉ pre) :
    ∃ l, (g.session W (pre ++ .read i :: post)).1[pre.length]? = some (some l) ∧ IsNeigh W g.atoms (retype g.view pre) i l ∧
      (∀ mid rest, post = mid ++ .read i :: rest →
        (g.session W (pre ++ .read i :: post)).1[pre.length + 1 + mid.length]? = some (some l)) := by
  obtain ⟨ra, -, rv⟩ := session_rest W g pre
  have hs : (g.session W pre).2.slot i = none := by
    rw [(session_slot W g pre i).2.2.1 hpre]
    simp only [CGraph.slot, List.getElem?_eq_getElem hi, Option.bind_some]
    exact (hu _ (List.getElem_mem hi)).1
  have hl : i < (g.session W pre).2.feats.length := by rw [session_feats_length]; exact hi
  obtain ⟨l, h1, h2, -, h4⟩ := readC_spec W _ i hl
  refine ⟨l, ?_, ?_, fun mid rest e => ?_⟩
  · rw [cSession_append]
    simp only
    rw [List.getElem?_append_right (by rw [session_length]), session_length, Nat.sub_self]
    simp only [CGraph.session, List.getElem?_cons_zero]
    exact congrArg some h1
  · have := h4 hs
    rwa [ra, rv] at this
  · rw [e, cSession_append]
    simp only
    rw [List.getElem?_append_right (by rw [session_length]; omega), session_length]
    have : pre.length + 1 + mid.length - pre.length = mid.length + 1 := by omega
    rw [this]
    simp only [CGraph.session, List.getElem?_cons_succ]
    rw [cSession_append]
    simp only
    rw [List.getElem?_append_right (by rw [session_length]), session_length, Nat.sub_self]
    simp only [CGraph.session, List.getElem?_cons_zero]
    have hk := (session_slot W ((g.session W pre).2.step W (.read i)).2 mid i).1 l h2
    have hl' : i < (((g.session W pre).2.step W (.read i)).2.session W mid).2.feats.length := by
      rw [session_feats_length, ← view_length, (step_rest W _ _).2.2, retype_length, view_length]; exact hl
    obtain ⟨l', k1, -, k3, -⟩ := readC_spec W _ i hl'
    rw [← k3 l hk] at k1
    exact congrArg some k1

/-- The same for atoms and bare electrons. -/
theorem C113_electrides (W : CWork P) (g : CGraph P) (hu : g.Unread) (hk : g.Keyed) (i : ℕ) (hi : i < g.feats.length) (pre post : List COp)
    (hpre : COp.readE i ∉ pre) :
    ∃ l, (g.session W (pre ++ .readE i :: post)).1[pre.length]? = some (some l) ∧ IsNeighE W g.atoms (retype g.view pre) i l ∧
      (∀ mid rest, post = mid ++ .readE i :: rest →
        (g.session W (pre ++ .readE i :: post)).1[pre.length + 1 + mid.length]? = some (some l)) := by
  obtain ⟨ra, rk, rv⟩ := session_rest W g pre
  have hs : (g.session W pre).2.slotE i = none := by
    rw [(session_slot W g pre i).2.2.2 hpre]
    simp only [CGraph.slotE, List.getElem?_eq_getElem hi, Option.bind_some]
    exact (hu _ (List.getElem_mem hi)).2
  have hl : i < (g.session W pre).2.feats.length := by rw [session_feats_length]; exact hi
  obtain ⟨l, h1, h2, -, h4⟩ := readE_spec W _ (rk hk) i hl
  refine ⟨l, ?_, ?_, fun mid rest e => ?_⟩
  · rw [cSession_append]
    simp only
    rw [List.getElem?_append_right (by rw [session_length]), session_length, Nat.sub_self]
    simp only [CGraph.session, List.getElem?_cons_zero]
    exact congrArg some h1
  · have := h4 hs
    rwa [ra, rv] at this
  · rw [e, cSession_append]
    simp only
    rw [List.getElem?_append_right (by rw [session_length]; omega), session_length]
    have : pre.length + 1 + mid.length - pre.length = mid.length + 1 := by omega
    rw [this]
    simp only [CGraph.session, List.getElem?_cons_succ]
    rw [cSession_append]
    simp only
    rw [List.getElem?_append_right (by rw [session_length]), session_length, Nat.sub_self]
    simp only [CGraph.session, List.getElem?_cons_zero]
    have hq := (session_slot W ((g.session W pre).2.step W (.readE i)).2 mid i).2.1 l h2
    have hl' : i < (((g.session W pre).2.step W (.readE i)).2.session W mid).2.feats.length := by
      rw [session_feats_length, ← view_length, (step_rest W _ _).2.2, retype_length, view_length]; exact hl
    obtain ⟨l', k1, -, k3, -⟩ := readE_spec W _ ((session_rest W _ _).2.1 ((step_rest W _ _).2.1 (rk hk))) i hl'
    rw [← k3 l hq] at k1
    exact congrArg some k1

theorem bareSites_take (fs : List (String × P)) (i : ℕ) (t : String) (p : P) (hi : fs[i]? = some (t, p)) (hb : IsBare t) :
    (bareSites fs)[(bareSites (fs.take i)).length]? = some ("H-", p) := by
  induction fs generalizing i with
  | nil => cases hi
  | cons a fs ih =>
    cases i with
    | zero => rw [List.getElem?_cons_zero] at hi; cases hi; simp [bareSites, hb]
    | succ i =>
      rw [List.getElem?_cons_succ] at hi
      have h := ih i hi
      unfold bareSites at h ⊢
      rw [List.take_succ_cons]
      by_cases ha : IsBare a.1
      · simpa [ha] using h
      · simpa [ha] using h

/-- The search always starts from the feature itself: the site whose neighbours are asked for lies at its position. -/
theorem C113_centre (W : CWork P) (atoms fs : List (String × P)) (i : ℕ) (l : List ℕ) (t : String) (p : P) (hi : fs[i]? = some (t, p)) (ht : ¬ OnAtom t) :
    (IsNeigh W atoms fs i l → ∃ sites k, l = W.nn sites k ∧ sites[k]? = some ("H-", p) ∧ sites.take atoms.length = atoms ∧
      ∀ x ∈ sites.drop atoms.length, x = ("H-", p)) ∧
    (IsNeighE W atoms fs i l → ∃ sites k, l = W.nn sites k ∧ sites[k]? = some ("H-", p) ∧ sites.take atoms.length = atoms ∧
      ∀ x, x ∈ sites.drop atoms.length ↔ x = ("H-", p) ∨ ∃ t' q, (t', q) ∈ fs ∧ IsBare t' ∧ x = ("H-", q)) := by
  constructor
  · rintro ⟨t', p', e, -, h⟩
    rw [hi] at e; cases e
    exact ⟨_, _, h ht, by simp, by simp, by simp⟩
  · rintro ⟨t', p', e, -, hb, h⟩
    rw [hi] at e; cases e
    have hm : ∀ x : String × P, x ∈ bareSites fs ↔ ∃ t' q, (t', q) ∈ fs ∧ IsBare t' ∧ x = ("H-", q) := by
      intro x
      unfold bareSites
      simp only [List.mem_map, List.mem_filter, decide_eq_true_eq, Prod.exists]
      constructor
      · rintro ⟨a, b, ⟨c, d⟩, e⟩; exact ⟨a, b, c, d, e.symm⟩
      · rintro ⟨a, b, c, d, e⟩; exact ⟨a, b, ⟨c, d⟩, e.symm⟩
    by_cases hbare : IsBare t
    · refine ⟨_, _, hb hbare, ?_, by simp, fun x => ?_⟩
      · rw [List.getElem?_append_right (by omega), Nat.add_sub_cancel_left]
        exact bareSites_take fs i t p hi hbare
      · rw [List.drop_left, hm]
        refine ⟨Or.inr, ?_⟩
        rintro (rfl | h)
        · exact ⟨t, p, List.mem_of_getElem? hi, hbare, rfl⟩
        · exact h
    · refine ⟨_, _, h ht hbare, by simp, by simp, fun x => ?_⟩
      rw [List.append_assoc, List.drop_left, List.mem_append, hm, List.mem_singleton]
      exact Or.comm

theorem speciesMapM_isSome {α β : Type} (f : α → Option β) (l : List α) : (l.mapM f).isSome ↔ ∀ x ∈ l, (f x).isSome := by
  induction l with
  | nil => simp
  | cons a l ih =>
    rw [List.mapM_cons]
    cases e : f a with
    | none => simp [e]
    | some b =>
      cases e' : l.mapM f with
      | none => rw [e'] at ih; simp [e]; simpa using ih
      | some c => rw [e'] at ih; simp [e]; simpa using ih

/-- The species can be read exactly if every neighbour is one of the sites. -/
theorem C113_species (sites : List (String × P)) (l : List ℕ) : (speciesOf sites l).isSome ↔ ∀ j ∈ l, j < sites.length := by
  unfold speciesOf
  rw [speciesMapM_isSome]
  simp

/-- They are the species of the sites. -/
theorem C113_species_value (sites : List (String × P)) (l : List ℕ) (s : List String) (h : speciesOf sites l = some s) :
    s.length = l.length ∧ ∀ k j : ℕ, l[k]? = some j → ∃ p t, s[k]? = some t ∧ sites[j]? = some (t, p) := by
  unfold speciesOf at h
  induction l generalizing s with
  | nil => simp at h; subst h; simp
  | cons a l ih =>
    rw [List.mapM_cons] at h
    cases e : sites[a]? with
    | none => simp [e] at h
    | some x =>
      cases e' : l.mapM (fun j => (sites[j]?).map Prod.fst) with
      | none => simp [e, e'] at h
      | some c =>
        simp [e, e'] at h
        subst h
        obtain ⟨h1, h2⟩ := ih c e'
        refine ⟨by simp [h1], fun k j hk => ?_⟩
        cases k with
        | zero => simp at hk; subst hk; exact ⟨x.2, x.1, by simp, e⟩
        | succ k => simp at hk ⊢; exact h2 k j hk

/-- The neighbour search only names sites it was given. -/
def CWork.Within (W : CWork P) : Prop := ∀ sites k, ∀ j ∈ W.nn sites k, j < sites.length

/-- The nearest atom is an atom. -/
def CWork.NearAtom (W : CWork P) (n : ℕ) : Prop := ∀ p, W.near p < n

/-- With such a search, the species of the atoms next to a feature can be read exactly if the feature is not among its own neighbours (through the periodic
boundary). -/
theorem C113_own_image (W : CWork P) (hW : W.Within) (atoms fs : List (String × P)) (hn : W.NearAtom atoms.length) (i : ℕ) (l : List ℕ)
    (h : IsNeigh W atoms fs i l) : (speciesOf atoms l).isSome ↔ atoms.length ∉ l := by
  rw [C113_species]
  obtain ⟨t, p, -, h1, h2⟩ := h
  by_cases ht : OnAtom t
  · rw [h1 ht]
    have := hn p
    simp only [List.mem_singleton, forall_eq]
    omega
  · rw [h2 ht]
    constructor
    · intro h hm; exact absurd (h _ hm) (lt_irrefl _)
    · intro h j hj
      have := hW _ _ j hj
      rw [List.length_append, List.length_singleton] at this
      rcases Nat.lt_succ_iff_lt_or_eq.mp this with q | q
      · exact q
      · subst q; exact absurd hj h

/-- For atoms and bare electrons: always for a bare feature, and otherwise exactly if the feature is not its own neighbour. -/
theorem C113_own_image_e (W : CWork P) (hW : W.Within) (atoms fs : List (String × P)) (hn : W.NearAtom atoms.length) (i : ℕ) (l : List ℕ) (t : String) (p : P)
    (hi : fs[i]? = some (t, p)) (h : IsNeighE W atoms fs i l) (sites : List (String × P)) (hs : sites.length = atoms.length + (bareSites fs).length) :
    (speciesOf sites l).isSome ↔ IsBare t ∨ sites.length ∉ l := by
  rw [C113_species]
  obtain ⟨t', p', e, h1, h2, h3⟩ := h
  rw [hi] at e; cases e
  by_cases ht : OnAtom t
  · rw [h1 ht]
    have := hn p
    simp only [List.mem_singleton, forall_eq]
    constructor
    · intro _; right; omega
    · intro _; omega
  · by_cases hb : IsBare t
    · rw [h2 hb]
      refine ⟨fun _ => Or.inl hb, fun _ j hj => ?_⟩
      have := hW _ _ j hj
      rw [List.length_append] at this
      omega
    · rw [h3 ht hb]
      constructor
      · intro h; right; intro hm; exact absurd (h _ hm) (lt_irrefl _)
      · rintro (h | h) j hj
        · exact absurd h hb
        · have := hW _ _ j hj
          rw [List.length_append, List.length_singleton, List.length_append] at this
          rcases Nat.lt_succ_iff_lt_or_eq.mp this with q | q
          · omega
          · rw [← hs] at q; subst q; exact absurd hj h

/-- The sites of `electride_structure` are the atoms followed by a site of species `E` at every bare electron: as many as those of the search, at the same
positions. -/
theorem C113_sites (g : CGraph P) : g.eSites.length = g.atoms.length + (bareSites g.view).length ∧ g.eSites.take g.atoms.length = g.atoms ∧
    g.eSites.map Prod.snd = (g.atoms ++ bareSites g.view).map Prod.snd ∧ ∀ x ∈ g.eSites.drop g.atoms.length, x.1 = "E" := by
  have hl : g.eSites.length = g.atoms.length + (bareSites g.view).length := by
    unfold CGraph.eSites
    rw [List.length_append, List.length_map, CGraph.view, ← bare_sites, List.length_map]
    rfl
  refine ⟨hl, by simp [CGraph.eSites], ?_, ?_⟩
  · unfold CGraph.eSites
    rw [CGraph.view, ← bare_sites]
    simp [CGraph.bare, Function.comp_def]
  · intro x hx
    simp only [CGraph.eSites, List.drop_left, List.mem_map] at hx
    obtain ⟨f, -, rfl⟩ := hx
    rfl

/-- What a read of the neighbouring atoms would give now. -/
def CGraph.now (W : CWork P) (g : CGraph P) (i : ℕ) : Option (List ℕ) := (g.readC W i).1

theorem readC_now (W : CWork P) (g : CGraph P) (i j : ℕ) : ((g.readC W i).2.now W j) = g.now W j := by
  simp only [CGraph.now]
  rw [CGraph.readC.eq_def W g i]
  cases e : g.feats[i]? with
  | none => rfl
  | some f =>
    cases e' : f.coord with
    | some l => simp only [e']
    | none =>
      simp only [e']
      unfold CGraph.readC CGraph.put
      simp only
      by_cases h : i = j
      · subst h
        rw [List.getElem?_set, if_pos rfl, if_pos (List.getElem?_eq_some_iff.mp e).1]
        simp [e, e']
      · rw [List.getElem?_set, if_neg h]
        cases g.feats[j]? with
        | none => rfl
        | some f' => cases h' : f'.coord <;> simp [h', coordNew]

theorem plot_fold (W : CWork P) (g : CGraph P) (l : List ℕ) (r : Bool × CGraph P) (hr : r.1 = true → ∀ j, r.2.now W j = g.now W j) :
    let r' := l.foldl (plotLabel W g.atoms) r
    (r'.1 = true ↔ r.1 = true ∧ ∀ i ∈ l, ∃ ll, g.now W i = some ll ∧ (speciesOf g.atoms ll).isSome) ∧
      (r'.1 = true → ∀ j, r'.2.now W j = g.now W j) := by
  induction l generalizing r with
  | nil => exact ⟨by simp, hr⟩
  | cons a l ih =>
    simp only [List.foldl_cons]
    rw [plotLabel.eq_def]
    by_cases h : r.1 = true
    · rw [if_pos h]
      have hn : (r.2.readC W a).1 = g.now W a := hr h a
      rw [hn]
      cases e : g.now W a with
      | none =>
        obtain ⟨q, q'⟩ := ih (false, (r.2.readC W a).2) (by simp)
        refine ⟨?_, q'⟩
        rw [q]
        simp [e]
      | some ll =>
        obtain ⟨q, q'⟩ := ih ((speciesOf g.atoms ll).isSome, (r.2.readC W a).2) (fun _ j => (readC_now W _ a j).trans (hr h j))
        refine ⟨?_, q'⟩
        rw [q]
        simp [h, e]
    · rw [if_neg h]
      obtain ⟨q, q'⟩ := ih r hr
      refine ⟨?_, q'⟩
      rw [q]
      simp [h]

/-- The graph can be drawn exactly if, for every feature, the list of neighbours that is stored, or that belongs to its type, names only atoms. -/
theorem C113_plot (W : CWork P) (g : CGraph P) :
    (g.plot W).1 = true ↔
      ∀ i < g.feats.length, ∀ l, ((g.slot i = none → IsNeigh W g.atoms g.view i l) ∧ ∀ l', g.slot i = some l' → l' = l) → ∀ j ∈ l, j < g.atoms.length := by
  have h := (plot_fold W g (List.range g.feats.length) (true, g) (fun _ _ => rfl)).1
  unfold CGraph.plot
  rw [h]
  simp only [true_and, List.mem_range]
  constructor
  · intro hh i hi l hl
    obtain ⟨ll, e, hs⟩ := hh i hi
    obtain ⟨l2, e2, -, k3, k4⟩ := readC_spec W g i hi
    unfold CGraph.now at e
    rw [e] at e2; cases e2
    have : l = ll := by
      cases es : g.slot i with
      | some l' => exact (hl.2 l' es).symm.trans (k3 l' es)
      | none =>
        obtain ⟨t, p, q, a, b⟩ := hl.1 es
        obtain ⟨t', p', q', a', b'⟩ := k4 es
        rw [q] at q'; cases q'
        by_cases ht : OnAtom t
        · rw [a ht, a' ht]
        · rw [b ht, b' ht]
    subst this
    exact (C113_species _ _).mp hs
  · intro hh i hi
    obtain ⟨l2, e2, -, k3, k4⟩ := readC_spec W g i hi
    exact ⟨l2, e2, (C113_species _ _).mpr (hh i hi l2 ⟨k4, k3⟩)⟩

/-! ### What goes wrong -/

/-- A search that names every other site within two steps on a line, and the site itself where it stands alone with its images. -/
def lineNN (sites : List (String × ℤ)) (k : ℕ) : List ℕ :=
  match sites[k]? with
  | none => []
  | some c => (List.range sites.length).filter fun j =>
    match sites[j]? with
    | none => false
    | some x => (j != k && decide (|x.2 - c.2| ≤ 2)) || (j == k && decide (c.2 = 10))

theorem lineNN_within : CWork.Within (P := ℤ) ⟨fun _ => 0, lineNN⟩ := by
  intro sites k j hj
  simp only [lineNN] at hj
  cases e : sites[k]? with
  | none => rw [e] at hj; simp at hj
  | some c => rw [e] at hj; exact List.mem_range.mp (List.mem_filter.mp hj).1

/-- An atom at 0 and one at 3, and features at 1, 2 and 10. -/
def lineGraph (t1 t2 t3 : String) : CGraph ℤ :=
  ⟨[("Na", 0), ("Cl", 3)], [⟨5, t1, 1, none, none⟩, ⟨7, t2, 2, none, none⟩, ⟨8, t3, 10, none, none⟩]⟩

example (t1 t2 t3 : String) : (lineGraph t1 t2 t3).Unread ∧ (lineGraph t1 t2 t3).Keyed := by
  constructor
  · intro f hf; simp [lineGraph] at hf; rcases hf with rfl | rfl | rfl <;> simp
  · show [5, 7, 8].Nodup
    decide

/-- The lists are not updated when types change: a feature that was read and then made a lone pair keeps its two neighbours, while one made a lone pair
before the read has one; and the list with bare electrons lacks a feature that became an electride after the read. -/
theorem C113_stale :
    ∃ (W : CWork ℤ) (g : CGraph ℤ), W.Within ∧ W.NearAtom g.atoms.length ∧ g.Unread ∧ g.Keyed ∧
      (g.session W [.read 0, .setType 0 "lone-pair", .read 0]).1 = [some [0, 1], none, some [0, 1]] ∧
      (g.session W [.setType 0 "lone-pair", .read 0]).1 = [none, some [0]] ∧
      (g.session W [.readE 0, .setType 1 "electride", .readE 0]).1 = [some [0, 1], none, some [0, 1]] ∧
      (g.session W [.setType 1 "electride", .readE 0]).1 = [none, some [0, 1, 2]] := by
  refine ⟨⟨fun _ => 0, lineNN⟩, lineGraph "unknown" "unknown" "shell", lineNN_within, fun _ => Nat.zero_lt_two, ?_, ?_, ?_, ?_, ?_, ?_⟩
  · intro f hf; simp [lineGraph] at hf; rcases hf with rfl | rfl | rfl <;> simp
  · show [5, 7, 8].Nodup
    decide
  all_goals decide

/-- A feature that is its own neighbour (through the boundary of a small cell) has no list of species, and then no plot of the graph can be made; with the
same feature on an atom it can. -/
theorem C113_no_plot :
    ∃ (W : CWork ℤ) (g : CGraph ℤ), W.Within ∧ W.NearAtom g.atoms.length ∧ g.Unread ∧ (g.readC W 2).1 = some [2] ∧ g.atoms.length = 2 ∧
      speciesOf g.atoms [2] = none ∧ (g.plot W).1 = false ∧ ((g.step W (.setType 2 "shell")).2.plot W).1 = true := by
  refine ⟨⟨fun _ => 0, lineNN⟩, lineGraph "unknown" "unknown" "metallic", lineNN_within, fun _ => Nat.zero_lt_two, ?_, ?_, ?_, ?_, ?_, ?_⟩
  · intro f hf; simp [lineGraph] at hf; rcases hf with rfl | rfl | rfl <;> simp
  all_goals decide

/-- The hypotheses of the theorems above on this graph. -/
example : IsNeighE ⟨fun _ => 0, lineNN⟩ [("Na", 0), ("Cl", 3)] [("covalent", 1), ("electride", 2), ("metallic", 10)] 0 [0, 1, 2] ∧
    IsNeighE ⟨fun _ => 0, lineNN⟩ [("Na", 0), ("Cl", 3)] [("covalent", 1), ("electride", 2), ("metallic", 10)] 1 [0, 1] := by
  refine ⟨⟨_, _, rfl, ?_, ?_, fun _ _ => ?_⟩, ⟨_, _, rfl, ?_, fun _ => ?_, ?_⟩⟩ <;> decide

end BaderKit
