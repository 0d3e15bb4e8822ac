import Verif.Model.StructureBuild
import Mathlib.Algebra.Order.Floor.Ring
import Mathlib.Algebra.Order.Ring.Rat
import Mathlib.Data.Rat.Floor
import Mathlib.Tactic.NormNum
import Mathlib.Tactic.Linarith
/-!
# C109: building and editing structures
-/
set_option linter.unusedSectionVars false
namespace BaderKit

variable {K : Type} [Field K] [LinearOrder K] [IsStrictOrderedRing K] [FloorRing K]

/-! ## Specification -/

/-- A point inside the cell, in fractional coordinates. -/
def InUnit (c : V3 K) : Prop := (0 ≤ c.1 ∧ c.1 < 1) ∧ (0 ≤ c.2.1 ∧ c.2.1 < 1) ∧ (0 ≤ c.2.2 ∧ c.2.2 < 1)

/-- Two points that differ by whole numbers. -/
def WholeApart (a b : V3 K) : Prop := ∃ n : ℤ × ℤ × ℤ, a.1 = b.1 + n.1 ∧ a.2.1 = b.2.1 + n.2.1 ∧ a.2.2 = b.2.2 + n.2.2

/-! ## Proofs -/

theorem mod1_bounds (x : K) : 0 ≤ mod1 x ∧ mod1 x < 1 := ⟨sub_nonneg.mpr (Int.floor_le x), by unfold mod1; linarith [Int.lt_floor_add_one x]⟩

theorem mod1_self {x : K} (h0 : 0 ≤ x) (h1 : x < 1) : mod1 x = x := by
  have : ⌊x⌋ = 0 := Int.floor_eq_zero_iff.mpr ⟨h0, h1⟩
  simp [mod1, this]

theorem wrapRow_spec (c : V3 K) : InUnit (wrapRow c) ∧ WholeApart (wrapRow c) c := by
  refine ⟨⟨mod1_bounds _, mod1_bounds _, mod1_bounds _⟩, (-⌊c.1⌋, -⌊c.2.1⌋, -⌊c.2.2⌋), ?_, ?_, ?_⟩ <;> simp only [wrapRow, mod1] <;> push_cast <;> ring

theorem wrapRow_inUnit {c : V3 K} (h : InUnit c) : wrapRow c = c := by
  obtain ⟨⟨a, b⟩, ⟨a', b'⟩, a'', b''⟩ := h
  unfold wrapRow
  rw [mod1_self a b, mod1_self a' b', mod1_self a'' b'']

theorem cleanRows_floats (mem : ℕ → V3 K) (rows : List ℕ) :
    cleanRows mem (.floats rows) = some (fun r => if r ∈ rows then wrapRow (mem r) else mem r) := by
  show some (rows.foldl (fun m r => Function.update m r (wrapRow (m r))) mem) = _
  congr 1
  induction rows generalizing mem with
  | nil => simp
  | cons a rows ih =>
    rw [List.foldl_cons, ih]
    funext r
    by_cases h1 : r = a
    · subst h1
      simp only [Function.update_self, List.mem_cons, true_or, if_true]
      split_ifs
      · exact wrapRow_inUnit (wrapRow_spec _).1
      · rfl
    · simp only [Function.update_of_ne h1, List.mem_cons, h1, false_or]

/-- **C109**: a structure from rows of floats.  There is one site for each species, in order, labelled with its symbol, at the point of the cell that is
equivalent to the given one. -/
theorem C109_positions {S : Type} (symbol : S → String) (L : M3 K) (mem : ℕ → V3 K) (species : List S) (rows : List ℕ)
    (hlen : species.length = rows.length) :
    ∃ mem' sites, buildStructure symbol L mem species (.floats rows) false = some (mem', sites) ∧ sites.length = species.length ∧
      ∀ i (h1 : i < species.length) (h2 : i < rows.length) (h3 : i < sites.length), sites[i].species = species[i] ∧ sites[i].label = symbol species[i] ∧
        ∃ c : V3 K, sites[i].pos = vecMat c L ∧ InUnit c ∧ WholeApart c (mem rows[i]) := by
  unfold buildStructure
  rw [cleanRows_floats]
  simp only [Option.bind_eq_bind, Option.bind_some, argRows, List.length_map, hlen, if_true]
  refine ⟨_, _, rfl, by simp [hlen], ?_⟩
  intro i h1 h2 h3
  simp only [List.getElem_map, List.getElem_zip, List.getElem_mem, if_true, Bool.false_eq_true, if_false, true_and]
  exact ⟨_, rfl, (wrapRow_spec _).1, (wrapRow_spec _).2⟩

/-- **C109**: building a structure changes the arrays of the caller: the rows that were given are wrapped into the cell, all other rows stay.  Building
again from the same rows gives the same sites and changes nothing. -/
theorem C109_caller_arrays {S : Type} (symbol : S → String) (L : M3 K) (mem mem' : ℕ → V3 K) (species : List S) (rows : List ℕ) (sites : List (BSite K S))
    {cart : Bool} (h : buildStructure symbol L mem species (.floats rows) cart = some (mem', sites)) :
    (∀ r ∈ rows, InUnit (mem' r) ∧ WholeApart (mem' r) (mem r)) ∧ (∀ r, r ∉ rows → mem' r = mem r) ∧
      (∀ r ∈ rows, mem' r = mem r ↔ InUnit (mem r)) ∧
      buildStructure symbol L mem' species (.floats rows) cart = some (mem', sites) := by
  unfold buildStructure at h ⊢
  rw [cleanRows_floats] at h ⊢
  simp only [Option.bind_eq_bind, Option.bind_some, argRows, List.length_map] at h ⊢
  by_cases hlen : species.length = rows.length
  swap
  · rw [if_neg hlen] at h; cases h
  rw [if_pos hlen] at h
  simp only [Option.some.injEq, Prod.mk.injEq] at h
  obtain ⟨rfl, rfl⟩ := h
  refine ⟨?_, ?_, ?_, ?_⟩
  · intro r hr
    simp only [hr, if_true]
    exact wrapRow_spec _
  · intro r hr
    simp only [hr, if_false]
  · intro r hr
    simp only [hr, if_true]
    constructor
    · intro e
      rw [← e]
      exact (wrapRow_spec _).1
    · exact wrapRow_inUnit
  · have e : (fun r => if r ∈ rows then wrapRow (if r ∈ rows then wrapRow (mem r) else mem r) else if r ∈ rows then wrapRow (mem r) else mem r) =
        fun r => if r ∈ rows then wrapRow (mem r) else mem r := by
      funext r
      by_cases hr : r ∈ rows
      · simp only [hr, if_true]
        exact wrapRow_inUnit (wrapRow_spec _).1
      · simp only [hr, if_false]
    rw [if_pos hlen]
    simp only [e]

/-- **C109**: coordinates given as lists, or as integer arrays, raise an exception unless there are none. -/
theorem C109_lists_raise {S : Type} (symbol : S → String) (L : M3 K) (mem : ℕ → V3 K) (species : List S) (cart : Bool) :
    (∀ rows : List (V3 K), rows ≠ [] → buildStructure symbol L mem species (.lists rows) cart = none) ∧
    (∀ rows : List (ℤ × ℤ × ℤ), rows ≠ [] → buildStructure symbol L mem species (.ints rows) cart = none) := by
  constructor
  · intro rows h
    cases rows with
    | nil => exact absurd rfl h
    | cons a l => rfl
  · intro rows h
    cases rows with
    | nil => exact absurd rfl h
    | cons a l => rfl

/-- **C109**: Cartesian coordinates are wrapped as if they were fractional.  A site is where it was asked for exactly when all three numbers are at least
0 and below 1 ångström. -/
theorem C109_cartesian_partial {S : Type} (symbol : S → String) (L : M3 K) (mem mem' : ℕ → V3 K) (species : List S) (rows : List ℕ) (sites : List (BSite K S))
    (h : buildStructure symbol L mem species (.floats rows) true = some (mem', sites)) :
    ∀ i (h2 : i < rows.length) (h3 : i < sites.length), sites[i].pos = mem rows[i] ↔ InUnit (mem rows[i]) := by
  unfold buildStructure at h
  rw [cleanRows_floats] at h
  simp only [Option.bind_eq_bind, Option.bind_some, argRows, List.length_map] at h
  split_ifs at h with hlen
  simp only [Option.some.injEq, Prod.mk.injEq] at h
  obtain ⟨_, rfl⟩ := h
  intro i h2 h3
  simp only [List.getElem_map, List.getElem_zip, List.getElem_mem, if_true]
  constructor
  · intro e
    rw [← e]
    exact (wrapRow_spec _).1
  · exact wrapRow_inUnit

/-- **C109**: in a cubic cell of 4 ångström an atom that is asked for at the Cartesian centre (2, 2, 2) is put at the corner, which is not an equivalent
point. -/
theorem C109_cartesian_wrong : ∃ (mem' : ℕ → V3 ℚ) (sites : List (BSite ℚ String)),
    buildStructure id ((4, 0, 0), (0, 4, 0), (0, 0, 4)) (fun _ => (2, 2, 2)) ["Na"] (.floats [0]) true = some (mem', sites) ∧
      sites.map BSite.pos = [(0, 0, 0)] ∧ ¬ ∃ n : ℤ × ℤ × ℤ, ((2, 2, 2) : V3 ℚ) = vecMat ((n.1 : ℚ), (n.2.1 : ℚ), (n.2.2 : ℚ)) ((4, 0, 0), (0, 4, 0), (0, 0, 4)) := by
  refine ⟨_, _, rfl, by decide +kernel, ?_⟩
  rintro ⟨n, h⟩
  have h1 := congrArg Prod.fst h
  simp only [vecMat] at h1
  norm_num at h1
  have h2 : (2 : ℚ) = ((n.1 * 4 : ℤ) : ℚ) := by push_cast; linarith
  have h3 : (2 : ℤ) = n.1 * 4 := by exact_mod_cast h2
  omega

/-- **C109**: assigning labels never changes a label. -/
theorem C109_labels_ignored {S : Type} (sites sites' : List (BSite K S)) (labels : List String) (h : setLabels sites labels = some sites') :
    sites'.map BSite.label = sites.map BSite.label ∧ (sites'.map BSite.label = labels ↔ sites.map BSite.label = labels) := by
  unfold setLabels at h
  split_ifs at h
  cases h
  exact ⟨rfl, Iff.rfl⟩

/-- **C109**: an inserted site is at its index (from 0 to the number of sites), the other sites keep their order, and a site without properties gets the
name of its species as label; a label in its properties is kept. -/
theorem C109_insert {S : Type} (name : S → String) (L : M3 K) (dicts : ℕ → Option String) (sites : List (BSite K S)) (i : ℕ) (hi : i ≤ sites.length) (sp : S)
    (c : V3 K) (cart : Bool) (props : Option ℕ) :
    ∃ dicts' s, insertSite name L dicts sites i sp c cart props = (dicts', sites.take i ++ s :: sites.drop i) ∧ s.species = sp ∧
      s.pos = (if cart = true then c else vecMat c L) ∧ (props = none → s.label = name sp ∧ dicts' = dicts) ∧
      (∀ d, props = some d → s.label = (dicts d).getD (name sp)) := by
  have hp : ∀ s : BSite K S, pyInsert sites (i : ℤ) s = sites.take i ++ s :: sites.drop i := by
    intro s
    unfold pyInsert
    rw [if_neg (by omega)]
    simp [min_eq_left hi]
  unfold insertSite
  cases props with
  | none => exact ⟨dicts, ⟨sp, if cart = true then c else vecMat c L, name sp⟩, by simp only [hp], rfl, rfl, fun _ => ⟨rfl, rfl⟩, fun d h => by cases h⟩
  | some d =>
    cases hd : dicts d with
    | none => exact ⟨Function.update dicts d (some (name sp)), ⟨sp, if cart = true then c else vecMat c L, name sp⟩, by simp only [hd, hp], rfl, rfl, (fun h => by cases h), fun d h => by (cases h; rw [hd]; rfl)⟩
    | some l => exact ⟨dicts, ⟨sp, if cart = true then c else vecMat c L, l⟩, by simp only [hd, hp], rfl, rfl, (fun h => by cases h), fun d h => by (cases h; rw [hd]; rfl)⟩

/-- **C109**: a dictionary of properties that is used for two sites.  The first insertion writes its label into the dictionary of the caller, so the second
site gets the label of the first species. -/
theorem C109_shared_properties {S : Type} (name : S → String) (L : M3 K) (dicts : ℕ → Option String) (sites : List (BSite K S)) (i j : ℤ) (a b : S)
    (c c' : V3 K) (cart : Bool) (d : ℕ) (hd : dicts d = none) :
    let r := insertSite name L dicts sites i a c cart (some d)
    r.1 d = some (name a) ∧ ∃ l1 l2, (insertSite name L r.1 r.2 j b c' cart (some d)).2 = l1 ++ ⟨b, if cart = true then c' else vecMat c' L, name a⟩ :: l2 := by
  have h1 : (insertSite name L dicts sites i a c cart (some d)).1 d = some (name a) := by simp [insertSite, hd]
  refine ⟨h1, ?_⟩
  show ∃ l1 l2, (insertSite name L (insertSite name L dicts sites i a c cart (some d)).1 (insertSite name L dicts sites i a c cart (some d)).2 j b c' cart
    (some d)).2 = _
  generalize insertSite name L dicts sites i a c cart (some d) = r at h1
  unfold insertSite
  simp only [h1]
  exact ⟨_, _, rfl⟩

/-- **C109**: `merge_frac_coords` of a structure.  It never merges: more than no row of coordinates raises, no coordinates give `None`, and a single
point is returned as it is. -/
theorem C109_merge_raises : (∀ (w : ℕ) (xs : List (List K)), xs ≠ [] → mergeFracStatic (.rows w xs) = .raises) ∧
    (∀ (w : ℕ), mergeFracStatic (K := K) (.rows w []) = .nothing) ∧ (∀ xs : List K, xs ≠ [] → mergeFracStatic (.flat xs) = .value xs) := by
  refine ⟨?_, fun _ => rfl, ?_⟩
  · intro w xs h
    cases xs with
    | nil => exact absurd rfl h
    | cons a l => rfl
  · intro xs h
    cases xs with
    | nil => exact absurd rfl h
    | cons a l => rfl

/-! ### Cases -/

/-- A case: two atoms, one outside the cell, in a skewed cell. -/
example : (buildStructure (S := String) (K := ℚ) id ((4, 0, 0), (1, 4, 0), (0, 0, 4)) (fun r => if r = 0 then (5 / 4, -1 / 4, 0) else (1 / 2, 1 / 2, 1 / 2))
    ["Na", "Cl"] (.floats [0, 1]) false).map (fun r => (r.1 0, r.2.map fun s => (s.pos, s.label))) =
      some ((1 / 4, 3 / 4, 0), [((7 / 4, 3, 0), "Na"), ((5 / 2, 2, 2), "Cl")]) := by decide +kernel

/-- A case: the second site has the label of the first. -/
example : (let r := insertSite (S := String) (K := ℚ) id ((1, 0, 0), (0, 1, 0), (0, 0, 1)) (fun _ => none) [] 0 "Na" (0, 0, 0) false (some 3)
    (insertSite id ((1, 0, 0), (0, 1, 0), (0, 0, 1)) r.1 r.2 1 "Cl" (0, 0, 0) false (some 3)).2.map fun s => (s.species, s.label)) =
      [("Na", "Na"), ("Cl", "Na")] := by decide +kernel

end BaderKit
