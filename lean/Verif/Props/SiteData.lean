import Verif.Model.SiteData
import Verif.Props.ElfCharges
/-!
# C85: radii, features and electrons of the sites of an electride structure
-/
set_option linter.unusedSectionVars false
namespace BaderKit
variable {K : Type} [Field K] [LinearOrder K]

/-! ## Specification -/

/-- `perm` sorts the radii: a permutation of the rows by which they do not decrease. -/
def SortsRadii (radii : List K) (perm : List ℕ) : Prop :=
  perm.Perm (List.range radii.length) ∧ perm.Pairwise (fun a b => ∀ x y, radii[a]? = some x → radii[b]? = some y → x ≤ y)

/-- Row `p` of the neighbour data has this site, radius and type. -/
def RowIs (sites : List ℕ) (radii : List K) (types : List Bool) (p i : ℕ) (r : K) (t : Bool) : Prop :=
  sites[p]? = some i ∧ radii[p]? = some r ∧ types[p]? = some t

/-! ## Radii -/

theorem mapM_option_eq {α β : Type} (f : α → Option β) : ∀ (l : List α) (g : α → β), (∀ a ∈ l, f a = some (g a)) → l.mapM f = some (l.map g) := by
  intro l g
  induction l with
  | nil => intro _; rfl
  | cons a l ih =>
    intro h
    rw [List.mapM_cons, h a (by simp), ih (fun b hb => h b (by simp [hb]))]
    rfl

theorem atomElfRadii_row {n : ℕ} {radii : List K} {types : List Bool} {sites perm : List ℕ} (h1 : types.length = radii.length)
    (h2 : sites.length = radii.length) (hs : SortsRadii radii perm) (hne : radii ≠ []) :
    ∃ res, atomElfRadii n radii types sites perm = some res ∧ res.length = n ∧
      ∀ (i : ℕ) (hi : i < n), ∃ (p : ℕ) (r : K) (t : Bool), res[i]? = some (r, t) ∧ p < radii.length ∧ radii[p]? = some r ∧ types[p]? = some t ∧
        (i ∈ sites → sites[p]? = some i ∧ ∀ (q : ℕ) (y : K), sites[q]? = some i → radii[q]? = some y → r ≤ y) ∧
        (i ∉ sites → ∀ y ∈ radii, r ≤ y) := by
  have hlt : ∀ p ∈ perm, p < radii.length := fun p hp => List.mem_range.mp (hs.1.mem_iff.mp hp)
  have hsorted : perm.mapM (fun p => sites[p]?) = some (perm.map fun p => sites.getD p 0) := by
    apply mapM_option_eq
    intro p hp
    have := hlt p hp
    rw [List.getD_eq_getElem?_getD, List.getElem?_eq_getElem (by omega)]
    rfl
  have hpl : perm.length = radii.length := by rw [hs.1.length_eq, List.length_range]
  have hrl : 0 < radii.length := List.length_pos_iff.mpr hne
  set sorted := perm.map fun p => sites.getD p 0 with hsrt
  have hsl : sorted.length = perm.length := by simp [hsrt]
  have hsne : sorted ≠ [] := by
    intro h
    have := congrArg List.length h
    rw [hsl, hpl, List.length_nil] at this
    omega
  -- what one site gets
  have key : ∀ i, ∃ (k p : ℕ) (r : K) (t : Bool), argmaxEq i sorted = some k ∧ perm[k]? = some p ∧ radii[p]? = some r ∧ types[p]? = some t ∧
      p < radii.length ∧ (i ∈ sites → sites[p]? = some i ∧ ∀ (q : ℕ) (y : K), sites[q]? = some i → radii[q]? = some y → r ≤ y) ∧
        (i ∉ sites → ∀ y ∈ radii, r ≤ y) := by
    intro i
    have hmem : i ∈ sorted ↔ i ∈ sites := by
      rw [hsrt, List.mem_map]
      constructor
      · rintro ⟨p, hp, rfl⟩
        have := hlt p hp
        rw [List.getD_eq_getElem?_getD, List.getElem?_eq_getElem (by omega)]
        exact List.getElem_mem _
      · intro h
        obtain ⟨p, hp, rfl⟩ := List.getElem_of_mem h
        refine ⟨p, hs.1.mem_iff.mpr (List.mem_range.mpr (by omega)), ?_⟩
        rw [List.getD_eq_getElem?_getD, List.getElem?_eq_getElem (by omega)]
        rfl
    set k := if i ∈ sorted then sorted.idxOf i else 0 with hk
    have hkl : k < perm.length := by
      rw [hk]
      split_ifs with h
      · rw [← hsl]; exact List.idxOf_lt_length_iff.mpr h
      · omega
    have hpm : perm[k] ∈ perm := List.getElem_mem hkl
    have hpr := hlt _ hpm
    refine ⟨k, perm[k], radii[perm[k]], types[perm[k]], ?_, List.getElem?_eq_getElem hkl, List.getElem?_eq_getElem hpr,
      List.getElem?_eq_getElem _, hpr, ?_, ?_⟩
    · unfold argmaxEq
      rw [if_neg (by simpa using hsne), hk]
      split_ifs <;> rfl
    · intro hi
      have his := hmem.mpr hi
      have hk' : k = sorted.idxOf i := by rw [hk, if_pos his]
      refine ⟨?_, ?_⟩
      · have a : sorted[k]? = some i := by
          rw [hk', List.getElem?_eq_getElem (List.idxOf_lt_length_iff.mpr his), List.getElem_idxOf]
        rw [hsrt, List.getElem?_map, List.getElem?_eq_getElem hkl, Option.map_some, List.getD_eq_getElem?_getD,
          List.getElem?_eq_getElem (by omega)] at a
        rw [List.getElem?_eq_getElem (by omega)]
        exact a
      · intro q y hq hy
        have hql : q < radii.length := by
          by_contra h
          rw [List.getElem?_eq_none (by omega)] at hy; cases hy
        obtain ⟨k2, hk2, e⟩ := List.getElem_of_mem (hs.1.mem_iff.mpr (List.mem_range.mpr hql))
        have hle : k ≤ k2 := by
          rw [hk']
          by_contra hc
          rw [not_le] at hc
          have hn : sorted[k2]'(by omega) ≠ i := by
            intro he
            have := List.not_of_lt_findIdx (p := fun x => x == i) hc
            simp [he] at this
          apply hn
          simp only [hsrt, List.getElem_map, e, List.getD_eq_getElem?_getD, hq, Option.getD_some]
        rcases hle.lt_or_eq with h | h
        · exact (List.pairwise_iff_getElem.mp hs.2) k k2 hkl hk2 h _ _ (List.getElem?_eq_getElem hpr) (by rw [e]; exact hy)
        · subst h
          have : radii[perm[k]]? = some y := by rw [e]; exact hy
          rw [List.getElem?_eq_getElem hpr] at this
          exact (Option.some.inj this).le
    · intro hi y hy
      have his : i ∉ sorted := fun h => hi (hmem.mp h)
      have hk' : k = 0 := by rw [hk, if_neg his]
      obtain ⟨q, hql, rfl⟩ := List.getElem_of_mem hy
      obtain ⟨k2, hk2, e⟩ := List.getElem_of_mem (hs.1.mem_iff.mpr (List.mem_range.mpr hql))
      rcases Nat.eq_zero_or_pos k2 with h | h
      · subst h
        have : radii[perm[k]]'hpr = radii[q] := by
          congr 1
          rw [← e]; congr 1
        exact this.le
      · exact (List.pairwise_iff_getElem.mp hs.2) k k2 hkl hk2 (by omega) _ _ (List.getElem?_eq_getElem hpr)
          (by rw [e]; exact List.getElem?_eq_getElem hql)
  choose k p r t g1 g2 g3 g4 g5 g6 g7 using key
  refine ⟨(List.range n).map fun i => (r i, t i), ?_, by simp, ?_⟩
  · unfold atomElfRadii
    rw [hsorted]
    apply mapM_option_eq
    intro i _
    simp only [g1, g2, g3, g4, Option.bind_eq_bind, Option.bind_some]
  · intro i hi
    refine ⟨p i, r i, t i, ?_, g5 i, g3 i, g4 i, g6 i, g7 i⟩
    rw [List.getElem?_map, List.getElem?_range hi]; rfl

/-- **C85.** However ties are sorted: a site with at least one neighbour gets the smallest radius among its rows of the neighbour data, and the type of
one of its rows with that radius. -/
theorem C85_smallest_radius (n : ℕ) (radii : List K) (types : List Bool) (sites perm : List ℕ) (h1 : types.length = radii.length)
    (h2 : sites.length = radii.length) (hs : SortsRadii radii perm) (i : ℕ) (hi : i < n) (hmem : i ∈ sites) :
    ∃ (res : List (K × Bool)) (p : ℕ) (r : K) (t : Bool), atomElfRadii n radii types sites perm = some res ∧ res.length = n ∧ res[i]? = some (r, t) ∧
      RowIs sites radii types p i r t ∧ ∀ (q : ℕ) (y : K) (u : Bool), RowIs sites radii types q i y u → r ≤ y := by
  have hne : radii ≠ [] := by
    intro h
    rw [h] at h2
    rw [List.length_eq_zero_iff.mp (h2.trans rfl)] at hmem
    simp at hmem
  obtain ⟨res, a1, a2, a3⟩ := atomElfRadii_row (n := n) h1 h2 hs hne
  obtain ⟨p, r, t, b1, b2, b3, b4, b5, -⟩ := a3 i hi
  exact ⟨res, p, r, t, a1, a2, b1, ⟨(b5 hmem).1, b3, b4⟩, fun q y u hq => (b5 hmem).2 q y hq.1 hq.2.1⟩

/-- **C85** (negative part) A site that is missing in the neighbour data silently gets the smallest radius of all other sites. -/
theorem C85_missing_site (n : ℕ) (radii : List K) (types : List Bool) (sites perm : List ℕ) (h1 : types.length = radii.length)
    (h2 : sites.length = radii.length) (hs : SortsRadii radii perm) (hne : radii ≠ []) (i : ℕ) (hi : i < n) (hmem : i ∉ sites) :
    ∃ (res : List (K × Bool)) (r : K) (t : Bool), atomElfRadii n radii types sites perm = some res ∧ res[i]? = some (r, t) ∧
      r ∈ radii ∧ ∀ y ∈ radii, r ≤ y := by
  obtain ⟨res, a1, a2, a3⟩ := atomElfRadii_row (n := n) h1 h2 hs hne
  obtain ⟨p, r, t, b1, b2, b3, b4, -, b6⟩ := a3 i hi
  exact ⟨res, r, t, a1, b1, List.mem_of_getElem? b3, b6 hmem⟩

/-- **C85.** Without any neighbours the call raises (if there is an atom). -/
theorem C85_no_neighbours (n : ℕ) (hn : 0 < n) (types : List Bool) (sites : List ℕ) :
    atomElfRadii n ([] : List K) types sites [] = none := by
  obtain ⟨m, rfl⟩ : ∃ m, n = m + 1 := ⟨n - 1, by omega⟩
  unfold atomElfRadii
  simp only [List.mapM_nil, Option.pure_def, Option.bind_eq_bind, Option.bind_some]
  rw [List.range_succ_eq_map, List.mapM_cons]
  rfl

/-- Non-vacuity: three rows with a tie, both orders of the tie are sorted. -/
example : SortsRadii ([3 / 2, 1, 1, 2] : List ℚ) [2, 1, 0, 3] ∧ SortsRadii ([3 / 2, 1, 1, 2] : List ℚ) [1, 2, 0, 3] ∧
    atomElfRadii 2 ([3 / 2, 1, 1, 2] : List ℚ) [true, false, true, true] [1, 0, 0, 1] [2, 1, 0, 3] = some [(1, true), (3 / 2, true)] ∧
    atomElfRadii 2 ([3 / 2, 1, 1, 2] : List ℚ) [true, false, true, true] [1, 0, 0, 1] [1, 2, 0, 3] = some [(1, false), (3 / 2, true)] := by
  have key : ∀ perm : List ℕ, (∀ a ∈ perm, a < 4) → (perm.Pairwise fun a b => ([3 / 2, 1, 1, 2] : List ℚ).getD a 0 ≤ ([3 / 2, 1, 1, 2] : List ℚ).getD b 0) →
      perm.Pairwise (fun a b => ∀ x y, ([3 / 2, 1, 1, 2] : List ℚ)[a]? = some x → ([3 / 2, 1, 1, 2] : List ℚ)[b]? = some y → x ≤ y) := by
    intro perm _ h
    refine h.imp ?_
    intro a b hab x y hx hy
    simpa [List.getD_eq_getElem?_getD, hx, hy] using hab
  refine ⟨⟨by decide, key _ (by decide) (by decide +kernel)⟩, ⟨by decide, key _ (by decide) (by decide +kernel)⟩, by decide +kernel, by decide +kernel⟩

/-! ## Features of the sites -/

/-- Number of bare electrons among the first `i` features. -/
def bareBefore (fs : List (ElfFeature K)) (i : ℕ) : ℕ := ((fs.take i).filter fun f => f.bare).length

theorem shellLoop_spec (n : ℕ) : ∀ (fs : List (ElfFeature K)) (k : ℕ) (m m' : ℕ → List ℕ), shellLoop n fs k m = some m' →
    ∀ a : ℕ, ∃ l : List ℕ, m' a = m a ++ l ∧ l.Nodup ∧ (∀ i ∈ l, k ≤ i) ∧
      ∀ i, k + i ∈ l ↔ ∃ f, fs[i]? = some f ∧ f.coord.length = 1 ∧ f.bare = false ∧ f.coordE.head? = some a := by
  intro fs
  induction fs with
  | nil =>
    intro k m m' h a
    simp only [shellLoop, Option.some.injEq] at h
    subst h
    exact ⟨[], by simp, by simp, by simp, by simp⟩
  | cons f fs ih =>
    intro k m m' h a
    have shift : ∀ (l : List ℕ), (∀ i ∈ l, k + 1 ≤ i) →
        (∀ i, k + 1 + i ∈ l ↔ ∃ g, fs[i]? = some g ∧ g.coord.length = 1 ∧ g.bare = false ∧ g.coordE.head? = some a) →
        ∀ i, k + (i + 1) ∈ l ↔ ∃ g, (f :: fs)[i + 1]? = some g ∧ g.coord.length = 1 ∧ g.bare = false ∧ g.coordE.head? = some a := by
      intro l _ h i
      rw [show k + (i + 1) = k + 1 + i by ring, h i]
      simp
    unfold shellLoop at h
    by_cases hc : f.coord.length = 1 ∧ f.bare = false
    · rw [if_pos hc] at h
      cases hE : f.coordE with
      | nil => rw [hE] at h; cases h
      | cons b tl =>
        rw [hE] at h
        simp only at h
        by_cases hb : b < n
        · rw [if_pos hb] at h
          obtain ⟨l, h1, h2, h3, h4⟩ := ih _ _ _ h a
          by_cases hab : a = b
          · subst hab
            rw [Function.update_self] at h1
            refine ⟨k :: l, by rw [h1]; simp, ?_, ?_, ?_⟩
            · rw [List.nodup_cons]
              exact ⟨fun hk => by have := h3 k hk; omega, h2⟩
            · intro i hi
              rcases List.mem_cons.mp hi with rfl | hi
              · exact le_rfl
              · have := h3 i hi; omega
            · intro i
              cases i with
              | zero => simp [hc.1, hc.2, hE]
              | succ i =>
                rw [List.mem_cons, ← shift l h3 h4 i]
                constructor
                · rintro (h | h)
                  · omega
                  · exact h
                · exact .inr
          · rw [Function.update_of_ne hab] at h1
            refine ⟨l, h1, h2, fun i hi => by have := h3 i hi; omega, ?_⟩
            intro i
            cases i with
            | zero =>
              constructor
              · intro hk; have := h3 _ hk; omega
              · rintro ⟨g, hg, -, -, hh⟩
                simp only [List.getElem?_cons_zero, Option.some.injEq] at hg
                subst hg
                rw [hE] at hh
                simp only [List.head?_cons, Option.some.injEq] at hh
                exact absurd hh.symm hab
            | succ i => exact shift l h3 h4 i
        · rw [if_neg hb] at h; cases h
    · rw [if_neg hc] at h
      obtain ⟨l, h1, h2, h3, h4⟩ := ih _ _ _ h a
      refine ⟨l, h1, h2, fun i hi => by have := h3 i hi; omega, ?_⟩
      intro i
      cases i with
      | zero =>
        constructor
        · intro hk; have := h3 _ hk; omega
        · rintro ⟨g, hg, e1, e2, -⟩
          simp only [List.getElem?_cons_zero, Option.some.injEq] at hg
          subst hg
          exact absurd ⟨e1, e2⟩ hc
      | succ i => exact shift l h3 h4 i

theorem bareLoop_spec (atoms n : ℕ) : ∀ (fs : List (ElfFeature K)) (k el : ℕ) (m m' : ℕ → List ℕ), bareLoop atoms n fs k el m = some m' →
    ∀ a : ℕ, ∃ l : List ℕ, m' a = m a ++ l ∧ l.Nodup ∧ (∀ i ∈ l, k ≤ i) ∧
      ∀ i, k + i ∈ l ↔ ∃ f, fs[i]? = some f ∧ f.bare = true ∧ a = atoms + el + bareBefore fs i := by
  intro fs
  induction fs with
  | nil =>
    intro k el m m' h a
    simp only [bareLoop, Option.some.injEq] at h
    subst h
    exact ⟨[], by simp, by simp, by simp, by simp⟩
  | cons f fs ih =>
    intro k el m m' h a
    unfold bareLoop at h
    by_cases hc : f.bare = true
    · rw [if_pos hc] at h
      have hbb : ∀ i, bareBefore (f :: fs) (i + 1) = 1 + bareBefore fs i := by
        intro i; simp [bareBefore, hc]; omega
      by_cases hb : atoms + el < n
      · rw [if_pos hb] at h
        obtain ⟨l, h1, h2, h3, h4⟩ := ih _ _ _ _ h a
        have shift : ∀ i, k + (i + 1) ∈ l ↔ ∃ g, (f :: fs)[i + 1]? = some g ∧ g.bare = true ∧ a = atoms + el + bareBefore (f :: fs) (i + 1) := by
          intro i
          rw [show k + (i + 1) = k + 1 + i by ring, h4 i, hbb]
          simp only [List.getElem?_cons_succ, show atoms + (el + 1) + bareBefore fs i = atoms + el + (1 + bareBefore fs i) by ring]
        by_cases hab : a = atoms + el
        · rw [hab, Function.update_self] at h1
          refine ⟨k :: l, by rw [hab, h1]; simp, ?_, ?_, ?_⟩
          · rw [List.nodup_cons]
            exact ⟨fun hk => by have := h3 k hk; omega, h2⟩
          · intro i hi
            rcases List.mem_cons.mp hi with rfl | hi
            · exact le_rfl
            · have := h3 i hi; omega
          · intro i
            cases i with
            | zero => simp [hc, hab, bareBefore]
            | succ i =>
              rw [List.mem_cons, ← shift i]
              constructor
              · rintro (h | h)
                · omega
                · exact h
              · exact .inr
        · rw [Function.update_of_ne hab] at h1
          refine ⟨l, h1, h2, fun i hi => by have := h3 i hi; omega, ?_⟩
          intro i
          cases i with
          | zero =>
            constructor
            · intro hk; have := h3 _ hk; omega
            · rintro ⟨g, -, -, e⟩
              simp only [bareBefore, List.take_zero, List.filter_nil, List.length_nil, Nat.add_zero] at e
              exact absurd e hab
          | succ i => exact shift i
      · rw [if_neg hb] at h; cases h
    · rw [if_neg hc] at h
      have hbb : ∀ i, bareBefore (f :: fs) (i + 1) = bareBefore fs i := by
        intro i; simp [bareBefore, hc]
      obtain ⟨l, h1, h2, h3, h4⟩ := ih _ _ _ _ h a
      refine ⟨l, h1, h2, fun i hi => by have := h3 i hi; omega, ?_⟩
      intro i
      cases i with
      | zero =>
        constructor
        · intro hk; have := h3 _ hk; omega
        · rintro ⟨g, hg, e1, -⟩
          simp only [List.getElem?_cons_zero, Option.some.injEq] at hg
          subst hg
          exact absurd e1 hc
      | succ i =>
        rw [show k + (i + 1) = k + 1 + i by ring, h4 i, hbb]
        simp only [List.getElem?_cons_succ]

/-- **C85.** The features listed for a site are exactly: those that are not bare, have one neighbour among the atoms, and whose first neighbour with
electrides is this site; and for the site of the `k`-th bare electron, that electron.  No feature is listed twice, for one site or for two. -/
theorem C85_listed_features (atoms : ℕ) (fs : List (ElfFeature K)) (res : List (List ℕ)) (h : atomFeatures atoms fs = some res) :
    res.length = atoms + (fs.filter fun f => f.bare).length ∧
    (∀ (a : ℕ) (l : List ℕ), res[a]? = some l → l.Nodup ∧ ∀ i, i ∈ l ↔ ∃ f, fs[i]? = some f ∧
      ((f.coord.length = 1 ∧ f.bare = false ∧ f.coordE.head? = some a) ∨ (f.bare = true ∧ a = atoms + bareBefore fs i))) ∧
    ∀ (a b : ℕ) (l l' : List ℕ) (i : ℕ), res[a]? = some l → res[b]? = some l' → i ∈ l → i ∈ l' → a = b := by
  unfold atomFeatures at h
  simp only [Option.bind_eq_bind, Option.bind_eq_some_iff, Option.some.injEq] at h
  obtain ⟨m1, h1, m2, h2, rfl⟩ := h
  have hlen : ((List.range (chargeSites true atoms fs)).map m2).length = atoms + (fs.filter fun f => f.bare).length := by
    simp [chargeSites]
  have hget : ∀ (a : ℕ) (l : List ℕ), ((List.range (chargeSites true atoms fs)).map m2)[a]? = some l → l = m2 a := by
    intro a l h
    rw [List.getElem?_map] at h
    obtain ⟨x, hx, e⟩ := Option.map_eq_some_iff.mp h
    obtain ⟨_, e'⟩ := List.getElem?_eq_some_iff.mp hx
    rw [List.getElem_range] at e'
    rw [← e, ← e']
  have hspec : ∀ a, (m2 a).Nodup ∧ ∀ i, i ∈ m2 a ↔ ∃ f, fs[i]? = some f ∧
      ((f.coord.length = 1 ∧ f.bare = false ∧ f.coordE.head? = some a) ∨ (f.bare = true ∧ a = atoms + bareBefore fs i)) := by
    intro a
    obtain ⟨l1, a1, a2, -, a4⟩ := shellLoop_spec _ _ _ _ _ h1 a
    obtain ⟨l2, b1, b2, -, b4⟩ := bareLoop_spec _ _ _ _ _ _ _ h2 a
    simp only [Nat.zero_add, Nat.add_zero] at a4 b4
    rw [List.nil_append] at a1
    rw [b1, a1]
    refine ⟨?_, ?_⟩
    · rw [List.nodup_append]
      refine ⟨a2, b2, ?_⟩
      rintro x hx y hy rfl
      obtain ⟨f, hf, -, e, -⟩ := (a4 x).mp hx
      obtain ⟨g, hg, e', -⟩ := (b4 x).mp hy
      rw [hf] at hg
      cases hg
      rw [e] at e'; cases e'
    · intro i
      rw [List.mem_append, a4, b4]
      constructor
      · rintro (⟨f, hf, h⟩ | ⟨f, hf, h⟩)
        · exact ⟨f, hf, .inl h⟩
        · exact ⟨f, hf, .inr h⟩
      · rintro ⟨f, hf, h | h⟩
        · exact .inl ⟨f, hf, h⟩
        · exact .inr ⟨f, hf, h⟩
  refine ⟨hlen, ?_, ?_⟩
  · intro a l hl
    rw [hget a l hl]; exact hspec a
  · intro a b l l' i hl hl' hi hi'
    rw [hget a l hl] at hi
    rw [hget b l' hl'] at hi'
    obtain ⟨f, hf, h⟩ := ((hspec a).2 i).mp hi
    obtain ⟨g, hg, h'⟩ := ((hspec b).2 i).mp hi'
    rw [hf] at hg
    cases hg
    rcases h with ⟨-, e, e2⟩ | ⟨e, e2⟩ <;> rcases h' with ⟨-, e', e2'⟩ | ⟨e', e2'⟩
    · rw [e2] at e2'; exact Option.some.inj e2'
    · rw [e] at e'; cases e'
    · rw [e] at e'; cases e'
    · rw [e2, e2']

/-- The feature belongs solely to site `a` of the electride structure: the only neighbour, or the electron of the site itself. -/
def SoleOwner (atoms : ℕ) (fs : List (ElfFeature K)) (i a : ℕ) : Prop :=
  ∃ f, fs[i]? = some f ∧ ((f.bare = false ∧ f.coordE = [a]) ∨ (f.bare = true ∧ a = atoms + bareBefore fs i))

/-- **C85** (partial) If every feature that is not bare has one neighbour among the atoms exactly if it has one neighbour among atoms and electrides (shells
and cores have, C80), then the features listed for a site are exactly those that belong solely to it.  Missing: other features near electrides, for
which it is false (`C85_shared_listed`, `C85_sole_missing`). -/
theorem C85_sole_features_partial (atoms : ℕ) (fs : List (ElfFeature K)) (res : List (List ℕ)) (h : atomFeatures atoms fs = some res)
    (hone : ∀ f ∈ fs, f.bare = false → (f.coord.length = 1 ↔ f.coordE.length = 1)) (a : ℕ) (l : List ℕ) (hl : res[a]? = some l) (i : ℕ) :
    i ∈ l ↔ SoleOwner atoms fs i a := by
  obtain ⟨-, h2, -⟩ := C85_listed_features atoms fs res h
  rw [(h2 a l hl).2 i]
  unfold SoleOwner
  constructor
  · rintro ⟨f, hf, ⟨h1, h2, h3⟩ | h⟩
    · refine ⟨f, hf, .inl ⟨h2, ?_⟩⟩
      have := (hone f (List.mem_of_getElem? hf) h2).mp h1
      obtain ⟨b, hb⟩ := List.length_eq_one_iff.mp this
      rw [hb] at h3 ⊢
      simp only [List.head?_cons, Option.some.injEq] at h3
      rw [h3]
    · exact ⟨f, hf, .inr h⟩
  · rintro ⟨f, hf, ⟨h1, h2⟩ | h⟩
    · refine ⟨f, hf, .inl ⟨(hone f (List.mem_of_getElem? hf) h1).mpr (by rw [h2]; rfl), h1, by rw [h2]; rfl⟩⟩
    · exact ⟨f, hf, .inr h⟩

/-- A feature of a given type with given neighbours. -/
def demoFeat (bare : Bool) (coord coordE : List ℕ) : ElfFeature ℚ := ⟨1, 1, bare, coord, [], coordE, [], [], ""⟩

/-- **C85** (negative part) One atom and one bare electron; a feature between them has the atom as its only neighbour without electrides, but two
neighbours with them: it is listed for the electron alone. -/
theorem C85_shared_listed : atomFeatures 1 [demoFeat false [0] [0], demoFeat true [] [], demoFeat false [0] [1, 0]] = some [[0], [2, 1]] ∧
    ¬ SoleOwner 1 [demoFeat false [0] [0], demoFeat true [] [], demoFeat false [0] [1, 0]] 2 1 := by
  refine ⟨by decide +kernel, ?_⟩
  rintro ⟨f, hf, h⟩
  simp only [List.getElem?_cons_succ, List.getElem?_cons_zero, Option.some.injEq] at hf
  subst hf
  rcases h with ⟨-, h⟩ | ⟨h, -⟩
  · simp [demoFeat] at h
  · simp [demoFeat] at h

/-- **C85** (negative part) A feature whose only neighbour with electrides is an electron, but with two neighbours among the atoms, is not listed. -/
theorem C85_sole_missing : atomFeatures 2 [demoFeat false [0] [0], demoFeat false [1] [1], demoFeat true [] [], demoFeat false [0, 1] [2]] =
      some [[0], [1], [2]] ∧
    SoleOwner 2 [demoFeat false [0] [0], demoFeat false [1] [1], demoFeat true [] [], demoFeat false [0, 1] [2]] 3 2 :=
  ⟨by decide +kernel, demoFeat false [0, 1] [2], rfl, .inl ⟨rfl, rfl⟩⟩

/-- Non-vacuity of the partial statement. -/
example : atomFeatures 2 [demoFeat false [0] [0], demoFeat true [] [], demoFeat false [1] [1], demoFeat false [0, 1] [0, 1], demoFeat true [] [],
    demoFeat false [1] [1]] = some [[0], [2, 5], [1], [4]] := by decide +kernel

/-! ## Highest values -/

theorem npMax_spec [IsStrictOrderedRing K] (l : List K) : (npMax l = none ↔ l = []) ∧ ∀ x, npMax l = some x → x ∈ l ∧ ∀ y ∈ l, y ≤ x := by
  cases l with
  | nil => simp [npMax]
  | cons a l =>
    refine ⟨by simp [npMax], ?_⟩
    have key : ∀ (l : List K) (a : K), (l.foldl max a ∈ a :: l) ∧ ∀ y ∈ a :: l, y ≤ l.foldl max a := by
      intro l
      induction l with
      | nil => intro a; simp
      | cons b l ih =>
        intro a
        rw [List.foldl_cons]
        obtain ⟨h1, h2⟩ := ih (max a b)
        constructor
        · rcases List.mem_cons.mp h1 with h | h
          · rw [h]
            rcases max_choice a b with h | h <;> rw [h] <;> simp
          · simp [h]
        · intro y hy
          have hm := h2 (max a b) (by simp)
          rcases List.mem_cons.mp hy with rfl | hy
          · exact le_trans (le_max_left _ _) hm
          · rcases List.mem_cons.mp hy with rfl | hy
            · exact le_trans (le_max_right _ _) hm
            · exact h2 y (by simp [hy])
    intro x hx
    simp only [npMax, Option.some.injEq] at hx
    rw [← hx]
    exact key l a

theorem mapM_option_getElem {α β : Type} (f : α → Option β) : ∀ (l : List α) (r : List β), l.mapM f = some r →
    r.length = l.length ∧ ∀ (i : ℕ) (x : α), l[i]? = some x → ∃ y, f x = some y ∧ r[i]? = some y := by
  intro l
  induction l with
  | nil => intro r h; simp only [List.mapM_nil, Option.pure_def, Option.some.injEq] at h; subst h; simp
  | cons a l ih =>
    intro r h
    rw [List.mapM_cons] at h
    simp only [Option.bind_eq_bind, Option.bind_eq_some_iff, Option.pure_def, Option.some.injEq] at h
    obtain ⟨y, hy, r', hr', rfl⟩ := h
    obtain ⟨h1, h2⟩ := ih r' hr'
    refine ⟨by simp [h1], ?_⟩
    intro i x hx
    cases i with
    | zero =>
      simp only [List.getElem?_cons_zero, Option.some.injEq] at hx
      subst hx
      exact ⟨y, hy, by simp⟩
    | succ i => simpa using h2 i x (by simpa using hx)

/-- **C85.** If the highest values can be computed, then every site has a feature, and its value is the highest of the values of its features. -/
theorem C85_max_values [IsStrictOrderedRing K] (atoms : ℕ) (fs : List (ElfFeature K)) (vals : List K) (r : List K) (h : atomMaxValues atoms fs vals = some r) :
    ∃ res, atomFeatures atoms fs = some res ∧ r.length = res.length ∧ ∀ (a : ℕ) (l : List ℕ), res[a]? = some l →
      ∃ x, r[a]? = some x ∧ (∃ i ∈ l, vals[i]? = some x) ∧ ∀ i ∈ l, ∃ y, vals[i]? = some y ∧ y ≤ x := by
  unfold atomMaxValues at h
  simp only [Option.bind_eq_bind, Option.bind_eq_some_iff] at h
  obtain ⟨res, hres, h⟩ := h
  obtain ⟨h1, h2⟩ := mapM_option_getElem _ _ _ h
  refine ⟨res, hres, h1, ?_⟩
  intro a l hl
  obtain ⟨x, hx, hrx⟩ := h2 a l hl
  obtain ⟨v, hv, hm⟩ := Option.bind_eq_some_iff.mp hx
  obtain ⟨g1, g2⟩ := mapM_option_getElem _ _ _ hv
  obtain ⟨k1, k2⟩ := (npMax_spec v).2 x hm
  refine ⟨x, hrx, ?_, ?_⟩
  · obtain ⟨j, hj, e⟩ := List.getElem_of_mem k1
    have hjl : j < l.length := by omega
    obtain ⟨y, hy, hy2⟩ := g2 j l[j] (List.getElem?_eq_getElem hjl)
    rw [List.getElem?_eq_getElem hj, e] at hy2
    rw [← Option.some.inj hy2] at hy
    exact ⟨l[j], List.getElem_mem hjl, hy⟩
  · intro i hi
    obtain ⟨j, hj, e⟩ := List.getElem_of_mem hi
    obtain ⟨y, hy, hy2⟩ := g2 j i (by rw [List.getElem?_eq_getElem hj, e])
    exact ⟨y, hy, k2 y (List.mem_of_getElem? hy2)⟩

theorem mapM_none {α β : Type} (f : α → Option β) : ∀ (l : List α), (∃ x ∈ l, f x = none) → l.mapM f = none := by
  intro l
  induction l with
  | nil => simp
  | cons a l ih =>
    rintro ⟨x, hx, h⟩
    rw [List.mapM_cons]
    rcases List.mem_cons.mp hx with rfl | hx
    · rw [h]; rfl
    · rw [ih ⟨x, hx, h⟩]
      cases f a <;> rfl

/-- **C85** (negative part) If some site has no feature of its own (an atom that shares all its features), asking for the highest values raises. -/
theorem C85_max_raises (atoms : ℕ) (fs : List (ElfFeature K)) (vals : List K) (res : List (List ℕ)) (h : atomFeatures atoms fs = some res)
    (hem : [] ∈ res) : atomMaxValues atoms fs vals = none := by
  unfold atomMaxValues
  rw [h]
  exact mapM_none _ _ ⟨[], hem, rfl⟩

example : atomFeatures 2 [demoFeat false [0] [0], demoFeat false [0, 1] [0, 1]] = some [[0], []] := by decide +kernel
example : atomMaxValues 2 [demoFeat false [0] [0], demoFeat false [1] [1], demoFeat false [1] [1]] [1 / 2, 1 / 4, 3 / 4] = some [1 / 2, 3 / 4] := by
  decide +kernel

/-! ## Electrons of the electrides -/

/-- **C85.** The electrides of the formula are the bare electrons: their number, their charge, and their charge per reduced formula. -/
theorem C85_electrides (atoms : ℕ) (fs : List (ElfFeature K)) (factor : K) (hf : factor ≠ 0) :
    nelectrides atoms fs = (fs.filter fun f => f.bare).length ∧
    electridesPerFormula id fs = ((fs.filter fun f => f.bare).map fun f => f.charge).sum ∧
    electridesPerReduced id fs factor * factor = ((fs.filter fun f => f.bare).map fun f => f.charge).sum := by
  have key : ∀ (fs : List (ElfFeature K)) (acc : K), fs.foldl (fun (acc : K) f => if f.bare = true then acc + f.charge else acc) acc =
      acc + ((fs.filter fun f => f.bare).map fun f => f.charge).sum := by
    intro fs
    induction fs with
    | nil => intro acc; simp
    | cons f fs ih =>
      intro acc
      rw [List.foldl_cons, ih]
      by_cases h : f.bare = true
      · simp [h, add_assoc]
      · simp [h]
  have h2 : electridesPerFormula id fs = ((fs.filter fun f => f.bare).map fun f => f.charge).sum := by
    simp only [electridesPerFormula, id, key, zero_add]
  refine ⟨by simp [nelectrides, chargeSites], h2, ?_⟩
  unfold electridesPerReduced
  rw [h2]
  simp only [id]
  field_simp

/-- **C85** (negative part) The types of the radii with electrides are those without: with a different number of neighbours there are not as many
types as radii.  They are named as they should be. -/
theorem C85_types_without_electrides (types typesE : List Bool) :
    (nnTypesE types typesE).length = types.length ∧ (∀ other, nnTypesE types other = nnTypesE types typesE) ∧
    ∀ i : ℕ, (types[i]? = some true → (nnTypesE types typesE)[i]? = some "covalent") ∧
      (types[i]? = some false → (nnTypesE types typesE)[i]? = some "ionic") :=
  ⟨by simp [nnTypesE], fun _ => rfl, fun i => ⟨fun h => by simp [nnTypesE, h], fun h => by simp [nnTypesE, h]⟩⟩

end BaderKit
