import Verif.Lemmas.AtomRows
import Verif.Props.DomainTree
import Mathlib.Algebra.Order.Ring.Rat
/-!
# C74, C75: the domains that surround the atoms

C74: which domains surround an atom at one value.  C75: the rows of `find_domain_bifurcations`, cut where a domain changes the number of
atoms it surrounds.
-/
set_option linter.unusedSectionVars false
namespace BaderKit
variable {K : Type} [LinearOrder K]

/-- C74. The group taken is the first one with the most contacts. -/
theorem C74_most_contacts {n : ℕ} (hn : 0 < n) (f : ℕ → ℕ) : IsFirstMax n f (argmaxFirst n f) := by
  have key : ∀ m, let b := (List.range m).foldl (fun b i => if f b < f i then i else b) 0
      (m = 0 ∧ b = 0) ∨ (b < m ∧ (∀ j < m, f j ≤ f b) ∧ ∀ j < b, f j < f b) := by
    intro m
    induction m with
    | zero => exact Or.inl ⟨rfl, rfl⟩
    | succ m ih =>
      right
      simp only [List.range_succ, List.foldl_append, List.foldl_cons, List.foldl_nil]
      simp only at ih
      set b := (List.range m).foldl (fun b i => if f b < f i then i else b) 0
      rcases ih with ⟨rfl, hb⟩ | ⟨h1, h2, h3⟩
      · rw [hb]
        refine ⟨by split_ifs <;> omega, fun j hj => ?_, fun j hj => ?_⟩
        · have : j = 0 := by omega
          subst this
          split_ifs <;> exact le_refl _
        · split_ifs at hj <;> omega
      · split_ifs with hlt
        · refine ⟨by omega, fun j hj => ?_, fun j hj => lt_of_le_of_lt (h2 j hj) hlt⟩
          rcases Nat.lt_succ_iff_lt_or_eq.mp hj with hj | rfl
          · exact (h2 j hj).trans hlt.le
          · exact le_refl _
        · refine ⟨by omega, fun j hj => ?_, h3⟩
          rcases Nat.lt_succ_iff_lt_or_eq.mp hj with hj | rfl
          · exact h2 j hj
          · exact not_lt.mp hlt
  rcases key n with ⟨h, -⟩ | h
  · omega
  · exact h

theorem firstMax_unique {n : ℕ} {f : ℕ → ℕ} {i j : ℕ} (hi : IsFirstMax n f i) (hj : IsFirstMax n f j) : i = j := by
  rcases Nat.lt_trichotomy i j with h | h | h
  · exact absurd (hj.2.2 i h) (not_lt.mpr (hi.2.1 j hj.1))
  · exact h
  · exact absurd (hi.2.2 j h) (not_lt.mpr (hj.2.1 i hi.1))

theorem surroundLoop_chain {nv nd : ℕ} (hnv : 0 < nv) (hnd : 0 < nd) (voidDim domDim : ℕ → ℕ) (counts : ℕ → ℕ → ℕ) (fuel : ℕ) :
    ∀ g l, surroundLoop nv nd voidDim domDim counts fuel g = some l → SurroundChain nv nd voidDim domDim counts g l := by
  induction fuel with
  | zero => intro g l h; simp [surroundLoop] at h
  | succ n ih =>
    intro g l h
    rcases g with v | d
    · simp only [surroundLoop] at h
      split_ifs at h with h0
      · obtain rfl : [] = l := by simpa using h
        exact .openVoid v h0
      · exact .shutVoid v _ l (by omega) (C74_most_contacts hnd _) (ih _ _ h)
    · simp only [surroundLoop] at h
      split_ifs at h with h0
      · obtain rfl : [d] = l := by simpa using h
        exact .openDom d h0
      · obtain ⟨l', hl', rfl⟩ := Option.map_eq_some_iff.mp h
        exact .shutDom d _ l' (by omega) (C74_most_contacts hnv _) (ih _ _ hl')

/-- C74. Whenever there is an answer, it lists the domains around the atom from the inside to the first infinite group.  `doms` are the domains
at this value; positions in the counts are positions in `doms`. -/
theorem C74_surrounding_domains {nv : ℕ} (hnv : 0 < nv) {doms : List ℕ} (hd : doms ≠ []) (voidDim domDim : ℕ → ℕ) (counts : ℕ → ℕ → ℕ) {start : Group} {l : List ℕ}
    (h : findAtomDomains nv doms voidDim domDim counts start = some l) :
    ∃ m, SurroundChain nv doms.length voidDim (fun d => domDim (doms.getD d 0)) counts start m ∧ l = m.map fun d => doms.getD d 0 := by
  obtain ⟨m, hm, rfl⟩ := Option.map_eq_some_iff.mp h
  exact ⟨m, surroundLoop_chain hnv (List.length_pos_iff.mpr hd) _ _ _ _ _ _ hm, rfl⟩

/-- C74. There is only one such list. -/
theorem C74_chain_unique {nv nd : ℕ} {voidDim domDim : ℕ → ℕ} {counts : ℕ → ℕ → ℕ} {g : Group} {l m : List ℕ}
    (h : SurroundChain nv nd voidDim domDim counts g l) (h' : SurroundChain nv nd voidDim domDim counts g m) : l = m := by
  induction h generalizing m with
  | openVoid v hv =>
    cases h' with
    | openVoid => rfl
    | shutVoid _ _ _ h => omega
  | openDom d hd =>
    cases h' with
    | openDom => rfl
    | shutDom _ _ _ h => omega
  | shutVoid v d l h hd _ ih =>
    cases h' with
    | openVoid _ h' => omega
    | shutVoid _ d' _ _ hd' hl' =>
      obtain rfl := firstMax_unique hd hd'
      exact ih hl'
  | shutDom d v l h hv _ ih =>
    cases h' with
    | openDom _ h' => omega
    | shutDom _ v' _ _ hv' hl' =>
      obtain rfl := firstMax_unique hv hv'
      rw [ih hl']

theorem surroundLoop_total {nv nd : ℕ} (hnv : 0 < nv) (hnd : 0 < nd) {voidDim domDim : ℕ → ℕ} {counts : ℕ → ℕ → ℕ} {depth : Group → ℕ}
    (hdep : NestDepth nv nd voidDim domDim counts depth) (fuel : ℕ) :
    ∀ g, depth g < fuel → ∃ l, surroundLoop nv nd voidDim domDim counts fuel g = some l := by
  induction fuel with
  | zero => intro g h; omega
  | succ n ih =>
    intro g h
    rcases g with v | d
    · simp only [surroundLoop]
      split_ifs with h0
      · exact ⟨_, rfl⟩
      · have := hdep.1 v _ (by omega) (C74_most_contacts hnd (counts v))
        exact ih _ (by omega)
    · simp only [surroundLoop]
      split_ifs with h0
      · exact ⟨_, rfl⟩
      · have := hdep.2 d _ (by omega) (C74_most_contacts hnv (fun w => counts w d))
        obtain ⟨l, hl⟩ := ih (.void (argmaxFirst nv fun v => counts v d)) (by omega)
        exact ⟨d :: l, by rw [hl]; rfl⟩

/-- C74. If the group a finite group touches most is always one that is nested less deeply, and the atom is nested at most 100 deep, the
answer exists. -/
theorem C74_nested_total {nv : ℕ} (hnv : 0 < nv) {doms : List ℕ} (hd : doms ≠ []) {voidDim domDim : ℕ → ℕ} {counts : ℕ → ℕ → ℕ} {depth : Group → ℕ}
    (hdep : NestDepth nv doms.length voidDim (fun d => domDim (doms.getD d 0)) counts depth) (start : Group) (h : depth start ≤ 100) :
    ∃ l, findAtomDomains nv doms voidDim domDim counts start = some l := by
  obtain ⟨l, hl⟩ := surroundLoop_total hnv (List.length_pos_iff.mpr hd) hdep 101 start (by omega)
  exact ⟨_, by unfold findAtomDomains; rw [hl]; rfl⟩

/-- C74. Nothing surrounds the atom exactly when it sits in an infinite void; such a void only grows, so this is final. -/
theorem C74_surrounded_by_nothing {nv : ℕ} (hnv : 0 < nv) {doms : List ℕ} (hd : doms ≠ []) {voidDim domDim : ℕ → ℕ} {counts : ℕ → ℕ → ℕ} {start : Group}
    {l : List ℕ} (h : findAtomDomains nv doms voidDim domDim counts start = some l) : l = [] ↔ ∃ v, start = .void v ∧ 0 < voidDim v := by
  obtain ⟨m, hm, rfl⟩ := C74_surrounding_domains hnv hd _ _ _ h
  rw [List.map_eq_nil_iff]
  cases hm with
  | openVoid v hv => simp [hv]
  | openDom d hd => simp
  | shutVoid v d l h hd hl =>
    constructor
    · rintro rfl; cases hl
    · rintro ⟨w, e, hw⟩
      obtain rfl : v = w := by simpa using e
      omega
  | shutDom d v l h hv hl => simp

/-- C74. No domain is listed twice, and all but the last are finite. -/
theorem C74_listed_once {nv nd : ℕ} {voidDim domDim : ℕ → ℕ} {counts : ℕ → ℕ → ℕ} {depth : Group → ℕ} (hdep : NestDepth nv nd voidDim domDim counts depth)
    {g : Group} {l : List ℕ} (h : SurroundChain nv nd voidDim domDim counts g l) :
    l.Nodup ∧ (∀ d ∈ l.dropLast, domDim d = 0) ∧ ∀ d ∈ l, depth (.dom d) ≤ depth g := by
  induction h with
  | openVoid v hv => simp
  | openDom d hd => simp
  | shutVoid v d l h hd hl ih =>
    have := hdep.1 v d h hd
    exact ⟨ih.1, ih.2.1, fun e he => by have := ih.2.2 e he; omega⟩
  | shutDom d v l h hv hl ih =>
    have := hdep.2 d v h hv
    refine ⟨List.nodup_cons.mpr ⟨fun hd => by have := ih.2.2 d hd; omega, ih.1⟩, ?_, ?_⟩
    · intro e he
      rcases l with _ | ⟨a, l⟩
      · simp at he
      · rw [List.dropLast_cons₂] at he
        rcases List.mem_cons.mp he with rfl | he
        · exact h
        · exact ih.2.1 e he
    · intro e he
      rcases List.mem_cons.mp he with rfl | he
      · exact le_refl _
      · have := ih.2.2 e he; omega

/-- C74. An atom nested more than 100 deep makes the search raise. -/
theorem C74_deep_nesting_raises {nv : ℕ} (hnv : 0 < nv) {doms : List ℕ} (hd : doms ≠ []) {voidDim domDim : ℕ → ℕ} {counts : ℕ → ℕ → ℕ} {depth : Group → ℕ}
    (hdep : NestDepth nv doms.length voidDim (fun d => domDim (doms.getD d 0)) counts depth)
    (hopen : ∀ v, 0 < voidDim v → depth (.void v) = 0) (hopen' : ∀ d, 0 < domDim (doms.getD d 0) → depth (.dom d) = 0)
    (start : Group) (h : 100 < depth start) : findAtomDomains nv doms voidDim domDim counts start = none := by
  have key : ∀ fuel g, fuel ≤ depth g → surroundLoop nv doms.length voidDim (fun d => domDim (doms.getD d 0)) counts fuel g = none := by
    intro fuel
    induction fuel with
    | zero => intro g _; rfl
    | succ n ih =>
      intro g hg
      rcases g with v | d
      · simp only [surroundLoop]
        split_ifs with h0
        · have := hopen v h0; omega
        · have := hdep.1 v _ (by omega) (C74_most_contacts (List.length_pos_iff.mpr hd) (counts v))
          exact ih _ (by omega)
      · simp only [surroundLoop]
        split_ifs with h0
        · have := hopen' d h0; change n + 1 ≤ depth (.dom d) at hg; omega
        · have := hdep.2 d _ (Nat.eq_zero_of_not_pos h0) (C74_most_contacts hnv (fun w => counts w d))
          rw [ih _ (by omega)]
          rfl
  unfold findAtomDomains
  rw [key 101 start (by omega)]
  rfl

/-- C74, negation. A finite void and a finite domain that touch each other most make the search raise, whatever is around them.  The comment in
the code assumes that this cannot happen. -/
theorem C74_mutual_contact_raises (nv : ℕ) (doms : List ℕ) (voidDim domDim : ℕ → ℕ) (counts : ℕ → ℕ → ℕ) (v d : ℕ) (hv : voidDim v = 0)
    (hd : domDim (doms.getD d 0) = 0) (hvd : argmaxFirst doms.length (counts v) = d) (hdv : (argmaxFirst nv fun w => counts w d) = v) :
    findAtomDomains nv doms voidDim domDim counts (.void v) = none ∧ findAtomDomains nv doms voidDim domDim counts (.dom d) = none := by
  have key : ∀ fuel, surroundLoop nv doms.length voidDim (fun d => domDim (doms.getD d 0)) counts fuel (.void v) = none ∧
      surroundLoop nv doms.length voidDim (fun d => domDim (doms.getD d 0)) counts fuel (.dom d) = none := by
    intro fuel
    induction fuel with
    | zero => exact ⟨rfl, rfl⟩
    | succ n ih =>
      simp only [surroundLoop, hv, hd, lt_irrefl, if_false, hvd, hdv, ih.1, ih.2]
      exact ⟨trivial, rfl⟩
  unfold findAtomDomains
  rw [(key 101).1, (key 101).2]
  exact ⟨rfl, rfl⟩

/-- A void in the shell 4, which lies in the infinite void 1 that is not surrounded. -/
example : findAtomDomains 2 [4, 7] (fun v => v) (fun d => if d = 4 then 0 else 3) (fun v d => if v = 0 then (if d = 0 then 6 else 0) else (if d = 0 then 9 else 1)) (.void 0) =
    some [4] := by decide
/-- A thin shell with a big cavity: 20 contacts inside, 18 outside. -/
example : findAtomDomains 2 [4] (fun v => v) (fun _ => 0) (fun v _ => if v = 0 then 20 else 18) (.void 0) = none :=
  (C74_mutual_contact_raises 2 [4] _ _ _ 0 0 rfl rfl (by decide) (by decide)).1

/-- The assumptions of C75: the domains form a tree, the values ascend and hold the lowest value of every domain, and above a value at which no
atom is surrounded none is surrounded again. -/
structure AtomInput (inp : List (DomIn K)) (surr : K → List (List ℕ)) (values : List K) : Prop where
  tree : DomTree inp
  mins : ∀ r ∈ inp, r.minV ∈ values
  asc : values.Pairwise (· < ·)
  quiet : ∀ u ∈ values, ∀ w ∈ values, u < w → (∀ l ∈ surr u, l = []) → ∀ l ∈ surr w, l = []

theorem AtomInput.spec {inp : List (DomIn K)} {surr : K → List (List ℕ)} {values : List K} (h : AtomInput inp surr values) :
    ∃ out map, atomRows inp surr values = some out ∧ FInv inp surr values map out ∧ ∀ d < inp.length, map d ≠ none := by
  have e : ∀ l : List (List ℕ), (l.all fun x => x.isEmpty) = true ↔ ∀ x ∈ l, x = [] := by
    intro l
    rw [List.all_eq_true]
    simp
  exact atomRows_spec h.tree h.mins h.asc fun u hu w hw huw hh => (e _).mpr (h.quiet u hu w hw huw ((e _).mp hh))

/-- C75. The rows can always be made. -/
theorem C75_total {inp : List (DomIn K)} {surr : K → List (List ℕ)} {values : List K} (h : AtomInput inp surr values) :
    ∃ out, atomRows inp surr values = some out := by
  obtain ⟨out, _, h1, _⟩ := h.spec
  exact ⟨out, h1⟩

theorem AtomInput.result {inp : List (DomIn K)} {surr : K → List (List ℕ)} {values : List K} (h : AtomInput inp surr values) {out : List (ARow K)}
    (ho : atomRows inp surr values = some out) : ∃ map, FInv inp surr values map out ∧ ∀ d < inp.length, map d ≠ none := by
  obtain ⟨out', map, h1, h2⟩ := h.spec
  rw [ho] at h1
  obtain rfl : out = out' := by simpa using h1
  exact ⟨map, h2⟩

/-- C75. Every row is a piece of one domain: same basins, same dimensionality, a part of its values. -/
theorem C75_rows_are_pieces {inp : List (DomIn K)} {surr : K → List (List ℕ)} {values : List K} (h : AtomInput inp surr values) {out : List (ARow K)}
    (ho : atomRows inp surr values = some out) {r : ARow K} (hr : r ∈ out) : ARowPart inp r := by
  obtain ⟨map, hF, -⟩ := h.result ho
  exact hF.part r hr

/-- C75. At every value at which a domain exists, it is exactly one row: nothing is lost or doubled. -/
theorem C75_one_row_at_a_value {inp : List (DomIn K)} {surr : K → List (List ℕ)} {values : List K} (h : AtomInput inp surr values) {out : List (ARow K)}
    (ho : atomRows inp surr values = some out) {d : ℕ} {q : DomIn K} (hq : inp[d]? = some q) {v : K} (h1 : q.minV ≤ v) (h2 : v < q.maxV) :
    ARowAt out d v := by
  obtain ⟨map, hF, hall⟩ := h.result ho
  exact hF.cover d q hq (hall d (List.getElem?_eq_some_iff.mp hq).1) v h1 h2

/-- C75. A domain without values (a root without children, whose maximum was never set) is kept as one row. -/
theorem C75_empty_domain_kept {inp : List (DomIn K)} {surr : K → List (List ℕ)} {values : List K} (h : AtomInput inp surr values) {out : List (ARow K)}
    (ho : atomRows inp surr values = some out) {d : ℕ} {q : DomIn K} (hq : inp[d]? = some q) (hle : q.maxV ≤ q.minV) :
    ∃! k : ℕ, ∃ r, out[k]? = some r ∧ r.src = d := by
  obtain ⟨map, hF, hall⟩ := h.result ho
  exact hF.one d q hq (hall d (List.getElem?_eq_some_iff.mp hq).1) hle

/-- C75. Parents come first and end where the row begins; they are the same domain with another number of atoms or the last row of the parent
domain; only a row of a root has no parent. -/
theorem C75_parents {inp : List (DomIn K)} {surr : K → List (List ℕ)} {values : List K} (h : AtomInput inp surr values) {out : List (ARow K)}
    (ho : atomRows inp surr values = some out) {k : ℕ} {r : ARow K} (hr : out[k]? = some r) : ARowLink inp out k r := by
  obtain ⟨map, hF, -⟩ := h.result ho
  exact hF.link k r hr

/-- C75. The atoms of a row are those that the domain surrounds where the row begins. -/
theorem C75_atoms_at_birth {inp : List (DomIn K)} {surr : K → List (List ℕ)} {values : List K} (h : AtomInput inp surr values) {out : List (ARow K)}
    (ho : atomRows inp surr values = some out) {r : ARow K} (hr : r ∈ out) (hlt : r.minV < r.maxV) (a : ℕ) :
    a ∈ r.atoms ↔ ∃ l, (surr r.minV)[a]? = some l ∧ r.src ∈ l := by
  obtain ⟨map, hF, -⟩ := h.result ho
  rw [(hF.born r hr hlt).2]
  unfold atomsOf
  rw [List.mem_flatMap]
  constructor
  · rintro ⟨⟨l, i⟩, hx, hm⟩
    obtain ⟨e, he, rfl⟩ := List.mem_map.mp hm
    rw [List.mem_filter] at he
    refine ⟨l, by simpa [List.mem_zipIdx_iff_getElem?] using hx, ?_⟩
    have : e = r.src := by simpa using he.2
    exact this ▸ he.1
  · rintro ⟨l, hl, hm⟩
    refine ⟨(l, a), by simpa [List.mem_zipIdx_iff_getElem?] using hl, ?_⟩
    exact List.mem_map.mpr ⟨r.src, List.mem_filter.mpr ⟨hm, by simp⟩, rfl⟩

/-- C75. At every value inside a row the domain surrounds as many atoms as the row has. -/
theorem C75_atom_count {inp : List (DomIn K)} {surr : K → List (List ℕ)} {values : List K} (h : AtomInput inp surr values) {out : List (ARow K)}
    (ho : atomRows inp surr values = some out) {r : ARow K} (hr : r ∈ out) {v : K} (hv : v ∈ values) (h1 : r.minV ≤ v) (h2 : v < r.maxV) :
    r.atoms.length = atomCount (surr v) r.src := by
  obtain ⟨map, hF, -⟩ := h.result ho
  exact hF.count r hr v hv h1 h2

/-- C75, partial: if the atoms only leave a domain as the value grows, the row has exactly the right atoms at every value.  Without that
condition only the number is right (`C75_exchanged_atom_unnoticed`). -/
theorem C75_atoms_partial {inp : List (DomIn K)} {surr : K → List (List ℕ)} {values : List K} (h : AtomInput inp surr values)
    (hone : ∀ v, ∀ l ∈ surr v, l.Nodup)
    (hmono : ∀ u ∈ values, ∀ w ∈ values, u ≤ w → ∀ (a : ℕ) l, (surr w)[a]? = some l → ∃ l', (surr u)[a]? = some l' ∧ ∀ d ∈ l, (∃ q, inp[d]? = some q ∧ q.minV ≤ u) → d ∈ l')
    {out : List (ARow K)} (ho : atomRows inp surr values = some out) {r : ARow K} (hr : r ∈ out) {v : K} (hv : v ∈ values) (h1 : r.minV ≤ v) (h2 : v < r.maxV) (a : ℕ) :
    a ∈ r.atoms ↔ ∃ l, (surr v)[a]? = some l ∧ r.src ∈ l := by
  obtain ⟨map, hF, -⟩ := h.result ho
  have hb := hF.born r hr (h1.trans_lt h2)
  have hmem : ∀ (w : K) (a : ℕ), a ∈ atomsOf (surr w) r.src ↔ ∃ l, (surr w)[a]? = some l ∧ r.src ∈ l := by
    intro w a
    unfold atomsOf
    rw [List.mem_flatMap]
    constructor
    · rintro ⟨⟨l, i⟩, hx, hm⟩
      obtain ⟨e, he, rfl⟩ := List.mem_map.mp hm
      rw [List.mem_filter] at he
      refine ⟨l, by simpa [List.mem_zipIdx_iff_getElem?] using hx, ?_⟩
      have : e = r.src := by simpa using he.2
      exact this ▸ he.1
    · rintro ⟨l, hl, hm⟩
      refine ⟨(l, a), by simpa [List.mem_zipIdx_iff_getElem?] using hl, ?_⟩
      exact List.mem_map.mpr ⟨r.src, List.mem_filter.mpr ⟨hm, by simp⟩, rfl⟩
  have hnd : ∀ w : K, (atomsOf (surr w) r.src).Nodup := by
    intro w
    unfold atomsOf
    rw [List.nodup_flatMap]
    constructor
    · rintro ⟨l, i⟩ hx
      have hl : l.Nodup := hone w l (by
        have := List.fst_mem_of_mem_zipIdx hx
        exact this)
      have : (l.filter fun e => e == r.src).length ≤ 1 := by
        rw [← List.count_eq_length_filter]
        exact List.nodup_iff_count_le_one.mp hl _
      rcases hh : (l.filter fun e => e == r.src) with _ | ⟨x, _ | ⟨y, t⟩⟩
      · simp
      · simp
      · rw [hh] at this; simp at this
    · rw [List.pairwise_iff_getElem]
      intro i j hi hj hij
      simp only [List.getElem_zipIdx, Function.onFun]
      intro x hx hy
      obtain ⟨_, _, e1⟩ := List.mem_map.mp hx
      obtain ⟨_, _, e2⟩ := List.mem_map.mp hy
      omega
  have hsub : ∀ a, a ∈ atomsOf (surr v) r.src → a ∈ r.atoms := by
    intro a ha
    rw [hb.2, hmem]
    obtain ⟨l, hl, hm⟩ := (hmem v a).mp ha
    obtain ⟨l', hl', hd⟩ := hmono _ hb.1 v hv h1 a l hl
    obtain ⟨q, hq, -, -, hle, -⟩ := hF.part r hr
    exact ⟨l', hl', hd _ hm ⟨q, hq, hle⟩⟩
  have hlen : r.atoms.length ≤ (atomsOf (surr v) r.src).length := by
    rw [atomsOf_length, hF.count r hr v hv h1 h2]
  have hperm := (List.subperm_of_subset (hnd v) hsub).perm_of_length_le hlen
  rw [← hmem v a]
  exact hperm.symm.mem_iff

/-- Two domains; at 1 the first splits into itself without atom 1. -/
def atomIn : List (DomIn ℚ) := [⟨[0, 1], 0, 3, 3, none⟩, ⟨[0], 3, 5, 0, some 0⟩, ⟨[1], 3, 4, 0, some 0⟩]
/-- Atoms leave one by one. -/
def atomSurr (v : ℚ) : List (List ℕ) := if v < 1 then [[0], [0]] else if v < 3 then [[0], []] else if v < 4 then [[1], []] else [[], []]
def atomVals : List ℚ := [0, 1, 2, 3, 4]

example : AtomInput atomIn atomSurr atomVals := by
  refine ⟨?_, by decide +kernel, by decide +kernel, by decide +kernel⟩
  intro d r p hr hp
  rcases d with _ | _ | _ | d
  · obtain rfl : _ = r := by simpa [atomIn] using hr
    cases hp
  · obtain rfl : _ = r := by simpa [atomIn] using hr
    obtain rfl : 0 = p := by simpa using hp
    exact ⟨by omega, _, rfl, by decide +kernel, by decide +kernel⟩
  · obtain rfl : _ = r := by simpa [atomIn] using hr
    obtain rfl : 0 = p := by simpa using hp
    exact ⟨by omega, _, rfl, by decide +kernel, by decide +kernel⟩
  · simp [atomIn] at hr

set_option maxRecDepth 100000 in
example : atomRows atomIn atomSurr atomVals =
    some [⟨[0, 1], 0, 1, 3, none, [0, 1], 0⟩, ⟨[0, 1], 1, 3, 3, some 0, [0], 0⟩, ⟨[0], 3, 4, 0, some 1, [0], 1⟩, ⟨[1], 3, 4, 0, some 1, [], 2⟩,
      ⟨[0], 4, 5, 0, some 2, [], 1⟩] := by decide +kernel

/-- C75, negation. When a domain exchanges one atom for another no new row is made and the atoms of the row are wrong from there on. -/
theorem C75_exchanged_atom_unnoticed :
    ∃ (inp : List (DomIn ℚ)) (surr : ℚ → List (List ℕ)) (out : List (ARow ℚ)), atomRows inp surr [0, 1] = some out ∧
      out = [⟨[0], 0, 2, 3, none, [0], 0⟩] ∧ surr 1 = [[], [0]] :=
  ⟨[⟨[0], 0, 2, 3, none⟩], fun v => if v < 1 then [[0], []] else [[], [0]], _, by decide +kernel, rfl, by decide +kernel⟩

/-- C75, negation. When basins meet exactly at the lowest value of the data the root has no values, and its children lose their parent: they come
before it and are made roots. -/
theorem C75_flat_root_loses_children :
    ∃ (inp : List (DomIn ℚ)) (surr : ℚ → List (List ℕ)) (out : List (ARow ℚ)), atomRows inp surr [0] = some out ∧
      inp.map (fun r => (r.basins, r.parent)) = [([0, 1], none), ([0], some 0), ([1], some 0)] ∧
      out.map (fun r => (r.basins, r.parent)) = [([0], none), ([1], none), ([0, 1], none)] :=
  ⟨[⟨[0, 1], 0, 0, 3, none⟩, ⟨[0], 0, 2, 0, some 0⟩, ⟨[1], 0, 1, 0, some 0⟩], fun _ => [[]],
    [⟨[0], 0, 2, 0, none, [], 1⟩, ⟨[1], 0, 1, 0, none, [], 2⟩, ⟨[0, 1], 0, 0, 3, none, [], 0⟩], by decide +kernel, by decide +kernel, by decide +kernel⟩

end BaderKit
