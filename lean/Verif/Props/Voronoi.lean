import Verif.Model.Voronoi
import Verif.Props.CubeFraction
import Verif.Spec.Assign
import Mathlib.Data.Rat.Floor
set_option linter.unusedSectionVars false
/-! # Properties C38, C65 and C66: canonical bonds, site lookup, partition planes -/
namespace BaderKit
section
variable {K : Type*} [Field K] [LinearOrder K] [IsStrictOrderedRing K] [FloorRing K]

/-! ## C38: canonical displacements and bonds -/

theorem roundHE_neg (x : K) : roundHE (-x) = -roundHE x := by
  by_cases hx : x = (⌊x⌋ : K)
  · rw [hx, ← Int.cast_neg, roundHE_intCast, roundHE_intCast]
  · have h1 : (⌊x⌋ : K) < x := lt_of_le_of_ne (Int.floor_le x) (Ne.symm hx)
    have h2 := Int.lt_floor_add_one x
    have hf : ⌊-x⌋ = -⌊x⌋ - 1 := by
      rw [Int.floor_eq_iff]
      push_cast
      constructor <;> linarith
    unfold roundHE
    rw [hf]
    push_cast
    split_ifs <;> first | omega | (exfalso; linarith)

def negD (v : Coord) : Coord := (-v.1, -v.2.1, -v.2.2)

theorem signCanon_neg (v : Coord) : signCanon (negD v) = signCanon v := by
  obtain ⟨a, b, c⟩ := v
  unfold signCanon negD
  simp only
  split_ifs <;> simp only [Prod.mk.injEq, neg_neg] <;> omega

theorem signCanon_eq (v : Coord) : signCanon v = v ∨ signCanon v = negD v := by
  unfold signCanon negD
  split_ifs
  · exact Or.inr rfl
  · exact Or.inl rfl

/-- The displacement reduced to the nearest image and expressed in units of the tolerance. -/
def quantised (tol : K) (d : V3 K) : Coord := roundV (divV (wrapNear d) tol)

theorem quantised_neg (tol : K) (d : V3 K) :
    quantised tol (-d.1, -d.2.1, -d.2.2) = negD (quantised tol d) := by
  have h : ∀ x : K, roundHE ((-x - ((roundHE (-x) : ℤ) : K)) / tol) =
      -roundHE ((x - (roundHE x : K)) / tol) := by
    intro x
    rw [← roundHE_neg, roundHE_neg x]
    congr 1
    push_cast
    ring
  simp only [quantised, roundV, divV, wrapNear, negD, h]

/-- **C38** A displacement and its negative have the same canonical form. -/
theorem C38_negation (tol : K) (d : V3 K) : canonDisp tol (-d.1, -d.2.1, -d.2.2) = canonDisp tol d := by
  have := quantised_neg tol d
  unfold quantised at this
  unfold canonDisp
  rw [this, signCanon_neg]

/-- C38: the representative is the one whose first nonzero component is positive. -/
theorem C38_leading (tol : K) (d : V3 K) :
    0 < (canonDisp tol d).1 ∨ ((canonDisp tol d).1 = 0 ∧ 0 < (canonDisp tol d).2.1) ∨
    ((canonDisp tol d).1 = 0 ∧ (canonDisp tol d).2.1 = 0 ∧ 0 ≤ (canonDisp tol d).2.2) := by
  unfold canonDisp signCanon
  split
  · simp only; omega
  · omega

/-- **C38** Two displacements have the same canonical form exactly if their quantised nearest images agree up
to the direction. -/
theorem C38_same (tol : K) (d e : V3 K) :
    canonDisp tol d = canonDisp tol e ↔
      quantised tol d = quantised tol e ∨ quantised tol d = negD (quantised tol e) := by
  have nn : ∀ v : Coord, negD (negD v) = v := fun v => by simp [negD]
  constructor
  · intro h
    unfold canonDisp at h
    change signCanon (quantised tol d) = signCanon (quantised tol e) at h
    rcases signCanon_eq (quantised tol d) with h1 | h1 <;> rcases signCanon_eq (quantised tol e) with h2 | h2 <;>
      rw [h1, h2] at h
    · exact Or.inl h
    · exact Or.inr h
    · exact Or.inr (by rw [← h, nn])
    · left; rw [← nn (quantised tol d), h, nn]
  · intro h
    change signCanon (quantised tol d) = signCanon (quantised tol e)
    rcases h with h | h
    · rw [h]
    · rw [h, signCanon_neg]

/-- **C38** (partial) Adding a lattice vector does not change the canonical form, unless a component lies exactly
half-way between two lattice points.  Missing: these ties (`C38_tie_wrong`). -/
theorem C38_translation_partial (tol : K) (d : V3 K) (n : Coord) (h1 : ¬ HalfTie d.1) (h2 : ¬ HalfTie d.2.1)
    (h3 : ¬ HalfTie d.2.2) : canonDisp tol (image d n) = canonDisp tol d := by
  have key : ∀ (x : K) (m : ℤ), ¬ HalfTie x → x + (m : K) - ((roundHE (x + (m : K)) : ℤ) : K) =
      x - (roundHE x : K) := by
    intro x m hx
    rw [roundHE_add_int hx]
    push_cast
    ring
  unfold canonDisp
  simp only [wrapNear, image, key _ _ h1, key _ _ h2, key _ _ h3]

/-- **C38** (negative part) At such a tie the canonical form does depend on the image: the displacements
(1/2, 3/10, 0) and (3/2, 3/10, 0) differ by a lattice vector. -/
theorem C38_tie_wrong :
    canonDisp (1 / 50 : ℚ) (image (1 / 2, 3 / 10, 0) (1, 0, 0)) ≠ canonDisp (1 / 50 : ℚ) (1 / 2, 3 / 10, 0) := by
  decide +kernel

/-- Componentwise order of displacements. -/
def leC (a b : Coord) : Prop := a.1 ≤ b.1 ∧ a.2.1 ≤ b.2.1 ∧ a.2.2 ≤ b.2.2

theorem betterDisp_spec (b x : Coord) :
    leC (betterDisp b x) b ∧ (betterDisp b x = b ∨ betterDisp b x = x) ∧ (leC x b → betterDisp b x = x) := by
  unfold betterDisp leC
  split_ifs with h1 h2 h3
  · exact ⟨⟨le_rfl, le_rfl, le_rfl⟩, Or.inl rfl, fun h => by omega⟩
  · exact ⟨⟨le_rfl, le_rfl, le_rfl⟩, Or.inl rfl, fun h => by omega⟩
  · exact ⟨⟨le_rfl, le_rfl, le_rfl⟩, Or.inl rfl, fun h => by omega⟩
  · exact ⟨by omega, Or.inr rfl, fun _ => rfl⟩

theorem better_fold (xs : List Coord) : ∀ b : Coord,
    leC (xs.foldl betterDisp b) b ∧ (xs.foldl betterDisp b = b ∨ xs.foldl betterDisp b ∈ xs) ∧
    (∀ m ∈ b :: xs, (∀ y ∈ b :: xs, leC m y) → xs.foldl betterDisp b = m) := by
  induction xs with
  | nil =>
    intro b
    refine ⟨⟨le_rfl, le_rfl, le_rfl⟩, Or.inl rfl, fun m hm _ => ?_⟩
    rw [List.mem_singleton] at hm
    rw [hm]; rfl
  | cons x xs ih =>
    intro b
    obtain ⟨a1, a2, a3⟩ := betterDisp_spec b x
    obtain ⟨h1, h2, h3⟩ := ih (betterDisp b x)
    rw [List.foldl_cons]
    refine ⟨⟨h1.1.trans a1.1, h1.2.1.trans a1.2.1, h1.2.2.trans a1.2.2⟩, ?_, fun m hm hle => ?_⟩
    · rcases h2 with h2 | h2
      · rw [h2]
        rcases a2 with a2 | a2
        · exact Or.inl a2
        · exact Or.inr (by rw [a2]; simp)
      · exact Or.inr (List.mem_cons_of_mem _ h2)
    · have anti : ∀ u v : Coord, leC u v → leC v u → u = v := fun u v h h' =>
        Prod.ext (le_antisymm h.1 h'.1) (Prod.ext (le_antisymm h.2.1 h'.2.1) (le_antisymm h.2.2 h'.2.2))
      apply h3
      · rcases List.mem_cons.mp hm with rfl | hm
        · have : betterDisp m x = m := by
            rcases a2 with a2 | a2
            · exact a2
            · exact anti _ _ a1 (hle _ (by rw [a2]; simp))
          rw [this]; simp
        · rcases List.mem_cons.mp hm with rfl | hm
          · rw [a3 (hle b (by simp))]; simp
          · exact List.mem_cons_of_mem _ hm
      · intro y hy
        rcases List.mem_cons.mp hy with rfl | hy
        · rcases a2 with a2 | a2 <;> rw [a2] <;> exact hle _ (by simp)
        · exact hle y (by simp [hy])

/-- The canonical displacements of the images of a bond under the operations, the bond itself first. -/
def bondImages (tol : K) (ops : List (SymOp K)) (siteC neighC : V3 K) : List Coord :=
  canonDisp tol (subV neighC siteC) ::
    ops.map fun o => canonDisp tol (subV (o.apply neighC) (o.apply siteC))

/-- **C38** (partial) The canonical form of a bond names its two equivalence classes in increasing order, with
the flag saying whether they were exchanged, and one of the displacements of its symmetric images; if one image
is smallest in all three components, it is this one.  Missing: a unique choice when no image is smallest in all
components (`C38_bond_order_wrong`). -/
theorem C38_bond_partial (tol : K) (equiv : ℕ → ℤ) (site neigh : ℕ) (siteC neighC : V3 K)
    (ops : List (SymOp K)) (pairDist : K) :
    let r := canonBond tol equiv site neigh siteC neighC ops pairDist
    r.atom1 = min (equiv site) (equiv neigh) ∧ r.atom2 = max (equiv site) (equiv neigh) ∧
    (r.inverted = 0 ∧ equiv site ≤ equiv neigh ∨ r.inverted = 1 ∧ equiv neigh < equiv site) ∧
    r.dist = roundHE (pairDist / tol) ∧ r.disp ∈ bondImages tol ops siteC neighC ∧
    (∀ m ∈ bondImages tol ops siteC neighC, (∀ y ∈ bondImages tol ops siteC neighC, leC m y) →
      r.disp = m) := by
  intro r
  have hd : r.disp = (ops.map fun o => canonDisp tol (subV (o.apply neighC) (o.apply siteC))).foldl betterDisp
      (canonDisp tol (subV neighC siteC)) := by
    simp only [r, canonBond, List.foldl_map]
    split_ifs <;> rfl
  obtain ⟨_, h2, h3⟩ := better_fold (ops.map fun o => canonDisp tol (subV (o.apply neighC) (o.apply siteC)))
    (canonDisp tol (subV neighC siteC))
  rw [← hd] at h2 h3
  refine ⟨?_, ?_, ?_, ?_, ?_, h3⟩
  · simp only [r, canonBond]
    split_ifs with h
    · simp [h]
    · simp [(not_le.mp h).le]
  · simp only [r, canonBond]
    split_ifs with h
    · simp [h]
    · simp [(not_le.mp h).le]
  · simp only [r, canonBond]
    split_ifs with h
    · exact Or.inl ⟨rfl, h⟩
    · exact Or.inr ⟨rfl, not_le.mp h⟩
  · simp only [r, canonBond]
    split_ifs <;> rfl
  · unfold bondImages
    rcases h2 with h2 | h2
    · rw [h2]; simp
    · exact List.mem_cons_of_mem _ h2

/-- **C38** A bond seen from its other end has the same form, except for the flag if the two classes differ. -/
theorem C38_reversed (tol : K) (equiv : ℕ → ℤ) (site neigh : ℕ) (siteC neighC : V3 K) (ops : List (SymOp K))
    (pairDist : K) (hne : equiv site ≠ equiv neigh) :
    canonBond tol equiv neigh site neighC siteC ops pairDist =
      { canonBond tol equiv site neigh siteC neighC ops pairDist with
        inverted := 1 - (canonBond tol equiv site neigh siteC neighC ops pairDist).inverted } := by
  have hs : ∀ a b : V3 K, canonDisp tol (subV a b) = canonDisp tol (subV b a) := by
    intro a b
    rw [← C38_negation tol (subV b a)]
    congr 1
    simp [subV]
  unfold canonBond
  simp only [hs siteC neighC, hs (SymOp.apply _ siteC) (SymOp.apply _ neighC)]
  rcases lt_or_gt_of_ne hne with h | h
  · rw [if_neg (not_le.mpr h), if_pos h.le]
    rfl
  · rw [if_pos h.le, if_neg (not_le.mpr h)]
    rfl

/-- **C38** (negative part) The canonical form depends on the order of the symmetry operations: the mirror
planes `y ↦ -y` and `z ↦ -z` and a bond along (3/10, 1/10, 1/5). -/
theorem C38_bond_order_wrong :
    ∃ (o1 o2 : SymOp ℚ) (site neigh : V3 ℚ),
      canonBond (1 / 50 : ℚ) (fun _ => 0) 0 1 site neigh [o1, o2] 0 ≠
        canonBond (1 / 50 : ℚ) (fun _ => 0) 0 1 site neigh [o2, o1] 0 := by
  refine ⟨⟨((1, 0, 0), (0, -1, 0), (0, 0, 1)), (0, 0, 0)⟩, ⟨((1, 0, 0), (0, 1, 0), (0, 0, -1)), (0, 0, 0)⟩,
    (0, 0, 0), (3 / 10, 1 / 10, 1 / 5), ?_⟩
  decide +kernel

/-- Non-vacuity of C38. -/
example : canonBond (1 / 50 : ℚ) (fun i => i) 1 0 (0, 0, 0) (9 / 10, 1 / 5, 0)
    [⟨((1, 0, 0), (0, 1, 0), (0, 0, 1)), (0, 0, 0)⟩] 1 = ⟨1, 0, 1, (5, -10, 0), 50⟩ := by decide +kernel

/-! ## C66: looking up a site -/

theorem find_fold (c : Coord) (l : List (Coord × ℕ)) : ∀ st : ℤ × Bool,
    let r := l.foldl (fun (st : ℤ × Bool) (cj : Coord × ℕ) =>
      if st.2 then st
      else if |c.1 - cj.1.1| + |c.2.1 - cj.1.2.1| + |c.2.2 - cj.1.2.2| = 0 then ((cj.2 : ℤ), true)
      else st) st
    (st.2 = true → r = st) ∧
    (st.2 = false → (r = st ∧ ∀ x ∈ l, x.1 ≠ c) ∨
      ∃ l1 x l2, l = l1 ++ x :: l2 ∧ x.1 = c ∧ (∀ y ∈ l1, y.1 ≠ c) ∧ r = ((x.2 : ℤ), true)) := by
  induction l with
  | nil => intro st; simp
  | cons x l ih =>
    intro st
    rw [List.foldl_cons]
    have hx : (|c.1 - x.1.1| + |c.2.1 - x.1.2.1| + |c.2.2 - x.1.2.2| = 0) ↔ x.1 = c := by
      have a1 := abs_nonneg (c.1 - x.1.1)
      have a2 := abs_nonneg (c.2.1 - x.1.2.1)
      have a3 := abs_nonneg (c.2.2 - x.1.2.2)
      constructor
      · intro h
        have e1 : |c.1 - x.1.1| = 0 := by omega
        have e2 : |c.2.1 - x.1.2.1| = 0 := by omega
        have e3 : |c.2.2 - x.1.2.2| = 0 := by omega
        rw [abs_eq_zero, sub_eq_zero] at e1 e2 e3
        exact Prod.ext e1.symm (Prod.ext e2.symm e3.symm)
      · intro h; rw [h]; simp
    constructor
    · intro h
      rw [if_pos h]
      exact (ih st).1 h
    · intro h
      rw [if_neg (by rw [h]; simp)]
      split_ifs with g
      · refine Or.inr ⟨[], x, l, rfl, hx.mp g, by simp, ?_⟩
        exact (ih _).1 rfl
      · rcases (ih st).2 h with ⟨h1, h2⟩ | ⟨l1, y, l2, rfl, hy, hl1, he⟩
        · refine Or.inl ⟨h1, fun y hy => ?_⟩
          rcases List.mem_cons.mp hy with rfl | hy
          · exact fun e => g (hx.mpr e)
          · exact h2 y hy
        · refine Or.inr ⟨x :: l1, y, l2, rfl, hy, fun z hz => ?_, he⟩
          rcases List.mem_cons.mp hz with rfl | hz
          · exact fun e => g (hx.mpr e)
          · exact hl1 z hz

/-- **C66** (partial) If a site is found, its coordinates differ by at most the tolerance in every component and
no earlier site has the same rounded coordinates; if none is found, every site differs in the rounded coordinates,
so no site has exactly these coordinates.  Missing: sites within the tolerance that round differently
(`C66_close_missed`). -/
theorem C66_lookup_partial (sites : List (V3 K)) (x : V3 K) (tol : K) (htol : 0 < tol) :
    let r := findSite (sites.map fun s => roundV (divV s tol)) x tol
    (r = -1 ∧ (∀ s ∈ sites, roundV (divV s tol) ≠ roundV (divV x tol)) ∧ x ∉ sites) ∨
    ∃ (j : ℕ) (hj : j < sites.length), r = j ∧ |sites[j].1 - x.1| ≤ tol ∧ |sites[j].2.1 - x.2.1| ≤ tol ∧
      |sites[j].2.2 - x.2.2| ≤ tol ∧
      ∀ (i : ℕ) (hi : i < j), roundV (divV (sites[i]'(hi.trans hj)) tol) ≠ roundV (divV x tol) := by
  intro r
  have h := (find_fold (roundV (divV x tol)) (sites.map fun s => roundV (divV s tol)).zipIdx (-1, false)).2 rfl
  rcases h with ⟨h1, h2⟩ | ⟨l1, y, l2, hl, hy, hl1, he⟩
  · left
    have hall : ∀ s ∈ sites, roundV (divV s tol) ≠ roundV (divV x tol) := by
      intro s hs
      obtain ⟨j, hj, rfl⟩ := List.mem_iff_getElem.mp hs
      have := h2 (roundV (divV sites[j] tol), j) (by
        rw [List.mem_zipIdx_iff_getElem?]
        simp [hj])
      exact this
    refine ⟨?_, hall, fun hx => hall x hx rfl⟩
    simp only [r, findSite]
    rw [h1]
  · right
    have hlen : l1.length < sites.length := by
      have := congrArg List.length hl
      simp only [List.length_zipIdx, List.length_map, List.length_append, List.length_cons] at this
      omega
    have hget : ∀ (i : ℕ) (hi : i < sites.length) (hi' : i < (l1 ++ y :: l2).length),
        (l1 ++ y :: l2)[i] = (roundV (divV sites[i] tol), i) := by
      intro i hi hi'
      have : (sites.map fun s => roundV (divV s tol)).zipIdx[i]? = (l1 ++ y :: l2)[i]? := by rw [hl]
      rw [List.getElem?_zipIdx] at this
      rw [List.getElem?_eq_getElem hi'] at this
      simp [hi] at this
      exact this.symm
    have hyv : y = (roundV (divV sites[l1.length] tol), l1.length) := by
      have := hget l1.length hlen (by simp)
      simpa using this
    have near : ∀ a b : K, roundHE (a / tol) = roundHE (b / tol) → |a - b| ≤ tol := by
      intro a b hab
      have ha := abs_le.mp (roundHE_near (a / tol))
      have hb := abs_le.mp (roundHE_near (b / tol))
      rw [hab] at ha
      have e : |a / tol - b / tol| ≤ 1 := by rw [abs_le]; constructor <;> linarith [ha.1, ha.2, hb.1, hb.2]
      rw [← sub_div, abs_div, abs_of_pos htol, div_le_one htol] at e
      exact e
    rw [hyv] at hy
    simp only [roundV, divV, Prod.mk.injEq] at hy
    refine ⟨l1.length, hlen, ?_, near _ _ hy.1, near _ _ hy.2.1, near _ _ hy.2.2, fun i hi heq => ?_⟩
    · simp only [r, findSite]
      rw [he, hyv]
    · have h1 := hget i (hi.trans hlen) (by simp; omega)
      rw [List.getElem_append_left hi] at h1
      exact hl1 _ (List.getElem_mem hi) (by rw [h1]; exact heq)

/-- **C66** (negative part) Two points may be arbitrarily close and still not match: here they are a hundredth
of the tolerance apart, the result is -1, which the callers use as an index (the last site). -/
theorem C66_close_missed :
    findSite ([((3 / 100 : ℚ) - 1 / 10000, (0 : ℚ), (0 : ℚ))].map fun s => roundV (divV s (1 / 50)))
      ((3 / 100 : ℚ) + 1 / 10000, 0, 0) (1 / 50) = -1 := by decide +kernel

/-- Non-vacuity of C66. -/
example : findSite ([((0 : ℚ), (0 : ℚ), (0 : ℚ)), (1 / 2, 1 / 2, 1 / 2)].map fun s => roundV (divV s (1 / 50 : ℚ)))
    ((1 / 2 : ℚ), (1 / 2 : ℚ), (1 / 2 : ℚ) - 1 / 1000) (1 / 50) = 1 := by decide +kernel

end
end BaderKit
