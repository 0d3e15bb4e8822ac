import Verif.Model.SymBonds
import Verif.Props.Voronoi
import Verif.Props.Transforms
import Mathlib.Tactic.Positivity
import Mathlib.Tactic.LinearCombination
set_option linter.unusedSectionVars false
/-! # Property C86: bonds generated by symmetry -/
namespace BaderKit

section
variable {K : Type} [Field K] [LinearOrder K] [IsStrictOrderedRing K] [FloorRing K]

/-! ## Specification -/

/-- All coordinates lie in the home cell. -/
def InHomeCell (coords : List (V3 K)) : Prop :=
  ∀ x ∈ coords, (0 ≤ x.1 ∧ x.1 < 1) ∧ (0 ≤ x.2.1 ∧ x.2.1 < 1) ∧ (0 ≤ x.2.2 ∧ x.2.2 < 1)

/-- Two different atoms differ by more than the tolerance in some component. -/
def AtomsApart (coords : List (V3 K)) (tol : K) : Prop :=
  ∀ (i j : ℕ) (hi : i < coords.length) (hj : j < coords.length), i ≠ j →
    tol < |coords[i].1 - coords[j].1| ∨ tol < |coords[i].2.1 - coords[j].2.1| ∨
      tol < |coords[i].2.2 - coords[j].2.2|

/-- Sum of two lattice translations. -/
def addT (t w : Coord) : Coord := (t.1 + w.1, t.2.1 + w.2.1, t.2.2 + w.2.2)

/-- The operation takes the bond `p` to the bond from atom `a` to the image `w` of atom `b`: both ends moved by the
same lattice translation `t`. -/
def TakesTo (coords : List (V3 K)) (o : SymOp K) (p : SymPair K) (a b : ℕ) (w : Coord) : Prop :=
  ∃ (x y z : V3 K) (t : Coord), coords[p.site]? = some x ∧ coords[a]? = some y ∧ coords[b]? = some z ∧
    o.apply x = image y t ∧ o.apply p.neighC = image z (addT t w)

/-- Every bond is taken to a bond of two atoms by every operation. -/
def BondsSymmetric (coords : List (V3 K)) (pairs : List (SymPair K)) (ops : List (SymOp K)) : Prop :=
  ∀ p ∈ pairs, ∀ o ∈ ops, ∃ a b w, TakesTo coords o p a b w

/-- The row says: atom `a` is bonded to the image `w` of atom `b`; the plane passes at the fraction `f` of the way,
orthogonal (in fractional coordinates) to the bond; everything to twelve decimals. -/
structure DescribesBond (root : K → K) (coords : List (V3 K)) (L : M3 K) (f : K) (cov : Bool) (a b : ℕ) (w : Coord)
    (r : BondRow K) : Prop where
  site : r.site = a
  neigh : r.neigh = b
  covalent : r.covalent = cov
  place : ∃ y z, coords[a]? = some y ∧ coords[b]? = some z ∧ r.neighC = roundDecV (image z w) ∧
    r.radius = roundDec 12 (|f| * root (dist2 L (image z w) y)) ∧
    r.point = roundDecV (y.1 + f * ((image z w).1 - y.1), y.2.1 + f * ((image z w).2.1 - y.2.1),
      y.2.2 + f * ((image z w).2.2 - y.2.2)) ∧
    ∃ n : V3 K, r.vector = roundDecV n ∧
      (f ≠ 0 → image z w ≠ y → norm2 n = 1 ∧ ∃ c, 0 < c ∧
        n = (c * (f * ((image z w).1 - y.1)), c * (f * ((image z w).2.1 - y.2.1)), c * (f * ((image z w).2.2 - y.2.2))))

/-! ## Lemmas -/

theorem roundHE_same_near {a b tol : K} (htol : 0 < tol) (hab : roundHE (a / tol) = roundHE (b / tol)) : |a - b| ≤ tol := by
  have ha := abs_le.mp (roundHE_near (a / tol))
  have hb := abs_le.mp (roundHE_near (b / tol))
  rw [hab] at ha
  have e : |a / tol - b / tol| ≤ 1 := by rw [abs_le]; constructor <;> linarith [ha.1, ha.2, hb.1, hb.2]
  rw [← sub_div, abs_div, abs_of_pos htol, div_le_one htol] at e
  exact e

theorem findSite_exact {coords : List (V3 K)} {tol : K} (htol : 0 < tol) (hap : AtomsApart coords tol) {a : ℕ}
    (ha : a < coords.length) : findSite (coords.map fun s => roundV (divV s tol)) coords[a] tol = a := by
  rcases C66_lookup_partial coords coords[a] tol htol with ⟨_, _, h⟩ | ⟨j, hj, h, h1, h2, h3, _⟩
  · exact absurd (List.getElem_mem ha) h
  · by_cases e : j = a
    · rw [h, e]
    · rcases hap j a hj ha e with h' | h' | h'
      · exact absurd h1 (not_le.mpr h')
      · exact absurd h2 (not_le.mpr h')
      · exact absurd h3 (not_le.mpr h')

theorem floorV_image {y : V3 K} (t : Coord) (h : (0 ≤ y.1 ∧ y.1 < 1) ∧ (0 ≤ y.2.1 ∧ y.2.1 < 1) ∧ (0 ≤ y.2.2 ∧ y.2.2 < 1)) :
    floorV (image y t) = t := by
  obtain ⟨⟨a1, a2⟩, ⟨b1, b2⟩, c1, c2⟩ := h
  obtain ⟨t1, t2, t3⟩ := t
  simp only [floorV, image, Int.floor_add_intCast, Prod.mk.injEq]
  have z : ∀ x : K, 0 ≤ x → x < 1 → ⌊x⌋ = 0 := fun x h0 h1 => by
    rw [Int.floor_eq_iff]; simp [h0, h1]
  rw [z _ a1 a2, z _ b1 b2, z _ c1 c2]
  simp

theorem subImage_image (y : V3 K) (t : Coord) : subImage (image y t) t = y := by
  simp [subImage, image]

theorem locate_exact {coords : List (V3 K)} {tol : K} (htol : 0 < tol) (hc : InHomeCell coords)
    (hap : AtomsApart coords tol) {a : ℕ} {y : V3 K} (ha : coords[a]? = some y) (t : Coord) :
    locateAtom coords tol (image y t) = ((a : ℤ), t) := by
  obtain ⟨hl, rfl⟩ := List.getElem?_eq_some_iff.mp ha
  have hf := floorV_image t (hc _ (List.getElem_mem hl))
  unfold locateAtom
  simp only [hf, subImage_image, findSite_exact htol hap hl]
  rw [if_neg (by omega)]

theorem atomAt_nat {coords : List (V3 K)} {a : ℕ} {y : V3 K} (ha : coords[a]? = some y) : atomAt coords (a : ℤ) = y := by
  unfold atomAt pyIdx
  rw [if_neg (by omega)]
  simp [List.getD_eq_getElem?_getD, ha]

theorem root_scale {root : K → K} (hr : IsRoot root) (f x : K) (hx : 0 ≤ x) : root (f ^ 2 * x) = |f| * root x := by
  obtain ⟨h1, h2⟩ := hr x hx
  obtain ⟨h3, h4⟩ := hr (f ^ 2 * x) (by positivity)
  have h5 : (|f| * root x) * (|f| * root x) = f ^ 2 * x := by
    have := abs_mul_abs_self f
    linear_combination (root x * root x) * this + f ^ 2 * h2
  exact (mul_self_inj h3 (by positivity)).mp (h4.trans h5.symm)

theorem norm2_nn_bond (c : V3 K) : 0 ≤ norm2 c := by unfold norm2; positivity

theorem symBond_describes {root : K → K} (hr : IsRoot root) {coords : List (V3 K)} (L : M3 K) {tol : K} (htol : 0 < tol)
    (hc : InHomeCell coords) (hap : AtomsApart coords tol) {p : SymPair K} {o : SymOp K} {a b : ℕ} {w : Coord}
    (h : TakesTo coords o p a b w) :
    DescribesBond root coords L p.frac p.covalent a b w (roundRow (symBond root coords L tol p o)) := by
  obtain ⟨x, y, z, t, hx, hy, hz, h1, h2⟩ := h
  have e : subImage (image z (addT t w)) t = image z w := by
    simp only [subImage, image, addT, Prod.mk.injEq]
    push_cast
    refine ⟨by ring, by ring, by ring⟩
  have hA := locate_exact htol hc hap hy t
  have hB := locate_exact htol hc hap hz w
  have hadd : addImage z w = image z w := rfl
  have hrow : symBond root coords L tol p o = ⟨a, b,
      root (norm2 (vecMat (((subV (image z w) y).1 * p.frac, (subV (image z w) y).2.1 * p.frac,
        (subV (image z w) y).2.2 * p.frac) : V3 K) L)),
      root (norm2 (vecMat (((subV (image z w) y).1 * p.frac, (subV (image z w) y).2.1 * p.frac,
        (subV (image z w) y).2.2 * p.frac) : V3 K) L)), p.covalent,
      addV ((subV (image z w) y).1 * p.frac, (subV (image z w) y).2.1 * p.frac, (subV (image z w) y).2.2 * p.frac) y,
      divV ((subV (image z w) y).1 * p.frac, (subV (image z w) y).2.1 * p.frac, (subV (image z w) y).2.2 * p.frac)
        (root (norm2 ((subV (image z w) y).1 * p.frac, (subV (image z w) y).2.1 * p.frac,
          (subV (image z w) y).2.2 * p.frac))), image z w⟩ := by
    unfold symBond
    simp only [atomAt_nat hx, h1, h2, hA, e, hB, atomAt_nat hy, atomAt_nat hz, hadd]
  rw [hrow]
  refine ⟨rfl, rfl, rfl, y, z, hy, hz, rfl, ?_, ?_, _, rfl, ?_⟩
  · simp only [roundRow]
    rw [dist2, ← root_scale hr _ _ (norm2_nn_bond _)]
    congr 2
    simp only [norm2, vecMat, subV]
    ring
  · simp only [roundRow, addV, subV]
    congr 1
    simp only [Prod.mk.injEq]
    refine ⟨by ring, by ring, by ring⟩
  · intro hf hne
    set d := subV (image z w) y with hd
    have hd0 : 0 < norm2 ((d.1 * p.frac, d.2.1 * p.frac, d.2.2 * p.frac) : V3 K) := by
      rcases lt_or_eq_of_le (norm2_nn_bond ((d.1 * p.frac, d.2.1 * p.frac, d.2.2 * p.frac) : V3 K)) with h | h
      · exact h
      · exfalso
        apply hne
        simp only [norm2] at h
        have q1 : d.1 * p.frac = 0 := by nlinarith [sq_nonneg (d.1 * p.frac), sq_nonneg (d.2.1 * p.frac), sq_nonneg (d.2.2 * p.frac)]
        have q2 : d.2.1 * p.frac = 0 := by nlinarith [sq_nonneg (d.1 * p.frac), sq_nonneg (d.2.1 * p.frac), sq_nonneg (d.2.2 * p.frac)]
        have q3 : d.2.2 * p.frac = 0 := by nlinarith [sq_nonneg (d.1 * p.frac), sq_nonneg (d.2.1 * p.frac), sq_nonneg (d.2.2 * p.frac)]
        have q1 := (mul_eq_zero.mp q1).resolve_right hf
        have q2 := (mul_eq_zero.mp q2).resolve_right hf
        have q3 := (mul_eq_zero.mp q3).resolve_right hf
        simp only [hd, subV] at q1 q2 q3
        exact Prod.ext (by linarith) (Prod.ext (by linarith) (by linarith))
    set N := norm2 ((d.1 * p.frac, d.2.1 * p.frac, d.2.2 * p.frac) : V3 K) with hN
    obtain ⟨g1, g2⟩ := hr N hd0.le
    have g3 : root N ≠ 0 := by
      intro h0
      rw [h0] at g2
      simp at g2
      exact hd0.ne g2
    have g4 : 0 < root N := lt_of_le_of_ne g1 (Ne.symm g3)
    refine ⟨?_, (root N)⁻¹, inv_pos.mpr g4, ?_⟩
    · have hN' : (d.1 * p.frac) ^ 2 + (d.2.1 * p.frac) ^ 2 + (d.2.2 * p.frac) ^ 2 = N := by rw [hN]; rfl
      simp only [divV, norm2]
      rw [div_pow, div_pow, div_pow, ← add_div, ← add_div, hN', pow_two, g2, div_self hd0.ne']
    · simp only [divV, hd, subV, Prod.mk.injEq, div_eq_mul_inv]
      refine ⟨by ring, by ring, by ring⟩

/-! ## Theorems -/

/-- **C86** For atoms of the home cell more than the tolerance apart and bonds that the operations take to bonds of
atoms, no exception is raised, no row is repeated, every bond that an operation makes of a given bond has a row that
describes it, and every row describes such a bond. -/
theorem C86_bonds {root : K → K} (hr : IsRoot root) {coords : List (V3 K)} (L : M3 K) {tol : K} (htol : 0 < tol)
    (hc : InHomeCell coords) (hap : AtomsApart coords tol) {pairs : List (SymPair K)} {ops : List (SymOp K)}
    (hs : BondsSymmetric coords pairs ops) :
    ∃ rows, voronoiBonds root coords L tol pairs ops = some rows ∧ rows.Nodup ∧
      (∀ p ∈ pairs, ∀ o ∈ ops, ∀ a b w, TakesTo coords o p a b w →
        ∃ r ∈ rows, DescribesBond root coords L p.frac p.covalent a b w r) ∧
      (∀ r ∈ rows, ∃ p ∈ pairs, ∃ o ∈ ops, ∃ a b w, TakesTo coords o p a b w ∧
        DescribesBond root coords L p.frac p.covalent a b w r) := by
  have hback : ∀ r ∈ (genBonds root coords L tol pairs ops).dedup, ∃ p ∈ pairs, ∃ o ∈ ops, ∃ a b w,
      TakesTo coords o p a b w ∧ DescribesBond root coords L p.frac p.covalent a b w r := by
    intro r h
    rw [List.mem_dedup] at h
    simp only [genBonds, List.mem_flatMap, List.mem_map] at h
    obtain ⟨p, hp, o, ho, rfl⟩ := h
    obtain ⟨a, b, w, h⟩ := hs p hp o ho
    exact ⟨p, hp, o, ho, a, b, w, h, symBond_describes hr L htol hc hap h⟩
  refine ⟨(genBonds root coords L tol pairs ops).dedup, ?_, List.nodup_dedup _, ?_, hback⟩
  · unfold voronoiBonds
    rw [if_neg]
    rintro ⟨r, h, e⟩
    obtain ⟨p, hp, o, ho, a, b, w, _, hd⟩ := hback r h
    have := hd.site
    omega
  · intro p hp o ho a b w h
    refine ⟨roundRow (symBond root coords L tol p o), ?_, symBond_describes hr L htol hc hap h⟩
    rw [List.mem_dedup]
    simp only [genBonds, List.mem_flatMap, List.mem_map]
    exact ⟨p, hp, o, ho, rfl⟩

/-- **C86** All copies of a bond made by operations that keep distances have the same radius: the fraction of the
length of the given bond. -/
theorem C86_same_radius {root : K → K} {coords : List (V3 K)} (L : M3 K) {p : SymPair K} {o : SymOp K}
    (ho : ∀ x y : V3 K, dist2 L (o.apply x) (o.apply y) = dist2 L x y) {a b : ℕ} {w : Coord} {x : V3 K}
    (hx : coords[p.site]? = some x) (h : TakesTo coords o p a b w) {r : BondRow K}
    (hd : DescribesBond root coords L p.frac p.covalent a b w r) :
    r.radius = roundDec 12 (|p.frac| * root (dist2 L p.neighC x)) := by
  obtain ⟨x', y, z, t, hx', hy, hz, h1, h2⟩ := h
  obtain ⟨y', z', hy', hz', _, hrad, _⟩ := hd.place
  obtain rfl : y = y' := Option.some.inj (hy.symm.trans hy')
  obtain rfl : z = z' := Option.some.inj (hz.symm.trans hz')
  obtain rfl : x = x' := Option.some.inj (hx.symm.trans hx')
  rw [hrad, ← ho p.neighC x, h1, h2]
  congr 3
  simp only [dist2, norm2, vecMat, subV, image, addT]
  push_cast
  ring

/-- A point lies within the tolerance of another in every component. -/
def WithinTol (tol : K) (x y : V3 K) : Prop :=
  |x.1 - y.1| ≤ tol ∧ |x.2.1 - y.2.1| ≤ tol ∧ |x.2.2 - y.2.2| ≤ tol

theorem locate_within {coords : List (V3 K)} {tol : K} (htol : 0 < tol) (x : V3 K) :
    let l := locateAtom coords tol x
    (l.1 = -1 ∧ ∀ y ∈ coords, y ≠ subImage x (floorV x)) ∨
    ∃ (j : ℕ) (y : V3 K), l.1 = j ∧ coords[j]? = some y ∧ WithinTol tol (image y l.2) x := by
  have key : ∀ (im : Coord), findSite (coords.map fun s => roundV (divV s tol)) (subImage x im) tol ≠ -1 →
      ∃ (j : ℕ) (y : V3 K), findSite (coords.map fun s => roundV (divV s tol)) (subImage x im) tol = j ∧
        coords[j]? = some y ∧ WithinTol tol (image y im) x := by
    intro im h
    rcases C66_lookup_partial coords (subImage x im) tol htol with ⟨h', _⟩ | ⟨j, hj, e, h1, h2, h3, _⟩
    · exact absurd h' h
    · refine ⟨j, coords[j], e, List.getElem?_eq_getElem hj, ?_, ?_, ?_⟩
      · rw [show (image coords[j] im).1 - x.1 = coords[j].1 - (subImage x im).1 by simp only [image, subImage]; ring]; exact h1
      · rw [show (image coords[j] im).2.1 - x.2.1 = coords[j].2.1 - (subImage x im).2.1 by simp only [image, subImage]; ring]; exact h2
      · rw [show (image coords[j] im).2.2 - x.2.2 = coords[j].2.2 - (subImage x im).2.2 by simp only [image, subImage]; ring]; exact h3
  intro l
  by_cases h0 : findSite (coords.map fun s => roundV (divV s tol)) (subImage x (floorV x)) tol = -1
  · have hl : l = (findSite (coords.map fun s => roundV (divV s tol))
        (subImage x (floorV ((x.1 + tol, x.2.1 + tol, x.2.2 + tol) : V3 K))) tol,
        floorV ((x.1 + tol, x.2.1 + tol, x.2.2 + tol) : V3 K)) := by
      simp only [l, locateAtom, h0]
      rfl
    rw [hl]
    by_cases h1 : findSite (coords.map fun s => roundV (divV s tol))
        (subImage x (floorV ((x.1 + tol, x.2.1 + tol, x.2.2 + tol) : V3 K))) tol = -1
    · left
      refine ⟨h1, fun y hy e => ?_⟩
      rcases C66_lookup_partial coords (subImage x (floorV x)) tol htol with ⟨_, _, h'⟩ | ⟨j, hj, e', _⟩
      · exact h' (e ▸ hy)
      · omega
    · right
      exact key _ h1
  · have hl : l = (findSite (coords.map fun s => roundV (divV s tol)) (subImage x (floorV x)) tol, floorV x) := by
      simp only [l, locateAtom]
      rw [if_neg h0]
    rw [hl]
    right
    exact key _ h0

/-- **C86** Whatever the structure: in a row whose atoms were both found, the two ends, moved by one lattice
translation, lie within the tolerance of the ends of the given bond after the operation. -/
theorem C86_within_tolerance (root : K → K) {coords : List (V3 K)} (L : M3 K) {tol : K} (htol : 0 < tol) (p : SymPair K)
    (o : SymOp K) {x : V3 K} (hx : coords[p.site]? = some x)
    (h1 : (symBond root coords L tol p o).site ≠ -1) (h2 : (symBond root coords L tol p o).neigh ≠ -1) :
    ∃ (a b : ℕ) (y z : V3 K) (t w : Coord), coords[a]? = some y ∧ coords[b]? = some z ∧
      (symBond root coords L tol p o).site = a ∧ (symBond root coords L tol p o).neigh = b ∧
      (symBond root coords L tol p o).neighC = image z w ∧
      WithinTol tol (image y t) (o.apply x) ∧ WithinTol tol (image z (addT w t)) (o.apply p.neighC) := by
  have hsite : (symBond root coords L tol p o).site = (locateAtom coords tol (o.apply x)).1 := by
    unfold symBond; simp only [atomAt_nat hx]
  have hne : (symBond root coords L tol p o).neigh =
      (locateAtom coords tol (subImage (o.apply p.neighC) (locateAtom coords tol (o.apply x)).2)).1 := by
    unfold symBond; simp only [atomAt_nat hx]
  have hnc : (symBond root coords L tol p o).neighC =
      addImage (atomAt coords (locateAtom coords tol (subImage (o.apply p.neighC) (locateAtom coords tol (o.apply x)).2)).1)
        (locateAtom coords tol (subImage (o.apply p.neighC) (locateAtom coords tol (o.apply x)).2)).2 := by
    unfold symBond; simp only [atomAt_nat hx]
  rw [hsite] at h1
  rw [hne] at h2
  rcases locate_within (coords := coords) htol (o.apply x) with ⟨e, _⟩ | ⟨a, y, ea, hy, wa⟩
  · exact absurd e h1
  rcases locate_within (coords := coords) htol (subImage (o.apply p.neighC) (locateAtom coords tol (o.apply x)).2) with
    ⟨e, _⟩ | ⟨b, z, eb, hz, wb⟩
  · exact absurd e h2
  refine ⟨a, b, y, z, (locateAtom coords tol (o.apply x)).2,
    (locateAtom coords tol (subImage (o.apply p.neighC) (locateAtom coords tol (o.apply x)).2)).2, hy, hz,
    hsite.trans ea, hne.trans eb, ?_, wa, ?_⟩
  · rw [hnc, eb, atomAt_nat hz]; rfl
  · obtain ⟨q1, q2, q3⟩ := wb
    refine ⟨?_, ?_, ?_⟩
    · refine le_of_eq_of_le (congrArg abs ?_) q1
      simp only [image, addT, subImage]; push_cast; ring
    · refine le_of_eq_of_le (congrArg abs ?_) q2
      simp only [image, addT, subImage]; push_cast; ring
    · refine le_of_eq_of_le (congrArg abs ?_) q3
      simp only [image, addT, subImage]; push_cast; ring

/-- **C86** An exception is raised exactly if the site of some bond was not found after some operation. -/
theorem C86_raises (root : K → K) (coords : List (V3 K)) (L : M3 K) (tol : K) (pairs : List (SymPair K))
    (ops : List (SymOp K)) :
    voronoiBonds root coords L tol pairs ops = none ↔
      ∃ p ∈ pairs, ∃ o ∈ ops, (symBond root coords L tol p o).site = -1 := by
  have hm : ∀ r, r ∈ (genBonds root coords L tol pairs ops).dedup ↔
      ∃ p ∈ pairs, ∃ o ∈ ops, roundRow (symBond root coords L tol p o) = r := by
    intro r
    rw [List.mem_dedup]
    simp only [genBonds, List.mem_flatMap, List.mem_map]
  unfold voronoiBonds
  constructor
  · intro h
    simp only at h
    split_ifs at h with hc
    obtain ⟨r, h, e⟩ := hc
    obtain ⟨p, hp, o, ho, rfl⟩ := (hm r).mp h
    exact ⟨p, hp, o, ho, e⟩
  · rintro ⟨p, hp, o, ho, e⟩
    exact if_pos ⟨_, (hm _).mpr ⟨p, hp, o, ho, rfl⟩, e⟩

/-- **C86** (negative part) The bond length that is reported is the radius: it is computed after the bond vector was
cut to its fraction. -/
theorem C86_distance_is_radius (root : K → K) (coords : List (V3 K)) (L : M3 K) (tol : K) (pairs : List (SymPair K))
    (ops : List (SymOp K)) {rows : List (BondRow K)} (h : voronoiBonds root coords L tol pairs ops = some rows) :
    ∀ r ∈ rows, r.dist = r.radius := by
  unfold voronoiBonds at h
  simp only at h
  split_ifs at h
  obtain rfl := Option.some.inj h
  intro r hr
  rw [List.mem_dedup] at hr
  simp only [genBonds, List.mem_flatMap, List.mem_map] at hr
  obtain ⟨p, _, o, _, rfl⟩ := hr
  rfl
end

/-! ## Witnesses -/

/-- The identity. -/
def idOp : SymOp ℚ := ⟨((1, 0, 0), (0, 1, 0), (0, 0, 1)), (0, 0, 0)⟩
/-- Inversion through the origin. -/
def invOp : SymOp ℚ := ⟨((-1, 0, 0), (0, -1, 0), (0, 0, -1)), (0, 0, 0)⟩
/-- Two atoms, the bond from the first to the second at a quarter. -/
def demoBondAtoms : List (V3 ℚ) := [(0, 0, 0), (1 / 2, 0, 0)]
def demoBond : SymPair ℚ := ⟨0, (1 / 2, 0, 0), true, 1 / 4⟩
/-- A function that is the square root of the numbers that occur below. -/
def demoBondRoot (x : ℚ) : ℚ := if x = 1 / 64 then 1 / 8 else if x = 1 / 4 then 1 / 2 else if x = 1 then 1 else 0

/-- **C86** (negative part) A bond of length 1/2 cut at a quarter: the length given is 1/8. -/
theorem C86_distance_wrong :
    (voronoiBonds demoBondRoot demoBondAtoms ((1, 0, 0), (0, 1, 0), (0, 0, 1)) (1 / 50) [demoBond] [idOp, invOp]).map
      (List.map fun r => (r.neighC, r.radius, r.dist)) =
    some [((1 / 2, 0, 0), 1 / 8, 1 / 8), ((-1 / 2, 0, 0), 1 / 8, 1 / 8)] ∧
    demoBondRoot (dist2 ((1, 0, 0), (0, 1, 0), (0, 0, 1)) (1 / 2, 0, 0) (0, 0, 0)) = 1 / 2 := by decide +kernel

/-- **C86** (negative part) A neighbour that is not found raises no exception: the third atom is a fiftieth of a
percent of the cell away from where inversion takes the second, falls into another chunk, is reported as atom -1, and the bond is drawn
to the last atom of the list. -/
theorem C86_neighbour_missed :
    (voronoiBonds demoBondRoot [(0, 0, 0), (2899 / 10000, 0, 0), (7099 / 10000, 0, 0), (0, 1 / 2, 0)]
      ((1, 0, 0), (0, 1, 0), (0, 0, 1)) (1 / 50) [⟨0, (2899 / 10000, 0, 0), true, 1 / 4⟩] [invOp]).map
      (List.map fun r => (r.site, r.neigh, r.neighC)) =
    some [(0, -1, (-1, 1 / 2, 0))] ∧
    (invOp.apply (2899 / 10000, 0, 0)).1 - (image ((7099 / 10000, 0, 0) : V3 ℚ) (-1, 0, 0)).1 = 1 / 5000 := by
  decide +kernel

/-- Non-vacuity: the bond and the operations above. -/
example : InHomeCell demoBondAtoms ∧ TakesTo demoBondAtoms idOp demoBond 0 1 (0, 0, 0) ∧
    TakesTo demoBondAtoms invOp demoBond 0 1 (-1, 0, 0) := by
  refine ⟨?_, ⟨(0, 0, 0), (0, 0, 0), (1 / 2, 0, 0), (0, 0, 0), ?_⟩, ⟨(0, 0, 0), (0, 0, 0), (1 / 2, 0, 0), (0, 0, 0), ?_⟩⟩
  · unfold InHomeCell; decide +kernel
  · decide +kernel
  · decide +kernel

example : AtomsApart demoBondAtoms (1 / 50) ∧ BondsSymmetric demoBondAtoms [demoBond] [idOp, invOp] := by
  constructor
  · intro i j hi hj hne
    have hi' : i < 2 := hi
    have hj' : j < 2 := hj
    left
    interval_cases i <;> interval_cases j <;> first | exact absurd rfl hne | (simp [demoBondAtoms]; norm_num [abs_of_pos])
  · intro p hp o ho
    simp only [List.mem_cons, List.not_mem_nil, or_false] at hp ho
    subst hp
    rcases ho with rfl | rfl
    · exact ⟨0, 1, (0, 0, 0), (0, 0, 0), (0, 0, 0), (1 / 2, 0, 0), (0, 0, 0), by decide +kernel⟩
    · exact ⟨0, 1, (-1, 0, 0), (0, 0, 0), (0, 0, 0), (1 / 2, 0, 0), (0, 0, 0), by decide +kernel⟩

end BaderKit
