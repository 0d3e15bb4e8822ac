import Verif.Model.FeatureNearest
import Verif.Props.NearestGeneral
import Verif.Props.Merge
/-!
# C121: the nearest atom of a feature
-/
set_option linter.unusedSectionVars false
namespace BaderKit
variable {K : Type} [Field K] [LinearOrder K] [IsStrictOrderedRing K] [FloorRing K]

/-! ## Specification -/

/-- Atom `i` at distance `d` is a nearest atom of the infinite crystal to the point `f`, and the first in the list among those equally near. -/
def IsNearestAtom (root : K → K) (L : M3 K) (frac : List (V3 K)) (f : V3 K) (i : ℕ) (d : K) : Prop :=
  (∃ (a : V3 K) (t : ℤ × ℤ × ℤ), frac[i]? = some a ∧ d = root (dist2 L (image a t) f)) ∧
  (∀ (j : ℕ) (a : V3 K) (t : ℤ × ℤ × ℤ), frac[j]? = some a → d ≤ root (dist2 L (image a t) f)) ∧
  ∀ (j : ℕ) (a : V3 K) (t : ℤ × ℤ × ℤ), j < i → frac[j]? = some a → d < root (dist2 L (image a t) f)

/-- The coordinate lies in the unit cell. -/
def CoordInCell (a : V3 K) : Prop := (0 ≤ a.1 ∧ a.1 < 1) ∧ (0 ≤ a.2.1 ∧ a.2.1 < 1) ∧ (0 ≤ a.2.2 ∧ a.2.2 < 1)

/-! ## Proofs -/

theorem mergeAxis_range (cs : List K) : 0 ≤ mergeAxis cs ∧ mergeAxis cs < 1 := by
  unfold mergeAxis
  split
  · exact mod1_range _
  · simp only
    split_ifs
    · exact mod1_range _
    · exact mod1_range _

theorem featCenter_inCell {maxima : List (V3 K)} {basins : List ℕ} {f : V3 K} (h : featCenter maxima basins = some f) : CoordInCell f := by
  unfold featCenter at h
  obtain ⟨cs, -, rfl⟩ := Option.map_eq_some_iff.mp h
  exact ⟨mergeAxis_range _, mergeAxis_range _, mergeAxis_range _⟩

theorem inCell_close {a b : V3 K} (ha : CoordInCell a) (hb : CoordInCell b) : |a.1 - b.1| < 1 ∧ |a.2.1 - b.2.1| < 1 ∧ |a.2.2 - b.2.2| < 1 := by
  obtain ⟨⟨a1, a2⟩, ⟨a3, a4⟩, a5, a6⟩ := ha
  obtain ⟨⟨b1, b2⟩, ⟨b3, b4⟩, b5, b6⟩ := hb
  refine ⟨?_, ?_, ?_⟩ <;> rw [abs_lt] <;> constructor <;> linarith

/-- What the getters return in any case: the place and the value of the first smallest number of the list of distances. -/
theorem featNearest_spec {root : K → K} {L : M3 K} {frac maxima : List (V3 K)} {basins : List ℕ} {f : V3 K}
    (hc : featCenter maxima basins = some f) (hne : frac ≠ []) :
    ∃ (i : ℕ) (d : K), featNearestAtom root L frac maxima basins = some i ∧ featAtomDistance root L frac maxima basins = some d ∧
      (∃ hi : i < frac.length, d = distToAtom root L f (vecMat frac[i] L)) ∧
      ∀ (j : ℕ) (hj : j < frac.length), d ≤ distToAtom root L f (vecMat frac[j] L) ∧ (j < i → d < distToAtom root L f (vecMat frac[j] L)) := by
  set ds := distsToAtoms root L f (frac.map fun a => vecMat a L) with hds
  have hlen : ds.length = frac.length := by simp [hds, distsToAtoms]
  have hget : ∀ (j : ℕ) (h : j < ds.length) (h' : j < frac.length), ds[j] = distToAtom root L f (vecMat frac[j] L) := by
    intro j h h'
    simp [hds, distsToAtoms]
  have hdne : ds ≠ [] := by
    intro h
    rw [h] at hlen
    exact hne (List.length_eq_zero_iff.mp hlen.symm)
  have hA : featAtomDists root L frac maxima basins = some ds := by
    unfold featAtomDists
    rw [hc]; rfl
  obtain ⟨i, hi⟩ := argmin_isSome hdne
  obtain ⟨hil, hmin⟩ := argmin_spec hi
  have hmn : ds.min? = some ds[i] := by
    rw [List.min?_eq_some_iff]
    refine ⟨List.getElem_mem _, fun b hb => ?_⟩
    obtain ⟨j, hj, rfl⟩ := List.mem_iff_getElem.mp hb
    exact (hmin j hj).1
  refine ⟨i, ds[i], by simp [featNearestAtom, hA, hi], by simp [featAtomDistance, hA, hmn], ⟨hlen ▸ hil, hget i hil (hlen ▸ hil)⟩, fun j hj => ?_⟩
  rw [← hget j (hlen.symm ▸ hj) hj]
  exact hmin j _

theorem distToAtom_facts (root : K → K) (L : M3 K) (f a : V3 K) :
    distToAtom root L f (vecMat a L) ≤ 10 ^ 6 ∧
    (∀ t : Coord, |t.1| ≤ 1 → |t.2.1| ≤ 1 → |t.2.2| ≤ 1 → distToAtom root L f (vecMat a L) ≤ root (dist2 L (image a t) f)) ∧
    (distToAtom root L f (vecMat a L) = 10 ^ 6 ∨ ∃ t : Coord, distToAtom root L f (vecMat a L) = root (dist2 L (image a t) f)) := by
  have := (C36_dists root L f [a]).2 0 (by simp) (by simp [distsToAtoms])
  simp only [distsToAtoms, List.map_cons, List.map_nil, List.getElem_cons_zero] at this
  obtain ⟨h1, h2, h3, -⟩ := this
  exact ⟨h1, h2, h3.imp id fun ⟨t, _, h⟩ => ⟨t, h⟩⟩

/-- The conclusion from a bound on all images below the reported distance. -/
theorem nearestAtom_of {root : K → K} {L : M3 K} {frac maxima : List (V3 K)} {basins : List ℕ} {f : V3 K}
    (hc : featCenter maxima basins = some f) (hne : frac ≠ [])
    (hall : ∀ a ∈ frac, ∀ t : Coord, distToAtom root L f (vecMat a L) ≤ root (dist2 L (image a t) f))
    (hnear : ∃ a ∈ frac, distToAtom root L f (vecMat a L) < 10 ^ 6) :
    ∃ (i : ℕ) (d : K), featNearestAtom root L frac maxima basins = some i ∧ featAtomDistance root L frac maxima basins = some d ∧
      IsNearestAtom root L frac f i d := by
  obtain ⟨i, d, h1, h2, ⟨hi, hd⟩, h4⟩ := featNearest_spec (root := root) (L := L) hc hne
  refine ⟨i, d, h1, h2, ?_, ?_, ?_⟩
  · obtain ⟨a, ha, hlt⟩ := hnear
    obtain ⟨j, hj, rfl⟩ := List.mem_iff_getElem.mp ha
    have hlt' : d < 10 ^ 6 := lt_of_le_of_lt (h4 j hj).1 hlt
    obtain ⟨-, -, h⟩ := distToAtom_facts root L f frac[i]
    rw [← hd] at h
    rcases h with h | ⟨t, h⟩
    · exact absurd h hlt'.ne
    · exact ⟨_, t, List.getElem?_eq_getElem hi, h⟩
  · intro j a t hj
    obtain ⟨hjl, rfl⟩ := List.getElem?_eq_some_iff.mp hj
    exact (h4 j hjl).1.trans (hall _ (List.getElem_mem hjl) t)
  · intro j a t hji hj
    obtain ⟨hjl, rfl⟩ := List.getElem?_eq_some_iff.mp hj
    exact lt_of_lt_of_le ((h4 j hjl).2 hji) (hall _ (List.getElem_mem hjl) t)

/-- **C121** (partial) In an orthogonal cell with the atoms in the unit cell, one of them less than a million from the feature: `nearest_atom` and
`atom_distance` are the nearest atom of the infinite crystal to the centre of the feature and its distance, and the first among equally near atoms.
Missing: skewed cells (`C121_skewed_wrong`; `C121_short` says when the result is right there) and atoms outside the unit cell
(`C121_outside_wrong`). -/
theorem C121_nearest_partial (root : K → K) (hr : RootLike root) (L : M3 K) (hL : Orthogonal L) (frac maxima : List (V3 K)) (basins : List ℕ)
    (f : V3 K) (hc : featCenter maxima basins = some f) (hin : ∀ a ∈ frac, CoordInCell a)
    (hnear : ∃ a ∈ frac, root (dist2 L a f) < 10 ^ 6) :
    ∃ (i : ℕ) (d : K), featNearestAtom root L frac maxima basins = some i ∧ featAtomDistance root L frac maxima basins = some d ∧
      IsNearestAtom root L frac f i d := by
  have hf := featCenter_inCell hc
  refine nearestAtom_of hc (by rintro rfl; simp at hnear) (fun a ha u => ?_) ?_
  · obtain ⟨c1, c2, c3⟩ := inCell_close (hin a ha) hf
    obtain ⟨s, hs, hmin⟩ := exists_nearest hr hL (a := a) (b := f) ⟨by linarith, by linarith, by linarith⟩
    exact ((distToAtom_facts root L f a).2.1 s hs.1 hs.2.1 hs.2.2).trans (hmin u)
  · obtain ⟨a, ha, h⟩ := hnear
    refine ⟨a, ha, lt_of_le_of_lt ?_ h⟩
    have := (distToAtom_facts root L f a).2.1 (0, 0, 0) (by simp) (by simp) (by simp)
    simpa [image] using this

/-- **C121.** In a cell of any shape with the atoms in the unit cell: when the reported distance is at most each distance between opposite faces of
the cell (and less than a million), it is the distance to a nearest atom of the infinite crystal and `nearest_atom` is such an atom, no atom before
it being nearer. -/
theorem C121_short (root : K → K) (hr : IsRoot root) (L B : M3 K) (hB : Reciprocal L B) (frac maxima : List (V3 K)) (basins : List ℕ)
    (f : V3 K) (hc : featCenter maxima basins = some f) (hin : ∀ a ∈ frac, CoordInCell a) (i : ℕ) (d : K)
    (h1 : featNearestAtom root L frac maxima basins = some i) (h2 : featAtomDistance root L frac maxima basins = some d)
    (hshort : WithinFaces B 1 d) (hd6 : d < 10 ^ 6) :
    (∃ (a : V3 K) (t : ℤ × ℤ × ℤ), frac[i]? = some a ∧ d = root (dist2 L (image a t) f)) ∧
    ∀ (j : ℕ) (a : V3 K) (t : ℤ × ℤ × ℤ), frac[j]? = some a → d ≤ root (dist2 L (image a t) f) := by
  have hne : frac ≠ [] := by
    rintro rfl
    simp [featNearestAtom, featAtomDists, hc, distsToAtoms, argmin] at h1
  obtain ⟨i', d', g1, g2, ⟨hi, hd⟩, h4⟩ := featNearest_spec (root := root) (L := L) hc hne
  rw [h1] at g1; rw [h2] at g2
  cases g1; cases g2
  have hf := featCenter_inCell hc
  constructor
  · obtain ⟨-, -, h⟩ := distToAtom_facts root L f frac[i]
    rw [← hd] at h
    rcases h with h | ⟨t, h⟩
    · exact absurd h hd6.ne
    · exact ⟨_, t, List.getElem?_eq_getElem hi, h⟩
  · intro j a t hj
    obtain ⟨hjl, rfl⟩ := List.getElem?_eq_some_iff.mp hj
    by_contra hlt
    rw [not_le] at hlt
    obtain ⟨c1, c2, c3⟩ := comp_lt hB (by norm_num) hshort (hr.lt_of_lt (norm2_nonneg _) hlt)
    obtain ⟨d1, d2, d3⟩ := inCell_close (hin _ (List.getElem_mem hjl)) hf
    have key : ∀ (a b : K) (n : ℤ), |a - b| < 1 → |a + n - b| < 1 → |n| ≤ 1 := by
      intro a b n h1 h2
      obtain ⟨x1, x2⟩ := abs_lt.mp h1
      obtain ⟨y1, y2⟩ := abs_lt.mp h2
      have l1 : (n : K) < 2 := by linarith
      have l2 : (-2 : K) < n := by linarith
      have l1' : n < 2 := by exact_mod_cast l1
      have l2' : -2 < n := by exact_mod_cast l2
      rw [abs_le]
      constructor <;> omega
    have := (distToAtom_facts root L f frac[j]).2.1 t (key _ _ _ d1 c1) (key _ _ _ d2 c2) (key _ _ _ d3 c3)
    exact absurd hlt (not_lt.mpr ((h4 j hjl).1.trans this))

/-- **C121.** The reported species is the one of the reported atom, and the first distance listed for a feature of an atom (whose only neighbour is
its nearest atom) is the reported distance. -/
theorem C121_species (root : K → K) (L : M3 K) (atoms : List (String × V3 K)) (maxima : List (V3 K)) (basins : List ℕ) (f : V3 K)
    (hc : featCenter maxima basins = some f) (hne : atoms ≠ []) :
    ∃ (i : ℕ) (hi : i < atoms.length) (d : K), featNearestAtom root L (atoms.map Prod.snd) maxima basins = some i ∧
      featNearestSpecies root L atoms maxima basins = some (atoms[i].1) ∧
      featAtomDistance root L (atoms.map Prod.snd) maxima basins = some d ∧
      featCoordDists root L (atoms.map Prod.snd) maxima basins [i] = some [d] := by
  obtain ⟨i, d, h1, h2, ⟨hi, hd⟩, h4⟩ := featNearest_spec (root := root) (L := L) (frac := atoms.map Prod.snd) hc (by simpa using hne)
  have hi' : i < atoms.length := by simpa using hi
  refine ⟨i, hi', d, h1, by simp [featNearestSpecies, h1, List.getElem?_eq_getElem hi'], h2, ?_⟩
  have hA : featAtomDists root L (atoms.map Prod.snd) maxima basins =
      some (distsToAtoms root L f ((atoms.map Prod.snd).map fun a => vecMat a L)) := by
    unfold featAtomDists; rw [hc]; rfl
  simp only [featCoordDists, hA, Option.bind_some, List.mapM_cons, List.mapM_nil]
  rw [hd]
  simp [distsToAtoms, List.getElem?_eq_getElem hi']

/-- **C121.** The centre and with it every getter is defined for a feature whose basins exist; without atoms the getters raise. -/
theorem C121_defined (root : K → K) (L : M3 K) (frac maxima : List (V3 K)) (basins : List ℕ) :
    ((∀ b ∈ basins, b < maxima.length) ↔ (featCenter maxima basins).isSome) ∧
    (featNearestAtom root L [] maxima basins = none ∧ featAtomDistance root L [] maxima basins = none) := by
  constructor
  · unfold featCenter featFracs
    rw [Option.isSome_map]
    induction basins with
    | nil => simp
    | cons b bs ih =>
      rw [List.mapM_cons]
      by_cases hb : b < maxima.length
      · simp only [List.mem_cons, forall_eq_or_imp, hb, true_and, List.getElem?_eq_getElem hb]
        rw [ih]
        cases h : bs.mapM (fun b => maxima[b]?) <;> simp [h]
      · simp [hb, List.getElem?_eq_none (not_lt.mp hb)]
  · cases h : featCenter maxima basins <;> simp [featNearestAtom, featAtomDistance, featAtomDists, h, distsToAtoms, argmin]

/-- **C121** (negative part) In a skewed cell the second atom is reported (squared distance 1) although an image of the first one is nearer (squared
distance about 1/4). -/
theorem C121_skewed_wrong :
    let L : M3 ℚ := ((1, 0, 0), (5, 1 / 10, 0), (0, 0, 2))
    let frac : List (V3 ℚ) := [(0, 1 / 2, 0), (0, 0, 1 / 2)]
    featCenter [((0 : ℚ), (0 : ℚ), (0 : ℚ))] [0] = some (0, 0, 0) ∧
    featNearestAtom (fun x => x) L frac [(0, 0, 0)] [0] = some 1 ∧ featAtomDistance (fun x => x) L frac [(0, 0, 0)] [0] = some 1 ∧
    dist2 L (image (0, 1 / 2, 0) (2, -1, 0)) (0, 0, 0) < 1 / 2 := by
  decide +kernel

/-- **C121** (negative part) With an atom given two cells away the second atom is reported although an image of the first one is at the centre. -/
theorem C121_outside_wrong :
    let frac : List (V3 ℚ) := [(2, 0, 0), (1 / 2, 0, 0)]
    featNearestAtom (fun x => x) cubeL frac [(0, 0, 0)] [0] = some 1 ∧ dist2 cubeL (image (2, 0, 0) (-2, 0, 0)) ((0 : ℚ), (0 : ℚ), (0 : ℚ)) = 0 := by
  decide +kernel

/-- Non-vacuity: a feature of two maxima on both sides of the face of the cube has its centre on the face; of the two atoms the second one is nearest,
across the face. -/
example : featCenter [((9 / 10 : ℚ), (1 / 2 : ℚ), (1 / 2 : ℚ)), (3 / 10, 1 / 2, 1 / 2)] [0, 1] = some (1 / 10, 1 / 2, 1 / 2) ∧
    featNearestAtom (fun x => x) cubeL [(1 / 2, 1 / 2, 1 / 2), (9 / 10, 1 / 2, 1 / 2)] [((9 / 10 : ℚ), (1 / 2 : ℚ), (1 / 2 : ℚ)), (3 / 10, 1 / 2, 1 / 2)]
      [0, 1] = some 1 ∧
    (∀ a ∈ [((1 / 2 : ℚ), (1 / 2 : ℚ), (1 / 2 : ℚ)), (9 / 10, 1 / 2, 1 / 2)], CoordInCell a) := by
  refine ⟨by decide +kernel, by decide +kernel, ?_⟩
  unfold CoordInCell; decide +kernel

end BaderKit
