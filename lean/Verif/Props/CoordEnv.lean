import Verif.Model.CoordEnv
import Verif.Props.Assign
/-! # Properties C36 and C37: nearest neighbours -/
set_option linter.unusedSectionVars false
namespace BaderKit
variable {K : Type*} [Field K] [LinearOrder K] [IsStrictOrderedRing K]

theorem mem_images27 (s : Coord) : s ∈ images27 ↔ |s.1| ≤ 1 ∧ |s.2.1| ≤ 1 ∧ |s.2.2| ≤ 1 := by
  have m3 : ∀ d : ℤ, d ∈ ([-1, 0, 1] : List ℤ) ↔ |d| ≤ 1 := by
    intro d
    rw [abs_le]
    simp only [List.mem_cons, List.not_mem_nil, or_false]
    omega
  obtain ⟨a, b, c⟩ := s
  unfold images27
  simp only [List.mem_flatMap, List.mem_map, m3, Prod.mk.injEq]
  constructor
  · rintro ⟨i, hi, j, hj, k, hk, rfl, rfl, rfl⟩
    exact ⟨hi, hj, hk⟩
  · rintro ⟨hi, hj, hk⟩
    exact ⟨a, hi, b, hj, c, hk, rfl, rfl, rfl⟩

theorem shift_sub (L : M3 K) (a f : V3 K) (s : Coord) :
    norm2 (subV (vecMat a L) (vecMat (shiftFrac f s) L)) =
      dist2 L (image a (-s.1, -s.2.1, -s.2.2)) f := by
  simp only [dist2, norm2, subV, vecMat, shiftFrac, image]
  push_cast
  ring

/-! ## Nearest neighbour of an atom -/

theorem nn_fold (cs : List (K × ℕ × Coord)) : ∀ st : K × Option (ℕ × Coord),
    (cs.foldl nnStep st).1 ≤ st.1 ∧ (∀ c ∈ cs, (cs.foldl nnStep st).1 ≤ c.1) ∧
    ((cs.foldl nnStep st = st) ∨ ∃ c ∈ cs, c.1 < st.1 ∧ cs.foldl nnStep st = (c.1, some c.2)) := by
  induction cs with
  | nil => intro st; simp
  | cons x xs ih =>
    intro st
    rw [List.foldl_cons]
    obtain ⟨h1, h2, h3⟩ := ih (nnStep st x)
    have hx : (nnStep st x).1 ≤ st.1 ∧ (nnStep st x).1 ≤ x.1 := by
      unfold nnStep
      split_ifs with h
      · exact ⟨h.le, le_rfl⟩
      · exact ⟨le_rfl, not_lt.mp h⟩
    refine ⟨h1.trans hx.1, fun c hc => ?_, ?_⟩
    · rcases List.mem_cons.mp hc with rfl | hc
      · exact h1.trans hx.2
      · exact h2 c hc
    · rcases h3 with h3 | ⟨c, hc, hlt, he⟩
      · rw [h3]
        unfold nnStep
        split_ifs with h
        · exact Or.inr ⟨x, List.mem_cons_self, h, rfl⟩
        · exact Or.inl rfl
      · exact Or.inr ⟨c, List.mem_cons_of_mem _ hc, hlt.trans_le hx.1, he⟩

theorem mem_nnCandidates (root : K → K) (L : M3 K) (frac : List (V3 K)) (i : ℕ) (hi : i < frac.length)
    (x : K × ℕ × Coord) :
    x ∈ nnCandidates root L frac (frac.map fun f => vecMat f L) i ↔
      ∃ (j : ℕ) (hj : j < frac.length) (t : Coord), (|t.1| ≤ 1 ∧ |t.2.1| ≤ 1 ∧ |t.2.2| ≤ 1) ∧
        ¬ (j = i ∧ t = (0, 0, 0)) ∧ x = (root (dist2 L (image frac[j] t) frac[i]), j, t) := by
  have hget : frac.getD i (0, 0, 0) = frac[i] := by simp [List.getD, hi]
  unfold nnCandidates
  simp only [List.mem_flatMap, List.mem_filterMap, mem_images27, hget]
  constructor
  · rintro ⟨s, hs, c, hc, hx⟩
    split_ifs at hx with hne
    rw [Option.some.injEq] at hx
    have hc' := List.mem_zipIdx' hc
    have hj : c.2 < frac.length := by simpa using hc'.1
    refine ⟨c.2, hj, (-s.1, -s.2.1, -s.2.2), ?_, ?_, ?_⟩
    · simpa [abs_neg] using hs
    · rintro ⟨h1, h2⟩
      refine hne ⟨h1, ?_⟩
      simp only [Prod.mk.injEq, neg_eq_zero] at h2
      exact Prod.ext h2.1 (Prod.ext h2.2.1 h2.2.2)
    · rw [← hx, hc'.2, List.getElem_map, shift_sub]
  · rintro ⟨j, hj, t, ht, hne, rfl⟩
    refine ⟨(-t.1, -t.2.1, -t.2.2), by simpa [abs_neg] using ht, (vecMat frac[j] L, j), ?_, ?_⟩
    · rw [List.mem_zipIdx_iff_getElem?]
      simp [hj]
    · rw [if_neg]
      · rw [shift_sub]; simp
      · rintro ⟨h1, h2⟩
        refine hne ⟨h1, ?_⟩
        simp only [Prod.mk.injEq, neg_eq_zero] at h2
        exact Prod.ext h2.1 (Prod.ext h2.2.1 h2.2.2)

/-- **C36** The distance reported for atom `i` is not larger than 100 nor than the distance to any atom in
the 27 cells around it (the atom itself in the home cell excepted); and either no such distance is below 100
(then the distance is 100 and the neighbour is not set) or the reported neighbour, in the reported cell, is
one of them and has this distance. -/
theorem C36_minimum (root : K → K) (L : M3 K) (frac : List (V3 K)) (i : ℕ) (hi : i < frac.length) :
    let r := nearestNeighbor root L frac (frac.map fun f => vecMat f L) i
    r.1 ≤ 100 ∧
    (∀ (j : ℕ) (hj : j < frac.length) (t : Coord), |t.1| ≤ 1 → |t.2.1| ≤ 1 → |t.2.2| ≤ 1 →
      ¬ (j = i ∧ t = (0, 0, 0)) → r.1 ≤ root (dist2 L (image frac[j] t) frac[i])) ∧
    (r = (100, none) ∨ ∃ (j : ℕ) (hj : j < frac.length) (t : Coord), ¬ (j = i ∧ t = (0, 0, 0)) ∧
      (|t.1| ≤ 1 ∧ |t.2.1| ≤ 1 ∧ |t.2.2| ≤ 1) ∧
      r = (root (dist2 L (image frac[j] t) frac[i]), some (j, t)) ∧ r.1 < 100) := by
  intro r
  obtain ⟨h1, h2, h3⟩ := nn_fold (nnCandidates root L frac (frac.map fun f => vecMat f L) i) (100, none)
  refine ⟨h1, fun j hj t a b c hne => ?_, ?_⟩
  · exact h2 _ ((mem_nnCandidates root L frac i hi _).mpr ⟨j, hj, t, ⟨a, b, c⟩, hne, rfl⟩)
  · rcases h3 with h3 | ⟨c, hc, hlt, he⟩
    · exact Or.inl h3
    · obtain ⟨j, hj, t, ht, hne, rfl⟩ := (mem_nnCandidates root L frac i hi _).mp hc
      refine Or.inr ⟨j, hj, t, hne, ht, he, ?_⟩
      change (List.foldl nnStep _ _).1 < 100
      rw [he]; exact hlt

/-- An integer bringing a number below 3/2 to at most 1/2. -/
theorem exists_shift (d : K) (h : |d| < 3 / 2) : ∃ t : ℤ, |t| ≤ 1 ∧ |d + t| ≤ 1 / 2 := by
  rw [abs_lt] at h
  by_cases h1 : d ≤ -(1 / 2)
  · exact ⟨1, by norm_num, by rw [abs_le]; push_cast; constructor <;> linarith [h.1]⟩
  · by_cases h2 : 1 / 2 ≤ d
    · exact ⟨-1, by norm_num, by rw [abs_le]; push_cast; constructor <;> linarith [h.2]⟩
    · exact ⟨0, by norm_num, by rw [abs_le]; push_cast; constructor <;> linarith⟩

/-- In an orthogonal cell a nearest image is among the 27. -/
theorem exists_nearest {root : K → K} (hr : RootLike root) {L : M3 K} (hL : Orthogonal L) {a b : V3 K}
    (h : CloseBy a b) : ∃ t : Coord, (|t.1| ≤ 1 ∧ |t.2.1| ≤ 1 ∧ |t.2.2| ≤ 1) ∧
      ∀ u : Coord, root (dist2 L (image a t) b) ≤ root (dist2 L (image a u) b) := by
  obtain ⟨t1, b1, c1⟩ := exists_shift _ h.1
  obtain ⟨t2, b2, c2⟩ := exists_shift _ h.2.1
  obtain ⟨t3, b3, c3⟩ := exists_shift _ h.2.2
  refine ⟨(t1, t2, t3), ⟨b1, b2, b3⟩, fun u => ?_⟩
  have e : subV (image a (t1, t2, t3)) b = (a.1 - b.1 + t1, a.2.1 - b.2.1 + t2, a.2.2 - b.2.2 + t3) := by
    simp only [subV, image]
    ext <;> simp only <;> ring
  have := (nearest_of_half hr hL (a := a) (b := b) (t1, t2, t3) e.symm c1 c2 c3).2 u
  rw [← e] at this
  exact this

/-- **C36** (partial) In a cell with orthogonal lattice vectors and atoms at most one and a half cells apart
(e.g. all in the unit cell), the reported distance is the smallest distance to any *other* site of the infinite
crystal, if that is below 100.  Missing: skewed cells (`C36_skewed_wrong`). -/
theorem C36_crystal_partial (root : K → K) (hr : RootLike root) (L : M3 K) (hL : Orthogonal L)
    (frac : List (V3 K)) (hclose : ∀ a ∈ frac, ∀ b ∈ frac, CloseBy a b) (i : ℕ) (hi : i < frac.length)
    (j : ℕ) (hj : j < frac.length) (t : Coord) (hne : ¬ (j = i ∧ t = (0, 0, 0))) :
    (nearestNeighbor root L frac (frac.map fun f => vecMat f L) i).1 ≤
      root (dist2 L (image frac[j] t) frac[i]) := by
  obtain ⟨_, h2, _⟩ := C36_minimum root L frac i hi
  by_cases hji : j = i
  · subst hji
    have ht : t ≠ (0, 0, 0) := fun h => hne ⟨rfl, h⟩
    -- a unit step along an axis on which `t` is not zero
    have key : ∀ e : Coord, (|e.1| ≤ 1 ∧ |e.2.1| ≤ 1 ∧ |e.2.2| ≤ 1) → e ≠ (0, 0, 0) →
        (e.1 ^ 2 ≤ t.1 ^ 2 ∧ e.2.1 ^ 2 ≤ t.2.1 ^ 2 ∧ e.2.2 ^ 2 ≤ t.2.2 ^ 2) →
        (nearestNeighbor root L frac (frac.map fun f => vecMat f L) j).1 ≤
          root (dist2 L (image frac[j] t) frac[j]) := by
      intro e he he0 hle
      refine (h2 j hj e he.1 he.2.1 he.2.2 (fun h => he0 h.2)).trans ?_
      refine (hr _ _ (norm2_nonneg _) (norm2_nonneg _)).mpr ?_
      change dist2 L (image frac[j] e) frac[j] ≤ dist2 L (image frac[j] t) frac[j]
      have d : ∀ u : Coord, dist2 L (image frac[j] u) frac[j] =
          (u.1 : K) ^ 2 * norm2 L.1 + (u.2.1 : K) ^ 2 * norm2 L.2.1 + (u.2.2 : K) ^ 2 * norm2 L.2.2 := by
        intro u
        unfold dist2
        rw [norm2_orth hL]
        simp [subV, image]
      rw [d, d]
      have c1 : ((e.1 : K)) ^ 2 ≤ (t.1 : K) ^ 2 := by exact_mod_cast hle.1
      have c2 : ((e.2.1 : K)) ^ 2 ≤ (t.2.1 : K) ^ 2 := by exact_mod_cast hle.2.1
      have c3 : ((e.2.2 : K)) ^ 2 ≤ (t.2.2 : K) ^ 2 := by exact_mod_cast hle.2.2
      have p1 := mul_le_mul_of_nonneg_right c1 (norm2_nonneg L.1)
      have p2 := mul_le_mul_of_nonneg_right c2 (norm2_nonneg L.2.1)
      have p3 := mul_le_mul_of_nonneg_right c3 (norm2_nonneg L.2.2)
      linarith
    have sq1 : ∀ z : ℤ, z ≠ 0 → (1 : ℤ) ^ 2 ≤ z ^ 2 := fun z hz => by
      have : 0 < z ^ 2 := by positivity
      omega
    by_cases a1 : t.1 = 0
    · by_cases a2 : t.2.1 = 0
      · have a3 : t.2.2 ≠ 0 := fun h => ht (Prod.ext a1 (Prod.ext a2 h))
        exact key (0, 0, 1) (by simp) (by simp) ⟨by simp [sq_nonneg], by simp [sq_nonneg], sq1 _ a3⟩
      · exact key (0, 1, 0) (by simp) (by simp) ⟨by simp [sq_nonneg], sq1 _ a2, by simp [sq_nonneg]⟩
    · exact key (1, 0, 0) (by simp) (by simp) ⟨sq1 _ a1, by simp [sq_nonneg], by simp [sq_nonneg]⟩
  · obtain ⟨s, hs, hmin⟩ := exists_nearest hr hL
      (hclose _ (List.getElem_mem hj) _ (List.getElem_mem hi))
    exact (h2 j hj s hs.1 hs.2.1 hs.2.2 (fun h => hji h.1)).trans (hmin t)

/-- **C36** (negative part) In a strongly skewed cell the nearest neighbour can be outside the 27 cells: the
second vector is (5/2, 1/10, 0), and the image two cells down the first axis and one up the second is nearer. -/
theorem C36_skewed_wrong :
    ∃ (L : M3 ℚ) (frac : List (V3 ℚ)) (t : Coord), (∀ f ∈ frac, f = (0, 0, 0)) ∧ t ≠ (0, 0, 0) ∧
      dist2 L (image (frac.getD 0 (0, 0, 0)) t) (frac.getD 0 (0, 0, 0)) <
        (nearestNeighbor (fun x => x) L frac (frac.map fun f => vecMat f L) 0).1 := by
  refine ⟨((1, 0, 0), (5 / 2, 1 / 10, 0), (0, 0, 1)), [(0, 0, 0)], (-2, 1, 0), by simp, by decide, ?_⟩
  decide +kernel

/-- Non-vacuity of C36: two atoms in the unit cube; the neighbour of atom 0 is atom 1 in the cell to the
left. -/
example : nearestNeighbor (fun x : ℚ => x) cubeL [(1 / 10, 0, 0), (9 / 10, 0, 0)]
    ([(1 / 10, 0, 0), (9 / 10, 0, 0)].map fun f => vecMat f cubeL) 0 = (1 / 25, some (1, (-1, 0, 0))) := by
  decide +kernel

/-! ## Distances to atoms -/

theorem min_fold (ds : List K) : ∀ b : K,
    let r := ds.foldl (fun (best d : K) => if d ≤ best then d else best) b
    r ≤ b ∧ (∀ d ∈ ds, r ≤ d) ∧ (r = b ∨ r ∈ ds) := by
  induction ds with
  | nil => intro b; simp
  | cons x xs ih =>
    intro b
    obtain ⟨h1, h2, h3⟩ := ih (if x ≤ b then x else b)
    have hx : (if x ≤ b then x else b) ≤ b ∧ (if x ≤ b then x else b) ≤ x := by
      split_ifs with h
      · exact ⟨h, le_rfl⟩
      · exact ⟨le_rfl, (not_le.mp h).le⟩
    refine ⟨h1.trans hx.1, fun d hd => ?_, ?_⟩
    · rcases List.mem_cons.mp hd with rfl | hd
      · exact h1.trans hx.2
      · exact h2 d hd
    · simp only [List.foldl_cons]
      rcases h3 with h3 | h3
      · rw [h3]
        split_ifs with h
        · exact Or.inr List.mem_cons_self
        · exact Or.inl rfl
      · exact Or.inr (List.mem_cons_of_mem _ h3)

/-- **C36** The distance from a feature to each atom: the smallest over the 27 cells, at most a million; in an
orthogonal cell it is the distance to the nearest image of the atom in the infinite crystal (if that is at
most a million). -/
theorem C36_dists (root : K → K) (L : M3 K) (f : V3 K) (frac : List (V3 K)) :
    (distsToAtoms root L f (frac.map fun a => vecMat a L)).length = frac.length ∧
    ∀ (j : ℕ) (hj : j < frac.length) (hj' : j < (distsToAtoms root L f (frac.map fun a => vecMat a L)).length),
      let d := (distsToAtoms root L f (frac.map fun a => vecMat a L))[j]
      d ≤ 10 ^ 6 ∧ (∀ t : Coord, |t.1| ≤ 1 → |t.2.1| ≤ 1 → |t.2.2| ≤ 1 →
        d ≤ root (dist2 L (image frac[j] t) f)) ∧
      (d = 10 ^ 6 ∨ ∃ t : Coord, (|t.1| ≤ 1 ∧ |t.2.1| ≤ 1 ∧ |t.2.2| ≤ 1) ∧
        d = root (dist2 L (image frac[j] t) f)) ∧
      (RootLike root → Orthogonal L → CloseBy frac[j] f →
        d = 10 ^ 6 ∨ IsNearest root L frac[j] f d) := by
  refine ⟨by simp [distsToAtoms], fun j hj hj' => ?_⟩
  simp only [distsToAtoms, List.getElem_map]
  obtain ⟨h1, h2, h3⟩ := min_fold
    (images27.map fun s => root (norm2 (subV (vecMat frac[j] L) (vecMat (shiftFrac f s) L)))) (10 ^ 6)
  have g2 : ∀ t : Coord, |t.1| ≤ 1 → |t.2.1| ≤ 1 → |t.2.2| ≤ 1 →
      distToAtom root L f (vecMat frac[j] L) ≤ root (dist2 L (image frac[j] t) f) := by
    intro t a b c
    refine h2 _ (List.mem_map.mpr ⟨(-t.1, -t.2.1, -t.2.2), (mem_images27 _).mpr (by simpa [abs_neg] using
      ⟨a, b, c⟩), ?_⟩)
    rw [shift_sub]; simp
  have g3 : distToAtom root L f (vecMat frac[j] L) = 10 ^ 6 ∨ ∃ t : Coord,
      (|t.1| ≤ 1 ∧ |t.2.1| ≤ 1 ∧ |t.2.2| ≤ 1) ∧
      distToAtom root L f (vecMat frac[j] L) = root (dist2 L (image frac[j] t) f) := by
    rcases h3 with h3 | h3
    · exact Or.inl h3
    · obtain ⟨s, hs, he⟩ := List.mem_map.mp h3
      refine Or.inr ⟨(-s.1, -s.2.1, -s.2.2), by simpa [abs_neg] using (mem_images27 _).mp hs, ?_⟩
      rw [← shift_sub]
      exact he.symm
  refine ⟨h1, g2, g3, fun hr hL hc => ?_⟩
  rcases g3 with g3 | ⟨t, _, ht⟩
  · exact Or.inl g3
  · refine Or.inr ⟨⟨t, ht⟩, fun u => ?_⟩
    obtain ⟨s, hs, hmin⟩ := exists_nearest hr hL hc
    exact (g2 s hs.1 hs.2.1 hs.2.2).trans (hmin u)

/-! ## The three nearest atoms of a feature -/

/-- What a selection says about the candidates seen: together with the starting values its three distances
are the three smallest, in order, and the first two belong to the named atoms. -/
def Selects (seen : List (K × V3 K × ℕ)) (st : Three K) : Prop :=
  (∃ rest : List K, (List.replicate 3 ((10 : K) ^ 6) ++ seen.map fun c => c.1).Perm
      (st.d1 :: st.d2 :: st.d3 :: rest) ∧ st.d1 ≤ st.d2 ∧ st.d2 ≤ st.d3 ∧ ∀ x ∈ rest, st.d3 ≤ x) ∧
  ((st.a1 = -1 ∧ st.d1 = 10 ^ 6) ∨ ∃ c ∈ seen, st.d1 = c.1 ∧ st.v1 = c.2.1 ∧ st.a1 = c.2.2) ∧
  ((st.a2 = -1 ∧ st.d2 = 10 ^ 6) ∨ ∃ c ∈ seen, st.d2 = c.1 ∧ st.v2 = c.2.1 ∧ st.a2 = c.2.2)

theorem threeStep_selects (seen : List (K × V3 K × ℕ)) (st : Three K) (c : K × V3 K × ℕ)
    (h : Selects seen st) : Selects (seen ++ [c]) (threeStep st c) := by
  obtain ⟨⟨rest, hp, h12, h23, hr⟩, ha1, ha2⟩ := h
  have up : ∀ {P : K × V3 K × ℕ → Prop}, (∃ x ∈ seen, P x) → ∃ x ∈ seen ++ [c], P x :=
    fun ⟨x, hx, hP⟩ => ⟨x, List.mem_append_left _ hx, hP⟩
  have hc : c ∈ seen ++ [c] := by simp
  have base : (List.replicate 3 ((10 : K) ^ 6) ++ (seen ++ [c]).map fun c => c.1).Perm
      (c.1 :: st.d1 :: st.d2 :: st.d3 :: rest) := by
    rw [List.map_append, ← List.append_assoc]
    refine (List.perm_append_comm).trans ?_
    simpa using hp.cons c.1
  unfold threeStep
  split_ifs with g1 g2 g3
  · refine ⟨⟨st.d3 :: rest, base, g1, h12, fun x hx => ?_⟩, Or.inr ⟨c, hc, rfl, rfl, rfl⟩, ?_⟩
    · rcases List.mem_cons.mp hx with rfl | hx
      · exact h23
      · exact h23.trans (hr x hx)
    · rcases ha1 with ha | ha
      · exact Or.inl ha
      · exact Or.inr (up ha)
  · refine ⟨⟨st.d3 :: rest, base.trans (List.Perm.swap _ _ _), (not_le.mp g1).le, g2, fun x hx => ?_⟩,
      ?_, Or.inr ⟨c, hc, rfl, rfl, rfl⟩⟩
    · rcases List.mem_cons.mp hx with rfl | hx
      · exact h23
      · exact h23.trans (hr x hx)
    · rcases ha1 with ha | ha
      · exact Or.inl ha
      · exact Or.inr (up ha)
  · refine ⟨⟨st.d3 :: rest, base.trans ?_, h12, (not_le.mp g2).le, fun x hx => ?_⟩, ?_, ?_⟩
    · exact (List.Perm.swap _ _ _).trans ((List.Perm.swap _ _ _).cons _)
    · rcases List.mem_cons.mp hx with rfl | hx
      · exact g3.le
      · exact g3.le.trans (hr x hx)
    · rcases ha1 with ha | ha
      · exact Or.inl ha
      · exact Or.inr (up ha)
    · rcases ha2 with ha | ha
      · exact Or.inl ha
      · exact Or.inr (up ha)
  · refine ⟨⟨c.1 :: rest, base.trans ?_, h12, h23, fun x hx => ?_⟩, ?_, ?_⟩
    · exact (List.Perm.swap _ _ _).trans (((List.Perm.swap _ _ _).trans ((List.Perm.swap _ _ _).cons _)).cons _)
    · rcases List.mem_cons.mp hx with rfl | hx
      · exact not_lt.mp g3
      · exact hr x hx
    · rcases ha1 with ha | ha
      · exact Or.inl ha
      · exact Or.inr (up ha)
    · rcases ha2 with ha | ha
      · exact Or.inl ha
      · exact Or.inr (up ha)

/-- **C37** After any sequence of candidates the selection holds the three smallest distances seen (the three
starting values of a million included), in order, and the first two together with their vectors and atoms. -/
theorem C37_three_smallest (cs : List (K × V3 K × ℕ)) (junk : V3 K) :
    Selects cs (cs.foldl threeStep ⟨10 ^ 6, 10 ^ 6, 10 ^ 6, junk, junk, -1, -1⟩) := by
  have key : ∀ (cs seen : List (K × V3 K × ℕ)) (st : Three K), Selects seen st →
      Selects (seen ++ cs) (cs.foldl threeStep st) := by
    intro cs
    induction cs with
    | nil => intro seen st h; simpa using h
    | cons c cs ih =>
      intro seen st h
      have := ih _ _ (threeStep_selects seen st c h)
      simpa using this
  have h0 : Selects ([] : List (K × V3 K × ℕ)) ⟨10 ^ 6, 10 ^ 6, 10 ^ 6, junk, junk, -1, -1⟩ := by
    refine ⟨⟨[], ?_, le_rfl, le_rfl, by simp⟩, Or.inl ⟨rfl, rfl⟩, Or.inl ⟨rfl, rfl⟩⟩
    simp [List.replicate]
  simpa using key cs [] _ h0

/-- **C37** What a positive verdict of the covalent check means, in terms of the sites around the feature:
there are two sites, of the named atoms and in the 27 cells, such that all other sites (counted with
multiplicity, in the 27 cells) are at least one percent farther away than the second one, and the angle
between the directions to the two sites is not below the threshold. -/
theorem C37_verdict (root : K → K) (angle : V3 K → V3 K → K) (L : M3 K) (f : V3 K) (frac : List (V3 K))
    (junk : V3 K) (minAngle : K) (a1 a2 : ℤ)
    (h : checkCovalent root angle L f (frac.map fun a => vecMat a L) junk minAngle = some (true, a1, a2))
    (hfar : ∀ a ∈ frac, ∀ t ∈ images27, root (dist2 L (image a t) f) < 10 ^ 6)
    (hpos : ∀ x, 0 ≤ root x) :
    ∃ (d1 d2 : K) (v1 v2 : V3 K) (rest : List K),
      ((covCandidates root L f (frac.map fun a => vecMat a L)).map fun c => c.1).Perm (d1 :: d2 :: rest) ∧
      d1 ≤ d2 ∧ (∀ x ∈ rest, d2 + d2 / 100 ≤ x) ∧ minAngle ≤ angle v1 v2 ∧
      (d1, v1, a1) ∈ (covCandidates root L f (frac.map fun a => vecMat a L)).map
        (fun c => (c.1, c.2.1, (c.2.2 : ℤ))) ∧
      (d2, v2, a2) ∈ (covCandidates root L f (frac.map fun a => vecMat a L)).map
        (fun c => (c.1, c.2.1, (c.2.2 : ℤ))) := by
  have hsel := C37_three_smallest (covCandidates root L f (frac.map fun a => vecMat a L)) junk
  unfold checkCovalent at h
  simp only at h
  change Selects _ (threeNearest root L f (frac.map fun a => vecMat a L) junk) at hsel
  set t := threeNearest root L f (frac.map fun a => vecMat a L) junk with ht
  obtain ⟨⟨rest, hp, h12, h23, hr⟩, ha1, ha2⟩ := hsel
  have hclose : ∀ c ∈ covCandidates root L f (frac.map fun a => vecMat a L), c.1 < 10 ^ 6 := by
    intro c hc
    unfold covCandidates at hc
    simp only [List.mem_flatMap, List.mem_map] at hc
    obtain ⟨s, hs, x, hx, rfl⟩ := hc
    have hx' := List.mem_zipIdx' hx
    have hlen : x.2 < frac.length := by simpa using hx'.1
    simp only
    rw [hx'.2, List.getElem_map, shift_sub]
    refine hfar _ (List.getElem_mem hlen) _ ((mem_images27 _).mpr ?_)
    simpa [abs_neg] using (mem_images27 _).mp hs
  split_ifs at h with g0 g1 g2
  all_goals simp only [Option.some.injEq, Prod.mk.injEq, Bool.false_eq_true, false_and, true_and] at h
  obtain ⟨rfl, rfl⟩ := h
  have hd2pos : 0 < t.d2 := by
    rcases ha2 with ha | ⟨c, hc, he, _, _⟩
    · rw [ha.2]; positivity
    · refine lt_of_le_of_ne ?_ (Ne.symm g0)
      rw [he]
      unfold covCandidates at hc
      simp only [List.mem_flatMap, List.mem_map] at hc
      obtain ⟨s, hs, x, hx, rfl⟩ := hc
      exact hpos _
  have h3 : t.d2 + t.d2 / 100 ≤ t.d3 := by
    rw [not_lt, le_div_iff₀ hd2pos] at g1
    linarith
  -- both atoms are set: otherwise the third distance would not be larger
  have hall : ∀ x ∈ t.d1 :: t.d2 :: t.d3 :: rest, x ≤ 10 ^ 6 := by
    intro x hx
    have := hp.mem_iff.mpr hx
    rcases List.mem_append.mp this with h' | h'
    · rw [List.eq_of_mem_replicate h']
    · obtain ⟨c, hc, rfl⟩ := List.mem_map.mp h'
      exact (hclose c hc).le
  have hd3 : t.d3 ≤ 10 ^ 6 := hall _ (by simp)
  have hd2lt : t.d2 < 10 ^ 6 := by
    have : 0 < t.d2 / 100 := by positivity
    linarith
  have m2 : ∃ c ∈ covCandidates root L f (frac.map fun a => vecMat a L),
      t.d2 = c.1 ∧ t.v2 = c.2.1 ∧ t.a2 = c.2.2 := by
    rcases ha2 with ha | ha
    · exact absurd ha.2 hd2lt.ne
    · exact ha
  have m1 : ∃ c ∈ covCandidates root L f (frac.map fun a => vecMat a L),
      t.d1 = c.1 ∧ t.v1 = c.2.1 ∧ t.a1 = c.2.2 := by
    rcases ha1 with ha | ha
    · exact absurd ha.2 (h12.trans_lt hd2lt).ne
    · exact ha
  -- remove the three starting values from both sides
  set ds := (covCandidates root L f (frac.map fun a => vecMat a L)).map fun c => c.1 with hds
  have hcount : ∃ rest', (t.d3 :: rest).Perm (List.replicate 3 ((10 : K) ^ 6) ++ rest') := by
    have hc3 : List.count ((10 : K) ^ 6) (t.d3 :: rest) = 3 := by
      have e := hp.count_eq ((10 : K) ^ 6)
      rw [List.count_append, List.count_replicate_self, List.count_cons_of_ne (h12.trans_lt hd2lt).ne,
        List.count_cons_of_ne hd2lt.ne] at e
      have z : List.count ((10 : K) ^ 6) ds = 0 := List.count_eq_zero.mpr fun hm => by
        obtain ⟨c, hc, he⟩ := List.mem_map.mp hm
        exact (hclose c hc).ne he
      omega
    have : (List.replicate 3 ((10 : K) ^ 6)).Subperm (t.d3 :: rest) := by
      rw [List.subperm_ext_iff]
      intro x hx
      rw [List.eq_of_mem_replicate hx, hc3, List.count_replicate_self]
    obtain ⟨l0, hl0, hsub⟩ := this
    obtain ⟨l, hl⟩ := hsub.exists_perm_append
    exact ⟨l, hl.trans (hl0.append_right _)⟩
  obtain ⟨rest', hrest'⟩ := hcount
  refine ⟨t.d1, t.d2, t.v1, t.v2, rest', ?_, h12, fun x hx => ?_, not_lt.mp g2, ?_, ?_⟩
  · have : (List.replicate 3 ((10 : K) ^ 6) ++ ds).Perm
        (List.replicate 3 ((10 : K) ^ 6) ++ (t.d1 :: t.d2 :: rest')) := by
      refine hp.trans ?_
      refine (((hrest'.cons t.d2).cons t.d1)).trans ?_
      have := (List.perm_append_comm_assoc [t.d1, t.d2] (List.replicate 3 ((10 : K) ^ 6)) rest')
      simpa using this
    exact (List.perm_append_left_iff _).mp this
  · have : x ∈ t.d3 :: rest := hrest'.mem_iff.mpr (List.mem_append_right _ hx)
    rcases List.mem_cons.mp this with rfl | hx'
    · exact h3
    · exact h3.trans (hr x hx')
  · obtain ⟨c, hc, e1, e2, e3⟩ := m1
    exact List.mem_map.mpr ⟨c, hc, by rw [e1, e2, e3]⟩
  · obtain ⟨c, hc, e1, e2, e3⟩ := m2
    exact List.mem_map.mpr ⟨c, hc, by rw [e1, e2, e3]⟩

/-- Non-vacuity of C37: a feature between two atoms (distances squared), with a fixed angle. -/
example : checkCovalent (fun x : ℚ => x) (fun a b => -dotV a b) cubeL (1 / 2, 1 / 2, 1 / 2)
    ([(3 / 10, 1 / 2, 1 / 2), (8 / 10, 1 / 2, 1 / 2)].map fun f => vecMat f cubeL) (0, 0, 0) 0 =
    some (true, 0, 1) := by decide +kernel

end BaderKit
