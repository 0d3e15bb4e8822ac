import Verif.Spec.Assign
import Verif.Props.Voxels
import Verif.Lemmas.Neargrid
import Mathlib.Data.List.GetD
import Mathlib.Algebra.BigOperators.Group.Finset.Sigma
import Mathlib.Algebra.BigOperators.Field
import Mathlib.Tactic.Positivity
import Mathlib.Analysis.SpecialFunctions.Pow.Real
/-! # Properties C23, C24, C49 and C55: from basins to atoms -/
set_option linter.unusedSectionVars false
namespace BaderKit
variable {K : Type*} [Field K] [LinearOrder K] [IsStrictOrderedRing K]

/-! ## `argmin` and `bincount` -/

theorem argmin_fold (xs : List K) : ∀ (pre : List K) (bi : ℕ) (b : K), bi < pre.length →
    pre[bi]? = some b → (∀ (j : ℕ) (y : K), pre[j]? = some y → b ≤ y ∧ (j < bi → b < y)) →
    let r := xs.foldl (fun (st : ℕ × ℕ × K) y =>
      (st.1 + 1, if y < st.2.2 then (st.1, y) else st.2)) (pre.length, bi, b)
    r.2.1 < (pre ++ xs).length ∧ (pre ++ xs)[r.2.1]? = some r.2.2 ∧
      ∀ (j : ℕ) (y : K), (pre ++ xs)[j]? = some y → r.2.2 ≤ y ∧ (j < r.2.1 → r.2.2 < y) := by
  induction xs with
  | nil =>
    intro pre bi b h1 h2 h3
    simpa using ⟨h1, h2, h3⟩
  | cons x xs ih =>
    intro pre bi b h1 h2 h3
    have e : pre ++ x :: xs = (pre ++ [x]) ++ xs := by simp
    simp only [List.foldl_cons]
    rw [e]
    have el : (pre ++ [x]).length = pre.length + 1 := by simp
    rw [← el]
    by_cases hx : x < b
    · simp only [hx, if_true]
      apply ih
      · simp
      · simp
      · intro j y hy
        rcases Nat.lt_trichotomy j pre.length with hj | hj | hj
        · rw [List.getElem?_append_left hj] at hy
          have := (h3 j y hy).1
          exact ⟨by linarith, fun _ => by linarith⟩
        · subst hj
          simp at hy
          subst hy
          exact ⟨le_rfl, fun h => absurd h (lt_irrefl _)⟩
        · rw [List.getElem?_eq_none (by simp; omega)] at hy
          exact absurd hy (by simp)
    · simp only [hx, if_false]
      apply ih
      · simp; omega
      · rw [List.getElem?_append_left h1]; exact h2
      · intro j y hy
        rcases Nat.lt_trichotomy j pre.length with hj | hj | hj
        · rw [List.getElem?_append_left hj] at hy
          exact h3 j y hy
        · subst hj
          simp at hy
          subst hy
          exact ⟨not_lt.mp hx, fun h => absurd h (by omega)⟩
        · rw [List.getElem?_eq_none (by simp; omega)] at hy
          exact absurd hy (by simp)

theorem argmin_spec {xs : List K} {i : ℕ} (h : argmin xs = some i) :
    ∃ hi : i < xs.length, ∀ (j : ℕ) (hj : j < xs.length), xs[i] ≤ xs[j] ∧ (j < i → xs[i] < xs[j]) := by
  cases xs with
  | nil => simp [argmin] at h
  | cons x xs =>
    simp only [argmin, Option.some.injEq] at h
    obtain ⟨h1, h2, h3⟩ := argmin_fold xs [x] 0 x (by simp) (by simp) (by
      intro j y hy
      cases j with
      | zero => simp at hy; subst hy; exact ⟨le_rfl, fun h => absurd h (lt_irrefl _)⟩
      | succ j => simp at hy)
    simp only [List.length_singleton, List.singleton_append] at h1 h2 h3
    rw [h] at h1 h2 h3
    refine ⟨h1, fun j hj => ?_⟩
    rw [List.getElem?_eq_getElem h1, Option.some.injEq] at h2
    rw [h2]
    exact h3 j _ (List.getElem?_eq_getElem hj)

theorem argmin_isSome {xs : List K} (h : xs ≠ []) : ∃ i, argmin xs = some i := by
  cases xs with
  | nil => exact absurd rfl h
  | cons x xs => exact ⟨_, rfl⟩

theorem bincount_fold (l : List (ℕ × K)) (a : ℕ) : ∀ acc : ℕ → K,
    l.foldl (fun (acc : ℕ → K) e => Function.update acc e.1 (acc e.1 + e.2)) acc a =
      acc a + (l.map fun e => if e.1 = a then e.2 else 0).sum := by
  induction l with
  | nil => intro acc; simp
  | cons e l ih =>
    intro acc
    rw [List.foldl_cons, ih, List.map_cons, List.sum_cons]
    by_cases h : e.1 = a
    · subst h; simp; ring
    · rw [Function.update_of_ne (fun h' => h h'.symm)]; simp [h]

theorem bincount_apply (xs : List ℕ) (ws : List K) (a : ℕ) :
    bincount xs ws a = ((xs.zip ws).map fun e => if e.1 = a then e.2 else 0).sum := by
  unfold bincount; rw [bincount_fold]; simp

theorem zip_sum_eq (f : ℕ → K → K) : ∀ (xs : List ℕ) (ws : List K), xs.length = ws.length →
    ((xs.zip ws).map fun e => f e.1 e.2).sum =
      ∑ i ∈ Finset.range ws.length, f (xs.getD i 0) (ws.getD i 0) := by
  intro xs
  induction xs with
  | nil => intro ws h; cases ws with
    | nil => simp
    | cons w ws => simp at h
  | cons x xs ih =>
    intro ws h
    cases ws with
    | nil => simp at h
    | cons w ws =>
      simp only [List.length_cons, Nat.add_right_cancel_iff] at h
      rw [List.zip_cons_cons, List.map_cons, List.sum_cons, ih ws h, List.length_cons,
        Finset.sum_range_succ']
      simp [add_comm]

theorem list_sum_range (ws : List K) : ws.sum = ∑ i ∈ Finset.range ws.length, ws.getD i 0 := by
  induction ws with
  | nil => simp
  | cons w ws ih =>
    rw [List.sum_cons, List.length_cons, Finset.sum_range_succ', ih]
    simp [add_comm]

theorem bincount_sum {xs : List ℕ} {ws : List K} (h : xs.length = ws.length) (a : ℕ) :
    bincount xs ws a = ∑ i ∈ (Finset.range ws.length).filter (fun i => xs.getD i 0 = a), ws.getD i 0 := by
  rw [bincount_apply, Finset.sum_filter, ← zip_sum_eq (fun x w => if x = a then w else 0) xs ws h]

theorem bincount_total {xs : List ℕ} {ws : List K} (h : xs.length = ws.length) {n : ℕ}
    (hn : ∀ x ∈ xs, x < n) : ∑ a ∈ Finset.range n, bincount xs ws a = ws.sum := by
  rw [list_sum_range]
  simp only [bincount_sum h, Finset.sum_filter]
  rw [Finset.sum_comm]
  refine Finset.sum_congr rfl fun i hi => ?_
  have hi' : i < xs.length := by rw [h]; exact Finset.mem_range.mp hi
  have : xs.getD i 0 < n := hn _ (by rw [List.getD_eq_getElem _ _ hi']; exact List.getElem_mem _)
  rw [Finset.sum_ite_eq, if_pos (Finset.mem_range.mpr this)]

/-! ## The assignment -/

theorem mapM_some_spec {α β : Type*} (f : α → Option β) : ∀ (l : List α) (r : List β),
    l.mapM f = some r → r.length = l.length ∧ ∀ i (h : i < l.length) (h' : i < r.length),
      f l[i] = some r[i] := by
  intro l
  induction l with
  | nil => intro r h; simp at h; subst h; simp
  | cons x l ih =>
    intro r h
    rw [List.mapM_cons] at h
    cases hx : f x with
    | none => simp [hx] at h
    | some y =>
      cases hl : l.mapM f with
      | none => simp [hx, hl] at h
      | some ys =>
        simp [hx, hl] at h
        subst h
        obtain ⟨h1, h2⟩ := ih ys hl
        refine ⟨by simp [h1], fun i hi hi' => ?_⟩
        cases i with
        | zero => simpa using hx
        | succ i => simpa using h2 i (by simpa using hi) (by simpa using hi')

theorem mapM_isSome {α β : Type*} (f : α → Option β) : ∀ (l : List α), (∀ x ∈ l, ∃ y, f x = some y) →
    ∃ r, l.mapM f = some r := by
  intro l
  induction l with
  | nil => intro _; exact ⟨[], rfl⟩
  | cons x l ih =>
    intro h
    obtain ⟨y, hy⟩ := h x (by simp)
    obtain ⟨ys, hys⟩ := ih (fun z hz => h z (by simp [hz]))
    exact ⟨y :: ys, by rw [List.mapM_cons, hy, hys]; rfl⟩

/-- Everything about the result of the assignment in one place. -/
theorem assignBasins_spec {root : K → K} {L : M3 K} {atoms basins : List (V3 K)} {labels : ℕ → ℤ}
    {bc bv : List K} {r : Assignment K} (h : assignBasins root L atoms basins labels bc bv = some r) :
    r.basinAtoms.length = basins.length ∧ r.dists.length = basins.length ∧
    (∀ (i : ℕ) (hi : i < basins.length) (h1 : i < r.basinAtoms.length) (h2 : i < r.dists.length),
      ∃ ha : r.basinAtoms[i] < atoms.length,
        r.dists[i] = root (norm2 (vecMat (wrapHalfV (subV atoms[r.basinAtoms[i]] basins[i])) L)) ∧
        ∀ (j : ℕ) (hj : j < atoms.length),
          r.dists[i] ≤ root (norm2 (vecMat (wrapHalfV (subV atoms[j] basins[i])) L)) ∧
          (j < r.basinAtoms[i] →
            r.dists[i] < root (norm2 (vecMat (wrapHalfV (subV atoms[j] basins[i])) L)))) ∧
    (∀ v, r.atomLabels v = (r.basinAtoms.map (fun (i : ℕ) => (i : ℤ)) ++ [-1]).getD
      (pyIdx (r.basinAtoms.length + 1) (labels v)) 0) ∧
    r.charges = bincount r.basinAtoms bc ∧ r.volumes = bincount r.basinAtoms bv := by
  unfold assignBasins at h
  simp only [Option.map_eq_some_iff] at h
  obtain ⟨idx, h1, rfl⟩ := h
  obtain ⟨h2, h3⟩ := mapM_some_spec _ _ _ h1
  rw [List.length_map] at h2
  refine ⟨h2, by simp [h2], ?_, ?_, rfl, rfl⟩
  · intro i hi hi1 hi2
    have := h3 i (by simpa using hi) hi1
    rw [List.getElem_map] at this
    obtain ⟨g1, g2⟩ := argmin_spec this
    have g1' : idx[i] < atoms.length := by simpa [distRow] using g1
    refine ⟨g1', ?_⟩
    have e : (List.zipWith (fun (row : List K) (i : ℕ) => row.getD i 0)
        (basins.map (distRow root L atoms)) idx)[i]'hi2 = (distRow root L atoms basins[i])[idx[i]] := by
      rw [List.getElem_zipWith]
      simp only [List.getElem_map]
      rw [List.getD_eq_getElem _ _ g1]
    simp only [e]
    refine ⟨by simp [distRow], fun j hj => ?_⟩
    have := g2 j (by simpa [distRow] using hj)
    simpa [distRow] using this
  · intro v; simp

/-- **C23** For every assignment that the library makes: each atom's charge (volume) is the sum over
exactly the basins assigned to it, the atom totals add up to the basin totals, every basin is assigned to
an atom of the structure, a voxel of basin `b` carries the atom of `b`, and vacuum voxels carry `-1`. -/
theorem C23_atom_totals (root : K → K) (L : M3 K) (atoms basins : List (V3 K)) (labels : ℕ → ℤ)
    (bc bv : List K) (r : Assignment K) (hc : bc.length = basins.length)
    (hv : bv.length = basins.length)
    (h : assignBasins root L atoms basins labels bc bv = some r) :
    (r.basinAtoms.length = basins.length ∧ ∀ a ∈ r.basinAtoms, a < atoms.length) ∧
    (∀ a, r.charges a = ∑ b ∈ (Finset.range basins.length).filter
      (fun b => r.basinAtoms[b]? = some a), bc.getD b 0) ∧
    (∀ a, r.volumes a = ∑ b ∈ (Finset.range basins.length).filter
      (fun b => r.basinAtoms[b]? = some a), bv.getD b 0) ∧
    ∑ a ∈ Finset.range atoms.length, r.charges a = bc.sum ∧
    ∑ a ∈ Finset.range atoms.length, r.volumes a = bv.sum ∧
    (∀ v, labels v = -1 → r.atomLabels v = -1) ∧
    (∀ v (b : ℕ), labels v = b → b < basins.length →
      ∃ a, r.basinAtoms[b]? = some a ∧ r.atomLabels v = a) := by
  obtain ⟨h1, h2, h3, h4, h5, h6⟩ := assignBasins_spec h
  have hmem : ∀ a ∈ r.basinAtoms, a < atoms.length := by
    intro a ha
    obtain ⟨i, hi, rfl⟩ := List.mem_iff_getElem.mp ha
    exact (h3 i (by omega) hi (by omega)).1
  have hb : ∀ (ws : List K), ws.length = basins.length → ∀ a, bincount r.basinAtoms ws a =
      ∑ b ∈ (Finset.range basins.length).filter (fun b => r.basinAtoms[b]? = some a), ws.getD b 0 := by
    intro ws hws a
    rw [bincount_sum (by omega), hws]
    congr 1
    ext b
    simp only [Finset.mem_filter, Finset.mem_range]
    constructor
    · rintro ⟨a1, a2⟩
      have hb' : b < r.basinAtoms.length := by omega
      rw [List.getD_eq_getElem _ _ hb'] at a2
      exact ⟨a1, by rw [List.getElem?_eq_getElem hb', a2]⟩
    · rintro ⟨a1, a2⟩
      exact ⟨a1, by simp [List.getD, a2]⟩
  refine ⟨⟨h1, hmem⟩, by rw [h5]; exact hb bc hc, by rw [h6]; exact hb bv hv,
    by rw [h5]; exact bincount_total (by omega) hmem, by rw [h6]; exact bincount_total (by omega) hmem,
    fun v hl => ?_, fun v b hl hbl => ?_⟩
  · rw [h4, hl]
    have : pyIdx (r.basinAtoms.length + 1) (-1) = r.basinAtoms.length := by
      simp [pyIdx]
    rw [this]
    simp [List.getD]
  · have hb' : b < r.basinAtoms.length := by omega
    refine ⟨r.basinAtoms[b], List.getElem?_eq_getElem hb', ?_⟩
    rw [h4, hl]
    have : pyIdx (r.basinAtoms.length + 1) (b : ℤ) = b := by
      simp [pyIdx]
    rw [this, List.getD_append _ _ _ _ (by simpa using hb'), List.getD_eq_getElem _ _ (by simpa using hb')]
    simp

/-- **C23** For the methods that give whole voxels to basins: the charge of an atom is the sum of the
density over exactly the voxels that carry its label, divided by the number of voxels; its volume is the
share of these voxels in the cell; and atoms and vacuum together have the whole charge. -/
theorem C23_atom_voxels (root : K → K) (L : M3 K) (atoms basins : List (V3 K)) (s : Shape)
    (data : ℕ → K) (labels : ℕ → ℤ) (V : K) (r : Assignment K) (hs : 0 < s.size)
    (hlab : ∀ v < s.size, -1 ≤ labels v ∧ labels v < basins.length)
    (h : assignBasins root L atoms basins labels
      ((List.range basins.length).map (basinChargesVolumes s data labels V).charges)
      ((List.range basins.length).map (basinChargesVolumes s data labels V).volumes) = some r) :
    (∀ a : ℕ, r.charges a =
      (∑ v ∈ (Finset.range s.size).filter (fun v => r.atomLabels v = a), data v) / s.size) ∧
    (∀ a : ℕ, r.volumes a =
      (((Finset.range s.size).filter (fun v => r.atomLabels v = a)).card : K) * V / s.size) ∧
    ∑ a ∈ Finset.range atoms.length, r.charges a + (basinChargesVolumes s data labels V).vacCharge =
      (∑ v ∈ Finset.range s.size, data v) / s.size := by
  obtain ⟨⟨h1, hm⟩, h2, h3, h4, _, h6, h7⟩ := C23_atom_totals root L atoms basins labels _ _ r
    (by simp) (by simp) h
  obtain ⟨c1, c2, _, _⟩ := C12_per_basin s data labels V
  have key : ∀ (f : ℕ → K) (a : ℕ),
      ∑ b ∈ (Finset.range basins.length).filter (fun b => r.basinAtoms[b]? = some a),
        ∑ v ∈ (Finset.range s.size).filter (fun v => labels v = b), f v =
      ∑ v ∈ (Finset.range s.size).filter (fun v => r.atomLabels v = a), f v := by
    intro f a
    simp only [Finset.sum_filter]
    have : ∀ b ∈ Finset.range basins.length,
        (if r.basinAtoms[b]? = some a then ∑ v ∈ Finset.range s.size, if labels v = b then f v else 0
          else 0) =
        ∑ v ∈ Finset.range s.size, if labels v = b ∧ r.basinAtoms[b]? = some a then f v else 0 := by
      intro b _
      by_cases hb : r.basinAtoms[b]? = some a <;> simp [hb]
    rw [Finset.sum_congr rfl this, Finset.sum_comm]
    refine Finset.sum_congr rfl fun v hv => ?_
    obtain ⟨l1, l2⟩ := hlab v (Finset.mem_range.mp hv)
    by_cases hneg : labels v = -1
    · rw [h6 v hneg]
      rw [if_neg (by omega)]
      exact Finset.sum_eq_zero fun b _ => by rw [if_neg (by omega)]
    · obtain ⟨b, hb⟩ : ∃ b : ℕ, labels v = b := ⟨(labels v).toNat, by omega⟩
      have hbl : b < basins.length := by omega
      obtain ⟨a', ha', ha''⟩ := h7 v b hb hbl
      rw [Finset.sum_eq_single_of_mem b (Finset.mem_range.mpr hbl)
        (fun c _ hc => by rw [if_neg (by rw [hb]; omega)])]
      rw [ha'', ha', hb]
      simp
  have hg : ∀ (g : ℕ → K) b, b < basins.length → ((List.range basins.length).map g).getD b 0 = g b := by
    intro g b hb
    rw [List.getD_eq_getElem _ _ (by simpa using hb)]
    simp
  refine ⟨fun a => ?_, fun a => ?_, ?_⟩
  · rw [h2, ← key, Finset.sum_div]
    refine Finset.sum_congr rfl fun b hb => ?_
    rw [hg _ b (Finset.mem_range.mp (Finset.mem_filter.mp hb).1), c1]
  · have := key (fun _ => (1 : K)) a
    simp only [Finset.sum_const, nsmul_eq_mul, mul_one] at this
    rw [h3, ← this, Finset.sum_mul, Finset.sum_div]
    refine Finset.sum_congr rfl fun b hb => ?_
    rw [hg _ b (Finset.mem_range.mp (Finset.mem_filter.mp hb).1), c2]
  · have hsum : ((List.range basins.length).map (basinChargesVolumes s data labels V).charges).sum =
        ∑ b ∈ Finset.range basins.length, (basinChargesVolumes s data labels V).charges b := by
      rw [list_sum_range]
      rw [List.length_map, List.length_range]
      exact Finset.sum_congr rfl fun b hb => hg _ b (Finset.mem_range.mp hb)
    rw [h4, hsum]
    exact (C12_conservation s data labels V basins.length hs hlab).1

/-- **C23** The assignment succeeds exactly when there is an atom to assign to, or nothing to assign. -/
theorem C23_succeeds (root : K → K) (L : M3 K) (atoms basins : List (V3 K)) (labels : ℕ → ℤ)
    (bc bv : List K) :
    (assignBasins root L atoms basins labels bc bv).isSome = true ↔ (atoms ≠ [] ∨ basins = []) := by
  unfold assignBasins
  rw [Option.isSome_map]
  constructor
  · intro h
    by_contra hc
    push Not at hc
    obtain ⟨rfl, hb⟩ := hc
    cases basins with
    | nil => exact hb rfl
    | cons b bs => simp [distRow, argmin, List.mapM_cons] at h
  · intro h
    rcases h with h | rfl
    · obtain ⟨r, hr⟩ := mapM_isSome argmin (basins.map (distRow root L atoms)) (by
        intro x hx
        obtain ⟨b, _, rfl⟩ := List.mem_map.mp hx
        exact argmin_isSome (by simpa [distRow] using h))
      rw [hr]; rfl
    · rfl

/-- A small structure: two atoms in a unit cube and three basin maxima, one next to the cell boundary. -/
def demoAtoms : List (V3 ℚ) := [(0, 0, 0), (1 / 2, 1 / 2, 1 / 2)]
/-- Basin maxima of the example. -/
def demoBasins : List (V3 ℚ) := [(9 / 10, 0, 19 / 20), (1 / 2, 2 / 5, 1 / 2), (1 / 20, 0, 0)]
/-- The unit cube. -/
def cubeL : M3 ℚ := ((1, 0, 0), (0, 1, 0), (0, 0, 1))

/-- Non-vacuity of C23: basins 0 and 2 go to atom 0 (basin 0 across the boundary), basin 1 to atom 1. -/
example : (assignBasins (fun x : ℚ => x) cubeL demoAtoms demoBasins (fun v => [0, 1, 2, -1].getD v 0)
    [3, 5, 7] [1, 1, 2]).map (fun r => (r.basinAtoms, (List.range 2).map r.charges,
      (List.range 2).map r.volumes, (List.range 4).map r.atomLabels)) =
    some ([0, 1, 0], [10, 5], [3, 1], [0, 1, 0, -1]) := by decide +kernel

/-! ## Distances -/

theorem wrapHalf_int (d : K) : ∃ n : ℤ, wrapHalf d = d + n := by
  simp only [wrapHalf]
  split_ifs
  · exact ⟨0, by simp⟩
  · exact ⟨1, by simp⟩
  · exact ⟨-1, by push_cast; ring⟩
  · exact ⟨0, by simp⟩

theorem wrapHalf_le {d : K} (h : |d| < 3 / 2) : |wrapHalf d| ≤ 1 / 2 := by
  obtain ⟨h1, h2⟩ := abs_lt.mp h
  rw [abs_le]
  simp only [wrapHalf]
  split_ifs with a b b <;> constructor <;> linarith

theorem half_sq_le {x : K} (h : |x| ≤ 1 / 2) (n : ℤ) : x ^ 2 ≤ (x + n) ^ 2 := by
  obtain ⟨h1, h2⟩ := abs_le.mp h
  rcases lt_trichotomy n 0 with hn | hn | hn
  · have : (n : K) ≤ -1 := by exact_mod_cast Int.le_sub_one_of_lt hn
    nlinarith
  · subst hn; simp
  · have : (1 : K) ≤ n := by exact_mod_cast hn
    nlinarith

theorem norm2_orth {L : M3 K} (hL : Orthogonal L) (d : V3 K) :
    norm2 (vecMat d L) = d.1 ^ 2 * norm2 L.1 + d.2.1 ^ 2 * norm2 L.2.1 + d.2.2 ^ 2 * norm2 L.2.2 := by
  obtain ⟨h1, h2, h3⟩ := hL
  simp only [norm2, vecMat, dotV] at *
  linear_combination 2 * d.1 * d.2.1 * h1 + 2 * d.1 * d.2.2 * h2 + 2 * d.2.1 * d.2.2 * h3

theorem norm2_nonneg (d : V3 K) : 0 ≤ norm2 d := by
  unfold norm2; positivity

/-- A displacement whose components are at most one half is a shortest one in an orthogonal cell. -/
theorem nearest_of_half {root : K → K} (hr : RootLike root) {L : M3 K} (hL : Orthogonal L) {a b d : V3 K}
    (t : ℤ × ℤ × ℤ) (hd : d = subV (image a t) b) (h1 : |d.1| ≤ 1 / 2) (h2 : |d.2.1| ≤ 1 / 2)
    (h3 : |d.2.2| ≤ 1 / 2) : IsNearest root L a b (root (norm2 (vecMat d L))) := by
  refine ⟨⟨t, by rw [hd]; rfl⟩, fun u => ?_⟩
  rw [dist2, hr _ _ (norm2_nonneg _) (norm2_nonneg _), norm2_orth hL, norm2_orth hL]
  have e : subV (image a u) b = (d.1 + ((u.1 - t.1 : ℤ) : K), d.2.1 + ((u.2.1 - t.2.1 : ℤ) : K),
      d.2.2 + ((u.2.2 - t.2.2 : ℤ) : K)) := by
    rw [hd]
    simp only [subV, image]
    push_cast
    ext <;> simp only <;> ring
  rw [e]
  have a1 := mul_le_mul_of_nonneg_right (half_sq_le h1 (u.1 - t.1)) (norm2_nonneg L.1)
  have a2 := mul_le_mul_of_nonneg_right (half_sq_le h2 (u.2.1 - t.2.1)) (norm2_nonneg L.2.1)
  have a3 := mul_le_mul_of_nonneg_right (half_sq_le h3 (u.2.2 - t.2.2)) (norm2_nonneg L.2.2)
  simp only
  linarith

theorem wrapHalfV_image (a b : V3 K) : ∃ t, wrapHalfV (subV a b) = subV (image a t) b := by
  obtain ⟨n1, h1⟩ := wrapHalf_int (subV a b).1
  obtain ⟨n2, h2⟩ := wrapHalf_int (subV a b).2.1
  obtain ⟨n3, h3⟩ := wrapHalf_int (subV a b).2.2
  refine ⟨(n1, n2, n3), ?_⟩
  simp only [wrapHalfV, h1, h2, h3]
  simp only [subV, image]
  ext <;> simp only <;> ring

/-- **C24** For every lattice: the reported distance belongs to a periodic image of the assigned atom, and
among the one image per atom that the library considers it is the smallest, the first atom winning
ties. -/
theorem C24_considered (root : K → K) (L : M3 K) (atoms basins : List (V3 K)) (labels : ℕ → ℤ)
    (bc bv : List K) (r : Assignment K)
    (h : assignBasins root L atoms basins labels bc bv = some r) :
    r.dists.length = basins.length ∧ r.basinAtoms.length = basins.length ∧
    ∀ (i : ℕ) (hi : i < basins.length) (h1 : i < r.basinAtoms.length) (h2 : i < r.dists.length),
      ∃ ha : r.basinAtoms[i] < atoms.length,
        (∃ t, r.dists[i] = root (dist2 L (image atoms[r.basinAtoms[i]] t) basins[i])) ∧
        ∀ (j : ℕ) (hj : j < atoms.length), ∃ t,
          r.dists[i] ≤ root (dist2 L (image atoms[j] t) basins[i]) ∧
          (j < r.basinAtoms[i] → r.dists[i] < root (dist2 L (image atoms[j] t) basins[i])) := by
  obtain ⟨g1, g2, g3, _⟩ := assignBasins_spec h
  refine ⟨g2, g1, fun i hi h1 h2 => ?_⟩
  obtain ⟨ha, e, hmin⟩ := g3 i hi h1 h2
  refine ⟨ha, ?_, fun j hj => ?_⟩
  · obtain ⟨t, ht⟩ := wrapHalfV_image atoms[r.basinAtoms[i]] basins[i]
    exact ⟨t, by rw [e, ht]; rfl⟩
  · obtain ⟨t, ht⟩ := wrapHalfV_image atoms[j] basins[i]
    have := hmin j hj
    rw [ht] at this
    exact ⟨t, this⟩

/-- **C24** (partial) For orthogonal cells and coordinates that differ by less than one and a half cells
(in particular for coordinates in the unit cell) each basin is assigned to an atom with a nearest periodic
image among all images of all atoms, and the reported distance is that minimum.  Missing: skewed cells and
atoms far outside the unit cell, where it is false (`C24_skewed_wrong`, `C24_unwrapped_wrong`). -/
theorem C24_nearest_partial (root : K → K) (hr : RootLike root) (L : M3 K) (hL : Orthogonal L)
    (atoms basins : List (V3 K)) (hclose : ∀ a ∈ atoms, ∀ b ∈ basins, CloseBy a b) (labels : ℕ → ℤ)
    (bc bv : List K) (r : Assignment K)
    (h : assignBasins root L atoms basins labels bc bv = some r) (i : ℕ) (hi : i < basins.length)
    (h1 : i < r.basinAtoms.length) (h2 : i < r.dists.length) :
    ∃ ha : r.basinAtoms[i] < atoms.length,
      IsNearest root L atoms[r.basinAtoms[i]] basins[i] r.dists[i] ∧
      ∀ (j : ℕ) (hj : j < atoms.length) (t : ℤ × ℤ × ℤ),
        r.dists[i] ≤ root (dist2 L (image atoms[j] t) basins[i]) := by
  obtain ⟨_, _, g3, _⟩ := assignBasins_spec h
  obtain ⟨ha, e, hmin⟩ := g3 i hi h1 h2
  have near : ∀ (j : ℕ) (hj : j < atoms.length), IsNearest root L atoms[j] basins[i]
      (root (norm2 (vecMat (wrapHalfV (subV atoms[j] basins[i])) L))) := by
    intro j hj
    obtain ⟨t, ht⟩ := wrapHalfV_image atoms[j] basins[i]
    obtain ⟨c1, c2, c3⟩ := hclose _ (List.getElem_mem hj) _ (List.getElem_mem hi)
    exact nearest_of_half hr hL t ht (wrapHalf_le c1) (wrapHalf_le c2) (wrapHalf_le c3)
  refine ⟨ha, by rw [e]; exact near _ ha, fun j hj t => ?_⟩
  exact le_trans (hmin j hj).1 ((near j hj).2 t)

/-- The square root is an admissible `root`. -/
theorem sqrt_rootLike : RootLike Real.sqrt := fun _ _ _ hy => Real.sqrt_le_sqrt_iff hy

/-- Non-vacuity of C24: the unit cube with the structure above. -/
example : RootLike (fun x : ℚ => x) ∧ Orthogonal cubeL ∧
    (∀ a ∈ demoAtoms, ∀ b ∈ demoBasins, CloseBy a b) ∧
    (assignBasins (fun x : ℚ => x) cubeL demoAtoms demoBasins (fun _ => 0) [3, 5, 7] [1, 1, 2]).map
      (fun r => r.dists) = some [1 / 80, 1 / 100, 1 / 400] := by
  refine ⟨fun x y _ _ => Iff.rfl, by unfold Orthogonal; decide +kernel, ?_, by decide +kernel⟩
  unfold CloseBy; decide +kernel

/-- A skewed cell. -/
def skewL : M3 ℚ := ((1, 0, 0), (9 / 10, 1 / 2, 0), (0, 0, 1))

/-- **C24** (negative part) In a skewed cell the basin can go to an atom although an image of another atom
is nearer: the basin at the origin is given to atom 1 at squared distance 4/25, but an image of atom 0 is
at squared distance less than 2/25. -/
theorem C24_skewed_wrong :
    ∃ (L : M3 ℚ) (atoms : List (V3 ℚ)), (∀ a ∈ atoms, CloseBy a (0, 0, 0)) ∧
      (assignBasins (fun x : ℚ => x) L atoms [(0, 0, 0)] (fun _ => 0) [1] [1]).map
        (fun r => (r.basinAtoms, r.dists)) = some ([1], [4 / 25]) ∧
      ∃ t, dist2 L (image (atoms.getD 0 (0, 0, 0)) t) (0, 0, 0) < 2 / 25 := by
  refine ⟨skewL, [(9 / 20, 9 / 20, 0), (0, 0, 2 / 5)], by unfold CloseBy; decide +kernel,
    by decide +kernel, (-1, 0, 0), by decide +kernel⟩

/-- **C24** (negative part) Even in a cube, an atom stored two cells away is not brought back to its nearest
image. -/
theorem C24_unwrapped_wrong :
    (assignBasins (fun x : ℚ => x) cubeL [(21 / 10, 0, 0), (1 / 2, 0, 0)] [(0, 0, 0)] (fun _ => 0) [1]
      [1]).map (fun r => (r.basinAtoms, r.dists)) = some ([1], [1 / 4]) ∧
      dist2 cubeL (image (21 / 10, 0, 0) (-2, 0, 0)) (0, 0, 0) = 1 / 100 := by
  refine ⟨by decide +kernel, by decide +kernel⟩

/-! ## Oxidation states -/

theorem nelectronData_spec (potcars : List (String × K)) (x : String) :
    nelectronData potcars x = (potcars.reverse.find? (fun e => e.1 = x)).map Prod.snd := by
  unfold nelectronData
  induction potcars using List.reverseRecOn with
  | nil => rfl
  | append_singleton l e ih =>
    rw [List.foldl_append, List.foldl_cons, List.foldl_nil, List.reverse_append, List.reverse_singleton,
      List.singleton_append, List.find?_cons]
    by_cases h : e.1 = x
    · subst h; simp
    · rw [Function.update_of_ne (fun h' => h h'.symm), ih]; simp [h]

/-- **C55** If oxidation states are returned, there is one per site, each is the number of valence electrons
of (the last entry for) the element minus the charge of the site, and they add up to the total number of
valence electrons minus the total charge of the atoms.  They are returned exactly when every element has an
entry. -/
theorem C55_oxidation (potcars : List (String × K)) (sites : List String) (charges : List K)
    (hlen : sites.length = charges.length) :
    ((oxidation potcars sites charges).isSome = true ↔ ∀ x ∈ sites, ∃ n, (x, n) ∈ potcars) ∧
    ∀ oxi, oxidation potcars sites charges = some oxi →
      ∃ ns : List K, ns.length = sites.length ∧ oxi.length = sites.length ∧
        (∀ (i : ℕ) (hi : i < sites.length) (h1 : i < ns.length) (h2 : i < oxi.length)
          (h3 : i < charges.length),
          (potcars.reverse.find? (fun e => e.1 = sites[i])).map Prod.snd = some ns[i] ∧
          oxi[i] = ns[i] - charges[i]) ∧
        oxi.sum = ns.sum - charges.sum := by
  have hsome : ∀ x, (∃ n, nelectronData potcars x = some n) ↔ ∃ n, (x, n) ∈ potcars := by
    intro x
    rw [nelectronData_spec]
    constructor
    · rintro ⟨n, hn⟩
      obtain ⟨e, he, rfl⟩ := Option.map_eq_some_iff.mp hn
      have h1 := List.find?_some he
      have h2 := List.mem_of_find?_eq_some he
      simp only [decide_eq_true_eq] at h1
      exact ⟨e.2, by rw [← h1]; exact List.mem_reverse.mp h2⟩
    · rintro ⟨n, hn⟩
      have : (potcars.reverse.find? (fun e => e.1 = x)).isSome = true := by
        rw [List.find?_isSome]
        exact ⟨(x, n), List.mem_reverse.mpr hn, by simp⟩
      obtain ⟨e, he⟩ := Option.isSome_iff_exists.mp this
      exact ⟨e.2, by rw [he]; rfl⟩
  refine ⟨⟨fun h x hx => ?_, fun h => ?_⟩, fun oxi h => ?_⟩
  · obtain ⟨oxi, ho⟩ := Option.isSome_iff_exists.mp h
    obtain ⟨h1, h2⟩ := mapM_some_spec _ _ _ ho
    obtain ⟨i, hi, rfl⟩ := List.mem_iff_getElem.mp hx
    have hz : i < (sites.zip charges).length := by simp; omega
    have := h2 i hz (by omega)
    obtain ⟨n, hn, _⟩ := Option.map_eq_some_iff.mp this
    rw [List.getElem_zip] at hn
    exact (hsome _).mp ⟨n, hn⟩
  · obtain ⟨r, hr⟩ := mapM_isSome (fun e : String × K => (nelectronData potcars e.1).map fun n => n - e.2)
      (sites.zip charges) (by
        rintro ⟨x, c⟩ hx
        obtain ⟨n, hn⟩ := (hsome x).mpr (h x (List.of_mem_zip hx).1)
        exact ⟨n - c, by simp [hn]⟩)
    unfold oxidation
    rw [hr]; rfl
  · have key : ∀ (sites : List String) (charges oxi : List K), sites.length = charges.length →
        oxidation potcars sites charges = some oxi →
        ∃ ns : List K, sites.mapM (nelectronData potcars) = some ns ∧
          oxi = List.zipWith (fun a b => a - b) ns charges ∧ oxi.sum = ns.sum - charges.sum := by
      intro sites
      induction sites with
      | nil =>
        intro charges oxi hl ho
        cases charges with
        | nil => simp [oxidation] at ho; subst ho; exact ⟨[], rfl, rfl, by simp⟩
        | cons c cs => simp at hl
      | cons x sites ih =>
        intro charges oxi hl ho
        cases charges with
        | nil => simp at hl
        | cons c cs =>
          unfold oxidation at ho
          rw [List.zip_cons_cons, List.mapM_cons] at ho
          cases hx : nelectronData potcars x with
          | none => simp [hx] at ho
          | some n =>
            cases hr : (sites.zip cs).mapM
                (fun e : String × K => (nelectronData potcars e.1).map fun n => n - e.2) with
            | none => simp [hx, hr] at ho
            | some os =>
              simp [hx, hr] at ho
              subst ho
              obtain ⟨ns, h1, h2, h3⟩ := ih cs os (by simpa using hl) hr
              refine ⟨n :: ns, by rw [List.mapM_cons, hx, h1]; rfl, by rw [h2]; rfl, ?_⟩
              simp only [List.sum_cons, h3]; ring
    obtain ⟨ns, h1, h2, h3⟩ := key sites charges oxi hlen h
    obtain ⟨h4, h5⟩ := mapM_some_spec _ _ _ h1
    refine ⟨ns, h4, by rw [h2]; simp; omega, fun i hi g1 g2 g3 => ⟨?_, ?_⟩, h3⟩
    · rw [← nelectronData_spec]; exact h5 i hi g1
    · subst h2; simp

/-- **C55** If the POTCAR electrons are the electrons of the density, the oxidation states add up to the
charge that was left in the vacuum. -/
theorem C55_balance (potcars : List (String × K)) (sites : List String) (charges oxi ns : List K)
    (vacCharge total : K) (hlen : sites.length = charges.length)
    (h : oxidation potcars sites charges = some oxi)
    (hns : sites.mapM (fun x => (potcars.reverse.find? (fun e => e.1 = x)).map Prod.snd) = some ns)
    (hval : ns.sum = total) (htot : charges.sum + vacCharge = total) : oxi.sum = vacCharge := by
  obtain ⟨ns', h1, h2, h3, h4⟩ := (C55_oxidation potcars sites charges hlen).2 oxi h
  obtain ⟨h5, h6⟩ := mapM_some_spec _ _ _ hns
  have : ns' = ns := by
    apply List.ext_getElem (by omega)
    intro i g1 g2
    have a := (h3 i (by omega) g1 (by omega) (by omega)).1
    have b := h6 i (by omega) g2
    rw [a] at b
    exact Option.some.inj b
  rw [h4, this, hval, ← htot]; ring

/-- Non-vacuity of C55: NaCl with a duplicate entry. -/
example : oxidation (K := ℚ) [("Na", 7), ("Cl", 7), ("Na", 1)] ["Na", "Cl"] [1 / 10, 79 / 10] =
    some [9 / 10, -(9 / 10)] := by decide +kernel

/-! ## Surface distances -/

section floor
variable [FloorRing K]

theorem surfFold (root : K → K) (s : Shape) (L : M3 K) (n : ℕ) (frac : ℕ → V3 K) (labels : ℕ → ℤ)
    (edge : ℕ → Bool) (l : List ℕ) (b : ℕ) : ∀ a : SurfAcc K,
    let r := l.foldl (surfStep root s L n frac labels edge) a
    r.sums b = a.sums b + (l.map fun v => if edge v = true ∧ pyIdx n (labels v) = b then
      surfDist root s L (frac b) v else 0).sum ∧
    r.totals b = a.totals b + (l.map fun v => if edge v = true ∧ pyIdx n (labels v) = b then (1 : K)
      else 0).sum ∧
    r.dists b ≤ a.dists b ∧
    (∀ v ∈ l, edge v = true → pyIdx n (labels v) = b → r.dists b ≤ surfDist root s L (frac b) v) ∧
    (r.dists b = a.dists b ∨ ∃ v ∈ l, edge v = true ∧ pyIdx n (labels v) = b ∧
      r.dists b = surfDist root s L (frac b) v) := by
  induction l with
  | nil => intro a; simp
  | cons u l ih =>
    intro a
    simp only [List.foldl_cons, List.map_cons, List.sum_cons]
    obtain ⟨i1, i2, i3, i4, i5⟩ := ih (surfStep root s L n frac labels edge a u)
    by_cases he : edge u = true
    · by_cases hb : pyIdx n (labels u) = b
      · have e1 : (surfStep root s L n frac labels edge a u).sums b =
            a.sums b + surfDist root s L (frac b) u := by
          simp [surfStep, he, hb]
        have e2 : (surfStep root s L n frac labels edge a u).totals b = a.totals b + 1 := by
          simp [surfStep, he, hb]
        have e3 : (surfStep root s L n frac labels edge a u).dists b =
            if surfDist root s L (frac b) u < a.dists b then surfDist root s L (frac b) u
            else a.dists b := by
          simp only [surfStep, he, hb]
          simp only [Bool.true_eq_false, if_false]
          split_ifs <;> simp
        rw [e1] at i1
        rw [e2] at i2
        refine ⟨by rw [i1, if_pos ⟨he, hb⟩]; ring, by rw [i2, if_pos ⟨he, hb⟩]; ring, ?_, ?_, ?_⟩
        · refine le_trans i3 ?_
          rw [e3]; split_ifs with hlt
          · exact hlt.le
          · exact le_rfl
        · intro v hv h1 h2
          rcases List.mem_cons.mp hv with rfl | hv
          · refine le_trans i3 ?_
            rw [e3]; split_ifs with hlt
            · exact le_rfl
            · exact not_lt.mp hlt
          · exact i4 v hv h1 h2
        · rcases i5 with h | ⟨v, hv, h1, h2, h3⟩
          · rw [e3] at h
            by_cases hlt : surfDist root s L (frac b) u < a.dists b
            · rw [if_pos hlt] at h
              exact .inr ⟨u, by simp, he, hb, h⟩
            · rw [if_neg hlt] at h
              exact .inl h
          · exact .inr ⟨v, by simp [hv], h1, h2, h3⟩
      · have e1 : (surfStep root s L n frac labels edge a u).sums b = a.sums b := by
          simp only [surfStep, he, Bool.true_eq_false, if_false]
          rw [Function.update_of_ne (fun h => hb h.symm)]
        have e2 : (surfStep root s L n frac labels edge a u).totals b = a.totals b := by
          simp only [surfStep, he, Bool.true_eq_false, if_false]
          rw [Function.update_of_ne (fun h => hb h.symm)]
        have e3 : (surfStep root s L n frac labels edge a u).dists b = a.dists b := by
          simp only [surfStep, he, Bool.true_eq_false, if_false]
          split_ifs
          · rw [Function.update_of_ne (fun h => hb h.symm)]
          · rfl
        rw [e1] at i1; rw [e2] at i2; rw [e3] at i3 i5
        refine ⟨by rw [i1, if_neg (by simp [hb])]; ring, by rw [i2, if_neg (by simp [hb])]; ring, i3, ?_, ?_⟩
        · intro v hv h1 h2
          rcases List.mem_cons.mp hv with rfl | hv
          · exact absurd h2 hb
          · exact i4 v hv h1 h2
        · rcases i5 with h | ⟨v, hv, h⟩
          · exact .inl h
          · exact .inr ⟨v, by simp [hv], h⟩
    · have e : surfStep root s L n frac labels edge a u = a := by simp [surfStep, he]
      rw [e] at i1 i2 i3 i4 i5 ⊢
      refine ⟨by rw [i1, if_neg (by simp [he])]; ring, by rw [i2, if_neg (by simp [he])]; ring, i3, ?_, ?_⟩
      · intro v hv h1 h2
        rcases List.mem_cons.mp hv with rfl | hv
        · exact absurd h1 he
        · exact i4 v hv h1 h2
      · rcases i5 with h | ⟨v, hv, h⟩
        · exact .inl h
        · exact .inr ⟨v, by simp [hv], h⟩

theorem surfaceDists_spec (root : K → K) (s : Shape) (L : M3 K) (n : ℕ) (frac : ℕ → V3 K)
    (labels : ℕ → ℤ) (edge : ℕ → Bool) (maxValue : K) (b : ℕ) :
    let r := surfaceDists root s L n frac labels edge maxValue
    let own := (Finset.range s.size).filter (fun v => edge v = true ∧ pyIdx n (labels v) = b)
    r.2 b = (∑ v ∈ own, surfDist root s L (frac b) v) / own.card ∧
    r.1 b ≤ maxValue ∧ (∀ v ∈ own, r.1 b ≤ surfDist root s L (frac b) v) ∧
    (r.1 b = maxValue ∨ ∃ v ∈ own, r.1 b = surfDist root s L (frac b) v) := by
  intro r own
  obtain ⟨h1, h2, h3, h4, h5⟩ := surfFold root s L n frac labels edge (List.range s.size) b
    ⟨fun _ => maxValue, fun _ => 0, fun _ => 0⟩
  have hmem : ∀ v, v ∈ own ↔ v < s.size ∧ edge v = true ∧ pyIdx n (labels v) = b := by
    intro v; simp [own]
  refine ⟨?_, h3, fun v hv => ?_, ?_⟩
  · simp only [r, surfaceDists, own]
    rw [h1, h2, sum_range_list, sum_range_list, Finset.sum_filter, Finset.card_filter]
    simp
  · obtain ⟨a1, a2, a3⟩ := (hmem v).mp hv
    exact h4 v (List.mem_range.mpr a1) a2 a3
  · rcases h5 with h | ⟨v, hv, a2, a3, h⟩
    · exact .inl h
    · exact .inr ⟨v, (hmem v).mpr ⟨List.mem_range.mp hv, a2, a3⟩, h⟩

/-- **C49** (partial) For every basin other than the last one, and for the last one too when no edge voxel
is vacuum: the average surface distance is the mean over exactly the edge voxels labelled with the basin,
and the minimum is the smallest of these distances, capped by the initial value.  Missing: the last basin in
the presence of vacuum edge voxels, for which it is false (`C49_vacuum_pollutes`). -/
theorem C49_surface_partial (root : K → K) (s : Shape) (L : M3 K) (n : ℕ) (frac : ℕ → V3 K)
    (labels : ℕ → ℤ) (edge : ℕ → Bool) (maxValue : K)
    (hlab : ∀ v < s.size, -1 ≤ labels v ∧ labels v < n) (b : ℕ)
    (hvac : b + 1 < n ∨ ∀ v < s.size, edge v = true → labels v ≠ -1) :
    let r := surfaceDists root s L n frac labels edge maxValue
    let own := (Finset.range s.size).filter (fun v => edge v = true ∧ labels v = b)
    r.2 b = (∑ v ∈ own, surfDist root s L (frac b) v) / own.card ∧
    r.1 b ≤ maxValue ∧ (∀ v ∈ own, r.1 b ≤ surfDist root s L (frac b) v) ∧
    (r.1 b = maxValue ∨ ∃ v ∈ own, r.1 b = surfDist root s L (frac b) v) := by
  have e : (Finset.range s.size).filter (fun v => edge v = true ∧ labels v = (b : ℤ)) =
      (Finset.range s.size).filter (fun v => edge v = true ∧ pyIdx n (labels v) = b) := by
    apply Finset.filter_congr
    intro v hv
    have hv' := Finset.mem_range.mp hv
    obtain ⟨l1, l2⟩ := hlab v hv'
    constructor
    · rintro ⟨h1, h2⟩
      refine ⟨h1, ?_⟩
      unfold pyIdx
      rw [if_neg (by omega)]
      omega
    · rintro ⟨h1, h2⟩
      refine ⟨h1, ?_⟩
      unfold pyIdx at h2
      split_ifs at h2 with hneg
      · have : labels v = -1 := by omega
        rcases hvac with h | h
        · omega
        · exact absurd this (h v hv' h1)
      · omega
  intro r own
  have := surfaceDists_spec root s L n frac labels edge maxValue b
  simp only at this
  rw [← e] at this
  exact this

theorem roundHE_half (x : K) : |x - (roundHE x : K)| ≤ 1 / 2 := by
  have h1 := Int.floor_le x
  have h2 := Int.lt_floor_add_one x
  rw [abs_le]
  unfold roundHE
  split_ifs with a b c <;> push_cast <;> constructor <;> linarith

/-- **C49** In an orthogonal cell the distance used for an edge voxel is the distance to the nearest
periodic image of the basin maximum. -/
theorem C49_distance (root : K → K) (hr : RootLike root) (s : Shape) (L : M3 K) (hL : Orthogonal L)
    (f : V3 K) (v : ℕ) : IsNearest root L f (voxFrac s v) (surfDist root s L f v) := by
  simp only [surfDist]
  refine nearest_of_half hr hL (-(roundHE (subV f (voxFrac s v)).1), -(roundHE (subV f (voxFrac s v)).2.1),
    -(roundHE (subV f (voxFrac s v)).2.2)) ?_ (roundHE_half _) (roundHE_half _) (roundHE_half _)
  simp only [subV, image]
  push_cast
  ext <;> simp only <;> ring

end floor

/-- **C49** (negative part) One basin and vacuum on a ring of four voxels, edges as computed by the library
(every voxel is an edge): the two vacuum voxels are averaged into the basin.  Its own edge voxels have mean
distance 1/32, the library reports 3/32 (squared distances are used as distances here). -/
theorem C49_vacuum_pollutes :
    let labels : ℕ → ℤ := fun v => [0, 0, -1, -1].getD v 0
    let edge := getEdges ⟨4, 1, 1⟩ labels (ring2.map Prod.fst) (fun _ => false) (List.range 4)
    let r := surfaceDists (fun x : ℚ => x) ⟨4, 1, 1⟩ cubeL 1 (fun _ => (0, 0, 0)) labels edge 2
    let own := (Finset.range 4).filter (fun v => edge v = true ∧ labels v = 0)
    r.2 0 = 3 / 32 ∧
      (∑ v ∈ own, surfDist (fun x : ℚ => x) ⟨4, 1, 1⟩ cubeL (0, 0, 0) v) / own.card = 1 / 32 := by
  refine ⟨by decide +kernel, by decide +kernel⟩

/-- Non-vacuity of C49: two basins on a ring of eight voxels without vacuum. -/
example : let labels : ℕ → ℤ := fun v => [0, 0, 0, 0, 1, 1, 1, 0].getD v 0
    let edge := getEdges ⟨8, 1, 1⟩ labels (ring2.map Prod.fst) (fun _ => false) (List.range 8)
    let r := surfaceDists (fun x : ℚ => x) ⟨8, 1, 1⟩ cubeL 2
      (fun b => if b = 0 then (1 / 8, 0, 0) else (5 / 8, 0, 0)) labels edge 2
    (r.1 0, r.1 1, r.2 0) = (1 / 16, 1 / 64, 1 / 16) := by decide +kernel

end BaderKit
