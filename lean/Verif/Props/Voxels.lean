import Verif.Lemmas.Nbr
import Verif.Lemmas.Roots
import Mathlib.Data.Rat.Defs
import Mathlib.Algebra.Order.Ring.Rat
import Mathlib.Algebra.BigOperators.Field
import Mathlib.Algebra.BigOperators.Group.Finset.Sigma
/-! # Properties C07, C08, C10, C11, C12, C13: voxel-local kernels -/
namespace BaderKit

section C07
variable {K : Type*} [Field K] [LinearOrder K] [IsStrictOrderedRing K]

/-- **C07** If some neighbour is strictly higher, `get_best_neighbor` returns a neighbour of the
list that is strictly higher, whose slope `(data n - data v) / dist` is the largest of all, and no
earlier entry of the list has the same slope. -/
theorem C07_best_neighbor (s : Shape) (data : ℕ → K) (nbrs : List (Coord × K)) (v : ℕ)
    (hd : ∀ td ∈ nbrs, 0 < td.2) (hex : ∃ td ∈ nbrs, data v < data (nbr s v td.1)) :
    ∃ l1 td l2, nbrs = l1 ++ td :: l2 ∧ bestNeighbor s data nbrs v = (td.1, nbr s v td.1) ∧
      data v < data (nbr s v td.1) ∧
      (∀ td' ∈ nbrs, (data (nbr s v td'.1) - data v) / td'.2 ≤
        (data (nbr s v td.1) - data v) / td.2) ∧
      (∀ td' ∈ l1, (data (nbr s v td'.1) - data v) / td'.2 <
        (data (nbr s v td.1) - data v) / td.2) := by
  rcases bestNeighbor_fold s data v _ (fun _ => rfl) nbrs with ⟨_, hle⟩ |
    ⟨l1, td, l2, hl, hr, hpos, hmax, hlt⟩
  · obtain ⟨td, htd, hlt⟩ := hex
    exact absurd ((slope_pos_iff (hd td htd)).mpr hlt) (not_lt.mpr (hle td htd))
  · have hm : td ∈ nbrs := by rw [hl]; simp
    exact ⟨l1, td, l2, hl, by unfold bestNeighbor; rw [hr], (slope_pos_iff (hd td hm)).mp hpos,
      hmax, hlt⟩

/-- **C07** The search returns the voxel itself (with the zero step) iff no neighbour is strictly
higher, i.e. iff the voxel is a local maximum. -/
theorem C07_self_iff_max (s : Shape) (data : ℕ → K) (nbrs : List (Coord × K)) (v : ℕ)
    (hv : v < s.size) (hd : ∀ td ∈ nbrs, 0 < td.2) (hts : ∀ td ∈ nbrs, StepFits s td.1) :
    bestNeighbor s data nbrs v = ((0, 0, 0), v) ↔ IsLocalMax s data (nbrs.map Prod.fst) v := by
  have hts' : ∀ t ∈ nbrs.map Prod.fst, StepFits s t := by
    intro t ht; obtain ⟨td, htd, rfl⟩ := List.mem_map.mp ht; exact hts td htd
  constructor
  · intro h w hw
    obtain ⟨t, ht, rfl⟩ := (isNbr_iff hts' hv).mp hw
    obtain ⟨td, htd, rfl⟩ := List.mem_map.mp ht
    by_contra hlt
    have := (bestNeighbor_higher s data v nbrs hd ⟨td, htd, not_le.mp hlt⟩).1
    rw [h] at this; exact lt_irrefl _ this
  · intro h
    apply bestNeighbor_self s data v nbrs hd
    intro td htd
    exact h _ ((isNbr_iff hts' hv).mpr ⟨td.1, List.mem_map.mpr ⟨td, htd, rfl⟩, rfl⟩)

end C07

/-- Non-vacuity of C07: a 3×1×1 grid with data 0, 5, 2 and two neighbours; voxel 0 climbs to 1. -/
example : let data : ℕ → ℚ := fun v => [0, 5, 2].getD v 0
    let nbrs : List (Coord × ℚ) := [((-1, 0, 0), 1), ((1, 0, 0), 1)]
    (∀ td ∈ nbrs, 0 < td.2) ∧ (∃ td ∈ nbrs, data 0 < data (nbr ⟨3, 1, 1⟩ 0 td.1)) ∧
      bestNeighbor ⟨3, 1, 1⟩ data nbrs 0 = ((1, 0, 0), 1) ∧
      bestNeighbor ⟨3, 1, 1⟩ data nbrs 1 = ((0, 0, 0), 1) := by
  decide +kernel

section C08
variable {α : Type*} [LinearOrder α]

/-- **C08** For every visiting order, `get_maxima` marks exactly the non-vacuum local maxima
(minima with `use_minima`). -/
theorem C08_maxima_exact (s : Shape) (data : ℕ → α) (ts : List Coord) (vac : ℕ → Bool)
    (order : List ℕ) (hord : IsSchedule s order) (hts : ∀ t ∈ ts, StepFits s t) (v : ℕ)
    (hv : v < s.size) :
    (getMaxima s data ts vac false order v = true ↔ vac v = false ∧ IsLocalMax s data ts v) ∧
    (getMaxima s data ts vac true order v = true ↔ vac v = false ∧ IsLocalMin s data ts v) := by
  have hmem := (mem_schedule hord v).mpr hv
  constructor
  · rw [getMaxima_apply, (maxScan_iff s data v ts).1]
    constructor
    · rintro ⟨_, h2, h3⟩
      exact ⟨h2, fun w hw => by obtain ⟨t, ht, rfl⟩ := (isNbr_iff hts hv).mp hw; exact h3 t ht⟩
    · rintro ⟨h2, h3⟩
      exact ⟨hmem, h2, fun t ht => h3 _ ((isNbr_iff hts hv).mpr ⟨t, ht, rfl⟩)⟩
  · rw [getMaxima_apply, (maxScan_iff s data v ts).2]
    constructor
    · rintro ⟨_, h2, h3⟩
      exact ⟨h2, fun w hw => by obtain ⟨t, ht, rfl⟩ := (isNbr_iff hts hv).mp hw; exact h3 t ht⟩
    · rintro ⟨h2, h3⟩
      exact ⟨hmem, h2, fun t ht => h3 _ ((isNbr_iff hts hv).mpr ⟨t, ht, rfl⟩)⟩

/-- **C08** The parallel schedule does not matter: any two visiting orders give the same mask on the
grid, and nothing outside the grid is marked. -/
theorem C08_schedule_independent (s : Shape) (data : ℕ → α) (ts : List Coord) (vac : ℕ → Bool)
    (um : Bool) (o1 o2 : List ℕ) (h1 : IsSchedule s o1) (h2 : IsSchedule s o2) :
    getMaxima s data ts vac um o1 = getMaxima s data ts vac um o2 := by
  funext v
  have e1 := getMaxima_apply s data ts vac um o1 v
  have e2 := getMaxima_apply s data ts vac um o2 v
  rw [mem_schedule h1] at e1
  rw [mem_schedule h2] at e2
  rw [Bool.eq_iff_iff, e1, e2]

/-- **C08** If some voxel is not vacuum and the non-vacuum region is closed upwards, a maximum is
always found (so there is always at least one basin). -/
theorem C08_exists_max (s : Shape) (data : ℕ → α) (ts : List Coord) (vac : ℕ → Bool)
    (order : List ℕ) (hord : IsSchedule s order) (hts : ∀ t ∈ ts, StepFits s t)
    (hup : UpClosed s data ts vac) (hne : ∃ v < s.size, vac v = false) :
    ∃ v < s.size, getMaxima s data ts vac false order v = true := by
  let S := (Finset.range s.size).filter (fun v => vac v = false)
  have hS : S.Nonempty := by
    obtain ⟨v, hv, h⟩ := hne
    exact ⟨v, by simp [S, hv, h]⟩
  obtain ⟨m, hm, hmax⟩ := S.exists_max_image data hS
  have hm' : m < s.size ∧ vac m = false := by simpa [S] using hm
  refine ⟨m, hm'.1, ((C08_maxima_exact s data ts vac order hord hts m hm'.1).1).mpr ⟨hm'.2, ?_⟩⟩
  intro w hw
  by_contra hlt
  have hvw := hup m hm'.1 hm'.2 w hw (not_le.mp hlt)
  exact hlt (hmax w (by simp [S, hw.1, hvw]))

end C08

/-- Non-vacuity of C08 on a 3×1×1 grid visited in the order 2, 0, 1. -/
example : IsSchedule ⟨3, 1, 1⟩ [2, 0, 1] ∧
    (∀ t ∈ neighbors26, StepFits ⟨3, 1, 1⟩ t) ∧
    (List.range 3).map (getMaxima ⟨3, 1, 1⟩ (fun v => [0, 5, 2].getD v (0:ℤ)) neighbors26
      (fun _ => false) false [2, 0, 1]) = [false, true, false] ∧
    UpClosed ⟨3, 1, 1⟩ (fun v => [0, 5, 2].getD v (0:ℤ)) neighbors26 (fun _ => false) :=
  ⟨by unfold IsSchedule; decide, neighbors26_fits (by simp [Shape.Pos]), by decide,
    fun _ _ _ _ _ _ => rfl⟩

/-- **C08** A vacuum defined by a threshold on the same data is upward closed. -/
theorem C08_threshold_upClosed {α : Type*} [LinearOrder α] (s : Shape) (data : ℕ → α)
    (ts : List Coord) (tol : α) : UpClosed s data ts (fun v => decide (data v < tol)) := by
  intro v _ hv w _ hlt
  simp only [decide_eq_false_iff_not, not_lt] at *
  exact hv.trans hlt.le

section C10

/-- **C10** Pointer jumping.  If every non-vacuum entry (pointer `≠ -1`) points to a non-vacuum
voxel inside the grid and every pointer chain ends in a self-pointing root, then `get_roots`
terminates, returns the same result for every sufficient number of rounds, every non-vacuum entry of
the result is the end of its original chain and the vacuum entries stay `-1`. -/
theorem C10_get_roots (N nv : ℕ) (p : ℕ → ℤ) (hnv : nv = 0 → ∀ v < N, p v ≠ -1)
    (hclosed : ∀ v < N, p v ≠ -1 → 0 ≤ p v ∧ p v < N ∧ p (p v).toNat ≠ -1)
    (hend : ∀ v < N, p v ≠ -1 → ∃ r, IsRootOf p v r) :
    ∃ r, (∃ F, ∀ fuel ≥ F, getRoots N nv fuel p = some r) ∧
      (∀ fuel r', getRoots N nv fuel p = some r' → r' = r) ∧
      ∀ v < N, (p v = -1 → r v = -1) ∧ (p v ≠ -1 → ∃ x : ℕ, r v = x ∧ IsRootOf p v x) := by
  set valid : ℕ → Bool := if nv ≠ 0 then fun v => decide (p v ≠ -1) else fun _ => true with hvd
  have hval : ∀ v < N, (valid v = true ↔ p v ≠ -1) := by
    intro v hv
    rw [hvd]
    by_cases h : nv = 0
    · simp [h, hnv h v hv]
    · simp [h]
  have hc : PtrClosed N valid p := by
    intro v hv h
    obtain ⟨h0, h1, h2⟩ := hclosed v hv ((hval v hv).mp h)
    exact ⟨h0, h1, (hval _ (by omega)).mpr h2⟩
  obtain ⟨r, ⟨F, hF⟩, hr, hr'⟩ := rootsLoop_correct hc
    (fun v hv h => hend v hv ((hval v hv).mp h))
  refine ⟨r, ⟨F, hF⟩, fun fuel r' h' => rootsLoop_unique N valid _ _ _ h' (hF F le_rfl), ?_⟩
  intro v hv
  constructor
  · intro h
    have : valid v = false := by
      cases hb : valid v with
      | false => rfl
      | true => exact absurd h ((hval v hv).mp hb)
    rw [hr' v hv this, h]
  · intro h; exact hr v hv ((hval v hv).mpr h)

/-- **C10** Running it again changes nothing: the result is a fixed point reached in one round. -/
theorem C10_idempotent (N nv : ℕ) (p : ℕ → ℤ) (hnv : nv = 0 → ∀ v < N, p v ≠ -1)
    (hclosed : ∀ v < N, p v ≠ -1 → 0 ≤ p v ∧ p v < N ∧ p (p v).toNat ≠ -1)
    (hend : ∀ v < N, p v ≠ -1 → ∃ r, IsRootOf p v r) (fuel : ℕ) (r : ℕ → ℤ)
    (h : getRoots N nv fuel p = some r) (k : ℕ) : getRoots N nv (k + 1) r = some r := by
  obtain ⟨r0, _, hu, hspec⟩ := C10_get_roots N nv p hnv hclosed hend
  obtain rfl := hu fuel r h
  have hstep : ∀ v < N, p v ≠ -1 → r (pyIdx N (r v)) = r v := by
    intro v hv hpv
    obtain ⟨x, hx, ⟨⟨j, hj⟩, hfix⟩⟩ := (hspec v hv).2 hpv
    have hxN : x < N ∧ p x ≠ -1 := by
      have : ∀ j v, v < N → p v ≠ -1 → chase p j v < N ∧ p (chase p j v) ≠ -1 := by
        intro j
        induction j with
        | zero => intro v hv h; exact ⟨hv, h⟩
        | succ j ih =>
          intro v hv h
          obtain ⟨a, b, c⟩ := hclosed v hv h
          exact ih _ (by omega) c
      rw [← hj]; exact this j v hv hpv
    have hpy : pyIdx N (r v) = x := by
      rw [hx]; unfold pyIdx; rw [if_neg (by omega)]; simp
    rw [hpy, hx]
    obtain ⟨y, hy, hy'⟩ := (hspec x hxN.1).2 hxN.2
    have : IsRootOf p x x := ⟨⟨0, rfl⟩, hfix⟩
    rw [hy, isRootOf_unique hy' this]
  unfold getRoots
  rw [rootsLoop, if_pos]
  intro v hv
  unfold rootsRound
  by_cases hpv : p v = -1
  · have h0 : nv ≠ 0 := fun h0 => hnv h0 v hv hpv
    have : r v = -1 := (hspec v hv).1 hpv
    simp [h0, this]
  · rw [hstep v hv hpv]; simp

/-- Non-vacuity of C10: a chain 0 → 1 → 2 ↺, a vacuum voxel 3 and a second root 4. -/
example : let p : ℕ → ℤ := fun v => [1, 2, 2, -1, 4].getD v (-1)
    ((1:ℕ) = 0 → ∀ v < 5, p v ≠ -1) ∧
    (∀ v < 5, p v ≠ -1 → 0 ≤ p v ∧ p v < (5:ℕ) ∧ p (p v).toNat ≠ -1) ∧
    (∀ v < 5, p v ≠ -1 → ∃ r, IsRootOf p v r) ∧
    (getRoots 5 1 3 p).map (fun r => (List.range 5).map r) = some [2, 2, 2, -1, 4] := by
  intro p
  refine ⟨by simp, by decide, ?_, by decide⟩
  intro v hv hne
  interval_cases v
  · exact ⟨2, ⟨2, by decide⟩, by decide⟩
  · exact ⟨2, ⟨1, by decide⟩, by decide⟩
  · exact ⟨2, ⟨0, by decide⟩, by decide⟩
  · exact absurd rfl hne
  · exact ⟨4, ⟨0, by decide⟩, by decide⟩

/-- **C10** (negative part) If a non-vacuum voxel points at a vacuum voxel, the result is wrong: the
index `-1` is read as the last voxel of the array.  Here voxel 0 points at the vacuum voxel 1 and
ends up assigned to the unrelated root 2. -/
theorem C10_vacuum_pointer_wrong :
    ∃ (N nv : ℕ) (p : ℕ → ℤ) (r : ℕ → ℤ), nv ≠ 0 ∧ (∀ v < N, -1 ≤ p v ∧ p v < N) ∧
      p 0 = 1 ∧ p 1 = -1 ∧ getRoots N nv 3 p = some r ∧ r 0 = 2 ∧ ∀ k, chase p k 0 ≠ 2 := by
  refine ⟨3, 1, fun v => [1, -1, 2].getD v 0, _, by simp, ?_, rfl, rfl, rfl, by decide, ?_⟩
  · decide
  · intro k
    have key : ∀ k v, v = 0 ∨ v = 1 →
        chase (fun v => ([1, -1, 2] : List ℤ).getD v 0) k v = 0 ∨
        chase (fun v => ([1, -1, 2] : List ℤ).getD v 0) k v = 1 := by
      intro k
      induction k with
      | zero => intro v h; exact h
      | succ k ih =>
        rintro v (rfl | rfl)
        · exact ih _ (Or.inr rfl)
        · exact ih _ (Or.inl rfl)
    rcases key k 0 (Or.inl rfl) with h | h <;> rw [h] <;> decide

end C10

/-- **C11** Ranked labels: with `M` the number of distinct non-vacuum roots, vacuum voxels get
`-1` and only they do, every other voxel gets a label in `0..M-1`, every such label is used, and two
voxels share a label iff they have the same root; the numbering follows the order of the roots. -/
theorem C11_labels_contiguous (N : ℕ) (roots : ℕ → ℤ) (h : ∀ v < N, -1 ≤ roots v) :
    let M := (((Finset.range N).image roots).erase (-1)).card
    let lab := rankLabels N roots
    (∀ v < N, (lab v = -1 ↔ roots v = -1)) ∧
    (∀ v < N, roots v ≠ -1 → 0 ≤ lab v ∧ lab v < M) ∧
    (∀ b : ℕ, b < M → ∃ v < N, lab v = b) ∧
    (∀ v < N, ∀ w < N, (lab v = lab w ↔ roots v = roots w)) ∧
    (∀ v < N, ∀ w < N, (lab v < lab w ↔ roots v < roots w)) := by
  obtain ⟨h1, h2, h3, h4, h5⟩ := rankLabels_spec N roots h
  exact ⟨h3, h4, h5, h2, h1⟩

example : (List.range 5).map (rankLabels 5 (fun v => [7, -1, 2, 7, 2].getD v 0)) =
    [1, -1, 0, 1, 0] ∧ ∀ v < 5, (-1 : ℤ) ≤ [7, -1, 2, 7, 2].getD v 0 := by
  constructor
  · decide +kernel
  · decide

section C12
variable {K : Type*} [Field K]

/-- **C12** Every basin receives exactly the charge and volume of the voxels carrying its label,
the vacuum that of the voxels with a negative label. -/
theorem C12_per_basin (s : Shape) (data : ℕ → K) (labels : ℕ → ℤ) (V : K) :
    let r := basinChargesVolumes s data labels V
    (∀ b : ℕ, r.charges b =
      (∑ v ∈ (Finset.range s.size).filter (fun v => labels v = b), data v) / s.size) ∧
    (∀ b : ℕ, r.volumes b =
      (((Finset.range s.size).filter (fun v => labels v = b)).card : K) * V / s.size) ∧
    r.vacCharge = (∑ v ∈ (Finset.range s.size).filter (fun v => labels v < 0), data v) / s.size ∧
    r.vacVolume = (((Finset.range s.size).filter (fun v => labels v < 0)).card : K) * V / s.size := by
  obtain ⟨h1, h2, h3, h4⟩ := chargeFold data labels (List.range s.size)
    ⟨fun _ => 0, fun _ => 0, 0, 0⟩
  simp only [sum_range_list, zero_add] at h1 h2 h3 h4
  refine ⟨fun b => ?_, fun b => ?_, ?_, ?_⟩
  · simp only [basinChargesVolumes, h1, Finset.sum_filter]
  · simp only [basinChargesVolumes, h2, Finset.card_filter, Nat.cast_sum, Nat.cast_ite,
      Nat.cast_one, Nat.cast_zero]
  · simp only [basinChargesVolumes, h3, Finset.sum_filter]
  · simp only [basinChargesVolumes, h4, Finset.card_filter, Nat.cast_sum, Nat.cast_ite,
      Nat.cast_one, Nat.cast_zero]

/-- **C12** Conservation: basin charges plus vacuum charge is the grid average of the data (the
total number of electrons in VASP's convention) and the volumes add up to the cell volume. -/
theorem C12_conservation [CharZero K] (s : Shape) (data : ℕ → K) (labels : ℕ → ℤ) (V : K) (M : ℕ)
    (hpos : 0 < s.size) (hlab : ∀ v < s.size, -1 ≤ labels v ∧ labels v < M) :
    let r := basinChargesVolumes s data labels V
    (∑ b ∈ Finset.range M, r.charges b) + r.vacCharge =
      (∑ v ∈ Finset.range s.size, data v) / s.size ∧
    (∑ b ∈ Finset.range M, r.volumes b) + r.vacVolume = V := by
  obtain ⟨h1, h2, h3, h4⟩ := C12_per_basin s data labels V
  have key : ∀ f : ℕ → K,
      (∑ b ∈ Finset.range M, ∑ v ∈ (Finset.range s.size).filter (fun v => labels v = b), f v) +
        (∑ v ∈ (Finset.range s.size).filter (fun v => labels v < 0), f v) =
      ∑ v ∈ Finset.range s.size, f v := by
    intro f
    simp only [Finset.sum_filter]
    rw [Finset.sum_comm, ← Finset.sum_add_distrib]
    apply Finset.sum_congr rfl
    intro v hv
    obtain ⟨ha, hb⟩ := hlab v (Finset.mem_range.mp hv)
    by_cases hneg : labels v < 0
    · have : ∀ b ∈ Finset.range M, (if labels v = (b:ℤ) then f v else 0) = 0 := by
        intro b _; rw [if_neg (by omega)]
      rw [Finset.sum_eq_zero this, if_pos hneg, zero_add]
    · rw [if_neg hneg, add_zero,
        Finset.sum_eq_single_of_mem (labels v).toNat (Finset.mem_range.mpr (by omega))]
      · rw [if_pos (by omega)]
      · intro b _ hb; rw [if_neg (by omega)]
  have hN : (s.size : K) ≠ 0 := by exact_mod_cast hpos.ne'
  constructor
  · simp only [h1, h3]
    rw [← Finset.sum_div, ← add_div, key]
  · simp only [h2, h4]
    have := key (fun _ => 1)
    simp only [Finset.sum_const, nsmul_eq_mul, mul_one, Finset.card_range] at this
    rw [← Finset.sum_div, ← Finset.sum_mul, ← add_div, ← add_mul, this]
    field_simp

end C12

example : (∀ v < (⟨2, 2, 1⟩ : Shape).size, (-1:ℤ) ≤ [0, -1, 1, 0].getD v 0 ∧
    [0, -1, 1, 0].getD v (0:ℤ) < (2:ℕ)) ∧ 0 < (⟨2, 2, 1⟩ : Shape).size ∧
    (basinChargesVolumes ⟨2, 2, 1⟩ (fun v => [8, 4, 2, 4].getD v (0:ℚ))
      (fun v => [0, -1, 1, 0].getD v 0) 10).charges 0 = 3 := by
  refine ⟨by decide, by decide, by decide +kernel⟩

section C13
variable {β : Type*} [DecidableEq β]

/-- **C13** For every visiting order, `get_edges` marks exactly the non-vacuum voxels with a
non-vacuum periodic neighbour carrying another label. -/
theorem C13_edges_exact (s : Shape) (labels : ℕ → β) (ts : List Coord) (vac : ℕ → Bool)
    (order : List ℕ) (hord : IsSchedule s order) (hts : ∀ t ∈ ts, StepFits s t) (v : ℕ)
    (hv : v < s.size) :
    getEdges s labels ts vac order v = true ↔
      vac v = false ∧ ∃ w, IsNbr s ts v w ∧ vac w = false ∧ labels w ≠ labels v := by
  rw [getEdges_apply, edgeScan_iff, mem_schedule hord]
  constructor
  · rintro ⟨_, h1, t, ht, h2, h3⟩
    exact ⟨h1, nbr s v t, (isNbr_iff hts hv).mpr ⟨t, ht, rfl⟩, h3, h2⟩
  · rintro ⟨h1, w, hw, h3, h2⟩
    obtain ⟨t, ht, rfl⟩ := (isNbr_iff hts hv).mp hw
    exact ⟨hv, h1, t, ht, h2, h3⟩

/-- **C13** With a neighbour list closed under negation, edges come in pairs across every
interface. -/
theorem C13_edges_symmetric (s : Shape) (labels : ℕ → β) (ts : List Coord) (vac : ℕ → Bool)
    (order : List ℕ) (hord : IsSchedule s order) (hts : ∀ t ∈ ts, StepFits s t)
    (hneg : ∀ t ∈ ts, negC t ∈ ts) (v w : ℕ) (hv : v < s.size) (hw : IsNbr s ts v w)
    (hvv : vac v = false) (hvw : vac w = false) (hl : labels v ≠ labels w) :
    getEdges s labels ts vac order v = true ∧ getEdges s labels ts vac order w = true := by
  rw [C13_edges_exact s labels ts vac order hord hts v hv,
    C13_edges_exact s labels ts vac order hord hts w hw.1]
  exact ⟨⟨hvv, w, hw, hvw, hl.symm⟩, ⟨hvw, v, isNbr_symm hts hneg hv hw, hvv, hl⟩⟩

/-- **C13** The result does not depend on the schedule. -/
theorem C13_schedule_independent (s : Shape) (labels : ℕ → β) (ts : List Coord) (vac : ℕ → Bool)
    (o1 o2 : List ℕ) (h1 : IsSchedule s o1) (h2 : IsSchedule s o2) :
    getEdges s labels ts vac o1 = getEdges s labels ts vac o2 := by
  funext v
  have e1 := getEdges_apply s labels ts vac o1 v
  have e2 := getEdges_apply s labels ts vac o2 v
  rw [mem_schedule h1] at e1
  rw [mem_schedule h2] at e2
  rw [Bool.eq_iff_iff, e1, e2]

/-- **C13** The 26-neighbour list of the library is exactly the set of non-zero unit steps; it is
closed under negation and fits every non-empty grid. -/
theorem C13_neighbors26 (s : Shape) (hp : s.Pos) :
    (∀ t, t ∈ neighbors26 ↔ UnitStep t ∧ t ≠ (0, 0, 0)) ∧ (∀ t ∈ neighbors26, negC t ∈ neighbors26) ∧
      (∀ t ∈ neighbors26, StepFits s t) ∧ neighbors26.Nodup ∧ neighbors26.length = 26 :=
  ⟨neighbors26_complete, neighbors26_neg, neighbors26_fits hp, by decide, by decide⟩

end C13

example : (List.range 4).map (getEdges ⟨4, 1, 1⟩ (fun v => [0, 0, 1, 2].getD v (0:ℤ)) neighbors26
    (fun v => v == 3) [3, 1, 0, 2]) = [false, true, true, false] := by decide

end BaderKit
