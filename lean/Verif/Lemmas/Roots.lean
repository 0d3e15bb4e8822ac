import Verif.Lemmas.Voxels
import Verif.Spec.Voxels
import Mathlib.Logic.Function.Iterate
import Mathlib.Data.Finset.Lattice.Fold
import Mathlib.Data.List.Sort
/-! # Lemmas on pointer jumping and label ranking -/
namespace BaderKit
open Function

theorem chase_eq_iterate (p : ℕ → ℤ) (k v : ℕ) : chase p k v = (fun u => (p u).toNat)^[k] v := by
  induction k generalizing v with
  | zero => rfl
  | succ k ih => rw [chase, ih]; rfl

theorem rootsLoop_mono (N : ℕ) (valid : ℕ → Bool) (fuel : ℕ) (p r : ℕ → ℤ)
    (h : rootsLoop N valid fuel p = some r) : rootsLoop N valid (fuel + 1) p = some r := by
  induction fuel generalizing p with
  | zero => simp [rootsLoop] at h
  | succ n ih =>
    rw [rootsLoop] at h ⊢
    split_ifs at h ⊢ with hc
    · exact h
    · exact ih _ h

theorem rootsLoop_mono' (N : ℕ) (valid : ℕ → Bool) {f g : ℕ} (hfg : f ≤ g) (p r : ℕ → ℤ)
    (h : rootsLoop N valid f p = some r) : rootsLoop N valid g p = some r := by
  induction hfg with
  | refl => exact h
  | step _ ih => exact rootsLoop_mono _ _ _ _ _ ih

theorem rootsLoop_unique (N : ℕ) (valid : ℕ → Bool) {f g : ℕ} (p r r' : ℕ → ℤ)
    (h : rootsLoop N valid f p = some r) (h' : rootsLoop N valid g p = some r') : r = r' := by
  have h1 := rootsLoop_mono' N valid (le_max_left f g) p r h
  have h2 := rootsLoop_mono' N valid (le_max_right f g) p r' h'
  rw [h1] at h2; exact Option.some_inj.mp h2

/-- Closure of the pointer array on the valid voxels. -/
def PtrClosed (N : ℕ) (valid : ℕ → Bool) (p : ℕ → ℤ) : Prop :=
  ∀ v < N, valid v = true → 0 ≤ p v ∧ p v < N ∧ valid (p v).toNat = true

theorem chase_closed {N : ℕ} {valid : ℕ → Bool} {p : ℕ → ℤ} (hc : PtrClosed N valid p) (k : ℕ) :
    ∀ v < N, valid v = true → chase p k v < N ∧ valid (chase p k v) = true := by
  induction k with
  | zero => intro v hv h; exact ⟨hv, h⟩
  | succ k ih =>
    intro v hv h
    obtain ⟨h0, h1, h2⟩ := hc v hv h
    exact ih _ (by omega) h2

theorem chase_add (p : ℕ → ℤ) (k l v : ℕ) : chase p (k + l) v = chase p k (chase p l v) := by
  simp only [chase_eq_iterate, Function.iterate_add_apply]

/-- State invariant after `m` doubling rounds. -/
def RootsInv (N : ℕ) (valid : ℕ → Bool) (p : ℕ → ℤ) (k : ℕ) (q : ℕ → ℤ) : Prop :=
  0 < k ∧ (∀ v < N, valid v = true → q v = (chase p k v : ℤ)) ∧ ∀ v < N, valid v = false → q v = p v

theorem rootsRound_inv {N : ℕ} {valid : ℕ → Bool} {p : ℕ → ℤ} (hc : PtrClosed N valid p) {k : ℕ}
    {q : ℕ → ℤ} (h : RootsInv N valid p k q) : RootsInv N valid p (k + k) (rootsRound N valid q) := by
  obtain ⟨hk, h1, h2⟩ := h
  refine ⟨by omega, fun v hv hval => ?_, fun v hv hval => ?_⟩
  · have hcl := chase_closed hc k v hv hval
    unfold rootsRound
    rw [if_pos hval, h1 v hv hval]
    have : pyIdx N (chase p k v : ℤ) = chase p k v := by
      unfold pyIdx; rw [if_neg (by omega)]; simp
    rw [this, h1 _ hcl.1 hcl.2, chase_add]
  · unfold rootsRound
    rw [if_neg (by simp [hval])]; exact h2 v hv hval

theorem chase_fixed {p : ℕ → ℤ} {r : ℕ} (h : p r = r) (k : ℕ) : chase p k r = r := by
  induction k with
  | zero => rfl
  | succ k ih => rw [chase, h]; simpa using ih

theorem chase_period {p : ℕ → ℤ} {w k : ℕ} (h : chase p k w = w) (j : ℕ) : chase p (j * k) w = w := by
  induction j with
  | zero => simp [chase]
  | succ j ih => rw [Nat.succ_mul, chase_add, h, ih]

/-- A stationary state of the loop consists of roots. -/
theorem stationary_root {N : ℕ} {valid : ℕ → Bool} {p : ℕ → ℤ} (hc : PtrClosed N valid p)
    (hend : ∀ v < N, valid v = true → ∃ r, IsRootOf p v r) {k : ℕ} {q : ℕ → ℤ}
    (h : RootsInv N valid p k q) (hst : ∀ v < N, rootsRound N valid q v = q v) :
    ∀ v < N, valid v = true → ∃ r : ℕ, q v = r ∧ IsRootOf p v r := by
  intro v hv hval
  have hcl := chase_closed hc k v hv hval
  refine ⟨chase p k v, h.2.1 v hv hval, ⟨k, rfl⟩, ?_⟩
  have h2 := rootsRound_inv hc h
  have e1 := h2.2.1 v hv hval
  rw [hst v hv, h.2.1 v hv hval, chase_add] at e1
  have e1' : chase p k (chase p k v) = chase p k v := by exact_mod_cast e1.symm
  obtain ⟨r, ⟨m, hm⟩, hr⟩ := hend _ hcl.1 hcl.2
  have hk := h.1
  have e2 := chase_period e1' m
  have e3 : chase p (m * k) (chase p k v) = r := by
    have : m * k = (m * k - m) + m := by
      have : m ≤ m * k := Nat.le_mul_of_pos_right _ hk
      omega
    rw [this, chase_add, hm, chase_fixed hr]
  rw [e2] at e3; rw [e3]; exact hr

theorem isRootOf_unique {p : ℕ → ℤ} {v r r' : ℕ} (h : IsRootOf p v r) (h' : IsRootOf p v r') :
    r = r' := by
  obtain ⟨⟨k, hk⟩, hr⟩ := h
  obtain ⟨⟨l, hl⟩, hr'⟩ := h'
  rcases le_total k l with hkl | hkl
  · obtain ⟨d, rfl⟩ := Nat.exists_eq_add_of_le hkl
    rw [add_comm, chase_add, hk, chase_fixed hr] at hl; exact hl
  · obtain ⟨d, rfl⟩ := Nat.exists_eq_add_of_le hkl
    rw [add_comm, chase_add, hl, chase_fixed hr'] at hk; exact hk.symm

theorem rootsLoop_sound {N : ℕ} {valid : ℕ → Bool} {p : ℕ → ℤ} (hc : PtrClosed N valid p)
    (hend : ∀ v < N, valid v = true → ∃ r, IsRootOf p v r) (fuel k : ℕ) (q r : ℕ → ℤ)
    (hq : RootsInv N valid p k q) (h : rootsLoop N valid fuel q = some r) :
    (∀ v < N, valid v = true → ∃ x : ℕ, r v = x ∧ IsRootOf p v x) ∧
      ∀ v < N, valid v = false → r v = p v := by
  induction fuel generalizing q k with
  | zero => simp [rootsLoop] at h
  | succ n ih =>
    rw [rootsLoop] at h
    split_ifs at h with hst
    · cases h
      exact ⟨stationary_root hc hend hq hst, hq.2.2⟩
    · exact ih _ _ (rootsRound_inv hc hq) h

theorem rootsLoop_terminates {N : ℕ} {valid : ℕ → Bool} {p : ℕ → ℤ} (hc : PtrClosed N valid p)
    (B : ℕ) (hB : ∀ v < N, valid v = true → ∃ r, (∃ k ≤ B, chase p k v = r) ∧ p r = r)
    (n k : ℕ) (q : ℕ → ℤ) (hq : RootsInv N valid p k q) (hn : B < k + n) :
    ∃ r, rootsLoop N valid (n + 1) q = some r := by
  induction n generalizing k q with
  | zero =>
    rw [rootsLoop]
    have hst : ∀ v < N, rootsRound N valid q v = q v := by
      intro v hv
      cases hval : valid v with
      | false => unfold rootsRound; simp [hval]
      | true =>
        have h2 := rootsRound_inv hc hq
        rw [h2.2.1 v hv hval, hq.2.1 v hv hval]
        obtain ⟨r, ⟨m, hm, hmr⟩, hr⟩ := hB v hv hval
        have : ∀ j, m ≤ j → chase p j v = r := by
          intro j hj
          obtain ⟨d, rfl⟩ := Nat.exists_eq_add_of_le hj
          rw [add_comm, chase_add, hmr, chase_fixed hr]
        rw [this k (by omega), this (k + k) (by omega)]
    exact ⟨q, by rw [if_pos hst]⟩
  | succ n ih =>
    rw [rootsLoop]
    split_ifs with hst
    · exact ⟨q, rfl⟩
    · have h2 := rootsRound_inv hc hq
      exact ih _ _ h2 (by have := hq.1; omega)

theorem rootsInv_init {N : ℕ} {valid : ℕ → Bool} {p : ℕ → ℤ} (hc : PtrClosed N valid p) :
    RootsInv N valid p 1 p := by
  refine ⟨by omega, fun v hv hval => ?_, fun _ _ _ => rfl⟩
  obtain ⟨h0, _, _⟩ := hc v hv hval
  simp only [chase]; omega

theorem exists_bound (N : ℕ) (P : ℕ → ℕ → Prop) (h : ∀ v < N, ∃ k, P v k) :
    ∃ B, ∀ v < N, ∃ k ≤ B, P v k := by
  choose! f hf using h
  exact ⟨(Finset.range N).sup f, fun v hv => ⟨f v, Finset.le_sup (Finset.mem_range.mpr hv), hf v hv⟩⟩

/-- Complete correctness of the doubling loop. -/
theorem rootsLoop_correct {N : ℕ} {valid : ℕ → Bool} {p : ℕ → ℤ} (hc : PtrClosed N valid p)
    (hend : ∀ v < N, valid v = true → ∃ r, IsRootOf p v r) :
    ∃ r, (∃ F, ∀ fuel ≥ F, rootsLoop N valid fuel p = some r) ∧
      (∀ v < N, valid v = true → ∃ x : ℕ, r v = x ∧ IsRootOf p v x) ∧
      ∀ v < N, valid v = false → r v = p v := by
  obtain ⟨B, hB⟩ := exists_bound N
    (fun v k => valid v = true → ∃ r, chase p k v = r ∧ p r = r) (by
      intro v hv
      cases hval : valid v with
      | false => exact ⟨0, by simp⟩
      | true => obtain ⟨r, ⟨k, hk⟩, hr⟩ := hend v hv hval; exact ⟨k, fun _ => ⟨r, hk, hr⟩⟩)
  obtain ⟨r, hr⟩ := rootsLoop_terminates hc B (fun v hv hval => by
    obtain ⟨k, hk, h⟩ := hB v hv
    obtain ⟨r, h1, h2⟩ := h hval
    exact ⟨r, ⟨k, hk, h1⟩, h2⟩) B 1 p (rootsInv_init hc) (by omega)
  have hs := rootsLoop_sound hc hend _ _ _ _ (rootsInv_init hc) hr
  exact ⟨r, ⟨B + 1, fun fuel hf => rootsLoop_mono' _ _ hf _ _ hr⟩, hs.1, hs.2⟩

/-! ### `np.unique` and ranking -/

theorem npUnique_mem (l : List ℤ) (x : ℤ) : x ∈ npUnique l ↔ x ∈ l := by
  unfold npUnique; rw [List.mem_insertionSort, List.mem_dedup]

theorem npUnique_nodup (l : List ℤ) : (npUnique l).Nodup :=
  (List.perm_insertionSort _ _).nodup_iff.mpr (List.nodup_dedup l)

theorem npUnique_pairwise (l : List ℤ) : (npUnique l).Pairwise (· < ·) := by
  have h : (npUnique l).Pairwise (· ≤ ·) := List.pairwise_insertionSort _ _
  have h2 : (npUnique l).Pairwise (· ≠ ·) := npUnique_nodup l
  exact (h.and h2).imp (fun ⟨h, h'⟩ => lt_of_le_of_ne h h')

theorem idxOf_lt_iff {u : List ℤ} (hu : u.Pairwise (· < ·)) {x y : ℤ} (hx : x ∈ u) (hy : y ∈ u) :
    u.idxOf x < u.idxOf y ↔ x < y := by
  have hx' := List.idxOf_lt_length_of_mem hx
  have hy' := List.idxOf_lt_length_of_mem hy
  have ex : u[u.idxOf x] = x := List.getElem_idxOf hx'
  have ey : u[u.idxOf y] = y := List.getElem_idxOf hy'
  have mono := List.pairwise_iff_getElem.mp hu
  constructor
  · intro h
    have := mono _ _ hx' hy' h
    rwa [ex, ey] at this
  · intro h
    by_contra hn
    rcases Nat.lt_or_eq_of_le (not_lt.mp hn) with h' | h'
    · have := mono _ _ hy' hx' h'
      rw [ex, ey] at this; omega
    · have : x = y := by rw [← ex, ← ey]; simp [h']
      omega

theorem idxOf_inj_mem {u : List ℤ} {x y : ℤ} (hx : x ∈ u) (hy : y ∈ u) :
    u.idxOf x = u.idxOf y ↔ x = y := by
  have hx' := List.idxOf_lt_length_of_mem hx
  have hy' := List.idxOf_lt_length_of_mem hy
  have ex : u[u.idxOf x] = x := List.getElem_idxOf hx'
  have ey : u[u.idxOf y] = y := List.getElem_idxOf hy'
  constructor
  · intro h; rw [← ex, ← ey]; simp [h]
  · intro h; rw [h]

theorem npUnique_length (N : ℕ) (roots : ℕ → ℤ) :
    (npUnique ((List.range N).map roots)).length = ((Finset.range N).image roots).card := by
  rw [← List.toFinset_card_of_nodup (npUnique_nodup _)]
  congr 1
  ext x
  simp [npUnique_mem]

/-- All facts about ranked labels at once. -/
theorem rankLabels_spec (N : ℕ) (roots : ℕ → ℤ) (h : ∀ v < N, -1 ≤ roots v) :
    (∀ v < N, ∀ w < N, (rankLabels N roots v < rankLabels N roots w ↔ roots v < roots w)) ∧
    (∀ v < N, ∀ w < N, (rankLabels N roots v = rankLabels N roots w ↔ roots v = roots w)) ∧
    (∀ v < N, (rankLabels N roots v = -1 ↔ roots v = -1)) ∧
    (∀ v < N, roots v ≠ -1 → 0 ≤ rankLabels N roots v ∧
      rankLabels N roots v < (((Finset.range N).image roots).erase (-1)).card) ∧
    (∀ b : ℕ, b < (((Finset.range N).image roots).erase (-1)).card →
      ∃ v < N, rankLabels N roots v = b) := by
  set u := npUnique ((List.range N).map roots) with hu
  have hsort : u.Pairwise (· < ·) := npUnique_pairwise _
  have hmem : ∀ v < N, roots v ∈ u := by
    intro v hv; rw [hu, npUnique_mem]; exact List.mem_map.mpr ⟨v, List.mem_range.mpr hv, rfl⟩
  have hlen : u.length = ((Finset.range N).image roots).card := npUnique_length N roots
  have hdef : ∀ v, rankLabels N roots v = (u.idxOf (roots v) : ℤ) - if (-1:ℤ) ∈ u then 1 else 0 :=
    fun v => rfl
  have hmemu : ∀ x, x ∈ u ↔ ∃ v < N, roots v = x := by
    intro x; rw [hu, npUnique_mem]; simp
  have h0 : (-1:ℤ) ∈ u → u.idxOf (-1) = 0 := by
    intro hm
    by_contra hne
    have hl := List.idxOf_lt_length_of_mem hm
    have hpos : 0 < u.length := by omega
    have := List.pairwise_iff_getElem.mp hsort 0 (u.idxOf (-1)) hpos hl (by omega)
    rw [List.getElem_idxOf hl] at this
    obtain ⟨v, hv, hv'⟩ := (hmemu u[0]).mp (List.getElem_mem hpos)
    have := h v hv
    omega
  have hcard : (((Finset.range N).image roots).erase (-1)).card =
      u.length - if (-1:ℤ) ∈ u then 1 else 0 := by
    by_cases hm : (-1:ℤ) ∈ u
    · have : (-1:ℤ) ∈ (Finset.range N).image roots := by
        obtain ⟨v, hv, hv'⟩ := (hmemu _).mp hm
        exact Finset.mem_image.mpr ⟨v, Finset.mem_range.mpr hv, hv'⟩
      rw [Finset.card_erase_of_mem this, hlen, if_pos hm]
    · have : (-1:ℤ) ∉ (Finset.range N).image roots := by
        intro hc
        obtain ⟨v, hv, hv'⟩ := Finset.mem_image.mp hc
        exact hm ((hmemu _).mpr ⟨v, Finset.mem_range.mp hv, hv'⟩)
      rw [Finset.erase_eq_of_notMem this, hlen, if_neg hm]; rfl
  refine ⟨?_, ?_, ?_, ?_, ?_⟩
  · intro v hv w hw
    rw [hdef, hdef, ← idxOf_lt_iff hsort (hmem v hv) (hmem w hw)]
    omega
  · intro v hv w hw
    rw [hdef, hdef, ← idxOf_inj_mem (hmem v hv) (hmem w hw)]
    omega
  · intro v hv
    rw [hdef]
    constructor
    · intro he
      by_cases hm : (-1:ℤ) ∈ u
      · rw [if_pos hm] at he
        have h1 : u.idxOf (roots v) = u.idxOf (-1) := by rw [h0 hm]; omega
        exact (idxOf_inj_mem (hmem v hv) hm).mp h1
      · rw [if_neg hm] at he; omega
    · intro he
      have hm : (-1:ℤ) ∈ u := he ▸ hmem v hv
      rw [he, if_pos hm, h0 hm]; rfl
  · intro v hv hne
    rw [hdef, hcard]
    have hl := List.idxOf_lt_length_of_mem (hmem v hv)
    by_cases hm : (-1:ℤ) ∈ u
    · have : 0 < u.idxOf (roots v) := by
        rw [← h0 hm]
        refine (idxOf_lt_iff hsort hm (hmem v hv)).mpr ?_
        have := h v hv; omega
      simp only [if_pos hm]; omega
    · simp only [if_neg hm]; omega
  · intro b hb
    rw [hcard] at hb
    by_cases hm : (-1:ℤ) ∈ u
    · rw [if_pos hm] at hb
      have hb' : b + 1 < u.length := by omega
      obtain ⟨v, hv, hv'⟩ := (hmemu _).mp (List.getElem_mem hb')
      refine ⟨v, hv, ?_⟩
      rw [hdef, hv', if_pos hm, (npUnique_nodup _).idxOf_getElem]; omega
    · rw [if_neg hm] at hb
      have hb' : b < u.length := by omega
      obtain ⟨v, hv, hv'⟩ := (hmemu _).mp (List.getElem_mem hb')
      refine ⟨v, hv, ?_⟩
      rw [hdef, hv', if_neg hm, (npUnique_nodup _).idxOf_getElem]; omega

end BaderKit
