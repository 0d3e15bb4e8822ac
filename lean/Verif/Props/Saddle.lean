import Verif.Lemmas.Saddle
/-!
# C77: potential saddle points

`find_potential_saddle_points` looks, at every voxel on the edge of a basin, at the voxels of the 3x3x3 and of the 5x5x5 box around it.
-/
namespace BaderKit
variable {α : Type*} [LinearOrder α] {s : Shape} {data : ℕ → α} {edge vac : ℕ → Bool} {greater : Bool} {v : ℕ}

/-- C77: the first check finds a possible saddle iff, going through the 26 neighbours in order, a neighbour with the value of the voxel is met
before any vacuum, or if there is neither vacuum nor an equal value among them and the farther ones (higher, or lower for voids) form more than
one group. -/
theorem C77_first_check (hv : v < s.size) : ∃ b, possibleSaddle s data vac greater v = some b ∧ (b = true ↔
    (∃ l1 t l2, neighbors26 = l1 ++ t :: l2 ∧ vac (nbr s v t) = false ∧ data (nbr s v t) = data v ∧
      ∀ u ∈ l1, vac (nbr s v u) = false ∧ data (nbr s v u) ≠ data v) ∨
    ((∀ t ∈ neighbors26, vac (nbr s v t) = false ∧ data (nbr s v t) ≠ data v) ∧ ∃ n, HasGroups (FarIn 1 s data vac greater v) n ∧ 1 < n)) :=
  possibleSaddle_spec hv

/-- C77: the second check finds a saddle iff the number of groups in the 5x5x5 box changes when the positions at the value are added.  A single
position at the value that touches nothing is not counted. -/
theorem C77_second_check : ∃ b n k, isSaddle s data vac greater v = some b ∧ HasGroups (FarIn 2 s data vac greater v) n ∧
    HasGroups (FarOrLevelIn 2 s data vac greater v) k ∧ (b = true ↔ n ≠ k) := isSaddle_spec

/-- The number of groups in these statements is determined by the set. -/
theorem C77_groups_unique {S : Coord → Prop} {n m : ℕ} (h : HasGroups S n) (h' : HasGroups S m) : n = m := hasGroups_unique h h'

/-- C77: an entry of the mask is set iff the voxel is on an edge, not in the vacuum, and passes both checks. -/
theorem C77_mask (hv : v < s.size) : ∃ b, saddleMask s data edge vac greater v = some b ∧ (b = true ↔ edge v = true ∧ vac v = false ∧
    possibleSaddle s data vac greater v = some true ∧ isSaddle s data vac greater v = some true) := by
  obtain ⟨b1, e1, _⟩ := possibleSaddle_spec (data := data) (vac := vac) (greater := greater) hv
  obtain ⟨b2, _, _, e2, _⟩ := isSaddle_spec (s := s) (data := data) (vac := vac) (greater := greater) (v := v)
  unfold saddleMask
  rw [e1, e2]
  cases edge v <;> cases vac v <;> cases b1 <;> simp

theorem touch_zero {q : Coord} : Touch (0, 0, 0) q ↔ InBox 1 q ∧ q ≠ (0, 0, 0) := by
  unfold Touch InBox
  simp only [sub_zero, Nat.cast_one]
  constructor
  · rintro ⟨h, h'⟩; exact ⟨h', fun e => h e.symm⟩
  · rintro ⟨h, h'⟩; exact ⟨fun e => h' e.symm, h⟩

theorem InBox.mono {p : Coord} (h : InBox 1 p) : InBox 2 p := by
  obtain ⟨a, b, c⟩ := h
  exact ⟨a.trans (by norm_num), b.trans (by norm_num), c.trans (by norm_num)⟩

theorem inBox_unit {p : Coord} : InBox 1 p ↔ UnitStep p := by
  unfold InBox UnitStep
  simp only [Nat.cast_one, abs_le]

theorem FarIn.mono {p : Coord} (h : FarIn 1 s data vac greater v p) : FarIn 2 s data vac greater v p := ⟨h.1.mono, h.2⟩

/-- C77: if no other voxel of the 5x5x5 box has the value of the voxel and no neighbour is in the vacuum, the voxel is marked iff it is on an
edge and two of its farther neighbours are in different groups of the farther positions of the 5x5x5 box. -/
theorem C77_marked_iff (hv : v < s.size) (hvac0 : vac v = false) (hvac : ∀ t ∈ neighbors26, vac (nbr s v t) = false)
    (hne : ∀ p, InBox 2 p → p ≠ (0, 0, 0) → data (nbr s v p) ≠ data v) :
    ∃ b, saddleMask s data edge vac greater v = some b ∧ (b = true ↔ edge v = true ∧
      ∃ p q, FarIn 1 s data vac greater v p ∧ FarIn 1 s data vac greater v q ∧ ¬ GroupedIn (FarIn 2 s data vac greater v) p q) := by
  obtain ⟨b, e, hb⟩ := C77_mask (s := s) (data := data) (edge := edge) (vac := vac) (greater := greater) hv
  refine ⟨b, e, hb.trans ?_⟩
  obtain ⟨b1, e1, h1⟩ := C77_first_check (s := s) (data := data) (vac := vac) (greater := greater) hv
  obtain ⟨b2, n, k, e2, hn, hk, h2⟩ := C77_second_check (s := s) (data := data) (vac := vac) (greater := greater) (v := v)
  rw [e1, e2]
  simp only [Option.some.injEq, hvac0, true_and]
  have h00 : InBox 2 (0, 0, 0) := by unfold InBox; simp
  have hnot : ¬ FarIn 2 s data vac greater v (0, 0, 0) := by
    intro h
    have := h.2.2
    rw [nbr_zero hv] at this
    exact farther_ne this rfl
  have hlev : ∀ p, LevelIn 2 s data vac v p ↔ p = (0, 0, 0) := by
    intro p
    constructor
    · intro h
      by_contra hp
      exact hne p h.1 hp h.2.2
    · rintro rfl
      exact ⟨h00, by rw [nbr_zero hv]; exact hvac0, by rw [nbr_zero hv]⟩
  have hT : ∀ p, FarOrLevelIn 2 s data vac greater v p ↔ FarIn 2 s data vac greater v p ∨
      (p = (0, 0, 0) ∧ ∃ q, Touch (0, 0, 0) q ∧ FarIn 2 s data vac greater v q) := by
    intro p
    unfold FarOrLevelIn
    refine or_congr_right ?_
    rw [hlev p]
    constructor
    · rintro ⟨rfl, q, ht, h | h⟩
      · exact ⟨rfl, q, ht, h⟩
      · rw [hlev] at h
        exact absurd h.symm ht.1
    · rintro ⟨rfl, q, ht, h⟩
      exact ⟨rfl, q, ht, Or.inl h⟩
  rw [h2, groups_change hnot hT hn hk]
  have hshrink : ∀ {p}, FarIn 2 s data vac greater v p → Touch (0, 0, 0) p → FarIn 1 s data vac greater v p :=
    fun h ht => ⟨(touch_zero.mp ht).1, h.2⟩
  have hgrow : ∀ {p}, FarIn 1 s data vac greater v p → Touch (0, 0, 0) p := fun h =>
    touch_zero.mpr ⟨h.1, fun e => hnot (e ▸ h.mono)⟩
  constructor
  · rintro ⟨he, _, p, q, hp, hq, htp, htq, hno⟩
    exact ⟨he, p, q, hshrink hp htp, hshrink hq htq, hno⟩
  · rintro ⟨he, p, q, hp, hq, hno⟩
    refine ⟨he, ?_, p, q, hp.mono, hq.mono, hgrow hp, hgrow hq, hno⟩
    rw [h1]
    right
    have hcl : ∀ t ∈ neighbors26, vac (nbr s v t) = false ∧ data (nbr s v t) ≠ data v := by
      intro t ht
      have hu := (neighbors26_complete t).mp ht
      exact ⟨hvac t ht, hne t (inBox_unit.mpr hu.1).mono hu.2⟩
    refine ⟨hcl, ?_⟩
    have hex : ∃ n, HasGroups (FarIn 1 s data vac greater v) n := hasGroups_exists fun p hp => hp.1
    obtain ⟨m, hm⟩ := hex
    exact ⟨m, hm, (hasGroups_two hm).mpr ⟨p, q, hp, hq, fun h => hno (h.mono fun _ h => h.mono)⟩⟩

/-! ### Connections through the crystal -/

theorem nbr_step {p q : Coord} (hv : v < s.size) (hp : StepFits s p) (hq : StepFits s q) (hpq : UnitStep (q.1 - p.1, q.2.1 - p.2.1, q.2.2 - p.2.2)) :
    nbr s v q = nbr s (nbr s v p) (q.1 - p.1, q.2.1 - p.2.1, q.2.2 - p.2.2) := by
  have hs := pos_of_lt_size hv
  have hf := hpq.fits hs
  have hn := nbr_lt hv hp
  have e1 := flatToCoords_nbr hn hf
  rw [flatToCoords_nbr hv hp] at e1
  have e2 := flatToCoords_nbr hv hq
  have r1 := flatToCoords_inRange (s := s) (v := nbr s v q) (by positivity) (by exact_mod_cast nbr_lt hv hq) hs
  have r2 := flatToCoords_inRange (s := s) (v := nbr s (nbr s v p) (q.1 - p.1, q.2.1 - p.2.1, q.2.2 - p.2.2)) (by positivity)
    (by exact_mod_cast nbr_lt hn hf) hs
  have hsame : SamePoint s (flatToCoords s (nbr s v q)) (flatToCoords s (nbr s (nbr s v p) (q.1 - p.1, q.2.1 - p.2.1, q.2.2 - p.2.2))) := by
    rw [e1, e2]
    have h1 := (wrapPoint_same s (addC (flatToCoords s v) q)).symm
    have h2 := wrapPoint_same s (addC (flatToCoords s v) p)
    have h3 := wrapPoint_same s (addC (wrapPoint s (addC (flatToCoords s v) p)) (q.1 - p.1, q.2.1 - p.2.1, q.2.2 - p.2.2))
    refine h1.trans (SamePoint.trans ?_ h3)
    obtain ⟨⟨x, hx⟩, ⟨y, hy⟩, ⟨z, hz⟩⟩ := h2
    refine ⟨⟨x, ?_⟩, ⟨y, ?_⟩, ⟨z, ?_⟩⟩ <;> simp only [addC] at hx hy hz ⊢ <;> linarith
  have h := congrArg (coordsToFlat s) (samePoint_unique r1 r2 hsame)
  rw [coordsToFlat_flatToCoords, coordsToFlat_flatToCoords] at h
  exact_mod_cast h

theorem inBox_fits {p : Coord} (h2 : 2 ≤ s.nx ∧ 2 ≤ s.ny ∧ 2 ≤ s.nz) (hp : InBox 2 p) : StepFits s p := by
  obtain ⟨a, b, c⟩ := hp
  rw [abs_le] at a b c
  obtain ⟨x, y, z⟩ := h2
  refine ⟨⟨?_, ?_⟩, ⟨?_, ?_⟩, ⟨?_, ?_⟩⟩ <;> push_cast at * <;> omega

/-- The voxels of a group of positions are connected through voxels of the grid. -/
theorem grouped_joined (hv : v < s.size) (h2 : 2 ≤ s.nx ∧ 2 ≤ s.ny ∧ 2 ≤ s.nz) {p q : Coord} (h : GroupedIn (FarIn 2 s data vac greater v) p q) :
    VoxJoined s neighbors26 (fun w => vac w = false ∧ Farther greater (data w) (data v)) (nbr s v p) (nbr s v q) := by
  induction h with
  | refl => exact .refl
  | @tail a b _ hab ih =>
    obtain ⟨ha, hb, hne, h1, h2', h3⟩ := hab
    refine ih.tail ⟨ha.2, hb.2, (b.1 - a.1, b.2.1 - a.2.1, b.2.2 - a.2.2), ?_, ?_⟩
    · rw [neighbors26_complete]
      refine ⟨⟨abs_le.mp h1, abs_le.mp h2', abs_le.mp h3⟩, fun e => hne ?_⟩
      simp only [Prod.mk.injEq] at e
      ext <;> omega
    · exact nbr_step hv (inBox_fits h2 ha.1) (inBox_fits h2 hb.1) ⟨abs_le.mp h1, abs_le.mp h2', abs_le.mp h3⟩

/-- In a grid with at least three voxels along each axis no other position of the 5x5x5 box is the voxel itself. -/
theorem nbr_ne_self (hv : v < s.size) (h3 : 3 ≤ s.nx ∧ 3 ≤ s.ny ∧ 3 ≤ s.nz) {p : Coord} (hp : InBox 2 p) (hp0 : p ≠ (0, 0, 0)) : nbr s v p ≠ v := by
  intro e
  have hf := inBox_fits (s := s) (by omega) hp
  have h := flatToCoords_nbr hv hf
  rw [e] at h
  have hs := wrapPoint_same s (addC (flatToCoords s v) p)
  rw [← h] at hs
  obtain ⟨⟨x, hx⟩, ⟨y, hy⟩, ⟨z, hz⟩⟩ := hs
  obtain ⟨a, b, c⟩ := hp
  rw [abs_le] at a b c
  simp only [addC] at hx hy hz
  apply hp0
  have key : ∀ {i : ℤ} {n : ℕ} {k : ℤ}, 3 ≤ n → -2 ≤ i → i ≤ 2 → i = k * n → i = 0 := by
    intro i n k hn h1 h2 hk
    rcases lt_trichotomy k 0 with h | h | h
    · have : k * (n : ℤ) ≤ -1 * (n : ℤ) := mul_le_mul_of_nonneg_right (by omega) (by omega)
      omega
    · rw [h, zero_mul] at hk; exact hk
    · have : 1 * (n : ℤ) ≤ k * (n : ℤ) := mul_le_mul_of_nonneg_right (by omega) (by omega)
      omega
  push_cast at a b c
  ext
  · exact key h3.1 a.1 a.2 (k := x) (by linarith)
  · exact key h3.2.1 b.1 b.2 (k := y) (by linarith)
  · exact key h3.2.2 c.1 c.2 (k := z) (by linarith)

/-- C77: no saddle is missed where the values are distinct.  If two neighbours of an edge voxel are on the far side of its value and are not
connected to each other through voxels on the far side, so that the voxel joins two separate regions of the crystal, and if no other voxel of
the 5x5x5 box has its value, the voxel is marked. -/
theorem C77_saddle_found_local (h2 : 2 ≤ s.nx ∧ 2 ≤ s.ny ∧ 2 ≤ s.nz) (hne : ∀ p, InBox 2 p → p ≠ (0, 0, 0) → data (nbr s v p) ≠ data v)
    (hv : v < s.size) (he : edge v = true) (hvac0 : vac v = false) (hvac : ∀ t ∈ neighbors26, vac (nbr s v t) = false) {w1 w2 : ℕ}
    (hw1 : IsNbr s neighbors26 v w1) (hw2 : IsNbr s neighbors26 v w2) (hf1 : Farther greater (data w1) (data v))
    (hf2 : Farther greater (data w2) (data v))
    (hno : ¬ VoxJoined s neighbors26 (fun w => vac w = false ∧ Farther greater (data w) (data v)) w1 w2) :
    saddleMask s data edge vac greater v = some true := by
  have hp := pos_of_lt_size hv
  obtain ⟨b, e, hb⟩ := C77_marked_iff (s := s) (data := data) (edge := edge) (vac := vac) (greater := greater) hv hvac0 hvac hne
  obtain ⟨t1, ht1, rfl⟩ := (isNbr_iff (neighbors26_fits hp) hv).mp hw1
  obtain ⟨t2, ht2, rfl⟩ := (isNbr_iff (neighbors26_fits hp) hv).mp hw2
  have : b = true := hb.mpr ⟨he, t1, t2, ⟨inBox_unit.mpr (neighbors26_unit t1 ht1), hvac t1 ht1, hf1⟩,
    ⟨inBox_unit.mpr (neighbors26_unit t2 ht2), hvac t2 ht2, hf2⟩, fun h => hno (grouped_joined hv h2 h)⟩
  rw [e, this]

/-- C77: in particular when all voxels have different values and the grid has at least three voxels along each axis. -/
theorem C77_saddle_found (h3 : 3 ≤ s.nx ∧ 3 ≤ s.ny ∧ 3 ≤ s.nz) (hinj : ∀ a < s.size, ∀ b < s.size, data a = data b → a = b) (hv : v < s.size)
    (he : edge v = true) (hvac0 : vac v = false) (hvac : ∀ t ∈ neighbors26, vac (nbr s v t) = false) {w1 w2 : ℕ}
    (hw1 : IsNbr s neighbors26 v w1) (hw2 : IsNbr s neighbors26 v w2) (hf1 : Farther greater (data w1) (data v))
    (hf2 : Farther greater (data w2) (data v))
    (hno : ¬ VoxJoined s neighbors26 (fun w => vac w = false ∧ Farther greater (data w) (data v)) w1 w2) :
    saddleMask s data edge vac greater v = some true :=
  C77_saddle_found_local (by omega)
    (fun _ hp hp0 h => nbr_ne_self hv h3 hp hp0 (hinj _ (nbr_lt hv (inBox_fits (by omega) hp)) _ hv h)) hv he hvac0 hvac hw1 hw2 hf1 hf2 hno

/-! ### Equal values hide a saddle -/

/-- A grid of 7x7x7 voxels.  The centre has the value 1, two opposite neighbours have the value 2, two touching voxels farther away have the
value 1, all others have the value 0. -/
def hideShape : Shape := ⟨7, 7, 7⟩

def hideData (v : ℕ) : ℤ :=
  if v = 171 then 1 else if v = 122 ∨ v = 220 then 2 else if v = 187 ∨ v = 186 then 1 else 0

set_option maxRecDepth 100000 in
/-- C77 fails with equal values: the voxel 171 joins the two voxels of value 2, which are not connected otherwise, but it is not marked because
two other voxels of the box with the same value form a group of their own. -/
theorem C77_equal_value_hides :
    ¬ ∀ (s : Shape) (data : ℕ → ℤ) (v w1 w2 : ℕ), 3 ≤ s.nx ∧ 3 ≤ s.ny ∧ 3 ≤ s.nz → v < s.size → IsNbr s neighbors26 v w1 → IsNbr s neighbors26 v w2 →
      data v < data w1 → data v < data w2 → ¬ VoxJoined s neighbors26 (fun w => data v < data w) w1 w2 →
      saddleMask s data (fun _ => true) (fun _ => false) true v = some true := by
  intro h
  have hs := h hideShape hideData 171 122 220 (by decide) (by decide)
    ((isNbr_iff (neighbors26_fits (by unfold Shape.Pos; decide)) (by decide)).mpr ⟨(-1, 0, 0), by decide, by decide⟩)
    ((isNbr_iff (neighbors26_fits (by unfold Shape.Pos; decide)) (by decide)).mpr ⟨(1, 0, 0), by decide, by decide⟩) (by decide) (by decide) ?_
  · revert hs
    decide +kernel
  · intro hj
    have key : ∀ w, VoxJoined hideShape neighbors26 (fun w => hideData 171 < hideData w) 122 w → w = 122 := by
      intro w hw
      induction hw with
      | refl => rfl
      | tail _ hab ih =>
        obtain ⟨_, hb, t, ht, rfl⟩ := hab
        rw [ih] at hb
        exact absurd hb ((by decide +kernel : ∀ t ∈ neighbors26, ¬ hideData 171 < hideData (nbr hideShape 122 t)) t ht)
    exact absurd (key 220 hj) (by decide)

/-- Non-vacuity: without the two hidden voxels the same voxel is marked. -/
example : saddleMask hideShape (fun v => if v = 171 then 1 else if v = 122 ∨ v = 220 then (2 : ℤ) else 0) (fun _ => true) (fun _ => false) true 171 =
    some true := by decide +kernel

/-- With distinct values the hypotheses of `C77_saddle_found` are met: same two high voxels, all other values distinct and lower. -/
def ridgeData (v : ℕ) : ℤ := if v = 171 then 1 else if v = 122 then 2 else if v = 220 then 3 else -(v : ℤ)

theorem ridge_inj : ∀ a < hideShape.size, ∀ b < hideShape.size, ridgeData a = ridgeData b → a = b := by
  intro a _ b _ h
  unfold ridgeData at h
  split_ifs at h <;> omega

example : saddleMask hideShape ridgeData (fun _ => true) (fun _ => false) true 171 = some true := by
  refine C77_saddle_found (w1 := 122) (w2 := 220) (by decide) ridge_inj (by decide) rfl rfl (fun _ _ => rfl)
    ((isNbr_iff (neighbors26_fits (by unfold Shape.Pos; decide)) (by decide)).mpr ⟨(-1, 0, 0), by decide, by decide⟩)
    ((isNbr_iff (neighbors26_fits (by unfold Shape.Pos; decide)) (by decide)).mpr ⟨(1, 0, 0), by decide, by decide⟩) (by unfold Farther; decide) (by unfold Farther; decide) ?_
  intro hj
  have key : ∀ w, VoxJoined hideShape neighbors26 (fun w => (fun _ => false) w = false ∧ Farther true (ridgeData w) (ridgeData 171)) 122 w →
      w = 122 := by
    intro w hw
    induction hw with
    | refl => rfl
    | tail _ hab ih =>
      obtain ⟨_, hb, t, ht, rfl⟩ := hab
      rw [ih] at hb
      exact absurd hb.2 ((by decide +kernel : ∀ t ∈ neighbors26, ¬ ridgeData 171 < ridgeData (nbr hideShape 122 t)) t ht)
  exact absurd (key 220 hj) (by decide)

end BaderKit
