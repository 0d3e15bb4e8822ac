import Verif.Props.SupercellAtoms
/-!
# C120: symmetry operations and the choice of the axes

Rotations, mirrors, glides and exchanges of the axes that carry grid points to grid points.
-/
set_option linter.unusedSectionVars false
namespace BaderKit
open Finset
variable {K : Type} [Field K] [LinearOrder K] [IsStrictOrderedRing K] [FloorRing K]

/-! ## Specification -/

/-- An integer matrix, by rows, and its product with a column. -/
abbrev IMat := Coord × Coord × Coord
def IMat.mul (R : IMat) (c : Coord) : Coord :=
  (R.1.1 * c.1 + R.1.2.1 * c.2.1 + R.1.2.2 * c.2.2, R.2.1.1 * c.1 + R.2.1.2.1 * c.2.1 + R.2.1.2.2 * c.2.2,
    R.2.2.1 * c.1 + R.2.2.2.1 * c.2.1 + R.2.2.2.2 * c.2.2)

/-- An operation on grid points: `c ↦ rot c + shift`; `inv` is the inverse of `rot`. -/
structure GridOper where
  rot : IMat
  inv : IMat
  shift : Coord

/-- The operation carries the grid `s` to the grid `s'`: the matrices are inverse and whole cells go to whole cells, both ways. -/
structure GridOper.Fits (g : GridOper) (s s' : Shape) : Prop where
  left : ∀ c, g.inv.mul (g.rot.mul c) = c
  right : ∀ c, g.rot.mul (g.inv.mul c) = c
  cells : ∀ c, WholeCells s c → WholeCells s' (g.rot.mul c)
  cells' : ∀ c, WholeCells s' c → WholeCells s (g.inv.mul c)

/-- The operation carries the voxel `v` to the voxel `w`, up to whole cells. -/
def GridOper.Carries (g : GridOper) (s s' : Shape) (v w : ℕ) : Prop :=
  v < s.size ∧ w < s'.size ∧ SamePoint s' (flatToCoords s' w) (addC (g.rot.mul (flatToCoords s v)) g.shift)

/-- `G'` is the crystal `G` after the operation: the same values at corresponding voxels, the same neighbours with the same distances, in any order. -/
structure OperatedBy (g : GridOper) (G G' : RunInput K) : Prop where
  fits : g.Fits G.shape G'.shape
  nbrs : G'.nbrs.Perm (G.nbrs.map fun td => (g.rot.mul td.1, td.2))
  volume : G'.volume = G.volume
  tol : G'.tol = G.tol
  useRef : G'.useRef = G.useRef
  ref : ∀ v w, g.Carries G.shape G'.shape v w → G'.ref w = G.ref v
  charge : ∀ v w, g.Carries G.shape G'.shape v w → G'.charge w = G.charge v

/-- `w` is a neighbour of `v` in the direction of the steepest ascent. -/
def RunInput.Steepest (G : RunInput K) (v w : ℕ) : Prop :=
  ∃ td ∈ G.nbrs, w = nbr G.shape v td.1 ∧ G.ref v < G.ref w ∧
    ∀ td' ∈ G.nbrs, (G.ref (nbr G.shape v td'.1) - G.ref v) / td'.2 ≤ (G.ref w - G.ref v) / td.2

/-- Outside the vacuum no voxel has two steepest neighbours. -/
def RunInput.NoTies (G : RunInput K) : Prop :=
  ∀ v w w2, v < G.shape.size → G.vacuum v = false → G.Steepest v w → G.Steepest v w2 → w = w2

/-- What a user compares. -/
structure CarriedBasins (g : GridOper) (G G' : RunInput K) (o o' : RunOut K) : Prop where
  vacuum : ∀ v w, g.Carries G.shape G'.shape v w → (o'.labels w = -1 ↔ o.labels v = -1)
  parts : ∀ v w v2 w2, g.Carries G.shape G'.shape v w → g.Carries G.shape G'.shape v2 w2 → (o'.labels w = o'.labels w2 ↔ o.labels v = o.labels v2)
  charge : ∀ v w, g.Carries G.shape G'.shape v w → o.labels v ≠ -1 → o'.basins.charges (o'.labels w).toNat = o.basins.charges (o.labels v).toNat
  volume : ∀ v w, g.Carries G.shape G'.shape v w → o.labels v ≠ -1 → o'.basins.volumes (o'.labels w).toNat = o.basins.volumes (o.labels v).toNat
  vacCharge : o'.basins.vacCharge = o.basins.vacCharge
  vacVolume : o'.basins.vacVolume = o.basins.vacVolume
  count : o'.maxima.length = o.maxima.length

/-- The two runs. -/
structure OperRuns (g : GridOper) (G G' : RunInput K) (A A' : RunAid K) (ε : K) : Prop where
  oper : OperatedBy g G G'
  ready : RunReady G A ε
  ready' : RunReady G' A' ε
  twoSided : TwoSided G.nbrs
  noPlateau : G.NoPlateau
  noTies : G.NoTies
  apart : A.Apart G
  apart' : A'.Apart G'
  sorted : ∀ l, (A.sortMax l).Pairwise fun a b => G.ref b ≤ G.ref a
  sorted' : ∀ l, (A'.sortMax l).Pairwise fun a b => G'.ref b ≤ G'.ref a

/-! ## Carried voxels -/

section carry

theorem IMat.mul_add (R : IMat) (a b : Coord) : R.mul (addC a b) = addC (R.mul a) (R.mul b) := by
  simp only [IMat.mul, addC]
  refine Prod.ext ?_ (Prod.ext ?_ ?_) <;> dsimp only <;> ring

theorem IMat.mul_neg (R : IMat) (a : Coord) : R.mul (negC a) = negC (R.mul a) := by
  simp only [IMat.mul, negC]
  refine Prod.ext ?_ (Prod.ext ?_ ?_) <;> dsimp only <;> ring

/-- The difference of two coordinates. -/
def diffC (a b : Coord) : Coord := (a.1 - b.1, a.2.1 - b.2.1, a.2.2 - b.2.2)

theorem IMat.mul_diff (R : IMat) (a b : Coord) : R.mul (diffC a b) = diffC (R.mul a) (R.mul b) := by
  simp only [IMat.mul, diffC]
  refine Prod.ext ?_ (Prod.ext ?_ ?_) <;> dsimp only <;> ring

theorem samePoint_diff {s : Shape} {a b : Coord} : SamePoint s a b ↔ WholeCells s (diffC a b) := by
  unfold SamePoint WholeCells diffC
  constructor
  · rintro ⟨⟨x, hx⟩, ⟨y, hy⟩, ⟨z, hz⟩⟩
    exact ⟨⟨x, by dsimp only; linarith⟩, ⟨y, by dsimp only; linarith⟩, ⟨z, by dsimp only; linarith⟩⟩
  · rintro ⟨⟨x, hx⟩, ⟨y, hy⟩, ⟨z, hz⟩⟩
    dsimp only at hx hy hz
    exact ⟨⟨x, by linarith⟩, ⟨y, by linarith⟩, ⟨z, by linarith⟩⟩

variable {g : GridOper} {s s' : Shape}

theorem GridOper.Fits.same (h : g.Fits s s') {a b : Coord} (hs : SamePoint s a b) : SamePoint s' (g.rot.mul a) (g.rot.mul b) := by
  rw [samePoint_diff, ← IMat.mul_diff]
  exact h.cells _ (samePoint_diff.mp hs)

theorem GridOper.Fits.same' (h : g.Fits s s') {a b : Coord} (hs : SamePoint s' a b) : SamePoint s (g.inv.mul a) (g.inv.mul b) := by
  rw [samePoint_diff, ← IMat.mul_diff]
  exact h.cells' _ (samePoint_diff.mp hs)

theorem carries_exists (hp : s'.Pos) {v : ℕ} (hv : v < s.size) : ∃ w, g.Carries s s' v w := by
  obtain ⟨d, hd, hs⟩ := exists_inRange hp (addC (g.rot.mul (flatToCoords s v)) g.shift)
  obtain ⟨w, hw, rfl⟩ := exists_flat hd
  exact ⟨w, hv, hw, hs.symm⟩

theorem carries_unique {v w w2 : ℕ} (h : g.Carries s s' v w) (h2 : g.Carries s s' v w2) : w = w2 :=
  flat_inj (samePoint_unique (flat_inRange h.2.1) (flat_inRange h2.2.1) (h.2.2.trans h2.2.2.symm))

theorem carries_inj (hF : g.Fits s s') {v v2 w : ℕ} (h : g.Carries s s' v w) (h2 : g.Carries s s' v2 w) : v = v2 := by
  apply flat_inj (samePoint_unique (flat_inRange h.1) (flat_inRange h2.1) _)
  have := h.2.2.symm.trans h2.2.2
  obtain ⟨⟨x, hx⟩, ⟨y, hy⟩, ⟨z, hz⟩⟩ := this
  simp only [addC] at hx hy hz
  have h3 : SamePoint s' (g.rot.mul (flatToCoords s v)) (g.rot.mul (flatToCoords s v2)) := ⟨⟨x, by linarith⟩, ⟨y, by linarith⟩, ⟨z, by linarith⟩⟩
  have := hF.same' h3
  rwa [hF.left, hF.left] at this

theorem carries_surj (hF : g.Fits s s') (hp : s.Pos) {w : ℕ} (hw : w < s'.size) : ∃ v, g.Carries s s' v w := by
  obtain ⟨d, hd, hs⟩ := exists_inRange hp (g.inv.mul (diffC (flatToCoords s' w) g.shift))
  obtain ⟨v, hv, rfl⟩ := exists_flat hd
  refine ⟨v, hv, hw, ?_⟩
  have := hF.same hs
  rw [hF.right] at this
  obtain ⟨⟨x, hx⟩, ⟨y, hy⟩, ⟨z, hz⟩⟩ := this
  simp only [diffC] at hx hy hz
  exact ⟨⟨x, by simp only [addC]; linarith⟩, ⟨y, by simp only [addC]; linarith⟩, ⟨z, by simp only [addC]; linarith⟩⟩

theorem carries_nbr (hF : g.Fits s s') {v w : ℕ} (h : g.Carries s s' v w) {t : Coord} (ht : StepFits s t) (ht' : StepFits s' (g.rot.mul t)) :
    g.Carries s s' (nbr s v t) (nbr s' w (g.rot.mul t)) := by
  refine ⟨nbr_lt h.1 ht, nbr_lt h.2.1 ht', ?_⟩
  rw [flatToCoords_nbr h.2.1 ht', flatToCoords_nbr h.1 ht]
  refine (wrapPoint_same s' _).symm.trans ((samePoint_addC h.2.2 _).trans ?_)
  have e : addC (addC (g.rot.mul (flatToCoords s v)) g.shift) (g.rot.mul t) = addC (g.rot.mul (addC (flatToCoords s v) t)) g.shift := by
    rw [IMat.mul_add]; simp only [addC]; refine Prod.ext ?_ (Prod.ext ?_ ?_) <;> dsimp only <;> ring
  rw [e]
  exact samePoint_addC (hF.same (wrapPoint_same s _)) _

theorem sum_carried (hF : g.Fits s s') (hp : s.Pos) (hp' : s'.Pos) (P P' : ℕ → Prop) [DecidablePred P] [DecidablePred P'] (f f' : ℕ → K)
    (hP : ∀ v w, g.Carries s s' v w → (P' w ↔ P v)) (hf : ∀ v w, g.Carries s s' v w → P v → f' w = f v) :
    ∑ w ∈ (range s'.size).filter P', f' w = ∑ v ∈ (range s.size).filter P, f v := by
  have : ∀ v, ∃ w, v < s.size → g.Carries s s' v w := by
    intro v
    by_cases h : v < s.size
    · obtain ⟨w, hw⟩ := carries_exists (g := g) hp' h
      exact ⟨w, fun _ => hw⟩
    · exact ⟨0, fun h' => absurd h' h⟩
  choose φ hφ using this
  symm
  refine Finset.sum_bij (fun v _ => φ v) ?_ ?_ ?_ ?_
  · intro v hv
    simp only [Finset.mem_filter, Finset.mem_range] at hv ⊢
    have := hφ v hv.1
    exact ⟨this.2.1, (hP _ _ this).mpr hv.2⟩
  · intro v hv v2 hv2 e
    simp only [Finset.mem_filter, Finset.mem_range] at hv hv2
    have h1 := hφ v hv.1
    have h2 := hφ v2 hv2.1
    have e : φ v = φ v2 := e
    rw [← e] at h2
    exact carries_inj hF h1 h2
  · intro w hw
    simp only [Finset.mem_filter, Finset.mem_range] at hw
    obtain ⟨v, hv⟩ := carries_surj hF hp hw.1
    exact ⟨v, by simp only [Finset.mem_filter, Finset.mem_range]; exact ⟨hv.1, (hP _ _ hv).mp hw.2⟩, carries_unique (hφ v hv.1) hv⟩
  · intro v hv
    simp only [Finset.mem_filter, Finset.mem_range] at hv
    exact (hf _ _ (hφ v hv.1) hv.2).symm

theorem size_carried (hF : g.Fits s s') (hp : s.Pos) (hp' : s'.Pos) : s'.size = s.size := by
  have := sum_carried (K := ℚ) hF hp hp' (fun _ => True) (fun _ => True) (fun _ => 1) (fun _ => 1) (fun _ _ _ => Iff.rfl) (fun _ _ _ _ => rfl)
  simp only [Finset.filter_true, Finset.sum_const, Finset.card_range, nsmul_eq_mul, mul_one] at this
  exact_mod_cast this

end carry

/-! ## The ascent -/

theorem first_split {α : Type*} (P : α → Prop) : ∀ l : List α, (∃ x ∈ l, P x) → ∃ l1 x l2, l = l1 ++ x :: l2 ∧ P x ∧ ∀ y ∈ l1, ¬ P y := by
  intro l
  induction l with
  | nil => rintro ⟨x, hx, _⟩; cases hx
  | cons a l ih =>
    rintro ⟨x, hx, hP⟩
    by_cases ha : P a
    · exact ⟨[], a, l, rfl, ha, by simp⟩
    · have hxl : x ∈ l := by
        rcases List.mem_cons.mp hx with rfl | h
        · exact absurd hP ha
        · exact h
      obtain ⟨l1, y, l2, e, h1, h2⟩ := ih ⟨x, hxl, hP⟩
      refine ⟨a :: l1, y, l2, by rw [e]; rfl, h1, ?_⟩
      intro z hz
      rcases List.mem_cons.mp hz with rfl | h
      · exact ha
      · exact h2 z h

theorem steepest_iff {G : RunInput K} (hT : G.NoTies) (hd : ∀ td ∈ G.nbrs, 0 < td.2) {v w : ℕ} (hv : v < G.shape.size) (hvac : G.vacuum v = false) :
    SteepestNbr G.shape G.ref G.nbrs v w ↔ G.Steepest v w := by
  constructor
  · rintro ⟨l1, td, l2, hl, hw, hlt, hm, _⟩
    exact ⟨td, by rw [hl]; simp, hw, hlt, hm⟩
  · intro h
    obtain ⟨td, htd, hw, hlt, hm⟩ := h
    have hstp : G.Steepest v w := ⟨td, htd, hw, hlt, hm⟩
    obtain ⟨l1, x, l2, hl, hx, hb⟩ := first_split (fun x : Coord × K => ∀ td' ∈ G.nbrs,
      (G.ref (nbr G.shape v td'.1) - G.ref v) / td'.2 ≤ (G.ref (nbr G.shape v x.1) - G.ref v) / x.2) G.nbrs ⟨td, htd, by rw [← hw]; exact hm⟩
    have hxm : x ∈ G.nbrs := by rw [hl]; simp
    have hpos : 0 < (G.ref (nbr G.shape v x.1) - G.ref v) / x.2 := by
      refine lt_of_lt_of_le ?_ (hx td htd)
      rw [← hw]
      exact div_pos (sub_pos.mpr hlt) (hd td htd)
    have hltx : G.ref v < G.ref (nbr G.shape v x.1) := by
      by_contra hcon
      have : (G.ref (nbr G.shape v x.1) - G.ref v) / x.2 ≤ 0 := div_nonpos_of_nonpos_of_nonneg (by linarith [not_lt.mp hcon]) (hd x hxm).le
      linarith
    have ew : w = nbr G.shape v x.1 := hT v _ _ hv hvac hstp ⟨x, hxm, rfl, hltx, hx⟩
    subst ew
    refine ⟨l1, x, l2, hl, rfl, hltx, hx, ?_⟩
    intro y hy
    refine lt_of_le_of_ne (hx y (by rw [hl]; simp [hy])) fun e => hb y hy ?_
    intro td' h'
    rw [e]
    exact hx td' h'

section ascent
variable {g : GridOper} {G G' : RunInput K}

theorem OperatedBy.vacuum (O : OperatedBy g G G') {v w : ℕ} (hc : g.Carries G.shape G'.shape v w) : G'.vacuum w = G.vacuum v := by
  unfold RunInput.vacuum
  rw [O.tol, O.useRef, O.volume]
  cases G.tol with
  | none => rfl
  | some t => cases G.useRef <;> simp [O.ref _ _ hc, O.charge _ _ hc]

theorem OperatedBy.mem (O : OperatedBy g G G') {td : Coord × K} (h : td ∈ G.nbrs) : (g.rot.mul td.1, td.2) ∈ G'.nbrs :=
  O.nbrs.mem_iff.mpr (List.mem_map.mpr ⟨td, h, rfl⟩)

theorem OperatedBy.mem' (O : OperatedBy g G G') {td' : Coord × K} (h : td' ∈ G'.nbrs) : ∃ td ∈ G.nbrs, td' = (g.rot.mul td.1, td.2) := by
  obtain ⟨td, h1, h2⟩ := List.mem_map.mp (O.nbrs.mem_iff.mp h)
  exact ⟨td, h1, h2.symm⟩

theorem OperatedBy.twoSided (O : OperatedBy g G G') (h : TwoSided G.nbrs) : TwoSided G'.nbrs := by
  intro td' h'
  obtain ⟨td, h1, rfl⟩ := O.mem' h'
  obtain ⟨td2, h2, h3⟩ := List.mem_map.mp (h td h1)
  refine List.mem_map.mpr ⟨_, O.mem h2, ?_⟩
  dsimp only
  rw [h3, IMat.mul_neg]

variable (hf : ∀ td ∈ G.nbrs, StepFits G.shape td.1) (hf' : ∀ td ∈ G'.nbrs, StepFits G'.shape td.1)
include hf hf'

theorem OperatedBy.step (O : OperatedBy g G G') {v w : ℕ} (hc : g.Carries G.shape G'.shape v w) {td : Coord × K} (h : td ∈ G.nbrs) :
    g.Carries G.shape G'.shape (nbr G.shape v td.1) (nbr G'.shape w (g.rot.mul td.1)) :=
  carries_nbr O.fits hc (hf td h) (hf' _ (O.mem h))

theorem OperatedBy.nbr_iff (O : OperatedBy g G G') {v w : ℕ} (hc : g.Carries G.shape G'.shape v w) {u' : ℕ}
    (hu : IsNbr G'.shape (G'.nbrs.map Prod.fst) w u') : ∃ u, IsNbr G.shape (G.nbrs.map Prod.fst) v u ∧ g.Carries G.shape G'.shape u u' := by
  obtain ⟨t, ht, rfl⟩ := (isNbr_iff (fitsOf hf') hc.2.1).mp hu
  obtain ⟨td', h1, rfl⟩ := List.mem_map.mp ht
  obtain ⟨td, h2, rfl⟩ := O.mem' h1
  exact ⟨_, (isNbr_iff (fitsOf hf) hc.1).mpr ⟨td.1, List.mem_map.mpr ⟨td, h2, rfl⟩, rfl⟩, O.step hf hf' hc h2⟩

theorem OperatedBy.nbr_iff' (O : OperatedBy g G G') {v w : ℕ} (hc : g.Carries G.shape G'.shape v w) {u : ℕ}
    (hu : IsNbr G.shape (G.nbrs.map Prod.fst) v u) : ∃ u', IsNbr G'.shape (G'.nbrs.map Prod.fst) w u' ∧ g.Carries G.shape G'.shape u u' := by
  obtain ⟨t, ht, rfl⟩ := (isNbr_iff (fitsOf hf) hc.1).mp hu
  obtain ⟨td, h1, rfl⟩ := List.mem_map.mp ht
  exact ⟨_, (isNbr_iff (fitsOf hf') hc.2.1).mpr ⟨_, List.mem_map.mpr ⟨_, O.mem h1, rfl⟩, rfl⟩, O.step hf hf' hc h1⟩

theorem OperatedBy.localMax (O : OperatedBy g G G') {v w : ℕ} (hc : g.Carries G.shape G'.shape v w) :
    IsLocalMax G'.shape G'.ref (G'.nbrs.map Prod.fst) w ↔ IsLocalMax G.shape G.ref (G.nbrs.map Prod.fst) v := by
  constructor
  · intro H u hu
    obtain ⟨u', h1, h2⟩ := O.nbr_iff' hf hf' hc hu
    have := H u' h1
    rwa [O.ref _ _ h2, O.ref _ _ hc] at this
  · intro H u' hu
    obtain ⟨u, h1, h2⟩ := O.nbr_iff hf hf' hc hu
    rw [O.ref _ _ h2, O.ref _ _ hc]
    exact H u h1

theorem OperatedBy.isMax (O : OperatedBy g G G') {v w : ℕ} (hc : g.Carries G.shape G'.shape v w) : G'.IsMax w ↔ G.IsMax v := by
  unfold RunInput.IsMax
  rw [O.localMax hf hf' hc, O.vacuum hc]
  simp [hc.1, hc.2.1]

theorem OperatedBy.steepest (O : OperatedBy g G G') {v w : ℕ} (hc : g.Carries G.shape G'.shape v w) {u : ℕ} (hs : G.Steepest v u) :
    ∃ u', g.Carries G.shape G'.shape u u' ∧ G'.Steepest w u' := by
  obtain ⟨td, h1, rfl, h3, h4⟩ := hs
  have hcu := O.step hf hf' hc h1
  refine ⟨_, hcu, (g.rot.mul td.1, td.2), O.mem h1, rfl, ?_, ?_⟩
  · rwa [O.ref _ _ hc, O.ref _ _ hcu]
  · intro td' h'
    obtain ⟨td2, h5, rfl⟩ := O.mem' h'
    rw [O.ref _ _ hc, O.ref _ _ hcu, O.ref _ _ (O.step hf hf' hc h5)]
    exact h4 td2 h5

theorem OperatedBy.steepest' (O : OperatedBy g G G') {v w : ℕ} (hc : g.Carries G.shape G'.shape v w) {u' : ℕ} (hs : G'.Steepest w u') :
    ∃ u, g.Carries G.shape G'.shape u u' ∧ G.Steepest v u := by
  obtain ⟨td', h1, rfl, h3, h4⟩ := hs
  obtain ⟨td, h2, rfl⟩ := O.mem' h1
  have hcu := O.step hf hf' hc h2
  dsimp only at h3 h4 ⊢
  rw [O.ref _ _ hc, O.ref _ _ hcu] at h3
  refine ⟨_, hcu, td, h2, rfl, h3, ?_⟩
  intro td2 h5
  have := h4 _ (O.mem h5)
  rwa [O.ref _ _ hc, O.ref _ _ hcu, O.ref _ _ (O.step hf hf' hc h5)] at this

theorem OperatedBy.noTies (O : OperatedBy g G G') (hp : G.shape.Pos) (hT : G.NoTies) : G'.NoTies := by
  intro w u u2 hw hvac h1 h2
  obtain ⟨v, hc⟩ := carries_surj O.fits hp hw
  obtain ⟨x, x1, x2⟩ := O.steepest' hf hf' hc h1
  obtain ⟨y, y1, y2⟩ := O.steepest' hf hf' hc h2
  have := hT v x y hc.1 ((O.vacuum hc).symm.trans hvac) x2 y2
  subst this
  exact carries_unique x1 y1

theorem OperatedBy.noPlateau (O : OperatedBy g G G') (hp : G.shape.Pos) (hP : G.NoPlateau) : G'.NoPlateau := by
  intro w u hw hu hne
  obtain ⟨v, hc⟩ := carries_surj O.fits hp hw.1
  obtain ⟨x, x1, x2⟩ := O.nbr_iff hf hf' hc hu
  rw [O.ref _ _ hc, O.ref _ _ x2]
  exact hP v x ((O.isMax hf hf' hc).mp hw) x1 fun e => hne (by subst e; exact carries_unique x2 hc)

theorem OperatedBy.ascends (O : OperatedBy g G G') (hp : G.shape.Pos) (hT : G.NoTies) (hV : G.OwnVacuum) (hd : ∀ td ∈ G.nbrs, 0 < td.2)
    (hd' : ∀ td ∈ G'.nbrs, 0 < td.2) {v m : ℕ} (ha : Ascends G.shape G.ref G.nbrs v m) : G.vacuum v = false →
    ∀ w, g.Carries G.shape G'.shape v w → ∃ m', g.Carries G.shape G'.shape m m' ∧ Ascends G'.shape G'.ref G'.nbrs w m' := by
  induction ha with
  | stop hm => exact fun _ w hc => ⟨w, hc, .stop ((O.localMax hf hf' hc).mpr hm)⟩
  | step hs _ ih =>
    intro hvac w hc
    have h1 := (steepest_iff hT hd hc.1 hvac).mp hs
    obtain ⟨u', c1, c2⟩ := O.steepest hf hf' hc h1
    have hlt : G.ref _ < G.ref _ := h1.choose_spec.2.2.1
    obtain ⟨m', d1, d2⟩ := ih (hV.up _ _ hvac hlt.le) u' c1
    exact ⟨m', d1, .step ((steepest_iff (O.noTies hf hf' hp hT) hd' hc.2.1 ((O.vacuum hc).trans hvac)).mpr c2) d2⟩

end ascent

/-! ## The runs -/

/-- The results agree if the labels put the same voxels together. -/
theorem carriedBasins_of {g : GridOper} {G G' : RunInput K} {o o' : RunOut K} (O : OperatedBy g G G') (hp : G.shape.Pos) (hp' : G'.shape.Pos)
    (l1 : ∀ v < G.shape.size, G.vacuum v = true → o.labels v = -1)
    (l2 : ∀ v < G.shape.size, G.vacuum v = false → 0 ≤ o.labels v ∧ o.labels v < o.maxima.length)
    (r1 : ∀ v < G'.shape.size, G'.vacuum v = true → o'.labels v = -1)
    (r2 : ∀ v < G'.shape.size, G'.vacuum v = false → 0 ≤ o'.labels v ∧ o'.labels v < o'.maxima.length)
    (hparts : ∀ v w v2 w2, g.Carries G.shape G'.shape v w → g.Carries G.shape G'.shape v2 w2 → G.vacuum v = false → G.vacuum v2 = false →
      (o'.labels w = o'.labels w2 ↔ o.labels v = o.labels v2))
    (l6 : o.basins = basinChargesVolumes G.shape G.charge o.labels G.volume)
    (r6 : o'.basins = basinChargesVolumes G'.shape G'.charge o'.labels G'.volume) (hcount : o'.maxima.length = o.maxima.length) :
    CarriedBasins g G G' o o' := by
  have neg : ∀ v w, g.Carries G.shape G'.shape v w → (o'.labels w < 0 ↔ o.labels v < 0) ∧ (o'.labels w = -1 ↔ o.labels v = -1) := by
    intro v w hc
    have e := O.vacuum hc
    cases hv : G.vacuum v with
    | true => rw [l1 v hc.1 hv, r1 w hc.2.1 (e.trans hv)]; simp
    | false =>
      have := (l2 v hc.1 hv).1
      have := (r2 w hc.2.1 (e.trans hv)).1
      omega
  have vac : ∀ v < G.shape.size, o.labels v ≠ -1 → G.vacuum v = false := by
    intro v hv h
    cases h2 : G.vacuum v with
    | true => exact absurd (l1 v hv h2) h
    | false => rfl
  have parts : ∀ v w v2 w2, g.Carries G.shape G'.shape v w → g.Carries G.shape G'.shape v2 w2 → (o'.labels w = o'.labels w2 ↔ o.labels v = o.labels v2) := by
    intro v w v2 w2 hc hc2
    by_cases h : o.labels v = -1
    · rw [h, (neg v w hc).2.mpr h, eq_comm, (neg v2 w2 hc2).2, eq_comm]
    · by_cases h2 : o.labels v2 = -1
      · rw [h2, (neg v2 w2 hc2).2.mpr h2, (neg v w hc).2]
      · have nv := vac v hc.1 h
        have nv2 := vac v2 hc2.1 h2
        exact hparts v w v2 w2 hc hc2 nv nv2
  obtain ⟨b1, b2, b3, b4⟩ := C12_per_basin G.shape G.charge o.labels G.volume
  obtain ⟨d1, d2, d3, d4⟩ := C12_per_basin G'.shape G'.charge o'.labels G'.volume
  rw [← l6] at b1 b2 b3 b4
  rw [← r6] at d1 d2 d3 d4
  have hsz := size_carried O.fits hp hp'
  have toN : ∀ v w, g.Carries G.shape G'.shape v w → o.labels v ≠ -1 →
      ((o.labels v).toNat : ℤ) = o.labels v ∧ ((o'.labels w).toNat : ℤ) = o'.labels w := by
    intro v w hc h
    have nv := vac v hc.1 h
    exact ⟨Int.toNat_of_nonneg (l2 v hc.1 nv).1, Int.toNat_of_nonneg (r2 w hc.2.1 ((O.vacuum hc).trans nv)).1⟩
  refine ⟨fun v w hc => (neg v w hc).2, parts, ?_, ?_, ?_, ?_, hcount⟩
  · intro v w hc hne
    obtain ⟨e1, e2⟩ := toN v w hc hne
    rw [b1, d1, e1, e2, sum_carried O.fits hp hp' (fun u => o.labels u = o.labels v) (fun u => o'.labels u = o'.labels w) G.charge G'.charge
      (fun v2 w2 hc2 => parts v2 w2 v w hc2 hc) (fun v2 w2 hc2 _ => O.charge _ _ hc2), hsz]
  · intro v w hc hne
    obtain ⟨e1, e2⟩ := toN v w hc hne
    rw [b2, d2, e1, e2, O.volume]
    have := sum_carried (K := K) O.fits hp hp' (fun u => o.labels u = o.labels v) (fun u => o'.labels u = o'.labels w) (fun _ => 1) (fun _ => 1) (fun v2 w2 hc2 => parts v2 w2 v w hc2 hc) (fun _ _ _ _ => rfl)
    simp only [Finset.sum_const, nsmul_eq_mul, mul_one] at this
    rw [this, hsz]
  · rw [b3, d3, sum_carried O.fits hp hp' (fun u => o.labels u < 0) (fun u => o'.labels u < 0) G.charge G'.charge
      (fun v2 w2 hc2 => (neg v2 w2 hc2).1) (fun v2 w2 hc2 _ => O.charge _ _ hc2), hsz]
  · have := sum_carried (K := K) O.fits hp hp' (fun u => o.labels u < 0) (fun u => o'.labels u < 0) (fun _ => 1) (fun _ => 1) (fun v2 w2 hc2 => (neg v2 w2 hc2).1) (fun _ _ _ _ => rfl)
    simp only [Finset.sum_const, nsmul_eq_mul, mul_one] at this
    rw [b4, d4, O.volume, this, hsz]

/-- Both runs have the same number of maxima. -/
theorem carried_count {g : GridOper} {G G' : RunInput K} {A A' : RunAid K} {ε : K} (T : OperRuns g G G' A A' ε) :
    (maximaVox G'.shape (getMaxima G'.shape G'.ref (G'.nbrs.map Prod.fst) G'.vacuum false A'.order)).length =
      (maximaVox G.shape (getMaxima G.shape G.ref (G.nbrs.map Prod.fst) G.vacuum false A.order)).length := by
  have O := T.oper
  have hf := T.ready.fits
  have hf' := T.ready'.fits
  have hp : G.shape.Pos := pos_of_lt_size T.ready.voxels
  have hp' : G'.shape.Pos := pos_of_lt_size T.ready'.voxels
  rw [length_maximaVox, length_maximaVox]
  have := sum_carried (K := ℚ) O.fits hp hp' (fun v => getMaxima G.shape G.ref (G.nbrs.map Prod.fst) G.vacuum false A.order v = true)
      (fun v => getMaxima G'.shape G'.ref (G'.nbrs.map Prod.fst) G'.vacuum false A'.order v = true) (fun _ => 1) (fun _ => 1)
      (fun v w hc => by rw [getMaxima_isMax G' A' T.ready', getMaxima_isMax G A T.ready, O.isMax hf hf' hc]) (fun _ _ _ _ => rfl)
  simp only [Finset.sum_const, nsmul_eq_mul, mul_one] at this
  exact_mod_cast this

/-- **C120** (partial) The basins after a symmetry operation or another choice of the axes.  If no maximum has an equally high neighbour, no two maxima are taken
for one and no voxel has two steepest neighbours, both runs end, for any order of the neighbours and any schedules; voxels share a basin before exactly if their
images do after, and basins and vacuum have the same charges and volumes.  Missing: ties, where it is false (`C120_tie`). -/
theorem C120_basins_partial (g : GridOper) (G G' : RunInput K) (A A' : RunAid K) (ε : K) (T : OperRuns g G G' A A' ε)
    (order order' : List ℕ) (hord : IsSchedule G.shape order) (hord' : IsSchedule G'.shape order') :
    ∃ (o o' : RunOut K) (F : ℕ), (∀ fuel ≥ F, G.run A (.ongrid order) fuel = some o ∧ G'.run A' (.ongrid order') fuel = some o') ∧
      CarriedBasins g G G' o o' := by
  have O := T.oper
  have hf := T.ready.fits
  have hf' := T.ready'.fits
  have hp : G.shape.Pos := pos_of_lt_size T.ready.voxels
  have hp' : G'.shape.Pos := pos_of_lt_size T.ready'.voxels
  have htwo' := O.twoSided T.twoSided
  obtain ⟨o, F1, hF1, t1, l1, l2, l3, l4, l5, l6, _, l8⟩ := ongrid_groups G A ε T.ready order hord T.twoSided T.noPlateau (.ofApart T.apart T.sorted)
  obtain ⟨o', F2, hF2, t2, r1, r2, r3, r4, r5, r6, _, r8⟩ := ongrid_groups G' A' ε T.ready' order' hord' htwo' (O.noPlateau hf hf' hp T.noPlateau)
    (.ofApart T.apart' T.sorted')
  have L : ∀ v w m p, v < G.shape.size → w < G.shape.size → G.vacuum v = false → G.vacuum w = false → Ascends G.shape G.ref G.nbrs v m →
      Ascends G.shape G.ref G.nbrs w p → (o.labels v = o.labels w ↔ m = p) := by
    intro v w m p hv hw hvv hwv hm hp
    rw [l3 v w m p hv hw hvv hwv hm hp]
    refine ⟨?_, Or.inl⟩
    rintro (h | h)
    · exact h
    · by_contra hne
      rw [T.apart m p (l4 v m hv hvv hm) (l4 w p hw hwv hp) hne] at h; cases h
  have R : ∀ v w m p, v < G'.shape.size → w < G'.shape.size → G'.vacuum v = false → G'.vacuum w = false → Ascends G'.shape G'.ref G'.nbrs v m →
      Ascends G'.shape G'.ref G'.nbrs w p → (o'.labels v = o'.labels w ↔ m = p) := by
    intro v w m p hv hw hvv hwv hm hp
    rw [r3 v w m p hv hw hvv hwv hm hp]
    refine ⟨?_, Or.inl⟩
    rintro (h | h)
    · exact h
    · by_contra hne
      rw [T.apart' m p (r4 v m hv hvv hm) (r4 w p hw hwv hp) hne] at h; cases h
  refine ⟨o, o', max F1 F2, fun fuel hfu => ⟨hF1 fuel (le_of_max_le_left hfu), hF2 fuel (le_of_max_le_right hfu)⟩,
    carriedBasins_of O hp hp' l1 l2 r1 r2 ?_ l6 r6 (by rw [(l8 T.apart).1, (r8 T.apart').1]; exact carried_count T)⟩
  intro v w v2 w2 hc hc2 nv nv2
  obtain ⟨m, hm, _⟩ := C09_ascent_unique G.shape G.ref G.nbrs hf T.ready.pos v hc.1
  obtain ⟨m2, hm2, _⟩ := C09_ascent_unique G.shape G.ref G.nbrs hf T.ready.pos v2 hc2.1
  obtain ⟨x, x1, x2⟩ := O.ascends hf hf' hp T.noTies T.ready.vacuum T.ready.pos T.ready'.pos hm nv w hc
  obtain ⟨y, y1, y2⟩ := O.ascends hf hf' hp T.noTies T.ready.vacuum T.ready.pos T.ready'.pos hm2 nv2 w2 hc2
  rw [L v v2 m m2 hc.1 hc2.1 nv nv2 hm hm2, R w w2 x y hc.2.1 hc2.2.1 ((O.vacuum hc).trans nv) ((O.vacuum hc2).trans nv2) x2 y2]
  constructor
  · rintro rfl; exact carries_inj O.fits x1 y1
  · rintro rfl; exact carries_unique x1 y1

/-! ## The atoms -/

/-- The operation on fractional coordinates: the grid index is `f` times the number of voxels along the axis. -/
def GridOper.frac (g : GridOper) (s s' : Shape) (f : V3 K) : V3 K :=
  ((g.rot.1.1 * (f.1 * s.nx) + g.rot.1.2.1 * (f.2.1 * s.ny) + g.rot.1.2.2 * (f.2.2 * s.nz) + g.shift.1) / s'.nx,
    (g.rot.2.1.1 * (f.1 * s.nx) + g.rot.2.1.2.1 * (f.2.1 * s.ny) + g.rot.2.1.2.2 * (f.2.2 * s.nz) + g.shift.2.1) / s'.ny,
    (g.rot.2.2.1 * (f.1 * s.nx) + g.rot.2.2.2.1 * (f.2.1 * s.ny) + g.rot.2.2.2.2 * (f.2.2 * s.nz) + g.shift.2.2) / s'.nz)

/-- The atoms of `G'` are those of `G` after the operation: atom `i` becomes atom `σ i`, up to whole cells. -/
structure AtomsMoved (g : GridOper) (G G' : RunInput K) (σ : ℕ → ℕ) : Prop where
  lt : ∀ i < G.atoms.length, σ i < G'.atoms.length
  inj : ∀ i < G.atoms.length, ∀ j < G.atoms.length, σ i = σ j → i = j
  onto : ∀ j < G'.atoms.length, ∃ i < G.atoms.length, σ i = j
  site : ∀ i (hi : i < G.atoms.length) (hj : σ i < G'.atoms.length), ∃ e : Coord, G'.atoms[σ i] = image (g.frac G.shape G'.shape G.atoms[i]) e

/-- Besides the grids the operation carries the atoms to the atoms and keeps all distances.  The cells are orthogonal, atoms and maxima are stored in nearby cells,
the reported places of the maxima are carried along, and each maximum has one nearest atom. -/
structure OperAtoms (g : GridOper) (G G' : RunInput K) (A A' : RunAid K) (σ : ℕ → ℕ) : Prop where
  moved : AtomsMoved g G G' σ
  dist : ∀ a b : V3 K, dist2 G'.lattice (g.frac G.shape G'.shape a) (g.frac G.shape G'.shape b) = dist2 G.lattice a b
  ortho : Orthogonal G.lattice
  ortho' : Orthogonal G'.lattice
  root : RootLike A.root
  root' : RootLike A'.root
  rnd : A'.rnd = A.rnd
  near : ∀ a ∈ G.atoms, ∀ m, G.IsMax m → CloseBy a (A.place m)
  near' : ∀ a ∈ G'.atoms, ∀ m, G'.IsMax m → CloseBy a (A'.place m)
  place : ∀ v w, G.IsMax v → g.Carries G.shape G'.shape v w → ∃ e : Coord, A'.place w = image (g.frac G.shape G'.shape (A.place v)) e
  one : ∀ v, G.IsMax v → ∃ a t, G.OneNearest (A.place v) a t

theorem dist2_shift (L : M3 K) (a b : V3 K) (t e : Coord) : dist2 L (image a t) (image b e) = dist2 L (image a (diffC t e)) b := by
  unfold dist2
  congr 2
  simp only [subV, image, diffC]
  push_cast
  refine Prod.ext ?_ (Prod.ext ?_ ?_) <;> dsimp only <;> ring

theorem image_image (a : V3 K) (t e : Coord) : image (image a t) e = image a (addC t e) := by
  simp only [image, addC]
  push_cast
  refine Prod.ext ?_ (Prod.ext ?_ ?_) <;> dsimp only <;> ring

section frac
variable {g : GridOper} {s s' : Shape}

/-- Whole cells go to whole cells, and every one is reached. -/
theorem frac_image (hF : g.Fits s s') (hp : s.Pos) (hp' : s'.Pos) (a : V3 K) (t : Coord) :
    ∃ u : Coord, image (g.frac s s' a) t = g.frac s s' (image a u) := by
  obtain ⟨p1, p2, p3⟩ := hp'
  have h1 : (s'.nx : K) ≠ 0 := by exact_mod_cast (Nat.pos_iff_ne_zero.mp p1)
  have h2 : (s'.ny : K) ≠ 0 := by exact_mod_cast (Nat.pos_iff_ne_zero.mp p2)
  have h3 : (s'.nz : K) ≠ 0 := by exact_mod_cast (Nat.pos_iff_ne_zero.mp p3)
  set c : Coord := (t.1 * s'.nx, t.2.1 * s'.ny, t.2.2 * s'.nz) with hc
  have hw : WholeCells s' c := ⟨⟨t.1, by rw [hc]⟩, ⟨t.2.1, by rw [hc]⟩, ⟨t.2.2, by rw [hc]⟩⟩
  obtain ⟨⟨x, hx⟩, ⟨y, hy⟩, ⟨z, hz⟩⟩ := hF.cells' c hw
  refine ⟨(x, y, z), ?_⟩
  have hr := hF.right c
  rw [show g.inv.mul c = (x * s.nx, y * s.ny, z * s.nz) from Prod.ext hx (Prod.ext hy hz)] at hr
  simp only [IMat.mul, hc, Prod.mk.injEq] at hr
  obtain ⟨r1, r2, r3⟩ := hr
  have r1 : (g.rot.1.1 * (x * s.nx) + g.rot.1.2.1 * (y * s.ny) + g.rot.1.2.2 * (z * s.nz) : K) = t.1 * s'.nx := by exact_mod_cast r1
  have r2 : (g.rot.2.1.1 * (x * s.nx) + g.rot.2.1.2.1 * (y * s.ny) + g.rot.2.1.2.2 * (z * s.nz) : K) = t.2.1 * s'.ny := by exact_mod_cast r2
  have r3 : (g.rot.2.2.1 * (x * s.nx) + g.rot.2.2.2.1 * (y * s.ny) + g.rot.2.2.2.2 * (z * s.nz) : K) = t.2.2 * s'.nz := by exact_mod_cast r3
  simp only [image, GridOper.frac]
  refine Prod.ext ?_ (Prod.ext ?_ ?_) <;> dsimp only
  · rw [eq_div_iff h1, add_mul, div_mul_cancel₀ _ h1]; linear_combination -r1
  · rw [eq_div_iff h2, add_mul, div_mul_cancel₀ _ h2]; linear_combination -r2
  · rw [eq_div_iff h3, add_mul, div_mul_cancel₀ _ h3]; linear_combination -r3

/-- Whole cells go to whole cells. -/
theorem frac_image' (hF : g.Fits s s') (hp' : s'.Pos) (a : V3 K) (t : Coord) :
    ∃ u : Coord, g.frac s s' (image a t) = image (g.frac s s' a) u := by
  obtain ⟨p1, p2, p3⟩ := hp'
  have h1 : (s'.nx : K) ≠ 0 := by exact_mod_cast (Nat.pos_iff_ne_zero.mp p1)
  have h2 : (s'.ny : K) ≠ 0 := by exact_mod_cast (Nat.pos_iff_ne_zero.mp p2)
  have h3 : (s'.nz : K) ≠ 0 := by exact_mod_cast (Nat.pos_iff_ne_zero.mp p3)
  have hw : WholeCells s (t.1 * s.nx, t.2.1 * s.ny, t.2.2 * s.nz) := ⟨⟨t.1, rfl⟩, ⟨t.2.1, rfl⟩, ⟨t.2.2, rfl⟩⟩
  obtain ⟨⟨x, hx⟩, ⟨y, hy⟩, ⟨z, hz⟩⟩ := hF.cells _ hw
  simp only [IMat.mul] at hx hy hz
  have r1 : (g.rot.1.1 * (t.1 * s.nx) + g.rot.1.2.1 * (t.2.1 * s.ny) + g.rot.1.2.2 * (t.2.2 * s.nz) : K) = x * s'.nx := by exact_mod_cast hx
  have r2 : (g.rot.2.1.1 * (t.1 * s.nx) + g.rot.2.1.2.1 * (t.2.1 * s.ny) + g.rot.2.1.2.2 * (t.2.2 * s.nz) : K) = y * s'.ny := by exact_mod_cast hy
  have r3 : (g.rot.2.2.1 * (t.1 * s.nx) + g.rot.2.2.2.1 * (t.2.1 * s.ny) + g.rot.2.2.2.2 * (t.2.2 * s.nz) : K) = z * s'.nz := by exact_mod_cast hz
  refine ⟨(x, y, z), ?_⟩
  simp only [image, GridOper.frac]
  refine Prod.ext ?_ (Prod.ext ?_ ?_) <;> dsimp only
  · symm; rw [eq_div_iff h1, add_mul, div_mul_cancel₀ _ h1]; linear_combination -r1
  · symm; rw [eq_div_iff h2, add_mul, div_mul_cancel₀ _ h2]; linear_combination -r2
  · symm; rw [eq_div_iff h3, add_mul, div_mul_cancel₀ _ h3]; linear_combination -r3

end frac

theorem nearest_oper {g : GridOper} {G G' : RunInput K} {A A' : RunAid K} {σ : ℕ → ℕ} (hF : g.Fits G.shape G'.shape) (hp : G.shape.Pos) (hp' : G'.shape.Pos)
    (R : OperAtoms g G G' A A' σ) {p : V3 K} {e : Coord} {a : ℕ} {t : Coord} (h1 : G.OneNearest p a t) {i : ℕ}
    (h : NearestAtom G' A'.root i (image (g.frac G.shape G'.shape p) e)) : i = σ a := by
  obtain ⟨ha, hu⟩ := h1
  obtain ⟨hi, t', hmin⟩ := h
  obtain ⟨j, hj, rfl⟩ := R.moved.onto i hi
  have hσa := R.moved.lt a ha
  obtain ⟨ej, hej⟩ := R.moved.site j hj hi
  obtain ⟨ea, hea⟩ := R.moved.site a ha hσa
  obtain ⟨u, hu2⟩ := frac_image' hF hp' G.atoms[a] t
  -- the image of `a` that the nearest one becomes
  have := hmin (σ a) hσa (diffC (addC u e) ea)
  rw [R.root' _ _ (dist2_nonneg _ _ _) (dist2_nonneg _ _ _), hej, hea, image_image, image_image, dist2_shift, dist2_shift] at this
  have e1 : diffC (addC ea (diffC (addC u e) ea)) e = u := by
    simp only [diffC, addC]
    refine Prod.ext ?_ (Prod.ext ?_ ?_) <;> dsimp only <;> ring
  obtain ⟨y, hy⟩ := frac_image hF hp hp' G.atoms[j] (diffC (addC ej t') e)
  rw [e1, ← hu2, hy, R.dist, R.dist] at this
  by_contra hcon
  exact absurd this (not_le.mpr (hu j hj y fun he => hcon (by rw [(Prod.mk.inj he).1])))

/-- The atoms of the voxels and their charges and volumes, once the basins are carried along. -/
theorem carriedAtoms_of {g : GridOper} {G G' : RunInput K} {A A' : RunAid K} {ε : K} {σ : ℕ → ℕ} {o o' : RunOut K}
    (T : OperRuns g G G' A A' ε) (R : OperAtoms g G G' A A' σ) (Rp : CarriedBasins g G G' o o')
    (l1 : ∀ v < G.shape.size, G.vacuum v = true → o.labels v = -1)
    (l2 : ∀ v < G.shape.size, G.vacuum v = false → 0 ≤ o.labels v ∧ o.labels v < o.maxima.length)
    (l5 : ∀ v < G.shape.size, G.vacuum v = false → ∃ m, G.IsMax m ∧ o.labels v = o.labels m)
    (l7 : assignBasins A.root G.lattice G.atoms (o.maxima.map A.place) o.labels ((List.range o.maxima.length).map fun b => A.rnd (o.basins.charges b))
      ((List.range o.maxima.length).map fun b => A.rnd (o.basins.volumes b)) = some o.assignment)
    (r7 : assignBasins A'.root G'.lattice G'.atoms (o'.maxima.map A'.place) o'.labels ((List.range o'.maxima.length).map fun b => A'.rnd (o'.basins.charges b))
      ((List.range o'.maxima.length).map fun b => A'.rnd (o'.basins.volumes b)) = some o'.assignment)
    (m1 : o.maxima = maximaVox G.shape (getMaxima G.shape G.ref (G.nbrs.map Prod.fst) G.vacuum false A.order))
    (m2 : ∀ i (hi : i < o.maxima.length), o.labels o.maxima[i] = i)
    (n1 : o'.maxima = maximaVox G'.shape (getMaxima G'.shape G'.ref (G'.nbrs.map Prod.fst) G'.vacuum false A'.order))
    (n2 : ∀ i (hi : i < o'.maxima.length), o'.labels o'.maxima[i] = i) :
      (∀ v w, g.Carries G.shape G'.shape v w → o.labels v ≠ -1 →
        ∃ i < G.atoms.length, o.assignment.atomLabels v = i ∧ o'.assignment.atomLabels w = σ i) ∧
      (∀ v w, g.Carries G.shape G'.shape v w → o.labels v = -1 → o.assignment.atomLabels v = -1 ∧ o'.assignment.atomLabels w = -1) ∧
      (∀ i < G.atoms.length, o'.assignment.charges (σ i) = o.assignment.charges i ∧ o'.assignment.volumes (σ i) = o.assignment.volumes i) := by
  have O := T.oper
  have hf := T.ready.fits
  have hf' := T.ready'.fits
  have hp : G.shape.Pos := pos_of_lt_size T.ready.voxels
  have hp' : G'.shape.Pos := pos_of_lt_size T.ready'.voxels
  have hM := getMaxima_isMax G A T.ready
  have hM' := getMaxima_isMax G' A' T.ready'
  set M := getMaxima G.shape G.ref (G.nbrs.map Prod.fst) G.vacuum false A.order
  set M' := getMaxima G'.shape G'.ref (G'.nbrs.map Prod.fst) G'.vacuum false A'.order
  obtain ⟨g1, g2, g3, _, _, g6, g7⟩ := C23_atom_totals _ _ _ _ _ _ _ _ (by simp) (by simp) l7
  obtain ⟨h1, h2, h3, _, _, h6, h7⟩ := C23_atom_totals _ _ _ _ _ _ _ _ (by simp) (by simp) r7
  rw [List.length_map] at g1 g2 g3 g7 h1 h2 h3 h7
  -- the atoms of a maximum and its image
  have maxAtom : ∀ v w, G.IsMax v → g.Carries G.shape G'.shape v w →
      ∃ i < G.atoms.length, o.assignment.atomLabels v = i ∧ o'.assignment.atomLabels w = σ i := by
    intro v w hv hc
    obtain ⟨a, t, ho⟩ := R.one v hv
    obtain ⟨b, b1, _, b3⟩ := max_atom hM R.root R.ortho R.near m1 m2 (by simp) (by simp) l7 hv
    obtain ⟨d, d1, _, d3⟩ := max_atom hM' R.root' R.ortho' R.near' n1 n2 (by simp) (by simp) r7 ((O.isMax hf hf' hc).mpr hv)
    obtain ⟨e, he⟩ := R.place v w hv hc
    rw [he] at d3
    refine ⟨a, ho.choose, ?_, ?_⟩
    · rw [b1, nearest_one R.root ho b3]
    · rw [d1, nearest_oper O.fits hp hp' R ho d3]
  have sumAtom : ∀ (f f' : ℕ → K) i, i < G.atoms.length → (∀ v w, g.Carries G.shape G'.shape v w → G.IsMax v → f' w = f v) →
      ∑ w ∈ (range G'.shape.size).filter (fun w => M' w = true), (if o'.assignment.atomLabels w = (σ i : ℕ) then f' w else 0) =
        ∑ v ∈ (range G.shape.size).filter (fun v => M v = true), if o.assignment.atomLabels v = i then f v else 0 := by
    intro f f' i hi hff
    refine sum_carried O.fits hp hp' _ _ _ _ (fun v w hc => by rw [hM, hM', O.isMax hf hf' hc]) fun v w hc hv => ?_
    have hv := (hM v).mp hv
    obtain ⟨j, j1, j2, j3⟩ := maxAtom v w hv hc
    rw [j2, j3, hff v w hc hv]
    by_cases h : j = i
    · subst h; simp
    · have : σ j ≠ σ i := fun e => h (R.moved.inj j j1 i hi e)
      rw [if_neg (by exact_mod_cast this), if_neg (by exact_mod_cast h)]
  have hne : ∀ v, G.IsMax v → o.labels v ≠ -1 := by
    intro v hv
    have := (l2 v hv.1 hv.2.1).1
    omega
  refine ⟨?_, ?_, ?_⟩
  · intro v w hc hnv
    have nv : G.vacuum v = false := by
      cases h : G.vacuum v with
      | true => exact absurd (l1 v hc.1 h) hnv
      | false => rfl
    obtain ⟨m, hmM, s1⟩ := l5 v hc.1 nv
    obtain ⟨w2, c2⟩ := carries_exists (g := g) hp' hmM.1
    rw [same_atom l7 s1, same_atom r7 ((Rp.parts v w m w2 hc c2).mpr s1)]
    exact maxAtom m w2 hmM c2
  · intro v w hc h
    exact ⟨g6 v h, h6 w ((Rp.vacuum v w hc).mpr h)⟩
  · intro i hi
    refine ⟨?_, ?_⟩
    · rw [atom_sum (A := A) m1 m2 g2 rfl g7 i, atom_sum (A := A') n1 n2 h2 rfl h7 (σ i), R.rnd]
      refine sumAtom _ _ i hi fun v w hc hv => ?_
      rw [Rp.charge v w hc (hne v hv)]
    · rw [atom_sum (A := A) m1 m2 g3 rfl g7 i, atom_sum (A := A') n1 n2 h3 rfl h7 (σ i), R.rnd]
      refine sumAtom _ _ i hi fun v w hc hv => ?_
      rw [Rp.volume v w hc (hne v hv)]

/-- **C120** (partial) The atoms after a symmetry operation or another choice of the axes.  If besides the conditions on the grids the cells are orthogonal and
each maximum has one nearest atom, each voxel carried along belongs to the atom its atom is carried to, and every atom keeps its charge and volume.
Missing: ties (`C120_tie`) and skewed cells (`C24_skewed_wrong`). -/
theorem C120_atoms_partial (g : GridOper) (G G' : RunInput K) (A A' : RunAid K) (ε : K) (σ : ℕ → ℕ)
    (T : OperRuns g G G' A A' ε) (R : OperAtoms g G G' A A' σ)
    (order order' : List ℕ) (hord : IsSchedule G.shape order) (hord' : IsSchedule G'.shape order') :
    ∃ (o o' : RunOut K) (F : ℕ), (∀ fuel ≥ F, G.run A (.ongrid order) fuel = some o ∧ G'.run A' (.ongrid order') fuel = some o') ∧
      (∀ v w, g.Carries G.shape G'.shape v w → o.labels v ≠ -1 →
        ∃ i < G.atoms.length, o.assignment.atomLabels v = i ∧ o'.assignment.atomLabels w = σ i) ∧
      (∀ v w, g.Carries G.shape G'.shape v w → o.labels v = -1 → o.assignment.atomLabels v = -1 ∧ o'.assignment.atomLabels w = -1) ∧
      (∀ i < G.atoms.length, o'.assignment.charges (σ i) = o.assignment.charges i ∧ o'.assignment.volumes (σ i) = o.assignment.volumes i) := by
  have O := T.oper
  have hf := T.ready.fits
  have hf' := T.ready'.fits
  have hp : G.shape.Pos := pos_of_lt_size T.ready.voxels
  have hp' : G'.shape.Pos := pos_of_lt_size T.ready'.voxels
  obtain ⟨x, x', F0, hF0, Rp⟩ := C120_basins_partial g G G' A A' ε T order order' hord hord'
  obtain ⟨o, F1, hF1, t1, l1, l2, l3, l4, l5, l6, l7, l8⟩ := ongrid_groups G A ε T.ready order hord T.twoSided T.noPlateau (.ofApart T.apart T.sorted)
  obtain ⟨o', F2, hF2, t2, r1, r2, r3, r4, r5, r6, r7, r8⟩ := ongrid_groups G' A' ε T.ready' order' hord' (O.twoSided T.twoSided)
    (O.noPlateau hf hf' hp T.noPlateau) (.ofApart T.apart' T.sorted')
  have e1 := (hF0 (max F0 (max F1 F2)) (le_max_left _ _))
  rw [hF1 _ ((le_max_left _ _).trans (le_max_right _ _)), hF2 _ ((le_max_right _ _).trans (le_max_right _ _))] at e1
  obtain ⟨ex, ex'⟩ := e1
  obtain rfl := Option.some.inj ex
  obtain rfl := Option.some.inj ex'
  obtain ⟨m1, m2⟩ := l8 T.apart
  obtain ⟨n1, n2⟩ := r8 T.apart'
  refine ⟨o, o', F0, hF0, carriedAtoms_of T R Rp l1 l2 (fun v hv hvv => ?_) l7 r7 m1 m2 n1 n2⟩
  obtain ⟨m, hm, _⟩ := C09_ascent_unique G.shape G.ref G.nbrs hf T.ready.pos v hv
  have hmM := l4 v m hv hvv hm
  exact ⟨m, hmM, (l3 v m m m hv hmM.1 hvv hmM.2.1 hm (.stop hmM.2.2)).mpr (Or.inl rfl)⟩

/-- **C120** (partial) Atoms that a symmetry of the crystal carries to one another have the same charge and volume. -/
theorem C120_equivalent_atoms_partial (g : GridOper) (G : RunInput K) (A : RunAid K) (ε : K) (σ : ℕ → ℕ)
    (T : OperRuns g G G A A ε) (R : OperAtoms g G G A A σ) (order : List ℕ) (hord : IsSchedule G.shape order) :
    ∃ (o : RunOut K) (F : ℕ), (∀ fuel ≥ F, G.run A (.ongrid order) fuel = some o) ∧
      ∀ i < G.atoms.length, o.assignment.charges (σ i) = o.assignment.charges i ∧ o.assignment.volumes (σ i) = o.assignment.volumes i := by
  obtain ⟨o, o', F, hF, _, _, h⟩ := C120_atoms_partial g G G A A ε σ T R order order hord hord
  obtain rfl : o = o' := Option.some.inj ((hF F le_rfl).1.symm.trans (hF F le_rfl).2)
  exact ⟨o, F, fun fuel hfu => (hF fuel hfu).1, h⟩

/-! ## Concrete crystals, and what goes wrong -/

/-- The mirror `c ↦ q - c` along the first axis. -/
def mirrorAt (q : ℤ) : GridOper := ⟨((-1, 0, 0), (0, 1, 0), (0, 0, 1)), ((-1, 0, 0), (0, 1, 0), (0, 0, 1)), (q, 0, 0)⟩

theorem mirror_fits (q : ℤ) (s : Shape) : (mirrorAt q).Fits s s := by
  have h : ∀ c : Coord, (mirrorAt q).rot.mul c = (-c.1, c.2.1, c.2.2) := by
    intro c; simp only [mirrorAt, IMat.mul]; refine Prod.ext ?_ (Prod.ext ?_ ?_) <;> dsimp only <;> ring
  have hc : ∀ c, WholeCells s c → WholeCells s ((mirrorAt q).rot.mul c) := by
    rintro c ⟨⟨x, hx⟩, hy, hz⟩
    rw [h]
    exact ⟨⟨-x, by dsimp only; rw [hx]; ring⟩, hy, hz⟩
  have hi : (mirrorAt q).inv = (mirrorAt q).rot := rfl
  have h2 : ∀ c, (mirrorAt q).rot.mul ((mirrorAt q).rot.mul c) = c := by
    intro c; rw [h, h]; exact Prod.ext (neg_neg _) rfl
  exact ⟨fun c => by rw [hi, h2], fun c => by rw [hi, h2], hc, fun c => by rw [hi]; exact hc c⟩

/-- Naming the axes in another order is an operation from one grid to another, for every shape. -/
example (a b c : ℕ) : GridOper.Fits ⟨((0, 1, 0), (1, 0, 0), (0, 0, 1)), ((0, 1, 0), (1, 0, 0), (0, 0, 1)), (0, 0, 0)⟩ ⟨a, b, c⟩ ⟨b, a, c⟩ := by
  have h : ∀ c : Coord, IMat.mul ((0, 1, 0), (1, 0, 0), (0, 0, 1)) c = (c.2.1, c.1, c.2.2) := by
    intro c; simp only [IMat.mul]; refine Prod.ext ?_ (Prod.ext ?_ ?_) <;> dsimp only <;> ring
  refine ⟨fun c => by rw [h, h], fun c => by rw [h, h], ?_, ?_⟩
  · rintro c ⟨hx, hy, hz⟩; rw [h]; exact ⟨hy, hx, hz⟩
  · rintro c ⟨hx, hy, hz⟩; rw [h]; exact ⟨hy, hx, hz⟩

/-- On a ring the mirror carries `v` to `q - v`, around the ring. -/
theorem mirror_carries {q : ℤ} {L v w : ℕ} (h : (mirrorAt q).Carries ⟨L, 1, 1⟩ ⟨L, 1, 1⟩ v w) : v < L ∧ w < L ∧ ∃ z : ℤ, (w : ℤ) = q - v + z * L := by
  obtain ⟨h1, h2, ⟨z, hz⟩, _⟩ := h
  have h1 : v < L * 1 * 1 := h1
  have h2 : w < L * 1 * 1 := h2
  refine ⟨by omega, by omega, z, ?_⟩
  simp only [flatToCoords, addC, mirrorAt, IMat.mul, Int.fdiv_one, Nat.cast_one, mul_one] at hz
  linarith

/-- A ring is symmetric under the mirror if its values are. -/
theorem mirror_oper (l : List ℚ) (q : ℕ) (hq : q < l.length) (atoms : List (V3 ℚ)) (tol : Option ℚ)
    (h : ∀ v < l.length, l.getD ((q + l.length - v) % l.length) 0 = l.getD v 0) : OperatedBy (mirrorAt q) (lineRun l atoms tol) (lineRun l atoms tol) := by
  have key : ∀ v w, (mirrorAt q).Carries (lineRun l atoms tol).shape (lineRun l atoms tol).shape v w → l.getD w 0 = l.getD v 0 := by
    intro v w hc
    obtain ⟨h1, h2, z, hz⟩ := mirror_carries (L := l.length) hc
    rw [← h v h1]
    congr 1
    have e : ((q + l.length - v : ℕ) : ℤ) = w + (1 - z) * l.length := by
      rw [hz, Nat.cast_sub (by omega)]; push_cast; ring
    have : (((q + l.length - v) % l.length : ℕ) : ℤ) = w := by
      rw [Int.natCast_mod, e, Int.add_mul_emod_self_right]
      exact Int.emod_eq_of_lt (by omega) (by omega)
    exact_mod_cast this.symm
  refine ⟨mirror_fits q _, ?_, rfl, rfl, rfl, key, key⟩
  show List.Perm ring2 (ring2.map fun td => ((mirrorAt q).rot.mul td.1, td.2))
  have : ring2.map (fun td => ((mirrorAt q).rot.mul td.1, td.2)) = ring2.reverse := by
    simp [ring2, mirrorAt, IMat.mul]
  rw [this]
  exact (List.reverse_perm _).symm

/-- A mirror keeps the distances in a ring. -/
theorem mirror_dist (l : List ℚ) (hl : 0 < l.length) (q : ℤ) (atoms : List (V3 ℚ)) (tol : Option ℚ) (a b : V3 ℚ) :
    dist2 (lineRun l atoms tol).lattice ((mirrorAt q).frac (lineRun l atoms tol).shape (lineRun l atoms tol).shape a)
      ((mirrorAt q).frac (lineRun l atoms tol).shape (lineRun l atoms tol).shape b) = dist2 (lineRun l atoms tol).lattice a b := by
  have : (l.length : ℚ) ≠ 0 := by exact_mod_cast hl.ne'
  simp only [dist2, norm2, vecMat, subV, lineRun, GridOper.frac, mirrorAt]
  push_cast
  field_simp
  ring

/-- On a ring no voxel has two steepest neighbours if the two neighbours of every voxel outside the vacuum that is no maximum differ. -/
theorem line_noTies (l : List ℚ) (atoms : List (V3 ℚ)) (tol : Option ℚ)
    (h : ∀ v < l.length, (lineRun l atoms tol).vacuum v = false → ∀ t ∈ ring2, ∀ t' ∈ ring2, l.getD v 0 < l.getD (nbr ⟨l.length, 1, 1⟩ v t.1) 0 →
      l.getD (nbr ⟨l.length, 1, 1⟩ v t.1) 0 = l.getD (nbr ⟨l.length, 1, 1⟩ v t'.1) 0 → nbr ⟨l.length, 1, 1⟩ v t.1 = nbr ⟨l.length, 1, 1⟩ v t'.1) :
    (lineRun l atoms tol).NoTies := by
  rintro v w w2 hv hvac ⟨t, ht, rfl, h1, h2⟩ ⟨t', ht', rfl, h3, h4⟩
  have hv : v < l.length * 1 * 1 := hv
  have e1 : ∀ t ∈ ring2, t.2 = 1 := by decide +kernel
  have a1 := h2 t' ht'
  have a2 := h4 t ht
  rw [e1 t ht, e1 t' ht'] at a1 a2
  exact h v (by omega) hvac t ht t' ht' h1 (by
    show (lineRun l atoms tol).ref _ = (lineRun l atoms tol).ref _
    simp only [div_one] at a1 a2
    exact le_antisymm (by simpa [lineRun] using a2) (by simpa [lineRun] using a1))

/-- A ring of six voxels with two peaks that a mirror carries to one another, and an atom on each. -/
def mirrorCell : RunInput ℚ := lineRun [1, 4, 2, 2, 4, 1] [(1 / 6, 0, 0), (2 / 3, 0, 0)] none

theorem mirror_max {v : ℕ} (h : mirrorCell.IsMax v) : v = 1 ∨ v = 4 := by
  obtain ⟨h1, h2, h3⟩ := h
  have hv : v < 6 := h1
  have key : ∀ v < 6, (∀ t ∈ ring2.map Prod.fst, mirrorCell.ref (nbr ⟨6, 1, 1⟩ v t) ≤ mirrorCell.ref v) → v = 1 ∨ v = 4 := by
    decide +kernel
  refine key v hv fun t ht => ?_
  exact h3 _ ((isNbr_iff (fitsOf (lineRun_ready [1, 4, 2, 2, 4, 1] (by decide) [(1 / 6, 0, 0), (2 / 3, 0, 0)] (by simp) none (fun _ _ => false)).fits) h1).mpr ⟨t, ht, rfl⟩)

/-- The hypotheses hold for it and the mirror `c ↦ 5 - c`, which exchanges the atoms. -/
theorem mirrorCell_ready : OperRuns (mirrorAt 5) mirrorCell mirrorCell (lineAid [1, 4, 2, 2, 4, 1] fun _ _ => false) (lineAid [1, 4, 2, 2, 4, 1] fun _ _ => false) 0 ∧
    OperAtoms (mirrorAt 5) mirrorCell mirrorCell (lineAid [1, 4, 2, 2, 4, 1] fun _ _ => false) (lineAid [1, 4, 2, 2, 4, 1] fun _ _ => false) (fun i => 1 - i) ∧
    (mirrorCell.run (lineAid [1, 4, 2, 2, 4, 1] fun _ _ => false) (.ongrid (List.range 6)) 50).map (fun o => (List.range 2).map o.assignment.charges) =
      some [7 / 6, 7 / 6] := by
  refine ⟨⟨mirror_oper _ 5 (by decide) _ _ (by decide +kernel), lineRun_ready _ (by decide) _ (by simp) _ _, lineRun_ready _ (by decide) _ (by simp) _ _,
    by unfold TwoSided; decide, ?_, line_noTies _ _ _ (by decide +kernel), lineAid_apart _ _, lineAid_apart _ _, lineAid_sorted _ _, lineAid_sorted _ _⟩,
    ⟨⟨?_, ?_, ?_, ?_⟩, mirror_dist _ (by decide) 5 _ _, ?_, ?_, line_root _, line_root _, rfl, ?_, ?_, ?_, ?_⟩, by decide +kernel⟩
  · have : mirrorCell.Peaked := line_peaked _ (by decide) _ _ (by decide +kernel)
    exact fun v w hv hw _ => this v w hv hw
  · intro i hi
    show 1 - i < 2
    omega
  · intro i hi j hj e
    have hi : i < 2 := hi
    have hj : j < 2 := hj
    have e : 1 - i = 1 - j := e
    omega
  · intro j hj
    have hj : j < 2 := hj
    refine ⟨1 - j, ?_, ?_⟩
    · show 1 - j < 2
      omega
    · show 1 - (1 - j) = j
      omega
  · intro i hi hj
    have hi : i < 2 := hi
    refine ⟨(0, 0, 0), ?_⟩
    interval_cases i <;> norm_num [mirrorCell, lineRun, GridOper.frac, mirrorAt, image]
  · simp [Orthogonal, dotV, mirrorCell, lineRun]
  · simp [Orthogonal, dotV, mirrorCell, lineRun]
  · intro a ha m hm
    simp only [mirrorCell, lineRun, List.mem_cons, List.not_mem_nil, or_false] at ha
    rcases mirror_max hm with rfl | rfl <;> rcases ha with rfl | rfl <;> norm_num [CloseBy, lineAid, abs_lt]
  · intro a ha m hm
    simp only [mirrorCell, lineRun, List.mem_cons, List.not_mem_nil, or_false] at ha
    rcases mirror_max hm with rfl | rfl <;> rcases ha with rfl | rfl <;> norm_num [CloseBy, lineAid, abs_lt]
  · intro v w _ hc
    obtain ⟨_, _, z, hz⟩ := mirror_carries (L := 6) hc
    have hz : (w : ℚ) = 5 - v + z * 6 := by exact_mod_cast hz
    refine ⟨(z, 0, 0), ?_⟩
    simp only [lineAid, image, GridOper.frac, mirrorAt, mirrorCell, lineRun, List.length_cons, List.length_nil, hz]
    refine Prod.ext ?_ (Prod.ext ?_ ?_) <;> norm_num <;> ring
  · intro v hv
    refine ⟨v / 4, (0, 0, 0), ?_, ?_⟩
    · rcases mirror_max hv with rfl | rfl <;> decide
    · intro j hj t' hne
      have hj' : j < 2 := hj
      have el : mirrorCell.lattice = ((6, 0, 0), (0, 1, 0), (0, 0, 1)) := by norm_num [mirrorCell, lineRun]
      rw [el, line_dist, line_dist]
      have key : ∀ (x : ℤ) (c : ℚ), c = 1 / 2 ∨ c = -1 / 2 → (c + x) ≠ 0 := by
        intro x c h e
        rcases h with rfl | rfl
        · have : (1 + 2 * x : ℤ) = 0 := by exact_mod_cast (by linarith : (1 + 2 * x : ℚ) = 0)
          omega
        · have : (-1 + 2 * x : ℤ) = 0 := by exact_mod_cast (by linarith : (-1 + 2 * x : ℚ) = 0)
          omega
      have pos : ∀ (x y z : ℚ), x ≠ 0 ∨ y ≠ 0 ∨ z ≠ 0 → 0 < (6 * x) ^ 2 + y ^ 2 + z ^ 2 := by
        intro x y z h
        rcases h with h | h | h
        · have : 0 < (6 * x) ^ 2 := by positivity
          positivity
        · positivity
        · positivity
      obtain ⟨x, y, z⟩ := t'
      have h0 : ∀ a, (a, (x, y, z)) ≠ ((a : ℕ), ((0 : ℤ), (0 : ℤ), (0 : ℤ))) → x ≠ 0 ∨ y ≠ 0 ∨ z ≠ 0 := by
        intro a h
        by_contra hcon; push Not at hcon; obtain ⟨rfl, rfl, rfl⟩ := hcon; exact h rfl
      rcases mirror_max hv with rfl | rfl <;> interval_cases j
      · have := pos x y z (by simpa using h0 0 hne)
        norm_num [mirrorCell, lineRun, lineAid] at this ⊢
        nlinarith
      · have := pos (1 / 2 + x) y z (Or.inl (key x _ (Or.inl rfl)))
        norm_num [mirrorCell, lineRun, lineAid] at this ⊢
        nlinarith
      · have := pos (-1 / 2 + x) y z (Or.inl (key x _ (Or.inr rfl)))
        norm_num [mirrorCell, lineRun, lineAid] at this ⊢
        nlinarith
      · have := pos x y z (by simpa using h0 1 hne)
        norm_num [mirrorCell, lineRun, lineAid] at this ⊢
        nlinarith

/-- **C120** (negative part) Ties are broken by the order of the neighbours, which no symmetry keeps.  In a crystal with a mirror that exchanges its two atoms the voxel
on the mirror is given to one of them: the equivalent atoms have charges 4/5 and 6/5. -/
theorem C120_tie : ∃ (G : RunInput ℚ) (A : RunAid ℚ), OperatedBy (mirrorAt 4) G G ∧ AtomsMoved (mirrorAt 4) G G (fun i => 1 - i) ∧
    (∀ a b : V3 ℚ, dist2 G.lattice ((mirrorAt 4).frac G.shape G.shape a) ((mirrorAt 4).frac G.shape G.shape b) = dist2 G.lattice a b) ∧
    RunReady G A 0 ∧ TwoSided G.nbrs ∧ G.Peaked ∧ A.Apart G ∧ Orthogonal G.lattice ∧ RootLike A.root ∧ G.atoms.length = 2 ∧
    ¬ G.NoTies ∧
    (G.run A (.ongrid (List.range 5)) 50).map (fun o => (List.range 2).map o.assignment.charges) = some [4 / 5, 6 / 5] := by
  refine ⟨lineRun [1, 3, 2, 3, 1] [(1 / 5, 0, 0), (3 / 5, 0, 0)] none, lineAid [1, 3, 2, 3, 1] fun _ _ => false,
    mirror_oper _ 4 (by decide) _ _ (by decide +kernel), ⟨?_, ?_, ?_, ?_⟩, mirror_dist _ (by decide) 4 _ _, lineRun_ready _ (by decide) _ (by simp) _ _,
    by unfold TwoSided; decide, line_peaked _ (by decide) _ _ (by decide +kernel), lineAid_apart _ _, ?_, line_root _, rfl, ?_, by decide +kernel⟩
  · intro i hi
    show 1 - i < 2
    omega
  · intro i hi j hj e
    have hi : i < 2 := hi
    have hj : j < 2 := hj
    have e : 1 - i = 1 - j := e
    omega
  · intro j hj
    have hj : j < 2 := hj
    refine ⟨1 - j, ?_, ?_⟩
    · show 1 - j < 2
      omega
    · show 1 - (1 - j) = j
      omega
  · intro i hi hj
    have hi : i < 2 := hi
    refine ⟨(0, 0, 0), ?_⟩
    interval_cases i <;> norm_num [lineRun, GridOper.frac, mirrorAt, image]
  · simp [Orthogonal, dotV, lineRun]
  · intro h
    have := h 2 1 3 (by decide) rfl ⟨((-1, 0, 0), 1), by decide +kernel, by decide +kernel, by decide +kernel, by decide +kernel⟩
      ⟨((1, 0, 0), 1), by decide +kernel, by decide +kernel, by decide +kernel, by decide +kernel⟩
    omega

end BaderKit
