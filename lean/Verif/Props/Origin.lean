import Verif.Props.BaderRun
/-!
# C116: the choice of the origin

The same crystal on a grid whose origin is moved by whole voxels.
-/
set_option linter.unusedSectionVars false
namespace BaderKit
open Finset
variable {K : Type} [Field K] [LinearOrder K] [IsStrictOrderedRing K] [FloorRing K]

/-! ## Specification -/

/-- A reported maximum: not vacuum and nothing around it is higher. -/
def RunInput.IsMax (G : RunInput K) (v : ℕ) : Prop := v < G.shape.size ∧ G.vacuum v = false ∧ IsLocalMax G.shape G.ref (G.nbrs.map Prod.fst) v

/-- No maximum has an equally high neighbour. -/
def RunInput.NoPlateau (G : RunInput K) : Prop := ∀ v w, G.IsMax v → IsNbr G.shape (G.nbrs.map Prod.fst) v w → w ≠ v → G.ref w < G.ref v

/-- `w` is the voxel `v` of the crystal after the origin was moved: its coordinate is that of `v` plus `c`, up to whole cells. -/
def MovedTo (s : Shape) (c : Coord) (v w : ℕ) : Prop := IsNbr s [c] v w

/-- The point `q` is `p` after the move, up to whole cells; both are stored inside the cell. -/
def SiteMoved (s : Shape) (c : Coord) (p q : V3 K) : Prop :=
  (0 ≤ p.1 ∧ p.1 < 1 ∧ 0 ≤ p.2.1 ∧ p.2.1 < 1 ∧ 0 ≤ p.2.2 ∧ p.2.2 < 1) ∧ (0 ≤ q.1 ∧ q.1 < 1 ∧ 0 ≤ q.2.1 ∧ q.2.1 < 1 ∧ 0 ≤ q.2.2 ∧ q.2.2 < 1) ∧
    ∃ t : ℤ × ℤ × ℤ, q = (p.1 + (c.1 : K) / s.nx + t.1, p.2.1 + (c.2.1 : K) / s.ny + t.2.1, p.2.2 + (c.2.2 : K) / s.nz + t.2.2)

/-- `G'` is the crystal `G` with the origin moved by `c` voxels: the same values at the moved voxels, the same settings. -/
structure OriginMoved (c : Coord) (G G' : RunInput K) : Prop where
  fits : StepFits G.shape c
  shape : G'.shape = G.shape
  nbrs : G'.nbrs = G.nbrs
  lattice : G'.lattice = G.lattice
  volume : G'.volume = G.volume
  tol : G'.tol = G.tol
  useRef : G'.useRef = G.useRef
  ref : ∀ v w, v < G.shape.size → MovedTo G.shape c v w → G'.ref w = G.ref v
  charge : ∀ v w, v < G.shape.size → MovedTo G.shape c v w → G'.charge w = G.charge v

/-- The neighbour list contains every step together with its opposite. -/
def TwoSided (nbrs : List (Coord × K)) : Prop := ∀ td ∈ nbrs, negC td.1 ∈ nbrs.map Prod.fst

/-- The test of nearby maxima puts the maxima into groups: it is symmetric and transitive and the members of a group have different values.  The maxima are
sorted by value. -/
structure Grouped (G : RunInput K) (A : RunAid K) : Prop where
  symm : ∀ a b, G.IsMax a → G.IsMax b → A.same a b = true → A.same b a = true
  trans : ∀ a b d, G.IsMax a → G.IsMax b → G.IsMax d → a ≠ d → A.same a b = true → A.same b d = true → A.same a d = true
  value : ∀ a b, G.IsMax a → G.IsMax b → a ≠ b → A.same a b = true → G.ref a ≠ G.ref b
  sorted : ∀ l, (A.sortMax l).Pairwise fun a b => G.ref b ≤ G.ref a

/-! ## Moved voxels -/

section move
variable {s : Shape} {c : Coord}

theorem movedTo_iff (hc : StepFits s c) {v w : ℕ} (hv : v < s.size) : MovedTo s c v w ↔ nbr s v c = w := by
  unfold MovedTo
  rw [isNbr_iff (by simpa using hc) hv]
  simp

theorem move_inj (hc : StepFits s c) {v w : ℕ} (hv : v < s.size) (hw : w < s.size) (h : nbr s v c = nbr s w c) : v = w := by
  rw [← nbr_neg hv hc, h, nbr_neg hw hc]

theorem move_surj (hc : StepFits s c) {w : ℕ} (hw : w < s.size) : ∃ v < s.size, nbr s v c = w := by
  refine ⟨nbr s w (negC c), nbr_lt hw hc.neg, ?_⟩
  have := nbr_neg hw hc.neg
  have e : negC (negC c) = c := by simp [negC]
  rwa [e] at this

theorem move_nbr (hc : StepFits s c) {t : Coord} (ht : StepFits s t) {v : ℕ} (hv : v < s.size) : nbr s (nbr s v c) t = nbr s (nbr s v t) c := by
  have hp := pos_of_lt_size hv
  have h1 := nbr_lt hv hc
  have h2 := nbr_lt hv ht
  have r1 := flatToCoords_inRange (s := s) (v := nbr s (nbr s v c) t) (by positivity) (by exact_mod_cast nbr_lt h1 ht) hp
  have r2 := flatToCoords_inRange (s := s) (v := nbr s (nbr s v t) c) (by positivity) (by exact_mod_cast nbr_lt h2 hc) hp
  have key : flatToCoords s (nbr s (nbr s v c) t) = flatToCoords s (nbr s (nbr s v t) c) := by
    apply samePoint_unique r1 r2
    rw [flatToCoords_nbr h1 ht, flatToCoords_nbr h2 hc, flatToCoords_nbr hv hc, flatToCoords_nbr hv ht]
    have a1 := samePoint_addC (wrapPoint_same s (addC (flatToCoords s v) c)).symm t
    have a2 := samePoint_addC (wrapPoint_same s (addC (flatToCoords s v) t)) c
    have e : addC (addC (flatToCoords s v) c) t = addC (addC (flatToCoords s v) t) c := by
      simp only [addC, Prod.mk.injEq]; omega
    rw [e] at a1
    exact ((wrapPoint_same s _).symm.trans (a1.trans a2)).trans (wrapPoint_same s _)
  have e1 := coordsToFlat_flatToCoords (s := s) (nbr s (nbr s v c) t : ℤ)
  have e2 := coordsToFlat_flatToCoords (s := s) (nbr s (nbr s v t) c : ℤ)
  rw [key, e2] at e1
  exact_mod_cast e1.symm

end move

theorem sum_move {s : Shape} {c : Coord} (hc : StepFits s c) (f : ℕ → K) (P P' : ℕ → Prop) [DecidablePred P] [DecidablePred P'] (g : ℕ → K)
    (hP : ∀ v < s.size, P v ↔ P' (nbr s v c)) (hf : ∀ v < s.size, P v → g (nbr s v c) = f v) :
    ∑ v ∈ (range s.size).filter P, f v = ∑ v ∈ (range s.size).filter P', g v := by
  refine Finset.sum_bij (fun v _ => nbr s v c) ?_ ?_ ?_ ?_
  · intro v hv
    simp only [Finset.mem_filter, Finset.mem_range] at hv ⊢
    exact ⟨nbr_lt hv.1 hc, (hP v hv.1).mp hv.2⟩
  · intro v hv w hw h
    simp only [Finset.mem_filter, Finset.mem_range] at hv hw
    exact move_inj hc hv.1 hw.1 h
  · intro w hw
    simp only [Finset.mem_filter, Finset.mem_range] at hw
    obtain ⟨v, hv, rfl⟩ := move_surj hc hw.1
    exact ⟨v, by simp only [Finset.mem_filter, Finset.mem_range]; exact ⟨hv, (hP v hv).mpr hw.2⟩, rfl⟩
  · intro v hv
    simp only [Finset.mem_filter, Finset.mem_range] at hv
    exact (hf v hv.1 hv.2).symm

/-! ## The ascent -/

section ascent
variable {c : Coord} {G G' : RunInput K}

theorem OriginMoved.ref' (h : OriginMoved c G G') {v : ℕ} (hv : v < G.shape.size) : G'.ref (nbr G.shape v c) = G.ref v :=
  h.ref v _ hv ((movedTo_iff h.fits hv).mpr rfl)

theorem OriginMoved.charge' (h : OriginMoved c G G') {v : ℕ} (hv : v < G.shape.size) : G'.charge (nbr G.shape v c) = G.charge v :=
  h.charge v _ hv ((movedTo_iff h.fits hv).mpr rfl)

theorem OriginMoved.vacuum (h : OriginMoved c G G') {v : ℕ} (hv : v < G.shape.size) : G'.vacuum (nbr G.shape v c) = G.vacuum v := by
  unfold RunInput.vacuum
  rw [h.tol, h.useRef, h.volume]
  cases G.tol with
  | none => rfl
  | some t => cases G.useRef <;> simp [h.ref' hv, h.charge' hv]

variable (hf : ∀ td ∈ G.nbrs, StepFits G.shape td.1)
include hf

theorem fitsOf : ∀ t ∈ G.nbrs.map Prod.fst, StepFits G.shape t := by
  intro t ht; obtain ⟨td, htd, rfl⟩ := List.mem_map.mp ht; exact hf td htd

theorem OriginMoved.localMax (h : OriginMoved c G G') {v : ℕ} (hv : v < G.shape.size) :
    IsLocalMax G'.shape G'.ref (G'.nbrs.map Prod.fst) (nbr G.shape v c) ↔ IsLocalMax G.shape G.ref (G.nbrs.map Prod.fst) v := by
  rw [h.shape, h.nbrs]
  unfold IsLocalMax
  have hn := nbr_lt hv h.fits
  constructor
  · intro H w hw
    obtain ⟨t, ht, rfl⟩ := (isNbr_iff (fitsOf hf) hv).mp hw
    have := H (nbr G.shape (nbr G.shape v c) t) ((isNbr_iff (fitsOf hf) hn).mpr ⟨t, ht, rfl⟩)
    rwa [move_nbr h.fits (fitsOf hf t ht) hv, h.ref' hv, h.ref' (nbr_lt hv (fitsOf hf t ht))] at this
  · intro H w hw
    obtain ⟨t, ht, rfl⟩ := (isNbr_iff (fitsOf hf) hn).mp hw
    have := H (nbr G.shape v t) ((isNbr_iff (fitsOf hf) hv).mpr ⟨t, ht, rfl⟩)
    rwa [move_nbr h.fits (fitsOf hf t ht) hv, h.ref' hv, h.ref' (nbr_lt hv (fitsOf hf t ht))]

theorem OriginMoved.isMax (h : OriginMoved c G G') {v : ℕ} (hv : v < G.shape.size) : G'.IsMax (nbr G.shape v c) ↔ G.IsMax v := by
  unfold RunInput.IsMax
  rw [h.localMax hf hv, h.vacuum hv, h.shape]
  simp [hv, nbr_lt hv h.fits]

theorem OriginMoved.steepest (h : OriginMoved c G G') {v w : ℕ} (hv : v < G.shape.size) (hs : SteepestNbr G.shape G.ref G.nbrs v w) :
    SteepestNbr G'.shape G'.ref G'.nbrs (nbr G.shape v c) (nbr G.shape w c) := by
  obtain ⟨l1, td, l2, hl, hw, hlt, hm, hb⟩ := hs
  have htd : td ∈ G.nbrs := by rw [hl]; simp
  rw [h.shape, h.nbrs]
  have hw' : w < G.shape.size := by rw [hw]; exact nbr_lt hv (hf td htd)
  have e : ∀ td' ∈ G.nbrs, G'.ref (nbr G.shape (nbr G.shape v c) td'.1) = G.ref (nbr G.shape v td'.1) := by
    intro td' h'
    rw [move_nbr h.fits (hf td' h') hv, h.ref' (nbr_lt hv (hf td' h'))]
  refine ⟨l1, td, l2, hl, ?_, ?_, ?_, ?_⟩
  · rw [move_nbr h.fits (hf td htd) hv, hw]
  · rwa [h.ref' hv, h.ref' hw']
  · intro td' h'
    rw [e td' h', h.ref' hv, h.ref' hw']
    exact hm td' h'
  · intro td' h'
    rw [e td' (by rw [hl]; simp [h']), h.ref' hv, h.ref' hw']
    exact hb td' h'

theorem ascends_lt {v m : ℕ} (ha : Ascends G.shape G.ref G.nbrs v m) : v < G.shape.size → m < G.shape.size := by
  induction ha with
  | stop _ => exact id
  | step hs _ ih => exact fun hv => ih (steepestNbr_not_max (fitsOf hf) hv hs).1.1

theorem OriginMoved.ascends (h : OriginMoved c G G') {v m : ℕ} (ha : Ascends G.shape G.ref G.nbrs v m) :
    v < G.shape.size → Ascends G'.shape G'.ref G'.nbrs (nbr G.shape v c) (nbr G.shape m c) := by
  induction ha with
  | stop hm => exact fun hv => .stop ((h.localMax hf hv).mpr hm)
  | step hs _ ih => exact fun hv => .step (h.steepest hf hv hs) (ih (steepestNbr_not_max (fitsOf hf) hv hs).1.1)

end ascent

/-! ## The groups of maxima -/

section groups
variable {G : RunInput K} {A : RunAid K} {M : ℕ → Bool}

theorem noFalseMax (hM : ∀ v, M v = true ↔ G.IsMax v) (hP : G.NoPlateau) (v : ℕ) : ¬ FalseMax G.shape G.ref (G.nbrs.map Prod.fst) M v := by
  rintro ⟨hv, u, hu, n, hn, hMn, hle⟩
  have e : u = v := by
    clear hn hle
    induction hu with
    | refl => rfl
    | @tail a b _ hab ih =>
      have ha : a = v := ih
      subst ha
      by_contra hne
      have := hP a b ((hM a).mp hv) hab.1 hne
      rw [hab.2.2] at this
      exact lt_irrefl _ this
  subst e
  have hne : n ≠ u := by rintro rfl; rw [hv] at hMn; cases hMn
  exact absurd (hP u n ((hM u).mp hv) hn hne) (not_lt.mpr hle)

theorem groups_iff (hf : ∀ td ∈ G.nbrs, StepFits G.shape td.1) (hs : TwoSided G.nbrs) (hP : G.NoPlateau) (hG : Grouped G A)
    (hM : ∀ v, M v = true ↔ G.IsMax v) {labels : ℕ → ℤ} {reps : List ℕ} (hval : ValidInit G.shape G.ref (G.nbrs.map Prod.fst) M A.same labels reps)
    (hsame : ∀ v ∈ (A.sortMax (maximaVox G.shape M)).tail, (∃ w, M w = true ∧ w ≠ v ∧ G.ref v ≤ G.ref w ∧ A.same v w = true) →
        ∃ w, M w = true ∧ w ≠ v ∧ G.ref v ≤ G.ref w ∧ A.same v w = true ∧ labels v = labels w)
    (hperm : (A.sortMax (maximaVox G.shape M)).Perm (maximaVox G.shape M)) (a b : ℕ) (ha : G.IsMax a) (hb : G.IsMax b) :
    labels a = labels b ↔ a = b ∨ A.same a b = true := by
  constructor
  · intro h
    have hE := hval.reason a b ((hM a).mpr ha) ((hM b).mpr hb) h
    have key : ∀ x y, Relation.EqvGen (MergeReason G.shape G.ref (G.nbrs.map Prod.fst) M A.same) x y →
        (x = y ∨ (G.IsMax x ∧ G.IsMax y ∧ A.same x y = true)) := by
      intro x y hxy
      induction hxy with
      | rel x y h =>
        obtain ⟨h1, h2, h3 | h3 | h3⟩ := h
        · by_cases hxy : y = x
          · exact Or.inl hxy.symm
          · exfalso
            have hx := (hM x).mp h1
            have hy := (hM y).mp h2
            have l1 := hP x y hx h3 hxy
            have : IsNbr G.shape (G.nbrs.map Prod.fst) y x := by
              obtain ⟨t, ht, rfl⟩ := (isNbr_iff (fitsOf hf) hx.1).mp h3
              obtain ⟨td, htd, rfl⟩ := List.mem_map.mp ht
              exact (isNbr_iff (fitsOf hf) hy.1).mpr ⟨_, hs td htd, nbr_neg hx.1 (hf td htd)⟩
            exact lt_asymm l1 (hP y x hy this (Ne.symm hxy))
        · exact absurd h3.1 (noFalseMax hM hP x)
        · exact Or.inr ⟨(hM x).mp h1, (hM y).mp h2, h3.2.1⟩
      | refl x => exact Or.inl rfl
      | symm x y _ ih =>
        rcases ih with h | ⟨h1, h2, h3⟩
        · exact Or.inl h.symm
        · exact Or.inr ⟨h2, h1, hG.symm x y h1 h2 h3⟩
      | trans x y z _ _ ih1 ih2 =>
        rcases ih1 with h | ⟨h1, h2, h3⟩
        · rw [h]; exact ih2
        · rcases ih2 with h | ⟨k1, k2, k3⟩
          · rw [← h]; exact Or.inr ⟨h1, h2, h3⟩
          · by_cases hxz : x = z
            · exact Or.inl hxz
            · exact Or.inr ⟨h1, k2, hG.trans x y z h1 h2 k2 hxz h3 k3⟩
    rcases key a b hE with h | h
    · exact Or.inl h
    · exact Or.inr h.2.2
  · -- climb to the highest member of the group
    have hmem : ∀ v, G.IsMax v → v ∈ A.sortMax (maximaVox G.shape M) := by
      intro v hv
      rw [hperm.mem_iff, mem_maximaVox]
      exact ⟨hv.1, (hM v).mpr hv⟩
    have htail : ∀ v w, G.IsMax v → G.IsMax w → G.ref v < G.ref w → v ∈ (A.sortMax (maximaVox G.shape M)).tail := by
      intro v w hv hw hlt
      have h1 := hmem v hv
      have h2 := hmem w hw
      have h3 := hG.sorted (maximaVox G.shape M)
      cases hl : A.sortMax (maximaVox G.shape M) with
      | nil => rw [hl] at h1; cases h1
      | cons x xs =>
        rw [hl] at h1 h2 h3
        rcases List.mem_cons.mp h1 with rfl | h
        · exfalso
          rcases List.mem_cons.mp h2 with rfl | h'
          · exact lt_irrefl _ hlt
          · exact absurd ((List.pairwise_cons.mp h3).1 w h') (not_le.mpr hlt)
        · exact h
    have up : ∀ v w, G.IsMax v → G.IsMax w → G.ref v < G.ref w → A.same v w = true →
        ∃ u, G.IsMax u ∧ u ≠ v ∧ G.ref v < G.ref u ∧ A.same v u = true ∧ labels v = labels u := by
      intro v w hv hw hlt hs
      obtain ⟨u, h1, h2, h3, h4, h5⟩ := hsame v (htail v w hv hw hlt) ⟨w, (hM w).mpr hw, by rintro rfl; exact lt_irrefl _ hlt, hlt.le, hs⟩
      have hu := (hM u).mp h1
      exact ⟨u, hu, h2, lt_of_le_of_ne h3 (hG.value v u hv hu (Ne.symm h2) h4), h4, h5⟩
    have main : ∀ n v w, above G.shape G.ref v + above G.shape G.ref w ≤ n → G.IsMax v → G.IsMax w → v ≠ w → A.same v w = true → labels v = labels w := by
      intro n
      induction n with
      | zero =>
        intro v w hn hv hw hne hs
        exfalso
        rcases lt_or_gt_of_ne (hG.value v w hv hw hne hs) with h | h
        · have : 0 < above G.shape G.ref v := lt_of_le_of_lt (Nat.zero_le _) (above_lt hw.1 h)
          omega
        · have : 0 < above G.shape G.ref w := lt_of_le_of_lt (Nat.zero_le _) (above_lt hv.1 h)
          omega
      | succ n ih =>
        intro v w hn hv hw hne hs
        rcases lt_or_gt_of_ne (hG.value v w hv hw hne hs) with h | h
        · obtain ⟨u, h1, h2, h3, h4, h5⟩ := up v w hv hw h hs
          rw [h5]
          by_cases huw : u = w
          · rw [huw]
          · have := above_lt h1.1 h3
            exact ih u w (by omega) h1 hw huw (hG.trans u v w h1 hv hw huw (hG.symm v u hv h1 h4) hs)
        · obtain ⟨u, h1, h2, h3, h4, h5⟩ := up w v hw hv h (hG.symm v w hv hw hs)
          rw [h5]
          by_cases huv : v = u
          · rw [huv]
          · have := above_lt h1.1 h3
            exact ih v u (by omega) hv h1 huv (hG.trans v w u hv hw h1 huv hs h4)
    rintro (rfl | h)
    · rfl
    · by_cases hne : a = b
      · rw [hne]
      · exact main _ a b le_rfl ha hb hne h

end groups

/-! ## One run -/

theorem getMaxima_isMax (G : RunInput K) (A : RunAid K) {ε : K} (H : RunReady G A ε) (v : ℕ) :
    getMaxima G.shape G.ref (G.nbrs.map Prod.fst) G.vacuum false A.order v = true ↔ G.IsMax v :=
  marksMaxima_getMaxima G.shape G.ref (G.nbrs.map Prod.fst) G.vacuum A.order H.order (fitsOf H.fits) v

theorem ongrid_groups (G : RunInput K) (A : RunAid K) (ε : K) (H : RunReady G A ε) (order : List ℕ) (hord : IsSchedule G.shape order)
    (hs : TwoSided G.nbrs) (hP : G.NoPlateau) (hG : Grouped G A) :
    ∃ (o : RunOut K) (F : ℕ), (∀ fuel ≥ F, G.run A (.ongrid order) fuel = some o) ∧ RunTotals G A.rnd ε o ∧
      (∀ v < G.shape.size, G.vacuum v = true → o.labels v = -1) ∧
      (∀ v < G.shape.size, G.vacuum v = false → 0 ≤ o.labels v ∧ o.labels v < o.maxima.length) ∧
      (∀ v w m n, v < G.shape.size → w < G.shape.size → G.vacuum v = false → G.vacuum w = false → Ascends G.shape G.ref G.nbrs v m →
        Ascends G.shape G.ref G.nbrs w n → (o.labels v = o.labels w ↔ m = n ∨ A.same m n = true)) ∧
      (∀ v m, v < G.shape.size → G.vacuum v = false → Ascends G.shape G.ref G.nbrs v m → G.IsMax m) ∧
      (∀ b : ℕ, b < o.maxima.length → ∃ v < G.shape.size, o.labels v = b) ∧
      o.basins = basinChargesVolumes G.shape G.charge o.labels G.volume ∧
      assignBasins A.root G.lattice G.atoms (o.maxima.map A.place) o.labels
        ((List.range o.maxima.length).map fun b => A.rnd (o.basins.charges b))
        ((List.range o.maxima.length).map fun b => A.rnd (o.basins.volumes b)) = some o.assignment ∧
      ((∀ a b, G.IsMax a → G.IsMax b → a ≠ b → A.same a b = false) →
        o.maxima = maximaVox G.shape (getMaxima G.shape G.ref (G.nbrs.map Prod.fst) G.vacuum false A.order) ∧
        ∀ i (hi : i < o.maxima.length), o.labels o.maxima[i] = i) := by
  have hup : UpClosedLe G.shape G.ref (G.nbrs.map Prod.fst) G.vacuum := fun v _ hv w _ hle => H.vacuum.up v w hv hle
  set M := getMaxima G.shape G.ref (G.nbrs.map Prod.fst) G.vacuum false A.order with hMd
  have hM : ∀ v, M v = true ↔ G.IsMax v := getMaxima_isMax G A H
  have hsort := H.sort (maximaVox G.shape M)
  obtain ⟨res, F1, hF1, hval, hsm, hid⟩ := C15_init_labels G.shape G.ref G.nbrs G.vacuum M A.same A.cand _ H.fits H.pos hM hup hsort
  obtain ⟨lab, F2, hF2, h1, h2, h3, h4, h5⟩ := ongrid_spec G.shape G.ref G.nbrs G.vacuum M A.same order G.numVacuum res.labels res.reps H.fits H.pos hM
    hup.upClosed hord G.numVacuum_zero hval
  have hgr := groups_iff H.fits hs hP hG hM hval (fun v hv hex => hsm (hG.sorted _) v hv (noFalseMax hM hP v) hex) hsort
  obtain ⟨asg, k1, k2, _, _⟩ := label_core G A ε H lab res.reps h1 (fun v hv hvac => (h2 v hv hvac).1)
  refine ⟨⟨lab, _, res.reps, asg⟩, max F1 F2, fun fuel hf => ?_, k2, h1, fun v hv hvac => (h2 v hv hvac).1, ?_, ?_, h5, rfl, k1, ?_⟩
  · have e1 := hF1 fuel (le_of_max_le_left hf)
    have e2 := hF2 fuel (le_of_max_le_right hf)
    simp only [RunInput.run, ← hMd, e1, RunInput.method, e2, Option.map_some, Option.bind_eq_bind, Option.bind_some]
    rw [k1]; rfl
  · intro v w m n hv hw hvv hwv hm hn
    obtain ⟨m1, m2⟩ := (h2 v hv hvv).2 m hm
    obtain ⟨n1, n2⟩ := (h2 w hw hwv).2 n hn
    show lab v = lab w ↔ _
    rw [m2, n2, h3 m n m1 n1]
    exact hgr m n ((hM m).mp m1) ((hM n).mp n1)
  · intro v m hv hvac hm
    exact (hM m).mp ((h2 v hv hvac).2 m hm).1
  · intro hno
    have hfix : ∀ v, M v = true → res.labels v = v := by
      intro v hv
      obtain ⟨r, e1, e2, e3, _⟩ := hval.rep v hv
      have := (hgr v r ((hM v).mp hv) ((hM r).mp e2)).mp (by rw [e1, e3])
      rcases this with h | h
      · rw [e1, ← h]
      · by_cases hvr : v = r
        · rw [e1, ← hvr]
        · rw [hno v r ((hM v).mp hv) ((hM r).mp e2) hvr] at h; cases h
    refine ⟨hid hfix, ?_⟩
    obtain ⟨res', lab', F', hF', g1, g2⟩ := C16_order_partial G.shape G.ref G.nbrs G.vacuum M A.same A.cand _ order G.numVacuum
      H.fits H.pos hM hup hord G.numVacuum_zero hsort
    have a := hF1 (max (max F1 F2) F') (le_trans (le_max_left _ _) (le_max_left _ _))
    have b := hF2 (max (max F1 F2) F') (le_trans (le_max_right _ _) (le_max_left _ _))
    obtain ⟨a', b'⟩ := hF' (max (max F1 F2) F') (le_max_right _ _)
    rw [a] at a'
    have e := (Option.some.inj a').symm
    subst e
    rw [b] at b'
    have e := (Option.some.inj b').symm
    subst e
    exact g2 (g1 hfix)

/-! ## The theorems -/

/-- What a user compares after moving the origin: which voxels lie in one basin, the vacuum, the charge and volume of the basin of each voxel and the number
of basins. -/
structure SameBasins (c : Coord) (G : RunInput K) (o o' : RunOut K) : Prop where
  vacuum : ∀ v v', v < G.shape.size → MovedTo G.shape c v v' → (o'.labels v' = -1 ↔ o.labels v = -1)
  parts : ∀ v v' w w', v < G.shape.size → w < G.shape.size → MovedTo G.shape c v v' → MovedTo G.shape c w w' →
    (o'.labels v' = o'.labels w' ↔ o.labels v = o.labels w)
  charge : ∀ v v', v < G.shape.size → MovedTo G.shape c v v' → o.labels v ≠ -1 →
    o'.basins.charges (o'.labels v').toNat = o.basins.charges (o.labels v).toNat
  volume : ∀ v v', v < G.shape.size → MovedTo G.shape c v v' → o.labels v ≠ -1 →
    o'.basins.volumes (o'.labels v').toNat = o.basins.volumes (o.labels v).toNat
  vacCharge : o'.basins.vacCharge = o.basins.vacCharge
  vacVolume : o'.basins.vacVolume = o.basins.vacVolume
  count : o'.maxima.length = o.maxima.length

/-- The two runs: both are ready, the maxima are grouped in the same way, the maxima of both are sorted by value. -/
structure TwoRuns (c : Coord) (G G' : RunInput K) (A A' : RunAid K) (ε : K) : Prop where
  moved : OriginMoved c G G'
  ready : RunReady G A ε
  ready' : RunReady G' A' ε
  twoSided : TwoSided G.nbrs
  noPlateau : G.NoPlateau
  grouped : Grouped G A
  sorted : ∀ l, (A'.sortMax l).Pairwise fun a b => G'.ref b ≤ G'.ref a
  same : ∀ a b a' b', G.IsMax a → G.IsMax b → MovedTo G.shape c a a' → MovedTo G.shape c b b' → A'.same a' b' = A.same a b

section two
variable {c : Coord} {G G' : RunInput K} {A A' : RunAid K} {ε : K}

theorem TwoRuns.same' (T : TwoRuns c G G' A A' ε) {a b : ℕ} (ha : G.IsMax a) (hb : G.IsMax b) :
    A'.same (nbr G.shape a c) (nbr G.shape b c) = A.same a b :=
  T.same a b _ _ ha hb ((movedTo_iff T.moved.fits ha.1).mpr rfl) ((movedTo_iff T.moved.fits hb.1).mpr rfl)

theorem TwoRuns.back (T : TwoRuns c G G' A A' ε) {a : ℕ} (ha : G'.IsMax a) : ∃ b, G.IsMax b ∧ nbr G.shape b c = a := by
  obtain ⟨b, hb, rfl⟩ := move_surj T.moved.fits (by rw [← T.moved.shape]; exact ha.1)
  exact ⟨b, (T.moved.isMax T.ready.fits hb).mp ha, rfl⟩

theorem TwoRuns.noPlateau' (T : TwoRuns c G G' A A' ε) : G'.NoPlateau := by
  intro v w hv hw hne
  obtain ⟨b, hb, rfl⟩ := T.back hv
  rw [T.moved.shape, T.moved.nbrs] at hw
  have hf := T.moved.fits
  obtain ⟨t, ht, rfl⟩ := (isNbr_iff (fitsOf T.ready.fits) (nbr_lt hb.1 hf)).mp hw
  have htf := fitsOf T.ready.fits t ht
  rw [move_nbr hf htf hb.1] at hne ⊢
  rw [T.moved.ref' hb.1, T.moved.ref' (nbr_lt hb.1 htf)]
  refine T.noPlateau b _ hb ((isNbr_iff (fitsOf T.ready.fits) hb.1).mpr ⟨t, ht, rfl⟩) fun e => hne ?_
  rw [e]

theorem TwoRuns.grouped' (T : TwoRuns c G G' A A' ε) : Grouped G' A' := by
  refine ⟨fun a b ha hb h => ?_, fun a b d ha hb hd hne h1 h2 => ?_, fun a b ha hb hne h => ?_, T.sorted⟩
  · obtain ⟨a, ham, rfl⟩ := T.back ha
    obtain ⟨b, hbm, rfl⟩ := T.back hb
    rw [T.same' ham hbm] at h
    rw [T.same' hbm ham]
    exact T.grouped.symm a b ham hbm h
  · obtain ⟨a, ham, rfl⟩ := T.back ha
    obtain ⟨b, hbm, rfl⟩ := T.back hb
    obtain ⟨d, hdm, rfl⟩ := T.back hd
    rw [T.same' ham hbm] at h1
    rw [T.same' hbm hdm] at h2
    rw [T.same' ham hdm]
    exact T.grouped.trans a b d ham hbm hdm (fun e => hne (by rw [e])) h1 h2
  · obtain ⟨a, ham, rfl⟩ := T.back ha
    obtain ⟨b, hbm, rfl⟩ := T.back hb
    rw [T.same' ham hbm] at h
    rw [T.moved.ref' ham.1, T.moved.ref' hbm.1]
    exact T.grouped.value a b ham hbm (fun e => hne (by rw [e])) h

end two

theorem sameBasins_of {c : Coord} {G G' : RunInput K} {o o' : RunOut K} (hm : OriginMoved c G G')
    (hl1 : ∀ v < G.shape.size, G.vacuum v = true → o.labels v = -1)
    (hl2 : ∀ v < G.shape.size, G.vacuum v = false → 0 ≤ o.labels v ∧ o.labels v < o.maxima.length)
    (hl3 : ∀ b : ℕ, b < o.maxima.length → ∃ v < G.shape.size, o.labels v = b)
    (hr1 : ∀ v < G.shape.size, G'.vacuum (nbr G.shape v c) = true → o'.labels (nbr G.shape v c) = -1)
    (hr2 : ∀ v < G.shape.size, G'.vacuum (nbr G.shape v c) = false → 0 ≤ o'.labels (nbr G.shape v c) ∧ o'.labels (nbr G.shape v c) < o'.maxima.length)
    (hr3 : ∀ b : ℕ, b < o'.maxima.length → ∃ v < G.shape.size, o'.labels (nbr G.shape v c) = b)
    (hp : ∀ v w, v < G.shape.size → w < G.shape.size → G.vacuum v = false → G.vacuum w = false →
      (o'.labels (nbr G.shape v c) = o'.labels (nbr G.shape w c) ↔ o.labels v = o.labels w))
    (hb : o.basins = basinChargesVolumes G.shape G.charge o.labels G.volume)
    (hb' : o'.basins = basinChargesVolumes G'.shape G'.charge o'.labels G'.volume) : SameBasins c G o o' := by
  have hf := hm.fits
  have hvac : ∀ v < G.shape.size, (o'.labels (nbr G.shape v c) = -1 ↔ o.labels v = -1) := by
    intro v hv
    have e := hm.vacuum hv
    cases hvv : G.vacuum v with
    | true => rw [hl1 v hv hvv, hr1 v hv (e.trans hvv)]
    | false =>
      have h1 := (hl2 v hv hvv).1
      have h2 := (hr2 v hv (e.trans hvv)).1
      constructor <;> intro h <;> omega
  have hneg : ∀ v < G.shape.size, (o.labels v < 0 ↔ o'.labels (nbr G.shape v c) < 0) := by
    intro v hv
    have e := hm.vacuum hv
    cases hvv : G.vacuum v with
    | true => rw [hl1 v hv hvv, hr1 v hv (e.trans hvv)]
    | false =>
      have h1 := (hl2 v hv hvv).1
      have h2 := (hr2 v hv (e.trans hvv)).1
      constructor <;> intro h <;> omega
  have hparts : ∀ v w, v < G.shape.size → w < G.shape.size →
      (o'.labels (nbr G.shape v c) = o'.labels (nbr G.shape w c) ↔ o.labels v = o.labels w) := by
    intro v w hv hw
    cases hvv : G.vacuum v with
    | true =>
      rw [hl1 v hv hvv, hr1 v hv ((hm.vacuum hv).trans hvv), eq_comm, hvac w hw, eq_comm]
    | false =>
      cases hwv : G.vacuum w with
      | true => rw [hl1 w hw hwv, hr1 w hw ((hm.vacuum hw).trans hwv), hvac v hv]
      | false => exact hp v w hv hw hvv hwv
  have hpos : ∀ v < G.shape.size, o.labels v ≠ -1 → ((o.labels v).toNat : ℤ) = o.labels v ∧
      ((o'.labels (nbr G.shape v c)).toNat : ℤ) = o'.labels (nbr G.shape v c) := by
    intro v hv h
    cases hvv : G.vacuum v with
    | true => exact absurd (hl1 v hv hvv) h
    | false => exact ⟨Int.toNat_of_nonneg (hl2 v hv hvv).1, Int.toNat_of_nonneg (hr2 v hv ((hm.vacuum hv).trans hvv)).1⟩
  obtain ⟨c1, c2, c3, c4⟩ := C12_per_basin G.shape G.charge o.labels G.volume
  obtain ⟨d1, d2, d3, d4⟩ := C12_per_basin G'.shape G'.charge o'.labels G'.volume
  rw [← hb] at c1 c2 c3 c4
  rw [← hb', hm.shape] at d1 d2 d3 d4
  rw [hm.volume] at d2 d4
  have hcard : ∀ (P P' : ℕ → Prop) [DecidablePred P] [DecidablePred P'], (∀ v < G.shape.size, P v ↔ P' (nbr G.shape v c)) →
      (((range G.shape.size).filter P).card : K) = ((range G.shape.size).filter P').card := by
    intro P P' _ _ h
    have := sum_move hf (fun _ => (1 : K)) P P' (fun _ => 1) h (fun _ _ _ => rfl)
    simpa using this
  refine ⟨?_, ?_, ?_, ?_, ?_, ?_, ?_⟩
  · intro v v' hv h
    rw [movedTo_iff hf hv] at h; subst h
    exact hvac v hv
  · intro v v' w w' hv hw h h'
    rw [movedTo_iff hf hv] at h; subst h
    rw [movedTo_iff hf hw] at h'; subst h'
    exact hparts v w hv hw
  · intro v v' hv h hne
    rw [movedTo_iff hf hv] at h; subst h
    obtain ⟨p1, p2⟩ := hpos v hv hne
    rw [c1, d1, p1, p2]
    congr 1
    exact (sum_move hf _ _ _ _ (fun w hw => (hparts w v hw hv).symm) (fun w hw _ => hm.charge' hw)).symm
  · intro v v' hv h hne
    rw [movedTo_iff hf hv] at h; subst h
    obtain ⟨p1, p2⟩ := hpos v hv hne
    rw [c2, d2, p1, p2]
    rw [← hcard _ _ (fun w hw => (hparts w v hw hv).symm)]
  · rw [c3, d3]
    congr 1
    exact (sum_move hf _ _ _ _ hneg (fun w hw _ => hm.charge' hw)).symm
  · rw [c4, d4, ← hcard _ _ hneg]
  · choose! f f1 f2 using hl3
    choose! g g1 g2 using hr3
    have key : ∀ {n m : ℕ} (h : ℕ → ℕ), (∀ b < n, h b < m) → (∀ a < n, ∀ b < n, h a = h b → a = b) → n ≤ m := by
      intro n m h h1 h2
      have := Finset.card_le_card_of_injOn (s := range n) (t := range m) h (fun b hb => by simpa using h1 b (by simpa using hb))
        (fun a ha b hb e => h2 a (by simpa using ha) b (by simpa using hb) e)
      simpa using this
    have nv : ∀ v < G.shape.size, 0 ≤ o.labels v → G.vacuum v = false := by
      intro v hv h
      cases hvv : G.vacuum v with
      | false => rfl
      | true => rw [hl1 v hv hvv] at h; omega
    have nv' : ∀ v < G.shape.size, 0 ≤ o'.labels (nbr G.shape v c) → G.vacuum v = false := by
      intro v hv h
      cases hvv : G.vacuum v with
      | false => rfl
      | true => rw [hr1 v hv ((hm.vacuum hv).trans hvv)] at h; omega
    apply le_antisymm
    · refine key (fun b => (o.labels (g b)).toNat) ?_ ?_
      · intro b hbn
        have := hl2 (g b) (g1 b hbn) (nv' _ (g1 b hbn) (by rw [g2 b hbn]; omega))
        omega
      · intro a ha b hb' e
        have ea := hl2 (g a) (g1 a ha) (nv' _ (g1 a ha) (by rw [g2 a ha]; omega))
        have eb := hl2 (g b) (g1 b hb') (nv' _ (g1 b hb') (by rw [g2 b hb']; omega))
        have : o.labels (g a) = o.labels (g b) := by omega
        have := (hparts _ _ (g1 a ha) (g1 b hb')).mpr this
        rw [g2 a ha, g2 b hb'] at this
        exact_mod_cast this
    · refine key (fun b => (o'.labels (nbr G.shape (f b) c)).toNat) ?_ ?_
      · intro b hbn
        have := hr2 (f b) (f1 b hbn) ((hm.vacuum (f1 b hbn)).trans (nv _ (f1 b hbn) (by rw [f2 b hbn]; omega)))
        omega
      · intro a ha b hb' e
        have ea := hr2 (f a) (f1 a ha) ((hm.vacuum (f1 a ha)).trans (nv _ (f1 a ha) (by rw [f2 a ha]; omega)))
        have eb := hr2 (f b) (f1 b hb') ((hm.vacuum (f1 b hb')).trans (nv _ (f1 b hb') (by rw [f2 b hb']; omega)))
        have : o'.labels (nbr G.shape (f a) c) = o'.labels (nbr G.shape (f b) c) := by omega
        have := (hparts _ _ (f1 a ha) (f1 b hb')).mp this
        rw [f2 a ha, f2 b hb'] at this
        exact_mod_cast this

theorem wrapHalf_shift (d : K) (n : ℤ) (h1 : -1 < d) (h2 : d < 1) (h3 : -1 < d + n) (h4 : d + n < 1) : wrapHalf (d + n) = wrapHalf d := by
  have a1 : (n : K) < 2 := by linarith
  have a2 : (-2 : K) < n := by linarith
  have b1 : n < 2 := by exact_mod_cast a1
  have b2 : -2 < n := by exact_mod_cast a2
  have : n = -1 ∨ n = 0 ∨ n = 1 := by omega
  unfold wrapHalf
  rcases this with rfl | rfl | rfl
  · push_cast at *
    split_ifs <;> linarith
  · simp
  · push_cast at *
    split_ifs <;> linarith

theorem wrapHalfV_moved {s : Shape} {c : Coord} {a a' b b' : V3 K} (ha : SiteMoved s c a a') (hb : SiteMoved s c b b') :
    wrapHalfV (subV a' b') = wrapHalfV (subV a b) := by
  obtain ⟨⟨x1, x2, x3, x4, x5, x6⟩, ⟨y1, y2, y3, y4, y5, y6⟩, t, rfl⟩ := ha
  obtain ⟨⟨z1, z2, z3, z4, z5, z6⟩, ⟨w1, w2, w3, w4, w5, w6⟩, u, rfl⟩ := hb
  have key : ∀ (p q k m n : K) (i j : ℤ), 0 ≤ p → p < 1 → 0 ≤ q → q < 1 → m = p + k + i → n = q + k + j → 0 ≤ m → m < 1 → 0 ≤ n → n < 1 →
      wrapHalf (m - n) = wrapHalf (p - q) := by
    intro p q k m n i j h1 h2 h3 h4 hm hn h5 h6 h7 h8
    have e : m - n = (p - q) + ((i - j : ℤ) : K) := by push_cast; rw [hm, hn]; ring
    rw [e]
    apply wrapHalf_shift <;> first | linarith | (rw [← e]; linarith)
  simp only [wrapHalfV, subV]
  dsimp only at y1 y2 y3 y4 y5 y6 w1 w2 w3 w4 w5 w6
  rw [key _ _ _ _ _ _ _ x1 x2 z1 z2 rfl rfl y1 y2 w1 w2, key _ _ _ _ _ _ _ x3 x4 z3 z4 rfl rfl y3 y4 w3 w4,
    key _ _ _ _ _ _ _ x5 x6 z5 z6 rfl rfl y5 y6 w5 w6]

/-- **C116** (partial) The ongrid method does not depend on the origin of the grid.  Move the origin by whole voxels and give both runs their own schedules.
If no maximum has an equally high neighbour and the test of nearby maxima sorts them into groups of maxima of different heights, then both runs end; two
voxels lie in one basin before the move exactly if they do after it, the same voxels are vacuum, the basin of every voxel has the same charge and
volume, and the number of basins is the same.  Missing: crystals with flat maxima, where it is false (`C116_plateau`). -/
theorem C116_basins_partial (c : Coord) (G G' : RunInput K) (A A' : RunAid K) (ε : K) (T : TwoRuns c G G' A A' ε) (order order' : List ℕ)
    (hord : IsSchedule G.shape order) (hord' : IsSchedule G.shape order') :
    ∃ F, ∀ fuel ≥ F, ∃ o o', G.run A (.ongrid order) fuel = some o ∧ G'.run A' (.ongrid order') fuel = some o' ∧ SameBasins c G o o' := by
  have hf := T.moved.fits
  obtain ⟨o, F, h1, _, h3, h4, h5, h6, h7, h8, _, _⟩ := ongrid_groups G A ε T.ready order hord T.twoSided T.noPlateau T.grouped
  obtain ⟨o', F', k1, _, k3, k4, k5, k6, k7, k8, _, _⟩ := ongrid_groups G' A' ε T.ready' order' (by rw [T.moved.shape]; exact hord')
    (by rw [T.moved.nbrs]; exact T.twoSided) T.noPlateau' T.grouped'
  have hn : ∀ v < G.shape.size, nbr G.shape v c < G'.shape.size := fun v hv => by rw [T.moved.shape]; exact nbr_lt hv hf
  refine ⟨max F F', fun fuel hfu => ⟨o, o', h1 fuel (le_of_max_le_left hfu), k1 fuel (le_of_max_le_right hfu), ?_⟩⟩
  refine sameBasins_of T.moved h3 h4 h7 (fun v hv => k3 _ (hn v hv)) (fun v hv => k4 _ (hn v hv)) ?_ ?_ h8 k8
  · intro b hb
    obtain ⟨w, hw, e⟩ := k7 b hb
    obtain ⟨v, hv, rfl⟩ := move_surj hf (by rw [← T.moved.shape]; exact hw)
    exact ⟨v, hv, e⟩
  · intro v w hv hw hvv hwv
    obtain ⟨m, hm, _⟩ := C09_ascent_unique G.shape G.ref G.nbrs T.ready.fits T.ready.pos v hv
    obtain ⟨n, hn', _⟩ := C09_ascent_unique G.shape G.ref G.nbrs T.ready.fits T.ready.pos w hw
    have hmM := h6 v m hv hvv hm
    have hnM := h6 w n hw hwv hn'
    rw [h5 v w m n hv hw hvv hwv hm hn', k5 _ _ _ _ (hn v hv) (hn w hw) ((T.moved.vacuum hv).trans hvv) ((T.moved.vacuum hw).trans hwv)
      (T.moved.ascends T.ready.fits hm hv) (T.moved.ascends T.ready.fits hn' hw), T.same' hmM hnM]
    constructor
    · rintro (h | h)
      · exact Or.inl (move_inj hf hmM.1 hnM.1 h)
      · exact Or.inr h
    · rintro (h | h)
      · exact Or.inl (by rw [h])
      · exact Or.inr h

theorem atom_sum {G : RunInput K} {A : RunAid K} {M : ℕ → Bool} {o : RunOut K} {bc : List K} {g : ℕ → K} {q : ℕ → K}
    (hmax : o.maxima = maximaVox G.shape M) (hlab : ∀ i (hi : i < o.maxima.length), o.labels o.maxima[i] = i)
    (hq : ∀ a, q a = ∑ b ∈ (range o.maxima.length).filter (fun b => o.assignment.basinAtoms[b]? = some a), bc.getD b 0)
    (hbc : bc = (List.range o.maxima.length).map fun b => A.rnd (g b))
    (hat : ∀ v (b : ℕ), o.labels v = b → b < o.maxima.length → ∃ a, o.assignment.basinAtoms[b]? = some a ∧ o.assignment.atomLabels v = a) (a : ℕ) :
    q a = ∑ m ∈ (range G.shape.size).filter (fun m => M m = true), if o.assignment.atomLabels m = a then A.rnd (g (o.labels m).toNat) else 0 := by
  have e1 : ∑ m ∈ (range G.shape.size).filter (fun m => M m = true), (if o.assignment.atomLabels m = a then A.rnd (g (o.labels m).toNat) else 0) =
      (o.maxima.map fun m => if o.assignment.atomLabels m = a then A.rnd (g (o.labels m).toNat) else 0).sum := by
    have : (range G.shape.size).filter (fun m => M m = true) = o.maxima.toFinset := by
      rw [hmax]; ext v; simp [mem_maximaVox]
    rw [this, List.sum_toFinset _ (by rw [hmax]; exact List.nodup_range.filter _)]
  have e2 : (o.maxima.map fun m => if o.assignment.atomLabels m = a then A.rnd (g (o.labels m).toNat) else 0) =
      (List.range o.maxima.length).map fun i => if o.assignment.basinAtoms[i]? = some a then bc.getD i 0 else 0 := by
    apply List.ext_getElem
    · simp
    · intro i hi hi'
      simp only [List.length_map] at hi
      obtain ⟨a', x1, x2⟩ := hat o.maxima[i] i (hlab i hi) hi
      have hb : bc.getD i 0 = A.rnd (g i) := by
        rw [hbc, List.getD_eq_getElem _ _ (by simpa using hi)]; simp
      simp only [List.getElem_map, List.getElem_range, x1, x2, hlab i hi, hb, Int.toNat_natCast, Option.some.injEq, Nat.cast_inj]
  rw [e1, e2, sum_range_list, hq a, Finset.sum_filter]

/-- The atoms of the voxels and their charges and volumes, once the basins are the same and no maxima are merged. -/
theorem atoms_of {c : Coord} {G G' : RunInput K} {A A' : RunAid K} {ε : K} (T : TwoRuns c G G' A A' ε) (hroot : A'.root = A.root) (hrnd : A'.rnd = A.rnd)
    (hatoms : List.Forall₂ (SiteMoved G.shape c) G.atoms G'.atoms)
    (hplace : ∀ m m', G.IsMax m → MovedTo G.shape c m m' → SiteMoved G.shape c (A.place m) (A'.place m')) {o o' : RunOut K}
    (ht : ∀ v < G.shape.size, G.vacuum v = true → o.assignment.atomLabels v = -1)
    (kt : ∀ v < G'.shape.size, G'.vacuum v = true → o'.assignment.atomLabels v = -1)
    (h4 : ∀ v < G.shape.size, G.vacuum v = false → 0 ≤ o.labels v ∧ o.labels v < o.maxima.length)
    (h5 : ∀ v < G.shape.size, G.vacuum v = false → ∃ m, G.IsMax m ∧ o.labels v = o.labels m)
    (h9 : assignBasins A.root G.lattice G.atoms (o.maxima.map A.place) o.labels ((List.range o.maxima.length).map fun b => A.rnd (o.basins.charges b))
      ((List.range o.maxima.length).map fun b => A.rnd (o.basins.volumes b)) = some o.assignment)
    (k9 : assignBasins A'.root G'.lattice G'.atoms (o'.maxima.map A'.place) o'.labels ((List.range o'.maxima.length).map fun b => A'.rnd (o'.basins.charges b))
      ((List.range o'.maxima.length).map fun b => A'.rnd (o'.basins.volumes b)) = some o'.assignment)
    (m1 : o.maxima = maximaVox G.shape (getMaxima G.shape G.ref (G.nbrs.map Prod.fst) G.vacuum false A.order))
    (m2 : ∀ i (hi : i < o.maxima.length), o.labels o.maxima[i] = i)
    (n1 : o'.maxima = maximaVox G'.shape (getMaxima G'.shape G'.ref (G'.nbrs.map Prod.fst) G'.vacuum false A'.order))
    (n2 : ∀ i (hi : i < o'.maxima.length), o'.labels o'.maxima[i] = i) (hS : SameBasins c G o o') :
    (∀ v v', v < G.shape.size → MovedTo G.shape c v v' → o'.assignment.atomLabels v' = o.assignment.atomLabels v) ∧
      o'.assignment.charges = o.assignment.charges ∧ o'.assignment.volumes = o.assignment.volumes := by
  have hf := T.moved.fits
  have hM := getMaxima_isMax G A T.ready
  have hM' := getMaxima_isMax G' A' T.ready'
  set M := getMaxima G.shape G.ref (G.nbrs.map Prod.fst) G.vacuum false A.order
  set M' := getMaxima G'.shape G'.ref (G'.nbrs.map Prod.fst) G'.vacuum false A'.order
  obtain ⟨g1, g2, g3, _, _, g6, g7⟩ := C23_atom_totals _ _ _ _ _ _ _ _ (by simp) (by simp) h9
  obtain ⟨l1, l2, l3, _, _, l6, l7⟩ := C23_atom_totals _ _ _ _ _ _ _ _ (by simp) (by simp) k9
  obtain ⟨_, _, s3, _⟩ := assignBasins_spec h9
  obtain ⟨_, _, t3, _⟩ := assignBasins_spec k9
  rw [List.length_map] at g1 g2 g3 g7 l1 l2 l3 l7
  have hmv : ∀ v < G.shape.size, MovedTo G.shape c v (nbr G.shape v c) := fun v hv => (movedTo_iff hf hv).mpr rfl
  have hlen := hatoms.length_eq
  -- the atom of a maximum
  have hmaxAtom : ∀ m, G.IsMax m → o'.assignment.atomLabels (nbr G.shape m c) = o.assignment.atomLabels m := by
    intro m hm
    have hm' : G'.IsMax (nbr G.shape m c) := (T.moved.isMax T.ready.fits hm.1).mpr hm
    have e1 : m ∈ o.maxima := by rw [m1, mem_maximaVox]; exact ⟨hm.1, (hM m).mpr hm⟩
    have e2 : nbr G.shape m c ∈ o'.maxima := by rw [n1, mem_maximaVox]; exact ⟨hm'.1, (hM' _).mpr hm'⟩
    obtain ⟨i, hi, ei⟩ := List.mem_iff_getElem.mp e1
    obtain ⟨j, hj, ej⟩ := List.mem_iff_getElem.mp e2
    have li := m2 i hi
    have lj := n2 j hj
    rw [ei] at li
    rw [ej] at lj
    obtain ⟨a, x1, x2⟩ := g7 m i li hi
    obtain ⟨a', y1, y2⟩ := l7 _ j lj hj
    rw [x2, y2]
    have hia : i < o.assignment.basinAtoms.length := by rw [g1.1]; exact hi
    have hja : j < o'.assignment.basinAtoms.length := by rw [l1.1]; exact hj
    have ea : o.assignment.basinAtoms[i] = a := by rw [List.getElem?_eq_getElem hia] at x1; exact Option.some.inj x1
    have eb : o'.assignment.basinAtoms[j] = a' := by rw [List.getElem?_eq_getElem hja] at y1; exact Option.some.inj y1
    have hd1 : o.assignment.dists.length = o.maxima.length := by have := (assignBasins_spec h9).2.1; simpa using this
    have hd2 : o'.assignment.dists.length = o'.maxima.length := by have := (assignBasins_spec k9).2.1; simpa using this
    obtain ⟨p1, p2, p3⟩ := s3 i (by simpa using hi) hia (by omega)
    obtain ⟨q1, q2, q3⟩ := t3 j (by simpa using hj) hja (by omega)
    have hdist : ∀ (k : ℕ) (hk : k < G.atoms.length) (hk' : k < G'.atoms.length),
        wrapHalfV (subV G'.atoms[k] (A'.place (nbr G.shape m c))) = wrapHalfV (subV G.atoms[k] (A.place m)) := by
      intro k hk hk'
      exact wrapHalfV_moved ((List.forall₂_iff_get.mp hatoms).2 k hk hk') (hplace m _ hm (hmv m hm.1))
    simp only [List.getElem_map, ei, ea] at p1 p2 p3
    simp only [List.getElem_map, ej, eb, hroot, T.moved.lattice] at q1 q2 q3
    by_contra hne
    have hne' : a' ≠ a := fun e => hne (by rw [e])
    rcases lt_or_gt_of_ne hne' with h | h
    · have u1 := (p3 a' (by omega)).2 h
      have u2 := (q3 a (by omega)).1
      rw [hdist a p1 (by omega), ← p2, q2, hdist a' (by omega) q1] at u2
      exact absurd u1 (not_lt.mpr u2)
    · have u1 := (q3 a (by omega)).2 h
      have u2 := (p3 a' (by omega)).1
      rw [hdist a p1 (by omega), ← p2, q2, hdist a' (by omega) q1] at u1
      exact absurd u2 (not_le.mpr u1)
  have hl : ∀ (r : RunOut K) (b1 : List ℕ) (v w : ℕ), (∀ v, r.assignment.atomLabels v = (b1.map (fun (i : ℕ) => (i : ℤ)) ++ [-1]).getD
      (pyIdx (b1.length + 1) (r.labels v)) 0) → r.labels v = r.labels w → r.assignment.atomLabels v = r.assignment.atomLabels w := by
    intro r b1 v w h e; rw [h, h, e]
  have hvox : ∀ v < G.shape.size, o'.assignment.atomLabels (nbr G.shape v c) = o.assignment.atomLabels v := by
    intro v hv
    cases hvv : G.vacuum v with
    | true => rw [ht v hv hvv, kt _ (by rw [T.moved.shape]; exact nbr_lt hv hf) ((T.moved.vacuum hv).trans hvv)]
    | false =>
      obtain ⟨m, hmM, e⟩ := h5 v hv hvv
      have e' := (hS.parts v _ m _ hv hmM.1 (hmv v hv) (hmv m hmM.1)).mpr e
      rw [hl o _ v m (assignBasins_spec h9).2.2.2.1 e, hl o' _ _ _ (assignBasins_spec k9).2.2.2.1 e', hmaxAtom m hmM]
  have hMP : ∀ v < G.shape.size, M v = true ↔ M' (nbr G.shape v c) = true := by
    intro v hv; rw [hM, hM', T.moved.isMax T.ready.fits hv]
  have hnv : ∀ v < G.shape.size, M v = true → o.labels v ≠ -1 := by
    intro v hv h
    have := (h4 v hv ((hM v).mp h).2.1).1
    omega
  refine ⟨?_, ?_, ?_⟩
  · intro v v' hv h
    rw [movedTo_iff hf hv] at h; subst h
    exact hvox v hv
  · funext a
    rw [atom_sum (A := A) m1 m2 g2 rfl g7 a, atom_sum (A := A') n1 n2 l2 rfl l7 a, hrnd, T.moved.shape]
    refine (sum_move hf _ _ _ _ hMP fun v hv hMv => ?_).symm
    rw [hvox v hv]
    rw [hS.charge v _ hv (hmv v hv) (hnv v hv hMv)]
  · funext a
    rw [atom_sum (A := A) m1 m2 g3 rfl g7 a, atom_sum (A := A') n1 n2 l3 rfl l7 a, hrnd, T.moved.shape]
    refine (sum_move hf _ _ _ _ hMP fun v hv hMv => ?_).symm
    rw [hvox v hv]
    rw [hS.volume v _ hv (hmv v hv) (hnv v hv hMv)]

/-- **C116** (partial) If besides that no maxima are merged, and atoms and maxima are moved with the grid (all stored inside the cell), then every voxel
belongs to the same atom as before and the charges and volumes of the atoms are the same numbers.  Missing: merged maxima, where atoms can exchange
their basins when the origin moves (`C116_merged`). -/
theorem C116_atoms_partial (c : Coord) (G G' : RunInput K) (A A' : RunAid K) (ε : K) (T : TwoRuns c G G' A A' ε) (order order' : List ℕ)
    (hord : IsSchedule G.shape order) (hord' : IsSchedule G.shape order') (hroot : A'.root = A.root) (hrnd : A'.rnd = A.rnd)
    (hno : ∀ a b, G.IsMax a → G.IsMax b → a ≠ b → A.same a b = false)
    (hatoms : List.Forall₂ (SiteMoved G.shape c) G.atoms G'.atoms)
    (hplace : ∀ m m', G.IsMax m → MovedTo G.shape c m m' → SiteMoved G.shape c (A.place m) (A'.place m')) :
    ∃ F, ∀ fuel ≥ F, ∃ o o', G.run A (.ongrid order) fuel = some o ∧ G'.run A' (.ongrid order') fuel = some o' ∧ SameBasins c G o o' ∧
      (∀ v v', v < G.shape.size → MovedTo G.shape c v v' → o'.assignment.atomLabels v' = o.assignment.atomLabels v) ∧
      o'.assignment.charges = o.assignment.charges ∧ o'.assignment.volumes = o.assignment.volumes := by
  obtain ⟨F0, hF0⟩ := C116_basins_partial c G G' A A' ε T order order' hord hord'
  have hno' : ∀ a b, G'.IsMax a → G'.IsMax b → a ≠ b → A'.same a b = false := by
    intro a b ha hb hne
    obtain ⟨a, ham, rfl⟩ := T.back ha
    obtain ⟨b, hbm, rfl⟩ := T.back hb
    rw [T.same' ham hbm]
    exact hno a b ham hbm fun e => hne (by rw [e])
  obtain ⟨o, F, h1, ht, h3, h4, h5, h6, h7, h8, h9, h10⟩ := ongrid_groups G A ε T.ready order hord T.twoSided T.noPlateau T.grouped
  obtain ⟨o', F', k1, kt, k3, k4, k5, k6, k7, k8, k9, k10⟩ := ongrid_groups G' A' ε T.ready' order' (by rw [T.moved.shape]; exact hord')
    (by rw [T.moved.nbrs]; exact T.twoSided) T.noPlateau' T.grouped'
  obtain ⟨m1, m2⟩ := h10 hno
  obtain ⟨n1, n2⟩ := k10 hno'
  have hS : SameBasins c G o o' := by
    obtain ⟨x, y, e1, e2, e3⟩ := hF0 (max F0 (max F F')) (le_max_left _ _)
    rw [h1 _ ((le_max_left _ _).trans (le_max_right _ _))] at e1
    rw [k1 _ ((le_max_right _ _).trans (le_max_right _ _))] at e2
    rw [Option.some.inj e1, Option.some.inj e2]; exact e3
  refine ⟨max F F', fun fuel hfu => ⟨o, o', h1 fuel (le_of_max_le_left hfu), k1 fuel (le_of_max_le_right hfu), hS,
    atoms_of T hroot hrnd hatoms hplace ht.vacuum kt.vacuum h4 (fun v hv hvv => ?_) h9 k9 m1 m2 n1 n2 hS⟩⟩
  obtain ⟨m, hm, _⟩ := C09_ascent_unique G.shape G.ref G.nbrs T.ready.fits T.ready.pos v hv
  have hmM := h6 v m hv hvv hm
  exact ⟨m, hmM, (h5 v m m m hv hmM.1 hvv hmM.2.1 hm (.stop hmM.2.2)).mpr (Or.inl rfl)⟩

/-! ## Concrete crystals, and what goes wrong -/

/-- A ring of `l.length` voxels with the values `l` on both grids, atoms `atoms` and tolerance `tol`. -/
def lineRun (l : List ℚ) (atoms : List (V3 ℚ)) (tol : Option ℚ) : RunInput ℚ where
  shape := ⟨l.length, 1, 1⟩
  charge := fun v => l.getD v 0
  ref := fun v => l.getD v 0
  nbrs := ring2
  lattice := ((l.length, 0, 0), (0, 1, 0), (0, 0, 1))
  volume := l.length
  atoms := atoms
  tol := tol
  useRef := true

/-- Its parameters: the maxima are sorted by value, a maximum is reported at its voxel. -/
def lineAid (l : List ℚ) (same : ℕ → ℕ → Bool) : RunAid ℚ where
  same := same
  cand := fun r => r
  sortMax := fun m => m.insertionSort fun a b => l.getD b 0 ≤ l.getD a 0
  order := List.range l.length
  place := fun v => ((v : ℚ) / l.length, 0, 0)
  root := fun x => x
  rnd := fun x => x

theorem lineRun_ready (l : List ℚ) (hl : 2 ≤ l.length) (atoms : List (V3 ℚ)) (ha : atoms ≠ []) (tol : Option ℚ) (same : ℕ → ℕ → Bool) :
    RunReady (lineRun l atoms tol) (lineAid l same) 0 where
  voxels := by show 0 < l.length * 1 * 1; omega
  atoms := ha
  fits := by
    intro td htd
    simp only [lineRun, ring2, List.mem_cons, List.not_mem_nil, or_false] at htd
    rcases htd with rfl | rfl <;> simp only [StepFits, lineRun] <;> omega
  pos := ring2_pos
  vacuum := Or.inl rfl
  order := by show List.Perm (List.range l.length) (List.range (l.length * 1 * 1)); simp
  sort := fun m => List.perm_insertionSort _ _
  rnd := fun x => by simp [lineAid]

theorem lineAid_sorted (l : List ℚ) (same : ℕ → ℕ → Bool) (m : List ℕ) :
    ((lineAid l same).sortMax m).Pairwise fun a b => l.getD b 0 ≤ l.getD a 0 := by
  have : Std.Total (fun a b : ℕ => l.getD b 0 ≤ l.getD a 0) := ⟨fun a b => le_total _ _⟩
  have : IsTrans ℕ (fun a b : ℕ => l.getD b 0 ≤ l.getD a 0) := ⟨fun a b d h1 h2 => le_trans h2 h1⟩
  exact List.pairwise_insertionSort _ _

/-- A ring of eight voxels with four sharp maxima; the voxel with value 1 is vacuum. -/
def sharpList : List ℚ := [5, 2, 3, 1, 4, 2, 6, 2]
/-- The same ring with the origin moved by three voxels. -/
def sharpMoved : List ℚ := [2, 6, 2, 5, 2, 3, 1, 4]

/-- The two lower maxima, of height 3 and 4, are taken for one if `j` holds. -/
def sharpSame (a b : ℕ) (j : Bool) (x y : ℕ) : Bool := j && ((x == a && y == b) || (x == b && y == a))

theorem sharp_max (v : ℕ) (h : (lineRun sharpList [(0, 0, 0), (1 / 2, 0, 0)] (some (3 / 16))).IsMax v) : v = 0 ∨ v = 2 ∨ v = 4 ∨ v = 6 := by
  obtain ⟨h1, h2, h3⟩ := h
  have hv : v < 8 := h1
  have key : ∀ v < 8, (∀ t ∈ ring2.map Prod.fst, sharpList.getD (nbr ⟨8, 1, 1⟩ v t) 0 ≤ sharpList.getD v 0) → v = 0 ∨ v = 2 ∨ v = 4 ∨ v = 6 := by
    decide +kernel
  refine key v hv fun t ht => ?_
  exact h3 _ ((isNbr_iff (fitsOf (lineRun_ready sharpList (by decide) _ (by simp) _ (fun _ _ => false)).fits) h1).mpr ⟨t, ht, rfl⟩)

theorem lineRun_moved (c : Coord) (l l' : List ℚ) (hl : l'.length = l.length) (atoms atoms' : List (V3 ℚ)) (tol : Option ℚ)
    (hc : StepFits ⟨l.length, 1, 1⟩ c) (h : ∀ v < l.length, l'.getD (nbr ⟨l.length, 1, 1⟩ v c) 0 = l.getD v 0) :
    OriginMoved c (lineRun l atoms tol) (lineRun l' atoms' tol) := by
  have hs : (lineRun l atoms tol).shape.size = l.length := by show l.length * 1 * 1 = _; omega
  refine ⟨hc, by simp [lineRun, hl], rfl, by simp [lineRun, hl], by simp [lineRun, hl], rfl, rfl, ?_, ?_⟩ <;>
  · intro v w hv hm
    obtain rfl := (movedTo_iff hc hv).mp hm
    exact h v (by rw [← hs]; exact hv)

theorem sharp_two (j : Bool) : TwoRuns (3, 0, 0) (lineRun sharpList [(0, 0, 0), (1 / 2, 0, 0)] (some (3 / 16)))
    (lineRun sharpMoved [(3 / 8, 0, 0), (7 / 8, 0, 0)] (some (3 / 16))) (lineAid sharpList (sharpSame 2 4 j)) (lineAid sharpMoved (sharpSame 5 7 j)) 0 := by
  have hc : StepFits ⟨8, 1, 1⟩ (3, 0, 0) := by unfold StepFits; decide
  have hr := lineRun_ready sharpList (by decide) [(0, 0, 0), (1 / 2, 0, 0)] (by simp) (some (3 / 16)) (sharpSame 2 4 j)
  refine ⟨lineRun_moved (3, 0, 0) sharpList sharpMoved rfl _ _ _ hc (by decide +kernel), hr, lineRun_ready _ (by decide) _ (by simp) _ _, ?_, ?_, ?_, lineAid_sorted _ _, ?_⟩
  · unfold TwoSided; decide
  · intro v w hv hw hne
    have key : ∀ v < 8, (v = 0 ∨ v = 2 ∨ v = 4 ∨ v = 6) → ∀ t ∈ ring2.map Prod.fst, sharpList.getD (nbr ⟨8, 1, 1⟩ v t) 0 < sharpList.getD v 0 := by
      decide +kernel
    obtain ⟨t, ht, rfl⟩ := (isNbr_iff (fitsOf hr.fits) hv.1).mp hw
    exact key v hv.1 (sharp_max v hv) t ht
  · refine ⟨fun a b ha hb h => ?_, fun a b d ha hb hd hne h1 h2 => ?_, fun a b ha hb hne h => ?_, lineAid_sorted _ _⟩
    · rcases sharp_max a ha with rfl | rfl | rfl | rfl <;> rcases sharp_max b hb with rfl | rfl | rfl | rfl <;> cases j <;> revert h <;> decide
    · rcases sharp_max a ha with rfl | rfl | rfl | rfl <;> rcases sharp_max b hb with rfl | rfl | rfl | rfl <;>
        rcases sharp_max d hd with rfl | rfl | rfl | rfl <;> cases j <;> revert h1 h2 hne <;> decide
    · rcases sharp_max a ha with rfl | rfl | rfl | rfl <;> rcases sharp_max b hb with rfl | rfl | rfl | rfl <;> cases j <;> revert h hne <;>
        decide +kernel
  · intro a b a' b' ha hb hma hmb
    obtain rfl := (movedTo_iff hc ha.1).mp hma
    obtain rfl := (movedTo_iff hc hb.1).mp hmb
    rcases sharp_max a ha with rfl | rfl | rfl | rfl <;> rcases sharp_max b hb with rfl | rfl | rfl | rfl <;> cases j <;> decide +kernel

/-- What is compared in the examples: maxima, labels, charges of the basins, atoms of the voxels, charges of the first `k` atoms. -/
def lineNumbers (n k : ℕ) (o : RunOut ℚ) : List ℕ × List ℤ × List ℚ × List ℤ × List ℚ :=
  (o.maxima, (List.range n).map o.labels, (List.range o.maxima.length).map o.basins.charges, (List.range n).map o.assignment.atomLabels,
    (List.range k).map o.assignment.charges)

/-- The hypotheses of both theorems for this ring: with `j` the two lower maxima are one group; without it no maxima are merged and atoms and maxima
move along. -/
example : TwoRuns (3, 0, 0) (lineRun sharpList [(0, 0, 0), (1 / 2, 0, 0)] (some (3 / 16))) (lineRun sharpMoved [(3 / 8, 0, 0), (7 / 8, 0, 0)] (some (3 / 16)))
      (lineAid sharpList (sharpSame 2 4 true)) (lineAid sharpMoved (sharpSame 5 7 true)) 0 ∧
    List.Forall₂ (SiteMoved ⟨8, 1, 1⟩ (3, 0, 0)) [((0 : ℚ), (0 : ℚ), (0 : ℚ)), (1 / 2, 0, 0)] [(3 / 8, 0, 0), (7 / 8, 0, 0)] ∧
    (∀ m m', (lineRun sharpList [(0, 0, 0), (1 / 2, 0, 0)] (some (3 / 16))).IsMax m → MovedTo ⟨8, 1, 1⟩ (3, 0, 0) m m' →
      SiteMoved ⟨8, 1, 1⟩ (3, 0, 0) ((lineAid sharpList (sharpSame 2 4 false)).place m) ((lineAid sharpMoved (sharpSame 5 7 false)).place m')) ∧
    ((lineRun sharpList [(0, 0, 0), (1 / 2, 0, 0)] (some (3 / 16))).run (lineAid sharpList (sharpSame 2 4 false)) (.ongrid (List.range 8)) 50).map
      (lineNumbers 8 2) = some ([0, 2, 4, 6], [0, 0, 1, -1, 2, 3, 3, 3], [7 / 8, 3 / 8, 1 / 2, 5 / 4], [0, 0, 0, -1, 1, 0, 0, 0], [5 / 2, 1 / 2]) ∧
    ((lineRun sharpMoved [(3 / 8, 0, 0), (7 / 8, 0, 0)] (some (3 / 16))).run (lineAid sharpMoved (sharpSame 5 7 false)) (.ongrid (List.range 8)) 50).map
      (lineNumbers 8 2) = some ([1, 3, 5, 7], [0, 0, 0, 1, 1, 2, -1, 3], [5 / 4, 7 / 8, 3 / 8, 1 / 2], [0, 0, 0, 0, 0, 0, -1, 1], [5 / 2, 1 / 2]) := by
  refine ⟨sharp_two true, ?_, ?_, ?_, ?_⟩
  · refine List.Forall₂.cons ⟨by norm_num, by norm_num, (0, 0, 0), by norm_num⟩ (List.Forall₂.cons ⟨by norm_num, by norm_num, (0, 0, 0), by norm_num⟩ .nil)
  · intro m m' hm h
    obtain rfl := (movedTo_iff (s := ⟨8, 1, 1⟩) (by unfold StepFits; decide) hm.1).mp h
    rcases sharp_max m hm with rfl | rfl | rfl | rfl
    · rw [show nbr ⟨8, 1, 1⟩ 0 (3, 0, 0) = 3 by decide]; exact ⟨by norm_num [lineAid, sharpList], by norm_num [lineAid, sharpMoved], (0, 0, 0), by norm_num [lineAid, sharpList, sharpMoved]⟩
    · rw [show nbr ⟨8, 1, 1⟩ 2 (3, 0, 0) = 5 by decide]; exact ⟨by norm_num [lineAid, sharpList], by norm_num [lineAid, sharpMoved], (0, 0, 0), by norm_num [lineAid, sharpList, sharpMoved]⟩
    · rw [show nbr ⟨8, 1, 1⟩ 4 (3, 0, 0) = 7 by decide]; exact ⟨by norm_num [lineAid, sharpList], by norm_num [lineAid, sharpMoved], (0, 0, 0), by norm_num [lineAid, sharpList, sharpMoved]⟩
    · rw [show nbr ⟨8, 1, 1⟩ 6 (3, 0, 0) = 1 by decide]; exact ⟨by norm_num [lineAid, sharpList], by norm_num [lineAid, sharpMoved], (-1, 0, 0), by norm_num [lineAid, sharpList, sharpMoved]⟩
  · decide +kernel
  · decide +kernel

/-- **C116** (negative part) With a flat maximum the number of basins depends on the origin.  A ring of seven voxels whose flat shoulder joins two
peaks: read from one voxel there is one basin, read from four voxels further there are two. -/
theorem C116_plateau : ∃ (G G' : RunInput ℚ) (A A' : RunAid ℚ), OriginMoved (4, 0, 0) G G' ∧ RunReady G A 0 ∧ RunReady G' A' 0 ∧ TwoSided G.nbrs ∧
    Grouped G A ∧ Grouped G' A' ∧ (∀ a b, A.same a b = false ∧ A'.same a b = false) ∧
    (G.run A (.ongrid (List.range 7)) 50).map (fun o => o.maxima.length) = some 1 ∧
    (G'.run A' (.ongrid (List.range 7)) 50).map (fun o => o.maxima.length) = some 2 := by
  refine ⟨lineRun [7, 5, 5, 5, 5, 8, 1] [(0, 0, 0)] none, lineRun [5, 5, 8, 1, 7, 5, 5] [(4 / 7, 0, 0)] none, lineAid [7, 5, 5, 5, 5, 8, 1] fun _ _ => false,
    lineAid [5, 5, 8, 1, 7, 5, 5] fun _ _ => false, lineRun_moved (4, 0, 0) [7, 5, 5, 5, 5, 8, 1] [5, 5, 8, 1, 7, 5, 5] rfl _ _ _ (by unfold StepFits; decide) (by decide +kernel),
    lineRun_ready _ (by decide) _ (by simp) _ _, lineRun_ready _ (by decide) _ (by simp) _ _, by unfold TwoSided; decide,
    ⟨fun _ _ _ _ h => by simp [lineAid] at h, fun _ _ _ _ _ _ _ h => by simp [lineAid] at h, fun _ _ _ _ _ h => by simp [lineAid] at h, lineAid_sorted _ _⟩,
    ⟨fun _ _ _ _ h => by simp [lineAid] at h, fun _ _ _ _ _ _ _ h => by simp [lineAid] at h, fun _ _ _ _ _ h => by simp [lineAid] at h, lineAid_sorted _ _⟩,
    fun _ _ => ⟨rfl, rfl⟩, by decide +kernel, by decide +kernel⟩

/-- The ring `ringRun` with the origin moved by one voxel. -/
def ringMoved : RunInput ℚ := { ringRun with
  charge := fun v => [6, 6, 1, 4, 2, 1, 8, 4].getD v 0
  ref := fun v => [3, 3, 0, 2, 1, 0, 4, 1].getD v 0
  atoms := [(1 / 8, 0, 0), (3 / 8, 0, 0), (3 / 4, 0, 0)] }

/-- The voxel of the group of the two equal maxima `p` and `q`, as the library computes it. -/
def pairCand (data : ℕ → ℚ) (p q r : ℕ) : ℕ := mergedVoxel ⟨8, 1, 1⟩ data (fun _ => false) (if r = p ∨ r = q then [p, q] else [r])

/-- **C116** (negative part) When maxima are merged, atoms exchange their basins when the origin is moved.  The same crystal, its atoms moved along,
with the origin moved by one voxel: the charges of the atoms are 1.5, 1.5 and 0.75 before and 1.5, 0.75 and 1.5 after. -/
theorem C116_merged : ∃ (A A' : RunAid ℚ), OriginMoved (1, 0, 0) ringRun ringMoved ∧ RunReady ringRun A 0 ∧ RunReady ringMoved A' 0 ∧
    List.Forall₂ (SiteMoved ringRun.shape (1, 0, 0)) ringRun.atoms ringMoved.atoms ∧ (∀ v, A.place v = ((v : ℚ) / 8, 0, 0) ∧ A'.place v = A.place v) ∧
    A.cand = pairCand ringRun.ref 0 7 ∧ A'.cand = pairCand ringMoved.ref 0 1 ∧
    (ringRun.run A (.ongrid (List.range 8)) 9).map (fun o => (List.range 3).map o.assignment.charges) = some [3 / 2, 3 / 2, 3 / 4] ∧
    (ringMoved.run A' (.ongrid (List.range 8)) 9).map (fun o => (List.range 3).map o.assignment.charges) = some [3 / 2, 3 / 4, 3 / 2] := by
  have hc : StepFits ⟨8, 1, 1⟩ (1, 0, 0) := by unfold StepFits; decide
  refine ⟨ringAid (pairCand ringRun.ref 0 7), ringAid (pairCand ringMoved.ref 0 1), ?_, ringRun_ready _, ?_, ?_, fun _ => ⟨rfl, rfl⟩, rfl, rfl,
    by decide +kernel, by decide +kernel⟩
  · refine ⟨hc, rfl, rfl, rfl, rfl, rfl, rfl, ?_, ?_⟩
    · intro v w hv hm
      obtain rfl := (movedTo_iff hc hv).mp hm
      have key : ∀ v < 8, ringMoved.ref (nbr ⟨8, 1, 1⟩ v (1, 0, 0)) = ringRun.ref v := by decide +kernel
      exact key v hv
    · intro v w hv hm
      obtain rfl := (movedTo_iff hc hv).mp hm
      have key : ∀ v < 8, ringMoved.charge (nbr ⟨8, 1, 1⟩ v (1, 0, 0)) = ringRun.charge v := by decide +kernel
      exact key v hv
  · have h := ringRun_ready (pairCand ringMoved.ref 0 1)
    exact ⟨h.voxels, by decide, h.fits, h.pos, Or.inl rfl, h.order, h.sort, h.rnd⟩
  · refine List.Forall₂.cons ⟨by norm_num, by norm_num, (0, 0, 0), by norm_num [ringRun]⟩ (List.Forall₂.cons ⟨by norm_num, by norm_num, (0, 0, 0),
      by norm_num [ringRun]⟩ (List.Forall₂.cons ⟨by norm_num, by norm_num, (0, 0, 0), by norm_num [ringRun]⟩ .nil))

end BaderKit
