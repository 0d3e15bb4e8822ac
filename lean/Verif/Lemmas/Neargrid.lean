import Verif.Spec.Neargrid
import Verif.Lemmas.InitLabels
import Verif.Props.Ongrid
import Verif.Props.Merge
/-! # Lemmas on the neargrid method -/
set_option linter.unusedSectionVars false
namespace BaderKit
variable {K : Type*} [Field K] [LinearOrder K] [IsStrictOrderedRing K] [FloorRing K]

theorem roundHE_small {x : K} (h : |x| ≤ 1 / 2) : roundHE x = 0 := by
  rw [abs_le] at h
  rcases lt_or_ge x 0 with hx | hx
  · have hf : ⌊x⌋ = -1 := by
      rw [Int.floor_eq_iff]; push_cast; constructor <;> linarith [h.1]
    unfold roundHE
    rw [hf]
    push_cast
    have h1 : ¬ (x - -1 < 1 / 2) := by linarith [h.1]
    rw [if_neg h1]
    split_ifs <;> rfl
  · have hf : ⌊x⌋ = 0 := by
      rw [Int.floor_eq_iff]; push_cast; constructor <;> linarith [h.2]
    unfold roundHE
    rw [hf]
    push_cast
    split_ifs with h1 h2
    · rfl
    · linarith [h.2]
    · rfl

theorem roundHE_one {x : K} (h : |x| ≤ 1) : -1 ≤ roundHE x ∧ roundHE x ≤ 1 := by
  have h1 := roundHE_near x
  rw [abs_le] at h h1
  constructor
  · by_contra hc
    have : roundHE x ≤ -2 := by omega
    have : ((roundHE x : ℤ) : K) ≤ -2 := by exact_mod_cast this
    linarith [h.1, h1.2]
  · by_contra hc
    have : 2 ≤ roundHE x := by omega
    have : (2 : K) ≤ ((roundHE x : ℤ) : K) := by exact_mod_cast this
    linarith [h.2, h1.1]

theorem near_axis {g td : K} (hg : |g| ≤ 1) (htd : |td| ≤ 1 / 2) :
    -1 ≤ roundHE g + roundHE (td + (g - roundHE g)) ∧
      roundHE g + roundHE (td + (g - roundHE g)) ≤ 1 := by
  have h0 := roundHE_near g
  obtain ⟨h1, h2⟩ := roundHE_one hg
  have hx : |td + (g - roundHE g)| ≤ 1 := by
    refine (abs_add_le _ _).trans ?_
    linarith
  obtain ⟨h3, h4⟩ := roundHE_one hx
  have hg' := abs_le.mp hg
  have ht' := abs_le.mp htd
  have h0' := abs_le.mp h0
  have key : roundHE g = -1 ∨ roundHE g = 0 ∨ roundHE g = 1 := by omega
  rcases key with e | e | e
  · rw [e] at h3 h4 h0' ⊢
    push_cast at h3 h4 h0' ⊢
    -- offset is at least -1/2, so it does not round below zero
    by_cases hs : |td + (g - -1)| ≤ 1 / 2
    · rw [roundHE_small hs]; omega
    · have hlo : -(1 / 2) ≤ td + (g - -1) := by linarith [hg'.1, ht'.1]
      have : 0 ≤ roundHE (td + (g - -1)) := by
        by_contra hc
        have hc' : roundHE (td + (g - -1)) ≤ -1 := by omega
        have hc'' : ((roundHE (td + (g - -1)) : ℤ) : K) ≤ -1 := by exact_mod_cast hc'
        have := abs_le.mp (roundHE_near (td + (g - -1)))
        apply hs
        rw [abs_le]
        constructor <;> linarith [this.2]
      omega
  · rw [e] at h3 h4 ⊢; omega
  · rw [e] at h3 h4 h0' ⊢
    push_cast at h3 h4 h0' ⊢
    by_cases hs : |td + (g - 1)| ≤ 1 / 2
    · rw [roundHE_small hs]; omega
    · have hlo : td + (g - 1) ≤ 1 / 2 := by linarith [hg'.2, ht'.2]
      have : roundHE (td + (g - 1)) ≤ 0 := by
        by_contra hc
        have hc' : 1 ≤ roundHE (td + (g - 1)) := by omega
        have hc'' : (1 : K) ≤ ((roundHE (td + (g - 1)) : ℤ) : K) := by exact_mod_cast hc'
        have := abs_le.mp (roundHE_near (td + (g - 1)))
        apply hs
        rw [abs_le]
        constructor <;> linarith [this.1]
      omega

/-- The near-grid step is at most one voxel along each axis. -/
theorem nearStep_unit {I : NearIn K} {c : Climb K} (hg : Within 1 (I.grad c.cur))
    (htd : Within (1 / 2) c.td) :
    ∃ t, UnitStep t ∧ (nearStep I c).1 = nbr I.s c.cur t ∧
      t.1 = roundHE (I.grad c.cur).1 + roundHE (c.td.1 + ((I.grad c.cur).1 - roundHE (I.grad c.cur).1)) ∧
      t.2.1 = roundHE (I.grad c.cur).2.1 +
        roundHE (c.td.2.1 + ((I.grad c.cur).2.1 - roundHE (I.grad c.cur).2.1)) ∧
      t.2.2 = roundHE (I.grad c.cur).2.2 +
        roundHE (c.td.2.2 + ((I.grad c.cur).2.2 - roundHE (I.grad c.cur).2.2)) ∧
      (nearStep I c).2 = (c.td.1 + (I.grad c.cur).1 - t.1, c.td.2.1 + (I.grad c.cur).2.1 - t.2.1,
        c.td.2.2 + (I.grad c.cur).2.2 - t.2.2) ∧
      Within (1 / 2) (nearStep I c).2 := by
  refine ⟨_, ⟨near_axis hg.1 htd.1, near_axis hg.2.1 htd.2.1, near_axis hg.2.2 htd.2.2⟩, rfl, rfl, rfl,
    rfl, ?_, ?_⟩
  · simp only [nearStep, round3, addC]
    push_cast
    ext <;> simp only <;> ring
  · exact ⟨roundHE_near _, roundHE_near _, roundHE_near _⟩

theorem NearInput.fits' {I : NearIn K} {vac : ℕ → Bool} (h : NearInput I vac) :
    ∀ t ∈ I.nbrs.map Prod.fst, StepFits I.s t := by
  intro t ht; obtain ⟨td, htd, rfl⟩ := List.mem_map.mp ht; exact h.fits td htd

theorem NearInput.higher {I : NearIn K} {vac : ℕ → Bool} (h : NearInput I vac) {v : ℕ}
    (hv : v < I.s.size) (hvac : vac v = false) (hm : I.maxm v = false) :
    ∃ td ∈ I.nbrs, I.data v < I.data (nbr I.s v td.1) := by
  by_contra hno
  push Not at hno
  have : I.maxm v = true := by
    rw [h.maxima]
    refine ⟨hv, hvac, fun w hw => ?_⟩
    obtain ⟨t, ht, rfl⟩ := (isNbr_iff h.fits' hv).mp hw
    obtain ⟨td, htd, rfl⟩ := List.mem_map.mp ht
    exact hno td htd
  rw [hm] at this; exact absurd this (by simp)

/-- Invariant of the climb. -/
structure CI (I : NearIn K) (vac : ℕ → Bool) (c : Climb K) : Prop where
  lt : c.cur < I.s.size
  nv : vac c.cur = false
  td : Within (1 / 2) c.td

/-- Number of voxels not yet visited. -/
def fresh (I : NearIn K) (c : Climb K) : ℕ :=
  ((Finset.range I.s.size).filter fun w => w ∉ c.cur :: c.path).card

theorem fresh_near {I : NearIn K} {c : Climb K} {n : ℕ} {td : K × K × K} (hn : n < I.s.size)
    (hnew : n ∉ c.cur :: c.path) : fresh I ⟨n, td, c.cur :: c.path⟩ < fresh I c := by
  apply Finset.card_lt_card
  rw [Finset.ssubset_iff_of_subset]
  · exact ⟨n, by simpa [hn] using hnew, by simp⟩
  · intro x hx
    simp only [Finset.mem_filter, List.mem_cons, not_or] at hx ⊢
    exact ⟨hx.1, hx.2.2.1, hx.2.2.2⟩

theorem fresh_ongrid {I : NearIn K} {c : Climb K} {n : ℕ} {td : K × K × K} :
    fresh I ⟨n, td, c.cur :: c.path⟩ ≤ fresh I c := by
  apply Finset.card_le_card
  intro x hx
  simp only [Finset.mem_filter, List.mem_cons, not_or] at hx ⊢
  exact ⟨hx.1, hx.2.2.1, hx.2.2.2⟩

theorem fresh_lt {I : NearIn K} {c : Climb K} (h : c.cur < I.s.size) : fresh I c < I.s.size := by
  have : fresh I c < (Finset.range I.s.size).card := by
    apply Finset.card_lt_card
    rw [Finset.ssubset_iff_of_subset (Finset.filter_subset _ _)]
    exact ⟨c.cur, by simpa using h, by simp⟩
  simpa using this

/-- What one climbing step does. -/
theorem climbStep_cases {I : NearIn K} {vac : ℕ → Bool} (hI : NearInput I vac) {c : Climb K}
    (hc : CI I vac c) (hm : I.maxm c.cur = false) :
    ∃ n td', NearTarget I c.cur c.td n td' ∧
      ((n ∉ c.cur :: c.path ∧ vac n = false ∧ CI I vac ⟨n, td', c.cur :: c.path⟩ ∧
          ∀ lab, ZeroVac I.s vac lab → climbStep I lab c = ⟨n, td', c.cur :: c.path⟩) ∨
       ((n ∈ c.cur :: c.path ∨ vac n = true) ∧
          ∃ w, SteepestNbr I.s I.data I.nbrs c.cur w ∧ CI I vac ⟨w, (0, 0, 0), c.cur :: c.path⟩ ∧
          I.data c.cur < I.data w ∧
          ∀ lab, ZeroVac I.s vac lab → climbStep I lab c = ⟨w, (0, 0, 0), c.cur :: c.path⟩)) := by
  obtain ⟨t, hu, h1, h2, h3, h4, h5, h6⟩ := nearStep_unit (hI.grad c.cur) hc.td
  have hfit : StepFits I.s t := hu.fits (pos_of_lt_size hc.lt)
  have hlt : (nearStep I c).1 < I.s.size := by rw [h1]; exact nbr_lt hc.lt hfit
  have htar : NearTarget I c.cur c.td (nearStep I c).1 (nearStep I c).2 := by
    refine ⟨t, h2, h3, h4, h5, hlt, ?_⟩
    rw [h1, flatToCoords_nbr hc.lt hfit]
    exact wrapPoint_same I.s _
  refine ⟨_, _, htar, ?_⟩
  by_cases hcond : (nearStep I c).1 ∈ c.cur :: c.path ∨ vac (nearStep I c).1 = true
  · right
    have hex := hI.higher hc.lt hc.nv hm
    have hst := bestNeighbor_steepest hI.pos hex
    obtain ⟨hn, _⟩ := steepestNbr_not_max hI.fits' hc.lt hst
    have hd := (bestNeighbor_higher I.s I.data c.cur I.nbrs hI.pos hex).1
    refine ⟨hcond, _, hst, ⟨hn.1, hI.up _ hc.lt hc.nv _ hn hd, ?_⟩, hd, fun lab hz => ?_⟩
    · simp [Within]
    · have : (nearStep I c).1 ∈ c.cur :: c.path ∨ lab (nearStep I c).1 = 0 := by
        rcases hcond with h | h
        · exact Or.inl h
        · exact Or.inr ((hz _ hlt).mpr h)
      simp only [climbStep]
      rw [if_pos this]
  · left
    push Not at hcond
    have hnv : vac (nearStep I c).1 = false := by simpa using hcond.2
    refine ⟨hcond.1, hnv, ⟨hlt, hnv, h6⟩, fun lab hz => ?_⟩
    have : ¬ ((nearStep I c).1 ∈ c.cur :: c.path ∨ lab (nearStep I c).1 = 0) := by
      rintro (h | h)
      · exact hcond.1 h
      · rw [(hz _ hlt).mp h] at hnv; exact absurd hnv (by simp)
    simp only [climbStep]
    rw [if_neg this]

/-- The climb ends, whatever the gradients are. -/
theorem climb_exists {I : NearIn K} {vac : ℕ → Bool} (hI : NearInput I vac) :
    ∀ b c, CI I vac c → fresh I c * (I.s.size + 1) + above I.s I.data c.cur ≤ b →
      ∃ m k, NearTraj I vac c.cur c.td c.path k m ∧ k ≤ fresh I c ∧ I.maxm m = true ∧
        ∀ lab, ZeroVac I.s vac lab → ∀ fuel > b, climbLoop I lab fuel c = some m := by
  intro b
  induction b using Nat.strong_induction_on with
  | _ b ih =>
    intro c hc hb
    by_cases hm : I.maxm c.cur = true
    · refine ⟨c.cur, 0, .top hm, Nat.zero_le _, hm, fun lab _ fuel hf => ?_⟩
      obtain ⟨f, rfl⟩ : ∃ f, fuel = f + 1 := ⟨fuel - 1, by omega⟩
      simp [climbLoop, hm]
    · have hm' : I.maxm c.cur = false := by simpa using hm
      obtain ⟨n, td', htar, ⟨h1, h2, h3, h4⟩ | ⟨h1, w, h2, h3, h4, h5⟩⟩ := climbStep_cases hI hc hm'
      · have hfr := fresh_near (I := I) (c := c) (n := n) (td := td') h3.lt h1
        have hab := above_le I.s I.data n
        have hmul : (fresh I ⟨n, td', c.cur :: c.path⟩ + 1) * (I.s.size + 1) ≤
            fresh I c * (I.s.size + 1) := Nat.mul_le_mul_right _ hfr
        rw [Nat.add_mul, Nat.one_mul] at hmul
        obtain ⟨m, k, g1, g2, g3, g4⟩ := ih (b - 1) (by omega) _ h3 (by show _ + above I.s I.data n ≤ _; omega)
        refine ⟨m, k + 1, .near hm' htar h1 h2 g1, by omega, g3, fun lab hz fuel hf => ?_⟩
        obtain ⟨f, rfl⟩ : ∃ f, fuel = f + 1 := ⟨fuel - 1, by omega⟩
        rw [climbLoop, if_neg (by simp [hm']), h4 lab hz]
        exact g4 lab hz f (by omega)
      · have hfr := fresh_ongrid (I := I) (c := c) (n := w) (td := (0, 0, 0))
        have hab := above_lt (s := I.s) h3.lt h4
        simp only at hab
        have hmul : fresh I ⟨w, (0, 0, 0), c.cur :: c.path⟩ * (I.s.size + 1) ≤
            fresh I c * (I.s.size + 1) := Nat.mul_le_mul_right _ hfr
        obtain ⟨m, k, g1, g2, g3, g4⟩ := ih (b - 1) (by omega) _ h3 (by show _ + above I.s I.data w ≤ _; omega)
        refine ⟨m, k, .ongrid hm' htar h1 h2 g1, by omega, g3, fun lab hz fuel hf => ?_⟩
        obtain ⟨f, rfl⟩ : ∃ f, fuel = f + 1 := ⟨fuel - 1, by omega⟩
        rw [climbLoop, if_neg (by simp [hm']), h5 lab hz]
        exact g4 lab hz f (by omega)

theorem nearTarget_unique {I : NearIn K} {v : ℕ} {td : K × K × K} {n n' : ℕ} {td1 td2 : K × K × K}
    (h : NearTarget I v td n td1) (h' : NearTarget I v td n' td2) : n = n' ∧ td1 = td2 := by
  obtain ⟨t, a1, a2, a3, a4, a5, a6⟩ := h
  obtain ⟨t', b1, b2, b3, b4, b5, b6⟩ := h'
  have ht : t = t' := by
    obtain ⟨x, y, z⟩ := t
    obtain ⟨x', y', z'⟩ := t'
    simp only at a1 a2 a3 b1 b2 b3
    rw [a1, a2, a3, b1, b2, b3]
  subst ht
  refine ⟨?_, by rw [a4, b4]⟩
  have hp := pos_of_lt_size a5
  have e : flatToCoords I.s n = flatToCoords I.s n' :=
    samePoint_unique (flatToCoords_inRange (by positivity) (by exact_mod_cast a5) hp)
      (flatToCoords_inRange (by positivity) (by exact_mod_cast b5) hp) (a6.symm.trans b6)
  have h3 := congrArg (coordsToFlat I.s) e
  rw [coordsToFlat_flatToCoords, coordsToFlat_flatToCoords] at h3
  exact_mod_cast h3

theorem nearTraj_unique {I : NearIn K} {vac : ℕ → Bool} {v : ℕ} {td : K × K × K} {path : List ℕ}
    {k m : ℕ} (h : NearTraj I vac v td path k m) :
    ∀ {k' m'}, NearTraj I vac v td path k' m' → k = k' ∧ m = m' := by
  induction h with
  | top hm =>
    intro k' m' h'
    cases h' with
    | top _ => exact ⟨rfl, rfl⟩
    | near hm' => rw [hm] at hm'; exact absurd hm' (by simp)
    | ongrid hm' => rw [hm] at hm'; exact absurd hm' (by simp)
  | near hm ht hn hv _ ih =>
    intro k' m' h'
    cases h' with
    | top hm' => rw [hm] at hm'; exact absurd hm' (by simp)
    | near _ ht' _ _ h'' =>
      obtain ⟨rfl, rfl⟩ := nearTarget_unique ht ht'
      obtain ⟨rfl, rfl⟩ := ih h''
      exact ⟨rfl, rfl⟩
    | ongrid _ ht' hc =>
      obtain ⟨rfl, rfl⟩ := nearTarget_unique ht ht'
      rcases hc with hc | hc
      · exact absurd hc hn
      · rw [hv] at hc; exact absurd hc (by simp)
  | ongrid hm ht hc hs _ ih =>
    intro k' m' h'
    cases h' with
    | top hm' => rw [hm] at hm'; exact absurd hm' (by simp)
    | near _ ht' hn hv =>
      obtain ⟨rfl, rfl⟩ := nearTarget_unique ht ht'
      rcases hc with hc | hc
      · exact absurd hc hn
      · rw [hv] at hc; exact absurd hc (by simp)
    | ongrid _ _ _ hs' h'' =>
      obtain rfl := steepestNbr_unique hs hs'
      exact ih h''

theorem climbsTo_unique {I : NearIn K} {vac : ℕ → Bool} {v m m' : ℕ} (h : ClimbsTo I vac v m)
    (h' : ClimbsTo I vac v m') : m = m' := by
  obtain ⟨k, h⟩ := h
  obtain ⟨k', h'⟩ := h'
  exact (nearTraj_unique h h').2

theorem climbsTo_self {I : NearIn K} {vac : ℕ → Bool} {v : ℕ} (h : I.maxm v = true) :
    ClimbsTo I vac v v := ⟨0, .top h⟩

end BaderKit
