import Verif.Props.Symmetry
import Verif.Props.OriginNeargrid
import Verif.Props.SupercellNeargrid
import Verif.Props.Voronoi
import Verif.Model.Transforms
/-!
# C120 for the neargrid method

Symmetry operations that carry the axes of the grid to axes of the grid, for the neargrid method.
-/
set_option linter.unusedSectionVars false
namespace BaderKit
open Finset
variable {K : Type} [Field K] [LinearOrder K] [IsStrictOrderedRing K] [FloorRing K]

/-! ## Specification -/

/-- A row of a matrix with a single entry `1` or `-1`. -/
def AxisRow (r : Coord) : Prop :=
  r = (1, 0, 0) ∨ r = (-1, 0, 0) ∨ r = (0, 1, 0) ∨ r = (0, -1, 0) ∨ r = (0, 0, 1) ∨ r = (0, 0, -1)

/-- A row times a vector. -/
def rowK (r : Coord) (x : K × K × K) : K := (r.1 : K) * x.1 + (r.2.1 : K) * x.2.1 + (r.2.2 : K) * x.2.2

/-- An integer matrix times a vector. -/
def IMat.act (R : IMat) (x : K × K × K) : K × K × K := (rowK R.1 x, rowK R.2.1 x, rowK R.2.2 x)

/-- The operation carries axes to axes, in either direction: mirrors at grid planes, rotations by right angles about grid axes, exchanges of axes. -/
structure GridOper.KeepsAxes (g : GridOper) : Prop where
  rows : AxisRow g.rot.1 ∧ AxisRow g.rot.2.1 ∧ AxisRow g.rot.2.2
  rows' : AxisRow g.inv.1 ∧ AxisRow g.inv.2.1 ∧ AxisRow g.inv.2.2
  transposed : g.inv = ((g.rot.1.1, g.rot.2.1.1, g.rot.2.2.1), (g.rot.1.2.1, g.rot.2.1.2.1, g.rot.2.2.2.1), (g.rot.1.2.2, g.rot.2.1.2.2, g.rot.2.2.2.2))

/-- The gradients turn with the crystal. -/
def GradCarried (g : GridOper) (s s' : Shape) (grad grad' : ℕ → K × K × K) : Prop := ∀ v w, g.Carries s s' v w → grad' w = g.rot.act (grad v)

/-- Outside the vacuum no voxel has two steepest steps. -/
def RunInput.OneSteepest (G : RunInput K) : Prop :=
  ∀ v < G.shape.size, G.vacuum v = false → ∀ a ∈ G.nbrs, ∀ b ∈ G.nbrs, G.ref v < G.ref (nbr G.shape v a.1) → G.ref v < G.ref (nbr G.shape v b.1) →
    (G.ref (nbr G.shape v a.1) - G.ref v) / a.2 = (G.ref (nbr G.shape v b.1) - G.ref v) / b.2 →
    (∀ c ∈ G.nbrs, (G.ref (nbr G.shape v c.1) - G.ref v) / c.2 ≤ (G.ref (nbr G.shape v a.1) - G.ref v) / a.2) → a.1 = b.1

/-! ## Rows -/

section rows
variable {r : Coord}

theorem AxisRow.round (h : AxisRow r) (x : K × K × K) : roundHE (rowK r x) = r.1 * roundHE x.1 + r.2.1 * roundHE x.2.1 + r.2.2 * roundHE x.2.2 := by
  rcases h with rfl | rfl | rfl | rfl | rfl | rfl <;> simp [rowK, roundHE_neg]

theorem AxisRow.le (h : AxisRow r) (x : K × K × K) : |rowK r x| ≤ maxGrad x := by
  obtain ⟨_, m1, m2, m3⟩ := maxGrad_spec x
  rcases h with rfl | rfl | rfl | rfl | rfl | rfl <;> simpa [rowK, abs_neg]

theorem AxisRow.unit (h : AxisRow r) {t : Coord} (ht : UnitStep t) : -1 ≤ r.1 * t.1 + r.2.1 * t.2.1 + r.2.2 * t.2.2 ∧
    r.1 * t.1 + r.2.1 * t.2.1 + r.2.2 * t.2.2 ≤ 1 := by
  obtain ⟨h1, h2, h3⟩ := ht
  rcases h with rfl | rfl | rfl | rfl | rfl | rfl <;> dsimp only <;> omega

theorem AxisRow.unitStep (h : AxisRow r) : UnitStep r := by
  rcases h with rfl | rfl | rfl | rfl | rfl | rfl <;> (unfold UnitStep; decide)

/-- One component of a near-grid step. -/
theorem AxisRow.near (h : AxisRow r) (x td : K × K × K) :
    roundHE (rowK r x) + roundHE (rowK r td + (rowK r x - roundHE (rowK r x))) =
      r.1 * (roundHE x.1 + roundHE (td.1 + (x.1 - roundHE x.1))) + r.2.1 * (roundHE x.2.1 + roundHE (td.2.1 + (x.2.1 - roundHE x.2.1))) +
        r.2.2 * (roundHE x.2.2 + roundHE (td.2.2 + (x.2.2 - roundHE x.2.2))) := by
  have key : ∀ a b : K, roundHE (-a) + roundHE (-b + (-a - roundHE (-a))) = -(roundHE a + roundHE (b + (a - roundHE a))) := by
    intro a b
    have e : -b + (-a - ((roundHE (-a) : ℤ) : K)) = -(b + (a - roundHE a)) := by rw [roundHE_neg]; push_cast; ring
    rw [e, roundHE_neg, roundHE_neg]; ring
  rcases h with rfl | rfl | rfl | rfl | rfl | rfl <;> simp only [rowK, Int.cast_one, Int.cast_zero, Int.cast_neg, one_mul, zero_mul, add_zero, zero_add, neg_mul, key]

theorem rowK_sub (r : Coord) (td x : K × K × K) (t : Coord) :
    rowK r (td.1 + x.1 - t.1, td.2.1 + x.2.1 - t.2.1, td.2.2 + x.2.2 - t.2.2) = rowK r td + rowK r x - ((r.1 * t.1 + r.2.1 * t.2.1 + r.2.2 * t.2.2 : ℤ) : K) := by
  unfold rowK; push_cast; ring

theorem rowK_div (r : Coord) (x : K × K × K) (m : K) : rowK r (x.1 / m, x.2.1 / m, x.2.2 / m) = rowK r x / m := by
  unfold rowK; ring

theorem rowK_cast (r t : Coord) : rowK r ((t.1 : K), (t.2.1 : K), (t.2.2 : K)) = ((r.1 * t.1 + r.2.1 * t.2.1 + r.2.2 * t.2.2 : ℤ) : K) := by
  unfold rowK; push_cast; ring

theorem act_zero (R : IMat) : R.act ((0 : K), (0 : K), (0 : K)) = (0, 0, 0) := by simp [IMat.act, rowK]

theorem maxGrad_le {x : K × K × K} {b : K} (h0 : 0 ≤ b) (h1 : |x.1| ≤ b) (h2 : |x.2.1| ≤ b) (h3 : |x.2.2| ≤ b) : maxGrad x ≤ b := by
  simp only [maxGrad]
  split_ifs <;> assumption

variable {g : GridOper} {s s' : Shape}

theorem act_back (hF : g.Fits s s') (x : K × K × K) : g.inv.act (g.rot.act x) = x := by
  have e1 := hF.left (1, 0, 0)
  have e2 := hF.left (0, 1, 0)
  have e3 := hF.left (0, 0, 1)
  simp only [IMat.mul, mul_one, mul_zero, add_zero, zero_add, Prod.mk.injEq] at e1 e2 e3
  obtain ⟨a1, a2, a3⟩ := e1
  obtain ⟨b1, b2, b3⟩ := e2
  obtain ⟨c1, c2, c3⟩ := e3
  have c : ∀ {a b : ℤ}, a = b → (a : K) = b := fun h => by rw [h]
  have a1 := c a1; have a2 := c a2; have a3 := c a3
  have b1 := c b1; have b2 := c b2; have b3 := c b3
  have c1 := c c1; have c2 := c c2; have c3 := c c3
  push_cast at a1 a2 a3 b1 b2 b3 c1 c2 c3
  simp only [IMat.act, rowK]
  refine Prod.ext ?_ (Prod.ext ?_ ?_) <;> dsimp only
  · linear_combination x.1 * a1 + x.2.1 * b1 + x.2.2 * c1
  · linear_combination x.1 * a2 + x.2.1 * b2 + x.2.2 * c2
  · linear_combination x.1 * a3 + x.2.1 * b3 + x.2.2 * c3

theorem maxGrad_act (hF : g.Fits s s') (hk : g.KeepsAxes) (x : K × K × K) : maxGrad (g.rot.act x) = maxGrad x := by
  apply le_antisymm
  · exact maxGrad_le (maxGrad_spec x).1 (hk.rows.1.le x) (hk.rows.2.1.le x) (hk.rows.2.2.le x)
  · conv_lhs => rw [← act_back hF x]
    exact maxGrad_le (maxGrad_spec _).1 (hk.rows'.1.le _) (hk.rows'.2.1.le _) (hk.rows'.2.2.le _)

theorem round3_act (hk : g.KeepsAxes) (x : K × K × K) : round3 (g.rot.act x) = g.rot.mul (round3 x) := by
  simp only [round3, IMat.act, IMat.mul]
  rw [hk.rows.1.round, hk.rows.2.1.round, hk.rows.2.2.round]

theorem mul_unit (hk : g.KeepsAxes) {t : Coord} (ht : UnitStep t) : UnitStep (g.rot.mul t) :=
  ⟨hk.rows.1.unit ht, hk.rows.2.1.unit ht, hk.rows.2.2.unit ht⟩

end rows

/-! ## The pointers -/

section pointers
variable {g : GridOper} {G G' : RunInput K} {A A' : RunAid K} {ε : K}

theorem higher_step (T : OperRuns g G G' A A' ε) {v : ℕ} (hv : v < G.shape.size) (hvv : G.vacuum v = false) (hm : ¬ G.IsMax v) :
    ∃ td ∈ G.nbrs, G.ref v < G.ref (nbr G.shape v td.1) := by
  by_contra hcon
  push Not at hcon
  refine hm ⟨hv, hvv, fun w hw => ?_⟩
  obtain ⟨t, ht, rfl⟩ := (isNbr_iff (fitsOf T.ready.fits) hv).mp hw
  obtain ⟨td, htd, rfl⟩ := List.mem_map.mp ht
  exact hcon td htd

theorem best_carried (T : OperRuns g G G' A A' ε) (h1 : G.OneSteepest) {v w : ℕ} (hc : g.Carries G.shape G'.shape v w) (hvv : G.vacuum v = false)
    (hm : ¬ G.IsMax v) : ∃ td ∈ G.nbrs, bestNeighbor G.shape G.ref G.nbrs v = (td.1, nbr G.shape v td.1) ∧
      bestNeighbor G'.shape G'.ref G'.nbrs w = (g.rot.mul td.1, nbr G'.shape w (g.rot.mul td.1)) := by
  have O := T.oper
  have hf := T.ready.fits
  have hf' := T.ready'.fits
  obtain ⟨x, hx, hxl⟩ := higher_step T hc.1 hvv hm
  obtain ⟨l1, td, l2, e1, e2, e3, e4, _⟩ := C07_best_neighbor G.shape G.ref G.nbrs v T.ready.pos ⟨x, hx, hxl⟩
  obtain ⟨k1, td', k2, f1, f2, f3, f4, _⟩ := C07_best_neighbor G'.shape G'.ref G'.nbrs w T.ready'.pos
    ⟨_, O.mem hx, by dsimp only; rwa [O.ref _ _ hc, O.ref _ _ (O.step hf hf' hc hx)]⟩
  have htd : td ∈ G.nbrs := by rw [e1]; simp
  obtain ⟨td2, h2, rfl⟩ := O.mem' (td' := td') (by rw [f1]; simp)
  dsimp only at f2 f3 f4
  rw [O.ref _ _ hc, O.ref _ _ (O.step hf hf' hc h2)] at f3
  have a1 := e4 td2 h2
  have a2 := f4 _ (O.mem htd)
  dsimp only at a2
  rw [O.ref _ _ hc, O.ref _ _ (O.step hf hf' hc h2), O.ref _ _ (O.step hf hf' hc htd)] at a2
  have := h1 v hc.1 hvv td htd td2 h2 e3 f3 (le_antisymm a2 a1) e4
  exact ⟨td, htd, e2, by rw [this]; exact f2⟩

theorem grad_unit {x : K × K × K} (hm : ¬ maxGrad x < 1 / 10 ^ 30) : UnitStep (round3 (x.1 / maxGrad x, x.2.1 / maxGrad x, x.2.2 / maxGrad x)) := by
  obtain ⟨m0, m1, m2, m3⟩ := maxGrad_spec x
  have hpos : 0 < maxGrad x := lt_of_lt_of_le (by positivity) (not_lt.mp hm)
  have hw : Within 1 (x.1 / maxGrad x, x.2.1 / maxGrad x, x.2.2 / maxGrad x) := by
    refine ⟨?_, ?_, ?_⟩ <;> simp only [abs_div, abs_of_pos hpos] <;> rw [div_le_one hpos] <;> assumption
  exact ⟨roundHE_one hw.1, roundHE_one hw.2.1, roundHE_one hw.2.2⟩

theorem gradPointer_carried (T : OperRuns g G G' A A' ε) (hk : g.KeepsAxes) (h1 : G.OneSteepest) (x : K × K × K) {v w : ℕ}
    (hc : g.Carries G.shape G'.shape v w) (hvv : G.vacuum v = false) (hm : ¬ G.IsMax v) :
    g.Carries G.shape G'.shape (gradPointer G.shape G.ref G.nbrs x v).1 (gradPointer G'.shape G'.ref G'.nbrs (g.rot.act x) w).1 ∧
      (gradPointer G'.shape G'.ref G'.nbrs (g.rot.act x) w).2 = g.rot.act (gradPointer G.shape G.ref G.nbrs x v).2 := by
  have O := T.oper
  have hp : G.shape.Pos := pos_of_lt_size T.ready.voxels
  have hp' : G'.shape.Pos := pos_of_lt_size T.ready'.voxels
  obtain ⟨td, htd, b1, b2⟩ := best_carried T h1 hc hvv hm
  have hcb := O.step T.ready.fits T.ready'.fits hc htd
  simp only [gradPointer]
  rw [maxGrad_act O.fits hk, b1, b2]
  by_cases hs : maxGrad x < 1 / 10 ^ 30
  · simp only [if_pos hs]
    exact ⟨hcb, by simp only [IMat.act, rowK_cast]; rfl⟩
  · simp only [if_neg hs]
    have hu := grad_unit hs
    have ed : ((g.rot.act x).1 / maxGrad x, (g.rot.act x).2.1 / maxGrad x, (g.rot.act x).2.2 / maxGrad x) =
        g.rot.act (x.1 / maxGrad x, x.2.1 / maxGrad x, x.2.2 / maxGrad x) := by
      simp only [IMat.act, rowK_div]
    rw [ed, round3_act hk]
    have hcn := carries_nbr O.fits hc (hu.fits hp) ((mul_unit hk hu).fits hp')
    rw [O.ref _ _ hc, O.ref _ _ hcn]
    split_ifs
    · exact ⟨hcb, rfl⟩
    · exact ⟨hcn, rfl⟩

end pointers

/-! ## Trajectories and refinement -/

/-- Two inputs of the refinement that correspond under a map of the voxels and a map of the offsets. -/
structure NearCarried (φ : ℕ → ℕ) (B : K × K × K → K × K × K) (I I' : NearIn K) (vac vac' : ℕ → Bool) : Prop where
  lt : ∀ v < I.s.size, φ v < I'.s.size
  inj : ∀ v w, v < I.s.size → w < I.s.size → φ v = φ w → v = w
  surj : ∀ w < I'.s.size, ∃ v < I.s.size, φ v = w
  zero : B (0, 0, 0) = (0, 0, 0)
  maxm : ∀ v < I.s.size, I'.maxm (φ v) = I.maxm v
  vacuum : ∀ v < I.s.size, vac' (φ v) = vac v
  target : ∀ v n td td', v < I.s.size → NearTarget I v td n td' → NearTarget I' (φ v) (B td) (φ n) (B td')
  steepest : ∀ v w, v < I.s.size → vac v = false → SteepestNbr I.s I.data I.nbrs v w → SteepestNbr I'.s I'.data I'.nbrs (φ v) (φ w)
  nbr : ∀ v w', v < I.s.size → (IsNbr I'.s (I'.nbrs.map Prod.fst) (φ v) w' ↔ ∃ w, IsNbr I.s (I.nbrs.map Prod.fst) v w ∧ w' = φ w)

section near
variable {φ : ℕ → ℕ} {B : K × K × K → K × K × K} {I I' : NearIn K} {vac vac' : ℕ → Bool}

theorem NearCarried.traj (h : NearCarried φ B I I' vac vac') (hI : NearInput I vac) {v m k : ℕ} {td : K × K × K} {path : List ℕ}
    (ht : NearTraj I vac v td path k m) : v < I.s.size → vac v = false → (∀ p ∈ path, p < I.s.size) →
    NearTraj I' vac' (φ v) (B td) (path.map φ) k (φ m) := by
  have hmem : ∀ (n v : ℕ) (path : List ℕ), n < I.s.size → v < I.s.size → (∀ p ∈ path, p < I.s.size) → (φ n ∈ φ v :: path.map φ ↔ n ∈ v :: path) := by
    intro n v path hn hv hp
    rw [← List.map_cons (f := φ), List.mem_map]
    constructor
    · rintro ⟨p, hpm, e⟩
      have hlt : p < I.s.size := by
        rcases List.mem_cons.mp hpm with rfl | h'
        · exact hv
        · exact hp p h'
      rw [← h.inj _ _ hlt hn e]; exact hpm
    · exact fun hm => ⟨n, hm, rfl⟩
  induction ht with
  | top hm => exact fun hv _ _ => .top ((h.maxm _ hv).trans hm)
  | @near v td path n td' k m hm htg hn hvn _ ih =>
    intro hv _ hp
    have hnl : n < I.s.size := by obtain ⟨_, _, _, _, _, h5, _⟩ := htg; exact h5
    refine .near ((h.maxm _ hv).trans hm) (h.target _ _ _ _ hv htg) (fun hx => hn ((hmem n v path hnl hv hp).mp hx)) ((h.vacuum n hnl).trans hvn) ?_
    exact ih hnl hvn (by intro p hpm; rcases List.mem_cons.mp hpm with rfl | h'; exacts [hv, hp p h'])
  | @ongrid v td path n td' w k m hm htg hn hs _ ih =>
    intro hv hvv hp
    have hnl : n < I.s.size := by obtain ⟨_, _, _, _, _, h5, _⟩ := htg; exact h5
    have hts : ∀ t ∈ I.nbrs.map Prod.fst, StepFits I.s t := by
      intro t ht; obtain ⟨td, htd, rfl⟩ := List.mem_map.mp ht; exact hI.fits td htd
    obtain ⟨hw, _⟩ := steepestNbr_not_max hts hv hs
    have hlt : I.data v < I.data w := by obtain ⟨_, _, _, _, _, h3, _⟩ := hs; exact h3
    have := ih hw.1 (hI.up v hv hvv w hw hlt) (by intro p hpm; rcases List.mem_cons.mp hpm with rfl | h'; exacts [hv, hp p h'])
    rw [h.zero] at this
    refine .ongrid ((h.maxm _ hv).trans hm) (h.target _ _ _ _ hv htg) ?_ (h.steepest _ _ hv hvv hs) this
    rcases hn with hn | hn
    · exact Or.inl ((hmem n v path hnl hv hp).mpr hn)
    · exact Or.inr ((h.vacuum n hnl).trans hn)

theorem NearCarried.climbs (h : NearCarried φ B I I' vac vac') (hI : NearInput I vac) {v m : ℕ} (hv : v < I.s.size) (hvv : vac v = false)
    (ht : ClimbsTo I vac v m) : ClimbsTo I' vac' (φ v) (φ m) := by
  obtain ⟨k, hk⟩ := ht
  have := h.traj hI hk hv hvv (by simp)
  rw [h.zero] at this
  exact ⟨k, this⟩

/-- Both runs put the same voxels together. -/
def PartsCarried (φ : ℕ → ℕ) (n : ℕ) (vac : ℕ → Bool) (base base' : ℕ → ℤ) : Prop :=
  ∀ v w, v < n → w < n → vac v = false → vac w = false → (base' (φ v) = base' (φ w) ↔ base v = base w)

variable {base base' : ℕ → ℤ}

theorem NearCarried.edge (h : NearCarried φ B I I' vac vac') (hb : PartsCarried φ I.s.size vac base base') {v : ℕ} (hv : v < I.s.size) :
    EdgeStart I' vac' base' (φ v) ↔ EdgeStart I vac base v := by
  unfold EdgeStart
  rw [h.vacuum v hv, h.maxm v hv]
  constructor
  · rintro ⟨_, h2, h3, w', hw', h4, h5⟩
    obtain ⟨w, hw, rfl⟩ := (h.nbr v w' hv).mp hw'
    rw [h.vacuum w hw.1] at h4
    exact ⟨hv, h2, h3, w, hw, h4, fun e => h5 ((hb w v hw.1 hv h4 h2).mpr e)⟩
  · rintro ⟨_, h2, h3, w, hw, h4, h5⟩
    exact ⟨h.lt v hv, h2, h3, _, (h.nbr v _ hv).mpr ⟨w, hw, rfl⟩, (h.vacuum w hw.1).trans h4, fun e => h5 ((hb w v hw.1 hv h4 h2).mp e)⟩

theorem NearCarried.refined (h : NearCarried φ B I I' vac vac') (hI : NearInput I vac) (hb : PartsCarried φ I.s.size vac base base') {v : ℕ}
    (hv : v < I.s.size) : Refined I' vac' base' (EdgeStart I' vac' base') (φ v) ↔ Refined I vac base (EdgeStart I vac base) v := by
  constructor
  · have key : ∀ u, Refined I' vac' base' (EdgeStart I' vac' base') u → ∀ v, v < I.s.size → φ v = u → Refined I vac base (EdgeStart I vac base) v := by
      intro u hu
      induction hu with
      | start he => intro v hv e; subst e; exact .start ((h.edge hb hv).mp he)
      | @next x y m hx hcl hne hn hvy ih =>
        intro v hv e
        subst e
        obtain ⟨x, hxs, rfl⟩ := h.surj x (refined_lt hx)
        have hR := ih x hxs rfl
        have hxv := refined_not_vac hR
        obtain ⟨n, ⟨k, _, hk⟩, _⟩ := C21_climb I vac hI x hxs hxv
        have hmm := climbsTo_unique hcl (h.climbs hI hxs hxv ⟨k, hk⟩)
        subst hmm
        obtain ⟨hnl, hnv⟩ := climbs_top hI hxs hxv ⟨k, hk⟩
        obtain ⟨w, hw, e⟩ := (h.nbr x _ hxs).mp hn
        have hwv : v = w := h.inj _ _ hv hw.1 e
        subst hwv
        rw [h.vacuum v hv] at hvy
        exact .next hR ⟨k, hk⟩ (fun e => hne ((hb n x hnl hxs hnv hxv).mpr e)) hw hvy
    exact fun hr => key _ hr v hv rfl
  · intro hr
    clear hv
    induction hr with
    | start he => exact .start ((h.edge hb he.1).mpr he)
    | @next x y m hx hcl hne hn hvy ih =>
      have hxl := refined_lt hx
      have hxv := refined_not_vac hx
      obtain ⟨hml, hmv⟩ := climbs_top hI hxl hxv hcl
      exact .next ih (h.climbs hI hxl hxv hcl) (fun e => hne ((hb m x hml hxl hmv hxv).mp e)) ((h.nbr x _ hxl).mpr ⟨y, hn, rfl⟩) ((h.vacuum y hn.1).trans hvy)

/-- If the partitions before the refinement are the same, so are those after it. -/
theorem NearCarried.parts (h : NearCarried φ B I I' vac vac') (hI : NearInput I vac) (hb : PartsCarried φ I.s.size vac base base') {lab lab' : ℕ → ℤ}
    (hR : RefineSpec I vac base lab) (hR' : RefineSpec I' vac' base' lab') : PartsCarried φ I.s.size vac lab lab' := by
  have key : ∀ v < I.s.size, vac v = false → ∃ e < I.s.size, vac e = false ∧ lab v = base e ∧ lab' (φ v) = base' (φ e) := by
    intro v hv hvv
    obtain ⟨_, a2, a3⟩ := hR v hv
    obtain ⟨_, b2, b3⟩ := hR' _ (h.lt v hv)
    by_cases hr : Refined I vac base (EdgeStart I vac base) v
    · obtain ⟨m, ⟨k, _, hk⟩, _⟩ := C21_climb I vac hI v hv hvv
      obtain ⟨hml, hmv⟩ := climbs_top hI hv hvv ⟨k, hk⟩
      exact ⟨m, hml, hmv, a2 hr m ⟨k, hk⟩, b2 ((h.refined hI hb hv).mpr hr) _ (h.climbs hI hv hvv ⟨k, hk⟩)⟩
    · exact ⟨v, hv, hvv, a3 hr, b3 fun hr' => hr ((h.refined hI hb hv).mp hr')⟩
  intro v w hv hw hvv hwv
  obtain ⟨e, e1, e2, e3, e4⟩ := key v hv hvv
  obtain ⟨f, f1, f2, f3, f4⟩ := key w hw hwv
  rw [e3, e4, f3, f4]
  exact hb e f e1 f1 e2 f2

end near

/-! ## The runs -/

section runs
variable {g : GridOper} {G G' : RunInput K} {A A' : RunAid K} {ε : K}

theorem neargrid_carried (T : OperRuns g G G' A A' ε) (hk : g.KeepsAxes) (h1 : G.OneSteepest) {grad grad' : ℕ → K × K × K}
    (hg : GradCarried g G.shape G'.shape grad grad') {φ : ℕ → ℕ} (hφ : ∀ v < G.shape.size, g.Carries G.shape G'.shape v (φ v)) (l l' : ℕ → ℤ) :
    NearCarried φ g.rot.act (G.nearIn A grad l) (G'.nearIn A' grad' l') G.vacuum G'.vacuum := by
  have O := T.oper
  have hf := T.ready.fits
  have hf' := T.ready'.fits
  have hp : G.shape.Pos := pos_of_lt_size T.ready.voxels
  have hp' : G'.shape.Pos := pos_of_lt_size T.ready'.voxels
  have hM := getMaxima_isMax G A T.ready
  have hM' := getMaxima_isMax G' A' T.ready'
  have hmm : ∀ v < G.shape.size, getMaxima G'.shape G'.ref (G'.nbrs.map Prod.fst) G'.vacuum false A'.order (φ v) =
      getMaxima G.shape G.ref (G.nbrs.map Prod.fst) G.vacuum false A.order v := fun v hv => by
    rw [Bool.eq_iff_iff, hM, hM', O.isMax hf hf' (hφ v hv)]
  have hgr : ∀ v < G.shape.size, (G'.nearIn A' grad' l').grad (φ v) = g.rot.act ((G.nearIn A grad l).grad v) := by
    intro v hv
    show (gradientPointers G'.shape G'.ref G'.nbrs grad' G'.vacuum _ (List.range G'.shape.size) l').2 (φ v) =
      g.rot.act ((gradientPointers G.shape G.ref G.nbrs grad G.vacuum _ (List.range G.shape.size) l).2 v)
    rw [(gradientPointers_apply _ _ _ _ _ _ _ _ _).2, (gradientPointers_apply _ _ _ _ _ _ _ _ _).2, hmm v hv, O.vacuum (hφ v hv)]
    simp only [List.mem_range, hv, (hφ v hv).2.1, true_and]
    by_cases hcond : G.vacuum v = false ∧ getMaxima G.shape G.ref (G.nbrs.map Prod.fst) G.vacuum false A.order v = false
    · rw [if_pos hcond, if_pos hcond, hg v _ (hφ v hv)]
      exact (gradPointer_carried T hk h1 (grad v) (hφ v hv) hcond.1 (fun h => by rw [(hM v).mpr h] at hcond; cases hcond.2)).2
    · rw [if_neg hcond, if_neg hcond, act_zero]
  refine ⟨fun v hv => (hφ v hv).2.1, fun v w hv hw e => ?_, fun w hw => ?_, act_zero _, hmm, fun v hv => O.vacuum (hφ v hv), ?_, ?_, ?_⟩
  · exact carries_inj O.fits (hφ v hv) (e ▸ hφ w hw)
  · obtain ⟨v, hv⟩ := carries_surj O.fits hp hw
    exact ⟨v, hv.1, carries_unique (hφ v hv.1) hv⟩
  · intro v n td td' hv ht
    have hgv := hgr v hv
    obtain ⟨t, t1, t2, t3, t4, t5, t6⟩ := ht
    have hn : n < G.shape.size := t5
    unfold NearTarget
    simp only [hgv]
    refine ⟨g.rot.mul t, ?_, ?_, ?_, ?_, (hφ n hn).2.1, ?_⟩
    · refine Eq.trans ?_ (hk.rows.1.near _ td).symm
      rw [← t1, ← t2, ← t3]; rfl
    · refine Eq.trans ?_ (hk.rows.2.1.near _ td).symm
      rw [← t1, ← t2, ← t3]; rfl
    · refine Eq.trans ?_ (hk.rows.2.2.near _ td).symm
      rw [← t1, ← t2, ← t3]; rfl
    · rw [t4]
      simp only [IMat.act, rowK_sub, IMat.mul]
    · show SamePoint G'.shape (addC (flatToCoords G'.shape (φ v)) (g.rot.mul t)) (flatToCoords G'.shape (φ n))
      have e : addC (addC (g.rot.mul (flatToCoords G.shape v)) g.shift) (g.rot.mul t) = addC (g.rot.mul (addC (flatToCoords G.shape v) t)) g.shift := by
        rw [IMat.mul_add]; simp only [addC]; refine Prod.ext ?_ (Prod.ext ?_ ?_) <;> dsimp only <;> ring
      have a1 := samePoint_addC (hφ v hv).2.2 (g.rot.mul t)
      rw [e] at a1
      exact a1.trans ((samePoint_addC (O.fits.same t6) g.shift).trans (hφ n hn).2.2.symm)
  · intro v w hv hvv hs
    have hs' := (steepest_iff T.noTies T.ready.pos hv hvv).mp hs
    obtain ⟨u', c1, c2⟩ := O.steepest hf hf' (hφ v hv) hs'
    have hw : w < G.shape.size := c1.1
    rw [carries_unique (hφ w hw) c1]
    exact (steepest_iff (O.noTies hf hf' hp T.noTies) T.ready'.pos (hφ v hv).2.1 ((O.vacuum (hφ v hv)).trans hvv)).mpr c2
  · intro v w' hv
    constructor
    · intro hw
      obtain ⟨u, u1, u2⟩ := O.nbr_iff hf hf' (hφ v hv) hw
      exact ⟨u, u1, carries_unique u2 (hφ u u1.1)⟩
    · rintro ⟨u, u1, rfl⟩
      obtain ⟨u', a1, a2⟩ := O.nbr_iff' hf hf' (hφ v hv) u1
      rw [carries_unique (hφ u u1.1) a2]
      exact a1

end runs

/-- **C120** (partial) The neargrid method after a symmetry operation or another choice of the axes, if axes go to axes: the basins, their charges and volumes
and the atoms are carried along, for every gradient field that turns with the crystal.  Missing: operations that carry an axis to a diagonal, and
voxels with several steepest neighbours. -/
theorem C120_neargrid_partial (g : GridOper) (G G' : RunInput K) (A A' : RunAid K) (ε : K) (T : OperRuns g G G' A A' ε) (hk : g.KeepsAxes)
    (hu : ∀ td ∈ G.nbrs, UnitStep td.1) (h1 : G.OneSteepest) (grad grad' : ℕ → K × K × K) (hg : GradCarried g G.shape G'.shape grad grad')
    (o1 o2 o1' o2' : List ℕ) (perm perm' : List ℕ → List ℕ)
    (ho1 : IsSchedule G.shape o1) (ho2 : IsSchedule G.shape o2) (ho1' : IsSchedule G'.shape o1') (ho2' : IsSchedule G'.shape o2')
    (hperm : ∀ l, (perm l).Perm l) (hperm' : ∀ l, (perm' l).Perm l) :
    ∃ F, ∀ fuel ≥ F, ∃ o o', G.run A (.neargrid grad o1 o2 perm) fuel = some o ∧ G'.run A' (.neargrid grad' o1' o2' perm') fuel = some o' ∧
      CarriedBasins g G G' o o' ∧
      (∀ σ, OperAtoms g G G' A A' σ →
        (∀ v w, g.Carries G.shape G'.shape v w → o.labels v ≠ -1 →
          ∃ i < G.atoms.length, o.assignment.atomLabels v = i ∧ o'.assignment.atomLabels w = σ i) ∧
        (∀ v w, g.Carries G.shape G'.shape v w → o.labels v = -1 → o.assignment.atomLabels v = -1 ∧ o'.assignment.atomLabels w = -1) ∧
        (∀ i < G.atoms.length, o'.assignment.charges (σ i) = o.assignment.charges i ∧ o'.assignment.volumes (σ i) = o.assignment.volumes i)) := by
  have O := T.oper
  have hf := T.ready.fits
  have hf' := T.ready'.fits
  have hp : G.shape.Pos := pos_of_lt_size T.ready.voxels
  have hp' : G'.shape.Pos := pos_of_lt_size T.ready'.voxels
  have hu' : ∀ td ∈ G'.nbrs, UnitStep td.1 := by
    intro td' h'
    obtain ⟨td, h2, rfl⟩ := O.mem' h'
    exact mul_unit hk (hu td h2)
  have hex : ∀ v, ∃ w, v < G.shape.size → g.Carries G.shape G'.shape v w := by
    intro v
    by_cases h : v < G.shape.size
    · obtain ⟨w, hw⟩ := carries_exists (g := g) hp' h
      exact ⟨w, fun _ => hw⟩
    · exact ⟨0, fun h' => absurd h' h⟩
  choose φ hφ using hex
  obtain ⟨l0, base, lab, F, k1, hI, hR, hst, hmx⟩ := neargrid_groups G A ε T.ready hu grad o1 o2 perm ho1 ho2 hperm T.twoSided T.noPlateau
    (.ofApart T.apart T.sorted)
  obtain ⟨l0', base', lab', F', k1', kI, kR, kst, kmx⟩ := neargrid_groups G' A' ε T.ready' hu' grad' o1' o2' perm' ho1' ho2' hperm' (O.twoSided T.twoSided)
    (O.noPlateau hf hf' hp T.noPlateau) (.ofApart T.apart' T.sorted')
  have hNC := neargrid_carried T hk h1 hg hφ l0 l0'
  -- following the pointers in both runs
  have hroot : ∀ N v, above G.shape G.ref v ≤ N → v < G.shape.size → G.vacuum v = false →
      ∃ m, G.IsMax m ∧ base v = base m ∧ base' (φ v) = base' (φ m) := by
    intro N
    induction N with
    | zero =>
      intro v hN hv hvv
      by_cases hm : G.IsMax v
      · exact ⟨v, hm, rfl, rfl⟩
      · obtain ⟨w, hw, _, _, hlt, _⟩ := hst v hv hvv hm
        have := above_lt hw hlt
        omega
    | succ N ih =>
      intro v hN hv hvv
      by_cases hm : G.IsMax v
      · exact ⟨v, hm, rfl, rfl⟩
      · obtain ⟨w, hw, ew, hwv, hlt, hb⟩ := hst v hv hvv hm
        obtain ⟨w', hw', ew', _, _, hb'⟩ := kst (φ v) (hφ v hv).2.1 ((O.vacuum (hφ v hv)).trans hvv) (fun h => hm ((O.isMax hf hf' (hφ v hv)).mp h))
        have hcw := (gradPointer_carried T hk h1 (grad v) (hφ v hv) hvv hm).1
        rw [← hg v _ (hφ v hv), ← ew, ← ew'] at hcw
        rw [← carries_unique (hφ w hw) hcw] at hb'
        have := above_lt hw hlt
        obtain ⟨m, hm1, hm2, hm3⟩ := ih w (by omega) hw hwv
        exact ⟨m, hm1, hb.trans hm2, hb'.trans hm3⟩
  have one : ∀ m n, G.IsMax m → G.IsMax n → (base m = base n ↔ m = n) := by
    intro m n hm hn
    rw [hmx m n hm hn]
    refine ⟨?_, Or.inl⟩
    rintro (h | h)
    · exact h
    · by_contra hne
      rw [T.apart m n hm hn hne] at h; cases h
  have one' : ∀ m n, G'.IsMax m → G'.IsMax n → (base' m = base' n ↔ m = n) := by
    intro m n hm hn
    rw [kmx m n hm hn]
    refine ⟨?_, Or.inl⟩
    rintro (h | h)
    · exact h
    · by_contra hne
      rw [T.apart' m n hm hn hne] at h; cases h
  have hbase : PartsCarried φ G.shape.size G.vacuum base base' := by
    intro v w hv hw hvv hwv
    obtain ⟨m, m1, m2, m3⟩ := hroot _ v le_rfl hv hvv
    obtain ⟨n, n1, n2, n3⟩ := hroot _ w le_rfl hw hwv
    rw [m2, n2, m3, n3, one m n m1 n1, one' _ _ ((O.isMax hf hf' (hφ m m1.1)).mpr m1) ((O.isMax hf hf' (hφ n n1.1)).mpr n1)]
    exact ⟨fun e => carries_inj O.fits (hφ m m1.1) (e ▸ hφ n n1.1), fun e => by rw [e]⟩
  have hlab := hNC.parts hI hbase hR kR
  refine ⟨max F F', fun fuel hfu => ?_⟩
  obtain ⟨o, r1, ht, r3, r4, r5, r6, r7, r8, r9, r10⟩ := k1 fuel (le_of_max_le_left hfu)
  obtain ⟨o', s1, kt, s3, s4, s5, s6, s7, s8, s9, s10⟩ := k1' fuel (le_of_max_le_right hfu)
  obtain ⟨m1, m2⟩ := r10 T.apart
  obtain ⟨n1, n2⟩ := s10 T.apart'
  have hS : CarriedBasins g G G' o o' := by
    refine carriedBasins_of O hp hp' r4 r5 s4 s5 ?_ r8 s8 (by rw [m1, n1]; exact carried_count T)
    intro v w v2 w2 hc hc2 nv nv2
    rw [r3 v hc.1, r3 v2 hc2.1, s3 w hc.2.1, s3 w2 hc2.2.1, ← carries_unique (hφ v hc.1) hc, ← carries_unique (hφ v2 hc2.1) hc2]
    exact hlab v v2 hc.1 hc2.1 nv nv2
  exact ⟨o, o', r1, s1, hS, fun σ R => carriedAtoms_of T R hS r4 r5 r6 r9 s9 m1 m2 n1 n2⟩

/-! ## The gradient of the library -/

theorem axisGrad_swap (c a b : K) : axisGrad c b a = -axisGrad c a b := by
  unfold axisGrad
  by_cases h : a ≤ c ∧ b ≤ c
  · rw [if_pos h, if_pos h.symm, neg_zero]
  · rw [if_neg h, if_neg fun h' => h h'.symm]; ring

/-- The simple gradient of the library turns with the crystal if the matrices to lattice coordinates do. -/
theorem gradCarried_simple {g : GridOper} {G G' : RunInput K} (O : OperatedBy g G G') (hk : g.KeepsAxes) (hp : G.shape.Pos) (hp' : G'.shape.Pos)
    (M M' : (K × K × K) × (K × K × K) × (K × K × K)) (hM : ∀ x, matVec M' (g.rot.act x) = g.rot.act (matVec M x)) :
    GradCarried g G.shape G'.shape (gradientSimple G.shape G.ref M) (gradientSimple G'.shape G'.ref M') := by
  intro v w hc
  unfold gradientSimple
  rw [← hM]
  congr 1
  have key : ∀ t, UnitStep t → UnitStep (g.inv.mul t) → G'.ref (nbr G'.shape w t) = G.ref (nbr G.shape v (g.inv.mul t)) := by
    intro t ht ht'
    have := carries_nbr O.fits hc (ht'.fits hp) (by rw [O.fits.right]; exact ht.fits hp')
    rw [O.fits.right] at this
    exact O.ref _ _ this
  have row : ∀ r, AxisRow r → axisGrad (G.ref v) (G.ref (nbr G.shape v r)) (G.ref (nbr G.shape v (negC r))) =
      rowK r (axisGrad (G.ref v) (G.ref (nbr G.shape v (1, 0, 0))) (G.ref (nbr G.shape v (-1, 0, 0))),
        axisGrad (G.ref v) (G.ref (nbr G.shape v (0, 1, 0))) (G.ref (nbr G.shape v (0, -1, 0))),
        axisGrad (G.ref v) (G.ref (nbr G.shape v (0, 0, 1))) (G.ref (nbr G.shape v (0, 0, -1)))) := by
    intro r hr
    rcases hr with rfl | rfl | rfl | rfl | rfl | rfl <;> simp only [rowK, negC, neg_neg, neg_zero, Int.cast_one, Int.cast_zero, Int.cast_neg, one_mul, zero_mul,
      add_zero, zero_add, neg_mul] <;> exact axisGrad_swap _ _ _
  have e1 : g.inv.mul (1, 0, 0) = g.rot.1 := by rw [hk.transposed]; simp [IMat.mul]
  have e2 : g.inv.mul (0, 1, 0) = g.rot.2.1 := by rw [hk.transposed]; simp [IMat.mul]
  have e3 : g.inv.mul (0, 0, 1) = g.rot.2.2 := by rw [hk.transposed]; simp [IMat.mul]
  have n1 : g.inv.mul (-1, 0, 0) = negC g.rot.1 := by rw [hk.transposed]; simp [IMat.mul, negC]
  have n2 : g.inv.mul (0, -1, 0) = negC g.rot.2.1 := by rw [hk.transposed]; simp [IMat.mul, negC]
  have n3 : g.inv.mul (0, 0, -1) = negC g.rot.2.2 := by rw [hk.transposed]; simp [IMat.mul, negC]
  have un : ∀ {r}, AxisRow r → UnitStep (negC r) := by
    intro r h
    rcases h with rfl | rfl | rfl | rfl | rfl | rfl <;> (unfold UnitStep negC; decide)
  rw [key _ (by unfold UnitStep; decide) (by rw [e1]; exact hk.rows.1.unitStep), key (-1, 0, 0) (by unfold UnitStep; decide) (by rw [n1]; exact un hk.rows.1),
    key (0, 1, 0) (by unfold UnitStep; decide) (by rw [e2]; exact hk.rows.2.1.unitStep), key (0, -1, 0) (by unfold UnitStep; decide) (by rw [n2]; exact un hk.rows.2.1),
    key (0, 0, 1) (by unfold UnitStep; decide) (by rw [e3]; exact hk.rows.2.2.unitStep), key (0, 0, -1) (by unfold UnitStep; decide) (by rw [n3]; exact un hk.rows.2.2),
    O.ref _ _ hc, e1, e2, e3, n1, n2, n3, row _ hk.rows.1, row _ hk.rows.2.1, row _ hk.rows.2.2]
  rfl

/-- The overdetermined gradient of the library turns with the crystal if its list of directions is carried along and its matrices, applied to any list of
differences, give the turned vector. -/
theorem gradCarried_over {g : GridOper} {G G' : RunInput K} (O : OperatedBy g G G') (half : List (Coord × K)) (hh : ∀ td ∈ half, StepFits G.shape td.1)
    (hh' : ∀ td ∈ half, StepFits G'.shape (g.rot.mul td.1)) (M M' : (K × K × K) × (K × K × K) × (K × K × K)) (inv inv' : List K × List K × List K)
    (hM : ∀ d : List K, d.length = half.length →
      matVec M' (dotL inv'.1 d, dotL inv'.2.1 d, dotL inv'.2.2 d) = g.rot.act (matVec M (dotL inv.1 d, dotL inv.2.1 d, dotL inv.2.2 d))) :
    GradCarried g G.shape G'.shape (gradientOver G.shape G.ref half M inv)
      (gradientOver G'.shape G'.ref (half.map fun td => (g.rot.mul td.1, td.2)) M' inv') := by
  intro v w hc
  have e : overDiffs G'.shape G'.ref (half.map fun td => (g.rot.mul td.1, td.2)) w = overDiffs G.shape G.ref half v := by
    unfold overDiffs
    rw [List.map_map]
    refine List.map_congr_left fun td htd => ?_
    have c1 := carries_nbr O.fits hc (hh td htd) (hh' td htd)
    have e2 : g.rot.mul (negC td.1) = negC (g.rot.mul td.1) := IMat.mul_neg _ _
    have c2 := carries_nbr O.fits hc (t := negC td.1) (hh td htd).neg (by rw [e2]; exact (hh' td htd).neg)
    rw [e2] at c2
    simp only [negC] at c2
    simp only [Function.comp]
    rw [O.ref _ _ hc, O.ref _ _ c1, O.ref _ _ c2]
  simp only [gradientOver, e]
  exact hM _ (by simp [overDiffs])

/-- The ring with two peaks of the ongrid theorem and its mirror: the hypotheses hold, and both atoms have the same charge. -/
example : OperRuns (mirrorAt 5) mirrorCell mirrorCell (lineAid [1, 4, 2, 2, 4, 1] fun _ _ => false) (lineAid [1, 4, 2, 2, 4, 1] fun _ _ => false) 0 ∧
    (mirrorAt 5).KeepsAxes ∧ (∀ td ∈ mirrorCell.nbrs, UnitStep td.1) ∧ mirrorCell.OneSteepest ∧
    GradCarried (mirrorAt 5) mirrorCell.shape mirrorCell.shape (gradientSimple mirrorCell.shape mirrorCell.ref idMat)
      (gradientSimple mirrorCell.shape mirrorCell.ref idMat) ∧
    OperAtoms (mirrorAt 5) mirrorCell mirrorCell (lineAid [1, 4, 2, 2, 4, 1] fun _ _ => false) (lineAid [1, 4, 2, 2, 4, 1] fun _ _ => false) (fun i => 1 - i) ∧
    (mirrorCell.run (lineAid [1, 4, 2, 2, 4, 1] fun _ _ => false)
      (.neargrid (gradientSimple mirrorCell.shape mirrorCell.ref idMat) (List.range 6) (List.range 6) id) 50).map
      (fun o => (List.range 2).map o.assignment.charges) = some [7 / 6, 7 / 6] := by
  have hk : (mirrorAt 5).KeepsAxes := by
    refine ⟨?_, ?_, rfl⟩ <;> unfold AxisRow mirrorAt <;> decide
  refine ⟨mirrorCell_ready.1, hk, ?_, ?_, ?_, mirrorCell_ready.2.1, by decide +kernel⟩
  · unfold UnitStep; decide
  · have key : ∀ v < 6, ∀ a ∈ ring2, ∀ b ∈ ring2, mirrorCell.ref v < mirrorCell.ref (nbr ⟨6, 1, 1⟩ v a.1) →
        mirrorCell.ref v < mirrorCell.ref (nbr ⟨6, 1, 1⟩ v b.1) → a.1 = b.1 := by
      decide +kernel
    intro v hv _ a ha b hb h1 h2 _ _
    exact key v hv a ha b hb h1 h2
  · refine gradCarried_simple mirrorCell_ready.1.oper hk (pos_of_lt_size mirrorCell_ready.1.ready.voxels) (pos_of_lt_size mirrorCell_ready.1.ready.voxels) idMat idMat fun x => ?_
    simp [matVec, idMat, IMat.act, rowK, mirrorAt]

/-! ## Axes that go to diagonals -/

/-- Another choice of the axes: the second axis is replaced by the difference of the axes. -/
def tiltAxes : GridOper := ⟨((1, 1, 0), (0, 1, 0), (0, 0, 1)), ((1, -1, 0), (0, 1, 0), (0, 0, 1)), (0, 0, 0)⟩

/-- A layer of three times three voxels on square axes. -/
def squareLayer : List ℚ := [9, 37, 5, 17, 8, 32, 29, 31, 21]
/-- The same layer on the tilted axes. -/
def tiltedLayer : List ℚ := [9, 31, 32, 17, 37, 21, 29, 8, 5]

/-- The crystal on the tilted axes, with its lattice and its neighbours. -/
def tiltedRun : RunInput ℚ :=
  { sheetRun 3 3 tiltedLayer with
    nbrs := layerSteps.map fun td => (tiltAxes.rot.mul td.1, td.2)
    lattice := ((3, 0, 0), (-3, 3, 0), (0, 0, 1)) }

/-- `M` is the inverse of the metric of the voxel vectors, as the matrix that the library multiplies the simple gradient with. -/
def InverseMetric (G : RunInput ℚ) (M : (ℚ × ℚ × ℚ) × (ℚ × ℚ × ℚ) × (ℚ × ℚ × ℚ)) : Prop :=
  ∀ x : V3 ℚ, matVec M (dotV (gridMat G.shape G.lattice).1 (vecMat x (gridMat G.shape G.lattice)),
    dotV (gridMat G.shape G.lattice).2.1 (vecMat x (gridMat G.shape G.lattice)), dotV (gridMat G.shape G.lattice).2.2 (vecMat x (gridMat G.shape G.lattice))) = x

theorem tilt_fits : tiltAxes.Fits ⟨3, 3, 1⟩ ⟨3, 3, 1⟩ := by
  have h : ∀ c : Coord, tiltAxes.rot.mul c = (c.1 + c.2.1, c.2.1, c.2.2) := by
    intro c; simp only [tiltAxes, IMat.mul]; refine Prod.ext ?_ (Prod.ext ?_ ?_) <;> dsimp only <;> ring
  have h' : ∀ c : Coord, tiltAxes.inv.mul c = (c.1 - c.2.1, c.2.1, c.2.2) := by
    intro c; simp only [tiltAxes, IMat.mul]; refine Prod.ext ?_ (Prod.ext ?_ ?_) <;> dsimp only <;> ring
  refine ⟨fun c => ?_, fun c => ?_, ?_, ?_⟩
  · rw [h, h']; refine Prod.ext ?_ rfl; dsimp only; ring
  · rw [h, h']; refine Prod.ext ?_ rfl; dsimp only; ring
  · rintro c ⟨⟨x, hx⟩, ⟨y, hy⟩, hz⟩
    rw [h]
    exact ⟨⟨x + y, by dsimp only at *; rw [hx, hy]; push_cast; ring⟩, ⟨y, hy⟩, hz⟩
  · rintro c ⟨⟨x, hx⟩, ⟨y, hy⟩, hz⟩
    rw [h']
    exact ⟨⟨x - y, by dsimp only at *; rw [hx, hy]; push_cast; ring⟩, ⟨y, hy⟩, hz⟩

theorem tilt_runs : OperRuns tiltAxes (sheetRun 3 3 squareLayer) tiltedRun (lineAid squareLayer fun _ _ => false) (lineAid tiltedLayer fun _ _ => false) 0 := by
  have emod : ∀ {x y : ℤ} {n : ℕ}, (∃ a : ℤ, x = y + a * n) → x % n = y % n := by
    rintro x y n ⟨a, rfl⟩
    exact Int.add_mul_emod_self_right y a n
  have copy : ∀ v w, tiltAxes.Carries ⟨3, 3, 1⟩ ⟨3, 3, 1⟩ v w → tiltedLayer.getD w 0 = squareLayer.getD v 0 := by
    intro v w ⟨h1, h2, h3, h4, _⟩
    have key : ∀ w < 9, ∀ v < 9,
        (flatToCoords ⟨3, 3, 1⟩ (w : ℕ)).1 % ((3 : ℕ) : ℤ) = (addC (tiltAxes.rot.mul (flatToCoords ⟨3, 3, 1⟩ (v : ℕ))) tiltAxes.shift).1 % ((3 : ℕ) : ℤ) →
        (flatToCoords ⟨3, 3, 1⟩ (w : ℕ)).2.1 % ((3 : ℕ) : ℤ) = (addC (tiltAxes.rot.mul (flatToCoords ⟨3, 3, 1⟩ (v : ℕ))) tiltAxes.shift).2.1 % ((3 : ℕ) : ℤ) →
        tiltedLayer.getD w 0 = squareLayer.getD v 0 := by decide +kernel
    exact key w h2 v h1 (emod h3) (emod h4)
  have hr := layer_ready 3 3 (by decide) (by decide) squareLayer rfl
  have ht := layer_ready 3 3 (by decide) (by decide) tiltedLayer rfl
  refine ⟨⟨tilt_fits, List.Perm.refl _, rfl, rfl, rfl, copy, copy⟩, hr,
    ⟨ht.voxels, ht.atoms, ?_, ?_, Or.inl rfl, ht.order, ht.sort, ht.rnd⟩, by unfold TwoSided; decide, ?_, ?_,
    fun _ _ _ _ _ => rfl, fun _ _ _ _ _ => rfl, lineAid_sorted _ _, lineAid_sorted _ _⟩
  · show ∀ td ∈ layerSteps.map (fun td => (tiltAxes.rot.mul td.1, td.2)), StepFits ⟨3, 3, 1⟩ td.1
    unfold StepFits; decide
  · show ∀ td ∈ layerSteps.map (fun td => (tiltAxes.rot.mul td.1, td.2)), 0 < td.2
    decide +kernel
  · intro v w hv hw hne
    have key : ∀ v < 9, (∀ t ∈ layerSteps.map Prod.fst, squareLayer.getD (nbr ⟨3, 3, 1⟩ v t) 0 ≤ squareLayer.getD v 0) →
        ∀ t ∈ layerSteps.map Prod.fst, squareLayer.getD (nbr ⟨3, 3, 1⟩ v t) 0 < squareLayer.getD v 0 := by decide +kernel
    obtain ⟨t, ht, rfl⟩ := (isNbr_iff (fitsOf hr.fits) hv.1).mp hw
    exact key v hv.1 (fun t ht => hv.2.2 _ ((isNbr_iff (fitsOf hr.fits) hv.1).mpr ⟨t, ht, rfl⟩)) t ht
  · rintro v w w2 hv - ⟨t, ht, rfl, h1, h2⟩ ⟨t', ht', rfl, h3, h4⟩
    have key : ∀ v < 9, ∀ t ∈ layerSteps, ∀ t' ∈ layerSteps,
        (squareLayer.getD (nbr ⟨3, 3, 1⟩ v t.1) 0 - squareLayer.getD v 0) / t.2 = (squareLayer.getD (nbr ⟨3, 3, 1⟩ v t'.1) 0 - squareLayer.getD v 0) / t'.2 →
        nbr ⟨3, 3, 1⟩ v t.1 = nbr ⟨3, 3, 1⟩ v t'.1 := by decide +kernel
    exact key v hv t ht t' ht' (le_antisymm (h4 t ht) (h2 t' ht'))

/-- **C120** (negative part) The neargrid method depends on the choice of the axes.  A layer of nine voxels with two sharp maxima and no ties, once on square axes and
once on tilted axes, with the gradient of the library, the matrix being the inverse metric of the voxels: the charges of the basins differ. -/
theorem C120_neargrid_axes : ∃ (g : GridOper) (G G' : RunInput ℚ) (A A' : RunAid ℚ) (M M' : (ℚ × ℚ × ℚ) × (ℚ × ℚ × ℚ) × (ℚ × ℚ × ℚ)),
    OperRuns g G G' A A' 0 ∧ (∀ td ∈ G.nbrs, UnitStep td.1) ∧ (∀ td ∈ G'.nbrs, UnitStep td.1) ∧ InverseMetric G M ∧ InverseMetric G' M' ∧
    (G.run A (.neargrid (gradientSimple G.shape G.ref M) (List.range 9) (List.range 9) id) 50).map (fun o => (o.maxima, (List.range 2).map o.basins.charges)) =
      some ([1, 5], [37 / 3, 26 / 3]) ∧
    (G'.run A' (.neargrid (gradientSimple G'.shape G'.ref M') (List.range 9) (List.range 9) id) 50).map (fun o => (o.maxima, (List.range 2).map o.basins.charges)) =
      some ([2, 4], [100 / 9, 89 / 9]) := by
  refine ⟨tiltAxes, _, _, _, _, idMat, ((2, 1, 0), (1, 1, 0), (0, 0, 1)), tilt_runs, by unfold UnitStep; decide, by unfold UnitStep; decide, ?_, ?_,
    by decide +kernel, by decide +kernel⟩
  · intro x
    simp only [matVec, gridMat, vecMat, dotV, idMat, sheetRun]
    norm_num
  · intro x
    simp only [matVec, gridMat, vecMat, dotV, tiltedRun, sheetRun]
    norm_num
    refine Prod.ext ?_ (Prod.ext ?_ ?_) <;> dsimp only <;> ring

end BaderKit
