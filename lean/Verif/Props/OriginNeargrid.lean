import Verif.Props.Origin
/-!
# C116 for the neargrid method

The same crystal on a grid whose origin is moved by whole voxels, for the neargrid method.
-/
set_option linter.unusedSectionVars false
namespace BaderKit
open Finset
variable {K : Type} [Field K] [LinearOrder K] [IsStrictOrderedRing K] [FloorRing K]

/-! ## Specification -/

/-- The gradient field `grad'` is `grad` moved along with the crystal. -/
def GradMoved (s : Shape) (c : Coord) (grad grad' : ℕ → K × K × K) : Prop := ∀ v w, v < s.size → MovedTo s c v w → grad' w = grad v

/-! ## Moved pointers and gradients -/

section pointers
variable {s : Shape} {c : Coord} {data data' : ℕ → K} {nbrs : List (Coord × K)}

theorem bestNeighbor_move (hc : StepFits s c) (hf : ∀ td ∈ nbrs, StepFits s td.1) (hd : ∀ v < s.size, data' (nbr s v c) = data v) {v : ℕ} (hv : v < s.size) :
    bestNeighbor s data' nbrs (nbr s v c) = ((bestNeighbor s data nbrs v).1, nbr s (bestNeighbor s data nbrs v).2 c) := by
  have key : ∀ (l : List (Coord × K)), (∀ td ∈ l, StepFits s td.1) → ∀ (a : K) (t : Coord) (n : ℕ),
      l.foldl (bestNeighborStep s data' (nbr s v c)) (a, t, nbr s n c) =
        ((l.foldl (bestNeighborStep s data v) (a, t, n)).1, (l.foldl (bestNeighborStep s data v) (a, t, n)).2.1,
          nbr s (l.foldl (bestNeighborStep s data v) (a, t, n)).2.2 c) := by
    intro l
    induction l with
    | nil => intro _ a t n; rfl
    | cons td l ih =>
      intro hl a t n
      have htd := hl td (by simp)
      have ih := ih fun x hx => hl x (List.mem_cons_of_mem _ hx)
      simp only [List.foldl_cons]
      have e : bestNeighborStep s data' (nbr s v c) (a, t, nbr s n c) td =
          ((bestNeighborStep s data v (a, t, n) td).1, (bestNeighborStep s data v (a, t, n) td).2.1, nbr s (bestNeighborStep s data v (a, t, n) td).2.2 c) := by
        simp only [bestNeighborStep]
        rw [move_nbr hc htd hv, hd _ (nbr_lt hv htd), hd v hv]
        split_ifs <;> rfl
      rw [e]
      exact ih _ _ _
  unfold bestNeighbor
  rw [key nbrs hf 0 (0, 0, 0) v]

theorem gradPointer_move (hc : StepFits s c) (hf : ∀ td ∈ nbrs, StepFits s td.1) (hd : ∀ v < s.size, data' (nbr s v c) = data v) (g : K × K × K) {v : ℕ}
    (hv : v < s.size) :
    gradPointer s data' nbrs g (nbr s v c) = (nbr s (gradPointer s data nbrs g v).1 c, (gradPointer s data nbrs g v).2) := by
  obtain ⟨m0, m1, m2, m3⟩ := maxGrad_spec g
  simp only [gradPointer]
  rw [bestNeighbor_move hc hf hd hv]
  by_cases hm : maxGrad g < 1 / 10 ^ 30
  · simp only [if_pos hm]
  · have hpos : 0 < maxGrad g := lt_of_lt_of_le (by positivity) (not_lt.mp hm)
    have hw : Within 1 (g.1 / maxGrad g, g.2.1 / maxGrad g, g.2.2 / maxGrad g) := by
      refine ⟨?_, ?_, ?_⟩ <;> simp only [abs_div, abs_of_pos hpos] <;> rw [div_le_one hpos] <;> assumption
    have hu : UnitStep (round3 (g.1 / maxGrad g, g.2.1 / maxGrad g, g.2.2 / maxGrad g)) := ⟨roundHE_one hw.1, roundHE_one hw.2.1, roundHE_one hw.2.2⟩
    have hfit := hu.fits (pos_of_lt_size hv)
    simp only [if_neg hm]
    rw [move_nbr hc hfit hv, hd _ (nbr_lt hv hfit), hd v hv]
    split_ifs <;> rfl

/-- The simple gradient of the library moves along with the crystal. -/
theorem gradientSimple_move (hc : StepFits s c) (hd : ∀ v < s.size, data' (nbr s v c) = data v) (M : (K × K × K) × (K × K × K) × (K × K × K)) {v : ℕ}
    (hv : v < s.size) : gradientSimple s data' M (nbr s v c) = gradientSimple s data M v := by
  have hp := pos_of_lt_size hv
  have key : ∀ t, UnitStep t → data' (nbr s (nbr s v c) t) = data (nbr s v t) := by
    intro t ht
    rw [move_nbr hc (ht.fits hp) hv, hd _ (nbr_lt hv (ht.fits hp))]
  simp only [gradientSimple]
  rw [hd v hv, key _ (by unfold UnitStep; decide), key _ (by unfold UnitStep; decide), key _ (by unfold UnitStep; decide), key _ (by unfold UnitStep; decide),
    key _ (by unfold UnitStep; decide), key _ (by unfold UnitStep; decide)]

/-- The overdetermined gradient of the library moves along with the crystal. -/
theorem gradientOver_move (hc : StepFits s c) (hd : ∀ v < s.size, data' (nbr s v c) = data v) (half : List (Coord × K)) (hh : ∀ td ∈ half, StepFits s td.1)
    (M : (K × K × K) × (K × K × K) × (K × K × K)) (inv : List K × List K × List K) {v : ℕ}
    (hv : v < s.size) : gradientOver s data' half M inv (nbr s v c) = gradientOver s data half M inv v := by
  have key : ∀ t, StepFits s t → data' (nbr s (nbr s v c) t) = data (nbr s v t) := by
    intro t ht
    rw [move_nbr hc ht hv, hd _ (nbr_lt hv ht)]
  have e : overDiffs s data' half (nbr s v c) = overDiffs s data half v := by
    unfold overDiffs
    refine List.map_congr_left fun td htd => ?_
    have h1 := hh td htd
    have h2 : StepFits s (-td.1.1, -td.1.2.1, -td.1.2.2) := h1.neg
    simp only
    rw [hd v hv, key _ h1, key _ h2]
  simp only [gradientOver, e]

end pointers

/-! ## Moved trajectories and refinement -/

/-- Two inputs of the refinement that differ by a move of the origin. -/
structure NearMoved (c : Coord) (I I' : NearIn K) (vac vac' : ℕ → Bool) : Prop where
  fits : StepFits I.s c
  shape : I'.s = I.s
  nbrs : I'.nbrs = I.nbrs
  data : ∀ v < I.s.size, I'.data (nbr I.s v c) = I.data v
  maxm : ∀ v < I.s.size, I'.maxm (nbr I.s v c) = I.maxm v
  grad : ∀ v < I.s.size, I'.grad (nbr I.s v c) = I.grad v
  vacuum : ∀ v < I.s.size, vac' (nbr I.s v c) = vac v

theorem isNbr_move {s : Shape} {c : Coord} (hc : StepFits s c) {ts : List Coord} (hts : ∀ t ∈ ts, StepFits s t) {v : ℕ} (hv : v < s.size) (w' : ℕ) :
    IsNbr s ts (nbr s v c) w' ↔ ∃ w, IsNbr s ts v w ∧ w' = nbr s w c := by
  rw [isNbr_iff hts (nbr_lt hv hc)]
  constructor
  · rintro ⟨t, ht, rfl⟩
    exact ⟨nbr s v t, (isNbr_iff hts hv).mpr ⟨t, ht, rfl⟩, move_nbr hc (hts t ht) hv⟩
  · rintro ⟨w, hw, rfl⟩
    obtain ⟨t, ht, rfl⟩ := (isNbr_iff hts hv).mp hw
    exact ⟨t, ht, move_nbr hc (hts t ht) hv⟩

section near
variable {c : Coord} {I I' : NearIn K} {vac vac' : ℕ → Bool}

theorem NearMoved.steepest (h : NearMoved c I I' vac vac') (hf : ∀ td ∈ I.nbrs, StepFits I.s td.1) {v w : ℕ} (hv : v < I.s.size)
    (hs : SteepestNbr I.s I.data I.nbrs v w) : SteepestNbr I'.s I'.data I'.nbrs (nbr I.s v c) (nbr I.s w c) := by
  obtain ⟨l1, td, l2, hl, hw, hlt, hm, hb⟩ := hs
  have htd : td ∈ I.nbrs := by rw [hl]; simp
  rw [h.shape, h.nbrs]
  have hw' : w < I.s.size := by rw [hw]; exact nbr_lt hv (hf td htd)
  have e : ∀ td' ∈ I.nbrs, I'.data (nbr I.s (nbr I.s v c) td'.1) = I.data (nbr I.s v td'.1) := by
    intro td' h'
    rw [move_nbr h.fits (hf td' h') hv, h.data _ (nbr_lt hv (hf td' h'))]
  refine ⟨l1, td, l2, hl, ?_, ?_, ?_, ?_⟩
  · rw [move_nbr h.fits (hf td htd) hv, hw]
  · rwa [h.data v hv, h.data w hw']
  · intro td' h'
    rw [e td' h', h.data v hv, h.data w hw']
    exact hm td' h'
  · intro td' h'
    rw [e td' (by rw [hl]; simp [h']), h.data v hv, h.data w hw']
    exact hb td' h'

theorem NearMoved.target (h : NearMoved c I I' vac vac') {v n : ℕ} {td td' : K × K × K} (hv : v < I.s.size) (ht : NearTarget I v td n td') :
    NearTarget I' (nbr I.s v c) td (nbr I.s n c) td' := by
  obtain ⟨t, h1, h2, h3, h4, h5, h6⟩ := ht
  unfold NearTarget
  simp only [h.grad v hv, h.shape]
  refine ⟨t, h1, h2, h3, h4, nbr_lt h5 h.fits, ?_⟩
  rw [flatToCoords_nbr hv h.fits, flatToCoords_nbr h5 h.fits]
  have a1 := samePoint_addC (wrapPoint_same I.s (addC (flatToCoords I.s v) c)).symm t
  have a2 := samePoint_addC h6 c
  have e : addC (addC (flatToCoords I.s v) c) t = addC (addC (flatToCoords I.s v) t) c := by
    simp only [addC, Prod.mk.injEq]; omega
  rw [e] at a1
  exact (a1.trans a2).trans (wrapPoint_same I.s _)

theorem NearMoved.traj (h : NearMoved c I I' vac vac') (hf : ∀ td ∈ I.nbrs, StepFits I.s td.1) {v m k : ℕ} {td : K × K × K} {path : List ℕ}
    (ht : NearTraj I vac v td path k m) : v < I.s.size → (∀ p ∈ path, p < I.s.size) →
    NearTraj I' vac' (nbr I.s v c) td (path.map fun p => nbr I.s p c) k (nbr I.s m c) := by
  have hmem : ∀ (n v : ℕ) (path : List ℕ), n < I.s.size → v < I.s.size → (∀ p ∈ path, p < I.s.size) →
      (nbr I.s n c ∈ nbr I.s v c :: path.map (fun p => nbr I.s p c) ↔ n ∈ v :: path) := by
    intro n v path hn hv hp
    rw [← List.map_cons (f := fun p => nbr I.s p c), List.mem_map]
    constructor
    · rintro ⟨p, hpm, e⟩
      have hlt : p < I.s.size := by
        rcases List.mem_cons.mp hpm with rfl | h'
        · exact hv
        · exact hp p h'
      rw [← move_inj h.fits hlt hn e]; exact hpm
    · exact fun hm => ⟨n, hm, rfl⟩
  induction ht with
  | top hm => exact fun hv _ => .top ((h.maxm _ hv).trans hm)
  | @near v td path n td' k m hm htg hn hvn _ ih =>
    intro hv hp
    have hnl : n < I.s.size := by obtain ⟨_, _, _, _, _, h5, _⟩ := htg; exact h5
    refine .near ((h.maxm _ hv).trans hm) (h.target hv htg) (fun hx => hn ((hmem n v path hnl hv hp).mp hx)) ((h.vacuum n hnl).trans hvn) ?_
    exact ih hnl (by intro p hpm; rcases List.mem_cons.mp hpm with rfl | h'; exacts [hv, hp p h'])
  | @ongrid v td path n td' w k m hm htg hn hs _ ih =>
    intro hv hp
    have hnl : n < I.s.size := by obtain ⟨_, _, _, _, _, h5, _⟩ := htg; exact h5
    have hwl : w < I.s.size := by
      obtain ⟨l1, td, l2, hl, hw, _⟩ := hs
      rw [hw]; exact nbr_lt hv (hf td (by rw [hl]; simp))
    refine .ongrid ((h.maxm _ hv).trans hm) (h.target hv htg) ?_ (h.steepest hf hv hs)
      (ih hwl (by intro p hpm; rcases List.mem_cons.mp hpm with rfl | h'; exacts [hv, hp p h']))
    rcases hn with hn | hn
    · exact Or.inl ((hmem n v path hnl hv hp).mpr hn)
    · exact Or.inr ((h.vacuum n hnl).trans hn)

theorem NearMoved.climbs (h : NearMoved c I I' vac vac') (hf : ∀ td ∈ I.nbrs, StepFits I.s td.1) {v m : ℕ} (hv : v < I.s.size) (ht : ClimbsTo I vac v m) :
    ClimbsTo I' vac' (nbr I.s v c) (nbr I.s m c) := by
  obtain ⟨k, hk⟩ := ht
  exact ⟨k, h.traj hf hk hv (by simp)⟩

/-- Both runs put the same voxels together. -/
def PartsMoved (c : Coord) (I : NearIn K) (vac : ℕ → Bool) (base base' : ℕ → ℤ) : Prop :=
  ∀ v w, v < I.s.size → w < I.s.size → vac v = false → vac w = false → (base' (nbr I.s v c) = base' (nbr I.s w c) ↔ base v = base w)

variable {base base' : ℕ → ℤ}

theorem NearMoved.edge (h : NearMoved c I I' vac vac') (hI : NearInput I vac) (hb : PartsMoved c I vac base base') {v : ℕ} (hv : v < I.s.size) :
    EdgeStart I' vac' base' (nbr I.s v c) ↔ EdgeStart I vac base v := by
  have hts : ∀ t ∈ I.nbrs.map Prod.fst, StepFits I.s t := by
    intro t ht; obtain ⟨td, htd, rfl⟩ := List.mem_map.mp ht; exact hI.fits td htd
  unfold EdgeStart
  rw [h.shape, h.nbrs, h.vacuum v hv, h.maxm v hv]
  constructor
  · rintro ⟨_, h2, h3, w', hw', h4, h5⟩
    obtain ⟨w, hw, rfl⟩ := (isNbr_move h.fits hts hv w').mp hw'
    rw [h.vacuum w hw.1] at h4
    exact ⟨hv, h2, h3, w, hw, h4, fun e => h5 ((hb w v hw.1 hv h4 h2).mpr e)⟩
  · rintro ⟨_, h2, h3, w, hw, h4, h5⟩
    exact ⟨nbr_lt hv h.fits, h2, h3, _, (isNbr_move h.fits hts hv _).mpr ⟨w, hw, rfl⟩, (h.vacuum w hw.1).trans h4,
      fun e => h5 ((hb w v hw.1 hv h4 h2).mp e)⟩

theorem refined_lt {labels : ℕ → ℤ} {v : ℕ} (h : Refined I vac labels (EdgeStart I vac labels) v) : v < I.s.size := by
  cases h with
  | start h => exact h.1
  | next _ _ _ hn _ => exact hn.1

theorem climbs_top (hI : NearInput I vac) {v m : ℕ} (hv : v < I.s.size) (hvv : vac v = false) (h : ClimbsTo I vac v m) : m < I.s.size ∧ vac m = false := by
  obtain ⟨m', _, h2, h3, _⟩ := C21_climb I vac hI v hv hvv
  rw [h2 m h]
  exact ⟨((hI.maxima m').mp h3).1, ((hI.maxima m').mp h3).2.1⟩

theorem NearMoved.refined (h : NearMoved c I I' vac vac') (hI : NearInput I vac) (hb : PartsMoved c I vac base base') {v : ℕ} (hv : v < I.s.size) :
    Refined I' vac' base' (EdgeStart I' vac' base') (nbr I.s v c) ↔ Refined I vac base (EdgeStart I vac base) v := by
  have hts : ∀ t ∈ I.nbrs.map Prod.fst, StepFits I.s t := by
    intro t ht; obtain ⟨td, htd, rfl⟩ := List.mem_map.mp ht; exact hI.fits td htd
  constructor
  · have key : ∀ u, Refined I' vac' base' (EdgeStart I' vac' base') u → ∀ v, v < I.s.size → nbr I.s v c = u →
        Refined I vac base (EdgeStart I vac base) v := by
      intro u hu
      induction hu with
      | start he => intro v hv e; subst e; exact .start ((h.edge hI hb hv).mp he)
      | @next x y m hx hcl hne hn hvy ih =>
        intro v hv e
        subst e
        have hxl := refined_lt hx
        rw [h.shape] at hxl
        obtain ⟨x, hxs, rfl⟩ := move_surj h.fits hxl
        have hR := ih x hxs rfl
        have hxv := refined_not_vac hR
        obtain ⟨n, ⟨k, _, hk⟩, _⟩ := C21_climb I vac hI x hxs hxv
        have hmm := climbsTo_unique hcl (h.climbs hI.fits hxs ⟨k, hk⟩)
        subst hmm
        obtain ⟨hnl, hnv⟩ := climbs_top hI hxs hxv ⟨k, hk⟩
        rw [h.shape, h.nbrs] at hn
        obtain ⟨w, hw, e⟩ := (isNbr_move h.fits hts hxs _).mp hn
        have hwv : v = w := move_inj h.fits hv hw.1 e
        subst hwv
        rw [h.vacuum v hv] at hvy
        exact .next hR ⟨k, hk⟩ (fun e => hne ((hb n x hnl hxs hnv hxv).mpr e)) hw hvy
    exact fun hr => key _ hr v hv rfl
  · intro hr
    clear hv
    induction hr with
    | start he => exact .start ((h.edge hI hb he.1).mpr he)
    | @next x y m hx hcl hne hn hvy ih =>
      have hxl := refined_lt hx
      have hxv := refined_not_vac hx
      obtain ⟨hml, hmv⟩ := climbs_top hI hxl hxv hcl
      refine .next ih (h.climbs hI.fits hxl hcl) (fun e => hne ((hb m x hml hxl hmv hxv).mp e)) ?_ ((h.vacuum y hn.1).trans hvy)
      rw [h.shape, h.nbrs]
      exact (isNbr_move h.fits hts hxl _).mpr ⟨y, hn, rfl⟩

/-- If the partitions before the refinement are the same, so are those after it. -/
theorem NearMoved.parts (h : NearMoved c I I' vac vac') (hI : NearInput I vac) (hb : PartsMoved c I vac base base') {lab lab' : ℕ → ℤ}
    (hR : RefineSpec I vac base lab) (hR' : RefineSpec I' vac' base' lab') : PartsMoved c I vac lab lab' := by
  have key : ∀ v < I.s.size, vac v = false → ∃ e < I.s.size, vac e = false ∧ lab v = base e ∧ lab' (nbr I.s v c) = base' (nbr I.s e c) := by
    intro v hv hvv
    have hn : nbr I.s v c < I'.s.size := by rw [h.shape]; exact nbr_lt hv h.fits
    obtain ⟨_, a2, a3⟩ := hR v hv
    obtain ⟨_, b2, b3⟩ := hR' _ hn
    by_cases hr : Refined I vac base (EdgeStart I vac base) v
    · obtain ⟨m, ⟨k, _, hk⟩, _⟩ := C21_climb I vac hI v hv hvv
      obtain ⟨hml, hmv⟩ := climbs_top hI hv hvv ⟨k, hk⟩
      exact ⟨m, hml, hmv, a2 hr m ⟨k, hk⟩, b2 ((h.refined hI hb hv).mpr hr) _ (h.climbs hI.fits hv ⟨k, hk⟩)⟩
    · exact ⟨v, hv, hvv, a3 hr, b3 fun hr' => hr ((h.refined hI hb hv).mp hr')⟩
  intro v w hv hw hvv hwv
  obtain ⟨e, e1, e2, e3, e4⟩ := key v hv hvv
  obtain ⟨f, f1, f2, f3, f4⟩ := key w hw hwv
  rw [e3, e4, f3, f4]
  exact hb e f e1 f1 e2 f2

end near

/-! ## One run -/

/-- What the refinement of a run is given, after the initial labels `labels0`. -/
def RunInput.nearIn (G : RunInput K) (A : RunAid K) (grad : ℕ → K × K × K) (labels0 : ℕ → ℤ) : NearIn K :=
  let M := getMaxima G.shape G.ref (G.nbrs.map Prod.fst) G.vacuum false A.order
  ⟨G.shape, G.ref, G.nbrs, M, (gradientPointers G.shape G.ref G.nbrs grad G.vacuum M (List.range G.shape.size) labels0).2⟩

theorem neargrid_groups (G : RunInput K) (A : RunAid K) (ε : K) (H : RunReady G A ε) (hu : ∀ td ∈ G.nbrs, UnitStep td.1)
    (grad : ℕ → K × K × K) (o1 o2 : List ℕ) (perm : List ℕ → List ℕ) (ho1 : IsSchedule G.shape o1) (ho2 : IsSchedule G.shape o2)
    (hperm : ∀ l, (perm l).Perm l) (hs : TwoSided G.nbrs) (hP : G.NoPlateau) (hG : Grouped G A) :
    ∃ (labels0 base lab : ℕ → ℤ) (F : ℕ), (∀ fuel ≥ F, ∃ o, G.run A (.neargrid grad o1 o2 perm) fuel = some o ∧ RunTotals G A.rnd ε o ∧
        (∀ v < G.shape.size, o.labels v = lab v) ∧
        (∀ v < G.shape.size, G.vacuum v = true → o.labels v = -1) ∧
        (∀ v < G.shape.size, G.vacuum v = false → 0 ≤ o.labels v ∧ o.labels v < o.maxima.length) ∧
        (∀ v < G.shape.size, G.vacuum v = false → ∃ m, G.IsMax m ∧ o.labels v = o.labels m) ∧
        (∀ b : ℕ, b < o.maxima.length → ∃ v < G.shape.size, o.labels v = b) ∧
        o.basins = basinChargesVolumes G.shape G.charge o.labels G.volume ∧
        assignBasins A.root G.lattice G.atoms (o.maxima.map A.place) o.labels
          ((List.range o.maxima.length).map fun b => A.rnd (o.basins.charges b))
          ((List.range o.maxima.length).map fun b => A.rnd (o.basins.volumes b)) = some o.assignment ∧
        ((∀ a b, G.IsMax a → G.IsMax b → a ≠ b → A.same a b = false) →
          o.maxima = maximaVox G.shape (getMaxima G.shape G.ref (G.nbrs.map Prod.fst) G.vacuum false A.order) ∧
          ∀ i (hi : i < o.maxima.length), o.labels o.maxima[i] = i)) ∧
      NearInput (G.nearIn A grad labels0) G.vacuum ∧ RefineSpec (G.nearIn A grad labels0) G.vacuum base lab ∧
      (∀ v < G.shape.size, G.vacuum v = false → ¬ G.IsMax v → ∃ w < G.shape.size, w = (gradPointer G.shape G.ref G.nbrs (grad v) v).1 ∧
        G.vacuum w = false ∧ G.ref v < G.ref w ∧ base v = base w) ∧
      (∀ a b, G.IsMax a → G.IsMax b → (base a = base b ↔ a = b ∨ A.same a b = true)) := by
  have hup : UpClosedLe G.shape G.ref (G.nbrs.map Prod.fst) G.vacuum := fun v _ hv w _ hle => H.vacuum.up v w hv hle
  set M := getMaxima G.shape G.ref (G.nbrs.map Prod.fst) G.vacuum false A.order with hMd
  have hM : ∀ v, M v = true ↔ G.IsMax v := getMaxima_isMax G A H
  have hMf : ∀ v, ¬ G.IsMax v → M v = false := fun v hv => by
    cases h : M v with
    | false => rfl
    | true => exact absurd ((hM v).mp h) hv
  have hsort := H.sort (maximaVox G.shape M)
  obtain ⟨res, F1, hF1, hval, hsm, hid⟩ := C15_init_labels G.shape G.ref G.nbrs G.vacuum M A.same A.cand _ H.fits H.pos hM hup hsort
  obtain ⟨base, lab, ⟨hn, h1, h2, h3, h4, h5⟩, hI, hR, hstep, hmx⟩ := neargrid_detail G.shape G.ref G.nbrs grad G.vacuum M A.same G.numVacuum res.labels
    res.reps H.voxels hu H.pos hM (fun v _ hv w _ hlt => H.vacuum.up v w hv hlt.le) G.numVacuum_zero hval
  have hgr := groups_iff H.fits hs hP hG hM hval (fun v hv hex => hsm (hG.sorted _) v hv (noFalseMax hM hP v) hex) hsort
  obtain ⟨F2, hF2⟩ := hn o1 o2 perm ho1 ho2 hperm
  refine ⟨res.labels, base, lab, max F1 F2, fun fuel hf => ?_, hI, hR, fun v hv hvv hm => hstep v hv hvv (hMf v hm), fun a b ha hb => ?_⟩
  · obtain ⟨lab', e2, hl⟩ := hF2 fuel (le_of_max_le_right hf)
    have e1 := hF1 fuel (le_of_max_le_left hf)
    have g1 : ∀ v < G.shape.size, G.vacuum v = true → lab' v = -1 := fun v hv hvac => by rw [hl v hv]; exact h1 v hv hvac
    have g2 : ∀ v < G.shape.size, G.vacuum v = false → 0 ≤ lab' v ∧ lab' v < res.reps.length :=
      fun v hv hvac => by rw [hl v hv]; exact (h2 v hv hvac).1
    obtain ⟨asg, k1, k2, _, _⟩ := label_core G A ε H lab' res.reps g1 g2
    refine ⟨⟨lab', _, res.reps, asg⟩, ?_, k2, hl, g1, g2, ?_, ?_, rfl, k1, ?_⟩
    · simp only [RunInput.run, ← hMd, e1, RunInput.method, e2, Option.map_some, Option.bind_eq_bind, Option.bind_some]
      rw [k1]; rfl
    · intro v hv hvv
      obtain ⟨_, m, hm, e, _⟩ := h2 v hv hvv
      have hmM := (hM m).mp hm
      exact ⟨m, hmM, by show lab' v = lab' m; rw [hl v hv, hl m hmM.1, e]⟩
    · intro b hb
      obtain ⟨v, hv, e⟩ := h4 b hb
      exact ⟨v, hv, by show lab' v = b; rw [hl v hv, e]⟩
    · intro hno
      have hfix : ∀ v, M v = true → res.labels v = v := by
        intro v hv
        obtain ⟨r, e1, e2, e3, _⟩ := hval.rep v hv
        have := (hgr v r ((hM v).mp hv) ((hM r).mp e2)).mp (by rw [e1, e3])
        rcases this with h | h
        · rw [e1, ← h]
        · by_cases hvr : v = r
          · rw [e1, ← hvr]
          · rw [hno v r ((hM v).mp hv) ((hM r).mp e2) hvr] at h; cases h
      have hreps := hid hfix
      refine ⟨hreps, fun i hi => ?_⟩
      have hi' : i < res.reps.length := hi
      have hpw : res.reps.Pairwise (· < ·) := by rw [hreps]; exact List.pairwise_lt_range.filter _
      have hmem : res.reps[i] < G.shape.size := by
        have hall : ∀ x ∈ res.reps, x < G.shape.size := fun x hx => by
          rw [hreps, mem_maximaVox] at hx
          exact hx.1
        exact hall _ (List.getElem_mem hi')
      show lab' res.reps[i] = i
      rw [hl _ hmem]
      exact order_of_ranks hM hval (fun v hv hvv => (h2 v hv hvv).1) h5 hpw i hi'
  · rw [hmx a b ((hM a).mpr ha) ((hM b).mpr hb)]
    exact hgr a b ha hb

/-! ## The theorems -/

theorem neargrid_moved {c : Coord} {G G' : RunInput K} {A A' : RunAid K} {ε : K} (T : TwoRuns c G G' A A' ε) {grad grad' : ℕ → K × K × K}
    (hg : GradMoved G.shape c grad grad') (l l' : ℕ → ℤ) : NearMoved c (G.nearIn A grad l) (G'.nearIn A' grad' l') G.vacuum G'.vacuum := by
  have hf := T.moved.fits
  have hM := getMaxima_isMax G A T.ready
  have hM' := getMaxima_isMax G' A' T.ready'
  have hmm : ∀ v < G.shape.size, getMaxima G'.shape G'.ref (G'.nbrs.map Prod.fst) G'.vacuum false A'.order (nbr G.shape v c) =
      getMaxima G.shape G.ref (G.nbrs.map Prod.fst) G.vacuum false A.order v := fun v hv => by
    rw [Bool.eq_iff_iff, hM, hM', T.moved.isMax T.ready.fits hv]
  refine ⟨hf, T.moved.shape, T.moved.nbrs, fun v hv => T.moved.ref' hv, hmm, fun v hv => ?_, fun v hv => T.moved.vacuum hv⟩
  have hv' : v < G.shape.size := hv
  show (gradientPointers G'.shape G'.ref G'.nbrs grad' G'.vacuum _ (List.range G'.shape.size) l').2 (nbr G.shape v c) =
    (gradientPointers G.shape G.ref G.nbrs grad G.vacuum _ (List.range G.shape.size) l).2 v
  rw [(gradientPointers_apply _ _ _ _ _ _ _ _ _).2, (gradientPointers_apply _ _ _ _ _ _ _ _ _).2, hmm v hv', T.moved.vacuum hv', T.moved.shape, T.moved.nbrs,
    hg v _ hv' ((movedTo_iff hf hv').mpr rfl), gradPointer_move hf T.ready.fits (fun v hv => T.moved.ref' hv) _ hv']
  simp [hv', nbr_lt hv' hf]

/-- **C116** (partial) The neargrid method does not depend on the origin of the grid, for every gradient field that moves along with the crystal, as both
gradients of the library do.  Missing: crystals with flat maxima, as for the ongrid method (`C116_plateau`). -/
theorem C116_neargrid_partial (c : Coord) (G G' : RunInput K) (A A' : RunAid K) (ε : K) (T : TwoRuns c G G' A A' ε) (hu : ∀ td ∈ G.nbrs, UnitStep td.1)
    (grad grad' : ℕ → K × K × K) (hg : GradMoved G.shape c grad grad') (o1 o2 o1' o2' : List ℕ) (perm perm' : List ℕ → List ℕ)
    (ho1 : IsSchedule G.shape o1) (ho2 : IsSchedule G.shape o2) (ho1' : IsSchedule G.shape o1') (ho2' : IsSchedule G.shape o2')
    (hperm : ∀ l, (perm l).Perm l) (hperm' : ∀ l, (perm' l).Perm l) :
    ∃ F, ∀ fuel ≥ F, ∃ o o', G.run A (.neargrid grad o1 o2 perm) fuel = some o ∧ G'.run A' (.neargrid grad' o1' o2' perm') fuel = some o' ∧
      SameBasins c G o o' ∧
      (A'.root = A.root → A'.rnd = A.rnd → List.Forall₂ (SiteMoved G.shape c) G.atoms G'.atoms →
        (∀ m m', G.IsMax m → MovedTo G.shape c m m' → SiteMoved G.shape c (A.place m) (A'.place m')) →
        (∀ a b, G.IsMax a → G.IsMax b → a ≠ b → A.same a b = false) →
        (∀ v v', v < G.shape.size → MovedTo G.shape c v v' → o'.assignment.atomLabels v' = o.assignment.atomLabels v) ∧
        o'.assignment.charges = o.assignment.charges ∧ o'.assignment.volumes = o.assignment.volumes) := by
  have hf := T.moved.fits
  obtain ⟨l0, base, lab, F, h1, hI, hR, hst, hmx⟩ := neargrid_groups G A ε T.ready hu grad o1 o2 perm ho1 ho2 hperm T.twoSided T.noPlateau T.grouped
  obtain ⟨l0', base', lab', F', k1, kI, kR, kst, kmx⟩ := neargrid_groups G' A' ε T.ready' (by rw [T.moved.nbrs]; exact hu) grad' o1' o2' perm'
    (by rw [T.moved.shape]; exact ho1') (by rw [T.moved.shape]; exact ho2') hperm' (by rw [T.moved.nbrs]; exact T.twoSided) T.noPlateau' T.grouped'
  have hn : ∀ v < G.shape.size, nbr G.shape v c < G'.shape.size := fun v hv => by rw [T.moved.shape]; exact nbr_lt hv hf
  have hNM := neargrid_moved T hg l0 l0'
  -- following the pointers in both runs
  have hroot : ∀ N v, above G.shape G.ref v ≤ N → v < G.shape.size → G.vacuum v = false →
      ∃ m, G.IsMax m ∧ base v = base m ∧ base' (nbr G.shape v c) = base' (nbr G.shape m c) := by
    intro N
    induction N with
    | zero =>
      intro v hN hv hvv
      by_cases hm : G.IsMax v
      · exact ⟨v, hm, rfl, rfl⟩
      · obtain ⟨w, hw, _, _, hlt, _⟩ := hst v hv hvv hm
        have := above_lt hw hlt
        omega
    | succ N ih =>
      intro v hN hv hvv
      by_cases hm : G.IsMax v
      · exact ⟨v, hm, rfl, rfl⟩
      · obtain ⟨w, hw, ew, hwv, hlt, hb⟩ := hst v hv hvv hm
        obtain ⟨w', hw', ew', _, _, hb'⟩ := kst _ (hn v hv) ((T.moved.vacuum hv).trans hvv) (fun h => hm ((T.moved.isMax T.ready.fits hv).mp h))
        rw [T.moved.shape, T.moved.nbrs, hg v _ hv ((movedTo_iff hf hv).mpr rfl), gradPointer_move hf T.ready.fits (fun v hv => T.moved.ref' hv) _ hv] at ew'
        simp only [← ew] at ew'
        have := above_lt hw hlt
        obtain ⟨m, hm1, hm2, hm3⟩ := ih w (by omega) hw hwv
        exact ⟨m, hm1, hb.trans hm2, by rw [hb', ew', hm3]⟩
  have hbase : PartsMoved c (G.nearIn A grad l0) G.vacuum base base' := by
    intro v w hv hw hvv hwv
    obtain ⟨m, m1, m2, m3⟩ := hroot _ v le_rfl hv hvv
    obtain ⟨n, n1, n2, n3⟩ := hroot _ w le_rfl hw hwv
    show base' (nbr G.shape v c) = base' (nbr G.shape w c) ↔ _
    rw [m2, n2, m3, n3, hmx m n m1 n1, kmx _ _ ((T.moved.isMax T.ready.fits m1.1).mpr m1) ((T.moved.isMax T.ready.fits n1.1).mpr n1), T.same' m1 n1]
    constructor
    · rintro (h | h)
      · exact Or.inl (move_inj hf m1.1 n1.1 h)
      · exact Or.inr h
    · rintro (h | h)
      · exact Or.inl (by rw [h])
      · exact Or.inr h
  have hlab := hNM.parts hI hbase hR kR
  refine ⟨max F F', fun fuel hfu => ?_⟩
  obtain ⟨o, r1, ht, r3, r4, r5, r6, r7, r8, r9, r10⟩ := h1 fuel (le_of_max_le_left hfu)
  obtain ⟨o', s1, kt, s3, s4, s5, s6, s7, s8, s9, s10⟩ := k1 fuel (le_of_max_le_right hfu)
  have hS : SameBasins c G o o' := by
    refine sameBasins_of T.moved r4 r5 r7 (fun v hv => s4 _ (hn v hv)) (fun v hv => s5 _ (hn v hv)) ?_ ?_ r8 s8
    · intro b hb
      obtain ⟨w, hw, e⟩ := s7 b hb
      obtain ⟨v, hv, rfl⟩ := move_surj hf (by rw [← T.moved.shape]; exact hw)
      exact ⟨v, hv, e⟩
    · intro v w hv hw hvv hwv
      rw [r3 v hv, r3 w hw, s3 _ (hn v hv), s3 _ (hn w hw)]
      exact hlab v w hv hw hvv hwv
  refine ⟨o, o', r1, s1, hS, fun hrt hrnd hat hpl hno => ?_⟩
  obtain ⟨m1, m2⟩ := r10 hno
  obtain ⟨n1, n2⟩ := s10 fun a b ha hb hne => by
    obtain ⟨a, ham, rfl⟩ := T.back ha
    obtain ⟨b, hbm, rfl⟩ := T.back hb
    rw [T.same' ham hbm]
    exact hno a b ham hbm fun e => hne (by rw [e])
  exact atoms_of T hrt hrnd hat hpl ht.vacuum kt.vacuum r5 r6 r9 s9 m1 m2 n1 n2 hS

/-- The gradients of the library move along, so that the neargrid theorem applies to them. -/
theorem gradMoved_simple {c : Coord} {G G' : RunInput K} (h : OriginMoved c G G') (M : (K × K × K) × (K × K × K) × (K × K × K)) :
    GradMoved G.shape c (gradientSimple G.shape G.ref M) (gradientSimple G'.shape G'.ref M) := by
  intro v w hv hm
  obtain rfl := (movedTo_iff h.fits hv).mp hm
  rw [h.shape]
  exact gradientSimple_move h.fits (fun v hv => h.ref' hv) M hv

theorem gradMoved_over {c : Coord} {G G' : RunInput K} (h : OriginMoved c G G') (half : List (Coord × K)) (hh : ∀ td ∈ half, StepFits G.shape td.1)
    (M : (K × K × K) × (K × K × K) × (K × K × K)) (inv : List K × List K × List K) :
    GradMoved G.shape c (gradientOver G.shape G.ref half M inv) (gradientOver G'.shape G'.ref half M inv) := by
  intro v w hv hm
  obtain rfl := (movedTo_iff h.fits hv).mp hm
  rw [h.shape]
  exact gradientOver_move h.fits (fun v hv => h.ref' hv) half hh M inv hv

/-- The ring of the ongrid example under the neargrid method: the hypotheses hold and the two runs report the same atoms. -/
example : TwoRuns (3, 0, 0) (lineRun sharpList [(0, 0, 0), (1 / 2, 0, 0)] (some (3 / 16))) (lineRun sharpMoved [(3 / 8, 0, 0), (7 / 8, 0, 0)] (some (3 / 16)))
      (lineAid sharpList (sharpSame 2 4 false)) (lineAid sharpMoved (sharpSame 5 7 false)) 0 ∧
    (∀ td ∈ (lineRun sharpList [(0, 0, 0), (1 / 2, 0, 0)] (some (3 / 16))).nbrs, UnitStep td.1) ∧
    GradMoved ⟨8, 1, 1⟩ (3, 0, 0) (gradientSimple ⟨8, 1, 1⟩ (fun v => sharpList.getD v 0) idMat) (gradientSimple ⟨8, 1, 1⟩ (fun v => sharpMoved.getD v 0) idMat) ∧
    ((lineRun sharpList [(0, 0, 0), (1 / 2, 0, 0)] (some (3 / 16))).run (lineAid sharpList (sharpSame 2 4 false))
      (.neargrid (gradientSimple ⟨8, 1, 1⟩ (fun v => sharpList.getD v 0) idMat) (List.range 8) (List.range 8) id) 50).map
      (lineNumbers 8 2) = some ([0, 2, 4, 6], [0, 0, 1, -1, 2, 3, 3, 3], [7 / 8, 3 / 8, 1 / 2, 5 / 4], [0, 0, 0, -1, 1, 0, 0, 0], [5 / 2, 1 / 2]) ∧
    ((lineRun sharpMoved [(3 / 8, 0, 0), (7 / 8, 0, 0)] (some (3 / 16))).run (lineAid sharpMoved (sharpSame 5 7 false))
      (.neargrid (gradientSimple ⟨8, 1, 1⟩ (fun v => sharpMoved.getD v 0) idMat) (List.range 8) (List.range 8) id) 50).map
      (lineNumbers 8 2) = some ([1, 3, 5, 7], [0, 0, 0, 1, 1, 2, -1, 3], [5 / 4, 7 / 8, 3 / 8, 1 / 2], [0, 0, 0, 0, 0, 0, -1, 1], [5 / 2, 1 / 2]) := by
  refine ⟨sharp_two false, ?_, ?_, ?_, ?_⟩
  · unfold UnitStep; decide
  · exact gradMoved_simple (sharp_two false).moved idMat
  · decide +kernel
  · decide +kernel

end BaderKit
