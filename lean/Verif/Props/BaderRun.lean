import Verif.Model.BaderRun
import Verif.Props.Assign
import Verif.Props.Ongrid
import Verif.Props.NeargridPipeline
import Verif.Props.WeightLabels
/-!
# A complete Bader run: from the grids to the charges of the atoms
-/
set_option linter.unusedSectionVars false
namespace BaderKit
open Finset
variable {K : Type} [Field K] [LinearOrder K] [IsStrictOrderedRing K] [FloorRing K]

/-! ## Specification -/

/-- Every voxel outside the vacuum is divided among the atoms, and the charge and volume of an atom are its share of the charge grid and of the cell,
up to the rounding of `maxima` basin values with an error of at most `ε` each. -/
structure AtomShares (G : RunInput K) (ε : K) (o : RunOut K) (share : ℕ → ℕ → K) : Prop where
  divides : IsShare G.shape.size G.atoms.length G.vacuum share
  charge : ∀ a, |o.assignment.charges a - (∑ v ∈ (range G.shape.size).filter (fun v => G.vacuum v = false),
    share v a * G.charge v) / G.shape.size| ≤ o.maxima.length * ε
  volume : ∀ a, |o.assignment.volumes a - (∑ v ∈ (range G.shape.size).filter (fun v => G.vacuum v = false),
    share v a) * G.volume / G.shape.size| ≤ o.maxima.length * ε

/-- What is reported about the vacuum and about the whole cell. -/
structure RunTotals (G : RunInput K) (rnd : K → K) (ε : K) (o : RunOut K) : Prop where
  vacuum : ∀ v < G.shape.size, G.vacuum v = true → o.assignment.atomLabels v = -1
  outside : ∀ v < G.shape.size, G.vacuum v = false → ∃ a : ℕ, a < G.atoms.length ∧ o.assignment.atomLabels v = a
  vacCharge : o.basins.vacCharge = (∑ v ∈ (range G.shape.size).filter (fun v => G.vacuum v = true), G.charge v) / G.shape.size
  vacVolume : o.basins.vacVolume = ((range G.shape.size).filter (fun v => G.vacuum v = true)).card * G.volume / G.shape.size
  electrons : |o.electrons rnd G.atoms.length - (∑ v ∈ range G.shape.size, G.charge v) / G.shape.size| ≤
    (o.maxima.length + G.atoms.length + 2) * ε
  cell : |o.totalVolume rnd G.atoms.length - G.volume| ≤ (o.maxima.length + G.atoms.length + 2) * ε

/-- The vacuum is decided on the grid that is partitioned. -/
def RunInput.OwnVacuum (G : RunInput K) : Prop := G.useRef = true ∨ G.tol = none ∨ G.charge = G.ref

/-- A voxel that is not in the vacuum only has voxels outside the vacuum above it. -/
theorem RunInput.OwnVacuum.up {G : RunInput K} (h : G.OwnVacuum) (v w : ℕ) (hv : G.vacuum v = false) (hle : G.ref v ≤ G.ref w) :
    G.vacuum w = false := by
  unfold RunInput.vacuum at *
  cases ht : G.tol with
  | none => rfl
  | some t =>
    rw [ht] at hv
    have hg : (if G.useRef then G.ref else G.charge) = G.ref := by
      rcases h with h | h | h
      · simp [h]
      · rw [h] at ht; simp at ht
      · simp [h]
    simp only [hg, decide_eq_false_iff_not, not_lt] at hv ⊢
    exact hv.trans hle

theorem RunInput.numVacuum_zero (G : RunInput K) (h : G.numVacuum = 0) : ∀ v < G.shape.size, G.vacuum v = false := by
  intro v hv
  rw [RunInput.numVacuum, List.length_eq_zero_iff, List.filter_eq_nil_iff] at h
  simpa using h v (List.mem_range.mpr hv)

/-- **C103** The vacuum: the voxels whose value on the chosen grid, divided by the volume of the cell, is below the tolerance; none without tolerance;
and `num_vacuum` counts them. -/
theorem C103_vacuum (G : RunInput K) (hV : 0 < G.volume) :
    (∀ v, G.vacuum v = true ↔ ∃ t, G.tol = some t ∧
      ((G.useRef = true ∧ G.ref v / G.volume < t) ∨ (G.useRef = false ∧ G.charge v / G.volume < t))) ∧
    G.numVacuum = ((range G.shape.size).filter fun v => G.vacuum v = true).card := by
  refine ⟨fun v => ?_, ?_⟩
  · unfold RunInput.vacuum
    cases G.tol with
    | none => simp
    | some t => cases G.useRef <;> simp [div_lt_iff₀ hV]
  · unfold RunInput.numVacuum
    rw [← List.toFinset_card_of_nodup (List.nodup_range.filter _)]
    congr 1
    ext v; simp

/-- **C103** `vacuum_tol=False` means no vacuum and a number is used as it is, in the constructor and in the setter alike; `True` means the default
0.001 in the constructor, but a tolerance of one when it is set afterwards. -/
theorem C103_tolerance (x : K) :
    tolUsed (initTol (.flag false : TolGiven K)) = none ∧ tolUsed (setTol (.flag false : TolGiven K)) = none ∧
    tolUsed (initTol (.num x)) = some x ∧ tolUsed (setTol (.num x)) = some x ∧
    tolUsed (initTol (.flag true : TolGiven K)) = some (1 / 1000) ∧ tolUsed (setTol (.flag true : TolGiven K)) = some 1 :=
  ⟨rfl, rfl, rfl, rfl, rfl, rfl⟩

/-! ## From the basins to the atoms -/

theorem abs_sum_rnd {rnd : K → K} {ε : K} (hr : ∀ x, |rnd x - x| ≤ ε) (S : Finset ℕ) (f : ℕ → K) :
    |∑ b ∈ S, rnd (f b) - ∑ b ∈ S, f b| ≤ S.card * ε := by
  rw [← Finset.sum_sub_distrib]
  refine (Finset.abs_sum_le_sum_abs _ _).trans ?_
  refine (Finset.sum_le_sum fun b _ => hr (f b)).trans ?_
  simp

/-- The share of the atoms from the share of the basins. -/
def atomShare (basinAtoms : List ℕ) (share : ℕ → ℕ → K) (n : ℕ) (v a : ℕ) : K :=
  ∑ b ∈ (range n).filter (fun b => basinAtoms[b]? = some a), share v b

theorem run_core (G : RunInput K) (A : RunAid K) (ε : K) (hr : ∀ x, |A.rnd x - x| ≤ ε) (hN : 0 < G.shape.size) (hat : G.atoms ≠ [])
    (lab : ℕ → ℤ) (acc : ChargeAcc K) (reps : List ℕ) (share : ℕ → ℕ → K)
    (hl1 : ∀ v < G.shape.size, G.vacuum v = true → lab v = -1)
    (hl2 : ∀ v < G.shape.size, G.vacuum v = false → 0 ≤ lab v ∧ lab v < reps.length)
    (hs : IsShare G.shape.size reps.length G.vacuum share)
    (hc : ∀ b < reps.length, acc.charges b = (∑ v ∈ (range G.shape.size).filter (fun v => G.vacuum v = false),
      share v b * G.charge v) / G.shape.size)
    (hv : ∀ b < reps.length, acc.volumes b = (∑ v ∈ (range G.shape.size).filter (fun v => G.vacuum v = false),
      share v b) * G.volume / G.shape.size)
    (hvc : acc.vacCharge = (∑ v ∈ (range G.shape.size).filter (fun v => G.vacuum v = true), G.charge v) / G.shape.size)
    (hvv : acc.vacVolume = ((range G.shape.size).filter (fun v => G.vacuum v = true)).card * G.volume / G.shape.size) :
    ∃ asg, assignBasins A.root G.lattice G.atoms (reps.map A.place) lab ((List.range reps.length).map fun b => A.rnd (acc.charges b))
        ((List.range reps.length).map fun b => A.rnd (acc.volumes b)) = some asg ∧
      RunTotals G A.rnd ε ⟨lab, acc, reps, asg⟩ ∧
      AtomShares G ε ⟨lab, acc, reps, asg⟩ (atomShare asg.basinAtoms share reps.length) ∧
      (∀ v (b : ℕ), lab v = b → b < reps.length → ∃ a, asg.basinAtoms[b]? = some a ∧ asg.atomLabels v = a) := by
  set bc := (List.range reps.length).map fun b => A.rnd (acc.charges b) with hbc
  set bv := (List.range reps.length).map fun b => A.rnd (acc.volumes b) with hbv
  have hsome := (C23_succeeds A.root G.lattice G.atoms (reps.map A.place) lab bc bv).mpr (Or.inl hat)
  obtain ⟨asg, hasg⟩ := Option.isSome_iff_exists.mp hsome
  obtain ⟨⟨g1, g2⟩, g3, g4, g5, g6, g7, g8⟩ := C23_atom_totals A.root G.lattice G.atoms (reps.map A.place) lab bc bv asg
    (by simp [hbc]) (by simp [hbv]) hasg
  rw [List.length_map] at g1 g3 g4 g8
  have hε : 0 ≤ ε := (abs_nonneg _).trans (hr 0)
  have hN' : (G.shape.size : K) ≠ 0 := by exact_mod_cast hN.ne'
  have hbcd : ∀ b < reps.length, bc.getD b 0 = A.rnd (acc.charges b) := by
    intro b hb; rw [hbc, List.getD_eq_getElem _ _ (by simpa using hb)]; simp
  have hbvd : ∀ b < reps.length, bv.getD b 0 = A.rnd (acc.volumes b) := by
    intro b hb; rw [hbv, List.getD_eq_getElem _ _ (by simpa using hb)]; simp
  have hbcs : bc.sum = ∑ b ∈ range reps.length, A.rnd (acc.charges b) := by rw [hbc, sum_range_list]
  have hbvs : bv.sum = ∑ b ∈ range reps.length, A.rnd (acc.volumes b) := by rw [hbv, sum_range_list]
  -- every basin belongs to exactly one atom
  have hone : ∀ (f : ℕ → K), ∑ a ∈ range G.atoms.length, ∑ b ∈ (range reps.length).filter
      (fun b => asg.basinAtoms[b]? = some a), f b = ∑ b ∈ range reps.length, f b := by
    intro f
    simp only [Finset.sum_filter]
    rw [Finset.sum_comm]
    refine Finset.sum_congr rfl fun b hb => ?_
    have hb' : b < asg.basinAtoms.length := by rw [g1]; exact Finset.mem_range.mp hb
    rw [Finset.sum_eq_single_of_mem asg.basinAtoms[b] (Finset.mem_range.mpr (g2 _ (List.getElem_mem hb')))]
    · rw [if_pos (List.getElem?_eq_getElem hb')]
    · intro a _ hne
      rw [if_neg]
      rw [List.getElem?_eq_getElem hb']
      intro h; exact hne (Option.some.inj h).symm
  have hcard : ∀ (a : ℕ), (((range reps.length).filter (fun b => asg.basinAtoms[b]? = some a)).card : K) * ε ≤ reps.length * ε := by
    intro a
    refine mul_le_mul_of_nonneg_right ?_ hε
    have := Finset.card_filter_le (range reps.length) (fun b => asg.basinAtoms[b]? = some a)
    rw [Finset.card_range] at this
    exact_mod_cast this
  have hsplit : ∀ f : ℕ → K, ∑ v ∈ (range G.shape.size).filter (fun v => G.vacuum v = false), f v +
      ∑ v ∈ (range G.shape.size).filter (fun v => G.vacuum v = true), f v = ∑ v ∈ range G.shape.size, f v := by
    intro f
    rw [← Finset.sum_filter_add_sum_filter_not (range G.shape.size) (fun v => G.vacuum v = false)]
    congr 1
    exact Finset.sum_congr (Finset.filter_congr fun v _ => by simp) fun _ _ => rfl
  -- the exact sums over the basins
  have hsumc : ∑ b ∈ range reps.length, acc.charges b + acc.vacCharge = (∑ v ∈ range G.shape.size, G.charge v) / G.shape.size := by
    rw [Finset.sum_congr rfl fun b hb => hc b (Finset.mem_range.mp hb), ← Finset.sum_div, Finset.sum_comm, hvc, ← add_div,
      ← hsplit]
    congr 2
    refine Finset.sum_congr rfl fun v hv => ?_
    rw [Finset.mem_filter, Finset.mem_range] at hv
    rw [← Finset.sum_mul, (hs v hv.1 hv.2).2.2, one_mul]
  have hsumv : ∑ b ∈ range reps.length, acc.volumes b + acc.vacVolume = G.volume := by
    rw [Finset.sum_congr rfl fun b hb => hv b (Finset.mem_range.mp hb), ← Finset.sum_div, ← Finset.sum_mul, Finset.sum_comm, hvv,
      ← add_div, ← add_mul]
    have h1 : ∑ v ∈ (range G.shape.size).filter (fun v => G.vacuum v = false), ∑ b ∈ range reps.length, share v b =
        ∑ v ∈ (range G.shape.size).filter (fun v => G.vacuum v = false), 1 := by
      refine Finset.sum_congr rfl fun v hv => ?_
      rw [Finset.mem_filter, Finset.mem_range] at hv
      exact (hs v hv.1 hv.2).2.2
    have h2 := hsplit (fun _ => 1)
    rw [h1]
    simp only [Finset.sum_const, nsmul_eq_mul, mul_one, Finset.card_range] at h2 ⊢
    rw [h2]; field_simp
  have htot : ∀ (f : ℕ → K) (g : ℕ → K) (vacX X : K), ∑ a ∈ range G.atoms.length, f a = ∑ b ∈ range reps.length, A.rnd (g b) →
      ∑ b ∈ range reps.length, g b + vacX = X →
      |A.rnd (((List.range G.atoms.length).map fun a => A.rnd (f a)).sum + A.rnd vacX) - X| ≤
        (reps.length + G.atoms.length + 2) * ε := by
    intro f g vacX X h1 h2
    rw [sum_range_list]
    have e1 := abs_sum_rnd hr (range G.atoms.length) f
    have e2 := abs_sum_rnd hr (range reps.length) g
    have e3 := hr vacX
    have e4 := hr (∑ a ∈ range G.atoms.length, A.rnd (f a) + A.rnd vacX)
    rw [Finset.card_range] at e1 e2
    rw [h1] at e1
    rw [← h2]
    rw [abs_le] at *
    constructor <;> linarith [e1.1, e1.2, e2.1, e2.2, e3.1, e3.2, e4.1, e4.2]
  refine ⟨asg, hasg, ?_, ?_, g8⟩
  · refine ⟨fun v hv hvac => g7 v (hl1 v hv hvac), fun v hv hvac => ?_, hvc, hvv, ?_, ?_⟩
    · obtain ⟨h0, h1⟩ := hl2 v hv hvac
      obtain ⟨a, ha, hla⟩ := g8 v (lab v).toNat (by omega) (by omega)
      exact ⟨a, g2 _ (List.mem_of_getElem? ha), hla⟩
    · exact htot _ _ _ _ (g5.trans hbcs) hsumc
    · exact htot _ _ _ _ (g6.trans hbvs) hsumv
  · refine ⟨fun v hv hvac => ⟨fun a => ?_, fun a ha => ?_, ?_⟩, fun a => ?_, fun a => ?_⟩
    · exact Finset.sum_nonneg fun b _ => (hs v hv hvac).1 b
    · unfold atomShare
      rw [Finset.filter_false_of_mem, Finset.sum_empty]
      intro b _ h
      have := g2 _ (List.mem_of_getElem? h)
      omega
    · unfold atomShare
      rw [hone, (hs v hv hvac).2.2]
    · have e : (∑ v ∈ (range G.shape.size).filter (fun v => G.vacuum v = false),
          atomShare asg.basinAtoms share reps.length v a * G.charge v) / G.shape.size =
          ∑ b ∈ (range reps.length).filter (fun b => asg.basinAtoms[b]? = some a), acc.charges b := by
        unfold atomShare
        rw [Finset.sum_congr rfl fun v _ => Finset.sum_mul _ _ _, Finset.sum_comm, Finset.sum_div]
        refine Finset.sum_congr rfl fun b hb => ?_
        rw [Finset.mem_filter, Finset.mem_range] at hb
        rw [hc b hb.1]
      show |asg.charges a - _| ≤ _
      rw [e, g3 a, Finset.sum_congr rfl fun b hb => hbcd b (Finset.mem_range.mp (Finset.mem_filter.mp hb).1)]
      exact (abs_sum_rnd hr _ _).trans (hcard a)
    · have e : (∑ v ∈ (range G.shape.size).filter (fun v => G.vacuum v = false),
          atomShare asg.basinAtoms share reps.length v a) * G.volume / G.shape.size =
          ∑ b ∈ (range reps.length).filter (fun b => asg.basinAtoms[b]? = some a), acc.volumes b := by
        unfold atomShare
        rw [Finset.sum_comm, Finset.sum_mul, Finset.sum_div]
        refine Finset.sum_congr rfl fun b hb => ?_
        rw [Finset.mem_filter, Finset.mem_range] at hb
        rw [hv b hb.1]
      show |asg.volumes a - _| ≤ _
      rw [e, g4 a, Finset.sum_congr rfl fun b hb => hbvd b (Finset.mem_range.mp (Finset.mem_filter.mp hb).1)]
      exact (abs_sum_rnd hr _ _).trans (hcard a)

/-! ## The hypotheses of a run -/

/-- The input of a run: a periodic grid with at least one voxel and atom, neighbour steps that fit into the cell, a vacuum decided on the partitioned
grid, any schedule of the search for maxima, any sorted order of them and a rounding with error at most `ε`. -/
structure RunReady (G : RunInput K) (A : RunAid K) (ε : K) : Prop where
  voxels : 0 < G.shape.size
  atoms : G.atoms ≠ []
  fits : ∀ td ∈ G.nbrs, StepFits G.shape td.1
  pos : ∀ td ∈ G.nbrs, 0 < td.2
  vacuum : G.OwnVacuum
  order : IsSchedule G.shape A.order
  sort : ∀ l, (A.sortMax l).Perm l
  rnd : ∀ x, |A.rnd x - x| ≤ ε

/-- The atom `a` has the periodic image nearest to the point `p` among all images of all atoms. -/
def NearestAtom (G : RunInput K) (root : K → K) (a : ℕ) (p : V3 K) : Prop :=
  ∃ ha : a < G.atoms.length, ∃ t, ∀ (j : ℕ) (hj : j < G.atoms.length) (t' : ℤ × ℤ × ℤ),
    root (dist2 G.lattice (image G.atoms[a] t) p) ≤ root (dist2 G.lattice (image G.atoms[j] t') p)

/-- The cell is orthogonal and atoms and maxima are stored in nearby cells, so that the distances of the code are those to the nearest images. -/
structure StraightCell (G : RunInput K) (A : RunAid K) (o : RunOut K) : Prop where
  root : RootLike A.root
  ortho : Orthogonal G.lattice
  near : ∀ a ∈ G.atoms, ∀ m ∈ o.maxima, CloseBy a (A.place m)

theorem AtomShares.congr {G : RunInput K} {ε : K} {o : RunOut K} {s1 s2 : ℕ → ℕ → K} (h : AtomShares G ε o s1)
    (he : ∀ v < G.shape.size, G.vacuum v = false → ∀ a, s1 v a = s2 v a) : AtomShares G ε o s2 := by
  refine ⟨fun v hv hvac => ?_, fun a => ?_, fun a => ?_⟩
  · obtain ⟨h1, h2, h3⟩ := h.divides v hv hvac
    have e := he v hv hvac
    simp only [e] at h1 h2 h3
    exact ⟨h1, h2, h3⟩
  · have := h.charge a
    rwa [Finset.sum_congr rfl fun v hv => by
      rw [he v (Finset.mem_range.mp (Finset.mem_filter.mp hv).1) (Finset.mem_filter.mp hv).2 a]] at this
  · have := h.volume a
    rwa [Finset.sum_congr rfl fun v hv =>
      he v (Finset.mem_range.mp (Finset.mem_filter.mp hv).1) (Finset.mem_filter.mp hv).2 a] at this

theorem nearest_of_asg {G : RunInput K} {A : RunAid K} {lab : ℕ → ℤ} {acc : ChargeAcc K} {reps : List ℕ} {asg : Assignment K} {bc bv : List K}
    (h : assignBasins A.root G.lattice G.atoms (reps.map A.place) lab bc bv = some asg)
    (hp : StraightCell G A ⟨lab, acc, reps, asg⟩) (i : ℕ) (hi : i < reps.length) (a : ℕ) (ha : asg.basinAtoms[i]? = some a) :
    NearestAtom G A.root a (A.place reps[i]) := by
  obtain ⟨g1, g2, _⟩ := C24_considered A.root G.lattice G.atoms (reps.map A.place) lab bc bv asg h
  rw [List.length_map] at g1 g2
  obtain ⟨h1, ⟨⟨t, ht⟩, _⟩, h3⟩ := C24_nearest_partial A.root hp.root G.lattice hp.ortho G.atoms (reps.map A.place)
    (by intro x hx b hb; obtain ⟨m, hm, rfl⟩ := List.mem_map.mp hb; exact hp.near x hx m hm) lab bc bv asg h i (by simpa using hi)
    (by omega) (by omega)
  have e : asg.basinAtoms[i]'(by omega) = a := by
    rw [List.getElem?_eq_getElem (by omega)] at ha
    exact Option.some.inj ha
  subst e
  refine ⟨h1, t, fun j hj t' => ?_⟩
  have := h3 j hj t'
  rw [ht] at this
  simpa using this

/-- Labels as a share. -/
theorem label_core (G : RunInput K) (A : RunAid K) (ε : K) (H : RunReady G A ε) (lab : ℕ → ℤ) (reps : List ℕ)
    (hl1 : ∀ v < G.shape.size, G.vacuum v = true → lab v = -1)
    (hl2 : ∀ v < G.shape.size, G.vacuum v = false → 0 ≤ lab v ∧ lab v < reps.length) :
    let acc := basinChargesVolumes G.shape G.charge lab G.volume
    ∃ asg, assignBasins A.root G.lattice G.atoms (reps.map A.place) lab ((List.range reps.length).map fun b => A.rnd (acc.charges b))
        ((List.range reps.length).map fun b => A.rnd (acc.volumes b)) = some asg ∧
      RunTotals G A.rnd ε ⟨lab, acc, reps, asg⟩ ∧
      AtomShares G ε ⟨lab, acc, reps, asg⟩ (fun v a => if asg.atomLabels v = a then 1 else 0) ∧
      (∀ v (b : ℕ), lab v = b → b < reps.length → ∃ a, asg.basinAtoms[b]? = some a ∧ asg.atomLabels v = a) := by
  intro acc
  obtain ⟨c1, c2, c3, c4⟩ := C12_per_basin G.shape G.charge lab G.volume
  have hneg : (range G.shape.size).filter (fun v => lab v < 0) = (range G.shape.size).filter (fun v => G.vacuum v = true) := by
    refine Finset.filter_congr fun v hv => ?_
    have hv := Finset.mem_range.mp hv
    cases hvac : G.vacuum v with
    | true => simp [hl1 v hv hvac]
    | false => simpa using (hl2 v hv hvac).1
  have hsum : ∀ (f : ℕ → K) (b : ℕ), ∑ v ∈ (range G.shape.size).filter (fun v => lab v = b), f v =
      ∑ v ∈ (range G.shape.size).filter (fun v => G.vacuum v = false), (if lab v = b then 1 else 0) * f v := by
    intro f b
    simp only [Finset.sum_filter]
    refine Finset.sum_congr rfl fun v hv => ?_
    have hv := Finset.mem_range.mp hv
    cases hvac : G.vacuum v with
    | true =>
      have : ¬ lab v = (b : ℤ) := by rw [hl1 v hv hvac]; omega
      simp [this]
    | false => by_cases h : lab v = (b : ℤ) <;> simp [h]
  obtain ⟨asg, h1, h2, h3, h4⟩ := run_core G A ε H.rnd H.voxels H.atoms lab acc reps (fun v b => if lab v = b then 1 else 0) hl1 hl2
    (by
      intro v hv hvac
      obtain ⟨a1, a2⟩ := hl2 v hv hvac
      refine ⟨fun b => by beta_reduce; split_ifs <;> simp, fun b hb => if_neg (by omega), ?_⟩
      rw [Finset.sum_eq_single_of_mem (lab v).toNat (Finset.mem_range.mpr (by omega))]
      · exact if_pos (by omega)
      · intro b _ hb; exact if_neg (by omega))
    (fun b _ => by rw [c1 b, hsum])
    (fun b _ => by
      rw [c2 b]
      have := hsum (fun _ => 1) b
      simp only [mul_one] at this
      rw [← this, Finset.sum_const, nsmul_eq_mul, mul_one])
    (by rw [c3, hneg]) (by rw [c4, hneg])
  refine ⟨asg, h1, h2, h3.congr fun v hv hvac a => ?_, h4⟩
  obtain ⟨a1, a2⟩ := hl2 v hv hvac
  obtain ⟨a', ha', hla⟩ := h4 v (lab v).toNat (by omega) (by omega)
  unfold atomShare
  rw [hla, Finset.sum_filter, Finset.sum_eq_single_of_mem (lab v).toNat (Finset.mem_range.mpr (by omega))]
  · rw [ha']
    by_cases h : a' = a
    · subst h; simp; omega
    · simp [h]
  · intro b _ hb
    have : ¬ lab v = (b : ℤ) := by omega
    simp [this]

/-! ## The theorems -/

/-- **C103** The ongrid method from the grids to the atoms.  The run ends; vacuum voxels and only those belong to no atom; the charge of an atom is the
charge of the voxels with its label and its volume their volume; vacuum and atoms together give all electrons and the cell, up to the rounding of
the printed numbers; a voxel belongs to the same atom as the maximum it ascends to.  If the maxima are reported in voxel order (always when none were
merged), then in a plain cell the voxels of the basin of a reported maximum belong to the atom nearest to that maximum. -/
theorem C103_ongrid_partial (G : RunInput K) (A : RunAid K) (ε : K) (H : RunReady G A ε) (order : List ℕ) (hord : IsSchedule G.shape order) :
    ∃ F, ∀ fuel ≥ F, ∃ o, G.run A (.ongrid order) fuel = some o ∧ RunTotals G A.rnd ε o ∧
      AtomShares G ε o (fun v a => if o.assignment.atomLabels v = a then 1 else 0) ∧
      (∀ v m, v < G.shape.size → G.vacuum v = false → Ascends G.shape G.ref G.nbrs v m →
        o.assignment.atomLabels v = o.assignment.atomLabels m) ∧
      (o.maxima.Pairwise (· < ·) → StraightCell G A o → ∀ i (hi : i < o.maxima.length) (v : ℕ), o.labels v = o.labels o.maxima[i] →
        ∃ a : ℕ, o.assignment.atomLabels v = a ∧ NearestAtom G A.root a (A.place o.maxima[i])) := by
  have hup : UpClosedLe G.shape G.ref (G.nbrs.map Prod.fst) G.vacuum := fun v _ hv w _ hle => H.vacuum.up v w hv hle
  have hsort := H.sort (maximaVox G.shape (getMaxima G.shape G.ref (G.nbrs.map Prod.fst) G.vacuum false A.order))
  obtain ⟨res, lab, F, hF, h1, h2, h3, h4, h5⟩ := C09_ongrid G.shape G.ref G.nbrs G.vacuum A.same A.cand _ order A.order G.numVacuum
    H.fits H.pos hup hord H.order G.numVacuum_zero hsort
  have hts' : ∀ t ∈ G.nbrs.map Prod.fst, StepFits G.shape t := by
    intro t ht; obtain ⟨td, htd, rfl⟩ := List.mem_map.mp ht; exact H.fits td htd
  obtain ⟨res', lab', F', hF', _, ho⟩ := C16_order_partial G.shape G.ref G.nbrs G.vacuum _ A.same A.cand _ order G.numVacuum
    H.fits H.pos (marksMaxima_getMaxima G.shape G.ref (G.nbrs.map Prod.fst) G.vacuum A.order H.order hts') hup hord G.numVacuum_zero hsort
  have er : res' = res := by
    have a := (hF (max F F') (le_max_left _ _)).1
    have b := (hF' (max F F') (le_max_right _ _)).1
    rw [a] at b; exact (Option.some.inj b).symm
  subst er
  have el : lab' = lab := by
    have a := (hF (max F F') (le_max_left _ _)).2
    have b := (hF' (max F F') (le_max_right _ _)).2
    rw [a] at b; exact (Option.some.inj b).symm
  subst el
  obtain ⟨asg, k1, k2, k3, k4⟩ := label_core G A ε H lab' res'.reps h1 (fun v hv hvac => (h2 v hv hvac).1)
  have hatom : ∀ v w, lab' v = lab' w → asg.atomLabels v = asg.atomLabels w := by
    intro v w h
    obtain ⟨idx, _, e⟩ := Option.map_eq_some_iff.mp (show Option.map _ _ = some asg from k1)
    rw [← e]; simp only [h]
  refine ⟨F, fun fuel hf => ⟨⟨lab', _, res'.reps, asg⟩, ?_, k2, k3, ?_, ?_⟩⟩
  · obtain ⟨e1, e2⟩ := hF fuel hf
    simp only [RunInput.run, e1, RunInput.method, e2, Option.map_some, Option.bind_eq_bind, Option.bind_some]
    rw [k1]; rfl
  · intro v m hv hvac hasc
    exact hatom _ _ ((h2 v hv hvac).2 m hasc).2
  · intro hpw hp i hi v hlv
    have hi' : i < res'.reps.length := hi
    have hl : lab' v = i := by rw [← ho hpw i hi']; exact hlv
    obtain ⟨a, ha, hla⟩ := k4 v i hl hi'
    exact ⟨a, hla, nearest_of_asg k1 hp i hi' a ha⟩

/-- **C103** The same for the neargrid method (without the ascent), for every gradient field and all schedules of its two parallel passes. -/
theorem C103_neargrid_partial (G : RunInput K) (A : RunAid K) (ε : K) (H : RunReady G A ε) (hu : ∀ td ∈ G.nbrs, UnitStep td.1)
    (grad : ℕ → K × K × K) (o1 o2 : List ℕ) (perm : List ℕ → List ℕ) (ho1 : IsSchedule G.shape o1) (ho2 : IsSchedule G.shape o2)
    (hperm : ∀ l, (perm l).Perm l) :
    ∃ F, ∀ fuel ≥ F, ∃ o, G.run A (.neargrid grad o1 o2 perm) fuel = some o ∧ RunTotals G A.rnd ε o ∧
      AtomShares G ε o (fun v a => if o.assignment.atomLabels v = a then 1 else 0) ∧
      (o.maxima.Pairwise (· < ·) → StraightCell G A o → ∀ i (hi : i < o.maxima.length) (v : ℕ), o.labels v = o.labels o.maxima[i] →
        ∃ a : ℕ, o.assignment.atomLabels v = a ∧ NearestAtom G A.root a (A.place o.maxima[i])) := by
  have hsort := H.sort (maximaVox G.shape (getMaxima G.shape G.ref (G.nbrs.map Prod.fst) G.vacuum false A.order))
  obtain ⟨res, F0, lab, hF0, hn, h1, h2, _, _, h5, _, h6⟩ := C22_neargrid_full G.shape G.ref G.nbrs grad G.vacuum A.same A.cand _ A.order G.numVacuum
    H.voxels hu H.pos (fun v _ hv w _ hle => H.vacuum.up v w hv hle) G.numVacuum_zero H.order hsort
  obtain ⟨F, hF⟩ := hn o1 o2 perm ho1 ho2 hperm
  refine ⟨max F0 F, fun fuel hf => ?_⟩
  obtain ⟨lab', e2, hl⟩ := hF fuel (le_of_max_le_right hf)
  have e1 := hF0 fuel (le_of_max_le_left hf)
  have hts' : ∀ t ∈ G.nbrs.map Prod.fst, StepFits G.shape t := by
    intro t ht; obtain ⟨td, htd, rfl⟩ := List.mem_map.mp ht; exact H.fits td htd
  have hord : res.reps.Pairwise (· < ·) → ∀ i (h : i < res.reps.length), lab' res.reps[i] = i := by
    intro hpw i hi
    rw [hl _ ((marksMaxima_getMaxima _ _ _ _ _ H.order hts' _).mp (h5 _ (List.getElem_mem hi))).1]
    exact h6 hpw i hi
  obtain ⟨asg, k1, k2, k3, k4⟩ := label_core G A ε H lab' res.reps (fun v hv hvac => by rw [hl v hv]; exact h1 v hv hvac)
    (fun v hv hvac => by rw [hl v hv]; exact h2 v hv hvac)
  refine ⟨⟨lab', _, res.reps, asg⟩, ?_, k2, k3, ?_⟩
  · simp only [RunInput.run, e1, RunInput.method, e2, Option.map_some, Option.bind_eq_bind, Option.bind_some]
    rw [k1]; rfl
  · intro hpw hp i hi v hlv
    have hi' : i < res.reps.length := hi
    have hl' : lab' v = i := by rw [← hord hpw i hi']; exact hlv
    obtain ⟨a, ha, hla⟩ := k4 v i hl' hi'
    exact ⟨a, hla, nearest_of_asg k1 hp i hi' a ha⟩

/-- **C103** The weight method from the grids to the atoms: every voxel outside the vacuum is divided among the atoms, its label is an atom with a
positive share, and the voxels of a reported maximum belong completely to the atom nearest to it, whatever maxima were merged. -/
theorem C103_weight (G : RunInput K) (A : RunAid K) (ε : K) (H : RunReady G A ε) (vor : List (Coord × K))
    (hvf : ∀ t ∈ vor, StepFits G.shape t.1) (hvp : ∀ t ∈ vor, 0 < t.2) (argsortW : List (ℕ × K) → List (ℕ × K))
    (ha : ∀ l, (argsortW l).Perm l) (sorted : List ℕ) (hs1 : sorted.Nodup) (hs2 : ∀ v, v ∈ sorted ↔ v < G.shape.size ∧ G.vacuum v = false)
    (hs3 : sorted.Pairwise (fun a b => G.ref b ≤ G.ref a)) (hsize : G.shape.size ≤ 10 ^ 30)
    (hmax : (maximaVox G.shape (getMaxima G.shape G.ref (G.nbrs.map Prod.fst) G.vacuum false A.order)).length < 10 ^ 6) :
    ∃ F, ∀ fuel ≥ F, ∃ o share, G.run A (.weight vor argsortW sorted) fuel = some o ∧ RunTotals G A.rnd ε o ∧
      AtomShares G ε o share ∧
      (∀ v < G.shape.size, G.vacuum v = false → ∃ a : ℕ, o.assignment.atomLabels v = a ∧ 0 < share v a) ∧
      (StraightCell G A o → ∀ i (hi : i < o.maxima.length), ∃ a : ℕ, o.assignment.atomLabels o.maxima[i] = a ∧
        share o.maxima[i] a = 1 ∧ NearestAtom G A.root a (A.place o.maxima[i])) := by
  have hup : UpClosedLe G.shape G.ref (G.nbrs.map Prod.fst) G.vacuum := fun v _ hv w _ hle => H.vacuum.up v w hv hle
  have hupv : UpClosed G.shape G.ref (vor.map Prod.fst) G.vacuum := fun v _ hv w _ hlt => H.vacuum.up v w hv hlt.le
  have hsort := H.sort (maximaVox G.shape (getMaxima G.shape G.ref (G.nbrs.map Prod.fst) G.vacuum false A.order))
  obtain ⟨res, F, hF, hW, hlen, _⟩ := C17_pipeline G.shape G.ref G.charge vor G.nbrs G.vacuum A.same A.cand A.order _ sorted argsortW ha
    hvf hvp H.fits H.pos hup hupv H.order hsize hsort hs1 hs2 hs3
  set M := getMaxima G.shape G.ref (G.nbrs.map Prod.fst) G.vacuum false A.order with hMdef
  set W : WeightIn K := ⟨G.shape, G.ref, vor, G.nbrs, M, (sortMaxima (res.reps.map fun r => (r, ()))).map Prod.fst⟩ with hWdef
  have hidxM : ∀ r ∈ W.maxIdx, M r = true ∧ res.labels r = r := by
    intro r hr
    obtain ⟨v, hv, hl⟩ := (hW.idx_mem r).mp hr
    obtain ⟨r', e1, e2, e3⟩ := hW.rep v hv
    have : r = r' := by rw [hl] at e1; exact_mod_cast e1
    subst this; exact ⟨e2, e3⟩
  have hB : W.maxIdx.length < 10 ^ 6 := by
    refine lt_of_le_of_lt ?_ hmax
    have hnd : W.maxIdx.Nodup := hW.idx_sorted.imp (fun h => h.ne)
    have hsub : W.maxIdx ⊆ maximaVox G.shape M := by
      intro r hr
      have hm := (hidxM r hr).1
      have := ((hW.maxima r).mp hm).1
      simp only [maximaVox, List.mem_filter, List.mem_range]
      exact ⟨this, hm⟩
    exact (hnd.subperm hsub).length_le
  have hB' : W.maxIdx.length ≤ 10 ^ 30 := hB.le.trans (by norm_num)
  obtain ⟨hsh, hcv⟩ := C17_shares hW argsortW ha hB'
  obtain ⟨hlab, hlabv⟩ := C18_labels hW argsortW ha hB G.charge
  set share := shareOf W argsortW res.labels sorted with hshare
  set lab := (weightAssign W G.charge argsortW res.labels sorted).labels with hlabdef
  set acc := weightResults W G.charge argsortW G.vacuum res.labels sorted G.volume with hacc
  have hvac : ((List.range G.shape.size).filter G.vacuum).toFinset = (range G.shape.size).filter (fun v => G.vacuum v = true) := by
    ext v; simp
  have hnd : ((List.range G.shape.size).filter G.vacuum).Nodup := List.nodup_range.filter _
  obtain ⟨asg, k1, k2, k3, k4⟩ := run_core G A ε H.rnd H.voxels H.atoms lab acc W.maxIdx share (fun v _ hv => hlabv v hv)
    (fun v hv hvv => by obtain ⟨l, e1, e2, _⟩ := hlab v hv hvv; rw [e1]; omega) hsh
    (fun b _ => by show _ / _ = _; rw [(hcv G.charge b).1])
    (fun b _ => by show _ * (_ / _) = _; rw [(hcv G.charge b).2]; exact (mul_div_assoc _ _ _).symm)
    (by
      show _ / _ = _
      congr 1
      rw [← hvac, List.sum_toFinset _ hnd])
    (by
      show _ / _ * _ = _
      rw [← hvac, List.toFinset_card_of_nodup hnd, div_mul_eq_mul_div])
  refine ⟨F, fun fuel hf => ⟨⟨lab, acc, W.maxIdx, asg⟩, atomShare asg.basinAtoms share W.maxIdx.length, ?_, k2, k3, ?_, ?_⟩⟩
  · have e1 := hF fuel hf
    simp only [RunInput.run]
    rw [← hMdef, e1]
    simp only [RunInput.method, Option.bind_eq_bind, Option.bind_some]
    rw [← hWdef]
    simp only [← hlabdef, ← hacc]
    rw [k1]; rfl
  · intro v hv hvv
    obtain ⟨l, e1, e2, e3, _⟩ := hlab v hv hvv
    obtain ⟨a, b1, b2⟩ := k4 v l e1 e2
    refine ⟨a, b2, ?_⟩
    unfold atomShare
    refine lt_of_lt_of_le e3 (Finset.single_le_sum (f := fun b => share v b) (fun b _ => (hsh v hv hvv).1 b) ?_)
    simp [e2, b1]
  · intro hp i hi
    have hi' : i < W.maxIdx.length := hi
    have hmem := hidxM _ (List.getElem_mem hi')
    have hi2 : i < (sortMaxima (res.reps.map fun r => (r, ()))).length := by simpa [hWdef] using hi'
    obtain ⟨c1, c2⟩ := (C16_weight_order (res.reps.map fun r => (r, ())) rfl hW argsortW ha hB' G.charge).2 i hi2 W.maxIdx[i] hmem.1
      (by rw [hmem.2]; simp [hWdef])
    obtain ⟨a, b1, b2⟩ := k4 _ i c1 hi'
    refine ⟨a, b2, ?_, nearest_of_asg k1 hp i hi' a b1⟩
    have hm := (hW.maxima _).mp hmem.1
    have hd := k3.divides _ hm.1 hm.2.1
    refine le_antisymm ?_ ?_
    · by_cases haa : a < G.atoms.length
      · rw [← hd.2.2]
        exact Finset.single_le_sum (f := fun a => atomShare asg.basinAtoms share W.maxIdx.length W.maxIdx[i] a)
          (fun b _ => hd.1 b) (Finset.mem_range.mpr haa)
      · have := hd.2.1 a (by omega)
        show atomShare _ _ _ _ _ ≤ 1
        rw [this]; exact zero_le_one
    · show 1 ≤ atomShare _ _ _ _ _
      rw [← c2]
      unfold atomShare
      exact Finset.single_le_sum (f := fun b => share W.maxIdx[i] b) (fun b _ => (hsh _ hm.1 hm.2.1).1 b) (by simp [hi', b1])

/-! ## Concrete runs, and what goes wrong -/

/-- The ring `3 0 2 1 0 4 1 3` as reference grid; the two voxels with value zero are vacuum; atoms on the voxels 0, 2 and 5. -/
def ringRun : RunInput ℚ where
  shape := ⟨8, 1, 1⟩
  charge := fun v => [6, 1, 4, 2, 1, 8, 4, 6].getD v 0
  ref := ringData
  nbrs := ring2
  lattice := ((8, 0, 0), (0, 1, 0), (0, 0, 1))
  volume := 8
  atoms := [(0, 0, 0), (1 / 4, 0, 0), (5 / 8, 0, 0)]
  tol := some (1 / 16)
  useRef := true

/-- The parameters of the run: the two equal maxima of the plateau over the cell boundary are represented by voxel 7 (`cand` is the identity) or by
voxel 0 (`ringCand`); a maximum is reported at its voxel. -/
def ringAid (cand : ℕ → ℕ) : RunAid ℚ where
  same := fun _ _ => false
  cand := cand
  sortMax := id
  order := [3, 1, 2, 0, 7, 5, 6, 4]
  place := fun v => ((v : ℚ) / 8, 0, 0)
  root := fun x => x
  rnd := fun x => x

theorem ringRun_ready (cand : ℕ → ℕ) : RunReady ringRun (ringAid cand) 0 where
  voxels := by decide
  atoms := by decide
  fits := ring2_fits
  pos := ring2_pos
  vacuum := Or.inl rfl
  order := show List.Perm [3, 1, 2, 0, 7, 5, 6, 4] (List.range 8) by decide
  sort := fun _ => List.Perm.refl _
  rnd := fun x => by simp [ringAid]

/-- The numbers of a run: maxima, atoms of the voxels, charges and volumes of the three atoms, all electrons, charge of the vacuum. -/
def runNumbers (o : RunOut ℚ) : List ℕ × List ℤ × List (List ℚ) :=
  (o.maxima, (List.range 8).map o.assignment.atomLabels, [(List.range 3).map o.assignment.charges,
    (List.range 3).map o.assignment.volumes, [o.electrons id 3, o.basins.vacCharge]])

/-- A run of the ongrid method whose maxima are in voxel order: every atom gets its own basin, the vacuum keeps its two voxels. -/
example : RunReady ringRun (ringAid fun r => r) 0 ∧ IsSchedule ringRun.shape [3, 1, 2, 0, 7, 5, 6, 4] ∧
    (ringRun.run (ringAid fun r => r) (.ongrid [3, 1, 2, 0, 7, 5, 6, 4]) 9).map runNumbers =
      some ([2, 5, 7], [0, -1, 1, 1, -1, 2, 2, 0], [[3 / 2, 3 / 4, 3 / 2], [2, 2, 2], [4, 1 / 4]]) :=
  ⟨ringRun_ready _, by unfold IsSchedule; decide, by decide +kernel⟩

/-- The weight method on the same grids. -/
example : (∀ v, v ∈ ([5, 7, 0, 2, 6, 3] : List ℕ) ↔ v < ringRun.shape.size ∧ ringRun.vacuum v = false) ∧
    (ringRun.run (ringAid ringCand) (.weight ring2 id [5, 7, 0, 2, 6, 3]) 9).map runNumbers =
      some ([0, 2, 5], [0, -1, 1, 1, -1, 2, 2, 0], [[17 / 10, 3 / 4, 13 / 10], [12 / 5, 2, 8 / 5], [4, 1 / 4]]) := by
  refine ⟨fun v => ⟨fun h => ?_, fun h => ?_⟩, by decide +kernel⟩
  · simp only [List.mem_cons, List.not_mem_nil, or_false] at h
    rcases h with rfl | rfl | rfl | rfl | rfl | rfl <;> decide +kernel
  · have hv : v < 8 := h.1
    have h2 := h.2
    clear h
    revert h2
    interval_cases v <;> decide +kernel

/-- **C103** (negative part) The full claim "every voxel belongs to the atom nearest to its maximum" is false for ongrid and neargrid when maxima were
merged: the reported maxima are then not in the order of the labels.  Each atom sits on a maximum of its own, and yet the atom on voxel 0 receives the
basin of the maximum at voxel 5, and so on. -/
theorem C103_wrong_atom : ∃ (G : RunInput ℚ) (A : RunAid ℚ), RunReady G A 0 ∧
    (∀ i < 3, G.atoms.getD i (0, 0, 0) = A.place ([0, 2, 5].getD i 0)) ∧
    (G.run A (.ongrid (List.range 8)) 9).map runNumbers =
      some ([2, 5, 0], [1, -1, 2, 2, -1, 0, 0, 1], [[3 / 2, 3 / 2, 3 / 4], [2, 2, 2], [4, 1 / 4]]) ∧
    (G.run A (.neargrid (fun _ => (0, 0, 0)) (List.range 8) (List.range 8) id) 20).map runNumbers =
      some ([2, 5, 0], [1, -1, 2, 2, -1, 0, 0, 1], [[3 / 2, 3 / 2, 3 / 4], [2, 2, 2], [4, 1 / 4]]) :=
  ⟨ringRun, ringAid ringCand, ringRun_ready _, by decide +kernel, by decide +kernel, by decide +kernel⟩

/-- A ring of six voxels with maxima at voxels 1 and 4; the vacuum is decided on the charge grid, which vanishes at voxel 1. -/
def otherVacuum : RunInput ℚ where
  shape := ⟨6, 1, 1⟩
  charge := fun v => [6, 0, 4, 2, 1, 8].getD v 0
  ref := fun v => [2, 5, 2, 1, 4, 1].getD v 0
  nbrs := ring2
  lattice := ((6, 0, 0), (0, 1, 0), (0, 0, 1))
  volume := 6
  atoms := [(1 / 6, 0, 0), (2 / 3, 0, 0)]
  tol := some (1 / 12)
  useRef := false

/-- **C103** (negative part) With `use_reference_vacuum=False`, the setting of the ELF labeler, the vacuum need not be a lower set of the partitioned
grid.  Voxels 0 and 2 ascend to voxel 1, which is vacuum, and the run gives them to the atom on voxel 4, which they do not ascend to. -/
theorem C103_other_vacuum : ∃ (A : RunAid ℚ) (v m : ℕ), IsSchedule otherVacuum.shape A.order ∧ otherVacuum.vacuum v = false ∧
    Ascends otherVacuum.shape otherVacuum.ref otherVacuum.nbrs v m ∧ otherVacuum.vacuum m = true ∧
    (otherVacuum.run A (.ongrid (List.range 6)) 9).map (fun o => (o.maxima, (List.range 6).map o.assignment.atomLabels)) =
      some ([4], [1, -1, 1, 1, 1, 1]) := by
  refine ⟨{ ringAid (fun r => r) with order := List.range 6, place := fun v => ((v : ℚ) / 6, 0, 0) }, 0, 1, List.Perm.refl _,
    by decide +kernel, ?_, by decide +kernel, by decide +kernel⟩
  refine Ascends.step (w := 1) ⟨[], ((1, 0, 0), 1), [((-1, 0, 0), 1)], rfl, by decide +kernel, by decide +kernel, by decide +kernel, by simp⟩
    (Ascends.stop ?_)
  intro n hn
  obtain ⟨t, ht, rfl⟩ := (isNbr_iff (by unfold StepFits; decide) (by decide)).mp hn
  clear hn
  revert t
  decide +kernel

end BaderKit
