import Verif.Lemmas.Connections
import Mathlib.Data.Set.Finite.Lemmas
/-!
# C78: the connections between basins

`find_domain_connections` lists pairs of basins with the values at which they meet.
-/
namespace BaderKit
variable {K : Type} [Field K] [LinearOrder K] {s : Shape} {data : ℕ → K} {labels : ℕ → ℤ} {ts : List Coord} {sad edge vac : ℕ → Bool} {nb : ℕ}

/-- A marked voxel touches the basin from another basin, or belongs to it and touches another basin. -/
def SaddleMeets (s : Shape) (labels : ℕ → ℤ) (ts : List Coord) (sad vac : ℕ → Bool) (a : ℕ) : Prop :=
  ∃ v < s.size, sad v = true ∧ vac v = false ∧ ∃ w, IsNbr s ts v w ∧ 0 ≤ labels v ∧ 0 ≤ labels w ∧ labels v ≠ labels w ∧
    (labels v = a ∨ labels w = a)

theorem meet_greatest {v b : ℕ} (hts : ∀ t ∈ ts, StepFits s t) (hv : v < s.size) (hbig : ∀ w < s.size, -10 ^ 300 < data w)
    (hne : labels v ≠ b) (h : (MeetVals s data labels ts v b).Nonempty) : ∃ x, IsGreatest (MeetVals s data labels ts v b) x := by
  have hex := (meet_nonempty (data := data) hts hv hne).mpr h
  have hg := bestVal_greatest hex (fun x hx => by
    obtain ⟨t, ht, _, _, rfl⟩ := mem_neighVals.mp hx
    exact lt_min (hbig v hv) (hbig _ (nbr_lt hv (hts t ht))))
  rw [meet_eq hts hv hne] at hg
  exact ⟨_, hg⟩

theorem found_iff (hts : ∀ t ∈ ts, StepFits s t) (hlab : LabelsOk s labels nb) (hbig : ∀ w < s.size, -10 ^ 300 < data w) {a : ℕ} :
    foundMask (firstConns s data labels ts sad vac) a = true ↔ SaddleMeets s labels ts sad vac a := by
  rw [foundMask_iff]
  constructor
  · rintro ⟨c, hc, h⟩
    obtain ⟨v, hv, h1, h2, a', b, ha, hab, ⟨e1, e2⟩, ⟨w, hw, hwb, _⟩, _⟩ := (firstConns_iff hts hlab hbig).mp hc
    refine ⟨v, hv, h1, h2, w, hw, by omega, by omega, by rw [ha, hwb]; exact_mod_cast hab, ?_⟩
    rw [ha, hwb]
    rcases le_total a' b with hle | hle
    · rw [min_eq_left hle] at e1
      rw [max_eq_right hle] at e2
      omega
    · rw [min_eq_right hle] at e1
      rw [max_eq_left hle] at e2
      omega
  · rintro ⟨v, hv, h1, h2, w, hw, h3, h4, h5, h6⟩
    obtain ⟨a', _, ha⟩ := (hlab v hv).resolve_left (by omega)
    obtain ⟨b, _, hb⟩ := (hlab w hw.1).resolve_left (by omega)
    have hab : a' ≠ b := fun e => h5 (by rw [ha, hb, e])
    have hne : labels v ≠ (b : ℤ) := by rw [ha]; exact_mod_cast hab
    obtain ⟨x, hx⟩ := meet_greatest (data := data) hts hv hbig hne ⟨_, w, hw, hb, rfl⟩
    refine ⟨⟨min a' b, max a' b, x⟩, (firstConns_iff hts hlab hbig).mpr ⟨v, hv, h1, h2, a', b, ha, hab, ⟨rfl, rfl⟩, hx⟩, ?_⟩
    simp only
    rw [ha, hb] at h6
    rcases le_total a' b with hle | hle
    · rw [min_eq_left hle, max_eq_right hle]; omega
    · rw [min_eq_right hle, max_eq_left hle]; omega

/-- C78: the list of connections.  A connection comes from a marked voxel and one of the other basins it touches, with the highest of the values
at which the voxel meets that basin; or, for a basin that no marked voxel touches, from the edge voxels of the basin and one of the basins they
touch, with the highest value at which they meet, if this value is positive. -/
theorem C78_connections (hts : ∀ t ∈ ts, StepFits s t) (hlab : LabelsOk s labels nb) (hbig : ∀ w < s.size, -10 ^ 300 < data w) {c : Conn K} :
    c ∈ domainConns s data labels ts sad edge vac nb ↔
      (∃ v < s.size, sad v = true ∧ vac v = false ∧ ∃ a b : ℕ, labels v = a ∧ a ≠ b ∧ ConnOf c a b ∧
        IsGreatest (MeetVals s data labels ts v b) c.val) ∨
      (∃ a b : ℕ, a < nb ∧ b < nb ∧ a ≠ b ∧ ¬ SaddleMeets s labels ts sad vac a ∧ ConnOf c a b ∧ 0 < c.val ∧
        IsGreatest (EdgeVals s data labels ts edge vac a b) c.val) := by
  unfold domainConns
  simp only [List.mem_append]
  rw [firstConns_iff hts hlab hbig, missConns_iff hts hlab]
  have e : ∀ a, foundMask (firstConns s data labels ts sad vac) a = false ↔ ¬ SaddleMeets s labels ts sad vac a := by
    intro a
    rw [← found_iff (data := data) hts hlab hbig]
    simp
  simp only [e]

/-- C78: every connection is between two different basins that really meet: there are two neighbouring voxels, one in each, and the value of the
connection is the lower of their two values. -/
theorem C78_sound (hts : ∀ t ∈ ts, StepFits s t) (hlab : LabelsOk s labels nb) (hbig : ∀ w < s.size, -10 ^ 300 < data w) {c : Conn K}
    (hc : c ∈ domainConns s data labels ts sad edge vac nb) : c.i < c.j ∧ c.j < nb ∧ ∃ v w, v < s.size ∧ vac v = false ∧ IsNbr s ts v w ∧
      c.val = min (data v) (data w) ∧ ((labels v = c.i ∧ labels w = c.j) ∨ (labels v = c.j ∧ labels w = c.i)) := by
  have main : ∀ (v w a b : ℕ), v < s.size → vac v = false → labels v = a → a ≠ b → ConnOf c a b → IsNbr s ts v w → labels w = b →
      c.val = min (data v) (data w) → c.i < c.j ∧ c.j < nb ∧ ∃ v w, v < s.size ∧ vac v = false ∧ IsNbr s ts v w ∧
      c.val = min (data v) (data w) ∧ ((labels v = c.i ∧ labels w = c.j) ∨ (labels v = c.j ∧ labels w = c.i)) := by
    intro v w a b hv hvac ha hab hco hw hwb hval
    obtain ⟨a', ha', e⟩ := (hlab v hv).resolve_left (by omega)
    obtain ⟨b', hb', e'⟩ := (hlab w hw.1).resolve_left (by omega)
    have ea : a' = a := by omega
    have eb : b' = b := by omega
    refine ⟨?_, ?_, v, w, hv, hvac, hw, hval, ?_⟩
    · rw [hco.1, hco.2]; exact min_lt_max.mpr hab
    · rw [hco.2]; exact max_lt (ea ▸ ha') (eb ▸ hb')
    · rw [hco.1, hco.2, ha, hwb]
      rcases le_total a b with hle | hle
      · rw [min_eq_left hle, max_eq_right hle]; exact Or.inl ⟨rfl, rfl⟩
      · rw [min_eq_right hle, max_eq_left hle]; exact Or.inr ⟨rfl, rfl⟩
  rcases (C78_connections hts hlab hbig).mp hc with ⟨v, hv, _, h2, a, b, ha, hab, hco, ⟨w, hw, hwb, hval⟩, _⟩ |
    ⟨a, b, _, _, hab, _, hco, _, ⟨v, hv, _, h2, ha, w, hw, hwb, hval⟩, _⟩
  · exact main v w a b hv h2 ha hab hco hw hwb hval
  · exact main v w a b hv h2 ha hab hco hw hwb hval

/-- C78: every pair of basins that meets at a marked voxel is connected, at least at the value at which they meet there. -/
theorem C78_saddle_connected (hts : ∀ t ∈ ts, StepFits s t) (hlab : LabelsOk s labels nb) (hbig : ∀ w < s.size, -10 ^ 300 < data w) {v w a b : ℕ}
    (hv : v < s.size) (hs : sad v = true) (hvac : vac v = false) (hw : IsNbr s ts v w) (ha : labels v = a) (hb : labels w = b) (hab : a ≠ b) :
    ∃ c ∈ domainConns s data labels ts sad edge vac nb, ConnOf c a b ∧ min (data v) (data w) ≤ c.val ∧ c.val ≤ data v := by
  have hne : labels v ≠ (b : ℤ) := by rw [ha]; exact_mod_cast hab
  obtain ⟨x, hx⟩ := meet_greatest (data := data) hts hv hbig hne ⟨_, w, hw, hb, rfl⟩
  refine ⟨⟨min a b, max a b, x⟩, (C78_connections hts hlab hbig).mpr (Or.inl ⟨v, hv, hs, hvac, a, b, ha, hab, ⟨rfl, rfl⟩, hx⟩), ⟨rfl, rfl⟩,
    hx.2 ⟨w, hw, hb, rfl⟩, ?_⟩
  obtain ⟨w', _, _, e⟩ := hx.1
  simp only
  rw [e]
  exact min_le_left _ _

theorem edge_greatest (hts : ∀ t ∈ ts, StepFits s t) {a b : ℕ} (h : (EdgeVals s data labels ts edge vac a b).Nonempty) :
    ∃ x, IsGreatest (EdgeVals s data labels ts edge vac a b) x := by
  have hsub : EdgeVals s data labels ts edge vac a b ⊆
      ((Finset.range s.size ×ˢ Finset.range s.size).image fun p => min (data p.1) (data p.2) : Finset K) := by
    rintro x ⟨v, hv, _, _, _, w, hw, _, rfl⟩
    rw [Finset.mem_coe, Finset.mem_image]
    exact ⟨(v, w), by simp [hv, hw.1], rfl⟩
  have hfin := (Finset.finite_toSet _).subset hsub
  obtain ⟨x, hx, hm⟩ := Set.exists_max_image _ id hfin h
  exact ⟨x, hx, hm⟩

/-- C78: when the values are positive, every basin that touches another one at an edge voxel takes part in a connection. -/
theorem C78_every_basin (hts : ∀ t ∈ ts, StepFits s t) (hlab : LabelsOk s labels nb) (hpos : ∀ w < s.size, 0 < data w)
    (hbig : ∀ w < s.size, -10 ^ 300 < data w) {v w a b : ℕ} (hv : v < s.size) (he : edge v = true) (hvac : vac v = false) (hw : IsNbr s ts v w)
    (ha : labels v = a) (hb : labels w = b) (hab : a ≠ b) : ∃ c ∈ domainConns s data labels ts sad edge vac nb, c.i = a ∨ c.j = a := by
  by_cases hf : SaddleMeets s labels ts sad vac a
  · obtain ⟨c, hc, h⟩ := foundMask_iff.mp ((found_iff (data := data) hts hlab hbig).mpr hf)
    exact ⟨c, by unfold domainConns; exact List.mem_append_left _ hc, h⟩
  · obtain ⟨x, hx⟩ := edge_greatest (data := data) (labels := labels) (edge := edge) (vac := vac) hts (a := a) (b := b)
      ⟨_, v, hv, he, hvac, ha, w, hw, hb, rfl⟩
    obtain ⟨a', ha', e⟩ := (hlab v hv).resolve_left (by omega)
    obtain ⟨b', hb', e'⟩ := (hlab w hw.1).resolve_left (by omega)
    have ea : a' = a := by omega
    have eb : b' = b := by omega
    have hx0 : 0 < x := by
      obtain ⟨v', hv', _, _, _, w', hw', _, rfl⟩ := hx.1
      exact lt_min (hpos _ hv') (hpos _ hw'.1)
    refine ⟨⟨min a b, max a b, x⟩, (C78_connections hts hlab hbig).mpr
      (Or.inr ⟨a, b, ea ▸ ha', eb ▸ hb', hab, hf, ⟨rfl, rfl⟩, hx0, hx⟩), ?_⟩
    simp only
    rcases le_total a b with hle | hle
    · exact Or.inl (min_eq_left hle)
    · exact Or.inr (max_eq_left hle)

/-- Data of the examples: a ring of six voxels with two basins; `d` is added to all values. -/
def ringConnData (d : ℚ) (v : ℕ) : ℚ := (if v = 1 then 5 else if v = 4 then 4 else if v = 2 ∨ v = 5 then 1 else 2) + d
def ringConnLabels (v : ℕ) : ℤ := if v < 3 then 0 else 1
def ringConnNbrs : List Coord := [(-1, 0, 0), (1, 0, 0)]

/-- Non-vacuity: without marked voxels the two basins are connected at the highest value at which they meet (`min 1 2 = 1`, and `min 2 1 = 1`),
once from each side; with voxel 2 marked, at that voxel. -/
example : (domainConns ⟨6, 1, 1⟩ (ringConnData 0) ringConnLabels ringConnNbrs (fun _ => false) (fun _ => true) (fun _ => false) 2 =
    [⟨0, 1, 1⟩, ⟨0, 1, 1⟩]) ∧
    (domainConns ⟨6, 1, 1⟩ (ringConnData 0) ringConnLabels ringConnNbrs (fun v => v == 3) (fun _ => true) (fun _ => false) 2 = [⟨0, 1, 1⟩]) ∧
    LabelsOk ⟨6, 1, 1⟩ ringConnLabels 2 := by
  refine ⟨by decide +kernel, by decide +kernel, ?_⟩
  intro v _
  right
  by_cases h : v < 3
  · exact ⟨0, by omega, by simp [ringConnLabels, h]⟩
  · exact ⟨1, by omega, by simp [ringConnLabels, h]⟩

/-- C78 fails for negative values: the same data, lowered by 10, give no connection although the basins touch. -/
theorem C78_nonpositive_lost : ¬ ∀ (s : Shape) (data : ℕ → ℚ) (labels : ℕ → ℤ) (ts : List Coord) (sad edge vac : ℕ → Bool) (nb v w a b : ℕ),
    (∀ t ∈ ts, StepFits s t) → LabelsOk s labels nb → v < s.size → edge v = true → vac v = false → IsNbr s ts v w → labels v = a → labels w = b →
      a ≠ b → ∃ c ∈ domainConns s data labels ts sad edge vac nb, c.i = a ∨ c.j = a := by
  intro h
  have hfit : ∀ t ∈ ringConnNbrs, StepFits ⟨6, 1, 1⟩ t := by unfold StepFits; decide
  obtain ⟨c, hc, _⟩ := h ⟨6, 1, 1⟩ (ringConnData (-10)) ringConnLabels ringConnNbrs (fun _ => false) (fun _ => true) (fun _ => false) 2 2 3 0 1 hfit
    (by
      intro v _
      right
      by_cases h : v < 3
      · exact ⟨0, by omega, by simp [ringConnLabels, h]⟩
      · exact ⟨1, by omega, by simp [ringConnLabels, h]⟩)
    (by decide) rfl rfl ((isNbr_iff hfit (by decide)).mpr ⟨(1, 0, 0), by decide, by decide⟩) (by decide) (by decide) (by decide)
  have e : domainConns ⟨6, 1, 1⟩ (ringConnData (-10)) ringConnLabels ringConnNbrs (fun _ => false) (fun _ => true) (fun _ => false) 2 = [] := by
    decide +kernel
  rw [e] at hc
  simp at hc

end BaderKit
