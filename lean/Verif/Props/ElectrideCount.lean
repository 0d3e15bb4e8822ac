import Verif.Model.ElectrideCount
import Verif.Props.BadelfSpin
import Verif.Props.BadelfRun
import Verif.Props.GraphBuild
import Verif.Props.BaderRun
import Mathlib.Tactic.LinearCombination
/-!
# Electrons of electrides, and totals of features and of spin channels
-/
set_option linter.unusedSectionVars false
namespace BaderKit
open Finset
variable {K : Type} [Field K] [LinearOrder K] [IsStrictOrderedRing K] [FloorRing K]

theorem list_sum_rnd {rnd : K → K} {ε : K} (hr : ∀ x, |rnd x - x| ≤ ε) (l : List K) : |(l.map rnd).sum - l.sum| ≤ l.length * ε := by
  induction l with
  | nil => simp
  | cons x xs ih =>
    simp only [List.map_cons, List.sum_cons, List.length_cons, Nat.cast_add, Nat.cast_one]
    have h1 := hr x
    rw [abs_le] at *
    constructor <;> linarith [h1.1, h1.2, ih.1, ih.2]

theorem foldlM_charges (rnd : K → K) (charges : List K) : ∀ (k a : ℕ) (acc : K),
    (List.range' a k).foldlM (fun (acc : K) i => (charges[i]?).map fun c => acc + rnd c) acc =
      if k = 0 ∨ a + k ≤ charges.length then some (acc + (((charges.drop a).take k).map rnd).sum) else none := by
  intro k
  induction k with
  | zero => intro a acc; simp
  | succ k ih =>
    intro a acc
    rw [List.range'_succ, List.foldlM_cons]
    by_cases ha : a < charges.length
    · rw [List.getElem?_eq_getElem ha]
      simp only [Option.map_some, Option.bind_eq_bind, Option.bind_some]
      rw [ih, List.drop_eq_getElem_cons ha, List.take_succ_cons, List.map_cons, List.sum_cons, add_assoc acc]
      by_cases h : a + (k + 1) ≤ charges.length
      · rw [if_pos (Or.inr (by omega)), if_pos (Or.inr h)]
      · by_cases hk : k = 0
        · omega
        · rw [if_neg (by omega), if_neg (by omega)]
    · rw [List.getElem?_eq_none (by omega)]
      simp only [Option.map_none, Option.bind_eq_bind, Option.bind_none]
      rw [if_neg (by omega)]

/-! ## One channel -/

/-- **C104** The number of electride electrons: with a charge for every site it is the sum of the rounded charges after those of the atoms, and within
the rounding of the sum of the charges; it raises exactly if there are electrides and charges are missing. -/
theorem C104_count (rnd : K → K) (ε : K) (hr : ∀ x, |rnd x - x| ≤ ε) (natoms nsites : ℕ) (charges : List K) :
    (siteElectrides rnd natoms nsites charges = none ↔ natoms < nsites ∧ charges.length < nsites) ∧
    (charges.length = nsites →
      ∃ e, siteElectrides rnd natoms nsites charges = some e ∧ e = rnd (((charges.drop natoms).map rnd).sum) ∧
        |e - (charges.drop natoms).sum| ≤ ((nsites - natoms : ℕ) + 1) * ε) := by
  unfold siteElectrides
  rw [foldlM_charges]
  constructor
  · split_ifs with h
    · simp only [Option.map_some, reduceCtorEq, false_iff]; omega
    · simp only [Option.map_none, true_iff]; omega
  · intro hl
    have ht : (charges.drop natoms).take (nsites - natoms) = charges.drop natoms := by
      rw [List.take_of_length_le]; simp [hl]
    rw [if_pos (by omega), ht, zero_add]
    refine ⟨_, rfl, rfl, ?_⟩
    have h1 := list_sum_rnd hr (charges.drop natoms)
    have h2 := hr (((charges.drop natoms).map rnd).sum)
    rw [List.length_drop, hl] at h1
    rw [abs_le] at *
    constructor <;> linarith [h1.1, h1.2, h2.1, h2.2]

example : siteElectrides (fun x : ℚ => x) 2 4 [5, 6, 1 / 2, 1 / 4] = some (3 / 4) ∧ siteElectrides (fun x : ℚ => x) 2 4 [5, 6, 1 / 2] = none := by
  decide +kernel

/-- **C104** Per reduced formula: `factor` of them make up the count of the cell, up to the rounding. -/
theorem C104_reduced (rnd : K → K) (ε : K) (hr : ∀ x, |rnd x - x| ≤ ε) (count factor : K) (hf : 0 < factor) :
    |electridesReduced rnd count factor * factor - count| ≤ factor * ε := by
  have h := hr (count / factor)
  have e : electridesReduced rnd count factor * factor - count = (rnd (count / factor) - count / factor) * factor := by
    unfold electridesReduced; field_simp
  rw [e, abs_mul, abs_of_pos hf, mul_comm]
  exact mul_le_mul_of_nonneg_left h hf.le

theorem decimalVal_strInt_nonneg (n : ℤ) (h : 0 ≤ n) : strInt n = strNat n.toNat := by
  unfold strInt
  rw [if_neg (by omega)]
  congr 1; omega

/-- **C104** The formula with the electrides: the formula of the structure, a blank, the letter `e`, and a whole number that differs from the count by
at most one half; two counts give the same text only if they round to the same number. -/
theorem C104_formula (formula : Text) (count : K) :
    ∃ n : ℤ, electrideFormula formula count = formula ++ [' ', 'e'] ++ strInt n ∧ |count - n| ≤ 1 / 2 ∧
      (0 ≤ n → strInt n = strNat n.toNat) ∧ (n < 0 → strInt n = '-' :: strNat n.natAbs) := by
  refine ⟨roundHE count, rfl, roundHE_half count, decimalVal_strInt_nonneg _, fun h => ?_⟩
  unfold strInt; rw [if_pos h]

example : electrideFormula "Ca2 N1".toList (9 / 10 : ℚ) = "Ca2 N1 e1".toList ∧ electrideFormula "Ca2 N1".toList (5 / 2 : ℚ) = "Ca2 N1 e2".toList ∧
    electrideFormula "Ca2 N1".toList (-9 / 10 : ℚ) = "Ca2 N1 e-1".toList := by
  decide +kernel

/-! ## A BadELF run -/

open Classical in
/-- **C104** The number reported by a BadELF run is the charge on the voxels of the electrides, up to the rounding. -/
theorem C104_badelf_run {root : K → K} {sort : List (Coord × K) → List (Coord × K)} {sortTies : List (ℕ × K) → List (ℕ × K)}
    (hR : IsRoot root) (hs : SortsByDist sort) (hst : ∀ l, (sortTies l).Perm l) (rnd : K → K) (ε : K) (hr : ∀ x, |rnd x - x| ≤ ε) (split : Splitting)
    (radii en : ℕ → K) {I : BadelfIn K} (h : BadelfOk I) (hrows : ∀ r ∈ I.rows, r.site < I.atoms) :
    ∃ lab q vol e, badelfRun root sort sortTies rnd split radii en .badelf I = some (lab, q, vol) ∧
      siteElectrides rnd I.atoms (badelfSites I) ((List.range (badelfSites I)).map q) = some e ∧
      |e - (∑ v ∈ range I.s.size, if ∃ j ∈ bareIdx I.fs, VoxelOf I v j then I.chg v else 0) / I.s.size| ≤ ((bareIdx I.fs).length + 1) * ε := by
  obtain ⟨lab, q, vol, hrun, hq⟩ := C88_badelf_electrides (sortTies := sortTies) hR hs hst rnd split radii en h hrows
  have hsites := badelfSites_eq I
  obtain ⟨e, he, _, hb⟩ := (C104_count rnd ε hr I.atoms (badelfSites I) ((List.range (badelfSites I)).map q)).2 (by simp)
  refine ⟨lab, q, vol, e, hrun, he, ?_⟩
  have hk : badelfSites I - I.atoms = (bareIdx I.fs).length := by omega
  rw [hk] at hb
  refine le_trans (le_of_eq ?_) hb
  congr 2
  have hd : ((List.range (badelfSites I)).map q).drop I.atoms = (List.range (bareIdx I.fs).length).map fun j => q (I.atoms + j) := by
    apply List.ext_getElem
    · simp [hk]
    · intro i a b; simp
  rw [hd, sum_range_list]
  have hq' : ∀ j ∈ range (bareIdx I.fs).length, q (I.atoms + j) =
      (∑ v ∈ range I.s.size, if VoxelOf I v ((bareIdx I.fs).getD j 0) then I.chg v else 0) / (I.s.size : K) := by
    intro j hj
    have hj := Finset.mem_range.mp hj
    rw [(hq j hj).2.1, List.getD_eq_getElem _ _ hj]
  rw [Finset.sum_congr rfl hq', ← Finset.sum_div, Finset.sum_comm]
  congr 1
  refine Finset.sum_congr rfl fun v _ => ?_
  have huniq : ∀ i j, VoxelOf I v i → VoxelOf I v j → i = j := by
    rintro i j ⟨f, hf, b, hb, e1⟩ ⟨g, hg, c, hc, e2⟩
    by_contra hne
    have : b = c := by rw [e1] at e2; exact_mod_cast e2
    subst this
    exact h.disj i j f g hf hg hne b hb hc
  have hnd : (bareIdx I.fs).Nodup := List.nodup_range.filter _
  by_cases hex : ∃ j ∈ bareIdx I.fs, VoxelOf I v j
  · rw [if_pos hex]
    obtain ⟨j, hj, hv⟩ := hex
    obtain ⟨k, hk', rfl⟩ := List.mem_iff_getElem.mp hj
    rw [Finset.sum_eq_single_of_mem k (Finset.mem_range.mpr hk')]
    · rw [List.getD_eq_getElem _ _ hk', if_pos hv]
    · intro l hl hne
      have hl := Finset.mem_range.mp hl
      rw [List.getD_eq_getElem _ _ hl, if_neg]
      intro h'
      exact hne ((List.Nodup.getElem_inj_iff hnd).mp (huniq _ _ h' hv))
  · rw [if_neg hex]
    refine (Finset.sum_eq_zero fun l hl => ?_).symm
    have hl := Finset.mem_range.mp hl
    rw [List.getD_eq_getElem _ _ hl, if_neg]
    intro h'
    exact hex ⟨_, List.getElem_mem hl, h'⟩

/-! ## Two channels -/

theorem merged_drop {σ : Type} (eqv : σ → σ → Bool) (bare : σ → Bool) (atoms bu bd : List σ)
    (hrefl : ∀ x, eqv x x = true) (hb : ∀ x y, eqv x y = true → bare x = bare y) (ha : ∀ x ∈ atoms, bare x = false)
    (hbd : ∀ x ∈ bd, bare x = true) (cu cd : List K) (h1 : cu.length = (atoms ++ bu).length) (h2 : cd.length = (atoms ++ bd).length) :
    ((mergedSpec eqv (atoms ++ bu) cu ((atoms ++ bd).zip cd)).drop atoms.length).sum = (cu.drop atoms.length).sum + (cd.drop atoms.length).sum := by
  set down := (atoms ++ bd).zip cd with hdown
  set M := mergedSpec eqv (atoms ++ bu) cu down with hM
  have htot : M.sum = cu.sum + cd.sum := by
    rw [hM, ← spinMerge_spec eqv _ cu h1, spinMerge_sum eqv _ cu h1, hdown, zip_snd _ cd h2]
  have hsplit : ∀ l : List K, l.sum = (l.take atoms.length).sum + (l.drop atoms.length).sum := by
    intro l; rw [← List.sum_append, List.take_append_drop]
  -- the atoms of the second channel are found among the atoms of the first
  have hatom : ∀ x ∈ atoms, ∃ i, i < atoms.length ∧ siteIndex eqv (atoms ++ bu) x = some i := by
    intro x hx
    cases hsx : siteIndex eqv (atoms ++ bu) x with
    | none =>
      have := ((C40_position eqv (atoms ++ bu) x).2.mp hsx) x (List.mem_append_left _ hx)
      rw [hrefl] at this; simp at this
    | some i =>
      refine ⟨i, ?_, rfl⟩
      obtain ⟨hi, _, hfirst⟩ := ((C40_position eqv (atoms ++ bu) x).1 i).mp hsx
      by_contra hge
      obtain ⟨j, hj, rfl⟩ := List.mem_iff_getElem.mp hx
      have := hfirst j (by omega)
      rw [List.getElem_append_left hj, hrefl] at this
      simp at this
  have hbare : ∀ x ∈ bd, ∀ i, siteIndex eqv (atoms ++ bu) x = some i → ¬ i < atoms.length := by
    intro x hx i hsx hi
    obtain ⟨_, he, _⟩ := ((C40_position eqv (atoms ++ bu) x).1 i).mp hsx
    rw [List.getElem_append_left hi] at he
    have h3 := hb _ _ he
    rw [ha _ (List.getElem_mem hi), hbd x hx] at h3
    simp at h3
  have hzip : down = atoms.zip (cd.take atoms.length) ++ bd.zip (cd.drop atoms.length) := by
    rw [hdown, ← List.zip_append (by rw [List.length_take, h2]; simp), List.take_append_drop]
  have htake : M.take atoms.length = (List.range atoms.length).map fun i => cu.getD i 0 +
      ((down.filter fun x => siteIndex eqv (atoms ++ bu) x.1 = some i).map fun x => x.2).sum := by
    rw [hM]; unfold mergedSpec
    rw [List.take_append_of_le_length (by simp), ← List.map_take, List.take_range]
    simp
  have hcount : ∀ (l : List (σ × K)), (∀ x ∈ l, ∃ i, i < atoms.length ∧ siteIndex eqv (atoms ++ bu) x.1 = some i) →
      ∑ i ∈ range atoms.length, ((l.filter fun x => siteIndex eqv (atoms ++ bu) x.1 = some i).map fun x => x.2).sum = (l.map fun x => x.2).sum := by
    intro l
    induction l with
    | nil => intro _; simp
    | cons y ys ih =>
      intro hl
      obtain ⟨i0, hi0, hy⟩ := hl y (by simp)
      rw [List.map_cons, List.sum_cons, ← ih fun x hx => hl x (by simp [hx])]
      have : ∀ i ∈ range atoms.length, (((y :: ys).filter fun x => siteIndex eqv (atoms ++ bu) x.1 = some i).map fun x => x.2).sum =
          (if i = i0 then y.2 else 0) + ((ys.filter fun x => siteIndex eqv (atoms ++ bu) x.1 = some i).map fun x => x.2).sum := by
        intro i _
        by_cases h : i = i0
        · subst h
          rw [List.filter_cons_of_pos (by simp [hy])]; simp
        · rw [List.filter_cons_of_neg (by simp [hy]; omega)]; simp [h]
      rw [Finset.sum_congr rfl this, Finset.sum_add_distrib]
      simp [hi0]
  have hnil : ∀ i < atoms.length, ((bd.zip (cd.drop atoms.length)).filter fun x => siteIndex eqv (atoms ++ bu) x.1 = some i) = [] := by
    intro i hi
    rw [List.filter_eq_nil_iff]
    intro x hx h
    exact hbare x.1 (List.of_mem_zip hx).1 i (by simpa using h) hi
  have hfirst : (M.take atoms.length).sum = (cu.take atoms.length).sum + (cd.take atoms.length).sum := by
    rw [htake, sum_range_list, Finset.sum_add_distrib]
    congr 1
    · rw [← sum_range_list]
      congr 1
      apply List.ext_getElem
      · simp only [List.length_map, List.length_range, List.length_take, h1, List.length_append]; omega
      · intro i a b
        simp only [List.getElem_map, List.getElem_range, List.getElem_take]
        rw [List.getD_eq_getElem]
    · rw [hzip]
      have : ∀ i ∈ range atoms.length, (((atoms.zip (cd.take atoms.length) ++ bd.zip (cd.drop atoms.length)).filter
          fun x => siteIndex eqv (atoms ++ bu) x.1 = some i).map fun x => x.2).sum =
          (((atoms.zip (cd.take atoms.length)).filter fun x => siteIndex eqv (atoms ++ bu) x.1 = some i).map fun x => x.2).sum := by
        intro i hi
        rw [List.filter_append, hnil i (Finset.mem_range.mp hi), List.append_nil]
      rw [Finset.sum_congr rfl this, hcount _ fun x hx => hatom x.1 (List.of_mem_zip hx).1,
        zip_snd _ _ (by rw [List.length_take, h2]; simp)]
  have e1 := hsplit M
  have e2 := hsplit cu
  have e3 := hsplit cd
  linear_combination e2 + e3 - e1 + htot - hfirst

/-- **C104** Two spin channels.  The electride electrons counted from the combined charges are those of the two channels together: what the first list of
sites after the atoms holds, and what the second holds.  Atoms of both channels are the same. -/
theorem C104_spin {σ : Type} (eqv : σ → σ → Bool) (bare : σ → Bool) (atoms featUp featDown : List σ)
    (hrefl : ∀ x, eqv x x = true) (hb : ∀ x y, eqv x y = true → bare x = bare y) (ha : ∀ x ∈ atoms, bare x = false)
    (rnd : K → K) (ε : K) (hr : ∀ x, |rnd x - x| ≤ ε) (cu cd vu vd : List K)
    (h1 : cu.length = (atoms ++ featUp.filter bare).length) (h2 : cd.length = (atoms ++ featDown.filter bare).length)
    (h3 : vu.length = (atoms ++ featUp.filter bare).length) :
    ∃ eu ed e, siteElectrides rnd atoms.length (atoms ++ featUp.filter bare).length cu = some eu ∧
      siteElectrides rnd atoms.length (atoms ++ featDown.filter bare).length cd = some ed ∧
      siteElectrides rnd atoms.length (spinElectride eqv bare atoms featUp featDown).length
        (spinCharges eqv (atoms ++ featUp.filter bare) (atoms ++ featDown.filter bare) (cu.map rnd) (cd.map rnd) vu vd).1 = some e ∧
      |e - (eu + ed)| ≤ ((spinElectride eqv bare atoms featUp featDown).length - atoms.length + 3) * ε := by
  have hlen := C40_length eqv bare atoms featUp featDown hrefl hb ha (cu.map rnd) (cd.map rnd) vu vd (by simpa using h1) (by simpa using h2) h3
  obtain ⟨eu, k1, k2, _⟩ := (C104_count rnd ε hr atoms.length _ cu).2 h1
  obtain ⟨ed, l1, l2, _⟩ := (C104_count rnd ε hr atoms.length _ cd).2 h2
  obtain ⟨e, m1, _, m3⟩ := (C104_count rnd ε hr atoms.length _ _).2 hlen
  refine ⟨eu, ed, e, k1, l1, m1, ?_⟩
  rw [(C40_entries eqv _ _ _ _ vu vd (by simpa using h1) h3).1, merged_drop eqv bare atoms (featUp.filter bare) (featDown.filter bare) hrefl hb ha
    (fun x hx => (List.mem_filter.mp hx).2) _ _ (by simpa using h1) (by simpa using h2), ← List.map_drop, ← List.map_drop] at m3
  have hge : atoms.length ≤ (spinElectride eqv bare atoms featUp featDown).length := by simp [spinElectride]
  rw [Nat.cast_sub hge] at m3
  have hu := hr (((cu.drop atoms.length).map rnd).sum)
  have hd := hr (((cd.drop atoms.length).map rnd).sum)
  rw [← k2] at hu
  rw [← l2] at hd
  rw [abs_le] at *
  constructor <;> linarith [hu.1, hu.2, hd.1, hd.2, m3.1, m3.2]

/-- One atom, an electride of both channels and one of the second channel only: `2 + 4 + 7` electrons. -/
example : siteElectrides (fun x : ℚ => x) 1 2 [1, 2] = some 2 ∧ siteElectrides (fun x : ℚ => x) 1 3 [3, 4, 7] = some 11 ∧
    siteElectrides (fun x : ℚ => x) 1 (spinElectride (fun a b : ℕ => a == b) (fun x => decide (5 ≤ x)) [0] [5, 1] [1, 5, 6]).length
      (spinCharges (fun a b : ℕ => a == b) [0, 5] [0, 5, 6] [1, 2] [3, 4, 7] [1, 1] [1, 1, (1 : ℚ)]).1 = some 13 := by
  decide +kernel

/-- **C104** The totals of two channels: electrons add up, volumes are averaged, so that two channels that each account for their grid and for the cell
account together for both grids and for the cell. -/
theorem C104_spin_totals (rnd : K → K) (ε δ : K) (hr : ∀ x, |rnd x - x| ≤ ε) (u d : ChannelTotals K) (nu nd V : K)
    (h1 : |u.electrons - nu| ≤ δ) (h2 : |d.electrons - nd| ≤ δ) (h3 : |u.volume - V| ≤ δ) (h4 : |d.volume - V| ≤ δ) :
    |(spinTotals rnd u d).electrons - (nu + nd)| ≤ 2 * δ + ε ∧ |(spinTotals rnd u d).volume - V| ≤ δ ∧
    (spinTotals rnd u d).vacCharge = u.vacCharge + d.vacCharge ∧ 2 * (spinTotals rnd u d).vacVolume = u.vacVolume + d.vacVolume := by
  have h := hr (u.electrons + d.electrons)
  refine ⟨?_, ?_, rfl, ?_⟩
  · show |rnd (u.electrons + d.electrons) - (nu + nd)| ≤ _
    rw [abs_le] at *
    constructor <;> linarith [h1.1, h1.2, h2.1, h2.2, h.1, h.2]
  · show |(u.volume + d.volume) / 2 - V| ≤ _
    rw [abs_le] at *
    constructor <;> linarith [h3.1, h3.2, h4.1, h4.2]
  · show 2 * ((u.vacVolume + d.vacVolume) / 2) = _
    ring

/-! ## Features -/

theorem sum_flatMap_values (values : ℕ → K) (f : ℕ → List ℕ) (l : List ℕ) :
    (l.map fun k => ((f k).map values).sum).sum = ((l.flatMap f).map values).sum := by
  induction l with
  | nil => rfl
  | cons x xs ih => simp [ih]

/-- **C104** The total of the features: if the features hold every basin once (C76), then the features and the vacuum together have the charge of all
basins and of the vacuum, up to the rounding of the charges of the features and of the total. -/
theorem C104_features (rnd : K → K) (ε : K) (hr : ∀ x, |rnd x - x| ≤ ε) (g : BGraph K) (nb : ℕ) (hg : (leafBasins g).Perm (List.range nb))
    (values : ℕ → K) (vacuum : K) :
    |labelerTotal rnd g values vacuum - (∑ b ∈ range nb, values b + vacuum)| ≤ ((featureSums rnd g values).length + 1) * ε := by
  have h1 := list_sum_rnd hr ((g.nodes.filter fun k => !(g.node k).red).map fun k => ((g.node k).basins.map values).sum)
  have h2 := hr ((featureSums rnd g values).sum + vacuum)
  rw [List.map_map, sum_flatMap_values] at h1
  have h3 : ((leafBasins g).map values).sum = ∑ b ∈ range nb, values b := by
    rw [(hg.map values).sum_eq, sum_range_list]
  unfold leafBasins at h3
  rw [h3] at h1
  have e : (List.map (rnd ∘ fun k => ((g.node k).basins.map values).sum) (g.nodes.filter fun k => !(g.node k).red)) = featureSums rnd g values := rfl
  rw [e] at h1
  have el : ((g.nodes.filter fun k => !(g.node k).red).map fun k => ((g.node k).basins.map values).sum).length =
      (featureSums rnd g values).length := by simp [featureSums]
  rw [el] at h1
  unfold labelerTotal
  rw [abs_le] at *
  constructor <;> linarith [h1.1, h1.2, h2.1, h2.2]

/-- **C104** For the graph that the labeler builds from the connections of the basins, with the charges of the basins of a partition of the charge grid:
the reported number of electrons is that of the grid, up to the rounding. -/
theorem C104_labeler {fuel nb : ℕ} {dim : K → ℕ → Option ℕ} {dm : K → ℕ → ℕ} {conns : List (Conn K)} {ref : ℕ → K} {minData : K}
    (hin : DomainInput fuel nb dim dm conns) (hpeak : PeakInput nb conns ref) (hmin : ∀ c ∈ conns, minData < c.val) (junk : ℕ → K)
    {surr : List (DomIn K) → K → List (List ℕ)} (hquiet : ∀ inp u w, u < w → (∀ l ∈ surr inp u, l = []) → ∀ l ∈ surr inp w, l = []) (extra : List K)
    (rnd : K → K) (ε : K) (hr : ∀ x, |rnd x - x| ≤ ε) (s : Shape) (chg : ℕ → K) (labels : ℕ → ℤ) (V : K) (hpos : 0 < s.size)
    (hlab : ∀ v < s.size, -1 ≤ labels v ∧ labels v < nb) :
    ∃ g, graphOf fuel nb dim ref minData conns junk surr extra = some g ∧
      |labelerTotal rnd g (fun b => rnd ((basinChargesVolumes s chg labels V).charges b)) (rnd (basinChargesVolumes s chg labels V).vacCharge) -
        (∑ v ∈ range s.size, chg v) / s.size| ≤
        ((featureSums rnd g fun b => rnd ((basinChargesVolumes s chg labels V).charges b)).length + nb + 2) * ε ∧
      |labelerTotal rnd g (fun b => rnd ((basinChargesVolumes s chg labels V).volumes b)) (rnd (basinChargesVolumes s chg labels V).vacVolume) - V| ≤
        ((featureSums rnd g fun b => rnd ((basinChargesVolumes s chg labels V).volumes b)).length + nb + 2) * ε := by
  obtain ⟨g, hg, _, _, _, hperm⟩ := C76_graph_from_connections hin hpeak hmin junk hquiet extra
  obtain ⟨c1, c2⟩ := C12_conservation s chg labels V nb hpos hlab
  refine ⟨g, hg, ?_, ?_⟩
  · have h1 := C104_features rnd ε hr g nb hperm (fun b => rnd ((basinChargesVolumes s chg labels V).charges b))
      (rnd (basinChargesVolumes s chg labels V).vacCharge)
    have h2 := abs_sum_rnd hr (range nb) (basinChargesVolumes s chg labels V).charges
    have h3 := hr (basinChargesVolumes s chg labels V).vacCharge
    rw [Finset.card_range] at h2
    rw [← c1]
    rw [abs_le] at *
    constructor <;> linarith [h1.1, h1.2, h2.1, h2.2, h3.1, h3.2]
  · have h1 := C104_features rnd ε hr g nb hperm (fun b => rnd ((basinChargesVolumes s chg labels V).volumes b))
      (rnd (basinChargesVolumes s chg labels V).vacVolume)
    have h2 := abs_sum_rnd hr (range nb) (basinChargesVolumes s chg labels V).volumes
    have h3 := hr (basinChargesVolumes s chg labels V).vacVolume
    rw [Finset.card_range] at h2
    rw [abs_le] at *
    constructor <;> linarith [h1.1, h1.2, h2.1, h2.2, h3.1, h3.2]

end BaderKit
