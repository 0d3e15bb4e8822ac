import Verif.Model.SpinLabels
import Verif.Props.BadelfSpin
import Mathlib.Algebra.Order.Field.Basic
import Mathlib.Tactic.Linarith
import Mathlib.Tactic.Ring
import Mathlib.Tactic.FieldSimp
/-!
# C83: the combined results of a spin-polarised ELF
-/
set_option linter.unusedSectionVars false
namespace BaderKit

section
variable {σ : Type*}

theorem siteIndex_none {eqv : σ → σ → Bool} {l : List σ} {x : σ} : siteIndex eqv l x = none ↔ ∀ y ∈ l, eqv y x = false := by
  unfold siteIndex
  rw [List.findIdx?_eq_none_iff]

/-- **C83, the order of sites.** The sites of the combined structure are those of the spin-up structure followed by the spin-down sites that are not
in it: the order in which the charges are listed. -/
theorem C83_order (eqv : σ → σ → Bool) (sym : σ → String) (hrefl : ∀ x, eqv x x = true) (atoms fu fd : List σ) :
    (spinSites eqv sym atoms (atoms ++ fu) (atoms ++ fd)).map Prod.fst =
      (atoms ++ fu) ++ ((atoms ++ fd).filter fun x => siteIndex eqv (atoms ++ fu) x = none) := by
  unfold spinSites
  rw [List.drop_left, List.drop_left, List.map_append, List.map_append, List.map_map, List.map_map, List.map_map]
  have e1 : ∀ (l : List σ) (g : σ → String), List.map (Prod.fst ∘ fun s => (s, g s)) l = l := by
    intro l g
    induction l with
    | nil => rfl
    | cons x l ih => rw [List.map_cons, ih]; rfl
  rw [e1, e1, e1, List.filter_append]
  have e2 : (atoms.filter fun x => decide (siteIndex eqv (atoms ++ fu) x = none)) = [] := by
    rw [List.filter_eq_nil_iff]
    intro x hx
    rw [decide_eq_true_eq, siteIndex_none]
    intro h
    have := h x (List.mem_append_left _ hx)
    rw [hrefl] at this
    simp at this
  rw [e2, List.nil_append]
  congr 1
  apply List.filter_congr
  intro x _
  cases siteIndex eqv (atoms ++ fu) x <;> simp

/-- **C83, a charge for every site, and their total.** -/
theorem C83_charges {K : Type*} [Field K] [LinearOrder K] [FloorRing K] (eqv : σ → σ → Bool) (sym : σ → String) (hrefl : ∀ x, eqv x x = true)
    (atoms fu fd : List σ) (cu cd vu vd : List K)
    (h1 : cu.length = (atoms ++ fu).length) (h2 : cd.length = (atoms ++ fd).length)
    (h3 : vu.length = (atoms ++ fu).length) (h4 : vd.length = (atoms ++ fd).length) :
    (spinCharges eqv (atoms ++ fu) (atoms ++ fd) cu cd vu vd).1.length = (spinSites eqv sym atoms (atoms ++ fu) (atoms ++ fd)).length ∧
    (spinCharges eqv (atoms ++ fu) (atoms ++ fd) cu cd vu vd).1.sum = cu.sum + cd.sum ∧
    (spinCharges eqv (atoms ++ fu) (atoms ++ fd) cu cd vu vd).2.sum = (vu.sum + vd.sum) / 2 := by
  refine ⟨?_, C40_total eqv _ _ cu cd vu vd h1 h2 h3 h4⟩
  have hl := congrArg List.length (C83_order eqv sym hrefl atoms fu fd)
  rw [List.length_map] at hl
  rw [hl, (C40_entries eqv _ _ cu cd vu vd h1 h3).1]
  generalize atoms ++ fu = up at *
  generalize atoms ++ fd = down at *
  unfold mergedSpec
  rw [List.length_append, List.length_append, List.length_map, List.length_map, List.length_range]
  congr 1
  have hz : ∀ (l : List σ) (c : List K), c.length = l.length → ((l.zip c).filter fun x => decide (siteIndex eqv up x.1 = none)).length =
      (l.filter fun x => decide (siteIndex eqv up x = none)).length := by
    intro l
    induction l with
    | nil => intro c _; simp
    | cons y l ih =>
      intro c hc
      cases c with
      | nil => simp at hc
      | cons q c =>
        rw [List.zip_cons_cons, List.filter_cons, List.filter_cons]
        have := ih c (by simpa using hc)
        by_cases h : siteIndex eqv up y = none
        · simp [h, this]
        · simp [h, this]
  exact hz down cd h2

/-- **C83, names.** A feature found in both channels appears with its plain symbol, one
found only with spin up with `xu`, one found only with spin down with `xd`; nothing else appears. -/
theorem C83_names (eqv : σ → σ → Bool) (sym : σ → String) (atoms fu fd : List σ) (s : σ) (name : String) :
    (s, name) ∈ spinSites eqv sym atoms (atoms ++ fu) (atoms ++ fd) ↔
      (s ∈ atoms ∧ name = sym s) ∨
      (s ∈ fu ∧ (∃ y ∈ atoms ++ fd, eqv y s = true) ∧ name = sym s) ∨
      (s ∈ fu ∧ (∀ y ∈ atoms ++ fd, eqv y s = false) ∧ name = sym s ++ "xu") ∨
      (s ∈ fd ∧ (∀ y ∈ atoms ++ fu, eqv y s = false) ∧ name = sym s ++ "xd") := by
  have hsome : ∀ l : List σ, (siteIndex eqv l s).isSome = true ↔ ∃ y ∈ l, eqv y s = true := by
    intro l
    rw [Option.isSome_iff_ne_none, Ne, siteIndex_none]
    push Not
    simp
  unfold spinSites
  rw [List.drop_left, List.drop_left, List.mem_append, List.mem_append, List.mem_map, List.mem_map, List.mem_map]
  constructor
  · rintro ((⟨a, ha, he⟩ | ⟨a, ha, he⟩) | ⟨a, ha, he⟩)
    · rw [Prod.mk.injEq] at he
      obtain ⟨rfl, rfl⟩ := he
      exact Or.inl ⟨ha, rfl⟩
    · rw [Prod.mk.injEq] at he
      obtain ⟨rfl, rfl⟩ := he
      by_cases h : (siteIndex eqv (atoms ++ fd) a).isSome = true
      · rw [if_pos h]
        exact Or.inr (Or.inl ⟨ha, (hsome _).1 h, rfl⟩)
      · rw [if_neg h]
        refine Or.inr (Or.inr (Or.inl ⟨ha, ?_, rfl⟩))
        rw [← siteIndex_none]
        simpa using h
    · rw [Prod.mk.injEq] at he
      obtain ⟨rfl, rfl⟩ := he
      rw [List.mem_filter] at ha
      refine Or.inr (Or.inr (Or.inr ⟨ha.1, ?_, rfl⟩))
      rw [← siteIndex_none]
      simpa using ha.2
  · rintro (⟨h, rfl⟩ | ⟨h, h2, rfl⟩ | ⟨h, h2, rfl⟩ | ⟨h, h2, rfl⟩)
    · exact Or.inl (Or.inl ⟨s, h, rfl⟩)
    · exact Or.inl (Or.inr ⟨s, h, by rw [if_pos ((hsome _).2 h2)]⟩)
    · refine Or.inl (Or.inr ⟨s, h, ?_⟩)
      rw [← siteIndex_none] at h2
      rw [h2]
      rfl
    · refine Or.inr ⟨s, List.mem_filter.mpr ⟨h, ?_⟩, rfl⟩
      rw [← siteIndex_none] at h2
      rw [h2]
      rfl

/-- **C83, oxidation states.** A state for every site: the valence electrons of its name, none for names that are not in the POTCAR, minus the
charge at the same position; together the valence electrons minus the charge. -/
theorem C83_oxidation {K : Type*} [Field K] (val : String → Option K) (sites : List (σ × String)) (charges : List K)
    (h : charges.length = sites.length) :
    (spinOxidation val sites charges).length = sites.length ∧
    (∀ (i : ℕ) (h1 : i < sites.length), (spinOxidation val sites charges)[i]? =
      some ((val sites[i].2).getD 0 - charges[i]'(h ▸ h1))) ∧
    (spinOxidation val sites charges).sum = (sites.map fun s => (val s.2).getD 0).sum - charges.sum := by
  unfold spinOxidation
  refine ⟨by rw [List.length_zipWith]; omega, fun i h1 => ?_, ?_⟩
  · rw [List.getElem?_zipWith, List.getElem?_eq_getElem h1, List.getElem?_eq_getElem (h ▸ h1)]
  · induction sites generalizing charges with
    | nil =>
      rw [List.length_nil, List.length_eq_zero_iff] at h
      subst h
      simp
    | cons s sites ih =>
      cases charges with
      | nil => simp at h
      | cons q charges =>
        rw [List.zipWith_cons_cons, List.sum_cons, ih charges (by simpa using h), List.map_cons, List.sum_cons, List.sum_cons]
        ring
end

/-- Two atoms; an electride at 5 in both channels, one at 6 only with spin up, one at 7 only with spin down. -/
example : spinSites (fun a b : ℕ => decide (a = b)) (fun n => if n < 2 then "Na" else "E") [0, 1] [0, 1, 5, 6] [0, 1, 7, 5] =
    [(0, "Na"), (1, "Na"), (5, "E"), (6, "Exu"), (7, "Exd")] ∧
    (spinCharges (fun a b : ℕ => decide (a = b)) [0, 1, 5, 6] [0, 1, 7, 5] [4, 4, 1, (1 / 2 : ℚ)] [3, 3, 2, 1] [1, 1, 1, 1] [1, 1, 1, 1]).1 =
      [7, 7, 2, 1 / 2, 2] := by decide +kernel

section
variable {K : Type} [Field K] [LinearOrder K] [IsStrictOrderedRing K]

theorem equalSpin_iff (n : ℕ) (u d : ℕ → K) : equalSpin n u d = true ↔ ∀ v < n, |u v - d v| ≤ 1 / 10 ^ 4 := by
  unfold equalSpin
  rw [List.all_eq_true]
  simp [List.mem_range]

theorem chargeOf_add (n : ℕ) (p : ℕ → Bool) (f g : ℕ → K) : chargeOf n p f + chargeOf n p g = chargeOf n p fun v => f v + g v := by
  unfold chargeOf
  rw [← add_div]
  congr 1
  induction (List.range n).filter p with
  | nil => simp
  | cons v l ih => rw [List.map_cons, List.map_cons, List.map_cons, List.sum_cons, List.sum_cons, List.sum_cons, ← ih]; ring

/-- **C83, different channels.** The total number of electrons is that of the charge density, and the charge of a site is the sum of both
channels over its region in each. -/
theorem C83_polarised (n : ℕ) (refUp refDown total diff : ℕ → K) (part : (ℕ → K) → ℕ → ℤ) (h : ∃ v < n, 1 / 10 ^ 4 < |refUp v - refDown v|) :
    spinElectrons n refUp refDown total diff part = chargeOf n (fun _ => true) total ∧
    ∀ a, spinSiteCharge n refUp refDown total diff part a =
      chargeOf n (fun v => decide (part refUp v = a)) (fun v => (total v + diff v) / 2) +
      chargeOf n (fun v => decide (part refDown v = a)) (fun v => (total v - diff v) / 2) := by
  have he : equalSpin n refUp refDown = false := by
    rw [Bool.eq_false_iff, Ne, equalSpin_iff]
    push Not
    exact h
  have hd : downLabeler n refUp refDown total diff part = (part refDown, chargeDown total diff) := by
    unfold downLabeler; rw [he]; rfl
  constructor
  · unfold spinElectrons
    rw [hd, chargeOf_add]
    congr 1
    funext v
    simp only [chargeUp, chargeDown]
    ring
  · intro a
    unfold spinSiteCharge
    rw [hd]
    rfl

/-- **C83, equal ELF.** If the ELF of the channels agree to 1e-4 at every voxel, the spin-down results are replaced by the spin-up results: a site
has in addition to the charge of its region the magnetic moment in it, and the total number of electrons is too large by the total moment. -/
theorem C83_equal_elf (n : ℕ) (refUp refDown total diff : ℕ → K) (part : (ℕ → K) → ℕ → ℤ) (h : ∀ v < n, |refUp v - refDown v| ≤ 1 / 10 ^ 4) :
    spinElectrons n refUp refDown total diff part = chargeOf n (fun _ => true) total + chargeOf n (fun _ => true) diff ∧
    ∀ a, spinSiteCharge n refUp refDown total diff part a =
      chargeOf n (fun v => decide (part refUp v = a)) total + chargeOf n (fun v => decide (part refUp v = a)) diff := by
  have hd : downLabeler n refUp refDown total diff part = (part refUp, chargeUp total diff) := by
    unfold downLabeler; rw [(equalSpin_iff n refUp refDown).2 h]; rfl
  have key : ∀ p : ℕ → Bool, chargeOf n p (chargeUp total diff) + chargeOf n p (chargeUp total diff) = chargeOf n p total + chargeOf n p diff := by
    intro p
    rw [chargeOf_add, chargeOf_add]
    congr 1
    funext v
    simp only [chargeUp]
    ring
  constructor
  · unfold spinElectrons
    rw [hd, key]
  · intro a
    unfold spinSiteCharge
    rw [hd]
    exact key _

/-- **C83, the total is right** exactly without a net moment if the ELF agree. -/
theorem C83_total_partial (n : ℕ) (refUp refDown total diff : ℕ → K) (part : (ℕ → K) → ℕ → ℤ) :
    spinElectrons n refUp refDown total diff part = chargeOf n (fun _ => true) total ↔
      ((∃ v < n, 1 / 10 ^ 4 < |refUp v - refDown v|) ∨ chargeOf n (fun _ => true) diff = 0) := by
  by_cases h : ∃ v < n, 1 / 10 ^ 4 < |refUp v - refDown v|
  · exact ⟨fun _ => Or.inl h, fun _ => (C83_polarised n refUp refDown total diff part h).1⟩
  · have h' := h
    push Not at h'
    rw [(C83_equal_elf n refUp refDown total diff part h').1]
    constructor
    · intro e; right; linarith
    · rintro (e | e)
      · exact absurd e h
      · rw [e, add_zero]
end

/-- **C83, not with a moment.** Two voxels with the same ELF in both channels, two electrons and a moment of two: four electrons are reported. -/
theorem C83_total_wrong : spinElectrons (K := ℚ) 2 (fun _ => 1 / 2) (fun _ => 1 / 2) (fun _ => 2) (fun _ => 2) (fun _ _ => 0) = 4 ∧
    chargeOf (K := ℚ) 2 (fun _ => true) (fun _ => 2) = 2 := by decide +kernel

/-- **C83, not the requested splitting.** The dictionary records the requested method, its charges are those of the default method. -/
theorem C83_splitting_ignored :
    (dictCharges (fun x => x) .equal false (fun a => (a : ℚ) + 1) (fun _ => 1) 2
      [⟨3, 5, false, [0, 1], [1, 1], [0, 1], [1, 1], [0], "covalent"⟩]).1 = .equal ∧
    (dictCharges (fun x => x) .equal false (fun a => (a : ℚ) + 1) (fun _ => 1) 2
      [⟨3, 5, false, [0, 1], [1, 1], [0, 1], [1, 1], [0], "covalent"⟩]).2.map (fun r => (r.1 0, r.1 1)) = some (1, 2) ∧
    (chargesVolumes (fun x => x) .equal false (fun a => (a : ℚ) + 1) (fun _ => 1) 2
      [⟨3, 5, false, [0, 1], [1, 1], [0, 1], [1, 1], [0], "covalent"⟩]).map (fun r => (r.1 0, r.1 1)) = some (3 / 2, 3 / 2) := by
  decide +kernel

/-- The hypotheses of `C83_polarised` and of `C83_equal_elf` are met. -/
example : (∃ v < 2, (1 : ℚ) / 10 ^ 4 < |(if v = 0 then (1 : ℚ) / 2 else 1 / 3) - 1 / 3|) ∧
    ∀ v < 2, |(if v = 0 then (1 : ℚ) / 2 else 1 / 3) - (if v = 0 then 1 / 2 + 1 / 20000 else 1 / 3)| ≤ 1 / 10 ^ 4 := by
  constructor
  · exact ⟨0, by decide, by decide +kernel⟩
  · decide +kernel

end BaderKit
