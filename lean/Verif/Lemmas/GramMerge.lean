import Verif.Lemmas.GramSchmidt
/-! # Bases that are concatenated without being made orthogonal -/
set_option linter.unusedSectionVars false
namespace BaderKit
variable {K : Type} [Field K] [LinearOrder K] [IsStrictOrderedRing K]

/-- A list with the span of an orthonormal basis that is not longer; with `b` it is that basis. -/
def WGram (b : Prop) (bd : ℕ) (C : List (V3 K)) (gens : List Coord) : Prop :=
  ∃ C', Gram bd C' gens ∧ Submodule.span K {x | x ∈ C} = Submodule.span K {x | x ∈ C'} ∧ C'.length ≤ C.length ∧ (b → C = C')

theorem norm2_add_orth {u w : V3 K} (h : dotV u w = 0) : norm2 u ≤ norm2 (u + w) := by
  have e : norm2 (u + w) = norm2 u + 2 * dotV u w + norm2 w := by
    simp only [norm2, dotV, Prod.fst_add, Prod.snd_add]; ring
  rw [e, h]
  have := norm2_nonneg' w
  linarith

theorem sq_lt_of_mul {a b : K} (ha : 0 ≤ a) (hb : 0 ≤ b) (h : 1 ≤ a * a * b ^ 2) : 1 ≤ a * b := by
  by_contra hlt
  push Not at hlt
  have : 0 ≤ a * b := mul_nonneg ha hb
  nlinarith

theorem WGram.add {b : Prop} {bd : ℕ} {C : List (V3 K)} {gens : List Coord} (h : WGram b bd C gens) {root : K → K}
    (hr : IsRoot root) {tol : K} (h0 : 0 ≤ tol) (ht : tol * (3 * (bd : K) ^ 2) < 1) (c : Coord) (hc : maxAbs c ≤ bd) :
    ∃ gens', WGram b bd (addCycle root tol C c) gens' ∧ (gens' = gens ∨ gens' = gens ++ [c]) ∧
      castC K c ∈ Submodule.span K {x | x ∈ addCycle root tol C c} ∧
      Submodule.span K {x | x ∈ C} ≤ Submodule.span K {x | x ∈ addCycle root tol C c} ∧
      C.length ≤ (addCycle root tol C c).length := by
  have hlen : C.length ≤ (addCycle root tol C c).length := by
    rw [addCycle_eq]; split_ifs <;> simp
  obtain ⟨C', hg, hsp, hle, hb⟩ := h
  by_cases hbb : b
  · have := hb hbb
    subst this
    obtain ⟨gens', h1, h2, h3, h4⟩ := addCycle_spec hg hr h0 ht c hc
    exact ⟨gens', ⟨_, h1, rfl, le_refl _, fun _ => rfl⟩, h2, h3, h4, hlen⟩
  rw [addCycle_eq] at hlen ⊢
  by_cases hz : c = (0, 0, 0)
  · simp only [if_pos hz]
    refine ⟨gens, ⟨C', hg, hsp, hle, hb⟩, Or.inl rfl, ?_, le_refl _, le_refl _⟩
    have : castC K c = 0 := by rw [hz]; simp [castC]
    rw [this]; exact Submodule.zero_mem _
  simp only [if_neg hz] at hlen ⊢
  set v := residual C (castC K c) with hv
  have hmem : castC K c - v ∈ Submodule.span K {x | x ∈ C} := residual_mem C _
  obtain ⟨hr0, hr1⟩ := hr (norm2 v) (norm2_nonneg' v)
  by_cases hn : tol < root (norm2 v)
  · have hρ : 0 < root (norm2 v) := lt_of_le_of_lt h0 hn
    simp only [if_pos hn] at hlen ⊢
    set ρ := root (norm2 v) with hρd
    have hmono : Submodule.span K {x | x ∈ C} ≤ Submodule.span K {x | x ∈ C ++ [ρ⁻¹ • v]} :=
      Submodule.span_mono fun x hx => List.mem_append_left _ hx
    have hvm : v ∈ Submodule.span K {x | x ∈ C ++ [ρ⁻¹ • v]} := by
      have : ρ⁻¹ • v ∈ Submodule.span K {x | x ∈ C ++ [ρ⁻¹ • v]} := Submodule.subset_span (by simp)
      have := Submodule.smul_mem _ ρ this
      rwa [smul_smul, mul_inv_cancel₀ hρ.ne', one_smul] at this
    have hcm : castC K c ∈ Submodule.span K {x | x ∈ C ++ [ρ⁻¹ • v]} := by
      have := Submodule.add_mem _ (hmono hmem) hvm
      simpa using this
    obtain ⟨gens', h1, h2, h3, h4⟩ := addCycle_spec hg hr (le_refl 0) (by simp) c hc
    refine ⟨gens', ⟨_, h1, ?_, ?_, fun hb' => absurd hb' hbb⟩, h2, hcm, hmono, hlen⟩
    · apply le_antisymm
      · rw [Submodule.span_le]
        intro x hx
        rcases List.mem_append.mp hx with hx | hx
        · apply h4
          rw [← hsp]
          exact Submodule.subset_span hx
        · simp only [List.mem_singleton] at hx
          subst hx
          apply Submodule.smul_mem
          rw [hsp] at hmem
          have := Submodule.sub_mem _ h3 (h4 hmem)
          simpa using this
      · rw [h1.span, Submodule.span_le]
        have hgs : ∀ x ∈ gens.map (castC K), x ∈ Submodule.span K {x | x ∈ C ++ [ρ⁻¹ • v]} := by
          intro x hx
          apply hmono
          rw [hsp, hg.span]
          exact Submodule.subset_span hx
        intro x hx
        rcases h2 with rfl | rfl
        · exact hgs x hx
        · simp only [Set.mem_ofPred_eq, List.map_append, List.mem_append, List.map_cons, List.map_nil, List.mem_singleton] at hx
          rcases hx with hx | rfl
          · exact hgs x hx
          · exact hcm
    · rw [← h1.len]
      have := hg.len
      rcases h2 with rfl | rfl <;> simp <;> omega
  · simp only [if_neg hn] at hlen ⊢
    refine ⟨gens, ⟨C', hg, hsp, hle, hb⟩, Or.inl rfl, ?_, le_refl _, le_refl _⟩
    by_contra hcs
    set u := residual C' (castC K c) with hu
    have hu' : castC K c - u ∈ Submodule.span K {x | x ∈ C'} := residual_mem C' _
    have hu0 : u ≠ 0 := by
      intro e
      rw [e, sub_zero, ← hsp] at hu'
      exact hcs hu'
    have hw : v - u ∈ Submodule.span K {x | x ∈ C'} := by
      rw [hsp] at hmem
      have := Submodule.sub_mem _ hu' hmem
      simpa using this
    have hd : dotV u (v - u) = 0 := by
      rw [dotV_comm]
      exact dot_zero_of_span (fun a ha => by rw [dotV_comm]; exact residual_orth hg.orth _ a ha) hw
    have hge := residual_ge hg c hc hu0
    have hle2 : norm2 u ≤ norm2 v := by
      have := norm2_add_orth hd
      simpa using this
    have h1 : 1 ≤ root (norm2 v) * root (norm2 v) * (3 * (bd : K) ^ 2) ^ 2 := by
      rw [hr1]
      exact hge.trans (mul_le_mul_of_nonneg_right hle2 (by positivity))
    have h2 := sq_lt_of_mul hr0 (by positivity) h1
    have h3 : root (norm2 v) * (3 * (bd : K) ^ 2) ≤ tol * (3 * (bd : K) ^ 2) :=
      mul_le_mul_of_nonneg_right (not_lt.mp hn) (by positivity)
    linarith

/-- Extending an orthonormal basis by a list of vectors. -/
theorem Gram.extend {bd : ℕ} {root : K → K} (hr : IsRoot root) : ∀ (l : List Coord) {C : List (V3 K)} {gens : List Coord},
    Gram bd C gens → (∀ g ∈ l, maxAbs g ≤ bd) → ∃ C' gens', Gram bd C' gens' ∧ (∀ g ∈ gens', g ∈ gens ∨ g ∈ l) ∧
      C'.length ≤ C.length + l.length ∧ Submodule.span K {x | x ∈ C} ≤ Submodule.span K {x | x ∈ C'} ∧
      (∀ g ∈ l, castC K g ∈ Submodule.span K {x | x ∈ C'}) := by
  intro l
  induction l with
  | nil => intro C gens h _; exact ⟨C, gens, h, fun g hg => Or.inl hg, by simp, le_refl _, by simp⟩
  | cons c l ih =>
    intro C gens h hl
    obtain ⟨g1, h1, h2, h3, h4⟩ := addCycle_spec h hr (le_refl 0) (by simp) c (hl c (by simp))
    obtain ⟨C', gens', k1, k2, k3, k4, k5⟩ := ih h1 (fun g hg => hl g (by simp [hg]))
    refine ⟨C', gens', k1, ?_, ?_, h4.trans k4, ?_⟩
    · intro g hg
      rcases k2 g hg with h5 | h5
      · rcases h2 with rfl | rfl
        · exact Or.inl h5
        · rcases List.mem_append.mp h5 with h5 | h5
          · exact Or.inl h5
          · simp only [List.mem_singleton] at h5; right; simp [h5]
      · right; simp [h5]
    · have e1 := h1.len
      have e2 := h.len
      rw [List.length_cons]
      rcases h2 with rfl | rfl
      · omega
      · simp only [List.length_append, List.length_singleton] at e1; omega
    · intro g hg
      rcases List.mem_cons.mp hg with rfl | hg
      · exact k4 h3
      · exact k5 g hg

/-- Two lists of cycles put together. -/
theorem WGram.append {b : Prop} {bd : ℕ} {root : K → K} (hr : IsRoot root) {C1 C2 : List (V3 K)} {g1 g2 : List Coord}
    (h1 : WGram b bd C1 g1) (h2 : WGram b bd C2 g2) (hb : ¬ b) :
    ∃ gens', WGram b bd (C1 ++ C2) gens' ∧ ∀ g ∈ gens', g ∈ g1 ∨ g ∈ g2 := by
  obtain ⟨D1, a1, a2, a3, _⟩ := h1
  obtain ⟨D2, b1, b2, b3, _⟩ := h2
  obtain ⟨C', gens', k1, k2, k3, k4, k5⟩ := Gram.extend hr g2 a1 b1.bound
  refine ⟨gens', ⟨C', k1, ?_, ?_, fun h => absurd h hb⟩, k2⟩
  · have hset : {x | x ∈ C1 ++ C2} = {x | x ∈ C1} ∪ {x | x ∈ C2} := by ext x; simp
    rw [hset, Submodule.span_union, a2, b2]
    apply le_antisymm
    · apply sup_le k4
      rw [b1.span, Submodule.span_le]
      intro x hx
      obtain ⟨g, hg, rfl⟩ := List.mem_map.mp hx
      exact k5 g hg
    · rw [k1.span, Submodule.span_le]
      intro x hx
      obtain ⟨g, hg, rfl⟩ := List.mem_map.mp hx
      rcases k2 g hg with h | h
      · apply Submodule.mem_sup_left
        rw [a1.span]
        exact Submodule.subset_span (List.mem_map_of_mem h)
      · apply Submodule.mem_sup_right
        rw [b1.span]
        exact Submodule.subset_span (List.mem_map_of_mem h)
  · have := b1.len
    simp only [List.length_append]
    omega

end BaderKit
