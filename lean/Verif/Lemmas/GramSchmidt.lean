import Verif.Lemmas.GroupsStep
import Verif.Props.Transforms
import Verif.Props.DimRank
import Mathlib.LinearAlgebra.Dimension.Constructions
import Mathlib.LinearAlgebra.FiniteDimensional.Basic
import Mathlib.LinearAlgebra.LinearIndependent.Defs
import Mathlib.Tactic.LinearCombination
/-! # The basis of cycles: orthonormal vectors spanned by integer vectors -/
set_option linter.unusedSectionVars false
namespace BaderKit
variable {K : Type} [Field K] [LinearOrder K] [IsStrictOrderedRing K]

/-- An integer vector as a vector over the field. -/
def castC (K : Type) [Field K] (c : Coord) : V3 K := ((c.1 : K), (c.2.1 : K), (c.2.2 : K))

theorem castC_add (a b : Coord) : castC K (a + b) = castC K a + castC K b := by
  simp [castC]
theorem castC_neg (a : Coord) : castC K (-a) = -castC K a := by
  simp [castC]
theorem castC_zero : castC K 0 = 0 := by
  simp [castC]
theorem castC_eq_zero {a : Coord} : castC K a = 0 ↔ a = 0 := by
  simp [castC, Prod.ext_iff]

/-- The dot product with a fixed vector. -/
def dotW (q : V3 K) : V3 K →ₗ[K] K where
  toFun v := dotV v q
  map_add' a b := by simp only [dotV, Prod.fst_add, Prod.snd_add]; ring
  map_smul' k a := by simp only [dotV, Prod.smul_fst, Prod.smul_snd, smul_eq_mul, RingHom.id_apply]; ring

theorem dotV_comm (a b : V3 K) : dotV a b = dotV b a := by unfold dotV; ring
theorem dotV_self (a : V3 K) : dotV a a = norm2 a := by unfold dotV norm2; ring

theorem norm2_nonneg' (a : V3 K) : 0 ≤ norm2 a := by unfold norm2; positivity

theorem norm2_eq_zero {a : V3 K} (h : norm2 a = 0) : a = 0 := by
  unfold norm2 at h
  have h1 : a.1 = 0 := by nlinarith [sq_nonneg a.1, sq_nonneg a.2.1, sq_nonneg a.2.2]
  have h2 : a.2.1 = 0 := by nlinarith [sq_nonneg a.1, sq_nonneg a.2.1, sq_nonneg a.2.2]
  have h3 : a.2.2 = 0 := by nlinarith [sq_nonneg a.1, sq_nonneg a.2.1, sq_nonneg a.2.2]
  exact Prod.ext h1 (Prod.ext h2 h3)

theorem norm2_cross (a b : V3 K) : norm2 (crossV a b) = norm2 a * norm2 b - dotV a b ^ 2 := by
  unfold norm2 crossV dotV; ring

/-- Orthonormal lists. -/
def Orthonormal3 (C : List (V3 K)) : Prop :=
  C.Pairwise (fun a b => dotV a b = 0) ∧ ∀ q ∈ C, norm2 q = 1

theorem residual_cons (q : V3 K) (l : List (V3 K)) (c : V3 K) :
    residual (q :: l) c = residual l (c - dotV c q • q) := by
  unfold residual
  rw [List.foldl_cons]
  rfl

theorem residual_mem (l : List (V3 K)) : ∀ c, c - residual l c ∈ Submodule.span K {x | x ∈ l} := by
  induction l with
  | nil => intro c; simp [residual]
  | cons q l ih =>
    intro c
    rw [residual_cons]
    have h1 := ih (c - dotV c q • q)
    have h2 : Submodule.span K {x | x ∈ l} ≤ Submodule.span K {x | x ∈ q :: l} :=
      Submodule.span_mono fun x hx => List.mem_cons_of_mem _ hx
    have h3 : dotV c q • q ∈ Submodule.span K {x | x ∈ q :: l} :=
      Submodule.smul_mem _ _ (Submodule.subset_span (by simp))
    have := Submodule.add_mem _ (h2 h1) h3
    convert this using 1
    abel

theorem dot_zero_of_span {l : List (V3 K)} {q : V3 K} (h : ∀ a ∈ l, dotV a q = 0) {x : V3 K}
    (hx : x ∈ Submodule.span K {x | x ∈ l}) : dotV x q = 0 := by
  have : Submodule.span K {x | x ∈ l} ≤ LinearMap.ker (dotW q) := by
    rw [Submodule.span_le]
    intro a ha
    exact h a ha
  exact this hx

theorem dotV_sub (a b q : V3 K) : dotV (a - b) q = dotV a q - dotV b q := by
  unfold dotV; simp only [Prod.fst_sub, Prod.snd_sub]; ring

theorem dotV_smul (k : K) (a q : V3 K) : dotV (k • a) q = k * dotV a q := by
  unfold dotV; simp only [Prod.smul_fst, Prod.smul_snd, smul_eq_mul]; ring

theorem residual_orth {l : List (V3 K)} (hl : Orthonormal3 l) : ∀ c, ∀ q ∈ l, dotV (residual l c) q = 0 := by
  induction l with
  | nil => intro c q hq; simp at hq
  | cons q l ih =>
    intro c q' hq'
    rw [residual_cons]
    have hl' : Orthonormal3 l := ⟨hl.1.of_cons, fun a ha => hl.2 a (List.mem_cons_of_mem _ ha)⟩
    rcases List.mem_cons.mp hq' with rfl | h
    · have h1 := residual_mem l (c - dotV c q' • q')
      have h2 := dot_zero_of_span (q := q') (fun a ha => by
        rw [dotV_comm]; exact List.rel_of_pairwise_cons hl.1 ha) h1
      rw [dotV_sub, dotV_sub, dotV_smul, dotV_self, hl.2 q' (by simp)] at h2
      linarith
    · exact ih hl' _ _ h

theorem Orthonormal3.indep {C : List (V3 K)} (h : Orthonormal3 C) :
    LinearIndependent K (fun i : Fin C.length => C.get i) := by
  rw [Fintype.linearIndependent_iff]
  intro g hg i
  have h1 := congrArg (dotW (C.get i)) hg
  rw [map_sum, map_zero] at h1
  rw [Finset.sum_eq_single i] at h1
  · rw [map_smul] at h1
    have : dotW (C.get i) (C.get i) = 1 := by
      change dotV _ _ = 1
      rw [dotV_self]; exact h.2 _ (List.get_mem _ _)
    rw [this] at h1
    simpa using h1
  · intro j _ hj
    rw [map_smul]
    have : dotW (C.get i) (C.get j) = 0 := by
      change dotV _ _ = 0
      rcases lt_or_gt_of_ne hj with hlt | hlt
      · exact List.pairwise_iff_get.mp h.1 _ _ hlt
      · rw [dotV_comm]; exact List.pairwise_iff_get.mp h.1 _ _ hlt
    rw [this, smul_zero]
  · intro h; exact absurd (Finset.mem_univ _) h

theorem range_get (C : List (V3 K)) : Set.range (fun i : Fin C.length => C.get i) = {x | x ∈ C} := by
  ext x
  simp only [Set.mem_range, Set.mem_ofPred_eq]
  exact List.mem_iff_get.symm

/-- The number of orthonormal vectors is the dimension of what they span. -/
theorem Orthonormal3.finrank {C : List (V3 K)} (h : Orthonormal3 C) :
    Module.finrank K (Submodule.span K {x | x ∈ C}) = C.length := by
  have := finrank_span_eq_card h.indep
  rw [range_get] at this
  simpa using this

theorem Orthonormal3.length_le {C : List (V3 K)} (h : Orthonormal3 C) : C.length ≤ 3 := by
  have h1 := h.indep.fintype_card_le_finrank
  have : Module.finrank K (V3 K) = 3 := by
    simp [V3, Module.finrank_prod]
  rw [this] at h1
  simpa using h1

/-- Three orthonormal vectors span everything. -/
theorem Orthonormal3.span_top {C : List (V3 K)} (h : Orthonormal3 C) (h3 : C.length = 3) :
    Submodule.span K {x | x ∈ C} = ⊤ := by
  apply Submodule.eq_top_of_finrank_eq
  rw [h.finrank, h3]
  simp [V3, Module.finrank_prod]


/-- An orthonormal basis generated by bounded integer vectors. -/
structure Gram (bd : ℕ) (C : List (V3 K)) (gens : List Coord) : Prop where
  orth : Orthonormal3 C
  span : Submodule.span K {x | x ∈ C} = Submodule.span K {x | x ∈ gens.map (castC K)}
  len : gens.length = C.length
  bound : ∀ g ∈ gens, maxAbs g ≤ bd

theorem castC_span (gens : List Coord) : {x | x ∈ gens.map (castC K)} = castC K '' {g | g ∈ gens} := by
  ext x; simp

theorem castC_cross (a b : Coord) : crossV (castC K a) (castC K b) = castC K (crossZ a b) := by
  simp [crossV, castC, crossZ]

theorem norm2_castC_ge {a : Coord} (h : a ≠ 0) : (1 : K) ≤ norm2 (castC K a) := by
  have e : norm2 (castC K a) = ((a.1 ^ 2 + a.2.1 ^ 2 + a.2.2 ^ 2 : ℤ) : K) := by simp [norm2, castC]
  rw [e]
  have : (1 : ℤ) ≤ a.1 ^ 2 + a.2.1 ^ 2 + a.2.2 ^ 2 := by
    by_contra hc
    have h0 : a.1 ^ 2 + a.2.1 ^ 2 + a.2.2 ^ 2 = 0 := by
      have := sq_nonneg a.1; have := sq_nonneg a.2.1; have := sq_nonneg a.2.2; omega
    have h1 : a.1 = 0 := by nlinarith [sq_nonneg a.1, sq_nonneg a.2.1, sq_nonneg a.2.2]
    have h2 : a.2.1 = 0 := by nlinarith [sq_nonneg a.1, sq_nonneg a.2.1, sq_nonneg a.2.2]
    have h3 : a.2.2 = 0 := by nlinarith [sq_nonneg a.1, sq_nonneg a.2.1, sq_nonneg a.2.2]
    exact h (Prod.ext h1 (Prod.ext h2 h3))
  exact_mod_cast this

theorem norm2_castC_le {a : Coord} {bd : ℕ} (h : maxAbs a ≤ bd) : norm2 (castC K a) ≤ 3 * (bd : K) ^ 2 := by
  have e : norm2 (castC K a) = ((a.1 ^ 2 + a.2.1 ^ 2 + a.2.2 ^ 2 : ℤ) : K) := by simp [norm2, castC]
  rw [e]
  unfold maxAbs at h
  simp only [max_le_iff] at h
  have key : ∀ x : ℤ, x.natAbs ≤ bd → x ^ 2 ≤ (bd : ℤ) ^ 2 := by
    intro x hx
    have : |x| ≤ (bd : ℤ) := by rw [Int.abs_eq_natAbs]; exact_mod_cast hx
    exact sq_le_sq' (by linarith [neg_abs_le x]) (by linarith [le_abs_self x])
  have : a.1 ^ 2 + a.2.1 ^ 2 + a.2.2 ^ 2 ≤ 3 * (bd : ℤ) ^ 2 := by
    have := key _ h.1; have := key _ h.2.1; have := key _ h.2.2; linarith
  exact_mod_cast this

/-- A residual that is not zero is not small. -/
theorem residual_ge {bd : ℕ} {C : List (V3 K)} {gens : List Coord} (h : Gram bd C gens) (c : Coord) (hc : maxAbs c ≤ bd)
    (h0 : residual C (castC K c) ≠ 0) : 1 ≤ norm2 (residual C (castC K c)) * (3 * (bd : K) ^ 2) ^ 2 := by
  set v := residual C (castC K c) with hv
  have horth : ∀ q ∈ C, dotV v q = 0 := residual_orth h.orth _
  have hsp : castC K c - v ∈ Submodule.span K {x | x ∈ C} := residual_mem C _
  have horthS : ∀ x ∈ Submodule.span K {x | x ∈ C}, dotV v x = 0 := by
    intro x hx
    rw [dotV_comm]
    exact dot_zero_of_span (fun a ha => by rw [dotV_comm]; exact horth a ha) hx
  have hg : ∀ g ∈ gens, dotV v (castC K g) = 0 := by
    intro g hg
    apply horthS
    rw [h.span]
    exact Submodule.subset_span (List.mem_map.mpr ⟨g, hg, rfl⟩)
  have hvpos : 0 < norm2 v := lt_of_le_of_ne (norm2_nonneg' v) fun e => h0 (norm2_eq_zero e.symm)
  have hbd : (1 : K) ≤ bd := by
    have : 1 ≤ bd := by
      by_contra hb
      have hb : bd = 0 := by omega
      rw [hb] at hc
      unfold maxAbs at hc
      simp only [Nat.le_zero, Nat.max_eq_zero_iff, Int.natAbs_eq_zero] at hc
      have e : c = 0 := Prod.ext hc.1 (Prod.ext hc.2.1 hc.2.2)
      have hs : v = 0 := by
        have h1 := horthS _ hsp
        rw [e, castC_zero, zero_sub] at h1
        have : dotV v (-v) = - norm2 v := by unfold dotV norm2; simp only [Prod.fst_neg, Prod.snd_neg]; ring
        rw [this] at h1
        linarith
      exact h0 hs
    exact_mod_cast this
  have hB : (1 : K) ≤ 3 * (bd : K) ^ 2 := by nlinarith
  have hlen := h.orth.length_le
  have hl := h.len
  match hC : gens, hl with
  | [], hl =>
    have hCe : C = [] := List.length_eq_zero_iff.mp (by simpa using hl.symm)
    have e : v = castC K c := by rw [hv, hCe]; rfl
    have hc0 : c ≠ 0 := by
      rintro rfl
      exact h0 (by rw [e, castC_zero])
    have := norm2_castC_ge (K := K) hc0
    rw [← e] at this
    have h2 : (1 : K) ≤ (3 * (bd : K) ^ 2) ^ 2 := by nlinarith
    nlinarith
  | [a], hl =>
    have hav := hg a (by simp)
    have hba := norm2_castC_le (K := K) (h.bound a (by simp))
    -- `a` is not zero
    have ha0 : castC K a ≠ 0 := by
      intro ha
      obtain ⟨q, hq⟩ := List.length_eq_one_iff.mp hl.symm
      have hqs : q ∈ Submodule.span K {x | x ∈ C} := Submodule.subset_span (by simp [hq])
      rw [h.span] at hqs
      simp only [List.map_cons, List.map_nil, List.mem_singleton, ha] at hqs
      have : q = 0 := by
        have hs : Submodule.span K {x : V3 K | x = 0} = ⊥ := by
          rw [Submodule.span_eq_bot]; intro x hx; exact hx
        rw [hs] at hqs
        simpa using hqs
      have h1 := h.orth.2 q (by simp [hq])
      rw [this] at h1
      simp [norm2] at h1
    have hapos : 0 < norm2 (castC K a) := lt_of_le_of_ne (norm2_nonneg' _) fun e => ha0 (norm2_eq_zero e.symm)
    have e1 : norm2 (crossV v (castC K a)) = norm2 v * norm2 (castC K a) := by
      rw [norm2_cross, hav]; ring
    have e2 : crossV v (castC K a) = castC K (crossZ c a) := by
      rw [← castC_cross]
      rw [h.span] at hsp
      simp only [List.map_cons, List.map_nil, List.mem_singleton] at hsp
      have hsp : castC K c - v ∈ Submodule.span K {castC K a} := hsp
      obtain ⟨k, hk⟩ := Submodule.mem_span_singleton.mp hsp
      have e : v = castC K c - k • castC K a := by rw [hk]; abel
      rw [e]
      unfold crossV
      simp only [Prod.fst_sub, Prod.snd_sub, Prod.smul_fst, Prod.smul_snd, smul_eq_mul, Prod.mk.injEq]
      refine ⟨?_, ?_, ?_⟩ <;> ring
    have hne : crossZ c a ≠ 0 := by
      intro h0'
      rw [e2, h0', castC_zero] at e1
      have : (0 : K) < norm2 v * norm2 (castC K a) := mul_pos hvpos hapos
      rw [← e1] at this
      simp [norm2] at this
    have h1 := norm2_castC_ge (K := K) hne
    rw [← e2, e1] at h1
    have h3 : norm2 (castC K a) ≤ (3 * (bd : K) ^ 2) ^ 2 := by nlinarith
    nlinarith
  | [a, b], hl =>
    have hav := hg a (by simp)
    have hbv := hg b (by simp)
    have hba := norm2_castC_le (K := K) (h.bound a (by simp))
    have hbb := norm2_castC_le (K := K) (h.bound b (by simp))
    set w := crossV (castC K a) (castC K b) with hw
    have hwz : w = castC K (crossZ a b) := castC_cross a b
    obtain ⟨q1, q2, hq⟩ := List.length_eq_two.mp hl.symm
    have hspan2 : ∀ x ∈ Submodule.span K {x | x ∈ C}, ∃ i j : K, x = i • castC K a + j • castC K b := by
      intro x hx
      rw [h.span] at hx
      simp only [List.map_cons, List.map_nil] at hx
      have : {x | x ∈ [castC K a, castC K b]} = ({castC K a, castC K b} : Set (V3 K)) := by
        ext y; simp
      rw [this] at hx
      obtain ⟨i, j, e⟩ := Submodule.mem_span_pair.mp hx
      exact ⟨i, j, e.symm⟩
    have hw0 : w ≠ 0 := by
      intro hw0
      obtain ⟨i, j, e1⟩ := hspan2 q1 (Submodule.subset_span (by simp [hq]))
      obtain ⟨k, l, e2⟩ := hspan2 q2 (Submodule.subset_span (by simp [hq]))
      have hx : crossV q1 q2 = (i * l - j * k) • w := by
        rw [hw, e1, e2]
        unfold crossV
        simp only [Prod.fst_add, Prod.snd_add, Prod.smul_fst, Prod.smul_snd, smul_eq_mul, Prod.smul_mk, Prod.mk.injEq]
        refine ⟨?_, ?_, ?_⟩ <;> ring
      rw [hw0, smul_zero] at hx
      have hn := norm2_cross q1 q2
      rw [hx, h.orth.2 q1 (by simp [hq]), h.orth.2 q2 (by simp [hq])] at hn
      have hd : dotV q1 q2 = 0 := by
        have := h.orth.1
        rw [hq] at this
        exact List.rel_of_pairwise_cons this (by simp)
      rw [hd] at hn
      simp [norm2] at hn
    have hwpos : 0 < norm2 w := lt_of_le_of_ne (norm2_nonneg' _) fun e => hw0 (norm2_eq_zero e.symm)
    have hvw : crossV v w = 0 := by
      have : crossV v w = (dotV v (castC K b)) • castC K a - (dotV v (castC K a)) • castC K b := by
        rw [hw]
        unfold crossV dotV
        refine Prod.ext ?_ (Prod.ext ?_ ?_)
        · simp only [Prod.fst_sub, Prod.smul_fst, smul_eq_mul]; ring
        · simp only [Prod.fst_sub, Prod.snd_sub, Prod.smul_fst, Prod.smul_snd, smul_eq_mul]; ring
        · simp only [Prod.snd_sub, Prod.smul_snd, smul_eq_mul]; ring
      rw [this, hav, hbv]; simp
    have e1 : norm2 v * norm2 w = dotV v w ^ 2 := by
      have := norm2_cross v w
      rw [hvw] at this
      have z : norm2 (0 : V3 K) = 0 := by simp [norm2]
      rw [z] at this
      linarith
    have e2 : dotV v w = dotV (castC K c) w := by
      obtain ⟨i, j, e⟩ := hspan2 _ hsp
      have : v = castC K c - (i • castC K a + j • castC K b) := by rw [← e]; abel
      rw [this, hw]
      unfold dotV crossV
      simp only [Prod.fst_sub, Prod.snd_sub, Prod.fst_add, Prod.snd_add, Prod.smul_fst, Prod.smul_snd, smul_eq_mul]
      ring
    have e3 : dotV (castC K c) w = ((c.1 * (crossZ a b).1 + c.2.1 * (crossZ a b).2.1 + c.2.2 * (crossZ a b).2.2 : ℤ) : K) := by
      rw [hwz]; simp [dotV, castC]
    have hpos : 0 < norm2 v * norm2 w := mul_pos hvpos hwpos
    have h1 : (1 : K) ≤ norm2 v * norm2 w := by
      rw [e1, e2, e3] at hpos ⊢
      generalize (c.1 * (crossZ a b).1 + c.2.1 * (crossZ a b).2.1 + c.2.2 * (crossZ a b).2.2 : ℤ) = z at hpos ⊢
      have h' : 0 < z ^ 2 := by exact_mod_cast hpos
      have h' : 1 ≤ z ^ 2 := by omega
      exact_mod_cast h'
    have h2 : norm2 w ≤ norm2 (castC K a) * norm2 (castC K b) := by
      rw [hw, norm2_cross]; nlinarith [sq_nonneg (dotV (castC K a) (castC K b))]
    have h3 : norm2 (castC K a) * norm2 (castC K b) ≤ (3 * (bd : K) ^ 2) ^ 2 := by
      rw [sq (3 * (bd : K) ^ 2)]
      exact mul_le_mul hba hbb (norm2_nonneg' _) (by positivity)
    nlinarith
  | _ :: _ :: _ :: l', hl =>
    exfalso
    simp only [List.length_cons] at hl
    have h3 : C.length = 3 := by omega
    have ht := h.orth.span_top h3
    have := horthS v (by rw [ht]; trivial)
    rw [dotV_self] at this
    exact absurd this hvpos.ne'

theorem addCycle_eq (root : K → K) (tol : K) (C : List (V3 K)) (c : Coord) :
    addCycle root tol C c = if c = (0, 0, 0) then C else
      if tol < root (norm2 (residual C (castC K c))) then
        C ++ [(root (norm2 (residual C (castC K c))))⁻¹ • residual C (castC K c)] else C := by
  unfold addCycle castC
  split_ifs
  · rfl
  · simp only
    rw [if_pos (by assumption)]
    congr 2
    refine Prod.ext ?_ (Prod.ext ?_ ?_) <;> simp [div_eq_inv_mul]
  · simp only
    rw [if_neg (by assumption)]

/-- Adding a cycle keeps the basis orthonormal and brings the cycle into its span. -/
theorem addCycle_spec {bd : ℕ} {C : List (V3 K)} {gens : List Coord} (h : Gram bd C gens) {root : K → K}
    (hr : IsRoot root) {tol : K} (h0 : 0 ≤ tol) (ht : tol * (3 * (bd : K) ^ 2) < 1) (c : Coord) (hc : maxAbs c ≤ bd) :
    ∃ gens', Gram bd (addCycle root tol C c) gens' ∧ (gens' = gens ∨ gens' = gens ++ [c]) ∧
      castC K c ∈ Submodule.span K {x | x ∈ addCycle root tol C c} ∧
      Submodule.span K {x | x ∈ C} ≤ Submodule.span K {x | x ∈ addCycle root tol C c} := by
  rw [addCycle_eq]
  by_cases hz : c = (0, 0, 0)
  · simp only [if_pos hz]
    refine ⟨gens, h, Or.inl rfl, ?_, le_refl _⟩
    have : castC K c = 0 := by rw [hz]; simp [castC]
    rw [this]; exact Submodule.zero_mem _
  · simp only [if_neg hz]
    set v := residual C (castC K c) with hv
    have hsp : castC K c - v ∈ Submodule.span K {x | x ∈ C} := residual_mem C _
    obtain ⟨hr0, hr1⟩ := hr (norm2 v) (norm2_nonneg' v)
    by_cases hn : tol < root (norm2 v)
    · have hρ : 0 < root (norm2 v) := lt_of_le_of_lt h0 hn
      simp only [if_pos hn]
      set ρ := root (norm2 v) with hρd
      have hmono : Submodule.span K {x | x ∈ C} ≤ Submodule.span K {x | x ∈ C ++ [ρ⁻¹ • v]} :=
        Submodule.span_mono fun x hx => List.mem_append_left _ hx
      have hvm : v ∈ Submodule.span K {x | x ∈ C ++ [ρ⁻¹ • v]} := by
        have : ρ⁻¹ • v ∈ Submodule.span K {x | x ∈ C ++ [ρ⁻¹ • v]} := Submodule.subset_span (by simp)
        have := Submodule.smul_mem _ ρ this
        rwa [smul_smul, mul_inv_cancel₀ hρ.ne', one_smul] at this
      have hcm : castC K c ∈ Submodule.span K {x | x ∈ C ++ [ρ⁻¹ • v]} := by
        have := Submodule.add_mem _ (hmono hsp) hvm
        simpa using this
      refine ⟨gens ++ [c], ⟨⟨?_, ?_⟩, ?_, ?_, ?_⟩, Or.inr rfl, hcm, hmono⟩
      · rw [List.pairwise_append]
        refine ⟨h.orth.1, by simp, ?_⟩
        intro a ha b hb
        simp only [List.mem_singleton] at hb
        subst hb
        rw [dotV_comm, dotV_smul, residual_orth h.orth _ a ha, mul_zero]
      · intro q hq
        rcases List.mem_append.mp hq with hq | hq
        · exact h.orth.2 q hq
        · simp only [List.mem_singleton] at hq
          subst hq
          rw [← dotV_self, dotV_smul, dotV_comm, dotV_smul, dotV_self, ← hr1]
          field_simp
      · apply le_antisymm
        · rw [Submodule.span_le]
          intro x hx
          have hle : Submodule.span K {x | x ∈ gens.map (castC K)} ≤
              Submodule.span K {x | x ∈ (gens ++ [c]).map (castC K)} := by
            apply Submodule.span_mono
            intro y hy
            simp only [Set.mem_ofPred_eq, List.map_append, List.mem_append] at hy ⊢
            exact Or.inl hy
          rcases List.mem_append.mp hx with hx | hx
          · have : x ∈ Submodule.span K {x | x ∈ C} := Submodule.subset_span hx
            rw [h.span] at this
            exact hle this
          · simp only [List.mem_singleton] at hx
            subst hx
            apply Submodule.smul_mem
            have h1 : castC K c ∈ Submodule.span K {x | x ∈ (gens ++ [c]).map (castC K)} :=
              Submodule.subset_span (by simp)
            have h2 := hsp
            rw [h.span] at h2
            have := Submodule.sub_mem _ h1 (hle h2)
            simpa using this
        · rw [Submodule.span_le]
          intro x hx
          simp only [Set.mem_ofPred_eq, List.map_append, List.mem_append, List.map_cons, List.map_nil, List.mem_singleton] at hx
          rcases hx with hx | rfl
          · apply hmono
            rw [h.span]
            exact Submodule.subset_span hx
          · exact hcm
      · simp [h.len]
      · intro g hg
        rcases List.mem_append.mp hg with hg | hg
        · exact h.bound g hg
        · simp only [List.mem_singleton] at hg
          subst hg; exact hc
    · simp only [if_neg hn]
      refine ⟨gens, h, Or.inl rfl, ?_, le_refl _⟩
      have hv0 : v = 0 := by
        by_contra hv0
        have h1 := residual_ge h c hc hv0
        rw [← hv, ← hr1] at h1
        have h2 : (1 : K) ≤ root (norm2 v) * (3 * (bd : K) ^ 2) := by
          by_contra hlt
          push Not at hlt
          have hp : 0 ≤ root (norm2 v) * (3 * (bd : K) ^ 2) := by positivity
          nlinarith
        have h3 : root (norm2 v) * (3 * (bd : K) ^ 2) ≤ tol * (3 * (bd : K) ^ 2) :=
          mul_le_mul_of_nonneg_right (not_lt.mp hn) (by positivity)
        linarith
      rw [hv0, sub_zero] at hsp
      exact hsp

end BaderKit
