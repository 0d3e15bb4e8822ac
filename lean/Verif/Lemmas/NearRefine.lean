import Verif.Lemmas.Neargrid
/-! # The refinement passes of the neargrid method -/
set_option linter.unusedSectionVars false
namespace BaderKit
variable {K : Type*} [Field K] [LinearOrder K] [IsStrictOrderedRing K] [FloorRing K]

/-- `top` gives the end of the climb of each voxel outside the vacuum. -/
structure IsTop (I : NearIn K) (vac : ℕ → Bool) (F : ℕ) (top : ℕ → ℕ) : Prop where
  climbs : ∀ v < I.s.size, vac v = false → ClimbsTo I vac v (top v)
  max : ∀ v < I.s.size, vac v = false → I.maxm (top v) = true
  loop : ∀ v < I.s.size, vac v = false → ∀ lab, ZeroVac I.s vac lab → ∀ fuel > F,
    climbLoop I lab fuel (Climb.init v) = some (top v)

theorem init_ci {I : NearIn K} {vac : ℕ → Bool} {v : ℕ} (hv : v < I.s.size) (hn : vac v = false) :
    CI I vac (Climb.init (K := K) v) := ⟨hv, hn, by simp [Climb.init, Within]⟩

theorem exists_top {I : NearIn K} {vac : ℕ → Bool} (hI : NearInput I vac) :
    ∃ top, IsTop I vac (I.s.size * (I.s.size + 1) + I.s.size) top := by
  have h : ∀ v, ∃ m, v < I.s.size → vac v = false → ClimbsTo I vac v m ∧ I.maxm m = true ∧
      ∀ lab, ZeroVac I.s vac lab → ∀ fuel > I.s.size * (I.s.size + 1) + I.s.size,
        climbLoop I lab fuel (Climb.init v) = some m := by
    intro v
    by_cases hv : v < I.s.size ∧ vac v = false
    · have hc := init_ci (I := I) hv.1 hv.2
      have h1 := fresh_lt (I := I) (c := Climb.init v) hv.1
      have h2 := above_le I.s I.data v
      have h3 : fresh I (Climb.init v) * (I.s.size + 1) ≤ I.s.size * (I.s.size + 1) :=
        Nat.mul_le_mul_right _ h1.le
      obtain ⟨m, k, g1, _, g3, g4⟩ := climb_exists hI (I.s.size * (I.s.size + 1) + I.s.size) _ hc
        (by show _ + above I.s I.data v ≤ _; omega)
      exact ⟨m, fun _ _ => ⟨⟨k, g1⟩, g3, g4⟩⟩
    · exact ⟨0, fun a b => absurd ⟨a, b⟩ hv⟩
  choose top htop using h
  exact ⟨top, fun v a b => (htop v a b).1, fun v a b => (htop v a b).2.1, fun v a b => (htop v a b).2.2⟩

theorem IsTop.lt {I : NearIn K} {vac : ℕ → Bool} {F : ℕ} {top : ℕ → ℕ} (hI : NearInput I vac)
    (h : IsTop I vac F top) {v : ℕ} (hv : v < I.s.size) (hn : vac v = false) :
    top v < I.s.size ∧ vac (top v) = false := by
  have := (hI.maxima _).mp (h.max v hv hn)
  exact ⟨this.1, this.2.1⟩

theorem IsTop.top_top {I : NearIn K} {vac : ℕ → Bool} {F : ℕ} {top : ℕ → ℕ} (hI : NearInput I vac)
    (h : IsTop I vac F top) {v : ℕ} (hm : I.maxm v = true) : top v = v := by
  have := (hI.maxima _).mp hm
  exact climbsTo_unique (h.climbs v this.1 this.2.1) (climbsTo_self hm)

/-- The label of the voxel changes when it is refined. -/
def Chg (top : ℕ → ℕ) (l : ℕ → ℤ) (v : ℕ) : Prop := |l v| ≠ |l (top v)|

/-- Voxel `n` is marked by one of the voxels `P` of the pass. -/
def Pushed (I : NearIn K) (top : ℕ → ℕ) (l : ℕ → ℤ) (P : ℕ → Prop) (n : ℕ) : Prop :=
  l n > 0 ∧ ∃ v, P v ∧ Chg top l v ∧ ∃ td ∈ I.nbrs, nbr I.s v td.1 = n

/-- State of the memory `m` after the voxels `P` of a pass that started in `m0` have been handled. -/
structure AfterPass (I : NearIn K) (top : ℕ → ℕ) (m0 : RMem) (P : ℕ → Prop) (m : RMem) : Prop where
  lab_in : ∀ n, P n → m.lab n = -|m0.lab (top n)|
  lab_push : ∀ n, ¬ P n → Pushed I top m0.lab P n → m.lab n = -m0.lab n
  lab_out : ∀ n, ¬ P n → ¬ Pushed I top m0.lab P n → m.lab n = m0.lab n
  mask_in : ∀ n, P n → m.mask n = false
  mask_push : ∀ n, ¬ P n → Pushed I top m0.lab P n → m.mask n = true
  mask_out : ∀ n, ¬ P n → ¬ Pushed I top m0.lab P n → m.mask n = m0.mask n

/-- A pass is determined by the set of voxels handled. -/
theorem AfterPass.unique {I : NearIn K} {top : ℕ → ℕ} {m0 m m' : RMem} {P : ℕ → Prop}
    (h : AfterPass I top m0 P m) (h' : AfterPass I top m0 P m') : m = m' := by
  obtain ⟨l, k⟩ := m
  obtain ⟨l', k'⟩ := m'
  have e1 : l = l' := by
    funext n
    by_cases hp : P n
    · exact (h.lab_in n hp).trans (h'.lab_in n hp).symm
    · by_cases hq : Pushed I top m0.lab P n
      · exact (h.lab_push n hp hq).trans (h'.lab_push n hp hq).symm
      · exact (h.lab_out n hp hq).trans (h'.lab_out n hp hq).symm
  have e2 : k = k' := by
    funext n
    by_cases hp : P n
    · exact (h.mask_in n hp).trans (h'.mask_in n hp).symm
    · by_cases hq : Pushed I top m0.lab P n
      · exact (h.mask_push n hp hq).trans (h'.mask_push n hp hq).symm
      · exact (h.mask_out n hp hq).trans (h'.mask_out n hp hq).symm
  rw [e1, e2]

instance (top : ℕ → ℕ) (l : ℕ → ℤ) (v : ℕ) : Decidable (Chg top l v) := by unfold Chg; infer_instance

theorem pushFold_spec (I : NearIn K) (v n : ℕ) (l : List (Coord × K)) (m : RMem) :
    let r := l.foldl (fun (m : RMem) td =>
      let n := nbr I.s v td.1
      if m.lab n > 0 then ⟨Function.update m.lab n (-|m.lab n|), Function.update m.mask n true⟩ else m) m
    ((m.lab n > 0 ∧ ∃ td ∈ l, nbr I.s v td.1 = n) → r.lab n = -m.lab n ∧ r.mask n = true) ∧
    (¬ (m.lab n > 0 ∧ ∃ td ∈ l, nbr I.s v td.1 = n) → r.lab n = m.lab n ∧ r.mask n = m.mask n) := by
  induction l generalizing m with
  | nil => simp
  | cons td l ih =>
    simp only [List.foldl_cons]
    by_cases hp : m.lab (nbr I.s v td.1) > 0
    · rw [if_pos hp]
      obtain ⟨h1, h2⟩ := ih ⟨Function.update m.lab (nbr I.s v td.1) (-|m.lab (nbr I.s v td.1)|),
        Function.update m.mask (nbr I.s v td.1) true⟩
      by_cases hn : nbr I.s v td.1 = n
      · rw [hn] at h1 h2 hp ⊢
        simp only [Function.update_self] at h1 h2
        have hneg : ¬ (-|m.lab n| > 0) := by have := abs_nonneg (m.lab n); omega
        obtain ⟨h3, h4⟩ := h2 (fun h => hneg h.1)
        rw [abs_of_pos hp] at h3
        refine ⟨fun _ => ⟨?_, ?_⟩, fun hc => absurd ⟨hp, td, by simp, hn⟩ hc⟩
        · rw [abs_of_pos hp]; exact h3
        · exact h4
      · have hn' : n ≠ nbr I.s v td.1 := fun h => hn h.symm
        simp only [Function.update_of_ne hn'] at h1 h2
        refine ⟨?_, ?_⟩
        · rintro ⟨hpos, td', htd', he⟩
          rcases List.mem_cons.mp htd' with rfl | htd'
          · exact absurd he hn
          · exact h1 ⟨hpos, td', htd', he⟩
        · intro hc
          exact h2 fun ⟨hpos, td', htd', he⟩ => hc ⟨hpos, td', by simp [htd'], he⟩
    · rw [if_neg hp]
      obtain ⟨h1, h2⟩ := ih m
      refine ⟨?_, ?_⟩
      · rintro ⟨hpos, td', htd', he⟩
        rcases List.mem_cons.mp htd' with rfl | htd'
        · rw [he] at hp; exact absurd hpos hp
        · exact h1 ⟨hpos, td', htd', he⟩
      · intro hc
        exact h2 fun ⟨hpos, td', htd', he⟩ => hc ⟨hpos, td', by simp [htd'], he⟩

theorem pushNbrs_spec (I : NearIn K) (v : ℕ) (m : RMem) (n : ℕ) :
    ((pushNbrs I v m).lab n =
      if m.lab n > 0 ∧ ∃ td ∈ I.nbrs, nbr I.s v td.1 = n then -m.lab n else m.lab n) ∧
    ((pushNbrs I v m).mask n =
      if m.lab n > 0 ∧ ∃ td ∈ I.nbrs, nbr I.s v td.1 = n then true else m.mask n) := by
  obtain ⟨h1, h2⟩ := pushFold_spec I v n I.nbrs m
  by_cases hc : m.lab n > 0 ∧ ∃ td ∈ I.nbrs, nbr I.s v td.1 = n
  · rw [if_pos hc, if_pos hc]; exact h1 hc
  · rw [if_neg hc, if_neg hc]; exact h2 hc

/-- Facts about the memory at the start of a pass. -/
structure PassOK (I : NearIn K) (vac : ℕ → Bool) (m : RMem) : Prop where
  zero : ZeroVac I.s vac m.lab
  mask : ∀ v, m.mask v = true → v < I.s.size ∧ m.lab v < 0

theorem PassOK.nonvac {I : NearIn K} {vac : ℕ → Bool} {m : RMem} (h : PassOK I vac m) {v : ℕ}
    (hv : m.mask v = true) : vac v = false := by
  have := h.mask v hv
  by_contra hc
  have := (h.zero v this.1).mpr (by simpa using hc)
  omega

theorem AfterPass.abs {I : NearIn K} {vac : ℕ → Bool} {F : ℕ} {top : ℕ → ℕ} (hI : NearInput I vac)
    (ht : IsTop I vac F top) {m0 m : RMem} {P : ℕ → Prop} (h : AfterPass I top m0 P m) :
    (∀ n, ¬ P n → |m.lab n| = |m0.lab n|) ∧ (∀ n, P n → |m.lab n| = |m0.lab (top n)|) ∧
    (∀ n, I.maxm n = true → |m.lab n| = |m0.lab n|) := by
  have h1 : ∀ n, ¬ P n → |m.lab n| = |m0.lab n| := by
    intro n hp
    by_cases hq : Pushed I top m0.lab P n
    · rw [h.lab_push n hp hq, abs_neg]
    · rw [h.lab_out n hp hq]
  have h2 : ∀ n, P n → |m.lab n| = |m0.lab (top n)| := by
    intro n hp; rw [h.lab_in n hp, abs_neg, abs_abs]
  refine ⟨h1, h2, fun n hm => ?_⟩
  by_cases hp : P n
  · rw [h2 n hp, ht.top_top hI hm]
  · exact h1 n hp

theorem AfterPass.zeroVac {I : NearIn K} {vac : ℕ → Bool} {F : ℕ} {top : ℕ → ℕ} (hI : NearInput I vac)
    (ht : IsTop I vac F top) {m0 m : RMem} {P : ℕ → Prop} (h0 : PassOK I vac m0)
    (hP : ∀ v, P v → m0.mask v = true) (h : AfterPass I top m0 P m) : ZeroVac I.s vac m.lab := by
  obtain ⟨h1, h2, _⟩ := h.abs hI ht
  intro v hv
  by_cases hp : P v
  · have hn := h0.nonvac (hP v hp)
    have ht' := ht.lt hI hv hn
    have hne : m0.lab (top v) ≠ 0 := by
      intro hc
      have := (h0.zero _ ht'.1).mp hc
      rw [ht'.2] at this; exact absurd this (by simp)
    constructor
    · intro hz
      have := h2 v hp
      rw [hz, abs_zero] at this
      exact absurd (abs_eq_zero.mp this.symm) hne
    · intro hc; rw [hn] at hc; exact absurd hc (by simp)
  · rw [← h0.zero v hv, ← abs_eq_zero, h1 v hp, abs_eq_zero]

/-- Handling one more voxel. -/
theorem refineVoxel_spec {I : NearIn K} {vac : ℕ → Bool} {F : ℕ} {top : ℕ → ℕ} (hI : NearInput I vac)
    (ht : IsTop I vac F top) {m0 m : RMem} {P : ℕ → Prop} (h0 : PassOK I vac m0)
    (hP : ∀ v, P v → m0.mask v = true) (h : AfterPass I top m0 P m) (cnt : ℕ) {v : ℕ}
    (hv : m0.mask v = true) (hvP : ¬ P v) (fuel : ℕ) (hf : fuel > F) :
    ∃ m' cnt', refineVoxel I fuel (m, cnt) v = some (m', cnt') ∧
      AfterPass I top m0 (fun u => P u ∨ u = v) m' ∧ cnt ≤ cnt' ∧
      (cnt < cnt' ↔ Chg top m0.lab v) := by
  obtain ⟨hvs, hneg⟩ := h0.mask v hv
  have hnv := h0.nonvac hv
  have hz := h.zeroVac hI ht h0 hP
  have hloop := ht.loop v hvs hnv m.lab hz fuel hf
  obtain ⟨a1, a2, a3⟩ := h.abs hI ht
  have hlabel : |m.lab v| = |m0.lab v| := a1 v hvP
  have hcur : |m.lab (top v)| = |m0.lab (top v)| := a3 _ (ht.max v hvs hnv)
  have hPneg : ∀ n, (P n ∨ n = v) → m0.lab n < 0 := by
    rintro n (hn | rfl)
    · exact (h0.mask n (hP n hn)).2
    · exact hneg
  -- the memory after the neighbour loop
  have key : ∀ n, ((if |m0.lab v| ≠ |m0.lab (top v)| then
        pushNbrs I v ⟨m.lab, Function.update m.mask v false⟩ else
        ⟨m.lab, Function.update m.mask v false⟩ : RMem).lab n =
      if m.lab n > 0 ∧ Chg top m0.lab v ∧ ∃ td ∈ I.nbrs, nbr I.s v td.1 = n then -m.lab n else m.lab n) ∧
      ((if |m0.lab v| ≠ |m0.lab (top v)| then
        pushNbrs I v ⟨m.lab, Function.update m.mask v false⟩ else
        ⟨m.lab, Function.update m.mask v false⟩ : RMem).mask n =
      if m.lab n > 0 ∧ Chg top m0.lab v ∧ ∃ td ∈ I.nbrs, nbr I.s v td.1 = n then true else
        Function.update m.mask v false n) := by
    intro n
    by_cases hc : |m0.lab v| ≠ |m0.lab (top v)|
    · have hc' : Chg top m0.lab v := hc
      rw [if_pos hc]
      have := pushNbrs_spec I v ⟨m.lab, Function.update m.mask v false⟩ n
      simp only [hc', true_and]
      exact this
    · have hc' : ¬ Chg top m0.lab v := hc
      rw [if_neg hc]
      simp [hc']
  -- pushing with one more voxel
  have hpush : ∀ n, Pushed I top m0.lab (fun u => P u ∨ u = v) n ↔
      (Pushed I top m0.lab P n ∨
        (m0.lab n > 0 ∧ Chg top m0.lab v ∧ ∃ td ∈ I.nbrs, nbr I.s v td.1 = n)) := by
    intro n
    constructor
    · rintro ⟨hp, u, hu | rfl, hc, hn⟩
      · exact Or.inl ⟨hp, u, hu, hc, hn⟩
      · exact Or.inr ⟨hp, hc, hn⟩
    · rintro (⟨hp, u, hu, hc, hn⟩ | ⟨hp, hc, hn⟩)
      · exact ⟨hp, u, Or.inl hu, hc, hn⟩
      · exact ⟨hp, v, Or.inr rfl, hc, hn⟩
  refine ⟨_, _, by simp only [refineVoxel, hloop, Option.map_some, hlabel, hcur]; rfl, ?_, ?_, ?_⟩
  · constructor
    · rintro n (hn | rfl)
      · have hne : n ≠ v := by rintro rfl; exact hvP hn
        show Function.update _ _ _ n = _
        rw [Function.update_of_ne hne, (key n).1, h.lab_in n hn, if_neg]
        rintro ⟨hc, _⟩
        have := abs_nonneg (m0.lab (top n)); omega
      · show Function.update _ _ _ n = _
        rw [Function.update_self]
    · intro n hn hq
      push Not at hn
      show Function.update _ _ _ n = _
      rw [Function.update_of_ne hn.2, (key n).1]
      by_cases hq' : Pushed I top m0.lab P n
      · rw [h.lab_push n hn.1 hq', if_neg]
        rintro ⟨hc, _⟩
        have := hq'.1; omega
      · rw [h.lab_out n hn.1 hq', if_pos]
        rcases (hpush n).mp hq with h' | h'
        · exact absurd h' hq'
        · exact h'
    · intro n hn hq
      push Not at hn
      rw [hpush] at hq
      push Not at hq
      show Function.update _ _ _ n = _
      rw [Function.update_of_ne hn.2, (key n).1, h.lab_out n hn.1 hq.1, if_neg]
      rintro ⟨hc1, hc2, td, htd, hc3⟩
      exact hq.2 hc1 hc2 td htd hc3
    · rintro n (hn | rfl)
      · have hne : n ≠ v := by rintro rfl; exact hvP hn
        rw [(key n).2, if_neg, Function.update_of_ne hne, h.mask_in n hn]
        rintro ⟨hc, _⟩
        rw [h.lab_in n hn] at hc
        have := abs_nonneg (m0.lab (top n)); omega
      · rw [(key n).2, if_neg, Function.update_self]
        rintro ⟨hc, _⟩
        have hq : ¬ Pushed I top m0.lab P n := fun hq => by have := hq.1; omega
        rw [h.lab_out n hvP hq] at hc
        omega
    · intro n hn hq
      push Not at hn
      rw [(key n).2]
      by_cases hq' : Pushed I top m0.lab P n
      · rw [Function.update_of_ne hn.2, h.mask_push n hn.1 hq']
        simp
      · rw [if_pos]
        rw [h.lab_out n hn.1 hq']
        rcases (hpush n).mp hq with h' | h'
        · exact absurd h' hq'
        · exact h'
    · intro n hn hq
      push Not at hn
      rw [hpush] at hq
      push Not at hq
      rw [(key n).2, if_neg, Function.update_of_ne hn.2, h.mask_out n hn.1 hq.1]
      rw [h.lab_out n hn.1 hq.1]
      rintro ⟨hc1, hc2, td, htd, hc3⟩
      exact hq.2 hc1 hc2 td htd hc3
  · split_ifs <;> omega
  · unfold Chg
    split_ifs with hc
    · simpa using hc
    · simpa using hc

/-- A whole pass. -/
theorem refineRound_spec {I : NearIn K} {vac : ℕ → Bool} {F : ℕ} {top : ℕ → ℕ} (hI : NearInput I vac)
    (ht : IsTop I vac F top) {m0 : RMem} (h0 : PassOK I vac m0) (fuel : ℕ) (hf : fuel > F) :
    ∀ (order : List ℕ) (P : ℕ → Prop) (m : RMem) (cnt : ℕ), order.Nodup →
      (∀ v ∈ order, m0.mask v = true ∧ ¬ P v) → (∀ v, P v → m0.mask v = true) →
      AfterPass I top m0 P m →
      ∃ m' cnt', order.foldlM (refineVoxel I fuel) (m, cnt) = some (m', cnt') ∧
        AfterPass I top m0 (fun u => P u ∨ u ∈ order) m' ∧ cnt ≤ cnt' ∧
        (cnt < cnt' ↔ ∃ v ∈ order, Chg top m0.lab v) := by
  intro order
  induction order with
  | nil =>
    intro P m cnt _ _ _ h
    exact ⟨m, cnt, rfl, by simpa using h, le_rfl, by simp⟩
  | cons v order ih =>
    intro P m cnt hnd hin hP h
    obtain ⟨hv, hvP⟩ := hin v (by simp)
    obtain ⟨m1, c1, e1, h1, l1, g1⟩ := refineVoxel_spec hI ht h0 hP h cnt hv hvP fuel hf
    obtain ⟨hvn, hnd'⟩ := List.nodup_cons.mp hnd
    obtain ⟨m2, c2, e2, h2, l2, g2⟩ := ih (fun u => P u ∨ u = v) m1 c1 hnd'
      (fun u hu => ⟨(hin u (by simp [hu])).1, by
        rintro (hc | rfl)
        · exact (hin u (by simp [hu])).2 hc
        · exact hvn hu⟩)
      (by rintro u (hu | rfl)
          · exact hP u hu
          · exact hv) h1
    refine ⟨m2, c2, ?_, ?_, by omega, ?_⟩
    · rw [List.foldlM_cons, e1]; exact e2
    · have : (fun u => P u ∨ u ∈ v :: order) = fun u => (P u ∨ u = v) ∨ u ∈ order := by
        funext u; simp [or_assoc]
      rw [this]; exact h2
    · constructor
      · intro hlt
        by_cases hc : c1 < c2
        · obtain ⟨u, hu, hu'⟩ := g2.mp hc
          exact ⟨u, by simp [hu], hu'⟩
        · exact ⟨v, by simp, g1.mp (by omega)⟩
      · rintro ⟨u, hu, hu'⟩
        rcases List.mem_cons.mp hu with rfl | hu
        · have := g1.mpr hu'; omega
        · have := g2.mpr ⟨u, hu, hu'⟩; omega

theorem mem_maskVox {s : Shape} {mask : ℕ → Bool} {v : ℕ} :
    v ∈ maskVox s mask ↔ v < s.size ∧ mask v = true := by
  simp [maskVox]

theorem afterPass_nil {I : NearIn K} {top : ℕ → ℕ} {m : RMem} :
    AfterPass I top m (fun _ => False) m :=
  ⟨fun _ h => h.elim, fun n _ h => by obtain ⟨_, v, hv, _⟩ := h; exact hv.elim, fun _ _ _ => rfl,
    fun _ h => h.elim, fun n _ h => by obtain ⟨_, v, hv, _⟩ := h; exact hv.elim, fun _ _ _ => rfl⟩

/-- The invariant between passes.  `L0`, `S` are the labels and the marked voxels at the beginning. -/
structure LoopInv (I : NearIn K) (vac : ℕ → Bool) (top : ℕ → ℕ) (L0 : ℕ → ℤ) (S : ℕ → Prop)
    (m : RMem) : Prop extends PassOK I vac m where
  start : ∀ v, S v → m.lab v < 0
  pos : ∀ v, ¬ m.lab v < 0 → m.lab v = L0 v
  todo : ∀ v, m.mask v = true → |m.lab v| = L0 v
  fin : ∀ v, v < I.s.size → m.lab v < 0 → m.mask v = false → |m.lab v| = L0 (top v)
  nbrs : ∀ v, v < I.s.size → m.lab v < 0 → m.mask v = false → L0 (top v) ≠ L0 v →
    ∀ td ∈ I.nbrs, vac (nbr I.s v td.1) = false → m.lab (nbr I.s v td.1) < 0
  ref : ∀ v, v < I.s.size → m.lab v < 0 → Refined I vac L0 S v
  top0 : ∀ v, I.maxm v = true → |m.lab v| = L0 v
  noneg : ∀ v < I.s.size, 0 ≤ L0 v

theorem LoopInv.step {I : NearIn K} {vac : ℕ → Bool} {F : ℕ} {top : ℕ → ℕ} (hI : NearInput I vac)
    (ht : IsTop I vac F top) {L0 : ℕ → ℤ} {S : ℕ → Prop} {m m' : RMem} (h : LoopInv I vac top L0 S m)
    (ha : AfterPass I top m (fun v => m.mask v = true) m') : LoopInv I vac top L0 S m' := by
  have hz := ha.zeroVac hI ht h.toPassOK (fun _ h => h)
  obtain ⟨a1, a2, a3⟩ := ha.abs hI ht
  -- the change test of the pass is the change test of the specification
  have hchg : ∀ v, m.mask v = true → (Chg top m.lab v ↔ L0 (top v) ≠ L0 v) := by
    intro v hv
    unfold Chg
    rw [h.todo v hv, h.top0 _ (ht.max v (h.mask v hv).1 (h.nonvac hv))]
    exact ne_comm
  have hpn : ∀ n, Pushed I top m.lab (fun v => m.mask v = true) n → n < I.s.size := by
    rintro n ⟨_, v, hv, _, td, htd, rfl⟩
    exact nbr_lt (h.mask v hv).1 (hI.fits td htd)
  have hneg : ∀ n, n < I.s.size → m.lab n < 0 → m'.lab n < 0 := by
    intro n hn hl
    by_cases hp : m.mask n = true
    · have hnv := h.nonvac hp
      have htt := ht.lt hI hn hnv
      have : m'.lab n ≠ 0 := by
        intro hc; have := (hz n hn).mp hc; rw [hnv] at this; exact absurd this (by simp)
      have h2 := ha.lab_in n hp
      have := abs_nonneg (m.lab (top n))
      omega
    · rw [ha.lab_out n hp (fun hq => by have := hq.1; omega)]; exact hl
  refine { zero := hz, mask := ?_, start := ?_, pos := ?_, todo := ?_, fin := ?_, nbrs := ?_, ref := ?_,
           top0 := ?_, noneg := h.noneg }
  · intro v hv
    by_cases hp : m.mask v = true
    · rw [ha.mask_in v hp] at hv; exact absurd hv (by simp)
    · by_cases hq : Pushed I top m.lab (fun v => m.mask v = true) v
      · refine ⟨hpn v hq, ?_⟩
        rw [ha.lab_push v hp hq]; have := hq.1; omega
      · rw [ha.mask_out v hp hq] at hv; exact absurd hv hp
  · intro v hv
    have hl := h.start v hv
    by_cases hp : m.mask v = true
    · exact hneg v (h.mask v hp).1 hl
    · rw [ha.lab_out v hp (fun hq => by have := hq.1; omega)]; exact hl
  · intro v hv
    by_cases hp : m.mask v = true
    · exact absurd (hneg v (h.mask v hp).1 (h.mask v hp).2) hv
    · by_cases hq : Pushed I top m.lab (fun v => m.mask v = true) v
      · rw [ha.lab_push v hp hq] at hv; have := hq.1; omega
      · rw [ha.lab_out v hp hq] at hv ⊢; exact h.pos v hv
  · intro v hv
    by_cases hp : m.mask v = true
    · rw [ha.mask_in v hp] at hv; exact absurd hv (by simp)
    · by_cases hq : Pushed I top m.lab (fun v => m.mask v = true) v
      · rw [a1 v hp, abs_of_pos hq.1]
        exact h.pos v (by have := hq.1; omega)
      · rw [ha.mask_out v hp hq] at hv; exact absurd hv hp
  · intro v hvs hl hm
    by_cases hp : m.mask v = true
    · rw [a2 v hp]; exact h.top0 _ (ht.max v hvs (h.nonvac hp))
    · by_cases hq : Pushed I top m.lab (fun v => m.mask v = true) v
      · rw [ha.mask_push v hp hq] at hm; exact absurd hm (by simp)
      · rw [ha.lab_out v hp hq] at hl ⊢
        exact h.fin v hvs hl (by simpa using hp)
  · intro v hvs hl hm hne td htd hvac
    have hns := nbr_lt hvs (hI.fits td htd)
    by_cases hp : m.mask v = true
    · by_cases hln : m.lab (nbr I.s v td.1) < 0
      · exact hneg _ hns hln
      · have hpos : m.lab (nbr I.s v td.1) > 0 := by
          have : m.lab (nbr I.s v td.1) ≠ 0 := by
            intro hc; have := (h.zero _ hns).mp hc; rw [hvac] at this; exact absurd this (by simp)
          omega
        have hpm : ¬ m.mask (nbr I.s v td.1) = true := fun hc => hln (h.mask _ hc).2
        have hq : Pushed I top m.lab (fun v => m.mask v = true) (nbr I.s v td.1) :=
          ⟨hpos, v, hp, (hchg v hp).mpr hne, td, htd, rfl⟩
        rw [ha.lab_push _ hpm hq]; omega
    · by_cases hq : Pushed I top m.lab (fun v => m.mask v = true) v
      · rw [ha.mask_push v hp hq] at hm; exact absurd hm (by simp)
      · rw [ha.lab_out v hp hq] at hl
        exact hneg _ hns (h.nbrs v hvs hl (by simpa using hp) hne td htd hvac)
  · intro v hvs hl
    by_cases hlm : m.lab v < 0
    · exact h.ref v hvs hlm
    · have hp : ¬ m.mask v = true := fun hc => hlm (h.mask _ hc).2
      by_cases hq : Pushed I top m.lab (fun v => m.mask v = true) v
      · obtain ⟨hpos, u, hu, hc, td, htd, rfl⟩ := hq
        obtain ⟨hus, hul⟩ := h.mask u hu
        have hunv := h.nonvac hu
        refine .next (h.ref u hus hul) (ht.climbs u hus hunv) ((hchg u hu).mp hc)
          ((isNbr_iff hI.fits' hus).mpr ⟨td.1, List.mem_map_of_mem (f := Prod.fst) htd, rfl⟩) ?_
        by_contra hcv
        have := (h.zero _ hvs).mpr (by simpa using hcv)
        omega
      · rw [ha.lab_out v hp hq] at hl; exact absurd hl hlm
  · intro v hv; rw [a3 v hv]; exact h.top0 v hv

/-- When nothing is marked, the labels are the specified ones. -/
theorem LoopInv.final {I : NearIn K} {vac : ℕ → Bool} {F : ℕ} {top : ℕ → ℕ} (hI : NearInput I vac)
    (ht : IsTop I vac F top) {L0 : ℕ → ℤ} {S : ℕ → Prop} {m : RMem} (h : LoopInv I vac top L0 S m)
    (hS : ∀ v, S v → v < I.s.size)
    (hm : maskVox I.s m.mask = []) : ∀ v < I.s.size,
      (Refined I vac L0 S v ↔ m.lab v < 0) ∧
      (Refined I vac L0 S v → |m.lab v| = L0 (top v)) ∧ (¬ Refined I vac L0 S v → |m.lab v| = L0 v) := by
  have hnm : ∀ v < I.s.size, m.mask v = false := by
    intro v hv
    by_contra hc
    have : v ∈ maskVox I.s m.mask := mem_maskVox.mpr ⟨hv, by simpa using hc⟩
    rw [hm] at this; simp at this
  have hr : ∀ v, Refined I vac L0 S v → v < I.s.size ∧ m.lab v < 0 := by
    intro v hv
    induction hv with
    | start hs => exact ⟨hS _ hs, h.start _ hs⟩
    | @next v w mm _ hc hne hn hvac ih =>
      obtain ⟨hvs, hl⟩ := ih
      obtain ⟨t, ht', rfl⟩ := (isNbr_iff hI.fits' hvs).mp hn
      obtain ⟨td, htd, rfl⟩ := List.mem_map.mp ht'
      have hvv : vac v = false := by
        by_contra hcv
        have := (h.zero _ hvs).mpr (by simpa using hcv)
        omega
      obtain rfl := climbsTo_unique hc (ht.climbs v hvs hvv)
      exact ⟨hn.1, h.nbrs v hvs hl (hnm v hvs) hne td htd hvac⟩
  intro v hv
  refine ⟨⟨fun hc => (hr v hc).2, h.ref v hv⟩, fun hc => h.fin v hv (hr v hc).2 (hnm v hv), fun hc => ?_⟩
  have hl : ¬ m.lab v < 0 := fun hl => hc (h.ref v hv hl)
  have e := h.pos v hl
  rw [e]; exact abs_of_nonneg (h.noneg v hv)

/-- Number of voxels not yet handled. -/
def posCount (s : Shape) (m : RMem) : ℕ := ((Finset.range s.size).filter fun v => ¬ m.lab v < 0).card

theorem posCount_lt {I : NearIn K} {vac : ℕ → Bool} {F : ℕ} {top : ℕ → ℕ} (hI : NearInput I vac)
    (ht : IsTop I vac F top) {L0 : ℕ → ℤ} {S : ℕ → Prop} {m m' : RMem} (h : LoopInv I vac top L0 S m)
    (ha : AfterPass I top m (fun v => m.mask v = true) m') (hne : maskVox I.s m'.mask ≠ []) :
    posCount I.s m' < posCount I.s m := by
  have h' := h.step hI ht ha
  obtain ⟨v, hv⟩ := List.exists_mem_of_ne_nil _ hne
  obtain ⟨hvs, hvm⟩ := mem_maskVox.mp hv
  apply Finset.card_lt_card
  rw [Finset.ssubset_iff_of_subset]
  · refine ⟨v, ?_, ?_⟩
    · simp only [Finset.mem_filter, Finset.mem_range]
      refine ⟨hvs, fun hc => ?_⟩
      by_cases hp : m.mask v = true
      · rw [ha.mask_in v hp] at hvm; exact absurd hvm (by simp)
      · rw [ha.mask_out v hp (fun hq => by have := hq.1; omega)] at hvm; exact hp hvm
    · simp only [Finset.mem_filter, not_and, not_not]
      intro _; exact (h'.mask v hvm).2
  · intro x hx
    simp only [Finset.mem_filter, Finset.mem_range] at hx ⊢
    refine ⟨hx.1, fun hc => hx.2 ?_⟩
    have hz := ha.zeroVac hI ht h.toPassOK (fun _ h => h)
    by_cases hp : m.mask x = true
    · exfalso
      apply hx.2
      have hnv := h.nonvac hp
      have : m'.lab x ≠ 0 := by
        intro hc; have := (hz x hx.1).mp hc; rw [hnv] at this; exact absurd this (by simp)
      have h2 := ha.lab_in x hp
      have := abs_nonneg (m.lab (top x))
      omega
    · rw [ha.lab_out x hp (fun hq => by have := hq.1; omega)]; exact hc

/-- The loop ends, and its result is the specified one, whatever the order within each pass. -/
theorem refineLoop_spec {I : NearIn K} {vac : ℕ → Bool} {F : ℕ} {top : ℕ → ℕ} (hI : NearInput I vac)
    (ht : IsTop I vac F top) {L0 : ℕ → ℤ} {S : ℕ → Prop} (perm : List ℕ → List ℕ)
    (hperm : ∀ l, (perm l).Perm l) (fuel : ℕ) (hf : fuel > F) :
    ∀ k m, LoopInv I vac top L0 S m → posCount I.s m ≤ k → ∃ m', LoopInv I vac top L0 S m' ∧
      maskVox I.s m'.mask = [] ∧ ∀ rounds > k + 1, refineLoop I perm fuel rounds m = some m' := by
  intro k
  induction k using Nat.strong_induction_on with
  | _ k ih =>
    intro m h hk
    by_cases hm : maskVox I.s m.mask = []
    · refine ⟨m, h, hm, fun rounds hr => ?_⟩
      obtain ⟨r, rfl⟩ : ∃ r, rounds = r + 1 := ⟨rounds - 1, by omega⟩
      rw [refineLoop, if_pos hm]
    · have hnd : (perm (maskVox I.s m.mask)).Nodup :=
        (hperm _).nodup_iff.mpr (List.nodup_range.filter _)
      have hmem : ∀ v, v ∈ perm (maskVox I.s m.mask) ↔ m.mask v = true := by
        intro v
        rw [(hperm _).mem_iff, mem_maskVox]
        exact ⟨fun h => h.2, fun hv => ⟨(h.mask v hv).1, hv⟩⟩
      obtain ⟨m1, c1, e1, h1, _, g1⟩ := refineRound_spec hI ht h.toPassOK fuel hf
        (perm (maskVox I.s m.mask)) (fun _ => False) m 0 hnd
        (fun v hv => ⟨(hmem v).mp hv, id⟩) (fun _ h => h.elim) afterPass_nil
      have h1' : AfterPass I top m (fun v => m.mask v = true) m1 := by
        have : (fun v => m.mask v = true) = fun u => False ∨ u ∈ perm (maskVox I.s m.mask) := by
          funext u; simp [hmem]
        rw [this]; exact h1
      have hs := h.step hI ht h1'
      have hround : refineRound I fuel (perm (maskVox I.s m.mask)) m = some (m1, c1) := e1
      by_cases hm1 : maskVox I.s m1.mask = []
      · refine ⟨m1, hs, hm1, fun rounds hr => ?_⟩
        obtain ⟨r, rfl⟩ : ∃ r, rounds = r + 2 := ⟨rounds - 2, by omega⟩
        rw [refineLoop, if_neg hm, hround]
        simp only [Option.bind_some]
        split_ifs
        · rw [refineLoop, if_pos hm1]
        · rfl
      · have hlt := posCount_lt hI ht h h1' hm1
        obtain ⟨m2, g2, g3, g4⟩ := ih (k - 1) (by omega) m1 hs (by omega)
        refine ⟨m2, g2, g3, fun rounds hr => ?_⟩
        obtain ⟨r, rfl⟩ : ∃ r, rounds = r + 1 := ⟨rounds - 1, by omega⟩
        rw [refineLoop, if_neg hm, hround]
        simp only [Option.bind_some]
        have hc : c1 > 0 := by
          apply g1.mpr
          obtain ⟨v, hv⟩ := List.exists_mem_of_ne_nil _ hm1
          obtain ⟨hvs, hvm⟩ := mem_maskVox.mp hv
          by_cases hp : m.mask v = true
          · rw [h1'.mask_in v hp] at hvm; exact absurd hvm (by simp)
          · by_cases hq : Pushed I top m.lab (fun v => m.mask v = true) v
            · obtain ⟨_, u, hu, hc, _⟩ := hq
              exact ⟨u, (hmem u).mpr hu, hc⟩
            · rw [h1'.mask_out v hp hq] at hvm; exact absurd hvm hp
        rw [if_pos hc]
        exact g4 r (by omega)

end BaderKit
