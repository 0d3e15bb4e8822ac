import Verif.Lemmas.NearRefine
/-! # One refinement pass on threads -/
set_option linter.unusedSectionVars false
namespace BaderKit
variable {K : Type*} [Field K] [LinearOrder K] [IsStrictOrderedRing K] [FloorRing K]

/-- The list of neighbours visited by the neighbour loop of voxel `v`. -/
def nbrList (I : NearIn K) (v : ℕ) : List ℕ := I.nbrs.map fun td => nbr I.s v td.1

/-- The neighbours of `v` outside `todo` have been marked. -/
def MarkedOut (I : NearIn K) (m0 m : RMem) (v : ℕ) (todo : List ℕ) : Prop :=
  ∀ n ∈ nbrList I v, n ∉ todo → m0.lab n > 0 → m.lab n = -m0.lab n ∧ m.mask n = true

/-- Invariant of the thread of voxel `v`. -/
def TInv (I : NearIn K) (vac : ℕ → Bool) (top : ℕ → ℕ) (m0 m : RMem) (v : ℕ) : RPC K → Prop
  | .start => m.lab v = m0.lab v
  | .climb label c => m.lab v = m0.lab v ∧ label = |m0.lab v| ∧ CI I vac c ∧
      ∃ k, NearTraj I vac c.cur c.td c.path k (top v)
  | .unmask label t => m.lab v = m0.lab v ∧ label = |m0.lab v| ∧ t = top v
  | .readTop label t => m.lab v = m0.lab v ∧ label = |m0.lab v| ∧ t = top v ∧ m.mask v = false
  | .test cur todo => m.lab v = m0.lab v ∧ m.mask v = false ∧ cur = |m0.lab (top v)| ∧
      Chg top m0.lab v ∧ (∀ n ∈ todo, n ∈ nbrList I v) ∧ MarkedOut I m0 m v todo
  | .setMask cur n todo => m.lab v = m0.lab v ∧ m.mask v = false ∧ cur = |m0.lab (top v)| ∧
      Chg top m0.lab v ∧ (∀ n' ∈ n :: todo, n' ∈ nbrList I v) ∧ MarkedOut I m0 m v (n :: todo) ∧
      m0.lab n > 0
  | .readNbr cur n todo => m.lab v = m0.lab v ∧ m.mask v = false ∧ cur = |m0.lab (top v)| ∧
      Chg top m0.lab v ∧ (∀ n' ∈ n :: todo, n' ∈ nbrList I v) ∧ MarkedOut I m0 m v (n :: todo) ∧
      m0.lab n > 0 ∧ m.mask n = true
  | .setNbr cur x n todo => m.lab v = m0.lab v ∧ m.mask v = false ∧ cur = |m0.lab (top v)| ∧
      Chg top m0.lab v ∧ (∀ n' ∈ n :: todo, n' ∈ nbrList I v) ∧ MarkedOut I m0 m v (n :: todo) ∧
      m0.lab n > 0 ∧ m.mask n = true ∧ |x| = m0.lab n
  | .relabel cur => m.lab v = m0.lab v ∧ m.mask v = false ∧ cur = |m0.lab (top v)| ∧
      (Chg top m0.lab v → MarkedOut I m0 m v [])
  | .done => m.lab v = -|m0.lab (top v)| ∧ m.mask v = false ∧
      (Chg top m0.lab v → MarkedOut I m0 m v [])

/-- How the memory may change under the steps of other threads, as seen by voxel `v`. -/
structure Ext (m0 : RMem) (v : ℕ) (m m' : RMem) : Prop where
  lab : m'.lab v = m.lab v
  mask : m.mask v = false → m'.mask v = false
  nlab : ∀ n, m0.lab n > 0 → m.lab n = -m0.lab n → m'.lab n = -m0.lab n
  nmask : ∀ n, m0.lab n > 0 → m.mask n = true → m'.mask n = true

theorem MarkedOut.ext {I : NearIn K} {m0 m m' : RMem} {v u : ℕ} {todo : List ℕ} (h : Ext m0 u m m')
    (h' : MarkedOut I m0 m v todo) : MarkedOut I m0 m' v todo :=
  fun n a b c => ⟨h.nlab n c (h' n a b c).1, h.nmask n c (h' n a b c).2⟩

theorem TInv.ext {I : NearIn K} {vac : ℕ → Bool} {top : ℕ → ℕ} {m0 m m' : RMem} {v : ℕ} {pc : RPC K}
    (h : Ext m0 v m m') (h' : TInv I vac top m0 m v pc) : TInv I vac top m0 m' v pc := by
  cases pc with
  | start => exact h.lab.trans h'
  | climb label c => exact ⟨h.lab.trans h'.1, h'.2⟩
  | unmask label t => exact ⟨h.lab.trans h'.1, h'.2⟩
  | readTop label t => exact ⟨h.lab.trans h'.1, h'.2.1, h'.2.2.1, h.mask h'.2.2.2⟩
  | test cur todo =>
    obtain ⟨a, b, c, d, e, f⟩ := h'
    exact ⟨h.lab.trans a, h.mask b, c, d, e, f.ext h⟩
  | setMask cur n todo =>
    obtain ⟨a, b, c, d, e, f, g⟩ := h'
    exact ⟨h.lab.trans a, h.mask b, c, d, e, f.ext h, g⟩
  | readNbr cur n todo =>
    obtain ⟨a, b, c, d, e, f, g, i⟩ := h'
    exact ⟨h.lab.trans a, h.mask b, c, d, e, f.ext h, g, h.nmask n g i⟩
  | setNbr cur x n todo =>
    obtain ⟨a, b, c, d, e, f, g, i, j⟩ := h'
    exact ⟨h.lab.trans a, h.mask b, c, d, e, f.ext h, g, h.nmask n g i, j⟩
  | relabel cur =>
    obtain ⟨a, b, c, d⟩ := h'
    exact ⟨h.lab.trans a, h.mask b, c, fun x => (d x).ext h⟩
  | done =>
    obtain ⟨a, b, c⟩ := h'
    exact ⟨h.lab.trans a, h.mask b, fun x => (c x).ext h⟩

/-- Invariant of the memory outside the voxels of the pass. -/
structure GInv (I : NearIn K) (top : ℕ → ℕ) (m0 m : RMem) : Prop where
  lab : ∀ n, ¬ m0.mask n = true → m.lab n = m0.lab n ∨
    (Pushed I top m0.lab (fun v => m0.mask v = true) n ∧ m.lab n = -m0.lab n ∧ m.mask n = true)
  mask : ∀ n, ¬ m0.mask n = true → m.mask n = m0.mask n ∨
    (Pushed I top m0.lab (fun v => m0.mask v = true) n ∧ m.mask n = true)

/-- All invariants together. -/
structure RInv (I : NearIn K) (vac : ℕ → Bool) (top : ℕ → ℕ) (m0 : RMem) (st : RMem × (ℕ → RPC K)) :
    Prop where
  g : GInv I top m0 st.1
  t : ∀ v, m0.mask v = true → TInv I vac top m0 st.1 v (st.2 v)

theorem TInv.lab_cases {I : NearIn K} {vac : ℕ → Bool} {top : ℕ → ℕ} {m0 m : RMem} {v : ℕ} {pc : RPC K}
    (h : TInv I vac top m0 m v pc) : m.lab v = m0.lab v ∨ m.lab v = -|m0.lab (top v)| := by
  cases pc with
  | start => exact Or.inl h
  | climb label c => exact Or.inl h.1
  | unmask label t => exact Or.inl h.1
  | readTop label t => exact Or.inl h.1
  | test cur todo => exact Or.inl h.1
  | setMask cur n todo => exact Or.inl h.1
  | readNbr cur n todo => exact Or.inl h.1
  | setNbr cur x n todo => exact Or.inl h.1
  | relabel cur => exact Or.inl h.1
  | done => exact Or.inr h.1

theorem RInv.absMax {I : NearIn K} {vac : ℕ → Bool} {F : ℕ} {top : ℕ → ℕ} (hI : NearInput I vac)
    (ht : IsTop I vac F top) {m0 : RMem} {st : RMem × (ℕ → RPC K)} (h : RInv I vac top m0 st) {n : ℕ}
    (hn : I.maxm n = true) : |st.1.lab n| = |m0.lab n| := by
  by_cases hp : m0.mask n = true
  · rcases (h.t n hp).lab_cases with e | e
    · rw [e]
    · rw [e, abs_neg, abs_abs, ht.top_top hI hn]
  · rcases h.g.lab n hp with e | ⟨_, e, _⟩
    · rw [e]
    · rw [e, abs_neg]

theorem RInv.zero {I : NearIn K} {vac : ℕ → Bool} {F : ℕ} {top : ℕ → ℕ} (hI : NearInput I vac)
    (ht : IsTop I vac F top) {m0 : RMem} (h0 : PassOK I vac m0) {st : RMem × (ℕ → RPC K)}
    (h : RInv I vac top m0 st) : ZeroVac I.s vac st.1.lab := by
  intro v hv
  by_cases hp : m0.mask v = true
  · rcases (h.t v hp).lab_cases with e | e
    · rw [e]; exact h0.zero v hv
    · have hn := h0.nonvac hp
      have ht' := ht.lt hI hv hn
      have hne : m0.lab (top v) ≠ 0 := by
        intro hc
        have := (h0.zero _ ht'.1).mp hc
        rw [ht'.2] at this; exact absurd this (by simp)
      rw [e, hn]
      simp [hne]
  · rw [← h0.zero v hv]
    rcases h.g.lab v hp with e | ⟨_, e, _⟩
    · rw [e]
    · rw [e]; omega

theorem mem_nbrList {I : NearIn K} {v n : ℕ} : n ∈ nbrList I v ↔ ∃ td ∈ I.nbrs, nbr I.s v td.1 = n := by
  simp [nbrList]

theorem nearTraj_near {I : NearIn K} {vac : ℕ → Bool} {v : ℕ} {td : K × K × K} {path : List ℕ}
    {k m n : ℕ} {td' : K × K × K} (h : NearTraj I vac v td path k m) (hm : I.maxm v = false)
    (htar : NearTarget I v td n td') (h1 : n ∉ v :: path) (h2 : vac n = false) :
    ∃ k', NearTraj I vac n td' (v :: path) k' m := by
  cases h with
  | top hm'' => rw [hm] at hm''; exact absurd hm'' (by simp)
  | near _ ht' _ _ h'' =>
    obtain ⟨rfl, rfl⟩ := nearTarget_unique htar ht'
    exact ⟨_, h''⟩
  | ongrid _ ht' hc =>
    obtain ⟨rfl, rfl⟩ := nearTarget_unique htar ht'
    rcases hc with hc | hc
    · exact absurd hc h1
    · rw [h2] at hc; exact absurd hc (by simp)

theorem nearTraj_ongrid {I : NearIn K} {vac : ℕ → Bool} {v : ℕ} {td : K × K × K} {path : List ℕ}
    {k m n w : ℕ} {td' : K × K × K} (h : NearTraj I vac v td path k m) (hm : I.maxm v = false)
    (htar : NearTarget I v td n td') (h1 : n ∈ v :: path ∨ vac n = true)
    (h2 : SteepestNbr I.s I.data I.nbrs v w) : ∃ k', NearTraj I vac w (0, 0, 0) (v :: path) k' m := by
  cases h with
  | top hm'' => rw [hm] at hm''; exact absurd hm'' (by simp)
  | near _ ht' hn hv' _ =>
    obtain ⟨rfl, rfl⟩ := nearTarget_unique htar ht'
    rcases h1 with hc | hc
    · exact absurd hc hn
    · rw [hv'] at hc; exact absurd hc (by simp)
  | ongrid _ _ _ hs' h'' =>
    obtain rfl := steepestNbr_unique h2 hs'
    exact ⟨_, h''⟩

/-- One step of the thread of `v` keeps the invariants. -/
theorem rstep_inv {I : NearIn K} {vac : ℕ → Bool} {F : ℕ} {top : ℕ → ℕ} (hI : NearInput I vac)
    (ht : IsTop I vac F top) {m0 : RMem} (h0 : PassOK I vac m0) {st : RMem × (ℕ → RPC K)}
    (h : RInv I vac top m0 st) {v : ℕ} (hv : m0.mask v = true) :
    GInv I top m0 (rstep I v st.1 (st.2 v)).1 ∧
    TInv I vac top m0 (rstep I v st.1 (st.2 v)).1 v (rstep I v st.1 (st.2 v)).2 ∧
    ∀ u, u ≠ v → m0.mask u = true → Ext m0 u st.1 (rstep I v st.1 (st.2 v)).1 := by
  have hT := h.t v hv
  have hvs := h0.mask v hv
  have hnv := h0.nonvac hv
  have hmaxT : |st.1.lab (top v)| = |m0.lab (top v)| := h.absMax hI ht (ht.max v hvs.1 hnv)
  have refl : ∀ u, Ext m0 u st.1 st.1 := fun u => ⟨rfl, fun h => h, fun _ _ h => h, fun _ _ h => h⟩
  have pushed : ∀ n, Chg top m0.lab v → n ∈ nbrList I v → m0.lab n > 0 →
      Pushed I top m0.lab (fun v => m0.mask v = true) n ∧ ¬ m0.mask n = true := by
    intro n hc hn hp
    refine ⟨⟨hp, v, hv, hc, mem_nbrList.mp hn⟩, fun hm => ?_⟩
    have := (h0.mask n hm).2; omega
  generalize st.2 v = pc at hT
  cases pc with
  | start =>
    refine ⟨h.g, ⟨hT, by rw [show st.1.lab v = m0.lab v from hT], init_ci hvs.1 hnv, ?_⟩,
      fun u _ _ => refl u⟩
    exact ht.climbs v hvs.1 hnv
  | climb label c =>
    obtain ⟨a, b, d, k, e⟩ := hT
    refine ⟨h.g, ?_, fun u _ _ => refl u⟩
    simp only [rstep]
    by_cases hm : I.maxm c.cur = true
    · rw [if_pos hm]
      refine ⟨a, b, ?_⟩
      exact (nearTraj_unique (.top hm) e).2
    · rw [if_neg hm]
      have hm' : I.maxm c.cur = false := by simpa using hm
      obtain ⟨n, td', htar, ⟨h1, h2, h3, h4⟩ | ⟨h1, w, h2, h3, h4, h5⟩⟩ := climbStep_cases hI d hm'
      · rw [h4 _ (h.zero hI ht h0)]
        exact ⟨a, b, h3, nearTraj_near e hm' htar h1 h2⟩
      · rw [h5 _ (h.zero hI ht h0)]
        exact ⟨a, b, h3, nearTraj_ongrid e hm' htar h1 h2⟩
  | unmask label t =>
    obtain ⟨a, b, d⟩ := hT
    refine ⟨⟨?_, ?_⟩, ⟨a, b, d, by simp [rstep]⟩, fun u hu hum => ⟨rfl, ?_, fun _ _ h => h, ?_⟩⟩
    · intro n hn
      have hne : n ≠ v := by rintro rfl; exact hn hv
      simpa [rstep, hne] using h.g.lab n hn
    · intro n hn
      have hne : n ≠ v := by rintro rfl; exact hn hv
      simpa [rstep, hne] using h.g.mask n hn
    · intro hf; simpa [rstep, hu] using hf
    · intro n hn hm
      have hne : n ≠ v := by rintro rfl; omega
      simpa [rstep, hne] using hm
  | readTop label t =>
    obtain ⟨a, b, d, e⟩ := hT
    refine ⟨h.g, ?_, fun u _ _ => refl u⟩
    subst d
    simp only [rstep, hmaxT]
    by_cases hc : label ≠ |m0.lab (top v)|
    · rw [if_pos hc]
      refine ⟨a, e, rfl, ?_, fun n hn => hn, fun n hn hnn => absurd hn hnn⟩
      rw [b] at hc; exact hc
    · rw [if_neg hc]
      refine ⟨a, e, rfl, fun hchg => ?_⟩
      rw [b] at hc; exact absurd hchg hc
  | test cur todo =>
    obtain ⟨a, b, d, e, f, g⟩ := hT
    cases todo with
    | nil => exact ⟨h.g, ⟨a, b, d, fun _ => g⟩, fun u _ _ => refl u⟩
    | cons n todo =>
      refine ⟨h.g, ?_, fun u _ _ => refl u⟩
      simp only [rstep]
      have hnb := f n (by simp)
      by_cases hp : st.1.lab n > 0
      · rw [if_pos hp]
        refine ⟨a, b, d, e, f, g, ?_⟩
        by_cases hm : m0.mask n = true
        · exfalso
          have hneg := (h0.mask n hm).2
          rcases (h.t n hm).lab_cases with e' | e'
          · omega
          · have := abs_nonneg (m0.lab (top n)); omega
        · rcases h.g.lab n hm with e' | ⟨hq, e', _⟩
          · omega
          · exact hq.1
      · rw [if_neg hp]
        refine ⟨a, b, d, e, fun n' hn' => f n' (by simp [hn']), ?_⟩
        intro n' hn' hnt hpos
        by_cases hnn : n' = n
        · subst hnn
          obtain ⟨hq, hm⟩ := pushed n' e hnb hpos
          rcases h.g.lab n' hm with e' | ⟨_, e', hmask⟩
          · omega
          · exact ⟨e', hmask⟩
        · exact g n' hn' (by simp [hnn, hnt]) hpos
  | setMask cur n todo =>
    obtain ⟨a, b, d, e, f, g, i⟩ := hT
    obtain ⟨hq, hm⟩ := pushed n e (f n (by simp)) i
    have hne : v ≠ n := by rintro rfl; exact hm hv
    refine ⟨⟨?_, ?_⟩, ⟨a, by simpa [rstep, hne] using b, d, e, f, ?_, i, by simp [rstep]⟩,
      fun u hu hum => ⟨rfl, ?_, fun _ _ h => h, ?_⟩⟩
    · intro n' hn'
      rcases h.g.lab n' hn' with e' | ⟨q, e', hmask⟩
      · exact Or.inl e'
      · refine Or.inr ⟨q, e', ?_⟩
        by_cases hnn : n' = n
        · simp [rstep, hnn]
        · simpa [rstep, hnn] using hmask
    · intro n' hn'
      by_cases hnn : n' = n
      · subst hnn; exact Or.inr ⟨hq, by simp [rstep]⟩
      · simpa [rstep, hnn] using h.g.mask n' hn'
    · intro n' hn' hnt hpos
      have := g n' hn' hnt hpos
      have hnn : n' ≠ n := by rintro rfl; simp at hnt
      exact ⟨this.1, by simpa [rstep, hnn] using this.2⟩
    · intro hf
      have hnn : u ≠ n := by rintro rfl; exact hm hum
      simpa [rstep, hnn] using hf
    · intro n' _ hm'
      by_cases hnn : n' = n
      · simp [rstep, hnn]
      · simpa [rstep, hnn] using hm'
  | readNbr cur n todo =>
    obtain ⟨a, b, d, e, f, g, i, j⟩ := hT
    obtain ⟨hq, hm⟩ := pushed n e (f n (by simp)) i
    refine ⟨h.g, ⟨a, b, d, e, f, g, i, j, ?_⟩, fun u _ _ => refl u⟩
    rcases h.g.lab n hm with e' | ⟨_, e', _⟩
    · rw [e', abs_of_pos i]
    · rw [e', abs_neg, abs_of_pos i]
  | setNbr cur x n todo =>
    obtain ⟨a, b, d, e, f, g, i, j, k⟩ := hT
    obtain ⟨hq, hm⟩ := pushed n e (f n (by simp)) i
    have hne : v ≠ n := by rintro rfl; exact hm hv
    refine ⟨⟨?_, ?_⟩, ⟨by simpa [rstep, hne] using a, b, d, e, fun n' hn' => f n' (by simp [hn']), ?_⟩,
      fun u hu hum => ⟨?_, fun h => h, ?_, fun _ _ h => h⟩⟩
    · intro n' hn'
      by_cases hnn : n' = n
      · subst hnn; exact Or.inr ⟨hq, by simp [rstep, k], j⟩
      · simpa [rstep, hnn] using h.g.lab n' hn'
    · exact h.g.mask
    · intro n' hn' hnt hpos
      by_cases hnn : n' = n
      · subst hnn; exact ⟨by simp [rstep, k], j⟩
      · have := g n' hn' (by simp [hnn, hnt]) hpos
        exact ⟨by simpa [rstep, hnn] using this.1, this.2⟩
    · have hnn : u ≠ n := by rintro rfl; exact hm hum
      simp [rstep, hnn]
    · intro n' hpos he
      by_cases hnn : n' = n
      · subst hnn; simp [rstep, k]
      · simpa [rstep, hnn] using he
  | relabel cur =>
    obtain ⟨a, b, d, e⟩ := hT
    have hpn : ∀ n, m0.lab n > 0 → n ≠ v := by rintro n hn rfl; omega
    refine ⟨⟨?_, ?_⟩, ⟨by simp [rstep, d], b, fun hc n hn hnt hpos => ?_⟩,
      fun u hu hum => ⟨by simp [rstep, hu], fun h => h, ?_, fun _ _ h => h⟩⟩
    · intro n' hn'
      have hne : n' ≠ v := by rintro rfl; exact hn' hv
      simpa [rstep, hne] using h.g.lab n' hn'
    · exact h.g.mask
    · have := e hc n hn hnt hpos
      exact ⟨by simpa [rstep, hpn n hpos] using this.1, this.2⟩
    · intro n hpos he
      simpa [rstep, hpn n hpos] using he
  | done => exact ⟨h.g, hT, fun u _ _ => refl u⟩

theorem rrun_inv {I : NearIn K} {vac : ℕ → Bool} {F : ℕ} {top : ℕ → ℕ} (hI : NearInput I vac)
    (ht : IsTop I vac F top) {m0 : RMem} (h0 : PassOK I vac m0) (sched : List ℕ) :
    ∀ st : RMem × (ℕ → RPC K), RInv I vac top m0 st →
      RInv I vac top m0 (sched.foldl (rstepAll I (maskVox I.s m0.mask)) st) := by
  induction sched with
  | nil => intro st h; exact h
  | cons v sched ih =>
    intro st h
    rw [List.foldl_cons]
    apply ih
    unfold rstepAll
    split_ifs with hv
    · have hv' := (mem_maskVox.mp hv).2
      obtain ⟨h1, h2, h3⟩ := rstep_inv hI ht h0 h hv'
      refine ⟨h1, fun u hu => ?_⟩
      by_cases huv : u = v
      · subst huv; simpa using h2
      · simp only [Function.update_of_ne huv]
        exact (h.t u hu).ext (h3 u huv hu)
    · exact h

theorem rinv_init {I : NearIn K} {vac : ℕ → Bool} {top : ℕ → ℕ} {m0 : RMem} :
    RInv I vac top m0 (m0, fun _ => (.start : RPC K)) :=
  ⟨⟨fun _ _ => Or.inl rfl, fun _ _ => Or.inl rfl⟩, fun _ _ => rfl⟩

/-- When all threads are finished the memory is the one after a sequential pass. -/
theorem rrun_afterPass {I : NearIn K} {vac : ℕ → Bool} {F : ℕ} {top : ℕ → ℕ} (hI : NearInput I vac)
    (ht : IsTop I vac F top) {m0 : RMem} (h0 : PassOK I vac m0) (sched : List ℕ)
    (hdone : ∀ v ∈ maskVox I.s m0.mask, (rrun I (maskVox I.s m0.mask) m0 sched).2 v = .done) :
    AfterPass I top m0 (fun v => m0.mask v = true) (rrun I (maskVox I.s m0.mask) m0 sched).1 := by
  have h := rrun_inv hI ht h0 sched _ rinv_init
  change RInv I vac top m0 (rrun I (maskVox I.s m0.mask) m0 sched) at h
  generalize rrun I (maskVox I.s m0.mask) m0 sched = st at h hdone
  have hd : ∀ v, m0.mask v = true → TInv I vac top m0 st.1 v (.done : RPC K) := by
    intro v hv
    have := h.t v hv
    rwa [hdone v (mem_maskVox.mpr ⟨(h0.mask v hv).1, hv⟩)] at this
  have hpush : ∀ n, Pushed I top m0.lab (fun v => m0.mask v = true) n →
      st.1.lab n = -m0.lab n ∧ st.1.mask n = true := by
    rintro n ⟨hpos, v, hv, hc, hn⟩
    exact (hd v hv).2.2 hc n (mem_nbrList.mpr hn) (by simp) hpos
  refine ⟨fun n hn => (hd n hn).1, fun n _ hq => (hpush n hq).1, fun n hn hq => ?_,
    fun n hn => (hd n hn).2.1, fun n _ hq => (hpush n hq).2, fun n hn hq => ?_⟩
  · rcases h.g.lab n hn with e | ⟨hq', _⟩
    · exact e
    · exact absurd hq' hq
  · rcases h.g.mask n hn with e | ⟨hq', _⟩
    · exact e
    · exact absurd hq' hq

/-! ### Threads finish -/

/-- Bound on the number of steps a thread still has to make. -/
def tmeas (I : NearIn K) : RPC K → ℕ
  | .start => (I.s.size + 2) * (I.s.size + 1) + 4 * I.nbrs.length + 10
  | .climb _ c => fresh I c * (I.s.size + 1) + above I.s I.data c.cur + 4 * I.nbrs.length + 6
  | .unmask _ _ => 4 * I.nbrs.length + 5
  | .readTop _ _ => 4 * I.nbrs.length + 4
  | .test _ todo => 4 * todo.length + 2
  | .setMask _ _ todo => 4 * todo.length + 5
  | .readNbr _ _ todo => 4 * todo.length + 4
  | .setNbr _ _ _ todo => 4 * todo.length + 3
  | .relabel _ => 1
  | .done => 0

theorem tmeas_step {I : NearIn K} {vac : ℕ → Bool} {F : ℕ} {top : ℕ → ℕ} (hI : NearInput I vac)
    (ht : IsTop I vac F top) {m0 : RMem} (h0 : PassOK I vac m0) {st : RMem × (ℕ → RPC K)}
    (h : RInv I vac top m0 st) {v : ℕ} (hv : m0.mask v = true) :
    tmeas I (rstep I v st.1 (st.2 v)).2 ≤ tmeas I (st.2 v) - 1 := by
  have hT := h.t v hv
  have hvs := h0.mask v hv
  have hz := h.zero hI ht h0
  generalize st.2 v = pc at hT
  cases pc with
  | start =>
    have h1 := fresh_lt (I := I) (c := Climb.init v) hvs.1
    have h2 := above_le I.s I.data v
    have h3 : fresh I (Climb.init v) * (I.s.size + 1) ≤ I.s.size * (I.s.size + 1) :=
      Nat.mul_le_mul_right _ h1.le
    have h4 : (I.s.size + 2) * (I.s.size + 1) = I.s.size * (I.s.size + 1) + 2 * (I.s.size + 1) :=
      Nat.add_mul _ _ _
    simp only [rstep, tmeas]
    show _ + above I.s I.data v + _ + _ ≤ _
    omega
  | climb label c =>
    obtain ⟨a, b, d, k, e⟩ := hT
    simp only [rstep]
    by_cases hm : I.maxm c.cur = true
    · rw [if_pos hm]; simp only [tmeas]; omega
    · rw [if_neg hm]
      have hm' : I.maxm c.cur = false := by simpa using hm
      obtain ⟨n, td', htar, ⟨h1, h2, h3, h4⟩ | ⟨h1, w, h2, h3, h4, h5⟩⟩ := climbStep_cases hI d hm'
      · rw [h4 _ hz]
        have hfr := fresh_near (I := I) (c := c) (n := n) (td := td') h3.lt h1
        have hab := above_le I.s I.data n
        have hmul : (fresh I ⟨n, td', c.cur :: c.path⟩ + 1) * (I.s.size + 1) ≤
            fresh I c * (I.s.size + 1) := Nat.mul_le_mul_right _ hfr
        rw [Nat.add_mul, Nat.one_mul] at hmul
        simp only [tmeas]; omega
      · rw [h5 _ hz]
        have hfr := fresh_ongrid (I := I) (c := c) (n := w) (td := (0, 0, 0))
        have hab := above_lt (s := I.s) h3.lt h4
        simp only at hab
        have hmul : fresh I ⟨w, (0, 0, 0), c.cur :: c.path⟩ * (I.s.size + 1) ≤
            fresh I c * (I.s.size + 1) := Nat.mul_le_mul_right _ hfr
        simp only [tmeas]; omega
  | unmask label t => simp [rstep, tmeas]
  | readTop label t =>
    simp only [rstep]
    split_ifs
    · simp [tmeas]
    · simp only [tmeas]; omega
  | test cur todo =>
    cases todo with
    | nil => simp [rstep, tmeas]
    | cons n todo =>
      simp only [rstep]
      split_ifs <;> simp only [tmeas, List.length_cons] <;> omega
  | setMask cur n todo => simp [rstep, tmeas]
  | readNbr cur n todo => simp [rstep, tmeas]
  | setNbr cur x n todo => simp [rstep, tmeas]
  | relabel cur => simp [rstep, tmeas]
  | done => simp [rstep, tmeas]

theorem rrun_meas {I : NearIn K} {vac : ℕ → Bool} {F : ℕ} {top : ℕ → ℕ} (hI : NearInput I vac)
    (ht : IsTop I vac F top) {m0 : RMem} (h0 : PassOK I vac m0) (sched : List ℕ) {v : ℕ}
    (hv : m0.mask v = true) :
    ∀ st : RMem × (ℕ → RPC K), RInv I vac top m0 st →
      tmeas I ((sched.foldl (rstepAll I (maskVox I.s m0.mask)) st).2 v) ≤
        tmeas I (st.2 v) - sched.count v := by
  induction sched with
  | nil => intro st _; simp
  | cons u sched ih =>
    intro st h
    rw [List.foldl_cons]
    have hinv : RInv I vac top m0 (rstepAll I (maskVox I.s m0.mask) st u) :=
      rrun_inv hI ht h0 [u] st h
    refine (ih _ hinv).trans ?_
    by_cases huv : u = v
    · subst huv
      have hmem : u ∈ maskVox I.s m0.mask := mem_maskVox.mpr ⟨(h0.mask u hv).1, hv⟩
      have := tmeas_step hI ht h0 h hv
      simp only [rstepAll, if_pos hmem, Function.update_self, List.count_cons_self]
      omega
    · have : (rstepAll I (maskVox I.s m0.mask) st u).2 v = st.2 v := by
        unfold rstepAll
        split_ifs
        · simp [Function.update_of_ne (fun h => huv h.symm : v ≠ u)]
        · rfl
      rw [this, List.count_cons_of_ne huv]

theorem tmeas_zero {I : NearIn K} {pc : RPC K} (h : tmeas I pc = 0) : pc = .done := by
  cases pc <;> simp [tmeas] at h ⊢

end BaderKit
