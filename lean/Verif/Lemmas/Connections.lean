import Verif.Spec.Connections
import Verif.Lemmas.Nbr
import Mathlib.Order.Bounds.Basic
/-! # Lemmas on the connections between basins -/
namespace BaderKit
variable {K : Type} [Field K] [LinearOrder K]

theorem uniqueLabels_aux : ∀ (l : List (ℤ × K)) (acc : List ℤ), acc.Nodup →
    (l.foldl (fun acc x => if acc.contains x.1 then acc else acc ++ [x.1]) acc).Nodup ∧
    ∀ u, u ∈ l.foldl (fun acc x => if acc.contains x.1 then acc else acc ++ [x.1]) acc ↔ u ∈ acc ∨ ∃ x ∈ l, x.1 = u := by
  intro l
  induction l with
  | nil => intro acc h; exact ⟨h, by simp⟩
  | cons x l ih =>
    intro acc h
    rw [List.foldl_cons]
    by_cases hx : acc.contains x.1 = true
    · rw [if_pos hx]
      have hx' : x.1 ∈ acc := by simpa using hx
      refine ⟨(ih acc h).1, fun u => ?_⟩
      rw [(ih acc h).2 u]
      constructor
      · rintro (h1 | ⟨y, hy, rfl⟩)
        · exact Or.inl h1
        · exact Or.inr ⟨y, by simp [hy], rfl⟩
      · rintro (h1 | ⟨y, hy, rfl⟩)
        · exact Or.inl h1
        · rcases List.mem_cons.mp hy with rfl | hy
          · exact Or.inl hx'
          · exact Or.inr ⟨y, hy, rfl⟩
    · rw [if_neg hx]
      have hx' : x.1 ∉ acc := by simpa using hx
      have hnd : (acc ++ [x.1]).Nodup := by
        rw [List.nodup_append]
        refine ⟨h, by simp, ?_⟩
        intro a ha b hb e
        simp only [List.mem_singleton] at hb
        exact hx' (hb ▸ e ▸ ha)
      refine ⟨(ih _ hnd).1, fun u => ?_⟩
      rw [(ih _ hnd).2 u]
      simp only [List.mem_append, List.mem_singleton, List.mem_cons (a := _) (l := l)]
      constructor
      · rintro ((h1 | rfl) | ⟨y, hy, rfl⟩)
        · exact Or.inl h1
        · exact Or.inr ⟨x, Or.inl rfl, rfl⟩
        · exact Or.inr ⟨y, Or.inr hy, rfl⟩
      · rintro (h1 | ⟨y, rfl | hy, rfl⟩)
        · exact Or.inl (Or.inl h1)
        · exact Or.inl (Or.inr rfl)
        · exact Or.inr ⟨y, hy, rfl⟩

theorem mem_uniqueLabels {l : List (ℤ × K)} {u : ℤ} : u ∈ uniqueLabels l ↔ ∃ x ∈ l, x.1 = u := by
  unfold uniqueLabels
  rw [(uniqueLabels_aux l [] List.nodup_nil).2 u]
  simp

theorem nodup_uniqueLabels (l : List (ℤ × K)) : (uniqueLabels l).Nodup := (uniqueLabels_aux l [] List.nodup_nil).1

theorem bestVal_aux (u : ℤ) : ∀ (l : List (ℤ × K)) (b0 : K),
    let r := l.foldl (fun best x => if x.1 ≠ u then best else if best < x.2 then x.2 else best) b0
    (r = b0 ∨ ∃ x ∈ l, x.1 = u ∧ x.2 = r) ∧ b0 ≤ r ∧ ∀ x ∈ l, x.1 = u → x.2 ≤ r := by
  intro l
  induction l with
  | nil => intro b0; exact ⟨Or.inl rfl, le_refl _, by simp⟩
  | cons y l ih =>
    intro b0
    simp only [List.foldl_cons]
    have h := ih (if y.1 ≠ u then b0 else if b0 < y.2 then y.2 else b0)
    simp only at h
    obtain ⟨h1, h2, h3⟩ := h
    have hb : b0 ≤ (if y.1 ≠ u then b0 else if b0 < y.2 then y.2 else b0) := by
      split_ifs with a c
      · exact le_refl _
      · exact c.le
      · exact le_refl _
    refine ⟨?_, hb.trans h2, ?_⟩
    · rcases h1 with h1 | ⟨x, hx, hxu, e⟩
      · by_cases hyu : y.1 = u
        · by_cases hlt : b0 < y.2
          · right
            refine ⟨y, by simp, hyu, ?_⟩
            rw [h1, if_neg (by simpa using hyu), if_pos hlt]
          · left
            rw [h1, if_neg (by simpa using hyu), if_neg hlt]
        · left
          rw [h1, if_pos hyu]
      · exact Or.inr ⟨x, by simp [hx], hxu, e⟩
    · intro x hx hxu
      rcases List.mem_cons.mp hx with rfl | hx
      · refine le_trans ?_ h2
        rw [if_neg (by simpa using hxu)]
        split_ifs with c
        · exact le_refl _
        · exact not_lt.mp c
      · exact h3 x hx hxu

theorem bestVal_greatest {l : List (ℤ × K)} {u : ℤ} (hex : ∃ x ∈ l, x.1 = u) (hbig : ∀ x ∈ l, -10 ^ 300 < x.2) :
    IsGreatest {y | ∃ x ∈ l, x.1 = u ∧ x.2 = y} (bestVal l u) := by
  obtain ⟨h1, h2, h3⟩ := bestVal_aux u l (-10 ^ 300)
  change (bestVal l u = _ ∨ _) at h1
  change (∀ x ∈ l, x.1 = u → x.2 ≤ bestVal l u) at h3
  refine ⟨?_, ?_⟩
  · rcases h1 with h1 | h1
    · obtain ⟨x, hx, hxu⟩ := hex
      have := h3 x hx hxu
      rw [h1] at this
      exact absurd this (not_le.mpr (hbig x hx))
    · exact h1
  · rintro y ⟨x, hx, hxu, rfl⟩
    exact h3 x hx hxu

variable {s : Shape} {data : ℕ → K} {labels : ℕ → ℤ} {ts : List Coord} {sad edge vac : ℕ → Bool} {nb : ℕ}

theorem mem_neighVals {v : ℕ} {x : ℤ × K} : x ∈ neighVals s data labels ts v ↔
    ∃ t ∈ ts, labels (nbr s v t) ≠ labels v ∧ labels (nbr s v t) ≠ -1 ∧ x = (labels (nbr s v t), min (data v) (data (nbr s v t))) := by
  unfold neighVals
  rw [List.mem_filterMap]
  constructor
  · rintro ⟨t, ht, h⟩
    by_cases hc : labels (nbr s v t) = labels v ∨ labels (nbr s v t) = -1
    · rw [if_pos hc] at h; cases h
    · rw [if_neg hc] at h
      push Not at hc
      exact ⟨t, ht, hc.1, hc.2, by simpa using h.symm⟩
  · rintro ⟨t, ht, h1, h2, rfl⟩
    exact ⟨t, ht, by rw [if_neg (by tauto)]⟩

/-- Valid labels: -1 or a basin. -/
def LabelsOk (s : Shape) (labels : ℕ → ℤ) (nb : ℕ) : Prop := ∀ v < s.size, labels v = -1 ∨ ∃ b < nb, labels v = (b : ℕ)

theorem meet_nonempty {v b : ℕ} (hts : ∀ t ∈ ts, StepFits s t) (hv : v < s.size) (hne : labels v ≠ b) :
    (∃ x ∈ neighVals s data labels ts v, x.1 = (b : ℤ)) ↔ (MeetVals s data labels ts v b).Nonempty := by
  constructor
  · rintro ⟨x, hx, hxb⟩
    obtain ⟨t, ht, h1, h2, rfl⟩ := mem_neighVals.mp hx
    exact ⟨_, nbr s v t, (isNbr_iff hts hv).mpr ⟨t, ht, rfl⟩, hxb, rfl⟩
  · rintro ⟨x, w, hw, hwb, rfl⟩
    obtain ⟨t, ht, rfl⟩ := (isNbr_iff hts hv).mp hw
    refine ⟨(labels (nbr s v t), min (data v) (data (nbr s v t))), mem_neighVals.mpr ⟨t, ht, ?_, ?_, rfl⟩, hwb⟩
    · rw [hwb]; exact fun e => hne e.symm
    · rw [hwb]; omega

theorem meet_eq {v b : ℕ} (hts : ∀ t ∈ ts, StepFits s t) (hv : v < s.size) (hne : labels v ≠ b) :
    {y | ∃ x ∈ neighVals s data labels ts v, x.1 = (b : ℤ) ∧ x.2 = y} = MeetVals s data labels ts v b := by
  ext y
  constructor
  · rintro ⟨x, hx, hxb, rfl⟩
    obtain ⟨t, ht, h1, h2, rfl⟩ := mem_neighVals.mp hx
    exact ⟨nbr s v t, (isNbr_iff hts hv).mpr ⟨t, ht, rfl⟩, hxb, rfl⟩
  · rintro ⟨w, hw, hwb, rfl⟩
    obtain ⟨t, ht, rfl⟩ := (isNbr_iff hts hv).mp hw
    refine ⟨(labels (nbr s v t), min (data v) (data (nbr s v t))), mem_neighVals.mpr ⟨t, ht, ?_, ?_, rfl⟩, hwb, rfl⟩
    · rw [hwb]; exact fun e => hne e.symm
    · rw [hwb]; omega

/-- The connections added at a voxel. -/
theorem voxelConns_iff {v : ℕ} (hts : ∀ t ∈ ts, StepFits s t) (hv : v < s.size) (hlab : LabelsOk s labels nb)
    (hbig : ∀ w < s.size, -10 ^ 300 < data w) {c : Conn K} :
    c ∈ voxelConns s data labels ts sad vac v ↔ sad v = true ∧ vac v = false ∧ ∃ a b : ℕ, labels v = a ∧ a ≠ b ∧ ConnOf c a b ∧
      IsGreatest (MeetVals s data labels ts v b) c.val := by
  unfold voxelConns
  by_cases h1 : (!(sad v) || vac v) = true
  · rw [if_pos h1]
    simp only [List.not_mem_nil, false_iff]
    rintro ⟨h2, h3, _⟩
    rw [h2, h3] at h1
    cases h1
  rw [if_neg h1]
  have hs : sad v = true ∧ vac v = false := by
    cases h2 : sad v <;> cases h3 : vac v <;> simp_all
  by_cases h4 : labels v = -1
  · rw [if_pos h4]
    simp only [List.not_mem_nil, false_iff]
    rintro ⟨_, _, a, b, e, _⟩
    omega
  rw [if_neg h4]
  obtain ⟨a, ha, hla⟩ : ∃ a < nb, labels v = (a : ℕ) := (hlab v hv).resolve_left h4
  have hbig' : ∀ x ∈ neighVals s data labels ts v, -10 ^ 300 < x.2 := by
    intro x hx
    obtain ⟨t, ht, _, _, rfl⟩ := mem_neighVals.mp hx
    exact lt_min (hbig v hv) (hbig _ (nbr_lt hv (hts t ht)))
  simp only [List.mem_map, mem_uniqueLabels, hs, true_and]
  have hmm : ∀ x y : ℕ, (min (x : ℤ) y).toNat = min x y ∧ (max (x : ℤ) y).toNat = max x y := by
    intro x y; constructor <;> omega
  constructor
  · rintro ⟨u, ⟨x, hx, rfl⟩, rfl⟩
    obtain ⟨t, ht, h5, h6, hx'⟩ := mem_neighVals.mp hx
    obtain ⟨b, hb, hlb⟩ : ∃ b < nb, labels (nbr s v t) = (b : ℕ) := (hlab _ (nbr_lt hv (hts t ht))).resolve_left h6
    have hx1 : x.1 = (b : ℤ) := by rw [hx', ← hlb]
    refine ⟨a, b, hla, fun e => h5 (by rw [hlb, hla, e]), ?_, ?_⟩
    · rw [hx1, hla]
      exact ⟨by rw [(hmm b a).1, min_comm], by rw [(hmm b a).2, max_comm]⟩
    · rw [hx1, ← meet_eq hts hv (fun e => h5 (by rw [hlb, e]))]
      exact bestVal_greatest ⟨x, hx, hx1⟩ hbig'
  · rintro ⟨a', b, e, hab, hc, hg⟩
    obtain rfl : a' = a := by exact_mod_cast e.symm.trans hla
    have hne : labels v ≠ (b : ℤ) := by rw [hla]; exact_mod_cast hab
    have hex := (meet_nonempty (data := data) hts hv hne).mpr ⟨_, hg.1⟩
    refine ⟨b, hex, ?_⟩
    have hg' := bestVal_greatest hex hbig'
    rw [meet_eq hts hv hne] at hg'
    obtain ⟨ci, cj, cv⟩ := c
    simp only [ConnOf] at hc
    rw [hla, (hmm b a').1, (hmm b a').2, hg'.unique hg, min_comm, max_comm, hc.1, hc.2]

theorem firstConns_iff (hts : ∀ t ∈ ts, StepFits s t) (hlab : LabelsOk s labels nb) (hbig : ∀ w < s.size, -10 ^ 300 < data w) {c : Conn K} :
    c ∈ firstConns s data labels ts sad vac ↔ ∃ v < s.size, sad v = true ∧ vac v = false ∧ ∃ a b : ℕ, labels v = a ∧ a ≠ b ∧ ConnOf c a b ∧
      IsGreatest (MeetVals s data labels ts v b) c.val := by
  unfold firstConns
  rw [List.mem_flatMap]
  constructor
  · rintro ⟨v, hv, h⟩
    rw [List.mem_range] at hv
    exact ⟨v, hv, (voxelConns_iff hts hv hlab hbig).mp h⟩
  · rintro ⟨v, hv, h⟩
    exact ⟨v, List.mem_range.mpr hv, (voxelConns_iff hts hv hlab hbig).mpr h⟩

/-! ### The missing basins -/

/-- The table holds for each pair the highest of the values seen, or zero if none of them is positive. -/
def TableOk (P : ℕ → ℕ → Set K) (m : ℕ → ℕ → K) : Prop :=
  ∀ a b, 0 ≤ m a b ∧ (m a b = 0 ∨ m a b ∈ P a b) ∧ ∀ x ∈ P a b, x ≤ m a b

/-- The values seen at the neighbours `ts` of a voxel. -/
def SeenAt (s : Shape) (data : ℕ → K) (labels : ℕ → ℤ) (v : ℕ) (ts : List Coord) (a b : ℕ) : Set K :=
  {x | a ≠ b ∧ labels v = a ∧ ∃ t ∈ ts, labels (nbr s v t) = b ∧ x = min (data v) (data (nbr s v t))}

theorem missNbr_ok {P : ℕ → ℕ → Set K} {m : ℕ → ℕ → K} {v : ℕ} (hv : v < s.size) (hv1 : labels v ≠ -1) (hlab : LabelsOk s labels nb) {t : Coord}
    (ht : StepFits s t) (h : TableOk P m) : TableOk (fun a b => P a b ∪ SeenAt s data labels v [t] a b) (missNbr s data labels v m t) := by
  obtain ⟨a0, _, ha0⟩ := (hlab v hv).resolve_left hv1
  unfold missNbr
  simp only
  by_cases h1 : labels (nbr s v t) = labels v ∨ labels (nbr s v t) = -1
  · rw [if_pos h1]
    intro a b
    refine ⟨(h a b).1, (h a b).2.1.imp_right fun h => Or.inl h, ?_⟩
    rintro x (hx | ⟨hab, e1, t', ht', e2, rfl⟩)
    · exact (h a b).2.2 x hx
    · simp only [List.mem_singleton] at ht'
      subst ht'
      rcases h1 with h1 | h1
      · rw [e2, e1] at h1
        exact absurd (by exact_mod_cast h1.symm) hab
      · omega
  rw [if_neg h1]
  push Not at h1
  obtain ⟨b0, _, hb0⟩ := (hlab _ (nbr_lt hv ht)).resolve_left h1.2
  have hab0 : a0 ≠ b0 := fun e => h1.1 (by rw [ha0, hb0, e])
  have ta : (labels v).toNat = a0 := by rw [ha0]; rfl
  have tb : (labels (nbr s v t)).toNat = b0 := by rw [hb0]; rfl
  rw [ta, tb, min_comm]
  have hseen : ∀ a b x, x ∈ SeenAt s data labels v [t] a b ↔ a = a0 ∧ b = b0 ∧ x = min (data v) (data (nbr s v t)) := by
    intro a b x
    constructor
    · rintro ⟨_, e1, t', ht', e2, rfl⟩
      simp only [List.mem_singleton] at ht'
      subst ht'
      exact ⟨by exact_mod_cast e1.symm.trans ha0, by exact_mod_cast e2.symm.trans hb0, rfl⟩
    · rintro ⟨rfl, rfl, rfl⟩
      exact ⟨hab0, ha0, t, by simp, hb0, rfl⟩
  by_cases h2 : m a0 b0 < min (data v) (data (nbr s v t))
  · rw [if_pos h2]
    intro a b
    by_cases hab : a = a0 ∧ b = b0
    · obtain ⟨rfl, rfl⟩ := hab
      simp only [Function.update_self]
      refine ⟨(h a b).1.trans h2.le, Or.inr (Or.inr ((hseen _ _ _).mpr ⟨rfl, rfl, rfl⟩)), ?_⟩
      rintro x (hx | hx)
      · exact ((h a b).2.2 x hx).trans h2.le
      · exact ((hseen _ _ _).mp hx).2.2.le
    · have e : Function.update m a0 (Function.update (m a0) b0 (min (data v) (data (nbr s v t)))) a b = m a b := by
        by_cases ha : a = a0
        · subst ha
          rw [Function.update_self, Function.update_of_ne (fun e => hab ⟨rfl, e⟩)]
        · rw [Function.update_of_ne ha]
      rw [e]
      refine ⟨(h a b).1, (h a b).2.1.imp_right fun h => Or.inl h, ?_⟩
      rintro x (hx | hx)
      · exact (h a b).2.2 x hx
      · exact absurd ⟨((hseen _ _ _).mp hx).1, ((hseen _ _ _).mp hx).2.1⟩ hab
  · rw [if_neg h2]
    intro a b
    refine ⟨(h a b).1, (h a b).2.1.imp_right fun h => Or.inl h, ?_⟩
    rintro x (hx | hx)
    · exact (h a b).2.2 x hx
    · obtain ⟨rfl, rfl, rfl⟩ := (hseen _ _ _).mp hx
      exact not_lt.mp h2

theorem TableOk.congr {P Q : ℕ → ℕ → Set K} {m : ℕ → ℕ → K} (h : TableOk P m) (e : ∀ a b, P a b = Q a b) : TableOk Q m := by
  have : P = Q := funext fun a => funext fun b => e a b
  rwa [← this]

theorem missNbr_fold {v : ℕ} (hv : v < s.size) (hv1 : labels v ≠ -1) (hlab : LabelsOk s labels nb) : ∀ (ts : List Coord) (P : ℕ → ℕ → Set K)
    (m : ℕ → ℕ → K), (∀ t ∈ ts, StepFits s t) → TableOk P m →
    TableOk (fun a b => P a b ∪ SeenAt s data labels v ts a b) (ts.foldl (missNbr s data labels v) m) := by
  intro ts
  induction ts with
  | nil =>
    intro P m _ h
    refine h.congr fun a b => ?_
    ext x
    simp [SeenAt]
  | cons t ts ih =>
    intro P m hts h
    rw [List.foldl_cons]
    refine (ih _ _ (fun t' ht' => hts t' (by simp [ht'])) (missNbr_ok hv hv1 hlab (hts t (by simp)) h)).congr fun a b => ?_
    ext x
    simp only [Set.mem_union, SeenAt, Set.mem_setOf_eq, List.mem_cons, List.not_mem_nil, or_false, exists_eq_left]
    constructor
    · rintro ((h | ⟨h1, h2, h3, h4⟩) | ⟨h1, h2, t', ht', h3⟩)
      · exact Or.inl h
      · exact Or.inr ⟨h1, h2, t, Or.inl rfl, h3, h4⟩
      · exact Or.inr ⟨h1, h2, t', Or.inr ht', h3⟩
    · rintro (h | ⟨h1, h2, t', rfl | ht', h3⟩)
      · exact Or.inl (Or.inl h)
      · exact Or.inl (Or.inr ⟨h1, h2, h3⟩)
      · exact Or.inr ⟨h1, h2, t', ht', h3⟩

/-- The values seen by the second loop over the voxels of a list. -/
def SeenIn (s : Shape) (data : ℕ → K) (labels : ℕ → ℤ) (ts : List Coord) (edge vac : ℕ → Bool) (found : ℕ → Bool) (vs : List ℕ) (a b : ℕ) : Set K :=
  {x | found a = false ∧ ∃ v ∈ vs, edge v = true ∧ vac v = false ∧ x ∈ SeenAt s data labels v ts a b}

theorem missVoxel_ok (hts : ∀ t ∈ ts, StepFits s t) (hlab : LabelsOk s labels nb) {found : ℕ → Bool} {P : ℕ → ℕ → Set K} {m : ℕ → ℕ → K} {v : ℕ}
    (hv : v < s.size) (h : TableOk P m) :
    TableOk (fun a b => P a b ∪ SeenIn s data labels ts edge vac found [v] a b) (missVoxel s data labels ts edge vac found m v) := by
  have hkeep : (∀ a b, SeenIn s data labels ts edge vac found [v] a b = ∅) →
      TableOk (fun a b => P a b ∪ SeenIn s data labels ts edge vac found [v] a b) m := fun he =>
    h.congr fun a b => by rw [he a b, Set.union_empty]
  unfold missVoxel
  by_cases h1 : (!(edge v) || vac v) = true
  · rw [if_pos h1]
    refine hkeep fun a b => ?_
    ext x
    simp only [SeenIn, List.mem_singleton, exists_eq_left, Set.mem_setOf_eq, Set.mem_empty_iff_false, iff_false]
    rintro ⟨_, h2, h3, _⟩
    rw [h2, h3] at h1
    cases h1
  rw [if_neg h1]
  have hs : edge v = true ∧ vac v = false := by
    cases h2 : edge v <;> cases h3 : vac v <;> simp_all
  by_cases h4 : labels v = -1
  · rw [if_pos h4]
    refine hkeep fun a b => ?_
    ext x
    simp only [SeenIn, SeenAt, List.mem_singleton, exists_eq_left, Set.mem_setOf_eq, Set.mem_empty_iff_false, iff_false]
    rintro ⟨_, _, _, _, e, _⟩
    omega
  rw [if_neg h4]
  obtain ⟨a0, _, ha0⟩ := (hlab v hv).resolve_left h4
  have ta : (labels v).toNat = a0 := by rw [ha0]; rfl
  rw [ta]
  by_cases h5 : found a0 = true
  · rw [if_pos h5]
    refine hkeep fun a b => ?_
    ext x
    simp only [SeenIn, SeenAt, List.mem_singleton, exists_eq_left, Set.mem_setOf_eq, Set.mem_empty_iff_false, iff_false]
    rintro ⟨hf, _, _, _, e, _⟩
    obtain rfl : a = a0 := by exact_mod_cast e.symm.trans ha0
    rw [h5] at hf
    cases hf
  · rw [if_neg h5]
    refine (missNbr_fold hv h4 hlab ts P m hts h).congr fun a b => ?_
    ext x
    simp only [Set.mem_union, SeenIn, List.mem_singleton, exists_eq_left, Set.mem_setOf_eq]
    refine or_congr_right ⟨fun hx => ⟨?_, hs.1, hs.2, hx⟩, fun hx => hx.2.2.2⟩
    obtain rfl : a = a0 := by exact_mod_cast hx.2.1.symm.trans ha0
    simpa using h5

theorem missVoxel_fold (hts : ∀ t ∈ ts, StepFits s t) (hlab : LabelsOk s labels nb) {found : ℕ → Bool} : ∀ (vs : List ℕ) (P : ℕ → ℕ → Set K)
    (m : ℕ → ℕ → K), (∀ v ∈ vs, v < s.size) → TableOk P m →
    TableOk (fun a b => P a b ∪ SeenIn s data labels ts edge vac found vs a b) (vs.foldl (missVoxel s data labels ts edge vac found) m) := by
  intro vs
  induction vs with
  | nil =>
    intro P m _ h
    refine h.congr fun a b => ?_
    ext x
    simp [SeenIn]
  | cons v vs ih =>
    intro P m hvs h
    rw [List.foldl_cons]
    refine (ih _ _ (fun v' hv' => hvs v' (by simp [hv'])) (missVoxel_ok hts hlab (hvs v (by simp)) h)).congr fun a b => ?_
    ext x
    simp only [Set.mem_union, SeenIn, Set.mem_setOf_eq, List.mem_cons, List.not_mem_nil, or_false, exists_eq_left]
    constructor
    · rintro ((h | ⟨h1, h2⟩) | ⟨h1, v', hv', h2⟩)
      · exact Or.inl h
      · exact Or.inr ⟨h1, v, Or.inl rfl, h2⟩
      · exact Or.inr ⟨h1, v', Or.inr hv', h2⟩
    · rintro (h | ⟨h1, v', rfl | hv', h2⟩)
      · exact Or.inl (Or.inl h)
      · exact Or.inl (Or.inr ⟨h1, h2⟩)
      · exact Or.inr ⟨h1, v', hv', h2⟩

/-- The table of a missing basin: the highest value at which the basins meet, or zero if there is no positive one. -/
theorem missTable_ok (hts : ∀ t ∈ ts, StepFits s t) (hlab : LabelsOk s labels nb) {found : ℕ → Bool} {a b : ℕ} (hab : a ≠ b) (hf : found a = false) :
    let x := missTable s data labels ts edge vac found a b
    0 ≤ x ∧ (x = 0 ∨ x ∈ EdgeVals s data labels ts edge vac a b) ∧ ∀ y ∈ EdgeVals s data labels ts edge vac a b, y ≤ x := by
  have h0 : TableOk (fun _ _ => (∅ : Set K)) fun _ _ => (0 : K) := fun a b => ⟨le_refl _, Or.inl rfl, by simp⟩
  have h := missVoxel_fold (data := data) (edge := edge) (vac := vac) hts hlab (found := found) (List.range s.size) _ _
    (fun v hv => List.mem_range.mp hv) h0 a b
  have e : ((∅ : Set K) ∪ SeenIn s data labels ts edge vac found (List.range s.size) a b) = EdgeVals s data labels ts edge vac a b := by
    rw [Set.empty_union]
    ext x
    constructor
    · rintro ⟨_, v, hv, h1, h2, _, h3, t, ht, h4, rfl⟩
      rw [List.mem_range] at hv
      exact ⟨v, hv, h1, h2, h3, nbr s v t, (isNbr_iff hts hv).mpr ⟨t, ht, rfl⟩, h4, rfl⟩
    · rintro ⟨v, hv, h1, h2, h3, w, hw, h4, rfl⟩
      obtain ⟨t, ht, rfl⟩ := (isNbr_iff hts hv).mp hw
      exact ⟨hf, v, List.mem_range.mpr hv, h1, h2, hab, h3, t, ht, h4, rfl⟩
  simp only [e] at h
  exact h

theorem missTable_diag (hts : ∀ t ∈ ts, StepFits s t) (hlab : LabelsOk s labels nb) {found : ℕ → Bool} (a : ℕ) :
    missTable s data labels ts edge vac found a a = 0 := by
  have h0 : TableOk (fun _ _ => (∅ : Set K)) fun _ _ => (0 : K) := fun a b => ⟨le_refl _, Or.inl rfl, by simp⟩
  have h := missVoxel_fold (data := data) (edge := edge) (vac := vac) hts hlab (found := found) (List.range s.size) _ _
    (fun v hv => List.mem_range.mp hv) h0 a a
  rcases h.2.1 with h | h | ⟨_, v, _, _, _, h, _⟩
  · exact h
  · exact absurd h (Set.notMem_empty _)
  · exact absurd rfl h

theorem missConns_iff (hts : ∀ t ∈ ts, StepFits s t) (hlab : LabelsOk s labels nb) {found : ℕ → Bool} {c : Conn K} :
    c ∈ missConns s data labels ts edge vac nb found ↔ ∃ a b : ℕ, a < nb ∧ b < nb ∧ a ≠ b ∧ found a = false ∧ ConnOf c a b ∧ 0 < c.val ∧
      IsGreatest (EdgeVals s data labels ts edge vac a b) c.val := by
  unfold missConns
  simp only [List.mem_flatMap, List.mem_filter, List.mem_range, Bool.not_eq_true', List.mem_filterMap]
  constructor
  · rintro ⟨a, ⟨ha, hf⟩, b, hb, h⟩
    by_cases h0 : missTable s data labels ts edge vac found a b = 0
    · rw [if_pos h0] at h; cases h
    · rw [if_neg h0] at h
      have hab : a ≠ b := fun e => h0 (e ▸ missTable_diag hts hlab a)
      obtain ⟨h1, h2, h3⟩ := missTable_ok (data := data) (edge := edge) (vac := vac) hts hlab hab hf
      obtain rfl : _ = c := by simpa using h
      exact ⟨a, b, ha, hb, hab, hf, ⟨min_comm _ _, max_comm _ _⟩, lt_of_le_of_ne h1 (Ne.symm h0), h2.resolve_left h0, h3⟩
  · rintro ⟨a, b, ha, hb, hab, hf, hc, hpos, hg⟩
    obtain ⟨h1, h2, h3⟩ := missTable_ok (data := data) (edge := edge) (vac := vac) hts hlab hab hf
    have e : missTable s data labels ts edge vac found a b = c.val := by
      apply le_antisymm
      · rcases h2 with h2 | h2
        · rw [h2]; exact hpos.le
        · exact hg.2 h2
      · exact h3 _ hg.1
    refine ⟨a, ⟨ha, hf⟩, b, hb, ?_⟩
    rw [e, if_neg hpos.ne']
    obtain ⟨ci, cj, cv⟩ := c
    simp only [ConnOf] at hc
    rw [hc.1, hc.2, min_comm, max_comm]

theorem foundMask_iff {l : List (Conn K)} {b : ℕ} : foundMask l b = true ↔ ∃ c ∈ l, c.i = b ∨ c.j = b := by
  unfold foundMask
  simp [List.any_eq_true]

end BaderKit
