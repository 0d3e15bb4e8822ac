import Verif.Model.ElfCharges
import Verif.Props.Assign
import Mathlib.Data.Rat.Floor
/-!
# C43: the labels of ELF features
-/
namespace BaderKit
variable {K : Type} [Field K] [LinearOrder K]

/-- Basins of the `i`-th feature. -/
def basinsOf (fs : List (ElfFeature K)) (i : ℕ) : List ℕ := (fs[i]?.elim [] ElfFeature.basins)

theorem relabel_fold (fs : List (ElfFeature K)) (b : ℕ) : ∀ (order : List ℕ) (s : ℕ) (ba : ℕ → ℤ),
    let r := (order.foldl (fun (st : ℕ × (ℕ → ℤ)) i =>
      (st.1 + 1, fun b => if b ∈ (fs[i]?.elim [] (fun f => f.basins)) then (st.1 : ℤ) else st.2 b)) (s, ba)).2
    ((∀ i ∈ order, b ∉ basinsOf fs i) → r b = ba b) ∧
    (∀ (j : ℕ) (hj : j < order.length), b ∈ basinsOf fs order[j] → (∀ (k : ℕ) (hk : k < order.length), j < k → b ∉ basinsOf fs order[k]) →
      r b = ((s + j : ℕ) : ℤ)) := by
  have hB : ∀ i, (fs[i]?.elim [] (fun f => f.basins)) = basinsOf fs i := by
    intro i; unfold basinsOf; cases fs[i]? <;> rfl
  simp only [hB]
  intro order
  induction order with
  | nil => intro s ba; exact ⟨fun _ => rfl, fun j hj => by simp at hj⟩
  | cons i order ih =>
    intro s ba
    simp only [List.foldl_cons]
    obtain ⟨h1, h2⟩ := ih (s + 1) (fun b => if b ∈ basinsOf fs i then (s : ℤ) else ba b)
    constructor
    · intro h
      rw [h1 (fun k hk => h k (by simp [hk]))]
      simp [h i (by simp)]
    · intro j hj hb hlast
      cases j with
      | zero =>
        rw [h1 ?_]
        · simp only [List.getElem_cons_zero] at hb
          simp [hb]
        · intro k hk
          obtain ⟨p, hp, rfl⟩ := List.getElem_of_mem hk
          exact hlast (p + 1) (by simpa using hp) (by omega)
      | succ j =>
        have hj' : j < order.length := by simpa using hj
        rw [h2 j hj' (by simpa using hb) (fun k hk hlt => by
          have := hlast (k + 1) (by simpa using hk) (by omega)
          simpa using this)]
        push_cast; ring

/-- The last requested feature containing a basin decides; other basins keep their atom. -/
theorem relabelBasins_spec (atoms : ℕ) (fs : List (ElfFeature K)) (order : List ℕ) (ba : ℕ → ℤ) (b : ℕ) :
    ((∀ i ∈ order, b ∉ basinsOf fs i) → relabelBasins atoms fs order ba b = ba b) ∧
    (∀ (j : ℕ) (hj : j < order.length), b ∈ basinsOf fs order[j] → (∀ (k : ℕ) (hk : k < order.length), j < k → b ∉ basinsOf fs order[k]) →
      relabelBasins atoms fs order ba b = ((atoms + j : ℕ) : ℤ)) := relabel_fold fs b order atoms ba

/-- **C43.** The requested features are listed each once.  Ordered by type, bare electrons precede all others; within the groups, and
without that ordering, they keep their order. -/
theorem C43_order (included : String → Bool) (byType : Bool) (fs : List (ElfFeature K)) :
    (featureOrder included byType fs).Nodup ∧
    (∀ i, i ∈ featureOrder included byType fs ↔ ∃ f, fs[i]? = some f ∧ included f.kind = true) ∧
    (byType = true → (featureOrder included byType fs).Pairwise (fun a b =>
      ∀ fa fb, fs[a]? = some fa → fs[b]? = some fb → (fa.bare = true ∧ fb.bare = false) ∨ (fa.bare = fb.bare ∧ a < b))) ∧
    (byType = false → (featureOrder included byType fs).Pairwise (· < ·)) := by
  unfold featureOrder
  simp only
  set idx := (List.range fs.length).filter (fun i => fs[i]?.elim false (fun f => included f.kind)) with hidx
  have hmem : ∀ i, i ∈ idx ↔ ∃ f, fs[i]? = some f ∧ included f.kind = true := by
    intro i
    rw [hidx, List.mem_filter, List.mem_range]
    constructor
    · rintro ⟨h, h2⟩
      rw [List.getElem?_eq_getElem h] at h2 ⊢
      exact ⟨_, rfl, h2⟩
    · rintro ⟨f, hf, h2⟩
      rw [hf]
      refine ⟨?_, h2⟩
      by_contra h
      rw [List.getElem?_eq_none (by omega)] at hf; cases hf
  have hlt : idx.Pairwise (· < ·) := List.pairwise_lt_range.filter _
  have hnd : idx.Nodup := hlt.imp (fun h => Nat.ne_of_lt h)
  clear_value idx
  cases byType with
  | false =>
    simp only [Bool.false_eq_true, if_false]
    exact ⟨hnd, hmem, fun h => absurd h (by simp), fun _ => hlt⟩
  | true =>
    simp only [if_true]
    refine ⟨?_, ?_, ?_, fun h => absurd h (by simp)⟩
    · rw [List.nodup_append]
      refine ⟨hnd.filter _, hnd.filter _, ?_⟩
      rintro a ha b hb rfl
      have h1 := (List.mem_filter.mp ha).2
      have h2 := (List.mem_filter.mp hb).2
      cases hf : fs[a]? with
      | none => rw [hf] at h1; cases h1
      | some f =>
        rw [hf] at h1 h2
        simp only [Option.elim_some] at h1 h2
        rw [h1] at h2; cases h2
    · intro i
      rw [List.mem_append, List.mem_filter, List.mem_filter, hmem]
      constructor
      · rintro (⟨h, -⟩ | ⟨h, -⟩) <;> exact h
      · rintro ⟨f, hf, h⟩
        rw [hf]
        cases hb : f.bare
        · exact .inr ⟨⟨f, rfl, h⟩, by simp [hb]⟩
        · exact .inl ⟨⟨f, rfl, h⟩, by simp [hb]⟩
    · intro _
      rw [List.pairwise_append]
      refine ⟨?_, ?_, ?_⟩
      · refine (hlt.filter _).imp_of_mem ?_
        intro a b ha hb hab fa fb hfa hfb
        have h1 := (List.mem_filter.mp ha).2
        have h2 := (List.mem_filter.mp hb).2
        rw [hfa] at h1; rw [hfb] at h2
        exact .inr ⟨by simp only [Option.elim_some] at h1 h2; rw [h1, h2], hab⟩
      · refine (hlt.filter _).imp_of_mem ?_
        intro a b ha hb hab fa fb hfa hfb
        have h1 := (List.mem_filter.mp ha).2
        have h2 := (List.mem_filter.mp hb).2
        rw [hfa] at h1; rw [hfb] at h2
        refine .inr ⟨?_, hab⟩
        simp only [Option.elim_some, Bool.not_eq_true'] at h1 h2
        rw [h1, h2]
      · intro a ha b hb fa fb hfa hfb
        have h1 := (List.mem_filter.mp ha).2
        have h2 := (List.mem_filter.mp hb).2
        rw [hfa] at h1; rw [hfb] at h2
        simp only [Option.elim_some, Bool.not_eq_true'] at h1 h2
        exact .inl ⟨h1, h2⟩

/-- Different requested features have no common basin (as the irreducible nodes of a bifurcation graph, C44). -/
def DisjointFeatures (fs : List (ElfFeature K)) (order : List ℕ) : Prop :=
  ∀ i ∈ order, ∀ j ∈ order, i ≠ j → ∀ b ∈ basinsOf fs i, b ∉ basinsOf fs j

theorem relabel_iff {atoms : ℕ} {fs : List (ElfFeature K)} {order : List ℕ} (hnd : order.Nodup) (hdis : DisjointFeatures fs order)
    {ba : ℕ → ℤ} {b : ℕ} (hba : 0 ≤ ba b ∧ ba b < atoms) :
    (∀ (j : ℕ) (hj : j < order.length), relabelBasins atoms fs order ba b = ((atoms + j : ℕ) : ℤ) ↔ b ∈ basinsOf fs order[j]) ∧
    ((∀ i ∈ order, b ∉ basinsOf fs i) → relabelBasins atoms fs order ba b = ba b) ∧
    0 ≤ relabelBasins atoms fs order ba b ∧ relabelBasins atoms fs order ba b < atoms + order.length := by
  obtain ⟨h1, h2⟩ := relabelBasins_spec atoms fs order ba b
  have huniq : ∀ (j : ℕ) (hj : j < order.length), b ∈ basinsOf fs order[j] → relabelBasins atoms fs order ba b = ((atoms + j : ℕ) : ℤ) := by
    intro j hj hb
    refine h2 j hj hb (fun k hk hlt => ?_)
    refine hdis _ (List.getElem_mem hj) _ (List.getElem_mem hk) ?_ b hb
    intro h
    have := (hnd.getElem_inj_iff (hi := hj) (hj := hk)).mp h
    omega
  by_cases hex : ∃ i ∈ order, b ∈ basinsOf fs i
  · obtain ⟨i, hi, hb⟩ := hex
    obtain ⟨p, hp, rfl⟩ := List.getElem_of_mem hi
    have hp' := huniq p hp hb
    refine ⟨fun j hj => ⟨fun h => ?_, huniq j hj⟩, fun h => absurd hb (h _ hi), by rw [hp']; omega, by rw [hp']; push_cast; omega⟩
    rw [hp'] at h
    have : p = j := by omega
    subst this
    exact hb
  · push Not at hex
    have h3 := h1 hex
    refine ⟨fun j hj => ⟨fun h => ?_, huniq j hj⟩, fun _ => h3, by rw [h3]; exact hba.1, by rw [h3]; omega⟩
    rw [h3] at h
    omega

/-- **C43.** In the label grid a voxel carries the index of the site appended for the `j`-th requested feature exactly if its basin belongs
to that feature; voxels of other basins keep the atom of the basin; vacuum stays -1. -/
theorem C43_labels {atoms nb : ℕ} {fs : List (ElfFeature K)} {order : List ℕ} (hnd : order.Nodup) (hdis : DisjointFeatures fs order)
    {ba : ℕ → ℤ} (hba : ∀ b < nb, 0 ≤ ba b ∧ ba b < atoms) {labels : ℕ → ℤ} (v : ℕ) (hl : labels v = -1 ∨ (0 ≤ labels v ∧ labels v < nb)) :
    (labels v = -1 → featureLabels atoms nb fs order ba labels v = -1) ∧
    (∀ b : ℕ, labels v = b →
      (∀ (j : ℕ) (hj : j < order.length), featureLabels atoms nb fs order ba labels v = ((atoms + j : ℕ) : ℤ) ↔ b ∈ basinsOf fs order[j]) ∧
      ((∀ i ∈ order, b ∉ basinsOf fs i) → featureLabels atoms nb fs order ba labels v = ba b)) := by
  unfold featureLabels
  constructor
  · intro h
    have : pyIdx (nb + 1) (labels v) = nb := by unfold pyIdx; rw [h]; simp
    simp only [this, if_true]
  · intro b hb
    have hbn : b < nb := by
      rcases hl with h | h
      · rw [hb] at h; omega
      · rw [hb] at h; omega
    have : pyIdx (nb + 1) (labels v) = b := by unfold pyIdx; rw [hb, if_neg (by omega)]; simp
    simp only [this, if_neg (Nat.ne_of_lt hbn)]
    obtain ⟨h1, h2, -⟩ := relabel_iff hnd hdis (hba b hbn)
    exact ⟨h1, h2⟩

/-- **C43.** The returned charges (volumes) of the sites: an appended site has the sum over the basins of its feature, an atom the sum over
its basins that belong to no requested feature, and all together are the total of the basins. -/
theorem C43_charges [IsStrictOrderedRing K] {atoms nb : ℕ} {fs : List (ElfFeature K)} {order : List ℕ} (hnd : order.Nodup) (hdis : DisjointFeatures fs order)
    {ba : ℕ → ℤ} (hba : ∀ b < nb, 0 ≤ ba b ∧ ba b < atoms) (w : ℕ → K) :
    (∀ (j : ℕ) (hj : j < order.length), featureCharges atoms nb fs order ba w (atoms + j) =
      ∑ b ∈ (Finset.range nb).filter (fun b => b ∈ basinsOf fs order[j]), w b) ∧
    (∀ a < atoms, featureCharges atoms nb fs order ba w a =
      ∑ b ∈ (Finset.range nb).filter (fun b => (∀ i ∈ order, b ∉ basinsOf fs i) ∧ ba b = a), w b) ∧
    ∑ i ∈ Finset.range (atoms + order.length), featureCharges atoms nb fs order ba w i = ∑ b ∈ Finset.range nb, w b := by
  unfold featureCharges
  set xs := (List.range nb).map fun b => (relabelBasins atoms fs order ba b).toNat with hxs
  set ws := (List.range nb).map w with hws
  have hlen : xs.length = ws.length := by simp [hxs, hws]
  have hwl : ws.length = nb := by simp [hws]
  have hxd : ∀ i ∈ Finset.range nb, xs.getD i 0 = (relabelBasins atoms fs order ba i).toNat := by
    intro i hi
    rw [List.getD_eq_getElem _ _ (by simpa [hxs] using Finset.mem_range.mp hi)]; simp [hxs]
  have hwd : ∀ i ∈ Finset.range nb, ws.getD i 0 = w i := by
    intro i hi
    rw [List.getD_eq_getElem _ _ (by simpa [hws] using Finset.mem_range.mp hi)]; simp [hws]
  have hbin : ∀ (a : ℕ) (P : ℕ → Prop) [DecidablePred P], (∀ b < nb, (relabelBasins atoms fs order ba b).toNat = a ↔ P b) →
      bincount xs ws a = ∑ b ∈ (Finset.range nb).filter P, w b := by
    intro a P _ hP
    rw [bincount_sum hlen, hwl]
    have : (Finset.range nb).filter (fun i => xs.getD i 0 = a) = (Finset.range nb).filter P := by
      apply Finset.filter_congr
      intro b hb
      rw [hxd b hb]
      exact hP b (Finset.mem_range.mp hb)
    rw [this]
    exact Finset.sum_congr rfl (fun b hb => hwd b (Finset.mem_of_mem_filter b hb))
  refine ⟨?_, ?_, ?_⟩
  · intro j hj
    refine hbin _ _ (fun b hb => ?_)
    obtain ⟨h1, -, h3, -⟩ := relabel_iff hnd hdis (hba b hb)
    rw [← h1 j hj]
    omega
  · intro a ha
    refine hbin _ _ (fun b hb => ?_)
    obtain ⟨h1, h2, h3, -⟩ := relabel_iff hnd hdis (hba b hb)
    constructor
    · intro h
      have hno : ∀ i ∈ order, b ∉ basinsOf fs i := by
        intro i hi hbi
        obtain ⟨p, hp, rfl⟩ := List.getElem_of_mem hi
        have := (h1 p hp).mpr hbi
        omega
      refine ⟨hno, ?_⟩
      rw [← h2 hno]; omega
    · rintro ⟨hno, h⟩
      rw [h2 hno, h]; simp
  · rw [bincount_total hlen (n := atoms + order.length) ?_]
    · rw [list_sum_range, hwl]
      exact Finset.sum_congr rfl hwd
    · intro x hx
      obtain ⟨b, hb, rfl⟩ := List.mem_map.mp hx
      obtain ⟨-, -, h3, h4⟩ := relabel_iff hnd hdis (hba b (List.mem_range.mp hb))
      omega

/-- Features of the example: a bond, an electride, a core. -/
def exFeatures : List (ElfFeature ℚ) :=
  [⟨1, 1, false, [], [], [], [], [2], "covalent"⟩, ⟨1, 1, true, [], [], [], [], [3, 1], "electride"⟩, ⟨1, 1, false, [], [], [], [], [0], "core"⟩]

/-- The electride comes first; basins 1 and 3 are site 2, basin 2 is site 3, basin 0 keeps its atom. -/
example : featureOrder (fun k => k != "core") true exFeatures = [1, 0] ∧
    [0, 1, 2, 3, 4].map (featureLabels 2 4 exFeatures [1, 0] (fun _ => 1) (fun v => if v = 4 then -1 else v)) = [1, 2, 3, 2, -1] ∧
    [0, 1, 2, 3].map (featureCharges 2 4 exFeatures [1, 0] (fun _ => 1) (fun b => (b : ℚ) + 1)) = [0, 1, 6, 3] := by
  decide +kernel

end BaderKit
