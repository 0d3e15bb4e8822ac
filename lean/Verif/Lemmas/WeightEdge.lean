import Verif.Lemmas.Weight
import Mathlib.Data.List.Induction
/-! # Lemmas on the flux and edge phases of the weight method -/
set_option linter.unusedSectionVars false
namespace BaderKit
open Function
variable {K : Type*} [Field K] [LinearOrder K] [IsStrictOrderedRing K]
variable {W : WeightIn K} {vac : ℕ → Bool} {labels0 : ℕ → ℤ} {sorted : List ℕ}

/-! ### Flux rows -/

/-- The entry of a neighbour in a flux row. -/
def codeOf (labels : ℕ → ℤ) (n : ℕ) : ℤ := if labels n = -1 then -(n : ℤ) - 1 else labels n

theorem bumpStale_some {stale : ℤ} {flux : K} : ∀ {l l' : List (K × ℤ)},
    bumpStale stale flux l = some l' → l'.map Prod.snd = l.map Prod.snd ∧
      (l'.map Prod.fst).sum = (l.map Prod.fst).sum + flux ∧
      (0 < flux → (∀ e ∈ l, 0 < e.1) → ∀ e ∈ l', 0 < e.1) ∧ l ≠ [] := by
  intro l
  induction l with
  | nil => intro l' h; simp [bumpStale] at h
  | cons e es ih =>
    intro l' h
    unfold bumpStale at h
    by_cases hs : stale = e.2
    · rw [if_pos hs] at h
      obtain rfl := Option.some.inj h
      refine ⟨by simp, by simp; ring, ?_, by simp⟩
      intro hf hp x hx
      rcases List.mem_cons.mp hx with rfl | hx
      · have := hp e (by simp); simp only; linarith
      · exact hp x (List.mem_cons_of_mem _ hx)
    · rw [if_neg hs] at h
      obtain ⟨t, ht, rfl⟩ := Option.map_eq_some_iff.mp h
      obtain ⟨h1, h2, h3, _⟩ := ih ht
      refine ⟨by simp [h1], by simp [h2]; ring, ?_, by simp⟩
      intro hf hp x hx
      rcases List.mem_cons.mp hx with rfl | hx
      · exact hp x (by simp)
      · exact h3 hf (fun e he => hp e (List.mem_cons_of_mem _ he)) x hx

theorem bumpStale_none {stale : ℤ} {flux : K} : ∀ {l : List (K × ℤ)},
    (∀ e ∈ l, stale ≠ e.2) → bumpStale stale flux l = none := by
  intro l
  induction l with
  | nil => intro _; rfl
  | cons e es ih =>
    intro h
    unfold bumpStale
    rw [if_neg (h e (by simp)), ih (fun x hx => h x (List.mem_cons_of_mem _ hx))]; rfl

theorem fluxFold_spec (labels : ℕ → ℤ) (stale : ℤ) (v : ℕ) : ∀ (ts : List (Coord × K))
    (acc : List (K × ℤ) × K),
    (∀ t ∈ ts, 0 < (W.ref (nbr W.s v t.1) - W.ref v) * t.2) →
    (acc.1.map Prod.fst).sum = acc.2 → (∀ e ∈ acc.1, 0 < e.1) →
    let r := ts.foldl (fluxStep W labels stale v) acc
    (r.1.map Prod.fst).sum = r.2 ∧ (∀ e ∈ r.1, 0 < e.1) ∧
    (∀ e ∈ r.1, e.2 ∈ acc.1.map Prod.snd ∨ ∃ t ∈ ts, e.2 = codeOf labels (nbr W.s v t.1)) ∧
    (acc.1 ≠ [] ∨ ts ≠ [] → r.1 ≠ []) := by
  intro ts
  induction ts with
  | nil =>
    intro acc _ h1 h2
    exact ⟨h1, h2, fun e he => Or.inl (List.mem_map_of_mem he), fun h => h.elim id (fun h => absurd rfl h)⟩
  | cons t ts ih =>
    intro acc hpos h1 h2
    have hp := hpos t (by simp)
    have key : ((fluxStep W labels stale v acc t).1.map Prod.fst).sum =
          (fluxStep W labels stale v acc t).2 ∧
        (∀ e ∈ (fluxStep W labels stale v acc t).1, 0 < e.1) ∧
        (∀ x ∈ (fluxStep W labels stale v acc t).1.map Prod.snd, x ∈ acc.1.map Prod.snd ∨
          x = codeOf labels (nbr W.s v t.1)) ∧ (fluxStep W labels stale v acc t).1 ≠ [] := by
      unfold fluxStep
      by_cases hl : labels (nbr W.s v t.1) = -1
      · simp only [hl, if_true]
        refine ⟨by simp [h1], ?_, ?_, by simp⟩
        · intro e he
          rcases List.mem_append.mp he with he | he
          · exact h2 e he
          · rw [List.mem_singleton] at he; subst he; exact hp
        · intro x hx
          rw [List.map_append, List.mem_append] at hx
          rcases hx with hx | hx
          · exact Or.inl hx
          · right; simpa [codeOf, hl] using hx
      · simp only [hl, if_false]
        cases hb : bumpStale stale ((W.ref (nbr W.s v t.1) - W.ref v) * t.2) acc.1 with
        | some l =>
          obtain ⟨b1, b2, b3, b4⟩ := bumpStale_some hb
          refine ⟨by simp only [b2, h1], b3 hp h2, ?_, ?_⟩
          · intro x hx; simp only [b1] at hx; exact Or.inl hx
          · intro hc
            simp only at hc
            rw [hc] at b1
            exact b4 (by simpa using b1.symm)
        | none =>
          refine ⟨by simp [h1], ?_, ?_, by simp⟩
          · intro e he
            rcases List.mem_append.mp he with he | he
            · exact h2 e he
            · rw [List.mem_singleton] at he; subst he; exact hp
          · intro x hx
            rw [List.map_append, List.mem_append] at hx
            rcases hx with hx | hx
            · exact Or.inl hx
            · right; simpa [codeOf, hl] using hx
    obtain ⟨i1, i2, i3, i4⟩ := ih _ (fun t ht => hpos t (List.mem_cons_of_mem _ ht)) key.1 key.2.1
    rw [List.foldl_cons]
    refine ⟨i1, i2, ?_, fun _ => i4 (Or.inl key.2.2.2)⟩
    intro e he
    rcases i3 e he with h | ⟨t', ht', h⟩
    · rcases key.2.2.1 _ h with h | h
      · exact Or.inl h
      · exact Or.inr ⟨t, by simp, h⟩
    · exact Or.inr ⟨t', List.mem_cons_of_mem _ ht', h⟩

/-- Without a match of the stale variable the row lists the neighbours one by one. -/
theorem fluxFold_exact (labels : ℕ → ℤ) (stale : ℤ) (v : ℕ) : ∀ (ts : List (Coord × K))
    (acc : List (K × ℤ) × K),
    (∀ e ∈ acc.1, stale ≠ e.2) → (∀ t ∈ ts, stale ≠ codeOf labels (nbr W.s v t.1)) →
    ts.foldl (fluxStep W labels stale v) acc =
      (acc.1 ++ ts.map (fun t => ((W.ref (nbr W.s v t.1) - W.ref v) * t.2,
        codeOf labels (nbr W.s v t.1))),
       acc.2 + (ts.map fun t => (W.ref (nbr W.s v t.1) - W.ref v) * t.2).sum) := by
  intro ts
  induction ts with
  | nil => intro acc _ _; simp
  | cons t ts ih =>
    intro acc h1 h2
    have ht := h2 t (by simp)
    have hstep : fluxStep W labels stale v acc t =
        (acc.1 ++ [((W.ref (nbr W.s v t.1) - W.ref v) * t.2, codeOf labels (nbr W.s v t.1))],
          acc.2 + (W.ref (nbr W.s v t.1) - W.ref v) * t.2) := by
      unfold fluxStep codeOf
      by_cases hl : labels (nbr W.s v t.1) = -1
      · simp only [hl, if_true]
      · simp only [hl, if_false]
        rw [bumpStale_none h1]
    rw [List.foldl_cons, hstep, ih]
    · simp [add_assoc]
    · intro e he
      rcases List.mem_append.mp he with he | he
      · exact h1 e he
      · rw [List.mem_singleton] at he; subst he; exact ht
    · exact fun t ht => h2 t (List.mem_cons_of_mem _ ht)

theorem flux_pos (H : WeightInput W vac labels0 sorted) {v : ℕ} :
    ∀ t ∈ higherVor W v, 0 < (W.ref (nbr W.s v t.1) - W.ref v) * t.2 := by
  intro t ht
  obtain ⟨h1, h2⟩ := (mem_higherVor v t).mp ht
  exact mul_pos (sub_pos.mpr h2) (H.vor_pos t h1)

theorem sum_pos_list {l : List K} (h : ∀ x ∈ l, 0 < x) (hne : l ≠ []) : 0 < l.sum := by
  induction l with
  | nil => exact absurd rfl hne
  | cons a l ih =>
    rw [List.sum_cons]
    by_cases hl : l = []
    · subst hl; simpa using h a (by simp)
    · have := ih (fun x hx => h x (List.mem_cons_of_mem _ hx)) hl
      have := h a (by simp)
      linarith

theorem fluxRow_spec (H : WeightInput W vac labels0 sorted) (labels : ℕ → ℤ) (stale : ℤ) {v : ℕ}
    (hm : W.mask v = false) (hlab : ∀ n ∈ weightNbrs W v, labels n = -1 ∨ 0 ≤ labels n) :
    ((fluxRow W labels stale v).map Prod.fst).sum = 1 ∧ (∀ e ∈ fluxRow W labels stale v, 0 < e.1) ∧
    ∀ e ∈ fluxRow W labels stale v, ∃ n ∈ weightNbrs W v, e.2 = codeOf labels n := by
  have h0 := fluxFold_spec (W := W) labels stale v (higherVor W v) ([], 0) (flux_pos H) (by simp)
    (by simp)
  simp only at h0
  obtain ⟨h1, h2, h3, h4⟩ := h0
  unfold fluxRow
  by_cases he : higherVor W v = []
  · have hr : ((higherVor W v).foldl (fluxStep W labels stale v) ([], 0)).1 = [] := by rw [he]; rfl
    have hw : weightNbrs W v = [(bestNeighbor W.s W.ref W.all v).2] := by
      simp [weightNbrs, hm, he]
    simp only [hr, if_true]
    refine ⟨by simp, ?_, ?_⟩
    · intro e hx
      rw [List.mem_singleton] at hx; rw [hx]; simp
    intro e hx
    rw [List.mem_singleton] at hx; subst hx
    refine ⟨(bestNeighbor W.s W.ref W.all v).2, by rw [hw]; simp, ?_⟩
    simp only [codeOf]
    have := hlab _ (by rw [hw]; exact List.mem_singleton.mpr rfl)
    rcases this with h | h
    · simp [h]
    · rw [if_pos h, if_neg (by omega)]
  · have hr := h4 (Or.inr he)
    have hw : weightNbrs W v = (higherVor W v).map (fun (t : Coord × K) => nbr W.s v t.1) := by
      simp [weightNbrs, hm, he]
    simp only [hr, if_false]
    have htot : 0 < ((higherVor W v).foldl (fluxStep W labels stale v) ([], 0)).2 := by
      rw [← h1]
      apply sum_pos_list
      · intro x hx; obtain ⟨e, hx', rfl⟩ := List.mem_map.mp hx; exact h2 e hx'
      · simpa using hr
    refine ⟨?_, ?_, ?_⟩
    · rw [List.map_map]
      have : (Prod.fst ∘ fun (e : K × ℤ) => (e.1 / ((higherVor W v).foldl (fluxStep W labels stale v) ([], 0)).2, e.2)) =
          fun (e : K × ℤ) => e.1 * (((higherVor W v).foldl (fluxStep W labels stale v) ([], 0)).2)⁻¹ := by
        funext e; simp [div_eq_mul_inv]
      rw [this, List.sum_map_mul_right, h1]
      exact mul_inv_cancel₀ htot.ne'
    · intro e hx
      obtain ⟨e', hx', rfl⟩ := List.mem_map.mp hx
      exact div_pos (h2 e' hx') htot
    · intro e hx
      obtain ⟨e', hx', rfl⟩ := List.mem_map.mp hx
      rcases h3 e' hx' with h | ⟨t, ht, h⟩
      · simp at h
      · exact ⟨nbr W.s v t.1, by rw [hw]; exact List.mem_map_of_mem ht, h⟩

/-! ### Gathering weights -/

/-- Sum of the second components of the entries with first component `b`. -/
def pairSum (L : List (ℕ × K)) (b : ℕ) : K := (L.map fun e => if e.1 = b then e.2 else 0).sum

/-- The flat list of contributions gathered at an edge voxel. -/
def expand (stored : ℕ → List (ℕ × K)) (row : List (K × ℤ)) : List (ℕ × K) :=
  row.flatMap fun (e : K × ℤ) => if 0 ≤ e.2 then [(e.2.toNat, e.1)]
    else (stored (-e.2 - 1).toNat).map fun (lw : ℕ × K) => (lw.1, e.1 * lw.2)

theorem gather_eq (stored : ℕ → List (ℕ × K)) (row : List (K × ℤ)) :
    gather stored row = (expand stored row).foldl (fun acc lw => scratchAdd acc lw.1 lw.2)
      (fun _ => 0, []) := by
  unfold gather expand
  generalize ((fun _ => 0, []) : (ℕ → K) × List ℕ) = acc
  induction row generalizing acc with
  | nil => rfl
  | cons e row ih =>
    rw [List.foldl_cons, List.flatMap_cons, List.foldl_append, ih]
    congr 1
    by_cases h : 0 ≤ e.2
    · simp [h]
    · simp [h, List.foldl_map]

theorem scratch_fold (L : List (ℕ × K)) : ∀ acc : (ℕ → K) × List ℕ, acc.2.Nodup →
    let r := L.foldl (fun acc lw => scratchAdd acc lw.1 lw.2) acc
    (∀ b, r.1 b = acc.1 b + pairSum L b) ∧ r.2.Nodup ∧
    (∀ b, b ∈ r.2 ↔ b ∈ acc.2 ∨ b ∈ L.map Prod.fst) := by
  induction L with
  | nil => intro acc h; exact ⟨fun b => by simp [pairSum], h, by simp⟩
  | cons e L ih =>
    intro acc h
    have hnd : (scratchAdd acc e.1 e.2).2.Nodup := by
      unfold scratchAdd
      by_cases he : e.1 ∈ acc.2
      · simp [he, h]
      · simp only [he, if_false]
        exact List.nodup_append.mpr ⟨h, by simp, by
          intro a ha b hb; rw [List.mem_singleton] at hb; subst hb; intro e; exact he (e ▸ ha)⟩
    obtain ⟨h1, h2, h3⟩ := ih _ hnd
    simp only [List.foldl_cons]
    refine ⟨?_, h2, ?_⟩
    · intro b
      rw [h1]
      by_cases hb : e.1 = b
      · subst hb; simp [scratchAdd, pairSum]; ring
      · simp [scratchAdd, pairSum, hb, Ne.symm hb]
    · intro b
      rw [h3]
      unfold scratchAdd
      by_cases he : e.1 ∈ acc.2
      · simp only [he, if_true, List.map_cons, List.mem_cons]
        constructor
        · rintro (h | h)
          · exact Or.inl h
          · exact Or.inr (Or.inr h)
        · rintro (h | h | h)
          · exact Or.inl h
          · exact Or.inl (h ▸ he)
          · exact Or.inr h
      · simp only [he, if_false, List.map_cons, List.mem_cons, List.mem_append,
          List.not_mem_nil, or_false]
        tauto

theorem gather_spec (stored : ℕ → List (ℕ × K)) (row : List (K × ℤ)) :
    (∀ b, (gather stored row).1 b = pairSum (expand stored row) b) ∧ (gather stored row).2.Nodup ∧
    (∀ b, b ∈ (gather stored row).2 ↔ b ∈ (expand stored row).map Prod.fst) := by
  rw [gather_eq]
  obtain ⟨h1, h2, h3⟩ := scratch_fold (expand stored row) (fun _ => 0, []) (by simp)
  exact ⟨fun b => by rw [h1]; simp, h2, fun b => by rw [h3]; simp⟩

theorem pairSum_range {L : List (ℕ × K)} {B : ℕ} (h : ∀ e ∈ L, e.1 < B) :
    ∑ b ∈ Finset.range B, pairSum L b = (L.map Prod.snd).sum := by
  induction L with
  | nil => simp [pairSum]
  | cons e L ih =>
    have hs : ∀ b, pairSum (e :: L) b = (if e.1 = b then e.2 else 0) + pairSum L b := fun b => by
      simp [pairSum]
    simp only [hs, Finset.sum_add_distrib, List.map_cons, List.sum_cons]
    rw [ih (fun x hx => h x (List.mem_cons_of_mem _ hx)), Finset.sum_ite_eq,
      if_pos (Finset.mem_range.mpr (h e (by simp)))]

theorem pairSum_nonneg {L : List (ℕ × K)} (h : ∀ e ∈ L, 0 < e.2) (b : ℕ) : 0 ≤ pairSum L b := by
  unfold pairSum
  apply List.sum_nonneg
  intro x hx
  obtain ⟨e, he, rfl⟩ := List.mem_map.mp hx
  split_ifs
  · exact (h e he).le
  · exact le_rfl

theorem pairSum_pos_iff {L : List (ℕ × K)} (h : ∀ e ∈ L, 0 < e.2) (b : ℕ) :
    0 < pairSum L b ↔ b ∈ L.map Prod.fst := by
  induction L with
  | nil => simp [pairSum]
  | cons e L ih =>
    have hs : pairSum (e :: L) b = (if e.1 = b then e.2 else 0) + pairSum L b := by simp [pairSum]
    have h0 := pairSum_nonneg (fun x hx => h x (List.mem_cons_of_mem _ hx)) (L := L) b
    have he := h e (by simp)
    rw [hs, List.map_cons, List.mem_cons, ← ih (fun x hx => h x (List.mem_cons_of_mem _ hx))]
    by_cases hb : e.1 = b
    · simp only [hb, if_true, true_or, iff_true]; linarith
    · simp [hb, Ne.symm hb]

theorem pairSum_eq_zero {L : List (ℕ × K)} {b : ℕ} (h : b ∉ L.map Prod.fst) : pairSum L b = 0 := by
  unfold pairSum
  apply List.sum_eq_zero
  intro x hx
  obtain ⟨e, he, rfl⟩ := List.mem_map.mp hx
  rw [if_neg]
  intro hc; exact h (hc ▸ List.mem_map_of_mem he)

theorem pairSum_nodup {L : List (ℕ × K)} (h : (L.map Prod.fst).Nodup) {e : ℕ × K} (he : e ∈ L) :
    pairSum L e.1 = e.2 := by
  induction L with
  | nil => simp at he
  | cons x L ih =>
    rw [List.map_cons, List.nodup_cons] at h
    have hs : pairSum (x :: L) e.1 = (if x.1 = e.1 then x.2 else 0) + pairSum L e.1 := by simp [pairSum]
    rw [hs]
    rcases List.mem_cons.mp he with rfl | he
    · rw [pairSum_eq_zero h.1]; simp
    · have : x.1 ≠ e.1 := fun hc => h.1 (hc ▸ List.mem_map_of_mem he)
      rw [if_neg this, ih h.2 he, zero_add]

/-- A stored list of weights: positive, of basins below `B`, each basin once, adding up to one. -/
structure StoredOK (B : ℕ) (L : List (ℕ × K)) : Prop where
  lt : ∀ e ∈ L, e.1 < B
  pos : ∀ e ∈ L, 0 < e.2
  sum : (L.map Prod.snd).sum = 1
  nodup : (L.map Prod.fst).Nodup

/-- A flux row all of whose references are resolved. -/
structure RowOK (B : ℕ) (stored : ℕ → List (ℕ × K)) (row : List (K × ℤ)) : Prop where
  pos : ∀ e ∈ row, 0 < e.1
  sum : (row.map Prod.fst).sum = 1
  lt : ∀ e ∈ row, 0 ≤ e.2 → e.2.toNat < B
  ref : ∀ e ∈ row, e.2 < 0 → StoredOK B (stored (-e.2 - 1).toNat)

theorem expand_sum (stored : ℕ → List (ℕ × K)) (row : List (K × ℤ))
    (h : ∀ e ∈ row, e.2 < 0 → ((stored (-e.2 - 1).toNat).map Prod.snd).sum = 1) :
    ((expand stored row).map Prod.snd).sum = (row.map Prod.fst).sum := by
  induction row with
  | nil => simp [expand]
  | cons e row ih =>
    have ih := ih (fun x hx => h x (List.mem_cons_of_mem _ hx))
    unfold expand at ih ⊢
    rw [List.flatMap_cons, List.map_append, List.sum_append, ih, List.map_cons, List.sum_cons]
    congr 1
    by_cases h0 : 0 ≤ e.2
    · simp [h0]
    · simp only [h0, if_false, List.map_map]
      have : (Prod.snd ∘ fun (lw : ℕ × K) => (lw.1, e.1 * lw.2)) = fun (lw : ℕ × K) => e.1 * lw.2 := rfl
      rw [this, List.sum_map_mul_left, h e (by simp) (by omega), mul_one]

theorem RowOK.expand {B : ℕ} {stored : ℕ → List (ℕ × K)} {row : List (K × ℤ)}
    (h : RowOK B stored row) : (∀ x ∈ BaderKit.expand stored row, x.1 < B ∧ 0 < x.2) ∧
      ((BaderKit.expand stored row).map Prod.snd).sum = 1 := by
  refine ⟨?_, ?_⟩
  · intro x hx
    obtain ⟨e, he, hx⟩ := List.mem_flatMap.mp hx
    by_cases h0 : 0 ≤ e.2
    · simp only [h0, if_true, List.mem_singleton] at hx
      subst hx
      exact ⟨h.lt e he h0, h.pos e he⟩
    · simp only [h0, if_false] at hx
      obtain ⟨lw, hlw, rfl⟩ := List.mem_map.mp hx
      have hs := h.ref e he (by omega)
      exact ⟨hs.lt lw hlw, mul_pos (h.pos e he) (hs.pos lw hlw)⟩
  · rw [expand_sum, h.sum]
    intro e he h0
    exact (h.ref e he h0).sum

/-- Facts about the weights gathered from a resolved row. -/
theorem RowOK.gather {B : ℕ} {stored : ℕ → List (ℕ × K)} {row : List (K × ℤ)}
    (h : RowOK B stored row) :
    (∀ b, 0 ≤ (gather stored row).1 b) ∧
    (∀ b, b ∈ (gather stored row).2 ↔ 0 < (gather stored row).1 b) ∧
    (∀ b ∈ (gather stored row).2, b < B) ∧ (gather stored row).2.Nodup ∧
    ∑ b ∈ Finset.range B, (gather stored row).1 b = 1 := by
  obtain ⟨g1, g2, g3⟩ := gather_spec stored row
  obtain ⟨e1, e2⟩ := h.expand
  refine ⟨?_, ?_, ?_, g2, ?_⟩
  · intro b; rw [g1]; exact pairSum_nonneg (fun e he => (e1 e he).2) b
  · intro b; rw [g3, g1, pairSum_pos_iff (fun e he => (e1 e he).2)]
  · intro b hb
    obtain ⟨e, he, rfl⟩ := List.mem_map.mp ((g3 b).mp hb)
    exact (e1 e he).1
  · rw [Finset.sum_congr rfl (fun b _ => g1 b), pairSum_range (fun e he => (e1 e he).1), e2]

theorem gather_congr {stored stored' : ℕ → List (ℕ × K)} {row : List (K × ℤ)}
    (h : ∀ e ∈ row, e.2 < 0 → stored (-e.2 - 1).toNat = stored' (-e.2 - 1).toNat) :
    gather stored row = gather stored' row := by
  rw [gather_eq, gather_eq]
  congr 1
  unfold expand
  induction row with
  | nil => rfl
  | cons e row ih =>
    rw [List.flatMap_cons, List.flatMap_cons, ih (fun x hx => h x (List.mem_cons_of_mem _ hx))]
    congr 1
    by_cases h0 : 0 ≤ e.2
    · simp [h0]
    · simp only [h0, if_false]
      rw [h e (by simp) (by omega)]

/-! ### Crediting an edge voxel -/

theorem wTol_pos : (0 : K) < wTol := by unfold wTol; positivity

theorem wCut_pos : (0 : K) < wCut := by unfold wCut; positivity

theorem wCut_lt_tol : (wCut : K) < wTol := by
  unfold wCut wTol
  apply one_div_lt_one_div_of_lt (by positivity)
  exact pow_lt_pow_right₀ (by norm_num) (by norm_num)

/-- Effect of the loop that credits the basins of an edge voxel. -/
theorem creditFold_spec (scr : ℕ → K) (charge : K) (cur : List ℕ) : ∀ (c0 : CreditState K)
    (seen : List ℕ), cur.Nodup → (∀ b ∈ cur, b ∉ seen) →
    (∀ x ∈ seen, wCut ≤ scr x → scr x ≤ c0.bestW + wTol) →
    ((c0.best = -1 ∧ c0.bestW = 0) ∨ ∃ b ∈ seen, c0.best = (b : ℤ) ∧ c0.bestW = scr b ∧ wTol < scr b) →
    (c0.tied = false → ∀ x ∈ seen, wCut ≤ scr x → c0.best = (x : ℤ) ∨ scr x < c0.bestW) →
    let c := cur.foldl (creditStep scr charge) c0
    (∀ b, c.charges b = c0.charges b + if b ∈ cur then charge * scr b else 0) ∧
    (∀ b, c.volumes b = c0.volumes b + if b ∈ cur then scr b else 0) ∧
    c.reduced = c0.reduced ++ (cur.filter fun b => decide (¬ scr b < wCut)).map (fun b => (b, scr b)) ∧
    c.total = c0.total + ((cur.filter fun b => decide (¬ scr b < wCut)).map scr).sum ∧
    (∀ x ∈ seen ++ cur, wCut ≤ scr x → scr x ≤ c.bestW + wTol) ∧
    ((c.best = -1 ∧ c.bestW = 0) ∨
      ∃ b ∈ seen ++ cur, c.best = (b : ℤ) ∧ c.bestW = scr b ∧ wTol < scr b) ∧
    (c.tied = false → ∀ x ∈ seen ++ cur, wCut ≤ scr x → c.best = (x : ℤ) ∨ scr x < c.bestW) ∧
    (c0.bestW ≤ c.bestW) := by
  induction cur with
  | nil =>
    intro c0 seen _ _ h1 h2 h3
    simp only [List.foldl_nil, List.append_nil]
    exact ⟨by simp, by simp, by simp, by simp, h1, h2, h3, le_rfl⟩
  | cons a cur ih =>
    intro c0 seen hnd hns h1 h2 h3
    rw [List.nodup_cons] at hnd
    have hbw : (0 : K) ≤ c0.bestW := by
      rcases h2 with h | ⟨b, _, _, h, h'⟩
      · rw [h.2]
      · rw [h]; exact (wTol_pos.trans h').le
    have htol : (0 : K) < wTol := wTol_pos
    have hcut : (wCut : K) < wTol := wCut_lt_tol
    -- one step
    have step : (∀ b, (creditStep scr charge c0 a).charges b =
          c0.charges b + if b = a then charge * scr a else 0) ∧
        (∀ b, (creditStep scr charge c0 a).volumes b = c0.volumes b + if b = a then scr a else 0) ∧
        (creditStep scr charge c0 a).reduced = c0.reduced ++ (if scr a < wCut then [] else [(a, scr a)]) ∧
        (creditStep scr charge c0 a).total = c0.total + (if scr a < wCut then 0 else scr a) ∧
        (∀ x ∈ seen ++ [a], wCut ≤ scr x → scr x ≤ (creditStep scr charge c0 a).bestW + wTol) ∧
        (((creditStep scr charge c0 a).best = -1 ∧ (creditStep scr charge c0 a).bestW = 0) ∨
          ∃ b ∈ seen ++ [a], (creditStep scr charge c0 a).best = (b : ℤ) ∧
            (creditStep scr charge c0 a).bestW = scr b ∧ wTol < scr b) ∧
        ((creditStep scr charge c0 a).tied = false → ∀ x ∈ seen ++ [a], wCut ≤ scr x →
          (creditStep scr charge c0 a).best = (x : ℤ) ∨ scr x < (creditStep scr charge c0 a).bestW) ∧
        c0.bestW ≤ (creditStep scr charge c0 a).bestW := by
      have hup : ∀ (f : ℕ → K) (y : K) (b : ℕ), Function.update f a (f a + y) b =
          f b + if b = a then y else 0 := by
        intro f y b
        by_cases h : b = a
        · subst h; simp
        · simp [h]
      have hmem : ∀ x, x ∈ seen ++ [a] ↔ x ∈ seen ∨ x = a := by simp
      unfold creditStep
      by_cases hc : scr a < wCut
      · simp only [hc, if_true]
        refine ⟨hup _ _, hup _ _, by simp, by simp, ?_, ?_, ?_, le_rfl⟩
        · intro x hx hxc
          rcases (hmem x).mp hx with hx | rfl
          · exact h1 x hx hxc
          · exact absurd hc (not_lt.mpr hxc)
        · rcases h2 with h | ⟨b, hb, h⟩
          · exact Or.inl h
          · exact Or.inr ⟨b, by simp [hb], h⟩
        · intro ht x hx hxc
          rcases (hmem x).mp hx with hx | rfl
          · exact h3 ht x hx hxc
          · exact absurd hc (not_lt.mpr hxc)
      · simp only [hc, if_false]
        by_cases hg : scr a > c0.bestW + wTol
        · simp only [hg, if_true]
          refine ⟨hup _ _, hup _ _, trivial, trivial, ?_, Or.inr ⟨a, by simp, rfl, rfl, by linarith⟩, ?_,
            by linarith⟩
          · intro x hx hxc
            rcases (hmem x).mp hx with hx | rfl
            · have := h1 x hx hxc; linarith
            · linarith
          · intro _ x hx hxc
            rcases (hmem x).mp hx with hx | rfl
            · right; have := h1 x hx hxc; linarith
            · exact Or.inl rfl
        · simp only [hg, if_false]
          by_cases he : scr a > c0.bestW - wTol
          · simp only [he, if_true]
            refine ⟨hup _ _, hup _ _, trivial, trivial, ?_, ?_, by simp, le_rfl⟩
            · intro x hx hxc
              rcases (hmem x).mp hx with hx | rfl
              · exact h1 x hx hxc
              · exact not_lt.mp hg
            · rcases h2 with h | ⟨b, hb, h⟩
              · exact Or.inl h
              · exact Or.inr ⟨b, by simp [hb], h⟩
          · simp only [he, if_false]
            refine ⟨hup _ _, hup _ _, trivial, trivial, ?_, ?_, ?_, le_rfl⟩
            · intro x hx hxc
              rcases (hmem x).mp hx with hx | rfl
              · exact h1 x hx hxc
              · exact not_lt.mp hg
            · rcases h2 with h | ⟨b, hb, h⟩
              · exact Or.inl h
              · exact Or.inr ⟨b, by simp [hb], h⟩
            · intro ht x hx hxc
              rcases (hmem x).mp hx with hx | rfl
              · exact h3 ht x hx hxc
              · right; have := not_lt.mp he; linarith
    obtain ⟨s1, s2, s3, s4, s5, s6, s7, s8⟩ := step
    obtain ⟨i1, i2, i3, i4, i5, i6, i7, i8⟩ := ih (creditStep scr charge c0 a) (seen ++ [a]) hnd.2
      (by
        intro b hb hc
        rcases List.mem_append.mp hc with hc | hc
        · exact hns b (List.mem_cons_of_mem _ hb) hc
        · rw [List.mem_singleton] at hc; subst hc; exact hnd.1 hb)
      s5 s6 s7
    simp only [List.foldl_cons]
    rw [List.append_assoc, List.singleton_append] at i5 i6 i7
    refine ⟨?_, ?_, ?_, ?_, i5, i6, i7, s8.trans i8⟩
    · intro b
      rw [i1, s1]
      by_cases hb : b = a
      · subst hb; simp [hnd.1]
      · simp [hb]
    · intro b
      rw [i2, s2]
      by_cases hb : b = a
      · subst hb; simp [hnd.1]
      · simp [hb]
    · rw [i3, s3]
      by_cases hc : scr a < wCut
      · simp [hc]
      · simp [hc, not_lt.mp hc]
    · rw [i4, s4]
      by_cases hc : scr a < wCut
      · simp [hc]
      · simp [hc, not_lt.mp hc, add_assoc]

theorem capWeights_spec {argsortW : List (ℕ × K) → List (ℕ × K)} (ha : ∀ l, (argsortW l).Perm l)
    {B : ℕ} {red : List (ℕ × K)} {total : K} (h1 : ∀ e ∈ red, e.1 < B ∧ 0 < e.2)
    (h2 : (red.map Prod.fst).Nodup) (h3 : total = (red.map Prod.snd).sum) (h4 : red ≠ []) :
    StoredOK B (capWeights argsortW red total) ∧
    (∀ e ∈ capWeights argsortW red total, ∃ x ∈ red, e.1 = x.1) ∧
    (red.length ≤ 26 → capWeights argsortW red total = red.map fun e => (e.1, e.2 / total)) := by
  have key : ∀ l : List (ℕ × K), l ≠ [] → (∀ e ∈ l, e ∈ red) → (l.map Prod.fst).Nodup →
      ∀ tot : K, tot = (l.map Prod.snd).sum →
      StoredOK B (l.map fun e => (e.1, e.2 / tot)) ∧
      ∀ e ∈ (l.map fun e => (e.1, e.2 / tot)), ∃ x ∈ red, e.1 = x.1 := by
    intro l hne hsub hnd tot ht
    have hpos : 0 < tot := by
      rw [ht]; apply sum_pos_list
      · intro x hx; obtain ⟨e, he, rfl⟩ := List.mem_map.mp hx; exact (h1 e (hsub e he)).2
      · simpa using hne
    refine ⟨⟨?_, ?_, ?_, ?_⟩, ?_⟩
    · intro e he; obtain ⟨x, hx, rfl⟩ := List.mem_map.mp he; exact (h1 x (hsub x hx)).1
    · intro e he; obtain ⟨x, hx, rfl⟩ := List.mem_map.mp he
      exact div_pos (h1 x (hsub x hx)).2 hpos
    · rw [List.map_map]
      have : (Prod.snd ∘ fun (e : ℕ × K) => (e.1, e.2 / tot)) = fun (e : ℕ × K) => e.2 * tot⁻¹ := by
        funext e; simp [div_eq_mul_inv]
      rw [this, List.sum_map_mul_right, ← ht]
      exact mul_inv_cancel₀ hpos.ne'
    · rw [List.map_map]; exact hnd
    · intro e he; obtain ⟨x, hx, rfl⟩ := List.mem_map.mp he; exact ⟨x, hsub x hx, rfl⟩
  unfold capWeights
  by_cases hl : red.length > 26
  · simp only [hl, if_true]
    have hp := ha red
    have hnd : ((argsortW red).map Prod.fst).Nodup := (hp.map Prod.fst).nodup_iff.mpr h2
    have k := key ((argsortW red).drop (red.length - 26))
      (by
        intro hc
        have := congrArg List.length hc
        rw [List.length_drop, hp.length_eq] at this
        simp at this; omega)
      (fun e he => hp.mem_iff.mp (List.mem_of_mem_drop he))
      (hnd.sublist ((List.drop_sublist _ _).map _)) _ rfl
    exact ⟨k.1, k.2, fun hc => by omega⟩
  · simp only [hl, if_false]
    have k := key red h4 (fun e he => he) h2 total h3
    exact ⟨k.1, k.2, fun _ => trivial⟩

theorem tieBreak_spec (charges approx : ℕ → K) (charge bestW : K) (stored : List (ℕ × K)) (best : ℤ) :
    tieBreak charges approx charge bestW stored best = best ∨
      ∃ e ∈ stored, tieBreak charges approx charge bestW stored best = (e.1 : ℤ) ∧
        bestW - wTol ≤ e.2 := by
  unfold tieBreak
  generalize (-1 : K) = x
  induction stored generalizing x best with
  | nil => left; rfl
  | cons e l ih =>
    rw [List.foldl_cons]
    by_cases h : e.2 < bestW - wTol
    · simp only [h, if_true]
      rcases ih best x with h' | ⟨e', he', h'⟩
      · exact Or.inl h'
      · exact Or.inr ⟨e', List.mem_cons_of_mem _ he', h'⟩
    · simp only [h, if_false]
      split_ifs with hi
      · rcases ih (e.1 : ℤ) _ with h' | ⟨e', he', h'⟩
        · exact Or.inr ⟨e, by simp, h', not_lt.mp h⟩
        · exact Or.inr ⟨e', List.mem_cons_of_mem _ he', h'⟩
      · rcases ih best x with h' | ⟨e', he', h'⟩
        · exact Or.inl h'
        · exact Or.inr ⟨e', List.mem_cons_of_mem _ he', h'⟩

/-- One step of the edge loop on a resolved row. -/
theorem edgeStep_spec {argsortW : List (ℕ × K) → List (ℕ × K)} (ha : ∀ l, (argsortW l).Perm l)
    {B : ℕ} (hB : B ≤ 10 ^ 30) (chg : ℕ → K) (row : ℕ → List (K × ℤ)) (st : EdgeState K) (v : ℕ)
    (hrow : RowOK B st.stored (row v)) :
    (∀ b, (edgeStep W chg argsortW row st v).charges b =
      st.charges b + chg v * (gather st.stored (row v)).1 b) ∧
    (∀ b, (edgeStep W chg argsortW row st v).volumes b =
      st.volumes b + (gather st.stored (row v)).1 b) ∧
    (∀ u, u ≠ v → (edgeStep W chg argsortW row st v).stored u = st.stored u ∧
      (edgeStep W chg argsortW row st v).labels u = st.labels u) ∧
    StoredOK B ((edgeStep W chg argsortW row st v).stored v) ∧
    (∀ e ∈ (edgeStep W chg argsortW row st v).stored v, 0 < (gather st.stored (row v)).1 e.1) ∧
    ((gather st.stored (row v)).2.length ≤ 26 →
      (∀ b, (gather st.stored (row v)).1 b = 0 ∨ wCut ≤ (gather st.stored (row v)).1 b) →
      ∀ b, pairSum ((edgeStep W chg argsortW row st v).stored v) b = (gather st.stored (row v)).1 b) ∧
    (B < 10 ^ 6 → ∃ l : ℕ, (edgeStep W chg argsortW row st v).labels v = l ∧ l < B ∧
      0 < (gather st.stored (row v)).1 l ∧
      ((gather st.stored (row v)).2.length ≤ 26 →
        (∀ b, (gather st.stored (row v)).1 b = 0 ∨ wCut ≤ (gather st.stored (row v)).1 b) →
        ∀ b, (gather st.stored (row v)).1 b ≤ (gather st.stored (row v)).1 l + 2 * wTol)) := by
  obtain ⟨g1, g2, g3, g4, g5⟩ := hrow.gather
  set g := gather st.stored (row v) with hg
  set cur := g.2.insertionSort (· ≤ ·) with hcur
  have hcurp : cur.Perm g.2 := List.perm_insertionSort _ _
  have hcurnd : cur.Nodup := hcurp.nodup_iff.mpr g4
  have hcurm : ∀ b, b ∈ cur ↔ 0 < g.1 b := fun b => by rw [hcurp.mem_iff, g2]
  obtain ⟨c1, c2, c3, c4, c5, c6, c7, _⟩ := creditFold_spec g.1 (chg v) cur
    ⟨st.charges, st.volumes, -1, 0, false, [], 0⟩ [] hcurnd (by simp) (by simp)
    (Or.inl ⟨rfl, rfl⟩) (by simp)
  set c := cur.foldl (creditStep g.1 (chg v)) ⟨st.charges, st.volumes, -1, 0, false, [], 0⟩ with hc
  simp only [List.nil_append, zero_add] at c3 c4 c5 c6 c7
  set kept := cur.filter fun b => decide (¬ g.1 b < wCut) with hkept
  have hkm : ∀ b, b ∈ kept ↔ wCut ≤ g.1 b := by
    intro b
    rw [hkept, List.mem_filter, hcurm]
    simp only [not_lt, decide_eq_true_eq]
    exact ⟨fun h => h.2, fun h => ⟨wCut_pos.trans_le h, h⟩⟩
  have hzero : ∀ b, b ∉ cur → g.1 b = 0 := fun b hb =>
    le_antisymm (not_lt.mp fun h => hb ((hcurm b).mpr h)) (g1 b)
  have hbig : ∀ (x : K) (M : ℕ), x = 1 / (M : K) → 0 < M → B ≤ M → (∃ b, b < B ∧ x ≤ g.1 b) := by
    intro x M hx hM hBM
    by_contra hno
    push Not at hno
    have hB0 : 0 < B := by
      rcases Nat.eq_zero_or_pos B with h | h
      · rw [h] at g5; simp at g5
      · exact h
    have : ∑ b ∈ Finset.range B, g.1 b < ∑ b ∈ Finset.range B, x :=
      Finset.sum_lt_sum_of_nonempty ⟨0, Finset.mem_range.mpr hB0⟩
        (fun b hb => hno b (Finset.mem_range.mp hb))
    rw [g5, Finset.sum_const, Finset.card_range, nsmul_eq_mul, hx] at this
    have hMp : (0 : K) < M := by exact_mod_cast hM
    have hle : (B : K) ≤ M := by exact_mod_cast hBM
    have : (1 : K) < (B : K) / M := by rw [div_eq_mul_one_div]; exact this
    rw [lt_div_iff₀ hMp] at this
    linarith
  have hkne : kept ≠ [] := by
    obtain ⟨b, _, hb⟩ := hbig wCut (10 ^ 30) (by unfold wCut; norm_num) (by positivity) hB
    intro hk
    have := (hkm b).mpr hb
    rw [hk] at this; simp at this
  have hred : c.reduced ≠ [] := by rw [c3]; simpa using hkne
  have hcap := capWeights_spec ha (B := B) (red := c.reduced) (total := c.total)
    (by
      rw [c3]; intro e he
      obtain ⟨b, hb, rfl⟩ := List.mem_map.mp he
      have hb' := (hkm b).mp hb
      have hb'' := wCut_pos.trans_le hb'
      exact ⟨g3 b ((g2 b).mpr hb''), hb''⟩)
    (by
      rw [c3, List.map_map]
      have : (Prod.fst ∘ fun b => (b, g.1 b)) = (id : ℕ → ℕ) := rfl
      rw [this, List.map_id]; exact hcurnd.filter _)
    (by rw [c3, c4, List.map_map]; rfl) hred
  have hstored : (edgeStep W chg argsortW row st v).stored v = capWeights argsortW c.reduced c.total := by
    simp [edgeStep, hc, hcur, hg]
  have hlabel : (edgeStep W chg argsortW row st v).labels v =
      if c.tied then tieBreak c.charges st.approx (chg v) c.bestW
        (capWeights argsortW c.reduced c.total) c.best else c.best := by
    simp [edgeStep, hc, hcur, hg]
  have hallkept : (∀ b, g.1 b = 0 ∨ wCut ≤ g.1 b) → kept = cur := by
    intro h
    rw [hkept, List.filter_eq_self]
    intro b hb
    have h0 := (hcurm b).mp hb
    simp only [not_lt, decide_eq_true_eq]
    exact (h b).resolve_left h0.ne'
  have hsum1 : (cur.map g.1).sum = 1 := by
    rw [← g5]
    have h1 : (cur.map g.1).sum = ∑ b ∈ cur.toFinset, g.1 b := by
      rw [List.sum_toFinset _ hcurnd]
    rw [h1]
    apply Finset.sum_subset
    · intro b hb
      rw [List.mem_toFinset] at hb
      exact Finset.mem_range.mpr (g3 b (hcurp.mem_iff.mp hb))
    · intro b _ hb
      rw [List.mem_toFinset] at hb
      exact hzero b hb
  have hexact : g.2.length ≤ 26 → (∀ b, g.1 b = 0 ∨ wCut ≤ g.1 b) →
      capWeights argsortW c.reduced c.total = cur.map fun b => (b, g.1 b) := by
    intro h26 hno
    have hk := hallkept hno
    rw [hcap.2.2 (by rw [c3, hk, List.length_map, hcurp.length_eq]; exact h26), c3, c4, hk, hsum1,
      List.map_map]
    apply List.map_congr_left
    intro b _; simp
  refine ⟨?_, ?_, ?_, ?_, ?_, ?_, ?_⟩
  · intro b
    show c.charges b = _
    rw [c1]
    by_cases hb : b ∈ cur
    · simp [hb]
    · simp [hb, hzero b hb]
  · intro b
    show c.volumes b = _
    rw [c2]
    by_cases hb : b ∈ cur
    · simp [hb]
    · simp [hb, hzero b hb]
  · intro u hu
    simp [edgeStep, hu]
  · rw [hstored]; exact hcap.1
  · rw [hstored]
    intro e he
    obtain ⟨x, hx, hex⟩ := hcap.2.1 e he
    rw [c3] at hx
    obtain ⟨b, hb, rfl⟩ := List.mem_map.mp hx
    rw [hex]; exact wCut_pos.trans_le ((hkm b).mp hb)
  · intro h26 hno b
    rw [hstored, hexact h26 hno]
    by_cases hb : b ∈ cur
    · have := pairSum_nodup (L := cur.map fun b => (b, g.1 b))
        (by rw [List.map_map]; exact (List.map_id cur).symm ▸ hcurnd) (e := (b, g.1 b))
        (List.mem_map.mpr ⟨b, hb, rfl⟩)
      exact this
    · rw [pairSum_eq_zero, hzero b hb]
      rw [List.map_map]
      exact fun h => hb ((List.map_id cur) ▸ h)
  · intro hB6
    obtain ⟨b0, hb0, hb0'⟩ := hbig (1 / ((B : ℕ) : K)) B rfl (by
      rcases Nat.eq_zero_or_pos B with h | h
      · rw [h] at g5; simp at g5
      · exact h) le_rfl
    have hbt : wTol < g.1 b0 := by
      refine lt_of_lt_of_le ?_ hb0'
      unfold wTol
      apply one_div_lt_one_div_of_lt
      · have : 0 < B := by omega
        exact_mod_cast this
      · exact_mod_cast hB6
    have hb0c : wCut ≤ g.1 b0 := (wCut_lt_tol.trans hbt).le
    have hb0cur : b0 ∈ cur := (hcurm b0).mpr (wTol_pos.trans hbt)
    have hbest : ∃ b ∈ cur, c.best = (b : ℤ) ∧ c.bestW = g.1 b ∧ wTol < g.1 b := by
      rcases c6 with ⟨h1, h2⟩ | h
      · have h5 := c5 b0 hb0cur hb0c
        rw [h2, zero_add] at h5
        exact absurd hbt (not_lt.mpr h5)
      · exact h
    obtain ⟨bb, hbb, e1, e2, e3⟩ := hbest
    have hbound : (∀ b, g.1 b = 0 ∨ wCut ≤ g.1 b) → ∀ b, g.1 b ≤ c.bestW + wTol := by
      intro hno b
      rcases hno b with h | h
      · rw [h, e2]
        have := (wTol_pos (K := K))
        linarith
      · exact c5 b ((hcurm b).mpr (wCut_pos.trans_le h)) h
    have hbbres : ∃ l : ℕ, c.best = l ∧ l < B ∧ 0 < g.1 l ∧
        (g.2.length ≤ 26 → (∀ b, g.1 b = 0 ∨ wCut ≤ g.1 b) → ∀ b, g.1 b ≤ g.1 l + 2 * wTol) := by
      refine ⟨bb, e1, g3 bb (hcurp.mem_iff.mp hbb), wTol_pos.trans e3, fun _ hno b => ?_⟩
      have := hbound hno b
      have := (wTol_pos (K := K))
      rw [← e2]; linarith
    rw [hlabel]
    cases ht : c.tied with
    | false => simpa using hbbres
    | true =>
      simp only [if_true]
      rcases tieBreak_spec c.charges st.approx (chg v) c.bestW (capWeights argsortW c.reduced c.total)
        c.best with h | ⟨e, he, h, hw⟩
      · rw [h]; exact hbbres
      · rw [h]
        obtain ⟨x, hx, hex⟩ := hcap.2.1 e he
        rw [c3] at hx
        obtain ⟨b, hb, rfl⟩ := List.mem_map.mp hx
        have hbp := wCut_pos.trans_le ((hkm b).mp hb)
        have hex : e.1 = b := hex
        refine ⟨e.1, rfl, by rw [hex]; exact g3 b ((g2 b).mpr hbp), by rw [hex]; exact hbp, ?_⟩
        intro h26 hno y
        rw [hexact h26 hno] at he
        obtain ⟨z, hz, rfl⟩ := List.mem_map.mp he
        have := hbound hno y
        simp only at hw ⊢
        linarith

/-! ### The edge phase -/

/-- The rows only refer to basins below `B` and to edge voxels listed earlier. -/
structure RowsOK (B : ℕ) (edges : List ℕ) (row : ℕ → List (K × ℤ)) : Prop where
  pos : ∀ v ∈ edges, ∀ e ∈ row v, 0 < e.1
  sum : ∀ v ∈ edges, ((row v).map Prod.fst).sum = 1
  lt : ∀ v ∈ edges, ∀ e ∈ row v, 0 ≤ e.2 → e.2.toNat < B
  ref : ∀ l1 v l2, edges = l1 ++ v :: l2 → ∀ e ∈ row v, e.2 < 0 → (-e.2 - 1).toNat ∈ l1

theorem edgePhase_spec {argsortW : List (ℕ × K) → List (ℕ × K)} (ha : ∀ l, (argsortW l).Perm l)
    {B : ℕ} (hB : B ≤ 10 ^ 30) (chg : ℕ → K) (row : ℕ → List (K × ℤ)) (init : EdgeState K)
    (edges : List ℕ) (hnd : edges.Nodup) (hrows : RowsOK B edges row) :
    let R := edges.foldl (edgeStep W chg argsortW row) init
    (∀ v ∈ edges, StoredOK B (R.stored v) ∧ RowOK B R.stored (row v) ∧
      (∀ e ∈ R.stored v, 0 < (gather R.stored (row v)).1 e.1) ∧
      ((gather R.stored (row v)).2.length ≤ 26 →
        (∀ b, (gather R.stored (row v)).1 b = 0 ∨ wCut ≤ (gather R.stored (row v)).1 b) →
        ∀ b, pairSum (R.stored v) b = (gather R.stored (row v)).1 b) ∧
      (B < 10 ^ 6 → ∃ l : ℕ, R.labels v = l ∧ l < B ∧ 0 < (gather R.stored (row v)).1 l ∧
        ((gather R.stored (row v)).2.length ≤ 26 →
          (∀ b, (gather R.stored (row v)).1 b = 0 ∨ wCut ≤ (gather R.stored (row v)).1 b) →
          ∀ b, (gather R.stored (row v)).1 b ≤ (gather R.stored (row v)).1 l + 2 * wTol))) ∧
    (∀ u, u ∉ edges → R.labels u = init.labels u) ∧
    (∀ b, R.charges b = init.charges b + (edges.map fun v => chg v * (gather R.stored (row v)).1 b).sum) ∧
    (∀ b, R.volumes b = init.volumes b + (edges.map fun v => (gather R.stored (row v)).1 b).sum) := by
  induction edges using List.reverseRecOn with
  | nil => simp
  | append_singleton l v ih =>
    have hnd' := List.nodup_append.mp hnd
    have hvl : v ∉ l := fun h => hnd'.2.2 v h v (by simp) rfl
    have hrows' : RowsOK B l row := by
      refine ⟨fun u hu => hrows.pos u (by simp [hu]), fun u hu => hrows.sum u (by simp [hu]),
        fun u hu => hrows.lt u (by simp [hu]), ?_⟩
      intro l1 u l2 h
      exact hrows.ref l1 u (l2 ++ [v]) (by simp [h])
    obtain ⟨i1, i2, i3, i4⟩ := ih hnd'.1 hrows'
    simp only [List.foldl_append, List.foldl_cons, List.foldl_nil]
    set R' := l.foldl (edgeStep W chg argsortW row) init with hR'
    have hrow : RowOK B R'.stored (row v) := by
      refine ⟨hrows.pos v (by simp), hrows.sum v (by simp), hrows.lt v (by simp), ?_⟩
      intro e he h0
      exact (i1 _ (hrows.ref l v [] rfl e he h0)).1
    obtain ⟨s1, s2, s3, s4, s5, s6, s7⟩ := edgeStep_spec (W := W) ha hB chg row R' v hrow
    set R := edgeStep W chg argsortW row R' v with hR
    have hsame : ∀ u ∈ l, gather R.stored (row u) = gather R'.stored (row u) := by
      intro u hu
      apply gather_congr
      intro e he h0
      obtain ⟨a, b, hab⟩ := List.append_of_mem hu
      have := hrows'.ref a u b hab e he h0
      have hm : (-e.2 - 1).toNat ∈ l := by rw [hab]; exact List.mem_append.mpr (Or.inl this)
      exact (s3 _ (fun hc => hvl (hc ▸ hm))).1
    have hsamev : gather R.stored (row v) = gather R'.stored (row v) := by
      apply gather_congr
      intro e he h0
      have hm := hrows.ref l v [] rfl e he h0
      exact (s3 _ (fun hc => hvl (hc ▸ hm))).1
    have hst : ∀ u ∈ l, R.stored u = R'.stored u ∧ R.labels u = R'.labels u := fun u hu =>
      s3 u (fun hc => hvl (hc ▸ hu))
    refine ⟨?_, ?_, ?_, ?_⟩
    · intro u hu
      rcases List.mem_append.mp hu with hu | hu
      · rw [hsame u hu, (hst u hu).1, (hst u hu).2]
        obtain ⟨j1, j2, j3⟩ := i1 u hu
        refine ⟨j1, ⟨j2.pos, j2.sum, j2.lt, ?_⟩, j3⟩
        intro e he h0
        obtain ⟨a, b, hab⟩ := List.append_of_mem hu
        have := hrows'.ref a u b hab e he h0
        have hm : (-e.2 - 1).toNat ∈ l := by rw [hab]; exact List.mem_append.mpr (Or.inl this)
        rw [(hst _ hm).1]; exact (i1 _ hm).1
      · rw [List.mem_singleton] at hu; subst hu
        rw [hsamev]
        refine ⟨s4, ⟨hrow.pos, hrow.sum, hrow.lt, ?_⟩, s5, s6, s7⟩
        intro e he h0
        have hm := hrows.ref l u [] rfl e he h0
        rw [(hst _ hm).1]; exact (i1 _ hm).1
    · intro u hu
      rw [List.mem_append, List.mem_singleton] at hu
      push Not at hu
      rw [(s3 u hu.2).2, i2 u hu.1]
    · intro b
      rw [s1, i3, List.map_append, List.sum_append, add_assoc]
      congr 2
      · apply congrArg
        apply List.map_congr_left
        intro u hu; rw [hsame u hu]
      · simp [hsamev]
    · intro b
      rw [s2, i4, List.map_append, List.sum_append, add_assoc]
      congr 2
      · apply congrArg
        apply List.map_congr_left
        intro u hu; rw [hsame u hu]
      · simp [hsamev]

theorem creditFold_reduced_indep (scr : ℕ → K) (charge charge' : K) (cur : List ℕ) :
    ∀ (a b : CreditState K), a.reduced = b.reduced → a.total = b.total → a.bestW = b.bestW →
      (cur.foldl (creditStep scr charge) a).reduced = (cur.foldl (creditStep scr charge') b).reduced ∧
      (cur.foldl (creditStep scr charge) a).total = (cur.foldl (creditStep scr charge') b).total := by
  induction cur with
  | nil => intro a b h1 h2 _; exact ⟨h1, h2⟩
  | cons x cur ih =>
    intro a b h1 h2 h3
    simp only [List.foldl_cons]
    apply ih
    all_goals
      simp only [creditStep, h3]
      split_ifs <;> simp [h1, h2, h3]

/-- The stored weights do not depend on the charge. -/
theorem edgeStored_indep (argsortW : List (ℕ × K) → List (ℕ × K)) (chg chg' : ℕ → K)
    (row : ℕ → List (K × ℤ)) (edges : List ℕ) : ∀ (a b : EdgeState K), a.stored = b.stored →
      (edges.foldl (edgeStep W chg argsortW row) a).stored =
        (edges.foldl (edgeStep W chg' argsortW row) b).stored := by
  induction edges with
  | nil => intro a b h; exact h
  | cons v l ih =>
    intro a b h
    simp only [List.foldl_cons]
    apply ih
    simp only [edgeStep, h]
    obtain ⟨h1, h2⟩ := creditFold_reduced_indep (gather b.stored (row v)).1 (chg v) (chg' v)
      ((gather b.stored (row v)).2.insertionSort (· ≤ ·))
      ⟨a.charges, a.volumes, -1, 0, false, [], 0⟩ ⟨b.charges, b.volumes, -1, 0, false, [], 0⟩ rfl rfl rfl
    rw [h1, h2]

end BaderKit
