import Verif.Spec.ElfCharges
import Verif.Props.Assign
import Mathlib.Algebra.Order.BigOperators.Ring.Finset
import Mathlib.Algebra.Order.BigOperators.Group.List
import Mathlib.Algebra.Order.AbsoluteValue.Basic
import Mathlib.Tactic.Linarith
import Mathlib.Tactic.FieldSimp
import Mathlib.Data.Rat.Floor
/-!
# C42: charges of ELF features
-/
namespace BaderKit
variable {K : Type} [Field K] [LinearOrder K]

theorem giveShares_spec (n : ℕ) (c v : K) : ∀ (fr : List (ℕ × K)) (st : (ℕ → K) × (ℕ → K)), (∀ e ∈ fr, e.1 < n) →
    ∃ r, giveShares n fr c v st = some r ∧ ∀ i, r.1 i = st.1 i + c * ((fr.filter (fun e => decide (e.1 = i))).map Prod.snd).sum ∧
      r.2 i = st.2 i + v * ((fr.filter (fun e => decide (e.1 = i))).map Prod.snd).sum := by
  intro fr
  induction fr with
  | nil => intro st _; exact ⟨st, rfl, fun i => by simp⟩
  | cons e fr ih =>
    intro st h
    obtain ⟨r, hr, hi⟩ := ih (Function.update st.1 e.1 (st.1 e.1 + c * e.2), Function.update st.2 e.1 (st.2 e.1 + v * e.2))
      (fun x hx => h x (by simp [hx]))
    refine ⟨r, ?_, ?_⟩
    · unfold giveShares at hr ⊢
      rw [List.foldlM_cons, if_pos (h e (by simp))]
      exact hr
    · intro i
      obtain ⟨h1, h2⟩ := hi i
      rw [h1, h2]
      by_cases hei : e.1 = i
      · subst hei
        simp only [Function.update_self, List.filter_cons, decide_true, if_true, List.map_cons, List.sum_cons]
        constructor <;> ring
      · simp only [Function.update_of_ne (Ne.symm hei), List.filter_cons, hei, decide_false, Bool.false_eq_true, if_false, and_self]

theorem dedup_filter_sum (coord : List ℕ) (g : ℕ → K) (i : ℕ) (hg : i ∉ coord → g i = 0) :
    (((coord.dedup.map fun a => (a, g a)).filter (fun e => decide (e.1 = i))).map Prod.snd).sum = g i := by
  rw [List.filter_map, List.map_map]
  have h1 : (coord.dedup.filter ((fun e : ℕ × K => decide (e.1 = i)) ∘ fun a => (a, g a))) = if i ∈ coord then [i] else [] := by
    have : ((fun e : ℕ × K => decide (e.1 = i)) ∘ fun a => (a, g a)) = fun a => a == i := by
      funext a; simp [beq_eq_decide]
    rw [this, List.filter_beq]
    split_ifs with h
    · rw [List.count_dedup, if_pos h]; rfl
    · rw [List.count_dedup, if_neg h]; rfl
  rw [h1]
  split_ifs with h
  · simp
  · simp [hg h]

theorem zip_filter_sum (ws : K → K) : ∀ (coord : List ℕ) (l : List K) (i : ℕ),
    ((((coord.zip (l.map ws)).filter (fun e => decide (e.1 = i))).map Prod.snd).sum) =
      (((coord.zip l).filter (fun e => decide (e.1 = i))).map (fun p => ws p.2)).sum := by
  intro coord
  induction coord with
  | nil => intro l i; simp
  | cons a coord ih =>
    intro l i
    cases l with
    | nil => simp
    | cons d l =>
      simp only [List.map_cons, List.zip_cons_cons, List.filter_cons]
      split_ifs <;> simp [ih]

theorem filter_div_sum (t : K) (l : List (ℕ × K)) (w : ℕ × K → K) : (l.map (fun p => w p / t)).sum = (l.map w).sum / t := by
  induction l with
  | nil => simp
  | cons a l ih => simp only [List.map_cons, List.sum_cons, ih]; ring

theorem count_filter_sum (c : K) : ∀ (coord : List ℕ) (dists : List K), coord.length = dists.length → ∀ (f : ℕ → K) (i : ℕ),
    (((coord.zip dists).filter (fun p => decide (p.1 = i))).map (fun p => f p.1)).sum = f i * (coord.count i : K) := by
  intro coord
  induction coord with
  | nil => intro d _ f i; simp
  | cons a coord ih =>
    intro d hd f i
    cases d with
    | nil => simp at hd
    | cons x d =>
      have hd' : coord.length = d.length := by simpa using hd
      simp only [List.zip_cons_cons, List.filter_cons]
      by_cases h : a = i
      · subst h
        simp only [decide_true, if_true, List.map_cons, List.sum_cons, ih d hd', List.count_cons_self]
        push_cast; ring
      · simp only [h, decide_false, Bool.false_eq_true, if_false, ih d hd']
        rw [List.count_cons_of_ne h]

theorem zip_map_fst (coord : List ℕ) (dists : List K) (h : coord.length = dists.length) (f : ℕ → K) :
    (coord.zip dists).map (fun p => f p.1) = coord.map f := by
  have : (coord.zip dists).map (fun p => f p.1) = ((coord.zip dists).map Prod.fst).map f := by rw [List.map_map]; rfl
  rw [this, List.map_fst_zip (by omega)]

theorem zip_map_snd (coord : List ℕ) (dists : List K) (h : coord.length = dists.length) (f : K → K) :
    (coord.zip dists).map (fun p => f p.2) = dists.map f := by
  have : (coord.zip dists).map (fun p => f p.2) = ((coord.zip dists).map Prod.snd).map f := by rw [List.map_map]; rfl
  rw [this, List.map_snd_zip (by omega)]

/-- The methods that divide by weight. -/
def Splitting.Weighted (m : Splitting) : Prop := m = .equal ∨ m = .pauling ∨ m = .dist ∨ m = .weightedDist

theorem splitFractions_spec {m : Splitting} (hm : m.Weighted) (radii en : ℕ → K) (coord : List ℕ) (dists d0 : List K)
    (hlen : coord.length = dists.length) :
    ∃ fr, splitFractions m radii en coord dists d0 = some fr ∧ (∀ e ∈ fr, e.1 ∈ coord) ∧
      ∀ i, ((fr.filter (fun e => decide (e.1 = i))).map Prod.snd).sum = idealShare m radii en (coord.zip dists) i := by
  rcases hm with rfl | rfl | rfl | rfl
  · refine ⟨_, rfl, ?_, ?_⟩
    · intro e he
      obtain ⟨a, ha, rfl⟩ := List.mem_map.mp he
      exact List.mem_dedup.mp ha
    · intro i
      rw [dedup_filter_sum coord (fun a => 1 / (coord.length : K) * (coord.count a : K)) i (by intro h; simp [List.count_eq_zero.mpr h])]
      unfold idealShare
      have e1 : splitWeight .equal radii en = fun p : ℕ × K => (fun _ => (1 : K)) p.1 := by funext p; rfl
      rw [e1, count_filter_sum 0 coord dists hlen (fun _ => 1) i, zip_map_fst coord dists hlen (fun _ => 1)]
      simp
      ring
  · refine ⟨_, rfl, ?_, ?_⟩
    · intro e he
      obtain ⟨a, ha, rfl⟩ := List.mem_map.mp he
      exact List.mem_dedup.mp ha
    · intro i
      rw [dedup_filter_sum coord (fun a => en a / (coord.map en).sum * (coord.count a : K)) i (by intro h; simp [List.count_eq_zero.mpr h])]
      unfold idealShare
      have e1 : splitWeight .pauling radii en = fun p : ℕ × K => en p.1 := by funext p; rfl
      rw [e1, count_filter_sum 0 coord dists hlen en i, zip_map_fst coord dists hlen en]
      ring
  · refine ⟨_, rfl, ?_, ?_⟩
    · intro e he
      exact (List.of_mem_zip he).1
    · intro i
      rw [List.map_map, zip_filter_sum]
      unfold idealShare
      have e1 : splitWeight .dist radii en = fun p : ℕ × K => (fun d => 1 / d) p.2 := by funext p; rfl
      rw [e1, zip_map_snd coord dists hlen (fun d => 1 / d)]
      exact filter_div_sum _ _ (fun p => 1 / p.2)
  · refine ⟨_, rfl, ?_, ?_⟩
    · intro e he
      exact (List.of_mem_zip he).1
    · intro i
      have hz : List.zipWith (fun a d => radii a / d) coord dists = (coord.zip dists).map (splitWeight .weightedDist radii en) := by
        rw [List.zip, List.map_zipWith]; rfl
      rw [hz]
      unfold idealShare
      generalize ((coord.zip dists).map (splitWeight .weightedDist radii en)).sum = t
      rw [← filter_div_sum, List.map_map]
      clear hz
      induction coord generalizing dists with
      | nil => simp
      | cons a coord ih =>
        cases dists with
        | nil => simp
        | cons d dists =>
          have := ih dists (by simpa using hlen)
          simp only [List.zip_cons_cons, List.map_cons, List.filter_cons]
          split_ifs
          · simp only [List.map_cons, List.sum_cons]; rw [this]; rfl
          · exact this

/-- A feature is usable: it is treated as an electride, or it has coordinated atoms, which are sites, with one distance for each. -/
def FeatureOk (useE : Bool) (n : ℕ) (f : ElfFeature K) : Prop :=
  (useE = true ∧ f.bare = true) ∨
    (usedCoord useE f ≠ [] ∧ (∀ a ∈ usedCoord useE f, a < n) ∧ (usedCoord useE f).length = (usedDists useE f).length)

theorem featureFractions_spec {m : Splitting} (hm : m.Weighted) (useE : Bool) (radii en : ℕ → K) {f : ElfFeature K}
    (h0 : usedCoord useE f ≠ []) (hlen : (usedCoord useE f).length = (usedDists useE f).length) :
    ∃ fr, featureFractions m useE radii en f = some fr ∧ (∀ e ∈ fr, e.1 ∈ usedCoord useE f) ∧
      ∀ i, ((fr.filter (fun e => decide (e.1 = i))).map Prod.snd).sum = coordinatedShare m radii en (usedCoord useE f) (usedDists useE f) i := by
  unfold featureFractions
  have e1 : (if useE = true then f.coordE else f.coord) = usedCoord useE f := rfl
  have e2 : (if useE = true then f.distsE else f.dists) = usedDists useE f := rfl
  simp only [e1, e2]
  generalize usedCoord useE f = coord at *
  match coord, h0, hlen with
  | [a], _, _ =>
    refine ⟨[(a, 1)], rfl, by simp, fun i => ?_⟩
    unfold coordinatedShare
    by_cases h : i = a
    · subst h; simp
    · simp [h, Ne.symm h]
  | a :: b :: c, _, hlen =>
    exact splitFractions_spec hm radii en _ _ _ hlen

theorem chargeLoop_spec {m : Splitting} (hm : m.Weighted) (useE : Bool) (radii en : ℕ → K) (atoms n : ℕ) :
    ∀ (fs : List (ElfFeature K)) (el : ℕ) (st : (ℕ → K) × (ℕ → K)), (∀ f ∈ fs, FeatureOk useE n f) →
      (useE = true → atoms + el + (fs.filter (fun f => f.bare)).length ≤ n) →
      ∃ r, chargeLoop m useE radii en atoms n fs el st = some r ∧ ∀ i,
        r.1 i = st.1 i + ∑ j ∈ Finset.range fs.length, (fs[j]?.elim 0 ElfFeature.charge) * idealFraction m useE radii en (atoms + el) fs j i ∧
        r.2 i = st.2 i + ∑ j ∈ Finset.range fs.length, (fs[j]?.elim 0 ElfFeature.volume) * idealFraction m useE radii en (atoms + el) fs j i := by
  intro fs
  induction fs with
  | nil => intro el st _ _; exact ⟨st, rfl, fun i => by simp⟩
  | cons f fs ih =>
    intro el st hok hn
    -- the head of the sums
    have hshift : ∀ (at' : ℕ), atoms + el + (if useE = true ∧ f.bare = true then 1 else 0) = at' → ∀ j i,
        idealFraction m useE radii en (atoms + el) (f :: fs) (j + 1) i = idealFraction m useE radii en at' fs j i := by
      intro at' hat j i
      unfold idealFraction
      simp only [List.getElem?_cons_succ, List.take_succ_cons, List.filter_cons]
      cases fs[j]? with
      | none => rfl
      | some f' =>
        simp only
        by_cases hb : useE = true ∧ f'.bare = true
        · simp only [if_pos hb]
          subst hat
          cases hbare : f.bare with
          | true => simp [hb.1]; grind
          | false => simp
        · simp only [if_neg hb]
    unfold chargeLoop
    by_cases hb : useE = true ∧ f.bare = true
    · rw [if_pos hb]
      have hn' := hn hb.1
      rw [List.filter_cons, if_pos hb.2, List.length_cons] at hn'
      obtain ⟨s, hs, hsi⟩ := giveShares_spec n f.charge f.volume [(atoms + el, 1)] st (by
        intro e he; rw [List.mem_singleton] at he; subst he; show atoms + el < n; omega)
      obtain ⟨r, hr, hri⟩ := ih (el + 1) s (fun g hg => hok g (by simp [hg])) (fun _ => by omega)
      refine ⟨r, by rw [hs]; exact hr, fun i => ?_⟩
      obtain ⟨a1, a2⟩ := hri i
      obtain ⟨b1, b2⟩ := hsi i
      have h0 : idealFraction m useE radii en (atoms + el) (f :: fs) 0 i = if i = atoms + el then 1 else 0 := by
        unfold idealFraction
        rw [List.getElem?_cons_zero]
        simp only
        rw [if_pos hb]
        rfl
      have hone : (([(atoms + el, (1 : K))].filter (fun e => decide (e.1 = i))).map Prod.snd).sum = if i = atoms + el then 1 else 0 := by
        by_cases h : i = atoms + el
        · subst h; simp
        · simp [h, Ne.symm h]
      rw [List.length_cons, Finset.sum_range_succ', Finset.sum_range_succ', a1, a2, b1, b2, hone, h0]
      simp only [hshift (atoms + (el + 1)) (by rw [if_pos hb]; omega), List.getElem?_cons_succ, List.getElem?_cons_zero, Option.elim_some]
      constructor <;> ring
    · rw [if_neg hb]
      rcases hok f (by simp) with h | ⟨h0, hlt, hlen⟩
      · exact absurd h hb
      obtain ⟨fr, hfr, hmem, hsum⟩ := featureFractions_spec hm useE radii en h0 hlen
      obtain ⟨s, hs, hsi⟩ := giveShares_spec n f.charge f.volume fr st (fun e he => hlt _ (hmem e he))
      obtain ⟨r, hr, hri⟩ := ih el s (fun g hg => hok g (by simp [hg])) (fun h => by
        have := hn h
        rw [List.filter_cons, if_neg (fun h' => hb ⟨h, h'⟩)] at this
        exact this)
      refine ⟨r, by rw [hfr]; simp only [Option.bind_eq_bind, Option.bind_some]; rw [hs]; exact hr, fun i => ?_⟩
      obtain ⟨a1, a2⟩ := hri i
      obtain ⟨b1, b2⟩ := hsi i
      have h0 : idealFraction m useE radii en (atoms + el) (f :: fs) 0 i = ((fr.filter (fun e => decide (e.1 = i))).map Prod.snd).sum := by
        rw [hsum]
        unfold idealFraction
        rw [List.getElem?_cons_zero]
        simp only
        rw [if_neg hb]
      rw [List.length_cons, Finset.sum_range_succ', Finset.sum_range_succ', a1, a2, b1, b2, h0]
      simp only [hshift (atoms + el) (by rw [if_neg hb]; omega), List.getElem?_cons_succ, List.getElem?_cons_zero, Option.elim_some]
      constructor <;> ring

/-- **C42.** For the methods 'equal', 'pauling', 'dist' and 'weighted_dist', if all features are usable, every site receives from every
feature exactly its fraction: an electride keeps its own charge, a feature with one coordinated atom gives everything to it, and all others are
divided in proportion to 1, the electronegativity, 1/distance or radius/distance, counting an atom once per occurrence. -/
theorem C42_shares {m : Splitting} (hm : m.Weighted) (rnd : K → K) (useE : Bool) (radii en : ℕ → K) (atoms : ℕ) (fs : List (ElfFeature K))
    (hok : ∀ f ∈ fs, FeatureOk useE (chargeSites useE atoms fs) f) :
    ∃ r, chargesVolumes rnd m useE radii en atoms fs = some r ∧ ∀ i,
      r.1 i = rnd (∑ j ∈ Finset.range fs.length, (fs[j]?.elim 0 ElfFeature.charge) * idealFraction m useE radii en atoms fs j i) ∧
      r.2 i = rnd (∑ j ∈ Finset.range fs.length, (fs[j]?.elim 0 ElfFeature.volume) * idealFraction m useE radii en atoms fs j i) := by
  obtain ⟨r, hr, hi⟩ := chargeLoop_spec hm useE radii en atoms (chargeSites useE atoms fs) fs 0 (fun _ => 0, fun _ => 0) hok (by
    intro h; unfold chargeSites; rw [if_pos h]; omega)
  refine ⟨_, by unfold chargesVolumes; rw [hr]; rfl, fun i => ?_⟩
  obtain ⟨h1, h2⟩ := hi i
  simp only [Nat.add_zero, zero_add] at h1 h2
  exact ⟨by simp only [h1], by simp only [h2]⟩

variable [IsStrictOrderedRing K]

theorem sum_filter_range (w : ℕ × K → K) (n : ℕ) : ∀ (l : List (ℕ × K)), (∀ p ∈ l, p.1 < n) →
    ∑ i ∈ Finset.range n, ((l.filter (fun p => decide (p.1 = i))).map w).sum = (l.map w).sum := by
  intro l
  induction l with
  | nil => intro _; simp
  | cons p l ih =>
    intro h
    have h1 : ∀ i, (((p :: l).filter (fun q => decide (q.1 = i))).map w).sum = (if p.1 = i then w p else 0) + ((l.filter (fun q => decide (q.1 = i))).map w).sum := by
      intro i
      rw [List.filter_cons]
      by_cases hi : p.1 = i
      · simp [hi]
      · simp [hi]
    rw [Finset.sum_congr rfl (fun i _ => h1 i), Finset.sum_add_distrib, ih (fun q hq => h q (by simp [hq])), Finset.sum_ite_eq,
      if_pos (Finset.mem_range.mpr (h p (by simp)))]
    simp

/-- The fractions of one feature sum to one. -/
theorem idealFraction_sum {m : Splitting} (useE : Bool) (radii en : ℕ → K) (atoms : ℕ) (fs : List (ElfFeature K)) (j : ℕ)
    (f : ElfFeature K) (hf : fs[j]? = some f) (hok : FeatureOk useE (chargeSites useE atoms fs) f)
    (hpos : 2 ≤ (usedCoord useE f).length → 0 < (((usedCoord useE f).zip (usedDists useE f)).map (splitWeight m radii en)).sum) :
    ∑ i ∈ Finset.range (chargeSites useE atoms fs), idealFraction m useE radii en atoms fs j i = 1 := by
  unfold idealFraction
  rw [hf]
  simp only
  by_cases hb : useE = true ∧ f.bare = true
  · simp only [if_pos hb]
    rw [Finset.sum_ite_eq', if_pos]
    rw [Finset.mem_range]
    unfold chargeSites
    rw [if_pos hb.1]
    have hj : j < fs.length := by
      by_contra h
      rw [List.getElem?_eq_none (by omega)] at hf; cases hf
    have hsplit : fs = fs.take j ++ f :: fs.drop (j + 1) := by
      conv_lhs => rw [← List.take_append_drop j fs]
      congr 1
      rw [List.drop_eq_getElem_cons hj]
      rw [List.getElem?_eq_getElem hj] at hf
      rw [Option.some.inj hf]
    have : (fs.filter (fun f => f.bare)).length = ((fs.take j).filter (fun f => f.bare)).length + ((f :: fs.drop (j + 1)).filter (fun f => f.bare)).length := by
      conv_lhs => rw [hsplit]
      rw [List.filter_append, List.length_append]
    rw [this, List.filter_cons, if_pos hb.2, List.length_cons]
    omega
  · simp only [if_neg hb]
    rcases hok with h | ⟨h0, hlt, hlen⟩
    · exact absurd h hb
    generalize usedDists useE f = ds at *
    generalize usedCoord useE f = cs at *
    match cs, h0, hlt, hlen, hpos with
    | [a], _, hlt, _, _ =>
      simp only [coordinatedShare]
      rw [Finset.sum_ite_eq', if_pos (Finset.mem_range.mpr (hlt a (by simp)))]
    | a :: b :: c, _, hlt, hlen, hpos =>
      simp only [coordinatedShare, idealShare]
      rw [← Finset.sum_div, sum_filter_range _ _ _ (fun p hp => hlt _ (List.of_mem_zip hp).1)]
      exact div_self (ne_of_gt (hpos (by simp)))

/-- **C42.** For these methods the charges of all sites together are the charges of all features, up to the final rounding to ten
decimals; likewise the volumes.  The weights only have to be positive in sum for every shared feature. -/
theorem C42_total {m : Splitting} (hm : m.Weighted) (rnd : K → K) (hrnd : ∀ x, |rnd x - x| ≤ 1 / (2 * 10 ^ 10)) (useE : Bool) (radii en : ℕ → K)
    (atoms : ℕ) (fs : List (ElfFeature K)) (hok : ∀ f ∈ fs, FeatureOk useE (chargeSites useE atoms fs) f)
    (hpos : ∀ f ∈ fs, 2 ≤ (usedCoord useE f).length → 0 < (((usedCoord useE f).zip (usedDists useE f)).map (splitWeight m radii en)).sum) :
    ∃ r, chargesVolumes rnd m useE radii en atoms fs = some r ∧
      |∑ i ∈ Finset.range (chargeSites useE atoms fs), r.1 i - (fs.map ElfFeature.charge).sum| ≤ (chargeSites useE atoms fs : K) / (2 * 10 ^ 10) ∧
      |∑ i ∈ Finset.range (chargeSites useE atoms fs), r.2 i - (fs.map ElfFeature.volume).sum| ≤ (chargeSites useE atoms fs : K) / (2 * 10 ^ 10) := by
  obtain ⟨r, hr, hi⟩ := C42_shares hm rnd useE radii en atoms fs hok
  refine ⟨r, hr, ?_⟩
  set n := chargeSites useE atoms fs with hn
  have key : ∀ (q : ElfFeature K → K) (res : ℕ → K),
      (∀ i, res i = rnd (∑ j ∈ Finset.range fs.length, (fs[j]?.elim 0 q) * idealFraction m useE radii en atoms fs j i)) →
      |∑ i ∈ Finset.range n, res i - (fs.map q).sum| ≤ (n : K) / (2 * 10 ^ 10) := by
    intro q res hres
    have htot : (fs.map q).sum = ∑ i ∈ Finset.range n, ∑ j ∈ Finset.range fs.length, (fs[j]?.elim 0 q) * idealFraction m useE radii en atoms fs j i := by
      rw [Finset.sum_comm]
      have h1 : ∀ j ∈ Finset.range fs.length, ∑ i ∈ Finset.range n, (fs[j]?.elim 0 q) * idealFraction m useE radii en atoms fs j i = (fs.map q).getD j 0 := by
        intro j hj
        have hj' := Finset.mem_range.mp hj
        rw [← Finset.mul_sum, idealFraction_sum useE radii en atoms fs j fs[j] (List.getElem?_eq_getElem hj') (hok _ (List.getElem_mem hj'))
          (hpos _ (List.getElem_mem hj')), mul_one, List.getElem?_eq_getElem hj', Option.elim_some]
        rw [List.getD_eq_getElem _ _ (by simpa using hj')]
        simp
      rw [Finset.sum_congr rfl h1, list_sum_range, List.length_map]
    rw [htot, ← Finset.sum_sub_distrib]
    refine (Finset.abs_sum_le_sum_abs _ _).trans ?_
    refine (Finset.sum_le_sum (g := fun _ => (1 : K) / (2 * 10 ^ 10)) (fun i _ => by rw [hres i]; exact hrnd _)).trans ?_
    rw [Finset.sum_const, Finset.card_range, nsmul_eq_mul]
    exact le_of_eq (by ring)
  exact ⟨key _ _ (fun i => (hi i).1), key _ _ (fun i => (hi i).2)⟩

/-- Positive distances, radii and electronegativities give positive weights. -/
theorem C42_positive_weights {m : Splitting} (hm : m.Weighted) (radii en : ℕ → K) (cs : List ℕ) (ds : List K) (hlen : cs.length = ds.length)
    (h2 : 2 ≤ cs.length) (hd : ∀ d ∈ ds, 0 < d) (hr : ∀ a ∈ cs, 0 < radii a) (he : ∀ a ∈ cs, 0 < en a) :
    0 < ((cs.zip ds).map (splitWeight m radii en)).sum := by
  have hne : cs.zip ds ≠ [] := by
    intro h
    have := congrArg List.length h
    rw [List.length_zip, List.length_nil] at this
    omega
  have hall : ∀ x ∈ (cs.zip ds).map (splitWeight m radii en), 0 < x := by
    intro x hx
    obtain ⟨p, hp, rfl⟩ := List.mem_map.mp hx
    have h1 := List.of_mem_zip (show (p.1, p.2) ∈ cs.zip ds from hp)
    rcases hm with rfl | rfl | rfl | rfl
    · exact one_pos
    · exact he _ h1.1
    · exact one_div_pos.mpr (hd _ h1.2)
    · exact div_pos (hr _ h1.1) (hd _ h1.2)
  exact List.sum_pos _ hall (by simpa using hne)

/-! ### What fails -/

/-- **C42, not for 'nearest'.** With at least two coordinated atoms everything goes to the site whose index is the *position* of the smallest
distance in the coordination list (or the call raises), not to the coordinated atom at that position. -/
theorem C42_nearest_position (useE : Bool) (radii en : ℕ → K) {f : ElfFeature K} (h2 : 2 ≤ (usedCoord useE f).length) (hd : f.dists ≠ []) :
    ∃ k, (∃ hk : k < f.dists.length, ∀ (j : ℕ) (hj : j < f.dists.length), f.dists[k] ≤ f.dists[j]) ∧
      featureFractions .nearest useE radii en f = some [(k, 1)] := by
  obtain ⟨k, hk⟩ := argmin_isSome hd
  obtain ⟨h1, h3⟩ := argmin_spec hk
  refine ⟨k, ⟨h1, fun j hj => (h3 j hj).1⟩, ?_⟩
  unfold featureFractions
  have e1 : (if useE = true then f.coordE else f.coord) = usedCoord useE f := rfl
  simp only [e1]
  match usedCoord useE f, h2 with
  | a :: b :: c, _ => simp only [splitFractions]; rw [hk]; rfl

/-- The witness: a bond between the atoms 2 and 3, closer to atom 3.  'nearest' gives its charge to atom 1; atom 3 gets nothing. -/
theorem C42_nearest_wrong :
    (chargesVolumes (fun x => x) .nearest false (fun _ => 1) (fun _ => 1) 4
      [(⟨2, 5, false, [2, 3], [2, 1], [2, 3], [2, 1], [0], "covalent"⟩ : ElfFeature ℚ)]).map (fun r => (r.1 0, r.1 1, r.1 2, r.1 3)) =
    some (0, 2, 0, 0) := by
  decide +kernel

/-- **C42, not without neighbours.** The case without coordinated atoms, meant to fall back to the nearest atom, raises: the list of
distances is empty too. -/
theorem C42_no_neighbours_raise (m : Splitting) (radii en : ℕ → K) {f : ElfFeature K} (h : f.coord = []) (hd : f.dists = []) :
    featureFractions m false radii en f = none := by
  unfold featureFractions
  simp [h, hd, argmin]

/-- **C42, contrary to the documentation.** 'pauling' gives the larger fraction to the atom with the larger electronegativity. -/
theorem C42_pauling_increases (radii en : ℕ → K) (a b : ℕ) (da db : K) (ha : 0 < en a) (hlt : en a < en b) :
    idealShare .pauling radii en [(a, da), (b, db)] a < idealShare .pauling radii en [(a, da), (b, db)] b := by
  have hab : a ≠ b := by rintro rfl; exact lt_irrefl _ hlt
  unfold idealShare
  simp only [List.filter_cons, hab, hab.symm, decide_true, decide_false, if_true, List.filter_nil, List.map_cons, List.map_nil, List.sum_cons,
    List.sum_nil, splitWeight, Bool.false_eq_true, if_false, add_zero]
  exact div_lt_div_of_pos_right hlt (by linarith)

/-- The hypotheses of `C42_total` hold for a core, a bond counted with two images, and an electride; the result. -/
example :
    (chargesVolumes (fun x => x) .weightedDist true (fun a => (a : ℚ) + 1) (fun _ => 1) 2
      [(⟨2, 1, false, [0], [0], [0], [0], [0], "core"⟩ : ElfFeature ℚ), ⟨1, 3, true, [0, 1], [1, 1], [0, 1], [1, 1], [1], "electride"⟩,
       ⟨6, 12, false, [0, 1, 1], [1, 2, 2], [0, 1, 1], [1, 2, 2], [2, 3], "covalent"⟩]).map
        (fun r => ([r.1 0, r.1 1, r.1 2], [r.2 0, r.2 1, r.2 2])) = some ([4, 4, 1], [5, 8, 3]) := by
  decide +kernel

end BaderKit
