import Verif.Model.BadelfDim
import Mathlib.Algebra.BigOperators.Group.List.Basic
import Mathlib.Data.Rat.Floor
import Mathlib.Tactic.NormNum
/-!
# C40: combination of the two spin channels
-/
namespace BaderKit

section field
variable {K : Type*} [Field K] [LinearOrder K] [FloorRing K]
variable {σ : Type*}

omit [LinearOrder K] [FloorRing K] in
/-- Specification of the merged list: site `i` of the spin-up structure receives its own value and those of the
spin-down sites found at position `i`; the values of the other spin-down sites follow in order. -/
def mergedSpec (eqv : σ → σ → Bool) (up : List σ) (vals : List K) (down : List (σ × K)) : List K :=
  ((List.range up.length).map fun i => vals.getD i 0 +
    ((down.filter fun x => siteIndex eqv up x.1 = some i).map fun x => x.2).sum) ++
  ((down.filter fun x => siteIndex eqv up x.1 = none).map fun x => x.2)

omit [LinearOrder K] [FloorRing K] in
theorem siteIndex_lt {eqv : σ → σ → Bool} {up : List σ} {x : σ} {i : ℕ} (h : siteIndex eqv up x = some i) :
    i < up.length := by
  unfold siteIndex at h
  rw [List.findIdx?_eq_some_iff_findIdx_eq] at h
  exact h.1

theorem spinMerge_spec (eqv : σ → σ → Bool) (up : List σ) (vals : List K) (hv : vals.length = up.length)
    (down : List (σ × K)) : spinMerge eqv up vals down = mergedSpec eqv up vals down := by
  induction down using List.reverseRecOn with
  | nil =>
    simp only [spinMerge, mergedSpec, List.foldl_nil, List.filter_nil, List.map_nil, List.sum_nil, add_zero,
      List.append_nil]
    apply List.ext_getElem
    · simp [hv]
    · intro i h1 h2
      rw [List.getElem_map, List.getElem_range, List.getD_eq_getElem?_getD, List.getElem?_eq_getElem h1]
      rfl
  | append_singleton ds x ih =>
    have hstep : spinMerge eqv up vals (ds ++ [x]) =
        (match siteIndex eqv up x.1 with
        | some i => (spinMerge eqv up vals ds).set i ((spinMerge eqv up vals ds).getD i 0 + x.2)
        | none => spinMerge eqv up vals ds ++ [x.2]) := by
      unfold spinMerge
      rw [List.foldl_append]
      rfl
    rw [hstep, ih]
    cases hx : siteIndex eqv up x.1 with
    | none =>
      simp only [mergedSpec, List.filter_append, List.map_append, List.sum_append]
      simp [hx, List.append_assoc]
    | some j =>
      have hj := siteIndex_lt hx
      simp only
      apply List.ext_getElem
      · simp [mergedSpec, List.filter_append, hx]
      · intro i h1 h2
        rw [List.length_set] at h1
        rw [List.getElem_set]
        unfold mergedSpec at h1 h2 ⊢
        by_cases hi : i < up.length
        · rw [List.getElem_append_left (by simpa using hi), List.getElem_append_left (by simpa using hi)]
          simp only [List.getElem_map, List.getElem_range]
          by_cases hij : j = i
          · subst hij
            rw [if_pos rfl, List.getD_eq_getElem?_getD, List.getElem?_append_left (by simpa using hi),
              List.getElem?_eq_getElem (by simpa using hi)]
            simp only [List.getElem_map, List.getElem_range, Option.getD_some, List.filter_append, List.map_append,
              List.sum_append]
            simp [hx, add_assoc]
          · rw [if_neg hij]
            simp only [List.filter_append, List.map_append, List.sum_append]
            simp [hx, hij]
        · rw [if_neg (by omega), List.getElem_append_right (by simpa using hi),
            List.getElem_append_right (by simpa using hi)]
          have : (ds ++ [x]).filter (fun x => decide (siteIndex eqv up x.1 = none)) =
              ds.filter (fun x => decide (siteIndex eqv up x.1 = none)) := by
            simp [List.filter_append, hx]
          simp only [this, List.length_map, List.length_range]

theorem spinMerge_sum (eqv : σ → σ → Bool) (up : List σ) (vals : List K) (hv : vals.length = up.length)
    (down : List (σ × K)) : (spinMerge eqv up vals down).sum = vals.sum + (down.map fun x => x.2).sum := by
  have hset : ∀ (l : List K) (i : ℕ) (a : K), i < l.length → (l.set i (l.getD i 0 + a)).sum = l.sum + a := by
    intro l
    induction l with
    | nil => intro i a h; simp at h
    | cons y ys ih =>
      intro i a h
      cases i with
      | zero => simp; ring
      | succ i =>
        have := ih i a (by simpa using h)
        simp only [List.getD_cons_succ, List.set_cons_succ, List.sum_cons]
        rw [this]; ring
  have key : (spinMerge eqv up vals down).sum = vals.sum + (down.map fun x => x.2).sum ∧
      vals.length ≤ (spinMerge eqv up vals down).length := by
    induction down using List.reverseRecOn with
    | nil => simp [spinMerge]
    | append_singleton ds x ih =>
      have hstep : spinMerge eqv up vals (ds ++ [x]) =
          (match siteIndex eqv up x.1 with
          | some i => (spinMerge eqv up vals ds).set i ((spinMerge eqv up vals ds).getD i 0 + x.2)
          | none => spinMerge eqv up vals ds ++ [x.2]) := by
        unfold spinMerge
        rw [List.foldl_append]
        rfl
      rw [hstep]
      cases hx : siteIndex eqv up x.1 with
      | none =>
        simp only [List.sum_append, List.map_append, List.length_append]
        refine ⟨?_, by omega⟩
        rw [ih.1]; simp [add_assoc]
      | some j =>
        have hj := siteIndex_lt hx
        simp only
        rw [hset _ _ _ (by omega), List.length_set, ih.1]
        refine ⟨?_, ih.2⟩
        simp [List.sum_append, add_assoc]
  exact key.1

omit [FloorRing K] [LinearOrder K] in
theorem zip_snd (down : List σ) (cd : List K) (h : cd.length = down.length) :
    ((down.zip cd).map fun x => x.2) = cd := by
  have : ((down.zip cd).map fun x => x.2) = (down.zip cd).map Prod.snd := rfl
  rw [this, List.map_snd_zip]
  omega

/-- C40: the combined charges sum to the totals of both channels, and the combined volumes to their average. -/
theorem C40_total (eqv : σ → σ → Bool) (up down : List σ) (cu cd vu vd : List K)
    (h1 : cu.length = up.length) (h2 : cd.length = down.length) (h3 : vu.length = up.length)
    (h4 : vd.length = down.length) :
    (spinCharges eqv up down cu cd vu vd).1.sum = cu.sum + cd.sum ∧
    (spinCharges eqv up down cu cd vu vd).2.sum = (vu.sum + vd.sum) / 2 := by
  have hdiv : ∀ l : List K, (l.map fun x => x / 2).sum = l.sum / 2 := by
    intro l
    induction l with
    | nil => simp
    | cons x xs ih => simp [ih, add_div]
  unfold spinCharges
  refine ⟨?_, ?_⟩
  · simp only
    rw [spinMerge_sum eqv up cu h1, zip_snd down cd h2]
  · simp only
    rw [hdiv, spinMerge_sum eqv up vu h3, zip_snd down vd h4]

/-- C40: what each entry is: a spin-up site has its own charge plus the charges of the spin-down sites equal to it
and to no earlier site; the other spin-down sites follow in their order.  Volumes are the same divided by two. -/
theorem C40_entries (eqv : σ → σ → Bool) (up down : List σ) (cu cd vu vd : List K)
    (h1 : cu.length = up.length) (h3 : vu.length = up.length) :
    (spinCharges eqv up down cu cd vu vd).1 = mergedSpec eqv up cu (down.zip cd) ∧
    (spinCharges eqv up down cu cd vu vd).2 = (mergedSpec eqv up vu (down.zip vd)).map (fun x => x / 2) := by
  unfold spinCharges
  simp only [spinMerge_spec eqv up cu h1, spinMerge_spec eqv up vu h3, and_self]

/-- The position of a site is the first equal one. -/
theorem C40_position (eqv : σ → σ → Bool) (up : List σ) (x : σ) :
    (∀ i, siteIndex eqv up x = some i ↔
      ∃ h : i < up.length, eqv up[i] x = true ∧ ∀ j (hj : j < i), eqv up[j] x = false) ∧
    (siteIndex eqv up x = none ↔ ∀ y ∈ up, eqv y x = false) := by
  unfold siteIndex
  refine ⟨fun i => ?_, ?_⟩
  · rw [List.findIdx?_eq_some_iff_getElem]
    constructor
    · rintro ⟨h, h1, h2⟩
      exact ⟨h, h1, fun j hj => by simpa using h2 j hj⟩
    · rintro ⟨h, h1, h2⟩
      exact ⟨h, h1, fun j hj => by simpa using h2 j hj⟩
  · rw [List.findIdx?_eq_none_iff]

/-- C40: with identical channels without two equal sites every charge is doubled and every volume unchanged. -/
theorem C40_unpolarised [CharZero K] (eqv : σ → σ → Bool) (up : List σ) (c v : List K) (h1 : c.length = up.length)
    (h2 : v.length = up.length)
    (heq : ∀ i j (hi : i < up.length) (hj : j < up.length), eqv up[i] up[j] = true ↔ i = j) :
    (spinCharges eqv up up c c v v).1 = c.map (fun x => 2 * x) ∧ (spinCharges eqv up up c c v v).2 = v := by
  have hidx : ∀ i (hi : i < up.length), siteIndex eqv up up[i] = some i := by
    intro i hi
    rw [(C40_position eqv up up[i]).1 i]
    refine ⟨hi, (heq i i hi hi).mpr rfl, fun j hj => ?_⟩
    by_contra hne
    have := (heq j i (by omega) hi).mp (by simpa using hne)
    omega
  have key : ∀ c : List K, c.length = up.length → mergedSpec eqv up c (up.zip c) = c.map (fun x => 2 * x) := by
    intro c hc
    have hnone : (up.zip c).filter (fun x => siteIndex eqv up x.1 = none) = [] := by
      rw [List.filter_eq_nil_iff]
      rintro ⟨x, y⟩ hxy
      obtain ⟨n, hn, he⟩ := List.mem_iff_getElem.mp hxy
      rw [List.getElem_zip] at he
      have hx : x = up[n]'(by simpa [hc] using hn) := (congrArg Prod.fst he).symm
      simp only [hx, hidx n (by simpa [hc] using hn)]
      simp
    have hone : ∀ i (hi : i < up.length), ((up.zip c).filter fun x => siteIndex eqv up x.1 = some i) =
        [(up[i], c[i]'(by omega))] := by
      intro i hi
      have hz : ∀ (n : ℕ) (hn : n < (up.zip c).length),
          siteIndex eqv up ((up.zip c)[n]).1 = some n := by
        intro n hn
        rw [List.getElem_zip]
        exact hidx n (by simpa [hc] using hn)
      have hlen : i < (up.zip c).length := by simpa [hc] using hi
      have hgen : ∀ (l : List (σ × K)) (k : ℕ),
          (∀ n (hn : n < l.length), siteIndex eqv up (l[n]).1 = some (k + n)) → ∀ n (hn : n < l.length),
          (l.filter fun x => siteIndex eqv up x.1 = some (k + n)) = [l[n]] := by
        intro l
        induction l with
        | nil => intro k _ n hn; simp at hn
        | cons y ys ih =>
          intro k hk n hn
          have hy : siteIndex eqv up y.1 = some k := hk 0 (by simp)
          have hys : ∀ n (hn : n < ys.length), siteIndex eqv up (ys[n]).1 = some (k + 1 + n) := by
            intro n hn
            have := hk (n + 1) (by simpa using hn)
            rw [List.getElem_cons_succ] at this
            rw [this]; congr 1; omega
          cases n with
          | zero =>
            rw [List.filter_cons_of_pos (by simp [hy])]
            simp only [List.getElem_cons_zero, List.cons.injEq, true_and, add_zero]
            rw [List.filter_eq_nil_iff]
            intro x hx
            obtain ⟨m, hm, he⟩ := List.mem_iff_getElem.mp hx
            rw [← he, hys m hm]
            simp; omega
          | succ n =>
            rw [List.filter_cons_of_neg (by simp [hy])]
            have := ih (k + 1) hys n (by simpa using hn)
            rw [List.getElem_cons_succ, ← this]
            congr 1
            funext x
            congr 2; congr 1; omega
      have := hgen (up.zip c) 0 (fun n hn => by rw [zero_add]; exact hz n hn) i hlen
      rw [zero_add] at this
      rw [this, List.getElem_zip]
    unfold mergedSpec
    rw [hnone, List.map_nil, List.append_nil]
    apply List.ext_getElem
    · simp [hc]
    · intro i hi1 hi2
      have hi : i < up.length := by simpa using hi1
      simp only [List.getElem_map, List.getElem_range, hone i hi]
      rw [List.getD_eq_getElem?_getD, List.getElem?_eq_getElem (by omega)]
      simp [two_mul]
  obtain ⟨e1, e2⟩ := C40_entries eqv up up c c v v h1 h2
  refine ⟨by rw [e1, key c h1], ?_⟩
  rw [e2, key v h2, List.map_map]
  apply List.ext_getElem
  · simp
  · intro i _ _
    simp

omit [Field K] [LinearOrder K] [FloorRing K] in
/-- C40: the sites of the combined electride structure are listed in the order of the charges: the sites of the
spin-up electride structure, then the spin-down ones that are not in it. -/
theorem C40_aligned (eqv : σ → σ → Bool) (bare : σ → Bool) (atoms featUp featDown : List σ)
    (hrefl : ∀ x, eqv x x = true) (hb : ∀ x y, eqv x y = true → bare x = bare y)
    (ha : ∀ x ∈ atoms, bare x = false) :
    spinElectride eqv bare atoms featUp featDown =
    (atoms ++ featUp.filter bare) ++
      ((atoms ++ featDown.filter bare).filter fun x => siteIndex eqv (atoms ++ featUp.filter bare) x = none) := by
  have hnone : ∀ (l : List σ) x, siteIndex eqv l x = none ↔ ∀ y ∈ l, eqv y x = false := by
    intro l x
    unfold siteIndex
    rw [List.findIdx?_eq_none_iff]
  unfold spinElectride spinLabeled
  rw [List.filter_append, List.filter_append, List.map_append, List.map_append, ← List.append_assoc,
    ← List.append_assoc]
  have f1 : (List.map (fun (x : σ × Option Bool) => x.1)
      ((atoms.map fun a => (a, (none : Option Bool))).filter fun x => bare x.1)) = [] := by
    rw [List.map_eq_nil_iff, List.filter_eq_nil_iff]
    intro x hx
    obtain ⟨a, h1, rfl⟩ := List.mem_map.mp hx
    simp [ha a h1]
  have fmap : ∀ (l : List σ) (g : σ → Option Bool), (((l.map fun x => (x, g x)).filter fun x => bare x.1).map fun x => x.1) =
      l.filter bare := by
    intro l g
    induction l with
    | nil => rfl
    | cons y ys ih =>
      by_cases h : bare y = true
      · simp only [List.map_cons]
        rw [List.filter_cons_of_pos (by simpa using h), List.filter_cons_of_pos h, List.map_cons, ih]
      · simp only [List.map_cons]
        rw [List.filter_cons_of_neg (by simpa using h), List.filter_cons_of_neg h, ih]
  rw [f1, fmap, List.append_nil]
  congr 1
  have := fmap (featDown.filter fun x => !((atoms ++ featUp).any fun y => eqv y x)) (fun _ => some false)
  rw [this, List.filter_append]
  have f3 : (atoms.filter fun x => decide (siteIndex eqv (atoms ++ featUp.filter bare) x = none)) = [] := by
    rw [List.filter_eq_nil_iff]
    intro x hx
    rw [decide_eq_true_eq, hnone]
    intro h
    have := h x (List.mem_append_left _ hx)
    rw [hrefl] at this
    simp at this
  rw [f3, List.nil_append, List.filter_filter, List.filter_filter]
  apply List.filter_congr
  intro x _
  by_cases h : bare x = true
  · rw [h, Bool.true_and, Bool.and_true, Bool.eq_iff_iff, decide_eq_true_eq, hnone, Bool.not_eq_true', List.any_eq_false]
    constructor
    · intro h2 y hy
      rcases List.mem_append.mp hy with hy | hy
      · simpa using h2 y (List.mem_append_left _ hy)
      · simpa using h2 y (List.mem_append_right _ (List.mem_filter.mp hy).1)
    · intro h2 y hy
      rcases List.mem_append.mp hy with hy | hy
      · simpa using h2 y (List.mem_append_left _ hy)
      · by_cases hby : bare y = true
        · simpa using h2 y (List.mem_append_right _ (List.mem_filter.mpr ⟨hy, hby⟩))
        · intro he
          exact hby ((hb y x he).trans h)
  · simp [h]

/-- C40: a charge for every site. -/
theorem C40_length (eqv : σ → σ → Bool) (bare : σ → Bool) (atoms featUp featDown : List σ)
    (hrefl : ∀ x, eqv x x = true) (hb : ∀ x y, eqv x y = true → bare x = bare y)
    (ha : ∀ x ∈ atoms, bare x = false) (cu cd vu vd : List K)
    (h1 : cu.length = (atoms ++ featUp.filter bare).length) (h2 : cd.length = (atoms ++ featDown.filter bare).length)
    (h3 : vu.length = (atoms ++ featUp.filter bare).length) :
    (spinCharges eqv (atoms ++ featUp.filter bare) (atoms ++ featDown.filter bare) cu cd vu vd).1.length =
    (spinElectride eqv bare atoms featUp featDown).length := by
  rw [C40_aligned eqv bare atoms featUp featDown hrefl hb ha, (C40_entries eqv _ _ cu cd vu vd h1 h3).1]
  generalize atoms ++ featUp.filter bare = up
  generalize atoms ++ featDown.filter bare = down at *
  unfold mergedSpec
  rw [List.length_append, List.length_append, List.length_map, List.length_map, List.length_range]
  congr 1
  have hz : down = (down.zip cd).map Prod.fst := by
    rw [List.map_fst_zip]; omega
  conv_rhs => rw [hz]
  rw [List.filter_map, List.length_map]
  rfl

/-- One atom, one electride in both channels, one in the spin-down channel only. -/
example : spinCharges (fun a b : ℕ => a == b) [0, 5] [0, 5, 6] [1, 2] [3, 4, 7] [1, 1] [1, 1, (1 : ℚ)] =
    ([4, 6, 7], [1, 1, 1 / 2]) := by
  decide +kernel
example : spinElectride (fun a b : ℕ => a == b) (fun x => decide (5 ≤ x)) [0] [5, 1] [1, 5, 6] = [0, 5, 6] := by
  decide

end field
end BaderKit
