import Verif.Lemmas.Facets
import Verif.Lemmas.Lines
import Verif.Props.CubeFraction
import Verif.Props.Transforms
import Mathlib.Analysis.Convex.Extreme
import Mathlib.Analysis.Convex.Segment
import Mathlib.Tactic.NormNum
import Mathlib.Tactic.Positivity
/-!
# C92: the planes that bound an atom
-/
namespace BaderKit
open Set

/-! ## Specification -/

/-- `y` is on the atom's side of the plane of a bond: its projection on the bond is at most the fraction of the bond. -/
def Beneath (site : V3 ℝ) (r : PlaneRow ℝ) (y : V3 ℝ) : Prop :=
  dotV (subV y site) (subV r.neighC site) ≤ r.frac * norm2 (subV r.neighC site)

/-- `y` is on the plane of a bond. -/
def OnPlane (site : V3 ℝ) (r : PlaneRow ℝ) (y : V3 ℝ) : Prop :=
  dotV (subV y site) (subV r.neighC site) = r.frac * norm2 (subV r.neighC site)

/-- The region of an atom. -/
def atomCell (site : V3 ℝ) (rows : List (PlaneRow ℝ)) : Set (V3 ℝ) := {y | ∀ r ∈ rows, Beneath site r y}

/-- Bonds with the same key are images of each other under a symmetry of the region. -/
def KeysSymmetric (site : V3 ℝ) (rows : List (PlaneRow ℝ)) : Prop :=
  ∀ r ∈ rows, ∀ r' ∈ rows, r.key = r'.key → ∃ T : V3 ℝ ≃ᵃ[ℝ] V3 ℝ, T '' atomCell site rows = atomCell site rows ∧ ∀ y, OnPlane site r y → OnPlane site r' (T y)

/-! ## Lemmas -/

theorem evH_planeEq {root : ℝ → ℝ} (site : V3 ℝ) (r : PlaneRow ℝ) (y : V3 ℝ) :
    evH (planeEq root site r.neighC r.frac) y * root (norm2 (subV r.neighC site)) =
      (dotV (subV y site) (subV r.neighC site) - r.frac * norm2 (subV r.neighC site)) * (root (norm2 (subV r.neighC site)) / root (norm2 (subV r.neighC site))) := by
  simp only [evH, planeEq, dotV, subV, addV, divV, norm2]
  ring

theorem root_pos' {root : ℝ → ℝ} (hr : IsRoot root) {d : V3 ℝ} (hd : d ≠ 0) : 0 < root (norm2 d) := by
  have h0 : 0 ≤ norm2 d := by unfold norm2; positivity
  have hne : norm2 d ≠ 0 := by
    intro h
    apply hd
    unfold norm2 at h
    have h1 := sq_nonneg d.1
    have h2 := sq_nonneg d.2.1
    have h3 := sq_nonneg d.2.2
    have e1 : d.1 = 0 := by nlinarith
    have e2 : d.2.1 = 0 := by nlinarith
    have e3 : d.2.2 = 0 := by nlinarith
    exact Prod.ext e1 (Prod.ext e2 e3)
  obtain ⟨h1, h2⟩ := hr _ h0
  rcases h1.lt_or_eq with h | h
  · exact h
  · rw [← h] at h2; exact absurd h2.symm (by simpa using hne)

theorem sub_ne_zero' {a b : V3 ℝ} (h : a ≠ b) : subV a b ≠ 0 := by
  intro e
  simp only [subV, Prod.ext_iff, Prod.fst_zero, Prod.snd_zero] at e
  exact h (Prod.ext (by linarith [e.1]) (Prod.ext (by linarith [e.2.1]) (by linarith [e.2.2])))

theorem evH_sign {root : ℝ → ℝ} (hr : IsRoot root) {site : V3 ℝ} {r : PlaneRow ℝ} (hne : r.neighC ≠ site) (y : V3 ℝ) :
    (evH (planeEq root site r.neighC r.frac) y ≤ 0 ↔ Beneath site r y) ∧ (evH (planeEq root site r.neighC r.frac) y = 0 ↔ OnPlane site r y) := by
  have hp := root_pos' hr (sub_ne_zero' hne)
  have e := evH_planeEq (root := root) site r y
  rw [div_self hp.ne', mul_one] at e
  unfold Beneath OnPlane
  constructor
  · constructor
    · intro h; nlinarith
    · intro h; by_contra h'; push Not at h'; nlinarith [mul_pos h' hp]
  · constructor
    · intro h; rw [h, zero_mul] at e; linarith
    · intro h
      rw [h, sub_self] at e
      exact (mul_eq_zero.1 e).resolve_right hp.ne'

theorem planeEq_normal {root : ℝ → ℝ} (hr : IsRoot root) {site neigh : V3 ℝ} (hne : neigh ≠ site) (f : ℝ) : (planeEq root site neigh f).1 ≠ 0 := by
  have hp := root_pos' hr (sub_ne_zero' hne)
  intro e
  apply sub_ne_zero' hne
  simp only [planeEq, divV, Prod.ext_iff, Prod.fst_zero, Prod.snd_zero, div_eq_zero_iff, hp.ne', or_false] at e
  exact Prod.ext e.1 (Prod.ext e.2.1 e.2.2)

theorem onSurface_iff (tol : ℝ) (p : V3 ℝ) (d : ℝ) : ∀ (vs : List (V3 ℝ)) (n : ℕ), n < 3 →
    (onSurface tol p d vs n = true ↔ 3 ≤ n + (vs.filter fun v => decide (|dotV p v + d| ≤ tol)).length)
  | [], n, hn => by simp [onSurface]; omega
  | v :: vs, n, hn => by
    unfold onSurface
    by_cases h : |dotV p v + d| > tol
    · rw [if_pos h, onSurface_iff tol p d vs n hn, List.filter_cons_of_neg (by simpa using h)]
    · rw [if_neg h, List.filter_cons_of_pos (by simpa using h)]
      by_cases h3 : n + 1 = 3
      · rw [if_pos h3]; simp only [List.length_cons, true_iff]; omega
      · rw [if_neg h3, onSurface_iff tol p d vs (n + 1) (by omega), List.length_cons]
        constructor <;> intro h' <;> omega

/-- Three listed corners on a plane are enough. -/
theorem onSurface_of_three {tol : ℝ} (ht : 0 ≤ tol) {h : HalfSp ℝ} {vs : List (V3 ℝ)} {a b c : V3 ℝ} (ha : a ∈ vs) (hb : b ∈ vs) (hc : c ∈ vs)
    (hab : a ≠ b) (hac : a ≠ c) (hbc : b ≠ c) (ea : evH h a = 0) (eb : evH h b = 0) (ec : evH h c = 0) : onSurface tol h.1 h.2 vs 0 = true := by
  classical
  rw [onSurface_iff _ _ _ _ _ (by norm_num)]
  have hsub : ({a, b, c} : Finset (V3 ℝ)) ⊆ (vs.filter fun v => decide (|dotV h.1 v + h.2| ≤ tol)).toFinset := by
    intro x hx
    simp only [Finset.mem_insert, Finset.mem_singleton] at hx
    rw [List.mem_toFinset, List.mem_filter, decide_eq_true_eq]
    unfold evH at ea eb ec
    rcases hx with rfl | rfl | rfl
    · exact ⟨ha, by rw [ea]; simpa using ht⟩
    · exact ⟨hb, by rw [eb]; simpa using ht⟩
    · exact ⟨hc, by rw [ec]; simpa using ht⟩
  have h1 := Finset.card_le_card hsub
  rw [Finset.card_eq_three.2 ⟨a, b, c, hab, hac, hbc, rfl⟩] at h1
  have h2 := List.toFinset_card_le (vs.filter fun v => decide (|dotV h.1 v + h.2| ≤ tol))
  omega

theorem extreme_image {P : Set (V3 ℝ)} (T : V3 ℝ ≃ᵃ[ℝ] V3 ℝ) (hT : T '' P = P) {a : V3 ℝ} (ha : a ∈ P.extremePoints ℝ) : T a ∈ P.extremePoints ℝ := by
  have back : ∀ x ∈ P, T.symm x ∈ P := by
    intro x hx
    rw [← hT] at hx
    obtain ⟨z, hz, rfl⟩ := hx
    simpa using hz
  rw [mem_extremePoints_iff_left] at ha ⊢
  refine ⟨by rw [← hT]; exact mem_image_of_mem T ha.1, fun x hx y hy hs => ?_⟩
  have := ha.2 (T.symm x) (back x hx) (T.symm y) (back y hy) (by
    have h := image_openSegment ℝ (T.symm : V3 ℝ →ᵃ[ℝ] V3 ℝ) x y
    have h2 : T.symm (T a) ∈ (T.symm : V3 ℝ →ᵃ[ℝ] V3 ℝ) '' openSegment ℝ x y := ⟨T a, hs, rfl⟩
    rw [h] at h2
    simpa using h2)
  rw [← this]; simp

/-! ## C92 -/

/-- **C92 (partial).**  The planes that are kept for an atom cut out the same region as all its planes, whatever the fractions, when the region is bounded,
its corners are found, and bonds with the same key are images of each other under a symmetry of the region. -/
theorem C92_same_region_partial {root : ℝ → ℝ} (hroot : IsRoot root) {tol : ℝ} (ht : 0 ≤ tol) (inter : List (HalfSp ℝ) → V3 ℝ → List (V3 ℝ)) (site : V3 ℝ)
    (cur : List (PlaneRow ℝ)) (hf : ∀ r ∈ cur, 0 < r.frac) (hne : ∀ r ∈ cur, r.neighC ≠ site) (hb : Bornology.IsBounded (atomCell site cur))
    (hv : ∀ v ∈ (atomCell site cur).extremePoints ℝ, v ∈ inter (cur.map fun r => planeEq root site r.neighC r.frac) site) (hk : KeysSymmetric site cur) :
    atomCell site (atomPlanes root tol inter site cur) = atomCell site cur := by
  classical
  set pe : PlaneRow ℝ → HalfSp ℝ := fun r => planeEq root site r.neighC r.frac with hpe
  have hcell : halfCell ((cur.map pe).toFinset : Set (HalfSp ℝ)) = atomCell site cur := by
    ext y
    simp only [halfCell, atomCell, mem_ofPred_eq, List.coe_toFinset, List.mem_map, forall_exists_index, and_imp, forall_apply_eq_imp_iff₂]
    exact forall₂_congr fun r hr => (evH_sign hroot (hne r hr) y).1
  obtain ⟨S, hS, hSeq, hirr⟩ := exists_irredundant (cur.map pe).toFinset
  rw [hcell] at hSeq
  refine Subset.antisymm (fun y hy => ?_) fun y hy r hr => hy r (List.mem_of_mem_filter hr)
  rw [← hSeq]
  intro h hh
  obtain ⟨x, hx, hpos⟩ := hirr h hh
  obtain ⟨r, hr, rfl⟩ := List.mem_map.1 (List.mem_toFinset.1 (hS hh))
  have hin : ∀ g ∈ S, evH g site < 0 := by
    intro g hg
    obtain ⟨r', hr', rfl⟩ := List.mem_map.1 (List.mem_toFinset.1 (hS hg))
    have hbe : Beneath site r' site ∧ ¬ OnPlane site r' site := by
      have h0 : dotV (subV site site) (subV r'.neighC site) = 0 := by simp [dotV, subV]
      have hp := root_pos' hroot (sub_ne_zero' (hne r' hr'))
      have hn2 : 0 < norm2 (subV r'.neighC site) := by
        have h0 : 0 ≤ norm2 (subV r'.neighC site) := by unfold norm2; positivity
        have := (hroot _ h0).2
        nlinarith [mul_pos hp hp]
      have hm := mul_pos (hf r' hr') hn2
      unfold Beneath OnPlane
      rw [h0]
      exact ⟨hm.le, hm.ne⟩
    have := evH_sign hroot (hne r' hr') site
    exact lt_of_le_of_ne (this.1.2 hbe.1) fun e => hbe.2 (this.2.1 e)
  obtain ⟨a, ha, b, hb', c, hc, hab, hac, hbc, ea, eb, ec⟩ :=
    three_corners (by rw [hSeq]; exact hb) hin hh (planeEq_normal hroot (hne r hr) _) hx hpos
  rw [hSeq] at ha hb' hc
  -- the plane that stands for this one
  refine (evH_sign hroot (hne r hr) y).1.2 (hy r ?_)
  unfold atomPlanes
  refine List.mem_filter.2 ⟨hr, ?_⟩
  have hmap : ((cur.map fun (r : PlaneRow ℝ) => (planeEq root site r.neighC r.frac, r.key)).map Prod.fst) = cur.map pe := by simp [hpe, Function.comp_def]
  rw [hmap]
  unfold keepPlane
  cases hfind : (cur.map fun (r : PlaneRow ℝ) => (planeEq root site r.neighC r.frac, r.key)).find? fun h => h.2 = r.key with
  | none =>
    rw [List.find?_eq_none] at hfind
    have := hfind _ (List.mem_map_of_mem hr)
    simp at this
  | some h0 =>
    have hm := List.mem_of_find?_eq_some hfind
    have hkey := List.find?_some hfind
    obtain ⟨r0, hr0, rfl⟩ := List.mem_map.1 hm
    simp only [decide_eq_true_eq] at hkey
    obtain ⟨T, hT, hTp⟩ := hk r hr r0 hr0 hkey.symm
    have s := fun z => (evH_sign hroot (hne r hr) z).2
    have s0 := fun z => (evH_sign hroot (hne r0 hr0) z).2
    exact onSurface_of_three ht (hv _ (extreme_image T hT ha)) (hv _ (extreme_image T hT hb')) (hv _ (extreme_image T hT hc))
      (fun e => hab (T.injective e)) (fun e => hac (T.injective e)) (fun e => hbc (T.injective e))
      ((s0 _).2 (hTp a ((s a).1 ea))) ((s0 _).2 (hTp b ((s b).1 eb))) ((s0 _).2 (hTp c ((s c).1 ec)))

/-- Planes are only ever removed: the region never shrinks. -/
theorem C92_never_smaller {root : ℝ → ℝ} {tol : ℝ} (inter : List (HalfSp ℝ) → V3 ℝ → List (V3 ℝ)) (site : V3 ℝ) (cur : List (PlaneRow ℝ)) :
    atomCell site cur ⊆ atomCell site (atomPlanes root tol inter site cur) := fun _ hy r hr => hy r (List.mem_of_mem_filter hr)

/-- **C92.**  In a cubic cell (all scalar products scaled by the same factor) the region is the one of the planes across the bonds in real space. -/
theorem C92_cubic {s : ℝ} (hs : 0 < s) (L : M3 ℝ) (hL : ∀ u v : V3 ℝ, dotV (vecMat u L) (vecMat v L) = s * dotV u v) (site : V3 ℝ) (rows : List (PlaneRow ℝ)) (y : V3 ℝ) :
    y ∈ atomCell site rows ↔ vecMat y L ∈ atomCell (vecMat site L) (rows.map fun r => { r with neighC := vecMat r.neighC L }) := by
  have hn : ∀ u : V3 ℝ, norm2 u = dotV u u := by intro u; simp only [norm2, dotV]; ring
  simp only [atomCell, mem_ofPred_eq, List.mem_map, forall_exists_index, and_imp, forall_apply_eq_imp_iff₂]
  refine forall₂_congr fun r _ => ?_
  simp only [Beneath, vecMat_sub, hn, hL]
  constructor
  · intro h; nlinarith
  · intro h
    have : s * dotV (subV y site) (subV r.neighC site) ≤ s * (r.frac * dotV (subV r.neighC site) (subV r.neighC site)) := by linarith
    exact le_of_mul_le_mul_left this hs

/-! ### All atoms -/

/-- The ends of the groups. -/
def rangesOf : List ℕ → List ℕ
  | [] => [0]
  | m :: ms => 0 :: (rangesOf ms).map (· + m)

/-- Places where the site changes. -/
def turns (s : List ℕ) : List ℕ := ((List.range (s.length - 1)).filter fun i => s[i]? != s[i + 1]?).map (· + 1)

theorem turns_cons (x y : ℕ) (t : List ℕ) : turns (x :: y :: t) = (if x = y then [] else [1]) ++ (turns (y :: t)).map (· + 1) := by
  unfold turns
  have hl : (x :: y :: t).length - 1 = (y :: t).length - 1 + 1 := by simp
  rw [hl, List.range_succ_eq_map, List.filter_cons, List.filter_map]
  by_cases h : x = y
  · simp [h, Function.comp_def]
  · simp [h, Function.comp_def]

theorem turns_replicate (m a : ℕ) : turns (List.replicate m a) = [] := by
  induction m with
  | zero => rfl
  | succ m ih =>
    cases m with
    | zero => rfl
    | succ m =>
      rw [List.replicate_succ, List.replicate_succ, turns_cons, if_pos rfl, ← List.replicate_succ, ih]
      rfl

theorem turns_append (m a b : ℕ) (t : List ℕ) (hab : a ≠ b) : turns (List.replicate (m + 1) a ++ b :: t) = (m + 1) :: (turns (b :: t)).map (· + (m + 1)) := by
  induction m with
  | zero =>
    show turns (a :: b :: t) = _
    rw [turns_cons, if_neg hab]; rfl
  | succ m ih =>
    rw [List.replicate_succ, List.replicate_succ, List.cons_append, List.cons_append, turns_cons, if_pos rfl, ← List.cons_append, ← List.replicate_succ, ih]
    simp only [List.nil_append, List.map_cons, List.map_map, Function.comp_def]
    congr 1

/-- The sites of all rows. -/
theorem siteRanges_groups : ∀ (gs : List (ℕ × List (PlaneRow ℝ))), gs ≠ [] → (∀ g ∈ gs, g.2 ≠ [] ∧ ∀ r ∈ g.2, r.site = g.1) → (gs.map Prod.fst).Nodup →
    siteRanges ((gs.flatMap Prod.snd).map PlaneRow.site) = rangesOf (gs.map fun g => g.2.length)
  | [], h, _, _ => absurd rfl h
  | [g], _, hg, _ => by
    obtain ⟨h1, h2⟩ := hg g List.mem_cons_self
    have e : ([g].flatMap Prod.snd).map PlaneRow.site = List.replicate g.2.length g.1 := by
      rw [List.eq_replicate_iff]
      refine ⟨by simp, fun b hb => ?_⟩
      obtain ⟨r, hr, rfl⟩ := List.mem_map.1 hb
      exact h2 r (by simpa using hr)
    rw [e]
    show 0 :: turns _ ++ _ = _
    rw [turns_replicate]
    simp [rangesOf]
  | g :: g' :: gs, _, hg, hn => by
    have ih := siteRanges_groups (g' :: gs) (by simp) (fun x hx => hg x (List.mem_cons_of_mem _ hx)) (by
      rw [List.map_cons, List.nodup_cons] at hn; exact hn.2)
    obtain ⟨h1, h2⟩ := hg g List.mem_cons_self
    obtain ⟨h1', h2'⟩ := hg g' (by simp)
    have hne : g.1 ≠ g'.1 := by
      rw [List.map_cons, List.nodup_cons] at hn
      exact fun e => hn.1 (by rw [e]; simp)
    obtain ⟨m, hm⟩ : ∃ m, g.2.length = m + 1 := ⟨g.2.length - 1, by have := List.length_pos_iff.2 h1; omega⟩
    obtain ⟨r', t', ht'⟩ := List.exists_cons_of_ne_nil h1'
    have e : g.2.map PlaneRow.site = List.replicate (m + 1) g.1 := by
      rw [List.eq_replicate_iff]
      refine ⟨by simp [hm], fun b hb => ?_⟩
      obtain ⟨r, hr, rfl⟩ := List.mem_map.1 hb
      exact h2 r hr
    have e' : ((g' :: gs).flatMap Prod.snd).map PlaneRow.site = g'.1 :: (t' ++ gs.flatMap Prod.snd).map PlaneRow.site := by
      rw [List.flatMap_cons, ht', List.cons_append, List.map_cons, h2' r' (by rw [ht']; simp)]
    rw [List.flatMap_cons, List.map_append, e, e'] 
    rw [e'] at ih
    rw [List.map_cons, rangesOf, ← ih]
    show 0 :: turns _ ++ _ = 0 :: List.map _ (0 :: turns _ ++ _)
    rw [turns_append _ _ _ _ hne, hm]
    simp [Nat.add_comm]

theorem rangesOf_get : ∀ (ms : List ℕ) (i : ℕ), (rangesOf ms)[i]? = if i ≤ ms.length then some ((ms.take i).sum) else none
  | [], 0 => rfl
  | [], i + 1 => by simp [rangesOf]
  | m :: ms, 0 => by simp [rangesOf]
  | m :: ms, i + 1 => by
    rw [rangesOf, List.getElem?_cons_succ, List.getElem?_map, rangesOf_get ms i]
    by_cases h : i ≤ ms.length
    · simp [h, Nat.add_comm]
    · simp [h]

theorem slice_group {α : Type} : ∀ (ls : List (List α)) (i : ℕ) (h : i < ls.length),
    (ls.flatten.take ((ls.map List.length).take (i + 1)).sum).drop ((ls.map List.length).take i).sum = ls[i]
  | l :: ls, 0, _ => by simp
  | l :: ls, i + 1, h => by
    have ih := slice_group ls i (by simpa using h)
    simp only [List.map_cons, List.take_succ_cons, List.sum_cons, List.flatten_cons, List.getElem_cons_succ]
    rw [List.take_length_add_append, List.drop_length_add_append]
    simpa using ih

/-- **C92.**  When every atom has bonds, each keeps the planes chosen from its own bonds. -/
theorem C92_all_atoms {root : ℝ → ℝ} {tol : ℝ} (inter : List (HalfSp ℝ) → V3 ℝ → List (V3 ℝ)) (coords : ℕ → V3 ℝ) (gs : List (ℕ × List (PlaneRow ℝ)))
    (hg : ∀ g ∈ gs, g.2 ≠ [] ∧ ∀ r ∈ g.2, r.site = g.1) (hn : (gs.map Prod.fst).Nodup) :
    surfacePlanes root tol inter coords (gs.map Prod.fst) (gs.flatMap Prod.snd) = some (gs.flatMap fun g => atomPlanes root tol inter (coords g.1) g.2) := by
  rcases List.eq_nil_or_concat gs with rfl | ⟨_, _, hgs⟩
  · rfl
  have hne : gs ≠ [] := by rw [hgs]; simp
  unfold surfacePlanes
  simp only [siteRanges_groups gs hne hg hn]
  rw [mapM_eq_some_map _ (fun su => atomPlanes root tol inter (coords su.1) ((gs.getD su.2 (0, [])).2))]
  · simp only [Option.map_some, Option.some.injEq]
    rw [← List.flatMap_def, List.zipIdx_map, List.flatMap_map]
    have : gs.flatMap (fun g => atomPlanes root tol inter (coords g.1) g.2) = (gs.zipIdx.map Prod.fst).flatMap fun g => atomPlanes root tol inter (coords g.1) g.2 := by
      rw [List.zipIdx_map_fst]
    rw [this, List.flatMap_map]
    refine List.flatMap_congr fun a ha => ?_
    have := List.mem_zipIdx_iff_getElem?.1 ha
    simp [List.getD, this]
  · intro su hsu
    have hi := List.mem_zipIdx_iff_getElem?.1 hsu
    obtain ⟨hlt, _⟩ := List.getElem?_eq_some_iff.1 hi
    simp only [List.length_map] at hlt
    rw [rangesOf_get, rangesOf_get, if_pos (by simpa using hlt.le), if_pos (by simpa using hlt)]
    simp only
    have := slice_group (gs.map Prod.snd) su.2 (by simpa using hlt)
    rw [List.map_map] at this
    rw [List.flatMap_def]
    have e : (List.map (fun g : ℕ × List (PlaneRow ℝ) => g.2.length) gs) = List.map (List.length ∘ Prod.snd) gs := rfl
    rw [e, this]
    simp [List.getD, hlt]

theorem mapM_isSome_mem {α β : Type} {f : α → Option β} : ∀ {l : List α} {r : List β}, l.mapM f = some r → ∀ x ∈ l, ∃ y, f x = some y
  | [], _, _, x, hx => by cases hx
  | a :: l, r, h, x, hx => by
    rw [List.mapM_cons] at h
    cases hfa : f a with
    | none => rw [hfa] at h; cases h
    | some b =>
      rw [hfa] at h
      cases hl : l.mapM f with
      | none => rw [hl] at h; cases h
      | some r' =>
        rcases List.mem_cons.1 hx with rfl | hx
        · exact ⟨b, hfa⟩
        · exact mapM_isSome_mem hl x hx

/-- **C92.**  If some atom has no bond the run ends with an exception: no atom gets the planes of another one. -/
theorem C92_atom_without_bonds {root : ℝ → ℝ} {tol : ℝ} (inter : List (HalfSp ℝ) → V3 ℝ → List (V3 ℝ)) (coords : ℕ → V3 ℝ) (gs : List (ℕ × List (PlaneRow ℝ)))
    (hg : ∀ g ∈ gs, ∀ r ∈ g.2, r.site = g.1) (hn : (gs.map Prod.fst).Nodup) (he : ∃ g ∈ gs, g.2 = []) (hs : ∃ g ∈ gs, g.2 ≠ []) :
    surfacePlanes root tol inter coords (gs.map Prod.fst) (gs.flatMap Prod.snd) = none := by
  set fs := gs.filter fun g => !g.2.isEmpty with hfs
  have hmem : ∀ g, g ∈ fs ↔ g ∈ gs ∧ g.2 ≠ [] := by intro g; simp [hfs]
  have hflat : gs.flatMap Prod.snd = fs.flatMap Prod.snd := by
    rw [hfs]
    clear hmem hfs he hs hn hg
    induction gs with
    | nil => rfl
    | cons g gs ih =>
      by_cases h : g.2 = []
      · rw [List.filter_cons_of_neg (by simp [h]), List.flatMap_cons, h, List.nil_append, ih]
      · rw [List.filter_cons_of_pos (by simp [h]), List.flatMap_cons, List.flatMap_cons, ih]
  have hfne : fs ≠ [] := by
    obtain ⟨g, h1, h2⟩ := hs
    exact List.ne_nil_of_mem ((hmem g).2 ⟨h1, h2⟩)
  have hlen : fs.length < gs.length := by
    obtain ⟨g, h1, h2⟩ := he
    rw [hfs]
    refine lt_of_le_of_ne (List.length_filter_le _ _) fun e => ?_
    have := (List.filter_eq_self.1 ((List.filter_sublist).eq_of_length e)) g h1
    simp [h2] at this
  have hr := siteRanges_groups fs hfne (fun g h => ⟨((hmem g).1 h).2, hg g ((hmem g).1 h).1⟩) (by
    rw [hfs]; exact hn.sublist ((List.filter_sublist).map _))
  unfold surfacePlanes
  simp only [hflat, hr]
  rw [Option.map_eq_none_iff]
  cases hm : ((gs.map Prod.fst).zipIdx.mapM fun (su : ℕ × ℕ) =>
      match (rangesOf (fs.map fun g => g.2.length))[su.2]?, (rangesOf (fs.map fun g => g.2.length))[su.2 + 1]? with
      | some lower, some upper => some (atomPlanes root tol inter (coords su.1) (((fs.flatMap Prod.snd).take upper).drop lower))
      | _, _ => none) with
  | none => rfl
  | some l =>
    exfalso
    have hlast : ((gs.map Prod.fst)[gs.length - 1]'(by simp; omega), gs.length - 1) ∈ (gs.map Prod.fst).zipIdx := by
      rw [List.mem_zipIdx_iff_getElem?]
      exact List.getElem?_eq_getElem (by simp; omega)
    have hnone : (rangesOf (fs.map fun g => g.2.length))[gs.length - 1 + 1]? = none := by
      rw [rangesOf_get, if_neg (by simp; omega)]
    obtain ⟨w, hw⟩ := mapM_isSome_mem hm _ hlast
    simp only [hnone] at hw
    split at hw <;> simp_all

/-! ### Where it fails -/

/-- The corners of the unit cube around the origin. -/
noncomputable def cubeCorners : List (V3 ℝ) :=
  [(1/2, 1/2, 1/2), (1/2, 1/2, -1/2), (1/2, -1/2, 1/2), (1/2, -1/2, -1/2), (-1/2, 1/2, 1/2), (-1/2, 1/2, -1/2), (-1/2, -1/2, 1/2), (-1/2, -1/2, -1/2)]

/-- An extreme point of a set that holds two points on both sides of it in one direction does not exist. -/
theorem not_extreme {P : Set (V3 ℝ)} {v u : V3 ℝ} (hu : u ≠ 0) (h1 : v + u ∈ P) (h2 : v - u ∈ P) : v ∉ P.extremePoints ℝ := by
  intro h
  rw [mem_extremePoints_iff_left] at h
  have := h.2 _ h1 _ h2 ⟨1 / 2, 1 / 2, by norm_num, by norm_num, by norm_num, by
    rw [smul_add, smul_sub]
    rw [show (1 / 2 : ℝ) • v + (1 / 2 : ℝ) • u + ((1 / 2 : ℝ) • v - (1 / 2 : ℝ) • u) = (1 / 2 : ℝ) • v + (1 / 2 : ℝ) • v by abel, ← add_smul]
    norm_num⟩
  exact hu (by simpa using this)

/-- The corners of a box. -/
theorem box_corners {P : Set (V3 ℝ)} (hP : ∀ y : V3 ℝ, y ∈ P ↔ |y.1| ≤ 1 / 2 ∧ |y.2.1| ≤ 1 / 2 ∧ |y.2.2| ≤ 1 / 2) {v : V3 ℝ} (hv : v ∈ P.extremePoints ℝ) :
    v ∈ cubeCorners := by
  obtain ⟨x, y, z⟩ := v
  have hb := (hP _).1 hv.1
  simp only at hb
  have half : ∀ t : ℝ, |t| ≤ 1 / 2 → t ≠ 1 / 2 → t ≠ -1 / 2 → ∃ e : ℝ, e ≠ 0 ∧ |t + e| ≤ 1 / 2 ∧ |t - e| ≤ 1 / 2 := by
    intro t ht h1 h2
    rw [abs_le] at ht
    have h1' : t < 1 / 2 := lt_of_le_of_ne ht.2 h1
    have h2' : -1 / 2 < t := lt_of_le_of_ne (by linarith [ht.1]) (Ne.symm h2)
    refine ⟨min (1 / 2 - t) (t + 1 / 2), ne_of_gt (lt_min (by linarith) (by linarith)), ?_, ?_⟩
    · rw [abs_le]
      have a1 := min_le_left (1 / 2 - t) (t + 1 / 2)
      have a2 : 0 < min (1 / 2 - t) (t + 1 / 2) := lt_min (by linarith) (by linarith)
      constructor <;> linarith
    · rw [abs_le]
      have a1 := min_le_right (1 / 2 - t) (t + 1 / 2)
      have a2 : 0 < min (1 / 2 - t) (t + 1 / 2) := lt_min (by linarith) (by linarith)
      constructor <;> linarith
  have hx : x = 1 / 2 ∨ x = -1 / 2 := by
    by_contra hno
    push Not at hno
    obtain ⟨e, e0, e1, e2⟩ := half x hb.1 hno.1 hno.2
    exact not_extreme (u := (e, 0, 0)) (by simpa using e0) ((hP _).2 ⟨e1, by simpa using hb.2.1, by simpa using hb.2.2⟩) ((hP _).2 ⟨e2, by simpa using hb.2.1, by simpa using hb.2.2⟩) hv
  have hy : y = 1 / 2 ∨ y = -1 / 2 := by
    by_contra hno
    push Not at hno
    obtain ⟨e, e0, e1, e2⟩ := half y hb.2.1 hno.1 hno.2
    exact not_extreme (u := (0, e, 0)) (by simpa using e0) ((hP _).2 ⟨by simpa using hb.1, e1, by simpa using hb.2.2⟩)
      ((hP _).2 ⟨by simpa using hb.1, e2, by simpa using hb.2.2⟩) hv
  have hz : z = 1 / 2 ∨ z = -1 / 2 := by
    by_contra hno
    push Not at hno
    obtain ⟨e, e0, e1, e2⟩ := half z hb.2.2 hno.1 hno.2
    exact not_extreme (u := (0, 0, e)) (by simpa using e0) ((hP _).2 ⟨by simpa using hb.1, by simpa using hb.2.1, e1⟩)
      ((hP _).2 ⟨by simpa using hb.1, by simpa using hb.2.1, e2⟩) hv
  unfold cubeCorners
  rcases hx with rfl | rfl <;> rcases hy with rfl | rfl <;> rcases hz with rfl | rfl <;> simp

/-- The six bonds of a simple cubic crystal; opposite bonds have the same key. -/
noncomputable def cubeRows : List (PlaneRow ℝ) :=
  [⟨0, (1, 0, 0), 1 / 2, 0⟩, ⟨0, (-1, 0, 0), 1 / 2, 0⟩, ⟨0, (0, 1, 0), 1 / 2, 1⟩, ⟨0, (0, -1, 0), 1 / 2, 1⟩, ⟨0, (0, 0, 1), 1 / 2, 2⟩, ⟨0, (0, 0, -1), 1 / 2, 2⟩]

theorem cube_cell (y : V3 ℝ) : y ∈ atomCell (0, 0, 0) cubeRows ↔ |y.1| ≤ 1 / 2 ∧ |y.2.1| ≤ 1 / 2 ∧ |y.2.2| ≤ 1 / 2 := by
  simp only [atomCell, cubeRows, Beneath, mem_ofPred_eq, List.forall_mem_cons, List.not_mem_nil, false_imp_iff, implies_true, and_true, dotV, subV, norm2, abs_le]
  norm_num
  constructor
  · rintro ⟨a, b, c, d, e, f⟩; refine ⟨⟨?_, ?_⟩, ⟨?_, ?_⟩, ⟨?_, ?_⟩⟩ <;> linarith
  · rintro ⟨⟨a, b⟩, ⟨c, d⟩, ⟨e, f⟩⟩; refine ⟨?_, ?_, ?_, ?_, ?_, ?_⟩ <;> linarith

/-- All hypotheses hold for the simple cubic crystal. -/
example {root : ℝ → ℝ} (hroot : IsRoot root) :
    atomCell (0, 0, 0) (atomPlanes root (1 / 10 ^ 12) (fun _ _ => cubeCorners) (0, 0, 0) cubeRows) = atomCell (0, 0, 0) cubeRows := by
  refine C92_same_region_partial hroot (by norm_num) _ _ _ ?_ ?_ ?_ (fun v hv => box_corners cube_cell hv) ?_
  · intro r hr; simp only [cubeRows, List.mem_cons, List.not_mem_nil, or_false] at hr; rcases hr with rfl | rfl | rfl | rfl | rfl | rfl <;> norm_num
  · intro r hr; simp only [cubeRows, List.mem_cons, List.not_mem_nil, or_false] at hr
    rcases hr with rfl | rfl | rfl | rfl | rfl | rfl <;> simp
  · refine (Metric.isBounded_closedBall (x := (0 : V3 ℝ)) (r := 1 / 2)).subset fun y hy => ?_
    have := (cube_cell y).1 hy
    rw [mem_closedBall_zero_iff, Prod.norm_def, Prod.norm_def]
    simp only [Real.norm_eq_abs]
    exact max_le this.1 (max_le this.2.1 this.2.2)
  · intro r hr r' hr' hk
    have hcases : r'.neighC = r.neighC ∧ r'.frac = r.frac ∨ r'.neighC = -r.neighC ∧ r'.frac = r.frac := by
      simp only [cubeRows, List.mem_cons, List.not_mem_nil, or_false] at hr hr'
      rcases hr with rfl | rfl | rfl | rfl | rfl | rfl <;> rcases hr' with rfl | rfl | rfl | rfl | rfl | rfl <;> simp at hk ⊢
    rcases hcases with ⟨h1, h2⟩ | ⟨h1, h2⟩
    · refine ⟨AffineEquiv.refl ℝ _, by simp, fun y hy => ?_⟩
      unfold OnPlane at hy ⊢
      rw [h1, h2]; exact hy
    · refine ⟨(LinearEquiv.neg ℝ).toAffineEquiv, ?_, fun y hy => ?_⟩
      · ext y
        simp only [LinearEquiv.coe_toAffineEquiv, LinearEquiv.neg_apply, mem_image, cube_cell]
        constructor
        · rintro ⟨x, hx, rfl⟩; simpa using hx
        · intro hy; exact ⟨-y, by simpa using hy, by simp⟩
      · unfold OnPlane at hy ⊢
        rw [h1, h2]
        simp only [LinearEquiv.coe_toAffineEquiv, LinearEquiv.neg_apply, dotV, subV, norm2, Prod.fst_neg, Prod.snd_neg] at hy ⊢
        linarith

/-- Bonds of a tetragonal crystal: the one along the diagonal of the base and those along the axis have the same key. -/
noncomputable def tetraRows : List (PlaneRow ℝ) :=
  [⟨0, (1, 1, 0), 1 / 2, 0⟩, ⟨0, (0, 0, 1), 1 / 2, 0⟩, ⟨0, (0, 0, -1), 1 / 2, 0⟩, ⟨0, (1, 0, 0), 1 / 2, 1⟩, ⟨0, (-1, 0, 0), 1 / 2, 1⟩,
    ⟨0, (0, 1, 0), 1 / 2, 1⟩, ⟨0, (0, -1, 0), 1 / 2, 1⟩]

theorem tetra_cell (y : V3 ℝ) : y ∈ atomCell (0, 0, 0) tetraRows ↔ |y.1| ≤ 1 / 2 ∧ |y.2.1| ≤ 1 / 2 ∧ |y.2.2| ≤ 1 / 2 := by
  simp only [atomCell, tetraRows, Beneath, mem_ofPred_eq, List.forall_mem_cons, List.not_mem_nil, false_imp_iff, implies_true, and_true, dotV, subV, norm2, abs_le]
  norm_num
  constructor
  · rintro ⟨_, a, b, c, d, e, f⟩; refine ⟨⟨?_, ?_⟩, ⟨?_, ?_⟩, ⟨?_, ?_⟩⟩ <;> linarith
  · rintro ⟨⟨a, b⟩, ⟨c, d⟩, ⟨e, f⟩⟩; refine ⟨?_, ?_, ?_, ?_, ?_, ?_, ?_⟩ <;> linarith

/-- **C92 (violated).**  Two lattice vectors of the same length to within the tolerance have the same key, whatever the symmetry operations:
the displacement is reduced to the cell before it is compared. -/
theorem C92_keys_collide {K : Type} [Field K] [LinearOrder K] [IsStrictOrderedRing K] [FloorRing K] (tol : K) (equiv : ℕ → ℤ) (i : ℕ) (s : V3 K) (t t' : Coord)
    (ops : List (SymOp K)) (hops : ∀ o ∈ ops, ∃ m : M3 ℤ, o.mat = (((m.1.1 : K), (m.1.2.1 : K), (m.1.2.2 : K)), ((m.2.1.1 : K), (m.2.1.2.1 : K), (m.2.1.2.2 : K)),
      ((m.2.2.1 : K), (m.2.2.2.1 : K), (m.2.2.2.2 : K)))) (d d' : K) (hd : roundHE (d / tol) = roundHE (d' / tol)) :
    canonBond tol equiv i i s (s.1 + (t.1 : K), s.2.1 + (t.2.1 : K), s.2.2 + (t.2.2 : K)) ops d =
      canonBond tol equiv i i s (s.1 + (t'.1 : K), s.2.1 + (t'.2.1 : K), s.2.2 + (t'.2.2 : K)) ops d' := by
  have zero : ∀ u : Coord, canonDisp tol (((u.1 : K), (u.2.1 : K), (u.2.2 : K)) : V3 K) = (0, 0, 0) := by
    intro u
    have z0 : roundHE (0 : K) = 0 := by simpa using roundHE_intCast (K := K) 0
    simp [canonDisp, wrapNear, roundHE_intCast, divV, roundV, z0, signCanon]
  have fold : ∀ (u : Coord) (l : List (SymOp K)), (∀ o ∈ l, o ∈ ops) →
      l.foldl (fun best o => betterDisp best (canonDisp tol (subV (o.apply (s.1 + (u.1 : K), s.2.1 + (u.2.1 : K), s.2.2 + (u.2.2 : K))) (o.apply s)))) (0, 0, 0) = (0, 0, 0) := by
    intro u l
    induction l with
    | nil => intro _; rfl
    | cons o l ih =>
      intro hl
      obtain ⟨m, hm⟩ := hops o (hl o List.mem_cons_self)
      rw [List.foldl_cons]
      have e : subV (o.apply (s.1 + (u.1 : K), s.2.1 + (u.2.1 : K), s.2.2 + (u.2.2 : K))) (o.apply s) =
          (((m.1.1 * u.1 + m.1.2.1 * u.2.1 + m.1.2.2 * u.2.2 : ℤ) : K), ((m.2.1.1 * u.1 + m.2.1.2.1 * u.2.1 + m.2.1.2.2 * u.2.2 : ℤ) : K),
            ((m.2.2.1 * u.1 + m.2.2.2.1 * u.2.1 + m.2.2.2.2 * u.2.2 : ℤ) : K)) := by
        simp only [SymOp.apply, hm, subV, dotV]
        push_cast
        refine Prod.ext ?_ (Prod.ext ?_ ?_) <;> simp only <;> ring
      rw [e, zero (_, _, _)]
      exact ih fun o ho => hl o (List.mem_cons_of_mem _ ho)
  have start : ∀ u : Coord, canonDisp tol (subV (s.1 + (u.1 : K), s.2.1 + (u.2.1 : K), s.2.2 + (u.2.2 : K)) s) = (0, 0, 0) := by
    intro u
    rw [← zero u]
    congr 1
    simp [subV]
  unfold canonBond
  simp only [start]
  rw [ fold t ops fun _ h => h, fold t' ops fun _ h => h, hd]

/-- **C92 (violated).**  Bonds with the same key need not be images of each other.  In a tetragonal cell with `c = √2 a` the diagonal of the base stands for the
axis; its plane only touches the region, so the planes across the axis are lost and the region of the atom has no end. -/
theorem C92_faces_lost {root : ℝ → ℝ} (hroot : IsRoot root) :
    (∀ v ∈ (atomCell (0, 0, 0) tetraRows).extremePoints ℝ, v ∈ cubeCorners) ∧
    ∀ z : ℝ, (0, 0, z) ∈ atomCell (0, 0, 0) (atomPlanes root (1 / 10 ^ 12) (fun _ _ => cubeCorners) (0, 0, 0) tetraRows) := by
  refine ⟨fun v hv => box_corners tetra_cell hv, fun z r hr => ?_⟩
  have hdrop : keepPlane (1 / 10 ^ 12) (tetraRows.map fun (r : PlaneRow ℝ) => (planeEq root (0, 0, 0) r.neighC r.frac, r.key)) cubeCorners 0 = false := by
    obtain ⟨r0, r2⟩ := hroot 2 (by norm_num)
    have hpos : 0 < root 2 := by
      rcases r0.lt_or_eq with h | h
      · exact h
      · rw [← h] at r2; norm_num at r2
    have hle : root 2 ≤ 2 := by nlinarith
    have hval : ∀ x y w : ℝ, dotV (planeEq root (0, 0, 0) (1, 1, 0) (1 / 2)).1 (x, y, w) + (planeEq root (0, 0, 0) (1, 1, 0) (1 / 2)).2 = (x + y - 1) / root 2 := by
      intro x y w
      simp only [planeEq, dotV, subV, addV, divV, norm2]
      norm_num
      ring
    have hfar : ∀ x y w : ℝ, x + y ≤ 0 → ¬ |dotV (planeEq root (0, 0, 0) (1, 1, 0) (1 / 2)).1 (x, y, w) + (planeEq root (0, 0, 0) (1, 1, 0) (1 / 2)).2| ≤ 1 / 10 ^ 12 := by
      intro x y w h
      rw [hval, not_le, abs_of_nonpos (div_nonpos_of_nonpos_of_nonneg (by linarith) hpos.le), ← neg_div, lt_div_iff₀ hpos]
      nlinarith
    have hk : keepPlane (1 / 10 ^ 12) (tetraRows.map fun (r : PlaneRow ℝ) => (planeEq root (0, 0, 0) r.neighC r.frac, r.key)) cubeCorners 0 =
        onSurface (1 / 10 ^ 12) (planeEq root (0, 0, 0) (1, 1, 0) (1 / 2)).1 (planeEq root (0, 0, 0) (1, 1, 0) (1 / 2)).2 cubeCorners 0 := by
      simp [keepPlane, tetraRows]
    rw [hk, ← Bool.not_eq_true, onSurface_iff _ _ _ _ _ (by norm_num), not_le, Nat.zero_add]
    have hsub : cubeCorners.filter (fun v => decide (|dotV (planeEq root (0, 0, 0) (1, 1, 0) (1 / 2)).1 v + (planeEq root (0, 0, 0) (1, 1, 0) (1 / 2)).2| ≤ 1 / 10 ^ 12)) =
        [((1/2 : ℝ), 1/2, 1/2), (1/2, 1/2, -1/2)].filter (fun v => decide (|dotV (planeEq root (0, 0, 0) (1, 1, 0) (1 / 2)).1 v + (planeEq root (0, 0, 0) (1, 1, 0) (1 / 2)).2| ≤ 1 / 10 ^ 12)) := by
      have hc : cubeCorners = [((1/2 : ℝ), 1/2, 1/2), (1/2, 1/2, -1/2)] ++
          [(1/2, -1/2, 1/2), (1/2, -1/2, -1/2), (-1/2, 1/2, 1/2), (-1/2, 1/2, -1/2), (-1/2, -1/2, 1/2), (-1/2, -1/2, -1/2)] := rfl
      rw [hc, List.filter_append]
      refine (congrArg (_ ++ ·) (List.filter_eq_nil_iff.2 fun v hv => ?_)).trans (List.append_nil _)
      simp only [List.mem_cons, List.not_mem_nil, or_false] at hv
      rw [decide_eq_true_eq]
      rcases hv with rfl | rfl | rfl | rfl | rfl | rfl <;> exact hfar _ _ _ (by norm_num)
    rw [hsub]
    exact lt_of_le_of_lt (List.length_filter_le _ _) (by norm_num)
  unfold atomPlanes at hr
  rw [List.mem_filter] at hr
  obtain ⟨h1, h2⟩ := hr
  simp only [tetraRows, List.mem_cons, List.not_mem_nil, or_false] at h1
  rcases h1 with rfl | rfl | rfl | rfl | rfl | rfl | rfl
  · rw [hdrop] at h2; cases h2
  · rw [hdrop] at h2; cases h2
  · rw [hdrop] at h2; cases h2
  all_goals (simp only [Beneath, dotV, subV, norm2]; norm_num)

/-- **C92.**  The neighbours that are considered are exactly the listed ones at a positive distance that lie, in fractional coordinates and by more
than the tolerance, before the plane at three halves of every bond of `CrystalNN`. -/
theorem C92_candidates {root : ℝ → ℝ} (hroot : IsRoot root) (site : V3 ℝ) (cnn : List (V3 ℝ)) (near : List (V3 ℝ × ℝ)) (hne : ∀ c ∈ cnn, c ≠ site)
    (q : V3 ℝ × ℝ) : q ∈ candNeighs root site cnn near ↔ q ∈ near ∧ 1 / 10 ^ 12 ≤ q.2 ∧
      ∀ c ∈ cnn, dotV (subV q.1 site) (subV c site) ≤ 3 / 2 * norm2 (subV c site) - 1 / 10 ^ 12 * root (norm2 (subV c site)) := by
  have hkey : ∀ c ∈ cnn, (dotV (planeEq root site c (3 / 2)).1 q.1 + (planeEq root site c (3 / 2)).2 ≤ -(1 / 10 ^ 12) ↔
      dotV (subV q.1 site) (subV c site) ≤ 3 / 2 * norm2 (subV c site) - 1 / 10 ^ 12 * root (norm2 (subV c site))) := by
    intro c hc
    have hp := root_pos' hroot (sub_ne_zero' (hne c hc))
    set r := root (norm2 (subV c site)) with hr
    have e : dotV (planeEq root site c (3 / 2)).1 q.1 + (planeEq root site c (3 / 2)).2 =
        (dotV (subV q.1 site) (subV c site) - 3 / 2 * norm2 (subV c site)) / r := by
      simp only [planeEq, ← hr]
      rw [eq_div_iff hp.ne']
      simp only [dotV, divV, addV, subV, norm2]
      field_simp
      ring
    rw [e, div_le_iff₀ hp]
    constructor <;> intro h <;> linarith
  unfold candNeighs
  rw [List.mem_filter, Bool.and_eq_true, Bool.and_eq_true, List.all_eq_true]
  simp only [List.mem_map, decide_eq_true_eq, Bool.not_eq_true', decide_eq_false_iff_not, not_lt, forall_exists_index, and_imp,
    forall_apply_eq_imp_iff₂]
  constructor
  · rintro ⟨h1, ⟨h2, -⟩, h4⟩
    exact ⟨h1, h4, fun c hc => (hkey c hc).1 (h2 c hc)⟩
  · rintro ⟨h1, h2, h3⟩
    exact ⟨h1, ⟨fun c hc => (hkey c hc).2 (h3 c hc), by intro h0; rw [h0] at h2; norm_num at h2⟩, h2⟩

/-- In a cubic cell the neighbour along `a` is considered, the one two cells away is not. -/
example : ((1, 0, 0), 1) ∈ candNeighs Real.sqrt (0, 0, 0) [(1, 0, 0), (-1, 0, 0)] [((1, 0, 0), 1), ((2, 0, 0), 2)] ∧
    ((2, 0, 0), 2) ∉ candNeighs Real.sqrt (0, 0, 0) [(1, 0, 0), (-1, 0, 0)] [((1, 0, 0), 1), ((2, 0, 0), 2)] := by
  have hne : ∀ c ∈ [((1 : ℝ), (0 : ℝ), (0 : ℝ)), (-1, 0, 0)], c ≠ (0, 0, 0) := by
    intro c hc
    simp only [List.mem_cons, List.not_mem_nil, or_false] at hc
    rcases hc with rfl | rfl <;> simp
  rw [C92_candidates isRoot_sqrt _ _ _ hne, C92_candidates isRoot_sqrt _ _ _ hne]
  constructor
  · refine ⟨by simp, by norm_num, fun c hc => ?_⟩
    simp only [List.mem_cons, List.not_mem_nil, or_false] at hc
    rcases hc with rfl | rfl <;> norm_num [dotV, subV, norm2]
  · rintro ⟨-, -, h⟩
    have := h (1, 0, 0) (by simp)
    norm_num [dotV, subV, norm2] at this

/-- **C92 (violated).**  The neighbours that are considered are found with planes in fractional coordinates.  In the leaning cell `a = (1, 0, 0)`,
`b = (7/2, 1, 0)` the four nearest neighbours across `b` are dropped, whatever pymatgen returns; what is kept across `b` in that layer is more than twice as far. -/
theorem C92_nearest_neighbours_lost {root : ℝ → ℝ} (hroot : IsRoot root) (near : List (V3 ℝ × ℝ)) (cnn : List (V3 ℝ)) (hc : (1, 0, 0) ∈ cnn ∧ (-1, 0, 0) ∈ cnn) :
    let L : M3 ℝ := ((1, 0, 0), (7 / 2, 1, 0), (0, 0, 1))
    (∀ q ∈ candNeighs root (0, 0, 0) cnn near, q.1 ≠ (3, -1, 0) ∧ q.1 ≠ (-3, 1, 0) ∧ q.1 ≠ (4, -1, 0) ∧ q.1 ≠ (-4, 1, 0)) ∧
    (∀ q ∈ candNeighs root (0, 0, 0) cnn near, ∀ i j : ℤ, q.1 = ((i : ℝ), (j : ℝ), 0) → j ≠ 0 → 4 * norm2 (vecMat ((3, -1, 0) : V3 ℝ) L) < norm2 (vecMat q.1 L)) := by
  intro L
  obtain ⟨h0, h1⟩ := hroot 1 (by norm_num)
  have r1 : root 1 = 1 := by nlinarith
  have key : ∀ q ∈ candNeighs root (0, 0, 0) cnn near, q.1.1 < 3 / 2 ∧ -(3 / 2) < q.1.1 := by
    intro q hq
    unfold candNeighs at hq
    rw [List.mem_filter, Bool.and_eq_true, Bool.and_eq_true, List.all_eq_true] at hq
    have a1 := hq.2.1.1 _ (List.mem_map_of_mem hc.1)
    have a2 := hq.2.1.1 _ (List.mem_map_of_mem hc.2)
    simp only [planeEq, dotV, subV, addV, divV, norm2, decide_eq_true_eq] at a1 a2
    norm_num [r1] at a1 a2
    constructor <;> linarith
  have r14 : ∀ q ∈ candNeighs root (0, 0, 0) cnn near, ∀ x y w : ℝ, (3 / 2 ≤ x ∨ x ≤ -(3 / 2)) → q.1 ≠ (x, y, w) := by
    intro q hq x y w hx e
    have := key q hq
    rw [e] at this
    simp only at this
    rcases hx with h | h <;> linarith
  refine ⟨fun q hq => ⟨r14 q hq _ _ _ (by norm_num), r14 q hq _ _ _ (by norm_num), r14 q hq _ _ _ (by norm_num), r14 q hq _ _ _ (by norm_num)⟩, ?_⟩
  intro q hq i j hij hj
  have hk := key q hq
  rw [hij] at hk ⊢
  simp only at hk
  have hi : -1 ≤ i ∧ i ≤ 1 := by
    constructor
    · by_contra h; push Not at h
      have : (i : ℝ) ≤ -2 := by exact_mod_cast (by omega : i ≤ -2)
      linarith [hk.2]
    · by_contra h; push Not at h
      have : (2 : ℝ) ≤ i := by exact_mod_cast (by omega : 2 ≤ i)
      linarith [hk.1]
  have hi1 : (-1 : ℝ) ≤ i := by exact_mod_cast hi.1
  have hi2 : (i : ℝ) ≤ 1 := by exact_mod_cast hi.2
  simp only [L, norm2, vecMat]
  norm_num
  rcases lt_or_gt_of_ne hj with h | h
  · have : (j : ℝ) ≤ -1 := by exact_mod_cast (by omega : j ≤ -1)
    nlinarith
  · have : (1 : ℝ) ≤ j := by exact_mod_cast (by omega : 1 ≤ j)
    nlinarith

/-- The diagonal of the base and the axis of a tetragonal cell have the same key (`a = 1`, `c = 1.4142`). -/
example : canonBond (K := ℚ) (1 / 50) (fun _ => 0) 0 0 (0, 0, 0) (1, 1, 0) [] (141421356 / 10 ^ 8) = canonBond (K := ℚ) (1 / 50) (fun _ => 0) 0 0 (0, 0, 0) (0, 0, 1) [] (14142 / 10 ^ 4) := by
  decide +kernel

end BaderKit
