import Verif.Model.PlaneSelect
import Mathlib.Analysis.Convex.KreinMilman
import Mathlib.Analysis.Convex.Topology
import Mathlib.Analysis.Normed.Module.Convex
import Mathlib.Analysis.Normed.Module.FiniteDimension
import Mathlib.Tactic.Linarith
import Mathlib.Tactic.Ring
/-!
# Half spaces that bound a cell

A bounded intersection of half spaces with an inner point is cut out by the half spaces whose planes hold three of its corners.
-/
namespace BaderKit
open Set

/-- Value of a plane at a point. -/
noncomputable def evH (h : HalfSp ℝ) (x : V3 ℝ) : ℝ := dotV h.1 x + h.2

/-- The points in all half spaces. -/
def halfCell (hs : Set (HalfSp ℝ)) : Set (V3 ℝ) := {x | ∀ h ∈ hs, evH h x ≤ 0}

theorem evH_comb (h : HalfSp ℝ) (x y : V3 ℝ) (a b : ℝ) (hab : a + b = 1) : evH h (a • x + b • y) = a * evH h x + b * evH h y := by
  have hb : b = 1 - a := by linarith
  subst hb
  simp only [evH, dotV, Prod.fst_add, Prod.snd_add, Prod.smul_fst, Prod.smul_snd, smul_eq_mul]
  ring

theorem evH_add (h : HalfSp ℝ) (y u : V3 ℝ) (e : ℝ) : evH h (y + e • u) = evH h y + e * dotV h.1 u := by
  simp only [evH, dotV, Prod.fst_add, Prod.snd_add, Prod.smul_fst, Prod.smul_snd, smul_eq_mul]
  ring

theorem evH_cont (h : HalfSp ℝ) : Continuous (evH h) := by
  unfold evH dotV
  fun_prop

theorem halfCell_closed (hs : Set (HalfSp ℝ)) : IsClosed (halfCell hs) := by
  have : halfCell hs = ⋂ h ∈ hs, {x | evH h x ≤ 0} := by ext x; simp [halfCell]
  rw [this]
  exact isClosed_biInter fun h _ => isClosed_le (evH_cont h) continuous_const

theorem halfCell_convex (hs : Set (HalfSp ℝ)) : Convex ℝ (halfCell hs) := by
  intro x hx y hy a b ha hb hab h hh
  rw [evH_comb h x y a b hab]
  nlinarith [hx h hh, hy h hh, mul_nonneg ha (neg_nonneg.2 (hx h hh)), mul_nonneg hb (neg_nonneg.2 (hy h hh))]

theorem halfCell_anti {hs gs : Set (HalfSp ℝ)} (h : hs ⊆ gs) : halfCell gs ⊆ halfCell hs := fun _ hx g hg => hx g (h hg)

/-- A part of the half spaces that cannot be made smaller. -/
theorem exists_irredundant (hs : Finset (HalfSp ℝ)) : ∃ S ⊆ hs, halfCell (S : Set (HalfSp ℝ)) = halfCell hs ∧
    ∀ h ∈ S, ∃ x, (∀ g ∈ S, g ≠ h → evH g x ≤ 0) ∧ 0 < evH h x := by
  classical
  obtain ⟨S, hS, hmin⟩ := Finset.exists_min_image (hs.powerset.filter fun (S : Finset (HalfSp ℝ)) => halfCell (S : Set (HalfSp ℝ)) = halfCell hs) Finset.card
    ⟨hs, by simp⟩
  rw [Finset.mem_filter, Finset.mem_powerset] at hS
  refine ⟨S, hS.1, hS.2, fun h hh => ?_⟩
  by_contra hno
  push Not at hno
  have heq : halfCell (S.erase h : Set (HalfSp ℝ)) = halfCell hs := by
    rw [← hS.2]
    refine Subset.antisymm (fun x hx g hg => ?_) (halfCell_anti (by simpa using Finset.erase_subset h S))
    by_cases hgh : g = h
    · rw [hgh]
      exact hno x fun g' hg' hne => hx g' (by simpa using ⟨hg', hne⟩)
    · exact hx g (by simpa using ⟨hg, hgh⟩)
  have := hmin (S.erase h) (by
    rw [Finset.mem_filter, Finset.mem_powerset]
    exact ⟨(Finset.erase_subset h S).trans hS.1, by simpa using heq⟩)
  rw [Finset.card_erase_of_mem hh] at this
  have := Finset.card_pos.2 ⟨h, hh⟩
  omega

/-- A plane of which a piece bounds the cell holds three corners. -/
theorem three_corners {S : Finset (HalfSp ℝ)} (hb : Bornology.IsBounded (halfCell (S : Set (HalfSp ℝ)))) {o : V3 ℝ} (ho : ∀ g ∈ S, evH g o < 0)
    {h : HalfSp ℝ} (hh : h ∈ S) (hn : h.1 ≠ 0) {x : V3 ℝ} (hx : ∀ g ∈ S, g ≠ h → evH g x ≤ 0) (hpos : 0 < evH h x) :
    ∃ a ∈ (halfCell (S : Set (HalfSp ℝ))).extremePoints ℝ, ∃ b ∈ (halfCell (S : Set (HalfSp ℝ))).extremePoints ℝ,
      ∃ c ∈ (halfCell (S : Set (HalfSp ℝ))).extremePoints ℝ, a ≠ b ∧ a ≠ c ∧ b ≠ c ∧ evH h a = 0 ∧ evH h b = 0 ∧ evH h c = 0 := by
  classical
  set P := halfCell (S : Set (HalfSp ℝ)) with hP
  set F : Set (V3 ℝ) := P ∩ {z | evH h z = 0} with hF
  have hPc : IsCompact P := Metric.isCompact_of_isClosed_isBounded (halfCell_closed _) hb
  have hFc : IsCompact F := hPc.inter_right (isClosed_eq (evH_cont h) continuous_const)
  have hFconv : Convex ℝ F := by
    refine (halfCell_convex _).inter ?_
    intro x hx y hy a b _ _ hab
    simp only [mem_ofPred_eq] at hx hy ⊢
    rw [evH_comb h x y a b hab, hx, hy]; ring
  have hext : IsExtreme ℝ P F := by
    refine ⟨inter_subset_left, fun x hx y hy z hz hzs => ?_⟩
    obtain ⟨a, b, ha, hb', hab, rfl⟩ := hzs
    have e := hz.2
    simp only [mem_ofPred_eq] at e
    rw [evH_comb h x y a b hab] at e
    have h1 := hx h hh
    have h2 := hy h hh
    refine ⟨hx, ?_⟩
    simp only [mem_ofPred_eq]
    nlinarith [mul_nonneg ha.le (neg_nonneg.2 h1), mul_nonneg hb'.le (neg_nonneg.2 h2), mul_pos ha hb']
  -- the point where the segment leaves the cell
  obtain ⟨y, hy0, hylt⟩ : ∃ y, evH h y = 0 ∧ ∀ g ∈ S, g ≠ h → evH g y < 0 := by
    have hoh := ho h hh
    have hden : 0 < evH h x - evH h o := by linarith
    set t := -evH h o / (evH h x - evH h o) with ht
    have ht0 : 0 < t := div_pos (by linarith) hden
    have ht1 : t < 1 := (div_lt_one hden).2 (by linarith)
    refine ⟨(1 - t) • o + t • x, ?_, fun g hg hne => ?_⟩
    · rw [evH_comb h o x (1 - t) t (by ring)]
      have : t * (evH h x - evH h o) = -evH h o := div_mul_cancel₀ _ hden.ne'
      linarith
    · rw [evH_comb g o x (1 - t) t (by ring)]
      have h1 := ho g hg
      have h2 := hx g hg hne
      nlinarith [mul_pos (sub_pos.2 ht1) (neg_pos.2 h1), mul_nonneg ht0.le (neg_nonneg.2 h2)]
  have hyF : y ∈ F := by
    refine ⟨fun g hg => ?_, hy0⟩
    by_cases hgh : g = h
    · rw [hgh, hy0]
    · exact (hylt g (by simpa using hg) hgh).le
  -- a small step within the plane stays in the cell
  have hstep : ∀ u : V3 ℝ, dotV h.1 u = 0 → ∃ e : ℝ, 0 < e ∧ y + e • u ∈ F := by
    intro u hu
    have hev : ∀ᶠ e : ℝ in nhds 0, ∀ g ∈ S.erase h, evH g (y + e • u) < 0 := by
      rw [Filter.eventually_all_finset]
      intro g hg
      have hg' := Finset.mem_erase.1 hg
      have hc : ContinuousAt (fun e : ℝ => evH g (y + e • u)) 0 := by
        have := evH_cont g
        fun_prop
      refine hc.eventually_lt continuousAt_const ?_
      simpa using hylt g hg'.2 hg'.1
    obtain ⟨d, hd, hball⟩ := Metric.eventually_nhds_iff.1 hev
    refine ⟨d / 2, by linarith, fun g hg => ?_, ?_⟩
    · by_cases hgh : g = h
      · rw [hgh, evH_add, hu, hy0]; simp
      · refine (hball (y := d / 2) ?_ g (Finset.mem_erase.2 ⟨hgh, by simpa using hg⟩)).le
        rw [Real.dist_eq, sub_zero, abs_of_pos (by linarith)]; linarith
    · simp only [mem_ofPred_eq]
      rw [evH_add, hu, hy0]; ring
  by_contra hno
  -- at most two corners
  obtain ⟨p, q, hpq⟩ : ∃ p q, F.extremePoints ℝ ⊆ {p, q} := by
    obtain ⟨p, hp⟩ := hFc.extremePoints_nonempty ⟨y, hyF⟩
    by_cases hq : ∃ q ∈ F.extremePoints ℝ, q ≠ p
    · obtain ⟨q, hq, hqp⟩ := hq
      refine ⟨p, q, fun r hr => ?_⟩
      by_contra hr'
      simp only [mem_insert_iff, mem_singleton_iff, not_or] at hr'
      have sub := hext.extremePoints_subset_extremePoints
      exact hno ⟨p, sub hp, q, sub hq, r, sub hr, hqp.symm, fun e => hr'.1 e.symm, fun e => hr'.2 e.symm, hp.1.2, hq.1.2, hr.1.2⟩
    · push Not at hq
      exact ⟨p, p, fun r hr => by simp [hq r hr]⟩
  have hseg : F ⊆ segment ℝ p q := by
    have h1 := closure_convexHull_extremePoints hFc hFconv
    have h2 : convexHull ℝ (F.extremePoints ℝ) ⊆ segment ℝ p q := by
      rw [← convexHull_pair]; exact convexHull_mono hpq
    have h3 : IsClosed (segment ℝ p q) := by
      rw [← convexHull_pair]; exact (Set.toFinite _).isClosed_convexHull ℝ
    rw [← h1]
    exact h3.closure_subset_iff.2 h2
  -- all directions of the plane are parallel
  have hpar : ∀ u : V3 ℝ, dotV h.1 u = 0 → ∃ s : ℝ, u = s • (q - p) := by
    intro u hu
    obtain ⟨e, he, hmem⟩ := hstep u hu
    have m1 := hseg hmem
    have m2 := hseg hyF
    rw [segment_eq_image'] at m1 m2
    obtain ⟨t1, _, e1⟩ := m1
    obtain ⟨t2, _, e2⟩ := m2
    refine ⟨(t1 - t2) / e, ?_⟩
    have : e • u = (t1 - t2) • (q - p) := by
      calc e • u = (p + t1 • (q - p)) - (p + t2 • (q - p)) := by
            rw [show p + t1 • (q - p) = y + e • u from e1, show p + t2 • (q - p) = y from e2]; abel
        _ = (t1 - t2) • (q - p) := by rw [sub_smul]; abel
    rw [div_eq_inv_mul, mul_smul, ← this, smul_smul, inv_mul_cancel₀ he.ne', one_smul]
  obtain ⟨⟨n1, n2, n3⟩, b⟩ := h
  obtain ⟨s, hs⟩ := hpar (-n2, n1, 0) (by simp only [dotV]; ring)
  obtain ⟨t, ht⟩ := hpar (-n3, 0, n1) (by simp only [dotV]; ring)
  obtain ⟨w, hw⟩ := hpar (0, -n3, n2) (by simp only [dotV]; ring)
  simp only [Prod.ext_iff, Prod.smul_fst, Prod.smul_snd, smul_eq_mul] at hs ht hw
  obtain ⟨s1, s2, s3⟩ := hs
  obtain ⟨t1, t2, t3⟩ := ht
  obtain ⟨w1, w2, w3⟩ := hw
  have k1 : n1 * n1 = 0 := by
    have : n1 * n1 = (s * (q - p).2.1) * (t * (q - p).2.2) := by rw [← s2, ← t3]
    rw [this]
    have : (s * (q - p).2.1) * (t * (q - p).2.2) = (s * (q - p).2.2) * (t * (q - p).2.1) := by ring
    rw [this, ← s3, ← t2]; ring
  have k2 : n2 * n2 = 0 := by
    have : -n2 * n2 = (s * (q - p).1) * (w * (q - p).2.2) := by rw [← s1, ← w3]
    have e : (s * (q - p).1) * (w * (q - p).2.2) = (s * (q - p).2.2) * (w * (q - p).1) := by ring
    rw [e, ← s3, ← w1] at this; linarith
  have k3 : n3 * n3 = 0 := by
    have : -n3 * -n3 = (t * (q - p).1) * (w * (q - p).2.1) := by rw [← t1, ← w2]
    have e : (t * (q - p).1) * (w * (q - p).2.1) = (t * (q - p).2.1) * (w * (q - p).1) := by ring
    rw [e, ← t2, ← w1] at this; linarith
  apply hn
  simp only [mul_self_eq_zero] at k1 k2 k3
  rw [k1, k2, k3]; rfl

end BaderKit
