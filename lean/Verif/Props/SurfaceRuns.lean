import Verif.Model.SurfaceRuns
import Verif.Props.FeatureSurface
/-!
# C49: the surface distances that atoms, basins and BadELF sites report
-/
set_option linter.unusedSectionVars false
namespace BaderKit
variable {K : Type} [Field K] [LinearOrder K] [IsStrictOrderedRing K] [FloorRing K]

/-! ## Specification -/

/-- `v` lies on the surface of site `b`: it has its label and a neighbour with another label, both outside the mask. -/
def SiteSurface (s : Shape) (ts : List Coord) (labels : ℕ → ℤ) (vac : ℕ → Bool) (b v : ℕ) : Prop :=
  vac v = false ∧ labels v = b ∧ ∃ w, IsNbr s ts v w ∧ vac w = false ∧ labels w ≠ labels v

open Classical in
/-- `mn` and `avg` are the smallest and the mean distance `D` over the surface voxels of site `b`. -/
def MinAndMean (s : Shape) (ts : List Coord) (labels : ℕ → ℤ) (vac : ℕ → Bool) (b : ℕ) (D : ℕ → K) (mn avg : K) : Prop :=
  let own := (Finset.range s.size).filter (SiteSurface s ts labels vac b)
  avg = (∑ v ∈ own, D v) / own.card ∧ (∃ v ∈ own, mn = D v) ∧ ∀ v ∈ own, mn ≤ D v

/-! ## Proofs -/

open Classical in
theorem siteSurface_spec (root : K → K) (hr : IsRoot root) (s : Shape) (L : M3 K) (hL : 0 < norm2 L.1) (n : ℕ) (frac : ℕ → V3 K)
    (labels : ℕ → ℤ) (vac : ℕ → Bool) (ts : List Coord) (hts : ∀ t ∈ ts, StepFits s t) (order : List ℕ) (hord : IsSchedule s order)
    (hlab : ∀ v < s.size, vac v = false → -1 ≤ labels v ∧ labels v < n) (b : ℕ)
    (hvac : b + 1 < n ∨ ∀ v < s.size, vac v = false → labels v ≠ -1) :
    let r := badelfSurface root s L n frac labels vac ts order
    ((∃ v < s.size, SiteSurface s ts labels vac b v) → MinAndMean s ts labels vac b (surfDist root s L (frac b)) (r.1 b) (r.2 b)) ∧
    ((∀ v < s.size, ¬ SiteSurface s ts labels vac b v) → r.1 b = twiceLongest root L) := by
  intro r
  set edge := getEdges s labels ts vac order with he
  have hset : (Finset.range s.size).filter (fun v => edge v = true ∧ pyIdx n (labels v) = b) =
      (Finset.range s.size).filter (SiteSurface s ts labels vac b) := by
    apply Finset.filter_congr
    intro v hv
    have hv' := Finset.mem_range.mp hv
    rw [he, C13_edges_exact s labels ts vac order hord hts v hv']
    constructor
    · rintro ⟨⟨h1, h2⟩, h3⟩
      obtain ⟨l1, l2⟩ := hlab v hv' h1
      refine ⟨h1, ?_, h2⟩
      unfold pyIdx at h3
      split_ifs at h3 with hneg
      · have : labels v = -1 := by omega
        rcases hvac with h | h
        · omega
        · exact absurd this (h v hv' h1)
      · omega
    · rintro ⟨h1, h2, h3⟩
      refine ⟨⟨h1, h3⟩, ?_⟩
      unfold pyIdx
      rw [if_neg (by omega)]
      omega
  obtain ⟨h1, -, h3, h4⟩ := surfaceDists_spec root s L n frac labels edge (twiceLongest root L) b
  rw [hset] at h1 h3 h4
  constructor
  · rintro ⟨u, hu, hsu⟩
    refine ⟨h1, ?_, h3⟩
    rcases h4 with h | h
    · have := h3 u (Finset.mem_filter.mpr ⟨Finset.mem_range.mpr hu, hsu⟩)
      rw [h] at this
      exact absurd (surfDist_lt root hr s L hL (frac b) u) (not_lt.mpr this)
    · exact h
  · intro hno
    rcases h4 with h | ⟨v, hv, -⟩
    · exact h
    · obtain ⟨a, b⟩ := Finset.mem_filter.mp hv
      exact absurd b (hno v (Finset.mem_range.mp a))

theorem surfDist_nearest_eq (root : K → K) (hr : IsRoot root) (s : Shape) (L : M3 K) (horth : Orthogonal L) (c : V3 K) (D : ℕ → K)
    (hD : ∀ v, IsNearest root L c (voxFrac s v) (D v)) : surfDist root s L c = D := by
  funext v
  obtain ⟨⟨t, ht⟩, hm⟩ := C49_distance root hr.rootLike s L horth c v
  obtain ⟨⟨t', ht'⟩, hm'⟩ := hD v
  apply le_antisymm
  · rw [ht']; exact hm t'
  · rw [ht]; exact hm' t

/-- **C49** (partial) BadELF, in an orthogonal cell whose voxels outside the vacuum all have a site: for every visiting order and every site with a
surface, the reported average is the mean, over the voxels on the surface of the site, of the distance from its centre to the nearest image of the
voxel, and the reported minimum is the smallest of these distances, however the vacuum lies.  Missing: skewed cells (`C84_skewed_wrong`). -/
theorem C49_badelf_partial (root : K → K) (hr : IsRoot root) (s : Shape) (L : M3 K) (hL : 0 < norm2 L.1) (horth : Orthogonal L) (n : ℕ)
    (frac : ℕ → V3 K) (labels : ℕ → ℤ) (vac : ℕ → Bool) (ts : List Coord) (hts : ∀ t ∈ ts, StepFits s t) (order : List ℕ)
    (hord : IsSchedule s order) (hlab : ∀ v < s.size, vac v = false → 0 ≤ labels v ∧ labels v < n) (b : ℕ)
    (D : ℕ → K) (hD : ∀ v, IsNearest root L (frac b) (voxFrac s v) (D v)) (hsurf : ∃ v < s.size, SiteSurface s ts labels vac b v) :
    MinAndMean s ts labels vac b D ((badelfSurface root s L n frac labels vac ts order).1 b)
      ((badelfSurface root s L n frac labels vac ts order).2 b) := by
  have := (siteSurface_spec root hr s L hL n frac labels vac ts hts order hord (fun v hv h => ⟨by have := hlab v hv h; omega, (hlab v hv h).2⟩) b
    (.inr fun v hv h => by have := hlab v hv h; omega)).1 hsurf
  rwa [surfDist_nearest_eq root hr s L horth (frac b) D hD] at this

/-- **C49** (partial) Atoms and basins, in an orthogonal cell: the same, where a voxel next to the vacuum counts as a surface voxel, for every site
but the last one and for the last one too when no voxel is vacuum.  Missing: the last site in presence of vacuum (`C49_vacuum_pollutes`), skewed
cells (`C84_skewed_wrong`). -/
theorem C49_bader_partial (root : K → K) (hr : IsRoot root) (s : Shape) (L : M3 K) (hL : 0 < norm2 L.1) (horth : Orthogonal L) (n : ℕ)
    (frac : ℕ → V3 K) (labels : ℕ → ℤ) (ts : List Coord) (hts : ∀ t ∈ ts, StepFits s t) (order : List ℕ)
    (hord : IsSchedule s order) (hlab : ∀ v < s.size, -1 ≤ labels v ∧ labels v < n) (b : ℕ)
    (hvac : b + 1 < n ∨ ∀ v < s.size, labels v ≠ -1)
    (D : ℕ → K) (hD : ∀ v, IsNearest root L (frac b) (voxFrac s v) (D v))
    (hsurf : ∃ v < s.size, SiteSurface s ts labels (fun _ => false) b v) :
    MinAndMean s ts labels (fun _ => false) b D ((baderSurface root s L n frac labels ts order).1 b)
      ((baderSurface root s L n frac labels ts order).2 b) := by
  have := (siteSurface_spec root hr s L hL n frac labels (fun _ => false) ts hts order hord (fun v hv _ => hlab v hv) b
    (hvac.imp id fun h v hv _ => h v hv)).1 hsurf
  rwa [surfDist_nearest_eq root hr s L horth (frac b) D hD] at this

/-- **C49.** A BadELF site without a surface (for instance the only site of its cell, or one surrounded by vacuum) is reported at twice the longest
lattice vector, in any cell. -/
theorem C49_no_surface (root : K → K) (hr : IsRoot root) (s : Shape) (L : M3 K) (hL : 0 < norm2 L.1) (n : ℕ)
    (frac : ℕ → V3 K) (labels : ℕ → ℤ) (vac : ℕ → Bool) (ts : List Coord) (hts : ∀ t ∈ ts, StepFits s t) (order : List ℕ)
    (hord : IsSchedule s order) (hlab : ∀ v < s.size, vac v = false → 0 ≤ labels v ∧ labels v < n) (b : ℕ)
    (hno : ∀ v < s.size, ¬ SiteSurface s ts labels vac b v) :
    (badelfSurface root s L n frac labels vac ts order).1 b =
      2 * max (max (root (norm2 L.1)) (root (norm2 L.2.1))) (root (norm2 L.2.2)) := by
  rw [mul_comm]
  exact (siteSurface_spec root hr s L hL n frac labels vac ts hts order hord (fun v hv h => ⟨by have := hlab v hv h; omega, (hlab v hv h).2⟩) b
    (.inr fun v hv h => by have := hlab v hv h; omega)).2 hno

/-- The two programs differ: on the ring of `C49_vacuum_pollutes` (one site, two voxels of vacuum) BadELF sees no surface while the atoms of a Bader
run have one, on the border of the vacuum. -/
theorem C49_vacuum_border :
    let labels : ℕ → ℤ := fun v => [0, 0, -1, -1].getD v 0
    let vac : ℕ → Bool := fun v => decide (labels v = -1)
    (∀ v < 4, getEdges ⟨4, 1, 1⟩ labels (ring2.map Prod.fst) vac (List.range 4) v = false) ∧
    (∀ v < 4, getEdges ⟨4, 1, 1⟩ labels (ring2.map Prod.fst) (fun _ => false) (List.range 4) v = true) := by
  decide +kernel

/-- Non-vacuity: a ring of six voxels with two sites and one voxel of vacuum meets the hypotheses of `C49_badelf_partial` on labels and steps, both
sites have a surface. -/
example : let labels : ℕ → ℤ := fun v => [0, 0, 1, 1, 1, -1].getD v 0
    let vac : ℕ → Bool := fun v => decide (labels v = -1)
    (∀ v < (⟨6, 1, 1⟩ : Shape).size, vac v = false → 0 ≤ labels v ∧ labels v < (2 : ℕ)) ∧ (∀ t ∈ ring2.map Prod.fst, StepFits ⟨6, 1, 1⟩ t) ∧
    (List.range 6).map (getEdges ⟨6, 1, 1⟩ labels (ring2.map Prod.fst) vac (List.range 6)) = [false, true, true, false, false, false] := by
  refine ⟨by decide, by unfold StepFits; decide, by decide +kernel⟩

end BaderKit
