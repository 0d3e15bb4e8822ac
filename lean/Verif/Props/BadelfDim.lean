import Verif.Spec.BadelfDim
import Mathlib.Data.Rat.Floor
import Mathlib.Tactic.IntervalCases
import Mathlib.Tactic.NormNum
import Mathlib.Tactic.Positivity
import Mathlib.Data.Nat.Lattice
import Mathlib.Data.Nat.Pairing
/-!
# C56: dimensionality of the electride
-/
namespace BaderKit

/-! ### The number of connected directions -/

theorem inSuper_image (s : Shape) (mask : Coord → Bool) (c : Coord)
    (hc : (0 ≤ c.1 ∧ c.1 < s.nx) ∧ (0 ≤ c.2.1 ∧ c.2.1 < s.ny) ∧ (0 ≤ c.2.2 ∧ c.2.2 < s.nz)) (hm : mask c = true)
    (i : ℕ) : InSuper s mask (imageOf s c i) := by
  have ht : ∀ t ∈ dimCells, (t.1 = 0 ∨ t.1 = 1) ∧ (t.2.1 = 0 ∨ t.2.1 = 1) ∧ (t.2.2 = 0 ∨ t.2.2 = 1) := by decide
  have hmem : dimCells.getD i (0, 0, 0) ∈ dimCells := by
    rw [List.getD_eq_getElem?_getD]
    by_cases h : i < dimCells.length
    · rw [List.getElem?_eq_getElem h]; exact List.getElem_mem h
    · rw [List.getElem?_eq_none (by omega)]; decide
  obtain ⟨h1, h2, h3⟩ := ht _ hmem
  obtain ⟨c1, c2, c3⟩ := hc
  unfold InSuper imageOf cellOf
  generalize dimCells.getD i (0, 0, 0) = t at *
  obtain ⟨t1, t2, t3⟩ := t
  simp only at h1 h2 h3 ⊢
  have e1 : (t1 * (s.nx : ℤ) + c.1) % s.nx = c.1 := by
    rw [Int.mul_add_emod_self_right]; exact Int.emod_eq_of_lt c1.1 c1.2
  have e2 : (t2 * (s.ny : ℤ) + c.2.1) % s.ny = c.2.1 := by
    rw [Int.mul_add_emod_self_right]; exact Int.emod_eq_of_lt c2.1 c2.2
  have e3 : (t3 * (s.nz : ℤ) + c.2.2) % s.nz = c.2.2 := by
    rw [Int.mul_add_emod_self_right]; exact Int.emod_eq_of_lt c3.1 c3.2
  refine ⟨?_, ?_, ?_, ?_⟩
  · rcases h1 with rfl | rfl <;> omega
  · rcases h2 with rfl | rfl <;> omega
  · rcases h3 with rfl | rfl <;> omega
  · rw [e1, e2, e3]; exact hm

theorem superAdj_mono {s : Shape} {m m' : Coord → Bool} (h : ∀ c, m' c = true → m c = true) {a b : Coord}
    (hab : SuperAdj s m' a b) : SuperAdj s m a b :=
  ⟨⟨hab.1.1, hab.1.2.1, hab.1.2.2.1, h _ hab.1.2.2.2⟩,
   ⟨hab.2.1.1, hab.2.1.2.1, hab.2.1.2.2.1, h _ hab.2.1.2.2.2⟩, hab.2.2⟩

theorem superConn_mono {s : Shape} {m m' : Coord → Bool} (h : ∀ c, m' c = true → m c = true) {a b : Coord}
    (hab : SuperConn s m' a b) : SuperConn s m a b :=
  Relation.ReflTransGen.mono (fun _ _ => superAdj_mono h) _ _ hab

/-- Labels as specified always exist. -/
theorem exists_labelling (s : Shape) (mask : Coord → Bool) : ∃ lbl, IsLabelling s mask lbl := by
  classical
  have hsymm : ∀ a b, SuperConn s mask a b → SuperConn s mask b a := by
    intro a b h
    have hs : ∀ x y, SuperAdj s mask x y → SuperAdj s mask y x := by
      rintro x y ⟨h1, h2, h3, h4, h5⟩
      rw [abs_sub_comm] at h3 h4 h5
      exact ⟨h2, h1, h3, h4, h5⟩
    induction h with
    | refl => exact .refl
    | tail _ hxy ih => exact (Relation.ReflTransGen.single (hs _ _ hxy)).trans ih
  let code : Coord → ℕ := fun a => Nat.pair a.1.toNat (Nat.pair a.2.1.toNat a.2.2.toNat)
  have hcode : ∀ a b, InSuper s mask a → InSuper s mask b → code a = code b → a = b := by
    intro a b ha hb h
    simp only [code, Nat.pair_eq_pair] at h
    have := ha.1; have := ha.2.1; have := ha.2.2.1
    have := hb.1; have := hb.2.1; have := hb.2.2.1
    obtain ⟨a1, a2, a3⟩ := a
    obtain ⟨b1, b2, b3⟩ := b
    simp only [Prod.mk.injEq] at *
    refine ⟨by omega, by omega, by omega⟩
  refine ⟨fun a => sInf {n | ∃ x, InSuper s mask x ∧ SuperConn s mask a x ∧ code x = n}, ?_⟩
  intro a b ha hb
  constructor
  · intro h
    have h1 := Nat.sInf_mem (s := {n | ∃ x, InSuper s mask x ∧ SuperConn s mask a x ∧ code x = n})
      ⟨code a, a, ha, .refl, rfl⟩
    have h2 := Nat.sInf_mem (s := {n | ∃ x, InSuper s mask x ∧ SuperConn s mask b x ∧ code x = n})
      ⟨code b, b, hb, .refl, rfl⟩
    obtain ⟨x, x1, x2, x3⟩ := h1
    obtain ⟨y, y1, y2, y3⟩ := h2
    simp only at h
    have : x = y := hcode x y x1 y1 (x3.trans (h.trans y3.symm))
    subst this
    exact x2.trans (hsymm _ _ y2)
  · intro h
    simp only
    congr 1
    ext n
    constructor
    · rintro ⟨x, x1, x2, x3⟩
      exact ⟨x, x1, (hsymm _ _ h).trans x2, x3⟩
    · rintro ⟨x, x1, x2, x3⟩
      exact ⟨x, x1, h.trans x2, x3⟩

/-- The number of the 13 directions in which the images of a voxel are connected in the supercell. -/
noncomputable def connectedDirections (s : Shape) (mask : Coord → Bool) (c : Coord) : ℕ := by
  classical
  exact dimPairs.countP fun p => decide (SuperConn s mask (imageOf s c p.1) (imageOf s c p.2))

/-- A voxel index inside the grid. -/
def InGrid (s : Shape) (c : Coord) : Prop :=
  (0 ≤ c.1 ∧ c.1 < s.nx) ∧ (0 ≤ c.2.1 ∧ c.2.1 < s.ny) ∧ (0 ≤ c.2.2 ∧ c.2.2 < s.nz)

/-- C56: the count is the number of directions in which the voxel is connected to its image. -/
theorem C56_count (s : Shape) (mask : Coord → Bool) (lbl : Coord → ℕ) (hl : IsLabelling s mask lbl) (c : Coord)
    (hc : InGrid s c) (hm : mask c = true) : connCount s lbl c = connectedDirections s mask c := by
  unfold connCount connectedDirections
  apply List.countP_congr
  intro p _
  have := hl (imageOf s c p.1) (imageOf s c p.2) (inSuper_image s mask c hc hm _) (inSuper_image s mask c hc hm _)
  simp [this]

theorem connectedDirections_mono (s : Shape) {m m' : Coord → Bool} (h : ∀ c, m' c = true → m c = true) (c : Coord) :
    connectedDirections s m' c ≤ connectedDirections s m c := by
  unfold connectedDirections
  apply List.countP_mono_left
  intro p _ hp
  simp only [decide_eq_true_eq] at hp ⊢
  exact superConn_mono h hp

theorem connectedDirections_le (s : Shape) (m : Coord → Bool) (c : Coord) : connectedDirections s m c ≤ 13 := by
  unfold connectedDirections
  exact List.countP_le_length

theorem dimOfCount_le {n d : ℕ} (h : dimOfCount n = some d) : d ≤ 3 := by
  unfold dimOfCount at h
  split at h
  · simp at h; omega
  · split at h
    · simp at h; omega
    · split at h
      · simp at h; omega
      · split at h
        · simp at h; omega
        · simp at h

theorem dimOfCount_mono {n m d e : ℕ} (h : n ≤ m) (hd : dimOfCount n = some d) (he : dimOfCount m = some e) : d ≤ e := by
  unfold dimOfCount at hd he
  repeat' split at hd
  all_goals repeat' split at he
  all_goals simp at hd he
  all_goals omega

theorem dimOfCount_isSome {n : ℕ} (h : n ≤ 13) (h5 : n ≠ 5) : (dimOfCount n).isSome = true := by
  interval_cases n <;> first | rfl | exact absurd rfl h5

theorem max?_spec {xs : List ℕ} {d : ℕ} (h : xs.max? = some d) : d ∈ xs ∧ ∀ x ∈ xs, x ≤ d := by
  rw [List.max?_eq_some_iff] at h
  exact h

theorem value_aux (s : Shape) (mask : Coord → Bool) (feats : List Coord) (lbl : Coord → ℕ)
    (hl : IsLabelling s mask lbl) (hf : ∀ c ∈ feats, InGrid s c) (d : ℕ)
    (h : elfDim s mask feats lbl = some d) :
    d ≤ 3 ∧ (∀ c ∈ feats, mask c = true → ∀ e, dimOfCount (connectedDirections s mask c) = some e → e ≤ d) ∧
    (d ≠ 0 → ∃ c ∈ feats, mask c = true ∧ dimOfCount (connectedDirections s mask c) = some d) := by
  unfold elfDim at h
  have hcell : ∀ c : Coord, InGrid s c → c ∈ tripleLoop s := by
    rintro ⟨a, b, c⟩ ⟨⟨h1, h2⟩, ⟨h3, h4⟩, h5, h6⟩
    simp only at h1 h2 h3 h4 h5 h6
    simp only [tripleLoop, List.mem_flatMap, List.mem_map, List.mem_range, Prod.mk.injEq]
    exact ⟨a.toNat, by omega, b.toNat, by omega, c.toNat, by omega, by omega, by omega, by omega⟩
  split at h
  · rename_i hall
    rw [List.all_eq_true] at hall
    have hd : d = 0 := by simpa using h.symm
    refine ⟨by omega, ?_, fun h0 => absurd hd h0⟩
    intro c hc hm
    have := hall c (hcell c (hf c hc))
    rw [hm] at this
    simp at this
  · split at h
    · simp at h
    · simp only at h
      split at h
      · rename_i hempty
        have hd : d = 0 := by simpa using h.symm
        rw [List.filter_eq_nil_iff] at hempty
        refine ⟨by omega, ?_, fun h0 => absurd hd h0⟩
        intro c hc hm
        exact absurd hm (hempty c hc)
      · obtain ⟨h1, h2⟩ := max?_spec h
        rw [List.mem_filterMap] at h1
        obtain ⟨c, hc, hcd⟩ := h1
        rw [List.mem_filter] at hc
        rw [C56_count s mask lbl hl c (hf c hc.1) hc.2] at hcd
        refine ⟨dimOfCount_le hcd, ?_, fun _ => ⟨c, hc.1, hc.2, hcd⟩⟩
        intro c' hc' hm e he
        apply h2
        rw [List.mem_filterMap]
        refine ⟨c', List.mem_filter.mpr ⟨hc', hm⟩, ?_⟩
        rw [C56_count s mask lbl hl c' (hf c' hc') hm]
        exact he

/-- The documented dimensionality for a number of connected directions, `badelf.py:703-704`: "1 connection is 1D,
2-4 connections is 2D and 5-13 connections is 3D". -/
def documentedDim (n d : ℕ) : Prop :=
  (n = 0 ∧ d = 0) ∨ (n = 1 ∧ d = 1) ∨ ((2 ≤ n ∧ n ≤ 4) ∧ d = 2) ∨ ((5 ≤ n ∧ n ≤ 13) ∧ d = 3)

theorem dimOfCount_documented {n d : ℕ} : dimOfCount n = some d ↔ documentedDim n d ∧ n ≠ 5 := by
  unfold dimOfCount documentedDim
  constructor
  · intro h
    repeat' split at h
    all_goals simp at h
    all_goals omega
  · intro h
    split
    · simp; omega
    · split
      · simp; omega
      · split
        · simp; omega
        · split
          · simp; omega
          · omega

/-- C56: a returned dimensionality is the largest of the documented dimensionalities of the electride sites inside
the mask that do not have exactly five connected directions, and 0 if there is none. -/
theorem C56_value (s : Shape) (mask : Coord → Bool) (feats : List Coord) (lbl : Coord → ℕ)
    (hl : IsLabelling s mask lbl) (hf : ∀ c ∈ feats, InGrid s c) (d : ℕ)
    (h : elfDim s mask feats lbl = some d) :
    (∀ c ∈ feats, mask c = true → connectedDirections s mask c ≠ 5 →
      ∀ e, documentedDim (connectedDirections s mask c) e → e ≤ d) ∧
    (d ≠ 0 → ∃ c ∈ feats, mask c = true ∧ documentedDim (connectedDirections s mask c) d) := by
  obtain ⟨-, h2, h3⟩ := value_aux s mask feats lbl hl hf d h
  refine ⟨fun c hc hm h5 e he => h2 c hc hm e (dimOfCount_documented.mpr ⟨he, h5⟩), fun h0 => ?_⟩
  obtain ⟨c, hc, hm, he⟩ := h3 h0
  exact ⟨c, hc, hm, (dimOfCount_documented.mp he).1⟩

/-- C56 (partial): the calculation returns a value unless a site has exactly five connected directions.  What is
missing: that case (`C56_five_crash`) and sites whose index is rounded outside the grid (`C56_index_crash`). -/
theorem C56_total_partial (s : Shape) (mask : Coord → Bool) (feats : List Coord) (lbl : Coord → ℕ)
    (hl : IsLabelling s mask lbl) (hf : ∀ c ∈ feats, InGrid s c)
    (h5 : ∀ c ∈ feats, mask c = true → connectedDirections s mask c ≠ 5) :
    ∃ d, elfDim s mask feats lbl = some d := by
  unfold elfDim
  split
  · exact ⟨0, rfl⟩
  · split
    · rename_i hany
      rw [List.any_eq_true] at hany
      obtain ⟨c, hc, hb⟩ := hany
      have := hf c hc
      unfold InGrid at this
      have hb := of_decide_eq_true hb
      omega
    · simp only
      split
      · exact ⟨0, rfl⟩
      · rename_i hne
        obtain ⟨c, cs, hcs⟩ := List.exists_cons_of_ne_nil hne
        have hc : c ∈ feats.filter fun c => mask c := by rw [hcs]; simp
        rw [List.mem_filter] at hc
        have hs := dimOfCount_isSome (connectedDirections_le s mask c) (h5 c hc.1 hc.2)
        obtain ⟨e, he⟩ := Option.isSome_iff_exists.mp hs
        rw [hcs, List.filterMap_cons, C56_count s mask lbl hl c (hf c hc.1) hc.2, he]
        simp only
        rw [List.max?_cons]
        exact ⟨_, rfl⟩

/-- C56 (partial): raising the cutoff (a smaller mask) does not raise the dimensionality, unless a site has
exactly five connected directions in the larger mask. -/
theorem C56_antitone_partial (s : Shape) (m m' : Coord → Bool) (hmm : ∀ c, m' c = true → m c = true)
    (feats : List Coord) (lbl lbl' : Coord → ℕ) (hl : IsLabelling s m lbl) (hl' : IsLabelling s m' lbl')
    (hf : ∀ c ∈ feats, InGrid s c) (h5 : ∀ c ∈ feats, m c = true → connectedDirections s m c ≠ 5)
    (d d' : ℕ) (hd : elfDim s m feats lbl = some d) (hd' : elfDim s m' feats lbl' = some d') : d' ≤ d := by
  obtain ⟨-, h2, -⟩ := value_aux s m feats lbl hl hf d hd
  obtain ⟨-, -, h3⟩ := value_aux s m' feats lbl' hl' hf d' hd'
  by_cases h0 : d' = 0
  · omega
  · obtain ⟨c, hc, hm, he⟩ := h3 h0
    have hs := dimOfCount_isSome (connectedDirections_le s m c) (h5 c hc (hmm c hm))
    obtain ⟨e, he2⟩ := Option.isSome_iff_exists.mp hs
    exact (dimOfCount_mono (connectedDirections_mono s hmm c) he he2).trans (h2 c hc (hmm c hm) e he2)

/-! ### Five connected directions -/

theorem conn_of_path {s : Shape} {mask : Coord → Bool} (p : List Coord) (a b : Coord)
    (h : (a :: p).IsChain (SuperAdj s mask)) (hb : (a :: p).getLast (by simp) = b) : SuperConn s mask a b := by
  induction p generalizing a with
  | nil => simp at hb; rw [hb]; exact .refl
  | cons x p ih =>
    rw [List.isChain_cons_cons] at h
    rw [List.getLast_cons (by simp)] at hb
    exact (Relation.ReflTransGen.single h.1).trans (ih x h.2 hb)

theorem not_conn_of_inv {s : Shape} {mask : Coord → Bool} (f : Coord → ℕ)
    (h : ∀ a ∈ tripleLoop ⟨2 * s.nx, 2 * s.ny, 2 * s.nz⟩, ∀ t ∈ (0, 0, 0) :: neighbors26,
      SuperAdj s mask a (addC a t) → f a = f (addC a t)) {a b : Coord} (hab : SuperConn s mask a b) : f a = f b := by
  induction hab with
  | refl => rfl
  | @tail x y _ hxy ih =>
    rw [ih]
    obtain ⟨hx, hy, h1, h2, h3⟩ := hxy
    have ht : (y.1 - x.1, y.2.1 - x.2.1, y.2.2 - x.2.2) ∈ (0, 0, 0) :: neighbors26 := by
      have hall : ∀ i ∈ ([-1, 0, 1] : List ℤ), ∀ j ∈ ([-1, 0, 1] : List ℤ), ∀ k ∈ ([-1, 0, 1] : List ℤ),
          (i, j, k) ∈ (0, 0, 0) :: neighbors26 := by decide
      rw [abs_le] at h1 h2 h3
      apply hall
      · simp only [List.mem_cons, List.not_mem_nil, or_false]; omega
      · simp only [List.mem_cons, List.not_mem_nil, or_false]; omega
      · simp only [List.mem_cons, List.not_mem_nil, or_false]; omega
    have hadd : addC x (y.1 - x.1, y.2.1 - x.2.1, y.2.2 - x.2.2) = y := by
      unfold addC
      ext <;> simp
    have hmem : x ∈ tripleLoop ⟨2 * s.nx, 2 * s.ny, 2 * s.nz⟩ := by
      obtain ⟨x1, x2, x3⟩ := x
      obtain ⟨a1, a2, a3, _⟩ := hx
      simp only at a1 a2 a3
      simp only [tripleLoop, List.mem_flatMap, List.mem_map, List.mem_range, Prod.mk.injEq]
      exact ⟨x1.toNat, by omega, x2.toNat, by omega, x3.toNat, by omega, by omega, by omega, by omega⟩
    have := h x hmem _ ht
    rw [hadd] at this
    exact this ⟨hx, hy, h1, h2, h3⟩

/-- A mask of five voxels in a grid of 27. -/
def fiveMask (c : Coord) : Bool :=
  decide (c ∈ ([(0, 0, 1), (0, 2, 0), (0, 2, 2), (1, 0, 2), (2, 1, 2)] : List Coord))

def fiveInv (c : Coord) : ℕ :=
  if c = (0, 5, 0) then 2 else if c = (0, 5, 2) ∨ c = (0, 5, 3) then 3 else if c = (0, 5, 5) then 4
  else if c = (3, 5, 0) then 5 else 1

theorem fiveInv_ok : ∀ a ∈ tripleLoop ⟨6, 6, 6⟩, ∀ t ∈ (0, 0, 0) :: neighbors26,
    SuperAdj ⟨3, 3, 3⟩ fiveMask a (addC a t) → fiveInv a = fiveInv (addC a t) := by
  decide +kernel

theorem five_directions : connectedDirections ⟨3, 3, 3⟩ fiveMask (0, 2, 0) = 5 := by
  have key : ∀ p ∈ dimPairs, (SuperConn ⟨3, 3, 3⟩ fiveMask (imageOf ⟨3, 3, 3⟩ (0, 2, 0) p.1) (imageOf ⟨3, 3, 3⟩ (0, 2, 0) p.2) ↔
      fiveInv (imageOf ⟨3, 3, 3⟩ (0, 2, 0) p.1) = fiveInv (imageOf ⟨3, 3, 3⟩ (0, 2, 0) p.2)) := by
    intro p hp
    refine ⟨fun h => not_conn_of_inv (s := ⟨3, 3, 3⟩) fiveInv fiveInv_ok h, fun h => ?_⟩
    have c1 : SuperConn ⟨3, 3, 3⟩ fiveMask (0, 2, 0) (3, 2, 0) :=
      conn_of_path [(0, 3, 1), (1, 3, 2), (2, 4, 2), (3, 3, 1), (3, 2, 0)] _ _ (by decide) (by decide)
    have c3 : SuperConn ⟨3, 3, 3⟩ fiveMask (0, 2, 0) (0, 2, 3) :=
      conn_of_path [(0, 3, 1), (0, 2, 2), (0, 2, 3)] _ _ (by decide) (by decide)
    have c5 : SuperConn ⟨3, 3, 3⟩ fiveMask (0, 2, 0) (3, 2, 3) :=
      conn_of_path [(0, 3, 1), (1, 3, 2), (2, 4, 2), (3, 3, 1), (3, 2, 2), (3, 2, 3)] _ _ (by decide) (by decide)
    have c7 : SuperConn ⟨3, 3, 3⟩ fiveMask (0, 2, 0) (3, 5, 3) :=
      conn_of_path [(0, 3, 1), (1, 3, 2), (2, 4, 2), (3, 5, 3)] _ _ (by decide) (by decide)
    have c31 : SuperConn ⟨3, 3, 3⟩ fiveMask (0, 2, 3) (3, 2, 0) :=
      conn_of_path [(0, 2, 2), (0, 3, 1), (1, 3, 2), (2, 4, 2), (3, 3, 1), (3, 2, 0)] _ _ (by decide) (by decide)
    simp only [dimPairs, List.mem_cons, List.not_mem_nil, or_false] at hp
    rcases hp with rfl | rfl | rfl | rfl | rfl | rfl | rfl | rfl | rfl | rfl | rfl | rfl | rfl
    · exact c1
    · exact absurd h (by decide)
    · exact c3
    · exact absurd h (by decide)
    · exact c5
    · exact absurd h (by decide)
    · exact c31
    · exact absurd h (by decide)
    · exact absurd h (by decide)
    · exact c7
    · exact absurd h (by decide)
    · exact absurd h (by decide)
    · exact absurd h (by decide)
  unfold connectedDirections
  have : (dimPairs.countP fun p => fiveInv (imageOf ⟨3, 3, 3⟩ (0, 2, 0) p.1) = fiveInv (imageOf ⟨3, 3, 3⟩ (0, 2, 0) p.2)) = 5 := by
    decide
  rw [← this]
  apply List.countP_congr
  intro p hp
  simp [key p hp]

/-- C56: a mask with one electride site that has exactly five connected directions: the calculation raises an
exception whatever numbers the labelling uses. -/
theorem C56_five_crash : ∃ (s : Shape) (mask : Coord → Bool) (c : Coord), InGrid s c ∧ mask c = true ∧
    ∀ lbl, IsLabelling s mask lbl → elfDim s mask [c] lbl = none := by
  refine ⟨⟨3, 3, 3⟩, fiveMask, (0, 2, 0), by unfold InGrid; decide, by decide, fun lbl hl => ?_⟩
  have hc := C56_count ⟨3, 3, 3⟩ fiveMask lbl hl (0, 2, 0) (by unfold InGrid; decide) (by decide)
  rw [five_directions] at hc
  have h1 : ((tripleLoop ⟨3, 3, 3⟩).all fun c => !fiveMask c) = false := by decide
  unfold elfDim
  rw [if_neg (by rw [h1]; simp), if_neg (by decide)]
  have h2 : ([((0, 2, 0) : Coord)].filter fun c => fiveMask c) = [(0, 2, 0)] := by decide
  simp only [h2]
  rw [if_neg (by simp)]
  simp only [List.filterMap_cons, List.filterMap_nil, hc]
  rfl

/-- The hypotheses of `C56_value` and `C56_total_partial` hold for the full mask. -/
example : ∃ lbl, IsLabelling ⟨3, 3, 3⟩ (fun _ => true) lbl ∧ (∀ c ∈ ([(0, 2, 0)] : List Coord), InGrid ⟨3, 3, 3⟩ c) := by
  obtain ⟨lbl, h⟩ := exists_labelling ⟨3, 3, 3⟩ (fun _ => true)
  exact ⟨lbl, h, by unfold InGrid; decide⟩

section field
variable {K : Type*} [Field K] [LinearOrder K] [FloorRing K]

/-- C56: an electride at fractional coordinate 0.99 in a grid of ten points is rounded to index 10, outside the
array. -/
theorem C56_index_crash : ∃ (s : Shape) (f : V3 ℚ) (mask : Coord → Bool), (0 ≤ f.1 ∧ f.1 < 1) ∧
    mask (0, 0, 0) = true ∧ ∀ lbl, elfDim s mask [featIndex s f] lbl = none := by
  refine ⟨⟨10, 1, 1⟩, (99 / 100, 0, 0), fun _ => true, by norm_num, rfl, fun lbl => ?_⟩
  have h : featIndex (⟨10, 1, 1⟩ : Shape) ((99 / 100, 0, 0) : V3 ℚ) = (10, 0, 0) := by decide +kernel
  rw [h]
  unfold elfDim
  rw [if_neg (by decide), if_pos (by decide)]

/-! ### Refinement of the cutoffs -/

section bisect
variable [IsStrictOrderedRing K]

theorem featAxis_near (x : K) : |(roundHE x : K) - x| ≤ 1 / 2 := by
  have h1 := Int.floor_le x
  have h2 := Int.lt_floor_add_one x
  unfold roundHE
  rw [abs_le]
  split_ifs <;> push_cast <;> constructor <;> linarith

/-- C56: on every axis the voxel of a site is a nearest one to its coordinate. -/
theorem C56_index_nearest (s : Shape) (f : V3 K) : |((featIndex s f).1 : K) - f.1 * s.nx| ≤ 1 / 2 ∧
    |((featIndex s f).2.1 : K) - f.2.1 * s.ny| ≤ 1 / 2 ∧ |((featIndex s f).2.2 : K) - f.2.2 * s.nz| ≤ 1 / 2 :=
  ⟨featAxis_near _, featAxis_near _, featAxis_near _⟩

/-- C56: a site of the cell more than half a voxel below the ends of the axes is in the array. -/
theorem C56_index_inside (s : Shape) (f : V3 K) (h0 : 0 ≤ f.1 ∧ 0 ≤ f.2.1 ∧ 0 ≤ f.2.2)
    (h1 : f.1 * s.nx < s.nx - 1 / 2 ∧ f.2.1 * s.ny < s.ny - 1 / 2 ∧ f.2.2 * s.nz < s.nz - 1 / 2) : InGrid s (featIndex s f) := by
  have key : ∀ (x : K) (n : ℕ), 0 ≤ x → x * n < n - 1 / 2 → 0 ≤ roundHE (x * n) ∧ roundHE (x * n) < n := by
    intro x n hx hn
    have h2 := abs_le.mp (featAxis_near (x * n))
    have h3 : 0 ≤ x * n := by positivity
    constructor
    · have : (-1 : K) < roundHE (x * n) := by linarith [h2.1]
      have : ((-1 : ℤ) : K) < roundHE (x * n) := by push_cast; exact this
      have := Int.cast_lt.mp this
      omega
    · have : (roundHE (x * n) : K) < ((n : ℤ) : K) := by push_cast; linarith [h2.2]
      exact Int.cast_lt.mp this
  obtain ⟨a, b⟩ := key f.1 s.nx h0.1 h1.1
  obtain ⟨c, d⟩ := key f.2.1 s.ny h0.2.1 h1.2.1
  obtain ⟨e, g⟩ := key f.2.2 s.nz h0.2.2 h1.2.2
  exact ⟨⟨a, b⟩, ⟨c, d⟩, e, g⟩

example : InGrid ⟨4, 6, 8⟩ (featIndex (K := ℚ) ⟨4, 6, 8⟩ (1 / 2, 1 / 3, 9 / 10)) ∧
    featIndex (K := ℚ) ⟨4, 6, 8⟩ (1 / 2, 1 / 3, 9 / 10) = (2, 2, 7) := by
  refine ⟨C56_index_inside _ _ (by norm_num) (by norm_num), by decide +kernel⟩

/-- The refinement brackets the value at which the dimensionality drops to `d`. -/
theorem bisect_invariant (dim : K → ℕ) (d : ℕ) (t : K) (h1 : ∀ c, c < t → d < dim c) (h2 : ∀ c, t < c → dim c ≤ d)
    (n : ℕ) (w : K) (hw : 0 < w) (g : K) (b : Bool) (hg : |g - t| ≤ w) :
    |(((List.range n).map fun (i : ℕ) => w / 2 ^ (i + 1)).foldl (bisectStep dim d) (g, b)).1 - t| ≤ w / 2 ^ n := by
  induction n with
  | zero => simpa using hg
  | succ n ih =>
    rw [List.range_succ, List.map_append, List.foldl_append]
    simp only [List.map_cons, List.map_nil, List.foldl_cons, List.foldl_nil]
    generalize ((List.range n).map fun (i : ℕ) => w / 2 ^ (i + 1)).foldl (bisectStep dim d) (g, b) = st at ih ⊢
    have hp : (0 : K) < 2 ^ n := by positivity
    have e : w / 2 ^ n = 2 * (w / 2 ^ (n + 1)) := by
      rw [pow_succ]; field_simp
    have hq : 0 < w / 2 ^ (n + 1) := by positivity
    rw [e] at ih
    generalize w / 2 ^ (n + 1) = q at *
    rw [abs_le] at ih ⊢
    unfold bisectStep
    by_cases hd : dim st.1 > d
    · rw [if_pos hd]
      have : st.1 ≤ t := by
        by_contra hc
        have := h2 st.1 (not_le.mp hc)
        omega
      simp only
      constructor <;> linarith
    · rw [if_neg hd]
      have : t ≤ st.1 := by
        by_contra hc
        exact hd (h1 st.1 (not_le.mp hc))
      split
      · simp only; constructor <;> linarith
      · simp only; constructor <;> linarith

/-- C56: if above `t` the dimensionality is at most `d` and below `t` it is larger, the refined cutoff is within
`2⁻¹⁶` of `t`: the *lowest* ELF value at which the dimensionality is reached. -/
theorem C56_cutoff (dim : K → ℕ) (d : ℕ) (t : K) (ht : 0 ≤ t ∧ t ≤ 1) (h1 : ∀ c, c < t → d < dim c)
    (h2 : ∀ c, t < c → dim c ≤ d) : |(bisectDim dim d).1 - t| ≤ 1 / 2 ^ 16 := by
  have := bisect_invariant dim d t h1 h2 15 (1 / 2) (by norm_num) (1 / 2) false (by
    rw [abs_le]; constructor <;> linarith [ht.1, ht.2])
  have e : (bisectAmounts : List K) = (List.range 15).map fun (i : ℕ) => (1 / 2 : K) / 2 ^ (i + 1) := by
    unfold bisectAmounts
    apply List.map_congr_left
    intro i _
    rw [pow_succ (2 : K) (i + 1), one_div, one_div, mul_comm, mul_inv, div_eq_mul_inv]
  unfold bisectDim
  rw [e]
  refine this.trans (le_of_eq ?_)
  norm_num

theorem bisect_found (dim : K → ℕ) (d : ℕ) (as : List K) (st : K × Bool) (h : (as.foldl (bisectStep dim d) st).2 = true) :
    st.2 = true ∨ ∃ c, dim c = d := by
  induction as generalizing st with
  | nil => exact Or.inl h
  | cons a as ih =>
    rw [List.foldl_cons] at h
    rcases ih _ h with h | h
    · unfold bisectStep at h
      split at h
      · exact Or.inl h
      · split at h
        · exact Or.inl h
        · exact Or.inr ⟨st.1, by omega⟩
    · exact Or.inr h

/-- C56: every reported dimensionality occurs at some cutoff, the list starts with the one at cutoff 0 and falls
strictly. -/
theorem C56_reported (dim : K → ℕ) :
    (∀ p ∈ electrideDims dim, ∃ c, dim c = p.1) ∧ (electrideDims dim).head? = some (dim 0, 0) ∧
    ((electrideDims dim).map fun p => p.1).Pairwise (· > ·) := by
  refine ⟨?_, rfl, ?_⟩
  · intro p hp
    unfold electrideDims at hp
    rcases List.mem_cons.mp hp with rfl | hp
    · exact ⟨0, rfl⟩
    · rw [List.mem_filterMap] at hp
      obtain ⟨d, _, hd⟩ := hp
      simp only at hd
      split at hd
      · rename_i hf
        rw [Option.some.injEq] at hd
        rw [← hd]
        rcases bisect_found dim d bisectAmounts _ hf with h | h
        · simp at h
        · exact h
      · simp at hd
  · unfold electrideDims
    rw [List.map_cons, List.pairwise_cons]
    have key : ∀ xs : List ℕ, ((xs.filterMap fun d =>
        let r := bisectDim dim d
        if r.2 then some (d, roundDec 4 r.1) else none).map fun p => p.1).Sublist xs := by
      intro xs
      induction xs with
      | nil => simp
      | cons x xs ih =>
        simp only [List.filterMap_cons]
        split
        · exact ih.cons _
        · rename_i b hb
          split at hb
          · rw [Option.some.injEq] at hb
            rw [← hb, List.map_cons]
            exact ih.cons_cons _
          · simp at hb
    refine ⟨?_, ?_⟩
    · intro x hx
      have := (key _).subset hx
      rw [List.mem_reverse, List.mem_range] at this
      exact this
    · refine List.Pairwise.sublist (key _) ?_
      rw [List.pairwise_reverse]
      exact List.pairwise_lt_range
end bisect

/-- C56: the documented meaning of the cutoffs is not met: for a dimensionality of 1 up to 1/4 and 0 above, the value
given for dimensionality 1 is 0, although it exists up to 1/4, and the value given for 0 is 1/4, where it starts. -/
theorem C56_cutoff_doc_wrong : ∃ dim : ℚ → ℕ, (∀ c, dim c = if c ≤ 1 / 4 then 1 else 0) ∧
    electrideDims dim = [(1, 0), (0, 1 / 4)] := by
  refine ⟨fun c => if c ≤ 1 / 4 then 1 else 0, fun _ => rfl, ?_⟩
  decide +kernel

/-- C56: without electrides the documented result is `None`; the code returns a list. -/
theorem C56_none_wrong (dim : K → ℕ) : allElectrideDims 0 dim ≠ none := by
  simp [allElectrideDims]

end field
end BaderKit
