import Verif.Props.BadelfDim
/-!
# C56: the reported dimensionality and the rank of the periodic network
-/
namespace BaderKit

/-- Neighbouring points of the infinite crystal, both in the mask. -/
def CrystalAdj (s : Shape) (mask : Coord → Bool) (a b : Coord) : Prop :=
  mask (a.1 % s.nx, a.2.1 % s.ny, a.2.2 % s.nz) = true ∧ mask (b.1 % s.nx, b.2.1 % s.ny, b.2.2 % s.nz) = true ∧
  |a.1 - b.1| ≤ 1 ∧ |a.2.1 - b.2.1| ≤ 1 ∧ |a.2.2 - b.2.2| ≤ 1

/-- Connected in the infinite crystal. -/
def CrystalConn (s : Shape) (mask : Coord → Bool) : Coord → Coord → Prop :=
  Relation.ReflTransGen (CrystalAdj s mask)

/-- The voxel is connected to its copy in the cell `t`. -/
def Reaches (s : Shape) (mask : Coord → Bool) (c t : Coord) : Prop :=
  CrystalConn s mask c (c.1 + t.1 * s.nx, c.2.1 + t.2.1 * s.ny, c.2.2 + t.2.2 * s.nz)

/-- Cross product and determinant of integer vectors. -/
def crossZ (a b : Coord) : Coord :=
  (a.2.1 * b.2.2 - a.2.2 * b.2.1, a.2.2 * b.1 - a.1 * b.2.2, a.1 * b.2.1 - a.2.1 * b.1)

def detZ (a b c : Coord) : ℤ := (crossZ a b).1 * c.1 + (crossZ a b).2.1 * c.2.1 + (crossZ a b).2.2 * c.2.2

/-- The voxel belongs to a network that repeats in at least `d` independent directions. -/
def RankAtLeast (s : Shape) (mask : Coord → Bool) (c : Coord) : ℕ → Prop
  | 0 => True
  | 1 => ∃ t, t ≠ (0, 0, 0) ∧ Reaches s mask c t
  | 2 => ∃ t u, crossZ t u ≠ (0, 0, 0) ∧ Reaches s mask c t ∧ Reaches s mask c u
  | 3 => ∃ t u v, detZ t u v ≠ 0 ∧ Reaches s mask c t ∧ Reaches s mask c u ∧ Reaches s mask c v
  | _ => False

/-- Difference of the two cells of a connection. -/
def pairDir (p : ℕ × ℕ) : Coord :=
  let a := dimCells.getD p.1 (0, 0, 0)
  let b := dimCells.getD p.2 (0, 0, 0)
  (b.1 - a.1, b.2.1 - a.2.1, b.2.2 - a.2.2)

/-- C56: the 13 connections are the 26 neighbouring cells, one of each pair of opposite ones. -/
theorem C56_directions : ∀ t ∈ neighbors26,
    (dimPairs.countP fun p => decide (pairDir p = t ∨ pairDir p = (-t.1, -t.2.1, -t.2.2))) = 1 := by
  decide

theorem crystalConn_of_super {s : Shape} {mask : Coord → Bool} {a b : Coord} (h : SuperConn s mask a b) :
    CrystalConn s mask a b :=
  Relation.ReflTransGen.mono (fun _ _ h => ⟨h.1.2.2.2, h.2.1.2.2.2, h.2.2⟩) _ _ h

theorem crystalConn_shift {s : Shape} {mask : Coord → Bool} (t : Coord) {a b : Coord} (h : CrystalConn s mask a b) :
    CrystalConn s mask (a.1 + t.1 * s.nx, a.2.1 + t.2.1 * s.ny, a.2.2 + t.2.2 * s.nz)
      (b.1 + t.1 * s.nx, b.2.1 + t.2.1 * s.ny, b.2.2 + t.2.2 * s.nz) := by
  induction h with
  | refl => exact .refl
  | tail _ hxy ih =>
    refine ih.tail ?_
    obtain ⟨h1, h2, h3, h4, h5⟩ := hxy
    refine ⟨?_, ?_, ?_, ?_, ?_⟩
    · simpa only [Int.add_mul_emod_self_right] using h1
    · simpa only [Int.add_mul_emod_self_right] using h2
    · rwa [add_sub_add_right_eq_sub]
    · rwa [add_sub_add_right_eq_sub]
    · rwa [add_sub_add_right_eq_sub]

theorem reaches_of_pair {s : Shape} {mask : Coord → Bool} {c : Coord} {p : ℕ × ℕ}
    (h : SuperConn s mask (imageOf s c p.1) (imageOf s c p.2)) : Reaches s mask c (pairDir p) := by
  have := crystalConn_shift (let a := dimCells.getD p.1 (0, 0, 0); (-a.1, -a.2.1, -a.2.2)) (crystalConn_of_super h)
  unfold imageOf at this
  simp only at this
  unfold Reaches pairDir
  simp only
  convert this using 1
  · ext <;> simp
  · ext <;> simp <;> ring

theorem filter_two {α : Type*} {l : List α} (hl : l.Nodup) (h : 2 ≤ l.length) : ∃ a ∈ l, ∃ b ∈ l, a ≠ b := by
  match l, h with
  | a :: b :: _, _ =>
    refine ⟨a, by simp, b, by simp, ?_⟩
    rintro rfl
    simp at hl

/-- C56: the reported dimensionality never exceeds the number of independent directions in which the network of one
of the sites repeats. -/
theorem C56_rank (s : Shape) (mask : Coord → Bool) (feats : List Coord) (lbl : Coord → ℕ)
    (hl : IsLabelling s mask lbl) (hf : ∀ c ∈ feats, InGrid s c) (d : ℕ)
    (h : elfDim s mask feats lbl = some d) (h0 : d ≠ 0) : ∃ c ∈ feats, RankAtLeast s mask c d := by
  classical
  obtain ⟨-, h2⟩ := C56_value s mask feats lbl hl hf d h
  obtain ⟨c, hc, -, hd⟩ := h2 h0
  refine ⟨c, hc, ?_⟩
  obtain ⟨l, hlen, hnd, hmem⟩ : ∃ l : List (ℕ × ℕ), l.length = connectedDirections s mask c ∧ l.Nodup ∧
      ∀ p ∈ l, p ∈ dimPairs ∧ Reaches s mask c (pairDir p) := by
    refine ⟨dimPairs.filter fun p => decide (SuperConn s mask (imageOf s c p.1) (imageOf s c p.2)), ?_, ?_, ?_⟩
    · unfold connectedDirections
      rw [List.countP_eq_length_filter]
    · exact List.Nodup.filter _ (by decide)
    · intro p hp
      rw [List.mem_filter, decide_eq_true_eq] at hp
      exact ⟨hp.1, reaches_of_pair hp.2⟩
  rw [← hlen] at hd
  have hcross : ∀ p ∈ dimPairs, ∀ q ∈ dimPairs, p ≠ q → crossZ (pairDir p) (pairDir q) ≠ (0, 0, 0) := by decide
  rcases hd with ⟨-, rfl⟩ | ⟨h1, rfl⟩ | ⟨⟨h1, -⟩, rfl⟩ | ⟨⟨h1, -⟩, rfl⟩
  · exact absurd rfl h0
  · match l, h1 with
    | p :: _, _ =>
      have hp := hmem p (by simp)
      have : ∀ p ∈ dimPairs, pairDir p ≠ (0, 0, 0) := by decide
      exact ⟨pairDir p, this p hp.1, hp.2⟩
  · obtain ⟨p, hp, q, hq, hpq⟩ := filter_two hnd h1
    exact ⟨pairDir p, pairDir q, hcross p (hmem p hp).1 q (hmem q hq).1 hpq, (hmem p hp).2, (hmem q hq).2⟩
  · obtain ⟨p, hp, q, hq, hpq⟩ := filter_two hnd (by omega : 2 ≤ l.length)
    have hplane : ∀ p ∈ dimPairs, ∀ q ∈ dimPairs, p ≠ q →
        (dimPairs.filter fun r => decide (detZ (pairDir p) (pairDir q) (pairDir r) = 0)).length ≤ 4 := by decide
    have hex : ∃ r ∈ l, detZ (pairDir p) (pairDir q) (pairDir r) ≠ 0 := by
      by_contra hcon
      push Not at hcon
      have hsub : l ⊆ dimPairs.filter fun r => decide (detZ (pairDir p) (pairDir q) (pairDir r) = 0) := by
        intro r hr
        rw [List.mem_filter, decide_eq_true_eq]
        exact ⟨(hmem r hr).1, hcon r hr⟩
      have := (hnd.subperm hsub).length_le
      have := hplane p (hmem p hp).1 q (hmem q hq).1 hpq
      omega
    obtain ⟨r, hr, hdet⟩ := hex
    exact ⟨pairDir p, pairDir q, pairDir r, hdet, (hmem p hp).2, (hmem q hq).2, (hmem r hr).2⟩

/-- A chain along the first axis that bends below the plane of its site. -/
def bentMask (c : Coord) : Bool :=
  decide (c ∈ ([(0, 0, 0), (1, 2, 0), (2, 2, 0)] : List Coord))

theorem bent_chain : Reaches ⟨3, 3, 2⟩ bentMask (0, 0, 0) (1, 0, 0) := by
  have h1 : CrystalAdj ⟨3, 3, 2⟩ bentMask (0, 0, 0) (1, -1, 0) := by unfold CrystalAdj; decide
  have h2 : CrystalAdj ⟨3, 3, 2⟩ bentMask (1, -1, 0) (2, -1, 0) := by unfold CrystalAdj; decide
  have h3 : CrystalAdj ⟨3, 3, 2⟩ bentMask (2, -1, 0) (3, 0, 0) := by unfold CrystalAdj; decide
  exact ((Relation.ReflTransGen.single h1).tail h2).tail h3

def bentInv (c : Coord) : ℕ :=
  if c = (0, 0, 0) then 1 else if c = (3, 0, 0) then 2 else if c = (0, 0, 2) then 3 else if c = (3, 0, 2) then 4
  else if c.2.2 < 2 then 5 else 6

theorem bentInv_ok : ∀ a ∈ tripleLoop ⟨6, 6, 4⟩, ∀ t ∈ (0, 0, 0) :: neighbors26,
    SuperAdj ⟨3, 3, 2⟩ bentMask a (addC a t) → bentInv a = bentInv (addC a t) := by
  decide +kernel

/-- C56: the dimensionality can be too low: the chain repeats along the first axis but is reported as dimensionality
0, because the path leaves the supercell in which the connections are sought. -/
theorem C56_chain_missed : ∃ (s : Shape) (mask : Coord → Bool) (c : Coord), InGrid s c ∧ RankAtLeast s mask c 1 ∧
    ∀ lbl, IsLabelling s mask lbl → elfDim s mask [c] lbl = some 0 := by
  refine ⟨⟨3, 3, 2⟩, bentMask, (0, 0, 0), by unfold InGrid; decide, ⟨(1, 0, 0), by decide, bent_chain⟩, fun lbl hl => ?_⟩
  have hc := C56_count ⟨3, 3, 2⟩ bentMask lbl hl (0, 0, 0) (by unfold InGrid; decide) (by decide)
  have h0 : connectedDirections ⟨3, 3, 2⟩ bentMask (0, 0, 0) = 0 := by
    classical
    unfold connectedDirections
    rw [List.countP_eq_zero]
    intro p hp hcon
    rw [decide_eq_true_eq] at hcon
    have key := not_conn_of_inv (s := ⟨3, 3, 2⟩) bentInv bentInv_ok hcon
    have hne : ∀ p ∈ dimPairs, bentInv (imageOf ⟨3, 3, 2⟩ (0, 0, 0) p.1) ≠ bentInv (imageOf ⟨3, 3, 2⟩ (0, 0, 0) p.2) := by
      decide
    exact hne p hp key
  have h1 : ((tripleLoop ⟨3, 3, 2⟩).all fun c => !bentMask c) = false := by decide
  unfold elfDim
  rw [if_neg (by rw [h1]; simp), if_neg (by decide)]
  have h2 : ([((0, 0, 0) : Coord)].filter fun c => bentMask c) = [(0, 0, 0)] := by decide
  simp only [h2]
  rw [if_neg (by simp)]
  simp only [List.filterMap_cons, List.filterMap_nil, hc, h0]
  rfl

end BaderKit
