import Verif.Model.Merge
import Verif.Lemmas.Index
import Mathlib.Data.Rat.Floor
import Mathlib.Algebra.Order.Ring.Rat
import Mathlib.Algebra.BigOperators.Group.List.Basic
import Mathlib.Tactic.FieldSimp
import Mathlib.Tactic.Linarith
import Mathlib.Tactic.Positivity
/-! # Property C51: merged coordinates -/
set_option linter.unusedSectionVars false
namespace BaderKit
variable {K : Type*} [Field K] [LinearOrder K] [IsStrictOrderedRing K] [FloorRing K]

theorem mod1_range (x : K) : 0 ≤ mod1 x ∧ mod1 x < 1 := by
  unfold mod1
  have h1 := Int.floor_le x
  have h2 := Int.lt_floor_add_one x
  constructor <;> linarith

theorem mod1_add_int (x : K) (n : ℤ) : mod1 (x + n) = mod1 x := by
  unfold mod1; rw [Int.floor_add_intCast]; push_cast; ring

/-- `x` and `y` denote the same position in a periodic cell. -/
def SameMod1 (x y : K) : Prop := ∃ n : ℤ, y = x + n

/-- `x` is exactly half way between two lattice translations. -/
def HalfTie (x : K) : Prop := ∃ n : ℤ, x = n + 1 / 2

theorem sameMod1_mod1 (x : K) : SameMod1 x (mod1 x) := ⟨-⌊x⌋, by unfold mod1; push_cast; ring⟩

theorem roundHE_near (x : K) : |x - roundHE x| ≤ 1 / 2 := by
  have h1 := Int.floor_le x
  have h2 := Int.lt_floor_add_one x
  unfold roundHE
  rw [abs_le]
  split_ifs with ha hb hc <;> push_cast <;> constructor <;> linarith

theorem roundHE_add_int {x : K} (hx : ¬ HalfTie x) (n : ℤ) : roundHE (x + n) = roundHE x + n := by
  have hne : x - ⌊x⌋ ≠ 1 / 2 := fun h => hx ⟨⌊x⌋, by linarith⟩
  unfold roundHE
  rw [Int.floor_add_intCast]
  have e : x + n - ((⌊x⌋ + n : ℤ) : K) = x - ⌊x⌋ := by push_cast; ring
  rw [e]
  split_ifs with ha hb hc hd <;> first | rfl | omega | (exfalso; exact hne (le_antisymm (not_lt.mp hb) (not_lt.mp ha)))

theorem roundHE_add_even (x : K) (n : ℤ) (hn : n % 2 = 0) : roundHE (x + n) = roundHE x + n := by
  unfold roundHE
  rw [Int.floor_add_intCast]
  have e : x + n - ((⌊x⌋ + n : ℤ) : K) = x - ⌊x⌋ := by push_cast; ring
  rw [e]
  split_ifs <;> omega

theorem roundDec_add_int (x : K) (n : ℤ) : roundDec 12 (x + n) = roundDec 12 x + n := by
  unfold roundDec
  have : (x + n) * 10 ^ 12 = x * 10 ^ 12 + ((n * 10 ^ 12 : ℤ) : K) := by push_cast; ring
  rw [this, roundHE_add_even]
  · push_cast
    field_simp
    ring
  · have : n * 10 ^ 12 = 2 * (n * 500000000000) := by ring
    omega

theorem foldl_add_eq {β : Type*} (f : β → K) (l : List β) (t : K) :
    l.foldl (fun t c => t + f c) t = t + (l.map f).sum := by
  induction l generalizing t with
  | nil => simp
  | cons a l ih => rw [List.foldl_cons, ih]; simp [add_assoc]

/-- **C51** Both merges return a point of the cell `[0,1)^3`. -/
theorem C51_in_cell (cs : List (K × K × K)) (values : List K) :
    (let m := mergeFrac cs
     (0 ≤ m.1 ∧ m.1 < 1) ∧ (0 ≤ m.2.1 ∧ m.2.1 < 1) ∧ (0 ≤ m.2.2 ∧ m.2.2 < 1)) ∧
    (let m := mergeFracW cs values
     (0 ≤ m.1 ∧ m.1 < 1) ∧ (0 ≤ m.2.1 ∧ m.2.1 < 1) ∧ (0 ≤ m.2.2 ∧ m.2.2 < 1)) := by
  have h1 : ∀ l : List K, 0 ≤ mergeAxis l ∧ mergeAxis l < 1 := by
    intro l
    cases l with
    | nil => exact mod1_range _
    | cons a l =>
      unfold mergeAxis
      dsimp only
      split_ifs <;> exact mod1_range _
  have h2 : ∀ l : List K, 0 ≤ mergeAxisW l values ∧ mergeAxisW l values < 1 := by
    intro l
    cases l with
    | nil => exact mod1_range _
    | cons a l => exact mod1_range _
  exact ⟨⟨h1 _, h1 _, h1 _⟩, ⟨h2 _, h2 _, h2 _⟩⟩

/-- **C51** A single point is returned unchanged up to lattice translations. -/
theorem C51_single (c : K × K × K) (w : K) (hw : w ≠ 0) :
    mergeFrac [c] = (mod1 c.1, mod1 c.2.1, mod1 c.2.2) ∧
    mergeFracW [c] [w] = (mod1 c.1, mod1 c.2.1, mod1 c.2.2) := by
  have hr : ∀ x : K, unwrapTo x x = x := by
    intro x
    unfold unwrapTo roundHE
    simp
  constructor
  · simp [mergeFrac, mergeAxis]
  · simp [mergeFracW, mergeAxisW, hr, hw]

/-- The reference and every other coordinate moved by lattice translations `ns`, in one axis. -/
def shiftBy (cs : List K) (ns : List ℤ) : List K := List.zipWith (fun c (n : ℤ) => c + (n : K)) cs ns

theorem unwrap_shift (ref c : K) (m n : ℤ) (h : ¬ HalfTie (c - ref)) :
    unwrapTo (ref + m) (c + n) = unwrapTo ref c + m := by
  unfold unwrapTo
  have : c + n - (ref + m) = (c - ref) + ((n - m : ℤ) : K) := by push_cast; ring
  rw [this, roundHE_add_int h]
  push_cast; ring

theorem sum_shift (ref : K) (m : ℤ) (cs : List K) (ns : List ℤ) (hlen : ns.length = cs.length)
    (h : ∀ c ∈ cs, ¬ HalfTie (c - ref)) :
    ((shiftBy cs ns).map (unwrapTo (ref + m))).sum = (cs.map (unwrapTo ref)).sum + cs.length * m := by
  induction cs generalizing ns with
  | nil => simp [shiftBy]
  | cons c cs ih =>
    cases ns with
    | nil => simp at hlen
    | cons n ns =>
      have := ih ns (by simpa using hlen) (fun c hc => h c (by simp [hc]))
      simp only [shiftBy] at this
      simp only [shiftBy, List.zipWith_cons_cons, List.map_cons, List.sum_cons, List.length_cons]
      rw [this, unwrap_shift ref c m n (h c (by simp))]
      push_cast; ring

/-- **C51** Lattice translations of the inputs (including the reference point) do not change the
merged coordinate, as long as no coordinate is exactly half a cell from the first one. -/
theorem C51_translation_invariant (cs : List K) (ns : List ℤ) (hlen : ns.length = cs.length)
    (hne : cs ≠ []) (h : ∀ c ∈ cs, ¬ HalfTie (c - cs.head hne)) :
    mergeAxis (shiftBy cs ns) = mergeAxis cs := by
  cases cs with
  | nil => exact absurd rfl hne
  | cons ref cs =>
    cases ns with
    | nil => simp at hlen
    | cons m ns =>
      have hs := sum_shift ref m (ref :: cs) (m :: ns) hlen h
      have hl : (shiftBy (ref :: cs) (m :: ns)).length = (ref :: cs).length := by
        simp only [shiftBy, List.length_zipWith]; rw [hlen, min_self]
      have hc : shiftBy (ref :: cs) (m :: ns) = (ref + m) :: shiftBy cs ns := rfl
      have hl' : ((ref + m) :: shiftBy cs ns).length = (ref :: cs).length := by rw [← hc]; exact hl
      rw [hc] at hs ⊢
      unfold mergeAxis
      dsimp only
      rw [hl']
      by_cases h1 : (ref :: cs).length = 1
      · rw [if_pos h1, if_pos h1, mod1_add_int]
      · rw [if_neg h1, if_neg h1, foldl_add_eq, foldl_add_eq, zero_add, zero_add, hs]
        have hpos : ((ref :: cs).length : K) ≠ 0 := by simp; positivity
        rw [show ((List.map (unwrapTo ref) (ref :: cs)).sum + ((ref :: cs).length : K) * m) /
            ((ref :: cs).length : K) =
            (List.map (unwrapTo ref) (ref :: cs)).sum / ((ref :: cs).length : K) + m by
          field_simp]
        rw [roundDec_add_int, mod1_add_int]

theorem wsum_shift (ref : K) (m : ℤ) (cs : List K) (ns : List ℤ) (ws : List K)
    (hlen : ns.length = cs.length) (hw : ws.length = cs.length)
    (h : ∀ c ∈ cs, ¬ HalfTie (c - ref)) :
    (((shiftBy cs ns).zip ws).map fun cw => unwrapTo (ref + m) cw.1 * cw.2).sum =
      ((cs.zip ws).map fun cw => unwrapTo ref cw.1 * cw.2).sum + m * ws.sum := by
  induction cs generalizing ns ws with
  | nil =>
    have : ws = [] := List.eq_nil_of_length_eq_zero (by simpa using hw)
    simp [shiftBy, this]
  | cons c cs ih =>
    cases ns with
    | nil => simp at hlen
    | cons n ns =>
      cases ws with
      | nil => simp at hw
      | cons w ws =>
        have := ih ns ws (by simpa using hlen) (by simpa using hw) (fun c hc => h c (by simp [hc]))
        simp only [shiftBy] at this
        simp only [shiftBy, List.zipWith_cons_cons, List.zip_cons_cons, List.map_cons, List.sum_cons]
        rw [this, unwrap_shift ref c m n (h c (by simp))]
        ring

theorem sum_div_list (l : List K) (d : K) : (l.map fun v => v / d).sum = l.sum / d := by
  induction l with
  | nil => simp
  | cons a l ih => simp only [List.map_cons, List.sum_cons, ih]; ring

/-- **C51** The same for the weighted merge when there is one weight per coordinate and the weights
do not sum to zero. -/
theorem C51_weighted_translation_invariant (cs values : List K) (ns : List ℤ)
    (hlen : ns.length = cs.length) (hw : values.length = cs.length) (hsum : values.sum ≠ 0)
    (hne : cs ≠ []) (h : ∀ c ∈ cs, ¬ HalfTie (c - cs.head hne)) :
    mergeAxisW (shiftBy cs ns) values = mergeAxisW cs values := by
  cases cs with
  | nil => exact absurd rfl hne
  | cons ref cs =>
    cases ns with
    | nil => simp at hlen
    | cons m ns =>
      have hs := wsum_shift ref m (ref :: cs) (m :: ns) (values.map fun v => v / values.sum) hlen
        (by simpa using hw) h
      have hc : shiftBy (ref :: cs) (m :: ns) = (ref + m) :: shiftBy cs ns := rfl
      rw [hc] at hs ⊢
      unfold mergeAxisW
      dsimp only
      rw [foldl_add_eq (fun cw : K × K => unwrapTo (ref + m) cw.1 * cw.2),
        foldl_add_eq (fun cw : K × K => unwrapTo ref cw.1 * cw.2), zero_add, zero_add, hs,
        sum_div_list, div_self hsum, mul_one, mod1_add_int]

/-- **C51** With non-negative weights the weighted merge is, up to lattice translations, a point
between the lowest and the highest of the unwrapped coordinates; those are images of the inputs
within half a cell of the first. -/
theorem C51_weighted_hull (ref : K) (cs values : List K) (lo hi : K)
    (hw : values.length = (ref :: cs).length) (hnn : ∀ v ∈ values, 0 ≤ v) (hsum : 0 < values.sum)
    (hb : ∀ c ∈ ref :: cs, lo ≤ unwrapTo ref c ∧ unwrapTo ref c ≤ hi) :
    (∃ x, SameMod1 x (mergeAxisW (ref :: cs) values) ∧ lo ≤ x ∧ x ≤ hi) ∧
    ∀ c ∈ ref :: cs, SameMod1 c (unwrapTo ref c) ∧ |unwrapTo ref c - ref| ≤ 1 / 2 := by
  constructor
  · refine ⟨_, sameMod1_mod1 _, ?_⟩
    rw [foldl_add_eq (fun cw : K × K => unwrapTo ref cw.1 * cw.2), zero_add]
    have key : ∀ (l ws : List K), ws.length = l.length → (∀ w ∈ ws, 0 ≤ w) →
        (∀ c ∈ l, lo ≤ unwrapTo ref c ∧ unwrapTo ref c ≤ hi) →
        lo * ws.sum ≤ ((l.zip ws).map fun cw => unwrapTo ref cw.1 * cw.2).sum ∧
        ((l.zip ws).map fun cw => unwrapTo ref cw.1 * cw.2).sum ≤ hi * ws.sum := by
      intro l
      induction l with
      | nil =>
        intro ws h _ _
        have : ws = [] := List.eq_nil_of_length_eq_zero (by simpa using h)
        simp [this]
      | cons c l ih =>
        intro ws h hn hb
        cases ws with
        | nil => simp at h
        | cons w ws =>
          obtain ⟨i1, i2⟩ := ih ws (by simpa using h) (fun w hw => hn w (by simp [hw]))
            (fun c hc => hb c (by simp [hc]))
          obtain ⟨b1, b2⟩ := hb c (by simp)
          have hw0 := hn w (by simp)
          simp only [List.zip_cons_cons, List.map_cons, List.sum_cons]
          constructor
          · nlinarith [mul_le_mul_of_nonneg_right b1 hw0]
          · nlinarith [mul_le_mul_of_nonneg_right b2 hw0]
    have := key (ref :: cs) (values.map fun v => v / values.sum) (by simpa using hw)
      (by intro w hw'; obtain ⟨v, hv, rfl⟩ := List.mem_map.mp hw'; exact div_nonneg (hnn v hv) hsum.le) hb
    rw [sum_div_list, div_self hsum.ne', mul_one, mul_one] at this
    exact this
  · intro c _
    refine ⟨⟨-roundHE (c - ref), by unfold unwrapTo; push_cast; ring⟩, ?_⟩
    have := roundHE_near (c - ref)
    unfold unwrapTo
    rw [show c - (roundHE (c - ref) : K) - ref = c - ref - roundHE (c - ref) by ring]
    exact this

/-- Non-vacuity of the translation theorems: three coordinates near the boundary, shifted. -/
example : mergeAxis ([9/10, 1/10, 1/20] : List ℚ) = 16666666667 / 1000000000000 ∧
    mergeAxis (shiftBy ([9/10, 1/10, 1/20] : List ℚ) [3, -2, 0]) = 16666666667 / 1000000000000 ∧
    mergeAxisW ([9/10, 1/10] : List ℚ) [3, 1] = 19/20 := by
  decide +kernel

/-- **C51** (negative part) At an exact half-cell separation the result depends on the image chosen:
`round` is half-to-even. -/
theorem C51_half_cell_tie : mergeAxis ([0, 1/2] : List ℚ) = 1/4 ∧
    mergeAxis ([0, 3/2] : List ℚ) = 3/4 := by decide +kernel

/-- **C51** (negative part) With more values than coordinates (which happens when a group contains
flat false maxima, `shared_numba.py:505-507`) the weights used no longer sum to one and the result
depends on which image of the points is given: both inputs describe the same single point. -/
theorem C51_misaligned_weights : mergeAxisW ([1/4] : List ℚ) [1, 1] = 1/8 ∧
    mergeAxisW ([5/4] : List ℚ) [1, 1] = 5/8 := by decide +kernel

/-- **C51** The candidate for a merged maximum is a voxel of the grid, and along each axis at most half a voxel from the merged coordinate of those
members of the group that are not flat false maxima, up to lattice translations. -/
theorem C51_merged_voxel (s : Shape) (hs : 0 < s.size) (data : ℕ → K) (isFlat : ℕ → Bool) (group : List ℕ) :
    let m := mergeFracW ((group.filter fun v => !isFlat v).map (voxFrac s)) (group.map data)
    let v := mergedVoxel s data isFlat group
    let c := flatToCoords s v
    v < s.size ∧ (∃ n : ℤ, |m.1 * s.nx - (c.1 + n * s.nx)| ≤ 1 / 2) ∧ (∃ n : ℤ, |m.2.1 * s.ny - (c.2.1 + n * s.ny)| ≤ 1 / 2) ∧
      ∃ n : ℤ, |m.2.2 * s.nz - (c.2.2 + n * s.nz)| ≤ 1 / 2 := by
  intro m v c
  have hx : 0 < (s.nx : ℤ) := by
    have := Nat.pos_of_mul_pos_right (Nat.pos_of_mul_pos_right hs); exact_mod_cast this
  have hy : 0 < (s.ny : ℤ) := by
    have := Nat.pos_of_mul_pos_left (Nat.pos_of_mul_pos_right hs); exact_mod_cast this
  have hz : 0 < (s.nz : ℤ) := by
    have := Nat.pos_of_mul_pos_left hs; exact_mod_cast this
  have hr : InRange s (roundHE (m.1 * s.nx) % s.nx, roundHE (m.2.1 * s.ny) % s.ny, roundHE (m.2.2 * s.nz) % s.nz) :=
    ⟨⟨Int.emod_nonneg _ hx.ne', Int.emod_lt_of_pos _ hx⟩, ⟨Int.emod_nonneg _ hy.ne', Int.emod_lt_of_pos _ hy⟩,
      ⟨Int.emod_nonneg _ hz.ne', Int.emod_lt_of_pos _ hz⟩⟩
  obtain ⟨h0, h1⟩ := coordsToFlat_range hr
  have hv : (v : ℤ) = coordsToFlat s (roundHE (m.1 * s.nx) % s.nx, roundHE (m.2.1 * s.ny) % s.ny, roundHE (m.2.2 * s.nz) % s.nz) :=
    Int.toNat_of_nonneg h0
  have hc : c = (roundHE (m.1 * s.nx) % s.nx, roundHE (m.2.1 * s.ny) % s.ny, roundHE (m.2.2 * s.nz) % s.nz) := by
    show flatToCoords s (v : ℤ) = _
    rw [hv, flatToCoords_coordsToFlat hr]
  have key : ∀ (x : K) (n : ℕ), ∃ k : ℤ, |x - ((roundHE x % (n : ℤ) : ℤ) + k * n)| ≤ 1 / 2 := by
    intro x n
    refine ⟨roundHE x / n, ?_⟩
    have e : ((roundHE x % (n : ℤ) : ℤ) : K) + ((roundHE x / (n : ℤ) : ℤ) : K) * n = roundHE x := by
      have := Int.emod_add_mul_ediv (roundHE x) n
      have h2 : (((roundHE x % (n : ℤ)) + (n : ℤ) * (roundHE x / (n : ℤ)) : ℤ) : K) = roundHE x := by rw [this]
      rw [← h2]; push_cast; ring
    rw [e]
    exact roundHE_near x
  refine ⟨by omega, ?_⟩
  rw [hc]
  exact ⟨key _ _, key _ _, key _ _⟩

/-- The two voxels next to the boundary are merged to one of them; a flat false maximum does not count. -/
example : mergedVoxel ⟨4, 3, 2⟩ (fun v => (v : ℚ) + 1) (fun _ => false) [0, 18] = 18 ∧ mergedVoxel ⟨4, 3, 2⟩ (fun v => (v : ℚ) + 1) (fun v => v == 18) [0, 18] = 0 ∧
    mergedVoxel ⟨5, 3, 2⟩ (fun _ => (1 : ℚ)) (fun _ => false) [2, 4] = 4 := by decide +kernel

end BaderKit
