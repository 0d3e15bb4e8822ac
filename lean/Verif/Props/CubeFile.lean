import Verif.Lemmas.Lines
import Mathlib.LinearAlgebra.Matrix.Determinant.Basic
import Mathlib.LinearAlgebra.Matrix.Notation
/-!
# C29: cube files
-/
namespace BaderKit
section field
variable {K : Type*} [Field K] [LinearOrder K] [FloorRing K]

def sciVal (x : K) : K := (parseNum (sciBody x)).getD 0

/-- The numbers of a cube file in the given order, `nz` to a block of lines of six. -/
def cubeText (nz : ℕ) (flat : List K) : Text :=
  (slices nz flat).flatMap fun line => joinRows (slices 6 (line.map fun x => padLeft 13 (sciBody x)))

/-- The data in the order of the Gaussian convention: the first axis outermost, the last innermost. -/
def ravelC (s : Shape) (g : Grid3 K) : List K :=
  (List.range s.nx).flatMap fun i => (List.range s.ny).flatMap fun j => (List.range s.nz).map fun k => g i j k

/-- The numbers of the header of a cube file leave room for a blank in front of each. -/
def HeaderFits (g : CubeIn K) (charges : List K) (origin : V3 K) : Prop :=
  FitsV 3 (scaleV bohr origin) ∧ FitsV 3 (scaleV (bohr / (g.shape.nx : K)) g.lattice.1) ∧
  FitsV 3 (scaleV (bohr / (g.shape.ny : K)) g.lattice.2.1) ∧ FitsV 3 (scaleV (bohr / (g.shape.nz : K)) g.lattice.2.2) ∧
  (∀ a ∈ g.atoms, FitsV 3 (scaleV bohr a.2)) ∧ ∀ q ∈ charges, |q| + 1 ≤ 10 ^ 3

/-- `b` is within `ε` of `a` in every component. -/
def CloseV (ε : K) (a b : V3 K) : Prop := |b.1 - a.1| ≤ ε ∧ |b.2.1 - a.2.1| ≤ ε ∧ |b.2.2 - a.2.2| ≤ ε

variable [IsStrictOrderedRing K]

theorem sciVal_spec (x : K) : parseNum (sciBody x) = some (sciVal x) ∧ SixDigits x (sciVal x) := by
  obtain ⟨y, h1, h2⟩ := (sci_spec x).2
  have : sciVal x = y := by unfold sciVal; rw [h1]; rfl
  rw [this]; exact ⟨h1, h2⟩

/-- All numbers are read, in the order they were written. -/
theorem cubeText_read (nz : ℕ) (hz : 0 < nz) (flat : List K) (hf : ∀ x ∈ flat, CubeFits x) :
    fromString flat.length (cubeText nz flat) = flat.map sciVal := by
  have hw : words (cubeText nz flat) = flat.map sciBody := by
    have := words_plines (slices nz (flat.map sciBody)) (by
      intro l hl t ht
      have : t ∈ (slices nz (flat.map sciBody)).flatten := List.mem_flatten.mpr ⟨l, hl, ht⟩
      rw [slices_flatten nz hz, List.mem_map] at this
      obtain ⟨x, hx, rfl⟩ := this
      exact ⟨(sci_spec x).1, sci_length x (hf x hx)⟩) []
    rw [List.append_nil, words_nil, List.append_nil, slices_flatten nz hz, slices_map, List.flatMap_map] at this
    rw [← this]
    unfold cubeText
    congr 2
    funext l
    rw [List.map_map]; rfl
  have := fromString_words (cubeText nz flat) (flat.map sciBody) (flat.map sciVal) hw (by
    rw [List.map_map, List.map_map]
    apply List.map_congr_left
    intro x _
    exact (sciVal_spec x).1)
  rw [List.length_map] at this
  exact this

theorem bohr_pos : (0 : K) < bohr := by unfold bohr; positivity

theorem bohr_gt_one : (1 : K) < bohr := by unfold bohr; norm_num

/-- The file of a header and data in some order: what is read. -/
theorem readCube_spec (pick : List K → List K) (g : CubeIn K) (q : List K) (o : V3 K) (hq : q.length = g.atoms.length)
    (hfit : HeaderFits g q o) (data : Text) :
    readCube pick ((cubeHeader g q (scaleV bohr o)).flatten ++ data) =
      cubeFinish pick (roundV6 (scaleV bohr o)) g.shape.nx g.shape.ny g.shape.nz
        (roundV6 (scaleV (bohr / (g.shape.nx : K)) g.lattice.1)) (roundV6 (scaleV (bohr / (g.shape.ny : K)) g.lattice.2.1))
        (roundV6 (scaleV (bohr / (g.shape.nz : K)) g.lattice.2.2))
        ((g.atoms.zip q).map fun p => (p.1.1, roundDec 6 p.2, roundV6 (scaleV bohr p.1.2))) data := by
  obtain ⟨f0, f1, f2, f3, f4, f5⟩ := hfit
  obtain ⟨a0, b0, -⟩ := count_line g.atoms.length _ f0
  obtain ⟨a1, b1, -⟩ := count_line g.shape.nx _ f1
  obtain ⟨a2, b2, -⟩ := count_line g.shape.ny _ f2
  obtain ⟨a3, b3, -⟩ := count_line g.shape.nz _ f3
  have hatoms : ∀ p ∈ g.atoms.zip q, IsLine (lineOf ((5, strNat p.1.1) :: (12, fixedBody p.2) :: vecFields 12 (scaleV bohr p.1.2))) ∧
      parseAtom (lineOf ((5, strNat p.1.1) :: (12, fixedBody p.2) :: vecFields 12 (scaleV bohr p.1.2))) =
        some (p.1.1, roundDec 6 p.2, roundV6 (scaleV bohr p.1.2)) := by
    intro p hp
    have := List.of_mem_zip hp
    exact atom_line _ _ _ (f5 _ this.2) (f4 _ this.1)
  unfold cubeHeader
  rw [List.flatten_append, List.append_assoc]
  obtain ⟨lines, hlines⟩ : ∃ lines, lines = (g.atoms.zip q).map fun p =>
    lineOf ((5, strNat p.1.1) :: (12, fixedBody p.2) :: vecFields 12 (scaleV bohr p.1.2)) := ⟨_, rfl⟩
  rw [← hlines]
  have h6 := readLines_spec [" Gaussian cube file\n".toList, " Bader charge\n".toList,
   lineOf ((5, strNat g.atoms.length) :: vecFields 12 (scaleV bohr o)),
   lineOf ((5, strNat g.shape.nx) :: vecFields 12 (scaleV (bohr / (g.shape.nx : K)) g.lattice.1)),
   lineOf ((5, strNat g.shape.ny) :: vecFields 12 (scaleV (bohr / (g.shape.ny : K)) g.lattice.2.1)),
   lineOf ((5, strNat g.shape.nz) :: vecFields 12 (scaleV (bohr / (g.shape.nz : K)) g.lattice.2.2))] (by
    intro l hl
    simp only [List.mem_cons, List.not_mem_nil, or_false] at hl
    rcases hl with rfl | rfl | rfl | rfl | rfl | rfl
    · exact ⟨" Gaussian cube file".toList, by decide, by decide⟩
    · exact ⟨" Bader charge".toList, by decide, by decide⟩
    · exact a0
    · exact a1
    · exact a2
    · exact a3) (lines.flatten ++ data)
  unfold readCube
  simp only [List.length_cons, List.length_nil, Nat.reduceAdd, zero_add] at h6
  rw [h6]
  simp only [List.drop_succ_cons, List.drop_zero, b0, b1, b2, b3]
  rw [if_neg (by omega)]
  have hn : (g.atoms.length : ℤ).toNat = lines.length := by
    rw [hlines, List.length_map, List.length_zip, hq]; simp
  rw [hn, readLines_spec lines (by
    intro l hl
    rw [hlines, List.mem_map] at hl
    obtain ⟨p, hp, rfl⟩ := hl
    exact (hatoms p hp).1)]
  simp only
  have hm : lines.mapM (fun l => (parseAtom l : Option (ℕ × K × V3 K))) =
      some ((g.atoms.zip q).map fun p => (p.1.1, roundDec 6 p.2, roundV6 (scaleV bohr p.1.2))) := by
    rw [hlines, List.mapM_map]
    exact mapM_eq_some_map _ _ _ fun p hp => (hatoms p hp).2
  rw [hm]

theorem close_scaled (a x : K) (m : K) (hm : 0 < m) (ha : a = m * x) : |1 / m * roundDec 6 a - x| ≤ 1 / m * (1 / 10 ^ 6 / 2) := by
  have h := roundDec_close 6 a
  have : 1 / m * roundDec 6 a - x = 1 / m * (roundDec 6 a - a) := by rw [ha]; field_simp
  rw [this, abs_mul, abs_of_pos (one_div_pos.mpr hm)]
  exact mul_le_mul_of_nonneg_left h (one_div_pos.mpr hm).le

theorem closeV_scaled (m : K) (hm : 0 < m) (v : V3 K) : CloseV (1 / m * (1 / 10 ^ 6 / 2)) v (scaleV (1 / m) (roundV6 (scaleV m v))) :=
  ⟨close_scaled _ _ m hm rfl, close_scaled _ _ m hm rfl, close_scaled _ _ m hm rfl⟩

theorem CloseV.mono {ε δ : K} {a b : V3 K} (h : CloseV ε a b) (hle : ε ≤ δ) : CloseV δ a b :=
  ⟨le_trans h.1 hle, le_trans h.2.1 hle, le_trans h.2.2 hle⟩

/-- What is read from a written file, with any origin. -/
theorem cube_general (pick : List K → List K) (g : CubeIn K) (hs : 0 < g.shape.nx ∧ 0 < g.shape.ny ∧ 0 < g.shape.nz)
    (charges : Option (List K)) (hq : ∀ q, charges = some q → q.length = g.atoms.length) (origin : Option (V3 K))
    (hfit : HeaderFits g (charges.getD (List.replicate g.atoms.length 0)) (origin.getD (0, 0, 0))) (flat : List K)
    (hlen : flat.length = g.shape.nx * g.shape.ny * g.shape.nz) (hd : ∀ x ∈ flat, CubeFits x) :
    ∃ out, readCube pick ((cubeHeader g (charges.getD (List.replicate g.atoms.length 0))
        (scaleV bohr (origin.getD (0, 0, 0)))).flatten ++ cubeText g.shape.nz flat) = some out ∧
      out.shape = g.shape ∧ CloseV ((g.shape.nx : K) / 10 ^ 6) g.lattice.1 out.lattice.1 ∧
      CloseV ((g.shape.ny : K) / 10 ^ 6) g.lattice.2.1 out.lattice.2.1 ∧ CloseV ((g.shape.nz : K) / 10 ^ 6) g.lattice.2.2 out.lattice.2.2 ∧
      List.Forall₂ (fun (p : (ℕ × V3 K) × K) (a : ℕ × K × V3 K) => a.1 = p.1.1 ∧ |a.2.1 - p.2| ≤ 1 / 10 ^ 6 ∧
        CloseV (1 / 10 ^ 6) (subV p.1.2 (origin.getD (0, 0, 0))) a.2.2)
        (g.atoms.zip (charges.getD (List.replicate g.atoms.length 0))) out.atoms ∧
      CloseV (1 / 10 ^ 6) (origin.getD (0, 0, 0)) out.origin ∧ 
      out.total = fun i j k => roundSig out.sig (unravelF g.shape (flat.map sciVal) i j k * (cellVol out.lattice * bohr ^ 3)) := by
  obtain ⟨o, ho⟩ : ∃ o, o = origin.getD (0, 0, 0) := ⟨_, rfl⟩
  obtain ⟨q, hq'⟩ : ∃ q, q = charges.getD (List.replicate g.atoms.length 0) := ⟨_, rfl⟩
  have hql : q.length = g.atoms.length := by
    rw [hq']
    cases h : charges with
    | none => simp
    | some c => exact hq c h
  rw [← ho, ← hq'] at hfit ⊢
  have hB : (0 : K) < bohr := bohr_pos
  have hsmall : (1 : K) / bohr * (1 / 10 ^ 6 / 2) ≤ 1 / 10 ^ 6 / 2 := by
    have : (1 : K) / bohr ≤ 1 := by rw [div_le_one hB]; exact bohr_gt_one.le
    have h0 : (0 : K) ≤ 1 / 10 ^ 6 / 2 := by positivity
    calc (1 : K) / bohr * (1 / 10 ^ 6 / 2) ≤ 1 * (1 / 10 ^ 6 / 2) := mul_le_mul_of_nonneg_right this h0
      _ = _ := one_mul _
  have hhalf : (1 : K) / 10 ^ 6 / 2 ≤ 1 / 10 ^ 6 := half_le_self (by positivity)
  have hlat : ∀ (n : ℕ) (v : V3 K), 0 < n → CloseV ((n : K) / 10 ^ 6) v (scaleV ((n : K) / bohr) (roundV6 (scaleV (bohr / (n : K)) v))) := by
    intro n v hn
    have hnK : (0 : K) < n := Nat.cast_pos.mpr hn
    have := closeV_scaled (bohr / (n : K)) (div_pos hB hnK) v
    rw [one_div_div] at this
    refine this.mono ?_
    have h1 : (n : K) / bohr ≤ n := div_le_self hnK.le bohr_gt_one.le
    calc (n : K) / bohr * (1 / 10 ^ 6 / 2) ≤ n * (1 / 10 ^ 6) := mul_le_mul h1 hhalf (by positivity) hnK.le
      _ = n / 10 ^ 6 := by rw [mul_one_div]
  rw [readCube_spec pick g q o hql hfit]
  have hbohr : (decide (¬((g.shape.nx : ℤ) < 0 ∨ (g.shape.ny : ℤ) < 0 ∨ (g.shape.nz : ℤ) < 0))) = true := by
    rw [decide_eq_true_eq]; omega
  have hread := cubeText_read g.shape.nz hs.2.2 flat hd
  rw [hlen] at hread
  unfold cubeFinish
  simp only [hbohr, if_true, Int.natAbs_natCast]
  rw [hread, if_neg (by rw [List.length_map, hlen]; omega)]
  refine ⟨_, rfl, rfl, hlat _ _ hs.1, hlat _ _ hs.2.1, hlat _ _ hs.2.2, ?_, (closeV_scaled bohr hB o).mono (le_trans hsmall hhalf), rfl⟩
  rw [List.map_map, List.forall₂_map_right_iff, List.forall₂_same]
  intro p _
  refine ⟨rfl, le_trans (roundDec_close 6 p.2) hhalf, ?_⟩
  have h1 := (closeV_scaled bohr hB p.1.2).mono hsmall
  have h2 := (closeV_scaled bohr hB o).mono hsmall
  have key : ∀ a a' b b' ε : K, |a' - a| ≤ ε / 2 → |b' - b| ≤ ε / 2 → |(a' - b') - (a - b)| ≤ ε := by
    intro a a' b b' ε h1 h2
    rw [abs_le] at *
    constructor <;> linarith
  exact ⟨key _ _ _ _ _ h1.1 h2.1, key _ _ _ _ _ h1.2.1 h2.2.1, key _ _ _ _ _ h1.2.2 h2.2.2⟩

theorem writeCube_text (g : CubeIn K) (charges : Option (List K)) (origin : Option (V3 K)) :
    (writeCube g charges origin).1 = (cubeHeader g (charges.getD (List.replicate g.atoms.length 0))
      (scaleV bohr (origin.getD (0, 0, 0)))).flatten ++
      cubeText g.shape.nz ((ravelF g.shape g.total).map fun x => x / (cellVol g.lattice * bohr ^ 3)) := rfl

/-- C29: the volume by which densities are divided and multiplied is that of the cell, the absolute determinant of the lattice. -/
theorem C29_volume (L : M3 K) : cellVol L =
    |Matrix.det !![L.1.1, L.1.2.1, L.1.2.2; L.2.1.1, L.2.1.2.1, L.2.1.2.2; L.2.2.1, L.2.2.2.1, L.2.2.2.2]| := by
  rw [Matrix.det_fin_three]
  unfold cellVol
  congr 1
  simp
  ring

/-- C29 (partial): a grid written without an origin, whose numbers fit the columns, is read back with the same shape,
the lattice to `10^-6` per point, the same elements, charges and positions to `10^-6`, and at every point the density
to six digits times the volume of the cell read, rounded to the figures found.
What is missing: origins (`C29_origin_shift`) and negative numbers below `10^-99`, which leave no blank. -/
theorem C29_roundtrip_partial (pick : List K → List K) (g : CubeIn K) (hs : 0 < g.shape.nx ∧ 0 < g.shape.ny ∧ 0 < g.shape.nz)
    (charges : Option (List K)) (hq : ∀ q, charges = some q → q.length = g.atoms.length)
    (hfit : HeaderFits g (charges.getD (List.replicate g.atoms.length 0)) (0, 0, 0))
    (hd : ∀ i < g.shape.nx, ∀ j < g.shape.ny, ∀ k < g.shape.nz, CubeFits (g.total i j k / (cellVol g.lattice * bohr ^ 3))) :
    ∃ out, readCube pick (writeCube g charges none).1 = some out ∧
      out.shape = g.shape ∧ CloseV ((g.shape.nx : K) / 10 ^ 6) g.lattice.1 out.lattice.1 ∧
      CloseV ((g.shape.ny : K) / 10 ^ 6) g.lattice.2.1 out.lattice.2.1 ∧ CloseV ((g.shape.nz : K) / 10 ^ 6) g.lattice.2.2 out.lattice.2.2 ∧
      List.Forall₂ (fun (p : (ℕ × V3 K) × K) (a : ℕ × K × V3 K) => a.1 = p.1.1 ∧ |a.2.1 - p.2| ≤ 1 / 10 ^ 6 ∧
        CloseV (1 / 10 ^ 6) p.1.2 a.2.2) (g.atoms.zip (charges.getD (List.replicate g.atoms.length 0))) out.atoms ∧
      ∀ i < g.shape.nx, ∀ j < g.shape.ny, ∀ k < g.shape.nz, ∃ y,
        SixDigits (g.total i j k / (cellVol g.lattice * bohr ^ 3)) y ∧
        out.total i j k = roundSig out.sig (y * (cellVol out.lattice * bohr ^ 3)) := by
  obtain ⟨out, h1, h2, h3, h4, h5, h6, -, h8⟩ := cube_general pick g hs charges hq none hfit
    ((ravelF g.shape g.total).map fun x => x / (cellVol g.lattice * bohr ^ 3)) (by rw [List.length_map, ravelF_length]) (by
      intro x hx
      rw [List.mem_map] at hx
      obtain ⟨y, hy, rfl⟩ := hx
      unfold ravelF at hy
      simp only [List.mem_flatMap, List.mem_map, List.mem_range] at hy
      obtain ⟨k, hk, j, hj, i, hi, rfl⟩ := hy
      exact hd i hi j hj k hk)
  refine ⟨out, by rw [writeCube_text]; exact h1, h2, h3, h4, h5, ?_, ?_⟩
  · refine h6.imp ?_
    rintro p a ⟨b, c, d⟩
    refine ⟨b, c, ?_⟩
    simpa [subV, CloseV] using d
  · intro i hi j hj k hk
    refine ⟨_, (sciVal_spec _).2, ?_⟩
    rw [h8]
    simp only
    congr 2
    unfold unravelF
    rw [List.map_map, List.getD_eq_getElem?_getD, List.getElem?_map, ravelF_getElem g.shape g.total i j k hi hj hk]
    rfl

/-- C29: with an origin the atoms come back displaced by minus the origin. -/
theorem C29_origin_shift (pick : List K → List K) (g : CubeIn K) (hs : 0 < g.shape.nx ∧ 0 < g.shape.ny ∧ 0 < g.shape.nz)
    (o : V3 K) (hfit : HeaderFits g (List.replicate g.atoms.length 0) o) (ho : 2 / 10 ^ 6 < |o.1|)
    (hd : ∀ i < g.shape.nx, ∀ j < g.shape.ny, ∀ k < g.shape.nz, CubeFits (g.total i j k / (cellVol g.lattice * bohr ^ 3))) :
    ∃ out, readCube pick (writeCube g none (some o)).1 = some out ∧ out.atoms.length = g.atoms.length ∧
      List.Forall₂ (fun (p : (ℕ × V3 K) × K) (a : ℕ × K × V3 K) => CloseV (1 / 10 ^ 6) (subV p.1.2 o) a.2.2 ∧
        ¬ CloseV (1 / 10 ^ 6) p.1.2 a.2.2) (g.atoms.zip (List.replicate g.atoms.length 0)) out.atoms := by
  obtain ⟨out, h1, h2, h3, h4, h5, h6, -, h8⟩ := cube_general pick g hs none (by simp) (some o) hfit
    ((ravelF g.shape g.total).map fun x => x / (cellVol g.lattice * bohr ^ 3)) (by rw [List.length_map, ravelF_length]) (by
      intro x hx
      rw [List.mem_map] at hx
      obtain ⟨y, hy, rfl⟩ := hx
      unfold ravelF at hy
      simp only [List.mem_flatMap, List.mem_map, List.mem_range] at hy
      obtain ⟨k, hk, j, hj, i, hi, rfl⟩ := hy
      exact hd i hi j hj k hk)
  refine ⟨out, by rw [writeCube_text]; exact h1, ?_, ?_⟩
  · have := h6.length_eq
    rw [← this]; simp
  · refine h6.imp ?_
    rintro p a ⟨b, c, d⟩
    refine ⟨d, ?_⟩
    intro hc
    have e1 := d.1
    have e2 := hc.1
    simp only [subV, Option.getD_some] at e1
    have : |o.1| ≤ 2 / 10 ^ 6 := by
      rw [abs_le] at *
      rw [show (2 : K) / 10 ^ 6 = 1 / 10 ^ 6 + 1 / 10 ^ 6 by ring]
      constructor <;> linarith
    exact absurd ho (not_lt.mpr this)

/-- C29: writing scales the caller's origin in place, so that a second call writes another file. -/
theorem C29_origin_mutated (g : CubeIn K) (charges : Option (List K)) (o : V3 K) :
    (writeCube g charges (some o)).2 = some (scaleV bohr o) ∧ (o.1 ≠ 0 → scaleV bohr o ≠ o) := by
  refine ⟨rfl, fun h hc => ?_⟩
  have : bohr * o.1 = o.1 := congrArg Prod.fst hc
  have h1 : (bohr : K) = 1 := by
    have := mul_right_cancel₀ h (this.trans (one_mul o.1).symm)
    exact this
  have := bohr_gt_one (K := K)
  rw [h1] at this
  exact lt_irrefl _ this

/-- C29: the order of the numbers is not that of the Gaussian convention, so that a file of another program is read
with its axes exchanged: on a 2 x 1 x 2 grid the density at (0, 0, 1) is taken for that at (1, 0, 0). -/
theorem C29_order_wrong (pick : List K → List K) (g : CubeIn K) (hs : g.shape = ⟨2, 1, 2⟩) (rho : Grid3 K)
    (hfit : HeaderFits g (List.replicate g.atoms.length 0) (0, 0, 0)) (hd : ∀ i j k, CubeFits (rho i j k)) :
    ∃ out, readCube pick ((cubeHeader g (List.replicate g.atoms.length 0) (scaleV bohr (0, 0, 0))).flatten ++
        cubeText g.shape.nz (ravelC g.shape rho)) = some out ∧ ∃ y, SixDigits (rho 0 0 1) y ∧
        out.total 1 0 0 = roundSig out.sig (y * (cellVol out.lattice * bohr ^ 3)) := by
  obtain ⟨out, h1, -, -, -, -, -, -, h8⟩ := cube_general pick g (by rw [hs]; norm_num) none (by simp) none hfit
    (ravelC g.shape rho) (by rw [hs]; rfl) (by
      intro x hx
      unfold ravelC at hx
      simp only [List.mem_flatMap, List.mem_map] at hx
      obtain ⟨i, -, j, -, k, -, rfl⟩ := hx
      exact hd i j k)
  refine ⟨out, h1, sciVal (rho 0 0 1), (sciVal_spec _).2, ?_⟩
  rw [h8, hs]
  rfl

end field

/-- A cubic cell of hydrogen meets the hypotheses. -/
def cubeExample : CubeIn ℚ := ⟨⟨2, 1, 2⟩, ((3, 0, 0), (0, 3, 0), (0, 0, 3)), [(1, (1, 0, 0))], fun i _ _ => if i = 0 then 0 else 5⟩

example : HeaderFits cubeExample (List.replicate cubeExample.atoms.length 0) (0, 0, 0) ∧
    HeaderFits cubeExample (List.replicate cubeExample.atoms.length 0) (1, 0, 0) ∧
    ∀ i < 2, ∀ j < 1, ∀ k < 2, CubeFits (cubeExample.total i j k / (cellVol cubeExample.lattice * bohr ^ 3)) := by
  refine ⟨by unfold HeaderFits FitsV cubeExample; decide +kernel, by unfold HeaderFits FitsV cubeExample; decide +kernel, ?_⟩
  intro i _ j _ k _
  by_cases h : i = 0
  · left; simp [h, cubeExample]
  · right
    refine ⟨-2, by norm_num, by norm_num, ?_, ?_⟩ <;> simp only [cubeExample, h, if_false, cellVol, bohr] <;> norm_num [abs_of_pos]

/-- C29: a negative number below `10^-99` leaves no blank in front of it: the two numbers are read as one word, and the
file cannot be read. -/
theorem C29_negative_tiny : readCube (K := ℚ) id (writeCube (K := ℚ) { cubeExample with total := fun i _ _ => if i = 0 then 5 else -1 / 10 ^ 120 }
    none none).1 = none := by
  have : (readCube (K := ℚ) id (writeCube (K := ℚ) { cubeExample with total := fun i _ _ => if i = 0 then 5 else -1 / 10 ^ 120 }
    none none).1).isNone = true := by decide +kernel
  exact Option.isNone_iff_eq_none.mp this

end BaderKit
