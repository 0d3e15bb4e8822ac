import Verif.Props.Supercell
/-!
# C119: the atoms of a supercell

The charges and volumes of the atoms of a block of cells are those of the atoms they are copies of.
-/
set_option linter.unusedSectionVars false
namespace BaderKit
open Finset
variable {K : Type} [Field K] [LinearOrder K] [IsStrictOrderedRing K] [FloorRing K]

/-! ## Specification -/

/-- The lattice of the block. -/
def scaleRows (n : ℕ × ℕ × ℕ) (L : M3 K) : M3 K :=
  (((n.1 : K) * L.1.1, (n.1 : K) * L.1.2.1, (n.1 : K) * L.1.2.2), ((n.2.1 : K) * L.2.1.1, (n.2.1 : K) * L.2.1.2.1, (n.2.1 : K) * L.2.1.2.2),
    ((n.2.2 : K) * L.2.2.1, (n.2.2 : K) * L.2.2.2.1, (n.2.2 : K) * L.2.2.2.2))

/-- The fractional coordinate in the block of the point `p` of the cell number `t`. -/
def inBlock (n : ℕ × ℕ × ℕ) (p : V3 K) (t : Coord) : V3 K := ((p.1 + t.1) / n.1, (p.2.1 + t.2.1) / n.2.1, (p.2.2 + t.2.2) / n.2.2)

/-- Two cells are the same cell of the block, up to whole blocks. -/
def SameCell (n : ℕ × ℕ × ℕ) (t t' : Coord) : Prop := SamePoint ⟨n.1, n.2.1, n.2.2⟩ t t'

/-- The atoms of the block: atom `i` is the copy of atom `of i` in the cell number `cell i`; every atom has exactly one copy in each cell. -/
structure AtomsCopied (n : ℕ × ℕ × ℕ) (G G' : RunInput K) (of : ℕ → ℕ) (cell : ℕ → Coord) : Prop where
  of_lt : ∀ i < G'.atoms.length, of i < G.atoms.length
  site : ∀ i (hi : i < G'.atoms.length) (hj : of i < G.atoms.length), G'.atoms[i] = inBlock n G.atoms[of i] (cell i)
  all : ∀ j < G.atoms.length, ∀ t : Coord, ∃ i < G'.atoms.length, of i = j ∧ SameCell n (cell i) t
  once : ∀ i < G'.atoms.length, ∀ j < G'.atoms.length, of i = of j → SameCell n (cell i) (cell j) → i = j

/-- The voxel `w` of the block is the copy of the voxel `v` in the cell number `u`. -/
def InCell (s s' : Shape) (w v : ℕ) (u : Coord) : Prop :=
  w < s'.size ∧ v < s.size ∧ flatToCoords s' w = addC (flatToCoords s v) (u.1 * s.nx, u.2.1 * s.ny, u.2.2 * s.nz)

/-- The image of the atom `a` in the cell `t` is nearer to the point `p` than every other image of every atom. -/
def RunInput.OneNearest (G : RunInput K) (p : V3 K) (a : ℕ) (t : Coord) : Prop :=
  ∃ ha : a < G.atoms.length, ∀ (j : ℕ) (hj : j < G.atoms.length) (t' : Coord), (j, t') ≠ (a, t) →
    dist2 G.lattice (image G.atoms[a] t) p < dist2 G.lattice (image G.atoms[j] t') p

/-- Besides the grids the atoms are those of the block, too.  The cell is orthogonal, atoms and maxima are stored in nearby cells, the reported places of the
maxima are copied like the atoms, and each maximum has one nearest atom. -/
structure AtomRuns (n : ℕ × ℕ × ℕ) (G G' : RunInput K) (A A' : RunAid K) (of : ℕ → ℕ) (cell : ℕ → Coord) : Prop where
  copied : AtomsCopied n G G' of cell
  lattice : G'.lattice = scaleRows n G.lattice
  ortho : Orthogonal G.lattice
  root : RootLike A.root
  root' : RootLike A'.root
  rnd : A'.rnd = A.rnd
  near : ∀ a ∈ G.atoms, ∀ m, G.IsMax m → CloseBy a (A.place m)
  near' : ∀ a ∈ G'.atoms, ∀ m, G'.IsMax m → CloseBy a (A'.place m)
  place : ∀ w v u, G.IsMax v → InCell G.shape G'.shape w v u → ∃ e : Coord, A'.place w = image (inBlock n (A.place v) u) e
  one : ∀ v, G.IsMax v → ∃ a t, G.OneNearest (A.place v) a t

/-! ## Distances -/

section dist
variable {n : ℕ × ℕ × ℕ}

theorem dist2_nonneg (L : M3 K) (a b : V3 K) : 0 ≤ dist2 L a b := norm2_nonneg _

theorem scaleRows_ortho {L : M3 K} (h : Orthogonal L) : Orthogonal (scaleRows n L) := by
  obtain ⟨h1, h2, h3⟩ := h
  simp only [dotV] at h1 h2 h3
  refine ⟨?_, ?_, ?_⟩ <;> simp only [dotV, scaleRows]
  · linear_combination (n.1 * n.2.1 : K) * h1
  · linear_combination (n.1 * n.2.2 : K) * h2
  · linear_combination (n.2.1 * n.2.2 : K) * h3

theorem dist2_block (hn : 0 < n.1 ∧ 0 < n.2.1 ∧ 0 < n.2.2) (L : M3 K) (a p : V3 K) (c t u e : Coord) :
    dist2 (scaleRows n L) (image (inBlock n a c) t) (image (inBlock n p u) e) =
      dist2 L (image a (c.1 + n.1 * t.1 - u.1 - n.1 * e.1, c.2.1 + n.2.1 * t.2.1 - u.2.1 - n.2.1 * e.2.1, c.2.2 + n.2.2 * t.2.2 - u.2.2 - n.2.2 * e.2.2)) p := by
  have h1 : (n.1 : K) ≠ 0 := by exact_mod_cast hn.1.ne'
  have h2 : (n.2.1 : K) ≠ 0 := by exact_mod_cast hn.2.1.ne'
  have h3 : (n.2.2 : K) ≠ 0 := by exact_mod_cast hn.2.2.ne'
  have key : ∀ (m a p c t u e : K), m ≠ 0 → ((a + c) / m + t - ((p + u) / m + e)) * m = a + (c + m * t - u - m * e) - p := by
    intro m a p c t u e hm; field_simp; ring
  have k1 := key n.1 a.1 p.1 c.1 t.1 u.1 e.1 h1
  have k2 := key n.2.1 a.2.1 p.2.1 c.2.1 t.2.1 u.2.1 e.2.1 h2
  have k3 := key n.2.2 a.2.2 p.2.2 c.2.2 t.2.2 u.2.2 e.2.2 h3
  unfold dist2
  congr 1
  simp only [vecMat, subV, image, inBlock, scaleRows]
  push_cast
  rw [← k1, ← k2, ← k3]
  refine Prod.ext ?_ (Prod.ext ?_ ?_) <;> dsimp only <;> ring

theorem nearest_block {G G' : RunInput K} {A A' : RunAid K} {of : ℕ → ℕ} {cell : ℕ → Coord} (hn : 0 < n.1 ∧ 0 < n.2.1 ∧ 0 < n.2.2)
    (R : AtomRuns n G G' A A' of cell) {p : V3 K} {u e : Coord} {a : ℕ} {t : Coord} (h1 : G.OneNearest p a t) {i : ℕ}
    (h : NearestAtom G' A'.root i (image (inBlock n p u) e)) : of i = a ∧ SameCell n (cell i) (addC t u) := by
  obtain ⟨ha, hu⟩ := h1
  obtain ⟨hi, t', hmin⟩ := h
  obtain ⟨j, hj, hja, ⟨x, hx⟩, ⟨y, hy⟩, ⟨z, hz⟩⟩ := R.copied.all a ha (addC t u)
  have hoi := R.copied.of_lt i hi
  have hoj := R.copied.of_lt j hj
  have := hmin j hj (e.1 - x, e.2.1 - y, e.2.2 - z)
  rw [R.root' _ _ (dist2_nonneg _ _ _) (dist2_nonneg _ _ _), R.lattice, R.copied.site i hi hoi, R.copied.site j hj hoj, dist2_block hn, dist2_block hn] at this
  subst hja
  have et : ((cell j).1 + n.1 * (e.1 - x) - u.1 - n.1 * e.1, (cell j).2.1 + n.2.1 * (e.2.1 - y) - u.2.1 - n.2.1 * e.2.1,
      (cell j).2.2 + n.2.2 * (e.2.2 - z) - u.2.2 - n.2.2 * e.2.2) = t := by
    simp only [addC] at hx hy hz
    refine Prod.ext ?_ (Prod.ext ?_ ?_) <;> dsimp only
    · rw [hx]; ring
    · rw [hy]; ring
    · rw [hz]; ring
  dsimp only at this
  rw [et] at this
  by_contra hcon
  refine absurd this (not_le.mpr (hu (of i) hoi _ fun he => hcon ?_))
  rw [Prod.mk.injEq] at he
  obtain ⟨e1, e2⟩ := he
  refine ⟨e1, ⟨e.1 - t'.1, ?_⟩, ⟨e.2.1 - t'.2.1, ?_⟩, ⟨e.2.2 - t'.2.2, ?_⟩⟩
  · have := congrArg (fun x : Coord => x.1) e2
    simp only [addC] at this ⊢
    linear_combination this
  · have := congrArg (fun x : Coord => x.2.1) e2
    simp only [addC] at this ⊢
    linear_combination this
  · have := congrArg (fun x : Coord => x.2.2) e2
    simp only [addC] at this ⊢
    linear_combination this

theorem nearest_one {G : RunInput K} {root : K → K} (hr : RootLike root) {p : V3 K} {a : ℕ} {t : Coord} (h1 : G.OneNearest p a t) {i : ℕ}
    (h : NearestAtom G root i p) : i = a := by
  obtain ⟨ha, hu⟩ := h1
  obtain ⟨hi, t', hmin⟩ := h
  have := hmin a ha t
  rw [hr _ _ (dist2_nonneg _ _ _) (dist2_nonneg _ _ _)] at this
  by_contra hcon
  exact absurd this (not_le.mpr (hu i hi t' fun he => hcon (Prod.mk.inj he).1))

end dist

section cells
variable {n : ℕ × ℕ × ℕ} {s s' : Shape}

theorem InCell.copy {w v : ℕ} {u : Coord} (h : InCell s s' w v u) : CopyOf s s' w v := by
  obtain ⟨h1, h2, h3⟩ := h
  refine ⟨h1, h2, ⟨u.1, ?_⟩, ⟨u.2.1, ?_⟩, ⟨u.2.2, ?_⟩⟩ <;> rw [h3] <;> rfl

theorem inCell_exists {w v : ℕ} (h : CopyOf s s' w v) : ∃ u, InCell s s' w v u := by
  obtain ⟨h1, h2, ⟨a, ha⟩, ⟨b, hb⟩, ⟨c, hc⟩⟩ := h
  exact ⟨(a, b, c), h1, h2, Prod.ext ha (Prod.ext hb hc)⟩

theorem inCell_unique (hB : BlockOf n s s') {w w2 v : ℕ} {u u2 : Coord} (h : InCell s s' w v u) (h2 : InCell s s' w2 v u2) (hu : SameCell n u u2) : w = w2 := by
  apply flat_inj (s := s')
  apply samePoint_unique (flat_inRange h.1) (flat_inRange h2.1)
  rw [h.2.2, h2.2.2]
  obtain ⟨⟨a, ha⟩, ⟨b, hb⟩, ⟨c, hc⟩⟩ := hu
  refine ⟨⟨a, ?_⟩, ⟨b, ?_⟩, ⟨c, ?_⟩⟩ <;> simp only [addC]
  · rw [hB.x, ha]; push_cast; ring
  · rw [hB.y, hb]; push_cast; ring
  · rw [hB.z, hc]; push_cast; ring

/-- Every voxel has a copy in every cell of the block. -/
theorem inCell_lift (hB : BlockOf n s s') {v : ℕ} (hv : v < s.size) (u : Coord) : ∃ w u', InCell s s' w v u' ∧ SameCell n u' u := by
  obtain ⟨p1, p2, p3⟩ := pos_of_lt_size hv
  have hp' : s'.Pos := by
    obtain ⟨l1, l2, l3⟩ := hB.le
    exact ⟨by omega, by omega, by omega⟩
  obtain ⟨d, hd, ⟨a, ha⟩, ⟨b, hb⟩, ⟨c, hc⟩⟩ := exists_inRange hp' (addC (flatToCoords s v) (u.1 * s.nx, u.2.1 * s.ny, u.2.2 * s.nz))
  obtain ⟨w, hw, rfl⟩ := exists_flat hd
  simp only [addC] at ha hb hc
  rw [hB.x] at ha; rw [hB.y] at hb; rw [hB.z] at hc
  push_cast at ha hb hc
  refine ⟨w, (u.1 - a * n.1, u.2.1 - b * n.2.1, u.2.2 - c * n.2.2), ⟨hw, hv, ?_⟩, ⟨-a, ?_⟩, ⟨-b, ?_⟩, ⟨-c, ?_⟩⟩
  · simp only [addC]
    refine Prod.ext ?_ (Prod.ext ?_ ?_) <;> dsimp only
    · linear_combination -ha
    · linear_combination -hb
    · linear_combination -hc
  all_goals dsimp only; ring

end cells

/-! ## The theorem -/

/-- The atom of a maximum in an ongrid run. -/
theorem max_atom {G : RunInput K} {A : RunAid K} {o : RunOut K} {M : ℕ → Bool} (hM : ∀ v, M v = true ↔ G.IsMax v) (hroot : RootLike A.root)
    (hortho : Orthogonal G.lattice) (hnear : ∀ a ∈ G.atoms, ∀ m, G.IsMax m → CloseBy a (A.place m)) (h1 : o.maxima = maximaVox G.shape M)
    (h2 : ∀ i (hi : i < o.maxima.length), o.labels o.maxima[i] = i) {bc bv : List K} (hbc : bc.length = o.maxima.length) (hbv : bv.length = o.maxima.length)
    (hasg : assignBasins A.root G.lattice G.atoms (o.maxima.map A.place) o.labels bc bv = some o.assignment) {m : ℕ} (hm : G.IsMax m) :
    ∃ a : ℕ, o.assignment.atomLabels m = a ∧ a < G.atoms.length ∧ NearestAtom G A.root a (A.place m) := by
  obtain ⟨g1, _, _, _, _, _, g7⟩ := C23_atom_totals _ _ _ _ _ _ _ _ (by simpa using hbc) (by simpa using hbv) hasg
  rw [List.length_map] at g1 g7
  have e1 : m ∈ o.maxima := by rw [h1, mem_maximaVox]; exact ⟨hm.1, (hM m).mpr hm⟩
  obtain ⟨i, hi, ei⟩ := List.mem_iff_getElem.mp e1
  have li := h2 i hi
  rw [ei] at li
  obtain ⟨a, x1, x2⟩ := g7 m i li hi
  have := nearest_of_asg (acc := o.basins) hasg ⟨hroot, hortho, fun a ha m hm => hnear a ha m ((hM m).mp (by
    have hm : m ∈ o.maxima := hm
    rw [h1, mem_maximaVox] at hm; exact hm.2))⟩ i hi a x1
  rw [ei] at this
  exact ⟨a, x2, this.1, this⟩

theorem same_atom {o : RunOut K} {root : K → K} {L : M3 K} {at' ba : List (V3 K)} {bc bv : List K}
    (h : assignBasins root L at' ba o.labels bc bv = some o.assignment) {v w : ℕ} (e : o.labels v = o.labels w) :
    o.assignment.atomLabels v = o.assignment.atomLabels w := by
  have := (assignBasins_spec h).2.2.2.1
  rw [this, this, e]

section atoms
variable {n : ℕ × ℕ × ℕ} {k q : K} {G G' : RunInput K} {A A' : RunAid K} {of : ℕ → ℕ} {cell : ℕ → Coord} {M M' : ℕ → Bool} {o o' : RunOut K}
  {bc bv bc' bv' : List K}

theorem cell_atom (R : AtomRuns n G G' A A' of cell) (hM : ∀ v, M v = true ↔ G.IsMax v) (m1 : o.maxima = maximaVox G.shape M)
    (m2 : ∀ i (hi : i < o.maxima.length), o.labels o.maxima[i] = i) (hbc : bc.length = o.maxima.length) (hbv : bv.length = o.maxima.length)
    (l7 : assignBasins A.root G.lattice G.atoms (o.maxima.map A.place) o.labels bc bv = some o.assignment) :
    ∀ m a t, G.IsMax m → G.OneNearest (A.place m) a t → o.assignment.atomLabels m = a := by
  intro m a t hm h1
  obtain ⟨b, b1, _, b3⟩ := max_atom hM R.root R.ortho R.near m1 m2 hbc hbv l7 hm
  rw [b1, nearest_one R.root h1 b3]

theorem copy_atom (S : SupercellOf n k q G G') (hf : ∀ td ∈ G.nbrs, StepFits G.shape td.1) (R : AtomRuns n G G' A A' of cell)
    (hM' : ∀ v, M' v = true ↔ G'.IsMax v) (n1 : o'.maxima = maximaVox G'.shape M')
    (n2 : ∀ i (hi : i < o'.maxima.length), o'.labels o'.maxima[i] = i) (hbc' : bc'.length = o'.maxima.length) (hbv' : bv'.length = o'.maxima.length)
    (r7 : assignBasins A'.root G'.lattice G'.atoms (o'.maxima.map A'.place) o'.labels bc' bv' = some o'.assignment) :
    ∀ w m u a t, G.IsMax m → InCell G.shape G'.shape w m u → G.OneNearest (A.place m) a t →
      ∃ i < G'.atoms.length, o'.assignment.atomLabels w = i ∧ of i = a ∧ SameCell n (cell i) (addC t u) := by
  intro w m u a t hm hc h1
  have hw := (S.isMax hf hc.copy).mpr hm
  obtain ⟨b, b1, b2, b3⟩ := max_atom hM' R.root' (by rw [R.lattice]; exact scaleRows_ortho R.ortho) R.near' n1 n2 hbc' hbv' r7 hw
  obtain ⟨e, he⟩ := R.place w m u hm hc
  rw [he] at b3
  obtain ⟨c1, c2⟩ := nearest_block S.block.pos R h1 b3
  exact ⟨b, b2, b1, c1, c2⟩

/-- The maxima of an atom of the block are one copy of each maximum of the atom it is a copy of. -/
theorem sum_atom_block (S : SupercellOf n k q G G') (hf : ∀ td ∈ G.nbrs, StepFits G.shape td.1) (hp : G.shape.Pos) (R : AtomRuns n G G' A A' of cell)
    (hM : ∀ v, M v = true ↔ G.IsMax v) (hM' : ∀ v, M' v = true ↔ G'.IsMax v)
    (cellAtom : ∀ m a t, G.IsMax m → G.OneNearest (A.place m) a t → o.assignment.atomLabels m = a)
    (copyAtom : ∀ w m u a t, G.IsMax m → InCell G.shape G'.shape w m u → G.OneNearest (A.place m) a t →
      ∃ i < G'.atoms.length, o'.assignment.atomLabels w = i ∧ of i = a ∧ SameCell n (cell i) (addC t u)) :
    ∀ (f f' : ℕ → K) i, i < G'.atoms.length → (∀ w v, CopyOf G.shape G'.shape w v → G.IsMax v → f' w = f v) →
      ∑ w ∈ (range G'.shape.size).filter (fun w => M' w = true), (if o'.assignment.atomLabels w = i then f' w else 0) =
        ∑ v ∈ (range G.shape.size).filter (fun v => M v = true), if o.assignment.atomLabels v = of i then f v else 0 := by
  have hB := S.block
  intro f f' i hi hff
  rw [← Finset.sum_filter, ← Finset.sum_filter]
  have fold : ∀ w, ∃ v, w < G'.shape.size → CopyOf G.shape G'.shape w v := by
    intro w
    by_cases h : w < G'.shape.size
    · obtain ⟨v, h2⟩ := copy_exists (s := G.shape) hp h
      exact ⟨v, fun _ => h2⟩
    · exact ⟨0, fun h' => absurd h' h⟩
  choose π hπ using fold
  have info : ∀ w < G'.shape.size, M' w = true → o'.assignment.atomLabels w = i → G.IsMax (π w) ∧ o.assignment.atomLabels (π w) = of i ∧
      ∃ t u, G.OneNearest (A.place (π w)) (of i) t ∧ InCell G.shape G'.shape w (π w) u ∧ SameCell n (cell i) (addC t u) := by
    intro w hw hMw hl
    have hc := hπ w hw
    have hm := (S.isMax hf hc).mp ((hM' w).mp hMw)
    obtain ⟨a, t, h1⟩ := R.one _ hm
    obtain ⟨u, hu⟩ := inCell_exists hc
    obtain ⟨j, j1, j2, j3, j4⟩ := copyAtom w _ u a t hm hu h1
    have : i = j := by rw [j2] at hl; exact_mod_cast hl.symm
    subst this
    subst j3
    exact ⟨hm, cellAtom _ _ t hm h1, t, u, h1, hu, j4⟩
  refine Finset.sum_bij (fun w _ => π w) ?_ ?_ ?_ ?_
  · intro w hw
    simp only [Finset.mem_filter, Finset.mem_range] at hw ⊢
    obtain ⟨c1, c2, _⟩ := info w hw.1.1 hw.1.2 hw.2
    exact ⟨⟨c1.1, (hM _).mpr c1⟩, c2⟩
  · intro w hw w2 hw2 e
    simp only [Finset.mem_filter, Finset.mem_range] at hw hw2
    have e : π w = π w2 := e
    obtain ⟨_, _, t, u, c3, c4, c5⟩ := info w hw.1.1 hw.1.2 hw.2
    obtain ⟨_, _, t', u', d3, d4, d5⟩ := info w2 hw2.1.1 hw2.1.2 hw2.2
    rw [← e] at d3 d4
    have et : t = t' := by
      by_contra hne
      obtain ⟨ha, hu⟩ := c3
      obtain ⟨hb, hv⟩ := d3
      exact lt_asymm (hu _ hb t' fun he => hne (Prod.mk.inj he).2.symm) (hv _ ha t fun he => hne (Prod.mk.inj he).2)
    subst et
    refine inCell_unique hB c4 d4 ?_
    have := SamePoint.trans (SamePoint.symm c5) d5
    obtain ⟨⟨a, ha⟩, ⟨b, hb⟩, ⟨d, hd⟩⟩ := this
    simp only [addC] at ha hb hd
    exact ⟨⟨a, by linarith⟩, ⟨b, by linarith⟩, ⟨d, by linarith⟩⟩
  · intro v hv
    simp only [Finset.mem_filter, Finset.mem_range] at hv
    have hm := (hM v).mp hv.1.2
    obtain ⟨a, t, h1⟩ := R.one v hm
    have ea : a = of i := by
      have := cellAtom v a t hm h1
      rw [hv.2] at this
      exact_mod_cast this.symm
    subst ea
    obtain ⟨w, u', hc, hu'⟩ := inCell_lift hB hv.1.1 ((cell i).1 - t.1, (cell i).2.1 - t.2.1, (cell i).2.2 - t.2.2)
    obtain ⟨j, j1, j2, j3, j4⟩ := copyAtom w v u' _ t hm hc h1
    have : j = i := by
      refine R.copied.once j j1 i hi j3 ?_
      obtain ⟨⟨a, ha⟩, ⟨b, hb⟩, ⟨d, hd⟩⟩ := j4
      obtain ⟨⟨a', ha'⟩, ⟨b', hb'⟩, ⟨d', hd'⟩⟩ := hu'
      simp only [addC] at ha hb hd ha' hb' hd'
      exact ⟨⟨a + a', by rw [ha, ha']; ring⟩, ⟨b + b', by rw [hb, hb']; ring⟩, ⟨d + d', by rw [hd, hd']; ring⟩⟩
    subst this
    refine ⟨w, ?_, copy_unique (hπ w hc.1) hc.copy⟩
    simp only [Finset.mem_filter, Finset.mem_range]
    exact ⟨⟨hc.1, (hM' w).mpr ((S.isMax hf hc.copy).mpr hm)⟩, j2⟩
  · intro w hw
    simp only [Finset.mem_filter, Finset.mem_range] at hw
    have hc := hπ w hw.1.1
    exact hff w _ hc ((S.isMax hf hc).mp ((hM' w).mp hw.1.2))

end atoms

/-- **C119** The atoms of the supercell.  If besides the conditions on the grids the cell is orthogonal and each maximum has one nearest atom, each copy of a voxel
belongs to a copy of its atom, and every atom has exactly the charge and volume of the atom it is a copy of.  Missing: flat maxima (`C119_plateau`), skewed
cells (`C24_skewed_wrong`) and maxima halfway between atoms (`C119_halfway`). -/
theorem C119_atoms_partial (n : ℕ × ℕ × ℕ) (k : K) (G G' : RunInput K) (A A' : RunAid K) (ε : K) (of : ℕ → ℕ) (cell : ℕ → Coord)
    (T : CellRuns n k (cellsOf n) G G' A A' ε) (R : AtomRuns n G G' A A' of cell)
    (order order' : List ℕ) (hord : IsSchedule G.shape order) (hord' : IsSchedule G'.shape order') :
    ∃ (o o' : RunOut K) (F : ℕ), (∀ fuel ≥ F, G.run A (.ongrid order) fuel = some o ∧ G'.run A' (.ongrid order') fuel = some o') ∧
      (∀ w v, CopyOf G.shape G'.shape w v → o.labels v ≠ -1 → ∃ i < G'.atoms.length, o'.assignment.atomLabels w = i ∧ o.assignment.atomLabels v = of i) ∧
      (∀ w v, CopyOf G.shape G'.shape w v → o.labels v = -1 → o'.assignment.atomLabels w = -1 ∧ o.assignment.atomLabels v = -1) ∧
      (∀ i < G'.atoms.length, o'.assignment.charges i = o.assignment.charges (of i) ∧ o'.assignment.volumes i = o.assignment.volumes (of i)) := by
  have S := T.super
  have hB := S.block
  have hf := T.ready.fits
  have hp : G.shape.Pos := pos_of_lt_size T.ready.voxels
  have hPk' := S.peaked hf hp T.peaked
  obtain ⟨x, x', F0, hF0, Rp⟩ := C119_repeats_partial n k _ G G' A A' ε T order order' hord hord'
  obtain ⟨o, F1, hF1, t1, l1, l2, l3, l4, l5, l6, l7, l8⟩ := ongrid_groups G A ε T.ready order hord T.twoSided (fun v w hv hw _ => T.peaked v w hv hw)
    (.ofApart T.apart T.sorted)
  obtain ⟨o', F2, hF2, t2, r1, r2, r3, r4, r5, r6, r7, r8⟩ := ongrid_groups G' A' ε T.ready' order' hord' (by rw [S.nbrs]; exact T.twoSided)
    (fun v w hv hw _ => hPk' v w hv hw) (.ofApart T.apart' T.sorted')
  have e1 := (hF0 (max F0 (max F1 F2)) (le_max_left _ _))
  rw [hF1 _ ((le_max_left _ _).trans (le_max_right _ _)), hF2 _ ((le_max_right _ _).trans (le_max_right _ _))] at e1
  obtain ⟨ex, ex'⟩ := e1
  obtain rfl := Option.some.inj ex
  obtain rfl := Option.some.inj ex'
  obtain ⟨m1, m2⟩ := l8 T.apart
  obtain ⟨n1, n2⟩ := r8 T.apart'
  have hM := getMaxima_isMax G A T.ready
  have hM' := getMaxima_isMax G' A' T.ready'
  set M := getMaxima G.shape G.ref (G.nbrs.map Prod.fst) G.vacuum false A.order
  set M' := getMaxima G'.shape G'.ref (G'.nbrs.map Prod.fst) G'.vacuum false A'.order
  obtain ⟨g1, g2, g3, _, _, g6, g7⟩ := C23_atom_totals _ _ _ _ _ _ _ _ (by simp) (by simp) l7
  obtain ⟨h1, h2, h3, _, _, h6, h7⟩ := C23_atom_totals _ _ _ _ _ _ _ _ (by simp) (by simp) r7
  rw [List.length_map] at g1 g2 g3 g7 h1 h2 h3 h7
  -- the atom of a copy of a maximum
  have cellAtom := cell_atom R hM m1 m2 (by simp) (by simp) l7
  have copyAtom := copy_atom S hf R hM' n1 n2 (by simp) (by simp) r7
  -- the maxima of one atom
  have sumAtom := sum_atom_block S hf hp R hM hM' cellAtom copyAtom
  have hne : ∀ v, G.IsMax v → o.labels v ≠ -1 := by
    intro v hv
    have := (l2 v hv.1 hv.2.1).1
    omega
  refine ⟨o, o', F0, hF0, ?_, ?_, ?_⟩
  · intro w v hc hnv
    have nv : G.vacuum v = false := by
      cases h : G.vacuum v with
      | true => exact absurd (l1 v hc.2.1 h) hnv
      | false => rfl
    obtain ⟨m, hm, _⟩ := C09_ascent_unique G.shape G.ref G.nbrs hf T.ready.pos v hc.2.1
    have hmM := l4 v m hc.2.1 nv hm
    obtain ⟨w2, c2, a2⟩ := S.ascends hf hm w hc
    have hwM := r4 w w2 hc.1 ((S.vacuum hc).trans nv) a2
    have s1 := (l3 v m m m hc.2.1 hmM.1 nv hmM.2.1 hm (.stop hmM.2.2)).mpr (Or.inl rfl)
    have s2 := (r3 w w2 w2 w2 hc.1 hwM.1 ((S.vacuum hc).trans nv) hwM.2.1 a2 (.stop hwM.2.2)).mpr (Or.inl rfl)
    obtain ⟨a, t, h1⟩ := R.one m hmM
    obtain ⟨u, hu⟩ := inCell_exists c2
    obtain ⟨i, i1, i2, i3, _⟩ := copyAtom w2 m u a t hmM hu h1
    refine ⟨i, i1, (same_atom r7 s2).trans i2, ?_⟩
    rw [same_atom l7 s1, cellAtom m a t hmM h1, i3]
  · intro w v hc h
    exact ⟨h6 w ((Rp.vacuum w v hc).mpr h), g6 v h⟩
  · intro i hi
    refine ⟨?_, ?_⟩
    · rw [atom_sum (A := A) m1 m2 g2 rfl g7 (of i), atom_sum (A := A') n1 n2 h2 rfl h7 i, R.rnd]
      refine sumAtom _ _ i hi fun w v hc hv => ?_
      rw [Rp.charge w v hc (hne v hv), div_self S.cells_pos.ne', one_mul]
    · rw [atom_sum (A := A) m1 m2 g3 rfl g7 (of i), atom_sum (A := A') n1 n2 h3 rfl h7 i, R.rnd]
      refine sumAtom _ _ i hi fun w v hc hv => ?_
      rw [Rp.volume w v hc (hne v hv)]

/-! ## Concrete crystals, and what goes wrong -/

theorem line_inCell {L m w v : ℕ} {u : Coord} (h : InCell ⟨L, 1, 1⟩ ⟨m * L, 1, 1⟩ w v u) : (w : ℤ) = v + u.1 * L ∧ u.2.1 = 0 ∧ u.2.2 = 0 := by
  obtain ⟨_, _, h3⟩ := h
  simp only [flatToCoords, addC, Int.fdiv_one, Nat.cast_one, mul_one, Prod.mk.injEq, Int.fmod_one, Int.zero_fdiv, zero_add] at h3
  exact ⟨h3.1, h3.2.1.symm, h3.2.2.symm⟩

theorem line_dist (L : ℚ) (a p : V3 ℚ) (t : Coord) : dist2 ((L, 0, 0), (0, 1, 0), (0, 0, 1)) (image a t) p =
    (L * (a.1 + t.1 - p.1)) ^ 2 + (a.2.1 + t.2.1 - p.2.1) ^ 2 + (a.2.2 + t.2.2 - p.2.2) ^ 2 := by
  simp only [dist2, norm2, vecMat, subV, image]; ring

/-- The ring with two peaks of `Supercell`, with an atom on each peak, and three such cells. -/
def peakCell : RunInput ℚ := lineRun [5, 2, 3, 1] [(0, 0, 0), (1 / 2, 0, 0)] (some (3 / 8))
/-- Three cells of `peakCell`; the atoms are listed as `pymatgen` lists them. -/
def peakBlock : RunInput ℚ := lineRun [15, 6, 9, 3, 15, 6, 9, 3, 15, 6, 9, 3]
  [(0, 0, 0), (1 / 3, 0, 0), (2 / 3, 0, 0), (1 / 6, 0, 0), (1 / 2, 0, 0), (5 / 6, 0, 0)] (some (3 / 8))

theorem peak_max {v : ℕ} (h : peakCell.IsMax v) : v = 0 ∨ v = 2 := by
  obtain ⟨h1, h2, h3⟩ := h
  have hv : v < 4 := h1
  have key : ∀ v < 4, peakCell.vacuum v = false → (∀ t ∈ ring2.map Prod.fst, peakCell.ref (nbr ⟨4, 1, 1⟩ v t) ≤ peakCell.ref v) → v = 0 ∨ v = 2 := by
    decide +kernel
  refine key v hv h2 fun t ht => ?_
  exact h3 _ ((isNbr_iff (fitsOf (lineRun_ready [5, 2, 3, 1] (by decide) [(0, 0, 0), (1 / 2, 0, 0)] (by simp) (some (3 / 8)) (fun _ _ => false)).fits) h1).mpr ⟨t, ht, rfl⟩)

theorem line_root (l : List ℚ) : RootLike (lineAid l fun _ _ => false).root := fun _ _ _ _ => Iff.rfl

/-- The hypotheses of `C119_atoms_partial` hold for it, and the atoms of the three cells have the charges of the two atoms of the cell. -/
example : CellRuns (3, 1, 1) (3 : ℚ) (cellsOf (3, 1, 1)) peakCell peakBlock (lineAid [5, 2, 3, 1] fun _ _ => false)
      (lineAid [15, 6, 9, 3, 15, 6, 9, 3, 15, 6, 9, 3] fun _ _ => false) 0 ∧
    AtomRuns (3, 1, 1) peakCell peakBlock (lineAid [5, 2, 3, 1] fun _ _ => false) (lineAid [15, 6, 9, 3, 15, 6, 9, 3, 15, 6, 9, 3] fun _ _ => false)
      (fun i => i / 3) (fun i => ((i % 3 : ℕ), 0, 0)) ∧
    (peakCell.run (lineAid [5, 2, 3, 1] fun _ _ => false) (.ongrid (List.range 4)) 50).map (fun o => (List.range 2).map o.assignment.charges) =
      some [7 / 4, 3 / 4] ∧
    (peakBlock.run (lineAid [15, 6, 9, 3, 15, 6, 9, 3, 15, 6, 9, 3] fun _ _ => false) (.ongrid (List.range 12)) 50).map
      (fun o => (List.range 6).map o.assignment.charges) = some [7 / 4, 7 / 4, 7 / 4, 3 / 4, 3 / 4, 3 / 4] := by
  refine ⟨⟨?_, lineRun_ready _ (by decide) _ (by simp) _ _, lineRun_ready _ (by decide) _ (by simp) _ _, by unfold TwoSided; decide, ?_, lineAid_apart _ _,
    lineAid_apart _ _, lineAid_sorted _ _, lineAid_sorted _ _⟩, ⟨⟨?_, ?_, ?_, ?_⟩, ?_, ?_, line_root _, line_root _, rfl, ?_, ?_, ?_, ?_⟩,
    by decide +kernel, by decide +kernel⟩
  · have := lineRun_super 3 (by decide) [5, 2, 3, 1] [15, 6, 9, 3, 15, 6, 9, 3, 15, 6, 9, 3] rfl [(0, 0, 0), (1 / 2, 0, 0)]
      [(0, 0, 0), (1 / 3, 0, 0), (2 / 3, 0, 0), (1 / 6, 0, 0), (1 / 2, 0, 0), (5 / 6, 0, 0)] (some (3 / 8)) (by decide +kernel)
    simpa [cellsOf, peakCell, peakBlock] using this
  · exact line_peaked _ (by decide) _ _ (by decide +kernel)
  · intro i hi
    have hi : i < 6 := hi
    show i / 3 < 2
    omega
  · intro i hi hj
    have hi' : i < 6 := hi
    interval_cases i <;> norm_num [inBlock, peakCell, peakBlock, lineRun]
  · intro j hj t
    have hj : j < 2 := hj
    have h3 : 0 ≤ t.1 % 3 := Int.emod_nonneg _ (by norm_num)
    have h4 : t.1 % 3 < 3 := Int.emod_lt_of_pos _ (by norm_num)
    refine ⟨3 * j + (t.1 % 3).toNat, ?_, ?_, ⟨-(t.1 / 3), ?_⟩, ⟨-t.2.1, ?_⟩, ⟨-t.2.2, ?_⟩⟩
    · show _ < 6
      omega
    · show (3 * j + (t.1 % 3).toNat) / 3 = j
      omega
    · show (((3 * j + (t.1 % 3).toNat) % 3 : ℕ) : ℤ) = t.1 + -(t.1 / 3) * ((3 : ℕ) : ℤ)
      push_cast
      omega
    · simp
    · simp
  · rintro i hi j hj h ⟨⟨a, ha⟩, _⟩
    have hi : i < 6 := hi
    have hj : j < 6 := hj
    have h : i / 3 = j / 3 := h
    have ha : ((i % 3 : ℕ) : ℤ) = ((j % 3 : ℕ) : ℤ) + a * ((3 : ℕ) : ℤ) := ha
    omega
  · norm_num [peakCell, peakBlock, lineRun, scaleRows]
  · simp [Orthogonal, dotV, peakCell, lineRun]
  · intro a ha m hm
    have hmp := peak_max hm
    simp only [peakCell, lineRun, List.mem_cons, List.not_mem_nil, or_false] at ha
    rcases hmp with rfl | rfl <;> rcases ha with rfl | rfl <;> norm_num [CloseBy, lineAid, abs_lt]
  · intro a ha m hm
    have hm1 : m < 12 := hm.1
    have : (m : ℚ) < 12 := by exact_mod_cast hm1
    have h0 : (0 : ℚ) ≤ m := by positivity
    simp only [peakBlock, lineRun, List.mem_cons, List.not_mem_nil, or_false] at ha
    refine ⟨?_, ?_, ?_⟩
    · rw [abs_lt]
      rcases ha with rfl | rfl | rfl | rfl | rfl | rfl <;> constructor <;> simp only [lineAid, List.length_cons, List.length_nil] <;> push_cast <;> linarith
    · rcases ha with rfl | rfl | rfl | rfl | rfl | rfl <;> norm_num [lineAid]
    · rcases ha with rfl | rfl | rfl | rfl | rfl | rfl <;> norm_num [lineAid]
  · intro w v u _ hc
    obtain ⟨h1, h2, h3⟩ := line_inCell (L := 4) (m := 3) hc
    have h1' : (w : ℚ) = v + u.1 * 4 := by exact_mod_cast h1
    refine ⟨(0, 0, 0), ?_⟩
    simp only [lineAid, image, inBlock, h2, h3, h1', List.length_cons, List.length_nil]
    refine Prod.ext ?_ (Prod.ext ?_ ?_) <;> norm_num <;> ring
  · intro v hv
    refine ⟨v / 2, (0, 0, 0), ?_, ?_⟩
    · rcases peak_max hv with rfl | rfl <;> decide
    · intro j hj t' hne
      have hj' : j < 2 := hj
      have el : peakCell.lattice = ((4, 0, 0), (0, 1, 0), (0, 0, 1)) := by norm_num [peakCell, lineRun]
      rw [el, line_dist, line_dist]
      have key : ∀ (x : ℤ) (c : ℚ), c = 0 ∧ x ≠ 0 ∨ c = 1 / 2 ∨ c = -1 / 2 → (c + x) ≠ 0 := by
        intro x c h e
        rcases h with ⟨rfl, h⟩ | rfl | rfl
        · exact h (by exact_mod_cast (zero_add (x : ℚ)).symm.trans e)
        · have : (1 + 2 * x : ℤ) = 0 := by exact_mod_cast (by linarith : (1 + 2 * x : ℚ) = 0)
          omega
        · have : (-1 + 2 * x : ℤ) = 0 := by exact_mod_cast (by linarith : (-1 + 2 * x : ℚ) = 0)
          omega
      have pos : ∀ (x y z : ℚ), x ≠ 0 ∨ y ≠ 0 ∨ z ≠ 0 → 0 < (4 * x) ^ 2 + y ^ 2 + z ^ 2 := by
        intro x y z h
        rcases h with h | h | h
        · have : 0 < (4 * x) ^ 2 := by positivity
          positivity
        · positivity
        · positivity
      obtain ⟨x, y, z⟩ := t'
      rcases peak_max hv with rfl | rfl <;> interval_cases j
      · have h0 : x ≠ 0 ∨ y ≠ 0 ∨ z ≠ 0 := by
          by_contra hcon; push Not at hcon; obtain ⟨rfl, rfl, rfl⟩ := hcon; exact hne rfl
        have := pos x y z (by simpa using h0)
        norm_num [peakCell, lineRun, lineAid] at this ⊢
        linarith
      · have := pos (1 / 2 + x) y z (Or.inl (key x _ (Or.inr (Or.inl rfl))))
        norm_num [peakCell, lineRun, lineAid] at this ⊢
        linarith
      · have := pos (-1 / 2 + x) y z (Or.inl (key x _ (Or.inr (Or.inr rfl))))
        have e : (-1 / 2 + (x : ℚ)) = x - 1 / 2 := by ring
        rw [e] at this
        norm_num [peakCell, lineRun, lineAid] at this ⊢
        linarith
      · have h0 : x ≠ 0 ∨ y ≠ 0 ∨ z ≠ 0 := by
          by_contra hcon; push Not at hcon; obtain ⟨rfl, rfl, rfl⟩ := hcon; exact hne rfl
        have := pos x y z (by simpa using h0)
        norm_num [peakCell, lineRun, lineAid] at this ⊢
        linarith

/-- **C119** (negative part) A maximum halfway between an atom and its image is given to the first atom of the supercell in every cell: with one atom per cell, the
atom has all 2.5 electrons in the cell, but in two cells the first atom has 5 and the second none. -/
theorem C119_halfway : ∃ (G G' : RunInput ℚ) (A A' : RunAid ℚ), CellRuns (2, 1, 1) (2 : ℚ) (cellsOf (2, 1, 1)) G G' A A' 0 ∧
    AtomsCopied (2, 1, 1) G G' (fun _ => 0) (fun i => ((i : ℤ), 0, 0)) ∧ G'.lattice = scaleRows (2, 1, 1) G.lattice ∧ Orthogonal G.lattice ∧
    RootLike A.root ∧ RootLike A'.root ∧ A'.rnd = A.rnd ∧
    (G.run A (.ongrid (List.range 4)) 50).map (fun o => o.assignment.charges 0) = some (5 / 2) ∧
    (G'.run A' (.ongrid (List.range 8)) 50).map (fun o => (o.assignment.charges 0, o.assignment.charges 1)) = some (5, 0) := by
  refine ⟨lineRun [1, 2, 5, 2] [(0, 0, 0)] none, lineRun [2, 4, 10, 4, 2, 4, 10, 4] [(0, 0, 0), (1 / 2, 0, 0)] none, lineAid [1, 2, 5, 2] fun _ _ => false,
    lineAid [2, 4, 10, 4, 2, 4, 10, 4] fun _ _ => false, ⟨?_, lineRun_ready _ (by decide) _ (by simp) _ _, lineRun_ready _ (by decide) _ (by simp) _ _,
      by unfold TwoSided; decide, line_peaked _ (by decide) _ _ (by decide +kernel), lineAid_apart _ _, lineAid_apart _ _, lineAid_sorted _ _, lineAid_sorted _ _⟩,
    ⟨?_, ?_, ?_, ?_⟩, ?_, ?_, line_root _, line_root _, rfl, by decide +kernel, by decide +kernel⟩
  · have := lineRun_super 2 (by decide) [1, 2, 5, 2] [2, 4, 10, 4, 2, 4, 10, 4] rfl [(0, 0, 0)] [(0, 0, 0), (1 / 2, 0, 0)] none (by decide +kernel)
    simpa [cellsOf] using this
  · intro i _
    show 0 < 1
    decide
  · intro i hi hj
    have hi' : i < 2 := hi
    interval_cases i <;> norm_num [inBlock, lineRun]
  · intro j hj t
    have hj : j < 1 := hj
    have h3 : 0 ≤ t.1 % 2 := Int.emod_nonneg _ (by norm_num)
    have h4 : t.1 % 2 < 2 := Int.emod_lt_of_pos _ (by norm_num)
    refine ⟨(t.1 % 2).toNat, ?_, ?_, ⟨-(t.1 / 2), ?_⟩, ⟨-t.2.1, ?_⟩, ⟨-t.2.2, ?_⟩⟩
    · show _ < 2
      omega
    · show 0 = j
      omega
    · show (((t.1 % 2).toNat : ℕ) : ℤ) = t.1 + -(t.1 / 2) * ((2 : ℕ) : ℤ)
      push_cast
      omega
    · simp
    · simp
  · rintro i hi j hj h ⟨⟨a, ha⟩, _⟩
    have hi : i < 2 := hi
    have hj : j < 2 := hj
    have ha : (i : ℤ) = (j : ℤ) + a * ((2 : ℕ) : ℤ) := ha
    omega
  · norm_num [lineRun, scaleRows]
  · simp [Orthogonal, dotV, lineRun]

end BaderKit
