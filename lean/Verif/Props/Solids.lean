import Verif.Props.Connections
import Verif.Props.Saddle
import Verif.Props.Ongrid
import Verif.Props.DomainTree
/-!
# C79: the domains are the connected regions above each value

The marked voxels, the connections between basins and the domains built from them are put together: at every value the domains are the
connected regions of the voxels at or above it.
-/
namespace BaderKit
variable {K : Type} [Field K] [LinearOrder K] [IsStrictOrderedRing K]
set_option linter.unusedSectionVars false

/-- The voxels at or above the value are connected. -/
def RegionAt (s : Shape) (data : ℕ → K) (t : K) : ℕ → ℕ → Prop := VoxJoined s neighbors26 fun w => t ≤ data w

/-- Basins found by steepest ascent on a grid of distinct values without vacuum: every basin has one maximum, which is a local maximum of the grid,
and every other voxel of the basin has a higher neighbour in the same basin. -/
structure AscentBasins (s : Shape) (data : ℕ → K) (labels : ℕ → ℤ) (nb : ℕ) (top : ℕ → ℕ) : Prop where
  big : 3 ≤ s.nx ∧ 3 ≤ s.ny ∧ 3 ≤ s.nz
  distinct : ∀ a < s.size, ∀ b < s.size, data a = data b → a = b
  range : ∀ w < s.size, -10 ^ 300 < data w
  label : ∀ v < s.size, ∃ b < nb, labels v = (b : ℕ)
  top_lt : ∀ b < nb, top b < s.size
  top_label : ∀ b < nb, labels (top b) = b
  top_max : ∀ b < nb, IsLocalMax s data neighbors26 (top b)
  up : ∀ v < s.size, ∀ b < nb, labels v = (b : ℕ) → v ≠ top b → ∃ w, IsNbr s neighbors26 v w ∧ labels w = b ∧ data v < data w

/-- The masks used: an edge voxel has a neighbour of another basin, the marked voxels are those of `find_potential_saddle_points`. -/
structure SaddleMasks (s : Shape) (data : ℕ → K) (labels : ℕ → ℤ) (sad edge : ℕ → Bool) : Prop where
  isEdge : ∀ v < s.size, edge v = true ↔ ∃ w, IsNbr s neighbors26 v w ∧ labels w ≠ labels v
  isSad : ∀ v < s.size, saddleMask s data edge (fun _ => false) true v = some (sad v)

variable {s : Shape} {data : ℕ → K} {labels : ℕ → ℤ} {nb : ℕ} {top : ℕ → ℕ} {sad edge : ℕ → Bool} {ref : ℕ → K}

theorem AscentBasins.pos (h : AscentBasins s data labels nb top) : s.Pos := by
  obtain ⟨a, b, c⟩ := h.big
  exact ⟨by omega, by omega, by omega⟩

theorem AscentBasins.fits (h : AscentBasins s data labels nb top) : ∀ t ∈ neighbors26, StepFits s t := neighbors26_fits h.pos

theorem AscentBasins.labelsOk (h : AscentBasins s data labels nb top) : LabelsOk s labels nb := fun v hv => Or.inr (h.label v hv)

theorem RegionAt.symm (hp : s.Pos) {t : K} {u v : ℕ} (hu : u < s.size) (h : RegionAt s data t u v) : RegionAt s data t v u := by
  have key : v < s.size ∧ RegionAt s data t v u := by
    induction h with
    | refl => exact ⟨hu, .refl⟩
    | @tail a b _ hab ih =>
      obtain ⟨ha, hb, d, hd, rfl⟩ := hab
      refine ⟨nbr_lt ih.1 (neighbors26_fits hp d hd), .head ⟨hb, ha, negC d, neighbors26_neg d hd, ?_⟩ ih.2⟩
      exact (nbr_neg ih.1 (neighbors26_fits hp d hd)).symm
  exact key.2

theorem region_step (hp : s.Pos) {t : K} {u v : ℕ} (hu : u < s.size) (h : IsNbr s neighbors26 u v) (h1 : t ≤ data u) (h2 : t ≤ data v) :
    RegionAt s data t u v := by
  obtain ⟨d, hd, e⟩ := (isNbr_iff (neighbors26_fits hp) hu).mp h
  exact .single ⟨h1, h2, d, hd, e.symm⟩

/-- Every voxel is connected with the maximum of its basin through voxels that are not lower. -/
theorem region_top (h : AscentBasins s data labels nb top) : ∀ (n v : ℕ), above s data v ≤ n → v < s.size → ∀ b < nb, labels v = (b : ℕ) →
    data v ≤ data (top b) ∧ RegionAt s data (data v) v (top b) := by
  intro n
  induction n with
  | zero =>
    intro v hn hv b hb hlb
    by_cases hv' : v = top b
    · exact ⟨by rw [hv'], by rw [← hv']; exact .refl⟩
    · obtain ⟨w, hw, _, hlt⟩ := h.up v hv b hb hlb hv'
      have := above_lt hw.1 hlt
      omega
  | succ n ih =>
    intro v hn hv b hb hlb
    by_cases hv' : v = top b
    · exact ⟨by rw [hv'], by rw [← hv']; exact .refl⟩
    · obtain ⟨w, hw, hwb, hlt⟩ := h.up v hv b hb hlb hv'
      have ha := above_lt hw.1 hlt
      obtain ⟨h1, h2⟩ := ih w (by omega) hw.1 b hb hwb
      refine ⟨hlt.le.trans h1, (region_step h.pos hv hw (le_refl _) hlt.le).trans ?_⟩
      exact Relation.ReflTransGen.mono (fun _ _ hx => ⟨hlt.le.trans hx.1, hlt.le.trans hx.2.1, hx.2.2⟩) _ _ h2

theorem RegionAt.mono {t t' : K} (htt : t ≤ t') {u v : ℕ} (h : RegionAt s data t' u v) : RegionAt s data t u v :=
  Relation.ReflTransGen.mono (fun _ _ hx => ⟨htt.trans hx.1, htt.trans hx.2.1, hx.2.2⟩) _ _ h

/-- A connection of the list used for the graph. -/
theorem graphConns_facts (h : AscentBasins s data labels nb top) (href : ∀ b < nb, ref b = data (top b)) {vac : ℕ → Bool} {c : Conn K}
    (hc : c ∈ graphConns s data labels neighbors26 sad edge vac nb ref) : c.i < nb ∧ c.j < nb ∧ c.val ≤ ref c.i ∧ c.val ≤ ref c.j ∧
      RegionAt s data c.val (top c.i) (top c.j) := by
  unfold graphConns at hc
  rcases List.mem_append.mp hc with hc | hc
  · obtain ⟨hij, hj, v, w, hv, _, hw, hval, hor⟩ := C78_sound h.fits h.labelsOk h.range hc
    have hi : c.i < nb := hij.trans hj
    have main : ∀ (v w a b : ℕ), v < s.size → IsNbr s neighbors26 v w → c.val = min (data v) (data w) → a < nb → b < nb → labels v = (a : ℕ) →
        labels w = (b : ℕ) → c.val ≤ ref a ∧ c.val ≤ ref b ∧ RegionAt s data c.val (top a) (top b) := by
      intro v w a b hv hw hval ha hb ea eb
      have h1 := region_top h _ v le_rfl hv a ha ea
      have h2 := region_top h _ w le_rfl hw.1 b hb eb
      have hcv : c.val ≤ data v := hval.trans_le (min_le_left _ _)
      have hcw : c.val ≤ data w := hval.trans_le (min_le_right _ _)
      refine ⟨by rw [href a ha]; exact hcv.trans h1.1, by rw [href b hb]; exact hcw.trans h2.1, ?_⟩
      exact (((h1.2.mono hcv).symm h.pos hv).trans (region_step h.pos hv hw hcv hcw)).trans (h2.2.mono hcw)
    rcases hor with ⟨e1, e2⟩ | ⟨e1, e2⟩
    · obtain ⟨h1, h2, h3⟩ := main v w c.i c.j hv hw hval hi hj e1 e2
      exact ⟨hi, hj, h1, h2, h3⟩
    · obtain ⟨h1, h2, h3⟩ := main v w c.j c.i hv hw hval hj hi e1 e2
      exact ⟨hi, hj, h2, h1, h3.symm h.pos (h.top_lt _ hj)⟩
  · obtain ⟨b, hb, rfl⟩ := List.mem_map.mp hc
    rw [List.mem_range] at hb
    exact ⟨hb, hb, le_refl _, le_refl _, .refl⟩

/-- The connections join two basins if a voxel of the one has a higher neighbour in the other. -/
theorem joined_of_nbr (h : AscentBasins s data labels nb top) (hm : SaddleMasks s data labels sad edge) : ∀ (n v : ℕ), above s data v ≤ n →
    v < s.size → ∀ w, IsNbr s neighbors26 v w → data v < data w →
    JoinedAt (graphConns s data labels neighbors26 sad edge (fun _ => false) nb ref) (data v) (labels v).toNat (labels w).toNat := by
  intro n
  induction n using Nat.strong_induction_on with
  | _ n ih =>
    intro v hn hv w hw hlt
    obtain ⟨a, ha, ea⟩ := h.label v hv
    obtain ⟨b, hb, eb⟩ := h.label w hw.1
    have ta : (labels v).toNat = a := by rw [ea]; rfl
    have tb : (labels w).toNat = b := by rw [eb]; rfl
    by_cases hab : a = b
    · rw [ta, tb, hab]; exact .refl _
    have hvt : v ≠ top a := by
      intro e
      exact absurd (h.top_max a ha w (e ▸ hw)) (not_le.mpr (e ▸ hlt))
    obtain ⟨x, hx, hxa, hvx⟩ := h.up v hv a ha ea hvt
    by_cases hj : VoxJoined s neighbors26 (fun u => (fun _ : ℕ => false) u = false ∧ Farther true (data u) (data v)) x w
    · -- a path above the voxel
      have hpath : ∀ y, VoxJoined s neighbors26 (fun u => (fun _ : ℕ => false) u = false ∧ Farther true (data u) (data v)) x y → y < s.size ∧
          JoinedAt (graphConns s data labels neighbors26 sad edge (fun _ => false) nb ref) (data v) (labels x).toNat (labels y).toNat := by
        intro y hy
        induction hy with
        | refl => exact ⟨hx.1, .refl _⟩
        | @tail p q _ hpq ihp =>
          obtain ⟨⟨_, hp⟩, ⟨_, hq⟩, d, hd, rfl⟩ := hpq
          obtain ⟨hps, ihp⟩ := ihp
          have hqs := nbr_lt hps (h.fits d hd)
          have hp' : data v < data p := hp
          have hq' : data v < data (nbr s p d) := hq
          refine ⟨hqs, .trans _ _ _ ihp ?_⟩
          have hpq : IsNbr s neighbors26 p (nbr s p d) := (isNbr_iff h.fits hps).mpr ⟨d, hd, rfl⟩
          have hqp : IsNbr s neighbors26 (nbr s p d) p := isNbr_symm h.fits neighbors26_neg hps hpq
          have hap := above_lt (v := v) hps hp'
          have haq := above_lt (v := v) hqs hq'
          rcases lt_trichotomy (data p) (data (nbr s p d)) with hl | hl | hl
          · exact (ih _ (by omega) p le_rfl hps _ hpq hl).mono hp'.le
          · rw [← h.distinct _ hps _ hqs hl]; exact .refl _
          · exact .symm _ _ ((ih _ (by omega) _ le_rfl hqs _ hqp hl).mono hq'.le)
      have := (hpath w hj).2
      have tx : (labels x).toNat = a := by rw [hxa]; rfl
      rw [tx] at this
      rw [ta]
      exact this
    · -- the voxel is a saddle
      have he : edge v = true := (hm.isEdge v hv).mpr ⟨w, hw, by rw [ea, eb]; intro e; exact hab (by exact_mod_cast e.symm)⟩
      have hs := C77_saddle_found (edge := edge) (vac := fun _ => false) (greater := true) h.big h.distinct hv he rfl (fun _ _ => rfl) hx hw hvx hlt hj
      rw [hm.isSad v hv] at hs
      have hsad : sad v = true := by simpa using hs
      obtain ⟨c, hc, hco, hval, _⟩ := C78_saddle_connected (data := data) (vac := fun _ => false) (edge := edge) h.fits h.labelsOk h.range hv hsad rfl hw
        ea eb hab
      rw [min_eq_left hlt.le] at hval
      have hmem : c ∈ graphConns s data labels neighbors26 sad edge (fun _ => false) nb ref := List.mem_append_left _ hc
      rw [ta, tb]
      rcases le_total a b with hle | hle
      · exact .rel _ _ ⟨c, hmem, hval, by rw [hco.1, min_eq_left hle], by rw [hco.2, max_eq_right hle]⟩
      · exact .symm _ _ (.rel _ _ ⟨c, hmem, hval, by rw [hco.1, min_eq_right hle], by rw [hco.2, max_eq_left hle]⟩)

/-- C79: two voxels at or above a value are in the same connected region iff the connections at or above the value join their basins. -/
theorem C79_regions_iff (h : AscentBasins s data labels nb top) (hm : SaddleMasks s data labels sad edge) (href : ∀ b < nb, ref b = data (top b))
    {t : K} {u v : ℕ} (hu : u < s.size) (hv : v < s.size) (htu : t ≤ data u) (htv : t ≤ data v) :
    RegionAt s data t u v ↔
      JoinedAt (graphConns s data labels neighbors26 sad edge (fun _ => false) nb ref) t (labels u).toNat (labels v).toNat := by
  constructor
  · intro hr
    have key : ∀ y, RegionAt s data t u y → y < s.size ∧
        JoinedAt (graphConns s data labels neighbors26 sad edge (fun _ => false) nb ref) t (labels u).toNat (labels y).toNat := by
      intro y hy
      induction hy with
      | refl => exact ⟨hu, .refl _⟩
      | @tail p q _ hpq ih =>
        obtain ⟨hp, hq, d, hd, rfl⟩ := hpq
        obtain ⟨hps, ih⟩ := ih
        have hqs := nbr_lt hps (h.fits d hd)
        refine ⟨hqs, .trans _ _ _ ih ?_⟩
        have hpq : IsNbr s neighbors26 p (nbr s p d) := (isNbr_iff h.fits hps).mpr ⟨d, hd, rfl⟩
        have hqp : IsNbr s neighbors26 (nbr s p d) p := isNbr_symm h.fits neighbors26_neg hps hpq
        rcases lt_trichotomy (data p) (data (nbr s p d)) with hl | hl | hl
        · exact (joined_of_nbr h hm _ p le_rfl hps _ hpq hl).mono hp
        · rw [← h.distinct _ hps _ hqs hl]; exact .refl _
        · exact .symm _ _ ((joined_of_nbr h hm _ _ le_rfl hqs _ hqp hl).mono hq)
    exact (key v hr).2
  · intro hj
    obtain ⟨a, ha, ea⟩ := h.label u hu
    obtain ⟨b, hb, eb⟩ := h.label v hv
    have ta : (labels u).toNat = a := by rw [ea]; rfl
    have tb : (labels v).toNat = b := by rw [eb]; rfl
    rw [ta, tb] at hj
    have key : ∀ x y, JoinedAt (graphConns s data labels neighbors26 sad edge (fun _ => false) nb ref) t x y →
        (x < nb ↔ y < nb) ∧ (x < nb → RegionAt s data t (top x) (top y)) := by
      intro x y hxy
      induction hxy with
      | rel x y h' =>
        obtain ⟨c, hc, h1, rfl, rfl⟩ := h'
        obtain ⟨hi, hj, _, _, hreg⟩ := graphConns_facts h href hc
        exact ⟨⟨fun _ => hj, fun _ => hi⟩, fun _ => hreg.mono h1⟩
      | refl x => exact ⟨Iff.rfl, fun _ => .refl⟩
      | symm x y _ ih => exact ⟨ih.1.symm, fun hy => (ih.2 (ih.1.mpr hy)).symm h.pos (h.top_lt _ (ih.1.mpr hy))⟩
      | trans x y z _ _ ih1 ih2 => exact ⟨ih1.1.trans ih2.1, fun hx => (ih1.2 hx).trans (ih2.2 (ih1.1.mp hx))⟩
    have h1 := region_top h _ u le_rfl hu a ha ea
    have h2 := region_top h _ v le_rfl hv b hb eb
    exact ((h1.2.mono htu).trans ((key a b hj).2 ha)).trans ((h2.2.mono htv).symm h.pos hv)

/-- A basin takes part at a value iff its maximum reaches the value. -/
theorem C79_basin_at (h : AscentBasins s data labels nb top) (href : ∀ b < nb, ref b = data (top b)) {t : K} {b : ℕ} :
    BasinAt (graphConns s data labels neighbors26 sad edge (fun _ => false) nb ref) t b ↔ b < nb ∧ t ≤ data (top b) := by
  constructor
  · rintro ⟨c, hc, h1, h2⟩
    obtain ⟨hi, hj, h3, h4, _⟩ := graphConns_facts h href hc
    rcases h2 with rfl | rfl
    · exact ⟨hi, by rw [← href _ hi]; exact h1.trans h3⟩
    · exact ⟨hj, by rw [← href _ hj]; exact h1.trans h4⟩
  · rintro ⟨hb, ht⟩
    refine ⟨⟨b, b, ref b⟩, List.mem_append_right _ (List.mem_map.mpr ⟨b, List.mem_range.mpr hb, rfl⟩), ?_, Or.inl rfl⟩
    rw [href b hb]; exact ht

/-- C79: the domains at a value are the connected regions of the voxels at or above it: `B` is a domain iff it lists the basins whose maxima lie in
one such region. -/
theorem C79_domains_are_regions (h : AscentBasins s data labels nb top) (hm : SaddleMasks s data labels sad edge)
    (href : ∀ b < nb, ref b = data (top b)) {t : K} {B : List ℕ} :
    IsDomainAt (graphConns s data labels neighbors26 sad edge (fun _ => false) nb ref) t B ↔
      B.Pairwise (· < ·) ∧ ∃ v < s.size, t ≤ data v ∧ ∀ b, b ∈ B ↔ b < nb ∧ t ≤ data (top b) ∧ RegionAt s data t v (top b) := by
  have hlab : ∀ b < nb, (labels (top b)).toNat = b := fun b hb => by rw [h.top_label b hb]; rfl
  constructor
  · rintro ⟨hne, hs, hB⟩
    obtain ⟨b0, hb0⟩ := List.exists_mem_of_ne_nil _ hne
    have h0 := (C79_basin_at h href).mp ((hB b0 hb0 b0).mp hb0).1
    refine ⟨hs, top b0, h.top_lt _ h0.1, h0.2, fun b => ?_⟩
    rw [hB b0 hb0 b, C79_basin_at h href, and_assoc]
    refine and_congr_right fun hb => and_congr_right fun ht => ?_
    rw [C79_regions_iff h hm href (h.top_lt _ h0.1) (h.top_lt _ hb) h0.2 ht, hlab _ h0.1, hlab _ hb]
  · rintro ⟨hs, v, hv, htv, hB⟩
    obtain ⟨a, ha, ea⟩ := h.label v hv
    have h1 := region_top h _ v le_rfl hv a ha ea
    have haB : a ∈ B := (hB a).mpr ⟨ha, htv.trans h1.1, h1.2.mono htv⟩
    refine ⟨fun e => by rw [e] at haB; simp at haB, hs, fun b hb c => ?_⟩
    obtain ⟨hbn, htb, hvb⟩ := (hB b).mp hb
    rw [hB c, C79_basin_at h href, and_assoc]
    refine and_congr_right fun hcn => and_congr_right fun htc => ?_
    have e := C79_regions_iff h hm href (h.top_lt _ hbn) (h.top_lt _ hcn) htb htc
    rw [hlab _ hbn, hlab _ hcn] at e
    rw [← e]
    exact ⟨fun hvc => (hvb.symm h.pos hv).trans hvc, fun hbc => hvb.trans hbc⟩

/-- C79: with the tree of domains of C73 built from these connections: at every value, each connected region of the voxels at or above it is
exactly one row that exists at the value, and the row lists the basins whose maxima lie in the region. -/
theorem C79_one_row_per_region (h : AscentBasins s data labels nb top) (hm : SaddleMasks s data labels sad edge) (href : ∀ b < nb, ref b = data (top b))
    {fuel : ℕ} {dim : K → ℕ → Option ℕ} {dm : K → ℕ → ℕ} {minData : K} {rows : List (DomainRow K)} {used : ℕ}
    (hin : DomainInput fuel nb dim dm (graphConns s data labels neighbors26 sad edge (fun _ => false) nb ref))
    (hrows : domainRows fuel nb dim ref minData (graphConns s data labels neighbors26 sad edge (fun _ => false) nb ref) = some (rows, used))
    {t : K} {v : ℕ} (hv : v < s.size) (ht : t ≤ data v) :
    ∃! n : ℕ, ∃ r, rows[n]? = some r ∧ RowAlive r t ∧ r.basins.Pairwise (· < ·) ∧
      ∀ b, b ∈ r.basins ↔ b < nb ∧ t ≤ data (top b) ∧ RegionAt s data t v (top b) := by
  classical
  have hpeak : BelowPeak (graphConns s data labels neighbors26 sad edge (fun _ => false) nb ref) ref := fun c hc => by
    obtain ⟨_, _, h1, h2, _⟩ := graphConns_facts h href hc
    exact ⟨h1, h2⟩
  set B := (List.range nb).filter fun b => decide (t ≤ data (top b) ∧ RegionAt s data t v (top b)) with hB
  have hBs : B.Pairwise (· < ·) := List.pairwise_lt_range.filter _
  have hBm : ∀ b, b ∈ B ↔ b < nb ∧ t ≤ data (top b) ∧ RegionAt s data t v (top b) := fun b => by
    rw [hB, List.mem_filter, List.mem_range, decide_eq_true_eq]
  have hdom := (C79_domains_are_regions h hm href (t := t) (B := B)).mpr ⟨hBs, v, hv, ht, hBm⟩
  obtain ⟨n, ⟨r, hr, hrB, ha⟩, hu⟩ := C73_domains_are_rows hin hpeak hrows hdom
  refine ⟨n, ⟨r, hr, ha, hrB ▸ hBs, fun b => by rw [hrB]; exact hBm b⟩, ?_⟩
  rintro n' ⟨r', hr', ha', hs', hb'⟩
  refine hu n' ⟨r', hr', ?_, ha'⟩
  exact List.Perm.eq_of_pairwise' hs' hBs ((List.perm_ext_iff_of_nodup (hs'.imp fun h => h.ne) (hBs.imp fun h => h.ne)).mpr
    fun b => by rw [hb' b, hBm b])

/-- C79: and each row that exists at a value at which one of its basins takes part is one of these regions. -/
theorem C79_rows_are_regions (h : AscentBasins s data labels nb top) (hm : SaddleMasks s data labels sad edge) (href : ∀ b < nb, ref b = data (top b))
    {fuel : ℕ} {dim : K → ℕ → Option ℕ} {dm : K → ℕ → ℕ} {minData : K} {rows : List (DomainRow K)} {used : ℕ}
    (hin : DomainInput fuel nb dim dm (graphConns s data labels neighbors26 sad edge (fun _ => false) nb ref))
    (hrows : domainRows fuel nb dim ref minData (graphConns s data labels neighbors26 sad edge (fun _ => false) nb ref) = some (rows, used))
    {t : K} {r : DomainRow K} (hr : r ∈ rows) (ha : RowAlive r t) {b : ℕ} (hb : b ∈ r.basins) (hbn : b < nb) (hbt : t ≤ data (top b)) :
    ∀ c, c ∈ r.basins ↔ c < nb ∧ t ≤ data (top c) ∧ RegionAt s data t (top b) (top c) := by
  have hd := C73_rows_are_domains hin hrows hr ha hb ((C79_basin_at h href).mpr ⟨hbn, hbt⟩)
  obtain ⟨_, v, hv, htv, hB⟩ := (C79_domains_are_regions h hm href).mp hd
  obtain ⟨_, _, hvb⟩ := (hB b).mp hb
  intro c
  rw [hB c]
  exact and_congr_right fun _ => and_congr_right fun _ => ⟨fun hvc => (hvb.symm h.pos hv).trans hvc, fun hbc => hvb.trans hbc⟩

/-- The masks exist: the function that computes the marked voxels does not fail. -/
theorem SaddleMasks_exist (s : Shape) (data : ℕ → K) (labels : ℕ → ℤ) : ∃ sad edge, SaddleMasks s data labels sad edge := by
  classical
  refine ⟨fun v => (saddleMask s data (fun v => decide (∃ w, IsNbr s neighbors26 v w ∧ labels w ≠ labels v)) (fun _ => false) true v).getD false,
    fun v => decide (∃ w, IsNbr s neighbors26 v w ∧ labels w ≠ labels v), fun v _ => by simp, fun v hv => ?_⟩
  obtain ⟨b, e, _⟩ := C77_mask (data := data) (edge := fun v => decide (∃ w, IsNbr s neighbors26 v w ∧ labels w ≠ labels v)) (vac := fun _ => false)
    (greater := true) hv
  rw [e]; rfl

/-- With distinct values no maxima are merged. -/
theorem init_injective {nbrs : List Coord} {vac M : ℕ → Bool} {ilab : ℕ → ℤ} {reps : List ℕ} (hM : MarksMaxima s data nbrs vac M)
    (hinj : ∀ a < s.size, ∀ b < s.size, data a = data b → a = b) (hsym : ∀ a b, a < s.size → IsNbr s nbrs a b → IsNbr s nbrs b a)
    (hval : ValidInit s data nbrs M (fun _ _ => false) ilab reps) {v w : ℕ} (hv : M v = true) (hw : M w = true) (h : ilab v = ilab w) : v = w := by
  have hno : ∀ a, ¬ FalseMax s data nbrs M a := by
    rintro a ⟨ha, u, hu, n, hn, hMn, hle⟩
    have key : M u = true := by
      induction hu with
      | refl => exact ha
      | tail _ h => exact h.2.1
    have hu' := (hM u).mp key
    have e := hinj n hn.1 u hu'.1 (le_antisymm (hu'.2.2 n hn) hle)
    rw [e, key] at hMn
    cases hMn
  have hr := hval.reason v w hv hw h
  clear h hv hw
  induction hr with
  | rel a b hab =>
    obtain ⟨ha, hb, hor⟩ := hab
    rcases hor with hn | ⟨hf, _⟩ | ⟨_, hf, _⟩
    · have h1 := (hM a).mp ha
      have h2 := (hM b).mp hb
      exact hinj a h1.1 b h2.1 (le_antisymm (h2.2.2 a (hsym a b h1.1 hn)) (h1.2.2 b hn))
    · exact absurd hf (hno a)
    · cases hf
  | refl => rfl
  | symm _ _ _ ih => exact ih.symm
  | trans _ _ _ _ _ ih1 ih2 => exact ih1.trans ih2

/-- A voxel that is not a local maximum has a steepest neighbour. -/
theorem exists_steepest {nbrs : List (Coord × K)} (hts : ∀ td ∈ nbrs, StepFits s td.1) (hd : ∀ td ∈ nbrs, 0 < td.2) {v : ℕ} (hv : v < s.size)
    (h : ¬ IsLocalMax s data (nbrs.map Prod.fst) v) : ∃ w, SteepestNbr s data nbrs v w := by
  have hts' : ∀ t ∈ nbrs.map Prod.fst, StepFits s t := by
    intro t ht; obtain ⟨td, htd, rfl⟩ := List.mem_map.mp ht; exact hts td htd
  unfold IsLocalMax at h
  push Not at h
  obtain ⟨w, hw, hlt⟩ := h
  obtain ⟨d, hd', rfl⟩ := (isNbr_iff hts' hv).mp hw
  obtain ⟨td, htd, rfl⟩ := List.mem_map.mp hd'
  exact ⟨_, bestNeighbor_steepest hd ⟨td, htd, hlt⟩⟩

/-- C79: the hypotheses are met by the ongrid method: on a grid of distinct values without vacuum its basins are such basins. -/
theorem C79_ongrid (s : Shape) (data : ℕ → K) (nbrs : List (Coord × K)) (cand : ℕ → ℕ) (sorted order order' : List ℕ)
    (hbig : 3 ≤ s.nx ∧ 3 ≤ s.ny ∧ 3 ≤ s.nz) (h26 : nbrs.map Prod.fst = neighbors26) (hd : ∀ td ∈ nbrs, 0 < td.2)
    (hinj : ∀ a < s.size, ∀ b < s.size, data a = data b → a = b) (hrange : ∀ w < s.size, -10 ^ 300 < data w)
    (hord : IsSchedule s order) (hord' : IsSchedule s order')
    (hsort : sorted.Perm (maximaVox s (getMaxima s data (nbrs.map Prod.fst) (fun _ => false) false order'))) :
    let M := getMaxima s data (nbrs.map Prod.fst) (fun _ => false) false order'
    ∃ (res : InitResult) (lab : ℕ → ℤ) (top : ℕ → ℕ) (F : ℕ),
      (∀ fuel ≥ F, initLabels s data nbrs M (fun _ _ => false) cand sorted fuel = some res ∧
        ongridLabels s data nbrs (fun _ => false) M order 0 fuel res.labels = some lab) ∧
      AscentBasins s data lab res.reps.length top := by
  intro M
  have hp : s.Pos := ⟨by omega, by omega, by omega⟩
  have hts : ∀ td ∈ nbrs, StepFits s td.1 := fun td htd => neighbors26_fits hp _ (h26 ▸ List.mem_map_of_mem htd)
  obtain ⟨res, lab, F, hF, _, h2, h3, h4, hval⟩ := C09_ongrid s data nbrs (fun _ => false) (fun _ _ => false) cand sorted order order' 0 hts hd
    (fun _ _ _ _ _ _ => rfl) hord hord' (fun _ _ _ => rfl) hsort
  have hM : MarksMaxima s data (nbrs.map Prod.fst) (fun _ => false) M :=
    marksMaxima_getMaxima s data (nbrs.map Prod.fst) (fun _ => false) order' hord' (by rw [h26]; exact neighbors26_fits hp)
  have hsym : ∀ a b, a < s.size → IsNbr s (nbrs.map Prod.fst) a b → IsNbr s (nbrs.map Prod.fst) b a := fun a b ha hab => by
    rw [h26] at hab ⊢; exact isNbr_symm (neighbors26_fits hp) neighbors26_neg ha hab
  have hone : ∀ v w, M v = true → M w = true → lab v = lab w → v = w := fun v w hv hw e =>
    init_injective hM hinj hsym hval hv hw ((h3 v w hv hw).mp e)
  have hex : ∀ b : ℕ, ∃ m, b < res.reps.length → M m = true ∧ lab m = b := by
    intro b
    by_cases hb : b < res.reps.length
    · obtain ⟨v, hv, e⟩ := h4 b hb
      obtain ⟨m, hm, _⟩ := C09_ascent_unique s data nbrs hts hd v hv
      obtain ⟨h5, h6⟩ := (h2 v hv rfl).2 m hm
      exact ⟨m, fun _ => ⟨h5, by rw [← h6, e]⟩⟩
    · exact ⟨0, fun h => absurd h hb⟩
  choose top htop using hex
  refine ⟨res, lab, top, F, hF, ⟨hbig, hinj, hrange, ?_, ?_, ?_, ?_, ?_⟩⟩
  · intro v hv
    obtain ⟨h5, h6⟩ := (h2 v hv rfl).1
    exact ⟨(lab v).toNat, by omega, by omega⟩
  · exact fun b hb => ((hM _).mp (htop b hb).1).1
  · exact fun b hb => (htop b hb).2
  · exact fun b hb => h26 ▸ ((hM _).mp (htop b hb).1).2.2
  · intro v hv b hb e hne
    have hnot : ¬ IsLocalMax s data (nbrs.map Prod.fst) v := fun hmax =>
      hne (hone v _ ((hM v).mpr ⟨hv, rfl, hmax⟩) (htop b hb).1 (by rw [e, (htop b hb).2]))
    obtain ⟨w, hw⟩ := exists_steepest hts hd hv hnot
    have hn := (steepestNbr_not_max (by rw [h26]; exact neighbors26_fits hp) hv hw).1
    obtain ⟨m, hm, _⟩ := C09_ascent_unique s data nbrs hts hd w hn.1
    obtain ⟨_, _, _, _, _, hlt, _⟩ := id hw
    refine ⟨w, h26 ▸ hn, ?_, hlt⟩
    rw [← e, ((h2 v hv rfl).2 m (.step hw hm)).2, ((h2 w hn.1 rfl).2 m hm).2]

/-- Data of the example: four layers, the first and the third are high, all values distinct. -/
def layerData (v : ℕ) : ℚ := if v < 9 then 100 + v else if 18 ≤ v ∧ v < 27 then 50 + v else v

/-- Non-vacuity: the hypotheses of `C79_ongrid` hold for these data, which have two maxima; the masks exist, so that all hypotheses of
`C79_regions_iff` and `C79_domains_are_regions` are met. -/
example : maximaVox ⟨4, 3, 3⟩ (getMaxima ⟨4, 3, 3⟩ layerData neighbors26 (fun _ => false) false (List.range 36)) = [8, 26] ∧
    ∃ (lab : ℕ → ℤ) (top : ℕ → ℕ) (nb : ℕ) (sad edge : ℕ → Bool), AscentBasins ⟨4, 3, 3⟩ layerData lab nb top ∧
      SaddleMasks ⟨4, 3, 3⟩ layerData lab sad edge := by
  refine ⟨by decide +kernel, ?_⟩
  obtain ⟨res, lab, top, _, _, h⟩ := C79_ongrid ⟨4, 3, 3⟩ layerData (neighbors26.map fun t => (t, 1)) id
    (maximaVox ⟨4, 3, 3⟩ (getMaxima ⟨4, 3, 3⟩ layerData ((neighbors26.map fun t => (t, (1 : ℚ))).map Prod.fst) (fun _ => false) false (List.range 36)))
    (List.range 36) (List.range 36) (by decide) (by decide) (by intro td h; obtain ⟨t, _, rfl⟩ := List.mem_map.mp h; exact one_pos)
    (by
      intro a ha b hb h
      change a < 36 at ha
      change b < 36 at hb
      unfold layerData at h
      split_ifs at h
      all_goals first
        | (have h' : a = b := by exact_mod_cast (by linarith : (a : ℚ) = b)); exact h'
        | (exfalso; have h' : ((a : ℤ) : ℚ) = ((b : ℤ) : ℚ) + 0 := by push_cast; linarith
           exact absurd h' (by norm_cast; omega))
        | (exfalso; norm_cast at h; omega))
    (by
      intro w _
      have : (0 : ℚ) ≤ layerData w := by unfold layerData; split_ifs <;> positivity
      have h2 : (-10 ^ 300 : ℚ) < 0 := by norm_num
      exact h2.trans_le this)
    (by unfold IsSchedule; exact .refl _) (by unfold IsSchedule; exact .refl _) (.refl _)
  obtain ⟨sad, edge, hm⟩ := SaddleMasks_exist ⟨4, 3, 3⟩ layerData lab
  exact ⟨lab, top, _, sad, edge, h, hm⟩

end BaderKit
