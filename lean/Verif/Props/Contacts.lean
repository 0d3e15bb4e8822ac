import Verif.Lemmas.Contacts
import Verif.Props.Groups
import Verif.Props.AtomRows
/-!
# C81: the contacts between voids and domains, and what the unprotected counters can do to them
-/
set_option linter.unusedSectionVars false
namespace BaderKit

section
variable {fuel : ℕ} {parent : ℕ → ℕ} {roots : List ℕ} {s : Shape} {nbrs : List Coord} {solid vac : ℕ → Bool} {dom : ℕ → ℕ}

/-- C81. With every interleaving of the slabs a counter never exceeds the number of contacts, and it is positive if there is a contact. -/
theorem C81_every_schedule (hnd : nbrs.Nodup) {sched : List ℕ} {cnt : ℕ → ℕ → ℕ}
    (h : contactCounts fuel parent roots s nbrs solid vac dom sched = some cnt) (r d : ℕ) :
    cnt r d ≤ contactNumber s nbrs solid vac (fun v => voidIdx fuel parent roots v = some r) (fun w => dom w = d) ∧
    (0 < contactNumber s nbrs solid vac (fun v => voidIdx fuel parent roots v = some r) (fun w => dom w = d) → 0 < cnt r d) := by
  obtain ⟨work, hw, hdone, hc⟩ := contactCounts_some h
  rw [hc, ← contactWork_number hnd hw]
  exact adderRun_bounds (contactWork_out hw) hdone (r, d)

/-- C81. If the slabs run one after the other, in any order, the counters are the numbers of contacts. -/
theorem C81_serial (hnd : nbrs.Nodup) {work : List (List Cell)} (hw : contactWork fuel parent roots s nbrs solid vac dom = some work)
    {order : List ℕ} (ho : order.Perm (List.range s.nx)) :
    ∃ cnt, contactCounts fuel parent roots s nbrs solid vac dom (serialSched (fun i => work.getD i []) order) = some cnt ∧
      ∀ r d, cnt r d = contactNumber s nbrs solid vac (fun v => voidIdx fuel parent roots v = some r) (fun w => dom w = d) := by
  obtain ⟨h1, h2⟩ := adderRun_serial (fun i => work.getD i []) ho
  refine ⟨fun r d => (adderRun (fun i => work.getD i []) (serialSched (fun i => work.getD i []) order)).1 (r, d), ?_, ?_⟩
  · unfold contactCounts
    rw [hw]
    simp only [Option.bind_eq_bind, Option.bind_some]
    rw [if_pos]
    rw [List.all_eq_true]
    intro i hi
    exact List.isEmpty_iff.mpr (h1 i (List.mem_range.mp hi))
  · intro r d
    rw [← contactWork_number hnd hw]
    exact h2 (r, d)

/-- C81. A counter that only one slab increments is exact with every interleaving. -/
theorem C81_one_slab (hnd : nbrs.Nodup) {sched : List ℕ} {cnt : ℕ → ℕ → ℕ}
    (h : contactCounts fuel parent roots s nbrs solid vac dom sched = some cnt) {r d i : ℕ}
    (hone : ∀ x ∈ contactPairs s nbrs solid vac, voidIdx fuel parent roots x.1 = some r → dom (nbr s x.1 x.2) = d → x.1 / (s.ny * s.nz) = i) :
    cnt r d = contactNumber s nbrs solid vac (fun v => voidIdx fuel parent roots v = some r) (fun w => dom w = d) := by
  obtain ⟨work, hw, hdone, hc⟩ := contactCounts_some h
  rw [hc, ← contactWork_number hnd hw]
  have hzero : ∀ j, j ≠ i → (r, d) ∉ work.getD j [] := by
    intro j hj hmem
    obtain ⟨h1, h2⟩ := mapM_getElem hw
    rw [List.length_range] at h1
    have hjn : j < s.nx := by
      by_contra hge
      rw [contactWork_out hw j (by omega)] at hmem
      simp at hmem
    have hw' : work[j]? = some (work.getD j []) := by
      rw [List.getD_eq_getElem?_getD, List.getElem?_eq_getElem (by omega)]
      rfl
    have hcount := slabCells_count (h2 j j _ (by simp [hjn]) hw') r d
    have hpos := List.count_pos_iff.mpr hmem
    rw [hcount] at hpos
    obtain ⟨k, hk, hk2⟩ := Finset.exists_ne_zero_of_sum_ne_zero (by omega : ∑ k ∈ Finset.range (s.ny * s.nz), nbrs.countP
      (fun t => isContact fuel parent roots s solid vac dom r d (j * (s.ny * s.nz) + k) t) ≠ 0)
    have hk' := Finset.mem_range.mp hk
    obtain ⟨t, ht, hct⟩ := List.countP_pos_iff.mp (Nat.pos_of_ne_zero hk2)
    unfold isContact at hct
    simp only [Bool.and_eq_true, Bool.not_eq_true', decide_eq_true_eq] at hct
    have := hone (j * (s.ny * s.nz) + k, t) (by
      unfold contactPairs
      rw [Finset.mem_filter, Finset.mem_product, Finset.mem_range, List.mem_toFinset]
      refine ⟨⟨?_, ht⟩, hct.1.1.1, hct.1.1.2, hct.1.2⟩
      have hsz : s.size = s.nx * (s.ny * s.nz) := by unfold Shape.size; ring
      have h3 : (j + 1) * (s.ny * s.nz) ≤ s.nx * (s.ny * s.nz) := Nat.mul_le_mul_right _ hjn
      rw [hsz]
      rw [Nat.add_mul, Nat.one_mul] at h3
      change j * (s.ny * s.nz) + k < _
      omega) hct.2.1 hct.2.2
    simp only at this
    rw [Nat.mul_comm, Nat.mul_add_div (by omega), Nat.div_eq_of_lt hk', Nat.add_zero] at this
    exact hj this
  by_cases hi : i < s.nx
  · rw [adderRun_one hzero (hdone i hi)]
    unfold totalOf
    rw [← Finset.add_sum_erase _ _ (Finset.mem_range.mpr hi)]
    rw [Finset.sum_eq_zero fun j hj => List.count_eq_zero_of_not_mem (hzero j (Finset.ne_of_mem_erase hj))]
    rfl
  · have h0 : totalOf s.nx (fun i => work.getD i []) (r, d) = 0 := by
      unfold totalOf
      exact Finset.sum_eq_zero fun j hj => List.count_eq_zero_of_not_mem (hzero j fun e => hi (e ▸ Finset.mem_range.mp hj))
    have := (adderRun_bounds (contactWork_out hw) hdone (r, d)).1
    omega

/-- C81. If a void has contacts with one domain only, that domain is found to surround it, with every interleaving. -/
theorem C81_only_domain (hnd : nbrs.Nodup) {sched : List ℕ} {cnt : ℕ → ℕ → ℕ} {nd : ℕ}
    (h : contactCounts fuel parent roots s nbrs solid vac dom sched = some cnt) {r d : ℕ} (hd : d < nd)
    (hpos : ∃ x ∈ contactPairs s nbrs solid vac, voidIdx fuel parent roots x.1 = some r)
    (honly : ∀ x ∈ contactPairs s nbrs solid vac, voidIdx fuel parent roots x.1 = some r → dom (nbr s x.1 x.2) = d) :
    argmaxFirst nd (cnt r) = d := by
  obtain ⟨x, hx, hxr⟩ := hpos
  have h1 : 0 < cnt r d := by
    apply (C81_every_schedule hnd h r d).2
    exact contactNumber_pos.mpr ⟨x, hx, hxr, honly x hx hxr⟩
  have h2 : ∀ e, e ≠ d → cnt r e = 0 := by
    intro e he
    have := (C81_every_schedule hnd h r e).1
    have h0 : contactNumber s nbrs solid vac (fun v => voidIdx fuel parent roots v = some r) (fun w => dom w = e) = 0 := by
      by_contra hne
      obtain ⟨y, hy, hq1, hq2⟩ := contactNumber_pos.mp (Nat.pos_of_ne_zero hne)
      exact he (hq2 ▸ honly y hy hq1)
    omega
  have hm : 0 < nd := by omega
  refine firstMax_unique (C74_most_contacts hm (cnt r)) ⟨hd, fun j _ => ?_, fun j hj => ?_⟩
  · by_cases hj : j = d
    · rw [hj]
    · rw [h2 j hj]; omega
  · rw [h2 j (by omega)]; exact h1

/-- C81. If a domain has contacts with one void only, that void is found to surround it, with every interleaving. -/
theorem C81_only_void (hnd : nbrs.Nodup) {sched : List ℕ} {cnt : ℕ → ℕ → ℕ} {nv : ℕ}
    (h : contactCounts fuel parent roots s nbrs solid vac dom sched = some cnt) {r d : ℕ} (hr : r < nv)
    (hpos : ∃ x ∈ contactPairs s nbrs solid vac, voidIdx fuel parent roots x.1 = some r ∧ dom (nbr s x.1 x.2) = d)
    (honly : ∀ x ∈ contactPairs s nbrs solid vac, dom (nbr s x.1 x.2) = d → voidIdx fuel parent roots x.1 = some r) :
    (argmaxFirst nv fun q => cnt q d) = r := by
  obtain ⟨x, hx, hxr⟩ := hpos
  have h1 : 0 < cnt r d := by
    apply (C81_every_schedule hnd h r d).2
    exact contactNumber_pos.mpr ⟨x, hx, hxr⟩
  have h2 : ∀ e, e ≠ r → cnt e d = 0 := by
    intro e he
    have := (C81_every_schedule hnd h e d).1
    have h0 : contactNumber s nbrs solid vac (fun v => voidIdx fuel parent roots v = some e) (fun w => dom w = d) = 0 := by
      by_contra hne
      obtain ⟨y, hy, hq1, hq2⟩ := contactNumber_pos.mp (Nat.pos_of_ne_zero hne)
      have := honly y hy hq2
      rw [this] at hq1
      exact he (Option.some.inj hq1).symm
    omega
  have hm : 0 < nv := by omega
  refine firstMax_unique (C74_most_contacts hm fun q => cnt q d) ⟨hr, fun j _ => ?_, fun j hj => ?_⟩
  · by_cases hj : j = r
    · rw [hj]
    · simp only; rw [h2 j hj]; omega
  · simp only; rw [h2 j (by omega)]; exact h1

end

/-! ### Voids and domains of a charge density -/

section
variable {K : Type} [Field K] [LinearOrder K] [IsStrictOrderedRing K] {s : Shape} {nbrs : List Coord}

/-- Every voxel outside of the solid is labelled with a basin that is in exactly one of the current domains. -/
def OutsideLabelled (s : Shape) (solid : ℕ → Bool) (numBasins : ℕ) (labels : ℕ → ℤ) (inp : List (DomIn K)) (cur : List ℕ) : Prop :=
  ∀ w < s.size, solid w = false → ∃ b : ℕ, labels w = b ∧ b < numBasins ∧
    ∃ (i : ℕ) (_ : i < cur.length), (∃ r, inp[cur[i]]? = some r ∧ b ∈ r.basins) ∧
      ∀ (j : ℕ) (_ : j < cur.length) (r : DomIn K), inp[cur[j]]? = some r → b ∈ r.basins → j = i

/-- The voxel is labelled with a basin of the `d`-th current domain. -/
def InDomain (labels : ℕ → ℤ) (inp : List (DomIn K)) (cur : List ℕ) (d w : ℕ) : Prop :=
  ∃ (e : ℕ) (r : DomIn K) (b : ℕ), cur[d]? = some e ∧ inp[e]? = some r ∧ b ∈ r.basins ∧ labels w = b

theorem domainIdx_iff {solid : ℕ → Bool} {numBasins : ℕ} {labels : ℕ → ℤ} {inp : List (DomIn K)} {cur : List ℕ}
    (h : OutsideLabelled s solid numBasins labels inp cur) {w : ℕ} (hw : w < s.size) (hS : solid w = false) {d : ℕ} :
    domainIdx numBasins cur.length labels (basinDomainMap inp cur) w = d ↔ InDomain labels inp cur d w := by
  obtain ⟨b, hb, hbn, i, hi, hx, hu⟩ := h w hw hS
  have hm := basinDomainMap_spec hi hx hu
  have e : domainIdx numBasins cur.length labels (basinDomainMap inp cur) w = i := by
    unfold domainIdx
    rw [hb]
    have : pyIdx numBasins (b : ℤ) = b := by unfold pyIdx; rw [if_neg (by omega)]; simp
    rw [this, hm]
    unfold pyIdx
    rw [if_neg (by omega)]
    simp
  rw [e]
  constructor
  · rintro rfl
    obtain ⟨r, hr, hbr⟩ := hx
    exact ⟨cur[i], r, b, List.getElem?_eq_getElem hi, hr, hbr, hb⟩
  · rintro ⟨e, r, b', h1, h2, h3, h4⟩
    obtain ⟨hd, rfl⟩ := List.getElem?_eq_some_iff.mp h1
    have : b' = b := by rw [hb] at h4; exact_mod_cast h4.symm
    subst this
    exact (hu d hd r h2 h3).symm

theorem basinDomainMap_none {inp : List (DomIn K)} {cur : List ℕ} {b : ℕ}
    (hno : ∀ (j : ℕ) (_ : j < cur.length) (r : DomIn K), inp[cur[j]]? = some r → b ∉ r.basins) : basinDomainMap inp cur b = -1 := by
  have key : ∀ (l : List (ℕ × ℕ)) (m : ℕ → ℤ), (∀ x ∈ l, ∀ r, inp[x.1]? = some r → b ∉ r.basins) →
      l.foldl (fun m x => (inp[x.1]?).elim m fun r => r.basins.foldl (fun m b => Function.update m b (x.2 : ℤ)) m) m b = m b := by
    intro l
    induction l with
    | nil => intro m _; rfl
    | cons x l ih =>
      intro m h
      rw [List.foldl_cons, ih _ (fun y hy => h y (by simp [hy]))]
      cases hx : inp[x.1]? with
      | none => rfl
      | some r =>
        have hb := h x (by simp) r hx
        simp only [Option.elim_some]
        have : ∀ (bs : List ℕ) (m : ℕ → ℤ), b ∉ bs → bs.foldl (fun m b => Function.update m b (x.2 : ℤ)) m b = m b := by
          intro bs
          induction bs with
          | nil => intro m _; rfl
          | cons c bs ih2 =>
            intro m hc
            rw [List.mem_cons, not_or] at hc
            rw [List.foldl_cons, ih2 _ hc.2, Function.update_of_ne hc.1]
        exact this _ _ hb
  unfold basinDomainMap
  rw [key]
  intro x hx r hr
  obtain ⟨_, hlt, e⟩ := List.mem_zipIdx hx
  exact hno x.2 (by omega) r (by rw [← hr, e]; simp)

/-- C81 (negative part). A voxel outside of the solid whose basin is in none of the current domains counts as a voxel of the last one. -/
theorem C81_unlabelled_last {numBasins : ℕ} {labels : ℕ → ℤ} {inp : List (DomIn K)} {cur : List ℕ} {w b : ℕ} (hc : cur ≠ []) (hb : labels w = b)
    (hno : ∀ (j : ℕ) (_ : j < cur.length) (r : DomIn K), inp[cur[j]]? = some r → b ∉ r.basins) :
    domainIdx numBasins cur.length labels (basinDomainMap inp cur) w = cur.length - 1 := by
  have : 0 < cur.length := List.length_pos_iff.mpr hc
  unfold domainIdx
  have e : pyIdx numBasins (b : ℤ) = b := by unfold pyIdx; rw [if_neg (by omega)]; simp
  rw [hb, e, basinDomainMap_none hno]
  unfold pyIdx
  rw [if_pos (by omega)]
  omega

/-- What the search for the groups leaves: indices of voids. -/
theorem voidIdx_spec (hn : NbrsOk nbrs) (hs : 2 ≤ s.nx ∧ 2 ≤ s.ny ∧ 2 ≤ s.nz) {vac : ℕ → Bool} {root : K → K} (hr : IsRoot root)
    {tol : K} (h0 : 0 ≤ tol) (ht : tol * (3 * (s.size : K) ^ 2) < 1) {fuel : ℕ} {ls : List (ℕ → Bool)}
    (hg : GrowChain (fun _ => false) ls) (hv : ∀ v, lastSolid (fun _ => false) ls v = true → vac v = false)
    (hf : ls.length * (s.size * nbrs.length) < fuel) {g : GroupState K}
    (e : groupsRun fuel root tol s nbrs vac (fun _ => false) ls GroupState.init = some g) {v : ℕ} (hvs : v < s.size)
    (hS : lastSolid (fun _ => false) ls v = true) :
    ∃ (r : ℕ) (q : ℕ), voidIdx fuel g.uf.parent g.roots v = some r ∧ g.roots[r]? = some q ∧
      (∃ t, ConnTo s nbrs (lastSolid (fun _ => false) ls) v q t) ∧
      ∀ (r' q' : ℕ), g.roots[r']? = some q' → (∃ t, ConnTo s nbrs (lastSolid (fun _ => false) ls) v q' t) → r' = r := by
  obtain ⟨g', l', m', D', e', h, hD⟩ := groupsRun_inv (b := False) hn hs hr h0 ht fuel ls (fun _ => false) [] (fun _ => false) 0
    GroupState.init (CycInv.init hn) hg (fun h => absurd h id) hv (by omega)
  rw [e] at e'
  obtain rfl := Option.some.inj e'
  have hp0 : g.roots.Pairwise (· < ·) := by rw [h.roots]; exact rootsOf_sorted _ _
  obtain ⟨q, hq⟩ := h.uf.sinv.uf.total v
  have hmem : q ∈ g.roots := by
    rw [h.roots]
    exact mem_rootsOf.mpr (h.uf.marked hn hs hvs hS hq.rootOf)
  have hofmem : ∀ r ∈ g.roots, r < s.size ∧ g.uf.parent r = r := by
    intro r hr
    rw [h.roots] at hr
    obtain ⟨h1, h2, h3⟩ := h.uf.of_mark hn (mem_rootsOf.mp hr).2
    exact ⟨h1, h3⟩
  obtain ⟨h1, h2⟩ := searchRoot_spec hp0 hmem
  refine ⟨searchRoot g.roots q, q, ?_, ?_, ?_, ?_⟩
  · unfold voidIdx
    rw [findRootNC_of_rootIn hq fuel (by omega)]
    rfl
  · rw [List.getElem?_eq_getElem h1, h2]
  · obtain ⟨t, hp⟩ := h.uf.root_path hn ⟨q, hq.rootOf, RootOf.base (hofmem q hmem).2⟩
    exact ⟨t, (connTo_iff hn hvs (hofmem q hmem).1).mpr hp⟩
  · rintro r' q' hr' ⟨t, hc⟩
    obtain ⟨hlt, rfl⟩ := List.getElem?_eq_some_iff.mp hr'
    have hm' := List.getElem_mem hlt
    obtain ⟨x, hx1, hx2⟩ := h.uf.path_root ((connTo_iff hn hvs (hofmem _ hm').1).mp hc)
    have e1 := hx1.unique hq.rootOf
    have e2 := hx2.unique (RootOf.base (hofmem _ hm').2)
    have : g.roots[r'] = q := by rw [← e2, e1]
    rw [← this, searchRoot_get hp0 r' hlt]

/-- C81. The whole function, for every sequence of growing solids, every labelling and every interleaving.  The loop makes no illegal access to
the list of parents, and the counter of a void and a domain is at most the number of contacts between the voxels connected to the root of the
void and the voxels labelled with basins of the domain; it is positive exactly if there is a contact.  If the slabs run one after the other it is that number. -/
theorem C81_contacts (hnd : nbrs.Nodup) (hn : NbrsOk nbrs) (hs : 2 ≤ s.nx ∧ 2 ≤ s.ny ∧ 2 ≤ s.nz) {vac : ℕ → Bool} {root : K → K} (hr : IsRoot root)
    {tol : K} (h0 : 0 ≤ tol) (ht : tol * (3 * (s.size : K) ^ 2) < 1) {fuel : ℕ} {ls : List (ℕ → Bool)} {S : ℕ → Bool}
    (hg : GrowChain (fun _ => false) ls) (hSd : S = lastSolid (fun _ => false) ls) (hv : ∀ v, S v = true → vac v = false)
    (hf : ls.length * (s.size * nbrs.length) < fuel) {g : GroupState K}
    (e : groupsRun fuel root tol s nbrs vac (fun _ => false) ls GroupState.init = some g)
    {numBasins : ℕ} {labels : ℕ → ℤ} {inp : List (DomIn K)} {cur : List ℕ} (hl : OutsideLabelled s S numBasins labels inp cur)
    {dom : ℕ → ℕ} (hdom : dom = domainIdx numBasins cur.length labels (basinDomainMap inp cur)) :
    (∃ work, contactWork fuel g.uf.parent g.roots s nbrs S vac dom = some work ∧
      ∀ order : List ℕ, order.Perm (List.range s.nx) →
        ∃ cnt, contactCounts fuel g.uf.parent g.roots s nbrs S vac dom (serialSched (fun i => work.getD i []) order) = some cnt ∧
          ∀ (r d q : ℕ), g.roots[r]? = some q →
            cnt r d = contactNumber s nbrs S vac (fun v => ∃ t, ConnTo s nbrs S v q t) (InDomain labels inp cur d)) ∧
    ∀ sched cnt, contactCounts fuel g.uf.parent g.roots s nbrs S vac dom sched = some cnt → ∀ (r d q : ℕ), g.roots[r]? = some q →
      cnt r d ≤ contactNumber s nbrs S vac (fun v => ∃ t, ConnTo s nbrs S v q t) (InDomain labels inp cur d) ∧
      (0 < cnt r d ↔ 0 < contactNumber s nbrs S vac (fun v => ∃ t, ConnTo s nbrs S v q t) (InDomain labels inp cur d)) := by
  have hvi : ∀ v, v < s.size → S v = true → ∃ (r : ℕ) (q : ℕ), voidIdx fuel g.uf.parent g.roots v = some r ∧ g.roots[r]? = some q ∧
      (∃ t, ConnTo s nbrs S v q t) ∧ ∀ (r' q' : ℕ), g.roots[r']? = some q' → (∃ t, ConnTo s nbrs S v q' t) → r' = r := by
    subst hSd
    exact fun v hvs hS => voidIdx_spec hn hs hr h0 ht hg hv hf e hvs hS
  have hnum : ∀ (r d q : ℕ), g.roots[r]? = some q →
      contactNumber s nbrs S vac (fun v => voidIdx fuel g.uf.parent g.roots v = some r) (fun w => dom w = d) =
      contactNumber s nbrs S vac (fun v => ∃ t, ConnTo s nbrs S v q t) (InDomain labels inp cur d) := by
    intro r d q hq
    refine contactNumber_congr fun x hx => ?_
    unfold contactPairs at hx
    rw [Finset.mem_filter, Finset.mem_product, Finset.mem_range, List.mem_toFinset] at hx
    obtain ⟨⟨hx1, hx2⟩, hx3, hx4, hx5⟩ := hx
    have hlt : nbr s x.1 x.2 < s.size := nbr_lt hx1 ((hn.unit _ hx2).fits (pos_of_lt_size hx1))
    rw [hdom, domainIdx_iff hl hlt hx5]
    refine and_congr_left fun _ => ?_
    obtain ⟨r', q', h1, h2, h3, h4⟩ := hvi x.1 hx1 hx3
    rw [h1]
    constructor
    · intro hh
      obtain rfl := Option.some.inj hh
      rw [hq] at h2
      obtain rfl := Option.some.inj h2
      exact h3
    · intro hh
      rw [h4 r q hq hh]
  constructor
  · have hvox : ∀ v, v < s.size → ∃ cs, voxelCells fuel g.uf.parent g.roots s nbrs S vac dom v = some cs := by
      intro v hvs
      unfold voxelCells
      split_ifs with h1
      · exact ⟨_, rfl⟩
      · simp only
        split_ifs with h2
        · exact ⟨_, rfl⟩
        · have hS : S v = true := by
            revert h1
            cases S v <;> simp
          obtain ⟨r, _, h1, _⟩ := hvi v hvs hS
          rw [h1]
          exact ⟨_, rfl⟩
    have hmap : ∀ {α β : Type} (f : α → Option β) (l : List α), (∀ x ∈ l, ∃ y, f x = some y) → ∃ m, l.mapM f = some m := by
      intro α β f l
      induction l with
      | nil => intro _; exact ⟨[], rfl⟩
      | cons a l ih =>
        intro h
        obtain ⟨y, hy⟩ := h a (by simp)
        obtain ⟨m, hm⟩ := ih fun x hx => h x (List.mem_cons_of_mem _ hx)
        exact ⟨y :: m, by rw [List.mapM_cons, hy, hm]; rfl⟩
    obtain ⟨work, hw⟩ : ∃ work, contactWork fuel g.uf.parent g.roots s nbrs S vac dom = some work := by
      apply hmap
      intro i hi
      have hi' := List.mem_range.mp hi
      obtain ⟨m, hm⟩ := hmap (voxelCells fuel g.uf.parent g.roots s nbrs S vac dom) (slab s i) fun v hv => by
        apply hvox
        obtain ⟨j, hj, rfl⟩ := List.mem_map.mp hv
        have hj' := List.mem_range.mp hj
        have hsz : s.size = s.nx * (s.ny * s.nz) := by unfold Shape.size; ring
        have h3 : (i + 1) * (s.ny * s.nz) ≤ s.nx * (s.ny * s.nz) := Nat.mul_le_mul_right _ hi'
        rw [hsz]
        rw [Nat.add_mul, Nat.one_mul] at h3
        omega
      exact ⟨m.flatten, by unfold slabCells; rw [hm]; rfl⟩
    refine ⟨work, hw, fun order ho => ?_⟩
    obtain ⟨cnt, h1, h2⟩ := C81_serial hnd hw ho
    exact ⟨cnt, h1, fun r d q hq => by rw [h2, hnum r d q hq]⟩
  · intro sched cnt hc r d q hq
    have := C81_every_schedule hnd hc r d
    rw [hnum r d q hq] at this
    exact ⟨this.1, fun h => by omega, this.2⟩

/-- C81. The group of an atom: its void if it sits in the solid, else its domain. -/
theorem C81_atom_group (hn : NbrsOk nbrs) (hs : 2 ≤ s.nx ∧ 2 ≤ s.ny ∧ 2 ≤ s.nz) {vac : ℕ → Bool} {root : K → K} (hr : IsRoot root)
    {tol : K} (h0 : 0 ≤ tol) (ht : tol * (3 * (s.size : K) ^ 2) < 1) {fuel : ℕ} {ls : List (ℕ → Bool)} {S : ℕ → Bool}
    (hg : GrowChain (fun _ => false) ls) (hSd : S = lastSolid (fun _ => false) ls) (hv : ∀ v, S v = true → vac v = false)
    (hf : ls.length * (s.size * nbrs.length) < fuel) {g : GroupState K}
    (e : groupsRun fuel root tol s nbrs vac (fun _ => false) ls GroupState.init = some g)
    {numBasins : ℕ} {labels : ℕ → ℤ} {inp : List (DomIn K)} {cur : List ℕ} (hl : OutsideLabelled s S numBasins labels inp cur)
    {v : ℕ} (hvs : v < s.size) :
    ∃ grp, atomGroup fuel g.uf.parent g.roots S (domainIdx numBasins cur.length labels (basinDomainMap inp cur)) v = some grp ∧
      (∀ r, grp = .void r → S v = true ∧ ∃ q, g.roots[r]? = some q ∧ ∃ t, ConnTo s nbrs S v q t) ∧
      ∀ d, grp = .dom d → S v = false ∧ InDomain labels inp cur d v := by
  unfold atomGroup
  cases hS : S v with
  | true =>
    have h2 := hS
    subst hSd
    obtain ⟨r, q, h1, h2, h3, -⟩ := voidIdx_spec hn hs hr h0 ht hg hv hf e hvs hS
    refine ⟨.void r, by rw [if_pos rfl, h1]; rfl, ?_, ?_⟩
    · intro r' hr'
      cases hr'
      exact ⟨rfl, q, h2, h3⟩
    · intro d hd; cases hd
  | false =>
    refine ⟨_, by rw [if_neg (by simp)], ?_, ?_⟩
    · intro r hr; cases hr
    · intro d hd
      cases hd
      exact ⟨rfl, (domainIdx_iff hl hvs hS).mp rfl⟩

end

/-- C81. An atom in a voxel of the solid that is marked as vacuum (a voxel that is in no group) is taken to be in a void to which it does not
belong, or in a void past the end of the list. -/
theorem C81_vacuum_atom {fuel : ℕ} {parent : ℕ → ℕ} {roots : List ℕ} {solid : ℕ → Bool} {dom : ℕ → ℕ} {v : ℕ} (hS : solid v = true)
    (hp : parent v = v) (hv : v ∉ roots) :
    ∃ r, atomGroup (fuel + 1) parent roots solid dom v = some (.void r) ∧ ∀ q, roots[r]? = some q → parent q = q → q ≠ v := by
  refine ⟨searchRoot roots v, ?_, ?_⟩
  · unfold atomGroup voidIdx
    rw [if_pos hS]
    have : findRootNC (fuel + 1) parent v = some v := by simp [findRootNC, hp]
    rw [this]
    rfl
  · rintro q hq _ rfl
    exact hv (List.mem_of_getElem? hq)

/-! ### A race that changes the result

A layer of 5 × 5 voxels.  The eight voxels around the centre are the solid, a finite void.  It touches the domain 0 outside (96 contacts) and the
domain 1, the centre (24 contacts). -/

/-- The cell. -/
def ringCell : Shape := ⟨5, 5, 1⟩
/-- The ring around the centre. -/
def ringSolid : ℕ → Bool := fun v => [6, 7, 8, 11, 13, 16, 17, 18].contains v
/-- All voxels of the ring point to the first. -/
def ringParent : ℕ → ℕ := fun v => if ringSolid v then 6 else v
/-- The centre is the domain 1. -/
def ringDom : ℕ → ℕ := fun v => if v = 12 then 1 else 0
/-- Slab 1 reads once; slab 2 runs, then slab 3 but for its last increment; slab 1 writes; slab 3 reads; slab 1 runs to its end; slab 3 writes. -/
def ringRace : List ℕ :=
  [1] ++ List.replicate 48 2 ++ List.replicate 94 3 ++ [1] ++ [3] ++ List.replicate 94 1 ++ [3]
/-- The slabs one after the other. -/
def ringSerial : List ℕ := List.replicate 96 1 ++ List.replicate 48 2 ++ List.replicate 96 3

set_option maxRecDepth 100000 in
/-- C81. The counters depend on the schedule: one of 2 instead of 96. -/
theorem C81_lost_updates :
    (contactCounts 3 ringParent [6] ringCell neighbors26 ringSolid (fun _ => false) ringDom ringSerial).map (fun c => (c 0 0, c 0 1)) =
      some (96, 24) ∧
    (contactCounts 3 ringParent [6] ringCell neighbors26 ringSolid (fun _ => false) ringDom ringRace).map (fun c => (c 0 0, c 0 1)) =
      some (2, 24) := by
  decide +kernel

set_option maxRecDepth 100000 in
/-- C81. So the domains that surround an atom depend on the schedule: for an atom in the ring the infinite domain outside is found, or an
exception is raised, because void and inner domain are each taken to surround the other. -/
theorem C81_schedule_decides :
    (contactCounts 3 ringParent [6] ringCell neighbors26 ringSolid (fun _ => false) ringDom ringSerial).map
      (fun c => findAtomDomains 1 [0, 1] (fun _ => 0) (fun d => if d = 0 then 2 else 0) c (.void 0)) = some (some [0]) ∧
    (contactCounts 3 ringParent [6] ringCell neighbors26 ringSolid (fun _ => false) ringDom ringRace).map
      (fun c => findAtomDomains 1 [0, 1] (fun _ => 0) (fun d => if d = 0 then 2 else 0) c (.void 0)) = some none := by
  decide +kernel

/-! ### Cases -/

/-- The neighbours are listed once. -/
example : neighbors26.Nodup := by decide

set_option maxRecDepth 100000 in
/-- A void of one voxel is counted by one slab (`C81_one_slab`) and touches one domain (`C81_only_domain`); that domain touches one void
(`C81_only_void`). -/
example : let S : ℕ → Bool := fun v => v == 12
    (∀ x ∈ contactPairs ringCell neighbors26 S (fun _ => false), voidIdx 3 id [12] x.1 = some 0 ∧ (fun _ => 1) (nbr ringCell x.1 x.2) = 1 ∧
      x.1 / (ringCell.ny * ringCell.nz) = 2) ∧ (12, (0, 0, 1)) ∉ contactPairs ringCell neighbors26 S (fun _ => false) ∧
    (12, (0, 1, 1)) ∈ contactPairs ringCell neighbors26 S (fun _ => false) := by
  decide +kernel

/-- A cell of 2 × 4 × 2 voxels with one voxel in the solid and one domain (`C81_contacts`, `C81_atom_group`); the groups are found by
`C46_groups`. -/
example : OutsideLabelled chainCell (solidOf [0]) 1 (fun _ => 0) [(⟨[0], 0, 1, 3, none⟩ : DomIn ℚ)] [0] ∧
    GrowChain (fun _ => false) [solidOf [0]] := by
  refine ⟨fun w _ _ => ⟨0, rfl, by omega, 0, by simp, ⟨_, rfl, by simp⟩, fun j hj _ _ _ => by simpa using hj⟩, by simp, trivial⟩

/-- A vacuum voxel of the solid after the only void (`C81_vacuum_atom`): the void has the index 1 of 1. -/
example : atomGroup 3 ringParent [6] (fun v => ringSolid v || v == 24) ringDom 24 = some (.void 1) := by decide

end BaderKit
