import Verif.Spec.Saddle
import Verif.Props.Transforms
import Verif.Props.UnionFind
import Verif.Lemmas.Nbr
/-! # The groups of a box -/
namespace BaderKit

theorem touch_symm {p q : Coord} (h : Touch p q) : Touch q p := by
  obtain ⟨h0, h1, h2, h3⟩ := h
  exact ⟨h0.symm, by rwa [abs_sub_comm], by rwa [abs_sub_comm], by rwa [abs_sub_comm]⟩

theorem GroupedIn.symm {S : Coord → Prop} {p q : Coord} (h : GroupedIn S p q) : GroupedIn S q p := by
  induction h with
  | refl => exact .refl
  | tail _ h ih => exact .head ⟨h.2.1, h.1, touch_symm h.2.2⟩ ih

theorem GroupedIn.trans {S : Coord → Prop} {p q r : Coord} (h : GroupedIn S p q) (h' : GroupedIn S q r) : GroupedIn S p r :=
  Relation.ReflTransGen.trans h h'

theorem GroupedIn.mono {S T : Coord → Prop} (hST : ∀ p, S p → T p) {p q : Coord} (h : GroupedIn S p q) : GroupedIn T p q :=
  Relation.ReflTransGen.mono (fun _ _ h => ⟨hST _ h.1, hST _ h.2.1, h.2.2⟩) _ _ h

theorem GroupedIn.mem {S : Coord → Prop} {p q : Coord} (h : GroupedIn S p q) (hp : S p) : S q := by
  induction h with
  | refl => exact hp
  | tail _ h _ => exact h.2.1

theorem hasGroups_congr {S T : Coord → Prop} (h : ∀ p, S p ↔ T p) {n : ℕ} : HasGroups S n ↔ HasGroups T n := by
  have : S = T := funext fun p => propext (h p)
  rw [this]

/-- A map of representatives that respects the groups. -/
theorem hasGroups_le {S T : Coord → Prop} {n m : ℕ} (hS : HasGroups S n) (hT : HasGroups T m) (hTS : ∀ q, T q → ∃ p, S p ∧ T p ∧ GroupedIn T q p)
    (hc : ∀ p q, S p → S q → T p → T q → GroupedIn S p q → GroupedIn T p q) : m ≤ n := by
  classical
  obtain ⟨rs, hnd, rfl, hrS, hr⟩ := hS
  obtain ⟨rt, hnd', rfl, hrT, hr'⟩ := hT
  choose! f hf using fun (q : Coord) (hq : T q) => hTS q hq
  have hr1 : ∀ p, S p → ∃ r, r ∈ rs ∧ GroupedIn S p r := fun p hp => (hr p hp).exists
  choose! g hg using hr1
  have hmap : ∀ q ∈ rt.toFinset, g (f q) ∈ rs.toFinset := by
    intro q hq
    rw [List.mem_toFinset] at hq ⊢
    exact (hg (f q) (hf q (hrT q hq)).1).1
  have hinj : Set.InjOn (fun q => g (f q)) rt.toFinset := by
    intro q hq q' hq' e
    rw [Finset.mem_coe, List.mem_toFinset] at hq hq'
    have h1 := hf q (hrT q hq)
    have h2 := hf q' (hrT q' hq')
    have h3 := hg (f q) h1.1
    have h4 := hg (f q') h2.1
    simp only at e
    have h5 : GroupedIn S (f q) (f q') := h3.2.trans (e ▸ h4.2.symm)
    have h6 : GroupedIn T q q' := (h1.2.2.trans (hc _ _ h1.1 h2.1 h1.2.1 h2.2.1 h5)).trans h2.2.2.symm
    exact (hr' q (hrT q hq)).unique ⟨hq, Relation.ReflTransGen.refl⟩ ⟨hq', h6⟩
  have := Finset.card_le_card_of_injOn _ hmap hinj
  rwa [List.toFinset_card_of_nodup hnd, List.toFinset_card_of_nodup hnd'] at this

/-- The number of groups is determined by the set. -/
theorem hasGroups_unique {S : Coord → Prop} {n m : ℕ} (h : HasGroups S n) (h' : HasGroups S m) : n = m :=
  le_antisymm
    (hasGroups_le h' h (fun q hq => ⟨q, hq, hq, Relation.ReflTransGen.refl⟩) fun _ _ _ _ _ _ h => h)
    (hasGroups_le h h' (fun q hq => ⟨q, hq, hq, Relation.ReflTransGen.refl⟩) fun _ _ _ _ _ _ h => h)

/-- More than one group iff two members are not connected. -/
theorem hasGroups_two {S : Coord → Prop} {n : ℕ} (h : HasGroups S n) : 1 < n ↔ ∃ p q, S p ∧ S q ∧ ¬ GroupedIn S p q := by
  obtain ⟨rs, hnd, rfl, hrS, hr⟩ := h
  constructor
  · intro h
    match rs, hnd, h, hrS, hr with
    | a :: b :: l, hnd, _, hrS, hr =>
      refine ⟨a, b, hrS a (by simp), hrS b (by simp), fun hg => ?_⟩
      have := (hr a (hrS a (by simp))).unique ⟨by simp, Relation.ReflTransGen.refl⟩ ⟨by simp, hg⟩
      subst this
      simp at hnd
  · rintro ⟨p, q, hp, hq, hpq⟩
    obtain ⟨a, ⟨ha, hpa⟩, _⟩ := hr p hp
    obtain ⟨b, ⟨hb, hqb⟩, _⟩ := hr q hq
    match rs, ha, hb with
    | [c], ha, hb =>
      simp only [List.mem_singleton] at ha hb
      subst ha; subst hb
      exact absurd (hpa.trans hqb.symm) hpq
    | _ :: _ :: _, _, _ => simp

/-- A list that meets every group is at least as long as the number of groups. -/
theorem hasGroups_cover {T : Coord → Prop} {m : ℕ} (hT : HasGroups T m) (L : List Coord) (h : ∀ q, T q → ∃ r ∈ L, GroupedIn T q r) :
    m ≤ L.length := by
  classical
  obtain ⟨rt, hnd, rfl, hrT, hr⟩ := hT
  choose! f hf using h
  have hmap : ∀ q ∈ rt.toFinset, f q ∈ L.toFinset := by
    intro q hq
    rw [List.mem_toFinset] at hq ⊢
    exact (hf q (hrT q hq)).1
  have hinj : Set.InjOn f rt.toFinset := by
    intro q hq q' hq' e
    rw [Finset.mem_coe, List.mem_toFinset] at hq hq'
    have h1 := (hf q (hrT q hq)).2
    have h2 := (hf q' (hrT q' hq')).2
    exact (hr q (hrT q hq)).unique ⟨hq, Relation.ReflTransGen.refl⟩ ⟨hq', h1.trans (e ▸ h2.symm)⟩
  have := Finset.card_le_card_of_injOn _ hmap hinj
  rw [List.toFinset_card_of_nodup hnd] at this
  exact this.trans (List.toFinset_card_le _)

/-- Adding one point changes the number of groups iff it touches two different groups. -/
theorem groups_change {S T : Coord → Prop} {c : Coord} (hc : ¬ S c) (hT : ∀ p, T p ↔ S p ∨ (p = c ∧ ∃ q, Touch c q ∧ S q)) {n k : ℕ}
    (hn : HasGroups S n) (hk : HasGroups T k) : n ≠ k ↔ ∃ p q, S p ∧ S q ∧ Touch c p ∧ Touch c q ∧ ¬ GroupedIn S p q := by
  have hST : ∀ p, S p → T p := fun p hp => (hT p).mpr (Or.inl hp)
  have hrep : ∀ q, T q → ∃ p, S p ∧ T p ∧ GroupedIn T q p := by
    intro q hq
    rcases (hT q).mp hq with h | ⟨rfl, p, ht, hp⟩
    · exact ⟨q, h, hq, .refl⟩
    · exact ⟨p, hp, hST p hp, .single ⟨hq, hST p hp, ht⟩⟩
  constructor
  · intro hne
    by_contra hcon
    push Not at hcon
    have key : ∀ p q, S p → GroupedIn T p q → (S q → GroupedIn S p q) ∧ (q = c → ∀ h, Touch c h → S h → GroupedIn S p h) := by
      intro p q hp h
      induction h with
      | refl => exact ⟨fun _ => .refl, fun e => absurd (e ▸ hp) hc⟩
      | @tail a b _ hab ih =>
        obtain ⟨ha, hb, ht⟩ := hab
        refine ⟨fun hSb => ?_, fun e h hth hSh => ?_⟩
        · rcases (hT a).mp ha with hSa | ⟨rfl, _⟩
          · exact (ih.1 hSa).tail ⟨hSa, hSb, ht⟩
          · exact ih.2 rfl b ht hSb
        · subst e
          rcases (hT a).mp ha with hSa | ⟨rfl, _⟩
          · exact (ih.1 hSa).trans (hcon a h hSa hSh (touch_symm ht) hth)
          · exact absurd rfl ht.1
    apply hne
    refine le_antisymm ?_ ?_
    · exact hasGroups_le hk hn (fun q hq => ⟨q, hST q hq, hq, .refl⟩) fun p q _ _ hp hq h => (key p q hp h).1 hq
    · exact hasGroups_le hn hk hrep fun p q _ _ _ _ h => h.mono hST
  · rintro ⟨p, q, hp, hq, hcp, hcq, hno⟩ e
    classical
    have hTc : T c := (hT c).mpr (Or.inr ⟨rfl, p, hcp, hp⟩)
    obtain ⟨rs, hnd, hlen, hrS, hr⟩ := hn
    obtain ⟨a, ⟨ha, hpa⟩, _⟩ := hr p hp
    obtain ⟨b, ⟨hb, hqb⟩, _⟩ := hr q hq
    have hab : a ≠ b := fun e => hno (hpa.trans (e ▸ hqb.symm))
    have hTab : GroupedIn T b a :=
      ((hqb.symm.mono hST).trans (.tail (.single ⟨hST q hq, hTc, touch_symm hcq⟩) ⟨hTc, hST p hp, hcp⟩)).trans (hpa.mono hST)
    have hle : k ≤ (rs.erase b).length := by
      apply hasGroups_cover hk
      intro x hx
      obtain ⟨y, hy, _, hxy⟩ := hrep x hx
      obtain ⟨r, ⟨hrr, hyr⟩, _⟩ := hr y hy
      by_cases hrb : r = b
      · exact ⟨a, (List.mem_erase_of_ne hab).mpr ha, (hxy.trans (hyr.mono hST)).trans (hrb ▸ hTab)⟩
      · exact ⟨r, (List.mem_erase_of_ne hrb).mpr hrr, hxy.trans (hyr.mono hST)⟩
    rw [List.length_erase_of_mem hb] at hle
    have : 0 < rs.length := List.length_pos_of_mem hb
    omega

/-- The number of a position. -/
def posIdx (n : ℕ) (p : Coord) : ℤ := transToIdx p.1 p.2.1 p.2.2 n

theorem mem_boxShifts {n : ℕ} {p : Coord} : p ∈ boxShifts n ↔ InBox n p := (C48_connections n).2.1 p

/-- Every set in a box has a number of groups. -/
theorem hasGroups_exists {n : ℕ} {S : Coord → Prop} (hS : ∀ p, S p → InBox n p) : ∃ m, HasGroups S m := by
  classical
  let r : Setoid Coord := ⟨GroupedIn S, fun _ => .refl, fun h => h.symm, fun h h' => h.trans h'⟩
  let rep : Coord → Coord := fun p => (Quotient.mk r p).out
  have hrep : ∀ p, GroupedIn S p (rep p) := fun p => (Quotient.mk_out (s := r) p).symm
  refine ⟨_, (((boxShifts n).filter fun p => decide (S p)).map rep).dedup, List.nodup_dedup _, rfl, ?_, ?_⟩
  · intro x hx
    rw [List.mem_dedup, List.mem_map] at hx
    obtain ⟨p, hp, rfl⟩ := hx
    rw [List.mem_filter, decide_eq_true_eq] at hp
    exact (hrep p).mem hp.2
  · intro p hp
    refine ⟨rep p, ⟨?_, hrep p⟩, ?_⟩
    · rw [List.mem_dedup, List.mem_map]
      exact ⟨p, List.mem_filter.mpr ⟨mem_boxShifts.mpr (hS p hp), by simpa using hp⟩, rfl⟩
    · rintro y ⟨hy, hpy⟩
      rw [List.mem_dedup, List.mem_map] at hy
      obtain ⟨q, _, rfl⟩ := hy
      have : Quotient.mk r q = Quotient.mk r p := Quotient.sound ((hrep q).trans hpy.symm)
      simp only [rep, this]

theorem posIdx_inj {n : ℕ} {p q : Coord} (hp : InBox n p) (hq : InBox n q) (h : posIdx n p = posIdx n q) : p = q := by
  obtain ⟨h1, h2, h3⟩ := (C48_index n p.1 p.2.1 p.2.2 q.1 q.2.1 q.2.2 hp.1 hp.2.1 hp.2.2 hq.1 hq.2.1 hq.2.2).2.2 h
  ext <;> assumption

theorem mem_boxConnections {n : ℕ} {x y : ℤ} : (x, y) ∈ boxConnections n ↔
    ∃ p q, InBox n p ∧ InBox n q ∧ Touch p q ∧ x = posIdx n p ∧ y = posIdx n q ∧ x < y := by
  rw [(C48_connections n).2.2.1 x y]
  constructor
  · rintro ⟨p, hp, q, hq, h1, h2, h3, h4⟩
    exact ⟨p, q, mem_boxShifts.mp hp, mem_boxShifts.mp hq, h1, h2, h3, h4⟩
  · rintro ⟨p, q, hp, hq, h1, h2, h3, h4⟩
    exact ⟨p, mem_boxShifts.mpr hp, q, mem_boxShifts.mpr hq, h1, h2, h3, h4⟩

theorem mem_boxConnections2 {x y : ℤ} : (x, y) ∈ boxConnections 2 ↔
    ∃ p q, InBox 2 p ∧ InBox 2 q ∧ Touch p q ∧ x = posIdx 2 p ∧ y = posIdx 2 q ∧ x < y := by
  have h := @mem_boxConnections 2 x y
  rwa [Nat.cast_ofNat] at h

theorem mem_boxConnections1 {x y : ℤ} : (x, y) ∈ boxConnections 1 ↔
    ∃ p q, InBox 1 p ∧ InBox 1 q ∧ Touch p q ∧ x = posIdx 1 p ∧ y = posIdx 1 q ∧ x < y := by
  have h := @mem_boxConnections 1 x y
  rwa [Nat.cast_one] at h

/-- The union-find over the connections of a set counts its groups. -/
theorem groups_count {n : ℕ} {S : Coord → Prop} (hS : ∀ p, S p → InBox n p) {m0 : ℤ → Bool} {os : List (ℤ × ℤ)}
    (hos : ∀ x y, (x, y) ∈ os ↔ ∃ p q, S p ∧ S q ∧ Touch p q ∧ x = posIdx n p ∧ y = posIdx n q ∧ x < y)
    (hact : ∀ x, Active m0 os x ↔ ∃ p, S p ∧ x = posIdx n p)
    (hall : (boxShifts n).map (posIdx n) = (List.range ((2 * n + 1) ^ 3)).map fun i : ℕ => (i : ℤ)) {fuel : ℕ} (hf : os.length < fuel) :
    ∃ p m, runUnionWRoots fuel os (fun x => x, m0) = some (p, m) ∧ HasGroups S (countMask ((2 * n + 1) ^ 3) m) := by
  obtain ⟨par, m, e, h1, h2⟩ := C06_mask_one_per_group m0 os fuel hf
  refine ⟨par, m, e, ?_⟩
  -- connections of numbers and of positions
  have hconn : ∀ x y, Connected os x y → ∀ p, S p → x = posIdx n p → ∃ q, S q ∧ y = posIdx n q ∧ GroupedIn S p q := by
    have key : ∀ x y, Connected os x y → (∀ p, S p → x = posIdx n p → ∃ q, S q ∧ y = posIdx n q ∧ GroupedIn S p q) ∧
        (∀ q, S q → y = posIdx n q → ∃ p, S p ∧ x = posIdx n p ∧ GroupedIn S p q) := by
      intro x y h
      induction h with
      | rel x y h =>
        obtain ⟨p, q, hp, hq, ht, hx, hy, _⟩ := (hos x y).mp h
        refine ⟨fun p' hp' hx' => ?_, fun q' hq' hy' => ?_⟩
        · have := posIdx_inj (hS _ hp) (hS _ hp') (hx.symm.trans hx')
          subst this
          exact ⟨q, hq, hy, .single ⟨hp, hq, ht⟩⟩
        · have := posIdx_inj (hS _ hq) (hS _ hq') (hy.symm.trans hy')
          subst this
          exact ⟨p, hp, hx, .single ⟨hp, hq, ht⟩⟩
      | refl x => exact ⟨fun p hp hx => ⟨p, hp, hx, .refl⟩, fun p hp hx => ⟨p, hp, hx, .refl⟩⟩
      | symm x y _ ih =>
        refine ⟨fun p hp hx => ?_, fun p hp hx => ?_⟩
        · obtain ⟨q, hq, e, h⟩ := ih.2 p hp hx
          exact ⟨q, hq, e, h.symm⟩
        · obtain ⟨q, hq, e, h⟩ := ih.1 p hp hx
          exact ⟨q, hq, e, h.symm⟩
      | trans x y z _ _ ih1 ih2 =>
        refine ⟨fun p hp hx => ?_, fun p hp hx => ?_⟩
        · obtain ⟨q, hq, e, h⟩ := ih1.1 p hp hx
          obtain ⟨r, hr, e', h'⟩ := ih2.1 q hq e
          exact ⟨r, hr, e', h.trans h'⟩
        · obtain ⟨q, hq, e, h⟩ := ih2.2 p hp hx
          obtain ⟨r, hr, e', h'⟩ := ih1.2 q hq e
          exact ⟨r, hr, e', h'.trans h⟩
    exact fun x y h => (key x y h).1
  have hconn' : ∀ p q, GroupedIn S p q → Connected os (posIdx n p) (posIdx n q) := by
    intro p q h
    induction h with
    | refl => exact .refl _
    | @tail b c _ h ih =>
      refine .trans _ _ _ ih ?_
      rcases lt_trichotomy (posIdx n b) (posIdx n c) with hlt | heq | hlt
      · exact .rel _ _ ((hos _ _).mpr ⟨b, c, h.1, h.2.1, h.2.2, rfl, rfl, hlt⟩)
      · rw [heq]; exact .refl _
      · exact .symm _ _ (.rel _ _ ((hos _ _).mpr ⟨c, b, h.2.1, h.1, touch_symm h.2.2, rfl, rfl, hlt⟩))
  -- marked positions
  have hmark : ∀ p, InBox n p → m (posIdx n p) = true → S p := by
    intro p hp h
    obtain ⟨a, ha, hc⟩ := h1 _ h
    obtain ⟨q, hq, rfl⟩ := (hact a).mp ha
    obtain ⟨r, hr, e, _⟩ := hconn _ _ hc q hq rfl
    rw [posIdx_inj hp (hS _ hr) e]; exact hr
  refine ⟨(boxShifts n).filter fun p => m (posIdx n p), ((C48_connections n).1).filter _, ?_, ?_, ?_⟩
  · have e1 : ((boxShifts n).filter fun p => m (posIdx n p)).length = (((boxShifts n).map (posIdx n)).filter m).length := by
      rw [List.filter_map, List.length_map]; rfl
    rw [e1, hall, List.filter_map, List.length_map]; rfl
  · intro r hr
    rw [List.mem_filter] at hr
    exact hmark r (mem_boxShifts.mp hr.1) hr.2
  · intro p hp
    obtain ⟨x, ⟨hx, hc⟩, hu⟩ := h2 (posIdx n p) ((hact _).mpr ⟨p, hp, rfl⟩)
    obtain ⟨q, hq, rfl, hg⟩ := hconn _ _ hc p hp rfl
    refine ⟨q, ⟨List.mem_filter.mpr ⟨mem_boxShifts.mpr (hS q hq), hx⟩, hg⟩, ?_⟩
    rintro r ⟨hr, hgr⟩
    rw [List.mem_filter] at hr
    exact posIdx_inj (mem_boxShifts.mp hr.1) (hS q hq) (hu _ ⟨hr.2, hconn' _ _ hgr⟩)

theorem box_numbers1 : (boxShifts 1).map (posIdx 1) = (List.range ((2 * 1 + 1) ^ 3)).map fun i : ℕ => (i : ℤ) := by decide +kernel
theorem box_numbers2 : (boxShifts 2).map (posIdx 2) = (List.range ((2 * 2 + 1) ^ 3)).map fun i : ℕ => (i : ℤ) := by decide +kernel

section scan
variable {α : Type*} [LinearOrder α] {s : Shape} {data : ℕ → α} {vac : ℕ → Bool} {greater : Bool} {v : ℕ}

theorem beyond_iff {a b : α} : beyond greater a b = true ↔ Farther greater a b := by
  cases greater <;> simp [beyond, Farther]

theorem farther_ne {a b : α} (h : Farther greater a b) : a ≠ b := by
  cases greater <;> simp only [Farther, if_true, Bool.false_eq_true, if_false] at h
  · exact h.ne
  · exact h.ne'

/-- Write an entry if there is something to write. -/
def writeAt {β : Type*} (m : ℤ → β) (n : ℤ) : Option β → ℤ → β
  | some b => Function.update m n b
  | none => m

theorem foldl_write_notin {β : Type*} (val : Coord × ℕ → Option β) (y : ℤ) : ∀ (l : List (Coord × ℕ)) (m : ℤ → β), (∀ x ∈ l, (x.2 : ℤ) ≠ y) →
    l.foldl (fun m x => writeAt m (x.2 : ℤ) (val x)) m y = m y := by
  intro l
  induction l with
  | nil => intro m _; rfl
  | cons x l ih =>
    intro m h
    rw [List.foldl_cons, ih _ fun z hz => h z (by simp [hz])]
    cases val x with
    | none => rfl
    | some b => exact Function.update_of_ne (h x (by simp)).symm _ _

theorem foldl_write_mem {β : Type*} (val : Coord × ℕ → Option β) : ∀ (l : List (Coord × ℕ)) (m : ℤ → β), (l.map fun x => (x.2 : ℤ)).Nodup →
    ∀ x ∈ l, l.foldl (fun m x => writeAt m (x.2 : ℤ) (val x)) m (x.2 : ℤ) =
      (val x).getD (m x.2) := by
  intro l
  induction l with
  | nil => intro m _ x hx; simp at hx
  | cons a l ih =>
    intro m hnd x hx
    rw [List.map_cons, List.nodup_cons] at hnd
    rw [List.foldl_cons]
    rcases List.mem_cons.mp hx with rfl | hx
    · rw [foldl_write_notin val _ l _ fun z hz e => hnd.1 (List.mem_map.mpr ⟨z, hz, e⟩)]
      cases val x with
      | none => rfl
      | some b => simp [writeAt]
    · rw [ih _ hnd.2 x hx]
      have hne : (x.2 : ℤ) ≠ a.2 := fun e => hnd.1 (List.mem_map.mpr ⟨x, hx, e⟩)
      cases val a with
      | none => rfl
      | some b => simp only [writeAt, Function.update_of_ne hne]

/-- The value recorded for a position of the larger box. -/
def code5 (s : Shape) (data : ℕ → α) (vac : ℕ → Bool) (greater : Bool) (v : ℕ) (p : Coord) : ℕ :=
  if vac (nbr s v p) then 0 else if beyond greater (data (nbr s v p)) (data v) then 2 else if data (nbr s v p) = data v then 1 else 0

theorem zip2_num : ∀ x ∈ (boxShifts 2).zipIdx, (x.2 : ℤ) = posIdx 2 x.1 := by decide +kernel
theorem zip1_num : ∀ x ∈ (boxShifts 1).zipIdx, (x.2 : ℤ) = posIdx 1 x.1 := by decide +kernel
theorem zip2_nodup : ((boxShifts 2).zipIdx.map fun x => (x.2 : ℤ)).Nodup := by decide +kernel
theorem zip1_nodup : ((boxShifts 1).zipIdx.map fun x => (x.2 : ℤ)).Nodup := by decide +kernel

theorem exists_zip {l : List Coord} {p : Coord} (h : p ∈ l) : ∃ n, (p, n) ∈ l.zipIdx := by
  obtain ⟨i, hi, rfl⟩ := List.getElem_of_mem h
  exact ⟨i, List.mem_zipIdx_iff_getElem?.mpr (by simp [hi])⟩

theorem scan5_at {p : Coord} (hp : InBox 2 p) :
    scan5 s data vac greater v (boxShifts 2).zipIdx (fun _ => 0) (posIdx 2 p) = code5 s data vac greater v p := by
  obtain ⟨n, hn⟩ := exists_zip (mem_boxShifts.mpr hp)
  have e := zip2_num _ hn
  simp only at e
  have h := foldl_write_mem (fun x => if vac (nbr s v x.1) then none else if beyond greater (data (nbr s v x.1)) (data v) then some 2
    else if data (nbr s v x.1) = data v then some 1 else none) (boxShifts 2).zipIdx (fun _ => 0) zip2_nodup _ hn
  rw [← e]
  unfold scan5 code5
  have hfun : (fun (m : ℤ → ℕ) (x : Coord × ℕ) =>
      if vac (nbr s v x.1) then m
      else if beyond greater (data (nbr s v x.1)) (data v) then Function.update m (x.2 : ℤ) 2
      else if data (nbr s v x.1) = data v then Function.update m (x.2 : ℤ) 1
      else m) = fun m x => writeAt m (x.2 : ℤ) (if vac (nbr s v x.1) then none
        else if beyond greater (data (nbr s v x.1)) (data v) then some 2 else if data (nbr s v x.1) = data v then some 1 else none) := by
    funext m x
    by_cases h1 : vac (nbr s v x.1) = true
    · simp [h1, writeAt]
    · by_cases h2 : beyond greater (data (nbr s v x.1)) (data v) = true
      · simp [h1, h2, writeAt]
      · by_cases h3 : data (nbr s v x.1) = data v
        · rw [if_neg h1, if_neg h2, if_pos h3, if_neg h1, if_neg h2, if_pos h3]; rfl
        · simp [h1, h2, h3, writeAt]
  rw [hfun]
  refine h.trans ?_
  simp only
  by_cases h1 : vac (nbr s v p) = true
  · simp [h1]
  · by_cases h2 : beyond greater (data (nbr s v p)) (data v) = true
    · simp [h1, h2]
    · by_cases h3 : data (nbr s v p) = data v
      · rw [if_neg h1, if_neg h2, if_pos h3, if_neg h1, if_neg h2, if_pos h3]; rfl
      · simp [h1, h2, h3]

theorem code5_two {p : Coord} (hp : InBox 2 p) : code5 s data vac greater v p = 2 ↔ FarIn 2 s data vac greater v p := by
  unfold code5 FarIn
  rw [← beyond_iff]
  by_cases h1 : vac (nbr s v p) = true
  · simp [h1]
  · by_cases h2 : beyond greater (data (nbr s v p)) (data v) = true
    · simp [h1, h2, hp]
    · by_cases h3 : data (nbr s v p) = data v
      · rw [if_neg h1, if_neg h2, if_pos h3]; simp [h2]
      · simp [h1, h2, h3]

theorem code5_one {p : Coord} (hp : InBox 2 p) : code5 s data vac greater v p = 1 ↔ LevelIn 2 s data vac v p := by
  unfold code5 LevelIn
  by_cases h1 : vac (nbr s v p) = true
  · simp [h1]
  · by_cases h3 : data (nbr s v p) = data v
    · have h2 : ¬ beyond greater (data (nbr s v p)) (data v) = true := fun h => farther_ne (beyond_iff.mp h) h3
      rw [if_neg h1, if_neg h2, if_pos h3]; simp [h1, h3, hp]
    · by_cases h2 : beyond greater (data (nbr s v p)) (data v) = true
      · simp [h1, h2, h3]
      · simp [h1, h2, h3]

theorem code5_le (p : Coord) : code5 s data vac greater v p ≤ 2 := by
  unfold code5; split_ifs <;> omega

theorem scan5_off {x : ℤ} (h : ∀ p, InBox 2 p → x ≠ posIdx 2 p) :
    scan5 s data vac greater v (boxShifts 2).zipIdx (fun _ => 0) x = 0 := by
  unfold scan5
  have key : ∀ (l : List (Coord × ℕ)) (m : ℤ → ℕ), (∀ y ∈ l, (y.2 : ℤ) ≠ x) → l.foldl (fun (m : ℤ → ℕ) (x : Coord × ℕ) =>
      if vac (nbr s v x.1) then m
      else if beyond greater (data (nbr s v x.1)) (data v) then Function.update m (x.2 : ℤ) 2
      else if data (nbr s v x.1) = data v then Function.update m (x.2 : ℤ) 1
      else m) m x = m x := by
    intro l
    induction l with
    | nil => intro m _; rfl
    | cons a l ih =>
      intro m hl
      rw [List.foldl_cons, ih _ fun y hy => hl y (by simp [hy])]
      have hne : x ≠ a.2 := (hl a (by simp)).symm
      split_ifs <;> simp [Function.update_of_ne hne]
  refine key _ _ fun y hy e => ?_
  exact h y.1 (mem_boxShifts.mp (List.fst_mem_of_mem_zipIdx hy)) (by rw [← e, zip2_num y hy])

theorem runUnionWRoots_append {β : Type*} [DecidableEq β] (fuel : ℕ) : ∀ (l1 l2 : List (β × β)) (st : (β → β) × (β → Bool)),
    runUnionWRoots fuel (l1 ++ l2) st = (runUnionWRoots fuel l1 st).bind (runUnionWRoots fuel l2) := by
  intro l1
  induction l1 with
  | nil => intro l2 st; rfl
  | cons x l1 ih =>
    intro l2 st
    simp only [List.cons_append, runUnionWRoots]
    cases unionWRoots fuel st.1 st.2 x.1 x.2 with
    | none => rfl
    | some r => exact ih l2 r

/-- The second check compares the number of groups without and with the voxels at the value. -/
theorem isSaddle_spec : ∃ b n k, isSaddle s data vac greater v = some b ∧ HasGroups (FarIn 2 s data vac greater v) n ∧
    HasGroups (FarOrLevelIn 2 s data vac greater v) k ∧ (b = true ↔ n ≠ k) := by
  set m := scan5 s data vac greater v (boxShifts 2).zipIdx (fun _ => 0) with hm
  have hat : ∀ {p}, InBox 2 p → m (posIdx 2 p) = code5 s data vac greater v p := fun hp => scan5_at hp
  have hoff : ∀ x, m x ≠ 0 → ∃ p, InBox 2 p ∧ x = posIdx 2 p := by
    intro x hx
    by_contra hcon
    push Not at hcon
    exact hx (scan5_off hcon)
  set l1 := (boxConnections 2).filter fun c => min (m c.1) (m c.2) == 2 with hl1
  set l2 := (boxConnections 2).filter fun c => min (m c.1) (m c.2) == 1 with hl2
  have hlen : l1.length + l2.length ≤ (boxConnections 2).length := by
    rw [hl1, hl2, ← List.countP_eq_length_filter, ← List.countP_eq_length_filter]
    have := List.length_eq_countP_add_countP (fun c : ℤ × ℤ => min (m c.1) (m c.2) == 2) (l := boxConnections 2)
    rw [this]
    refine Nat.add_le_add_left (List.countP_mono_left fun c _ h => ?_) _
    simp only [beq_iff_eq] at h
    simp [h]
  have hfar : ∀ {p}, InBox 2 p → (m (posIdx 2 p) = 2 ↔ FarIn 2 s data vac greater v p) := fun hp => by rw [hat hp, code5_two hp]
  have hlev : ∀ {p}, InBox 2 p → (m (posIdx 2 p) = 1 ↔ LevelIn 2 s data vac v p) := fun hp => by rw [hat hp, code5_one hp]
  have hle : ∀ {p}, InBox 2 p → m (posIdx 2 p) ≤ 2 := fun hp => by rw [hat hp]; exact code5_le _
  have hmem1 : ∀ x y, (x, y) ∈ l1 ↔ ∃ p q, FarIn 2 s data vac greater v p ∧ FarIn 2 s data vac greater v q ∧ Touch p q ∧
      x = posIdx 2 p ∧ y = posIdx 2 q ∧ x < y := by
    intro x y
    rw [hl1, List.mem_filter]
    rw [mem_boxConnections2]
    constructor
    · rintro ⟨⟨p, q, hp, hq, ht, rfl, rfl, hlt⟩, h⟩
      have h1 := hle hp
      have h2 := hle hq
      simp only [beq_iff_eq] at h
      exact ⟨p, q, (hfar hp).mp (by omega), (hfar hq).mp (by omega), ht, rfl, rfl, hlt⟩
    · rintro ⟨p, q, hp, hq, ht, rfl, rfl, hlt⟩
      refine ⟨⟨p, q, hp.1, hq.1, ht, rfl, rfl, hlt⟩, ?_⟩
      simp [(hfar hp.1).mpr hp, (hfar hq.1).mpr hq]
  have hpos : ∀ {p}, InBox 2 p → (m (posIdx 2 p) ≠ 0 ↔ FarIn 2 s data vac greater v p ∨ LevelIn 2 s data vac v p) := by
    intro p hp
    rw [← hfar hp, ← hlev hp]
    have := hle hp
    omega
  have hmem2 : ∀ x y, (x, y) ∈ l1 ++ l2 ↔ ∃ p q, FarOrLevelIn 2 s data vac greater v p ∧ FarOrLevelIn 2 s data vac greater v q ∧ Touch p q ∧
      x = posIdx 2 p ∧ y = posIdx 2 q ∧ x < y := by
    intro x y
    have e : (x, y) ∈ l1 ++ l2 ↔ (x, y) ∈ boxConnections 2 ∧ (min (m x) (m y) = 2 ∨ min (m x) (m y) = 1) := by
      rw [List.mem_append, hl1, hl2, List.mem_filter, List.mem_filter]
      simp only [beq_iff_eq]
      rw [and_or_left]
    rw [e, mem_boxConnections2]
    constructor
    · rintro ⟨⟨p, q, hp, hq, ht, rfl, rfl, hlt⟩, h⟩
      have h1 := (hpos hp).mp (by omega)
      have h2 := (hpos hq).mp (by omega)
      refine ⟨p, q, ?_, ?_, ht, rfl, rfl, hlt⟩
      · rcases h1 with h1 | h1
        · exact Or.inl h1
        · exact Or.inr ⟨h1, q, ht, h2⟩
      · rcases h2 with h2 | h2
        · exact Or.inl h2
        · exact Or.inr ⟨h2, p, touch_symm ht, h1⟩
    · rintro ⟨p, q, hp, hq, ht, rfl, rfl, hlt⟩
      have hb : ∀ {p}, FarOrLevelIn 2 s data vac greater v p → InBox 2 p := by
        rintro p (h | h)
        · exact h.1
        · exact h.1.1
      have hn : ∀ {p}, FarOrLevelIn 2 s data vac greater v p → m (posIdx 2 p) ≠ 0 := by
        intro p h
        rw [hpos (hb h)]
        rcases h with h | h
        · exact Or.inl h
        · exact Or.inr h.1
      refine ⟨⟨p, q, hb hp, hb hq, ht, rfl, rfl, hlt⟩, ?_⟩
      have h1 := hn hp
      have h2 := hn hq
      have h3 := hle (hb hp)
      have h4 := hle (hb hq)
      omega
  have hact1 : ∀ x, Active (fun x => m x == 2) l1 x ↔ ∃ p, FarIn 2 s data vac greater v p ∧ x = posIdx 2 p := by
    intro x
    constructor
    · rintro (h | ⟨⟨a, b⟩, he, h⟩)
      · simp only [beq_iff_eq] at h
        obtain ⟨p, hp, rfl⟩ := hoff x (by omega)
        exact ⟨p, (hfar hp).mp h, rfl⟩
      · obtain ⟨p, q, hp, hq, _, e1, e2, _⟩ := (hmem1 a b).mp he
        rcases h with h | h
        · exact ⟨p, hp, by rw [← h]; exact e1⟩
        · exact ⟨q, hq, by rw [← h]; exact e2⟩
    · rintro ⟨p, hp, rfl⟩
      exact Or.inl (by simpa using (hfar hp.1).mpr hp)
  have hact2 : ∀ x, Active (fun x => m x == 2) (l1 ++ l2) x ↔ ∃ p, FarOrLevelIn 2 s data vac greater v p ∧ x = posIdx 2 p := by
    intro x
    constructor
    · rintro (h | ⟨⟨a, b⟩, he, h⟩)
      · simp only [beq_iff_eq] at h
        obtain ⟨p, hp, rfl⟩ := hoff x (by omega)
        exact ⟨p, Or.inl ((hfar hp).mp h), rfl⟩
      · obtain ⟨p, q, hp, hq, _, e1, e2, _⟩ := (hmem2 a b).mp he
        rcases h with h | h
        · exact ⟨p, hp, by rw [← h]; exact e1⟩
        · exact ⟨q, hq, by rw [← h]; exact e2⟩
    · rintro ⟨p, hp, rfl⟩
      rcases hp with hp | ⟨hp, q, ht, hq⟩
      · exact Or.inl (by simpa using (hfar hp.1).mpr hp)
      · have hpS : FarOrLevelIn 2 s data vac greater v p := Or.inr ⟨hp, q, ht, hq⟩
        have hqS : FarOrLevelIn 2 s data vac greater v q := by
          rcases hq with hq | hq
          · exact Or.inl hq
          · exact Or.inr ⟨hq, p, touch_symm ht, Or.inr hp⟩
        have hqb : InBox 2 q := by
          rcases hq with hq | hq <;> exact hq.1
        rcases lt_trichotomy (posIdx 2 p) (posIdx 2 q) with hlt | heq | hlt
        · exact Or.inr ⟨(posIdx 2 p, posIdx 2 q), (hmem2 _ _).mpr ⟨p, q, hpS, hqS, ht, rfl, rfl, hlt⟩, Or.inl rfl⟩
        · exact absurd (posIdx_inj hp.1 hqb heq) ht.1
        · exact Or.inr ⟨(posIdx 2 q, posIdx 2 p), (hmem2 _ _).mpr ⟨q, p, hqS, hpS, touch_symm ht, rfl, rfl, hlt⟩, Or.inr rfl⟩
  obtain ⟨p1, m1, e1, g1⟩ := groups_count (fun p hp => hp.1) hmem1 hact1 box_numbers2 (fuel := (boxConnections 2).length + 1) (by omega)
  obtain ⟨p2, m2, e2, g2⟩ := groups_count (n := 2) (S := FarOrLevelIn 2 s data vac greater v)
    (by rintro p (h | h); exacts [h.1, h.1.1]) hmem2 hact2 box_numbers2 (fuel := (boxConnections 2).length + 1)
    (by rw [List.length_append]; omega)
  rw [runUnionWRoots_append, e1] at e2
  refine ⟨decide (countMask 125 m1 ≠ countMask 125 m2), _, _, ?_, g1, g2, ?_⟩
  · unfold isSaddle
    simp only [← hm, ← hl1, ← hl2, e1, Option.bind_eq_bind, Option.bind_some] at e2 ⊢
    rw [e2]
    rfl
  · simp

/-! ### The first check -/

/-- No vacuum and no equal value among the neighbours seen. -/
def CleanList (s : Shape) (data : ℕ → α) (vac : ℕ → Bool) (v : ℕ) (l : List (Coord × ℕ)) : Prop :=
  ∀ y ∈ l, y.2 ≠ 13 → vac (nbr s v y.1) = false ∧ data (nbr s v y.1) ≠ data v

/-- What the loop over the neighbours finds. -/
def ScanFacts (s : Shape) (data : ℕ → α) (vac : ℕ → Bool) (greater : Bool) (v : ℕ) (l : List (Coord × ℕ)) (m : ℤ → Bool) : Scan3 → Prop
  | .vacuum => ∃ l1 x l2, l = l1 ++ x :: l2 ∧ x.2 ≠ 13 ∧ vac (nbr s v x.1) = true ∧ CleanList s data vac v l1
  | .same => ∃ l1 x l2, l = l1 ++ x :: l2 ∧ x.2 ≠ 13 ∧ vac (nbr s v x.1) = false ∧ data (nbr s v x.1) = data v ∧ CleanList s data vac v l1
  | .mask m' => CleanList s data vac v l ∧ m' = l.foldl (fun m x => writeAt m (x.2 : ℤ)
      (if x.2 ≠ 13 ∧ beyond greater (data (nbr s v x.1)) (data v) = true then some true else none)) m

theorem scan3_spec : ∀ (l : List (Coord × ℕ)) (m : ℤ → Bool), ScanFacts s data vac greater v l m (scan3 s data vac greater v l m) := by
  intro l
  induction l with
  | nil => intro m; exact ⟨fun y hy => by simp at hy, rfl⟩
  | cons x l ih =>
    obtain ⟨t, n⟩ := x
    intro m
    have lift : ∀ (r : Scan3) (m' : ℤ → Bool), ScanFacts s data vac greater v l m' r →
        (n ≠ 13 → vac (nbr s v t) = false ∧ data (nbr s v t) ≠ data v) →
        (m' = writeAt m (n : ℤ) (if n ≠ 13 ∧ beyond greater (data (nbr s v t)) (data v) = true then some true else none)) →
        ScanFacts s data vac greater v ((t, n) :: l) m r := by
      intro r m' h hc hm
      have hcl : ∀ l1, CleanList s data vac v l1 → CleanList s data vac v ((t, n) :: l1) := by
        intro l1 h1 y hy hy13
        rcases List.mem_cons.mp hy with rfl | hy
        · exact hc hy13
        · exact h1 y hy hy13
      cases r with
      | vacuum =>
        obtain ⟨l1, x, l2, e, h1, h2, h3⟩ := h
        exact ⟨(t, n) :: l1, x, l2, by rw [e]; rfl, h1, h2, hcl _ h3⟩
      | same =>
        obtain ⟨l1, x, l2, e, h1, h2, h2', h3⟩ := h
        exact ⟨(t, n) :: l1, x, l2, by rw [e]; rfl, h1, h2, h2', hcl _ h3⟩
      | mask m1 =>
        obtain ⟨h1, h2⟩ := h
        refine ⟨hcl _ h1, ?_⟩
        rw [h2, hm]; rfl
    unfold scan3
    by_cases h13 : n = 13
    · rw [if_pos h13]
      exact lift _ m (ih m) (fun h => absurd h13 h) (by rw [if_neg (by tauto)]; rfl)
    · rw [if_neg h13]
      by_cases h1 : vac (nbr s v t) = true
      · rw [if_pos h1]
        exact ⟨[], (t, n), l, rfl, h13, h1, fun y hy => by simp at hy⟩
      · rw [if_neg h1]
        have h1' : vac (nbr s v t) = false := by simpa using h1
        by_cases h2 : beyond greater (data (nbr s v t)) (data v) = true
        · rw [if_pos h2]
          exact lift _ _ (ih _) (fun _ => ⟨h1', farther_ne (beyond_iff.mp h2)⟩) (by rw [if_pos ⟨h13, h2⟩]; rfl)
        · rw [if_neg h2]
          by_cases h3 : data (nbr s v t) = data v
          · rw [if_pos h3]
            exact ⟨[], (t, n), l, rfl, h13, h1', h3, fun y hy => by simp at hy⟩
          · rw [if_neg h3]
            exact lift _ _ (ih _) (fun _ => ⟨h1', h3⟩) (by rw [if_neg (by tauto)]; rfl)

theorem zip1_filter : ((boxShifts 1).zipIdx.filter fun x => decide (x.2 ≠ 13)).map Prod.fst = neighbors26 := by decide +kernel
theorem zip1_centre : ∀ x ∈ (boxShifts 1).zipIdx, x.2 = 13 ↔ x.1 = (0, 0, 0) := by decide +kernel

theorem nbr_zero (hv : v < s.size) : nbr s v (0, 0, 0) = v := by
  have hp := pos_of_lt_size hv
  have hr := flatToCoords_inRange (s := s) (v := v) (by positivity) (by exact_mod_cast hv) hp
  have h : nbr s v (0, 0, 0) < s.size := nbr_lt hv (by unfold StepFits; simp)
  have e : ((nbr s v (0, 0, 0) : ℕ) : ℤ) = v := by
    rw [nbr_cast hv (by unfold StepFits; simp)]
    have e1 : addC (flatToCoords s v) (0, 0, 0) = flatToCoords s v := by simp [addC]
    have e2 : wrapPoint s (flatToCoords s v) = flatToCoords s v := by
      obtain ⟨⟨a1, a2⟩, ⟨b1, b2⟩, ⟨c1, c2⟩⟩ := hr
      unfold wrapPoint wrapAxis
      rw [if_neg (by omega), if_neg (by omega), if_neg (by omega), if_neg (by omega), if_neg (by omega), if_neg (by omega)]
    rw [e1, e2, coordsToFlat_flatToCoords]
  exact_mod_cast e

/-- The first check. -/
theorem possibleSaddle_spec (hv : v < s.size) : ∃ b, possibleSaddle s data vac greater v = some b ∧ (b = true ↔
    (∃ l1 t l2, neighbors26 = l1 ++ t :: l2 ∧ vac (nbr s v t) = false ∧ data (nbr s v t) = data v ∧
      ∀ u ∈ l1, vac (nbr s v u) = false ∧ data (nbr s v u) ≠ data v) ∨
    ((∀ t ∈ neighbors26, vac (nbr s v t) = false ∧ data (nbr s v t) ≠ data v) ∧ ∃ n, HasGroups (FarIn 1 s data vac greater v) n ∧ 1 < n)) := by
  have hspec := scan3_spec (s := s) (data := data) (vac := vac) (greater := greater) (v := v) (boxShifts 1).zipIdx (fun _ => false)
  have hclean : ∀ l : List (Coord × ℕ), CleanList s data vac v l ↔
      ∀ u ∈ (l.filter fun x => decide (x.2 ≠ 13)).map Prod.fst, vac (nbr s v u) = false ∧ data (nbr s v u) ≠ data v := by
    intro l
    constructor
    · intro h u hu
      obtain ⟨x, hx, rfl⟩ := List.mem_map.mp hu
      rw [List.mem_filter, decide_eq_true_eq] at hx
      exact h x hx.1 hx.2
    · intro h y hy h13
      exact h y.1 (List.mem_map.mpr ⟨y, List.mem_filter.mpr ⟨hy, by simpa using h13⟩, rfl⟩)
  have hsplit : ∀ l1 x l2, (boxShifts 1).zipIdx = l1 ++ x :: l2 → x.2 ≠ 13 →
      neighbors26 = (l1.filter fun x => decide (x.2 ≠ 13)).map Prod.fst ++ x.1 :: (l2.filter fun x => decide (x.2 ≠ 13)).map Prod.fst := by
    intro l1 x l2 e h13
    rw [← zip1_filter, e, List.filter_append, List.filter_cons_of_pos (by simpa using h13), List.map_append, List.map_cons]
  have split_unique : ∀ {P Q : Coord → Prop} {l1 l1' l2 l2' : List Coord} {t t' : Coord}, l1 ++ t :: l2 = l1' ++ t' :: l2' →
      (∀ u ∈ l1, P u) → ¬ P t → (∀ u ∈ l1', P u) → ¬ P t' → t = t' := by
    intro P Q l1
    induction l1 with
    | nil =>
      intro l1' l2 l2' t t' e h1 h2 h3 h4
      cases l1' with
      | nil => simp only [List.nil_append, List.cons.injEq] at e; exact e.1
      | cons a l => simp only [List.nil_append, List.cons_append, List.cons.injEq] at e; exact absurd (h3 a (by simp)) (e.1 ▸ h2)
    | cons b l1 ih =>
      intro l1' l2 l2' t t' e h1 h2 h3 h4
      cases l1' with
      | nil => simp only [List.nil_append, List.cons_append, List.cons.injEq] at e; exact absurd (h1 b (by simp)) (e.1 ▸ h4)
      | cons a l =>
        simp only [List.cons_append, List.cons.injEq] at e
        exact ih e.2 (fun u hu => h1 u (by simp [hu])) h2 (fun u hu => h3 u (by simp [hu])) h4
  unfold possibleSaddle
  cases hsc : scan3 s data vac greater v (boxShifts 1).zipIdx (fun _ => false) with
  | vacuum =>
    rw [hsc] at hspec
    obtain ⟨l1, x, l2, e, h13, h1, h2⟩ := hspec
    have e' := hsplit l1 x l2 e h13
    rw [hclean] at h2
    refine ⟨false, rfl, ?_⟩
    simp only [Bool.false_eq_true, false_iff, not_or]
    refine ⟨?_, fun h => ?_⟩
    · rintro ⟨k1, t, k2, ek, h3, h4, h5⟩
      have := split_unique (P := fun u => vac (nbr s v u) = false ∧ data (nbr s v u) ≠ data v) (Q := fun _ => True)
        (e'.symm.trans ek) h2 (by simp [h1]) h5 (by simp [h4])
      rw [this, h3] at h1
      cases h1
    · have := (h.1 x.1 (by rw [e']; simp)).1
      rw [h1] at this
      cases this
  | same =>
    rw [hsc] at hspec
    obtain ⟨l1, x, l2, e, h13, h1, h1', h2⟩ := hspec
    rw [hclean] at h2
    exact ⟨true, rfl, by simp only [true_iff]; exact Or.inl ⟨_, _, _, hsplit l1 x l2 e h13, h1, h1', h2⟩⟩
  | mask m =>
    rw [hsc] at hspec
    obtain ⟨hcl, hm⟩ := hspec
    have hcl' := (hclean _).mp hcl
    rw [zip1_filter] at hcl'
    have hat : ∀ {p}, InBox 1 p → (m (posIdx 1 p) = true ↔ FarIn 1 s data vac greater v p) := by
      intro p hp
      obtain ⟨n, hn⟩ := exists_zip (mem_boxShifts.mpr hp)
      have e := zip1_num _ hn
      have h := foldl_write_mem (fun x : Coord × ℕ => if x.2 ≠ 13 ∧ beyond greater (data (nbr s v x.1)) (data v) = true then some true else none)
        (boxShifts 1).zipIdx (fun _ => false) zip1_nodup _ hn
      simp only at e h
      rw [← e, hm, h]
      unfold FarIn
      rw [← beyond_iff]
      by_cases h13 : n = 13
      · have hp0 := (zip1_centre _ hn).mp h13
        simp only at hp0
        have hn0 : beyond greater (data v) (data v) = false := by cases greater <;> simp [beyond]
        rw [if_neg (by tauto), hp0, nbr_zero hv, hn0]
        simp
      · by_cases h2 : beyond greater (data (nbr s v p)) (data v) = true
        · have h3 := (hcl (p, n) hn h13).1
          simp only at h3
          rw [if_pos ⟨h13, h2⟩]
          simp [h2, h3, hp]
        · rw [if_neg (by tauto)]
          simp [h2]
    have hoff : ∀ x, m x = true → ∃ p, InBox 1 p ∧ x = posIdx 1 p := by
      intro x hx
      by_contra hcon
      push Not at hcon
      rw [hm, foldl_write_notin] at hx
      · cases hx
      · intro y hy e
        exact hcon y.1 (mem_boxShifts.mp (List.fst_mem_of_mem_zipIdx hy)) (by rw [← e, zip1_num y hy])
    set os := (boxConnections 1).filter fun c => m c.1 && m c.2 with hos
    have hmem : ∀ x y, (x, y) ∈ os ↔ ∃ p q, FarIn 1 s data vac greater v p ∧ FarIn 1 s data vac greater v q ∧ Touch p q ∧
        x = posIdx 1 p ∧ y = posIdx 1 q ∧ x < y := by
      intro x y
      rw [hos, List.mem_filter, mem_boxConnections1, Bool.and_eq_true]
      constructor
      · rintro ⟨⟨p, q, hp, hq, ht, rfl, rfl, hlt⟩, h1, h2⟩
        exact ⟨p, q, (hat hp).mp h1, (hat hq).mp h2, ht, rfl, rfl, hlt⟩
      · rintro ⟨p, q, hp, hq, ht, rfl, rfl, hlt⟩
        exact ⟨⟨p, q, hp.1, hq.1, ht, rfl, rfl, hlt⟩, (hat hp.1).mpr hp, (hat hq.1).mpr hq⟩
    have hact : ∀ x, Active m os x ↔ ∃ p, FarIn 1 s data vac greater v p ∧ x = posIdx 1 p := by
      intro x
      constructor
      · rintro (h | ⟨⟨a, b⟩, he, h⟩)
        · obtain ⟨p, hp, rfl⟩ := hoff x h
          exact ⟨p, (hat hp).mp h, rfl⟩
        · obtain ⟨p, q, hp, hq, _, e1, e2, _⟩ := (hmem a b).mp he
          rcases h with h | h
          · exact ⟨p, hp, by rw [← h]; exact e1⟩
          · exact ⟨q, hq, by rw [← h]; exact e2⟩
      · rintro ⟨p, hp, rfl⟩
        exact Or.inl ((hat hp.1).mpr hp)
    have hlen : os.length ≤ (boxConnections 1).length := List.length_filter_le _ _
    obtain ⟨p1, m1, e1, g1⟩ := groups_count (fun p hp => hp.1) hmem hact box_numbers1 (fuel := (boxConnections 1).length + 1) (by omega)
    refine ⟨decide (1 < countMask 27 m1), by change Option.map _ (runUnionWRoots _ os _) = _; rw [e1]; rfl, ?_⟩
    rw [decide_eq_true_eq]
    constructor
    · intro h
      exact Or.inr ⟨hcl', _, g1, h⟩
    · rintro (⟨l1, t, l2, e, _, h2, _⟩ | ⟨_, n, hn, h⟩)
      · exact absurd h2 (hcl' t (by rw [e]; simp)).2
      · rw [hasGroups_unique hn g1] at h; exact h

end scan
end BaderKit
