import Verif.Lemmas.GraphPlot
import Mathlib.Tactic.NormNum
import Mathlib.Data.Rat.Floor
/-!
# C108: the picture of a bifurcation graph
-/
set_option linter.unusedSectionVars false
namespace BaderKit

variable {K : Type} [Field K] [LinearOrder K] [IsStrictOrderedRing K]

/-! ## Specification -/

/-- The irreducible nodes of a graph, in the order of its list. -/
def leafKeys (g : BGraph K) : List ℕ := g.nodes.filter (fun k => !(g.node k).red)

/-- A good assignment of heights: the irreducible nodes are equally spaced from 0 to 2 in some order, a reducible node is at the mean height of its
children, and the parts below two nodes of which none is below the other are on different sides of some level. -/
structure GoodHeights (g : BGraph K) (h : ℕ → K) : Prop where
  leaves : ∃ L : List ℕ, L.Perm (leafKeys g) ∧ ∀ i (hi : i < L.length), h L[i] = if L.length = 1 then 0 else 2 * (i : K) / ((L.length : K) - 1)
  mean : ∀ k ∈ g.nodes, (g.node k).red = true →
    (((g.node k).children.length : K) * h k = ((g.node k).children.map h).sum)
  apart : ∀ a ∈ g.nodes, ∀ b ∈ g.nodes, ¬ TreeWithin g a b → ¬ TreeWithin g b a →
    (∀ x z, TreeWithin g x a → TreeWithin g z b → h x < h z) ∨ (∀ x z, TreeWithin g x a → TreeWithin g z b → h z < h x)
  range : ∀ k ∈ g.nodes, 0 ≤ h k ∧ h k ≤ 2

/-- The name of a node in the legend. -/
def legendName (g : BGraph K) (k : ℕ) : String := if (g.node k).red = true then ((g.node k).subtype).getD "" else (g.node k).feature

/-- The shape of a node at a height. -/
def shapeOf (rnd : K → K) (g : BGraph K) (h : ℕ → K) (listed : ℕ → Bool) (k : ℕ) : Shown K :=
  let x := rnd (g.node k).minV
  let half := 2 / ((leafKeys g).length : K) / 3
  if (g.node k).red = true then .circle k x (h k) (legendName g k) (listed k)
  else .box k x (max (rnd (g.node k).maxV) (x + 1 / 100)) (h k - half) (h k + half) (legendName g k) (listed k)

/-- The lines of a graph at given heights: from every reducible node along its level to the height of each child, then to the child. -/
def treeLines (rnd : K → K) (g : BGraph K) (h : ℕ → K) : List (Segment K) :=
  (g.nodes.filter (fun k => (g.node k).red)).flatMap fun k => (g.node k).children.flatMap fun c =>
    [⟨rnd (g.node k).minV, h k, rnd (g.node k).minV, h c⟩, ⟨rnd (g.node k).minV, h c, rnd (g.node c).minV, h c⟩]

/-! ## Proofs -/

theorem foldlMin_le (a : K) (t : List K) : (∀ x ∈ a :: t, t.foldl min a ≤ x) ∧ t.foldl min a ∈ a :: t := by
  induction t generalizing a with
  | nil => simp
  | cons b t ih =>
    obtain ⟨h1, h2⟩ := ih (min a b)
    rw [List.foldl_cons]
    constructor
    · intro x hx
      have hm := h1 (min a b) (by simp)
      rcases List.mem_cons.mp hx with rfl | hx
      · exact hm.trans (min_le_left _ _)
      · rcases List.mem_cons.mp hx with rfl | hx
        · exact hm.trans (min_le_right _ _)
        · exact h1 x (by simp [hx])
    · rcases List.mem_cons.mp h2 with h | h
      · rw [h]
        rcases min_choice a b with e | e <;> rw [e] <;> simp
      · simp [h]

theorem foldlMax_ge (a : K) (t : List K) : (∀ x ∈ a :: t, x ≤ t.foldl max a) ∧ t.foldl max a ∈ a :: t := by
  induction t generalizing a with
  | nil => simp
  | cons b t ih =>
    obtain ⟨h1, h2⟩ := ih (max a b)
    rw [List.foldl_cons]
    constructor
    · intro x hx
      have hm := h1 (max a b) (by simp)
      rcases List.mem_cons.mp hx with rfl | hx
      · exact (le_max_left _ _).trans hm
      · rcases List.mem_cons.mp hx with rfl | hx
        · exact (le_max_right _ _).trans hm
        · exact h1 x (by simp [hx])
    · rcases List.mem_cons.mp h2 with h | h
      · rw [h]
        rcases max_choice a b with e | e <;> rw [e] <;> simp
      · simp [h]

/-- Heights from 0 to `top` are scaled to 0 to 2. -/
theorem normY_eq {l : List K} (h0 : (0 : K) ∈ l) (hpos : ∀ x ∈ l, 0 ≤ x) {top : K} (ht : top ∈ l) (hle : ∀ x ∈ l, x ≤ top) :
    normY l = some (if 0 < top then l.map (fun y => y / top * 2) else l) := by
  cases l with
  | nil => simp at h0
  | cons a t =>
    obtain ⟨m1, m2⟩ := foldlMin_le a t
    have hm : t.foldl min a = 0 := le_antisymm (m1 0 h0) (hpos _ m2)
    obtain ⟨M1, M2⟩ := foldlMax_ge a t
    have hM : t.foldl max a = top := le_antisymm (hle _ M2) (M1 _ ht)
    unfold normY
    simp only [hm, sub_zero, List.map_id', hM]

theorem atKey_map {g : BGraph K} (f : ℕ → K) {k : ℕ} (hk : k ∈ g.nodes) : atKey g (g.nodes.map f) k = some (f k) := by
  unfold atKey
  have hlt : g.nodes.idxOf k < g.nodes.length := List.idxOf_lt_length_iff.mpr hk
  rw [List.getElem?_map, List.getElem?_eq_getElem hlt, List.getElem_idxOf hlt]
  rfl

theorem allLines_eq {g : BGraph K} (hF : Forest g) (rnd : K → K) (h : ℕ → K) :
    allLines g (g.nodes.map (fun k => rnd (g.node k).minV)) (g.nodes.map h) = some (treeLines rnd g h) := by
  unfold allLines
  rw [mapM_option_some _ (fun k => (g.node k).children.map fun c =>
    [⟨rnd (g.node k).minV, h k, rnd (g.node k).minV, h c⟩, ⟨rnd (g.node k).minV, h c, rnd (g.node c).minV, h c⟩])]
  · simp only [Option.bind_eq_bind, Option.bind_some, treeLines, List.flatMap_def, List.flatten_flatten, List.map_map]
    rfl
  · intro k hk
    have hkn : k ∈ g.nodes := (List.mem_filter.mp hk).1
    refine mapM_option_some _ _ _ ?_
    intro c hc
    have hcn := ((hF.child_iff k hkn c).mp hc).1
    unfold childLines
    rw [atKey_map _ hkn, atKey_map _ hkn, atKey_map _ hcn, atKey_map _ hcn]
    rfl

/-- The names seen after a list of nodes. -/
def namesSeen (g : BGraph K) (s : List String) (l : List ℕ) : List String :=
  l.foldl (fun s k => if legendName g k ∈ s then s else s ++ [legendName g k]) s

theorem shapes_fold (rnd : K → K) (g : BGraph K) (hF : Forest g) (h : ℕ → K)
    (hsub : ∀ k ∈ g.nodes, (g.node k).red = true → (g.node k).subtype ≠ none) :
    ∃ listed : ℕ → Bool, (g.nodes.zip ((g.nodes.map (fun k => rnd (g.node k).minV)).zip ((g.nodes.map (fun k => rnd (g.node k).maxV)).zip
      (g.nodes.map h)))).foldlM (shapeStep g (2 / ((leafKeys g).length : K) / 3)) ([], []) =
        some (namesSeen g [] g.nodes, g.nodes.map (shapeOf rnd g h listed)) ∧
      ∀ l1 k l2, g.nodes = l1 ++ k :: l2 → (listed k = true ↔ ∀ j ∈ l1, legendName g j ≠ legendName g k) := by
  have hz : ∀ l : List ℕ, l.zip ((l.map (fun k => rnd (g.node k).minV)).zip ((l.map (fun k => rnd (g.node k).maxV)).zip (l.map h))) =
      l.map (fun k => (k, rnd (g.node k).minV, rnd (g.node k).maxV, h k)) := by
    intro l
    induction l with
    | nil => rfl
    | cons a l ih => simp only [List.map_cons, List.zip_cons_cons, ih]
  rw [hz]
  have key : ∀ l1 l2 : List ℕ, g.nodes = l1 ++ l2 → ∀ listed : ℕ → Bool,
      (∀ a k b, l1 = a ++ k :: b → (listed k = true ↔ ∀ j ∈ a, legendName g j ≠ legendName g k)) →
      (∀ n, n ∈ namesSeen g [] l1 ↔ ∃ j ∈ l1, legendName g j = n) →
      ∃ listed' : ℕ → Bool, (l2.map (fun k => (k, rnd (g.node k).minV, rnd (g.node k).maxV, h k))).foldlM
          (shapeStep g (2 / ((leafKeys g).length : K) / 3)) (namesSeen g [] l1, l1.map (shapeOf rnd g h listed)) =
        some (namesSeen g [] g.nodes, g.nodes.map (shapeOf rnd g h listed')) ∧
      ∀ a k b, g.nodes = a ++ k :: b → (listed' k = true ↔ ∀ j ∈ a, legendName g j ≠ legendName g k) := by
    intro l1 l2
    induction l2 generalizing l1 with
    | nil =>
      intro e listed hl _
      rw [List.append_nil] at e
      exact ⟨listed, by rw [e]; rfl, by rw [e]; exact hl⟩
    | cons k l2 ih =>
      intro e listed hl hn
      have hk : k ∈ g.nodes := by rw [e]; simp
      have hk1 : k ∉ l1 := by
        have := hF.nodup
        rw [e, List.nodup_append] at this
        intro hk1
        exact this.2.2 k hk1 k (by simp) rfl
      have hstep : shapeStep g (2 / ((leafKeys g).length : K) / 3) (namesSeen g [] l1, l1.map (shapeOf rnd g h listed))
          (k, rnd (g.node k).minV, rnd (g.node k).maxV, h k) = some (namesSeen g [] (l1 ++ [k]),
            (l1 ++ [k]).map (shapeOf rnd g h (Function.update listed k (decide (legendName g k ∉ namesSeen g [] l1))))) := by
        have e1 : namesSeen g [] (l1 ++ [k]) =
            if legendName g k ∈ namesSeen g [] l1 then namesSeen g [] l1 else namesSeen g [] l1 ++ [legendName g k] := by
          unfold namesSeen
          rw [List.foldl_append]
          rfl
        have e2 : l1.map (shapeOf rnd g h (Function.update listed k (decide (legendName g k ∉ namesSeen g [] l1)))) =
            l1.map (shapeOf rnd g h listed) := by
          refine List.map_congr_left ?_
          intro j hj
          have : j ≠ k := by rintro rfl; exact hk1 hj
          unfold shapeOf
          rw [Function.update_of_ne this]
        rw [e1, List.map_append, e2]
        unfold shapeStep
        by_cases hr : (g.node k).red = true
        · simp only [hr, if_true]
          cases hs : (g.node k).subtype with
          | none => exact absurd hs (hsub k hk hr)
          | some name =>
            have hln : legendName g k = name := by simp [legendName, hr, hs]
            simp only [hln, List.map_cons, List.map_nil, shapeOf, hr, if_true, Function.update_self]
        · have hln : legendName g k = (g.node k).feature := by simp [legendName, hr]
          simp only [hr, if_false, hln, List.map_cons, List.map_nil, shapeOf, Function.update_self, Bool.false_eq_true]
      rw [List.map_cons, List.foldlM_cons, hstep]
      refine ih (l1 ++ [k]) (by rw [e]; simp) _ ?_ ?_
      · intro a j b hab
        rcases List.eq_nil_or_concat b with rfl | ⟨b', z, rfl⟩
        · have := List.append_inj' hab rfl
          obtain ⟨rfl, h2⟩ := this
          have hj : k = j := by simpa using h2
          subst hj
          rw [Function.update_self, decide_eq_true_iff, hn]
          push Not
          rfl
        · have hab' : l1 ++ [k] = (a ++ j :: b') ++ [z] := by rw [hab]; simp
          have := List.append_inj' hab' rfl
          obtain ⟨h1, h2⟩ := this
          have hj : j ≠ k := by rintro rfl; exact hk1 (by rw [h1]; simp)
          rw [Function.update_of_ne hj]
          exact hl a j b' h1
      · intro n
        have e1 : namesSeen g [] (l1 ++ [k]) =
            if legendName g k ∈ namesSeen g [] l1 then namesSeen g [] l1 else namesSeen g [] l1 ++ [legendName g k] := by
          unfold namesSeen
          rw [List.foldl_append]
          rfl
        rw [e1]
        split_ifs with hin
        · rw [hn]
          constructor
          · rintro ⟨j, hj, hj'⟩
            exact ⟨j, by simp [hj], hj'⟩
          · rintro ⟨j, hj, hj'⟩
            rcases List.mem_append.mp hj with hj | hj
            · exact ⟨j, hj, hj'⟩
            · rw [List.mem_singleton.mp hj] at hj'
              rw [← hn, ← hj']
              exact hin
        · rw [List.mem_append, hn]
          constructor
          · rintro (⟨j, hj, hj'⟩ | hj)
            · exact ⟨j, by simp [hj], hj'⟩
            · exact ⟨k, by simp, (List.mem_singleton.mp hj).symm⟩
          · rintro ⟨j, hj, hj'⟩
            rcases List.mem_append.mp hj with hj | hj
            · exact .inl ⟨j, hj, hj'⟩
            · rw [List.mem_singleton.mp hj] at hj'
              exact .inr (by simp [hj'])
  obtain ⟨listed, h1, h2⟩ := key [] g.nodes rfl (fun _ => false) (by intro a k b hab; simp at hab) (by simp [namesSeen])
  exact ⟨listed, h1, h2⟩

/-- **C108**: a graph with a leaf below every reducible node can always be drawn.  There are heights as in `GoodHeights`; the lines are those of
`treeLines`, every node has its shape, and a name is listed in the legend at its first node only. -/
theorem C108_drawn (rnd : K → K) {g : BGraph K} (hF : Forest g) (hne : g.nodes ≠ [])
    (hkids : ∀ k ∈ g.nodes, (g.node k).red = true → (g.node k).children ≠ [])
    (hsub : ∀ k ∈ g.nodes, (g.node k).red = true → (g.node k).subtype ≠ none) {fuel : ℕ} (hfuel : g.nodes.length < fuel) :
    ∃ (fig : GraphFig K) (h : ℕ → K) (listed : ℕ → Bool), graphFig rnd g fuel = some fig ∧ GoodHeights g h ∧
      fig.lines = treeLines rnd g h ∧ fig.shapes = g.nodes.map (shapeOf rnd g h listed) ∧
      ∀ l1 k l2, g.nodes = l1 ++ k :: l2 → (listed k = true ↔ ∀ j ∈ l1, legendName g j ≠ legendName g k) := by
  obtain ⟨st, e, p⟩ := placed_all hF hkids hfuel
  obtain ⟨L, a1, a2, a3, a4⟩ := p.leaves
  have a3 : st.next = L.length := by simpa using a3
  have a4 : ∀ i (h : i < L.length), st.y L[i] = some (i : K) := by
    intro i hi
    have := a4 i hi
    simpa using this
  have hval : ∀ k ∈ g.nodes, st.y k = some (st.val k) ∧ 0 ≤ st.val k ∧ st.val k + 1 ≤ (L.length : K) := by
    intro k hk
    obtain ⟨v, h1, h2, h3⟩ := p.val k hk
    rw [YState.val_eq h1, ← a3]
    exact ⟨h1, by simpa using h2, h3⟩
  have hraw : g.nodes.mapM st.y = some (g.nodes.map st.val) := mapM_option_some _ _ _ (fun k hk => (hval k hk).1)
  have hLp : L.Perm (leafKeys g) := by
    refine (List.perm_ext_iff_of_nodup a1 (hF.nodup.filter _)).mpr ?_
    intro x
    rw [a2]
    rw [List.mem_filter]
    simp
  have hlen : (leafKeys g).length = L.length := hLp.length_eq.symm
  have hpos : 0 < L.length := by
    obtain ⟨k, hk⟩ := List.exists_mem_of_ne_nil _ hne
    obtain ⟨_, h2, h3⟩ := hval k hk
    have : (0 : K) < (L.length : K) := by linarith
    exact_mod_cast this
  have hLK : (0 : K) < (L.length : K) := by exact_mod_cast hpos
  have hv : ∀ i (hi : i < L.length), st.val L[i] = (i : K) := fun i hi => YState.val_eq (a4 i hi)
  have hmem : ∀ i (hi : i < L.length), L[i] ∈ g.nodes := fun i hi => ((a2 _).mp (List.getElem_mem hi)).1
  have hnorm := normY_eq (l := g.nodes.map st.val) (top := (L.length : K) - 1)
    (List.mem_map.mpr ⟨L[0], hmem 0 hpos, by rw [hv 0 hpos]; simp⟩)
    (by intro x hx; obtain ⟨k, hk, rfl⟩ := List.mem_map.mp hx; exact (hval k hk).2.1)
    (List.mem_map.mpr ⟨L[L.length - 1], hmem _ (by omega), by rw [hv _ (by omega), Nat.cast_sub (by omega)]; simp⟩)
    (by intro x hx; obtain ⟨k, hk, rfl⟩ := List.mem_map.mp hx; have := (hval k hk).2.2; linarith)
  -- the scale
  obtain ⟨c, hc0, hc1, hc2, hcn⟩ : ∃ c : K, 0 < c ∧ (L.length ≠ 1 → c = 2 / ((L.length : K) - 1)) ∧ c * ((L.length : K) - 1) ≤ 2 ∧
      normY (g.nodes.map st.val) = some (g.nodes.map (fun k => c * st.val k)) := by
    by_cases h1 : L.length = 1
    · refine ⟨1, one_pos, fun h => absurd h1 h, by rw [h1]; norm_num, ?_⟩
      rw [hnorm, if_neg (by rw [h1]; norm_num)]
      simp
    · have h2 : (0 : K) < (L.length : K) - 1 := by
        have : 1 < L.length := by omega
        have : (1 : K) < (L.length : K) := by exact_mod_cast this
        linarith
      refine ⟨2 / ((L.length : K) - 1), by positivity, fun _ => rfl, by rw [div_mul_cancel₀ _ h2.ne'], ?_⟩
      rw [hnorm, if_pos h2, List.map_map]
      congr 1
      refine List.map_congr_left ?_
      intro k _
      simp only [Function.comp]
      ring
  obtain ⟨listed, hs1, hs2⟩ := shapes_fold rnd g hF (fun k => c * st.val k) hsub
  have haxis : ∃ ax, axisRange (g.nodes.map (fun k => rnd (g.node k).minV)) (g.nodes.map (fun k => rnd (g.node k).maxV)) = some ax := by
    cases hn : g.nodes with
    | nil => exact absurd hn hne
    | cons a t => exact ⟨_, rfl⟩
  obtain ⟨ax, hax⟩ := haxis
  have hleaf : ¬ (g.nodes.filter (fun k => !(g.node k).red) = []) := by
    intro h0
    have : (leafKeys g).length = 0 := by unfold leafKeys; rw [h0]; rfl
    omega
  refine ⟨⟨treeLines rnd g (fun k => c * st.val k), g.nodes.map (shapeOf rnd g (fun k => c * st.val k) listed), ax⟩, fun k => c * st.val k, listed, ?_, ⟨?_, ?_, ?_, ?_⟩, rfl, rfl, hs2⟩
  · unfold graphFig
    simp only [e, hraw, hcn, Option.bind_eq_bind, Option.bind_some, hleaf, if_false, allLines_eq hF rnd, hax]
    simp only [leafKeys] at hs1
    simp only [hs1, Option.bind_some]
  · refine ⟨L, hLp, ?_⟩
    intro i hi
    simp only [hv i hi]
    split_ifs with h1
    · have : i = 0 := by omega
      subst this; simp
    · rw [hc1 h1]; ring
  · intro k hk hr
    have hm := p.mean k hk hr
    rw [(hval k hk).1] at hm
    have hm := Option.some.inj hm
    have hl : ((g.node k).children.length : K) ≠ 0 := by
      have := List.length_pos_iff.mpr (hkids k hk hr)
      exact_mod_cast this.ne'
    rw [hm, meanY, List.length_map]
    have hsum : ((g.node k).children.map (fun k => c * st.val k)).sum = c * ((g.node k).children.map st.val).sum := by
      generalize (g.node k).children = l
      induction l with
      | nil => simp
      | cons a l ih => simp only [List.map_cons, List.sum_cons, ih]; ring
    rw [hsum]
    field_simp
  · intro a ha b hb n1 n2
    rcases p.sep a b ha hb n1 n2 with h | h
    · exact .inl fun x z hx hz => mul_lt_mul_of_pos_left (h x z hx hz) hc0
    · exact .inr fun x z hx hz => mul_lt_mul_of_pos_left (h x z hx hz) hc0
  · intro k hk
    obtain ⟨_, h2, h3⟩ := hval k hk
    refine ⟨mul_nonneg hc0.le h2, ?_⟩
    refine le_trans (mul_le_mul_of_nonneg_left ?_ hc0.le) hc2
    linarith

/-- **C108**: the boxes of two irreducible nodes do not overlap: the upper edge of one is below the lower edge of the other. -/
theorem C108_boxes_apart {g : BGraph K} {h : ℕ → K} (hh : GoodHeights g h) (hF : Forest g) {a b : ℕ} (ha : IsLeaf g a) (hb : IsLeaf g b) (hab : a ≠ b) :
    h a + 2 / ((leafKeys g).length : K) / 3 < h b - 2 / ((leafKeys g).length : K) / 3 ∨
      h b + 2 / ((leafKeys g).length : K) / 3 < h a - 2 / ((leafKeys g).length : K) / 3 := by
  obtain ⟨L, hp, hL⟩ := hh.leaves
  have hm : ∀ k, IsLeaf g k → ∃ i, ∃ hi : i < L.length, L[i] = k := by
    intro k hk
    have : k ∈ L := hp.mem_iff.mpr (by rw [leafKeys, List.mem_filter]; exact ⟨hk.1, by simp [hk.2]⟩)
    exact List.getElem_of_mem this
  obtain ⟨i, hi, rfl⟩ := hm a ha
  obtain ⟨j, hj, rfl⟩ := hm b hb
  have hij : i ≠ j := by rintro rfl; exact hab rfl
  have hn : L.length ≠ 1 := by omega
  rw [← hp.length_eq, hL i hi, hL j hj, if_neg hn, if_neg hn]
  have hn2 : (2 : K) ≤ (L.length : K) := by
    have : 2 ≤ L.length := by omega
    exact_mod_cast this
  have main : ∀ i j : ℕ, i < j → 2 * (i : K) / ((L.length : K) - 1) + 2 / (L.length : K) / 3 < 2 * (j : K) / ((L.length : K) - 1) - 2 / (L.length : K) / 3 := by
    intro i j hij
    have h1 : (i : K) + 1 ≤ (j : K) := by exact_mod_cast hij
    have hn1 : (0 : K) < (L.length : K) - 1 := by linarith
    have hn0 : (0 : K) < (L.length : K) := by linarith
    have h2 : 2 * (i : K) / ((L.length : K) - 1) + 2 / ((L.length : K) - 1) ≤ 2 * (j : K) / ((L.length : K) - 1) := by
      rw [← add_div]
      exact div_le_div_of_nonneg_right (by linarith) hn1.le
    have h3 : 2 / (L.length : K) ≤ 2 / ((L.length : K) - 1) := div_le_div_of_nonneg_left (by norm_num) hn1 (by linarith)
    have h4 : 0 < 2 / (L.length : K) := by positivity
    linarith
  rcases Nat.lt_or_gt_of_ne hij with h | h
  · exact .inl (main i j h)
  · exact .inr (main j i h)

/-- **C108**: the lines do not cross.  In a graph whose nodes do not start below their parents, the level line from a reducible node `p` to a child
`c` does not pass strictly through the upright line of a reducible node `q`. -/
theorem C108_no_crossing (rnd : K → K) (hrnd : Monotone rnd) {g : BGraph K} {h : ℕ → K} (hh : GoodHeights g h) (hF : Forest g)
    (hmin : ∀ k ∈ g.nodes, ∀ p, (g.node k).parent = some p → (g.node p).minV ≤ (g.node k).minV)
    {p c q d e : ℕ} (hp : p ∈ g.nodes) (hc : c ∈ (g.node p).children) (hq : q ∈ g.nodes) (hd : d ∈ (g.node q).children)
    (he : e ∈ (g.node q).children ∨ e = q)
    (hx : rnd (g.node p).minV < rnd (g.node q).minV ∧ rnd (g.node q).minV < rnd (g.node c).minV) :
    ¬ (min (h d) (h e) ≤ h c ∧ h c ≤ max (h d) (h e)) := by
  have hbelow : ∀ a b, TreeWithin g a b → (g.node b).minV ≤ (g.node a).minV := by
    rintro a b ⟨ha, rfl | hb⟩
    · exact le_refl _
    · have : b ∈ g.nodes ∧ (g.node b).minV ≤ (g.node a).minV := by
        induction hb with
        | single hb => exact ⟨(hF.parent_ok _ ha _ hb).1, hmin _ ha _ hb⟩
        | tail _ hb ih => exact ⟨(hF.parent_ok _ ih.1 _ hb).1, (hmin _ ih.1 _ hb).trans ih.2⟩
      exact this.2
  have hcn := ((hF.child_iff p hp c).mp hc).1
  have n1 : ¬ TreeWithin g q c := fun hw => absurd (hrnd (hbelow q c hw)) (not_le.mpr hx.2)
  have n2 : ¬ TreeWithin g c q := by
    intro hw
    have : TreeWithin g p q := by
      rcases hw with ⟨_, rfl | hb⟩
      · exact absurd hx.2 (lt_irrefl _)
      · rcases below_cases hb with hb | ⟨r, hr, hb⟩
        · rw [((hF.child_iff p hp c).mp hc).2] at hb
          cases hb
          exact within_refl hp
        · rw [((hF.child_iff p hp c).mp hc).2] at hr
          cases hr
          exact ⟨hp, .inr hb⟩
    exact absurd (hrnd (hbelow p q this)) (not_le.mpr hx.1)
  have hdq : TreeWithin g d q := hF.within_child hq hd
  have heq : TreeWithin g e q := he.elim (hF.within_child hq) (by rintro rfl; exact within_refl hq)
  rintro ⟨h1, h2⟩
  rcases hh.apart c hcn q hq n2 n1 with hlt | hlt
  · exact absurd h1 (not_le.mpr (lt_min (hlt c d (within_refl hcn) hdq) (hlt c e (within_refl hcn) heq)))
  · exact absurd h2 (not_le.mpr (max_lt (hlt c d (within_refl hcn) hdq) (hlt c e (within_refl hcn) heq)))

/-- **C108**: the axis.  All circles and the left edges of all boxes are inside the range of the axis, and the right edge of a box is unless the box was
widened to a hundredth. -/
theorem C108_axis (rnd : K → K) {g : BGraph K} {fuel : ℕ} {fig : GraphFig K} (hfig : graphFig rnd g fuel = some fig)
    (hle : ∀ k ∈ g.nodes, rnd (g.node k).minV ≤ rnd (g.node k).maxV) {k : ℕ} (hk : k ∈ g.nodes) :
    fig.axis.1 ≤ rnd (g.node k).minV ∧ rnd (g.node k).minV ≤ fig.axis.2 ∧ rnd (g.node k).maxV ≤ fig.axis.2 := by
  have hax : axisRange (g.nodes.map (fun k => rnd (g.node k).minV)) (g.nodes.map (fun k => rnd (g.node k).maxV)) = some fig.axis := by
    unfold graphFig at hfig
    simp only [Option.bind_eq_bind, Option.bind_eq_some_iff] at hfig
    obtain ⟨st, _, raw, _, ys, _, hfig⟩ := hfig
    split_ifs at hfig
    simp only [Option.bind_eq_some_iff] at hfig
    obtain ⟨lines, _, s, _, ax, hax, hfig⟩ := hfig
    cases hfig
    exact hax
  cases hn : g.nodes with
  | nil => rw [hn] at hk; simp at hk
  | cons a t =>
    rw [hn] at hax hk
    obtain ⟨m1, _⟩ := foldlMin_le (rnd (g.node a).minV) (t.map (fun k => rnd (g.node k).minV))
    obtain ⟨M1, _⟩ := foldlMax_ge (rnd (g.node a).maxV) (t.map (fun k => rnd (g.node k).maxV))
    simp only [List.map_cons, axisRange, Option.some.injEq] at hax
    have h1 := m1 (rnd (g.node k).minV) (by rw [← List.map_cons (f := fun k => rnd (g.node k).minV)]; exact List.mem_map_of_mem hk)
    have h2 := M1 (rnd (g.node k).maxV) (by rw [← List.map_cons (f := fun k => rnd (g.node k).maxV)]; exact List.mem_map_of_mem hk)
    have h3 := hle k (by rw [hn]; exact hk)
    rw [← hax]
    simp only
    refine ⟨?_, ?_, ?_⟩ <;> nlinarith

/-- **C108**: the legend.  Every name of a node is listed at exactly one node. -/
theorem C108_legend (rnd : K → K) {g : BGraph K} (hF : Forest g) (hne : g.nodes ≠ [])
    (hkids : ∀ k ∈ g.nodes, (g.node k).red = true → (g.node k).children ≠ [])
    (hsub : ∀ k ∈ g.nodes, (g.node k).red = true → (g.node k).subtype ≠ none) {fuel : ℕ} (hfuel : g.nodes.length < fuel) :
    ∃ (fig : GraphFig K) (h : ℕ → K) (listed : ℕ → Bool), graphFig rnd g fuel = some fig ∧ fig.shapes = g.nodes.map (shapeOf rnd g h listed) ∧
      ∀ k ∈ g.nodes, ∃! j, j ∈ g.nodes ∧ legendName g j = legendName g k ∧ listed j = true := by
  obtain ⟨fig, h, listed, h1, _, _, h4, h5⟩ := C108_drawn rnd hF hne hkids hsub hfuel
  refine ⟨fig, h, listed, h1, h4, ?_⟩
  intro k hk
  -- the first node with the name
  have hex : ∃ l1 j l2, g.nodes = l1 ++ j :: l2 ∧ legendName g j = legendName g k ∧ ∀ i ∈ l1, legendName g i ≠ legendName g k := by
    generalize g.nodes = l at hk
    induction l with
    | nil => simp at hk
    | cons a l ih =>
      by_cases ha : legendName g a = legendName g k
      · exact ⟨[], a, l, rfl, ha, by simp⟩
      · have hk' : k ∈ l := by
          rcases List.mem_cons.mp hk with rfl | h
          · exact absurd rfl ha
          · exact h
        obtain ⟨l1, j, l2, e, e2, e3⟩ := ih hk'
        refine ⟨a :: l1, j, l2, by rw [e]; rfl, e2, ?_⟩
        intro i hi
        rcases List.mem_cons.mp hi with rfl | hi
        · exact ha
        · exact e3 i hi
  obtain ⟨l1, j, l2, e, e2, e3⟩ := hex
  refine ⟨j, ⟨by rw [e]; simp, e2, (h5 l1 j l2 e).mpr (by rw [e2]; exact e3)⟩, ?_⟩
  rintro i ⟨hi, hi2, hi3⟩
  by_contra hij
  have hmem : i ∈ l1 ∨ i ∈ l2 := by
    rw [e] at hi
    rcases List.mem_append.mp hi with h | h
    · exact .inl h
    · rcases List.mem_cons.mp h with h | h
      · exact absurd h hij
      · exact .inr h
  rcases hmem with hm | hm
  · exact e3 i hm hi2
  · obtain ⟨s, t, rfl⟩ := List.append_of_mem hm
    have := (h5 (l1 ++ j :: s) i t (by rw [e]; simp)).mp hi3 j (by simp)
    exact this (by rw [e2, hi2])

/-! ### Cases -/

/-- Two leaves below a root, a third leaf below the same root inside another reducible node. -/
def figGraph : BGraph ℚ where
  nodes := [0, 1, 2, 3, 4]
  roots := [0]
  node := fun k => match k with
    | 0 => ⟨true, [0, 1, 2], 3, [], 0, 1 / 10, none, [1, 2], some "reducible - root", "unknown", none, none, none, none⟩
    | 1 => ⟨true, [0, 1], 0, [], 1 / 10, 1 / 2, some 0, [3, 4], some "reducible", "unknown", none, none, none, none⟩
    | 2 => ⟨false, [2], 0, [], 1 / 10, 9 / 10, some 0, [], some "irreducible - point", "core", none, none, none, none⟩
    | 3 => ⟨false, [0], 0, [], 1 / 2, 6 / 10, some 1, [], some "irreducible - point", "shell", none, none, none, none⟩
    | _ => ⟨false, [1], 0, [], 1 / 2, 1 / 2, some 1, [], some "irreducible - point", "core", none, none, none, none⟩

/-- A case: the figure of the graph. -/
example : (graphFig id figGraph 6).map GraphFig.shapes = some
    [.circle 0 0 (5 / 4) "reducible - root" true, .circle 1 (1 / 10) (1 / 2) "reducible" true,
      .box 2 (1 / 10) (9 / 10) (16 / 9) (20 / 9) "core" true, .box 3 (1 / 2) (6 / 10) (-2 / 9) (2 / 9) "shell" true,
      .box 4 (1 / 2) (51 / 100) (7 / 9) (11 / 9) "core" false] := by decide +kernel

/-- The graph is a forest with children below its reducible nodes. -/
theorem figGraph_forest : Forest figGraph := by
  refine ⟨by decide, by decide, ?_, by decide, ?_, by decide, fun k => k, by decide, by decide⟩
  · intro k
    constructor
    · intro h
      have : k = 0 := by simpa [figGraph] using h
      subst this; decide
    · rintro ⟨h, h2⟩
      revert h2
      revert k
      decide
  · intro p hp c
    constructor
    · intro h
      revert c
      revert p
      decide
    · rintro ⟨h, h2⟩
      revert h2
      revert c
      revert p
      decide

example : figGraph.nodes ≠ [] ∧ (∀ k ∈ figGraph.nodes, (figGraph.node k).red = true → (figGraph.node k).children ≠ []) ∧
    ∀ k ∈ figGraph.nodes, (figGraph.node k).red = true → (figGraph.node k).subtype ≠ none := by decide

/-- **C108**: exceptions.  A reducible node that lost its children has no height, so nothing is drawn; and a box that was widened can leave the
axis. -/
theorem C108_exceptions :
    (∃ g : BGraph ℚ, Forest g ∧ g.nodes ≠ [] ∧ graphFig id g (g.nodes.length + 1) = none) ∧
    (∃ (g : BGraph ℚ) (fig : GraphFig ℚ) (k : ℕ) (x0 x1 y0 y1 : ℚ) (name : String) (l : Bool), Forest g ∧ graphFig id g 2 = some fig ∧
      Shown.box k x0 x1 y0 y1 name l ∈ fig.shapes ∧ fig.axis.2 < x1) := by
  constructor
  · refine ⟨⟨[0], [0], fun _ => ⟨true, [0], 0, [], 0, 1, none, [], some "reducible", "unknown", none, none, none, none⟩⟩,
      ⟨by simp, by simp, by simp, by simp, by simp, by simp, fun k => k, by simp, by simp⟩, by simp, by decide +kernel⟩
  · refine ⟨⟨[0], [0], fun _ => ⟨false, [0], 0, [], 1 / 2, 1 / 2, none, [], none, "core", none, none, none, none⟩⟩,
      ⟨[], [.box 0 (1 / 2) (51 / 100) (-2 / 3) (2 / 3) "core" true], (1 / 2, 1 / 2)⟩, 0, _, _, _, _, _, _,
      ⟨by simp, by simp, by simp, by simp, by simp, by simp, fun k => k, by simp, by simp⟩, ?_, List.mem_singleton.mpr rfl, by norm_num⟩
    decide +kernel

end BaderKit
