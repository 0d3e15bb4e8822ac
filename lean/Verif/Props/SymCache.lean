import Verif.Model.SymCache
import Mathlib.Data.List.Nodup
import Mathlib.Data.List.Forall2
import Mathlib.Order.Basic
import Mathlib.Data.Nat.Basic
/-!
# C91: symmetry data follows the structure
-/
namespace BaderKit
variable {V Q D : Type}

/-! ## Specification -/

/-- The sites after an action. -/
def sitesAfter (vs : List V) : SymAct V Q → List V
  | .replace i v => vs.set i v
  | .insert i v => vs.insertIdx i v
  | .remove i => vs.eraseIdx i
  | .change i v => vs.set i v
  | _ => vs

/-- The settings after an action. -/
def settingsAfter (q : Q) : SymAct V Q → Q
  | .set q' => q'
  | _ => q

/-- Actions that read nothing. -/
def SymAct.noRead : SymAct V Q → Bool
  | .readAnalyzer => false
  | .readData => false
  | _ => true

/-- Actions that neither change a site in place nor the settings. -/
def SymAct.gentle : SymAct V Q → Bool
  | .change _ _ => false
  | .set _ => false
  | _ => true

/-- Sites that are found equal give the same analysis. -/
def SameAnalysis (same : V → V → Bool) (analyse : List V → Q → D) : Prop :=
  ∀ vs ws q, List.Forall₂ (fun v w => v = w ∨ same v w = true) vs ws → analyse vs q = analyse ws q

/-! ## Lemmas -/

/-- The places of the sites are different and taken. -/
def GoodRefs (st : SymState V Q D) : Prop := st.sites.Nodup ∧ ∀ r ∈ st.sites, r < st.nextRef

theorem map_update_fresh (f : ℕ → V) (n : ℕ) (v : V) (l : List ℕ) (h : ∀ r ∈ l, r < n) : l.map (Function.update f n v) = l.map f :=
  List.map_congr_left fun r hr => Function.update_of_ne (Nat.ne_of_lt (h r hr)) _ _

theorem map_set' {α β : Type} (f : α → β) (l : List α) (i : ℕ) (a : α) : (l.set i a).map f = (l.map f).set i (f a) := List.map_set

theorem map_insertIdx' {α β : Type} (f : α → β) : ∀ (l : List α) (i : ℕ) (a : α), (l.insertIdx i a).map f = (l.map f).insertIdx i (f a)
  | l, 0, a => by simp
  | [], i + 1, a => by simp
  | x :: l, i + 1, a => by simp [map_insertIdx' f l i a]

theorem map_eraseIdx' {α β : Type} (f : α → β) : ∀ (l : List α) (i : ℕ), (l.eraseIdx i).map f = (l.map f).eraseIdx i
  | [], _ => by simp
  | x :: l, 0 => by simp
  | x :: l, i + 1 => by simp [map_eraseIdx' f l i]

theorem mem_insertIdx_fresh {l : List ℕ} {i a r : ℕ} (h : r ∈ l.insertIdx i a) : r = a ∨ r ∈ l := by
  by_cases hi : i ≤ l.length
  · exact (List.mem_insertIdx hi).1 h
  · rw [List.insertIdx_of_length_lt (by omega)] at h; exact Or.inr h

theorem nodup_insertIdx_fresh : ∀ (l : List ℕ) (i a : ℕ), l.Nodup → a ∉ l → (l.insertIdx i a).Nodup
  | l, 0, a, h, ha => by simpa using ⟨ha, h⟩
  | [], i + 1, a, _, _ => by simp
  | x :: l, i + 1, a, h, ha => by
    rw [List.insertIdx_succ_cons, List.nodup_cons]
    rw [List.nodup_cons] at h
    refine ⟨fun hx => ?_, nodup_insertIdx_fresh l i a h.2 fun h' => ha (List.mem_cons_of_mem _ h')⟩
    rcases mem_insertIdx_fresh hx with h' | h'
    · exact ha (by rw [h']; exact List.mem_cons_self)
    · exact h.1 h'

theorem nodup_set_fresh : ∀ (l : List ℕ) (i a : ℕ), l.Nodup → a ∉ l → (l.set i a).Nodup
  | [], _, _, _, _ => by simp
  | x :: l, 0, a, h, ha => by
    rw [List.set_cons_zero, List.nodup_cons]
    exact ⟨fun h' => ha (List.mem_cons_of_mem _ h'), (List.nodup_cons.1 h).2⟩
  | x :: l, i + 1, a, h, ha => by
    rw [List.set_cons_succ, List.nodup_cons]
    rw [List.nodup_cons] at h
    refine ⟨fun hx => ?_, nodup_set_fresh l i a h.2 fun h' => ha (List.mem_cons_of_mem _ h')⟩
    rcases List.mem_or_eq_of_mem_set hx with h' | h'
    · exact h.1 h'
    · exact ha (by rw [← h']; exact List.mem_cons_self)

theorem map_update_nodup (f : ℕ → V) (v : V) : ∀ (l : List ℕ) (i r : ℕ), l.Nodup → l[i]? = some r →
    l.map (Function.update f r v) = (l.map f).set i v
  | [], _, _, _, h => by simp at h
  | x :: l, 0, r, hn, h => by
    simp at h; subst h
    rw [List.nodup_cons] at hn
    simp only [List.map_cons, List.set_cons_zero, Function.update_self]
    congr 1
    exact List.map_congr_left fun y hy => Function.update_of_ne (by rintro rfl; exact hn.1 hy) _ _
  | x :: l, i + 1, r, hn, h => by
    rw [List.nodup_cons] at hn
    simp only [List.getElem?_cons_succ] at h
    have hx : x ≠ r := by rintro rfl; exact hn.1 (List.mem_of_getElem? h)
    simp only [List.map_cons, List.set_cons_succ, Function.update_of_ne hx]
    rw [map_update_nodup f v l i r hn.2 h]

variable {same : V → V → Bool} {analyse : List V → Q → D}

theorem getAnalyzer_keeps (st : SymState V Q D) : (getAnalyzer same analyse st).1.store = st.store ∧ (getAnalyzer same analyse st).1.nextRef = st.nextRef ∧
    (getAnalyzer same analyse st).1.sites = st.sites ∧ (getAnalyzer same analyse st).1.settings = st.settings := by
  unfold getAnalyzer
  cases st.analyzer with
  | none => simp
  | some a => simp only; split <;> simp

theorem getSymData_keeps (st : SymState V Q D) : (getSymData same analyse st).1.store = st.store ∧ (getSymData same analyse st).1.nextRef = st.nextRef ∧
    (getSymData same analyse st).1.sites = st.sites ∧ (getSymData same analyse st).1.settings = st.settings := by
  have h := getAnalyzer_keeps (same := same) (analyse := analyse) st
  unfold getSymData
  cases st.data with
  | none => simpa using h
  | some a => simp only; split
              · simpa using h
              · simp

/-- The store holds the sites the user sees, and the settings are theirs. -/
theorem symAct_values (st : SymState V Q D) (hg : GoodRefs st) (a : SymAct V Q) :
    GoodRefs (symAct same analyse st a).1 ∧ symValues (symAct same analyse st a).1 = sitesAfter (symValues st) a ∧
    (symAct same analyse st a).1.settings = settingsAfter st.settings a ∧ st.nextRef ≤ (symAct same analyse st a).1.nextRef := by
  obtain ⟨g1, g2⟩ := hg
  have fresh : st.nextRef ∉ st.sites := fun h => Nat.lt_irrefl _ (g2 _ h)
  cases a with
  | replace i v =>
    refine ⟨⟨nodup_set_fresh _ _ _ g1 fresh, fun r hr => ?_⟩, ?_, rfl, Nat.le_succ _⟩
    · rcases List.mem_or_eq_of_mem_set hr with h | h
      · exact Nat.lt_succ_of_lt (g2 r h)
      · subst h; exact Nat.lt_succ_self _
    · simp only [symAct, symValues, sitesAfter, map_set', Function.update_self, map_update_fresh _ _ _ _ g2]
  | insert i v =>
    refine ⟨⟨nodup_insertIdx_fresh _ _ _ g1 fresh, fun r hr => ?_⟩, ?_, rfl, Nat.le_succ _⟩
    · rcases mem_insertIdx_fresh hr with h | h
      · subst h; exact Nat.lt_succ_self _
      · exact Nat.lt_succ_of_lt (g2 r h)
    · simp only [symAct, symValues, sitesAfter, map_insertIdx', Function.update_self, map_update_fresh _ _ _ _ g2]
  | remove i =>
    refine ⟨⟨g1.sublist (List.eraseIdx_sublist _ _), fun r hr => g2 r (List.mem_of_mem_eraseIdx hr)⟩, ?_, rfl, Nat.le_refl _⟩
    simp only [symAct, symValues, sitesAfter, map_eraseIdx']
  | change i v =>
    simp only [symAct]
    cases h : st.sites[i]? with
    | none =>
      refine ⟨⟨g1, g2⟩, ?_, rfl, Nat.le_refl _⟩
      have hl : st.sites.length ≤ i := List.getElem?_eq_none_iff.1 h
      simp only [symValues, sitesAfter]
      rw [List.set_eq_of_length_le (by simpa using hl)]
    | some r =>
      refine ⟨⟨g1, g2⟩, ?_, rfl, Nat.le_refl _⟩
      simp only [symValues, sitesAfter]
      exact map_update_nodup _ _ _ _ _ g1 h
  | set q => exact ⟨⟨g1, g2⟩, rfl, rfl, Nat.le_refl _⟩
  | readAnalyzer =>
    obtain ⟨a1, a2, a3, a4⟩ := getAnalyzer_keeps (same := same) (analyse := analyse) st
    simp only [symAct, symValues, sitesAfter, settingsAfter, GoodRefs, a1, a2, a3, a4]
    exact ⟨⟨g1, g2⟩, trivial, trivial, Nat.le_refl _⟩
  | readData =>
    obtain ⟨a1, a2, a3, a4⟩ := getSymData_keeps (same := same) (analyse := analyse) st
    simp only [symAct, symValues, sitesAfter, settingsAfter, GoodRefs, a1, a2, a3, a4]
    exact ⟨⟨g1, g2⟩, trivial, trivial, Nat.le_refl _⟩

theorem symRun_values (h : List (SymAct V Q)) : ∀ (st : SymState V Q D), GoodRefs st →
    GoodRefs (symRun same analyse st h) ∧ symValues (symRun same analyse st h) = h.foldl sitesAfter (symValues st) ∧
    (symRun same analyse st h).settings = h.foldl settingsAfter st.settings := by
  induction h with
  | nil => intro st hg; exact ⟨hg, rfl, rfl⟩
  | cons a h ih =>
    intro st hg
    obtain ⟨b1, b2, b3, _⟩ := symAct_values (same := same) (analyse := analyse) st hg a
    obtain ⟨c1, c2, c3⟩ := ih _ b1
    refine ⟨c1, ?_, ?_⟩
    · rw [List.foldl_cons, ← b2]; exact c2
    · rw [List.foldl_cons, ← b3]; exact c3

theorem symInit_good (vs : List V) (v0 : V) (q : Q) : GoodRefs (symInit vs v0 q : SymState V Q D) ∧ symValues (symInit vs v0 q : SymState V Q D) = vs := by
  refine ⟨⟨List.nodup_range, fun r hr => by simpa [symInit] using hr⟩, ?_⟩
  refine List.ext_getElem (by simp [symValues, symInit]) fun i h1 h2 => ?_
  simp [symValues, symInit, h2]

/-- What is kept is the analysis of the sites it was saved for. -/
def KeptFor (analyse : List V → Q → D) (st : SymState V Q D) (x : Option D) : Prop :=
  ∀ d, x = some d → ∃ l, st.saved = some l ∧ (∀ r ∈ l, r < st.nextRef) ∧ d = analyse (l.map st.store) st.settings

theorem not_stale (hs : SameAnalysis same analyse) {st : SymState V Q D} {l : List ℕ} (hl : st.saved = some l) (h : symStale same st = false) (q : Q) :
    analyse (l.map st.store) q = analyse (symValues st) q := by
  refine hs _ _ _ ?_
  unfold symStale at h
  rw [hl] at h
  simp only [Bool.not_eq_false', Bool.and_eq_true, beq_iff_eq, List.all_eq_true] at h
  obtain ⟨h1, h2⟩ := h
  unfold symValues
  rw [List.forall₂_map_left_iff, List.forall₂_map_right_iff, List.forall₂_iff_zip]
  refine ⟨h1, fun {a b} hab => ?_⟩
  have := h2 _ hab
  simp only [Bool.or_eq_true, beq_iff_eq] at this
  rcases this with rfl | h'
  · exact Or.inl rfl
  · exact Or.inr h'

theorem getAnalyzer_right (hs : SameAnalysis same analyse) {st : SymState V Q D} (hg : GoodRefs st) (hk : KeptFor analyse st st.analyzer) :
    (getAnalyzer same analyse st).2 = analyse (symValues st) st.settings ∧
    KeptFor analyse (getAnalyzer same analyse st).1 (getAnalyzer same analyse st).1.analyzer ∧
    KeptFor analyse (getAnalyzer same analyse st).1 (some (getAnalyzer same analyse st).2) := by
  unfold getAnalyzer
  have fresh : ∀ (x : Option D), x = some (analyse (symValues st) st.settings) →
      KeptFor analyse { st with saved := some st.sites, analyzer := some (analyse (symValues st) st.settings) } x := by
    intro x hx d hd
    rw [hx] at hd
    exact ⟨st.sites, rfl, hg.2, (Option.some.inj hd).symm⟩
  cases ha : st.analyzer with
  | none => exact ⟨rfl, fresh _ rfl, fresh _ rfl⟩
  | some a =>
    simp only
    by_cases hst : symStale same st = true
    · rw [if_pos hst]; exact ⟨rfl, fresh _ rfl, fresh _ rfl⟩
    · rw [if_neg hst]
      obtain ⟨l, h1, h2, h3⟩ := hk a ha
      refine ⟨?_, hk, by rw [ha] at hk; exact hk⟩
      rw [h3]; exact not_stale hs h1 (by simpa using hst) _

/-- An action that changes nothing in place keeps what is kept. -/
theorem kept_change {st st' : SymState V Q D} {x : Option D} (hk : KeptFor analyse st x) (h1 : st'.saved = st.saved) (h2 : st.nextRef ≤ st'.nextRef)
    (h3 : ∀ r < st.nextRef, st'.store r = st.store r) (h4 : st'.settings = st.settings) : KeptFor analyse st' x := by
  intro d hd
  obtain ⟨l, e1, e2, e3⟩ := hk d hd
  refine ⟨l, h1.trans e1, fun r hr => Nat.lt_of_lt_of_le (e2 r hr) h2, ?_⟩
  rw [e3, h4]
  congr 1
  exact List.map_congr_left fun r hr => (h3 r (e2 r hr)).symm

theorem symAct_quiet (st : SymState V Q D) (a : SymAct V Q) (hq : a.gentle = true) (hn : a.noRead = true) :
    (symAct same analyse st a).1.saved = st.saved ∧ st.nextRef ≤ (symAct same analyse st a).1.nextRef ∧
    (∀ r < st.nextRef, (symAct same analyse st a).1.store r = st.store r) ∧ (symAct same analyse st a).1.settings = st.settings ∧
    (symAct same analyse st a).1.analyzer = st.analyzer ∧ (symAct same analyse st a).1.data = st.data := by
  cases a with
  | replace i v => exact ⟨rfl, Nat.le_succ _, fun r hr => Function.update_of_ne (Nat.ne_of_lt hr) _ _, rfl, rfl, rfl⟩
  | insert i v => exact ⟨rfl, Nat.le_succ _, fun r hr => Function.update_of_ne (Nat.ne_of_lt hr) _ _, rfl, rfl, rfl⟩
  | remove i => exact ⟨rfl, Nat.le_refl _, fun _ _ => rfl, rfl, rfl, rfl⟩
  | change i v => cases hq
  | set q => cases hq
  | readAnalyzer => cases hn
  | readData => cases hn

/-- Nothing is kept before the first read. -/
theorem symRun_unread (h : List (SymAct V Q)) : ∀ (st : SymState V Q D), st.data = none ∧ st.saved = none ∧ st.analyzer = none → (∀ a ∈ h, a.noRead = true) →
    (symRun same analyse st h).data = none ∧ (symRun same analyse st h).saved = none ∧ (symRun same analyse st h).analyzer = none := by
  induction h with
  | nil => intro st hn _; exact hn
  | cons a h ih =>
    intro st hn hr
    refine ih _ ?_ fun b hb => hr b (List.mem_cons_of_mem _ hb)
    have ha := hr a List.mem_cons_self
    cases a with
    | replace i v => exact hn
    | insert i v => exact hn
    | remove i => exact hn
    | change i v => simp only [symAct]; split <;> exact hn
    | set q => exact ⟨rfl, hn.2.1, hn.2.2⟩
    | readAnalyzer => cases ha
    | readData => cases ha

theorem getSymData_right (hs : SameAnalysis same analyse) {st : SymState V Q D} (hg : GoodRefs st) (hk : KeptFor analyse st st.analyzer)
    (hd : KeptFor analyse st st.data) : (getSymData same analyse st).2 = analyse (symValues st) st.settings ∧
    KeptFor analyse (getSymData same analyse st).1 (getSymData same analyse st).1.data := by
  obtain ⟨a1, a2, a3⟩ := getAnalyzer_right hs hg hk
  unfold getSymData
  cases he : st.data with
  | none => exact ⟨a1, fun d h => a3 d h⟩
  | some d =>
    simp only
    by_cases hst : symStale same st = true
    · rw [if_pos hst]; exact ⟨a1, fun d h => a3 d h⟩
    · rw [if_neg hst]
      obtain ⟨l, h1, h2, h3⟩ := hd d he
      refine ⟨?_, hd⟩
      rw [h3]; exact not_stale hs h1 (by simpa using hst) _

theorem getSymData_analyzer (hs : SameAnalysis same analyse) {st : SymState V Q D} (hg : GoodRefs st) (hk : KeptFor analyse st st.analyzer) :
    KeptFor analyse (getSymData same analyse st).1 (getSymData same analyse st).1.analyzer := by
  obtain ⟨a1, a2, a3⟩ := getAnalyzer_right hs hg hk
  unfold getSymData
  cases he : st.data with
  | none => exact fun d h => a2 d h
  | some d =>
    simp only
    by_cases hst : symStale same st = true
    · rw [if_pos hst]; exact fun d h => a2 d h
    · rw [if_neg hst]; exact hk

theorem run_gentle (hs : SameAnalysis same analyse) (h : List (SymAct V Q)) : ∀ (st : SymState V Q D), GoodRefs st → KeptFor analyse st st.analyzer →
    (∀ a ∈ h, a.gentle = true) → KeptFor analyse (symRun same analyse st h) (symRun same analyse st h).analyzer ∧
      (KeptFor analyse st st.data → (∀ a ∈ h, a ≠ .readAnalyzer) → KeptFor analyse (symRun same analyse st h) (symRun same analyse st h).data) := by
  induction h with
  | nil => intro st _ hk _; exact ⟨hk, fun h _ => h⟩
  | cons a h ih =>
    intro st hg hk hgen
    have hg' := (symAct_values (same := same) (analyse := analyse) st hg a).1
    have ha := hgen a List.mem_cons_self
    by_cases hn : a.noRead = true
    · obtain ⟨q1, q2, q3, q4, q5, q6⟩ := symAct_quiet (same := same) (analyse := analyse) st a ha hn
      obtain ⟨i1, i2⟩ := ih _ hg' (by rw [q5]; exact kept_change hk q1 q2 q3 q4) fun b hb => hgen b (List.mem_cons_of_mem _ hb)
      exact ⟨i1, fun hd hra => i2 (by rw [q6]; exact kept_change hd q1 q2 q3 q4) fun b hb => hra b (List.mem_cons_of_mem _ hb)⟩
    · cases a with
      | readAnalyzer =>
        obtain ⟨i1, _⟩ := ih _ hg' (getAnalyzer_right hs hg hk).2.1 fun b hb => hgen b (List.mem_cons_of_mem _ hb)
        exact ⟨i1, fun _ hra => absurd rfl (hra _ List.mem_cons_self)⟩
      | readData =>
        obtain ⟨i1, i2⟩ := ih _ hg' (getSymData_analyzer hs hg hk) fun b hb => hgen b (List.mem_cons_of_mem _ hb)
        exact ⟨i1, fun hd hra => i2 (getSymData_right hs hg hk hd).2 fun b hb => hra b (List.mem_cons_of_mem _ hb)⟩
      | _ => exact absurd rfl hn

/-! ## C91 -/

/-- **C91 (partial).**  Before the first read anything may be done; afterwards sites may be replaced, inserted and removed and both kinds of data read.  Then
the analyzer that is read is that of the present sites with the present settings; and so is the data if the analyzer itself was never read. -/
theorem C91_present_partial (hs : SameAnalysis same analyse) (vs : List V) (v0 : V) (q : Q) (h1 h2 : List (SymAct V Q))
    (hr : ∀ a ∈ h1, a.noRead = true) (hg : ∀ a ∈ h2, a.gentle = true) :
    (symAct same analyse (symRun same analyse (symInit vs v0 q) (h1 ++ h2)) .readAnalyzer).2 =
      some (analyse ((h1 ++ h2).foldl sitesAfter vs) ((h1 ++ h2).foldl settingsAfter q)) ∧
    ((∀ a ∈ h2, a ≠ .readAnalyzer) → (symAct same analyse (symRun same analyse (symInit vs v0 q) (h1 ++ h2)) .readData).2 =
      some (analyse ((h1 ++ h2).foldl sitesAfter vs) ((h1 ++ h2).foldl settingsAfter q))) := by
  obtain ⟨s1, s2⟩ := symInit_good (D := D) vs v0 q
  obtain ⟨v1, v2, v3⟩ := symRun_values (same := same) (analyse := analyse) (h1 ++ h2) _ s1
  obtain ⟨u1, u2, u3⟩ := symRun_unread (same := same) (analyse := analyse) h1 (symInit vs v0 q) ⟨rfl, rfl, rfl⟩ hr
  have g1 := (symRun_values (same := same) (analyse := analyse) h1 _ s1).1
  have happ : symRun same analyse (symInit vs v0 q) (h1 ++ h2) = symRun same analyse (symRun same analyse (symInit vs v0 q) h1) h2 := by
    simp [symRun, List.foldl_append]
  obtain ⟨k1, k2⟩ := run_gentle hs h2 _ g1 (by rw [u3]; exact fun d hd => by cases hd) hg
  rw [← happ] at k1 k2
  rw [s2] at v2
  constructor
  · simp only [symAct]
    rw [(getAnalyzer_right hs v1 k1).1, v2, v3]; rfl
  · intro hra
    simp only [symAct]
    rw [(getSymData_right hs v1 k1 (k2 (by rw [u1]; exact fun d hd => by cases hd) hra)).1, v2, v3]; rfl

/-- What was read in a sequence of actions. -/
def readings (same : V → V → Bool) (analyse : List V → Q → D) : SymState V Q D → List (SymAct V Q) → List (Option D)
  | _, [] => []
  | st, a :: h => (symAct same analyse st a).2 :: readings same analyse (symAct same analyse st a).1 h

theorem all_zip_self (l : List ℕ) (p : ℕ × ℕ → Bool) (h : ∀ r, p (r, r) = true) : (l.zip l).all p = true := by
  induction l with
  | nil => rfl
  | cons a l ih => simp [h, ih]

theorem not_stale_saved {st : SymState V Q D} (h : st.saved = some st.sites) : symStale same st = false := by
  unfold symStale
  rw [h]
  simp only [beq_self_eq_true, Bool.true_and, Bool.not_eq_false']
  exact all_zip_self _ _ fun r => by simp

theorem getAnalyzer_none {st : SymState V Q D} (h : st.analyzer = none) :
    getAnalyzer same analyse st = ({ st with saved := some st.sites, analyzer := some (analyse (symValues st) st.settings) }, analyse (symValues st) st.settings) := by
  unfold getAnalyzer; rw [h]

theorem getAnalyzer_kept {st : SymState V Q D} {a : D} (h : st.analyzer = some a) (hs : symStale same st = false) : getAnalyzer same analyse st = (st, a) := by
  unfold getAnalyzer; rw [h]; simp [hs]

/-- The state after the data was read first. -/
def symFirst (analyse : List V → Q → D) (vs : List V) (v0 : V) (q : Q) : SymState V Q D :=
  { (symInit vs v0 q : SymState V Q D) with saved := some (List.range vs.length), analyzer := some (analyse vs q), data := some (analyse vs q) }

theorem read_first (vs : List V) (v0 : V) (q : Q) : symAct same analyse (symInit vs v0 q) .readData = (symFirst analyse vs v0 q, some (analyse vs q)) := by
  have hv := (symInit_good (D := D) vs v0 q).2
  simp only [symAct, getSymData]
  rw [getAnalyzer_none (by rfl), hv]
  rfl

/-- **C91 (violated).**  New settings are ignored once the data was read, whatever the structure. -/
theorem C91_settings_ignored (same : V → V → Bool) (analyse : List V → Q → D) (vs : List V) (v0 : V) (q q' : Q) :
    readings same analyse (symInit vs v0 q) [.readData, .set q', .readData] = [some (analyse vs q), none, some (analyse vs q)] := by
  simp only [readings, read_first]
  simp only [symAct, getSymData]
  rw [getAnalyzer_kept (a := analyse vs q) (by rfl) (not_stale_saved (by rfl))]

/-- **C91 (violated).**  A site that is changed in place after a read is not seen by the next read. -/
theorem C91_in_place_ignored (same : V → V → Bool) (analyse : List V → Q → D) (vs : List V) (v0 : V) (q : Q) (i : ℕ) (v : V) :
    readings same analyse (symInit vs v0 q) [.readData, .change i v, .readData] = [some (analyse vs q), none, some (analyse vs q)] := by
  have key : ∃ st : SymState V Q D, symAct same analyse (symFirst analyse vs v0 q) (.change i v) = (st, none) ∧ st.data = some (analyse vs q) ∧
      st.saved = some st.sites := by
    simp only [symAct]
    cases (symFirst analyse vs v0 q).sites[i]? with
    | none => exact ⟨_, rfl, rfl, rfl⟩
    | some r => exact ⟨_, rfl, rfl, rfl⟩
  obtain ⟨st, h1, h2, h3⟩ := key
  simp only [readings, read_first, h1]
  simp only [symAct, getSymData, h2, not_stale_saved h3]
  simp

/-- **C91 (violated).**  When the analyzer is read between a new site and the next read of the data, the data is the old one. -/
theorem C91_analyzer_hides_change (analyse : List V → Q → D) (vs : List V) (v0 : V) (q : Q) (i : ℕ) (v : V) (hd : ∀ r, same r v = false)
    (hi : i < vs.length) :
    readings same analyse (symInit vs v0 q) [.readData, .replace i v, .readAnalyzer, .readData] =
      [some (analyse vs q), none, some (analyse (vs.set i v) q), some (analyse vs q)] := by
  have hgood : GoodRefs (symFirst analyse vs v0 q) := (symInit_good (D := D) vs v0 q).1
  have hv : symValues (symFirst analyse vs v0 q) = vs := (symInit_good (D := D) vs v0 q).2
  obtain ⟨g1, g2, g3, g4⟩ := symAct_values (same := same) (analyse := analyse) _ hgood (.replace i v)
  simp only [readings, read_first]
  generalize hst : (symAct same analyse (symFirst analyse vs v0 q) (.replace i v)).1 = st at *
  have hno : (symAct same analyse (symFirst analyse vs v0 q) (.replace i v)).2 = none := rfl
  have hsaved : st.saved = some (List.range vs.length) := by rw [← hst]; rfl
  have hdata : st.data = some (analyse vs q) := by rw [← hst]; rfl
  have han : st.analyzer = some (analyse vs q) := by rw [← hst]; rfl
  have hset : st.settings = q := by rw [← hst]; rfl
  have hsites : st.sites = (List.range vs.length).set i vs.length := by rw [← hst]; rfl
  have hstore : st.store vs.length = v := by rw [← hst]; exact Function.update_self _ _ _
  have stale : symStale same st = true := by
    unfold symStale
    rw [hsaved]
    simp only [Bool.not_eq_true', Bool.and_eq_false_iff]
    right
    rw [List.all_eq_false]
    refine ⟨(i, vs.length), ?_, ?_⟩
    · rw [List.mem_iff_getElem]
      refine ⟨i, by simpa [hsites] using hi, ?_⟩
      simp [hsites]
    · simp only [hstore, hd, Bool.or_false, beq_iff_eq]; omega
  have hga : getAnalyzer same analyse st = ({ st with saved := some st.sites, analyzer := some (analyse (vs.set i v) q) }, analyse (vs.set i v) q) := by
    unfold getAnalyzer
    rw [han]
    simp only [stale, if_true, hset, g2, hv, sitesAfter]
  rw [hno]
  simp only [symAct, hga, getSymData]
  simp only [hdata]
  rw [not_stale_saved (by rfl)]
  simp

/-! ### A case -/

/-- Sites are numbers, the analysis their sum and the settings: the hypotheses can be met and the data moves with the sites. -/
example : SameAnalysis (V := ℕ) (Q := ℕ) (fun a b => a == b) (fun vs q => vs.sum + q) := by
  intro vs ws q h
  have : vs = ws := by
    induction h with
    | nil => rfl
    | cons h1 _ ih => rcases h1 with h1 | h1
                      · rw [h1, ih]
                      · rw [beq_iff_eq.1 h1, ih]
  rw [this]

example : readings (V := ℕ) (Q := ℕ) (fun a b => a == b) (fun vs q => vs.sum + q) (symInit [1, 2] 0 100)
    [.set 200, .change 0 5, .readData, .insert 1 7, .readData, .remove 0, .readData, .replace 0 7, .readData] =
    [none, none, some 207, none, some 214, none, some 209, none, some 209] := by decide

end BaderKit
