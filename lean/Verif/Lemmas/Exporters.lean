import Verif.Model.Exporters
import Std.Data.String.ToNat
/-!
# Lemmas on file names and on sequences of writes
-/
namespace BaderKit

/-! ### Names -/

theorem repr_digits {n : ℕ} {c : Char} (h : c ∈ (Nat.repr n).toList) : c.isDigit = true := by
  have := Nat.isDigit_of_mem_toDigits (b := 10) (n := n) (c := c) (by omega) (by omega)
  apply this
  simpa [Nat.repr] using h

theorem underscore_not_mem_repr (n : ℕ) : '_' ∉ (Nat.repr n).toList := fun h => absurd (repr_digits h) (by decide)

theorem name_inj {a b c : String} : a ++ b = a ++ c ↔ b = c := by
  rw [← String.toList_inj, ← String.toList_inj, String.toList_append, String.toList_append, List.append_cancel_left_eq]

theorem name_inj_right {a b c : String} : b ++ a = c ++ a ↔ b = c := by
  rw [← String.toList_inj, ← String.toList_inj, String.toList_append, String.toList_append, List.append_cancel_right_eq]

theorem numbered_inj {p : String} {i j : ℕ} : p ++ Nat.repr i = p ++ Nat.repr j ↔ i = j := by
  rw [name_inj]
  exact ⟨Nat.repr_injective, fun h => by rw [h]⟩

theorem numbered_suffix_inj {p s : String} {i j : ℕ} : p ++ Nat.repr i ++ s = p ++ Nat.repr j ++ s ↔ i = j := by
  rw [name_inj_right, numbered_inj]

theorem numbered_ne_suffix {p s : String} (hs : '_' ∈ s.toList) (i j : ℕ) : p ++ Nat.repr i ≠ p ++ Nat.repr j ++ s := by
  intro h
  rw [String.append_assoc, name_inj] at h
  have : '_' ∈ (Nat.repr i).toList := by
    rw [h, String.toList_append]; exact List.mem_append_right _ hs
  exact underscore_not_mem_repr i this

theorem up_ne_down (a b : String) : a ++ "_up" ≠ b ++ "_down" := by
  intro h
  have := congrArg (fun s : String => s.toList.getLast?) h
  simp only [String.toList_append] at this
  rw [List.getLast?_append, List.getLast?_append] at this
  simp at this

theorem temp_ne (p s : String) (i : ℕ) (q : String) : p ++ "_temp" ++ s ++ Nat.repr i ≠ p ++ "_f" ++ q := by
  intro h
  rw [String.append_assoc, String.append_assoc, String.append_assoc, name_inj] at h
  have := congrArg (fun s : String => s.toList) h
  simp only [String.toList_append] at this
  have h2 := congrArg (fun l : List Char => l[1]?) this
  simp at h2

theorem underscore_not_mem_dummy (t : String) : '_' ∉ (dummySpecies t).toList := by
  unfold dummySpecies
  split_ifs <;> decide

theorem dummy_ne_suffix {p s : String} (hs : '_' ∈ s.toList) (t t' : String) : p ++ dummySpecies t ≠ p ++ dummySpecies t' ++ s := by
  intro h
  rw [String.append_assoc, name_inj] at h
  have : '_' ∈ (dummySpecies t).toList := by
    rw [h, String.toList_append]; exact List.mem_append_right _ hs
  exact underscore_not_mem_dummy t this

theorem ne_of_last {a b s t : String} (hs : s.toList.getLast? ≠ t.toList.getLast?) (hs0 : s.toList ≠ []) (ht0 : t.toList ≠ []) :
    a ++ s ≠ b ++ t := by
  intro h
  have := congrArg (fun s : String => s.toList.getLast?) h
  simp only [String.toList_append] at this
  rw [List.getLast?_append_of_ne_nil _ hs0, List.getLast?_append_of_ne_nil _ ht0] at this
  exact hs this

/-! ### Effects -/

variable {C : Type}

/-- Set or remove files of a directory one after another. -/
def assign (d : String) : List (String × Option C) → Files C → Files C
  | [], fs => fs
  | x :: l, fs => assign d l (Function.update fs (d, x.1) x.2)

theorem assign_append (d : String) (l l' : List (String × Option C)) (fs : Files C) :
    assign d (l ++ l') fs = assign d l' (assign d l fs) := by
  induction l generalizing fs with
  | nil => rfl
  | cons x l ih => exact ih _

/-- A file that is not mentioned is untouched. -/
theorem assign_other {d : String} {l : List (String × Option C)} {fs : Files C} {n : String × String}
    (h : n.1 = d → ∀ x ∈ l, n.2 ≠ x.1) : assign d l fs n = fs n := by
  induction l generalizing fs with
  | nil => rfl
  | cons x l ih =>
    rw [assign, ih (fun hn y hy => h hn y (List.mem_cons_of_mem _ hy)), Function.update_of_ne]
    intro he
    exact h (by rw [he]) x (List.mem_cons_self ..) (by rw [he])

/-- A file whose mentions agree has that content. -/
theorem assign_mem {d : String} {l : List (String × Option C)} {fs : Files C} {a : String} {v : Option C} (hm : (a, v) ∈ l)
    (h : ∀ w, (a, w) ∈ l → w = v) : assign d l fs (d, a) = v := by
  induction l generalizing fs with
  | nil => cases hm
  | cons x l ih =>
    rw [assign]
    by_cases hl : ∃ w, (a, w) ∈ l
    · obtain ⟨w, hw⟩ := hl
      have : w = v := h w (List.mem_cons_of_mem _ hw)
      subst this
      exact ih hw fun w' hw' => h w' (List.mem_cons_of_mem _ hw')
    · rw [assign_other]
      · rcases List.mem_cons.mp hm with rfl | hm
        · rw [Function.update_self]
        · exact absurd ⟨v, hm⟩ hl
      · rintro - y hy rfl
        exact hl ⟨y.2, hy⟩

/-- A loop of steps with known effects. -/
theorem forEach_assign {α : Type} {f : α → Files C → Wrote C} {d : String} {e : α → List (String × Option C)} {l : List α}
    (h : ∀ a ∈ l, ∀ fs, f a fs = (assign d (e a) fs, true)) (fs : Files C) : forEach f l fs = (assign d (l.flatMap e) fs, true) := by
  induction l generalizing fs with
  | nil => rfl
  | cons a l ih =>
    rw [forEach, h a (List.mem_cons_self ..)]
    simp only [Wrote.andThen, if_true]
    rw [ih (fun b hb => h b (List.mem_cons_of_mem _ hb)), List.flatMap_cons, assign_append]

/-- A loop whose first step fails. -/
theorem forEach_fail {α : Type} {f : α → Files C → Wrote C} {a : α} {l : List α} {fs fs' : Files C} (h : f a fs = (fs', false)) :
    forEach f (a :: l) fs = (fs', false) := by
  rw [forEach, h]; rfl

theorem fwrite_assign (d a : String) (c : C) (fs : Files C) : fwrite (some d) a c fs = (assign d [(a, some c)] fs, true) := rfl

/-- Write and rename. -/
theorem write_rename (d a b : String) (c : C) (fs : Files C) :
    (fwrite (some d) a c fs).andThen (frename (some d) a b) = (assign d [(a, none), (b, some c)] fs, true) := by
  simp only [fwrite, Wrote.andThen, if_true, frename, Function.update_self, assign]
  have : Function.update (Function.update fs (d, a) (some c)) (d, a) none = Function.update fs (d, a) none := by
    rw [Function.update_idem]
  rw [this]

/-- Write and rename twice. -/
theorem write_rename_rename (d a b e : String) (c : C) (fs : Files C) :
    ((fwrite (some d) a c fs).andThen (frename (some d) a b)).andThen (frename (some d) b e) =
      (assign d [(a, none), (b, none), (e, some c)] fs, true) := by
  rw [write_rename]
  simp only [Wrote.andThen, if_true, frename, assign, Function.update_self]
  rw [Function.update_idem]

end BaderKit
