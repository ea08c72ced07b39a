import Verif.Prelude

/-! # Python's `min` and `max` of an iterable -/

namespace Evogil

variable {α : Type*} [LinearOrder α]

/-- Python's `min(l)`: `ValueError` (`none`) on an empty sequence. -/
def pyMin : List α → Option α
  | [] => none
  | a :: t => some (t.foldl min a)

/-- Python's `max(l)`: `ValueError` (`none`) on an empty sequence. -/
def pyMax : List α → Option α
  | [] => none
  | a :: t => some (t.foldl max a)

theorem foldl_min_spec (l : List α) : ∀ a, (l.foldl min a = a ∨ l.foldl min a ∈ l) ∧
    l.foldl min a ≤ a ∧ ∀ x ∈ l, l.foldl min a ≤ x := by
  induction l with
  | nil => intro a; simp
  | cons b l ih =>
    intro a
    obtain ⟨h1, h2, h3⟩ := ih (min a b)
    simp only [List.foldl_cons]
    refine ⟨?_, h2.trans (min_le_left _ _), ?_⟩
    · rcases h1 with h1 | h1
      · rw [h1]
        rcases le_total a b with h | h
        · rw [min_eq_left h]; simp
        · rw [min_eq_right h]; simp
      · right; simp [h1]
    · intro x hx
      rcases List.mem_cons.mp hx with rfl | hx
      · exact h2.trans (min_le_right _ _)
      · exact h3 x hx

theorem foldl_max_spec (l : List α) : ∀ a, (l.foldl max a = a ∨ l.foldl max a ∈ l) ∧
    a ≤ l.foldl max a ∧ ∀ x ∈ l, x ≤ l.foldl max a :=
  foldl_min_spec (α := αᵒᵈ) l

theorem pyMin_eq_some {l : List α} {m : α} : pyMin l = some m ↔ m ∈ l ∧ ∀ x ∈ l, m ≤ x := by
  cases l with
  | nil => simp [pyMin]
  | cons a t =>
    obtain ⟨h1, h2, h3⟩ := foldl_min_spec t a
    have hmem : t.foldl min a ∈ a :: t := by
      rcases h1 with h1 | h1
      · rw [h1]; simp
      · simp [h1]
    have hle : ∀ x ∈ a :: t, t.foldl min a ≤ x := by
      intro x hx
      rcases List.mem_cons.mp hx with rfl | hx
      · exact h2
      · exact h3 x hx
    simp only [pyMin, Option.some.injEq]
    constructor
    · rintro rfl; exact ⟨hmem, hle⟩
    · rintro ⟨g1, g2⟩; exact le_antisymm (hle m g1) (g2 _ hmem)

theorem pyMax_eq_some {l : List α} {m : α} : pyMax l = some m ↔ m ∈ l ∧ ∀ x ∈ l, x ≤ m :=
  pyMin_eq_some (α := αᵒᵈ)

theorem pyMin_isSome {l : List α} : (pyMin l).isSome ↔ l ≠ [] := by
  cases l <;> simp [pyMin]

theorem pyMax_isSome {l : List α} : (pyMax l).isSome ↔ l ≠ [] := by
  cases l <;> simp [pyMax]

end Evogil
