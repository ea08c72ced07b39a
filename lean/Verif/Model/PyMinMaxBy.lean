import Verif.Prelude

/-! # Python's `min` and `max` with a key -/

namespace Evogil

variable {α κ : Type*} [LinearOrder κ]

/-- the loop of `min(l, key=key)`: a later element replaces the current one only if its key is
strictly smaller -/
def minByFrom (key : α → κ) : α → List α → α
  | m, [] => m
  | m, x :: rest => if key x < key m then minByFrom key x rest else minByFrom key m rest

/-- Python's `min(l, key=key)`; `none` is the `ValueError` for an empty sequence. -/
def pyMinBy (key : α → κ) : List α → Option α
  | [] => none
  | x :: rest => some (minByFrom key x rest)

/-- Python's `max(l, key=key)`: the first element with the largest key. -/
def pyMaxBy (key : α → κ) : List α → Option α := pyMinBy (fun x => OrderDual.toDual (key x))

theorem minByFrom_spec (key : α → κ) (l : List α) : ∀ m,
    (minByFrom key m l = m ∧ ∀ x ∈ l, key m ≤ key x) ∨
      ∃ pre post, l = pre ++ minByFrom key m l :: post ∧ key (minByFrom key m l) < key m ∧
        (∀ x ∈ pre, key (minByFrom key m l) < key x) ∧
        ∀ x ∈ post, key (minByFrom key m l) ≤ key x := by
  induction l with
  | nil => intro m; left; simp [minByFrom]
  | cons a l ih =>
    intro m
    rw [minByFrom]
    by_cases h : key a < key m
    · rw [if_pos h]
      right
      rcases ih a with ⟨h1, h2⟩ | ⟨pre, post, h1, h2, h3, h4⟩
      · exact ⟨[], l, by rw [h1]; rfl, by rw [h1]; exact h, by simp, by rw [h1]; exact h2⟩
      · refine ⟨a :: pre, post, by rw [List.cons_append, ← h1], h2.trans h, ?_, h4⟩
        intro x hx
        rcases List.mem_cons.1 hx with rfl | hx
        · exact h2
        · exact h3 x hx
    · rw [if_neg h]
      rcases ih m with ⟨h1, h2⟩ | ⟨pre, post, h1, h2, h3, h4⟩
      · left
        refine ⟨h1, ?_⟩
        intro x hx
        rcases List.mem_cons.1 hx with rfl | hx
        · exact not_lt.1 h
        · exact h2 x hx
      · right
        refine ⟨a :: pre, post, by rw [List.cons_append, ← h1], h2, ?_, h4⟩
        intro x hx
        rcases List.mem_cons.1 hx with rfl | hx
        · exact h2.trans_le (not_lt.1 h)
        · exact h3 x hx

/-- `min` returns the first element with the smallest key. -/
theorem pyMinBy_spec {key : α → κ} {l : List α} {m : α} (h : pyMinBy key l = some m) :
    ∃ pre post, l = pre ++ m :: post ∧ (∀ x ∈ pre, key m < key x) ∧ ∀ x ∈ post, key m ≤ key x := by
  cases l with
  | nil => simp [pyMinBy] at h
  | cons a l =>
    simp only [pyMinBy, Option.some.injEq] at h
    subst h
    rcases minByFrom_spec key l a with ⟨h1, h2⟩ | ⟨pre, post, h1, h2, h3, h4⟩
    · exact ⟨[], l, by rw [h1]; rfl, by simp, by rw [h1]; exact h2⟩
    · refine ⟨a :: pre, post, by rw [List.cons_append, ← h1], ?_, h4⟩
      intro x hx
      rcases List.mem_cons.1 hx with rfl | hx
      · exact h2
      · exact h3 x hx

theorem pyMinBy_mem {key : α → κ} {l : List α} {m : α} (h : pyMinBy key l = some m) :
    m ∈ l ∧ ∀ x ∈ l, key m ≤ key x := by
  obtain ⟨pre, post, rfl, h1, h2⟩ := pyMinBy_spec h
  refine ⟨by simp, ?_⟩
  intro x hx
  rcases List.mem_append.1 hx with hx | hx
  · exact (h1 x hx).le
  · rcases List.mem_cons.1 hx with rfl | hx
    · exact le_rfl
    · exact h2 x hx

theorem pyMinBy_isSome (key : α → κ) {l : List α} (h : l ≠ []) : ∃ m, pyMinBy key l = some m := by
  cases l with
  | nil => exact absurd rfl h
  | cons a l => exact ⟨_, rfl⟩

theorem pyMaxBy_spec {key : α → κ} {l : List α} {m : α} (h : pyMaxBy key l = some m) :
    ∃ pre post, l = pre ++ m :: post ∧ (∀ x ∈ pre, key x < key m) ∧ ∀ x ∈ post, key x ≤ key m := by
  obtain ⟨pre, post, e, h1, h2⟩ := pyMinBy_spec h
  exact ⟨pre, post, e, fun x hx => OrderDual.toDual_lt_toDual.1 (h1 x hx),
    fun x hx => OrderDual.toDual_le_toDual.1 (h2 x hx)⟩

theorem pyMaxBy_mem {key : α → κ} {l : List α} {m : α} (h : pyMaxBy key l = some m) :
    m ∈ l ∧ ∀ x ∈ l, key x ≤ key m := by
  obtain ⟨h1, h2⟩ := pyMinBy_mem h
  exact ⟨h1, fun x hx => OrderDual.toDual_le_toDual.1 (h2 x hx)⟩

theorem pyMaxBy_isSome (key : α → κ) {l : List α} (h : l ≠ []) : ∃ m, pyMaxBy key l = some m :=
  pyMinBy_isSome _ h

end Evogil
