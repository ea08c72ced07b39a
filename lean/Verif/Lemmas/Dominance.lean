import Verif.Model.Dominance
import Verif.Spec.Pareto
import Mathlib.Order.Lattice
import Mathlib.Tactic.Common
import Mathlib.Algebra.Order.Field.Basic

namespace Evogil
open Spec

variable {α : Type*} [LinearOrder α]

theorem ndir_of_lt {i j : α} (h : i < j) : ndir i j = 1 := by
  simp [ndir, h, h.le]

theorem ndir_of_eq {i j : α} (h : i = j) : ndir i j = 0 := by
  simp [ndir, h]

theorem ndir_of_gt {i j : α} (h : j < i) : ndir i j = -1 := by
  simp [ndir, not_le.2 h, not_lt.2 h.le]

theorem ndir_swap (i j : α) : ndir j i = - ndir i j := by
  rcases lt_trichotomy i j with h | h | h
  · rw [ndir_of_lt h, ndir_of_gt h]
  · rw [ndir_of_eq h, ndir_of_eq h.symm]; rfl
  · rw [ndir_of_gt h, ndir_of_lt h]; rfl

theorem cmpLoop_one (l : List (α × α)) :
    ((∀ p ∈ l, p.1 ≤ p.2) → dominationCmpLoop l 1 = 1) ∧
    ((¬ ∀ p ∈ l, p.1 ≤ p.2) → dominationCmpLoop l 1 = 0) := by
  induction l with
  | nil => simp [dominationCmpLoop]
  | cons p l ih =>
    obtain ⟨i, j⟩ := p
    rw [List.forall_mem_cons, dominationCmpLoop]
    rcases lt_trichotomy i j with h | h | h
    · rw [ndir_of_lt h]; simpa [h.le] using ih
    · rw [ndir_of_eq h]; simpa [h] using ih
    · rw [ndir_of_gt h]; simp [not_le.2 h]

theorem cmpLoop_neg_one (l : List (α × α)) :
    ((∀ p ∈ l, p.2 ≤ p.1) → dominationCmpLoop l (-1) = -1) ∧
    ((¬ ∀ p ∈ l, p.2 ≤ p.1) → dominationCmpLoop l (-1) = 0) := by
  induction l with
  | nil => simp [dominationCmpLoop]
  | cons p l ih =>
    obtain ⟨i, j⟩ := p
    rw [List.forall_mem_cons, dominationCmpLoop]
    rcases lt_trichotomy i j with h | h | h
    · rw [ndir_of_lt h]; simp [not_le.2 h]
    · rw [ndir_of_eq h]; simpa [h] using ih
    · rw [ndir_of_gt h]; simpa [h.le] using ih

theorem cmpLoop_zero (l : List (α × α)) :
    ((∀ p ∈ l, p.1 ≤ p.2) ∧ (∃ p ∈ l, p.1 < p.2) ∧ dominationCmpLoop l 0 = 1) ∨
    ((∀ p ∈ l, p.2 ≤ p.1) ∧ (∃ p ∈ l, p.2 < p.1) ∧ dominationCmpLoop l 0 = -1) ∨
    ((¬((∀ p ∈ l, p.1 ≤ p.2) ∧ (∃ p ∈ l, p.1 < p.2))) ∧
      (¬((∀ p ∈ l, p.2 ≤ p.1) ∧ (∃ p ∈ l, p.2 < p.1))) ∧ dominationCmpLoop l 0 = 0) := by
  induction l with
  | nil => simp [dominationCmpLoop]
  | cons p l ih =>
    obtain ⟨i, j⟩ := p
    simp only [List.forall_mem_cons, List.exists_mem_cons_iff, dominationCmpLoop]
    rcases lt_trichotomy i j with h | h | h
    · rw [ndir_of_lt h]
      have hp := cmpLoop_one l
      by_cases hq : ∀ p ∈ l, p.1 ≤ p.2
      · left; exact ⟨⟨h.le, hq⟩, Or.inl h, by simpa using hp.1 hq⟩
      · right; right
        exact ⟨fun hc => hq hc.1.2, fun hc => absurd hc.1.1 (not_le.2 h),
          by simpa using hp.2 hq⟩
    · rw [ndir_of_eq h]; subst h; simpa using ih
    · rw [ndir_of_gt h]
      have hp := cmpLoop_neg_one l
      by_cases hq : ∀ p ∈ l, p.2 ≤ p.1
      · right; left; exact ⟨⟨h.le, hq⟩, Or.inl h, by simpa using hp.1 hq⟩
      · right; right
        exact ⟨fun hc => absurd hc.1.1 (not_le.2 h), fun hc => hq hc.1.2,
          by simpa using hp.2 hq⟩

theorem not_both (l : List (α × α)) (h : ∀ p ∈ l, p.2 ≤ p.1) :
    ¬ ∃ p ∈ l, p.1 < p.2 := by
  rintro ⟨p, hp, hlt⟩
  exact absurd (h p hp) (not_le.2 hlt)

theorem dominationCmp_eq_one_iff (x y : List α) :
    dominationCmp x y = 1 ↔
      (∀ p ∈ x.zip y, p.1 ≤ p.2) ∧ (∃ p ∈ x.zip y, p.1 < p.2) := by
  unfold dominationCmp
  rcases cmpLoop_zero (x.zip y) with ⟨h1, h2, h3⟩ | ⟨h1, h2, h3⟩ | ⟨h1, h2, h3⟩ <;> rw [h3]
  · exact ⟨fun _ => ⟨h1, h2⟩, fun _ => rfl⟩
  · exact ⟨fun h => by simp at h, fun h => absurd h.2 (not_both _ h1)⟩
  · exact ⟨fun h => by simp at h, fun h => absurd h h1⟩

theorem dominationCmp_eq_neg_one_iff (x y : List α) :
    dominationCmp x y = -1 ↔
      (∀ p ∈ x.zip y, p.2 ≤ p.1) ∧ (∃ p ∈ x.zip y, p.2 < p.1) := by
  unfold dominationCmp
  rcases cmpLoop_zero (x.zip y) with ⟨h1, h2, h3⟩ | ⟨h1, h2, h3⟩ | ⟨h1, h2, h3⟩ <;> rw [h3]
  · exact ⟨fun h => by simp at h, fun h => absurd h2 (not_both _ h.1)⟩
  · exact ⟨fun _ => ⟨h1, h2⟩, fun _ => rfl⟩
  · exact ⟨fun h => by simp at h, fun h => absurd h h2⟩

theorem dominationCmp_range (x y : List α) :
    dominationCmp x y = 1 ∨ dominationCmp x y = -1 ∨ dominationCmp x y = 0 := by
  unfold dominationCmp
  rcases cmpLoop_zero (x.zip y) with ⟨h1, h2, h3⟩ | ⟨h1, h2, h3⟩ | ⟨h1, h2, h3⟩ <;> simp [h3]

theorem dominates_iff_zip (x y : List α) :
    dominates x y = true ↔
      (∀ p ∈ x.zip y, p.1 ≤ p.2) ∧ (∃ p ∈ x.zip y, p.1 < p.2) := by
  rw [← dominationCmp_eq_one_iff]
  unfold dominates
  rcases dominationCmp_range x y with h | h | h <;> simp [h]

theorem forall_zip_iff {α β : Type*} (R : α → β → Prop) (x : List α) (y : List β) :
    (∀ p ∈ x.zip y, R p.1 p.2) ↔
      ∀ (i : ℕ) (hx : i < x.length) (hy : i < y.length), R x[i] y[i] := by
  constructor
  · intro h i hx hy
    have : (x[i], y[i]) ∈ x.zip y := by
      rw [List.mem_iff_getElem]
      exact ⟨i, by simp [hx, hy], by simp⟩
    exact h _ this
  · intro h p hp
    rw [List.mem_iff_getElem] at hp
    obtain ⟨i, hi, rfl⟩ := hp
    simp at hi ⊢
    exact h i hi.1 hi.2

theorem exists_zip_iff {α β : Type*} (R : α → β → Prop) (x : List α) (y : List β) :
    (∃ p ∈ x.zip y, R p.1 p.2) ↔
      ∃ (i : ℕ) (hx : i < x.length) (hy : i < y.length), R x[i] y[i] := by
  have := forall_zip_iff (fun a b => ¬ R a b) x y
  constructor
  · intro ⟨p, hp, hR⟩
    by_contra hc
    push Not at hc
    exact this.2 hc p hp hR
  · intro ⟨i, hx, hy, hR⟩
    by_contra hc
    push Not at hc
    exact this.1 hc i hx hy hR

/-- On equal-length vectors the code's test is Pareto dominance. -/
theorem dominates_iff_LDom {x y : List α} (h : x.length = y.length) :
    dominates x y = true ↔ LDom x y := by
  rw [dominates_iff_zip, forall_zip_iff (fun a b : α => a ≤ b),
    exists_zip_iff (fun a b : α => a < b)]
  simp [LDom, h]

theorem LDom_irrefl (x : List α) : ¬ LDom x x := by
  rintro ⟨-, -, i, hx, hy, h⟩
  exact lt_irrefl _ h

theorem LDom_trans {x y z : List α} (h1 : LDom x y) (h2 : LDom y z) : LDom x z := by
  obtain ⟨l1, a1, i, hx, hy, s1⟩ := h1
  obtain ⟨l2, a2, -⟩ := h2
  refine ⟨l1.trans l2, ?_, i, hx, l2 ▸ hy, ?_⟩
  · intro k hk hk'
    exact (a1 k hk (l1 ▸ hk)).trans (a2 k (l1 ▸ hk) hk')
  · exact s1.trans_le (a2 i hy (l2 ▸ hy))

theorem LDom_asymm {x y : List α} (h1 : LDom x y) : ¬ LDom y x :=
  fun h2 => LDom_irrefl _ (LDom_trans h1 h2)

theorem dominates_irrefl (x : List α) : dominates x x = false := by
  rw [Bool.eq_false_iff]
  intro h
  exact LDom_irrefl x ((dominates_iff_LDom rfl).1 h)

theorem dominates_asymm {x y : List α} (h : dominates x y = true) :
    dominates y x = false := by
  rw [Bool.eq_false_iff]
  intro h'
  rw [dominates_iff_zip] at h h'
  obtain ⟨-, p, hp, hlt⟩ := h
  have : (p.2, p.1) ∈ y.zip x := by
    rw [List.mem_iff_getElem] at hp ⊢
    obtain ⟨i, hi, rfl⟩ := hp
    simp at hi
    exact ⟨i, by simp [hi], by simp⟩
  exact absurd (h'.1 _ this) (not_le.2 hlt)

theorem dominates_trans {x y z : List α} (hxy : x.length = y.length)
    (hyz : y.length = z.length) (h1 : dominates x y = true)
    (h2 : dominates y z = true) : dominates x z = true := by
  rw [dominates_iff_LDom] at *
  · exact LDom_trans h1 h2
  all_goals omega

theorem nsgaiiDominates_iff_zip (x y : List α) :
    nsgaiiDominates x y = true ↔
      (∀ p ∈ x.zip y, p.1 ≤ p.2) ∧ (∃ p ∈ x.zip y, p.1 < p.2) := by
  have key : nsgaiiDominatesWeak y x = true ↔ ∀ p ∈ x.zip y, p.2 ≤ p.1 := by
    unfold nsgaiiDominatesWeak
    rw [forall_zip_iff (fun a b : α => b ≤ a)]
    simp only [List.all_eq_true, decide_eq_true_eq]
    rw [forall_zip_iff (fun a b : α => a ≤ b)]
    exact ⟨fun h i hx hy => h i hy hx, fun h i hx hy => h i hy hx⟩
  unfold nsgaiiDominates
  rw [Bool.and_eq_true, Bool.not_eq_true', ← Bool.not_eq_true, key]
  unfold nsgaiiDominatesWeak
  simp only [List.all_eq_true, decide_eq_true_eq]
  refine and_congr_right fun _ => ?_
  push Not
  rfl

theorem omopsoLoop_some {K : Type*} [Field K] [LinearOrder K]
    (x y : List K) (b : Bool) (h : x.length ≤ y.length) :
    ∃ r, omopsoDominatesLoop 0 x y b = some r ∧
      (r = true ↔ (∀ p ∈ x.zip y, p.1 ≤ p.2) ∧ (b = true ∨ ∃ p ∈ x.zip y, p.1 < p.2)) := by
  induction x generalizing y b with
  | nil => exact ⟨b, by cases b <;> simp [omopsoDominatesLoop]⟩
  | cons s ss ih =>
    cases y with
    | nil => simp at h
    | cons p ps =>
      have h' : ss.length ≤ ps.length := by simpa using h
      simp only [omopsoDominatesLoop, add_zero, div_one]
      rcases lt_trichotomy p s with hlt | heq | hgt
      · exact ⟨false, by simp [hlt]⟩
      · subst heq
        obtain ⟨r, hr, hr'⟩ := ih ps b h'
        exact ⟨r, by simp [hr], by simp [hr']⟩
      · have h1 : ¬ p < s := not_lt.2 hgt.le
        obtain ⟨r, hr, hr'⟩ := ih ps true h'
        exact ⟨r, by simp [h1, hgt, hr], by simp [hr', hgt, hgt.le]⟩

end Evogil
