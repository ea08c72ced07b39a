import Verif.Lemmas.Dominance
import Mathlib.Data.Fin.VecNotation
import Mathlib.Algebra.Order.Ring.Rat
import Mathlib.Data.Rat.Defs

/-! # Properties C01, C02, C03: dominance -/

namespace Evogil
open Spec

section
variable {α : Type*} [LinearOrder α] {d : ℕ}

theorem LDom_ofFn (x y : Fin d → α) : LDom (List.ofFn x) (List.ofFn y) ↔ ParetoDom x y := by
  unfold LDom ParetoDom
  simp only [List.length_ofFn, List.getElem_ofFn, true_and]
  constructor
  · rintro ⟨h1, i, hi, hi', h2⟩
    exact ⟨fun i => h1 i i.2 i.2, ⟨i, hi⟩, h2⟩
  · rintro ⟨h1, i, h2⟩
    exact ⟨fun i hi _ => h1 ⟨i, hi⟩, i, i.2, i.2, h2⟩

/-- C01: the dominance test decides Pareto dominance. -/
theorem C01_dominates_iff (x y : Fin d → α) :
    dominates (List.ofFn x) (List.ofFn y) = true ↔ ParetoDom x y := by
  rw [dominates_iff_LDom (by simp), LDom_ofFn]

/-- C01: the three-way comparison returns 1 / -1 / 0 exactly for
"first dominates" / "second dominates" / "neither". -/
theorem C01_cmp (x y : Fin d → α) :
    (dominationCmp (List.ofFn x) (List.ofFn y) = 1 ↔ ParetoDom x y) ∧
    (dominationCmp (List.ofFn x) (List.ofFn y) = -1 ↔ ParetoDom y x) ∧
    (dominationCmp (List.ofFn x) (List.ofFn y) = 0 ↔ ¬ ParetoDom x y ∧ ¬ ParetoDom y x) := by
  have e1 : dominationCmp (List.ofFn x) (List.ofFn y) = 1 ↔ ParetoDom x y := by
    rw [dominationCmp_eq_one_iff, ← dominates_iff_zip, C01_dominates_iff]
  have e2 : dominationCmp (List.ofFn x) (List.ofFn y) = -1 ↔ ParetoDom y x := by
    rw [dominationCmp_eq_neg_one_iff, forall_zip_iff (fun a b : α => b ≤ a),
      exists_zip_iff (fun a b : α => b < a)]
    simp only [List.length_ofFn, List.getElem_ofFn, ParetoDom]
    constructor
    · rintro ⟨h1, i, hi, hi', h2⟩
      exact ⟨fun i => h1 i i.2 i.2, ⟨i, hi⟩, h2⟩
    · rintro ⟨h1, i, h2⟩
      exact ⟨fun i hi _ => h1 ⟨i, hi⟩, i, i.2, i.2, h2⟩
  refine ⟨e1, e2, ?_⟩
  rw [← e1, ← e2]
  rcases dominationCmp_range (List.ofFn x) (List.ofFn y) with h | h | h <;> simp [h]

/-- C02: irreflexive. -/
theorem C02_irrefl (x : List α) : dominates x x = false := dominates_irrefl x

/-- C02: asymmetric (even for vectors of different lengths). -/
theorem C02_asymm (x y : List α) (h : dominates x y = true) : dominates y x = false :=
  dominates_asymm h

/-- C02: transitive on vectors of equal length. -/
theorem C02_trans (x y z : List α) (hxy : x.length = y.length) (hyz : y.length = z.length)
    (h1 : dominates x y = true) (h2 : dominates y z = true) : dominates x z = true :=
  dominates_trans hxy hyz h1 h2

/-- C02: swapping the arguments negates the comparison. -/
theorem C02_cmp_antisymm (x y : List α) : dominationCmp y x = - dominationCmp x y := by
  have sw : ∀ (R : α → α → Prop), (∀ p ∈ y.zip x, R p.1 p.2) ↔ ∀ p ∈ x.zip y, R p.2 p.1 := by
    intro R
    rw [forall_zip_iff R, forall_zip_iff (fun a b => R b a)]
    exact ⟨fun h i hx hy => h i hy hx, fun h i hx hy => h i hy hx⟩
  have sw' : ∀ (R : α → α → Prop), (∃ p ∈ y.zip x, R p.1 p.2) ↔ ∃ p ∈ x.zip y, R p.2 p.1 := by
    intro R
    rw [exists_zip_iff R, exists_zip_iff (fun a b => R b a)]
    exact ⟨fun ⟨i, hx, hy, h⟩ => ⟨i, hy, hx, h⟩, fun ⟨i, hx, hy, h⟩ => ⟨i, hy, hx, h⟩⟩
  have e1 : dominationCmp y x = 1 ↔ dominationCmp x y = -1 := by
    rw [dominationCmp_eq_one_iff, dominationCmp_eq_neg_one_iff,
      sw (fun a b => a ≤ b), sw' (fun a b => a < b)]
  have e2 : dominationCmp y x = -1 ↔ dominationCmp x y = 1 := by
    rw [dominationCmp_eq_one_iff, dominationCmp_eq_neg_one_iff,
      sw (fun a b => b ≤ a), sw' (fun a b => b < a)]
  rcases dominationCmp_range x y with h | h | h <;>
    rcases dominationCmp_range y x with h' | h' | h' <;> simp_all

/-- Transitivity really needs equal lengths: `zip` drops the tail of the longer vector. -/
theorem C02_trans_needs_equal_length :
    dominates [1, 5] [(2 : ℕ)] = true ∧ dominates [2] [(3 : ℕ), 1] = true ∧
      dominates [1, 5] [(3 : ℕ), 1] = false := by decide

/-- C03: the NSGA-II (and NSLS) test gives the same verdict as the shared helper on
every pair of vectors. -/
theorem C03_nsgaii (x y : List α) : nsgaiiDominates x y = dominates x y := by
  rw [Bool.eq_iff_iff, nsgaiiDominates_iff_zip, dominates_iff_zip]

end

/-- C03: the OMOPSO test with `eta = 0` gives the same verdict as the shared helper
(and raises no `IndexError`) when the second vector is at least as long. -/
theorem C03_omopso {K : Type*} [Field K] [LinearOrder K] (x y : List K)
    (h : x.length ≤ y.length) : omopsoDominates 0 x y = some (dominates x y) := by
  obtain ⟨r, hr, hr'⟩ := omopsoLoop_some x y false h
  unfold omopsoDominates
  rw [hr]
  congr 1
  rw [Bool.eq_iff_iff, hr', dominates_iff_zip]
  simp

/-- C03: OMOPSO's `equal_obj` is equality of the objective vectors. -/
theorem C03_equal_obj {α : Type*} [LinearOrder α] (x y : List α) (h : x.length = y.length) :
    omopsoEqualObj x y = some (decide (x = y)) := by
  induction x generalizing y with
  | nil =>
    cases y with
    | nil => simp [omopsoEqualObj]
    | cons => simp at h
  | cons a as ih =>
    cases y with
    | nil => simp at h
    | cons b bs =>
      have h' : as.length = bs.length := by simpa using h
      by_cases hab : a = b <;> simp [omopsoEqualObj, hab, ih bs h']

/-! Concrete, non-trivial instances of the hypotheses above. -/

example : dominates [1, 2, 3] [1, 2, (4 : ℕ)] = true := by decide
example : dominates [1, 2, 3] [0, 2, (4 : ℕ)] = false := by decide
example : ParetoDom ![1, 2] (![1, 3] : Fin 2 → ℕ) :=
  ⟨by decide, 1, by decide⟩
example : ∃ x y z : List ℕ, x.length = y.length ∧ y.length = z.length ∧
    dominates x y = true ∧ dominates y z = true :=
  ⟨[1, 1], [1, 2], [2, 2], by decide⟩
example : omopsoDominates (0 : ℚ) [1, 2] [1, 3] = some true := by
  decide +kernel

end Evogil
