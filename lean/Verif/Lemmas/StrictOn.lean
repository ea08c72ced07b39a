import Mathlib.Data.List.Basic
import Mathlib.Tactic.Common
import Verif.Lemmas.Dominance

namespace Evogil

/-- A boolean relation that is a strict partial order on the members of a list. -/
structure StrictOn {ι : Type*} (r : ι → ι → Bool) (S : List ι) : Prop where
  irrefl : ∀ x ∈ S, r x x = false
  trans : ∀ x ∈ S, ∀ y ∈ S, ∀ z ∈ S, r x y = true → r y z = true → r x z = true

namespace StrictOn
variable {ι : Type*} {r : ι → ι → Bool} {S T : List ι}

theorem asymm (h : StrictOn r S) {x y : ι} (hx : x ∈ S) (hy : y ∈ S) (hxy : r x y = true) :
    r y x = false := by
  rw [Bool.eq_false_iff]
  intro hyx
  have := h.trans x hx y hy x hx hxy hyx
  rw [h.irrefl x hx] at this
  simp at this

theorem mono (h : StrictOn r S) (hT : ∀ x ∈ T, x ∈ S) : StrictOn r T :=
  ⟨fun x hx => h.irrefl x (hT x hx),
   fun x hx y hy z hz => h.trans x (hT x hx) y (hT y hy) z (hT z hz)⟩

theorem exists_min_aux (h : StrictOn r S) (n : ℕ) :
    ∀ x ∈ S, (S.filter fun y => r y x).length ≤ n → (∃ y ∈ S, r y x = true) →
      ∃ z ∈ S, r z x = true ∧ ∀ w ∈ S, r w z = false := by
  induction n with
  | zero =>
    rintro x _ hl ⟨y, hy, hyx⟩
    have : y ∈ S.filter fun y => r y x := List.mem_filter.2 ⟨hy, hyx⟩
    rw [List.eq_nil_of_length_eq_zero (Nat.le_zero.1 hl)] at this
    simp at this
  | succ n ih =>
    rintro x hx hl ⟨y, hy, hyx⟩
    by_cases hc : ∃ w ∈ S, r w y = true
    · have hlt : (S.filter fun w => r w y).length < (S.filter fun w => r w x).length := by
        have hsub : (S.filter fun w => r w y) = (S.filter fun w => r w x).filter fun w => r w y := by
          rw [List.filter_filter]
          apply List.filter_congr
          intro w hw
          cases hwy : r w y
          · simp
          · simp [h.trans w hw y hy x hx hwy hyx]
        rw [hsub]
        refine lt_of_le_of_ne (List.length_filter_le _ _) ?_
        intro heq
        rw [List.length_filter_eq_length_iff] at heq
        have := heq y (List.mem_filter.2 ⟨hy, hyx⟩)
        rw [h.irrefl y hy] at this
        simp at this
      obtain ⟨z, hz, hzy, hmin⟩ := ih y hy (by omega) hc
      exact ⟨z, hz, h.trans z hz y hy x hx hzy hyx, hmin⟩
    · push Not at hc
      exact ⟨y, hy, hyx, fun w hw => by simpa using hc w hw⟩

/-- Every dominated member is dominated by a non-dominated one. -/
theorem exists_min (h : StrictOn r S) {x : ι} (hx : x ∈ S) (hd : ∃ y ∈ S, r y x = true) :
    ∃ z ∈ S, r z x = true ∧ ∀ w ∈ S, r w z = false :=
  h.exists_min_aux _ x hx le_rfl hd

theorem exists_nondominated (h : StrictOn r S) (hS : S ≠ []) :
    ∃ z ∈ S, ∀ w ∈ S, r w z = false := by
  obtain ⟨x, hx⟩ := List.exists_mem_of_ne_nil S hS
  by_cases hc : ∃ w ∈ S, r w x = true
  · obtain ⟨z, hz, -, hm⟩ := h.exists_min hx hc
    exact ⟨z, hz, hm⟩
  · push Not at hc
    exact ⟨x, hx, fun w hw => by simpa using hc w hw⟩

end StrictOn

/-- Dominance between vectors of one length is a strict partial order. -/
theorem strictOn_dominates {α : Type*} [LinearOrder α] {S : List (List α)} {d : ℕ}
    (hS : ∀ x ∈ S, x.length = d) : StrictOn dominates S :=
  ⟨fun x _ => dominates_irrefl x, fun x hx y hy z hz =>
    dominates_trans ((hS x hx).trans (hS y hy).symm) ((hS y hy).trans (hS z hz).symm)⟩

/-- The same through an objective map. -/
theorem strictOn_dominates_map {α ι : Type*} [LinearOrder α] {S : List ι} (f : ι → List α) {d : ℕ}
    (hS : ∀ x ∈ S, (f x).length = d) : StrictOn (fun x y => dominates (f x) (f y)) S :=
  ⟨fun x _ => dominates_irrefl (f x), fun x hx y hy z hz =>
    dominates_trans ((hS x hx).trans (hS y hy).symm) ((hS y hy).trans (hS z hz).symm)⟩

end Evogil
