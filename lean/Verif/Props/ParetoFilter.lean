import Verif.Model.ParetoFilter
import Verif.Lemmas.StrictOn
import Mathlib.Data.List.Perm.Basic

/-! # Property C06: the non-domination filters -/

namespace Evogil
open Spec

variable {α : Type*} [LinearOrder α]

/-- Non-dominated inside `S`, as a boolean (helper for the statement of list equality). -/
private def nd (S : List (List α)) (x : List α) : Bool := S.all fun y => !dominates y x

private theorem nd_iff {S : List (List α)} {x : List α} :
    nd S x = true ↔ ∀ y ∈ S, dominates y x = false := by
  simp [nd]

private theorem fold_invariant (d : ℕ) (P : List (List α)) :
    (∀ x ∈ P, x.length = d) → P.foldl filterStep [] = P.filter (nd P) := by
  induction P using List.reverseRecOn with
  | nil => simp
  | append_singleton P a ih =>
    intro hlen
    have hP : ∀ x ∈ P, x.length = d := fun x hx => hlen x (by simp [hx])
    have hstr : StrictOn dominates (P ++ [a]) := strictOn_dominates hlen
    have haa : dominates a a = false := dominates_irrefl a
    rw [List.foldl_append, ih hP, List.filter_append]
    simp only [List.foldl_cons, List.foldl_nil, filterStep, List.filter_filter]
    have e1 : P.filter (fun x => !dominates a x && nd P x) = P.filter (nd (P ++ [a])) := by
      apply List.filter_congr
      intro x _
      simp [nd, Bool.and_comm]
    have e2 : ((P.filter (nd P)).any fun n => dominates n a) = !nd (P ++ [a]) a := by
      rw [Bool.eq_iff_iff]
      simp only [List.any_eq_true, List.mem_filter, nd_iff, Bool.not_eq_true', ← Bool.not_eq_true]
      constructor
      · rintro ⟨n, ⟨hn, -⟩, hd⟩ hc
        exact hc n (by simp [hn]) hd
      · intro hc
        have : ∃ y ∈ P ++ [a], dominates y a = true := by
          by_contra hcon
          push Not at hcon
          exact hc fun y hy => hcon y hy
        obtain ⟨z, hz, hza, hmin⟩ := hstr.exists_min (by simp) this
        have hzP : z ∈ P := by
          rcases List.mem_append.1 hz with h | h
          · exact h
          · rw [List.mem_singleton.1 h, haa] at hza
            simp at hza
        exact ⟨z, ⟨hzP, fun y hy => by simp [hmin y (by simp [hy])]⟩, hza⟩
    rw [e1, e2]
    cases h : nd (P ++ [a]) a <;> simp [h]

/-- C06: the on-line filter returns exactly the sublist of the input points that no
input point Pareto-dominates (same order, same multiplicities). -/
theorem C06_filter_eq (d : ℕ) (S : List (List α)) (hS : ∀ x ∈ S, x.length = d) :
    ∃ p : List α → Bool, filterNotDominated S = S.filter p ∧
      ∀ x ∈ S, p x = true ↔ NonDominated LDom S x := by
  refine ⟨nd S, fold_invariant d S hS, fun x hx => ?_⟩
  rw [nd_iff]
  unfold NonDominated
  refine forall₂_congr fun y hy => ?_
  rw [← dominates_iff_LDom ((hS y hy).trans (hS x hx).symm), Bool.not_eq_true]

/-- C06: membership form. -/
theorem C06_mem_filter (d : ℕ) (S : List (List α)) (hS : ∀ x ∈ S, x.length = d) (x : List α) :
    x ∈ filterNotDominated S ↔ x ∈ S ∧ NonDominated LDom S x := by
  obtain ⟨p, h1, h2⟩ := C06_filter_eq d S hS
  rw [h1, List.mem_filter]
  exact ⟨fun h => ⟨h.1, (h2 x h.1).1 h.2⟩, fun h => ⟨h.1, (h2 x h.1).2 h.2⟩⟩

/-- C06: the result does not depend on the order in which the points are read. -/
theorem C06_order_independent (d : ℕ) (S T : List (List α)) (hS : ∀ x ∈ S, x.length = d)
    (h : S.Perm T) : (filterNotDominated S).Perm (filterNotDominated T) := by
  have hT : ∀ x ∈ T, x.length = d := fun x hx => hS x (h.mem_iff.2 hx)
  unfold filterNotDominated
  rw [fold_invariant d S hS, fold_invariant d T hT]
  have : nd S = nd T := by
    funext x
    rw [Bool.eq_iff_iff, nd_iff, nd_iff]
    exact ⟨fun hh y hy => hh y (h.mem_iff.2 hy), fun hh y hy => hh y (h.mem_iff.1 hy)⟩
  rw [this]
  exact h.filter _

/-- C06: the result of the filter is never empty for a non-empty input and every input
point is weakly dominated by a kept one. -/
theorem C06_covers (d : ℕ) (S : List (List α)) (hS : ∀ x ∈ S, x.length = d) (x : List α)
    (hx : x ∈ S) : ∃ y ∈ filterNotDominated S, y = x ∨ LDom y x := by
  by_cases hc : ∃ w ∈ S, dominates w x = true
  · obtain ⟨z, hz, hzx, hm⟩ := (strictOn_dominates hS).exists_min hx hc
    refine ⟨z, (C06_mem_filter d S hS z).2 ⟨hz, ?_⟩, Or.inr ?_⟩
    · intro w hw hwz
      rw [← dominates_iff_LDom ((hS w hw).trans (hS z hz).symm), hm w hw] at hwz
      simp at hwz
    · exact (dominates_iff_LDom ((hS z hz).trans (hS x hx).symm)).1 hzx
  · refine ⟨x, (C06_mem_filter d S hS x).2 ⟨hx, ?_⟩, Or.inl rfl⟩
    intro w hw hwx
    exact hc ⟨w, hw, (dominates_iff_LDom ((hS w hw).trans (hS x hx).symm)).2 hwx⟩

/-- C06: the second filter has the same members, without repetitions. -/
theorem C06_filter2 (d : ℕ) (S : List (List α)) (hS : ∀ x ∈ S, x.length = d) :
    (filterNotDominated2 S).Nodup ∧
      ∀ x, x ∈ filterNotDominated2 S ↔ x ∈ filterNotDominated S := by
  constructor
  · exact (nodup_dictKeys S).filter _
  · intro x
    rw [C06_mem_filter d S hS]
    unfold filterNotDominated2
    rw [List.mem_filter, mem_dictKeys]
    refine and_congr_right fun hx => ?_
    simp only [List.all_eq_true, Bool.not_eq_true']
    unfold NonDominated
    refine forall₂_congr fun y hy => ?_
    rw [← dominates_iff_LDom ((hS y hy).trans (hS x hx).symm), Bool.not_eq_true]

/-- A dominated point, a duplicate and two incomparable ones. -/
example : filterNotDominated [[3, 3], [1, 4], [2, 2], [1, (4 : ℕ)]] = [[1, 4], [2, 2], [1, 4]] := by
  decide

end Evogil
