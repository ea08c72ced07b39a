import Verif.Model.Bogo
import Verif.Spec.Pareto
import Verif.Lemmas.Dominance
import Mathlib.Data.List.Induction
import Mathlib.Tactic.Set

/-! # Property C33: the archive of BOGO -/

set_option linter.unusedSectionVars false

namespace Evogil.Bogo

open Spec

variable {ι α : Type*} [LinearOrder α]

theorem refreshLoop_spec (fit : ι → List α) (x : ι) : ∀ (l : List ι) (b : Bool),
    (refreshLoop fit x l b).1.Sublist l ∧
    (∀ a ∈ (refreshLoop fit x l b).1, dominates (fit x) (fit a) = false) ∧
    ((refreshLoop fit x l b).2 = false → b = false ∧
      (∀ a ∈ l, dominates (fit a) (fit x) = false) ∧
      (refreshLoop fit x l b).1 = l.filter fun a => !dominates (fit x) (fit a)) := by
  intro l
  induction l with
  | nil => intro b; simp [refreshLoop]
  | cons a l ih =>
    intro b
    rw [refreshLoop]
    by_cases h1 : (!b && dominates (fit a) (fit x)) = true
    · rw [if_pos h1]
      obtain ⟨g1, g2, g3⟩ := ih true
      exact ⟨g1.cons _, g2, fun h => by simp at g3; exact absurd h (by simpa using g3)⟩
    · rw [if_neg h1]
      obtain ⟨g1, g2, g3⟩ := ih b
      by_cases h2 : (!dominates (fit x) (fit a)) = true
      · rw [if_pos h2]
        refine ⟨g1.cons_cons _, ?_, ?_⟩
        · intro c hc
          rcases List.mem_cons.1 hc with rfl | hc
          · simpa using h2
          · exact g2 c hc
        · intro h
          obtain ⟨rfl, e2, e3⟩ := g3 h
          refine ⟨rfl, ?_, ?_⟩
          · intro c hc
            rcases List.mem_cons.1 hc with rfl | hc
            · simpa using h1
            · exact e2 c hc
          · rw [List.filter_cons_of_pos (p := fun a => !dominates (fit x) (fit a)) h2]
            simp only
            rw [e3]
      · rw [if_neg h2]
        refine ⟨g1.cons _, g2, ?_⟩
        intro h
        obtain ⟨rfl, e2, e3⟩ := g3 h
        refine ⟨rfl, ?_, ?_⟩
        · intro c hc
          rcases List.mem_cons.1 hc with rfl | hc
          · simpa using h1
          · exact e2 c hc
        · rw [List.filter_cons_of_neg (p := fun a => !dominates (fit x) (fit a)) h2, e3]

/-- C33, first half: whatever was offered, no member of the archive dominates another one, and all
members were offered. -/
theorem C33_antichain (fit : ι → List α) (d : ℕ) (xs : List ι)
    (hd : ∀ x ∈ xs, (fit x).length = d) :
    (∀ a ∈ refreshAll fit xs, a ∈ xs) ∧
      ∀ a ∈ refreshAll fit xs, ∀ b ∈ refreshAll fit xs, ¬ LDom (fit a) (fit b) := by
  induction xs using List.reverseRecOn with
  | nil => simp [refreshAll]
  | append_singleton xs x ih =>
    obtain ⟨hmem, hanti⟩ := ih fun y hy => hd y (List.mem_append_left _ hy)
    have e : refreshAll fit (xs ++ [x]) = refresh fit (refreshAll fit xs) x := by
      unfold refreshAll; rw [List.foldl_append]; rfl
    rw [e]
    set A := refreshAll fit xs with hA
    obtain ⟨g1, g2, g3⟩ := refreshLoop_spec fit x A false
    have hx := hd x (by simp)
    have hlen : ∀ a ∈ A, (fit a).length = d := fun a ha =>
      hd a (List.mem_append_left _ (hmem a ha))
    unfold refresh
    simp only
    cases hb : (refreshLoop fit x A false).2 with
    | true =>
      rw [if_pos rfl]
      exact ⟨fun a ha => List.mem_append_left _ (hmem a (g1.subset ha)),
        fun a ha b hb => hanti a (g1.subset ha) b (g1.subset hb)⟩
    | false =>
      rw [if_neg (by simp)]
      obtain ⟨-, e2, -⟩ := g3 hb
      constructor
      · intro a ha
        rcases List.mem_append.1 ha with ha | ha
        · exact List.mem_append_left _ (hmem a (g1.subset ha))
        · exact List.mem_append_right _ ha
      · intro a ha b hb'
        rcases List.mem_append.1 ha with ha | ha
        · rcases List.mem_append.1 hb' with hb' | hb'
          · exact hanti a (g1.subset ha) b (g1.subset hb')
          · rw [List.mem_singleton] at hb'
            subst hb'
            rw [← dominates_iff_LDom ((hlen a (g1.subset ha)).trans hx.symm), e2 a (g1.subset ha)]
            simp
        · rw [List.mem_singleton] at ha
          subst ha
          rcases List.mem_append.1 hb' with hb' | hb'
          · rw [← dominates_iff_LDom (hx.trans (hlen b (g1.subset hb')).symm), g2 b hb']
            simp
          · rw [List.mem_singleton] at hb'
            subst hb'
            exact LDom_irrefl _

/-- C33 (violated): a solution that is dominated by the archive removes its dominator. After offering
(1,1) and then (2,2) the archive is empty. -/
theorem C33_violated : refreshAll (fun x : ℕ => [x, x]) [1, 2] = [] := by decide

/-- C33, second half, as far as it holds: as long as no offered solution is dominated by the archive
it meets, everything offered is in the archive or dominated by a member. Missing: offers dominated on
arrival, see `C33_violated`. -/
theorem C33_partial (fit : ι → List α) (d : ℕ) (xs : List ι) (hd : ∀ x ∈ xs, (fit x).length = d)
    (hnew : ∀ pre x post, xs = pre ++ x :: post → ∀ a ∈ refreshAll fit pre,
      ¬ LDom (fit a) (fit x)) :
    ∀ x ∈ xs, ∃ a ∈ refreshAll fit xs, a = x ∨ LDom (fit a) (fit x) := by
  induction xs using List.reverseRecOn with
  | nil => simp
  | append_singleton xs x ih =>
    have hd' : ∀ y ∈ xs, (fit y).length = d := fun y hy => hd y (List.mem_append_left _ hy)
    have ih' := ih hd' fun pre y post h => hnew pre y (post ++ [x]) (by rw [h]; simp)
    obtain ⟨hmem, -⟩ := C33_antichain fit d xs hd'
    have hx := hd x (by simp)
    have e : refreshAll fit (xs ++ [x]) = refresh fit (refreshAll fit xs) x := by
      unfold refreshAll; rw [List.foldl_append]; rfl
    rw [e]
    have hnd := hnew xs x [] (by simp)
    set A := refreshAll fit xs with hA
    have hb : (refreshLoop fit x A false).2 = false := by
      have : ∀ l : List ι, (∀ a ∈ l, dominates (fit a) (fit x) = false) →
          (refreshLoop fit x l false).2 = false := by
        intro l
        induction l with
        | nil => intro _; rfl
        | cons a l ihl =>
          intro h
          rw [refreshLoop, if_neg (by rw [h a List.mem_cons_self]; simp)]
          have := ihl fun b hb => h b (List.mem_cons_of_mem _ hb)
          by_cases h2 : (!dominates (fit x) (fit a)) = true
          · rw [if_pos h2]; exact this
          · rw [if_neg h2]; exact this
      refine this A fun a ha => ?_
      rw [Bool.eq_false_iff]
      intro h
      exact hnd a ha ((dominates_iff_LDom ((hd' a (hmem a ha)).trans hx.symm)).1 h)
    obtain ⟨g1, g2, g3⟩ := refreshLoop_spec fit x A false
    obtain ⟨-, -, e3⟩ := g3 hb
    unfold refresh
    simp only
    rw [if_neg (by rw [hb]; simp)]
    intro y hy
    rcases List.mem_append.1 hy with hy | hy
    · obtain ⟨a, ha, hay⟩ := ih' y hy
      by_cases hxa : dominates (fit x) (fit a) = true
      · have hxa' := (dominates_iff_LDom (hx.trans (hd' a (hmem a ha)).symm)).1 hxa
        refine ⟨x, by simp, Or.inr ?_⟩
        rcases hay with rfl | hay
        · exact hxa'
        · exact LDom_trans hxa' hay
      · refine ⟨a, List.mem_append_left _ ?_, hay⟩
        rw [e3, List.mem_filter]
        exact ⟨ha, by simpa using hxa⟩
    · rw [List.mem_singleton] at hy
      subst hy
      exact ⟨y, by simp, Or.inl rfl⟩

/-- Four offers that improve step by step: the archive ends with the two non-dominated ones. -/
example : refreshAll (fun x : ℕ × ℕ => [x.1, x.2]) [(5, 5), (3, 6), (6, 2), (3, 3)] =
    [(6, 2), (3, 3)] := by decide

end Evogil.Bogo
