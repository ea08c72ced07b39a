import Verif.Spec.Mating
import Verif.Model.Generations
import Mathlib.Data.Finset.Card
import Mathlib.Algebra.BigOperators.Group.Finset.Basic
import Mathlib.Tactic.Linarith

/-!
# Counting the outcomes of a binary tournament
-/

set_option linter.unusedSectionVars false

namespace Evogil.Mating

open Spec

variable {ι : Type*} [DecidableEq ι]

/-- Positions and members are counted alike. -/
theorem card_positions (P : ι → Bool) (l : List ι) :
    ((Finset.range l.length).filter fun b => l[b]?.any P = true).card = l.countP P := by
  induction l using List.reverseRecOn with
  | nil => simp
  | append_singleton l a ih =>
    rw [List.countP_append, ← ih, List.length_append, List.length_singleton, Finset.range_add_one,
      Finset.filter_insert]
    have h1 : ((Finset.range l.length).filter fun b => (l ++ [a])[b]?.any P = true)
        = (Finset.range l.length).filter fun b => l[b]?.any P = true := by
      apply Finset.filter_congr
      intro b hb
      rw [List.getElem?_append_left (Finset.mem_range.1 hb)]
    rw [h1]
    cases ha : P a
    · rw [if_neg (by simp [ha])]
      simp [ha]
    · rw [if_pos (by simp [ha]), Finset.card_insert_of_notMem (by simp)]
      simp [ha]

/-- The pairs whose winner sits at position `k`: in the first place or in the second one. -/
theorem card_pairs (n k : ℕ) (hk : k < n) (P Q : ℕ → ℕ → Prop) (T : ℕ × ℕ → Prop) [DecidablePred T]
    (P' : ℕ → Prop) [DecidablePred P'] (Q' : ℕ → Prop) [DecidablePred Q']
    (hP : ∀ b < n, P' b ↔ P k b) (hQ : ∀ a < n, Q' a ↔ Q a k)
    (hT : ∀ a < n, ∀ b < n, T (a, b) ↔ (P a b ∧ a = k) ∨ (Q a b ∧ b = k))
    (hPQ : ¬ (P k k ∧ Q k k)) :
    ((Finset.range n ×ˢ Finset.range n).filter T).card
      = ((Finset.range n).filter P').card + ((Finset.range n).filter Q').card := by
  classical
  have h : (Finset.range n ×ˢ Finset.range n).filter T
      = ((Finset.range n).filter P').image (fun b => (k, b)) ∪
        ((Finset.range n).filter Q').image (fun a => (a, k)) := by
    ext ⟨a, b⟩
    simp only [Finset.mem_filter, Finset.mem_product, Finset.mem_range, Finset.mem_union,
      Finset.mem_image, Prod.mk.injEq]
    constructor
    · rintro ⟨⟨ha, hb⟩, ht⟩
      rcases (hT a ha b hb).1 ht with ⟨hp, rfl⟩ | ⟨hq, rfl⟩
      · exact Or.inl ⟨b, ⟨hb, (hP b hb).2 hp⟩, rfl, rfl⟩
      · exact Or.inr ⟨a, ⟨ha, (hQ a ha).2 hq⟩, rfl, rfl⟩
    · rintro (⟨b', ⟨hb, hp⟩, rfl, rfl⟩ | ⟨a', ⟨ha, hq⟩, rfl, rfl⟩)
      · exact ⟨⟨hk, hb⟩, (hT _ hk _ hb).2 (Or.inl ⟨(hP _ hb).1 hp, rfl⟩)⟩
      · exact ⟨⟨ha, hk⟩, (hT _ ha _ hk).2 (Or.inr ⟨(hQ _ ha).1 hq, rfl⟩)⟩
  rw [h, Finset.card_union_of_disjoint, Finset.card_image_of_injective,
    Finset.card_image_of_injective]
  · intro x y e; simpa using e
  · intro x y e; simpa using e
  · rw [Finset.disjoint_left]
    rintro ⟨a, b⟩ h1 h2
    simp only [Finset.mem_filter, Finset.mem_range, Finset.mem_image, Prod.mk.injEq] at h1 h2
    obtain ⟨b', ⟨hb, hp⟩, rfl, rfl⟩ := h1
    obtain ⟨a', ⟨ha, hq⟩, rfl, rfl⟩ := h2
    exact hPQ ⟨(hP _ hb).1 hp, (hQ _ ha).1 hq⟩

/-- A tournament between the members at two positions, in which the winner is the first one if `R`
and the second one if not. -/
theorem wins_eq {l : List ι} (hl : l.Nodup) {x : ι} (hx : x ∈ l) (R : ι → ι → Prop)
    [DecidableRel R] (hR : ¬ R x x) (pick : ℕ → ℕ → Option ι)
    (hpick : ∀ a b y z, l[a]? = some y → l[b]? = some z →
      pick a b = some (if R y z then y else z)) :
    wins l.length pick x = (l.countP fun z => R x z) + l.countP fun y => ¬ R y x := by
  classical
  obtain ⟨k, hk, rfl⟩ := List.getElem_of_mem hx
  rw [← card_positions, ← card_positions]
  unfold wins
  have same : ∀ a, (ha : a < l.length) → (l[a] = l[k] ↔ a = k) := fun a ha =>
    ⟨fun e => (List.Nodup.getElem_inj_iff hl).1 e, fun e => by subst e; rfl⟩
  refine card_pairs l.length k hk
    (fun a b => ∃ y z, l[a]? = some y ∧ l[b]? = some z ∧ R y z)
    (fun a b => ∃ y z, l[a]? = some y ∧ l[b]? = some z ∧ ¬ R y z)
    (fun q => pick q.1 q.2 = some l[k]) (fun b => l[b]?.any (fun z => R l[k] z) = true)
    (fun a => l[a]?.any (fun y => ¬ R y l[k]) = true) ?_ ?_ ?_ ?_
  · intro b hb
    simp [List.getElem?_eq_getElem hk, List.getElem?_eq_getElem hb]
  · intro a ha
    simp [List.getElem?_eq_getElem hk, List.getElem?_eq_getElem ha]
  · intro a ha b hb
    have e1 := List.getElem?_eq_getElem ha
    have e2 := List.getElem?_eq_getElem hb
    simp only [hpick a b _ _ e1 e2, Option.some.injEq, e1, e2, exists_eq_left', exists_and_left]
    by_cases h : R l[a] l[b]
    · simp [h, same a ha]
    · simp [h, same b hb]
  · rintro ⟨⟨y, z, h1, h2, h3⟩, -⟩
    rw [List.getElem?_eq_getElem hk] at h1 h2
    cases h1
    cases h2
    exact hR h3

section order
variable {κ : Type*} [LinearOrder κ] (fit : ι → κ)

theorem countP_not_lt (l : List ι) (x : ι) :
    (l.countP fun y => ¬ fit y < fit x)
      = (l.countP fun y => fit x < fit y) + l.countP fun y => fit y = fit x := by
  induction l with
  | nil => simp
  | cons a l ih =>
    simp only [List.countP_cons, ih]
    rcases lt_trichotomy (fit a) (fit x) with h | h | h
    · simp [h, h.not_gt, h.ne]
    · simp [h]; omega
    · simp [h, h.not_gt, h.ne']; omega

theorem countP_not_gt (l : List ι) (x : ι) :
    (l.countP fun y => ¬ fit x < fit y)
      = (l.countP fun y => fit y < fit x) + l.countP fun y => fit y = fit x := by
  induction l with
  | nil => simp
  | cons a l ih =>
    simp only [List.countP_cons, ih]
    rcases lt_trichotomy (fit a) (fit x) with h | h | h
    · simp [h, h.not_gt, h.ne]; omega
    · simp [h]; omega
    · simp [h, h.not_gt, h.ne']

theorem countP_three (l : List ι) (x : ι) :
    (l.countP fun y => fit y < fit x) + (l.countP fun y => fit y = fit x)
      + (l.countP fun y => fit x < fit y) = l.length := by
  induction l with
  | nil => simp
  | cons a l ih =>
    simp only [List.countP_cons, List.length_cons]
    rcases lt_trichotomy (fit a) (fit x) with h | h | h
    · simp [h, h.not_gt, h.ne]; omega
    · simp [h]; omega
    · simp [h, h.not_gt, h.ne']; omega

theorem countP_self_pos {l : List ι} {x : ι} (hx : x ∈ l) :
    0 < l.countP fun y => fit y = fit x :=
  List.countP_pos_iff.2 ⟨x, hx, by simp⟩

/-- The members not before `y` come after `x` if `x` comes before `y`. -/
theorem countP_step (l : List ι) {x y : ι} (h : fit x < fit y) :
    (l.countP fun z => fit y < fit z) + (l.countP fun z => fit z = fit y)
      ≤ l.countP fun z => fit x < fit z := by
  rw [← countP_not_lt]
  apply List.countP_mono_left
  intro z _ hz
  simp only [not_lt, decide_eq_true_eq] at hz ⊢
  exact lt_of_lt_of_le h hz

end order

/-- All pairs have a winner, so the wins sum up to the number of pairs. -/
theorem wins_sum {l : List ι} (hl : l.Nodup) (pick : ℕ → ℕ → Option ι)
    (hpick : ∀ a < l.length, ∀ b < l.length, ∃ x ∈ l, pick a b = some x) :
    (l.map (wins l.length pick)).sum = l.length * l.length := by
  classical
  have h := Finset.card_eq_sum_card_fiberwise (s := Finset.range l.length ×ˢ Finset.range l.length)
    (t := l.toFinset.image some) (f := fun q => pick q.1 q.2) (by
      rintro ⟨a, b⟩ hq
      simp only [Finset.coe_product, Set.mem_prod, Finset.mem_coe, Finset.mem_range] at hq
      obtain ⟨x, hx, e⟩ := hpick a hq.1 b hq.2
      simp [e, hx])
  rw [Finset.card_product, Finset.card_range, Finset.sum_image (by simp)] at h
  rw [h, List.sum_toFinset _ hl]
  rfl

theorem wins_swap (n : ℕ) (pick : ℕ → ℕ → Option ι) (x : ι) :
    wins n (fun a b => pick b a) x = wins n pick x := by
  unfold wins
  refine Finset.card_nbij' Prod.swap Prod.swap ?_ ?_ ?_ ?_ <;> rintro ⟨a, b⟩ <;> simp <;> tauto

/-- Leaving out the pairs of equal positions takes one win from each member. -/
theorem wins_distinct {l : List ι} (hl : l.Nodup) {x : ι} (hx : x ∈ l) (pick pick' : ℕ → ℕ → Option ι)
    (hd : ∀ a < l.length, ∀ b < l.length, a ≠ b → pick a b = pick' a b)
    (hn : ∀ a, pick a a = none) (hs : ∀ a, pick' a a = l[a]?) :
    wins l.length pick x + 1 = wins l.length pick' x := by
  obtain ⟨k, hk, rfl⟩ := List.getElem_of_mem hx
  unfold wins
  have h : (Finset.range l.length ×ˢ Finset.range l.length).filter
        (fun q => pick' q.1 q.2 = some l[k])
      = insert (k, k) ((Finset.range l.length ×ˢ Finset.range l.length).filter
        fun q => pick q.1 q.2 = some l[k]) := by
    ext ⟨a, b⟩
    simp only [Finset.mem_filter, Finset.mem_product, Finset.mem_range, Finset.mem_insert,
      Prod.mk.injEq]
    constructor
    · rintro ⟨⟨ha, hb⟩, e⟩
      by_cases hab : a = b
      · subst hab
        rw [hs, List.getElem?_eq_getElem ha, Option.some.injEq,
          List.Nodup.getElem_inj_iff hl] at e
        exact Or.inl ⟨e, e⟩
      · exact Or.inr ⟨⟨ha, hb⟩, by rw [hd a ha b hb hab]; exact e⟩
    · rintro (⟨rfl, rfl⟩ | ⟨⟨ha, hb⟩, e⟩)
      · exact ⟨⟨hk, hk⟩, by rw [hs, List.getElem?_eq_getElem hk]⟩
      · refine ⟨⟨ha, hb⟩, ?_⟩
        have hab : a ≠ b := by
          rintro rfl
          rw [hn] at e
          exact absurd e (by simp)
        rw [← hd a ha b hb hab]
        exact e
  rw [h, Finset.card_insert_of_notMem]
  simp [hn]

end Evogil.Mating
