import Verif.Model.Problems
import Verif.Spec.Benchmark
import Mathlib.Tactic.Ring
import Mathlib.Tactic.Linarith
import Mathlib.Tactic.Positivity
import Mathlib.Tactic.FieldSimp
import Mathlib.Tactic.NormNum
import Mathlib.Algebra.Order.BigOperators.Group.List
import Mathlib.Algebra.Order.Floor.Ring

namespace Evogil.Problems
open Spec

/-! ## Boxes and sampled points -/

theorem box_getD {x : List ℝ} {dims : List (ℝ × ℝ)} (h : InBox x dims) {i : ℕ} {d : ℝ × ℝ}
    (hd : dims[i]? = some d) : d.1 ≤ x.getD i 0 ∧ x.getD i 0 ≤ d.2 := by
  have hi : i < x.length := by
    rw [h.length_eq]
    exact (List.getElem?_eq_some_iff.1 hd).1
  have hx : x[i]? = some x[i] := List.getElem?_eq_getElem hi
  have := h.get hx hd
  rwa [List.getD_eq_getElem?_getD, hx]

theorem box_mem {x : List ℝ} {dims : List (ℝ × ℝ)} (h : InBox x dims) {v : ℝ} (hv : v ∈ x) :
    ∃ d ∈ dims, d.1 ≤ v ∧ v ≤ d.2 := by
  obtain ⟨i, hi, rfl⟩ := List.getElem_of_mem hv
  have hi' : i < dims.length := by rw [← h.length_eq]; exact hi
  exact ⟨dims[i], List.getElem_mem _, h.get (List.getElem?_eq_getElem hi)
    (List.getElem?_eq_getElem hi')⟩

/-- The decision vector with entries `v 1, ..., v n`. -/
def sol (n : ℕ) (v : ℕ → ℝ) : List ℝ := (List.range' 1 n).map v

theorem sol_get? (n : ℕ) (v : ℕ → ℝ) (i : ℕ) (hi : i < n) : (sol n v)[i]? = some (v (i + 1)) := by
  simp [sol, hi, Nat.add_comm]

theorem sol_getD (n : ℕ) (v : ℕ → ℝ) (j : ℕ) (h1 : 1 ≤ j) (h2 : j ≤ n) :
    (sol n v).getD (j - 1) 0 = v j := by
  rw [List.getD_eq_getElem?_getD, sol_get? n v _ (by omega), Option.getD_some]
  congr 1
  omega

theorem sol_inBox (n : ℕ) (v : ℕ → ℝ) (dims : List (ℝ × ℝ)) (hl : dims.length = n)
    (h : ∀ i d, dims[i]? = some d → d.1 ≤ v (i + 1) ∧ v (i + 1) ≤ d.2) : InBox (sol n v) dims := by
  refine inBox_of_get (by simp [sol, hl]) fun i x d hx hd => ?_
  have hi : i < n := by rw [← hl]; exact (List.getElem?_eq_some_iff.1 hd).1
  rw [sol_get? n v i hi] at hx
  obtain rfl := Option.some.inj hx
  exact h i d hd

theorem emoaPoints_mem {p : ℕ} {t : ℝ} (h : t ∈ emoaPoints p) :
    ∃ i < p, t = (i : ℝ) / ((p : ℝ) - 1) := by
  unfold emoaPoints at h
  obtain ⟨i, hi, rfl⟩ := List.mem_map.1 h
  exact ⟨i, List.mem_range.1 hi, rfl⟩

theorem emoaPoints_unit {p : ℕ} (hp : 2 ≤ p) {t : ℝ} (h : t ∈ emoaPoints p) : 0 ≤ t ∧ t ≤ 1 := by
  obtain ⟨i, hi, rfl⟩ := emoaPoints_mem h
  have h2 : (2 : ℝ) ≤ p := by exact_mod_cast hp
  have hi' : (i : ℝ) + 1 ≤ p := by exact_mod_cast hi
  have h0 : (0 : ℝ) < (p : ℝ) - 1 := by linarith
  refine ⟨div_nonneg (Nat.cast_nonneg _) h0.le, ?_⟩
  rw [div_le_one h0]
  linarith

theorem emoaPoints_near {p : ℕ} (hp : 2 ≤ p) {a : ℝ} (h0 : 0 ≤ a) (h1 : a ≤ 1) :
    ∃ t ∈ emoaPoints p, a ≤ t ∧ t ≤ a + 1 / ((p : ℝ) - 1) := by
  have h2 : (2 : ℝ) ≤ p := by exact_mod_cast hp
  have hq : (0 : ℝ) < (p : ℝ) - 1 := by linarith
  refine ⟨(⌈a * ((p : ℝ) - 1)⌉₊ : ℝ) / ((p : ℝ) - 1), ?_, ?_, ?_⟩
  · unfold emoaPoints
    refine List.mem_map.2 ⟨_, List.mem_range.2 ?_, rfl⟩
    have : ⌈a * ((p : ℝ) - 1)⌉₊ ≤ p - 1 := by
      refine Nat.ceil_le.2 ?_
      rw [Nat.cast_sub (by omega)]
      push_cast
      nlinarith
    omega
  · rw [le_div_iff₀ hq]
    exact Nat.le_ceil _
  · rw [div_le_iff₀ hq, add_mul, one_div, inv_mul_cancel₀ hq.ne']
    exact (Nat.ceil_lt_add_one (mul_nonneg h0 hq.le)).le

theorem zipWith_map_map {α β γ δ : Type*} (f : α → β → γ) (g : δ → α) (h : δ → β) (l : List δ) :
    List.zipWith f (l.map g) (l.map h) = l.map fun x => f (g x) (h x) := by
  induction l with
  | nil => rfl
  | cons a l ih => simp [ih]

/-! ## Dominance of short vectors -/

theorem not_ldom_two {a b c d : ℝ} (h : a ≤ c → b ≤ d → c ≤ a ∧ d ≤ b) : ¬ LDom [a, b] [c, d] := by
  rintro ⟨-, h1, i, hi, hi', hlt⟩
  have h2 := h (h1 0 (by simp) (by simp)) (h1 1 (by simp) (by simp))
  have : i = 0 ∨ i = 1 := by simp at hi; omega
  rcases this with rfl | rfl
  · simp at hlt; linarith
  · simp at hlt; linarith

theorem not_ldom_sum_two {a b c d : ℝ} (h : c + d ≤ a + b) : ¬ LDom [a, b] [c, d] :=
  not_ldom_two fun h1 h2 => ⟨by linarith, by linarith⟩

theorem not_ldom_sum_three {a b c a' b' c' : ℝ} (h : a' + b' + c' ≤ a + b + c) :
    ¬ LDom [a, b, c] [a', b', c'] := by
  rintro ⟨-, h1, i, hi, hi', hlt⟩
  have e0 := h1 0 (by simp) (by simp)
  have e1 := h1 1 (by simp) (by simp)
  have e2 := h1 2 (by simp) (by simp)
  simp at e0 e1 e2
  have : i = 0 ∨ i = 1 ∨ i = 2 := by simp at hi; omega
  rcases this with rfl | rfl | rfl <;> simp at hlt <;> linarith

/-! ## Two objectives and a decreasing curve -/

/-- The image of the box lies above the curve `a ↦ (a, φ a)`. -/
def Above (φ : ℝ → ℝ) (fits : List (List ℝ → ℝ)) (dims : List (ℝ × ℝ)) : Prop :=
  ∃ f1 f2, fits = [f1, f2] ∧ ∀ x, InBox x dims →
    ∃ a, 0 ≤ a ∧ a ≤ 1 ∧ a ≤ f1 x ∧ φ a ≤ f2 x

/-- Strictly decreasing on the unit interval. -/
def Decreasing (φ : ℝ → ℝ) : Prop := ∀ a b, 0 ≤ a → a < b → b ≤ 1 → φ b < φ a

theorem Decreasing.anti {φ : ℝ → ℝ} (h : Decreasing φ) {a b : ℝ} (h0 : 0 ≤ a) (hab : a ≤ b)
    (h1 : b ≤ 1) : φ b ≤ φ a := by
  rcases eq_or_lt_of_le hab with rfl | hlt
  · exact le_rfl
  · exact (h a b h0 hlt h1).le

theorem Above.undominated {φ : ℝ → ℝ} (hφ : Decreasing φ) {fits dims} (h : Above φ fits dims)
    {t : ℝ} (h0 : 0 ≤ t) (h1 : t ≤ 1) : Undominated fits dims [t, φ t] := by
  obtain ⟨f1, f2, rfl, h⟩ := h
  intro x hx
  obtain ⟨a, a0, a1, e1, e2⟩ := h x hx
  refine not_ldom_two fun l1 l2 => ?_
  have hat : a ≤ t := e1.trans l1
  have : φ t ≤ φ a := hφ.anti a0 hat h1
  refine ⟨?_, this.trans e2⟩
  rcases eq_or_lt_of_le hat with rfl | hlt
  · exact e1
  · have := hφ a t a0 hlt h1
    linarith

theorem Above.covers {φ : ℝ → ℝ} (hφ : Decreasing φ) {fits dims} (h : Above φ fits dims) {p : ℕ}
    (hp : 2 ≤ p) (front : List (List ℝ)) (hf : ∀ t ∈ emoaPoints p, [t, φ t] ∈ front) :
    Covers (1 / ((p : ℝ) - 1)) fits dims front := by
  obtain ⟨f1, f2, rfl, h⟩ := h
  intro x hx
  obtain ⟨a, a0, a1, e1, e2⟩ := h x hx
  obtain ⟨t, ht, t1, t2⟩ := emoaPoints_near hp a0 a1
  refine ⟨_, hf t ht, by simp, ?_⟩
  intro i f v hfi hv
  have hi : i < 2 := (List.getElem?_eq_some_iff.1 hv).1
  have : i = 0 ∨ i = 1 := by omega
  rcases this with rfl | rfl
  · simp only [List.getElem?_cons_zero, Option.some.injEq] at hfi hv
    subst hfi hv
    simp only [if_true]
    linarith
  · simp only [List.getElem?_cons_succ, List.getElem?_cons_zero, Option.some.injEq] at hfi hv
    subst hfi hv
    have := hφ.anti a0 t1 (emoaPoints_unit hp ht).2
    simp only [Nat.one_ne_zero, if_false, add_zero]
    linarith

theorem decreasing_sqrt : Decreasing fun t => 1 - Real.sqrt t := by
  intro a b h0 hab _
  have := Real.sqrt_lt_sqrt h0 hab
  simp only
  linarith

theorem decreasing_sq : Decreasing fun t => 1 - t ^ 2 := by
  intro a b h0 hab _
  simp only
  nlinarith

theorem decreasing_id : Decreasing fun t => 1 - t := by
  intro a b _ hab _
  simp only
  linarith

/-! ## The two shapes of ZDT problems -/

theorem shape_sqrt {g a : ℝ} (hg : 1 ≤ g) (h0 : 0 ≤ a) (h1 : a ≤ 1) :
    1 - Real.sqrt a ≤ g * (1 - Real.sqrt |a / g|) := by
  have hg0 : 0 ≤ g := by linarith
  rw [abs_of_nonneg (div_nonneg h0 hg0), Real.sqrt_div h0]
  have hs : 1 ≤ Real.sqrt g := by rw [Real.one_le_sqrt]; exact hg
  have hs2 : Real.sqrt g * Real.sqrt g = g := Real.mul_self_sqrt hg0
  have hr0 : 0 ≤ Real.sqrt a := Real.sqrt_nonneg a
  have hr1 : Real.sqrt a ≤ 1 := Real.sqrt_le_one.2 h1
  generalize Real.sqrt g = s at *
  generalize Real.sqrt a = r at *
  have hs0 : s ≠ 0 := by linarith
  have : g * (1 - r / s) = s * s - s * r := by
    rw [← hs2]; field_simp
  rw [this]
  nlinarith [mul_nonneg (sub_nonneg.2 hs) (by linarith : 0 ≤ s + 1 - r)]

theorem shape_sq {g a : ℝ} (hg : 1 ≤ g) : 1 - a ^ 2 ≤ g * (1 - (a / g) ^ 2) := by
  have hg0 : 0 < g := by linarith
  have : g * (1 - (a / g) ^ 2) = g - a ^ 2 / g := by field_simp
  rw [this]
  have h2 : a ^ 2 / g ≤ a ^ 2 := div_le_self (sq_nonneg a) hg
  linarith

theorem tail_sum_nonneg {x : List ℝ} {dims : List (ℝ × ℝ)} (h : InBox x dims)
    (hd : ∀ d ∈ dims, 0 ≤ d.1) : 0 ≤ x.tail.sum := by
  refine List.sum_nonneg fun v hv => ?_
  obtain ⟨d, h1, h2, -⟩ := box_mem h (List.mem_of_mem_tail hv)
  exact (hd d h1).trans h2

theorem sum_ge_card (l : List ℝ) (f : ℝ → ℝ) (c : ℝ) (h : ∀ x ∈ l, c ≤ f x) :
    c * l.length ≤ (l.map f).sum := by
  induction l with
  | nil => simp
  | cons a l ih =>
    have := ih fun x hx => h x (List.mem_cons_of_mem _ hx)
    have := h a List.mem_cons_self
    simp only [List.length_cons, List.map_cons, List.sum_cons]
    push_cast
    linarith

/-! ## Sums and products in the UF problems -/

theorem odds_mem {n j : ℕ} (h : j ∈ odds n) : 2 ≤ j ∧ j ≤ n := by
  have := List.mem_range'_1.1 (List.mem_filter.1 h).1
  omega

theorem evens_mem {n j : ℕ} (h : j ∈ evens n) : 2 ≤ j ∧ j ≤ n := by
  have := List.mem_range'_1.1 (List.mem_filter.1 h).1
  omega

theorem map_sum_nonneg (J : List ℕ) (f : ℕ → ℝ) (h : ∀ j ∈ J, 0 ≤ f j) : 0 ≤ (J.map f).sum := by
  refine List.sum_nonneg fun v hv => ?_
  obtain ⟨j, hj, rfl⟩ := List.mem_map.1 hv
  exact h j hj

theorem map_sum_zero (J : List ℕ) (f : ℕ → ℝ) (h : ∀ j ∈ J, f j = 0) : (J.map f).sum = 0 := by
  refine List.sum_eq_zero fun v hv => ?_
  obtain ⟨j, hj, rfl⟩ := List.mem_map.1 hv
  exact h j hj

theorem prod_abs_le_one (l : List ℝ) (h : ∀ c ∈ l, |c| ≤ 1) : |l.prod| ≤ 1 := by
  induction l with
  | nil => simp
  | cons a l ih =>
    rw [List.prod_cons, abs_mul]
    have h1 := h a List.mem_cons_self
    have h2 := ih fun c hc => h c (List.mem_cons_of_mem _ hc)
    exact mul_le_one₀ h1 (abs_nonneg _) h2

theorem cosProd_nonneg (J : List ℕ) (Y : List ℝ) : 0 ≤ cosProd J Y := by
  unfold cosProd
  refine div_nonneg (mul_nonneg (by norm_num) ?_) (Nat.cast_nonneg _)
  have h1 : 0 ≤ (Y.map fun y => y ^ 2).sum := by
    refine List.sum_nonneg fun v hv => ?_
    obtain ⟨y, _, rfl⟩ := List.mem_map.1 hv
    exact sq_nonneg y
  have h2 := le_of_abs_le (prod_abs_le_one ((List.range J.length).map fun j =>
    Real.cos (20 * Y.getD j 0 * Real.pi / Real.sqrt (J.getD j 0 : ℕ))) (by
      intro c hc
      obtain ⟨j, _, rfl⟩ := List.mem_map.1 hc
      exact Real.abs_cos_le_one _))
  linarith

theorem cosProd_zero (J : List ℕ) (f : ℕ → ℝ) (h : ∀ j ∈ J, f j = 0) : cosProd J (J.map f) = 0 := by
  have hY : J.map f = List.replicate J.length 0 := by
    rw [List.eq_replicate_iff]
    refine ⟨by simp, fun v hv => ?_⟩
    obtain ⟨j, hj, rfl⟩ := List.mem_map.1 hv
    exact h j hj
  unfold cosProd
  rw [hY]
  have h1 : ((List.replicate J.length (0 : ℝ)).map fun y => y ^ 2).sum = 0 := by simp
  have h2 : ((List.range J.length).map fun j => Real.cos (20 *
      (List.replicate J.length (0 : ℝ)).getD j 0 * Real.pi / Real.sqrt (J.getD j 0 : ℕ))).prod = 1 := by
    refine List.prod_eq_one fun v hv => ?_
    obtain ⟨j, hj, rfl⟩ := List.mem_map.1 hv
    have : (List.replicate J.length (0 : ℝ)).getD j 0 = 0 := by
      rw [List.getD_eq_getElem?_getD, List.getElem?_replicate]
      split_ifs <;> rfl
    rw [this]
    simp
  rw [h1, h2]
  norm_num

end Evogil.Problems
