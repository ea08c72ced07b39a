import Verif.Model.RoundedHgs
import Verif.Props.Rounded
import Verif.Lemmas.Binary64
import Verif.Lemmas.Nearest
import Verif.Lemmas.RoundedMean
import Verif.Lemmas.Interpolation

/-!
# C146: which nodes of HGS are stopped, in floating point
-/

set_option linter.unusedSectionVars false

namespace Evogil.Rounded.Hgs

open Binary64 Spec Rounded
open Evogil.Hgs (Node State Conf Report costLoop aliveAt trimRedundant release wake newNode)

section
variable {D K : Type*} [Field K] [LinearOrder K] [IsStrictOrderedRing K] [FloorRing K]

/-- The next smaller float differs by at least `2⁻⁵³` of the number. -/
theorem float_below {x y : K} (hx : round64 x = x) (hy : round64 y = y) (hb : (2 : K) ^ (-1000 : ℤ) ≤ y) (h : x < y) :
    x ≤ y - 1 / 2 ^ 53 * y := by
  obtain ⟨n, e, he, h1, h2, rfl⟩ := float_digits hb hy
  obtain ⟨m, k, hm, -, rfl⟩ : IsFloat x := hx ▸ isFloat_round64 x
  have hp := two_zpow_pos (K := K) e
  have n2 : (n : K) ≤ 2 ^ 53 := by
    have : (n : K) < ((2 ^ 53 : ℤ) : K) := Int.cast_lt.2 h2
    push_cast at this
    norm_num at this ⊢
    exact this.le
  have m2 : (m : K) ≤ 2 ^ 53 := by
    have : (m : K) < ((2 ^ 53 : ℤ) : K) := Int.cast_lt.2 (lt_of_le_of_lt (le_abs_self m) hm)
    push_cast at this
    norm_num at this ⊢
    exact this.le
  have n3 : (1 / 2 ^ 53 : K) * (n * 2 ^ e) ≤ 2 ^ e := by
    have : (1 / 2 ^ 53 : K) * n ≤ 1 := by
      rw [one_div, inv_mul_le_iff₀ (by positivity), mul_one]
      exact n2
    calc (1 / 2 ^ 53 : K) * (n * 2 ^ e) = (1 / 2 ^ 53 * n) * 2 ^ e := by ring
      _ ≤ 1 * 2 ^ e := mul_le_mul_of_nonneg_right this hp.le
      _ = 2 ^ e := one_mul _
  rcases le_or_gt e k with hk | hk
  · obtain ⟨j, rfl⟩ := Int.le.dest hk
    rw [zpow_add₀ (by norm_num), zpow_natCast, mul_comm ((2 : K) ^ e), ← mul_assoc] at h ⊢
    have h3 : (m : K) * 2 ^ j < n := lt_of_mul_lt_mul_right h hp.le
    have h4 : m * 2 ^ j + 1 ≤ n := by
      have : ((m * 2 ^ j : ℤ) : K) < (n : K) := by push_cast; exact h3
      exact Int.add_one_le_iff.2 (by exact_mod_cast this)
    have h5 : (m : K) * 2 ^ j + 1 ≤ n := by exact_mod_cast h4
    have := mul_le_mul_of_nonneg_right h5 hp.le
    rw [add_mul, one_mul] at this
    linarith
  · have hq : (2 : K) ^ k ≤ 2 ^ (e - 1) := zpow_le_zpow_right₀ (by norm_num) (by omega)
    have hh : (2 : K) ^ e = 2 * 2 ^ (e - 1) := by
      rw [zpow_sub₀ (by norm_num)]
      field_simp
    have hx2 : (m : K) * 2 ^ k ≤ 2 ^ 52 * 2 ^ e := by
      calc (m : K) * 2 ^ k ≤ 2 ^ 53 * 2 ^ k := mul_le_mul_of_nonneg_right m2 (two_zpow_pos k).le
        _ ≤ 2 ^ 53 * 2 ^ (e - 1) := mul_le_mul_of_nonneg_left hq (by positivity)
        _ = 2 ^ 52 * 2 ^ e := by rw [hh]; ring
    rcases eq_or_lt_of_le h1 with h1 | h1
    · have n4 : (n : K) = 2 ^ 52 := by
        rw [← h1]
        push_cast
        norm_num
      have hgoal : (n : K) * 2 ^ e - 1 / 2 ^ 53 * (n * 2 ^ e) = 2 ^ 53 * 2 ^ (e - 1) - 2 ^ (e - 1) := by
        rw [n4, hh]; ring
      rw [hgoal]
      rw [n4, hh] at h
      rcases eq_or_lt_of_le (show k ≤ e - 1 by omega) with rfl | hk
      · have h3 : (m : K) < 2 ^ 53 := by
          refine lt_of_mul_lt_mul_right (h.trans_eq ?_) (two_zpow_pos (K := K) (e - 1)).le
          ring
        have h4 : m + 1 ≤ 2 ^ 53 := by
          have : (m : K) < ((2 ^ 53 : ℤ) : K) := by
            push_cast
            norm_num at h3 ⊢
            exact h3
          exact Int.add_one_le_iff.2 (by exact_mod_cast this)
        have h5 : (m : K) + 1 ≤ 2 ^ 53 := by
          have : ((m + 1 : ℤ) : K) ≤ ((2 ^ 53 : ℤ) : K) := Int.cast_le.2 h4
          push_cast at this
          norm_num at this ⊢
          exact this
        have := mul_le_mul_of_nonneg_right h5 (two_zpow_pos (K := K) (e - 1)).le
        rw [add_mul, one_mul] at this
        linarith
      · have hq' : (2 : K) ^ k ≤ 2 ^ (e - 2) := zpow_le_zpow_right₀ (by norm_num) (by omega)
        have hh' : (2 : K) ^ (e - 1) = 2 * 2 ^ (e - 2) := by
          rw [zpow_sub₀ (by norm_num), zpow_sub₀ (by norm_num)]
          field_simp
        have := two_zpow_pos (K := K) (e - 2)
        have hx3 : (m : K) * 2 ^ k ≤ 2 ^ 53 * 2 ^ (e - 2) := by
          calc (m : K) * 2 ^ k ≤ 2 ^ 53 * 2 ^ k := mul_le_mul_of_nonneg_right m2 (two_zpow_pos k).le
            _ ≤ 2 ^ 53 * 2 ^ (e - 2) := mul_le_mul_of_nonneg_left hq' (by positivity)
        rw [hh']
        linarith
    · have n5 : (2 ^ 52 + 1 : K) ≤ n := by
        have : ((2 ^ 52 + 1 : ℤ) : K) ≤ (n : K) := Int.cast_le.2 (Int.add_one_le_iff.2 h1)
        push_cast at this
        norm_num at this ⊢
        exact this
      have := mul_le_mul_of_nonneg_right n5 hp.le
      rw [add_mul, one_mul] at this
      linarith

/-- The progress of a node, as computed, is negative exactly if its hypervolume is below the number it is divided by. -/
theorem progress_neg {h y : K} (hh : round64 h = h) (hy : round64 y = y) (hb : (2 : K) ^ (-1000 : ℤ) ≤ y) :
    round64 (round64 (h / y) - 1) < 0 ↔ h < y := by
  have hy0 : 0 < y := lt_of_lt_of_le (two_zpow_pos _) hb
  have one : round64 (1 : K) = 1 := fl_one round64_isRounding
  have zero : round64 (0 : K) = 0 := fl_zero round64_isRounding
  constructor
  · intro hlt
    by_contra hc
    have h1 : 1 ≤ h / y := (one_le_div hy0).2 (not_lt.1 hc)
    have h2 : 1 ≤ round64 (h / y) := le_fl round64_isRounding one h1
    have h3 : (0 : K) ≤ round64 (round64 (h / y) - 1) := le_fl round64_isRounding zero (by linarith)
    linarith
  · intro hlt
    have h1 : h / y ≤ 1 - 1 / 2 ^ 53 := by
      rw [div_le_iff₀ hy0]
      have := float_below hh hy hb hlt
      linarith
    have f1 : round64 (1 - 1 / 2 ^ 53 : K) = 1 - 1 / 2 ^ 53 := by
      refine round64_float ⟨2 ^ 53 - 1, -53, by norm_num, by norm_num, ?_⟩
      norm_num
    have f2 : round64 (-(1 / 2 ^ 53) : K) = -(1 / 2 ^ 53) := by
      refine round64_float ⟨-1, -53, by norm_num, by norm_num, ?_⟩
      norm_num
    have h2 : round64 (h / y) ≤ 1 - 1 / 2 ^ 53 := fl_le round64_isRounding f1 h1
    have h3 : round64 (round64 (h / y) - 1) ≤ -(1 / 2 ^ 53) := fl_le round64_isRounding f2 (by linarith)
    have : (0 : K) < 1 / 2 ^ 53 := by positivity
    linarith

/-- `EPSILON`, ClassicHGS.py:17: the spacing of the floats after 1. -/
abbrev epsilon : K := 1 / 2 ^ 52

theorem epsilon_float : round64 (epsilon : K) = epsilon :=
  round64_float ⟨1, -52, by norm_num, by norm_num, by norm_num⟩

theorem small_le {x : K} (h : epsilon ≤ x) : (2 : K) ^ (-1000 : ℤ) ≤ x := by
  refine le_trans ?_ h
  rw [show (epsilon : K) = 2 ^ (-52 : ℤ) by norm_num [epsilon]]
  exact zpow_le_zpow_right₀ (by norm_num) (by norm_num)

theorem small_sum {o : K} (h : 0 < o) : (2 : K) ^ (-1000 : ℤ) ≤ round64 (o + epsilon) :=
  small_le (le_fl round64_isRounding epsilon_float (by linarith))

/-- From 4 on nothing is left of `EPSILON`. -/
theorem add_epsilon_large {o : K} (ho : round64 o = o) (h : 4 ≤ o) : round64 (o + epsilon) = o := by
  have he : (0 : K) < epsilon := by positivity
  refine le_antisymm ?_ (le_fl round64_isRounding ho (by linarith))
  by_contra hc
  have hlt := not_le.1 hc
  have h1 := float_below ho (round64_round64 _) (small_sum (by linarith)) hlt
  have h2 := round64_near (o + epsilon) ho
  rw [show o - (o + epsilon) = -epsilon by ring, abs_neg, abs_of_pos he] at h2
  have h3 := (abs_le.1 h2).2
  have h4 : (1 / 2 ^ 53 : K) * 4 < 1 / 2 ^ 53 * round64 (o + epsilon) :=
    mul_lt_mul_of_pos_left (lt_of_le_of_lt h hlt) (by positivity)
  have h5 : (1 / 2 ^ 53 : K) * 4 = 2 * epsilon := by norm_num [epsilon]
  generalize round64 (o + epsilon) = y at *
  generalize (epsilon : K) = e at *
  generalize (1 / 2 ^ 53 : K) * y = z at *
  linarith

/-- Below 2 `EPSILON` makes a number greater. -/
theorem add_epsilon_small {o : K} (ho : round64 o = o) (h0 : 0 < o) (h : o < 2) : o < round64 (o + epsilon) := by
  have he : (0 : K) < epsilon := by positivity
  have two : round64 (2 : K) = 2 := round64_float ⟨2, 0, by norm_num, by norm_num, by norm_num⟩
  have h1 := float_below ho two (small_le (by norm_num [epsilon])) h
  have h2 : (1 / 2 ^ 53 : K) * 2 = epsilon := by norm_num [epsilon]
  rw [h2] at h1
  rcases eq_or_lt_of_le h1 with h1 | h1
  · rw [show o + epsilon = 2 by linarith, two]
    exact h
  · have h3 := add_error ho (epsilon_float (K := K))
    rw [abs_of_pos (show 0 < o + epsilon by linarith)] at h3
    have h4 : (1 / 2 ^ 53 : K) * (o + epsilon) < 1 / 2 ^ 53 * 2 := mul_lt_mul_of_pos_left (by linarith) (by positivity)
    have h5 := (abs_le.1 h3).1
    generalize round64 (o + epsilon) = y at *
    rw [h2] at h4
    generalize (1 / 2 ^ 53 : K) * (o + epsilon) = z at *
    generalize (epsilon : K) = e at *
    linarith

/-! ## The root -/

/-- C146, the root: with the shipped limit 0.0 a root is stopped exactly if its hypervolume is below the rounded sum of the
one before and `EPSILON`. -/
theorem C146_root {o h : K} (hh : round64 h = h) (h0 : 0 < o) :
    lags round64 epsilon 0 0 o h = true ↔ h < round64 (o + epsilon) := by
  rw [lags, decide_eq_true_iff, zero_div, fl_zero round64_isRounding]
  exact progress_neg hh (round64_round64 _) (small_sum h0)

/-- C146, violated: a root whose hypervolume is 4 or more and does not grow any more is not stopped; it is stopped exactly
if its hypervolume falls. Without rounding it would be stopped. -/
theorem C146_root_violated {o : K} (ho : round64 o = o) (h4 : 4 ≤ o) :
    lags round64 epsilon 0 0 o o = false ∧ lags id epsilon 0 0 o o = true ∧
      ∀ h : K, round64 h = h → (lags round64 epsilon 0 0 o h = true ↔ h < o) := by
  have he : (0 : K) < epsilon := by positivity
  have key : ∀ h : K, round64 h = h → (lags round64 epsilon 0 0 o h = true ↔ h < o) := fun h hh => by
    rw [C146_root hh (by linarith), add_epsilon_large ho h4]
  refine ⟨?_, ?_, key⟩
  · rw [Bool.eq_false_iff, Ne, key o ho]
    exact lt_irrefl o
  · rw [lags, decide_eq_true_iff]
    simp only [id, pow_zero, zero_div, sub_neg]
    rw [div_lt_one (by linarith)]
    linarith

/-- C146, small hypervolumes: below 2 a root that does not grow is stopped. -/
theorem C146_root_small_partial {o h : K} (ho : round64 o = o) (hh : round64 h = h) (h0 : 0 < o) (h2 : o < 2) (hle : h ≤ o) :
    lags round64 epsilon 0 0 o h = true :=
  (C146_root hh h0).2 (lt_of_le_of_lt hle (add_epsilon_small ho h0 h2))

/-- Halfway it depends on the last digit: of two neighbouring floats from 2 on, the first is not stopped and the second is. -/
theorem C146_root_between :
    lags round64 epsilon 0 0 2 (2 : ℚ) = false ∧ lags round64 epsilon 0 0 (2 + 1 / 2 ^ 51) (2 + 1 / 2 ^ 51 : ℚ) = true := by
  decide +kernel

/-! ## The other levels -/

/-- C146, positive limits: a node that does not grow is stopped, if the limit for its level is positive. -/
theorem C146_positive_partial {o h q : K} (level : ℕ) (ho : round64 o = o) (h0 : 0 < o) (hle : h ≤ o)
    (hq : 0 < round64 (q / 2 ^ level)) : lags round64 epsilon q level o h = true := by
  have he : (0 : K) < epsilon := by positivity
  rw [lags, decide_eq_true_iff]
  have hs := le_fl round64_isRounding ho (show o ≤ o + epsilon by linarith)
  have h1 : h / round64 (o + epsilon) ≤ 1 := (div_le_one (by linarith)).2 (by linarith)
  have h2 := fl_le round64_isRounding (fl_one round64_isRounding) h1
  have h3 := fl_le round64_isRounding (fl_zero round64_isRounding) (show round64 (h / round64 (o + epsilon)) - 1 ≤ 0 by linarith)
  linarith

/-- The limit of a level is positive if the configured number is, and not below `2⁻¹⁰⁰⁰`, for the three levels. -/
theorem C146_limit_positive {q : K} {level : ℕ} (hl : level ≤ 2) (hq : (1 / 2) ^ 1000 ≤ q) : 0 < round64 (q / 2 ^ level) := by
  have p : (0 : K) < (1 / 2) ^ 1002 := by positivity
  refine lt_of_lt_of_le p (le_fl round64_isRounding ((round64_accurate (K := K)).power 1002 (by norm_num)) ?_)
  rw [le_div_iff₀ (by positivity)]
  have h1 : (2 : K) ^ level ≤ 2 ^ 2 := pow_le_pow_right₀ (by norm_num) hl
  calc (1 / 2 : K) ^ 1002 * 2 ^ level ≤ (1 / 2) ^ 1002 * 2 ^ 2 := mul_le_mul_of_nonneg_left h1 p.le
    _ = (1 / 2) ^ 1000 := by
      rw [show (1002 : ℕ) = 1000 + 2 from rfl, pow_add, mul_assoc, ← mul_pow]
      norm_num
    _ ≤ q := hq

/-! ## Halved limits -/

/-- Halving a float is exact unless it is tiny. -/
theorem half_float {q : K} (hq : round64 q = q) (h : q = 0 ∨ (1 / 2) ^ 1000 ≤ q) : round64 (q / 2) = q / 2 := by
  rcases h with rfl | h
  · rw [zero_div, fl_zero round64_isRounding]
  · have hb : (2 : K) ^ (-1000 : ℤ) ≤ q := by
      rw [zpow_neg, ← one_div]
      rw [one_div_pow] at h
      exact_mod_cast h
    obtain ⟨n, e, he, h1, h2, rfl⟩ := float_digits hb hq
    refine round64_float ⟨n, e - 1, ?_, by omega, ?_⟩
    · rw [abs_of_nonneg (by linarith)]; exact h2
    · rw [zpow_sub_one₀ (by norm_num : (2 : K) ≠ 0)]; ring

/-- C146: a step of HGS leaves the limits as they are or halves the first three, without any rounding error unless they are
tiny; so the shipped limit 0.0 of the root stays 0.0, and after `n` revivals the others are `2 ^ n` times smaller. -/
theorem C146_halved {D : Type*} {cfg : Conf D K} {fuel : ℕ} {env : ℕ → Report D K} {st st' : State D K} {ratio ratio' : List K}
    (h : step round64 cfg fuel env st ratio = some (st', ratio')) :
    ratio' = ratio ∨ (ratio'.length = ratio.length ∧ ∀ (i : ℕ) (q : K), ratio[i]? = some q →
      (3 ≤ i → ratio'[i]? = some q) ∧
      (i < 3 → round64 q = q → (q = 0 ∨ (1 / 2) ^ 1000 ≤ q) → ratio'[i]? = some (q / 2))) := by
  unfold step at h
  split at h
  · cases h
  obtain ⟨s, -, h⟩ := Option.bind_eq_some_iff.1 h
  unfold reviveRoot at h
  split_ifs at h with hc
  · right
    split at h
    · cases h
    rename_i r hr
    simp only [Option.some.injEq, Prod.mk.injEq] at h
    obtain ⟨-, rfl⟩ := h
    unfold halve at hr
    split at hr
    · simp only [Option.some.injEq] at hr
      subst hr
      refine ⟨rfl, ?_⟩
      intro i q hi
      rcases i with _ | _ | _ | i
      · simp only [List.getElem?_cons_zero, Option.some.injEq] at hi ⊢
        subst hi
        exact ⟨by omega, fun _ h1 h2 => half_float h1 h2⟩
      · simp only [List.getElem?_cons_succ, List.getElem?_cons_zero, Option.some.injEq] at hi ⊢
        subst hi
        exact ⟨by omega, fun _ h1 h2 => half_float h1 h2⟩
      · simp only [List.getElem?_cons_succ, List.getElem?_cons_zero, Option.some.injEq] at hi ⊢
        subst hi
        exact ⟨by omega, fun _ h1 h2 => half_float h1 h2⟩
      · exact ⟨fun _ => hi, by omega⟩
    · cases hr
  · simp only [Option.some.injEq, Prod.mk.injEq] at h
    exact Or.inl h.2.symm

/-- A limit of 0.001, of which Python knows only the nearest float, is halved exactly. -/
example : halve round64 [0, round64 (1 / 1000), 1 / 4] =
    some [0, round64 (1 / 1000) / 2, (1 / 8 : ℚ)] := by decide +kernel

theorem absolute_error (x : K) : |round64 x - x| ≤ 1 / 2 ^ 53 * |x| + 1 / 2 ^ 60 := by
  have h2 : (1 / 2 : K) ^ 1022 ≤ 1 / 2 ^ 60 := by
    rw [one_div_pow]
    exact one_div_le_one_div_of_le (by positivity) (pow_le_pow_right₀ (by norm_num) (by norm_num))
  rcases le_or_gt ((1 / 2 : K) ^ 1022) |x| with h | h
  · have := round64_accurate.error x h
    have : (0 : K) ≤ 1 / 2 ^ 60 := by positivity
    linarith
  · have h1 := round64_near x (y := (0 : K)) (fl_zero round64_isRounding)
    rw [zero_sub, abs_neg] at h1
    have h3 : (0 : K) ≤ 1 / 2 ^ 53 * |x| := by positivity
    exact (h1.trans (h.le.trans h2)).trans (le_add_of_nonneg_left h3)

/-- C146, accuracy: rounding changes the decision about a node only if its progress is beside the limit. -/
theorem C146_accurate_partial {o h q : K} (level : ℕ) (ho : round64 o = o) (h0 : 0 < o)
    (hfar : 1 / 2 ^ 50 * (1 + |h / (o + epsilon)| + |q|) < |h / (o + epsilon) - 1 - q / 2 ^ level|) :
    lags round64 epsilon q level o h = true ↔ h / (o + epsilon) - 1 < q / 2 ^ level := by
  have he : (0 : K) < epsilon := by positivity
  rw [lags, decide_eq_true_iff]
  set a := o + epsilon with ha
  have a0 : 0 < a := by linarith
  have ea : |round64 a - a| ≤ 1 / 2 ^ 53 * a := by
    have := add_error ho (epsilon_float (K := K))
    rwa [← ha, abs_of_pos a0] at this
  set b := round64 a with hb
  have b0 : a / 2 ≤ b := by
    have := (abs_le.1 ea).1
    have h1 : (1 / 2 ^ 53 : K) * a ≤ 1 / 2 * a := mul_le_mul_of_nonneg_right (by norm_num) a0.le
    linarith
  have b1 : 0 < b := by linarith
  set X := h / a with hX
  have e1 : |h / b - X| ≤ 2 / 2 ^ 53 * |X| := by
    have : h / b - X = X * ((a - b) / b) := by
      rw [hX]
      field_simp
    rw [this, abs_mul, mul_comm]
    refine mul_le_mul_of_nonneg_right ?_ (abs_nonneg _)
    rw [abs_div, abs_of_pos b1, div_le_iff₀ b1, abs_sub_comm]
    refine ea.trans ?_
    calc (1 / 2 ^ 53 : K) * a ≤ 1 / 2 ^ 53 * (2 * b) := mul_le_mul_of_nonneg_left (by linarith) (by positivity)
      _ = 2 / 2 ^ 53 * b := by ring
  have e2 := absolute_error (h / b)
  set Y := round64 (h / b) with hY
  have e3 : |round64 (Y - 1) - (Y - 1)| ≤ 1 / 2 ^ 53 * |Y - 1| := by
    have := add_error (round64_round64 (h / b)) (show round64 (-1 : K) = -1 by
      rw [round64_neg, fl_one round64_isRounding])
    rwa [← hY, ← sub_eq_add_neg] at this
  have e4 := absolute_error (q / 2 ^ level)
  have q1 : |q / 2 ^ level| ≤ |q| := by
    rw [abs_div, abs_of_pos (show (0 : K) < 2 ^ level by positivity)]
    exact div_le_self (abs_nonneg _) (one_le_pow₀ (by norm_num))
  have t1 : |h / b| ≤ |h / b - X| + |X| := by
    have := abs_add_le (h / b - X) X
    rwa [sub_add_cancel] at this
  have t2 : |Y| ≤ |Y - h / b| + |h / b| := by
    have := abs_add_le (Y - h / b) (h / b)
    rwa [sub_add_cancel] at this
  have t3 : |Y - 1| ≤ |Y| + 1 := by
    have := abs_sub Y 1
    rwa [abs_one] at this
  have t4 : |round64 (Y - 1) - (X - 1)| ≤ |round64 (Y - 1) - (Y - 1)| + (|Y - h / b| + |h / b - X|) := by
    have h1 := abs_add_le (round64 (Y - 1) - (Y - 1)) ((Y - h / b) + (h / b - X))
    have h2 := abs_add_le (Y - h / b) (h / b - X)
    rw [show round64 (Y - 1) - (Y - 1) + (Y - h / b + (h / b - X)) = round64 (Y - 1) - (X - 1) by ring] at h1
    linarith
  have x0 := abs_nonneg X
  have q0 := abs_nonneg q
  generalize |round64 (Y - 1) - (Y - 1)| = d3 at *
  generalize |Y - h / b| = d2 at *
  generalize |h / b - X| = d1 at *
  have total : |round64 (Y - 1) - (X - 1)| + |round64 (q / 2 ^ level) - q / 2 ^ level| ≤ 1 / 2 ^ 50 * (1 + |X| + |q|) := by
    clear_value X Y a b
    clear hfar ea b0 he
    generalize |round64 (Y - 1) - (X - 1)| = r1 at *
    generalize |round64 (q / 2 ^ level) - q / 2 ^ level| = r2 at *
    norm_num only at e1 e2 e3 e4 ⊢
    linarith
  have u1 := abs_le.1 (show |round64 (Y - 1) - (X - 1)| ≤ _ from le_rfl)
  have u2 := abs_le.1 (show |round64 (q / 2 ^ level) - q / 2 ^ level| ≤ _ from le_rfl)
  rcases lt_or_ge (X - 1) (q / 2 ^ level) with hlt | hge
  · rw [abs_of_neg (show X - 1 - q / 2 ^ level < 0 by linarith)] at hfar
    exact ⟨fun _ => hlt, fun _ => by linarith [u1.2, u2.1]⟩
  · rw [abs_of_nonneg (show 0 ≤ X - 1 - q / 2 ^ level by linarith)] at hfar
    exact ⟨fun hc => by linarith [u1.1, u2.2], fun hc => absurd hc (not_lt.2 hge)⟩

/-! ## Whole runs -/

/-- One step of a tree that consists of a living root which is not stopped. -/
theorem step_root (cfg : Conf D K) (fuel : ℕ) (env : ℕ → Report D K) (n : Node D K) (c : K) (ratio : List K)
    (hl : n.level = 0) (ha : n.alive = true) (hr : n.ripe = false)
    (hp : notProgressing round64 cfg ratio (runNode round64 cfg (env 0) n).1 = some false) :
    ∃ c', step round64 cfg (fuel + 1) env ⟨[n], [[0], [], []], c⟩ ratio =
      some (⟨[{ (runNode round64 cfg (env 0) n).1 with
        center := some (cfg.mean (runNode round64 cfg (env 0) n).1.pop) }], [[0], [], []], c'⟩, ratio) := by
  set n' := (runNode round64 cfg (env 0) n).1 with hn'
  have e : n'.level = 0 ∧ n'.alive = true ∧ n'.ripe = false := by
    simp only [hn', runNode, if_pos ha, afterMetaepoch]
    split <;> exact ⟨hl, ha, hr⟩
  obtain ⟨hl', ha', hr'⟩ := e
  refine ⟨c + (runNode round64 cfg (env 0) n).2, ?_⟩
  simp [step, runMetaepoch, runNodes, ← hn', trimSprouts, trimAll, trimNotProgressing, ha', hp, trimRedundant, aliveAt,
    Evogil.Hgs.redundantLoop, Evogil.Hgs.findRedundant, release, hr', reviveRoot]

/-- C146, violated for whole runs: as long as the hypervolume of the root does not fall, and exceeds its first value by at
least 4 whenever it exceeds it, the root is never stopped, and the tree never gets a second node, however many steps are made. -/
theorem C146_run_violated (cfg : Conf D K) (heps : cfg.eps = epsilon) (fuel : ℕ) (ratio : List K) (hq : ratio[0]? = some 0)
    (v : K) (env : ℕ → Report D K) (envs : List (ℕ → Report D K)) (hv : (env 0).hv = v)
    (hmono : (envs.map fun e => (e 0).hv).Pairwise (· ≤ ·))
    (hbig : ∀ e ∈ envs, (e 0).hv = v ∨ v + 4 ≤ (e 0).hv) :
    ∃ st, run round64 cfg (fuel + 1) (env :: envs) Evogil.Hgs.init ratio = some (st, ratio) ∧
      st.nodes.length = 1 ∧ ∀ n ∈ st.nodes, n.alive = true ∧ n.ripe = false := by
  have zero : round64 (0 : K) = 0 := fl_zero round64_isRounding
  have four : round64 (4 : K) = 4 := round64_float ⟨4, 0, by norm_num, by norm_num, by norm_num⟩
  have main : ∀ (envs : List (ℕ → Report D K)) (n : Node D K) (c : K), n.level = 0 → n.alive = true → n.ripe = false →
      n.rel = some v → (∀ h, n.hv = some h → round64 h = h ∧ (h = 0 ∨ 4 ≤ h) ∧ ∀ e ∈ envs, h ≤ round64 ((e 0).hv - v)) →
      (envs.map fun e => (e 0).hv).Pairwise (· ≤ ·) → (∀ e ∈ envs, (e 0).hv = v ∨ v + 4 ≤ (e 0).hv) →
      ∃ st, run round64 cfg (fuel + 1) envs ⟨[n], [[0], [], []], c⟩ ratio = some (st, ratio) ∧
        st.nodes.length = 1 ∧ ∀ n ∈ st.nodes, n.alive = true ∧ n.ripe = false := by
    intro envs
    induction envs with
    | nil => exact fun n c _ ha hr _ _ _ _ => ⟨_, rfl, rfl, by simpa using ⟨ha, hr⟩⟩
    | cons e es ih =>
      intro n c hl ha hr hrel hh hm hb
      have hm' := List.pairwise_cons.1 hm
      have e1 : (runNode round64 cfg (e 0) n).1 = { n with
          cost := (costLoop (cfg.modifier n.level) n.cost (e 0).costs).1, pop := (e 0).pop
          delegates := (e 0).delegates, oldHv := n.hv, hv := some (round64 ((e 0).hv - v)) } := by
        simp [runNode, ha, afterMetaepoch, hrel]
      have e2 : notProgressing round64 cfg ratio (runNode round64 cfg (e 0) n).1 = some false := by
        rw [e1]
        simp only [notProgressing]
        split
        · rfl
        · rename_i o ho
          obtain ⟨hf, hz, hle⟩ := hh o ho
          split_ifs with hpos
          · have h4 : 4 ≤ o := hz.resolve_left hpos.ne'
            simp only [hl, hq, heps, Option.some.injEq]
            rw [Bool.eq_false_iff, Ne, (C146_root_violated hf h4).2.2 _ (round64_round64 _)]
            exact not_lt.2 (hle e (by simp))
          · rfl
      obtain ⟨c', hs⟩ := step_root cfg fuel e n c ratio hl ha hr e2
      rw [run, hs]
      simp only
      rw [e1]
      refine ih _ c' hl ha hr hrel ?_ hm'.2 fun x hx => hb x (List.mem_cons_of_mem _ hx)
      rintro h hh'
      obtain rfl : round64 ((e 0).hv - v) = h := by simpa using hh'
      refine ⟨round64_round64 _, ?_, fun x hx => round64_mono ?_⟩
      · rcases hb e (by simp) with h1 | h1
        · exact Or.inl (by rw [h1, sub_self, zero])
        · exact Or.inr (le_fl round64_isRounding four (by linarith))
      · have := hm'.1 _ (List.mem_map.2 ⟨x, hx, rfl⟩)
        linarith
  have e1 : (runNode round64 cfg (env 0) (newNode 0 none)).1 = { (newNode 0 none : Node D K) with
      cost := (costLoop (cfg.modifier 0) 0 (env 0).costs).1, pop := (env 0).pop
      delegates := (env 0).delegates, rel := some v } := by
    simp [runNode, newNode, afterMetaepoch, hv]
  have e2 : notProgressing round64 cfg ratio (runNode round64 cfg (env 0) (newNode 0 none)).1 = some false := by
    rw [e1]
    rfl
  obtain ⟨c', hs⟩ := step_root cfg fuel env (newNode 0 none) 0 ratio rfl rfl rfl e2
  rw [run, Evogil.Hgs.init, hs]
  simp only
  rw [e1]
  refine main envs _ c' rfl rfl rfl rfl ?_ hmono hbig
  intro h hh
  simp [newNode] at hh

end

/-! ## Examples -/

/-- A configuration for the examples: vectors are numbers, nothing is near anything else. -/
def exConf : Conf ℚ ℚ := ⟨2, 16, 3, fun _ => 1, fun _ _ _ => false, fun l => l.sum / l.length, epsilon, round64⟩

/-- A root that finds its best hypervolume in the second metaepoch. -/
def exEnv (hv : ℚ) : ℕ → Report ℚ ℚ := fun _ => ⟨[64], [1, 2], [1], hv⟩

/-- The hypervolume stays 2405: without rounding the root is stopped and gets a sprout, in floating point it goes on alone. -/
example :
    ((Evogil.Hgs.run exConf 3 [exEnv 2400, exEnv 2405, exEnv 2405] Evogil.Hgs.init [0, 1 / 100000, 1 / 10000]).map
        fun r => r.1.nodes.map fun n => (n.level, n.alive)) = some [(0, false), (1, true)] ∧
    ((run round64 exConf 3 [exEnv 2400, exEnv 2405, exEnv 2405] Evogil.Hgs.init [0, 1 / 100000, 1 / 10000]).map
        fun r => r.1.nodes.map fun n => (n.level, n.alive)) = some [(0, true)] := by
  decide +kernel

/-- When the hypervolume falls in the last digit, the root is stopped. -/
example :
    ((run round64 exConf 3 [exEnv 2400, exEnv 2405, exEnv (2405 - 1 / 2 ^ 41)] Evogil.Hgs.init
        [0, 1 / 100000, 1 / 10000]).map fun r => r.1.nodes.map fun n => (n.level, n.alive)) =
      some [(0, false), (1, true)] := by
  decide +kernel

/-- A root with a small hypervolume is stopped when it stagnates. -/
example :
    ((run round64 exConf 3 [exEnv 0, exEnv 1, exEnv 1] Evogil.Hgs.init
        [0, 1 / 100000, 1 / 10000]).map fun r => r.1.nodes.map fun n => (n.level, n.alive)) =
      some [(0, false), (1, true)] := by
  decide +kernel

/-- A node of level 1 that grows by less than `0.00001 / 2` is stopped. -/
example : lags round64 epsilon (round64 (1 / 100000)) 1 5 (round64 (5 + 1 / 100000) : ℚ) = true ∧
    lags round64 epsilon (round64 (1 / 100000)) 1 5 (round64 (5 + 1 / 10000) : ℚ) = false := by
  decide +kernel

end Evogil.Rounded.Hgs
