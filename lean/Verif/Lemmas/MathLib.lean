import Verif.Lemmas.FloatRange
import Verif.Lemmas.RoundedMean
import Verif.Props.Rounded
import Verif.Spec.MathLib
import Mathlib.Analysis.Real.Pi.Bounds
import Mathlib.Analysis.Complex.ExponentialBounds

/-!
# The laws of the library: examples and consequences
-/

set_option linter.unusedSectionVars false

namespace Evogil.FloatExpr

open Spec Binary64 Rounded

theorem round64_int (n : ℤ) (h : |n| ≤ 2 ^ 53) : round64 (n : ℝ) = n := by
  rcases h.lt_or_eq with h | h
  · exact round64_float ⟨n, 0, h, by norm_num, by simp⟩
  · rcases (abs_eq (by norm_num : (0 : ℤ) ≤ 2 ^ 53)).1 h with rfl | rfl
    · exact round64_float ⟨2 ^ 52, 1, by norm_num, by norm_num, by norm_num⟩
    · exact round64_float ⟨-2 ^ 52, 1, by norm_num, by norm_num, by norm_num⟩

theorem tiny_le : (1 / 2 ^ 1000 : ℝ) ≤ 1 / 2 ^ 100 :=
  one_div_le_one_div_of_le (by positivity) (pow_le_pow_right₀ (by norm_num) (by norm_num))

theorem round64_error (x : ℝ) : |round64 x - x| ≤ 1 / 2 ^ 53 * |x| + 1 / 2 ^ 1000 := by
  rcases le_or_gt ((1 / 2 : ℝ) ^ 1022) |x| with h | h
  · have := round64_accurate.error x h
    have : (0 : ℝ) ≤ 1 / 2 ^ 1000 := by positivity
    linarith
  · have h1 := round64_near x (y := (0 : ℝ)) (by simpa using round64_accurate.zero (K := ℝ))
    rw [zero_sub, abs_neg] at h1
    have h2 : (1 / 2 : ℝ) ^ 1022 ≤ 1 / 2 ^ 1000 := by
      rw [one_div_pow]
      exact one_div_le_one_div_of_le (by positivity) (pow_le_pow_right₀ (by norm_num) (by norm_num))
    have h3 : (0 : ℝ) ≤ 1 / 2 ^ 53 * |x| := by positivity
    exact (h1.trans (h.le.trans h2)).trans (le_add_of_nonneg_left h3)

theorem round64_error' (x : ℝ) : |round64 x - x| ≤ 1 / 2 ^ 50 * |x| + 1 / 2 ^ 1000 := by
  have h := round64_error x
  have h1 : (1 / 2 ^ 53 : ℝ) * |x| ≤ 1 / 2 ^ 50 * |x| := mul_le_mul_of_nonneg_right (by norm_num) (abs_nonneg x)
  linarith

theorem round64_unit {x : ℝ} (h : |x| ≤ 1) : |round64 x| ≤ 1 := by
  have h1 : round64 (1 : ℝ) = 1 := by simpa using round64_int 1 (by norm_num)
  rw [abs_le] at h ⊢
  have h2 : round64 (-1 : ℝ) = -1 := by rw [round64_neg, h1]
  have a := round64_mono h.1
  have b := round64_mono h.2
  rw [h1] at b
  rw [h2] at a
  exact ⟨a, b⟩

/-- The library that rounds every function correctly. -/
noncomputable def correctlyRounded : Lib where
  fl := round64
  sqrt x := round64 (Real.sqrt x)
  exp x := round64 (Real.exp x)
  sin x := round64 (Real.sin x)
  cos x := round64 (Real.cos x)
  pow b e := round64 (b ^ e)
  ipow x n := round64 (x ^ n)
  pi := round64 Real.pi
  e := round64 (Real.exp 1)
  exponent _ q' := q'

theorem unit_error {x : ℝ} (h : |x| ≤ 1) : |round64 x - x| ≤ 1 / 2 ^ 50 := by
  have h1 := round64_error x
  have h2 : (1 / 2 ^ 53 : ℝ) * |x| ≤ 1 / 2 ^ 53 * 1 := mul_le_mul_of_nonneg_left h (by norm_num)
  have h3 : (1 / 2 ^ 53 * 1 + 1 / 2 ^ 100 : ℝ) ≤ 1 / 2 ^ 50 := by norm_num
  have h4 := tiny_le
  linarith

theorem correctlyRounded_isMathLib : IsMathLib correctlyRounded where
  fl _ := rfl
  sqrt _ _ := rfl
  exp_nonneg x := fl_nonneg round64_isRounding (Real.exp_pos x).le
  exp x _ := by
    have := round64_error' (Real.exp x)
    rwa [abs_of_pos (Real.exp_pos x)] at this
  sin_le x := round64_unit (Real.abs_sin_le_one x)
  sin x := unit_error (Real.abs_sin_le_one x)
  cos_le x := round64_unit (Real.abs_cos_le_one x)
  cos x := unit_error (Real.abs_cos_le_one x)
  pow_nonneg x e h := fl_nonneg round64_isRounding (Real.rpow_nonneg h e)
  pow x e h _ := by
    have := round64_error' (x ^ e)
    rwa [abs_of_nonneg (Real.rpow_nonneg h e)] at this
  ipow_nonneg x n h := fl_nonneg round64_isRounding ((Nat.even_iff.2 h).pow_nonneg x)
  ipow x n := round64_error' (x ^ n)
  pi := rfl
  e := rfl
  exponent _ _ := rfl

theorem exp_le_three_pow {x : ℝ} {n : ℕ} (h : x ≤ n) : Real.exp x ≤ 3 ^ n := by
  refine (Real.exp_le_exp.2 h).trans ?_
  rw [← Real.exp_one_pow]
  exact pow_le_pow_left₀ (Real.exp_pos 1).le Real.exp_one_lt_three.le n

theorem rpow_le_int {x e : ℝ} {n : ℤ} (h0 : 0 ≤ x) (h1 : x ≤ n) (hn : 1 ≤ n) (he : 0 ≤ e) (h : e ≤ 1 ∨ n = 1) :
    x ^ e ≤ n := by
  have hn' : (1 : ℝ) ≤ n := by exact_mod_cast hn
  rcases le_or_gt x 1 with hx | hx
  · exact (Real.rpow_le_one h0 hx he).trans hn'
  · rcases h with h | rfl
    · calc x ^ e ≤ x ^ (1 : ℝ) := Real.rpow_le_rpow_of_exponent_le hx.le h
        _ = x := Real.rpow_one x
        _ ≤ n := h1
    · exact absurd h1 (by push_cast; exact not_le.2 hx)

theorem sqrt_le_int {x : ℝ} {n : ℤ} (hn : 1 ≤ n) (h : x ≤ n) : Real.sqrt x ≤ n := by
  have hn' : (1 : ℝ) ≤ n := by exact_mod_cast hn
  rw [Real.sqrt_le_left (by linarith)]
  nlinarith

theorem pi_bounds : (3 : ℝ) ≤ Real.pi ∧ Real.pi ≤ 4 := ⟨Real.pi_gt_three.le, Real.pi_le_four⟩

theorem e_bounds : (2 : ℝ) ≤ Real.exp 1 ∧ Real.exp 1 ≤ 3 := by
  have h1 := Real.exp_one_gt_d9
  have h2 := Real.exp_one_lt_d9
  constructor <;> linarith

theorem exact_bounded : Bounded exact where
  mono _ _ h := h
  int _ _ := rfl
  sqrt0 x _ := Real.sqrt_nonneg x
  sqrt1 x h := Real.one_le_sqrt.2 h
  sqrtLe _ _ hn _ _ h := sqrt_le_int hn h
  exp0 x := (Real.exp_pos x).le
  expLe x n _ h := (exp_le_three_pow h).trans (by
    have : (0 : ℝ) ≤ 3 ^ n := by positivity
    linarith)
  sin := Real.abs_sin_le_one
  cos := Real.abs_cos_le_one
  pow0 _ e h := Real.rpow_nonneg h e
  powLe x e n h0 h1 hn he h := (rpow_le_int h0 h1 hn he h).trans (by
    have : (1 : ℝ) ≤ n := by exact_mod_cast hn
    linarith)
  ipow0 x n h := (Nat.even_iff.2 h).pow_nonneg x
  ipowLe x k n h hn := by
    have hn' : (1 : ℝ) ≤ n := by exact_mod_cast hn
    have h1 : |x ^ k| ≤ (n : ℝ) ^ k := by rw [abs_pow]; exact pow_le_pow_left₀ (abs_nonneg x) h k
    have h2 : (0 : ℝ) ≤ (n : ℝ) ^ k := by positivity
    show |x ^ k| ≤ 2 * (n : ℝ) ^ k
    linarith
  pi := pi_bounds
  e := e_bounds
  exponent _ _ := Or.inl rfl

theorem num_double {a A : ℝ} (hA : 1 ≤ A) (h : a ≤ A) : a + (1 / 2 ^ 50 * a + 1 / 2 ^ 1000) ≤ 2 * A := by
  have h1 : (1 / 2 ^ 50 : ℝ) * a ≤ 1 / 2 ^ 50 * A := mul_le_mul_of_nonneg_left h (by norm_num)
  have h2 : (1 / 2 ^ 1000 : ℝ) ≤ 1 / 2 ^ 50 * 1 := tiny_le.trans (by norm_num)
  have h3 : (1 / 2 ^ 50 : ℝ) * 1 ≤ 1 / 2 ^ 50 * A := mul_le_mul_of_nonneg_left hA (by norm_num)
  have h4 : (1 / 2 ^ 50 : ℝ) * A ≤ 1 / 4 * A := mul_le_mul_of_nonneg_right (by norm_num) (by linarith)
  linarith

variable {L : Lib}

theorem _root_.Evogil.Spec.IsMathLib.bounded (h : IsMathLib L) : Bounded L where
  mono x y hxy := by rw [h.fl, h.fl]; exact round64_mono hxy
  int n hn := by rw [h.fl]; exact round64_int n hn
  sqrt0 x hx := by rw [h.sqrt x hx]; exact fl_nonneg round64_isRounding (Real.sqrt_nonneg x)
  sqrt1 x hx := by
    rw [h.sqrt x (by linarith)]
    have := round64_mono (Real.one_le_sqrt.2 hx)
    rwa [show round64 (1 : ℝ) = 1 by simpa using round64_int 1 (by norm_num)] at this
  sqrtLe x n hn hn' hx hxn := by
    rw [h.sqrt x hx]
    have := round64_mono (sqrt_le_int hn hxn)
    rwa [round64_int n (abs_le.2 ⟨by omega, hn'⟩)] at this
  exp0 := h.exp_nonneg
  expLe x n hn hx := by
    have hn' : (n : ℝ) ≤ 32 := by exact_mod_cast hn
    have h1 := (abs_le.1 (h.exp x (by linarith))).2
    have h2 := num_double (one_le_pow₀ (by norm_num : (1 : ℝ) ≤ 3)) (exp_le_three_pow hx)
    linarith
  sin := h.sin_le
  cos := h.cos_le
  pow0 := h.pow_nonneg
  powLe x e n h0 h1 hn he hc := by
    have h2 := (abs_le.1 (h.pow x e h0 he)).2
    have h3 := num_double (by exact_mod_cast hn) (rpow_le_int h0 h1 hn he hc)
    linarith
  ipow0 := h.ipow_nonneg
  ipowLe x k n hx hn := by
    have hn' : (1 : ℝ) ≤ n := by exact_mod_cast hn
    have h1 : |x ^ k| ≤ (n : ℝ) ^ k := by rw [abs_pow]; exact pow_le_pow_left₀ (abs_nonneg x) hx k
    have h2 := num_double (one_le_pow₀ hn') h1
    have h3 := abs_sub_abs_le_abs_sub (L.ipow x k) (x ^ k)
    have h4 := h.ipow x k
    linarith
  pi := by
    rw [h.pi]
    have a := round64_mono pi_bounds.1
    have b := round64_mono pi_bounds.2
    rw [show round64 (3 : ℝ) = 3 by simpa using round64_int 3 (by norm_num)] at a
    rw [show round64 (4 : ℝ) = 4 by simpa using round64_int 4 (by norm_num)] at b
    exact ⟨a, b⟩
  e := by
    rw [h.e]
    have a := round64_mono e_bounds.1
    have b := round64_mono e_bounds.2
    rw [show round64 (2 : ℝ) = 2 by simpa using round64_int 2 (by norm_num)] at a
    rw [show round64 (3 : ℝ) = 3 by simpa using round64_int 3 (by norm_num)] at b
    exact ⟨a, b⟩
  exponent q q' := Or.inr (h.exponent q q')

end Evogil.FloatExpr
