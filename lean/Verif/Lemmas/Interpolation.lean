import Verif.Lemmas.Nearest
import Mathlib.Tactic.IntervalCases

/-!
# Rounded interpolation

The weighted mean of a float with itself, with weights that are multiples of 1/4, is the float, also if both products
and the sum are rounded.
-/

set_option linter.unusedSectionVars false

namespace Evogil.Binary64

variable {K : Type*} [Field K] [LinearOrder K] [IsStrictOrderedRing K] [FloorRing K]

theorem roundEven_close {n : ℤ} {d : K} (h : |d| < 1 / 2) : roundEven ((n : K) + d) = n := by
  have h1 := roundEven_near ((n : K) + d) n
  have h2 : |((roundEven ((n : K) + d) - n : ℤ) : K)| < 1 := by
    have h3 : |(n : K) - (n + d)| < 1 / 2 := by rw [sub_add_cancel_left, abs_neg]; exact h
    have e : ((roundEven ((n : K) + d) - n : ℤ) : K) = ((roundEven ((n : K) + d) : K) - (n + d)) + d := by
      push_cast; ring
    rw [e]
    exact (abs_add_le _ _).trans_lt (by linarith)
  rw [← Int.cast_abs] at h2
  have h3 : |roundEven ((n : K) + d) - n| < 1 := by exact_mod_cast h2
  have := abs_lt.1 h3
  omega

theorem roundEven_tie {n : ℤ} (hn : n % 2 = 0) {d : K} (h : |d| ≤ 1 / 2) : roundEven ((n : K) + d) = n := by
  rcases lt_or_eq_of_le h with h | h
  · exact roundEven_close h
  rcases abs_eq (by norm_num : (0 : K) ≤ 1 / 2) |>.1 h with rfl | rfl
  · have hf : ⌊(n : K) + 1 / 2⌋ = n := by
      rw [Int.floor_eq_iff]
      constructor <;> linarith
    unfold roundEven
    rw [hf]
    simp [hn]
  · have hf : ⌊(n : K) + -(1 / 2)⌋ = n - 1 := by
      rw [Int.floor_eq_iff]
      push_cast
      constructor <;> linarith
    unfold roundEven
    rw [hf]
    push_cast
    have e : (n : K) + -(1 / 2) - (n - 1) = 1 / 2 := by ring
    rw [e, if_neg (lt_irrefl _), if_neg (lt_irrefl _), if_neg (by omega)]
    ring

theorem lastDigit_eq {x : K} {e : ℤ} (he : -1074 ≤ e) (h1 : (2 : K) ^ (e + 52) ≤ x) (h2 : x < (2 : K) ^ (e + 53)) :
    lastDigit x = e := by
  have hx : 0 < x := lt_of_lt_of_le (two_zpow_pos _) h1
  have a : e + 52 ≤ Int.log 2 x := (Int.zpow_le_iff_le_log (by norm_num) hx).1 (by exact_mod_cast h1)
  have b : Int.log 2 x < e + 53 := (Int.lt_zpow_iff_log_lt (by norm_num) hx).1 (by exact_mod_cast h2)
  unfold lastDigit
  omega

/-- A float that is not too small is an integer with 53 binary digits times a power of 2. -/
theorem float_digits {b : K} (hb : (2 : K) ^ (-1000 : ℤ) ≤ b) (hf : round64 b = b) :
    ∃ (n e : ℤ), -1060 ≤ e ∧ 2 ^ 52 ≤ n ∧ n < 2 ^ 53 ∧ b = n * 2 ^ e := by
  have h0 : 0 < b := lt_of_lt_of_le (two_zpow_pos _) hb
  have a : (-1000 : ℤ) ≤ Int.log 2 b := (Int.zpow_le_iff_le_log (by norm_num) h0).1 (by exact_mod_cast hb)
  have l1 : (2 : K) ^ Int.log 2 b ≤ b := by exact_mod_cast Int.zpow_log_le_self (b := 2) (by norm_num) h0
  have l2 : b < (2 : K) ^ (Int.log 2 b + 1) := by
    exact_mod_cast Int.lt_zpow_succ_log_self (b := 2) (by norm_num) b
  have hd : lastDigit b = Int.log 2 b - 52 := by unfold lastDigit; omega
  have hp := two_zpow_pos (K := K) (lastDigit b)
  have hr : b = roundEven (b / (2 : K) ^ lastDigit b) * (2 : K) ^ lastDigit b := by
    conv_lhs => rw [← hf]
    unfold round64
    rw [if_neg (not_lt.2 h0.le)]
    rfl
  generalize roundEven (b / (2 : K) ^ lastDigit b) = n at hr
  refine ⟨n, lastDigit b, by omega, ?_, ?_, hr⟩
  · have : ((2 ^ 52 : ℤ) : K) ≤ n := by
      refine le_of_mul_le_mul_right ?_ hp
      rw [← hr]
      refine le_trans (le_of_eq ?_) l1
      rw [hd, show Int.log 2 b = 52 + (Int.log 2 b - 52) by ring, zpow_add₀ (by norm_num)]
      norm_num
    exact_mod_cast this
  · have : (n : K) < ((2 ^ 53 : ℤ) : K) := by
      refine lt_of_mul_lt_mul_right ?_ hp.le
      rw [← hr]
      refine lt_of_lt_of_eq l2 ?_
      rw [hd, show Int.log 2 b + 1 = 53 + (Int.log 2 b - 52) by ring, zpow_add₀ (by norm_num)]
      norm_num
    exact_mod_cast this

theorem quarters_pos {b : K} (hb : (2 : K) ^ (-1000 : ℤ) ≤ b) (hf : round64 b = b) :
    round64 (round64 (b * (3 / 4)) + round64 (b * (1 / 4))) = b := by
  obtain ⟨n, e, he, h1, h2, rfl⟩ := float_digits hb hf
  have hp := two_zpow_pos (K := K) e
  have hq : round64 ((n : K) * 2 ^ e * (1 / 4)) = n * 2 ^ e * (1 / 4) := by
    refine round64_float ⟨n, e - 2, by rw [abs_of_nonneg (by omega)]; exact h2, by omega, ?_⟩
    rw [zpow_sub₀ (by norm_num)]
    norm_num
    ring
  have h3 : ∃ d : K, round64 ((n : K) * 2 ^ e * (3 / 4)) = (n * (3 / 4) + d) * 2 ^ e ∧ |d| ≤ 1 / 2 ∧
      (n % 2 = 0 ∨ |d| ≤ 1 / 4) ∧ (n % 4 = 0 → d = 0) := by
    refine ⟨(round64 ((n : K) * 2 ^ e * (3 / 4)) - n * 2 ^ e * (3 / 4)) / 2 ^ e, ?_, ?_⟩
    · field_simp
      ring
    · have key : ∀ k : ℤ, 0 ≤ k → k < 2 ^ 53 →
          |(round64 ((n : K) * 2 ^ e * (3 / 4)) - n * 2 ^ e * (3 / 4)) / 2 ^ e| ≤ |(k : K) - n * (3 / 4)| := by
        intro k k0 k1
        rw [abs_div, abs_of_pos hp, div_le_iff₀ hp]
        refine (round64_near _ (y := (k : K) * 2 ^ e) (round64_float ⟨k, e, ?_, by omega, rfl⟩)).trans (le_of_eq ?_)
        · rwa [abs_of_nonneg k0]
        · rw [← abs_of_pos hp, ← abs_mul, abs_of_pos hp]
          congr 1
          ring
      obtain ⟨j, hj | hj | hj | hj⟩ : ∃ j : ℤ, n = 4 * j ∨ n = 4 * j + 1 ∨ n = 4 * j + 2 ∨ n = 4 * j + 3 :=
        ⟨n / 4, by omega⟩
      · have := key (3 * j) (by omega) (by omega)
        have e0 : ((3 * j : ℤ) : K) - n * (3 / 4) = 0 := by rw [hj]; push_cast; ring
        rw [e0, abs_zero] at this
        have h0 := abs_eq_zero.1 (le_antisymm this (abs_nonneg _))
        rw [h0, abs_zero]
        refine ⟨by norm_num, Or.inl (by omega), fun _ => rfl⟩
      · have := key (3 * j + 1) (by omega) (by omega)
        have e0 : ((3 * j + 1 : ℤ) : K) - n * (3 / 4) = 1 / 4 := by rw [hj]; push_cast; ring
        rw [e0, abs_of_pos (by norm_num : (0 : K) < 1 / 4)] at this
        exact ⟨this.trans (by norm_num), Or.inr this, fun h => by omega⟩
      · have := key (3 * j + 1) (by omega) (by omega)
        have e0 : ((3 * j + 1 : ℤ) : K) - n * (3 / 4) = -(1 / 2) := by rw [hj]; push_cast; ring
        rw [e0, abs_neg, abs_of_pos (by norm_num : (0 : K) < 1 / 2)] at this
        exact ⟨this, Or.inl (by omega), fun h => by omega⟩
      · have := key (3 * j + 2) (by omega) (by omega)
        have e0 : ((3 * j + 2 : ℤ) : K) - n * (3 / 4) = -(1 / 4) := by rw [hj]; push_cast; ring
        rw [e0, abs_neg, abs_of_pos (by norm_num : (0 : K) < 1 / 4)] at this
        exact ⟨this.trans (by norm_num), Or.inr this, fun h => by omega⟩
  obtain ⟨d, hd, d1, d2, d3⟩ := h3
  have hs : round64 ((n : K) * 2 ^ e * (3 / 4)) + round64 ((n : K) * 2 ^ e * (1 / 4)) = (n + d) * 2 ^ e := by
    rw [hd, hq]; ring
  rw [hs]
  rcases eq_or_ne (n % 4) 0 with h4 | h4
  · rw [d3 h4, add_zero, hf]
  have hdl := abs_le.1 d1
  have n1 : (2 : K) ^ 52 + 1 ≤ n := by
    have : 2 ^ 52 + 1 ≤ n := by omega
    exact_mod_cast this
  have n2 : (n : K) + d < 2 ^ 53 := by
    rcases d2 with h | h
    · have : n ≤ 2 ^ 53 - 2 := by omega
      have : (n : K) ≤ 2 ^ 53 - 2 := by exact_mod_cast this
      linarith
    · have : n ≤ 2 ^ 53 - 1 := by omega
      have : (n : K) ≤ 2 ^ 53 - 1 := by exact_mod_cast this
      have := (abs_le.1 h).2
      linarith
  have hL : lastDigit (((n : K) + d) * 2 ^ e) = e := by
    refine lastDigit_eq (by omega) ?_ ?_
    · rw [show e + 52 = 52 + e by ring, zpow_add₀ (by norm_num)]
      refine mul_le_mul_of_nonneg_right ?_ hp.le
      norm_num at n1 ⊢
      linarith
    · rw [show e + 53 = 53 + e by ring, zpow_add₀ (by norm_num)]
      refine mul_lt_mul_of_pos_right ?_ hp
      norm_num at n2 ⊢
      linarith
  unfold round64
  rw [if_neg (not_lt.2 (mul_nonneg (by linarith [pow_pos (two_pos : (0 : K) < 2) 52]) hp.le))]
  unfold roundPos
  rw [hL, mul_div_assoc, div_self hp.ne', mul_one]
  congr 2
  rcases d2 with h | h
  · exact roundEven_tie h d1
  · exact roundEven_close (h.trans_lt (by norm_num))

theorem halves_pos {b : K} (hb : (2 : K) ^ (-1000 : ℤ) ≤ b) (hf : round64 b = b) : round64 (b * (1 / 2)) = b * (1 / 2) := by
  obtain ⟨n, e, he, h1, h2, rfl⟩ := float_digits hb hf
  refine round64_float ⟨n, e - 1, by rw [abs_of_nonneg (by omega)]; exact h2, by omega, ?_⟩
  rw [zpow_sub₀ (by norm_num)]
  norm_num
  ring

/-- The weighted mean of a float with itself, weights 0, 1/4, 1/2 or 3/4. -/
theorem round64_weighted {b : K} (hb : b = 0 ∨ (2 : K) ^ (-1000 : ℤ) ≤ |b|) (hf : round64 b = b) {r : ℕ} (hr : r < 4) :
    round64 (round64 (b * (1 - (r : K) / 4)) + round64 (b * ((r : K) / 4))) = b := by
  have h0 : round64 (0 : K) = 0 := by simp [round64, roundPos_zero]
  have pos : ∀ b : K, (2 : K) ^ (-1000 : ℤ) ≤ b → round64 b = b →
      round64 (round64 (b * (1 - (r : K) / 4)) + round64 (b * ((r : K) / 4))) = b := by
    intro b hb hf
    interval_cases r
    · simp [hf, h0]
    · have := quarters_pos hb hf
      norm_num at this ⊢
      exact this
    · have := halves_pos hb hf
      norm_num at this ⊢
      rw [this, ← mul_add]
      norm_num
      exact hf
    · have := quarters_pos hb hf
      rw [add_comm] at this
      norm_num at this ⊢
      exact this
  rcases hb with rfl | hb
  · simp [h0]
  rcases le_total 0 b with hs | hs
  · rw [abs_of_nonneg hs] at hb
    exact pos b hb hf
  · rw [abs_of_nonpos hs] at hb
    have := pos (-b) hb (by rw [round64_neg, hf])
    rw [neg_mul, neg_mul, round64_neg, round64_neg, ← neg_add, round64_neg] at this
    exact neg_injective this

/-- The rounded weighted mean of two floats lies between them. -/
theorem round64_between {a b : K} (ha : a = 0 ∨ (2 : K) ^ (-1000 : ℤ) ≤ |a|) (hb : b = 0 ∨ (2 : K) ^ (-1000 : ℤ) ≤ |b|)
    (fa : round64 a = a) (fb : round64 b = b) (hab : a ≤ b) {r : ℕ} (hr : r < 4) :
    a ≤ round64 (round64 (a * (1 - (r : K) / 4)) + round64 (b * ((r : K) / 4))) ∧
      round64 (round64 (a * (1 - (r : K) / 4)) + round64 (b * ((r : K) / 4))) ≤ b := by
  have w0 : (0 : K) ≤ (r : K) / 4 := by positivity
  have w1 : (0 : K) ≤ 1 - (r : K) / 4 := by
    have : (r : K) ≤ 4 := by exact_mod_cast hr.le
    linarith
  constructor
  · conv_lhs => rw [← round64_weighted ha fa hr]
    exact round64_mono (add_le_add_right (round64_mono (mul_le_mul_of_nonneg_right hab w0)) _)
  · conv_rhs => rw [← round64_weighted hb fb hr]
    exact round64_mono (add_le_add_left (round64_mono (mul_le_mul_of_nonneg_right hab w1)) _)

end Evogil.Binary64
