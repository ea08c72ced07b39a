import Verif.Lemmas.Binary64
import Mathlib.Tactic.NormNum

set_option linter.unusedSectionVars false

/-! # No float is nearer to a number than the rounded number -/

namespace Evogil.Binary64

variable {K : Type*} [Field K] [LinearOrder K] [IsStrictOrderedRing K] [FloorRing K]

theorem roundEven_near (x : K) (n : ℤ) : |(roundEven x : K) - x| ≤ |(n : K) - x| := by
  have h1 := Int.floor_le x
  have h2 := Int.lt_floor_add_one x
  have hn : (n : K) ≤ ⌊x⌋ ∨ (⌊x⌋ : K) + 1 ≤ n := by
    rcases le_or_gt n ⌊x⌋ with h | h
    · exact .inl (by exact_mod_cast h)
    · exact .inr (by exact_mod_cast h)
  have key : (x - ⌊x⌋ ≤ |(n : K) - x|) ∨ ((⌊x⌋ : K) + 1 - x ≤ |(n : K) - x|) := by
    rcases hn with h | h
    · left; rw [abs_sub_comm]; exact le_trans (by linarith) (le_abs_self _)
    · right; exact le_trans (by linarith) (le_abs_self _)
  have ha : |((⌊x⌋ : ℤ) : K) - x| = x - ⌊x⌋ := by rw [abs_sub_comm, abs_of_nonneg (by linarith)]
  have hb : |((⌊x⌋ + 1 : ℤ) : K) - x| = ⌊x⌋ + 1 - x := by
    push_cast
    rw [abs_of_nonneg (by linarith)]
  unfold roundEven
  split_ifs with c1 c2 c3
  · rw [ha]; rcases key with h | h <;> linarith
  · rw [hb]; rcases key with h | h <;> linarith
  · rw [ha]; rcases key with h | h <;> linarith
  · rw [hb]; rcases key with h | h <;> linarith

/-- Among the multiples of the last digit none is nearer. -/
theorem roundPos_near_multiple (x : K) (n : ℤ) :
    |roundPos x - x| ≤ |(n : K) * (2 : K) ^ lastDigit x - x| := by
  have hp := two_zpow_pos (K := K) (lastDigit x)
  have e : x = x / (2 : K) ^ lastDigit x * (2 : K) ^ lastDigit x := (div_mul_cancel₀ _ hp.ne').symm
  have h := mul_le_mul_of_nonneg_right (roundEven_near (x / (2 : K) ^ lastDigit x) n) hp.le
  rw [← abs_of_pos hp, ← abs_mul, ← abs_mul, abs_of_pos hp, sub_mul, sub_mul, ← e] at h
  exact h

theorem roundPos_near {x y : K} (hx : 0 ≤ x) (hy : IsFloat y) : |roundPos x - x| ≤ |y - x| := by
  rcases eq_or_lt_of_le hx with h0 | h0
  · rw [← h0, roundPos_zero]; simp
  rcases le_or_gt y 0 with hy0 | hy0
  · have := roundPos_near_multiple x 0
    rw [Int.cast_zero, zero_mul] at this
    refine this.trans ?_
    rw [zero_sub, abs_neg, abs_of_pos h0, abs_sub_comm]
    exact le_trans (by linarith) (le_abs_self _)
  obtain ⟨m, e, hm, he, rfl⟩ := hy
  rcases le_or_gt (lastDigit x) e with hle | hlt
  · obtain ⟨k, hk⟩ := Int.le.dest hle
    have := roundPos_near_multiple x (m * 2 ^ k)
    have e2 : ((m * 2 ^ k : ℤ) : K) * (2 : K) ^ lastDigit x = m * (2 : K) ^ e := by
      rw [← hk, zpow_add₀ (by norm_num), zpow_natCast]
      push_cast
      ring
    rwa [e2] at this
  · have hlog : lastDigit x = Int.log 2 x - 52 := by unfold lastDigit at *; omega
    have hp : (2 : K) ^ (lastDigit x + 52) ≤ x := by
      rw [hlog, sub_add_cancel]
      exact_mod_cast Int.zpow_log_le_self (b := 2) (by norm_num) h0
    have hy1 : (m : K) * (2 : K) ^ e ≤ (2 : K) ^ (lastDigit x + 52) := by
      have h1 : (2 : K) ^ (e + 53) ≤ (2 : K) ^ (lastDigit x + 52) :=
        zpow_le_zpow_right₀ (by norm_num) (by omega)
      refine le_trans ?_ h1
      rw [zpow_add₀ (by norm_num), mul_comm ((2 : K) ^ e)]
      refine mul_le_mul_of_nonneg_right ?_ (two_zpow_pos _).le
      have : m < 2 ^ 53 := lt_of_le_of_lt (le_abs_self m) hm
      have h2 : (m : K) < ((2 ^ 53 : ℤ) : K) := Int.cast_lt.2 this
      push_cast at h2
      rw [show (2 : K) ^ (53 : ℤ) = (2 : K) ^ (53 : ℕ) from zpow_natCast 2 53]
      exact (lt_of_lt_of_eq h2 (by norm_num)).le
    have h3 := roundPos_near_multiple x (2 ^ 52)
    have e3 : ((2 ^ 52 : ℤ) : K) * (2 : K) ^ lastDigit x = (2 : K) ^ (lastDigit x + 52) := by
      rw [zpow_add₀ (by norm_num), mul_comm]
      congr 1
      push_cast
      rw [show (2 : K) ^ (52 : ℤ) = (2 : K) ^ (52 : ℕ) from zpow_natCast 2 52]
      norm_num
    rw [e3, abs_sub_comm ((2 : K) ^ (lastDigit x + 52)),
      abs_of_nonneg (show 0 ≤ x - (2 : K) ^ (lastDigit x + 52) by linarith)] at h3
    refine h3.trans ?_
    rw [abs_sub_comm]
    exact le_trans (by linarith) (le_abs_self _)

/-- No float is nearer to a number than the rounded number. -/
theorem round64_near (x : K) {y : K} (hy : round64 y = y) : |round64 x - x| ≤ |y - x| := by
  have hf : IsFloat y := hy ▸ isFloat_round64 y
  unfold round64
  split_ifs with h
  · have := roundPos_near (show 0 ≤ -x by linarith) hf.neg
    rw [show -roundPos (-x) - x = -(roundPos (-x) - -x) by ring, abs_neg]
    refine this.trans (le_of_eq ?_)
    rw [show -y - -x = -(y - x) by ring, abs_neg]
  · exact roundPos_near (not_lt.1 h) hf

/-- There is no float between 1 and 1 + 2⁻⁵². -/
theorem float_gap {y : K} (hy : round64 y = y) (h1 : 1 < y) : 1 + 1 / 2 ^ 52 ≤ y := by
  obtain ⟨m, e, hm, he, hy'⟩ : IsFloat y := hy ▸ isFloat_round64 y
  have hlt : m < 2 ^ 53 := lt_of_le_of_lt (le_abs_self m) hm
  have hmK : (m : K) < 2 ^ 53 := by
    have h2 : (m : K) < ((2 ^ 53 : ℤ) : K) := Int.cast_lt.2 hlt
    push_cast at h2
    exact lt_of_lt_of_eq h2 (by norm_num)
  rcases le_or_gt (-52) e with h | h
  · obtain ⟨k, hk⟩ := Int.le.dest h
    have e1 : y * 2 ^ 52 = ((m * 2 ^ k : ℤ) : K) := by
      rw [hy', ← hk, zpow_add₀ (by norm_num), zpow_natCast, zpow_neg]
      push_cast
      rw [show (2 : K) ^ (52 : ℤ) = (2 : K) ^ (52 : ℕ) from zpow_natCast 2 52]
      field_simp
    have e2 : ((2 ^ 52 : ℤ) : K) < ((m * 2 ^ k : ℤ) : K) := by
      rw [← e1]
      push_cast
      nlinarith
    have e3 : ((2 ^ 52 + 1 : ℤ) : K) ≤ ((m * 2 ^ k : ℤ) : K) := by
      have := Int.cast_lt.1 e2
      exact_mod_cast this
    rw [← e1] at e3
    push_cast at e3
    have h52 : (0 : K) < 2 ^ 52 := by positivity
    have h53 : (1 : K) / 2 ^ 52 * 2 ^ 52 = 1 := one_div_mul_cancel h52.ne'
    by_contra hc
    have := mul_lt_mul_of_pos_right (not_le.1 hc) h52
    rw [add_mul, h53] at this
    norm_num at this e3
    linarith
  · exfalso
    have : (2 : K) ^ e ≤ (2 : K) ^ (-53 : ℤ) := zpow_le_zpow_right₀ (by norm_num) (by omega)
    have h2 : y ≤ 1 := by
      rcases le_or_gt (m : K) 0 with hm0 | hm0
      · rw [hy']
        nlinarith [two_zpow_pos (K := K) e]
      · rw [hy']
        calc (m : K) * 2 ^ e ≤ (m : K) * (2 : K) ^ (-53 : ℤ) := mul_le_mul_of_nonneg_left this hm0.le
          _ ≤ 2 ^ 53 * (2 : K) ^ (-53 : ℤ) := mul_le_mul_of_nonneg_right hmK.le (two_zpow_pos _).le
          _ = 1 := by norm_num
    linarith

end Evogil.Binary64
