import Verif.Model.Binary64
import Mathlib.Tactic.Linarith
import Mathlib.Tactic.Positivity
import Mathlib.Tactic.FieldSimp
import Mathlib.Tactic.Ring

set_option linter.unusedSectionVars false

/-! # Rounding is monotone and keeps floats -/

namespace Evogil.Binary64

variable {K : Type*} [Field K] [LinearOrder K] [IsStrictOrderedRing K] [FloorRing K]

theorem roundEven_floor (x : K) : roundEven x = ⌊x⌋ ∨ roundEven x = ⌊x⌋ + 1 := by
  unfold roundEven; split_ifs <;> simp

theorem roundEven_int (n : ℤ) : roundEven (n : K) = n := by
  unfold roundEven
  simp

theorem roundEven_mono {x y : K} (h : x ≤ y) : roundEven x ≤ roundEven y := by
  have hf : ⌊x⌋ ≤ ⌊y⌋ := Int.floor_mono h
  rcases eq_or_lt_of_le hf with he | hl
  · unfold roundEven
    rw [he]
    split_ifs <;> first | omega | (exfalso; linarith)
  · have h1 : roundEven x ≤ ⌊x⌋ + 1 := by rcases roundEven_floor x with h | h <;> omega
    have h2 : ⌊y⌋ ≤ roundEven y := by rcases roundEven_floor y with h | h <;> omega
    omega

theorem two_zpow_pos (n : ℤ) : (0 : K) < 2 ^ n := zpow_pos two_pos n

theorem lastDigit_mono {x y : K} (hx : 0 < x) (h : x ≤ y) : lastDigit x ≤ lastDigit y := by
  have := Int.log_mono_right (b := 2) hx h
  unfold lastDigit
  omega

theorem lt_lastDigit (x : K) : x < 2 ^ (lastDigit x + 53) := by
  have h1 : x < (2 : K) ^ (Int.log 2 x + 1) := by
    have := Int.lt_zpow_succ_log_self (b := 2) (by norm_num) x
    exact_mod_cast this
  refine lt_of_lt_of_le h1 (zpow_le_zpow_right₀ (by norm_num) ?_)
  unfold lastDigit
  omega

theorem roundEven_le (x : K) : roundEven (x / (2 : K) ^ lastDigit x) ≤ 2 ^ 53 := by
  have h : x / (2 : K) ^ lastDigit x ≤ ((2 ^ 53 : ℤ) : K) := by
    rw [div_le_iff₀ (two_zpow_pos _)]
    have := (lt_lastDigit x).le
    rw [zpow_add₀ (by norm_num), mul_comm] at this
    push_cast
    exact_mod_cast this
  exact le_trans (roundEven_mono h) (roundEven_int _).le

theorem roundPos_nonneg {x : K} (hx : 0 ≤ x) : 0 ≤ roundPos x := by
  unfold roundPos
  have h := roundEven_mono (show ((0 : ℤ) : K) ≤ x / (2 : K) ^ lastDigit x by
    rw [Int.cast_zero]; exact div_nonneg hx (two_zpow_pos _).le)
  rw [roundEven_int] at h
  exact mul_nonneg (by exact_mod_cast h) (two_zpow_pos _).le

theorem roundPos_zero : roundPos (0 : K) = 0 := by
  have := roundEven_int (K := K) 0
  rw [Int.cast_zero] at this
  simp [roundPos, this]

theorem roundPos_mono {x y : K} (hx : 0 ≤ x) (h : x ≤ y) : roundPos x ≤ roundPos y := by
  rcases eq_or_lt_of_le hx with rfl | hx'
  · rw [roundPos_zero]; exact roundPos_nonneg h
  have hy := lt_of_lt_of_le hx' h
  rcases eq_or_lt_of_le (lastDigit_mono hx' h) with he | hl
  · unfold roundPos
    rw [he]
    have := roundEven_mono (div_le_div_of_nonneg_right h (two_zpow_pos (K := K) (lastDigit y)).le)
    exact mul_le_mul_of_nonneg_right (by exact_mod_cast this) (two_zpow_pos _).le
  · have h1 : roundPos x ≤ 2 ^ (lastDigit x + 53) := by
      unfold roundPos
      rw [zpow_add₀ (by norm_num), mul_comm]
      refine mul_le_mul_of_nonneg_left ?_ (two_zpow_pos _).le
      have := roundEven_le x
      exact_mod_cast this
    have hlog : lastDigit y = Int.log 2 y - 52 := by unfold lastDigit at *; omega
    have h2 : (2 : K) ^ (lastDigit y + 52) ≤ roundPos y := by
      have hp : (2 : K) ^ (lastDigit y + 52) ≤ y := by
        rw [hlog, sub_add_cancel]
        exact_mod_cast Int.zpow_log_le_self (b := 2) (by norm_num) hy
      have h3 : ((2 ^ 52 : ℤ) : K) ≤ y / (2 : K) ^ lastDigit y := by
        rw [le_div_iff₀ (two_zpow_pos _)]
        rw [zpow_add₀ (by norm_num), mul_comm] at hp
        push_cast
        exact_mod_cast hp
      have h4 := roundEven_mono h3
      rw [roundEven_int] at h4
      unfold roundPos
      rw [zpow_add₀ (by norm_num), mul_comm]
      refine mul_le_mul_of_nonneg_right ?_ (two_zpow_pos _).le
      exact_mod_cast h4
    refine le_trans h1 (le_trans (zpow_le_zpow_right₀ (by norm_num) ?_) h2)
    omega

theorem round64_mono {x y : K} (h : x ≤ y) : round64 x ≤ round64 y := by
  unfold round64
  split_ifs with hx hy hy
  · exact neg_le_neg (roundPos_mono (by linarith) (by linarith))
  · have h1 := roundPos_nonneg (show 0 ≤ -x by linarith)
    have h2 := roundPos_nonneg (not_lt.1 hy)
    linarith
  · exact absurd (lt_of_le_of_lt h hy) hx
  · exact roundPos_mono (not_lt.1 hx) h

theorem round64_neg (x : K) : round64 (-x) = -round64 x := by
  unfold round64
  rcases lt_trichotomy x 0 with h | rfl | h
  · rw [if_neg (by linarith), if_pos h, neg_neg]
  · simp [roundPos_zero]
  · rw [if_pos (by linarith), if_neg (by linarith), neg_neg]

/-- The numbers that are floats. -/
def IsFloat (x : K) : Prop := ∃ m e : ℤ, |m| < 2 ^ 53 ∧ -1074 ≤ e ∧ x = m * (2 : K) ^ e

theorem roundPos_float {x : K} (hx : 0 ≤ x) (h : IsFloat x) : roundPos x = x := by
  obtain ⟨m, e, hm, he, rfl⟩ := h
  rcases eq_or_lt_of_le hx with h0 | h0
  · rw [← h0, roundPos_zero]
  obtain ⟨x, hxd⟩ : ∃ x : K, x = m * 2 ^ e := ⟨_, rfl⟩
  rw [← hxd] at hx h0 ⊢
  have hlt : x < (2 : K) ^ (e + 53) := by
    rw [hxd, zpow_add₀ (by norm_num), mul_comm ((2 : K) ^ e)]
    refine mul_lt_mul_of_pos_right ?_ (two_zpow_pos _)
    have : m < 2 ^ 53 := lt_of_le_of_lt (le_abs_self m) hm
    have h2 : (m : K) < ((2 ^ 53 : ℤ) : K) := Int.cast_lt.2 this
    push_cast at h2
    rw [show (2 : K) ^ (53 : ℤ) = (2 : K) ^ (53 : ℕ) from zpow_natCast 2 53]
    exact lt_of_lt_of_eq h2 (by norm_num)
  have hlog : Int.log 2 x < e + 53 := by
    have h1 := Int.zpow_log_le_self (b := 2) (by norm_num) h0
    have h2 : (2 : K) ^ Int.log 2 x < (2 : K) ^ (e + 53) := lt_of_le_of_lt (by exact_mod_cast h1) hlt
    exact (zpow_lt_zpow_iff_right₀ (by norm_num)).1 h2
  have hle : lastDigit x ≤ e := by unfold lastDigit; omega
  obtain ⟨k, hk⟩ := Int.le.dest hle
  have hq : x / (2 : K) ^ lastDigit x = ((m * 2 ^ k : ℤ) : K) := by
    rw [div_eq_iff (two_zpow_pos _).ne']
    conv_lhs => rw [hxd, ← hk, zpow_add₀ (by norm_num)]
    push_cast
    rw [zpow_natCast]
    ring
  unfold roundPos
  rw [hq, roundEven_int, ← hq, div_mul_cancel₀ _ (two_zpow_pos _).ne']

theorem IsFloat.neg {x : K} (h : IsFloat x) : IsFloat (-x) := by
  obtain ⟨m, e, hm, he, rfl⟩ := h
  exact ⟨-m, e, by rwa [abs_neg], he, by push_cast; ring⟩

theorem round64_float {x : K} (h : IsFloat x) : round64 x = x := by
  unfold round64
  split_ifs with hx
  · rw [roundPos_float (by linarith) h.neg, neg_neg]
  · exact roundPos_float (not_lt.1 hx) h

theorem isFloat_roundPos {x : K} (hx : 0 ≤ x) : IsFloat (roundPos x) := by
  have h1 := roundEven_le x
  have h0 : 0 ≤ roundEven (x / (2 : K) ^ lastDigit x) := by
    have h := roundEven_mono (show ((0 : ℤ) : K) ≤ x / (2 : K) ^ lastDigit x by
      rw [Int.cast_zero]; exact div_nonneg hx (two_zpow_pos _).le)
    rwa [roundEven_int] at h
  have hd : -1074 ≤ lastDigit x := by unfold lastDigit; omega
  rcases eq_or_lt_of_le h1 with he | hl
  · refine ⟨2 ^ 52, lastDigit x + 1, by norm_num, by omega, ?_⟩
    unfold roundPos
    rw [he, zpow_add₀ (by norm_num)]
    push_cast
    ring
  · exact ⟨_, _, by rwa [abs_of_nonneg h0], hd, rfl⟩

theorem isFloat_round64 (x : K) : IsFloat (round64 x) := by
  unfold round64
  split_ifs with hx
  · exact (isFloat_roundPos (by linarith)).neg
  · exact isFloat_roundPos (not_lt.1 hx)

theorem round64_round64 (x : K) : round64 (round64 x) = round64 x := round64_float (isFloat_round64 x)

end Evogil.Binary64
