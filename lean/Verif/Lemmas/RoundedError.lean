import Verif.Spec.RoundedError
import Verif.Lemmas.Binary64
import Mathlib.Tactic.Linarith
import Mathlib.Tactic.Positivity
import Mathlib.Tactic.Ring
import Mathlib.Tactic.FieldSimp
import Mathlib.Algebra.Order.Ring.Pow

/-! # Calculating with relative errors -/

set_option linter.unusedSectionVars false

namespace Evogil

open Spec

variable {K : Type*} [Field K] [LinearOrder K] [IsStrictOrderedRing K]

/-! ## The relation -/

section near

variable {u : K} {k l : ℕ} {a b c d : K}

theorem _root_.Evogil.Spec.Near.refl (h0 : 0 ≤ u) (h1 : u ≤ 1) (ha : 0 ≤ a) (k : ℕ) : Near u k a a :=
  have h : (1 - u) ^ k * a ≤ a := mul_le_of_le_one_left ha (pow_le_one₀ (by linarith) (by linarith))
  ⟨ha, ha, h, h⟩

theorem _root_.Evogil.Spec.Near.symm (h : Near u k a b) : Near u k b a := ⟨h.2, h.1, h.4, h.3⟩

theorem _root_.Evogil.Spec.Near.mono (h0 : 0 ≤ u) (h1 : u ≤ 1) (h : Near u k a b) (hkl : k ≤ l) : Near u l a b := by
  have e : (1 - u) ^ l ≤ (1 - u) ^ k := pow_le_pow_of_le_one (by linarith) (by linarith) hkl
  exact ⟨h.1, h.2, (mul_le_mul_of_nonneg_right e h.1).trans h.3, (mul_le_mul_of_nonneg_right e h.2).trans h.4⟩

theorem _root_.Evogil.Spec.Near.trans (h1 : u ≤ 1) (h : Near u k a b) (h' : Near u l b c) : Near u (k + l) a c := by
  have p : ∀ m : ℕ, 0 ≤ (1 - u) ^ m := fun m => pow_nonneg (by linarith) m
  refine ⟨h.1, h'.2, ?_, ?_⟩
  · calc (1 - u) ^ (k + l) * a = (1 - u) ^ l * ((1 - u) ^ k * a) := by ring
      _ ≤ (1 - u) ^ l * b := mul_le_mul_of_nonneg_left h.3 (p l)
      _ ≤ c := h'.3
  · calc (1 - u) ^ (k + l) * c = (1 - u) ^ k * ((1 - u) ^ l * c) := by ring
      _ ≤ (1 - u) ^ k * b := mul_le_mul_of_nonneg_left h'.4 (p k)
      _ ≤ a := h.4

theorem _root_.Evogil.Spec.Near.add (h : Near u k a b) (h' : Near u k c d) : Near u k (a + c) (b + d) :=
  ⟨add_nonneg h.1 h'.1, add_nonneg h.2 h'.2, by rw [mul_add]; exact add_le_add h.3 h'.3,
    by rw [mul_add]; exact add_le_add h.4 h'.4⟩

theorem _root_.Evogil.Spec.Near.mul (h1 : u ≤ 1) (h : Near u k a b) (h' : Near u l c d) : Near u (k + l) (a * c) (b * d) := by
  have p : ∀ m : ℕ, 0 ≤ (1 - u) ^ m := fun m => pow_nonneg (by linarith) m
  refine ⟨mul_nonneg h.1 h'.1, mul_nonneg h.2 h'.2, ?_, ?_⟩
  · calc (1 - u) ^ (k + l) * (a * c) = ((1 - u) ^ k * a) * ((1 - u) ^ l * c) := by ring
      _ ≤ b * d := mul_le_mul h.3 h'.3 (mul_nonneg (p l) h'.1) h.2
  · calc (1 - u) ^ (k + l) * (b * d) = ((1 - u) ^ k * b) * ((1 - u) ^ l * d) := by ring
      _ ≤ a * c := mul_le_mul h.4 h'.4 (mul_nonneg (p l) h'.2) h.1

/-- In terms of the relative difference. -/
theorem _root_.Evogil.Spec.Near.abs_sub (h0 : 0 ≤ u) (h1 : u ≤ 1) (h : Near u k a b) (hk : (k : K) * u ≤ 1 / 2) :
    |b - a| ≤ 2 * (k * u) * a := by
  have e : 1 - (k : K) * u ≤ (1 - u) ^ k := by
    have := one_add_mul_le_pow (a := -u) (by linarith) k
    calc 1 - (k : K) * u = 1 + k * -u := by ring
      _ ≤ (1 + -u) ^ k := this
      _ = (1 - u) ^ k := by ring
  have ku : 0 ≤ (k : K) * u := mul_nonneg (Nat.cast_nonneg k) h0
  have a1 : (1 - k * u) * a ≤ b := (mul_le_mul_of_nonneg_right e h.1).trans h.3
  have a2 : (1 - k * u) * b ≤ a := (mul_le_mul_of_nonneg_right e h.2).trans h.4
  have hb : b ≤ 2 * a := by nlinarith [h.2]
  rw [abs_le]
  constructor
  · nlinarith [mul_nonneg ku h.1]
  · nlinarith [mul_le_mul_of_nonneg_left hb ku]

end near

/-! ## Numbers that are 0 or not too small -/

/-- 0 or at least `2⁻ᵉ`. -/
def Big (e : ℕ) (x : K) : Prop := x = 0 ∨ (1 / 2) ^ e ≤ x

theorem half_pos' (e : ℕ) : (0 : K) < (1 / 2) ^ e := by positivity

theorem Big.nonneg {e : ℕ} {x : K} (h : Big e x) : 0 ≤ x := by
  rcases h with rfl | h
  · exact le_rfl
  · exact (half_pos' e).le.trans h

theorem Big.mono {e f : ℕ} {x : K} (h : Big e x) (hef : e ≤ f) : Big f x :=
  h.imp id fun h => le_trans (pow_le_pow_of_le_one (by norm_num) (by norm_num) hef) h

theorem Big.add {e : ℕ} {x y : K} (h : Big e x) (h' : Big e y) : Big e (x + y) := by
  rcases h with rfl | h
  · rwa [zero_add]
  · exact Or.inr (by linarith [h'.nonneg])

theorem Big.mul {e f : ℕ} {x y : K} (h : Big e x) (h' : Big f y) : Big (e + f) (x * y) := by
  rcases h with rfl | h
  · exact Or.inl (zero_mul y)
  rcases h' with rfl | h'
  · exact Or.inl (mul_zero x)
  · refine Or.inr ?_
    rw [pow_add]
    exact mul_le_mul h h' (half_pos' f).le ((half_pos' e).le.trans h)

/-- Multiples of `2⁻ᵉ`. -/
def OnGrid (e : ℕ) (x : K) : Prop := ∃ n : ℤ, x = n * (1 / 2) ^ e

theorem OnGrid.sub {e : ℕ} {x y : K} (h : OnGrid e x) (h' : OnGrid e y) : OnGrid e (x - y) := by
  obtain ⟨n, rfl⟩ := h
  obtain ⟨m, rfl⟩ := h'
  exact ⟨n - m, by push_cast; ring⟩

theorem OnGrid.neg {e : ℕ} {x : K} (h : OnGrid e x) : OnGrid e (-x) := by
  obtain ⟨n, rfl⟩ := h
  exact ⟨-n, by push_cast; ring⟩

theorem OnGrid.big {e : ℕ} {x : K} (h : OnGrid e x) (hx : 0 ≤ x) : Big e x := by
  obtain ⟨n, rfl⟩ := h
  have hn : 0 ≤ n := by
    by_contra hneg
    have : (n : K) < 0 := by exact_mod_cast not_le.1 hneg
    nlinarith [half_pos' (K := K) e]
  rcases hn.eq_or_lt with rfl | hn
  · left; simp
  · right
    have : (1 : K) ≤ n := by exact_mod_cast hn
    nlinarith [half_pos' (K := K) e]

/-! ## Rounding -/

section rounding

variable {fl : K → K} {u : K}

theorem _root_.Evogil.Spec.IsAccurate.zero (R : IsAccurate fl u) : fl 0 = 0 := by
  have := R.neg 0
  rw [neg_zero] at this
  linarith

theorem _root_.Evogil.Spec.IsAccurate.nonneg (R : IsAccurate fl u) {x : K} (h : 0 ≤ x) : 0 ≤ fl x := by
  have := R.mono _ _ h
  rwa [R.zero] at this

theorem Big.round (R : IsAccurate fl u) {e : ℕ} {x : K} (h : Big e x) (he : e ≤ 1022) : Big e (fl x) := by
  rcases h with rfl | h
  · exact Or.inl R.zero
  · have := R.mono _ _ h
    rw [R.power e he] at this
    exact Or.inr this

theorem near_fl (R : IsAccurate fl u) (h0 : 0 ≤ u) (h1 : u ≤ 1) {e : ℕ} {x : K} (h : Big e x) (he : e ≤ 1022) :
    Near u 1 x (fl x) := by
  have hb := h.mono he
  have hx := h.nonneg
  rcases hb with rfl | hb
  · rw [R.zero]; exact Near.refl h0 h1 le_rfl 1
  · have := R.error x (by rwa [abs_of_nonneg hx])
    rw [abs_of_nonneg hx, abs_le] at this
    refine ⟨hx, R.nonneg hx, ?_, ?_⟩
    · rw [pow_one]; linarith [this.1]
    · rw [pow_one]
      have h2 : fl x ≤ (1 + u) * x := by linarith [this.2]
      calc (1 - u) * fl x ≤ (1 - u) * ((1 + u) * x) := mul_le_mul_of_nonneg_left h2 (by linarith)
        _ ≤ x := by nlinarith [mul_nonneg (mul_nonneg h0 h0) hx]

end rounding

/-! ## Python's floats -/

namespace Binary64

variable [FloorRing K]

theorem roundEven_abs (x : K) : |(roundEven x : K) - x| ≤ 1 / 2 := by
  have h1 := Int.floor_le x
  have h2 := Int.lt_floor_add_one x
  rw [abs_le]
  unfold roundEven
  split_ifs <;> push_cast <;> constructor <;> linarith

theorem roundPos_error {x : K} (hx : (1 / 2) ^ 1022 ≤ x) : |roundPos x - x| ≤ 1 / 2 ^ 53 * x := by
  have hpos : 0 < x := lt_of_lt_of_le (half_pos' 1022) hx
  have e1 : ((1 : K) / 2) ^ 1022 = 2 ^ (-1022 : ℤ) := by
    rw [zpow_neg, one_div, inv_pow]
    norm_cast
  rw [e1] at hx
  have hlog : -1022 ≤ Int.log 2 x := by
    have := (Int.zpow_le_iff_le_log (b := 2) (by norm_num) (x := -1022) hpos).1 (by exact_mod_cast hx)
    exact this
  have hl : lastDigit x = Int.log 2 x - 52 := by rw [lastDigit, max_eq_left hlog]
  have hle : (2 : K) ^ Int.log 2 x ≤ x := by
    have := Int.zpow_log_le_self (b := 2) (by norm_num) hpos
    exact_mod_cast this
  have hp : (0 : K) < 2 ^ lastDigit x := two_zpow_pos _
  have e2 : roundPos x - x =
      ((roundEven (x / (2 : K) ^ lastDigit x) : K) - x / 2 ^ lastDigit x) * 2 ^ lastDigit x := by
    rw [roundPos, sub_mul, div_mul_cancel₀ _ hp.ne']
  rw [e2, abs_mul, abs_of_pos hp]
  calc _ ≤ 1 / 2 * (2 : K) ^ lastDigit x := mul_le_mul_of_nonneg_right (roundEven_abs _) hp.le
    _ = 1 / 2 ^ 53 * 2 ^ Int.log 2 x := by
      rw [hl, zpow_sub₀ two_ne_zero]
      have : (2 : K) ^ (52 : ℤ) = 2 ^ 52 := by norm_cast
      rw [this]
      field_simp
    _ ≤ 1 / 2 ^ 53 * x := mul_le_mul_of_nonneg_left hle (by positivity)

theorem round64_accurate : IsAccurate (round64 : K → K) (1 / 2 ^ 53) where
  mono _ _ h := round64_mono h
  neg := round64_neg
  power e he := by
    apply round64_float
    refine ⟨1, -(e : ℤ), by norm_num, by omega, ?_⟩
    rw [zpow_neg, one_div, inv_pow, zpow_natCast, Int.cast_one, one_mul]
  error x hx := by
    unfold round64
    split_ifs with h
    · rw [abs_of_neg h] at hx ⊢
      have := roundPos_error hx
      rw [← abs_neg]
      convert this using 2
      ring
    · rw [abs_of_nonneg (not_lt.1 h)] at hx ⊢
      exact roundPos_error hx

end Binary64

end Evogil
