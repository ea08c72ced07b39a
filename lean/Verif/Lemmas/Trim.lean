import Verif.Model.Trim
import Verif.Spec.Floats
import Mathlib.Tactic.Ring
import Mathlib.Tactic.FieldSimp
import Mathlib.Tactic.Positivity
import Mathlib.Tactic.Linarith
import Mathlib.Tactic.NormNum
import Mathlib.Algebra.Order.Field.Power

namespace Evogil.Trim

open Spec

theorem bits_length (n : ℕ) : ∀ m, (bits n m).length = n := by
  induction n with
  | zero => intro m; rfl
  | succ n ih => intro m; simp [bits, ih]

theorem ofBits_append (l : List ℕ) (d : ℕ) : ofBits (l ++ [d]) = 2 * ofBits l + d := by
  simp [ofBits]

theorem keepDigits_append (b : ℕ) (l : List ℕ) (d : ℕ) :
    keepDigits b (l ++ [d]) = keepDigits b l ++ [if l.length < b then d else 0] := by
  simp [keepDigits, List.zipIdx_append]

theorem ofBits_keep (b n : ℕ) : ∀ m, m < 2 ^ n →
    ofBits (keepDigits b (bits n m)) = m / 2 ^ (n - b) * 2 ^ (n - b) := by
  induction n with
  | zero =>
    intro m hm
    have : m = 0 := by simpa using hm
    subst this
    simp [bits, keepDigits, ofBits]
  | succ n ih =>
    intro m hm
    have hm2 : m / 2 < 2 ^ n := by
      rw [Nat.div_lt_iff_lt_mul (by norm_num)]
      rw [pow_succ] at hm
      exact hm
    rw [bits, keepDigits_append, ofBits_append, ih _ hm2, bits_length]
    by_cases h : n < b
    · rw [if_pos h]
      have h1 : n - b = 0 := by omega
      have h2 : n + 1 - b = 0 := by omega
      rw [h1, h2]
      simp only [pow_zero, Nat.div_one, Nat.mul_one]
      omega
    · rw [if_neg h]
      have h1 : n + 1 - b = (n - b) + 1 := by omega
      rw [h1, pow_succ, Nat.div_div_eq_div_mul, Nat.mul_comm 2 (2 ^ (n - b))]
      ring

theorem ofBits_bits (n m : ℕ) (h : m < 2 ^ n) : ofBits (bits n m) = m := by
  have h1 := ofBits_keep n n m h
  have h2 : keepDigits n (bits n m) = bits n m := by
    unfold keepDigits
    conv_rhs => rw [← List.zipIdx_map_fst 0 (bits n m)]
    apply List.map_congr_left
    rintro ⟨d, i⟩ hi
    have := List.snd_lt_of_mem_zipIdx hi
    rw [bits_length] at this
    simp only [List.mem_zipIdx_iff_getElem?] at hi
    rw [if_pos (by simpa using this)]
  rw [h2] at h1
  simpa using h1

/-- The decomposition of a number different from zero. -/
theorem exists_mantissa {x : ℚ} (hx : x ≠ 0) (hf : IsFloat x) :
    ∃ M : ℕ, 2 ^ 52 ≤ M ∧ M < 2 ^ 53 ∧ |x| = M * 2 ^ (Int.log 2 |x| - 52) ∧
      ⌊|x| / 2 ^ (Int.log 2 |x| - 52)⌋₊ = M := by
  have hpos : 0 < |x| := abs_pos.2 hx
  obtain ⟨m, e, hm, hxe⟩ := hf
  set L := Int.log 2 |x| with hL
  have h1 : (2 : ℚ) ^ L ≤ |x| := by
    have := Int.zpow_log_le_self (b := 2) (r := |x|) (by norm_num) hpos
    simpa using this
  have h2 : |x| < (2 : ℚ) ^ (L + 1) := by
    have := Int.lt_zpow_succ_log_self (b := 2) (by norm_num) |x|
    simpa using this
  have hm0 : 0 < m := by
    rcases Nat.eq_zero_or_pos m with h | h
    · subst h
      simp at hxe
      exact absurd hxe hx
    · exact h
  -- the exponent of the given representation is at least `L - 52`
  have h3 : (2 : ℚ) ^ L < 2 ^ (53 + e) := by
    calc (2 : ℚ) ^ L ≤ |x| := h1
      _ = m * 2 ^ e := hxe
      _ < 2 ^ 53 * 2 ^ e := by
          apply mul_lt_mul_of_pos_right _ (by positivity)
          exact_mod_cast hm
      _ = 2 ^ (53 + e) := by rw [zpow_add₀ (by norm_num)]; norm_num
  have h4 : L < 53 + e := (zpow_lt_zpow_iff_right₀ (by norm_num)).1 h3
  obtain ⟨k, hk⟩ := Int.eq_ofNat_of_zero_le (show 0 ≤ e - (L - 52) by omega)
  have hM : |x| = ((m * 2 ^ k : ℕ) : ℚ) * 2 ^ (L - 52) := by
    rw [hxe]
    push_cast
    rw [mul_assoc, ← zpow_natCast (2 : ℚ) k, ← zpow_add₀ (by norm_num)]
    congr 2
    push_cast at hk ⊢
    omega
  have hd : |x| / 2 ^ (L - 52) = ((m * 2 ^ k : ℕ) : ℚ) := by
    rw [div_eq_iff (by positivity)]; exact hM
  refine ⟨m * 2 ^ k, ?_, ?_, hM, by rw [hd, Nat.floor_natCast]⟩
  · have : (2 : ℚ) ^ 52 ≤ ((m * 2 ^ k : ℕ) : ℚ) := by
      rw [← hd, le_div_iff₀ (by positivity)]
      calc (2 : ℚ) ^ 52 * 2 ^ (L - 52) = 2 ^ (52 : ℤ) * 2 ^ (L - 52) := by norm_num
        _ = 2 ^ L := by rw [← zpow_add₀ (by norm_num)]; congr 1; omega
        _ ≤ |x| := h1
    exact_mod_cast this
  · have : ((m * 2 ^ k : ℕ) : ℚ) < (2 : ℚ) ^ 53 := by
      rw [← hd, div_lt_iff₀ (by positivity)]
      calc |x| < 2 ^ (L + 1) := h2
        _ = 2 ^ (53 : ℤ) * 2 ^ (L - 52) := by rw [← zpow_add₀ (by norm_num)]; congr 1; omega
        _ = (2 : ℚ) ^ 53 * 2 ^ (L - 52) := by norm_num
    exact_mod_cast this

theorem trim_zero (b : ℕ) : trimMantissa 0 b = 0 := by
  have h : ofBits (keepDigits b (bits 53 0)) = 0 := by
    rw [ofBits_keep b 53 0 (by norm_num)]; simp
  simp [trimMantissa, asTuple, fromTuple, h]

/-- The truncated number in terms of the mantissa. -/
theorem trim_eq {x : ℚ} {M : ℕ} (hM : M < 2 ^ 53)
    (hf : ⌊|x| / 2 ^ (Int.log 2 |x| - 52)⌋₊ = M) (b : ℕ) :
    trimMantissa x b = (if x < 0 then -1 else 1) *
      ((M / 2 ^ (53 - b) * 2 ^ (53 - b) : ℕ) : ℚ) * 2 ^ (Int.log 2 |x| - 52) := by
  simp only [trimMantissa, asTuple, fromTuple, hf, ofBits_keep b 53 M hM, decide_eq_true_eq]

theorem trim_abs {x : ℚ} {M : ℕ} (hM : M < 2 ^ 53)
    (hf : ⌊|x| / 2 ^ (Int.log 2 |x| - 52)⌋₊ = M) (b : ℕ) :
    |trimMantissa x b| =
      ((M / 2 ^ (53 - b) * 2 ^ (53 - b) : ℕ) : ℚ) * 2 ^ (Int.log 2 |x| - 52) := by
  rw [trim_eq hM hf, abs_mul, abs_mul]
  have h1 : |(if x < 0 then -1 else 1 : ℚ)| = 1 := by split_ifs <;> simp
  rw [h1, one_mul, abs_of_nonneg (Nat.cast_nonneg _), abs_of_pos (by positivity)]

theorem trim_rounded {x : ℚ} (hx : IsFloat x) (b : ℕ) : RoundedToZero b x (trimMantissa x b) := by
  by_cases h0 : x = 0
  · subst h0
    rw [trim_zero]
    exact ⟨⟨0, 0, by positivity, by simp⟩, by simp, le_rfl, fun z _ hz => hz⟩
  obtain ⟨M, hM1, hM2, hxM, hfl⟩ := exists_mantissa h0 hx
  have habs := trim_abs hM2 hfl b
  set L := Int.log 2 |x| - 52 with hL
  set k := 53 - b with hk
  have hle : M / 2 ^ k * 2 ^ k ≤ M := Nat.div_mul_le_self _ _
  refine ⟨?_, ?_, ?_, ?_⟩
  · refine ⟨M / 2 ^ k, L + k, ?_, ?_⟩
    · rw [Nat.div_lt_iff_lt_mul (by positivity), ← pow_add]
      exact hM2.trans_le (Nat.pow_le_pow_right (by norm_num) (by omega))
    · rw [habs]
      push_cast
      rw [zpow_add₀ (by norm_num), zpow_natCast]
      ring
  · rw [trim_eq hM2 hfl]
    split_ifs with h
    · have : (0 : ℚ) ≤ (-x) * (((M / 2 ^ k * 2 ^ k : ℕ) : ℚ) * 2 ^ L) := by
        apply mul_nonneg (by linarith) (by positivity)
      linarith
    · have : (0 : ℚ) ≤ x * (((M / 2 ^ k * 2 ^ k : ℕ) : ℚ) * 2 ^ L) :=
        mul_nonneg (by linarith) (by positivity)
      linarith
  · rw [habs, hxM]
    apply mul_le_mul_of_nonneg_right _ (by positivity)
    exact_mod_cast hle
  · rintro z ⟨m, f, hm, hz⟩ hzx
    rw [habs]
    rcases Nat.eq_zero_or_pos b with hb | hb
    · subst hb
      have : m = 0 := by simpa using hm
      subst this
      rw [hz]
      simp only [Nat.cast_zero, zero_mul]
      positivity
    rw [hz] at hzx ⊢
    push_cast
    rcases le_or_gt (L + k) f with h | h
    · obtain ⟨j, hj⟩ := Int.eq_ofNat_of_zero_le (show 0 ≤ f - (L + k) by omega)
      have hf : (2 : ℚ) ^ f = 2 ^ j * (2 ^ k * 2 ^ L) := by
        rw [← zpow_natCast (2 : ℚ) j, ← zpow_natCast (2 : ℚ) k, ← zpow_add₀ (by norm_num),
          ← zpow_add₀ (by norm_num)]
        congr 1
        omega
      have h1 : m * 2 ^ j * 2 ^ k ≤ M := by
        have : ((m * 2 ^ j * 2 ^ k : ℕ) : ℚ) * 2 ^ L ≤ M * 2 ^ L := by
          rw [← hxM]
          push_cast
          calc (m : ℚ) * 2 ^ j * 2 ^ k * 2 ^ L = m * 2 ^ f := by rw [hf]; ring
            _ ≤ |x| := hzx
        exact_mod_cast le_of_mul_le_mul_right this (by positivity)
      have h2 : m * 2 ^ j ≤ M / 2 ^ k := (Nat.le_div_iff_mul_le (by positivity)).2 h1
      have h3 : (m : ℚ) * 2 ^ j ≤ ((M / 2 ^ k : ℕ) : ℚ) := by exact_mod_cast h2
      rw [hf]
      calc (m : ℚ) * (2 ^ j * (2 ^ k * 2 ^ L)) = m * 2 ^ j * (2 ^ k * 2 ^ L) := by ring
        _ ≤ ((M / 2 ^ k : ℕ) : ℚ) * (2 ^ k * 2 ^ L) :=
            mul_le_mul_of_nonneg_right h3 (by positivity)
        _ = _ := by ring
    · by_cases hb53 : 53 < b
      · have hk0 : k = 0 := by omega
        rw [hk0]
        simp only [pow_zero, Nat.div_one, mul_one]
        rw [← hxM]; exact hzx
      have h1 : 2 ^ (b - 1) ≤ M / 2 ^ k := by
        rw [Nat.le_div_iff_mul_le (by positivity), ← pow_add]
        exact (Nat.pow_le_pow_right (by norm_num) (by omega)).trans hM1
      have h2 : (2 : ℚ) ^ (b - 1) ≤ ((M / 2 ^ k : ℕ) : ℚ) := by exact_mod_cast h1
      calc (m : ℚ) * 2 ^ f ≤ 2 ^ b * 2 ^ f := by
            apply mul_le_mul_of_nonneg_right _ (by positivity)
            exact_mod_cast hm.le
        _ = 2 ^ ((b : ℤ) + f) := by rw [zpow_add₀ (by norm_num), zpow_natCast]
        _ ≤ 2 ^ (((b - 1 : ℕ) : ℤ) + (k : ℤ) + L) := by
            apply zpow_le_zpow_right₀ (by norm_num)
            omega
        _ = 2 ^ (b - 1) * (2 ^ k * 2 ^ L) := by
            rw [zpow_add₀ (by norm_num), zpow_add₀ (by norm_num), zpow_natCast, zpow_natCast]
            ring
        _ ≤ ((M / 2 ^ k : ℕ) : ℚ) * (2 ^ k * 2 ^ L) :=
            mul_le_mul_of_nonneg_right h2 (by positivity)
        _ = _ := by ring

theorem trim_error {x : ℚ} (hx : IsFloat x) (h0 : x ≠ 0) {b : ℕ} (hb : 1 ≤ b) :
    |x| - |trimMantissa x b| < |x| * 2 / 2 ^ b := by
  obtain ⟨M, hM1, hM2, hxM, hfl⟩ := exists_mantissa h0 hx
  rw [trim_abs hM2 hfl b]
  set L := Int.log 2 |x| - 52 with hL
  set k := 53 - b with hk
  have h1 : M < M / 2 ^ k * 2 ^ k + 2 ^ k := by
    have := Nat.lt_div_mul_add (a := M) (b := 2 ^ k) (by positivity)
    exact this
  have h2 : (M : ℚ) - ((M / 2 ^ k * 2 ^ k : ℕ) : ℚ) < 2 ^ k := by
    have : (M : ℚ) < ((M / 2 ^ k * 2 ^ k + 2 ^ k : ℕ) : ℚ) := by exact_mod_cast h1
    push_cast at this ⊢
    linarith
  have hL0 : (0 : ℚ) < 2 ^ L := by positivity
  have hM0 : (2 : ℚ) ^ 52 ≤ M := by exact_mod_cast hM1
  rw [hxM]
  by_cases hb53 : 53 < b
  · have hk0 : k = 0 := by omega
    rw [hk0]
    simp only [pow_zero, Nat.div_one, mul_one, sub_self]
    positivity
  have h3 : (2 : ℚ) ^ k * 2 ^ b = 2 ^ 53 := by rw [← pow_add]; congr 1; omega
  rw [lt_div_iff₀ (by positivity)]
  calc ((M : ℚ) * 2 ^ L - ((M / 2 ^ k * 2 ^ k : ℕ) : ℚ) * 2 ^ L) * 2 ^ b
      = ((M : ℚ) - ((M / 2 ^ k * 2 ^ k : ℕ) : ℚ)) * (2 ^ L * 2 ^ b) := by ring
    _ < 2 ^ k * (2 ^ L * 2 ^ b) := mul_lt_mul_of_pos_right h2 (by positivity)
    _ = (2 ^ k * 2 ^ b) * 2 ^ L := by ring
    _ = 2 ^ 52 * 2 * 2 ^ L := by rw [h3]; norm_num
    _ ≤ M * 2 * 2 ^ L := by
        apply mul_le_mul_of_nonneg_right _ hL0.le
        linarith
    _ = (M : ℚ) * 2 ^ L * 2 := by ring

end Evogil.Trim
