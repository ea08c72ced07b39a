import Verif.Lemmas.Trim
import Verif.Spec.Box

/-! # C50: truncation of decision vectors -/

namespace Evogil.Trim

open Spec

theorem HasBits.mono {b c : ℕ} {x : ℚ} (h : HasBits b x) (hbc : b ≤ c) : HasBits c x := by
  obtain ⟨m, e, h1, h2⟩ := h
  exact ⟨m, e, h1.trans_le (Nat.pow_le_pow_right (by norm_num) hbc), h2⟩

/-- Two numbers that are not of opposite sign and have the same magnitude are equal. -/
theorem eq_of_abs {x y : ℚ} (h1 : 0 ≤ x * y) (h2 : |x| = |y|) : x = y := by
  rcases abs_eq_abs.1 h2 with h | h
  · exact h
  · rw [h] at h1
    have : y = 0 := by nlinarith [mul_self_nonneg y]
    rw [h, this]; simp

/-- **C50.** Truncating to `b` mantissa digits rounds towards zero: the result has the sign of the
number and the largest magnitude among the numbers with `b` digits that do not exceed it. -/
theorem C50_rounding {x : ℚ} (hx : IsFloat x) (b : ℕ) : RoundedToZero b x (trimMantissa x b) :=
  trim_rounded hx b

/-- **C50.** Rounding towards zero has exactly one result, so `C50_rounding` determines it. -/
theorem C50_unique {x y z : ℚ} {b : ℕ} (hx : x ≠ 0) (h1 : RoundedToZero b x y)
    (h2 : RoundedToZero b x z) : y = z := by
  have h : |y| = |z| :=
    le_antisymm (h2.largest y h1.digits h1.le) (h1.largest z h2.digits h2.le)
  apply eq_of_abs _ h
  have h3 := mul_nonneg h1.sign h2.sign
  have h4 : 0 < x * x := mul_self_pos.2 hx
  by_contra h5
  have h6 : x * x * (y * z) < 0 := mul_neg_of_pos_of_neg h4 (not_le.1 h5)
  nlinarith

/-- **C50.** Numbers that already have at most `b` digits are not changed; in particular nothing
changes with 53 digits or more. -/
theorem C50_exact {x : ℚ} {b : ℕ} (hx : IsFloat x) (hb : HasBits b x) : trimMantissa x b = x := by
  have h := C50_rounding hx b
  apply eq_of_abs
  · rw [mul_comm]; exact h.sign
  · exact le_antisymm h.le (h.largest x hb le_rfl)

/-- **C50.** Truncating is idempotent on vectors. -/
theorem C50_idempotent {v : List ℚ} (hv : ∀ x ∈ v, IsFloat x) (b : ℕ) :
    trimVector (trimVector v b) b = trimVector v b := by
  unfold trimVector
  rw [List.map_map]
  apply List.map_congr_left
  intro x hx
  simp only [Function.comp]
  have h := C50_rounding (hv x hx) b
  rcases le_or_gt b 53 with hb | hb
  · exact C50_exact (HasBits.mono h.digits hb) h.digits
  · have : trimMantissa x b = x := C50_exact (hv x hx) (HasBits.mono (hv x hx) hb.le)
    rw [this, this]

/-- **C50.** The relative error is below `2 / 2 ^ b`. -/
theorem C50_error {x : ℚ} (hx : IsFloat x) (h0 : x ≠ 0) {b : ℕ} (hb : 1 ≤ b) :
    |x - trimMantissa x b| < |x| * 2 / 2 ^ b := by
  have h := C50_rounding hx b
  have h1 := trim_error hx h0 hb
  have h2 : |x - trimMantissa x b| = |x| - |trimMantissa x b| := by
    rcases lt_or_gt_of_ne h0 with hn | hp
    · have : trimMantissa x b ≤ 0 := by
        by_contra hc
        have := mul_neg_of_neg_of_pos hn (not_le.1 hc)
        linarith [h.sign]
      have h3 := h.le
      rw [abs_of_neg hn, abs_of_nonpos this] at h3 ⊢
      rw [abs_of_nonpos (by linarith)]
      ring
    · have : 0 ≤ trimMantissa x b := by
        by_contra hc
        have := mul_neg_of_pos_of_neg hp (not_le.1 hc)
        linarith [h.sign]
      have h3 := h.le
      rw [abs_of_pos hp, abs_of_nonneg this] at h3 ⊢
      rw [abs_of_nonneg (by linarith)]
  rw [h2]
  exact h1

/-- **C79 (partial).** Vectors stay in the box if zero lies in every interval, as for all problems shipped. -/
theorem C79_box_partial {v : List ℚ} {dims : List (ℚ × ℚ)} (hv : ∀ x ∈ v, IsFloat x)
    (hbox : InBox v dims) (hd : ∀ d ∈ dims, d.1 ≤ 0 ∧ 0 ≤ d.2) (b : ℕ) :
    InBox (trimVector v b) dims := by
  unfold trimVector
  induction hbox with
  | nil => exact List.Forall₂.nil
  | @cons x d v dims hxd _ ih =>
    refine List.Forall₂.cons ?_ (ih (fun y hy => hv y (by simp [hy])) fun e he => hd e (by simp [he]))
    have h := C50_rounding (hv x (by simp)) b
    have h0 := hd d (by simp)
    have hle := abs_le.1 h.le
    rcases le_or_gt 0 x with hx | hx
    · rw [abs_of_nonneg hx] at hle
      refine ⟨?_, hle.2.trans hxd.2⟩
      by_contra hc
      have ht : trimMantissa x b < 0 := (not_le.1 hc).trans_le h0.1
      rcases hx.lt_or_eq with hx | hx
      · have := mul_neg_of_pos_of_neg hx ht
        linarith [h.sign]
      · subst hx
        linarith [hle.1]
    · rw [abs_of_neg hx] at hle
      refine ⟨by linarith [hle.1, hxd.1], ?_⟩
      by_contra hc
      have ht : 0 < trimMantissa x b := h0.2.trans_lt (not_le.1 hc)
      have := mul_neg_of_neg_of_pos hx ht
      linarith [h.sign]

/-- **C79.** In general truncation leaves the box: with one digit the lower bound 3/8 of the interval
[3/8, 1] becomes 1/4. -/
theorem C79_box_violated : ∃ (v : List ℚ) (dims : List (ℚ × ℚ)) (b : ℕ),
    (∀ x ∈ v, IsFloat x) ∧ InBox v dims ∧ ¬ InBox (trimVector v b) dims := by
  refine ⟨[3 / 8], [(3 / 8, 1)], 1, ?_, ?_, ?_⟩
  · intro x hx
    rw [List.mem_singleton] at hx
    subst hx
    refine ⟨3, -3, by norm_num, ?_⟩
    rw [abs_of_pos (by norm_num)]
    norm_num
  · exact List.Forall₂.cons ⟨by norm_num, by norm_num⟩ List.Forall₂.nil
  · have h38 : IsFloat (3 / 8) := ⟨3, -3, by norm_num, by
      rw [abs_of_pos (by norm_num)]; norm_num⟩
    intro h
    cases h with
    | cons h _ =>
      have hr := C50_rounding h38 1
      obtain ⟨m, e, hm, he⟩ := hr.digits
      have h1 : trimMantissa (3 / 8) 1 = 3 / 8 := by
        have := (abs_le.1 hr.le).2
        rw [abs_of_pos (by norm_num : (0 : ℚ) < 3 / 8)] at this
        exact le_antisymm this h.1
      rw [h1, abs_of_pos (by norm_num)] at he
      have hm1 : m = 0 ∨ m = 1 := by omega
      rcases hm1 with rfl | rfl
      · norm_num at he
      · rw [Nat.cast_one, one_mul] at he
        have h2 : (2 : ℚ) ^ (-2 : ℤ) < 2 ^ e := by rw [← he]; norm_num
        have h3 : (2 : ℚ) ^ e < 2 ^ (-1 : ℤ) := by rw [← he]; norm_num
        have h4 := (zpow_lt_zpow_iff_right₀ (by norm_num)).1 h2
        have h5 := (zpow_lt_zpow_iff_right₀ (by norm_num)).1 h3
        omega

example : ofBits (keepDigits 2 [1, 0, 1, 1]) = 8 := by decide
example : bits 4 11 = [1, 0, 1, 1] := by decide

/-- A concrete case: 13/8 = 1.101 in binary becomes 3/2 with two digits. -/
example : trimMantissa (13 / 8) 2 = 3 / 2 := by
  have h : IsFloat (13 / 8) := ⟨13, -3, by norm_num, by rw [abs_of_pos (by norm_num)]; norm_num⟩
  apply C50_unique (by norm_num) (C50_rounding h 2)
  refine ⟨⟨3, -1, by norm_num, by rw [abs_of_pos (by norm_num)]; norm_num⟩, by norm_num, ?_, ?_⟩
  · rw [abs_of_pos (by norm_num), abs_of_pos (by norm_num)]; norm_num
  · rintro z ⟨m, e, hm, hz⟩ hle
    rw [abs_of_pos (by norm_num : (0 : ℚ) < 13 / 8)] at hle
    rw [abs_of_pos (by norm_num : (0 : ℚ) < 3 / 2), hz]
    rw [hz] at hle
    have hm' : (m : ℚ) ≤ 3 := by exact_mod_cast (by omega : m ≤ 3)
    rcases le_or_gt e (-1) with he | he
    · calc (m : ℚ) * 2 ^ e ≤ 3 * 2 ^ (-1 : ℤ) := by
            apply mul_le_mul hm' (zpow_le_zpow_right₀ (by norm_num) he) (by positivity) (by norm_num)
        _ = 3 / 2 := by norm_num
    · have h2 : (1 : ℚ) ≤ 2 ^ e := by
        have := zpow_le_zpow_right₀ (a := (2 : ℚ)) (by norm_num) (show (0 : ℤ) ≤ e by omega)
        simpa using this
      have h3 : (m : ℚ) < 2 := by nlinarith
      have h4 : m < 2 := by exact_mod_cast h3
      rcases (by omega : m = 0 ∨ m = 1) with rfl | rfl
      · norm_num
      · rw [Nat.cast_one, one_mul] at hle ⊢
        have h5 : (2 : ℚ) ^ e < 2 ^ (1 : ℤ) := by
          have : (2 : ℚ) ^ (1 : ℤ) = 2 := by norm_num
          rw [this]; linarith
        have h6 := (zpow_lt_zpow_iff_right₀ (by norm_num)).1 h5
        have : e = 0 := by omega
        rw [this]; norm_num

end Evogil.Trim
