import Verif.Lemmas.Binary64
import Mathlib.Data.Rat.Floor
import Mathlib.Algebra.Order.Archimedean.Real.Basic

/-! # Rounding of real numbers that are rational -/

namespace Evogil.Binary64

theorem roundEven_cast (q : ℚ) : roundEven (q : ℝ) = roundEven q := by
  have h1 : ∀ a b : ℚ, ((a : ℝ) < b) = (a < b) := fun a b => propext Rat.cast_lt
  have e1 : ((q : ℝ) - (⌊q⌋ : ℝ) < 1 / 2) = (q - (⌊q⌋ : ℚ) < 1 / 2) := by
    rw [← h1]; push_cast; rfl
  have e2 : (1 / 2 < (q : ℝ) - (⌊q⌋ : ℝ)) = (1 / 2 < q - (⌊q⌋ : ℚ)) := by
    rw [← h1]; push_cast; rfl
  unfold roundEven
  rw [Rat.floor_cast]
  simp only [e1, e2]

theorem log_cast (q : ℚ) : Int.log 2 (q : ℝ) = Int.log 2 q := by
  unfold Int.log
  have h1 : (1 ≤ (q : ℝ)) = (1 ≤ q) := propext (by exact_mod_cast Iff.rfl)
  have h2 : ⌊(q : ℝ)⌋₊ = ⌊q⌋₊ := by rw [← Int.floor_toNat, Rat.floor_cast, Int.floor_toNat]
  have h3 : ⌈((q : ℝ))⁻¹⌉₊ = ⌈q⁻¹⌉₊ := by
    rw [← Int.ceil_toNat, ← Rat.cast_inv, Rat.ceil_cast, Int.ceil_toNat]
  rw [h2, h3]
  simp only [h1]

theorem lastDigit_cast (q : ℚ) : lastDigit (q : ℝ) = lastDigit q := by
  unfold lastDigit; rw [log_cast]

theorem roundPos_cast (q : ℚ) : roundPos (q : ℝ) = ((roundPos q : ℚ) : ℝ) := by
  unfold roundPos
  rw [lastDigit_cast]
  push_cast
  rw [← roundEven_cast]
  push_cast
  rfl

theorem round64_cast (q : ℚ) : round64 (q : ℝ) = ((round64 q : ℚ) : ℝ) := by
  unfold round64
  have h1 : ((q : ℝ) < 0) = (q < 0) := propext (by exact_mod_cast Iff.rfl)
  simp only [h1]
  split_ifs
  · rw [← Rat.cast_neg, roundPos_cast, Rat.cast_neg]
  · exact roundPos_cast q
end Evogil.Binary64
