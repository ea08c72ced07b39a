import Verif.Props.RoundedMetrics
import Verif.Lemmas.Interpolation

/-! # Sums and means of floats -/

set_option linter.unusedSectionVars false

namespace Evogil.Rounded

open Spec Binary64

variable {K : Type*} [Field K] [LinearOrder K] [IsStrictOrderedRing K] [FloorRing K]

theorem half_zpow (e : ℕ) : ((1 : K) / 2) ^ e = 2 ^ (-(e : ℤ)) := by
  rw [zpow_neg, one_div, inv_pow, zpow_natCast]

theorem grid_of_zpow {e : ℕ} {k : ℤ} (h : -(e : ℤ) ≤ k) (n : ℤ) : OnGrid e ((n : K) * 2 ^ k) := by
  obtain ⟨j, rfl⟩ : ∃ j : ℕ, k = (j : ℤ) + -(e : ℤ) := ⟨(k + e).toNat, by omega⟩
  refine ⟨n * 2 ^ j, ?_⟩
  rw [half_zpow, zpow_add₀ (by norm_num), zpow_natCast]
  push_cast
  ring

theorem grid_add {e : ℕ} {x y : K} (h : OnGrid e x) (h' : OnGrid e y) : OnGrid e (x + y) := by
  obtain ⟨n, rfl⟩ := h
  obtain ⟨m, rfl⟩ := h'
  exact ⟨n + m, by push_cast; ring⟩

/-- Rounding does not leave the grid. -/
theorem grid_round {e : ℕ} {x : K} (h : OnGrid e x) : OnGrid e (round64 x) := by
  have pos : ∀ x : K, OnGrid e x → OnGrid e (roundPos x) := by
    rintro x ⟨n, hn⟩
    rcases le_or_gt (-(e : ℤ)) (lastDigit x) with h | h
    · exact grid_of_zpow h _
    · have hp := two_zpow_pos (K := K) (lastDigit x)
      have : roundPos x = x := by
        obtain ⟨j, hj⟩ : ∃ j : ℕ, -(e : ℤ) = (j : ℤ) + lastDigit x := ⟨(-(e : ℤ) - lastDigit x).toNat, by omega⟩
        have hx : x / (2 : K) ^ lastDigit x = ((n * 2 ^ j : ℤ) : K) := by
          rw [div_eq_iff hp.ne']
          conv_lhs => rw [hn, half_zpow, hj, zpow_add₀ (by norm_num), zpow_natCast]
          push_cast
          ring
        unfold roundPos
        rw [hx, roundEven_int, ← hx, div_mul_cancel₀ _ hp.ne']
      rw [this]
      exact ⟨n, hn⟩
  unfold round64
  split_ifs
  · exact (pos _ h.neg).neg
  · exact pos _ h

theorem grid_of_round {x : K} (h : round64 x = x) : OnGrid 1074 x := by
  obtain ⟨m, e, -, he, hx⟩ : IsFloat x := h ▸ isFloat_round64 x
  rw [hx]
  exact grid_of_zpow (by omega) m

/-- A float that is 0 or not smaller than `2⁻ᵉ`. -/
theorem grid_of_big {e : ℕ} {x : K} (h : round64 x = x) (hb : x = 0 ∨ (1 / 2) ^ e ≤ |x|) : OnGrid (e + 52) x := by
  rcases hb with rfl | hb
  · exact ⟨0, by simp⟩
  obtain ⟨m, k, hm, -, hx⟩ : IsFloat x := h ▸ isFloat_round64 x
  rw [hx]
  refine grid_of_zpow ?_ m
  by_contra hlt
  have h1 : (2 : K) ^ k ≤ 2 ^ (-(e : ℤ) - 53) := zpow_le_zpow_right₀ (by norm_num) (by push_cast at hlt; omega)
  have h3 : |(m : K)| < 2 ^ (53 : ℤ) := by
    have : ((|m| : ℤ) : K) < ((2 ^ 53 : ℤ) : K) := Int.cast_lt.2 hm
    rw [Int.cast_abs] at this
    push_cast at this
    norm_num
    exact this
  rw [hx, abs_mul, abs_of_pos (two_zpow_pos (K := K) k), half_zpow] at hb
  have h4 : |(m : K)| * 2 ^ k ≤ |(m : K)| * 2 ^ (-(e : ℤ) - 53) := mul_le_mul_of_nonneg_left h1 (abs_nonneg _)
  have h5 : |(m : K)| * 2 ^ (-(e : ℤ) - 53) < 2 ^ (53 : ℤ) * 2 ^ (-(e : ℤ) - 53) :=
    mul_lt_mul_of_pos_right h3 (two_zpow_pos _)
  rw [← zpow_add₀ (by norm_num), show (53 : ℤ) + (-(e : ℤ) - 53) = -(e : ℤ) by ring] at h5
  exact absurd hb (not_le.2 (h4.trans_lt h5))

theorem big_abs {e : ℕ} {x : K} (h : OnGrid e x) : Big e |x| := by
  rcases abs_choice x with h' | h'
  · rw [h']; exact h.big (h' ▸ abs_nonneg _)
  · rw [h']; exact h.neg.big (h' ▸ abs_nonneg _)

/-- The sum of two floats has a relative error only; there is no underflow. -/
theorem add_error {s w : K} (hs : round64 s = s) (hw : round64 w = w) :
    |round64 (s + w) - (s + w)| ≤ 1 / 2 ^ 53 * |s + w| := by
  rcases le_or_gt ((1 / 2 : K) ^ 1022) |s + w| with h | h
  · exact round64_accurate.error _ h
  · obtain ⟨n, hn⟩ := grid_add (grid_of_round hs) (grid_of_round hw)
    have : round64 (s + w) = s + w := by
      refine round64_float ⟨n, -1074, ?_, le_rfl, ?_⟩
      · rw [hn, abs_mul, abs_of_pos (half_pos' (K := K) 1074), show (1074 : ℕ) = 52 + 1022 from rfl, pow_add, ← mul_assoc] at h
        have h2 := lt_of_mul_lt_mul_right (h.trans_eq (one_mul _).symm) (half_pos' 1022).le
        rw [one_div, inv_pow, ← div_eq_mul_inv, div_lt_one (by positivity)] at h2
        have h3 : ((|n| : ℤ) : K) < ((2 ^ 52 : ℤ) : K) := by rw [Int.cast_abs]; norm_num at h2 ⊢; exact h2
        have h4 : |n| < 2 ^ 52 := Int.cast_lt.1 h3
        omega
      · rw [hn, half_zpow]
        norm_num
    rw [this, sub_self, abs_zero]
    positivity

theorem sum_abs_nonneg (l : List K) : 0 ≤ (l.map fun w => |w|).sum := List.sum_nonneg fun x hx => by
  obtain ⟨y, -, rfl⟩ := List.mem_map.1 hx
  exact abs_nonneg y

/-- The error of a sum, one rounded addition after the other. -/
theorem foldl_error : ∀ (ws : List K) (s : K), round64 s = s → (∀ w ∈ ws, round64 w = w) →
    |ws.foldl (fun s w => round64 (s + w)) s - (s + ws.sum)| ≤
      ((1 + 1 / 2 ^ 53) ^ ws.length - 1) * (|s| + (ws.map fun w => |w|).sum)
  | [], s, _, _ => by simp
  | w :: ws, s, hs, hw => by
    have h1 := add_error hs (hw w (List.mem_cons_self))
    have h2 := foldl_error ws (round64 (s + w)) (round64_round64 _) fun v hv => hw v (List.mem_cons_of_mem _ hv)
    rw [List.foldl_cons, List.sum_cons, List.map_cons, List.sum_cons, List.length_cons]
    have h3 : |s + w| ≤ |s| + |w| := abs_add_le _ _
    have hS := sum_abs_nonneg ws
    generalize (ws.map fun w => |w|).sum = S at *
    have hP : (1 : K) ≤ (1 + 1 / 2 ^ 53) ^ ws.length := one_le_pow₀ (by norm_num)
    rw [pow_succ]
    generalize ((1 : K) + 1 / 2 ^ 53) ^ ws.length = P at *
    have hu : (0 : K) ≤ 1 / 2 ^ 53 := by positivity
    generalize (1 : K) / 2 ^ 53 = u at *
    have h4 : |round64 (s + w)| ≤ (1 + u) * (|s| + |w|) := by
      have : |round64 (s + w)| ≤ |round64 (s + w) - (s + w)| + |s + w| := by
        have := abs_add_le (round64 (s + w) - (s + w)) (s + w)
        rwa [sub_add_cancel] at this
      nlinarith
    have h5 : |ws.foldl (fun s w => round64 (s + w)) (round64 (s + w)) - (s + (w + ws.sum))| ≤
        |ws.foldl (fun s w => round64 (s + w)) (round64 (s + w)) - (round64 (s + w) + ws.sum)| +
          |round64 (s + w) - (s + w)| := by
      refine (le_of_eq ?_).trans (abs_add_le _ _)
      congr 1
      ring
    have h6 : (P - 1) * (|round64 (s + w)| + S) ≤ (P - 1) * ((1 + u) * (|s| + |w|) + S) :=
      mul_le_mul_of_nonneg_left (by linarith) (by linarith)
    have h7 : u * |s + w| ≤ u * (|s| + |w|) := mul_le_mul_of_nonneg_left h3 hu
    have h8 : 0 ≤ u * (P * S) := mul_nonneg hu (mul_nonneg (by linarith) hS)
    nlinarith

theorem foldl_grid {e : ℕ} : ∀ (ws : List K) (s : K), OnGrid e s → (∀ w ∈ ws, OnGrid e w) →
    OnGrid e (ws.foldl (fun s w => round64 (s + w)) s)
  | [], _, hs, _ => hs
  | w :: ws, s, hs, hw => by
    rw [List.foldl_cons]
    exact foldl_grid ws _ (grid_round (grid_add hs (hw w List.mem_cons_self)))
      fun v hv => hw v (List.mem_cons_of_mem _ hv)

theorem sumUp_error {ws : List K} (hw : ∀ w ∈ ws, round64 w = w) :
    |sumUp round64 ws - ws.sum| ≤ ((1 + 1 / 2 ^ 53) ^ ws.length - 1) * (ws.map fun w => |w|).sum := by
  have := foldl_error ws 0 (by simp [round64, roundPos_zero]) hw
  rwa [zero_add, abs_zero, zero_add] at this

theorem sumUp_grid {e : ℕ} {ws : List K} (hw : ∀ w ∈ ws, OnGrid e w) : OnGrid e (sumUp round64 ws) :=
  foldl_grid ws 0 ⟨0, by simp⟩ hw

/-- Different floats are not close to each other. -/
theorem float_apart {x y : K} (hx : round64 x = x) (hy : round64 y = y) (hb : x = 0 ∨ (2 : K) ^ (-1000 : ℤ) ≤ |x|)
    (hne : x ≠ y) : |x| ≤ 2 ^ 54 * |x - y| := by
  rcases hb with rfl | hb
  · rw [abs_zero]; positivity
  have key : ∀ x y : K, round64 x = x → round64 y = y → (2 : K) ^ (-1000 : ℤ) ≤ x → x ≠ y → x ≤ 2 ^ 54 * |x - y| := by
    intro x y hx hy hb hne
    obtain ⟨n, e, he, h1, h2, rfl⟩ := float_digits hb hx
    obtain ⟨m, k, hm, -, rfl⟩ : IsFloat y := hy ▸ isFloat_round64 y
    have hp := two_zpow_pos (K := K) e
    have n2 : (n : K) < 2 ^ 53 := by
      have : (n : K) < ((2 ^ 53 : ℤ) : K) := Int.cast_lt.2 h2
      norm_num at this ⊢
      exact this
    have n1 : (2 : K) ^ 52 ≤ n := by
      have : ((2 ^ 52 : ℤ) : K) ≤ n := Int.cast_le.2 h1
      norm_num at this ⊢
      exact this
    rcases le_or_gt (e - 1) k with hk | hk
    · obtain ⟨j, rfl⟩ : ∃ j : ℕ, k = (j : ℤ) + (e - 1) := ⟨(k - (e - 1)).toNat, by omega⟩
      have e1 : (n : K) * 2 ^ e - m * 2 ^ ((j : ℤ) + (e - 1)) = ((2 * n - m * 2 ^ j : ℤ) : K) * (2 ^ e / 2) := by
        rw [zpow_add₀ (by norm_num), zpow_sub₀ (by norm_num), zpow_natCast]
        push_cast
        norm_num
        ring
      have hz : 2 * n - m * 2 ^ j ≠ 0 := by
        intro h0
        rw [h0, Int.cast_zero, zero_mul, sub_eq_zero] at e1
        exact hne e1
      have h3 : (1 : K) ≤ |((2 * n - m * 2 ^ j : ℤ) : K)| := by
        rw [← Int.cast_abs]
        exact_mod_cast Int.one_le_abs hz
      rw [e1, abs_mul, abs_of_pos (by positivity : (0 : K) < 2 ^ e / 2)]
      have h4 := mul_le_mul_of_nonneg_right h3 (by positivity : (0 : K) ≤ 2 ^ e / 2)
      have h5 := mul_le_mul_of_nonneg_right n2.le hp.le
      generalize (2 : K) ^ e = p at *
      nlinarith
    · have h3 : |(m : K)| < 2 ^ 53 := by
        have : ((|m| : ℤ) : K) < ((2 ^ 53 : ℤ) : K) := Int.cast_lt.2 hm
        rw [Int.cast_abs] at this
        norm_num at this ⊢
        exact this
      have h4 : (2 : K) ^ k ≤ 2 ^ e / 4 := by
        have : (2 : K) ^ k ≤ 2 ^ (e - 2) := zpow_le_zpow_right₀ (by norm_num) (by omega)
        rw [zpow_sub₀ (by norm_num)] at this
        norm_num at this
        exact this
      have h5 : |(m : K) * 2 ^ k| ≤ 2 ^ 53 * (2 ^ e / 4) := by
        rw [abs_mul, abs_of_pos (two_zpow_pos (K := K) k)]
        exact mul_le_mul h3.le h4 (two_zpow_pos k).le (by positivity)
      have h6 := mul_le_mul_of_nonneg_right n1 hp.le
      have h7 := mul_le_mul_of_nonneg_right n2.le hp.le
      have h8 : (n : K) * 2 ^ e - m * 2 ^ k ≤ |(n : K) * 2 ^ e - m * 2 ^ k| := le_abs_self _
      have h9 := (abs_le.1 h5).2
      generalize (2 : K) ^ e = p at *
      generalize (m : K) * 2 ^ k = q at *
      generalize (n : K) * p = r at *
      norm_num at *
      linarith
  rcases le_total 0 x with hs | hs
  · rw [abs_of_nonneg hs] at hb ⊢
    exact key x y hx hy hb hne
  · rw [abs_of_nonpos hs] at hb ⊢
    have := key (-x) (-y) (by rw [round64_neg, hx]) (by rw [round64_neg, hy]) hb (fun h => hne (neg_injective h))
    rwa [← neg_sub', abs_neg] at this

end Evogil.Rounded
