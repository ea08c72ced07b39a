import Verif.Lemmas.FloatErrorDef
import Verif.Lemmas.MathLib
import Mathlib.Analysis.MeanInequalitiesPow

/-!
# The analysis of rounding errors is correct
-/

set_option linter.unusedSectionVars false
set_option exponentiation.threshold 1100

namespace Evogil.FloatExpr

open Spec Binary64 Rounded

/-- `b` is within the error `p` of `a`. -/
structure Ok (p : ℚ × ℚ) (a b : ℝ) : Prop where
  rel : 0 ≤ p.1
  abs : 0 ≤ p.2
  near : |b - a| ≤ (p.1 : ℝ) * |a| + (p.2 : ℝ)

theorem Ok.rel' {p : ℚ × ℚ} {a b : ℝ} (h : Ok p a b) : (0 : ℝ) ≤ (p.1 : ℝ) := by exact_mod_cast h.rel

theorem Ok.abs' {p : ℚ × ℚ} {a b : ℝ} (h : Ok p a b) : (0 : ℝ) ≤ (p.2 : ℝ) := by exact_mod_cast h.abs

theorem ok_refl (a : ℝ) : Ok (0, 0) a a := ⟨le_rfl, le_rfl, by simp⟩

theorem Ok.mono {p : ℚ × ℚ} {a b : ℝ} (h : Ok p a b) {r t : ℚ} (hr : p.1 ≤ r) (ht : p.2 ≤ t) : Ok (r, t) a b := by
  refine ⟨h.rel.trans hr, h.abs.trans ht, h.near.trans ?_⟩
  have h1 : (p.1 : ℝ) ≤ r := by exact_mod_cast hr
  have h2 : (p.2 : ℝ) ≤ t := by exact_mod_cast ht
  exact add_le_add (mul_le_mul_of_nonneg_right h1 (abs_nonneg a)) h2

theorem tiny_pos : 0 < tiny := by
  unfold tiny
  have : (0 : ℚ) < ((2 ^ 1000 : ℕ) : ℚ) := Nat.cast_pos.2 (Nat.pow_pos (by norm_num))
  exact one_div_pos.2 this

theorem tiny_cast : ((tiny : ℚ) : ℝ) = 1 / 2 ^ 1000 := by
  unfold tiny
  rw [Rat.cast_div, Rat.cast_one, Rat.cast_natCast, Nat.cast_pow]
  rfl

theorem unit_cast : ((unit : ℚ) : ℝ) = 1 / 2 ^ 53 := by norm_num [unit]

theorem unit'_cast : ((unit' : ℚ) : ℝ) = 1 / 2 ^ 50 := by norm_num [unit']

theorem unit_nonneg' : 0 ≤ unit := by norm_num [unit]

theorem unit'_nonneg : 0 ≤ unit' := by norm_num [unit']

theorem ok_rnd {p : ℚ × ℚ} {a y z : ℝ} {u : ℚ} (h : Ok p a y) (hu : 0 ≤ u) (hz : |z - y| ≤ (u : ℝ) * |y| + 1 / 2 ^ 1000) :
    Ok (rndE u p) a z := by
  have hu' : (0 : ℝ) ≤ (u : ℝ) := by exact_mod_cast hu
  refine ⟨?_, ?_, ?_⟩
  · have := h.rel
    simp only [rndE]; positivity
  · have := h.abs
    have := tiny_pos
    simp only [rndE]; positivity
  · simp only [rndE]
    push_cast
    rw [tiny_cast]
    have h1 : |y| ≤ |a| + |y - a| := by
      have := abs_add_le a (y - a)
      rwa [add_sub_cancel] at this
    have h2 : |z - a| ≤ |z - y| + |y - a| := abs_sub_le z y a
    have h3 : (u : ℝ) * |y| ≤ u * (|a| + (p.1 * |a| + p.2)) := mul_le_mul_of_nonneg_left (by linarith [h.near]) hu'
    have h4 := h.near
    nlinarith

theorem ok_abs {p : ℚ × ℚ} {a b : ℝ} {A : ℤ} (h : Ok p a b) (hA : |a| ≤ A) :
    0 ≤ absE A p ∧ |b - a| ≤ ((absE A p : ℚ) : ℝ) := by
  have hA0 : (0 : ℝ) ≤ A := (abs_nonneg a).trans hA
  have hA0' : (0 : ℚ) ≤ A := by exact_mod_cast hA0
  refine ⟨?_, ?_⟩
  · have := h.rel
    have := h.abs
    unfold absE; positivity
  · unfold absE
    push_cast
    have := mul_le_mul_of_nonneg_left hA h.rel'
    linarith [h.near]

theorem ok_of_abs {τ : ℚ} {a b : ℝ} (h0 : 0 ≤ τ) (h : |b - a| ≤ (τ : ℝ)) : Ok (0, τ) a b :=
  ⟨le_rfl, h0, by simpa using h⟩

theorem ok_add_pos {p s : ℚ × ℚ} {a a' b b' : ℝ} (h : Ok p a a') (k : Ok s b b') (ha : 0 ≤ a) (hb : 0 ≤ b) :
    Ok (max p.1 s.1, p.2 + s.2) (a + b) (a' + b') := by
  refine ⟨h.rel.trans (le_max_left _ _), add_nonneg h.abs k.abs, ?_⟩
  have e : a' + b' - (a + b) = (a' - a) + (b' - b) := by ring
  rw [e]
  refine (abs_add_le _ _).trans ?_
  have h1 := h.near
  have k1 := k.near
  rw [abs_of_nonneg ha] at h1
  rw [abs_of_nonneg hb] at k1
  rw [abs_of_nonneg (by linarith : 0 ≤ a + b)]
  push_cast
  have m1 := mul_le_mul_of_nonneg_right (le_max_left (p.1 : ℝ) (s.1 : ℝ)) ha
  have m2 := mul_le_mul_of_nonneg_right (le_max_right (p.1 : ℝ) (s.1 : ℝ)) hb
  rw [mul_add]
  linarith

theorem ok_mul {p s : ℚ × ℚ} {a a' b b' : ℝ} {A B : ℤ} (h : Ok p a a') (k : Ok s b b') (hA : |a| ≤ A) (hB : |b| ≤ B) :
    Ok (mulE A B p s) (a * b) (a' * b') := by
  have hA0 : (0 : ℚ) ≤ A := by exact_mod_cast (abs_nonneg a).trans hA
  have hB0 : (0 : ℚ) ≤ B := by exact_mod_cast (abs_nonneg b).trans hB
  have := h.rel
  have := h.abs
  have := k.rel
  have := k.abs
  refine ⟨by simp only [mulE]; positivity, by simp only [mulE]; positivity, ?_⟩
  simp only [mulE]
  push_cast
  have e : a' * b' - a * b = (a' - a) * b' + a * (b' - b) := by ring
  have h1 : |b'| ≤ |b| + |b' - b| := by
    have := abs_add_le b (b' - b)
    rwa [add_sub_cancel] at this
  rw [e]
  refine (abs_add_le _ _).trans ?_
  rw [abs_mul, abs_mul, abs_mul]
  have n1 := h.near
  have n2 := k.near
  have p1 := h.rel'
  have p2 := h.abs'
  have s1 := k.rel'
  have s2 := k.abs'
  generalize (p.1 : ℝ) = r1 at *
  generalize (p.2 : ℝ) = t1 at *
  generalize (s.1 : ℝ) = r2 at *
  generalize (s.2 : ℝ) = t2 at *
  have a0 := abs_nonneg a
  have b0 := abs_nonneg b
  have q1 : |a' - a| * |b'| ≤ (r1 * |a| + t1) * (|b| + (r2 * |b| + t2)) :=
    mul_le_mul n1 (by linarith) (abs_nonneg _) (by positivity)
  have q2 : |a| * |b' - b| ≤ |a| * (r2 * |b| + t2) := mul_le_mul_of_nonneg_left n2 a0
  have q3 : |a| * (t2 * (1 + r1)) ≤ A * (t2 * (1 + r1)) := mul_le_mul_of_nonneg_right hA (by positivity)
  have q4 : |b| * (t1 * (1 + r2)) ≤ B * (t1 * (1 + r2)) := mul_le_mul_of_nonneg_right hB (by positivity)
  have e2 : (r1 * |a| + t1) * (|b| + (r2 * |b| + t2)) + |a| * (r2 * |b| + t2) =
      (r1 * (1 + r2) + r2) * (|a| * |b|) + (|a| * (t2 * (1 + r1)) + |b| * (t1 * (1 + r2)) + t1 * t2) := by ring
  linarith

theorem ok_div {p s : ℚ × ℚ} {a a' b b' : ℝ} (h : Ok p a a') (k : Ok s b b') (hb : 1 ≤ b) (hb' : 1 ≤ b')
    (hr : s.1 + s.2 ≤ 1 / 2) : Ok (divE p s) (a / b) (a' / b') := by
  have := h.rel
  have := h.abs
  have := k.rel
  have := k.abs
  refine ⟨by simp only [divE]; positivity, h.abs, ?_⟩
  have hr' : (s.1 : ℝ) + (s.2 : ℝ) ≤ 1 / 2 := by
    have := (Rat.cast_le (K := ℝ)).2 hr
    push_cast at this
    exact this
  simp only [divE]
  push_cast
  have n1 := h.near
  have n2 := k.near
  have p1 := h.rel'
  have p2 := h.abs'
  have s1 := k.rel'
  have s2 := k.abs'
  generalize (p.1 : ℝ) = r1 at *
  generalize (p.2 : ℝ) = t1 at *
  generalize (s.1 : ℝ) = r2 at *
  generalize (s.2 : ℝ) = t2 at *
  have b0 : 0 < b := by linarith
  have b0' : 0 < b' := by linarith
  rw [abs_of_pos b0] at n2
  obtain ⟨r, hrd⟩ : ∃ r, r = r2 + t2 := ⟨_, rfl⟩
  rw [← hrd] at hr' ⊢
  have r0 : 0 ≤ r := by rw [hrd]; linarith
  have n3 : |b' - b| ≤ r * b := by
    have : t2 * 1 ≤ t2 * b := mul_le_mul_of_nonneg_left hb s2
    rw [hrd]; linarith
  have c1 : b * (1 - r) ≤ b' := by have := (abs_le.1 n3).1; linarith
  have c2 : b / b' ≤ 1 + 2 * r := by
    rw [div_le_iff₀ b0']
    have : (1 + 2 * r) * (b * (1 - r)) ≤ (1 + 2 * r) * b' := mul_le_mul_of_nonneg_left c1 (by linarith)
    have : b * 1 ≤ b * ((1 + 2 * r) * (1 - r)) := mul_le_mul_of_nonneg_left (by nlinarith) b0.le
    nlinarith
  have e : a' / b' - a / b = (a' - a) / b' + a / b * ((b - b') / b) * (b / b') := by
    field_simp
    ring
  rw [e]
  refine (abs_add_le _ _).trans ?_
  have ab : |a| / b = |a / b| := by rw [abs_div, abs_of_pos b0]
  have f1 : |(a' - a) / b'| ≤ r1 * |a / b| * (1 + 2 * r) + t1 := by
    rw [abs_div, abs_of_pos b0', div_le_iff₀ b0']
    have g1 : |a| ≤ |a / b| * (1 + 2 * r) * b' := by
      have : |a / b| * (b / b') ≤ |a / b| * (1 + 2 * r) := mul_le_mul_of_nonneg_left c2 (abs_nonneg _)
      have e3 : |a| = |a / b| * (b / b') * b' := by
        rw [← ab]; field_simp
      rw [e3]
      exact mul_le_mul_of_nonneg_right this b0'.le
    have g2 : r1 * |a| ≤ r1 * (|a / b| * (1 + 2 * r) * b') := mul_le_mul_of_nonneg_left g1 p1
    have g3 : t1 * 1 ≤ t1 * b' := mul_le_mul_of_nonneg_left hb' p2
    nlinarith
  have f2 : |a / b * ((b - b') / b) * (b / b')| ≤ |a / b| * r * (1 + 2 * r) := by
    rw [abs_mul, abs_mul]
    have g1 : |(b - b') / b| ≤ r := by
      rw [abs_div, abs_of_pos b0, div_le_iff₀ b0, abs_sub_comm]; exact n3
    have g2 : |b / b'| ≤ 1 + 2 * r := by rw [abs_of_pos (div_pos b0 b0')]; exact c2
    exact mul_le_mul (mul_le_mul_of_nonneg_left g1 (abs_nonneg _)) g2 (abs_nonneg _) (by positivity)
  nlinarith

theorem ok_neg {p : ℚ × ℚ} {a b : ℝ} (h : Ok p a b) : Ok p (-a) (-b) :=
  ⟨h.rel, h.abs, by
    rw [abs_neg, show -b - -a = -(b - a) by ring, abs_neg]
    exact h.near⟩

theorem ok_absval {p : ℚ × ℚ} {a b : ℝ} (h : Ok p a b) : Ok p |a| |b| :=
  ⟨h.rel, h.abs, by
    rw [abs_abs]
    exact (abs_abs_sub_abs_le b a).trans h.near⟩

theorem ok_sqrt {p : ℚ × ℚ} {a b : ℝ} {t : ℚ} (h : Ok p a b) (ha : 0 ≤ a) (hb : 0 ≤ b) (h1 : p.1 ≤ 1) (ht : 0 ≤ t)
    (h2 : p.2 ≤ t ^ 2) : Ok (p.1, t) (Real.sqrt a) (Real.sqrt b) := by
  refine ⟨h.rel, ht, ?_⟩
  have n1 := h.near
  have p1 := h.rel'
  have p2 := h.abs'
  have h1' : (p.1 : ℝ) ≤ 1 := by exact_mod_cast h1
  have h2' : (p.2 : ℝ) ≤ (t : ℝ) ^ 2 := by exact_mod_cast h2
  have ht' : (0 : ℝ) ≤ t := by exact_mod_cast ht
  simp only
  generalize (p.1 : ℝ) = r1 at *
  generalize (p.2 : ℝ) = t1 at *
  generalize (t : ℝ) = t at *
  have sa := Real.sqrt_nonneg a
  have sb := Real.sqrt_nonneg b
  have qa := Real.sq_sqrt ha
  have qb := Real.sq_sqrt hb
  rw [abs_of_nonneg sa]
  rw [abs_of_nonneg ha] at n1
  have n := abs_le.1 n1
  generalize Real.sqrt a = x at *
  generalize Real.sqrt b = y at *
  refine abs_le.2 ⟨?_, ?_⟩
  · have : (1 - r1) * x ≤ y + t := by
      refine abs_le_of_sq_le_sq' ?_ (by linarith) |>.2
      have e1 : ((1 - r1) * x) ^ 2 ≤ (1 - r1) * x ^ 2 := by
        have : (1 - r1) * ((1 - r1) * x ^ 2) ≤ 1 * ((1 - r1) * x ^ 2) :=
          mul_le_mul_of_nonneg_right (by linarith) (mul_nonneg (by linarith) (sq_nonneg x))
        nlinarith
      have e2 : 0 ≤ y * t := mul_nonneg sb ht'
      nlinarith
    linarith
  · have : y ≤ (1 + r1) * x + t := by
      refine abs_le_of_sq_le_sq' ?_ (by positivity) |>.2
      have e1 : (1 + r1) * x ^ 2 ≤ ((1 + r1) * x) ^ 2 := by
        have : 1 * ((1 + r1) * x ^ 2) ≤ (1 + r1) * ((1 + r1) * x ^ 2) :=
          mul_le_mul_of_nonneg_right (by linarith) (mul_nonneg (by linarith) (sq_nonneg x))
        nlinarith
      have e2 : 0 ≤ ((1 + r1) * x) * t := by positivity
      nlinarith
    linarith

theorem exp_sub_le (a b : ℝ) : Real.exp b - Real.exp a ≤ Real.exp b * (b - a) := by
  have h1 := Real.add_one_le_exp (a - b)
  have h2 : Real.exp a = Real.exp b * Real.exp (a - b) := by rw [← Real.exp_add]; congr 1; ring
  have h3 := mul_le_mul_of_nonneg_left h1 (Real.exp_pos b).le
  rw [h2]
  nlinarith

theorem exp_lipschitz {a b : ℝ} {n : ℕ} (ha : a ≤ n) (hb : b ≤ n) : |Real.exp b - Real.exp a| ≤ 3 ^ n * |b - a| := by
  rcases le_total a b with h | h
  · rw [abs_of_nonneg (sub_nonneg.2 (Real.exp_le_exp.2 h)), abs_of_nonneg (sub_nonneg.2 h)]
    exact (exp_sub_le _ _).trans (mul_le_mul_of_nonneg_right (exp_le_three_pow hb) (sub_nonneg.2 h))
  · rw [abs_sub_comm, abs_of_nonneg (sub_nonneg.2 (Real.exp_le_exp.2 h)), abs_sub_comm b a, abs_of_nonneg (sub_nonneg.2 h)]
    exact (exp_sub_le _ _).trans (mul_le_mul_of_nonneg_right (exp_le_three_pow ha) (sub_nonneg.2 h))

theorem ok_ipow {p : ℚ × ℚ} {a b : ℝ} {A : ℤ} (h : Ok p a b) (hA : |a| ≤ A) : ∀ n, Ok (ipowE A p n) (a ^ n) (b ^ n)
  | 0 => by simpa [ipowE] using ok_refl 1
  | n + 1 => by
    rw [pow_succ, pow_succ, ipowE]
    refine ok_mul (ok_ipow h hA n) h ?_ hA
    rw [abs_pow]
    push_cast
    exact pow_le_pow_left₀ (abs_nonneg a) hA n

/-- The powers of a number with two exponents. -/
theorem rpow_exponent {a q q' : ℝ} {H : ℝ} (ha : 0 ≤ a) (haH : a ≤ H) (hH : 1 ≤ H) (hq : 0 < q) (hqq : q ≤ q')
    (h : q' ≤ 1 ∨ H = 1) : |a ^ q' - a ^ q| ≤ (1 / q + H ^ 2) * (q' - q) := by
  have hd : 0 ≤ q' - q := by linarith
  have hC : 0 ≤ 1 / q := by positivity
  rcases ha.eq_or_lt with rfl | ha
  · rw [Real.zero_rpow (by linarith), Real.zero_rpow hq.ne', sub_zero, abs_zero]
    positivity
  have eq' : a ^ q' = a ^ q * a ^ (q' - q) := by rw [← Real.rpow_add ha]; congr 1; ring
  have hl : a ^ (q' - q) = Real.exp ((q' - q) * Real.log a) := by
    rw [Real.rpow_def_of_pos ha, mul_comm]
  rcases le_total a 1 with h1 | h1
  · have hlog : 0 ≤ -Real.log a := by have := Real.log_nonpos ha.le h1; linarith
    have k1 : 1 - a ^ (q' - q) ≤ (q' - q) * -Real.log a := by
      rw [hl]; have := Real.add_one_le_exp ((q' - q) * Real.log a); linarith
    have k2 : a ^ q * -Real.log a ≤ 1 / q := by
      have e1 := Real.add_one_le_exp (q * -Real.log a)
      have e2 : a ^ q * Real.exp (q * -Real.log a) = 1 := by
        rw [Real.rpow_def_of_pos ha, ← Real.exp_add, show Real.log a * q + q * -Real.log a = 0 by ring, Real.exp_zero]
      rw [le_div_iff₀ hq]
      have e3 : a ^ q * (q * -Real.log a) ≤ a ^ q * Real.exp (q * -Real.log a) :=
        mul_le_mul_of_nonneg_left (by linarith) (Real.rpow_nonneg ha.le q)
      nlinarith
    have k3 : a ^ (q' - q) ≤ 1 := Real.rpow_le_one ha.le h1 hd
    have a0 := Real.rpow_nonneg ha.le q
    have e4 : a ^ q' - a ^ q = -(a ^ q * (1 - a ^ (q' - q))) := by rw [eq']; ring
    rw [e4, abs_neg, abs_of_nonneg (mul_nonneg a0 (by linarith))]
    calc a ^ q * (1 - a ^ (q' - q)) ≤ a ^ q * ((q' - q) * -Real.log a) := mul_le_mul_of_nonneg_left k1 a0
      _ = (a ^ q * -Real.log a) * (q' - q) := by ring
      _ ≤ 1 / q * (q' - q) := mul_le_mul_of_nonneg_right k2 hd
      _ ≤ (1 / q + H ^ 2) * (q' - q) := mul_le_mul_of_nonneg_right (by nlinarith) hd
  · rcases h with h | rfl
    · have hlog := Real.log_nonneg h1
      have k0 : Real.log a ≤ H := (Real.log_le_self ha.le).trans haH
      have k1 : a ^ q' ≤ H := by
        calc a ^ q' ≤ a ^ (1 : ℝ) := Real.rpow_le_rpow_of_exponent_le h1 h
          _ = a := Real.rpow_one a
          _ ≤ H := haH
      have e1 : a ^ q = a ^ q' * Real.exp (-((q' - q) * Real.log a)) := by
        rw [eq', hl, mul_assoc, ← Real.exp_add, add_neg_cancel, Real.exp_zero, mul_one]
      have e2 := Real.add_one_le_exp (-((q' - q) * Real.log a))
      have a0 := Real.rpow_nonneg ha.le q'
      have k2 : a ^ q ≤ a ^ q' := Real.rpow_le_rpow_of_exponent_le h1 hqq
      rw [abs_of_nonneg (by linarith)]
      have k3 : a ^ q' - a ^ q ≤ a ^ q' * ((q' - q) * Real.log a) := by
        rw [e1]
        have := mul_le_mul_of_nonneg_left e2 a0
        nlinarith
      calc a ^ q' - a ^ q ≤ a ^ q' * ((q' - q) * Real.log a) := k3
        _ = (a ^ q' * Real.log a) * (q' - q) := by ring
        _ ≤ (H * H) * (q' - q) := mul_le_mul_of_nonneg_right (mul_le_mul k1 k0 hlog (by linarith)) hd
        _ ≤ (1 / q + H ^ 2) * (q' - q) := mul_le_mul_of_nonneg_right (by nlinarith) hd
    · have : a = 1 := le_antisymm haH h1
      rw [this, Real.one_rpow, Real.one_rpow, sub_self, abs_zero]
      positivity

theorem rpow_exponents {a q q' : ℝ} {H : ℝ} (ha : 0 ≤ a) (haH : a ≤ H) (hH : 1 ≤ H) (hq : 0 < q) (hq' : 0 < q')
    (h : q ≤ 1 ∧ q' ≤ 1 ∨ H = 1) : |a ^ q' - a ^ q| ≤ (1 / min q q' + H ^ 2) * |q - q'| := by
  rcases le_total q q' with hqq | hqq
  · rw [min_eq_left hqq, abs_sub_comm q q', abs_of_nonneg (sub_nonneg.2 hqq)]
    exact rpow_exponent ha haH hH hq hqq (h.imp_left And.right)
  · rw [min_eq_right hqq, abs_sub_comm (a ^ q'), abs_of_nonneg (sub_nonneg.2 hqq)]
    exact rpow_exponent ha haH hH hq' hqq (h.imp_left And.left)

theorem rpow_unit_ge {x q : ℝ} (h0 : 0 ≤ x) (h1 : x ≤ 1) (hq : 0 < q) (hq1 : q ≤ 1) : x ≤ x ^ q := by
  rcases h0.eq_or_lt with rfl | h0
  · rw [Real.zero_rpow hq.ne']
  · calc x = x ^ (1 : ℝ) := (Real.rpow_one x).symm
      _ ≤ x ^ q := Real.rpow_le_rpow_of_exponent_ge h0 h1 hq1

theorem ok_rpow {p : ℚ × ℚ} {a b : ℝ} {t : ℚ} {q : ℝ} (h : Ok p a b) (ha : 0 ≤ a) (hb : 0 ≤ b) (h1 : p.1 ≤ 1) (ht : 0 ≤ t)
    (ht1 : t ≤ 1) (h2 : p.2 ≤ t ^ 5) (hq : 1 / 5 ≤ q) (hq1 : q ≤ 1) : Ok (p.1, t) (a ^ q) (b ^ q) := by
  refine ⟨h.rel, ht, ?_⟩
  have n1 := h.near
  have p1 := h.rel'
  have p2 := h.abs'
  have h1' : (p.1 : ℝ) ≤ 1 := by exact_mod_cast h1
  have h2' : (p.2 : ℝ) ≤ (t : ℝ) ^ 5 := by exact_mod_cast h2
  have ht' : (0 : ℝ) ≤ t := by exact_mod_cast ht
  have ht1' : (t : ℝ) ≤ 1 := by exact_mod_cast ht1
  simp only
  generalize (p.1 : ℝ) = r1 at *
  generalize (p.2 : ℝ) = t1 at *
  generalize (t : ℝ) = t at *
  have q0 : 0 < q := by linarith
  have hτ : t1 ^ q ≤ t := by
    calc t1 ^ q ≤ (t ^ 5) ^ q := Real.rpow_le_rpow p2 h2' q0.le
      _ ≤ (t ^ 5) ^ (1 / 5 : ℝ) := by
        rcases ht'.eq_or_lt with h0 | h0
        · rw [← h0, zero_pow (by norm_num), Real.zero_rpow q0.ne', Real.zero_rpow (by norm_num)]
        · exact Real.rpow_le_rpow_of_exponent_ge (by positivity) (pow_le_one₀ ht' ht1') hq
      _ = t := by
        rw [← Real.rpow_natCast, ← Real.rpow_mul ht']
        norm_num
  have a0 := Real.rpow_nonneg ha q
  rw [abs_of_nonneg a0]
  rw [abs_of_nonneg ha] at n1
  have n := abs_le.1 n1
  refine abs_le.2 ⟨?_, ?_⟩
  · have e1 : ((1 - r1) * a) ^ q ≤ (b + t1) ^ q := Real.rpow_le_rpow (mul_nonneg (by linarith) ha) (by linarith) q0.le
    have e2 := Real.rpow_add_le_add_rpow hb p2 q0.le hq1
    rw [Real.mul_rpow (by linarith) ha] at e1
    have e3 : (1 - r1) * a ^ q ≤ (1 - r1) ^ q * a ^ q :=
      mul_le_mul_of_nonneg_right (rpow_unit_ge (by linarith) (by linarith) q0 hq1) a0
    linarith
  · have e1 : b ^ q ≤ ((1 + r1) * a + t1) ^ q := Real.rpow_le_rpow hb (by linarith) q0.le
    have e2 := Real.rpow_add_le_add_rpow (mul_nonneg (by linarith : 0 ≤ 1 + r1) ha) p2 q0.le hq1
    rw [Real.mul_rpow (by linarith) ha] at e2
    have e3 : (1 + r1) ^ q * a ^ q ≤ (1 + r1) * a ^ q := by
      refine mul_le_mul_of_nonneg_right ?_ a0
      calc (1 + r1) ^ q ≤ (1 + r1) ^ (1 : ℝ) := Real.rpow_le_rpow_of_exponent_le (by linarith) hq1
        _ = 1 + r1 := Real.rpow_one _
    linarith

/-! ## The whole analysis -/

theorem ok_some {v w : ℝ} (h : ok v = some w) : w = v := by
  unfold ok at h
  split_ifs at h
  exact (Option.some.inj h).symm

theorem abs_le_mag {r : ℤ × ℤ} {v : ℝ} (h1 : (r.1 : ℝ) ≤ v) (h2 : v ≤ r.2) : |v| ≤ (mag r : ℤ) := by
  unfold mag
  push_cast
  rcases abs_cases v with ⟨h, -⟩ | ⟨h, -⟩
  · rw [h]; exact h2.trans (le_max_right _ _)
  · rw [h]; exact le_trans (by linarith) (le_max_left _ _)

variable {L : Lib} (hL : IsMathLib L)

include hL in
theorem fl_ok_rnd {p : ℚ × ℚ} {a y : ℝ} (h : Ok p a y) : Ok (rndE unit p) a (L.fl y) := by
  refine ok_rnd h unit_nonneg' ?_
  rw [hL.fl, unit_cast]
  exact round64_error y

theorem lit_int {q : ℚ} (h : q.den = 1 ∧ |q.num| ≤ 2 ^ 53) : round64 (q : ℝ) = q := by
  have e : (q : ℝ) = ((q.num : ℤ) : ℝ) := by
    rw [Rat.cast_def, h.1, Nat.cast_one, div_one]
  rw [e]
  exact round64_int _ h.2

/-- A comparison has the same result in exact arithmetic and with rounding. -/
def Same (L : Lib) (x y : List ℝ) (c : Expr × Expr) : Prop :=
  ∀ u v u' v', eval exact x c.1 = some u → eval exact x c.2 = some v → eval L y c.1 = some u' → eval L y c.2 = some v' →
    (u < v ↔ u' < v')

include hL in
/-- The analysis is correct. -/
theorem err_sound {box : List (ℤ × ℤ)} {x y : List ℝ} (hx : Within x box) (hy : Within y box) {δ : ℚ} (hδ : 0 ≤ δ)
    (hxy : ∀ (i : ℕ) (a b : ℝ), x[i]? = some a → y[i]? = some b → |b - a| ≤ (δ : ℝ)) :
    ∀ (t : Expr) (r : ℤ × ℤ) (p : ℚ × ℚ) (a b : ℝ), (∀ c ∈ conds t, Same L x y c) →
    range box t = some r → err δ box t = some p → eval exact x t = some a → eval L y t = some b → Ok p a b := by
  have hE : ∀ (t : Expr) (r : ℤ × ℤ), range box t = some r → ∃ v, eval exact x t = some v ∧ (r.1 : ℝ) ≤ v ∧ v ≤ r.2 :=
    range_sound exact_bounded hx
  have hF : ∀ (t : Expr) (r : ℤ × ℤ), range box t = some r → ∃ v, eval L y t = some v ∧ (r.1 : ℝ) ≤ v ∧ v ≤ r.2 :=
    range_sound hL.bounded hy
  intro t
  induction t with
  | lit q =>
    intro r p a b hs _ he ha hb
    rw [eval] at ha hb
    obtain rfl := ok_some ha
    obtain rfl := ok_some hb
    simp only [err] at he
    split_ifs at he with hc
    · obtain rfl := Option.some.inj he
      rw [hL.fl, lit_int hc]
      exact ok_refl _
    · obtain rfl := Option.some.inj he
      exact fl_ok_rnd hL (ok_refl _)
  | pi =>
    intro r p a b hs _ he ha hb
    rw [eval] at ha hb
    obtain rfl := Option.some.inj ha
    obtain rfl := Option.some.inj hb
    obtain rfl := Option.some.inj he
    have := fl_ok_rnd hL (ok_refl Real.pi)
    rwa [hL.fl, ← hL.pi] at this
  | e =>
    intro r p a b hs _ he ha hb
    rw [eval] at ha hb
    obtain rfl := Option.some.inj ha
    obtain rfl := Option.some.inj hb
    obtain rfl := Option.some.inj he
    have := fl_ok_rnd hL (ok_refl (Real.exp 1))
    rwa [hL.fl, ← hL.e] at this
  | var i =>
    intro r p a b hs _ he ha hb
    rw [eval] at ha hb
    obtain rfl := Option.some.inj he
    exact ok_of_abs hδ (hxy i a b ha hb)
  | add s t ihs iht =>
    intro r p a b hs hr he ha hb
    simp only [range, Option.bind_eq_some_iff] at hr
    simp only [err, Option.bind_eq_some_iff] at he
    obtain ⟨u, hu, v, hv, -⟩ := hr
    obtain ⟨p1, hp1, p2, hp2, u', hu', v', hv', he⟩ := he
    rw [hu] at hu'
    obtain rfl := Option.some.inj hu'
    rw [hv] at hv'
    obtain rfl := Option.some.inj hv'
    obtain ⟨a1, ha1, la1, ua1⟩ := hE s u hu
    obtain ⟨a2, ha2, la2, ua2⟩ := hE t v hv
    obtain ⟨b1, hb1, -⟩ := hF s u hu
    obtain ⟨b2, hb2, -⟩ := hF t v hv
    have o1 := ihs u p1 a1 b1 (fun c hc => hs c (List.mem_append_left _ hc)) hu hp1 ha1 hb1
    have o2 := iht v p2 a2 b2 (fun c hc => hs c (List.mem_append_right _ hc)) hv hp2 ha2 hb2
    rw [eval, ha1, ha2] at ha
    rw [eval, hb1, hb2] at hb
    obtain rfl := ok_some ha
    obtain rfl := ok_some hb
    split_ifs at he with hc
    · obtain rfl := Option.some.inj he
      exact fl_ok_rnd hL (ok_add_pos o1 o2 (le_trans (by exact_mod_cast hc.1) la1) (le_trans (by exact_mod_cast hc.2) la2))
    · obtain rfl := Option.some.inj he
      obtain ⟨z1, e1⟩ := ok_abs o1 (abs_le_mag la1 ua1)
      obtain ⟨z2, e2⟩ := ok_abs o2 (abs_le_mag la2 ua2)
      refine fl_ok_rnd hL (ok_of_abs (add_nonneg z1 z2) ?_)
      show |b1 + b2 - (a1 + a2)| ≤ _
      rw [show b1 + b2 - (a1 + a2) = (b1 - a1) + (b2 - a2) by ring]
      push_cast
      exact (abs_add_le _ _).trans (add_le_add e1 e2)
  | sub s t ihs iht =>
    intro r p a b hs hr he ha hb
    simp only [range, Option.bind_eq_some_iff] at hr
    simp only [err, Option.bind_eq_some_iff] at he
    obtain ⟨u, hu, v, hv, -⟩ := hr
    obtain ⟨p1, hp1, p2, hp2, u', hu', v', hv', he⟩ := he
    rw [hu] at hu'
    obtain rfl := Option.some.inj hu'
    rw [hv] at hv'
    obtain rfl := Option.some.inj hv'
    obtain ⟨a1, ha1, la1, ua1⟩ := hE s u hu
    obtain ⟨a2, ha2, la2, ua2⟩ := hE t v hv
    obtain ⟨b1, hb1, -⟩ := hF s u hu
    obtain ⟨b2, hb2, -⟩ := hF t v hv
    have o1 := ihs u p1 a1 b1 (fun c hc => hs c (List.mem_append_left _ hc)) hu hp1 ha1 hb1
    have o2 := iht v p2 a2 b2 (fun c hc => hs c (List.mem_append_right _ hc)) hv hp2 ha2 hb2
    rw [eval, ha1, ha2] at ha
    rw [eval, hb1, hb2] at hb
    obtain rfl := ok_some ha
    obtain rfl := ok_some hb
    obtain rfl := Option.some.inj he
    obtain ⟨z1, e1⟩ := ok_abs o1 (abs_le_mag la1 ua1)
    obtain ⟨z2, e2⟩ := ok_abs o2 (abs_le_mag la2 ua2)
    refine fl_ok_rnd hL (ok_of_abs (add_nonneg z1 z2) ?_)
    show |b1 - b2 - (a1 - a2)| ≤ _
    rw [show b1 - b2 - (a1 - a2) = (b1 - a1) - (b2 - a2) by ring]
    push_cast
    exact (abs_sub _ _).trans (add_le_add e1 e2)
  | mul s t ihs iht =>
    intro r p a b hs hr he ha hb
    simp only [range, Option.bind_eq_some_iff] at hr
    simp only [err, Option.bind_eq_some_iff] at he
    obtain ⟨u, hu, v, hv, -⟩ := hr
    obtain ⟨p1, hp1, p2, hp2, u', hu', v', hv', he⟩ := he
    rw [hu] at hu'
    obtain rfl := Option.some.inj hu'
    rw [hv] at hv'
    obtain rfl := Option.some.inj hv'
    obtain ⟨a1, ha1, la1, ua1⟩ := hE s u hu
    obtain ⟨a2, ha2, la2, ua2⟩ := hE t v hv
    obtain ⟨b1, hb1, -⟩ := hF s u hu
    obtain ⟨b2, hb2, -⟩ := hF t v hv
    have o1 := ihs u p1 a1 b1 (fun c hc => hs c (List.mem_append_left _ hc)) hu hp1 ha1 hb1
    have o2 := iht v p2 a2 b2 (fun c hc => hs c (List.mem_append_right _ hc)) hv hp2 ha2 hb2
    rw [eval, ha1, ha2] at ha
    rw [eval, hb1, hb2] at hb
    obtain rfl := ok_some ha
    obtain rfl := ok_some hb
    obtain rfl := Option.some.inj he
    exact fl_ok_rnd hL (ok_mul o1 o2 (abs_le_mag la1 ua1) (abs_le_mag la2 ua2))
  | div s t ihs iht =>
    intro r p a b hs hr he ha hb
    simp only [range, Option.bind_eq_some_iff] at hr
    simp only [err, Option.bind_eq_some_iff] at he
    obtain ⟨u, hu, v, hv, hr⟩ := hr
    obtain ⟨p1, hp1, p2, hp2, he⟩ := he
    split_ifs at hr with hv1
    split_ifs at he with hc
    obtain ⟨a1, ha1, -⟩ := hE s u hu
    obtain ⟨a2, ha2, la2, ua2⟩ := hE t v hv
    obtain ⟨b1, hb1, -⟩ := hF s u hu
    obtain ⟨b2, hb2, lb2, -⟩ := hF t v hv
    have o1 := ihs u p1 a1 b1 (fun c hc => hs c (List.mem_append_left _ hc)) hu hp1 ha1 hb1
    have o2 := iht v p2 a2 b2 (fun c hc => hs c (List.mem_append_right _ hc)) hv hp2 ha2 hb2
    have v1 : (1 : ℝ) ≤ v.1 := by exact_mod_cast hv1
    rw [eval, ha1, ha2] at ha
    rw [eval, hb1, hb2] at hb
    simp only [Option.bind_some] at ha hb
    rw [if_neg (by linarith)] at ha hb
    obtain rfl := ok_some ha
    obtain rfl := ok_some hb
    obtain rfl := Option.some.inj he
    exact fl_ok_rnd hL (ok_div o1 o2 (v1.trans la2) (v1.trans lb2) hc)
  | neg s ihs =>
    intro r p a b hs hr he ha hb
    simp only [range, Option.bind_eq_some_iff] at hr
    obtain ⟨u, hu, -⟩ := hr
    obtain ⟨a1, ha1, -⟩ := hE s u hu
    obtain ⟨b1, hb1, -⟩ := hF s u hu
    have o1 := ihs u p a1 b1 hs hu he ha1 hb1
    rw [eval, ha1] at ha
    rw [eval, hb1] at hb
    obtain rfl := Option.some.inj ha
    obtain rfl := Option.some.inj hb
    exact ok_neg o1
  | abs s ihs =>
    intro r p a b hs hr he ha hb
    simp only [range, Option.bind_eq_some_iff] at hr
    obtain ⟨u, hu, -⟩ := hr
    obtain ⟨a1, ha1, -⟩ := hE s u hu
    obtain ⟨b1, hb1, -⟩ := hF s u hu
    have o1 := ihs u p a1 b1 hs hu he ha1 hb1
    rw [eval, ha1] at ha
    rw [eval, hb1] at hb
    obtain rfl := Option.some.inj ha
    obtain rfl := Option.some.inj hb
    exact ok_absval o1
  | sqrt s ihs =>
    intro r p a b hs hr he ha hb
    simp only [range, Option.bind_eq_some_iff] at hr
    simp only [err, Option.bind_eq_some_iff] at he
    obtain ⟨u, hu, hr⟩ := hr
    split_ifs at hr with h0
    obtain ⟨p1, hp1, he⟩ := he
    split_ifs at he with hc
    obtain ⟨a1, ha1, la1, -⟩ := hE s u hu
    obtain ⟨b1, hb1, lb1, -⟩ := hF s u hu
    have o1 := ihs u p1 a1 b1 hs hu hp1 ha1 hb1
    have u0 : (0 : ℝ) ≤ u.1 := by exact_mod_cast h0
    rw [eval, ha1] at ha
    rw [eval, hb1] at hb
    simp only [Option.bind_some] at ha hb
    rw [if_neg (by linarith)] at ha hb
    obtain rfl := ok_some ha
    obtain rfl := ok_some hb
    obtain rfl := Option.some.inj he
    rw [hL.sqrt b1 (u0.trans lb1), ← hL.fl]
    exact fl_ok_rnd hL (ok_sqrt o1 (u0.trans la1) (u0.trans lb1) hc.1 (by positivity) hc.2)
  | exp s ihs =>
    intro r p a b hs hr he ha hb
    simp only [range, Option.bind_eq_some_iff] at hr
    simp only [err, Option.bind_eq_some_iff] at he
    obtain ⟨u, hu, hr⟩ := hr
    split_ifs at hr with h0
    obtain ⟨p1, hp1, u', hu', he⟩ := he
    rw [hu] at hu'
    obtain rfl := Option.some.inj hu'
    obtain ⟨a1, ha1, la1, ua1⟩ := hE s u hu
    obtain ⟨b1, hb1, lb1, ub1⟩ := hF s u hu
    have o1 := ihs u p1 a1 b1 hs hu hp1 ha1 hb1
    have u0 : (u.2 : ℝ) ≤ 32 := by exact_mod_cast h0
    have un : (u.2 : ℝ) ≤ (u.2.toNat : ℝ) := by exact_mod_cast Int.self_le_toNat u.2
    rw [eval, ha1] at ha
    rw [eval, hb1] at hb
    simp only [Option.bind_some] at ha hb
    rw [if_neg (by linarith)] at ha hb
    obtain rfl := ok_some ha
    obtain rfl := ok_some hb
    obtain rfl := Option.some.inj he
    obtain ⟨z1, e1⟩ := ok_abs o1 (abs_le_mag la1 ua1)
    refine ok_rnd (y := Real.exp b1) (ok_of_abs (by positivity) ?_) unit'_nonneg ?_
    · refine (exp_lipschitz (ua1.trans un) (ub1.trans un)).trans ?_
      push_cast
      exact mul_le_mul_of_nonneg_left e1 (by positivity)
    · rw [unit'_cast, abs_of_pos (Real.exp_pos b1)]
      exact hL.exp b1 (by linarith)
  | sin s ihs =>
    intro r p a b hs hr he ha hb
    simp only [range, Option.bind_eq_some_iff] at hr
    simp only [err, Option.bind_eq_some_iff] at he
    obtain ⟨u, hu, -⟩ := hr
    obtain ⟨p1, hp1, u', hu', he⟩ := he
    rw [hu] at hu'
    obtain rfl := Option.some.inj hu'
    obtain ⟨a1, ha1, la1, ua1⟩ := hE s u hu
    obtain ⟨b1, hb1, lb1, ub1⟩ := hF s u hu
    have o1 := ihs u p1 a1 b1 hs hu hp1 ha1 hb1
    rw [eval, ha1] at ha
    rw [eval, hb1] at hb
    obtain rfl := ok_some ha
    obtain rfl := ok_some hb
    obtain rfl := Option.some.inj he
    obtain ⟨z1, e1⟩ := ok_abs o1 (abs_le_mag la1 ua1)
    refine ok_of_abs (add_nonneg z1 unit'_nonneg) ?_
    push_cast
    rw [unit'_cast]
    show |L.sin b1 - Real.sin a1| ≤ _
    have e2 := hL.sin b1
    have e3 : |Real.sin b1 - Real.sin a1| ≤ |b1 - a1| := Real.abs_sin_sub_sin_le b1 a1
    have e4 := abs_sub_le (L.sin b1) (Real.sin b1) (Real.sin a1)
    linarith
  | cos s ihs =>
    intro r p a b hs hr he ha hb
    simp only [range, Option.bind_eq_some_iff] at hr
    simp only [err, Option.bind_eq_some_iff] at he
    obtain ⟨u, hu, -⟩ := hr
    obtain ⟨p1, hp1, u', hu', he⟩ := he
    rw [hu] at hu'
    obtain rfl := Option.some.inj hu'
    obtain ⟨a1, ha1, la1, ua1⟩ := hE s u hu
    obtain ⟨b1, hb1, lb1, ub1⟩ := hF s u hu
    have o1 := ihs u p1 a1 b1 hs hu hp1 ha1 hb1
    rw [eval, ha1] at ha
    rw [eval, hb1] at hb
    obtain rfl := ok_some ha
    obtain rfl := ok_some hb
    obtain rfl := Option.some.inj he
    obtain ⟨z1, e1⟩ := ok_abs o1 (abs_le_mag la1 ua1)
    refine ok_of_abs (add_nonneg z1 unit'_nonneg) ?_
    push_cast
    rw [unit'_cast]
    show |L.cos b1 - Real.cos a1| ≤ _
    have e2 := hL.cos b1
    have e3 : |Real.cos b1 - Real.cos a1| ≤ |b1 - a1| := Real.abs_cos_sub_cos_le b1 a1
    have e4 := abs_sub_le (L.cos b1) (Real.cos b1) (Real.cos a1)
    linarith
  | pow s q q' ihs =>
    intro r p a b hs hr he ha hb
    simp only [range, Option.bind_eq_some_iff] at hr
    simp only [err, Option.bind_eq_some_iff] at he
    obtain ⟨u, hu, hr⟩ := hr
    split_ifs at hr with h0
    obtain ⟨c1, c2, c3, c4⟩ := h0
    obtain ⟨p1, hp1, u', hu', he⟩ := he
    rw [hu] at hu'
    obtain rfl := Option.some.inj hu'
    obtain ⟨a1, ha1, la1, ua1⟩ := hE s u hu
    obtain ⟨b1, hb1, lb1, ub1⟩ := hF s u hu
    have o1 := ihs u p1 a1 b1 hs hu hp1 ha1 hb1
    have u0 : (0 : ℝ) ≤ u.1 := by exact_mod_cast c1
    have q0 : (0 : ℝ) ≤ (q' : ℝ) := by exact_mod_cast c3
    rw [eval, ha1] at ha
    rw [eval, hb1] at hb
    simp only [Option.bind_some] at ha hb
    rw [if_neg (by linarith)] at ha hb
    obtain rfl := ok_some ha
    obtain rfl := ok_some hb
    rw [hL.exponent]
    have hpow : |L.pow b1 (q' : ℝ) - b1 ^ (q' : ℝ)| ≤ (unit' : ℝ) * |b1 ^ (q' : ℝ)| + 1 / 2 ^ 1000 := by
      rw [unit'_cast, abs_of_nonneg (Real.rpow_nonneg (u0.trans lb1) (q' : ℝ))]
      exact hL.pow b1 (q' : ℝ) (u0.trans lb1) q0
    show Ok p (a1 ^ (q : ℝ)) _
    by_cases hc : p1 = (0, 0) ∧ 0 < q ∧ 0 < q'
    · rw [if_pos hc] at he
      obtain rfl := Option.some.inj he
      obtain ⟨rfl, hq, hq'⟩ := hc
      have : b1 = a1 := by
        have := o1.near
        simp only [Rat.cast_zero, zero_mul, add_zero] at this
        exact sub_eq_zero.1 (abs_nonpos_iff.1 this)
      subst this
      refine ok_rnd (ok_of_abs ?_ ?_) unit'_nonneg hpow
      · have : 0 < min q q' := lt_min hq hq'
        positivity
      · have hH : (1 : ℝ) ≤ ((max 1 u.2 : ℤ) : ℝ) := by exact_mod_cast le_max_left _ _
        have hu2 : b1 ≤ ((max 1 u.2 : ℤ) : ℝ) := ub1.trans (by exact_mod_cast le_max_right _ _)
        have := rpow_exponents (u0.trans lb1) hu2 hH (q := q) (q' := q') (by exact_mod_cast hq) (by exact_mod_cast hq') (by
          rcases c4 with ⟨d1, d2⟩ | d
          · exact Or.inl ⟨by exact_mod_cast d1, by exact_mod_cast d2⟩
          · refine Or.inr ?_
            rw [max_eq_left d, Int.cast_one])
        push_cast at this ⊢
        exact this
    · rw [if_neg hc] at he
      split_ifs at he with hd
      obtain rfl := Option.some.inj he
      obtain ⟨rfl, d1, d2, d3, d4⟩ := hd
      refine ok_rnd (ok_rpow o1 (u0.trans la1) (u0.trans lb1) d3 (by positivity) ?_ d4 ?_ ?_) unit'_nonneg hpow
      · norm_num
      · have := (Rat.cast_le (K := ℝ)).2 d1
        push_cast at this
        exact this
      · exact_mod_cast d2
  | ipow s n ihs =>
    intro r p a b hs hr he ha hb
    simp only [range, Option.bind_eq_some_iff] at hr
    simp only [err, Option.bind_eq_some_iff] at he
    obtain ⟨u, hu, -⟩ := hr
    obtain ⟨p1, hp1, u', hu', he⟩ := he
    rw [hu] at hu'
    obtain rfl := Option.some.inj hu'
    obtain ⟨a1, ha1, la1, ua1⟩ := hE s u hu
    obtain ⟨b1, hb1, lb1, ub1⟩ := hF s u hu
    have o1 := ihs u p1 a1 b1 hs hu hp1 ha1 hb1
    rw [eval, ha1] at ha
    rw [eval, hb1] at hb
    obtain rfl := ok_some ha
    obtain rfl := ok_some hb
    obtain rfl := Option.some.inj he
    refine ok_rnd (ok_ipow o1 ((abs_le_mag la1 ua1).trans (by exact_mod_cast le_max_right _ _)) n) unit'_nonneg ?_
    rw [unit'_cast]
    exact hL.ipow b1 n
  | max0 s ihs =>
    intro r p a b hs hr he ha hb
    simp only [range, Option.bind_eq_some_iff] at hr
    simp only [err, Option.bind_eq_some_iff] at he
    obtain ⟨u, hu, -⟩ := hr
    obtain ⟨p1, hp1, u', hu', he⟩ := he
    rw [hu] at hu'
    obtain rfl := Option.some.inj hu'
    obtain ⟨a1, ha1, la1, ua1⟩ := hE s u hu
    obtain ⟨b1, hb1, lb1, ub1⟩ := hF s u hu
    have o1 := ihs u p1 a1 b1 hs hu hp1 ha1 hb1
    rw [eval, ha1] at ha
    rw [eval, hb1] at hb
    obtain rfl := Option.some.inj ha
    obtain rfl := Option.some.inj hb
    obtain rfl := Option.some.inj he
    obtain ⟨z1, e1⟩ := ok_abs o1 (abs_le_mag la1 ua1)
    refine ok_of_abs z1 (le_trans ?_ e1)
    exact abs_max_sub_max_le_abs b1 a1 0 |> fun h => by simpa [max_comm] using h
  | ifLt s t c d _ _ ihc ihd =>
    intro r p a b hs hr he ha hb
    simp only [range, Option.bind_eq_some_iff] at hr
    simp only [err, Option.bind_eq_some_iff] at he
    obtain ⟨us, hus, ut, hut, u, hu, v, hv, -⟩ := hr
    obtain ⟨p1, hp1, p2, hp2, he⟩ := he
    obtain rfl := Option.some.inj he
    obtain ⟨s1, hs1, -⟩ := hE s us hus
    obtain ⟨t1, ht1, -⟩ := hE t ut hut
    obtain ⟨s2, hs2, -⟩ := hF s us hus
    obtain ⟨t2, ht2, -⟩ := hF t ut hut
    have hst := hs (s, t) (List.mem_cons_self ..) s1 t1 s2 t2 hs1 ht1 hs2 ht2
    obtain ⟨c1, hc1, -⟩ := hE c u hu
    obtain ⟨d1, hd1, -⟩ := hE d v hv
    obtain ⟨c2, hc2, -⟩ := hF c u hu
    obtain ⟨d2, hd2, -⟩ := hF d v hv
    have o1 := ihc u p1 c1 c2 (fun c hc => hs c (List.mem_cons_of_mem _ (List.mem_append_left _ hc))) hu hp1 hc1 hc2
    have o2 := ihd v p2 d1 d2 (fun c hc => hs c (List.mem_cons_of_mem _ (List.mem_append_right _ hc))) hv hp2 hd1 hd2
    rw [eval, hs1, ht1] at ha
    rw [eval, hs2, ht2] at hb
    simp only [Option.bind_some] at ha hb
    by_cases hlt : s1 < t1
    · rw [if_pos hlt, hc1] at ha
      rw [if_pos (hst.1 hlt), hc2] at hb
      obtain rfl := Option.some.inj ha
      obtain rfl := Option.some.inj hb
      exact o1.mono (le_max_left _ _) (le_max_left _ _)
    · rw [if_neg hlt, hd1] at ha
      rw [if_neg (fun h => hlt (hst.2 h)), hd2] at hb
      obtain rfl := Option.some.inj ha
      obtain rfl := Option.some.inj hb
      exact o2.mono (le_max_right _ _) (le_max_right _ _)

end Evogil.FloatExpr
