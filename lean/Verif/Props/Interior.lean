import Verif.Props.Variation
import Mathlib.Analysis.SpecialFunctions.Pow.Real

/-!
# C147: mutation and crossover do not pile up on the bounds

Real numbers and real powers.
-/

set_option linter.unusedSectionVars false

namespace Evogil

/-- Each coordinate strictly between the bounds of its interval. -/
def Inside {K : Type*} [LT K] (xs : List K) (dims : List (K × K)) : Prop :=
  List.Forall₂ (fun x d => d.1 < x ∧ x < d.2) xs dims

theorem Inside.inBox {xs : List ℝ} {dims : List (ℝ × ℝ)} (h : Inside xs dims) : InBox xs dims :=
  List.Forall₂.imp (fun _ _ h => ⟨h.1.le, h.2.le⟩) h

theorem inside_iff {xs : List ℝ} {dims : List (ℝ × ℝ)} :
    Inside xs dims ↔ xs.length = dims.length ∧
      ∀ (i : ℕ) (x : ℝ) (d : ℝ × ℝ), xs[i]? = some x → dims[i]? = some d → d.1 < x ∧ x < d.2 := by
  unfold Inside
  rw [List.forall₂_iff_get]
  constructor
  · rintro ⟨h, hh⟩
    refine ⟨h, fun i x d hx hd => ?_⟩
    obtain ⟨h1, rfl⟩ := List.getElem?_eq_some_iff.1 hx
    obtain ⟨h2, rfl⟩ := List.getElem?_eq_some_iff.1 hd
    exact hh i h1 h2
  · rintro ⟨h, hh⟩
    exact ⟨h, fun i h1 h2 => hh i _ _ (List.getElem?_eq_getElem h1) (List.getElem?_eq_getElem h2)⟩

namespace Interior

/-- Real powers -/
noncomputable abbrev rp : ℝ → ℝ → ℝ := fun b e => b ^ e

/-! ## The curve of the mutation -/

/-- The power in drivertools.py:29-31, 34-36: `w` is `1 - delta1` or `1 - delta2`, `s` is `2 * rnd` or `2 * (1 - rnd)`. -/
noncomputable def curve (eta w s : ℝ) : ℝ := (s + (1 - s) * w ^ (eta + 1)) ^ (1 / (eta + 1))

section
variable {eta w : ℝ} (he : 0 ≤ eta) (h0 : 0 < w) (h1 : w ≤ 1)
include he h0 h1

theorem pow_mem : 0 < w ^ (eta + 1) ∧ w ^ (eta + 1) ≤ 1 :=
  ⟨Real.rpow_pos_of_pos h0 _, Real.rpow_le_one h0.le h1 (by linarith)⟩

theorem val_mem {s : ℝ} (s0 : 0 ≤ s) (s1 : s ≤ 1) :
    w ^ (eta + 1) ≤ s + (1 - s) * w ^ (eta + 1) ∧ s + (1 - s) * w ^ (eta + 1) ≤ 1 := by
  obtain ⟨p0, p1⟩ := pow_mem he h0 h1
  constructor <;> nlinarith

theorem curve_mem {s : ℝ} (s0 : 0 ≤ s) (s1 : s ≤ 1) : w ≤ curve eta w s ∧ curve eta w s ≤ 1 := by
  obtain ⟨p0, p1⟩ := pow_mem he h0 h1
  obtain ⟨v0, v1⟩ := val_mem he h0 h1 s0 s1
  constructor
  · have : w = (w ^ (eta + 1)) ^ (1 / (eta + 1)) := by
      rw [← Real.rpow_mul h0.le, mul_one_div_cancel (by linarith), Real.rpow_one]
    calc w = (w ^ (eta + 1)) ^ (1 / (eta + 1)) := this
      _ ≤ curve eta w s := Real.rpow_le_rpow p0.le v0 (by positivity)
  · exact Real.rpow_le_one (p0.le.trans v0) v1 (by positivity)

theorem curve_one : curve eta w 1 = 1 := by
  simp [curve]

theorem curve_strict (hw : w < 1) {s s' : ℝ} (s0 : 0 ≤ s) (s1 : s' ≤ 1) (h : s < s') : curve eta w s < curve eta w s' := by
  obtain ⟨p0, -⟩ := pow_mem he h0 h1
  have p1 : w ^ (eta + 1) < 1 := Real.rpow_lt_one h0.le hw (by linarith)
  obtain ⟨v0, -⟩ := val_mem he h0 h1 s0 (by linarith)
  exact Real.rpow_lt_rpow (p0.le.trans v0) (by nlinarith) (by positivity)

theorem curve_surj (hw : w < 1) {g : ℝ} (g0 : w ≤ g) (g1 : g ≤ 1) : ∃ s, 0 ≤ s ∧ s ≤ 1 ∧ curve eta w s = g := by
  have p1 : w ^ (eta + 1) < 1 := Real.rpow_lt_one h0.le hw (by linarith)
  have q0 : w ^ (eta + 1) ≤ g ^ (eta + 1) := Real.rpow_le_rpow h0.le g0 (by linarith)
  have q1 : g ^ (eta + 1) ≤ 1 := Real.rpow_le_one (h0.le.trans g0) g1 (by linarith)
  have d0 : 0 < 1 - w ^ (eta + 1) := by linarith
  refine ⟨(g ^ (eta + 1) - w ^ (eta + 1)) / (1 - w ^ (eta + 1)), div_nonneg (by linarith) d0.le,
    (div_le_one d0).2 (by linarith), ?_⟩
  have e : (g ^ (eta + 1) - w ^ (eta + 1)) / (1 - w ^ (eta + 1)) +
      (1 - (g ^ (eta + 1) - w ^ (eta + 1)) / (1 - w ^ (eta + 1))) * w ^ (eta + 1) = g ^ (eta + 1) := by
    field_simp
    ring
  rw [curve, e, ← Real.rpow_mul (h0.le.trans g0), mul_one_div_cancel (by linarith), Real.rpow_one]

end

section
variable {eps eta y lb ub : ℝ} (he : 0 < eps) (heta : 0 ≤ eta) (h1 : lb ≤ y) (h2 : y ≤ ub)
include he heta h1 h2

theorem low_mem : 0 < 1 - (y - lb) / (ub - lb + eps) ∧ 1 - (y - lb) / (ub - lb + eps) ≤ 1 := by
  have hden : 0 < ub - lb + eps := by linarith
  have a : (y - lb) / (ub - lb + eps) < 1 := (div_lt_one hden).2 (by linarith)
  have b : 0 ≤ (y - lb) / (ub - lb + eps) := div_nonneg (by linarith) hden.le
  constructor <;> linarith

theorem high_mem : 0 < 1 - (ub - y) / (ub - lb + eps) ∧ 1 - (ub - y) / (ub - lb + eps) ≤ 1 := by
  have hden : 0 < ub - lb + eps := by linarith
  have a : (ub - y) / (ub - lb + eps) < 1 := (div_lt_one hden).2 (by linarith)
  have b : 0 ≤ (ub - y) / (ub - lb + eps) := div_nonneg (by linarith) hden.le
  constructor <;> linarith

/-- The new value for a draw up to one half. -/
theorem value_low {r : ℝ} (r0 : 0 ≤ r) (r1 : r ≤ 1 / 2) :
    mutatedValue rp eps eta y lb ub r =
      some (y - (1 - curve eta (1 - (y - lb) / (ub - lb + eps)) (2 * r)) * (ub - lb)) := by
  obtain ⟨w0, w1⟩ := low_mem he heta h1 h2
  obtain ⟨p0, p1⟩ := pow_mem heta w0 w1
  obtain ⟨v0, v1⟩ := val_mem heta w0 w1 (show 0 ≤ 2 * r by linarith) (by linarith)
  obtain ⟨c0, c1⟩ := curve_mem heta w0 w1 (show 0 ≤ 2 * r by linarith) (by linarith)
  have e1 := pyPow_some rp w0.le (show 0 ≤ eta + 1 by linarith)
  have e2 := pyPow_some rp (p0.le.trans v0) (show 0 ≤ 1 / (eta + 1) by positivity)
  have hden : 0 < ub - lb + eps := by linarith
  simp only [mutatedValue, mutDeltaQ, if_pos r1, e1, Option.bind_eq_bind, Option.bind_some]
  rw [e2]
  simp only [Option.bind_some, Option.pure_def, Option.map_some, Option.some.injEq]
  rw [show (rp (2 * r + (1 - 2 * r) * (1 - (y - lb) / (ub - lb + eps)) ^ (eta + 1)) (1 / (eta + 1))) =
    curve eta (1 - (y - lb) / (ub - lb + eps)) (2 * r) from rfl] at *
  set c := curve eta (1 - (y - lb) / (ub - lb + eps)) (2 * r)
  rw [clamp_of_mem]
  · ring
  · have : (1 - c) * (ub - lb) ≤ y - lb := by
      calc (1 - c) * (ub - lb) ≤ (y - lb) / (ub - lb + eps) * (ub - lb + eps) :=
            mul_le_mul (by linarith) (by linarith) (by linarith) (div_nonneg (by linarith) hden.le)
        _ = y - lb := div_mul_cancel₀ _ hden.ne'
    linarith
  · have : 0 ≤ (1 - c) * (ub - lb) := mul_nonneg (by linarith) (by linarith)
    linarith

/-- The new value for a draw above one half. -/
theorem value_high {r : ℝ} (r0 : 1 / 2 < r) (r1 : r ≤ 1) :
    mutatedValue rp eps eta y lb ub r =
      some (y + (1 - curve eta (1 - (ub - y) / (ub - lb + eps)) (2 * (1 - r))) * (ub - lb)) := by
  obtain ⟨w0, w1⟩ := high_mem he heta h1 h2
  obtain ⟨p0, p1⟩ := pow_mem heta w0 w1
  obtain ⟨v0, v1⟩ := val_mem heta w0 w1 (show 0 ≤ 2 * (1 - r) by linarith) (by linarith)
  obtain ⟨c0, c1⟩ := curve_mem heta w0 w1 (show 0 ≤ 2 * (1 - r) by linarith) (by linarith)
  have e1 := pyPow_some rp w0.le (show 0 ≤ eta + 1 by linarith)
  have e2 := pyPow_some rp (p0.le.trans v0) (show 0 ≤ 1 / (eta + 1) by positivity)
  have hden : 0 < ub - lb + eps := by linarith
  have e3 : ∀ p : ℝ, 2 * (1 - r) + 2 * (r - 1 / 2) * p = 2 * (1 - r) + (1 - 2 * (1 - r)) * p := fun p => by ring
  simp only [mutatedValue, mutDeltaQ, if_neg (not_le.2 r0), e1, Option.bind_eq_bind, Option.bind_some, e3]
  rw [e2]
  simp only [Option.bind_some, Option.pure_def, Option.map_some, Option.some.injEq]
  rw [show (rp (2 * (1 - r) + (1 - 2 * (1 - r)) * (1 - (ub - y) / (ub - lb + eps)) ^ (eta + 1)) (1 / (eta + 1))) =
    curve eta (1 - (ub - y) / (ub - lb + eps)) (2 * (1 - r)) from rfl] at *
  set c := curve eta (1 - (ub - y) / (ub - lb + eps)) (2 * (1 - r))
  rw [clamp_of_mem]
  · have : 0 ≤ (1 - c) * (ub - lb) := mul_nonneg (by linarith) (by linarith)
    linarith
  · have : (1 - c) * (ub - lb) ≤ ub - y := by
      calc (1 - c) * (ub - lb) ≤ (ub - y) / (ub - lb + eps) * (ub - lb + eps) :=
            mul_le_mul (by linarith) (by linarith) (by linarith) (div_nonneg (by linarith) hden.le)
        _ = ub - y := div_mul_cancel₀ _ hden.ne'
    linarith

/-- The unclamped value stays away from a bound on which the old value is not. -/
theorem value_above {r v : ℝ} (r0 : 0 ≤ r) (r1 : r ≤ 1) (hy : lb < y) (hv : mutatedValue rp eps eta y lb ub r = some v) :
    lb < v := by
  have hden : 0 < ub - lb + eps := by linarith
  rcases le_or_gt r (1 / 2) with h | h
  · rw [value_low he heta h1 h2 r0 h, Option.some.injEq] at hv
    obtain ⟨w0, w1⟩ := low_mem he heta h1 h2
    obtain ⟨c0, c1⟩ := curve_mem heta w0 w1 (show 0 ≤ 2 * r by linarith) (by linarith)
    rw [← hv]
    have hd : 0 < (y - lb) / (ub - lb + eps) := div_pos (by linarith) hden
    have : (1 - curve eta (1 - (y - lb) / (ub - lb + eps)) (2 * r)) * (ub - lb) < y - lb := by
      calc _ ≤ (y - lb) / (ub - lb + eps) * (ub - lb) := mul_le_mul_of_nonneg_right (by linarith) (by linarith)
        _ < (y - lb) / (ub - lb + eps) * (ub - lb + eps) := mul_lt_mul_of_pos_left (by linarith) hd
        _ = y - lb := div_mul_cancel₀ _ hden.ne'
    linarith
  · rw [value_high he heta h1 h2 h r1, Option.some.injEq] at hv
    obtain ⟨w0, w1⟩ := high_mem he heta h1 h2
    obtain ⟨c0, c1⟩ := curve_mem heta w0 w1 (show 0 ≤ 2 * (1 - r) by linarith) (by linarith)
    have : 0 ≤ (1 - curve eta (1 - (ub - y) / (ub - lb + eps)) (2 * (1 - r))) * (ub - lb) :=
      mul_nonneg (by linarith) (by linarith)
    linarith

theorem value_below {r v : ℝ} (r0 : 0 ≤ r) (r1 : r ≤ 1) (hy : y < ub) (hv : mutatedValue rp eps eta y lb ub r = some v) :
    v < ub := by
  have hden : 0 < ub - lb + eps := by linarith
  rcases le_or_gt r (1 / 2) with h | h
  · rw [value_low he heta h1 h2 r0 h, Option.some.injEq] at hv
    obtain ⟨w0, w1⟩ := low_mem he heta h1 h2
    obtain ⟨c0, c1⟩ := curve_mem heta w0 w1 (show 0 ≤ 2 * r by linarith) (by linarith)
    have : 0 ≤ (1 - curve eta (1 - (y - lb) / (ub - lb + eps)) (2 * r)) * (ub - lb) :=
      mul_nonneg (by linarith) (by linarith)
    linarith
  · rw [value_high he heta h1 h2 h r1, Option.some.injEq] at hv
    obtain ⟨w0, w1⟩ := high_mem he heta h1 h2
    obtain ⟨c0, c1⟩ := curve_mem heta w0 w1 (show 0 ≤ 2 * (1 - r) by linarith) (by linarith)
    rw [← hv]
    have hd : 0 < (ub - y) / (ub - lb + eps) := div_pos (by linarith) hden
    have : (1 - curve eta (1 - (ub - y) / (ub - lb + eps)) (2 * (1 - r))) * (ub - lb) < ub - y := by
      calc _ ≤ (ub - y) / (ub - lb + eps) * (ub - lb) := mul_le_mul_of_nonneg_right (by linarith) (by linarith)
        _ < (ub - y) / (ub - lb + eps) * (ub - lb + eps) := mul_lt_mul_of_pos_left (by linarith) hd
        _ = ub - y := div_mul_cancel₀ _ hden.ne'
    linarith

/-- The new value grows with the draw. -/
theorem value_strict {r r' v v' : ℝ} (r0 : 0 ≤ r) (r1 : r' ≤ 1) (h : r < r') (hl : lb < y) (hu : y < ub)
    (hv : mutatedValue rp eps eta y lb ub r = some v) (hv' : mutatedValue rp eps eta y lb ub r' = some v') : v < v' := by
  have hden : 0 < ub - lb + eps := by linarith
  have hL : 0 < ub - lb := by linarith
  obtain ⟨w0, w1⟩ := low_mem he heta h1 h2
  obtain ⟨u0, u1⟩ := high_mem he heta h1 h2
  have hw : 1 - (y - lb) / (ub - lb + eps) < 1 := by
    have : 0 < (y - lb) / (ub - lb + eps) := div_pos (by linarith) hden
    linarith
  have hu : 1 - (ub - y) / (ub - lb + eps) < 1 := by
    have : 0 < (ub - y) / (ub - lb + eps) := div_pos (by linarith) hden
    linarith
  rcases le_or_gt r' (1 / 2) with h' | h'
  · rw [value_low he heta h1 h2 r0 (by linarith), Option.some.injEq] at hv
    rw [value_low he heta h1 h2 (by linarith) h', Option.some.injEq] at hv'
    have := mul_lt_mul_of_pos_right
      (curve_strict heta w0 w1 hw (show 0 ≤ 2 * r by linarith) (show 2 * r' ≤ 1 by linarith) (by linarith)) hL
    rw [← hv, ← hv']
    linarith
  · rw [value_high he heta h1 h2 h' r1, Option.some.injEq] at hv'
    rcases le_or_gt r (1 / 2) with h'' | h''
    · rw [value_low he heta h1 h2 r0 h'', Option.some.injEq] at hv
      have a : curve eta (1 - (ub - y) / (ub - lb + eps)) (2 * (1 - r')) < 1 := by
        have := curve_strict heta u0 u1 hu (show 0 ≤ 2 * (1 - r') by linarith) le_rfl (show 2 * (1 - r') < 1 by linarith)
        rwa [curve_one heta u0 u1] at this
      have b := mul_pos (sub_pos.2 a) hL
      have c := mul_nonneg (sub_nonneg.2 (curve_mem heta w0 w1 (show 0 ≤ 2 * r by linarith) (by linarith)).2) hL.le
      linarith
    · rw [value_high he heta h1 h2 h'' (by linarith), Option.some.injEq] at hv
      have := mul_lt_mul_of_pos_right
        (curve_strict heta u0 u1 hu (show 0 ≤ 2 * (1 - r') by linarith) (show 2 * (1 - r) ≤ 1 by linarith) (by linarith)) hL
      rw [← hv, ← hv']
      linarith

/-- Every value that is not within `eps` of a bound is the result of a draw. -/
theorem value_reach (hl : lb < y) (hu : y < ub) {t : ℝ} (t0 : lb + eps ≤ t) (t1 : t ≤ ub - eps) :
    ∃ r, 0 ≤ r ∧ r ≤ 1 ∧ mutatedValue rp eps eta y lb ub r = some t := by
  have hden : 0 < ub - lb + eps := by linarith
  have hL : 0 < ub - lb := by linarith
  obtain ⟨w0, w1⟩ := low_mem he heta h1 h2
  obtain ⟨u0, u1⟩ := high_mem he heta h1 h2
  have hw : 1 - (y - lb) / (ub - lb + eps) < 1 := by
    have : 0 < (y - lb) / (ub - lb + eps) := div_pos (by linarith) hden
    linarith
  have hw' : 1 - (ub - y) / (ub - lb + eps) < 1 := by
    have : 0 < (ub - y) / (ub - lb + eps) := div_pos (by linarith) hden
    linarith
  have near : ∀ z, 0 < z → z ≤ ub - lb → z - eps ≤ z / (ub - lb + eps) * (ub - lb) := by
    intro z z0 z1
    rw [div_mul_eq_mul_div, le_div_iff₀ hden]
    nlinarith
  rcases le_or_gt t y with h | h
  · have hc : 1 - (y - lb) / (ub - lb + eps) ≤ 1 - (y - t) / (ub - lb) := by
      have : (y - t) / (ub - lb) ≤ (y - lb) / (ub - lb + eps) := by
        rw [div_le_iff₀ hL]
        have := near (y - lb) (by linarith) (by linarith)
        linarith
      linarith
    have hc' : 1 - (y - t) / (ub - lb) ≤ 1 := by
      have : 0 ≤ (y - t) / (ub - lb) := div_nonneg (by linarith) hL.le
      linarith
    obtain ⟨s, s0, s1, e⟩ := curve_surj heta w0 w1 hw hc hc'
    refine ⟨s / 2, by linarith, by linarith, ?_⟩
    rw [value_low he heta h1 h2 (by linarith) (by linarith), show 2 * (s / 2) = s by ring, e]
    congr 1
    field_simp
    ring
  · have hc : 1 - (ub - y) / (ub - lb + eps) ≤ 1 - (t - y) / (ub - lb) := by
      have : (t - y) / (ub - lb) ≤ (ub - y) / (ub - lb + eps) := by
        rw [div_le_iff₀ hL]
        have := near (ub - y) (by linarith) (by linarith)
        linarith
      linarith
    have hc' : 1 - (t - y) / (ub - lb) < 1 := by
      have : 0 < (t - y) / (ub - lb) := div_pos (by linarith) hL
      linarith
    obtain ⟨s, s0, s1, e⟩ := curve_surj heta u0 u1 hw' hc hc'.le
    have s2 : s < 1 := by
      rcases s1.eq_or_lt with rfl | s2
      · rw [curve_one heta u0 u1] at e
        linarith
      · exact s2
    refine ⟨1 - s / 2, by linarith, by linarith, ?_⟩
    rw [value_high he heta h1 h2 (by linarith) (by linarith), show 2 * (1 - (1 - s / 2)) = s by ring, e]
    congr 1
    field_simp
    ring

end

/-! ## The spread of the crossover -/

/-- `beta_q` with the bound `beta`, drivertools.py:78-85, 111-116. -/
theorem beta_mem {eta beta r q : ℝ} (heta : 0 ≤ eta) (hb : 1 ≤ beta) (r0 : 0 ≤ r) (r1 : r < 1)
    (hq : getBetaQ rp r (2 - beta ^ (-(eta + 1))) eta = some q) : 0 ≤ q ∧ q < beta := by
  have b0 : 0 < beta := by linarith
  have e0 : 0 < 1 / (eta + 1) := by positivity
  set p := beta ^ (-(eta + 1)) with hp
  have p0 : 0 < p := Real.rpow_pos_of_pos b0 _
  have p1 : p ≤ 1 := Real.rpow_le_one_of_one_le_of_nonpos hb (by linarith)
  have a0 : (0 : ℝ) < 2 - p := by linarith
  have hlt : p < 2 - r * (2 - p) := by nlinarith
  unfold getBetaQ at hq
  rw [if_neg a0.ne'] at hq
  split_ifs at hq with c1 c2
  · have ra : r * (2 - p) ≤ 1 := by rwa [le_div_iff₀ a0] at c1
    have ra0 : 0 ≤ r * (2 - p) := mul_nonneg r0 a0.le
    rw [pyPow_some rp ra0 e0.le, Option.some.injEq] at hq
    rw [← hq]
    refine ⟨Real.rpow_nonneg ra0 _, ?_⟩
    rcases hb.eq_or_lt with hb | hb
    · have : p = 1 := by rw [hp, ← hb, Real.one_rpow]
      rw [← hb]
      exact Real.rpow_lt_one ra0 (by rw [this]; linarith) e0
    · exact lt_of_le_of_lt (Real.rpow_le_one ra0 ra e0.le) hb
  · have g0 : 0 < 2 - r * (2 - p) := by linarith
    have g1 : 0 < 1 / (2 - r * (2 - p)) := by positivity
    rw [pyPow_some rp g1.le e0.le, Option.some.injEq] at hq
    rw [← hq]
    refine ⟨Real.rpow_nonneg g1.le _, ?_⟩
    have h1 : 1 / (2 - r * (2 - p)) < beta ^ (eta + 1) := by
      have : beta ^ (eta + 1) = 1 / p := by rw [hp, Real.rpow_neg b0.le]; simp
      rw [this]
      exact one_div_lt_one_div_of_lt p0 hlt
    calc rp (1 / (2 - r * (2 - p))) (1 / (eta + 1)) < (beta ^ (eta + 1)) ^ (1 / (eta + 1)) :=
          Real.rpow_lt_rpow g1.le h1 e0
      _ = beta := by rw [← Real.rpow_mul b0.le, mul_one_div_cancel (by linarith), Real.rpow_one]

theorem beta_strict {eta beta r r' q q' : ℝ} (heta : 0 ≤ eta) (hb : 1 ≤ beta) (r0 : 0 ≤ r) (h : r < r') (r1 : r' < 1)
    (hq : getBetaQ rp r (2 - beta ^ (-(eta + 1))) eta = some q)
    (hq' : getBetaQ rp r' (2 - beta ^ (-(eta + 1))) eta = some q') : q < q' := by
  have b0 : 0 < beta := by linarith
  have e0 : 0 < 1 / (eta + 1) := by positivity
  set p := beta ^ (-(eta + 1)) with hp
  have p0 : 0 < p := Real.rpow_pos_of_pos b0 _
  have p1 : p ≤ 1 := Real.rpow_le_one_of_one_le_of_nonpos hb (by linarith)
  have a0 : (0 : ℝ) < 2 - p := by linarith
  have k1 : r * (2 - p) < r' * (2 - p) := mul_lt_mul_of_pos_right h a0
  have k2 : r' * (2 - p) < 2 := by nlinarith
  have k3 : 0 ≤ r * (2 - p) := mul_nonneg r0 a0.le
  have big : ∀ x : ℝ, 1 < x → x < 2 → 1 < rp (1 / (2 - x)) (1 / (eta + 1)) := fun x x0 x1 =>
    Real.one_lt_rpow (by rw [lt_div_iff₀ (by linarith)]; linarith) e0
  unfold getBetaQ at hq hq'
  rw [if_neg a0.ne'] at hq hq'
  split_ifs at hq' with c1 c2
  · have ra : r' * (2 - p) ≤ 1 := by rwa [le_div_iff₀ a0] at c1
    rw [if_pos (by linarith), pyPow_some rp k3 e0.le, Option.some.injEq] at hq
    rw [pyPow_some rp (by linarith) e0.le, Option.some.injEq] at hq'
    rw [← hq, ← hq']
    exact Real.rpow_lt_rpow k3 k1 e0
  · have ra : 1 < r' * (2 - p) := by rwa [not_le, div_lt_iff₀ a0] at c1
    have d' : (0 : ℝ) < 2 - r' * (2 - p) := by linarith
    rw [pyPow_some rp (by positivity) e0.le, Option.some.injEq] at hq'
    split_ifs at hq with c3 c4
    · have rb : r * (2 - p) ≤ 1 := by rwa [le_div_iff₀ a0] at c3
      rw [pyPow_some rp k3 e0.le, Option.some.injEq] at hq
      have h1 : rp (r * (2 - p)) (1 / (eta + 1)) ≤ 1 := Real.rpow_le_one k3 rb e0.le
      have h2 := big _ ra k2
      linarith
    · have d : (0 : ℝ) < 2 - r * (2 - p) := by linarith
      rw [pyPow_some rp (by positivity) e0.le, Option.some.injEq] at hq
      rw [← hq, ← hq']
      exact Real.rpow_lt_rpow (by positivity) (one_div_lt_one_div_of_lt d' (by linarith)) e0

section
variable {eps eta x y lb ub : ℝ} (he : 0 < eps) (heta : 0 ≤ eta) (hx1 : lb ≤ x) (hx2 : x ≤ ub) (hy1 : lb ≤ y) (hy2 : y ≤ ub)
  (hne : x ≠ y)
include he heta hx1 hx2 hy1 hy2 hne

/-- What `sbxValues` returns, without the clamping. -/
theorem sbx_values {r a b : ℝ} (r0 : 0 ≤ r) (r1 : r < 1) (h : sbxValues rp eps eta x y lb ub r = some (a, b)) :
    ∃ beta beta' q q', 1 ≤ beta ∧ 1 ≤ beta' ∧ getBetaQ rp r (2 - beta ^ (-(eta + 1))) eta = some q ∧
      getBetaQ rp r (2 - beta' ^ (-(eta + 1))) eta = some q' ∧
      beta = 1 + 2 * (min x y - lb) / (max x y - min x y + eps) ∧
      beta' = 1 + 2 * (ub - max x y) / (max x y - min x y + eps) ∧
      a = 1 / 2 * ((min x y + max x y) - q * (max x y - min x y)) ∧
      b = 1 / 2 * ((min x y + max x y) + q' * (max x y - min x y)) ∧
      lb < a ∧ a ≤ (x + y) / 2 ∧ (x + y) / 2 ≤ b ∧ b < ub := by
  have hm : min x y < max x y := min_lt_max.2 hne
  have hl : lb ≤ min x y := le_min hx1 hy1
  have hu : max x y ≤ ub := max_le hx2 hy2
  have hs : min x y + max x y = x + y := min_add_max x y
  have hden : 0 < max x y - min x y + eps := by linarith
  have b1 : 1 ≤ 1 + 2 * (min x y - lb) / (max x y - min x y + eps) := by
    have : 0 ≤ 2 * (min x y - lb) / (max x y - min x y + eps) := div_nonneg (by linarith) hden.le
    linarith
  have b2 : 1 ≤ 1 + 2 * (ub - max x y) / (max x y - min x y + eps) := by
    have : 0 ≤ 2 * (ub - max x y) / (max x y - min x y + eps) := div_nonneg (by linarith) hden.le
    linarith
  have bound : ∀ z : ℝ, 0 ≤ z → (1 + 2 * z / (max x y - min x y + eps)) * (max x y - min x y) ≤
      max x y - min x y + 2 * z := by
    intro z z0
    have : 2 * z / (max x y - min x y + eps) * (max x y - min x y) ≤ 2 * z := by
      rw [div_mul_eq_mul_div, div_le_iff₀ hden]
      nlinarith
    linarith
  unfold sbxValues at h
  simp only [Option.bind_eq_bind] at h
  rw [pyPow_some' rp (by linarith), Option.bind_some] at h
  obtain ⟨q, hq, h⟩ := Option.bind_eq_some_iff.1 h
  rw [pyPow_some' rp (by linarith), Option.bind_some] at h
  obtain ⟨q', hq', h⟩ := Option.bind_eq_some_iff.1 h
  simp only [Option.pure_def, Option.some.injEq, Prod.mk.injEq] at h
  obtain ⟨ha, hb⟩ := h
  obtain ⟨q0, q1⟩ := beta_mem heta b1 r0 r1 hq
  obtain ⟨q0', q1'⟩ := beta_mem heta b2 r0 r1 hq'
  have hd : 0 < max x y - min x y := by linarith
  have a1 := (mul_lt_mul_of_pos_right q1 hd).trans_le (bound _ (by linarith))
  have a2 := (mul_lt_mul_of_pos_right q1' hd).trans_le (bound _ (by linarith))
  have a3 := mul_nonneg q0 hd.le
  have a4 := mul_nonneg q0' hd.le
  rw [clamp_of_mem (by linarith) (by linarith)] at ha
  rw [clamp_of_mem (by linarith) (by linarith)] at hb
  refine ⟨_, _, q, q', b1, b2, hq, hq', rfl, rfl, ha.symm, hb.symm, ?_, ?_, ?_, ?_⟩ <;> linarith

/-- The children move apart as the draw grows. -/
theorem sbx_strict {r r' a b a' b' : ℝ} (r0 : 0 ≤ r) (hr : r < r') (r1 : r' < 1)
    (h : sbxValues rp eps eta x y lb ub r = some (a, b)) (h' : sbxValues rp eps eta x y lb ub r' = some (a', b')) :
    a' < a ∧ b < b' := by
  have hd : 0 < max x y - min x y := sub_pos.2 (min_lt_max.2 hne)
  obtain ⟨β, γ, q, p, b1, b2, hq, hp, rfl, rfl, ha, hb, -⟩ := sbx_values he heta hx1 hx2 hy1 hy2 hne r0 (hr.trans r1) h
  obtain ⟨_, _, q', p', -, -, hq', hp', rfl, rfl, ha', hb', -⟩ :=
    sbx_values he heta hx1 hx2 hy1 hy2 hne (r0.trans hr.le) r1 h'
  have e1 := mul_lt_mul_of_pos_right (beta_strict heta b1 r0 hr r1 hq hq') hd
  have e2 := mul_lt_mul_of_pos_right (beta_strict heta b2 r0 hr r1 hp hp') hd
  constructor <;> linarith

end

/-- A property of the coordinates of both new lists that holds for copies and for recombined values. -/
theorem crossoverLoop_keeps {K : Type*} [Field K] [LinearOrder K] (pw : K → K → K) (eps eta : K) (ds : ℕ → SbxDraw K)
    {xs ys nx ny : ℕ} (h1 : xs ≠ nx) (h2 : xs ≠ ny) (h3 : ys ≠ nx) (h4 : ys ≠ ny) (P : ℕ → K → Prop)
    (X Y : List K) : ∀ (dims : List (K × K)) (i : ℕ) (h h' : Heap K), h xs = X → h ys = Y →
      crossoverLoop pw eps eta ds xs ys nx ny i dims h = some h' →
      (∀ j d x y a b, dims[j]? = some d → X[i + j]? = some x → Y[i + j]? = some y → eps < |x - y| →
        sbxValues pw eps eta x y d.1 d.2 (ds (i + j)).rand = some (a, b) → P (i + j) a ∧ P (i + j) b) →
      (∀ r, r = nx ∨ r = ny → ∀ j v, (h r)[j]? = some v → P j v) →
      ∀ r, r = nx ∨ r = ny → ∀ j v, (h' r)[j]? = some v → P j v := by
  intro dims
  induction dims with
  | nil =>
    intro i h h' _ _ he _ hP
    simp only [crossoverLoop, Option.some.injEq] at he
    subst he
    exact hP
  | cons d dims ih =>
    obtain ⟨lb, ub⟩ := d
    intro i h h' hX hY he hS hP
    have hS' : ∀ j d x y a b, dims[j]? = some d → X[i + 1 + j]? = some x → Y[i + 1 + j]? = some y → eps < |x - y| →
        sbxValues pw eps eta x y d.1 d.2 (ds (i + 1 + j)).rand = some (a, b) → P (i + 1 + j) a ∧ P (i + 1 + j) b := by
      intro j d x y a b hd hx hy
      rw [show i + 1 + j = i + (j + 1) by omega] at hx hy ⊢
      exact hS (j + 1) d x y a b (by simpa using hd) hx hy
    rw [crossoverLoop] at he
    by_cases hsk : 1 / 2 < (ds i).skip
    · rw [if_pos hsk] at he
      exact ih _ _ _ hX hY he hS' hP
    · rw [if_neg hsk] at he
      cases hx : (h xs)[i]? with
      | none => rw [hx] at he; cases he
      | some x =>
        cases hy : (h ys)[i]? with
        | none => rw [hx, hy] at he; cases he
        | some y =>
          rw [hx, hy] at he
          simp only at he
          by_cases habs : |x - y| ≤ eps
          · rw [if_pos habs] at he
            exact ih _ _ _ hX hY he hS' hP
          · rw [if_neg habs] at he
            cases hv : sbxValues pw eps eta x y lb ub (ds i).rand with
            | none => rw [hv] at he; cases he
            | some ab =>
              obtain ⟨a, b⟩ := ab
              rw [hv] at he
              simp only at he
              obtain ⟨Pa, Pb⟩ := hS 0 (lb, ub) x y a b rfl (by rw [← hX]; exact hx) (by rw [← hY]; exact hy)
                (not_le.1 habs) hv
              have hw : ∀ (g : Heap K) (s : ℕ) (v : K), (∀ r, r = nx ∨ r = ny → ∀ j u, (g r)[j]? = some u → P j u) →
                  P i v → ∀ r, r = nx ∨ r = ny → ∀ j u, (g.write s i v r)[j]? = some u → P j u := by
                intro g s v hg Pv r hr j u hu
                by_cases hrs : r = s
                · subst hrs
                  rw [write_same] at hu
                  rw [List.getElem?_set] at hu
                  split_ifs at hu with c1 c2
                  · rw [Option.some.injEq] at hu
                    rw [← hu, ← c1]
                    exact Pv
                  · exact hg r hr j u hu
                · rw [write_ne _ _ _ hrs] at hu
                  exact hg r hr j u hu
              have hfix : ∀ (g : Heap K) (v w : K) (p : ℕ), p ≠ nx → p ≠ ny → (g.write nx i v).write ny i w p = g p :=
                fun g v w p hp1 hp2 => by rw [write_ne _ _ _ hp2, write_ne _ _ _ hp1]
              refine ih _ _ _ ?_ ?_ he hS' ?_
              · split_ifs
                · rw [hfix _ _ _ _ h1 h2, hfix _ _ _ _ h1 h2, hX]
                · rw [hfix _ _ _ _ h1 h2, hX]
              · split_ifs
                · rw [hfix _ _ _ _ h3 h4, hfix _ _ _ _ h3 h4, hY]
                · rw [hfix _ _ _ _ h3 h4, hY]
              · split_ifs
                · exact hw _ _ _ (hw _ _ _ (hw _ _ _ (hw _ _ _ hP Pa) Pb) Pb) Pa
                · exact hw _ _ _ (hw _ _ _ hP Pa) Pb

/-! ## Vectors -/

/-- C147, mutation: a coordinate that is not on a bound does not get there, whatever is drawn. -/
theorem C147_mutate (eps : ℝ) (he : 0 < eps) (ds : ℕ → MutDraw ℝ) (hds : ∀ i, 0 ≤ (ds i).rnd ∧ (ds i).rnd ≤ 1)
    (xs : List ℝ) (dims : List (ℝ × ℝ)) (rate eta : ℝ) (heta : 0 ≤ eta) (hb : Inside xs dims) :
    ∃ ys, mutate rp eps ds xs dims rate eta = some ys ∧ Inside ys dims := by
  obtain ⟨ys, h, -⟩ := C13_real eps he ds hds xs dims rate eta heta hb.inBox
  refine ⟨ys, h, ?_⟩
  obtain ⟨hl, hh⟩ := inside_iff.1 hb
  obtain ⟨g1, g2, g3⟩ := mutateLoop_spec rp eps rate eta ds xs dims 0 xs ys rfl h
  refine inside_iff.2 ⟨g1.trans hl, fun i y d hy hd => ?_⟩
  by_cases hs : (ds i).select ≤ rate
  · obtain ⟨x, hx, v, hv, hy'⟩ := g3 i d (Nat.zero_le _) (by simpa using hd) hs
    rw [hy, Option.some.injEq] at hy'
    subst hy'
    obtain ⟨a, b⟩ := hh i x d hx hd
    exact ⟨value_above he heta a.le b.le (hds i).1 (hds i).2 a hv, value_below he heta a.le b.le (hds i).1 (hds i).2 b hv⟩
  · rw [g2 i fun hc => hs hc.2.2] at hy
    exact hh i y d hy hd

/-- C147, mutation: of two draws for a selected coordinate the greater one gives the greater value; so no value is the
result of two draws, and none is preferred. -/
theorem C147_mutate_strict (eps : ℝ) (he : 0 < eps) (ds ds' : ℕ → MutDraw ℝ) (xs : List ℝ) (dims : List (ℝ × ℝ))
    (rate eta : ℝ) (heta : 0 ≤ eta) (hb : Inside xs dims) (ys ys' : List ℝ)
    (h : mutate rp eps ds xs dims rate eta = some ys) (h' : mutate rp eps ds' xs dims rate eta = some ys')
    (j : ℕ) (hs : (ds j).select ≤ rate) (hs' : (ds' j).select ≤ rate) (h0 : 0 ≤ (ds j).rnd) (hlt : (ds j).rnd < (ds' j).rnd)
    (h1 : (ds' j).rnd ≤ 1) (y y' : ℝ) (hy : ys[j]? = some y) (hy' : ys'[j]? = some y') : y < y' := by
  obtain ⟨hl, hh⟩ := inside_iff.1 hb
  obtain ⟨g1, -, g3⟩ := mutateLoop_spec rp eps rate eta ds xs dims 0 xs ys rfl h
  obtain ⟨-, -, g3'⟩ := mutateLoop_spec rp eps rate eta ds' xs dims 0 xs ys' rfl h'
  have hj : j < dims.length := by
    rw [← hl, ← g1]
    exact (List.getElem?_eq_some_iff.1 hy).1
  have hd := List.getElem?_eq_getElem hj
  obtain ⟨x, hx, v, hv, e⟩ := g3 j dims[j] (Nat.zero_le _) (by simp) hs
  obtain ⟨x', hx', v', hv', e'⟩ := g3' j dims[j] (Nat.zero_le _) (by simp) hs'
  rw [hy, Option.some.injEq] at e
  rw [hy', Option.some.injEq] at e'
  rw [hx, Option.some.injEq] at hx'
  subst e e' hx'
  obtain ⟨a, b⟩ := hh j x _ hx hd
  exact value_strict he heta a.le b.le h0 h1 hlt a b hv hv'

/-- C147, mutation: one mutation can reach every vector that is farther than `eps` from the bounds. -/
theorem C147_mutate_reach (eps : ℝ) (he : 0 < eps) (xs ts : List ℝ) (dims : List (ℝ × ℝ)) (rate eta : ℝ) (hr : 0 ≤ rate)
    (heta : 0 ≤ eta) (hb : Inside xs dims)
    (ht : List.Forall₂ (fun t d => d.1 + eps ≤ t ∧ t ≤ d.2 - eps) ts dims) :
    ∃ ds : ℕ → MutDraw ℝ, (∀ i, 0 ≤ (ds i).select ∧ (ds i).select ≤ 1 ∧ 0 ≤ (ds i).rnd ∧ (ds i).rnd ≤ 1) ∧
      mutate rp eps ds xs dims rate eta = some ts := by
  obtain ⟨hl, hh⟩ := inside_iff.1 hb
  have hlt := ht.length_eq
  have key : ∀ j : ℕ, ∃ r : ℝ, 0 ≤ r ∧ r ≤ 1 ∧ ∀ (x : ℝ) (d : ℝ × ℝ) (t : ℝ), xs[j]? = some x → dims[j]? = some d → ts[j]? = some t →
      mutatedValue rp eps eta x d.1 d.2 r = some t := by
    intro j
    by_cases hj : j < dims.length
    · have hd := List.getElem?_eq_getElem hj
      have hx := List.getElem?_eq_getElem (show j < xs.length by omega)
      have hty := List.getElem?_eq_getElem (show j < ts.length by omega)
      obtain ⟨a, b⟩ := hh j _ _ hx hd
      obtain ⟨c, e⟩ := (List.forall₂_iff_get.1 ht).2 j (by omega) hj
      obtain ⟨r, r0, r1, hv⟩ := value_reach he heta a.le b.le a b c e
      refine ⟨r, r0, r1, fun x d t h1 h2 h3 => ?_⟩
      rw [hx, Option.some.injEq] at h1
      rw [hd, Option.some.injEq] at h2
      rw [hty, Option.some.injEq] at h3
      rw [← h1, ← h2, ← h3]
      exact hv
    · exact ⟨0, le_rfl, zero_le_one, fun x d t _ h2 _ => by
        rw [List.getElem?_eq_none (by omega)] at h2
        cases h2⟩
  choose r r0 r1 hv using key
  refine ⟨fun j => ⟨0, r j⟩, fun i => ⟨le_rfl, zero_le_one, r0 i, r1 i⟩, ?_⟩
  obtain ⟨ys, h, -⟩ := C13_real eps he (fun j => ⟨0, r j⟩) (fun i => ⟨r0 i, r1 i⟩) xs dims rate eta heta hb.inBox
  obtain ⟨g1, -, g3⟩ := mutateLoop_spec rp eps rate eta (fun j => ⟨0, r j⟩) xs dims 0 xs ys rfl h
  refine h.trans (congrArg some (List.ext_getElem? fun j => ?_))
  by_cases hj : j < dims.length
  · have hd := List.getElem?_eq_getElem hj
    have hty := List.getElem?_eq_getElem (show j < ts.length by omega)
    obtain ⟨x, hx, v, hv', e⟩ := g3 j dims[j] (Nat.zero_le _) (by simp) hr
    rw [e, hty, Option.some.injEq]
    have := hv j x _ _ hx hd hty
    rw [hv', Option.some.injEq] at this
    exact this
  · rw [List.getElem?_eq_none (by omega), List.getElem?_eq_none (by omega)]

/-- C147, bounds: a coordinate on its lower bound stays there for half of the draws, and leaves it for the others without
reaching the upper one. -/
theorem C147_bound {eps eta lb ub r : ℝ} (he : 0 < eps) (heta : 0 ≤ eta) (hb : lb < ub) (r0 : 0 ≤ r) (r1 : r ≤ 1) :
    ∃ v, mutate rp eps (fun _ => ⟨0, r⟩) [lb] [(lb, ub)] 1 eta = some [v] ∧ (r ≤ 1 / 2 → v = lb) ∧
      (1 / 2 < r → lb < v ∧ v < ub) := by
  have one : ∀ v, mutatedValue rp eps eta lb lb ub r = some v →
      mutate rp eps (fun _ => ⟨0, r⟩) [lb] [(lb, ub)] 1 eta = some [v] := by
    intro v hv
    simp [mutate, mutateLoop, hv, not_lt.2 (zero_le_one' ℝ)]
  have hL : 0 < ub - lb := by linarith
  rcases le_or_gt r (1 / 2) with h | h
  · refine ⟨lb, one _ ?_, fun _ => rfl, fun hc => absurd hc (not_lt.2 h)⟩
    rw [value_low he heta le_rfl hb.le r0 h]
    have : curve eta (1 - (lb - lb) / (ub - lb + eps)) (2 * r) = 1 := by simp [curve]
    rw [this]
    simp
  · obtain ⟨w0, w1⟩ := high_mem he heta le_rfl hb.le
    have hw : 1 - (ub - lb) / (ub - lb + eps) < 1 := by
      have : 0 < (ub - lb) / (ub - lb + eps) := div_pos hL (by linarith)
      linarith
    have a : curve eta (1 - (ub - lb) / (ub - lb + eps)) (2 * (1 - r)) < 1 := by
      have := curve_strict heta w0 w1 hw (show 0 ≤ 2 * (1 - r) by linarith) le_rfl (show 2 * (1 - r) < 1 by linarith)
      rwa [curve_one heta w0 w1] at this
    have hv := value_high he heta le_rfl hb.le h r1
    refine ⟨_, one _ hv, fun hc => absurd hc (not_le.2 h), fun _ => ⟨?_, value_below he heta le_rfl hb.le r0 r1 hb hv⟩⟩
    have b := mul_pos (sub_pos.2 a) hL
    linarith

/-- C147, crossover: a child of two vectors without coordinates on the bounds has none either. -/
theorem C147_crossover (eps : ℝ) (he : 0 < eps) (first : ℝ) (pick : Bool) (ds : ℕ → SbxDraw ℝ)
    (hds : ∀ i, 0 ≤ (ds i).rand ∧ (ds i).rand < 1) (h : Heap ℝ) (next xs ys : ℕ) (hx : xs < next) (hy : ys < next)
    (dims : List (ℝ × ℝ)) (rate eta : ℝ) (heta : 0 ≤ eta) (hbx : Inside (h xs) dims) (hby : Inside (h ys) dims) :
    ∃ h' r, crossover rp eps first pick ds h next xs ys dims rate eta = some (h', r) ∧ Inside (h' r) dims := by
  obtain ⟨h', r, hc, hbox, -⟩ := C14_real eps he first pick ds hds h next xs ys hx hy dims rate eta heta hbx.inBox hby.inBox
  refine ⟨h', r, hc, ?_⟩
  obtain ⟨lx, ix⟩ := inside_iff.1 hbx
  obtain ⟨ly, iy⟩ := inside_iff.1 hby
  refine inside_iff.2 ⟨hbox.length_eq, ?_⟩
  have c1 : h.copy2 next xs ys next = h xs := by simp [Heap.copy2]
  have c2 : h.copy2 next xs ys (next + 1) = h ys := by simp [Heap.copy2]
  have start : ∀ s, s = next ∨ s = next + 1 → ∀ (j : ℕ) (v : ℝ), (h.copy2 next xs ys s)[j]? = some v →
      ∀ d : ℝ × ℝ, dims[j]? = some d → d.1 < v ∧ v < d.2 := by
    rintro s (rfl | rfl) j v hv d hd
    · rw [c1] at hv; exact ix j v d hv hd
    · rw [c2] at hv; exact iy j v d hv hd
  have hr : (if pick = true then next else next + 1) = next ∨ (if pick = true then next else next + 1) = next + 1 := by
    cases pick <;> simp
  unfold crossover at hc
  simp only at hc
  by_cases hf : rate < first
  · rw [if_pos hf, Option.some.injEq, Prod.mk.injEq] at hc
    obtain ⟨rfl, rfl⟩ := hc
    exact fun i v d hv hd => start _ hr i v hv d hd
  · rw [if_neg hf] at hc
    cases hl : crossoverLoop rp eps eta ds xs ys next (next + 1) 0 dims (h.copy2 next xs ys) with
    | none => rw [hl] at hc; cases hc
    | some h2 =>
      rw [hl] at hc
      simp only [Option.some.injEq, Prod.mk.injEq] at hc
      obtain ⟨rfl, rfl⟩ := hc
      have := crossoverLoop_keeps rp eps eta ds (show xs ≠ next by omega) (show xs ≠ next + 1 by omega)
        (show ys ≠ next by omega) (show ys ≠ next + 1 by omega) (fun j v => ∀ d : ℝ × ℝ, dims[j]? = some d → d.1 < v ∧ v < d.2)
        (h xs) (h ys) dims 0 (h.copy2 next xs ys) h2
        (by simp [Heap.copy2, show xs ≠ next by omega, show xs ≠ next + 1 by omega])
        (by simp [Heap.copy2, show ys ≠ next by omega, show ys ≠ next + 1 by omega]) hl ?_ start
      · exact fun i v d hv hd => this _ hr i v hv d hd
      · intro j d x y a b hd hx' hy' hne hv
        rw [zero_add] at hx' hy' hv ⊢
        obtain ⟨x1, x2⟩ := ix j x d hx' hd
        obtain ⟨y1, y2⟩ := iy j y d hy' hd
        obtain ⟨_, _, _, _, -, -, -, -, -, -, -, -, k1, k2, k3, k4⟩ := sbx_values he heta x1.le x2.le y1.le y2.le
          (fun hxy => by rw [hxy, sub_self, abs_zero] at hne; linarith) (hds j).1 (hds j).2 hv
        refine ⟨fun d' hd' => ?_, fun d' hd' => ?_⟩ <;>
        · rw [hd, Option.some.injEq] at hd'
          subst hd'
          constructor <;> linarith

/-- C147, crossover of a coordinate: the two values lie on both sides of the middle of the parents, strictly between the
bounds even if a parent is on a bound, and move apart as the draw grows. -/
theorem C147_spread {eps eta x y lb ub r a b : ℝ} (he : 0 < eps) (heta : 0 ≤ eta) (hx1 : lb ≤ x) (hx2 : x ≤ ub)
    (hy1 : lb ≤ y) (hy2 : y ≤ ub) (hne : x ≠ y) (r0 : 0 ≤ r) (r1 : r < 1)
    (h : sbxValues rp eps eta x y lb ub r = some (a, b)) :
    lb < a ∧ a ≤ (x + y) / 2 ∧ (x + y) / 2 ≤ b ∧ b < ub ∧
      ∀ r' a' b', r < r' → r' < 1 → sbxValues rp eps eta x y lb ub r' = some (a', b') → a' < a ∧ b < b' := by
  obtain ⟨_, _, _, _, -, -, -, -, -, -, -, -, k1, k2, k3, k4⟩ := sbx_values he heta hx1 hx2 hy1 hy2 hne r0 r1 h
  exact ⟨k1, k2, k3, k4, fun r' a' b' hr hr1 h' => sbx_strict he heta hx1 hx2 hy1 hy2 hne r0 hr hr1 h h'⟩

/-! ## Examples -/

/-- Mutating the middle of the unit interval with the draw 1/4 and distribution index 0. -/
example : mutate rp (1 / 2) (fun _ => ⟨0, 1 / 4⟩) [1 / 2] [(0, 1)] 1 0 = some [1 / 3] := by
  have h : curve 0 (1 - (1 / 2 - 0) / (1 - 0 + 1 / 2)) (2 * (1 / 4)) = 5 / 6 := by
    norm_num [curve]
  have := value_low (eps := 1 / 2) (eta := 0) (y := 1 / 2) (lb := 0) (ub := 1) (r := 1 / 4) (by norm_num) le_rfl (by norm_num)
    (by norm_num) (by norm_num) (by norm_num)
  rw [h] at this
  simp only [mutate, mutateLoop, List.getElem?_cons_zero, this]
  norm_num

example : Inside [1 / 2, (3 : ℝ)] [(0, 1), (-1, 5)] := by
  refine .cons ?_ (.cons ?_ .nil) <;> norm_num

example : ¬ Inside [0, (3 : ℝ)] [(0, 1), (-1, 5)] := by
  intro h
  cases h with
  | cons h _ => norm_num at h

end Interior
end Evogil
