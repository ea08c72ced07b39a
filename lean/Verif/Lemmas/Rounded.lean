import Verif.Model.Rounded
import Verif.Spec.Rounded
import Verif.Spec.Box
import Verif.Lemmas.Binary64
import Mathlib.Tactic.Linarith
import Mathlib.Tactic.Ring
import Mathlib.Tactic.NormNum
import Mathlib.Tactic.Positivity

/-! # Lemmas on the operators with rounding -/

set_option linter.unusedSectionVars false

namespace Evogil.Rounded

open Spec

variable {K : Type*} [Field K] [LinearOrder K] [IsStrictOrderedRing K] [FloorRing K]

section laws

variable {fl : K → K} {u : K} (h : IsRounding fl u)
include h

theorem u_pos : 0 < u := by
  by_contra hn
  have := h.unit
  nlinarith [mul_nonneg (by positivity : (0 : K) ≤ 2 ^ 53) (by linarith : (0 : K) ≤ -u)]

theorem fl_zero : fl 0 = 0 := by simpa using h.grid 0 (by positivity)

theorem unit_nat : ((2 ^ 53 : ℕ) : K) * u = 1 := by
  have := h.unit
  rwa [show ((2 ^ 53 : ℕ) : K) = 2 ^ 53 by norm_num]

theorem fl_one : fl 1 = 1 := by
  have := h.grid (2 ^ 53) le_rfl
  rwa [unit_nat h] at this

theorem fl_two : fl 2 = 2 := by simpa using h.double 1 (fl_one h)

theorem fl_nonneg {x : K} (hx : 0 ≤ x) : 0 ≤ fl x := by
  have := h.mono 0 x hx
  rwa [fl_zero h] at this

theorem fl_nonpos {x : K} (hx : x ≤ 0) : fl x ≤ 0 := by
  have := h.mono x 0 hx
  rwa [fl_zero h] at this

theorem fl_le_one {x : K} (hx : x ≤ 1) : fl x ≤ 1 := by
  have := h.mono x 1 hx
  rwa [fl_one h] at this

theorem one_le_fl {x : K} (hx : 1 ≤ x) : 1 ≤ fl x := by
  have := h.mono 1 x hx
  rwa [fl_one h] at this

theorem le_fl {x y : K} (hx : fl x = x) (hy : x ≤ y) : x ≤ fl y := by
  have := h.mono x y hy
  rwa [hx] at this

theorem fl_le {x y : K} (hy : fl y = y) (hx : x ≤ y) : fl x ≤ y := by
  have := h.mono x y hx
  rwa [hy] at this

theorem draw_bounds {r : K} (hr : IsDraw u r) : 0 ≤ r ∧ r ≤ 1 - u := by
  obtain ⟨n, hn, rfl⟩ := hr
  have hu := u_pos h
  refine ⟨by positivity, ?_⟩
  have h1 : ((n + 1 : ℕ) : K) ≤ ((2 ^ 53 : ℕ) : K) := by exact_mod_cast hn
  push_cast at h1
  nlinarith [h.unit, mul_le_mul_of_nonneg_right h1 hu.le]

end laws

section mutation

variable {fl : K → K} {u : K} {pw : K → K → K} {eps eta : K}

theorem pow_ok {b e : K} (hb : 0 ≤ b) (he : 0 ≤ e) : pow pw b e = .ok (pw b e) := by
  rw [pow, if_neg (fun hh => absurd hh.1 (not_lt.2 hb)), if_neg (fun hh => absurd hh.2 (not_lt.2 he))]

theorem pow_ok' {b e : K} (hb : 0 < b) : pow pw b e = .ok (pw b e) := by
  rw [pow, if_neg (fun hh => absurd hh.1 (not_lt.2 hb.le)), if_neg (fun hh => absurd hh.1 hb.ne')]

theorem div_ok {a b : K} (hb : 0 < b) : div fl a b = .ok (fl (a / b)) := by
  rw [div, if_neg hb.ne']

/-- `delta1` and `delta2` lie in [0, 1]. -/
theorem ratio_mem (h : IsRounding fl u) (he : 0 < eps) (hfe : fl eps = eps) {a b : K} (ha : 0 ≤ a)
    (hab : a ≤ b) : 0 < fl (fl b + eps) ∧ 0 ≤ fl (fl a / fl (fl b + eps)) ∧
      fl (fl a / fl (fl b + eps)) ≤ 1 := by
  have h1 : eps ≤ fl (fl b + eps) := le_fl h hfe (by linarith [fl_nonneg h (ha.trans hab)])
  have h2 : fl b ≤ fl (fl b + eps) := le_fl h (h.idem b) (by linarith)
  have h0 : 0 < fl (fl b + eps) := lt_of_lt_of_le he h1
  refine ⟨h0, fl_nonneg h (div_nonneg (fl_nonneg h ha) h0.le), fl_le_one h ?_⟩
  rw [div_le_one h0]
  exact (h.mono _ _ hab).trans h2

/-- The sign of `delta_q`: towards the lower end for small draws, towards the upper one for large draws. -/
theorem mutDeltaQ_ok (h : IsRounding fl u) (hp : PowerLaws pw) (he : 0 < eps) (hfe : fl eps = eps)
    (heta : 0 ≤ eta) {y lb ub rnd : K} (h1 : lb ≤ y) (h2 : y ≤ ub) (hr : IsDraw u rnd) :
    ∃ q, mutDeltaQ fl pw eps eta y lb ub rnd = .ok q ∧ (rnd ≤ 1 / 2 → q ≤ 0) ∧ (1 / 2 < rnd → 0 ≤ q) := by
  obtain ⟨d0, a1, a2⟩ := ratio_mem h he hfe (a := y - lb) (b := ub - lb) (by linarith) (by linarith)
  obtain ⟨-, b1, b2⟩ := ratio_mem h he hfe (a := ub - y) (b := ub - lb) (by linarith) (by linarith)
  have hu := u_pos h
  have e1 : 1 ≤ fl (eta + 1) := one_le_fl h (by linarith)
  have e2 : 0 ≤ fl (1 / fl (eta + 1)) := fl_nonneg h (by positivity)
  obtain ⟨r0, r1⟩ := draw_bounds h hr
  obtain ⟨n, hn, hrn⟩ := hr
  have unit := h.unit
  have key : ∀ t s p : K, 0 ≤ t → 0 ≤ s → fl s = s → t + s = 1 → 0 ≤ p → p ≤ 1 →
      0 ≤ fl (t + fl (s * p)) ∧ fl (t + fl (s * p)) ≤ 1 := by
    intro t s p ht hs hfs hts hp0 hp1
    have k1 : 0 ≤ fl (s * p) := fl_nonneg h (mul_nonneg hs hp0)
    have k2 : fl (s * p) ≤ s := fl_le h hfs (by nlinarith)
    exact ⟨fl_nonneg h (by linarith), fl_le_one h (by linarith)⟩
  unfold mutDeltaQ
  simp only [div_ok d0, bind, Except.bind, pure, Except.pure]
  have half : rnd ≤ 1 / 2 ↔ 2 * n ≤ 2 ^ 53 := by
    constructor
    · intro hh
      by_contra hc
      have := mul_lt_mul_of_pos_right ((Nat.cast_lt (α := K)).2 (not_le.1 hc)) hu
      rw [unit_nat h, Nat.cast_mul, mul_assoc, ← hrn, Nat.cast_ofNat] at this
      linarith
    · intro hh
      have := mul_le_mul_of_nonneg_right ((Nat.cast_le (α := K)).2 hh) hu.le
      rw [unit_nat h, Nat.cast_mul, mul_assoc, ← hrn, Nat.cast_ofNat] at this
      linarith
  by_cases hc : rnd ≤ 1 / 2
  · rw [if_pos hc]
    have hn2 := half.1 hc
    have g1 : fl (2 * rnd) = 2 * rnd := by
      have := h.grid (2 * n) hn2
      rw [hrn]
      push_cast at this
      rwa [mul_assoc] at this
    have g2 : fl (1 - 2 * rnd) = 1 - 2 * rnd := by
      have := h.grid (2 ^ 53 - 2 * n) (by omega)
      rw [Nat.cast_sub hn2] at this
      have e : (((2 ^ 53 : ℕ) : K) - ((2 * n : ℕ) : K)) * u = 1 - 2 * rnd := by
        rw [hrn, ← unit]; push_cast; ring
      rwa [e] at this
    have x0 : 0 ≤ fl (1 - fl (fl (y - lb) / fl (fl (ub - lb) + eps))) := fl_nonneg h (by linarith)
    have x1 : fl (1 - fl (fl (y - lb) / fl (fl (ub - lb) + eps))) ≤ 1 := fl_le_one h (by linarith)
    rw [g1, g2, pow_ok x0 (by linarith)]
    simp only
    obtain ⟨v0, v1⟩ := key (2 * rnd) (1 - 2 * rnd) _ (by linarith) (by linarith) g2 (by ring)
      (hp.nonneg _ (fl (eta + 1)) x0) (hp.small _ _ x0 x1 (by linarith))
    rw [pow_ok v0 e2]
    refine ⟨_, rfl, fun _ => fl_nonpos h ?_, fun hh => absurd hh (not_lt.2 hc)⟩
    linarith [hp.small _ _ v0 v1 e2]
  · rw [if_neg hc]
    have hn2 : 2 ^ 53 < 2 * n := by
      by_contra hh
      exact hc (half.2 (by omega))
    push Not at hc
    have g1 : fl (1 - rnd) = 1 - rnd := by
      have := h.grid (2 ^ 53 - n) (by omega)
      rw [Nat.cast_sub hn.le] at this
      have e : (((2 ^ 53 : ℕ) : K) - (n : K)) * u = 1 - rnd := by
        rw [hrn, ← unit]; push_cast; ring
      rwa [e] at this
    have g3 : fl (rnd - 1 / 2) = rnd - 1 / 2 := by
      have := h.grid (n - 2 ^ 52) (by omega)
      rw [Nat.cast_sub (by omega)] at this
      have e : ((n : K) - ((2 ^ 52 : ℕ) : K)) * u = rnd - 1 / 2 := by
        have : ((2 ^ 52 : ℕ) : K) * u = 1 / 2 := by
          push_cast; norm_num at unit ⊢; linarith
        rw [sub_mul, this, hrn]
      rwa [e] at this
    have g4 : fl (2 * (rnd - 1 / 2)) = 2 * (rnd - 1 / 2) := h.double _ g3
    have x0 : 0 ≤ fl (1 - fl (fl (ub - y) / fl (fl (ub - lb) + eps))) := fl_nonneg h (by linarith)
    have x1 : fl (1 - fl (fl (ub - y) / fl (fl (ub - lb) + eps))) ≤ 1 := fl_le_one h (by linarith)
    rw [g1, g3, h.double _ g1, g4, pow_ok x0 (by linarith)]
    simp only
    obtain ⟨v0, v1⟩ := key (2 * (1 - rnd)) (2 * (rnd - 1 / 2)) _ (by linarith) (by linarith) g4 (by ring)
      (hp.nonneg _ (fl (eta + 1)) x0) (hp.small _ _ x0 x1 (by linarith))
    rw [pow_ok v0 e2]
    refine ⟨_, rfl, fun hh => absurd hh (not_le.2 hc), fun _ => fl_nonneg h ?_⟩
    linarith [hp.small _ _ v0 v1 e2]

theorem min_max_float {lb ub v : K} (h1 : fl lb = lb) (h2 : fl ub = ub) (h3 : fl v = v) :
    fl (min ub (max lb v)) = min ub (max lb v) := by
  rcases min_choice ub (max lb v) with h | h <;> rw [h]
  · exact h2
  · rcases max_choice lb v with h | h <;> rw [h]
    · exact h1
    · exact h3

/-- One mutated coordinate. -/
theorem mutatedValue_ok (h : IsRounding fl u) (hp : PowerLaws pw) (he : 0 < eps) (hfe : fl eps = eps)
    (heta : 0 ≤ eta) {y lb ub rnd : K} (hlb : fl lb = lb) (hub : fl ub = ub) (hy : fl y = y)
    (h1 : lb ≤ y) (h2 : y ≤ ub) (hr : IsDraw u rnd) :
    ∃ v, mutatedValue fl pw eps eta y lb ub rnd = .ok v ∧ lb ≤ v ∧ v ≤ ub ∧ fl v = v ∧
      (rnd ≤ 1 / 2 → v ≤ y) ∧ (1 / 2 < rnd → y ≤ v) := by
  obtain ⟨q, e, q1, q2⟩ := mutDeltaQ_ok h hp he hfe heta h1 h2 hr
  have hw : 0 ≤ fl (ub - lb) := fl_nonneg h (by linarith)
  refine ⟨min ub (max lb (fl (y + fl (q * fl (ub - lb))))), ?_, le_min (h1.trans h2) (le_max_left _ _),
    min_le_left _ _, min_max_float hlb hub (h.idem _), fun hh => ?_, fun hh => ?_⟩
  · simp only [mutatedValue, e, bind, Except.bind, pure, Except.pure, clamp]
  · refine (min_le_right _ _).trans (max_le h1 (fl_le h hy ?_))
    have := fl_nonpos h (mul_nonpos_of_nonpos_of_nonneg (q1 hh) hw)
    linarith
  · refine le_min h2 (le_max_of_le_right (le_fl h hy ?_))
    have := fl_nonneg h (mul_nonneg (q2 hh) hw)
    linarith

end mutation

section recombination

variable {fl : K → K} {u : K} {pw : K → K → K} {eps eta : K}

theorem getBetaQ_ok (h : IsRounding fl u) (hp : PowerLaws pw) (heta : 0 ≤ eta) {rand alpha : K}
    (ha1 : 1 ≤ alpha) (ha2 : alpha ≤ 2) (hr : IsDraw u rand) :
    ∃ q, getBetaQ fl pw rand alpha eta = .ok q ∧ 0 ≤ q := by
  obtain ⟨r0, r1⟩ := draw_bounds h hr
  have hu := u_pos h
  have e1 : 1 ≤ fl (eta + 1) := one_le_fl h (by linarith)
  have e2 : 0 ≤ fl (1 / fl (eta + 1)) := fl_nonneg h (by positivity)
  have p0 : 0 ≤ fl (rand * alpha) := fl_nonneg h (mul_nonneg r0 (by linarith))
  unfold getBetaQ
  simp only [div_ok (fl := fl) (a := 1) (b := alpha) (by linarith), bind, Except.bind]
  by_cases hc : rand ≤ fl (1 / alpha)
  · rw [if_pos hc, pow_ok p0 e2]
    exact ⟨_, rfl, hp.nonneg _ _ p0⟩
  · rw [if_neg hc]
    have g : fl (1 - u) = 1 - u := by
      have := h.grid (2 ^ 53 - 1) (by omega)
      rw [Nat.cast_sub (by norm_num)] at this
      have e : (((2 ^ 53 : ℕ) : K) - ((1 : ℕ) : K)) * u = 1 - u := by
        rw [← h.unit]; push_cast; ring
      rwa [e] at this
    have g1 : fl u = u := by simpa using h.grid 1 (by norm_num)
    have p1 : fl (rand * alpha) ≤ 2 * (1 - u) := by
      refine fl_le h (h.double _ g) ?_
      have : 0 ≤ 1 - u := by linarith
      nlinarith
    have p2 : 2 * u ≤ fl (2 - fl (rand * alpha)) := le_fl h (h.double _ g1) (by linarith)
    have p3 : 0 < fl (2 - fl (rand * alpha)) := by linarith
    simp only [div_ok p3]
    have p4 : 0 ≤ fl (1 / fl (2 - fl (rand * alpha))) := fl_nonneg h (by positivity)
    rw [pow_ok p4 e2]
    exact ⟨_, rfl, hp.nonneg _ _ p4⟩

/-- `beta` and `alpha` of drivertools.py:80-82 and 90-92 -/
theorem alpha_ok (h : IsRounding fl u) (hp : PowerLaws pw) (he : 0 < eps) (hfe : fl eps = eps)
    (heta : 0 ≤ eta) {d g : K} (hd : 0 ≤ d) (hg : 0 ≤ g) :
    ∃ r p, div fl (fl (2 * fl g)) (fl (fl d + eps)) = .ok r ∧
      pow pw (fl (1 + r)) (-fl (eta + 1)) = .ok p ∧ 1 ≤ fl (2 - p) ∧ fl (2 - p) ≤ 2 := by
  have d0 : 0 < fl (fl d + eps) := (ratio_mem h he hfe le_rfl hd).1
  have n0 : 0 ≤ fl (2 * fl g) := fl_nonneg h (by linarith [fl_nonneg h hg])
  have b1 : 1 ≤ fl (1 + fl (fl (2 * fl g) / fl (fl d + eps))) :=
    one_le_fl h (by linarith [fl_nonneg h (div_nonneg n0 d0.le)])
  have e1 : 1 ≤ fl (eta + 1) := one_le_fl h (by linarith)
  refine ⟨_, _, div_ok d0, pow_ok' (by linarith), one_le_fl h ?_, fl_le h (fl_two h) ?_⟩
  · linarith [hp.large _ (-fl (eta + 1)) b1 (by linarith)]
  · linarith [hp.nonneg _ (-fl (eta + 1)) (zero_le_one.trans b1)]

/-- The midpoint of two numbers as computed with rounding -/
def mid (fl : K → K) (x y : K) : K := fl (1 / 2 * fl (x + y))

theorem mid_mem (h : IsRounding fl u) {x y : K} (hx : fl x = x) (hy : fl y = y) (hxy : x ≤ y) :
    x ≤ mid fl x y ∧ mid fl x y ≤ y := by
  have h1 : 2 * x ≤ fl (x + y) := le_fl h (h.double x hx) (by linarith)
  have h2 : fl (x + y) ≤ 2 * y := fl_le h (h.double y hy) (by linarith)
  exact ⟨le_fl h hx (by linarith), fl_le h hy (by linarith)⟩

theorem childA_ok (h : IsRounding fl u) (hp : PowerLaws pw) (he : 0 < eps) (hfe : fl eps = eps)
    (heta : 0 ≤ eta) {y1 y2 lb rand : K} (h12 : y1 ≤ y2) (hl : lb ≤ y1) (hr : IsDraw u rand) :
    ∃ v, childA fl pw eps eta y1 y2 lb rand = .ok v ∧ fl v = v ∧ v ≤ mid fl y1 y2 := by
  obtain ⟨r, p, e1, e2, a1, a2⟩ := alpha_ok h hp he hfe heta (d := y2 - y1) (g := y1 - lb) (by linarith)
    (by linarith)
  obtain ⟨q, e3, q0⟩ := getBetaQ_ok h hp heta a1 a2 hr
  refine ⟨fl (1 / 2 * fl (fl (y1 + y2) - fl (q * fl (y2 - y1)))), by
    simp only [childA, e1, e2, e3, bind, Except.bind, pure, Except.pure], h.idem _, ?_⟩
  refine h.mono _ _ ?_
  have k : 0 ≤ fl (q * fl (y2 - y1)) := fl_nonneg h (mul_nonneg q0 (fl_nonneg h (by linarith)))
  have : fl (fl (y1 + y2) - fl (q * fl (y2 - y1))) ≤ fl (y1 + y2) := fl_le h (h.idem _) (by linarith)
  linarith

theorem childB_ok (h : IsRounding fl u) (hp : PowerLaws pw) (he : 0 < eps) (hfe : fl eps = eps)
    (heta : 0 ≤ eta) {y1 y2 ub rand : K} (h12 : y1 ≤ y2) (hl : y2 ≤ ub) (hr : IsDraw u rand) :
    ∃ v, childB fl pw eps eta y1 y2 ub rand = .ok v ∧ fl v = v ∧ mid fl y1 y2 ≤ v := by
  obtain ⟨r, p, e1, e2, a1, a2⟩ := alpha_ok h hp he hfe heta (d := y2 - y1) (g := ub - y2) (by linarith)
    (by linarith)
  obtain ⟨q, e3, q0⟩ := getBetaQ_ok h hp heta a1 a2 hr
  refine ⟨fl (1 / 2 * fl (fl (y1 + y2) + fl (q * fl (y2 - y1)))), by
    simp only [childB, e1, e2, e3, bind, Except.bind, pure, Except.pure], h.idem _, ?_⟩
  refine h.mono _ _ ?_
  have k : 0 ≤ fl (q * fl (y2 - y1)) := fl_nonneg h (mul_nonneg q0 (fl_nonneg h (by linarith)))
  have : fl (y1 + y2) ≤ fl (fl (y1 + y2) + fl (q * fl (y2 - y1))) := le_fl h (h.idem _) (by linarith)
  linarith

/-- What one turn of the loop of `crossover` gives for two coordinates of the interval. -/
theorem crossed_ok (h : IsRounding fl u) (hp : PowerLaws pw) (he : 0 < eps) (hfe : fl eps = eps)
    (heta : 0 ≤ eta) {x y lb ub : K} {d : SbxDraw K} (hlb : fl lb = lb) (hub : fl ub = ub)
    (hx : fl x = x) (hy : fl y = y) (x1 : lb ≤ x) (x2 : x ≤ ub) (y1 : lb ≤ y) (y2 : y ≤ ub)
    (hr : IsDraw u d.rand) :
    ∃ a b, crossed fl pw eps eta d x y lb ub = .ok (a, b) ∧ (lb ≤ a ∧ a ≤ ub ∧ fl a = a) ∧
      (lb ≤ b ∧ b ≤ ub ∧ fl b = b) ∧ min a b ≤ mid fl (min x y) (max x y) ∧
      mid fl (min x y) (max x y) ≤ max a b ∧
      (1 / 2 < d.skip ∨ |fl (x - y)| ≤ eps → a = x ∧ b = y) := by
  have hmn : fl (min x y) = min x y := by rcases min_choice x y with e | e <;> rw [e] <;> assumption
  have hmx : fl (max x y) = max x y := by rcases max_choice x y with e | e <;> rw [e] <;> assumption
  obtain ⟨m1, m2⟩ := mid_mem h hmn hmx (min_le_max)
  have same : ∃ a b, (Except.ok (x, y) : Except Fault (K × K)) = .ok (a, b) ∧ (lb ≤ a ∧ a ≤ ub ∧ fl a = a) ∧
      (lb ≤ b ∧ b ≤ ub ∧ fl b = b) ∧ min a b ≤ mid fl (min x y) (max x y) ∧
      mid fl (min x y) (max x y) ≤ max a b ∧ (1 / 2 < d.skip ∨ |fl (x - y)| ≤ eps → a = x ∧ b = y) :=
    ⟨x, y, rfl, ⟨x1, x2, hx⟩, ⟨y1, y2, hy⟩, m1, m2, fun _ => ⟨rfl, rfl⟩⟩
  unfold crossed
  by_cases c1 : 1 / 2 < d.skip
  · rw [if_pos c1]; exact same
  rw [if_neg c1]
  by_cases c2 : |fl (x - y)| ≤ eps
  · rw [if_pos c2]; exact same
  rw [if_neg c2]
  obtain ⟨va, ea, fa, la⟩ := childA_ok h hp he hfe heta (rand := d.rand) (min_le_max (a := x) (b := y))
    (le_min x1 y1) hr
  obtain ⟨vb, eb, fb, lb'⟩ := childB_ok h hp he hfe heta (rand := d.rand) (min_le_max (a := x) (b := y))
    (max_le x2 y2) hr
  have lu : lb ≤ ub := x1.trans x2
  obtain ⟨A, hA⟩ : ∃ A, A = min ub (max lb va) := ⟨_, rfl⟩
  obtain ⟨B, hB⟩ : ∃ B, B = min ub (max lb vb) := ⟨_, rfl⟩
  have es : sbxValues fl pw eps eta x y lb ub d.rand = .ok (A, B) := by
    simp only [sbxValues, ea, eb, clamp, bind, Except.bind, pure, Except.pure, hA, hB]
  have pa : lb ≤ A ∧ A ≤ ub ∧ fl A = A :=
    ⟨hA ▸ le_min lu (le_max_left _ _), hA ▸ min_le_left _ _, hA ▸ min_max_float hlb hub fa⟩
  have pb : lb ≤ B ∧ B ≤ ub ∧ fl B = B :=
    ⟨hB ▸ le_min lu (le_max_left _ _), hB ▸ min_le_left _ _, hB ▸ min_max_float hlb hub fb⟩
  have ma : A ≤ mid fl (min x y) (max x y) := by
    rw [hA]
    exact (min_le_right _ _).trans (max_le ((le_min x1 y1).trans m1) la)
  have mb : mid fl (min x y) (max x y) ≤ B := by
    rw [hB]
    exact le_min (m2.trans (max_le x2 y2)) (le_max_of_le_right lb')
  by_cases c3 : 1 / 2 < d.swap
  · refine ⟨B, A, ?_, pb, pa, (min_le_right _ _).trans ma, mb.trans (le_max_left _ _), ?_⟩
    · simp only [es, bind, Except.bind, pure, Except.pure, if_pos c3]
    · rintro (hh | hh) <;> contradiction
  · refine ⟨A, B, ?_, pa, pb, (min_le_left _ _).trans ma, mb.trans (le_max_right _ _), ?_⟩
    · simp only [es, bind, Except.bind, pure, Except.pure, if_neg c3]
    · rintro (hh | hh) <;> contradiction

end recombination

end Evogil.Rounded
