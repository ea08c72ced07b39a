import Verif.Model.FloatExpr
import Mathlib.Algebra.Order.Floor.Ring
import Mathlib.Data.Rat.Floor
import Mathlib.Algebra.Order.Archimedean.Real.Basic

/-!
# Bounds of expressions

An analysis of expressions that finds whole numbers between which the value lies, and its correctness for every library
with a few simple properties.
-/

set_option linter.unusedSectionVars false

namespace Evogil.FloatExpr

/-- What the analysis needs to know about the library. -/
structure Bounded (L : Lib) : Prop where
  mono : ∀ x y, x ≤ y → L.fl x ≤ L.fl y
  int : ∀ n : ℤ, |n| ≤ 2 ^ 53 → L.fl n = n
  sqrt0 : ∀ x, 0 ≤ x → 0 ≤ L.sqrt x
  sqrt1 : ∀ x, 1 ≤ x → 1 ≤ L.sqrt x
  sqrtLe : ∀ (x : ℝ) (n : ℤ), 1 ≤ n → n ≤ 2 ^ 53 → 0 ≤ x → x ≤ n → L.sqrt x ≤ n
  exp0 : ∀ x, 0 ≤ L.exp x
  expLe : ∀ (x : ℝ) (n : ℕ), n ≤ 32 → x ≤ n → L.exp x ≤ 2 * 3 ^ n
  sin : ∀ x, |L.sin x| ≤ 1
  cos : ∀ x, |L.cos x| ≤ 1
  pow0 : ∀ x e, 0 ≤ x → 0 ≤ L.pow x e
  powLe : ∀ (x e : ℝ) (n : ℤ), 0 ≤ x → x ≤ n → 1 ≤ n → 0 ≤ e → (e ≤ 1 ∨ n = 1) → L.pow x e ≤ 2 * n
  ipow0 : ∀ x n, n % 2 = 0 → 0 ≤ L.ipow x n
  ipowLe : ∀ (x : ℝ) (k : ℕ) (n : ℤ), |x| ≤ n → 1 ≤ n → |L.ipow x k| ≤ 2 * n ^ k
  pi : 3 ≤ L.pi ∧ L.pi ≤ 4
  e : 2 ≤ L.e ∧ L.e ≤ 3
  exponent : ∀ q q', L.exponent q q' = q ∨ L.exponent q q' = q'

/-- The interval, unless it is too large. -/
def wrap (lo hi : ℤ) : Option (ℤ × ℤ) := if -2 ^ 53 ≤ lo ∧ hi ≤ 2 ^ 53 then some (lo, hi) else none

/-- Bounds of the value of an expression, for variables within the given bounds. -/
def range (box : List (ℤ × ℤ)) : Expr → Option (ℤ × ℤ)
  | .lit q => wrap ⌊q⌋ ⌈q⌉
  | .pi => some (3, 4)
  | .e => some (2, 3)
  | .var i => (box[i]?).bind fun b => wrap b.1 b.2
  | .add a b => (range box a).bind fun u => (range box b).bind fun v => wrap (u.1 + v.1) (u.2 + v.2)
  | .sub a b => (range box a).bind fun u => (range box b).bind fun v => wrap (u.1 - v.2) (u.2 - v.1)
  | .mul a b => (range box a).bind fun u => (range box b).bind fun v =>
      wrap (min (min (u.1 * v.1) (u.1 * v.2)) (min (u.2 * v.1) (u.2 * v.2)))
        (max (max (u.1 * v.1) (u.1 * v.2)) (max (u.2 * v.1) (u.2 * v.2)))
  | .div a b => (range box a).bind fun u => (range box b).bind fun v =>
      if 1 ≤ v.1 then wrap (min 0 u.1) (max 0 u.2) else none
  | .neg a => (range box a).bind fun u => wrap (-u.2) (-u.1)
  | .abs a => (range box a).bind fun u => wrap 0 (max (-u.1) u.2)
  | .sqrt a => (range box a).bind fun u => if 0 ≤ u.1 then wrap (min 1 u.1) (max 1 u.2) else none
  | .exp a => (range box a).bind fun u => if u.2 ≤ 32 then wrap 0 (2 * 3 ^ u.2.toNat) else none
  | .sin a => (range box a).bind fun _ => some (-1, 1)
  | .cos a => (range box a).bind fun _ => some (-1, 1)
  | .pow a q q' => (range box a).bind fun u =>
      if 0 ≤ u.1 ∧ 0 ≤ q ∧ 0 ≤ q' ∧ (q ≤ 1 ∧ q' ≤ 1 ∨ u.2 ≤ 1) then wrap 0 (2 * max 1 u.2) else none
  | .ipow a n => (range box a).bind fun u =>
      let m := max 1 (max (-u.1) u.2)
      wrap (if n % 2 = 0 then 0 else -(2 * m ^ n)) (2 * m ^ n)
  | .max0 a => (range box a).bind fun u => wrap (max 0 u.1) (max 0 u.2)
  | .ifLt a b c d => (range box a).bind fun _ => (range box b).bind fun _ =>
      (range box c).bind fun u => (range box d).bind fun v => wrap (min u.1 v.1) (max u.2 v.2)

/-- The variables lie within the bounds. -/
def Within (x : List ℝ) (box : List (ℤ × ℤ)) : Prop :=
  ∀ (i : ℕ) (b : ℤ × ℤ), box[i]? = some b → ∃ v, x[i]? = some v ∧ (b.1 : ℝ) ≤ v ∧ v ≤ b.2

theorem wrap_some {lo hi : ℤ} {r : ℤ × ℤ} (h : wrap lo hi = some r) :
    r = (lo, hi) ∧ -2 ^ 53 ≤ lo ∧ hi ≤ 2 ^ 53 := by
  unfold wrap at h
  split_ifs at h with hc
  exact ⟨(Option.some.inj h).symm, hc.1, hc.2⟩

theorem ok_of_bounds {lo hi : ℤ} {v : ℝ} (h1 : -2 ^ 53 ≤ lo) (h2 : hi ≤ 2 ^ 53) (hl : (lo : ℝ) ≤ v) (hh : v ≤ hi) :
    ok v = some v := by
  unfold ok
  rw [if_pos]
  have a1 : (-2 ^ 53 : ℝ) ≤ lo := by exact_mod_cast h1
  have a2 : (hi : ℝ) ≤ 2 ^ 53 := by exact_mod_cast h2
  have : |v| ≤ 2 ^ 53 := abs_le.2 ⟨by linarith, by linarith⟩
  exact this.trans_lt (pow_lt_pow_right₀ (by norm_num) (by norm_num))

section sound

variable {L : Lib} (hL : Bounded L)

include hL in
theorem fl_bounds {lo hi : ℤ} {v : ℝ} (h1 : -2 ^ 53 ≤ lo) (h2 : hi ≤ 2 ^ 53) (hl : (lo : ℝ) ≤ v) (hh : v ≤ hi) :
    (lo : ℝ) ≤ L.fl v ∧ L.fl v ≤ hi := by
  have hlh : lo ≤ hi := by exact_mod_cast hl.trans hh
  have i1 := hL.int lo (abs_le.2 ⟨h1, hlh.trans h2⟩)
  have i2 := hL.int hi (abs_le.2 ⟨h1.trans hlh, h2⟩)
  have m1 := hL.mono _ _ hl
  have m2 := hL.mono _ _ hh
  rw [i1] at m1
  rw [i2] at m2
  exact ⟨m1, m2⟩

include hL in
theorem fl_ok {lo hi : ℤ} {r : ℤ × ℤ} {v : ℝ} (h : wrap lo hi = some r) (hl : (lo : ℝ) ≤ v) (hh : v ≤ hi) :
    ok (L.fl v) = some (L.fl v) ∧ (r.1 : ℝ) ≤ L.fl v ∧ L.fl v ≤ r.2 := by
  obtain ⟨rfl, h1, h2⟩ := wrap_some h
  have := fl_bounds hL h1 h2 hl hh
  exact ⟨ok_of_bounds h1 h2 this.1 this.2, this⟩

theorem mul_bounds {a b u1 u2 v1 v2 : ℝ} (h1 : u1 ≤ a) (h2 : a ≤ u2) (h3 : v1 ≤ b) (h4 : b ≤ v2) :
    min (min (u1 * v1) (u1 * v2)) (min (u2 * v1) (u2 * v2)) ≤ a * b ∧
    a * b ≤ max (max (u1 * v1) (u1 * v2)) (max (u2 * v1) (u2 * v2)) := by
  constructor
  · simp only [min_le_iff]
    by_contra hc
    push Not at hc
    obtain ⟨⟨c1, c2⟩, c3, c4⟩ := hc
    rcases le_total 0 a with h | h
    · have e1 : a * v1 ≤ a * b := mul_le_mul_of_nonneg_left h3 h
      rcases le_total 0 v1 with k | k
      · nlinarith [mul_le_mul_of_nonneg_right h1 k]
      · nlinarith [mul_le_mul_of_nonpos_right h2 k]
    · have e1 : a * v2 ≤ a * b := mul_le_mul_of_nonpos_left h4 h
      rcases le_total 0 v2 with k | k
      · nlinarith [mul_le_mul_of_nonneg_right h1 k]
      · nlinarith [mul_le_mul_of_nonpos_right h2 k]
  · simp only [le_max_iff]
    by_contra hc
    push Not at hc
    obtain ⟨⟨c1, c2⟩, c3, c4⟩ := hc
    rcases le_total 0 a with h | h
    · have e1 : a * b ≤ a * v2 := mul_le_mul_of_nonneg_left h4 h
      rcases le_total 0 v2 with k | k
      · nlinarith [mul_le_mul_of_nonneg_right h2 k]
      · nlinarith [mul_le_mul_of_nonpos_right h1 k]
    · have e1 : a * b ≤ a * v1 := mul_le_mul_of_nonpos_left h3 h
      rcases le_total 0 v1 with k | k
      · nlinarith [mul_le_mul_of_nonneg_right h2 k]
      · nlinarith [mul_le_mul_of_nonpos_right h1 k]

theorem div_bounds {a b u1 u2 : ℝ} (h1 : u1 ≤ a) (h2 : a ≤ u2) (h3 : 1 ≤ b) : min 0 u1 ≤ a / b ∧ a / b ≤ max 0 u2 := by
  have hb : 0 < b := by linarith
  rcases le_total 0 a with h | h
  · have : a / b ≤ a := div_le_self h h3
    exact ⟨(min_le_left _ _).trans (div_nonneg h hb.le), (this.trans h2).trans (le_max_right _ _)⟩
  · have h0 : a / b ≤ 0 := div_nonpos_of_nonpos_of_nonneg h hb.le
    have : a ≤ a / b := by rw [le_div_iff₀ hb]; nlinarith
    exact ⟨(min_le_right _ _).trans (h1.trans this), h0.trans (le_max_left _ _)⟩

include hL in
/-- The analysis is correct: the evaluation does not raise, and the value lies between the bounds. -/
theorem range_sound {box : List (ℤ × ℤ)} {x : List ℝ} (hx : Within x box) : ∀ (t : Expr) (r : ℤ × ℤ),
    range box t = some r → ∃ v, eval L x t = some v ∧ (r.1 : ℝ) ≤ v ∧ v ≤ r.2 := by
  intro t
  induction t with
  | lit q =>
    intro r h
    simp only [range] at h
    have h1 : ((⌊q⌋ : ℤ) : ℝ) ≤ (q : ℝ) := by exact_mod_cast Int.floor_le q
    have h2 : (q : ℝ) ≤ ((⌈q⌉ : ℤ) : ℝ) := by exact_mod_cast Int.le_ceil q
    obtain ⟨o, b⟩ := fl_ok hL h h1 h2
    exact ⟨_, by rw [eval, o], b⟩
  | pi =>
    intro r h
    simp only [range, Option.some.injEq] at h
    subst h
    exact ⟨_, rfl, by exact_mod_cast hL.pi.1, by exact_mod_cast hL.pi.2⟩
  | e =>
    intro r h
    simp only [range, Option.some.injEq] at h
    subst h
    exact ⟨_, rfl, by exact_mod_cast hL.e.1, by exact_mod_cast hL.e.2⟩
  | var i =>
    intro r h
    simp only [range, Option.bind_eq_some_iff] at h
    obtain ⟨b, hb, h⟩ := h
    obtain ⟨rfl, -⟩ := wrap_some h
    exact hx i b hb
  | add a b iha ihb =>
    intro r h
    simp only [range, Option.bind_eq_some_iff] at h
    obtain ⟨u, hu, v, hv, h⟩ := h
    obtain ⟨s, s1, s2, s3⟩ := iha u hu
    obtain ⟨t, t1, t2, t3⟩ := ihb v hv
    obtain ⟨o, c⟩ := fl_ok hL h (v := s + t) (by push_cast; linarith) (by push_cast; linarith)
    exact ⟨_, by rw [eval, s1, t1]; exact o, c⟩
  | sub a b iha ihb =>
    intro r h
    simp only [range, Option.bind_eq_some_iff] at h
    obtain ⟨u, hu, v, hv, h⟩ := h
    obtain ⟨s, s1, s2, s3⟩ := iha u hu
    obtain ⟨t, t1, t2, t3⟩ := ihb v hv
    obtain ⟨o, c⟩ := fl_ok hL h (v := s - t) (by push_cast; linarith) (by push_cast; linarith)
    exact ⟨_, by rw [eval, s1, t1]; exact o, c⟩
  | mul a b iha ihb =>
    intro r h
    simp only [range, Option.bind_eq_some_iff] at h
    obtain ⟨u, hu, v, hv, h⟩ := h
    obtain ⟨s, s1, s2, s3⟩ := iha u hu
    obtain ⟨t, t1, t2, t3⟩ := ihb v hv
    have hb := mul_bounds s2 s3 t2 t3
    obtain ⟨o, c⟩ := fl_ok hL h (v := s * t) (by push_cast; exact hb.1) (by push_cast; exact hb.2)
    exact ⟨_, by rw [eval, s1, t1]; exact o, c⟩
  | div a b iha ihb =>
    intro r h
    simp only [range, Option.bind_eq_some_iff] at h
    obtain ⟨u, hu, v, hv, h⟩ := h
    split_ifs at h with hv1
    obtain ⟨s, s1, s2, s3⟩ := iha u hu
    obtain ⟨t, t1, t2, t3⟩ := ihb v hv
    have ht : 1 ≤ t := le_trans (by exact_mod_cast hv1) t2
    have hb := div_bounds s2 s3 ht
    obtain ⟨o, c⟩ := fl_ok hL h (v := s / t) (by push_cast; exact hb.1) (by push_cast; exact hb.2)
    refine ⟨_, ?_, c⟩
    rw [eval, s1, t1]
    simp only [Option.bind_some]
    rw [if_neg (by linarith)]
    exact o
  | neg a iha =>
    intro r h
    simp only [range, Option.bind_eq_some_iff] at h
    obtain ⟨u, hu, h⟩ := h
    obtain ⟨s, s1, s2, s3⟩ := iha u hu
    obtain ⟨rfl, -⟩ := wrap_some h
    exact ⟨-s, by rw [eval, s1]; rfl, by push_cast; linarith, by push_cast; linarith⟩
  | abs a iha =>
    intro r h
    simp only [range, Option.bind_eq_some_iff] at h
    obtain ⟨u, hu, h⟩ := h
    obtain ⟨s, s1, s2, s3⟩ := iha u hu
    obtain ⟨rfl, -⟩ := wrap_some h
    refine ⟨|s|, by rw [eval, s1]; rfl, by push_cast; exact abs_nonneg s, ?_⟩
    push_cast
    rcases abs_cases s with ⟨h, -⟩ | ⟨h, -⟩
    · rw [h]; exact s3.trans (le_max_right _ _)
    · rw [h]; exact le_trans (by linarith) (le_max_left _ _)
  | sqrt a iha =>
    intro r h
    simp only [range, Option.bind_eq_some_iff] at h
    obtain ⟨u, hu, h⟩ := h
    split_ifs at h with h0
    obtain ⟨s, s1, s2, s3⟩ := iha u hu
    obtain ⟨rfl, w1, w2⟩ := wrap_some h
    have hs : 0 ≤ s := le_trans (by exact_mod_cast h0) s2
    have b1 : ((min 1 u.1 : ℤ) : ℝ) ≤ L.sqrt s := by
      rcases le_or_gt 1 u.1 with k | k
      · rw [min_eq_left k]
        have := hL.sqrt1 s (le_trans (by exact_mod_cast k) s2)
        push_cast
        exact this
      · have : u.1 = 0 := by omega
        rw [this]
        simpa using hL.sqrt0 s hs
    have b2 : L.sqrt s ≤ ((max 1 u.2 : ℤ) : ℝ) :=
      hL.sqrtLe s _ (le_max_left _ _) w2 hs (s3.trans (by exact_mod_cast le_max_right _ _))
    refine ⟨L.sqrt s, ?_, b1, b2⟩
    rw [eval, s1]
    simp only [Option.bind_some]
    rw [if_neg (not_lt.2 hs)]
    exact ok_of_bounds w1 w2 b1 b2
  | exp a iha =>
    intro r h
    simp only [range, Option.bind_eq_some_iff] at h
    obtain ⟨u, hu, h⟩ := h
    split_ifs at h with h0
    obtain ⟨s, s1, s2, s3⟩ := iha u hu
    obtain ⟨rfl, w1, w2⟩ := wrap_some h
    have b1 : ((0 : ℤ) : ℝ) ≤ L.exp s := by simpa using hL.exp0 s
    have b2 : L.exp s ≤ ((2 * 3 ^ u.2.toNat : ℤ) : ℝ) := by
      push_cast
      refine hL.expLe s _ (by omega) (s3.trans ?_)
      exact_mod_cast Int.self_le_toNat u.2
    refine ⟨L.exp s, ?_, b1, b2⟩
    rw [eval, s1]
    simp only [Option.bind_some]
    have : s ≤ 32 := s3.trans (by exact_mod_cast h0)
    rw [if_neg (by linarith)]
    exact ok_of_bounds w1 w2 b1 b2
  | sin a iha =>
    intro r h
    simp only [range, Option.bind_eq_some_iff] at h
    obtain ⟨u, hu, h⟩ := h
    obtain ⟨s, s1, s2, s3⟩ := iha u hu
    obtain rfl := Option.some.inj h
    have := abs_le.1 (hL.sin s)
    refine ⟨L.sin s, ?_, by push_cast; exact this.1, by push_cast; exact this.2⟩
    rw [eval, s1]
    exact ok_of_bounds (lo := -1) (hi := 1) (by norm_num) (by norm_num) (by push_cast; exact this.1) (by push_cast; exact this.2)
  | cos a iha =>
    intro r h
    simp only [range, Option.bind_eq_some_iff] at h
    obtain ⟨u, hu, h⟩ := h
    obtain ⟨s, s1, s2, s3⟩ := iha u hu
    obtain rfl := Option.some.inj h
    have := abs_le.1 (hL.cos s)
    refine ⟨L.cos s, ?_, by push_cast; exact this.1, by push_cast; exact this.2⟩
    rw [eval, s1]
    exact ok_of_bounds (lo := -1) (hi := 1) (by norm_num) (by norm_num) (by push_cast; exact this.1) (by push_cast; exact this.2)
  | pow a q q' iha =>
    intro r h
    simp only [range, Option.bind_eq_some_iff] at h
    obtain ⟨u, hu, h⟩ := h
    split_ifs at h with h0
    obtain ⟨c1, c2, c3, c4⟩ := h0
    obtain ⟨s, s1, s2, s3⟩ := iha u hu
    obtain ⟨rfl, w1, w2⟩ := wrap_some h
    have hs : 0 ≤ s := le_trans (by exact_mod_cast c1) s2
    have he : (0 : ℝ) ≤ (L.exponent q q' : ℝ) ∧ (((L.exponent q q' : ℚ) : ℝ) ≤ 1 ∨ max 1 u.2 = 1) := by
      rcases hL.exponent q q' with e | e <;> rw [e]
      · refine ⟨by exact_mod_cast c2, ?_⟩
        rcases c4 with c | c
        · exact Or.inl (by exact_mod_cast c.1)
        · exact Or.inr (max_eq_left c)
      · refine ⟨by exact_mod_cast c3, ?_⟩
        rcases c4 with c | c
        · exact Or.inl (by exact_mod_cast c.2)
        · exact Or.inr (max_eq_left c)
    have b1 : ((0 : ℤ) : ℝ) ≤ L.pow s (L.exponent q q') := by simpa using hL.pow0 s _ hs
    have b2 : L.pow s (L.exponent q q') ≤ ((2 * max 1 u.2 : ℤ) : ℝ) := by
      have := hL.powLe s (L.exponent q q') (max 1 u.2) hs (s3.trans (by exact_mod_cast le_max_right _ _)) (le_max_left _ _)
        he.1 he.2
      push_cast at this ⊢
      exact this
    refine ⟨_, ?_, b1, b2⟩
    rw [eval, s1]
    simp only [Option.bind_some]
    rw [if_neg (not_lt.2 hs)]
    exact ok_of_bounds w1 w2 b1 b2
  | ipow a n iha =>
    intro r h
    simp only [range, Option.bind_eq_some_iff] at h
    obtain ⟨u, hu, h⟩ := h
    obtain ⟨s, s1, s2, s3⟩ := iha u hu
    obtain ⟨rfl, w1, w2⟩ := wrap_some h
    have hs : |s| ≤ ((max 1 (max (-u.1) u.2) : ℤ) : ℝ) := by
      push_cast
      rcases abs_cases s with ⟨h, -⟩ | ⟨h, -⟩
      · rw [h]; exact s3.trans ((le_max_right _ _).trans (le_max_right _ _))
      · rw [h]; exact le_trans (by linarith) ((le_max_left _ _).trans (le_max_right _ _))
    have hb := abs_le.1 (hL.ipowLe s n _ hs (le_max_left _ _))
    have b2 : L.ipow s n ≤ ((2 * max 1 (max (-u.1) u.2) ^ n : ℤ) : ℝ) := by
      have := hb.2
      push_cast at this ⊢
      exact this
    have b1 : ((if n % 2 = 0 then 0 else -(2 * max 1 (max (-u.1) u.2) ^ n) : ℤ) : ℝ) ≤ L.ipow s n := by
      by_cases hn : n % 2 = 0
      · rw [if_pos hn]; simpa using hL.ipow0 s n hn
      · rw [if_neg hn]
        have := hb.1
        push_cast at this ⊢
        exact this
    refine ⟨_, ?_, b1, b2⟩
    rw [eval, s1]
    exact ok_of_bounds w1 w2 b1 b2
  | max0 a iha =>
    intro r h
    simp only [range, Option.bind_eq_some_iff] at h
    obtain ⟨u, hu, h⟩ := h
    obtain ⟨s, s1, s2, s3⟩ := iha u hu
    obtain ⟨rfl, -⟩ := wrap_some h
    refine ⟨max 0 s, by rw [eval, s1]; rfl, ?_, ?_⟩
    · push_cast; exact max_le_max le_rfl s2
    · push_cast; exact max_le_max le_rfl s3
  | ifLt a b c d iha ihb ihc ihd =>
    intro r h
    simp only [range, Option.bind_eq_some_iff] at h
    obtain ⟨ua, hua, ub, hub, u, hu, v, hv, h⟩ := h
    obtain ⟨s, s1, -⟩ := iha ua hua
    obtain ⟨t, t1, -⟩ := ihb ub hub
    obtain ⟨p, p1, p2, p3⟩ := ihc u hu
    obtain ⟨q, q1, q2, q3⟩ := ihd v hv
    obtain ⟨rfl, -⟩ := wrap_some h
    rw [eval, s1, t1]
    simp only [Option.bind_some]
    by_cases hst : s < t
    · rw [if_pos hst]
      refine ⟨p, p1, ?_, ?_⟩
      · push_cast; exact (min_le_left _ _).trans p2
      · push_cast; exact p3.trans (le_max_left _ _)
    · rw [if_neg hst]
      refine ⟨q, q1, ?_, ?_⟩
      · push_cast; exact (min_le_right _ _).trans q2
      · push_cast; exact q3.trans (le_max_right _ _)

end sound

end Evogil.FloatExpr
