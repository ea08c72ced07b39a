import Verif.Model.RoundedNsgaiii
import Verif.Lemmas.RoundedMean
import Verif.Props.Nsgaiii
import Verif.Props.Rounded
import Verif.Spec.Numpy
import Verif.Spec.Scaled

/-!
# C137: reference points, normalization and clusters of NSGA-III in floating point
-/

set_option linter.unusedSectionVars false

namespace Evogil.Rounded.Nsgaiii

open Spec Binary64
open Evogil.Nsgaiii (Conf clusterOf defiledPoint updateIdeal initialIdeal subMul dot_subMul dot_self_nonneg dot_self_pos
  C73_geometry C73_cluster C31_ideal defiled_get)

/-! ## Absolute errors -/

theorem abs_error (x : ℝ) : |round64 x - x| ≤ 1 / 2 ^ 53 * |x| + 1 / 2 ^ 200 := by
  rcases le_or_gt ((1 / 2 : ℝ) ^ 1022) |x| with h | h
  · have := round64_accurate.error x h
    have : (0 : ℝ) ≤ 1 / 2 ^ 200 := by positivity
    linarith
  · have h1 := round64_near x (y := (0 : ℝ)) (by simpa using round64_accurate.zero (K := ℝ))
    rw [zero_sub, abs_neg] at h1
    have h2 : (1 / 2 : ℝ) ^ 1022 ≤ 1 / 2 ^ 200 := by
      rw [one_div_pow]
      exact one_div_le_one_div_of_le (by positivity) (pow_le_pow_right₀ (by norm_num) (by norm_num))
    have h3 : (0 : ℝ) ≤ 1 / 2 ^ 53 * |x| := by positivity
    exact (h1.trans (h.le.trans h2)).trans (le_add_of_nonneg_left h3)

/-- Between 0 and 1 rounding is off by at most `2⁻⁵⁴`. -/
theorem unit_error {x : ℝ} (h0 : 0 ≤ x) (h1 : x ≤ 1) : |round64 x - x| ≤ 1 / 2 ^ 54 := by
  have R := round64_isRounding (K := ℝ)
  obtain ⟨n, hn⟩ : ∃ n : ℕ, n = ⌊x * 2 ^ 53⌋₊ := ⟨_, rfl⟩
  have hx : 0 ≤ x * 2 ^ 53 := by positivity
  have l1 : (n : ℝ) ≤ x * 2 ^ 53 := hn ▸ Nat.floor_le hx
  have l2 : x * 2 ^ 53 < n + 1 := hn ▸ Nat.lt_floor_add_one _
  have hle : n ≤ 2 ^ 53 := by
    have : (n : ℝ) ≤ 2 ^ 53 := l1.trans (by nlinarith [show (0 : ℝ) < 2 ^ 53 by positivity])
    exact_mod_cast this
  have f1 := R.grid n hle
  rcases eq_or_lt_of_le hle with h | h
  · have : (n : ℝ) = 2 ^ 53 := by rw [h]; norm_num
    have hx1 : x = 1 := by
      have h2 : (2 : ℝ) ^ 53 ≤ x * 2 ^ 53 := this.symm.le.trans l1
      have : 1 ≤ x := by
        by_contra hc
        nlinarith [show (0 : ℝ) < 2 ^ 53 by positivity]
      linarith
    rw [hx1, fl_one R, sub_self, abs_zero]
    positivity
  · have f2 := R.grid (n + 1) h
    have e1 := round64_near x f1
    have e2 := round64_near x f2
    push_cast at e2
    norm_num at e1 e2 l1 l2 ⊢
    rcases le_or_gt (x - n * (1 / 9007199254740992)) (1 / 18014398509481984) with h | h
    · refine e1.trans (abs_le.2 ⟨by linarith, by linarith⟩)
    · refine e2.trans (abs_le.2 ⟨by linarith, by linarith⟩)

/-! ## Reference points -/

section references

variable {pw : ℝ → ℝ → ℝ} {rand : ℕ → ℝ}

theorem refLoop_spec (hp : PowerLaws pw) (hr : ∀ i, 0 < rand i ∧ rand i < 1) (n : ℕ) :
    ∀ (rest i : ℕ) (s : ℝ), 1 ≤ i → i + rest = n → 0 ≤ s → s ≤ 1 →
      (refLoop round64 pw rand n (rest + 1) i s).length = rest + 1 ∧
      (∀ x ∈ refLoop round64 pw rand n (rest + 1) i s, 0 ≤ x ∧ x ≤ 1 ∧ round64 x = x) ∧
      |(refLoop round64 pw rand n (rest + 1) i s).sum - (1 - s)| ≤ (rest + 1 : ℕ) * (1 / 2 ^ 54) := by
  have R := round64_isRounding (K := ℝ)
  intro rest
  induction rest with
  | zero =>
    intro i s hi hin h0 h1
    have e : refLoop round64 pw rand n 1 i s = [round64 (1 - s)] := by
      simp only [refLoop]
      rw [if_neg (by omega)]
    rw [e]
    refine ⟨rfl, fun x hx => ?_, ?_⟩
    · rw [List.mem_singleton] at hx
      subst hx
      exact ⟨fl_nonneg R (by linarith), fl_le_one R (by linarith), R.idem _⟩
    · simpa using unit_error (x := 1 - s) (by linarith) (by linarith)
  | succ rest ih =>
    intro i s hi hin h0 h1
    obtain ⟨c, hc⟩ : ∃ c, c = round64 (round64 (1 - s) * round64 (1 - pw (rand i) (round64 (1 / ((n - i : ℕ) : ℝ))))) :=
      ⟨_, rfl⟩
    have e : refLoop round64 pw rand n (rest + 1 + 1) i s =
        c :: refLoop round64 pw rand n (rest + 1) (i + 1) (round64 (s + c)) := by
      rw [refLoop, if_pos (by omega), ← hc]
    have d0 : 0 ≤ round64 (1 - s) := fl_nonneg R (by linarith)
    have d1 : round64 (1 - s) ≤ 1 := fl_le_one R (by linarith)
    have p0 : 0 ≤ pw (rand i) (round64 (1 / ((n - i : ℕ) : ℝ))) := hp.nonneg _ _ (hr i).1.le
    have p1 : pw (rand i) (round64 (1 / ((n - i : ℕ) : ℝ))) ≤ 1 :=
      hp.small _ _ (hr i).1.le (hr i).2.le (fl_nonneg R (by positivity))
    have q0 := fl_nonneg R (sub_nonneg.2 p1)
    have q1 : round64 (1 - pw (rand i) (round64 (1 / ((n - i : ℕ) : ℝ)))) ≤ 1 := fl_le_one R (by linarith)
    have c0 : 0 ≤ c := hc ▸ fl_nonneg R (mul_nonneg d0 q0)
    have c1 : c ≤ round64 (1 - s) := hc ▸ fl_le R (R.idem _) (mul_le_of_le_one_right d0 q1)
    have u1 := abs_le.1 (unit_error (x := 1 - s) (by linarith) (by linarith))
    have hsc : s + c ≤ 1 + 1 / 2 ^ 54 := by linarith [u1.2]
    have herr : |round64 (s + c) - (s + c)| ≤ 1 / 2 ^ 54 := by
      rcases le_or_gt (s + c) 1 with h | h
      · exact unit_error (by linarith) h
      · refine (round64_near (s + c) (fl_one R)).trans ?_
        rw [abs_sub_comm, abs_of_pos (by linarith)]
        linarith
    have s0 : 0 ≤ round64 (s + c) := fl_nonneg R (by linarith)
    have s1 : round64 (s + c) ≤ 1 := by
      by_contra hcon
      have := float_gap (R.idem (s + c)) (not_le.1 hcon)
      have h2 := (abs_le.1 herr).2
      norm_num at this h2 hsc
      linarith
    obtain ⟨i1, i2, i3⟩ := ih (i + 1) (round64 (s + c)) (by omega) (by omega) s0 s1
    rw [e]
    refine ⟨by simp [i1], fun x hx => ?_, ?_⟩
    · rcases List.mem_cons.1 hx with rfl | hx
      · exact ⟨c0, c1.trans d1, hc ▸ R.idem _⟩
      · exact i2 x hx
    · rw [List.sum_cons]
      have h3 := abs_le.1 i3
      have h4 := abs_le.1 herr
      push_cast at h3 ⊢
      rw [abs_le]
      constructor
      · linarith [h3.1, h4.2]
      · linarith [h3.2, h4.1]

/-- **C137** In floating point, a reference point of NSGA-III has one coordinate for each objective, all of them in
[0, 1], and they add up to 1 up to `2⁻⁵⁴` for each coordinate. -/
theorem C137_references (hp : PowerLaws pw) (hr : ∀ i, 0 < rand i ∧ rand i < 1) (n : ℕ) (hn : 1 ≤ n) :
    (refPoint round64 pw rand n).length = n ∧
    (∀ x ∈ refPoint round64 pw rand n, 0 ≤ x ∧ x ≤ 1 ∧ round64 x = x) ∧
    |(refPoint round64 pw rand n).sum - 1| ≤ n * (1 / 2 ^ 54) := by
  obtain ⟨m, rfl⟩ : ∃ m, n = m + 1 := ⟨n - 1, by omega⟩
  have := refLoop_spec hp hr (m + 1) m 1 0 le_rfl (by omega) le_rfl zero_le_one
  rwa [sub_zero] at this

end references

/-! ## Lengths -/

theorem length₂_nonneg (a : List ℝ) : 0 ≤ length₂ a := Real.sqrt_nonneg _

theorem squares_nonneg (a : List ℝ) : 0 ≤ (a.map fun x => x ^ 2).sum := by
  refine List.sum_nonneg fun x hx => ?_
  obtain ⟨y, -, rfl⟩ := List.mem_map.1 hx
  positivity

theorem length₂_sq (a : List ℝ) : length₂ a ^ 2 = (a.map fun x => x ^ 2).sum := Real.sq_sqrt (squares_nonneg a)

theorem length₂_cons (x : ℝ) (a : List ℝ) : length₂ (x :: a) = Real.sqrt (x ^ 2 + length₂ a ^ 2) := by
  rw [length₂_sq]; simp [length₂]

theorem length₂_eq (a : List ℝ) : length₂ a = Evogil.Nsgaiii.norm Real.sqrt a := by
  unfold length₂ Evogil.Nsgaiii.norm Evogil.Nsgaiii.dot
  congr 1
  induction a with
  | nil => rfl
  | cons x a ih => simp only [List.map_cons, List.sum_cons, List.zipWith_cons_cons, ih]; ring

theorem abs_le_length₂ {a : List ℝ} {x : ℝ} (hx : x ∈ a) : |x| ≤ length₂ a := by
  unfold length₂
  refine Real.abs_le_sqrt (List.single_le_sum (l := a.map fun x => x ^ 2) ?_ _ (List.mem_map_of_mem hx))
  intro y hy
  obtain ⟨z, -, rfl⟩ := List.mem_map.1 hy
  positivity

/-- The sum of the absolute differences. -/
def diff₁ (a b : List ℝ) : ℝ := (List.zipWith (fun x y => |x - y|) a b).sum

theorem sqrt_lip (a A b B : ℝ) (hA : 0 ≤ A) :
    Real.sqrt (a ^ 2 + A ^ 2) ≤ Real.sqrt (b ^ 2 + B ^ 2) + (|a - b| + |A - B|) := by
  have hb : |b| ≤ Real.sqrt (b ^ 2 + B ^ 2) := Real.abs_le_sqrt (by nlinarith)
  have hB' : B ≤ Real.sqrt (b ^ 2 + B ^ 2) := Real.le_sqrt_of_sq_le (by nlinarith [sq_nonneg b])
  have hs := Real.sq_sqrt (show 0 ≤ b ^ 2 + B ^ 2 by positivity)
  have ha : |a| ≤ |b| + |a - b| := by
    have := abs_add_le b (a - b)
    rwa [add_sub_cancel] at this
  have hA' : A ≤ B + |A - B| := by linarith [le_abs_self (A - B)]
  have h1 := abs_nonneg (a - b)
  have h2 := abs_nonneg (A - B)
  have h3 := abs_nonneg b
  have h4 : a ^ 2 ≤ (|b| + |a - b|) ^ 2 := by
    rw [← sq_abs a]; exact pow_le_pow_left₀ (abs_nonneg a) ha 2
  have h5 : A ^ 2 ≤ (B + |A - B|) ^ 2 := pow_le_pow_left₀ hA hA' 2
  have h6 : |b| ^ 2 = b ^ 2 := sq_abs b
  have hS := Real.sqrt_nonneg (b ^ 2 + B ^ 2)
  generalize Real.sqrt (b ^ 2 + B ^ 2) = S at *
  generalize |a - b| = p at *
  generalize |A - B| = q at *
  generalize |b| = c at *
  rw [Real.sqrt_le_left (by positivity)]
  nlinarith [mul_le_mul_of_nonneg_right hb h1, mul_le_mul_of_nonneg_right hB' h2, mul_nonneg h1 h2]

theorem length₂_lip : ∀ (a b : List ℝ), a.length = b.length → |length₂ a - length₂ b| ≤ diff₁ a b := by
  have key : ∀ (a b : List ℝ), a.length = b.length → length₂ a ≤ length₂ b + diff₁ a b ∧ length₂ b ≤ length₂ a + diff₁ a b := by
    intro a
    induction a with
    | nil =>
      intro b h
      have : b = [] := List.length_eq_zero_iff.1 h.symm
      subst this
      simp [diff₁]
    | cons x a ih =>
      intro b h
      cases b with
      | nil => simp at h
      | cons y b =>
        obtain ⟨i1, i2⟩ := ih b (by simpa using h)
        have e : diff₁ (x :: a) (y :: b) = |x - y| + diff₁ a b := by simp [diff₁]
        have i3 : |length₂ a - length₂ b| ≤ diff₁ a b := abs_le.2 ⟨by linarith, by linarith⟩
        have i4 : |length₂ b - length₂ a| ≤ diff₁ a b := by rwa [abs_sub_comm]
        rw [length₂_cons, length₂_cons, e]
        have l1 := sqrt_lip x (length₂ a) y (length₂ b) (length₂_nonneg _)
        have l2 := sqrt_lip y (length₂ b) x (length₂ a) (length₂_nonneg _)
        rw [abs_sub_comm y x] at l2
        exact ⟨by linarith, by linarith⟩
  intro a b h
  obtain ⟨h1, h2⟩ := key a b h
  exact abs_le.2 ⟨by linarith, by linarith⟩

theorem diff₁_le {c : ℝ} : ∀ (a b : List ℝ), a.length = b.length →
    (∀ p ∈ a.zip b, |p.1 - p.2| ≤ c) → diff₁ a b ≤ a.length * c := by
  intro a
  induction a with
  | nil => intro b _ _; simp [diff₁]
  | cons x a ih =>
    intro b h hc
    cases b with
    | nil => simp at h
    | cons y b =>
      have e : diff₁ (x :: a) (y :: b) = |x - y| + diff₁ a b := by simp [diff₁]
      have h1 := ih b (by simpa using h) fun p hp => hc p (by simp only [List.zip_cons_cons]; exact List.mem_cons_of_mem _ hp)
      have h2 := hc (x, y) (by simp)
      rw [e, List.length_cons]
      push_cast
      simp only at h2
      linarith

/-! ## Errors of projections and rejections -/

theorem round_error {δ x B : ℝ} (hδ : 1 / 2 ^ 53 ≤ δ) (hB : |x| ≤ B) : |round64 x - x| ≤ (B + 1) * δ := by
  have h1 := abs_error x
  have h2 : (1 : ℝ) / 2 ^ 53 * |x| ≤ δ * B := mul_le_mul hδ hB (abs_nonneg x) ((by positivity : (0 : ℝ) ≤ 1 / 2 ^ 53).trans hδ)
  have h3 : (1 : ℝ) / 2 ^ 200 ≤ δ := (one_div_le_one_div_of_le (by positivity)
    (pow_le_pow_right₀ (by norm_num) (by norm_num))).trans hδ
  calc |round64 x - x| ≤ 1 / 2 ^ 53 * |x| + 1 / 2 ^ 200 := h1
    _ ≤ δ * B + δ := add_le_add h2 h3
    _ = (B + 1) * δ := by ring

section numbers

variable {M δ L L' d d' p' : ℝ}

theorem length_low (hM : 1 ≤ M) (hs : 100 * M ^ 2 * δ ≤ 1) (hL : 3 / (4 * M) ≤ L) (hL' : |L' - L| ≤ δ) :
    1 / (2 * M) ≤ L' ∧ L ≤ 2 * L' ∧ δ * M ≤ 1 / 100 := by
  have hM0 : 0 < M := by linarith
  have hδ0 : 0 ≤ δ := (abs_nonneg _).trans hL'
  have h1 : δ * M ≤ 1 / 100 := by nlinarith [mul_nonneg hδ0 hM0.le]
  have h2 : δ ≤ 1 / (100 * M) := by
    rw [le_div_iff₀ (by positivity)]; linarith
  have e1 : 3 / (4 * M) = 3 / 4 * (1 / M) := by field_simp
  have e2 : 1 / (2 * M) = 1 / 2 * (1 / M) := by field_simp
  have e3 : 1 / (100 * M) = 1 / 100 * (1 / M) := by field_simp
  have h4 : 0 < 1 / M := by positivity
  have h3 := abs_le.1 hL'
  rw [e1] at hL
  rw [e3] at h2
  rw [e2]
  exact ⟨by linarith, by linarith, h1⟩

theorem proj_num (hM : 1 ≤ M) (hδ : 0 ≤ δ) (hs : 100 * M ^ 2 * δ ≤ 1) (hL : 3 / (4 * M) ≤ L) (hL' : |L' - L| ≤ δ)
    (hd : |d / L| ≤ M) (hd' : |d' - d| ≤ δ) : |d' / L' - d / L| ≤ 4 * M ^ 2 * δ := by
  obtain ⟨l1, l2, l3⟩ := length_low hM hs hL hL'
  have hM0 : 0 < M := by linarith
  have hL0 : 0 < L := lt_of_lt_of_le (by positivity) hL
  have hL0' : 0 < L' := lt_of_lt_of_le (by positivity) l1
  have e : d' / L' - d / L = ((d' - d) + d / L * (L - L')) / L' := by field_simp; ring
  rw [e, abs_div, abs_of_pos hL0', div_le_iff₀ hL0']
  have h1 : |d / L * (L - L')| ≤ M * δ := by
    rw [abs_mul]
    exact mul_le_mul hd (by rwa [abs_sub_comm]) (abs_nonneg _) hM0.le
  have h2 := (abs_add_le (d' - d) (d / L * (L - L'))).trans (add_le_add hd' h1)
  have h3 : 4 * M ^ 2 * δ * (1 / (2 * M)) ≤ 4 * M ^ 2 * δ * L' := mul_le_mul_of_nonneg_left l1 (by positivity)
  have e3 : 4 * M ^ 2 * δ * (1 / (2 * M)) = 2 * M * δ := by field_simp; ring
  nlinarith [mul_nonneg (sub_nonneg.2 hM) hδ]

theorem quot_num (hM : 1 ≤ M) (hδ : 0 ≤ δ) (hs : 100 * M ^ 2 * δ ≤ 1) (hL : 3 / (4 * M) ≤ L) (hL' : |L' - L| ≤ δ)
    (hd : |d / L| ≤ M) (hp : |p' - d / L| ≤ 7 * M ^ 2 * δ) : |p' / L' - d / L / L| * L ≤ 16 * M ^ 2 * δ := by
  obtain ⟨l1, l2, l3⟩ := length_low hM hs hL hL'
  have hM0 : 0 < M := by linarith
  have hL0 : 0 < L := lt_of_lt_of_le (by positivity) hL
  have hL0' : 0 < L' := lt_of_lt_of_le (by positivity) l1
  obtain ⟨p, hpd⟩ : ∃ p, p = d / L := ⟨_, rfl⟩
  rw [← hpd] at hd hp ⊢
  have e : (p' / L' - p / L) * L = ((p' - p) * L + p * (L - L')) / L' := by field_simp; ring
  rw [← abs_of_pos hL0, ← abs_mul, abs_of_pos hL0, e, abs_div, abs_of_pos hL0', div_le_iff₀ hL0']
  have h1 : |p * (L - L')| ≤ M * δ := by
    rw [abs_mul]
    exact mul_le_mul hd (by rwa [abs_sub_comm]) (abs_nonneg _) hM0.le
  have h2 : |(p' - p) * L| ≤ 7 * M ^ 2 * δ * (2 * L') := by
    rw [abs_mul, abs_of_pos hL0]
    exact mul_le_mul hp l2 hL0.le (by positivity)
  have h3 : 2 * M ^ 2 * δ * (1 / (2 * M)) ≤ 2 * M ^ 2 * δ * L' := mul_le_mul_of_nonneg_left l1 (by positivity)
  have e3 : 2 * M ^ 2 * δ * (1 / (2 * M)) = M * δ := by field_simp
  rw [e3] at h3
  have := abs_add_le ((p' - p) * L) (p * (L - L'))
  nlinarith

end numbers

theorem inner₂_eq (a b : List ℝ) : inner₂ a b = Evogil.Nsgaiii.dot a b := rfl

theorem along_eq (y r : List ℝ) : along y r = Evogil.Nsgaiii.projection Real.sqrt y r := by
  unfold along Evogil.Nsgaiii.projection
  rw [length₂_eq]; rfl

theorem lineDist_eq (y r : List ℝ) (hl : y.length = r.length) (hr : r.sum ≠ 0) :
    lineDist y r = Evogil.Nsgaiii.rejection Real.sqrt y r := by
  obtain ⟨-, ⟨t, ht⟩, hmin⟩ := C73_geometry y r hl hr
  unfold lineDist
  have hb : BddBelow (Set.range fun t : ℝ => length₂ (List.zipWith (fun a b => a - t * b) y r)) :=
    ⟨0, by rintro _ ⟨t, rfl⟩; exact length₂_nonneg _⟩
  apply le_antisymm
  · refine (ciInf_le hb t).trans ?_
    rw [length₂_eq, ht]
    rfl
  · refine le_ciInf fun t => ?_
    rw [length₂_eq]
    exact hmin t

theorem sum_le_length₂ (r : List ℝ) : r.sum ≤ r.length * length₂ r := by
  have := List.sum_le_card_nsmul r (length₂ r) fun x hx => (le_abs_self x).trans (abs_le_length₂ hx)
  rwa [nsmul_eq_mul] at this

theorem squares_le (y : List ℝ) (h : ∀ x ∈ y, 0 ≤ x ∧ x ≤ 1) : length₂ y ≤ y.length := by
  have h1 : length₂ y ^ 2 ≤ y.length := by
    rw [length₂_sq]
    have := List.sum_le_card_nsmul (y.map fun x => x ^ 2) 1 (by
      intro x hx
      obtain ⟨z, hz, rfl⟩ := List.mem_map.1 hx
      have := h z hz
      nlinarith)
    rw [nsmul_eq_mul, mul_one, List.length_map] at this
    exact this
  rcases Nat.eq_zero_or_pos y.length with h0 | h0
  · rw [List.length_eq_zero_iff] at h0
    subst h0
    simp [length₂]
  · have : (1 : ℝ) ≤ y.length := by exact_mod_cast h0
    have h2 := length₂_nonneg y
    by_contra hc
    push Not at hc
    nlinarith

/-- The hypotheses on a normalized objective vector and a reference point. -/
structure Fits (m : ℕ) (y r : List ℝ) : Prop where
  ylen : y.length = m
  rlen : r.length = m
  yunit : ∀ x ∈ y, 0 ≤ x ∧ x ≤ 1
  runit : ∀ x ∈ r, 0 ≤ x ∧ x ≤ 1
  rsum : |r.sum - 1| ≤ 1 / 4

namespace Fits

variable {m : ℕ} {y r : List ℝ} (h : Fits m y r)

include h

theorem sum_pos : 3 / 4 ≤ r.sum := by linarith [(abs_le.1 h.rsum).1]

theorem low (hm : 1 ≤ m) : 3 / (4 * (m : ℝ)) ≤ length₂ r := by
  have h1 := sum_le_length₂ r
  rw [h.rlen] at h1
  have hm' : (0 : ℝ) < m := by exact_mod_cast hm
  rw [div_le_iff₀ (by positivity)]
  have := h.sum_pos
  nlinarith

theorem triangle : along y r ^ 2 + lineDist y r ^ 2 = length₂ y ^ 2 := by
  have hs : r.sum ≠ 0 := by linarith [h.sum_pos]
  have hl : y.length = r.length := by rw [h.ylen, h.rlen]
  rw [along_eq, lineDist_eq y r hl hs, (C73_geometry y r hl hs).1, length₂_eq]
  exact (Real.sq_sqrt (dot_self_nonneg _)).symm

theorem bounds : |along y r| ≤ m ∧ 0 ≤ lineDist y r ∧ lineDist y r ≤ m := by
  have h1 := h.triangle
  have h2 := squares_le y h.yunit
  rw [h.ylen] at h2
  have h3 := length₂_nonneg y
  have h4 : length₂ y ^ 2 ≤ (m : ℝ) ^ 2 := pow_le_pow_left₀ h3 h2 2
  have hm0 : (0 : ℝ) ≤ m := Nat.cast_nonneg m
  have h0 : 0 ≤ lineDist y r := Real.iInf_nonneg fun t => length₂_nonneg _
  refine ⟨?_, h0, ?_⟩
  · exact abs_le_of_sq_le_sq (by nlinarith [sq_nonneg (lineDist y r)]) hm0
  · exact le_of_sq_le_sq (by nlinarith [sq_nonneg (along y r)]) hm0

end Fits

theorem mem_zip_zipWith {α β γ ε : Type*} (f : α → β → γ) (g : α → β → ε) : ∀ (a : List α) (b : List β) (p : γ × ε),
    p ∈ (List.zipWith f a b).zip (List.zipWith g a b) → ∃ x ∈ a, ∃ y ∈ b, p = (f x y, g x y) := by
  intro a
  induction a with
  | nil => intro b p h; simp at h
  | cons x a ih =>
    intro b p h
    cases b with
    | nil => simp at h
    | cons y b =>
      simp only [List.zipWith_cons_cons, List.zip_cons_cons, List.mem_cons] at h
      rcases h with h | h
      · exact ⟨x, by simp, y, by simp, h⟩
      · obtain ⟨x', hx, y', hy, e⟩ := ih b p h
        exact ⟨x', List.mem_cons_of_mem _ hx, y', List.mem_cons_of_mem _ hy, e⟩

theorem coord_error {δ M a x : ℝ} (hδ : 1 / 2 ^ 53 ≤ δ) (hM : 1 ≤ M) (hs : M * δ ≤ 1 / 100) (ha : |a| ≤ 1)
    (hx : |x| ≤ 2 * M) : |round64 (a - round64 x) - (a - x)| ≤ 8 * M * δ ∧ |round64 (a - round64 x)| ≤ 5 * M := by
  have hδ0 : 0 ≤ δ := (by positivity : (0 : ℝ) ≤ 1 / 2 ^ 53).trans hδ
  have hδM : δ ≤ M * δ := by nlinarith
  have h2 := round_error hδ hx
  have h4 : |a - round64 x| ≤ 4 * M := by
    have e : a - round64 x = a - x - (round64 x - x) := by ring
    rw [e]
    have i1 := abs_sub (a - x) (round64 x - x)
    have i2 := abs_sub a x
    linarith
  have h5 := round_error hδ h4
  constructor
  · have e : round64 (a - round64 x) - (a - x) = (round64 (a - round64 x) - (a - round64 x)) - (round64 x - x) := by
      ring
    rw [e]
    have := abs_sub (round64 (a - round64 x) - (a - round64 x)) (round64 x - x)
    linarith
  · have := abs_add_le (a - round64 x) (round64 (a - round64 x) - (a - round64 x))
    rw [add_sub_cancel] at this
    linarith

theorem score_num {δ M θ j p A D : ℝ} (hδ : 1 / 2 ^ 53 ≤ δ) (hM : 1 ≤ M) (hs : 100 * M ^ 2 * δ ≤ 1) (hθ : 0 ≤ θ)
    (hj : |j - D| ≤ 36 * M ^ 2 * δ) (hp : |p - A| ≤ 15 * M ^ 2 * δ) (hA : |A| ≤ M) (hD0 : 0 ≤ D) (hD : D ≤ M) :
    |round64 (p + round64 (θ * j)) - (A + θ * D)| ≤ 50 * (1 + θ) * M ^ 2 * δ := by
  have hδ0 : 0 ≤ δ := (by positivity : (0 : ℝ) ≤ 1 / 2 ^ 53).trans hδ
  have hδM : M * δ ≤ M ^ 2 * δ := mul_le_mul_of_nonneg_right (by nlinarith) hδ0
  have hδ1 : δ ≤ M * δ := by nlinarith
  have j1 : |j| ≤ 2 * M := by
    have := abs_add_le D (j - D)
    rw [add_sub_cancel, abs_of_nonneg hD0] at this
    linarith
  have p1 : |p| ≤ 2 * M := by
    have := abs_add_le A (p - A)
    rw [add_sub_cancel] at this
    linarith
  have t1 : |θ * j| ≤ θ * (2 * M) := by rw [abs_mul, abs_of_nonneg hθ]; exact mul_le_mul_of_nonneg_left j1 hθ
  have r1 := round_error hδ t1
  have k1 : |round64 (θ * j)| ≤ θ * (2 * M) + (θ * (2 * M) + 1) * δ := by
    have := abs_add_le (θ * j) (round64 (θ * j) - θ * j)
    rw [add_sub_cancel] at this
    linarith
  have k2 : (θ * (2 * M) + 1) * δ ≤ θ * (M * δ * 2) + M * δ := by nlinarith
  have hMδ : M * δ ≤ 1 / 100 := by linarith
  have k3 : θ * (M * δ * 2) ≤ θ * M := mul_le_mul_of_nonneg_left (by linarith) hθ
  have k4 : |p + round64 (θ * j)| ≤ 3 * M + 3 * (θ * M) := by
    have := abs_add_le p (round64 (θ * j))
    linarith
  have r2 := round_error hδ k4
  have k5 : (3 * M + 3 * (θ * M) + 1) * δ ≤ 4 * (M * δ) + 3 * (θ * (M * δ)) := by nlinarith
  have k6 : |θ * j - θ * D| ≤ θ * (36 * M ^ 2 * δ) := by
    rw [← mul_sub, abs_mul, abs_of_nonneg hθ]; exact mul_le_mul_of_nonneg_left hj hθ
  have e : round64 (p + round64 (θ * j)) - (A + θ * D) = (round64 (p + round64 (θ * j)) - (p + round64 (θ * j))) +
      ((round64 (θ * j) - θ * j) + ((p - A) + (θ * j - θ * D))) := by ring
  rw [e]
  have i1 := abs_add_le (round64 (p + round64 (θ * j)) - (p + round64 (θ * j)))
      ((round64 (θ * j) - θ * j) + ((p - A) + (θ * j - θ * D)))
  have i2 := abs_add_le (round64 (θ * j) - θ * j) ((p - A) + (θ * j - θ * D))
  have i3 := abs_add_le (p - A) (θ * j - θ * D)
  have f1 : θ * (M * δ) ≤ θ * (M ^ 2 * δ) := mul_le_mul_of_nonneg_left hδM hθ
  have f2 : 0 ≤ θ * (M ^ 2 * δ) := by positivity
  have f3 : 0 ≤ M ^ 2 * δ := by positivity
  have g : 50 * (1 + θ) * M ^ 2 * δ = 50 * (M ^ 2 * δ) + 50 * (θ * (M ^ 2 * δ)) := by ring
  have g2 : θ * (36 * M ^ 2 * δ) = 36 * (θ * (M ^ 2 * δ)) := by ring
  have g3 : θ * (M * δ * 2) = 2 * (θ * (M * δ)) := by ring
  rw [g]
  linarith

section errors

variable {m : ℕ} {δ : ℝ} {dot : List ℝ → List ℝ → ℝ} {norm : List ℝ → ℝ} {y r : List ℝ}

theorem norm_ok (hn : IsNumpy m δ dot norm) (hm : 1 ≤ m) (hs : 100 * (m : ℝ) ^ 2 * δ ≤ 1) (h : Fits m y r) :
    |norm r - length₂ r| ≤ δ ∧ 0 < norm r := by
  have hm' : (1 : ℝ) ≤ m := by exact_mod_cast hm
  have h1 := hn.norm r h.rlen fun x hx => by
    rw [abs_of_nonneg (h.runit x hx).1]; linarith [(h.runit x hx).2]
  exact ⟨h1, lt_of_lt_of_le (by positivity) (length_low hm' hs (h.low hm) h1).1⟩

theorem projection_error (hn : IsNumpy m δ dot norm) (hδ : 1 / 2 ^ 53 ≤ δ) (hm : 1 ≤ m)
    (hs : 100 * (m : ℝ) ^ 2 * δ ≤ 1) (h : Fits m y r) :
    |projection round64 dot norm y r - along y r| ≤ 7 * (m : ℝ) ^ 2 * δ := by
  have hm' : (1 : ℝ) ≤ m := by exact_mod_cast hm
  have hδ0 : 0 ≤ δ := (by positivity : (0 : ℝ) ≤ 1 / 2 ^ 53).trans hδ
  have hd := hn.dot y r h.ylen h.rlen (fun x hx => by rw [abs_of_nonneg (h.yunit x hx).1]; exact (h.yunit x hx).2)
    (fun x hx => by rw [abs_of_nonneg (h.runit x hx).1]; exact (h.runit x hx).2)
  have hp := proj_num hm' hδ0 hs (h.low hm) (norm_ok hn hm hs h).1 h.bounds.1 hd
  change |dot y r / norm r - along y r| ≤ _ at hp
  have hb : |dot y r / norm r| ≤ m + 1 := by
    have h1 := abs_add_le (along y r) (dot y r / norm r - along y r)
    rw [add_sub_cancel] at h1
    nlinarith [h.bounds.1]
  have hr := round_error hδ hb
  have h1 := abs_add_le (round64 (dot y r / norm r) - dot y r / norm r) (dot y r / norm r - along y r)
  rw [sub_add_sub_cancel] at h1
  unfold projection
  have h2 : ((m : ℝ) + 1 + 1) * δ ≤ 3 * (m : ℝ) ^ 2 * δ :=
    mul_le_mul_of_nonneg_right (by nlinarith) hδ0
  linarith

theorem rejection_error (hn : IsNumpy m δ dot norm) (hδ : 1 / 2 ^ 53 ≤ δ) (hm : 1 ≤ m)
    (hs : 100 * (m : ℝ) ^ 2 * δ ≤ 1) (h : Fits m y r) :
    |rejection round64 dot norm y r - lineDist y r| ≤ 28 * (m : ℝ) ^ 2 * δ := by
  have hm' : (1 : ℝ) ≤ m := by exact_mod_cast hm
  have hδ0 : 0 ≤ δ := (by positivity : (0 : ℝ) ≤ 1 / 2 ^ 53).trans hδ
  obtain ⟨M, hM⟩ : ∃ M : ℝ, M = m := ⟨_, rfl⟩
  have hlow := h.low hm
  obtain ⟨n1, n2⟩ := norm_ok hn hm hs h
  have hp := projection_error hn hδ hm hs h
  have hb := h.bounds
  have hq := quot_num hm' hδ0 hs hlow n1 hb.1 hp
  have hup : length₂ r ≤ m := by
    have := squares_le r h.runit
    rwa [h.rlen] at this
  have hL0 : 0 < length₂ r := lt_of_lt_of_le (by positivity) hlow
  have htri := h.triangle
  have hlen : y.length = r.length := by rw [h.ylen, h.rlen]
  unfold rejection
  simp only
  rw [← hM] at hs hlow hp hq hup hb hm' ⊢
  obtain ⟨x, hx⟩ : ∃ x, x = projection round64 dot norm y r / norm r := ⟨_, rfl⟩
  rw [← hx] at hq ⊢
  obtain ⟨L, hL⟩ : ∃ L, L = length₂ r := ⟨_, rfl⟩
  have hal : inner₂ y r = along y r * L := by rw [hL]; unfold along; field_simp
  change |x - along y r / length₂ r| * length₂ r ≤ _ at hq
  rw [← hL] at hq hup hL0
  have hδM : M * δ ≤ M ^ 2 * δ := mul_le_mul_of_nonneg_right (by nlinarith) hδ0
  -- the factor
  have hq' : |x * L - along y r| ≤ 16 * M ^ 2 * δ := by
    have e : (x - along y r / L) * L = x * L - along y r := by field_simp
    rw [← e, abs_mul, abs_of_pos hL0]; exact hq
  have hxL : |x| * L ≤ 2 * M := by
    have h0 : |x| * L = |x * L| := by rw [abs_mul, abs_of_pos hL0]
    have h1 := abs_add_le (along y r) (x * L - along y r)
    rw [add_sub_cancel] at h1
    linarith [hb.1]
  obtain ⟨t, ht⟩ : ∃ t, t = round64 x := ⟨_, rfl⟩
  have hte : |t - x| * L ≤ 3 * M * δ := by
    have h1 := abs_error x
    rw [← ht] at h1
    have h3 : (1 : ℝ) / 2 ^ 200 ≤ δ := (one_div_le_one_div_of_le (by positivity)
      (pow_le_pow_right₀ (by norm_num) (by norm_num))).trans hδ
    have h4 : (1 : ℝ) / 2 ^ 53 * |x| ≤ δ * |x| := mul_le_mul_of_nonneg_right hδ (abs_nonneg x)
    have h5 : |t - x| ≤ δ * |x| + δ := h1.trans (add_le_add h4 h3)
    calc |t - x| * L ≤ (δ * |x| + δ) * L := mul_le_mul_of_nonneg_right h5 hL0.le
      _ = δ * (|x| * L) + δ * L := by ring
      _ ≤ δ * (2 * M) + δ * M := add_le_add (mul_le_mul_of_nonneg_left hxL hδ0) (mul_le_mul_of_nonneg_left hup hδ0)
      _ = 3 * M * δ := by ring
  have htL : |t * L - along y r| ≤ 19 * M ^ 2 * δ := by
    have e : t * L - along y r = (t - x) * L + (x * L - along y r) := by ring
    have h1 : |(t - x) * L| = |t - x| * L := by rw [abs_mul, abs_of_pos hL0]
    rw [e]
    have := abs_add_le ((t - x) * L) (x * L - along y r)
    rw [h1] at this
    linarith
  rw [← ht]
  -- the vector without rounding
  have hexact : |length₂ (subMul y t r) - lineDist y r| ≤ 19 * M ^ 2 * δ := by
    have hsq : length₂ (subMul y t r) ^ 2 = lineDist y r ^ 2 + (t * L - along y r) ^ 2 := by
      have e1 : ∀ a : List ℝ, length₂ a ^ 2 = Evogil.Nsgaiii.dot a a := fun a => by
        rw [length₂_eq]; exact Real.sq_sqrt (dot_self_nonneg _)
      have e2 : Evogil.Nsgaiii.dot y r = along y r * L := hal
      have e3 : Evogil.Nsgaiii.dot r r = L ^ 2 := by rw [hL, e1]
      rw [e1, dot_subMul _ _ _ hlen, e2, e3, ← e1 y, ← htri]
      ring
    have h0 := length₂_nonneg (subMul y t r)
    have h1 := hb.2.1
    have h2 := abs_nonneg (t * L - along y r)
    have h3 := sq_abs (t * L - along y r)
    have h4 : lineDist y r ≤ length₂ (subMul y t r) := by
      refine le_of_sq_le_sq ?_ h0
      nlinarith [sq_nonneg (t * L - along y r)]
    have h5 : length₂ (subMul y t r) ≤ lineDist y r + |t * L - along y r| := by
      refine le_of_sq_le_sq ?_ (by linarith)
      nlinarith
    rw [abs_of_nonneg (by linarith)]
    linarith
  -- the rounded vector
  have htb : ∀ b ∈ r, |t * b| ≤ 2 * M := by
    intro b hbm
    have h1 : |b| ≤ L := hL ▸ abs_le_length₂ hbm
    have h2 : |t * L| ≤ 2 * M := by
      have h3 := abs_add_le (along y r) (t * L - along y r)
      rw [add_sub_cancel] at h3
      linarith [hb.1]
    rw [abs_mul] at h2 ⊢
    rw [abs_of_pos hL0] at h2
    exact (mul_le_mul_of_nonneg_left h1 (abs_nonneg t)).trans h2
  have hδ1 : M * δ ≤ 1 / 100 := by nlinarith
  have hcoord : ∀ a ∈ y, ∀ b ∈ r, |round64 (a - round64 (t * b)) - (a - t * b)| ≤ 8 * M * δ ∧
      |round64 (a - round64 (t * b))| ≤ 5 * M := by
    intro a ha b hbm
    exact coord_error hδ hm' hδ1 (by rw [abs_of_nonneg (h.yunit a ha).1]; exact (h.yunit a ha).2) (htb b hbm)
  obtain ⟨v, hv⟩ : ∃ v, v = List.zipWith (fun a b => round64 (a - round64 (t * b))) y r := ⟨_, rfl⟩
  rw [← hv]
  have hvl : v.length = m := by rw [hv, List.length_zipWith, h.ylen, h.rlen, Nat.min_self]
  have hdiff : diff₁ v (subMul y t r) ≤ 8 * M ^ 2 * δ := by
    have := diff₁_le (c := 8 * M * δ) v (subMul y t r) (by
      rw [hvl]; unfold subMul; rw [List.length_zipWith, h.ylen, h.rlen, Nat.min_self]) (by
      intro p hp
      rw [hv] at hp
      obtain ⟨a, ha, b, hbm, rfl⟩ := mem_zip_zipWith _ _ _ _ _ hp
      exact (hcoord a ha b hbm).1)
    rw [hvl, ← hM] at this
    calc diff₁ v (subMul y t r) ≤ M * (8 * M * δ) := this
      _ = 8 * M ^ 2 * δ := by ring
  have hlip := (length₂_lip v (subMul y t r) (by
      rw [hvl]; unfold subMul; rw [List.length_zipWith, h.ylen, h.rlen, Nat.min_self])).trans hdiff
  have hnorm := hn.norm v hvl (by
    intro z hz
    rw [hv] at hz
    obtain ⟨a, ha, b, hbm, e⟩ := mem_zip_zipWith (fun a b => round64 (a - round64 (t * b)))
      (fun a b => round64 (a - round64 (t * b))) y r (z, z) (by
        rw [List.zip, List.zipWith_self]; exact List.mem_map.2 ⟨z, hz, rfl⟩)
    rw [(Prod.mk.inj e).1, ← hM]
    exact (hcoord a ha b hbm).2)
  have e : norm v - lineDist y r = (norm v - length₂ v) + (length₂ v - length₂ (subMul y t r)) +
      (length₂ (subMul y t r) - lineDist y r) := by ring
  rw [e]
  have i1 := abs_add_le ((norm v - length₂ v) + (length₂ v - length₂ (subMul y t r))) (length₂ (subMul y t r) - lineDist y r)
  have i2 := abs_add_le (norm v - length₂ v) (length₂ v - length₂ (subMul y t r))
  have i3 : δ ≤ M ^ 2 * δ := by nlinarith
  linarith

end errors

/-! ## Normalization -/

section normalization

theorem column_bounds (m : ℕ) (hist objs : List (List ℝ)) (hh : ∀ o ∈ hist, o.length = m) (hsub : ∀ o ∈ objs, o ∈ hist)
    (hne : objs ≠ []) (i : ℕ) (hi : i < m) :
    ∃ a b : ℝ, (updateIdeal (initialIdeal m) hist)[i]? = some (a : WithTop ℝ) ∧
      (defiledPoint m objs)[i]? = some (b : WithBot ℝ) ∧
      IsLeast {v | ∃ p ∈ hist, p[i]? = some v} a ∧ IsGreatest {v | ∃ p ∈ objs, p[i]? = some v} b := by
  obtain ⟨o, ho⟩ := List.exists_mem_of_ne_nil _ hne
  obtain ⟨-, hid⟩ := C31_ideal m hist hh
  obtain ⟨a, a1, a2, a3⟩ := hid i hi
  obtain ⟨b, b1, -, b3, b4⟩ := defiled_get m objs (List.replicate m ⊥) (fun o h => hh o (hsub o h)) i ⊥ hi (by simp [hi])
  have hol := hh o (hsub o ho)
  have hoi : o[i]? = some (o[i]'(by omega)) := List.getElem?_eq_getElem (by omega)
  rcases a3 with ⟨h, -⟩ | ⟨p, hp, x, hx, rfl⟩
  · rw [h] at hsub; exact absurd (hsub o ho) (by simp)
  rcases b4 with h | ⟨q, hq, z, hz, rfl⟩
  · have := b3 o ho _ hoi
    rw [h] at this
    exact absurd this (not_le.2 (WithBot.bot_lt_coe _))
  exact ⟨x, z, a1, b1, ⟨⟨p, hp, hx⟩, fun v ⟨p', hp', hv⟩ => WithTop.coe_le_coe.1 (a2 p' hp' v hv)⟩,
    ⟨⟨q, hq, hz⟩, fun v ⟨p', hp', hv⟩ => WithBot.coe_le_coe.1 (b3 p' hp' v hv)⟩⟩

theorem bounds_length (m : ℕ) (objs : List (List ℝ)) (ho : ∀ o ∈ objs, o.length = m) : (defiledPoint m objs).length = m := by
  unfold defiledPoint
  have : ∀ (l : List (List ℝ)) (d : List (WithBot ℝ)), d.length = m → (∀ o ∈ l, o.length = m) →
      (l.foldl Evogil.Nsgaiii.updateDefiledOne d).length = m := by
    intro l
    induction l with
    | nil => intro d h _; exact h
    | cons a l ih =>
      intro d h hl
      rw [List.foldl_cons]
      refine ih _ ?_ fun o h => hl o (List.mem_cons_of_mem _ h)
      unfold Evogil.Nsgaiii.updateDefiledOne
      rw [List.length_zipWith, h, hl a List.mem_cons_self, Nat.min_self]
  exact this objs _ (by simp) ho

/-- A scaled value: within [0, 1], and off by at most `2⁻⁵⁰`. -/
theorem value_error {eps a b x : ℝ} (he : 0 < eps) (hfe : round64 eps = eps) (hax : a ≤ x) (hxb : x ≤ b)
    (fa : round64 a = a) (fb : round64 b = b) (fx : round64 x = x) :
    let v := round64 (round64 (x - a) / round64 (round64 (b - a) + eps))
    0 ≤ v ∧ v ≤ 1 ∧ |v - (x - a) / (b - a + eps)| ≤ 1 / 2 ^ 50 := by
  intro v
  have R := round64_isRounding (K := ℝ)
  obtain ⟨p0, p1, p2⟩ := ratio_mem (a := x - a) (b := b - a) R he hfe (by linarith) (by linarith)
  refine ⟨p1, p2, ?_⟩
  have fna : round64 (-a) = -a := by rw [round64_neg, fa]
  have e1 := add_error fx fna
  have e2 := add_error fb fna
  have e3 := add_error (R.idem (b - a)) hfe
  rw [← sub_eq_add_neg] at e1 e2
  rw [abs_of_nonneg (by linarith : 0 ≤ x - a)] at e1
  rw [abs_of_nonneg (by linarith : 0 ≤ b - a)] at e2
  have s0 : 0 ≤ round64 (b - a) := fl_nonneg R (by linarith)
  rw [abs_of_nonneg (by linarith : 0 ≤ round64 (b - a) + eps)] at e3
  obtain ⟨N, hN⟩ : ∃ N, N = x - a := ⟨_, rfl⟩
  obtain ⟨B, hB⟩ : ∃ B, B = b - a := ⟨_, rfl⟩
  obtain ⟨N', hN'⟩ : ∃ N', N' = round64 (x - a) := ⟨_, rfl⟩
  obtain ⟨S, hS⟩ : ∃ S, S = round64 (b - a) := ⟨_, rfl⟩
  obtain ⟨D', hD'⟩ : ∃ D', D' = round64 (S + eps) := ⟨_, rfl⟩
  have hv : v = round64 (N' / D') := by rw [hN', hD', hS]
  rw [← hS, ← hD'] at e3 p0
  rw [← hS] at e2 s0
  rw [← hN'] at e1
  rw [hv, ← hN, ← hB]
  rw [← hN] at e1
  rw [← hB] at e2
  have hN0 : 0 ≤ N := by linarith
  have hNB : N ≤ B := by linarith
  have hN'0 : 0 ≤ N' := hN' ▸ fl_nonneg R (by linarith)
  have hle : N' ≤ D' := by
    rw [hD']
    refine le_fl R (by rw [hN']; exact R.idem _) ?_
    have : N' ≤ S := by rw [hN', hS]; exact R.mono _ _ (sub_le_sub_right hxb a)
    linarith
  have hr : 0 ≤ N' / D' := div_nonneg hN'0 p0.le
  have hr1 : N' / D' ≤ 1 := (div_le_one p0).2 hle
  have hu := unit_error hr hr1
  have hD : 0 < B + eps := by linarith
  have q : |N' / D' - N / (B + eps)| ≤ 6 / 2 ^ 53 := by
    have a1 := abs_le.1 e1
    have a2 := abs_le.1 e2
    have a3 := abs_le.1 e3
    have g1 : |N' - N| ≤ 1 / 2 ^ 53 * (B + eps) := e1.trans (mul_le_mul_of_nonneg_left (by linarith) (by positivity))
    have hSe : S + eps ≤ 2 * (B + eps) := by norm_num at a2 ⊢; linarith
    have g2 : |D' - (B + eps)| ≤ 3 / 2 ^ 53 * (B + eps) := by
      rw [abs_le]
      norm_num at a2 a3 ⊢
      constructor <;> linarith
    have g3 : 2 / 3 * (B + eps) ≤ D' := by
      have := (abs_le.1 g2).1
      norm_num at this ⊢
      linarith
    have e : N' / D' - N / (B + eps) = ((N' - N) - N / (B + eps) * (D' - (B + eps))) / D' := by
      field_simp
      ring
    have hq0 : 0 ≤ N / (B + eps) := div_nonneg hN0 hD.le
    have hq1 : N / (B + eps) ≤ 1 := (div_le_one hD).2 (by linarith)
    rw [e, abs_div, abs_of_pos p0]
    have h1 := abs_sub (N' - N) (N / (B + eps) * (D' - (B + eps)))
    rw [abs_mul, abs_of_nonneg hq0] at h1
    have h2 : N / (B + eps) * |D' - (B + eps)| ≤ 1 * (3 / 2 ^ 53 * (B + eps)) :=
      mul_le_mul hq1 g2 (abs_nonneg _) zero_le_one
    rw [div_le_iff₀ p0]
    norm_num at g1 h2 g3 ⊢
    linarith
  have h1 := abs_add_le (round64 (N' / D') - N' / D') (N' / D' - N / (B + eps))
  rw [sub_add_sub_cancel] at h1
  norm_num at hu q ⊢
  linarith

/-- C137: the objectives are scaled into [0, 1] in floating point too, and every coordinate is off by at most `2⁻⁵⁰`. -/
theorem C137_normalized {eps : ℝ} (he : 0 < eps) (hfe : round64 eps = eps) (m : ℕ) (hist objs : List (List ℝ))
    (hh : ∀ o ∈ hist, o.length = m ∧ ∀ x ∈ o, round64 x = x) (hsub : ∀ o ∈ objs, o ∈ hist) (o : List ℝ) (ho : o ∈ objs) :
    let n := normalizeOne round64 eps (updateIdeal (initialIdeal m) hist) (defiledPoint m objs) o
    n.length = m ∧ (∀ x ∈ n, 0 ≤ x ∧ x ≤ 1) ∧
    ∃ y, IsScaled eps hist objs o y ∧ (∀ x ∈ y, 0 ≤ x ∧ x ≤ 1) ∧ ∀ p ∈ n.zip y, |p.1 - p.2| ≤ 1 / 2 ^ 50 := by
  intro n
  have hl : ∀ o ∈ hist, o.length = m := fun o h => (hh o h).1
  have hne : objs ≠ [] := List.ne_nil_of_mem ho
  have hol := hl o (hsub o ho)
  have hil := (C31_ideal m hist hl).1
  have hdl := bounds_length m objs fun o h => hl o (hsub o h)
  obtain ⟨y, hy⟩ : ∃ y, y = Evogil.Nsgaiii.normalizeOne eps (updateIdeal (initialIdeal m) hist) (defiledPoint m objs) o :=
    ⟨_, rfl⟩
  have hnl : n.length = m := by
    show (List.zipWith _ _ _).length = m
    rw [List.length_zipWith, List.length_zip, hil, hdl, hol, Nat.min_self, Nat.min_self]
  have hyl : y.length = m := by
    rw [hy]
    show (List.zipWith _ _ _).length = m
    rw [List.length_zipWith, List.length_zip, hil, hdl, hol, Nat.min_self, Nat.min_self]
  have key : ∀ i, i < m → ∃ a b x : ℝ, o[i]? = some x ∧ IsLeast {v | ∃ p ∈ hist, p[i]? = some v} a ∧
      IsGreatest {v | ∃ p ∈ objs, p[i]? = some v} b ∧ y[i]? = some ((x - a) / (b - a + eps)) ∧
      n[i]? = some (round64 (round64 (x - a) / round64 (round64 (b - a) + eps))) ∧
      a ≤ x ∧ x ≤ b ∧ round64 a = a ∧ round64 b = b ∧ round64 x = x := by
    intro i hi
    obtain ⟨a, b, a1, b1, a2, b2⟩ := column_bounds m hist objs hl hsub hne i hi
    have hoi : o[i]? = some (o[i]'(by omega)) := List.getElem?_eq_getElem (by omega)
    generalize o[i]'(by omega) = x at hoi
    have hz : (List.zip (updateIdeal (initialIdeal m) hist) (defiledPoint m objs))[i]? =
        some ((a : WithTop ℝ), (b : WithBot ℝ)) := by
      rw [List.getElem?_zip_eq_some]
      exact ⟨a1, b1⟩
    have hfl : ∀ v, (∃ p ∈ hist, p[i]? = some v) → round64 v = v := by
      rintro v ⟨p, hp, hv⟩
      exact (hh p hp).2 v (List.mem_of_getElem? hv)
    refine ⟨a, b, _, hoi, a2, b2, ?_, ?_, a2.2 ⟨o, hsub o ho, hoi⟩, b2.2 ⟨o, ho, hoi⟩, hfl a a2.1, ?_,
      hfl _ ⟨o, hsub o ho, hoi⟩⟩
    · rw [hy]
      show (List.zipWith _ _ _)[i]? = _
      rw [List.getElem?_zipWith, hz, hoi]
      rfl
    · show (List.zipWith _ _ _)[i]? = _
      rw [List.getElem?_zipWith, hz, hoi]
      rfl
    · obtain ⟨p, hp, hv⟩ := b2.1
      exact hfl b ⟨p, hsub p hp, hv⟩
  refine ⟨hnl, fun v hv => ?_, y, ⟨hyl.trans hol.symm, fun i x hx => ?_⟩, fun v hv => ?_, fun p hp => ?_⟩
  · obtain ⟨i, hi, rfl⟩ := List.getElem_of_mem hv
    obtain ⟨a, b, x, -, -, -, -, k1, k2, k3, k4, k5, k6⟩ := key i (by omega)
    have := value_error he hfe k2 k3 k4 k5 k6
    rw [List.getElem?_eq_getElem hi] at k1
    rw [Option.some.inj k1]
    exact ⟨this.1, this.2.1⟩
  · have hi : i < m := by
      have := (List.getElem?_eq_some_iff.1 hx).1
      omega
    obtain ⟨a, b, x', k0, k1, k2, k3, -⟩ := key i hi
    rw [hx] at k0
    obtain rfl := Option.some.inj k0
    exact ⟨a, b, k1, k2, k3⟩
  · obtain ⟨i, hi, rfl⟩ := List.getElem_of_mem hv
    obtain ⟨a, b, x, -, -, -, k1, -, k2, k3, -⟩ := key i (by omega)
    rw [List.getElem?_eq_getElem hi] at k1
    rw [Option.some.inj k1]
    have hD : 0 < b - a + eps := by linarith
    exact ⟨div_nonneg (by linarith) hD.le, (div_le_one hD).2 (by linarith)⟩
  · obtain ⟨i, hi, rfl⟩ := List.getElem_of_mem hp
    rw [List.length_zip] at hi
    obtain ⟨a, b, x, -, -, -, k0, k1, k2, k3, k4, k5, k6⟩ := key i (by omega)
    have := value_error he hfe k2 k3 k4 k5 k6
    rw [List.getElem?_eq_getElem (by omega)] at k1 k0
    rw [List.getElem_zip, Option.some.inj k1, Option.some.inj k0]
    exact this.2.2

end normalization

/-! ## Clusters and scores -/

theorem diff₁_subMul (t : ℝ) : ∀ (y y' r : List ℝ), y.length = r.length → y'.length = r.length →
    diff₁ (subMul y t r) (subMul y' t r) = diff₁ y y' := by
  intro y
  induction y with
  | nil => intro y' r h h'; rw [← h] at h'; rw [List.length_eq_zero_iff.1 h']; simp [diff₁, subMul]
  | cons a y ih =>
    intro y' r h h'
    cases r with
    | nil => simp at h
    | cons c r =>
      cases y' with
      | nil => simp at h'
      | cons b y' =>
        have := ih y' r (by simpa using h) (by simpa using h')
        simp only [diff₁, subMul, List.zipWith_cons_cons, List.sum_cons] at this ⊢
        rw [this]
        congr 2
        ring

theorem inner₂_lip (B : ℝ) : ∀ (y y' r : List ℝ), y.length = y'.length → (∀ x ∈ r, |x| ≤ B) → 0 ≤ B →
    |inner₂ y r - inner₂ y' r| ≤ diff₁ y y' * B := by
  intro y
  induction y with
  | nil => intro y' r h hr hB; rw [List.length_eq_zero_iff.1 h.symm]; simp [diff₁, inner₂]
  | cons a y ih =>
    intro y' r h hr hB
    cases y' with
    | nil => simp at h
    | cons b y' =>
      have hd : 0 ≤ diff₁ y y' := by
        refine List.sum_nonneg fun v hv => ?_
        obtain ⟨i, hi, rfl⟩ := List.getElem_of_mem hv
        rw [List.getElem_zipWith]
        exact abs_nonneg _
      cases r with
      | nil =>
        simp only [inner₂, List.zipWith_nil_right, List.sum_nil, sub_self, abs_zero]
        refine mul_nonneg ?_ hB
        simp only [diff₁, List.zipWith_cons_cons, List.sum_cons]
        exact add_nonneg (abs_nonneg _) hd
      | cons c r =>
        have h1 := ih y' r (by simpa using h) (fun x hx => hr x (List.mem_cons_of_mem _ hx)) hB
        have h2 := hr c List.mem_cons_self
        simp only [diff₁, inner₂, List.zipWith_cons_cons, List.sum_cons] at h1 ⊢
        have e : a * c + (List.zipWith (fun x y => x * y) y r).sum - (b * c + (List.zipWith (fun x y => x * y) y' r).sum) =
          (a - b) * c + ((List.zipWith (fun x y => x * y) y r).sum - (List.zipWith (fun x y => x * y) y' r).sum) := by ring
        rw [e, add_mul]
        refine (abs_add_le _ _).trans (add_le_add ?_ h1)
        rw [abs_mul]
        exact mul_le_mul_of_nonneg_left h2 (abs_nonneg _)

section scores

variable {m : ℕ} {y y' r : List ℝ}

theorem along_lip (h : Fits m y r) (h' : Fits m y' r) (hm : 1 ≤ m) : |along y r - along y' r| ≤ diff₁ y y' := by
  have hm' : (1 : ℝ) ≤ m := by exact_mod_cast hm
  have hL : 0 < length₂ r := lt_of_lt_of_le (by positivity) (h.low hm)
  have := inner₂_lip (length₂ r) y y' r (by rw [h.ylen, h'.ylen]) (fun x hx => abs_le_length₂ hx) hL.le
  unfold along
  rw [← sub_div, abs_div, abs_of_pos hL, div_le_iff₀ hL]
  exact this

theorem lineDist_le_add (h : Fits m y r) (h' : Fits m y' r) : lineDist y r ≤ lineDist y' r + diff₁ y y' := by
  have hsum : r.sum ≠ 0 := (lt_of_lt_of_le (by norm_num) h.sum_pos).ne'
  have l1 : y.length = r.length := by rw [h.ylen, h.rlen]
  have l2 : y'.length = r.length := by rw [h'.ylen, h.rlen]
  obtain ⟨-, ⟨t, ht⟩, -⟩ := C73_geometry y' r l2 hsum
  obtain ⟨-, -, hmin⟩ := C73_geometry y r l1 hsum
  rw [lineDist_eq y r l1 hsum, lineDist_eq y' r l2 hsum, ht]
  refine (hmin t).trans ?_
  have := length₂_lip (subMul y t r) (subMul y' t r) (by
    unfold subMul; rw [List.length_zipWith, List.length_zipWith, l1, l2])
  rw [diff₁_subMul t y y' r l1 l2, length₂_eq, length₂_eq] at this
  have := (abs_le.1 this).2
  linarith

theorem diff₁_comm : ∀ (y y' : List ℝ), diff₁ y y' = diff₁ y' y := by
  intro y
  induction y with
  | nil => intro y'; cases y' <;> rfl
  | cons a y ih =>
    intro y'
    cases y' with
    | nil => rfl
    | cons b y' =>
      have := ih y'
      simp only [diff₁, List.zipWith_cons_cons, List.sum_cons] at this ⊢
      rw [this, abs_sub_comm]

theorem lineDist_lip (h : Fits m y r) (h' : Fits m y' r) : |lineDist y r - lineDist y' r| ≤ diff₁ y y' := by
  have h1 := lineDist_le_add h h'
  have h2 := lineDist_le_add h' h
  rw [diff₁_comm] at h2
  rw [abs_le]
  constructor <;> linarith

/-- C137: in floating point every individual is assigned to a reference point whose direction is nearest up to `72·m²·δ`,
and its score is within `50·(1 + θ)·m²·δ` of the length along that direction plus `θ` times the distance from it. -/
theorem C137_scores {δ eps : ℝ} {dot : List ℝ → List ℝ → ℝ} {norm : List ℝ → ℝ} (cf : Conf ℝ)
    (hn : IsNumpy cf.m δ dot norm) (hδ : 1 / 2 ^ 53 ≤ δ) (hm : 1 ≤ cf.m) (hs : 100 * (cf.m : ℝ) ^ 2 * δ ≤ 1)
    (he : 0 < eps) (hfe : round64 eps = eps) (hθ : 0 ≤ cf.theta)
    (hrefs : cf.refs ≠ [])
    (href : ∀ r ∈ cf.refs, r.length = cf.m ∧ (∀ x ∈ r, 0 ≤ x ∧ x ≤ 1) ∧ |r.sum - 1| ≤ 1 / 4)
    (hist objs : List (List ℝ)) (hh : ∀ o ∈ hist, o.length = cf.m ∧ ∀ x ∈ o, round64 x = x)
    (hsub : ∀ o ∈ objs, o ∈ hist) (k : ℕ) (o : List ℝ) (ho : objs[k]? = some o) :
    ∃ y, IsScaled eps hist objs o y ∧ ∃ (i : ℕ) (r : List ℝ) (v : ℝ), cf.refs[i]? = some r ∧
      (scores round64 dot norm eps cf (updateIdeal (initialIdeal cf.m) hist) objs)[k]? = some (i, v) ∧
      (∀ r' ∈ cf.refs, lineDist y r ≤ lineDist y r' + 72 * (cf.m : ℝ) ^ 2 * δ) ∧
      |v - (along y r + cf.theta * lineDist y r)| ≤ 50 * (1 + cf.theta) * (cf.m : ℝ) ^ 2 * δ := by
  have hm' : (1 : ℝ) ≤ cf.m := by exact_mod_cast hm
  have hδ0 : 0 ≤ δ := (by positivity : (0 : ℝ) ≤ 1 / 2 ^ 53).trans hδ
  obtain ⟨hnl, hn01, y, hy, hy01, hyn⟩ := C137_normalized he hfe cf.m hist objs hh hsub o (List.mem_of_getElem? ho)
  obtain ⟨n, hnn⟩ : ∃ n, n = normalizeOne round64 eps (updateIdeal (initialIdeal cf.m) hist) (defiledPoint cf.m objs) o :=
    ⟨_, rfl⟩
  rw [← hnn] at hnl hn01 hyn
  have hyl : y.length = cf.m := hy.1.trans (hh o (hsub o (List.mem_of_getElem? ho))).1
  have fn : ∀ r ∈ cf.refs, Fits cf.m n r := fun r hr => ⟨hnl, (href r hr).1, hn01, (href r hr).2.1, (href r hr).2.2⟩
  have fy : ∀ r ∈ cf.refs, Fits cf.m y r := fun r hr => ⟨hyl, (href r hr).1, hy01, (href r hr).2.1, (href r hr).2.2⟩
  have hd : diff₁ n y ≤ 8 * (cf.m : ℝ) ^ 2 * δ := by
    have h1 := diff₁_le n y (by rw [hnl, hyl]) hyn
    rw [hnl] at h1
    refine h1.trans ?_
    have h2 : (1 : ℝ) / 2 ^ 50 ≤ 8 * δ := by norm_num at hδ ⊢; linarith
    calc (cf.m : ℝ) * (1 / 2 ^ 50) ≤ cf.m * (8 * δ) := mul_le_mul_of_nonneg_left h2 (by linarith)
      _ ≤ 8 * (cf.m : ℝ) ^ 2 * δ := by nlinarith [mul_nonneg hδ0 (mul_nonneg (by linarith : (0 : ℝ) ≤ cf.m) (by linarith : (0 : ℝ) ≤ cf.m - 1))]
  have hrej : ∀ r ∈ cf.refs, |rejection round64 dot norm n r - lineDist y r| ≤ 36 * (cf.m : ℝ) ^ 2 * δ := by
    intro r hr
    have h1 := rejection_error hn hδ hm hs (fn r hr)
    have h2 := lineDist_lip (fn r hr) (fy r hr)
    have h3 := abs_add_le (rejection round64 dot norm n r - lineDist n r) (lineDist n r - lineDist y r)
    rw [sub_add_sub_cancel] at h3
    linarith
  have hproj : ∀ r ∈ cf.refs, |projection round64 dot norm n r - along y r| ≤ 15 * (cf.m : ℝ) ^ 2 * δ := by
    intro r hr
    have h1 := projection_error hn hδ hm hs (fn r hr)
    have h2 := along_lip (fn r hr) (fy r hr) hm
    have h3 := abs_add_le (projection round64 dot norm n r - along n r) (along n r - along y r)
    rw [sub_add_sub_cancel] at h3
    linarith
  obtain ⟨i, x, h1, h2, h3, -⟩ := C73_cluster (cf.refs.map fun r => rejection round64 dot norm n r) (by simpa using hrefs)
  rw [List.getElem?_map, Option.map_eq_some_iff] at h2
  obtain ⟨r, hr, rfl⟩ := h2
  have hrm := List.mem_of_getElem? hr
  refine ⟨y, hy, i, r, thetaFitness round64 dot norm cf.theta n r (rejection round64 dot norm n r), hr, ?_, ?_, ?_⟩
  · unfold scores
    simp only [List.getElem?_map, ho, Option.map_some]
    rw [← hnn, h1]
    simp only [Option.getD_some, WithTop.untopD_coe, List.getD_eq_getElem?_getD, hr]
  · intro r' hr'
    have a1 := abs_le.1 (hrej r hrm)
    have a2 := abs_le.1 (hrej r' hr')
    have a3 := h3 _ (List.mem_map_of_mem hr')
    linarith
  · have b1 := hrej r hrm
    have b2 := hproj r hrm
    obtain ⟨b3, b4, b5⟩ := (fy r hrm).bounds
    unfold thetaFitness
    generalize rejection round64 dot norm n r = j at b1
    generalize projection round64 dot norm n r = p at b2
    generalize along y r = A at *
    generalize lineDist y r = D at *
    generalize (cf.m : ℝ) = M at *
    generalize cf.theta = θ at *
    exact score_num hδ hm' hs hθ b1 b2 b3 b4 b5

/-- C137: `C137_scores` for the reference points that the algorithm generates itself. -/
theorem C137_generated {δ eps : ℝ} {dot : List ℝ → List ℝ → ℝ} {norm : List ℝ → ℝ} {pw : ℝ → ℝ → ℝ} (hp : PowerLaws pw)
    (cf : Conf ℝ) (hn : IsNumpy cf.m δ dot norm) (hδ : 1 / 2 ^ 53 ≤ δ) (hm : 1 ≤ cf.m) (hs : 100 * (cf.m : ℝ) ^ 2 * δ ≤ 1)
    (he : 0 < eps) (hfe : round64 eps = eps) (hθ : 0 ≤ cf.theta) (rands : List (ℕ → ℝ)) (hne : rands ≠ [])
    (hr : ∀ rand ∈ rands, ∀ i, 0 < rand i ∧ rand i < 1)
    (hrefs : cf.refs = rands.map fun rand => refPoint round64 pw rand cf.m)
    (hist objs : List (List ℝ)) (hh : ∀ o ∈ hist, o.length = cf.m ∧ ∀ x ∈ o, round64 x = x)
    (hsub : ∀ o ∈ objs, o ∈ hist) (k : ℕ) (o : List ℝ) (ho : objs[k]? = some o) :
    ∃ y, IsScaled eps hist objs o y ∧ ∃ (i : ℕ) (r : List ℝ) (v : ℝ), cf.refs[i]? = some r ∧
      (scores round64 dot norm eps cf (updateIdeal (initialIdeal cf.m) hist) objs)[k]? = some (i, v) ∧
      (∀ r' ∈ cf.refs, lineDist y r ≤ lineDist y r' + 72 * (cf.m : ℝ) ^ 2 * δ) ∧
      |v - (along y r + cf.theta * lineDist y r)| ≤ 50 * (1 + cf.theta) * (cf.m : ℝ) ^ 2 * δ := by
  refine C137_scores cf hn hδ hm hs he hfe hθ (by rw [hrefs]; simpa using hne) ?_ hist objs hh hsub k o ho
  intro r hr'
  rw [hrefs] at hr'
  obtain ⟨rand, hrand, rfl⟩ := List.mem_map.1 hr'
  obtain ⟨h1, h2, h3⟩ := C137_references hp (hr rand hrand) cf.m hm
  refine ⟨h1, fun x hx => ⟨(h2 x hx).1, (h2 x hx).2.1⟩, h3.trans ?_⟩
  have hm' : (1 : ℝ) ≤ cf.m := by exact_mod_cast hm
  have h4 : (cf.m : ℝ) * (1 / 2 ^ 54) ≤ (cf.m : ℝ) ^ 2 * δ :=
    mul_le_mul (by nlinarith) (by norm_num at hδ ⊢; linarith) (by positivity) (by positivity)
  linarith

end scores

/-- A reference point of three coordinates; they do not add up to 1 exactly. -/
example : refPoint round64 (fun x _ => x) (fun _ => (1 / 3 : ℚ)) 3 =
    [6004799503160661 / 2 ^ 53, 8006399337547549 / 2 ^ 55, 250199979298361 / 2 ^ 51] ∧
    (refPoint round64 (fun x _ => x) (fun _ => (1 / 3 : ℚ)) 3).sum = 1 + 1 / 2 ^ 55 := by
  decide +kernel

/-- Exact functions are accurate, so that the hypothesis is satisfiable. -/
theorem exact_numpy (m : ℕ) {δ : ℝ} (h : 0 ≤ δ) : IsNumpy m δ inner₂ length₂ :=
  ⟨fun _ _ _ _ _ _ => by simpa using h, fun _ _ _ => by simpa using h⟩

/-- Two individuals at the ends of the front and two directions: each is assigned to a nearest direction. -/
example (k : ℕ) (o : List ℝ) (ho : [[0, 1], [1, (0 : ℝ)]][k]? = some o) :
    let cf : Conf ℝ := ⟨[(0, 1)], 20, 20, 1, 1, 5, id, [[1, 0], [0, 1]], 2⟩
    ∃ y, IsScaled (1 / 2 ^ 52 : ℝ) [[0, 1], [1, 0]] [[0, 1], [1, 0]] o y ∧ ∃ (i : ℕ) (r : List ℝ) (v : ℝ),
      cf.refs[i]? = some r ∧
      (scores round64 inner₂ length₂ (1 / 2 ^ 52) cf (updateIdeal (initialIdeal 2) [[0, 1], [1, 0]])
        [[0, 1], [1, 0]])[k]? = some (i, v) ∧
      (∀ r' ∈ cf.refs, lineDist y r ≤ lineDist y r' + 72 * ((2 : ℕ) : ℝ) ^ 2 * (1 / 2 ^ 53)) ∧
      |v - (along y r + 5 * lineDist y r)| ≤ 50 * (1 + 5) * ((2 : ℕ) : ℝ) ^ 2 * (1 / 2 ^ 53) := by
  intro cf
  have R := round64_isRounding (K := ℝ)
  have f0 : round64 (0 : ℝ) = 0 := by simpa using round64_accurate.zero (K := ℝ)
  refine C137_scores cf (exact_numpy 2 (by positivity)) le_rfl (show 1 ≤ 2 by norm_num) ?_ (by positivity) ?_
    (show (0 : ℝ) ≤ 5 by norm_num) (by simp [cf]) ?_ [[0, 1], [1, 0]] [[0, 1], [1, 0]] ?_ (fun _ h => h) k o ho
  · show 100 * ((2 : ℕ) : ℝ) ^ 2 * (1 / 2 ^ 53) ≤ 1
    norm_num
  · have := R.grid 2 (by norm_num)
    norm_num at this ⊢
    exact this
  · simp [cf]
  · have f1 := fl_one R
    simp [cf, f0, f1]

end Evogil.Rounded.Nsgaiii
