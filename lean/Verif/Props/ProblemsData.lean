import Verif.Model.ProblemsData
import Verif.Spec.Benchmark
import Mathlib.Analysis.SpecialFunctions.Trigonometric.Bounds
import Mathlib.Analysis.Real.Pi.Bounds

/-! # C55 and C56 for the problems with tabulated fronts -/

set_option linter.unusedSectionVars false

namespace Evogil.Problems

open Spec

/-! ## UF11 -/

/-- A decision vector of UF11 near the preimage of the centre. -/
def uf11X : List ℚ :=
  ([738, 24, -555, -124, 218, 317, -44, 778, 54, 92, -611, 412, 743, 835, 830].map
    fun v : ℤ => (v : ℚ) / 1000) ++ List.replicate 15 (1 / 2)

/-- Row 4625 of `problems/UF11/R2_DTLZ2_M5.dat`. -/
noncomputable def uf11Row : List ℝ := [1.5019327, 1.4819883, 1.6392059, 1.1898454, 1.2666937]

theorem uf11X_box : InBox (toReals uf11X) (uf11 []).dims := by
  have h : List.Forall₂ (fun (x : ℚ) (b : ℚ × ℚ) => b.1 ≤ x ∧ x ≤ b.2) uf11X rotDims := by decide +kernel
  unfold InBox uf11 toReals
  simp only
  rw [List.forall₂_map_left_iff, List.forall₂_map_right_iff]
  refine h.imp fun x b hb => ?_
  exact ⟨Rat.cast_le.2 hb.1, Rat.cast_le.2 hb.2⟩

theorem rotZ_cast (M : List (List ℚ)) (x : List ℚ) :
    rotZ (M.map toReals) (toReals x) = toReals (rotZ M x) := by
  unfold rotZ toReals
  rw [List.map_map, List.map_map]
  refine List.map_congr_left fun row hrow => ?_
  clear hrow
  simp only [Function.comp]
  induction row generalizing x with
  | nil => simp
  | cons a row ih =>
    cases x with
    | nil => simp
    | cons b x =>
      have := ih x
      simp only [List.map_cons, List.zipWith_cons_cons, List.sum_cons] at this ⊢
      rw [this]
      push_cast
      rfl

theorem uf11X_centre :
    (rotZ (rotM uf11Block) uf11X).length = 30 ∧
      ∀ z ∈ rotZ (rotM uf11Block) uf11X, (499 / 1000 : ℚ) ≤ z ∧ z ≤ 501 / 1000 := by
  decide +kernel

theorem rotZBis_inside (lambdas z : List ℝ) (h : ∀ v ∈ z, 0 ≤ v ∧ v ≤ 1) : rotZBis lambdas z = z := by
  apply List.ext_getElem
  · simp [rotZBis]
  · intro i h1 h2
    have := h _ (List.getElem_mem h2)
    simp only [rotZBis, List.getElem_map, List.getElem_range]
    rw [List.getD_eq_getElem?_getD, List.getElem?_eq_getElem h2, Option.getD_some, if_neg (not_lt.2 this.1), if_neg (not_lt.2 this.2)]

theorem cos_near {v : ℝ} (h : 0.499 ≤ v) (h' : v ≤ 0.501) :
    0 ≤ Real.cos (v * Real.pi / 2.0) ∧ Real.cos (v * Real.pi / 2.0) ≤ 0.71 := by
  have hpi := Real.pi_pos
  have hpi' := Real.pi_lt_d2
  constructor
  · apply Real.cos_nonneg_of_mem_Icc
    constructor
    · have : 0 ≤ v * Real.pi / 2.0 := by positivity
      linarith
    · rw [div_le_div_iff₀ (by norm_num) (by norm_num)]
      nlinarith
  · set d := (0.5 - v) * Real.pi / 2 with hd
    have he : v * Real.pi / 2.0 = Real.pi / 4 - d := by rw [hd]; norm_num; ring
    rw [he, Real.cos_sub, Real.cos_pi_div_four, Real.sin_pi_div_four]
    have hs : Real.sqrt 2 / 2 ≤ 0.7072 := by
      have : Real.sqrt 2 ≤ 1.4144 := by
        rw [Real.sqrt_le_left (by norm_num)]; norm_num
      linarith
    have hs0 : 0 ≤ Real.sqrt 2 / 2 := by positivity
    have hc := Real.cos_le_one d
    have hdle : |d| ≤ 0.0016 := by
      rw [hd, abs_le]; constructor <;> nlinarith
    have hsin : Real.sin d ≤ 0.0016 := by
      have := Real.abs_sin_le_abs (x := d)
      have := le_abs_self (Real.sin d)
      linarith
    nlinarith

theorem sum_le_card {f : ℝ → ℝ} {c : ℝ} (l : List ℝ) (h : ∀ v ∈ l, f v ≤ c) :
    (l.map f).sum ≤ l.length * c := by
  induction l with
  | nil => simp
  | cons a l ih =>
    have h1 := h a (List.mem_cons_self ..)
    have h2 := ih fun v hv => h v (List.mem_cons_of_mem _ hv)
    simp only [List.map_cons, List.sum_cons, List.length_cons]
    push_cast
    linarith

theorem uf11G_near (z : List ℝ) (hl : z.length = 30) (h : ∀ v ∈ z, 0.499 ≤ v ∧ v ≤ 0.501) :
    0 ≤ uf11G z ∧ uf11G z ≤ 0.00003 := by
  constructor
  · apply List.sum_nonneg
    simp only [List.mem_map]
    rintro _ ⟨v, _, rfl⟩
    positivity
  · refine (sum_le_card (c := 0.000001) z fun v hv => ?_).trans ?_
    · have := h v hv
      nlinarith
    · rw [hl]; norm_num

/-- The objective values near the centre. -/
theorem uf11_near (z : List ℝ) (hl : z.length = 30) (h : ∀ v ∈ z, 0.499 ≤ v ∧ v ≤ 0.501) :
    rotUp (uf11G z) z 1 < 1.5019327 ∧ rotUp (uf11G z) z 2 < 1.4819883 ∧
      rotUp (uf11G z) z 3 < 1.6392059 ∧ rotUp (uf11G z) z 4 < 1.1898454 ∧
      rotUp (uf11G z) z 5 < 1.2666937 := by
  obtain ⟨hg0, hg1⟩ := uf11G_near z hl h
  have hz : ∀ i < 30, 0.499 ≤ z.getD i 0 ∧ z.getD i 0 ≤ 0.501 := by
    intro i hi
    rw [List.getD_eq_getElem?_getD, List.getElem?_eq_getElem (hl ▸ hi), Option.getD_some]
    exact h _ (List.getElem_mem _)
  have hsin : ∀ i < 30, 0 ≤ Real.sin (z.getD i 0) ∧ Real.sin (z.getD i 0) ≤ 0.501 := by
    intro i hi
    have := hz i hi
    refine ⟨Real.sin_nonneg_of_nonneg_of_le_pi (by linarith) (by linarith [Real.pi_gt_three]), ?_⟩
    exact (Real.sin_le (by linarith)).trans this.2
  have hc : ∀ i < 30, 0 ≤ Real.cos (z.getD i 0 * Real.pi / 2.0) ∧
      Real.cos (z.getD i 0 * Real.pi / 2.0) ≤ 0.71 := fun i hi => cos_near (hz i hi).1 (hz i hi).2
  obtain ⟨a0, b0⟩ := hc 0 (by norm_num)
  obtain ⟨a1, b1⟩ := hc 1 (by norm_num)
  obtain ⟨a2, b2⟩ := hc 2 (by norm_num)
  obtain ⟨a3, b3⟩ := hc 3 (by norm_num)
  obtain ⟨p0, q0⟩ := hsin 0 (by norm_num)
  obtain ⟨p1, q1⟩ := hsin 1 (by norm_num)
  obtain ⟨p2, q2⟩ := hsin 2 (by norm_num)
  obtain ⟨p3, q3⟩ := hsin 3 (by norm_num)
  have e : ∀ {a b c : ℝ} {d : ℝ}, 0 ≤ a → 0 ≤ b → a ≤ c → b ≤ d → 0 ≤ a * b ∧ a * b ≤ c * d :=
    fun ha hb hac hbd => ⟨mul_nonneg ha hb, mul_le_mul hac hbd hb (ha.trans hac)⟩
  have c01 := e a0 a1 b0 b1
  have c012 := e c01.1 a2 c01.2 b2
  have c0123 := e c012.1 a3 c012.2 b3
  have hg : 0 ≤ 1 + uf11G z ∧ 1 + uf11G z ≤ 1.00003 := ⟨by linarith, by linarith⟩
  have r1 := e hg.1 p0 hg.2 q0
  have r2 := e (e hg.1 a0 hg.2 b0).1 p1 (e hg.1 a0 hg.2 b0).2 q1
  have r3 := e (e hg.1 c01.1 hg.2 c01.2).1 p2 (e hg.1 c01.1 hg.2 c01.2).2 q2
  have r4 := e (e hg.1 c012.1 hg.2 c012.2).1 p3 (e hg.1 c012.1 hg.2 c012.2).2 q3
  have r5 := e hg.1 c0123.1 hg.2 c0123.2
  refine ⟨?_, ?_, ?_, ?_, ?_⟩
  · simp only [rotUp, rotCos, rotSin]
    norm_num
    norm_num at r1
    linarith [r1.2]
  · simp only [rotUp, rotCos, rotSin]
    norm_num
    norm_num at r2
    linarith [r2.2]
  · simp only [rotUp, rotCos, rotSin]
    norm_num [List.range_succ]
    norm_num at r3
    linarith [r3.2]
  · simp only [rotUp, rotCos, rotSin]
    norm_num [List.range_succ]
    norm_num [mul_assoc] at r4
    norm_num [mul_assoc]
    linarith [r4.2]
  · simp only [rotUp, rotCos, rotSin]
    norm_num [List.range_succ]
    norm_num [mul_assoc] at r5
    linarith [r5.2]

/-- **C56** fails for UF11: a row of the reference file is dominated, in every objective, by the
objective vector of a decision vector of the box. -/
theorem C56_uf11_violated (front : List (List ℝ)) (h : uf11Row ∈ front) :
    ∃ y ∈ (uf11 front).front, ¬ Undominated (uf11 front).fits (uf11 front).dims y := by
  refine ⟨uf11Row, h, fun hu => hu (toReals uf11X) uf11X_box ?_⟩
  have hz := uf11X_centre
  set zq := rotZ (rotM uf11Block) uf11X with hzq
  have hl : (toReals zq).length = 30 := by simp [toReals, hz.1]
  have hb : ∀ v ∈ toReals zq, (0.499 : ℝ) ≤ v ∧ v ≤ 0.501 := by
    intro v hv
    obtain ⟨q, hq, rfl⟩ := List.mem_map.1 hv
    obtain ⟨h1, h2⟩ := hz.2 q hq
    have h1' : ((499 / 1000 : ℚ) : ℝ) ≤ (q : ℝ) := Rat.cast_le.2 h1
    have h2' : (q : ℝ) ≤ ((501 / 1000 : ℚ) : ℝ) := Rat.cast_le.2 h2
    push_cast at h1' h2'
    constructor <;> [skip; skip] <;> norm_num <;> linarith
  have hall : (toReals zq).all (fun zi => decide (0 ≤ zi)) = true := by
    rw [List.all_eq_true]
    intro v hv
    have := (hb v hv).1
    exact decide_eq_true (by linarith)
  have hfit : ∀ m, uf11Fit (toReals rotLambdas) ((rotM uf11Block).map toReals) m (toReals uf11X) =
      rotUp (uf11G (toReals zq)) (toReals zq) m := by
    intro m
    unfold uf11Fit
    simp only
    rw [rotZ_cast, ← hzq, rotZBis_inside _ _ fun v hv => ⟨by linarith [(hb v hv).1], by linarith [(hb v hv).2]⟩,
      if_pos hall]
  obtain ⟨h1, h2, h3, h4, h5⟩ := uf11_near (toReals zq) hl hb
  simp only [uf11, List.map_cons, List.map_nil, hfit, uf11Row]
  refine ⟨rfl, fun i hx hy => ?_, 0, by simp, by simp, h1⟩
  match i, hx with
  | 0, _ => exact h1.le
  | 1, _ => exact h2.le
  | 2, _ => exact h3.le
  | 3, _ => exact h4.le
  | 4, _ => exact h5.le

example : InBox (toReals uf11X) (uf11 [uf11Row]).dims ∧ uf11X.length = 30 :=
  ⟨uf11X_box, by decide +kernel⟩

/-- The penalty of a coordinate is its distance from the interval. -/
theorem rotP_dist (t : ℝ) : rotP t = |t - max 0 (min 1 t)| := by
  unfold rotP
  split
  · rename_i h
    rw [min_eq_right (by linarith), max_eq_left h.le, sub_zero, abs_of_neg h]
  · split
    · rename_i h
      rw [min_eq_left h.le, max_eq_right zero_le_one, abs_of_pos (by linarith)]
    · rename_i h0 h1
      rw [min_eq_right (not_lt.1 h1), max_eq_right (not_lt.1 h0), sub_self, abs_zero]

/-- The penalty factor is at least 1 and below 2, and it is 1 exactly if the coordinates it looks at are
between 0 and 1. -/
theorem rotS_one (z : List ℝ) (m : ℕ) : 1 ≤ rotS z m ∧ rotS z m < 2 ∧
    (rotS z m = 1 ↔ ∀ i < m, 0 ≤ z.getD i 0 ∧ z.getD i 0 ≤ 1) := by
  have h0 := Real.exp_pos (-rotPsum z m)
  have h1 : 0 ≤ rotPsum z m := Real.sqrt_nonneg _
  have h2 : Real.exp (-rotPsum z m) ≤ 1 := Real.exp_le_one_iff.2 (neg_nonpos.2 h1)
  refine ⟨?_, ?_, ?_⟩
  · rw [rotS, le_div_iff₀ (by positivity)]; linarith
  · rw [rotS, div_lt_iff₀ (by positivity)]; linarith
  have h3 : rotS z m = 1 ↔ rotPsum z m = 0 := by
    rw [rotS, div_eq_one_iff_eq (by positivity)]
    constructor
    · intro h
      have : Real.exp (-rotPsum z m) = 1 := by linarith
      rw [Real.exp_eq_one_iff] at this
      linarith
    · intro h
      rw [h]; norm_num
  rw [h3, rotPsum, Real.sqrt_eq_zero (List.sum_nonneg (by
    intro x hx
    obtain ⟨i, -, rfl⟩ := List.mem_map.1 hx
    positivity))]
  clear h0 h1 h2 h3
  have h4 : ∀ t, rotP t ^ 2 = 0 ↔ 0 ≤ t ∧ t ≤ 1 := by
    intro t
    rw [pow_eq_zero_iff two_ne_zero, rotP_dist, abs_eq_zero, sub_eq_zero]
    constructor
    · intro h
      rw [h]
      exact ⟨le_max_left _ _, max_le zero_le_one (min_le_left _ _)⟩
    · rintro ⟨a, b⟩
      rw [min_eq_right b, max_eq_right a]
  induction m with
  | zero => simp
  | succ m ih =>
    have h5 : 0 ≤ ((List.range m).map fun i => rotP (z.getD i 0) ^ 2).sum := List.sum_nonneg (by
      intro x hx
      obtain ⟨i, -, rfl⟩ := List.mem_map.1 hx
      positivity)
    have h6 := sq_nonneg (rotP (z.getD m 0))
    rw [List.range_succ, List.map_append, List.sum_append, List.map_singleton, List.sum_singleton,
      add_eq_zero_iff_of_nonneg h5 h6, h4, Nat.forall_lt_succ_right]
    exact and_congr_left' ih

/-- The penalty for leaving the cube is computed from the mirrored values, so that it is missing for
every `z` with `|lambda_i z_i| ≤ 1`, also outside of the cube. -/
theorem uf11_penalty_void (lambdas z : List ℝ)
    (h : ∀ i < z.length, |lambdas.getD i 0 * z.getD i 0| ≤ 1) (h0 : ∀ l ∈ lambdas, 0 ≤ l) (m : ℕ) :
    rotS (rotZBis lambdas z) m = 1 := by
  have hp : ∀ i, rotP ((rotZBis lambdas z).getD i 0) = 0 := by
    intro i
    by_cases hi : i < z.length
    · have hl : 0 ≤ lambdas.getD i 0 := by
        rw [List.getD_eq_getElem?_getD]
        by_cases hi' : i < lambdas.length
        · rw [List.getElem?_eq_getElem hi', Option.getD_some]
          exact h0 _ (List.getElem_mem _)
        · rw [List.getElem?_eq_none (not_lt.1 hi'), Option.getD_none]
      have hb := abs_le.1 (h i hi)
      have he : (rotZBis lambdas z).getD i 0 =
          if z.getD i 0 < 0 then -lambdas.getD i 0 * z.getD i 0
          else if 1 < z.getD i 0 then lambdas.getD i 0 * z.getD i 0
          else z.getD i 0 := by
        rw [List.getD_eq_getElem?_getD, List.getElem?_eq_getElem (by simpa [rotZBis] using hi),
          Option.getD_some]
        simp [rotZBis]
      rw [he]
      unfold rotP
      split
      · rw [if_neg (by nlinarith), if_neg (by nlinarith)]
      · split
        · rw [if_neg (by nlinarith), if_neg (by nlinarith)]
        · rfl
    · have : (rotZBis lambdas z).getD i 0 = 0 := by
        rw [List.getD_eq_getElem?_getD, List.getElem?_eq_none (by simpa [rotZBis] using hi),
          Option.getD_none]
      rw [this]
      simp [rotP]
  have hs : rotPsum (rotZBis lambdas z) m = 0 := by
    simp only [rotPsum, hp]
    simp
  rw [rotS, hs]
  norm_num

example : rotS (rotZBis [0.113, 0.105] [-2, 3]) 2 = 1 ∧ rotS [-2, 3] 2 ≠ 1 := by
  constructor
  · refine uf11_penalty_void _ _ ?_ ?_ 2
    · intro i hi
      match i, hi with
      | 0, _ => norm_num [abs_le]
      | 1, _ => norm_num [abs_le]
    · intro l hl
      simp at hl
      rcases hl with rfl | rfl <;> norm_num
  · have h : 0 < rotPsum [-2, 3] 2 := by
      apply Real.sqrt_pos.2
      norm_num [List.range_succ, rotP]
    have := Real.exp_lt_one_iff.2 (neg_lt_zero.2 h)
    have h0 := Real.exp_pos (-rotPsum [-2, 3] 2)
    rw [rotS, Ne, div_eq_one_iff_eq (by positivity)]
    linarith

/-! ## kursawe -/

/-- Row 1 of `problems/kursawe/kursawe.dat`. -/
noncomputable def kursaweRow : List ℝ := [-20, 8.180035271e-11]

theorem kursawe_origin (front : List (List ℝ)) :
    (kursawe front).fits.map (fun f => f [0, 0, 0]) = [-20, 0] := by
  simp [kursawe]
  norm_num

theorem kursawe_origin_box (front : List (List ℝ)) : InBox [0, 0, 0] (kursawe front).dims := by
  refine .cons ?_ (.cons ?_ (.cons ?_ .nil)) <;> norm_num

/-- **C56** fails for kursawe: the first tabulated point is dominated by the image of the origin. -/
theorem C56_kursawe_violated (front : List (List ℝ)) (h : kursaweRow ∈ front) :
    ∃ y ∈ (kursawe front).front, ¬ Undominated (kursawe front).fits (kursawe front).dims y := by
  refine ⟨kursaweRow, h, fun hu => hu _ (kursawe_origin_box front) ?_⟩
  rw [kursawe_origin]
  refine ⟨rfl, fun i hx hy => ?_, 1, by simp, by simp [kursaweRow], by norm_num [kursaweRow]⟩
  match i, hx with
  | 0, _ => norm_num [kursaweRow]
  | 1, _ => norm_num [kursaweRow]

/-- **C55** fails for kursawe: the first tabulated point is not the image of any decision vector. -/
theorem C55_kursawe_violated (front : List (List ℝ)) (h : kursaweRow ∈ front) :
    ∃ y ∈ (kursawe front).front, ¬ Attainable (kursawe front).fits (kursawe front).dims y := by
  refine ⟨kursaweRow, h, ?_⟩
  rintro ⟨x, hx, he⟩
  have hl : x.length = 3 := hx.length_eq
  obtain ⟨a, b, c, rfl⟩ := List.length_eq_three.1 hl
  simp only [kursawe, kursaweRow, List.map_cons, List.map_nil, List.tail_cons,
    List.zipWith_cons_cons, List.zipWith_nil_right, List.sum_cons, List.sum_nil, List.cons.injEq,
    and_true] at he
  obtain ⟨h1, h2⟩ := he
  have e1 : Real.exp (-0.2 * Real.sqrt (a ^ 2 + b ^ 2)) ≤ 1 :=
    Real.exp_le_one_iff.2 (by nlinarith [Real.sqrt_nonneg (a ^ 2 + b ^ 2)])
  have e2 : Real.exp (-0.2 * Real.sqrt (b ^ 2 + c ^ 2)) ≤ 1 :=
    Real.exp_le_one_iff.2 (by nlinarith [Real.sqrt_nonneg (b ^ 2 + c ^ 2)])
  have f1 : Real.exp (-0.2 * Real.sqrt (a ^ 2 + b ^ 2)) = 1 := by linarith
  have f2 : Real.exp (-0.2 * Real.sqrt (b ^ 2 + c ^ 2)) = 1 := by linarith
  rw [Real.exp_eq_one_iff] at f1 f2
  have g1 : Real.sqrt (a ^ 2 + b ^ 2) = 0 := by linarith
  have g2 : Real.sqrt (b ^ 2 + c ^ 2) = 0 := by linarith
  rw [Real.sqrt_eq_zero (by positivity)] at g1 g2
  have ha : a = 0 := by nlinarith [sq_nonneg a, sq_nonneg b]
  have hb : b = 0 := by nlinarith [sq_nonneg a, sq_nonneg b]
  have hc : c = 0 := by nlinarith [sq_nonneg c, sq_nonneg b]
  subst ha hb hc
  norm_num at h2

example : kursaweRow ∈ (kursawe [kursaweRow]).front := by simp [kursawe]

end Evogil.Problems
