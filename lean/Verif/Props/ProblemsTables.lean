import Verif.Props.ProblemsData

/-! # C55 and C56 for the tables of UF11 and UF12 -/

set_option linter.unusedSectionVars false

namespace Evogil.Problems

open Spec

/-! ## Linear forms on the box -/

/-- The scalar product that `z` of UF11/problem.py:38-39 takes of a row and a decision vector. -/
def dot {K : Type*} [Semiring K] (a x : List K) : K := (List.zipWith (fun a b => a * b) a x).sum

theorem dot_cons {K : Type*} [Semiring K] (a b : K) (l x : List K) :
    dot (a :: l) (b :: x) = a * b + dot l x := by simp [dot]

/-- The largest value of a linear form on a box. -/
def formMax (v : List ℚ) (dims : List (ℚ × ℚ)) : ℚ :=
  (List.zipWith (fun a (b : ℚ × ℚ) => max (a * b.1) (a * b.2)) v dims).sum

/-- The box of real numbers of a table of rational bounds. -/
noncomputable def realBox (dims : List (ℚ × ℚ)) : List (ℝ × ℝ) :=
  dims.map fun b : ℚ × ℚ => ((b.1 : ℝ), (b.2 : ℝ))

theorem dot_le_formMax (v : List ℚ) (dims : List (ℚ × ℚ)) (x : List ℝ) (hx : InBox x (realBox dims)) :
    dot (toReals v) x ≤ ((formMax v dims : ℚ) : ℝ) := by
  induction v generalizing dims x with
  | nil => simp [dot, formMax, toReals]
  | cons a v ih =>
    cases dims with
    | nil =>
      have : x = [] := by
        have := hx.length_eq
        simpa [realBox] using this
      subst this
      simp [dot, formMax, toReals]
    | cons b dims =>
      obtain ⟨y, x, h1, h2, rfl⟩ := List.forall₂_cons_right_iff.1 hx
      have := ih dims x h2
      simp only [toReals, List.map_cons, dot_cons] at this ⊢
      simp only [formMax, List.zipWith_cons_cons, List.sum_cons] at this ⊢
      push_cast at this ⊢
      have hm : (a : ℝ) * y ≤ max ((a : ℝ) * b.1) ((a : ℝ) * b.2) := by
        rcases le_total 0 (a : ℝ) with ha | ha
        · exact le_max_of_le_right (mul_le_mul_of_nonneg_left h1.2 ha)
        · exact le_max_of_le_left (mul_le_mul_of_nonpos_left h1.1 ha)
      linarith

theorem dot_neg (v : List ℚ) (x : List ℝ) :
    dot (toReals (v.map fun q => -q)) x = -dot (toReals v) x := by
  induction v generalizing x with
  | nil => simp [dot, toReals]
  | cons a v ih =>
    cases x with
    | nil => simp [dot]
    | cons b x =>
      have := ih x
      simp only [toReals, List.map_cons, dot_cons] at this ⊢
      rw [this]
      push_cast
      ring

/-- The combination of the rows of a matrix with `n` columns. -/
def rowSum (n : ℕ) : List ℚ → List (List ℚ) → List ℚ
  | w :: ws, r :: rs => List.zipWith (fun a b => w * a + b) r (rowSum n ws rs)
  | _, _ => List.replicate n 0

theorem rowSum_length (n : ℕ) (w : List ℚ) (M : List (List ℚ)) (h : ∀ r ∈ M, r.length = n) :
    (rowSum n w M).length = n := by
  induction w generalizing M with
  | nil => simp [rowSum]
  | cons a w ih =>
    cases M with
    | nil => simp [rowSum]
    | cons r M =>
      rw [rowSum, List.length_zipWith, h r (by simp), ih M fun r hr => h r (by simp [hr]), min_self]

theorem dot_combine (w : ℚ) (r s : List ℚ) (x : List ℝ) (h : r.length = s.length) :
    dot (toReals (List.zipWith (fun a b => w * a + b) r s)) x =
      w * dot (toReals r) x + dot (toReals s) x := by
  induction r generalizing s x with
  | nil =>
    have : s = [] := by simpa using h.symm
    subst this
    simp [dot, toReals]
  | cons a r ih =>
    cases s with
    | nil => simp at h
    | cons b s =>
      cases x with
      | nil => simp [dot]
      | cons y x =>
        have := ih s x (by simpa using h)
        simp only [toReals, List.zipWith_cons_cons, List.map_cons, dot_cons] at this ⊢
        rw [this]
        push_cast
        ring

theorem dot_zero (n : ℕ) (x : List ℝ) : dot (toReals (List.replicate n 0)) x = 0 := by
  induction n generalizing x with
  | zero => simp [dot, toReals]
  | succ n ih =>
    cases x with
    | nil => simp [dot]
    | cons y x =>
      have := ih x
      simp only [toReals, List.replicate_succ, List.map_cons, dot_cons] at this ⊢
      rw [this]; simp

/-- A combination of the rotated coordinates is a linear form of the decision vector. -/
theorem dot_rotZ (n : ℕ) (w : List ℚ) (M : List (List ℚ)) (x : List ℝ) (h : ∀ r ∈ M, r.length = n) :
    dot (toReals w) (rotZ (M.map toReals) x) = dot (toReals (rowSum n w M)) x := by
  induction w generalizing M with
  | nil => rw [rowSum, dot_zero]; simp [dot, toReals]; simp
  | cons a w ih =>
    cases M with
    | nil => rw [rowSum, dot_zero]; simp [dot, rotZ]; simp
    | cons r M =>
      have hM : ∀ r ∈ M, r.length = n := fun r hr => h r (by simp [hr])
      rw [rowSum, dot_combine _ _ _ _ (by rw [rowSum_length n w M hM, h r (by simp)]), ← ih M hM]
      simp only [toReals, rotZ, List.map_cons, dot_cons]
      rfl

theorem rotZ_getD (M : List (List ℚ)) (x : List ℝ) (i : ℕ) (h : i < M.length) :
    (rotZ (M.map toReals) x).getD i 0 = dot (toReals M[i]) x := by
  rw [List.getD_eq_getElem?_getD, List.getElem?_eq_getElem (by simpa [rotZ] using h), Option.getD_some]
  simp [rotZ, dot]

/-- A folded coordinate is between 0 and 1 if the coordinate is not larger than the inverse of its
factor. -/
theorem rotZBis_unit (lambdas z : List ℝ) (i : ℕ) (hi : i < z.length) (hl : 0 ≤ lambdas.getD i 0)
    (h : lambdas.getD i 0 * z.getD i 0 ≤ 1) (h' : lambdas.getD i 0 * -z.getD i 0 ≤ 1) :
    0 ≤ (rotZBis lambdas z).getD i 0 ∧ (rotZBis lambdas z).getD i 0 ≤ 1 := by
  have he : (rotZBis lambdas z).getD i 0 =
      if z.getD i 0 < 0 then -lambdas.getD i 0 * z.getD i 0
      else if 1 < z.getD i 0 then lambdas.getD i 0 * z.getD i 0 else z.getD i 0 := by
    rw [List.getD_eq_getElem?_getD, List.getElem?_eq_getElem (by simpa [rotZBis] using hi),
      Option.getD_some]
    simp only [rotZBis, List.getElem_map, List.getElem_range]
  rw [he]
  split
  · constructor <;> nlinarith
  · split
    · exact ⟨by nlinarith, h⟩
    · exact ⟨by linarith, by linarith⟩

/-- What the rows of the two matrices have to satisfy for that. -/
def RowsOk (block : List (List ℤ)) : Prop :=
  ∀ i < 4, ∃ (r : List ℚ) (l : ℚ), (rotM block)[i]? = some r ∧ rotLambdas[i]? = some l ∧ 0 ≤ l ∧
    l * formMax r rotDims ≤ 1 ∧ l * formMax (r.map fun q => -q) rotDims ≤ 1

theorem zb_unit {block : List (List ℤ)} (hr : RowsOk block) (x : List ℝ) (hx : InBox x (realBox rotDims))
    (i : ℕ) (hi : i < 4) :
    0 ≤ (rotZBis (toReals rotLambdas) (rotZ ((rotM block).map toReals) x)).getD i 0 ∧
      (rotZBis (toReals rotLambdas) (rotZ ((rotM block).map toReals) x)).getD i 0 ≤ 1 := by
  obtain ⟨r, l, h1, h2, h3, h4, h5⟩ := hr i hi
  obtain ⟨hi', e1⟩ := List.getElem?_eq_some_iff.1 h1
  have hz := rotZ_getD (rotM block) x i hi'
  rw [e1] at hz
  have hlam : (toReals rotLambdas).getD i 0 = (l : ℝ) := by
    simp [toReals, List.getD_eq_getElem?_getD, List.getElem?_map, h2]
  have u1 := dot_le_formMax r rotDims x hx
  have u2 := dot_le_formMax (r.map fun q => -q) rotDims x hx
  rw [dot_neg] at u2
  have h3' : (0 : ℝ) ≤ l := Rat.cast_nonneg.2 h3
  have h4' : (l : ℝ) * ((formMax r rotDims : ℚ) : ℝ) ≤ 1 := by exact_mod_cast h4
  have h5' : (l : ℝ) * ((formMax (r.map fun q => -q) rotDims : ℚ) : ℝ) ≤ 1 := by exact_mod_cast h5
  apply rotZBis_unit
  · simpa [rotZ] using hi'
  · rw [hlam]; exact h3'
  · rw [hlam, hz]; exact (mul_le_mul_of_nonneg_left u1 h3').trans h4'
  · rw [hlam, hz]; exact (mul_le_mul_of_nonneg_left u2 h3').trans h5'

instance (block : List (List ℤ)) (i : ℕ) : Decidable (∃ (r : List ℚ) (l : ℚ), (rotM block)[i]? = some r ∧
    rotLambdas[i]? = some l ∧ 0 ≤ l ∧
    l * formMax r rotDims ≤ 1 ∧ l * formMax (r.map fun q => -q) rotDims ≤ 1) :=
  match h : (rotM block)[i]?, h' : rotLambdas[i]? with
  | some r, some l =>
    if h1 : 0 ≤ l ∧ l * formMax r rotDims ≤ 1 ∧ l * formMax (r.map fun q => -q) rotDims ≤ 1 then
      isTrue ⟨r, l, rfl, rfl, h1⟩
    else isFalse (by rintro ⟨r', l', e, e', h2⟩; cases e; cases e'; exact h1 h2)
  | none, _ => isFalse (by rintro ⟨r', l', e, _⟩; cases e)
  | some _, none => isFalse (by rintro ⟨r', l', _, e, _⟩; cases e)

instance (block : List (List ℤ)) : Decidable (RowsOk block) := by
  unfold RowsOk; infer_instance

theorem uf11_rows : RowsOk uf11Block := by decide +kernel

theorem uf12_rows : RowsOk uf12Block := by decide +kernel

/-! ## The five objectives -/

/-- The objective values as multiples of the values without penalty. -/
theorem rotUp_values (g : ℝ) (zb : List ℝ) :
    rotUp g zb 1 = (1 + g) * Real.sin (zb.getD 0 0) + 1 ∧
    rotUp g zb 2 = (1 + g) * Real.cos (zb.getD 0 0 * Real.pi / 2) * Real.sin (zb.getD 1 0) + 1 ∧
    rotUp g zb 3 = (1 + g) * (Real.cos (zb.getD 0 0 * Real.pi / 2) * Real.cos (zb.getD 1 0 * Real.pi / 2)) *
      Real.sin (zb.getD 2 0) + 1 ∧
    rotUp g zb 4 = (1 + g) * (Real.cos (zb.getD 0 0 * Real.pi / 2) * Real.cos (zb.getD 1 0 * Real.pi / 2) *
      Real.cos (zb.getD 2 0 * Real.pi / 2)) * Real.sin (zb.getD 3 0) + 1 ∧
    rotUp g zb 5 = (1 + g) * (Real.cos (zb.getD 0 0 * Real.pi / 2) * Real.cos (zb.getD 1 0 * Real.pi / 2) *
      Real.cos (zb.getD 2 0 * Real.pi / 2) * Real.cos (zb.getD 3 0 * Real.pi / 2)) + 1 := by
  have e : (2.0 : ℝ) = 2 := by norm_num
  refine ⟨?_, ?_, ?_, ?_, ?_⟩
  · simp [rotUp, rotCos, rotSin]
  · simp [rotUp, rotCos, rotSin, e]
  · simp [rotUp, rotCos, rotSin, List.range_succ, e]
  · simp [rotUp, rotCos, rotSin, List.range_succ, e, mul_assoc]
  · simp [rotUp, rotCos, rotSin, List.range_succ, e, mul_assoc]

/-- An objective is at least the value without the penalty, as long as that one is not negative. -/
theorem uf12Fit_ge (lambdas : List ℝ) (M : List (List ℝ)) (m : ℕ) (x : List ℝ)
    (h : 0 ≤ rotUp (uf12G (rotZ M x)) (rotZBis lambdas (rotZ M x)) m) :
    rotUp (uf12G (rotZ M x)) (rotZBis lambdas (rotZ M x)) m ≤ uf12Fit lambdas M m x := by
  unfold uf12Fit
  simp only
  split
  · exact le_rfl
  · exact le_mul_of_one_le_left h (rotS_one _ _).1

theorem uf11Fit_ge (lambdas : List ℝ) (M : List (List ℝ)) (m : ℕ) (x : List ℝ)
    (h : 0 ≤ rotUp (uf11G (rotZBis lambdas (rotZ M x))) (rotZBis lambdas (rotZ M x)) m) :
    rotUp (uf11G (rotZBis lambdas (rotZ M x))) (rotZBis lambdas (rotZ M x)) m ≤ uf11Fit lambdas M m x := by
  unfold uf11Fit
  simp only
  split
  · exact le_rfl
  · exact le_mul_of_one_le_left h (rotS_one _ _).1

theorem cos_unit {a : ℝ} (h : 0 ≤ a) (h' : a ≤ 1) : 0 ≤ Real.cos (a * Real.pi / 2) := by
  have := Real.pi_pos
  apply Real.cos_nonneg_of_mem_Icc
  constructor <;> nlinarith

theorem sin_unit {a : ℝ} (h : 0 ≤ a) (h' : a ≤ 1) : 0 ≤ Real.sin a :=
  Real.sin_nonneg_of_nonneg_of_le_pi h (h'.trans (by linarith [Real.pi_gt_three]))

/-- The sine of a coordinate, where the sphere would take it of the coordinate times `π/2`. -/
theorem sin_ge {a : ℝ} (h : 0 ≤ a) (h' : a ≤ 1) :
    2 / Real.pi * Real.sin (a * Real.pi / 2) ≤ Real.sin a := by
  have hpi := Real.pi_gt_three
  have hx : (0 : ℝ) ∈ Set.Icc 0 Real.pi := ⟨le_rfl, Real.pi_pos.le⟩
  have hy : a * Real.pi / 2 ∈ Set.Icc 0 Real.pi := ⟨by positivity, by nlinarith⟩
  have hn : 0 ≤ 1 - 2 / Real.pi := by rw [sub_nonneg, div_le_one (by positivity)]; linarith
  have hp : 0 ≤ 2 / Real.pi := by positivity
  have h1 := strictConcaveOn_sin_Icc.concaveOn.2 hx hy hn hp (by ring)
  simp only [smul_eq_mul, mul_zero, zero_add, Real.sin_zero] at h1
  have e : 2 / Real.pi * (a * Real.pi / 2) = a := by field_simp
  rwa [e] at h1

theorem circle_step {a n : ℝ} (h : 0 ≤ a) (h' : a ≤ 1) (hn : 0.4 ≤ n) :
    0.4 ≤ Real.sin a ^ 2 + Real.cos (a * Real.pi / 2) ^ 2 * n := by
  have h1 := sin_ge h h'
  have h2 : 0 ≤ Real.sin (a * Real.pi / 2) := by
    have := Real.pi_pos
    exact Real.sin_nonneg_of_nonneg_of_le_pi (by positivity) (by nlinarith)
  have h3 : 0.6345 ≤ 2 / Real.pi := by
    rw [le_div_iff₀ Real.pi_pos]
    linarith [Real.pi_lt_d2]
  have h4 := Real.sin_sq_add_cos_sq (a * Real.pi / 2)
  have h5 : 0.6345 * Real.sin (a * Real.pi / 2) ≤ Real.sin a :=
    (mul_le_mul_of_nonneg_right h3 h2).trans h1
  have h6 : (0.6345 * Real.sin (a * Real.pi / 2)) ^ 2 ≤ Real.sin a ^ 2 :=
    pow_le_pow_left₀ (by positivity) h5 2
  have h7 : Real.cos (a * Real.pi / 2) ^ 2 * 0.4 ≤ Real.cos (a * Real.pi / 2) ^ 2 * n :=
    mul_le_mul_of_nonneg_left hn (sq_nonneg _)
  nlinarith [sq_nonneg (Real.sin (a * Real.pi / 2))]

/-! ## UF12: the centre is outside of the box -/

/-- A row of an approximate inverse of the matrix of UF12. -/
def uf12W : List ℚ :=
  [-2190, 4180, 1652, 4298, -1831, 2287, -3120, 1870, 2106, 3803, 1472, 3012, 2059, 503, -293].map
    fun v : ℤ => (v : ℚ) / 10000

theorem uf12W_max : (∀ r ∈ rotM uf12Block, r.length = 30) ∧
    formMax (rowSum 30 uf12W (rotM uf12Block)) rotDims ≤ 97637 / 100000 := by decide +kernel

theorem uf12W_sums : uf12W.sum / 2 = 9904 / 10000 ∧ (uf12W.map fun q => |q|).sum = 34676 / 10000 ∧
    uf12W.length = 15 := by
  decide +kernel

/-- A combination of coordinates near one half. -/
theorem dot_near (w : List ℚ) (z : List ℝ) (d : ℝ) (hl : w.length ≤ z.length)
    (h : ∀ v ∈ z, |v - 0.5| ≤ d) :
    ((w.sum / 2 : ℚ) : ℝ) - (((w.map fun q => |q|).sum : ℚ) : ℝ) * d ≤ dot (toReals w) z := by
  induction w generalizing z with
  | nil => simp [dot, toReals]
  | cons a w ih =>
    cases z with
    | nil => simp at hl
    | cons y z =>
      have := ih z (by simpa using hl) fun v hv => h v (by simp [hv])
      have h1 := h y (by simp)
      simp only [toReals, List.map_cons, dot_cons] at this ⊢
      simp only [List.sum_cons]
      generalize (w.map fun q => |q|).sum = p at this ⊢
      generalize w.sum = q at this ⊢
      push_cast at this ⊢
      have h2 : |(a : ℝ) * (y - 0.5)| ≤ |(a : ℝ)| * d := by
        rw [abs_mul]; exact mul_le_mul_of_nonneg_left h1 (abs_nonneg _)
      have h3 := neg_le_of_abs_le h2
      norm_num at h3 ⊢
      linarith

/-- A summand of `g` below 0.008 belongs to a coordinate near one half. -/
theorem term_near {v : ℝ} (h : (v - 0.5) ^ 2 + (1 - Real.cos (20 * Real.pi * (v - 0.5))) < 0.008) :
    |v - 0.5| ≤ 0.004 := by
  set d := v - 0.5 with hd
  have hc := Real.cos_le_one (20 * Real.pi * d)
  have hd2 : d ^ 2 < 0.008 := by linarith
  have hd1 : |d| < 0.09 := by
    rw [← abs_of_pos (show (0 : ℝ) < 0.09 by norm_num)]
    exact sq_lt_sq.1 (by norm_num at hd2 ⊢; linarith)
  have hpi3 := Real.pi_gt_three
  have hpi4 := Real.pi_lt_d2
  have ht : Real.cos (20 * Real.pi * d) = Real.cos (20 * Real.pi * |d|) := by
    rw [← Real.cos_abs, abs_mul, abs_of_pos (show 0 < 20 * Real.pi by positivity)]
  set t := 20 * Real.pi * |d| with htd
  have ht0 : 0 ≤ t := by positivity
  have hq : 1 - Real.cos t < 0.008 := by rw [← ht]; nlinarith [sq_nonneg d]
  have key : ∀ s, 0 ≤ s → s ≤ Real.pi → 1 - Real.cos s < 0.008 → s < 0.2 := by
    intro s h0 h1 h2
    have h3 := Real.cos_le_one_sub_mul_cos_sq (x := s) (by rwa [abs_of_nonneg h0])
    have h4 : 2 / Real.pi ^ 2 * s ^ 2 < 0.008 := by linarith
    rw [div_mul_eq_mul_div, div_lt_iff₀ (by positivity)] at h4
    by_contra h5
    push Not at h5
    nlinarith
  rcases le_or_gt t Real.pi with h1 | h1
  · have := key t ht0 h1 hq
    nlinarith
  · exfalso
    have h2 := key (2 * Real.pi - t) (by nlinarith) (by linarith) (by rwa [Real.cos_two_pi_sub])
    nlinarith

theorem uf12G_eq (z : List ℝ) : uf12G z =
    100 * (z.map fun v => (v - 0.5) ^ 2 + (1 - Real.cos (20 * Real.pi * (v - 0.5)))).sum := by
  unfold uf12G
  congr 1
  induction z with
  | nil => simp
  | cons a z ih =>
    simp only [List.map_cons, List.sum_cons, List.length_cons] at ih ⊢
    rw [← ih]
    push_cast
    ring

/-- The distance function of UF12 is at least 0.8 on the whole box, because the point where it
vanishes is outside of the box. -/
theorem uf12G_ge (x : List ℝ) (hx : InBox x (realBox rotDims)) :
    0.8 ≤ uf12G (rotZ ((rotM uf12Block).map toReals) x) := by
  by_contra hlt
  push Not at hlt
  set z := rotZ ((rotM uf12Block).map toReals) x with hz
  have hn : ∀ v ∈ z, |v - 0.5| ≤ 0.004 := by
    intro v hv
    refine term_near ?_
    rw [uf12G_eq] at hlt
    have := List.single_le_sum (l := z.map fun v => (v - 0.5) ^ 2 +
      (1 - Real.cos (20 * Real.pi * (v - 0.5)))) (by
        intro y hy
        obtain ⟨u, -, rfl⟩ := List.mem_map.1 hy
        have := Real.cos_le_one (20 * Real.pi * (u - 0.5))
        have := sq_nonneg (u - 0.5)
        linarith) _ (List.mem_map_of_mem hv)
    linarith
  have h1 := dot_near uf12W z 0.004 (by
    rw [uf12W_sums.2.2, hz, rotZ, List.length_map, List.length_map]; decide) hn
  rw [uf12W_sums.1, uf12W_sums.2.1, hz, dot_rotZ 30 _ _ _ uf12W_max.1] at h1
  have h2 := dot_le_formMax (rowSum 30 uf12W (rotM uf12Block)) rotDims x hx
  have h3 : ((formMax (rowSum 30 uf12W (rotM uf12Block)) rotDims : ℚ) : ℝ) ≤ ((97637 / 100000 : ℚ) : ℝ) :=
    Rat.cast_le.2 uf12W_max.2
  push_cast at h1 h3
  norm_num at h1 h3
  linarith

/-- The five values of `rotUp` for coordinates in the unit interval. -/
theorem five_values {a0 a1 a2 a3 G : ℝ} (u0 : 0 ≤ a0) (v0 : a0 ≤ 1) (u1 : 0 ≤ a1) (v1 : a1 ≤ 1)
    (u2 : 0 ≤ a2) (v2 : a2 ≤ 1) (u3 : 0 ≤ a3) (v3 : a3 ≤ 1) (hG : 1.8 ≤ G) :
    let c0 := Real.cos (a0 * Real.pi / 2)
    let c1 := Real.cos (a1 * Real.pi / 2)
    let c2 := Real.cos (a2 * Real.pi / 2)
    let c3 := Real.cos (a3 * Real.pi / 2)
    (0 ≤ G * Real.sin a0 ∧ 0 ≤ G * c0 * Real.sin a1 ∧ 0 ≤ G * (c0 * c1) * Real.sin a2 ∧
      0 ≤ G * (c0 * c1 * c2) * Real.sin a3 ∧ 0 ≤ G * (c0 * c1 * c2 * c3)) ∧
    1.2 < (G * Real.sin a0) ^ 2 + ((G * c0 * Real.sin a1) ^ 2 + ((G * (c0 * c1) * Real.sin a2) ^ 2 +
      ((G * (c0 * c1 * c2) * Real.sin a3) ^ 2 + (G * (c0 * c1 * c2 * c3)) ^ 2))) := by
  intro c0 c1 c2 c3
  have s0 := sin_unit u0 v0
  have s1 := sin_unit u1 v1
  have s2 := sin_unit u2 v2
  have s3 := sin_unit u3 v3
  have d0 : 0 ≤ c0 := cos_unit u0 v0
  have d1 : 0 ≤ c1 := cos_unit u1 v1
  have d2 : 0 ≤ c2 := cos_unit u2 v2
  have d3 : 0 ≤ c3 := cos_unit u3 v3
  have n3 := circle_step u3 v3 (n := 1) (by norm_num)
  have n2 := circle_step u2 v2 n3
  have n1 := circle_step u1 v1 n2
  have n0 := circle_step u0 v0 n1
  have hG0 : 0 ≤ G := by linarith
  refine ⟨⟨by positivity, by positivity, by positivity, by positivity, by positivity⟩, ?_⟩
  have hsq : 3.24 ≤ G ^ 2 := by nlinarith
  have := mul_le_mul hsq n0 (by norm_num) (sq_nonneg _)
  refine lt_of_lt_of_le (by norm_num) (this.trans (le_of_eq ?_))
  change G ^ 2 * (_ + c0 ^ 2 * (_ + c1 ^ 2 * (_ + c2 ^ 2 * (_ + c3 ^ 2 * 1)))) = _
  ring

/-- The objectives of UF12, from the values without penalty. -/
theorem uf12_fits (lambdas : List ℝ) (M : List (List ℝ)) (x : List ℝ)
    (hg : 0.8 ≤ uf12G (rotZ M x))
    (hu : ∀ i < 4, 0 ≤ (rotZBis lambdas (rotZ M x)).getD i 0 ∧ (rotZBis lambdas (rotZ M x)).getD i 0 ≤ 1) :
    (∀ m ∈ [1, 2, 3, 4, 5], 1 ≤ uf12Fit lambdas M m x) ∧
      1.2 < (([1, 2, 3, 4, 5].map fun m => uf12Fit lambdas M m x).map fun v => (v - 1) ^ 2).sum := by
  have f : ∀ m, 0 ≤ rotUp (uf12G (rotZ M x)) (rotZBis lambdas (rotZ M x)) m - 1 →
      1 ≤ uf12Fit lambdas M m x ∧
      (rotUp (uf12G (rotZ M x)) (rotZBis lambdas (rotZ M x)) m - 1) ^ 2 ≤
        (uf12Fit lambdas M m x - 1) ^ 2 := by
    intro m hm
    have := uf12Fit_ge lambdas M m x (by linarith)
    exact ⟨by linarith, pow_le_pow_left₀ hm (by linarith) 2⟩
  generalize uf12G (rotZ M x) = g at hg f
  generalize rotZBis lambdas (rotZ M x) = zb at hu f
  obtain ⟨u0, v0⟩ := hu 0 (by norm_num)
  obtain ⟨u1, v1⟩ := hu 1 (by norm_num)
  obtain ⟨u2, v2⟩ := hu 2 (by norm_num)
  obtain ⟨u3, v3⟩ := hu 3 (by norm_num)
  obtain ⟨e1, e2, e3, e4, e5⟩ := rotUp_values g zb
  obtain ⟨⟨p1, p2, p3, p4, p5⟩, hs⟩ :=
    five_values u0 v0 u1 v1 u2 v2 u3 v3 (G := 1 + g) (by linarith)
  have f1 := f 1
  have f2 := f 2
  have f3 := f 3
  have f4 := f 4
  have f5 := f 5
  rw [e1, add_sub_cancel_right] at f1
  rw [e2, add_sub_cancel_right] at f2
  rw [e3, add_sub_cancel_right] at f3
  rw [e4, add_sub_cancel_right] at f4
  rw [e5, add_sub_cancel_right] at f5
  replace f1 := f1 p1
  replace f2 := f2 p2
  replace f3 := f3 p3
  replace f4 := f4 p4
  replace f5 := f5 p5
  constructor
  · intro m hm
    simp only [List.mem_cons, List.not_mem_nil, or_false] at hm
    rcases hm with rfl | rfl | rfl | rfl | rfl
    exacts [f1.1, f2.1, f3.1, f4.1, f5.1]
  · simp only [List.map_cons, List.map_nil, List.sum_cons, List.sum_nil]
    linarith [f1.2, f2.2, f3.2, f4.2, f5.2]

/-- Every attainable objective vector of UF12 is outside of the unit ball around (1, …, 1), on which
the rows of the reference file are. -/
theorem uf12_gap (front : List (List ℝ)) (x : List ℝ) (hx : InBox x (uf12 front).dims) :
    (∀ v ∈ (uf12 front).fits.map fun f => f x, 1 ≤ v) ∧
      1.2 < (((uf12 front).fits.map fun f => f x).map fun v => (v - 1) ^ 2).sum := by
  have h := uf12_fits (toReals rotLambdas) ((rotM uf12Block).map toReals) x (uf12G_ge x hx)
    (zb_unit uf12_rows x hx)
  have e : (uf12 front).fits.map (fun f => f x) =
      [1, 2, 3, 4, 5].map fun m => uf12Fit (toReals rotLambdas) ((rotM uf12Block).map toReals) m x := by
    unfold uf12; simp only [List.map_map]; rfl
  rw [e]
  refine ⟨?_, h.2⟩
  intro v hv
  obtain ⟨m, hm, rfl⟩ := List.mem_map.1 hv
  exact h.1 m hm

/-- A point of the table is in the ball of squared radius 1.2 around (1, …, 1); the rows of
`problems/UF12/R3_DTLZ3_M5.dat` are on the unit sphere up to rounding in the seventh digit. -/
def NearSphere (y : List ℝ) : Prop := (y.map fun v => (v - 1) ^ 2).sum ≤ 1.2

/-- **C55** fails for UF12: none of the points of the reference file is attainable. -/
theorem C55_uf12_violated (front : List (List ℝ)) (hf : ∀ y ∈ front, NearSphere y) :
    ∀ y ∈ (uf12 front).front, ¬ Attainable (uf12 front).fits (uf12 front).dims y := by
  rintro y hy ⟨x, hx, rfl⟩
  exact absurd (uf12_gap front x hx).2 (not_lt.2 (hf _ hy))

/-- **C56** for UF12: no decision vector dominates a point of the reference file. -/
theorem C56_uf12 (front : List (List ℝ)) (hf : ∀ y ∈ front, NearSphere y) :
    ∀ y ∈ (uf12 front).front, Undominated (uf12 front).fits (uf12 front).dims y := by
  intro y hy x hx hd
  obtain ⟨h1, h2⟩ := uf12_gap front x hx
  refine absurd h2 (not_lt.2 (le_trans ?_ (hf y hy)))
  obtain ⟨hl, hle, -⟩ := hd
  generalize ((uf12 front).fits.map fun f => f x) = u at h1 hl hle
  clear hf hy h2
  induction u generalizing y with
  | nil =>
    have : y = [] := by simpa using hl.symm
    subst this; simp
  | cons a u ih =>
    cases y with
    | nil => simp at hl
    | cons b y =>
      have h3 : a ≤ b := hle 0 (by simp) (by simp)
      have h4 : 1 ≤ a := h1 a (by simp)
      have := ih y (fun v hv => h1 v (by simp [hv])) (by simpa using hl) fun i hi hj => by
        have := hle (i + 1) (by simpa using hi) (by simpa using hj)
        simpa using this
      simp only [List.map_cons, List.sum_cons]
      have : (a - 1) ^ 2 ≤ (b - 1) ^ 2 := pow_le_pow_left₀ (by linarith) (by linarith) 2
      linarith

/-- Rows 5 and 4690 of `problems/UF12/R3_DTLZ3_M5.dat`. -/
noncomputable def uf12Rows : List (List ℝ) :=
  [[1.0000014, 1.0000056, 1.0000959, 1.0000654, 2.0000000],
    [1.5639766, 1.4698302, 1.4904514, 1.2915210, 1.3683244]]

theorem uf12Rows_near : ∀ y ∈ uf12Rows, NearSphere y := by
  intro y hy
  simp only [uf12Rows, List.mem_cons, List.not_mem_nil, or_false] at hy
  rcases hy with rfl | rfl <;> norm_num [NearSphere]

example : ∀ y ∈ (uf12 uf12Rows).front, ¬ Attainable (uf12 uf12Rows).fits (uf12 uf12Rows).dims y ∧
    Undominated (uf12 uf12Rows).fits (uf12 uf12Rows).dims y :=
  fun y hy => ⟨C55_uf12_violated _ uf12Rows_near y hy, C56_uf12 _ uf12Rows_near y hy⟩

/-! ## UF11: an unattainable row -/

/-- Row 3 of `problems/UF11/R2_DTLZ2_M5.dat`. -/
noncomputable def uf11Row3 : List ℝ := [1.0000065, 1.0000152, 1.0000494, 1.0000661, 2.0000000]

/-- A coordinate whose sine, times a factor that is nearly 1 or larger, is small is small, and the
cosine of it is nearly 1. -/
theorem small_step {a c : ℝ} (h : 0 ≤ a) (h' : a ≤ 1) (hc : 0.9 ≤ c) (hs : c * Real.sin a ≤ 0.0001) :
    a ≤ 0.0002 ∧ 0.9999 ≤ Real.cos (a * Real.pi / 2) := by
  have hpi3 := Real.pi_gt_three
  have hpi4 := Real.pi_lt_d2
  have h1 := Real.mul_le_sin h (by linarith)
  have h2 : 0.6345 ≤ 2 / Real.pi := by
    rw [le_div_iff₀ Real.pi_pos]
    linarith
  have h3 : 0.6345 * a ≤ Real.sin a := (mul_le_mul_of_nonneg_right h2 h).trans h1
  have h4 : a ≤ 0.0002 := by nlinarith
  refine ⟨h4, ?_⟩
  have h5 := Real.one_sub_sq_div_two_le_cos (x := a * Real.pi / 2)
  have h6 : a * Real.pi / 2 ≤ 0.0004 := by nlinarith
  have h7 : 0 ≤ a * Real.pi / 2 := by positivity
  nlinarith

/-- The values of UF11 for coordinates in the unit interval: if the first four are small, the fifth
is above 2. -/
theorem uf11_fits (lambdas : List ℝ) (M : List (List ℝ)) (x : List ℝ) (hl : 0 < M.length)
    (hu : ∀ i < 4, 0 ≤ (rotZBis lambdas (rotZ M x)).getD i 0 ∧ (rotZBis lambdas (rotZ M x)).getD i 0 ≤ 1)
    (w : ∀ m ∈ [1, 2, 3, 4], uf11Fit lambdas M m x ≤ 1.0001) : 2 < uf11Fit lambdas M 5 x := by
  have f := fun m => uf11Fit_ge lambdas M m x
  have hg : ((rotZBis lambdas (rotZ M x)).getD 0 0 - 0.5) ^ 2 ≤ uf11G (rotZBis lambdas (rotZ M x)) := by
    have hlen : 0 < (rotZBis lambdas (rotZ M x)).length := by simpa [rotZBis, rotZ] using hl
    have hm : (rotZBis lambdas (rotZ M x)).getD 0 0 ∈ rotZBis lambdas (rotZ M x) := by
      rw [List.getD_eq_getElem?_getD, List.getElem?_eq_getElem hlen, Option.getD_some]
      exact List.getElem_mem _
    exact List.single_le_sum (by
      intro y hy
      obtain ⟨u, -, rfl⟩ := List.mem_map.1 hy
      positivity) _ (List.mem_map_of_mem (f := fun zi : ℝ => (zi - 0.5) ^ 2) hm)
  generalize uf11G (rotZBis lambdas (rotZ M x)) = g at hg f
  generalize rotZBis lambdas (rotZ M x) = zb at hu hg f
  obtain ⟨u0, v0⟩ := hu 0 (by norm_num)
  obtain ⟨u1, v1⟩ := hu 1 (by norm_num)
  obtain ⟨u2, v2⟩ := hu 2 (by norm_num)
  obtain ⟨u3, v3⟩ := hu 3 (by norm_num)
  obtain ⟨e1, e2, e3, e4, e5⟩ := rotUp_values g zb
  have f1 := f 1
  have f2 := f 2
  have f3 := f 3
  have f4 := f 4
  have f5 := f 5
  rw [e1] at f1
  rw [e2] at f2
  rw [e3] at f3
  rw [e4] at f4
  rw [e5] at f5
  have w1 := w 1 (by simp)
  have w2 := w 2 (by simp)
  have w3 := w 3 (by simp)
  have w4 := w 4 (by simp)
  have s0 := sin_unit u0 v0
  have s1 := sin_unit u1 v1
  have s2 := sin_unit u2 v2
  have s3 := sin_unit u3 v3
  have hG : 1 ≤ 1 + g := by nlinarith [sq_nonneg (zb.getD 0 0 - 0.5)]
  clear e1 e2 e3 e4 e5 f w hu
  generalize zb.getD 0 0 = a0 at *
  generalize zb.getD 1 0 = a1 at *
  generalize zb.getD 2 0 = a2 at *
  generalize zb.getD 3 0 = a3 at *
  have hG0 : 0 ≤ 1 + g := by linarith
  replace f1 := f1 (by positivity)
  obtain ⟨t0, c0⟩ := small_step u0 v0 (c := 1 + g) (by linarith) (by linarith)
  have d0 := cos_unit u0 v0
  replace f2 := f2 (by positivity)
  obtain ⟨t1, c1⟩ := small_step u1 v1 (c := (1 + g) * Real.cos (a0 * Real.pi / 2))
    (by nlinarith) (by linarith)
  have d1 := cos_unit u1 v1
  generalize Real.cos (a0 * Real.pi / 2) = k0 at *
  generalize Real.cos (a1 * Real.pi / 2) = k1 at *
  have k01 : 0.999 ≤ k0 * k1 := by nlinarith
  replace f3 := f3 (by positivity)
  obtain ⟨t2, c2⟩ := small_step u2 v2 (c := (1 + g) * (k0 * k1)) (by nlinarith) (by linarith)
  have d2 := cos_unit u2 v2
  generalize Real.cos (a2 * Real.pi / 2) = k2 at *
  have k012 : 0.998 ≤ k0 * k1 * k2 := by nlinarith
  replace f4 := f4 (by positivity)
  obtain ⟨t3, c3⟩ := small_step u3 v3 (c := (1 + g) * (k0 * k1 * k2)) (by nlinarith) (by linarith)
  have d3 := cos_unit u3 v3
  generalize Real.cos (a3 * Real.pi / 2) = k3 at *
  have k0123 : 0.997 ≤ k0 * k1 * k2 * k3 := by nlinarith
  replace f5 := f5 (by positivity)
  have hg' : 0.2 ≤ g := by nlinarith
  nlinarith

/-- **C55** fails for UF11: a row of the reference file is not attainable. -/
theorem C55_uf11_violated (front : List (List ℝ)) (h : uf11Row3 ∈ front) :
    ∃ y ∈ (uf11 front).front, ¬ Attainable (uf11 front).fits (uf11 front).dims y := by
  refine ⟨uf11Row3, h, ?_⟩
  rintro ⟨x, hx, he⟩
  have hf := uf11_fits (toReals rotLambdas) ((rotM uf11Block).map toReals) x
    (by rw [List.length_map]; decide) (zb_unit uf11_rows x hx)
  have e : (uf11 front).fits.map (fun f => f x) =
      [1, 2, 3, 4, 5].map fun m => uf11Fit (toReals rotLambdas) ((rotM uf11Block).map toReals) m x := by
    unfold uf11; simp only [List.map_map]; rfl
  rw [e] at he
  clear e hx
  generalize toReals rotLambdas = l at *
  generalize (rotM uf11Block).map toReals = M at *
  simp only [uf11Row3, List.map_cons, List.map_nil, List.cons.injEq, and_true] at he
  obtain ⟨w1, w2, w3, w4, w5⟩ := he
  refine absurd (hf ?_) (by rw [w5]; norm_num)
  intro m hm
  simp only [List.mem_cons, List.not_mem_nil, or_false] at hm
  rcases hm with rfl | rfl | rfl | rfl
  · rw [w1]; norm_num
  · rw [w2]; norm_num
  · rw [w3]; norm_num
  · rw [w4]; norm_num

example : ∃ y ∈ (uf11 [uf11Row3, uf11Row]).front,
    ¬ Attainable (uf11 [uf11Row3, uf11Row]).fits (uf11 [uf11Row3, uf11Row]).dims y :=
  C55_uf11_violated _ (by simp)

end Evogil.Problems
