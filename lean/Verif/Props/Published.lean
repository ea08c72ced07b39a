import Verif.Spec.Published
import Verif.Model.ProblemsData
import Verif.Lemmas.Problems
import Mathlib.Analysis.SpecialFunctions.Pow.NNReal
import Mathlib.Tactic.IntervalCases

/-!
# C123: the benchmark problems are the published ones

The objective functions and boxes of `Verif.Model.Problems` against the definitions of the papers in
`Verif.Spec.Published`.
-/

set_option linter.unusedSectionVars false

namespace Evogil.Problems

open Spec Spec.Published

/-! ## From lists to sets of indices -/

theorem oddJ_eq (n : ℕ) : oddJ n = (odds n).toFinset := by
  ext j
  simp only [oddJ, odds, Finset.mem_filter, Finset.mem_Icc, List.mem_toFinset, List.mem_filter, List.mem_range'_1,
    Nat.odd_iff, bne_iff_ne]
  omega

theorem evenJ_eq (n : ℕ) : evenJ n = (evens n).toFinset := by
  ext j
  simp only [evenJ, evens, Finset.mem_filter, Finset.mem_Icc, List.mem_toFinset, List.mem_filter,
    List.mem_range'_1, Nat.even_iff, beq_iff_eq]
  omega

theorem odds_nodup (n : ℕ) : (odds n).Nodup := List.Nodup.filter _ List.nodup_range'

theorem evens_nodup (n : ℕ) : (evens n).Nodup := List.Nodup.filter _ List.nodup_range'

theorem sum_odd (n : ℕ) (t : ℕ → ℝ) : ∑ j ∈ oddJ n, t j = ((odds n).map t).sum := by
  rw [oddJ_eq, List.sum_toFinset _ (odds_nodup n)]

theorem sum_even (n : ℕ) (t : ℕ → ℝ) : ∑ j ∈ evenJ n, t j = ((evens n).map t).sum := by
  rw [evenJ_eq, List.sum_toFinset _ (evens_nodup n)]

theorem prod_odd (n : ℕ) (t : ℕ → ℝ) : ∏ j ∈ oddJ n, t j = ((odds n).map t).prod := by
  rw [oddJ_eq, List.prod_toFinset _ (odds_nodup n)]

theorem prod_even (n : ℕ) (t : ℕ → ℝ) : ∏ j ∈ evenJ n, t j = ((evens n).map t).prod := by
  rw [evenJ_eq, List.prod_toFinset _ (evens_nodup n)]

theorem card_odd (n : ℕ) : (oddJ n).card = (odds n).length := by
  rw [oddJ_eq, List.toFinset_card_of_nodup (odds_nodup n)]

theorem card_even (n : ℕ) : (evenJ n).card = (evens n).length := by
  rw [evenJ_eq, List.toFinset_card_of_nodup (evens_nodup n)]

theorem twiceMean_odd (n : ℕ) (t : ℕ → ℝ) :
    twiceMean (oddJ n) t = 2 / ((odds n).length : ℝ) * ((odds n).map t).sum := by
  rw [twiceMean, card_odd, sum_odd]

theorem twiceMean_even (n : ℕ) (t : ℕ → ℝ) :
    twiceMean (evenJ n) t = 2 / ((evens n).length : ℝ) * ((evens n).map t).sum := by
  rw [twiceMean, card_even, sum_even]

theorem range_map_pair (J : List ℕ) (y : ℕ → ℝ) (F : ℝ → ℕ → ℝ) :
    (List.range J.length).map (fun k => F ((J.map y).getD k 0) (J.getD k 0)) = J.map fun j => F (y j) j := by
  apply List.ext_getElem?
  intro k
  by_cases h : k < J.length
  · simp [h]
  · simp [h]

theorem cosProd_odd (n : ℕ) (y : ℕ → ℝ) : cosProd (odds n) ((odds n).map y) = wavy (oddJ n) y := by
  rw [cosProd, range_map_pair (odds n) y fun v j => Real.cos (20 * v * Real.pi / Real.sqrt j), wavy, card_odd,
    sum_odd, prod_odd, List.map_map]
  simp only [Function.comp_def]
  ring

theorem cosProd_even (n : ℕ) (y : ℕ → ℝ) : cosProd (evens n) ((evens n).map y) = wavy (evenJ n) y := by
  rw [cosProd, range_map_pair (evens n) y fun v j => Real.cos (20 * v * Real.pi / Real.sqrt j), wavy, card_even,
    sum_even, prod_even, List.map_map]
  simp only [Function.comp_def]
  ring

theorem tail_sum (x : List ℝ) (f : ℝ → ℝ) :
    (x.tail.map f).sum = ∑ i ∈ Finset.Icc 2 x.length, f (vars x i) := by
  have h1 : x.tail = (List.range' 2 (x.length - 1)).map (vars x) := by
    apply List.ext_getElem?
    intro k
    by_cases h : k < x.length - 1
    · have h' : k + 1 < x.length := by omega
      have h3 : (List.range' 2 (x.length - 1))[k]? = some (2 + k) := by
        rw [List.getElem?_eq_getElem (by simpa using h)]
        simp
      rw [List.getElem?_tail, List.getElem?_map, h3, Option.map_some, vars, List.getElem?_eq_getElem h']
      simp only [show 2 + k - 1 = k + 1 by omega, List.getD_eq_getElem?_getD,
        List.getElem?_eq_getElem h', Option.getD_some]
    · rw [List.getElem?_eq_none (by rw [List.length_tail]; omega),
        List.getElem?_eq_none (by rw [List.length_map, List.length_range']; omega)]
  have h2 : Finset.Icc 2 x.length = (List.range' 2 (x.length - 1)).toFinset := by
    ext j
    simp only [Finset.mem_Icc, List.mem_toFinset, List.mem_range'_1]
    omega
  rw [h2, List.sum_toFinset _ List.nodup_range', h1, List.map_map]
  rfl

/-! ## Problems that are exactly the published ones -/

theorem uf1_published : SameValues uf1.fits uf1.dims (Published.uf1 30) := by
  intro x _
  simp only [uf1, Published.uf1, twiceMean_odd, twiceMean_even, List.map_cons, List.map_nil, uf1Base, sineY, vars]
  norm_num

theorem uf2_published : SameValues uf2.fits uf2.dims (Published.uf2 30) := by
  intro x _
  have h1 : ((odds 30).map fun j => Published.uf2Y 30 (vars x) j ^ 2) = (odds 30).map fun j =>
      (x.getD (j - 1) 0 - (0.3 * x.getD 0 0 ^ 2 * Real.cos (24 * Real.pi * x.getD 0 0 + 4 * j * Real.pi / 30) +
        0.6 * x.getD 0 0) * Real.cos (6 * Real.pi * x.getD 0 0 + j * Real.pi / 30)) ^ 2 := by
    refine List.map_congr_left fun j hj => ?_
    have : Odd j := by
      simp only [odds, List.mem_filter, bne_iff_ne] at hj
      exact Nat.odd_iff.mpr (by omega)
    rw [Published.uf2Y, if_pos this]
    simp [vars]
  have h2 : ((evens 30).map fun j => Published.uf2Y 30 (vars x) j ^ 2) = (evens 30).map fun j =>
      (x.getD (j - 1) 0 - (0.3 * x.getD 0 0 ^ 2 * Real.cos (24 * Real.pi * x.getD 0 0 + 4 * j * Real.pi / 30) +
        0.6 * x.getD 0 0) * Real.sin (6 * Real.pi * x.getD 0 0 + j * Real.pi / 30)) ^ 2 := by
    refine List.map_congr_left fun j hj => ?_
    have : ¬ Odd j := by
      simp only [evens, List.mem_filter, beq_iff_eq] at hj
      rw [Nat.odd_iff]; omega
    rw [Published.uf2Y, if_neg this]
    simp [vars]
  simp only [uf2, Published.uf2, twiceMean_odd, twiceMean_even, List.map_cons, List.map_nil, uf2Base, h1, h2]
  simp [vars]

theorem uf3_published : SameValues uf3.fits uf3.dims (Published.uf3 30) := by
  intro x _
  have h : Problems.uf3Y x = Published.uf3Y 30 (vars x) := by
    funext j
    simp only [Problems.uf3Y, Published.uf3Y, vars]
    norm_num
  simp only [uf3, Published.uf3, List.map_cons, List.map_nil, cosProd_odd, cosProd_even, h]
  simp [vars]

theorem ufY_eq (n : ℕ) (x : List ℝ) : ufY n x = sineY n (vars x) := by
  funext j
  simp [ufY, sineY, vars]

theorem uf4_published : SameValues uf4.fits uf4.dims (Published.uf4 30) := by
  intro x _
  simp only [uf4, Published.uf4, twiceMean_odd, twiceMean_even, List.map_cons, List.map_nil, uf4Base, ufY_eq, uf4H,
    vars]
  exact List.cons_eq_cons.mpr ⟨by ring, List.cons_eq_cons.mpr ⟨by ring, rfl⟩⟩

theorem uf7_published : SameValues uf7.fits uf7.dims (Published.uf7 30) := by
  intro x _
  simp only [uf7, Published.uf7, twiceMean_odd, twiceMean_even, List.map_cons, List.map_nil, uf7Base, ufY_eq,
    vars]
  rw [show ((0.2 : ℝ)) = 1 / 5 by norm_num]
  exact List.cons_eq_cons.mpr ⟨by ring, List.cons_eq_cons.mpr ⟨by ring, rfl⟩⟩

/-- UF5 with ten variables. -/
theorem uf5_ten : SameValues uf5.fits uf5.dims (Published.uf5 10 10 0.1) := by
  intro x _
  simp only [uf5, Published.uf5, twiceMean_odd, twiceMean_even, List.map_cons, List.map_nil, uf5Base, ufY_eq,
    uf5H, vars]
  push_cast
  exact List.cons_eq_cons.mpr ⟨by ring, List.cons_eq_cons.mpr ⟨by ring, rfl⟩⟩

/-- UF6 with `N = 30`. -/
theorem uf6_thirty : SameValues uf6.fits uf6.dims (Published.uf6 30 30 0.1) := by
  intro x _
  simp only [uf6, Published.uf6, List.map_cons, List.map_nil, uf6Base, cosProd_odd, cosProd_even, ufY_eq, vars]
  push_cast
  exact List.cons_eq_cons.mpr ⟨by ring, List.cons_eq_cons.mpr ⟨by ring, rfl⟩⟩

theorem zdt4_published : SameValues zdt4.fits zdt4.dims (Published.zdt4 10) := by
  intro x hx
  have hl : x.length = 10 := by rw [hx.length_eq]; rfl
  have h0 := box_getD (i := 0) hx rfl
  have hg : (91 : ℝ) + (x.tail.map fun v => v ^ 2 - 10 * Real.cos (4 * Real.pi * v)).sum = zdt4G 10 (vars x) := by
    rw [tail_sum, zdt4G, hl]
    norm_num
  have hpos : 1 ≤ zdt4G 10 (vars x) := by
    rw [← hg]
    have := sum_ge_card x.tail (fun v => v ^ 2 - 10 * Real.cos (4 * Real.pi * v)) (-10) fun v _ => by
      have := Real.cos_le_one (4 * Real.pi * v)
      have := sq_nonneg v
      linarith
    rw [List.length_tail, hl] at this
    have e : ((10 - 1 : ℕ) : ℝ) = 9 := by norm_num
    rw [e] at this
    linarith
  simp only [zdt4, emoaFitnesses2, emoaFitness2, Published.zdt4, List.map_cons, List.map_nil, hg]
  rw [abs_of_nonneg (div_nonneg h0.1 (by linarith))]
  rfl

theorem kursawe_published (front : List (List ℝ)) :
    SameValues (kursawe front).fits (kursawe front).dims (Published.kursawe 3) := by
  intro x hx
  have hl : x.length = 3 := by rw [hx.length_eq]; rfl
  obtain ⟨a, b, c, rfl⟩ := List.length_eq_three.mp hl
  simp only [kursawe, Published.kursawe, List.map_cons, List.map_nil, List.tail_cons, List.zipWith_cons_cons,
    List.zipWith_nil_right, List.sum_cons, List.sum_nil, vars, Nat.reduceSub,
    show Finset.Icc 1 2 = {1, 2} from rfl, show Finset.Icc 1 3 = {1, 2, 3} from rfl]
  norm_num
  ring

theorem ackley_published : ∀ f ∈ ackley.fits, ∀ x, f x = Published.ackley (vars x) := by
  intro f hf x
  have hf' : f = ackleyFit := by simpa [ackley] using hf
  subst hf'
  simp only [ackleyFit, Published.ackley, show Finset.Icc 1 2 = {1, 2} from rfl, vars]
  norm_num

/-! ## ZDT problems with rounded constants -/

theorem shape_sqrt_near {g g' a : ℝ} (hg : 1 ≤ g) (hg' : 1 ≤ g') (h0 : 0 ≤ a) (h1 : a ≤ 1) :
    |g * (1 - Real.sqrt (a / g)) - g' * (1 - Real.sqrt (a / g'))| ≤ |g - g'| := by
  obtain ⟨s, hs, rfl⟩ : ∃ s : ℝ, 1 ≤ s ∧ g = s ^ 2 :=
    ⟨Real.sqrt g, by rw [Real.le_sqrt' one_pos]; simpa using hg, (Real.sq_sqrt (by linarith)).symm⟩
  obtain ⟨s', hs', rfl⟩ : ∃ s : ℝ, 1 ≤ s ∧ g' = s ^ 2 :=
    ⟨Real.sqrt g', by rw [Real.le_sqrt' one_pos]; simpa using hg', (Real.sq_sqrt (by linarith)).symm⟩
  have hr0 := Real.sqrt_nonneg a
  have hr1 : Real.sqrt a ≤ 1 := Real.sqrt_le_one.mpr h1
  rw [Real.sqrt_div h0, Real.sqrt_div h0, Real.sqrt_sq (by linarith), Real.sqrt_sq (by linarith)]
  have e1 : s ^ 2 * (1 - Real.sqrt a / s) - s' ^ 2 * (1 - Real.sqrt a / s') =
      (s - s') * (s + s' - Real.sqrt a) := by
    field_simp
    ring
  have e2 : s ^ 2 - s' ^ 2 = (s - s') * (s + s') := by ring
  rw [e1, e2, abs_mul, abs_mul]
  refine mul_le_mul_of_nonneg_left ?_ (abs_nonneg _)
  rw [abs_of_nonneg (by linarith), abs_of_nonneg (by linarith)]
  linarith

theorem shape_sq_near {g g' a : ℝ} (hg : 1 ≤ g) (hg' : 1 ≤ g') (h0 : 0 ≤ a) (h1 : a ≤ 1) :
    |g * (1 - (a / g) ^ 2) - g' * (1 - (a / g') ^ 2)| ≤ 2 * |g - g'| := by
  have e1 : g * (1 - (a / g) ^ 2) - g' * (1 - (a / g') ^ 2) = (g - g') * (1 + a ^ 2 / (g * g')) := by
    have : g ≠ 0 := by linarith
    have : g' ≠ 0 := by linarith
    field_simp
    ring
  have h2 : a ^ 2 / (g * g') ≤ 1 := by
    rw [div_le_one (by positivity)]
    nlinarith
  have h3 : 0 ≤ a ^ 2 / (g * g') := by positivity
  rw [e1, abs_mul, mul_comm 2, abs_of_nonneg (show 0 ≤ 1 + a ^ 2 / (g * g') by linarith)]
  exact mul_le_mul_of_nonneg_left (by linarith) (abs_nonneg _)

/-- The variables from the second on add up to something between 0 and their number. -/
theorem unit_sum {x : List ℝ} {n : ℕ} (hx : InBox x ((List.range n).map fun _ => ((0 : ℝ), (1 : ℝ)))) (hn : 1 ≤ n) :
    x.tail.sum = ∑ i ∈ Finset.Icc 2 n, vars x i ∧ 0 ≤ x.tail.sum ∧ x.tail.sum ≤ n - 1 := by
  have hl : x.length = n := by rw [hx.length_eq]; simp
  have h1 : x.tail.sum = ∑ i ∈ Finset.Icc 2 n, vars x i := by
    have := tail_sum x id
    rwa [List.map_id, hl] at this
  have h2 : ∀ i ∈ Finset.Icc 2 n, 0 ≤ vars x i ∧ vars x i ≤ 1 := by
    intro i hi
    rw [Finset.mem_Icc] at hi
    exact box_getD (d := (0, 1)) hx (by
      rw [List.getElem?_map, List.getElem?_range (by omega)]; rfl)
  refine ⟨h1, h1 ▸ Finset.sum_nonneg fun i hi => (h2 i hi).1, ?_⟩
  rw [h1]
  calc _ ≤ ∑ i ∈ Finset.Icc 2 n, (1 : ℝ) := Finset.sum_le_sum fun i hi => (h2 i hi).2
    _ = n - 1 := by
      rw [Finset.sum_const, Nat.card_Icc, nsmul_eq_mul, mul_one, show n + 1 - 2 = n - 1 by omega, Nat.cast_sub hn,
        Nat.cast_one]

theorem zdtG_near {x : List ℝ} (hx : InBox x ((List.range 30).map fun _ => ((0 : ℝ), (1 : ℝ)))) :
    1 ≤ 1 + 0.3103448275862069 * x.tail.sum ∧ 1 ≤ zdtG 30 (vars x) ∧
      |1 + 0.3103448275862069 * x.tail.sum - zdtG 30 (vars x)| ≤ 1e-16 := by
  obtain ⟨h1, h2, h3⟩ := unit_sum hx (by norm_num)
  rw [zdtG, ← h1]
  refine ⟨by norm_num; exact h2, by norm_num; exact h2, ?_⟩
  rw [abs_le]
  norm_num at h3 ⊢
  constructor <;> linarith

theorem zdt1_near : NearValues 2e-16 zdt1.fits zdt1.dims (Published.zdt1 30) := by
  intro x hx
  have h0 := box_getD (i := 0) hx (d := (0, 1)) rfl
  obtain ⟨h1, h2, h3⟩ := zdtG_near hx
  have h4 := shape_sqrt_near h1 h2 h0.1 h0.2
  refine .cons ?_ (.cons ?_ .nil)
  · rw [vars, sub_self, abs_zero]; norm_num
  · change |(1 + 0.3103448275862069 * x.tail.sum) * (1 - Real.sqrt |x.getD 0 0 / _|) - _| ≤ _
    rw [abs_of_nonneg (div_nonneg h0.1 (by linarith))]
    refine h4.trans (h3.trans ?_)
    norm_num

theorem zdt2_near : NearValues 2e-16 zdt2.fits zdt2.dims (Published.zdt2 30) := by
  intro x hx
  have h0 := box_getD (i := 0) hx (d := (0, 1)) rfl
  obtain ⟨h1, h2, h3⟩ := zdtG_near hx
  have h4 := shape_sq_near h1 h2 h0.1 h0.2
  refine .cons ?_ (.cons ?_ .nil)
  · rw [vars, sub_self, abs_zero]; norm_num
  · refine h4.trans ?_
    norm_num at h3 ⊢
    linarith

theorem zdt3_near : NearValues 2e-16 zdt3.fits zdt3.dims (Published.zdt3 30) := by
  intro x hx
  have h0 := box_getD (i := 0) hx (d := (0, 1)) rfl
  obtain ⟨h1, h2, h3⟩ := zdtG_near hx
  have h4 := shape_sqrt_near h1 h2 h0.1 h0.2
  refine .cons ?_ (.cons ?_ .nil)
  · rw [vars, sub_self, abs_zero]; norm_num
  · have e : ∀ g r s : ℝ, 1 ≤ g → g * (1 - r - x.getD 0 0 / g * s) = g * (1 - r) - x.getD 0 0 * s := by
      intro g r s hg
      have : g ≠ 0 := by linarith
      field_simp
    change |(1 + 0.3103448275862069 * x.tail.sum) * (1 - Real.sqrt |x.getD 0 0 / _| - x.getD 0 0 / _ * _) - _| ≤ _
    rw [abs_of_nonneg (div_nonneg h0.1 (by linarith)), e _ _ _ h1]
    change |_ - zdtG 30 (vars x) * (1 - Real.sqrt (x.getD 0 0 / _) - x.getD 0 0 / _ * _)| ≤ _
    rw [e _ _ _ h2]
    change |_ - _ * Real.sin (10 * Real.pi * x.getD 0 0) - (_ - _ * Real.sin (10 * Real.pi * x.getD 0 0))| ≤ _
    rw [sub_sub_sub_cancel_right]
    refine h4.trans (h3.trans ?_)
    norm_num

/-- The fourth root of 9 is the square root of 3. -/
theorem root_nine : ∃ q : ℝ, (9 : ℝ) ^ (1 / 4 : ℝ) = q ∧ q ^ 2 = 3 ∧ 1.7320508 ≤ q ∧ q ≤ 1.7320509 := by
  have h1 : ((9 : ℝ) ^ (1 / 4 : ℝ)) ^ 2 = 3 := by
    rw [← Real.rpow_natCast, ← Real.rpow_mul (by norm_num), show (9 : ℝ) = 3 ^ (2 : ℝ) by norm_num,
      ← Real.rpow_mul (by norm_num)]
    norm_num
  have h0 : 0 ≤ (9 : ℝ) ^ (1 / 4 : ℝ) := by positivity
  refine ⟨_, rfl, h1, ?_, ?_⟩ <;> nlinarith

theorem zdt6G_eq {q s : ℝ} (hq : (9 : ℝ) ^ (1 / 4 : ℝ) = q) (h2 : q ^ 2 = 3) (hs : 0 ≤ s) :
    1 + 9 * (s / 9) ^ (1 / 4 : ℝ) = 1 + 3 * q * s ^ (1 / 4 : ℝ) := by
  have h0 : q ≠ 0 := by rintro rfl; norm_num at h2
  rw [Real.div_rpow hs (by norm_num), hq]
  field_simp
  linear_combination -3 * s ^ (1 / 4 : ℝ) * h2

theorem zdt6F_unit {x : List ℝ} (h : 0 ≤ x.getD 0 0) : 0 ≤ f1e (x.getD 0 0) ∧ f1e (x.getD 0 0) ≤ 1 := by
  have h1 : Real.exp (-4 * x.getD 0 0) ≤ 1 := Real.exp_le_one_iff.mpr (by linarith)
  have h2 := Real.exp_pos (-4 * x.getD 0 0)
  have h3 : Real.sin (6 * Real.pi * x.getD 0 0) ^ 6 ≤ 1 := by
    rw [show (6 : ℕ) = 2 * 3 from rfl, pow_mul]
    exact pow_le_one₀ (sq_nonneg _) (Real.sin_sq_le_one _)
  have h4 : 0 ≤ Real.sin (6 * Real.pi * x.getD 0 0) ^ 6 := by positivity
  unfold f1e
  constructor <;> nlinarith

theorem zdt6_near : NearValues 1e-5 zdt6.fits zdt6.dims (Published.zdt6 10) := by
  intro x hx
  have h0 := box_getD (i := 0) hx (d := (0, 1)) rfl
  have hf := zdt6F_unit h0.1
  obtain ⟨h1, h2, h3⟩ := unit_sum (n := 10) hx (by norm_num)
  obtain ⟨q, hq, hq2, hlo, hhi⟩ := root_nine
  have hw : 0 ≤ x.tail.sum ^ (1 / 4 : ℝ) ∧ x.tail.sum ^ (1 / 4 : ℝ) ≤ q := by
    refine ⟨by positivity, ?_⟩
    rw [← hq]
    exact Real.rpow_le_rpow h2 (by norm_num at h3; exact h3) (by norm_num)
  have hG : zdt6G 10 (vars x) = 1 + 3 * q * x.tail.sum ^ (1 / 4 : ℝ) := by
    rw [zdt6G, ← h1, ← zdt6G_eq hq hq2 h2]
    norm_num
  have hg : 1 + 5.19615 * x.tail.sum ^ (0.25 : ℝ) = 1 + 5.19615 * x.tail.sum ^ (1 / 4 : ℝ) := by norm_num
  have hd : |1 + 5.19615 * x.tail.sum ^ (1 / 4 : ℝ) - (1 + 3 * q * x.tail.sum ^ (1 / 4 : ℝ))| ≤ 5e-6 := by
    rw [abs_le]
    norm_num at hlo hhi ⊢
    constructor <;> nlinarith
  have h4 := shape_sq_near (g := 1 + 5.19615 * x.tail.sum ^ (1 / 4 : ℝ))
    (g' := 1 + 3 * q * x.tail.sum ^ (1 / 4 : ℝ)) (by nlinarith) (by nlinarith) hf.1 hf.2
  refine .cons ?_ (.cons ?_ .nil)
  · change |f1e (x.getD 0 0) - f1e (x.getD 0 0)| ≤ _
    rw [sub_self, abs_zero]; norm_num
  · change |(1 + 5.19615 * x.tail.sum ^ (0.25 : ℝ)) * (1 - (f1e (x.getD 0 0) / (1 + 5.19615 * x.tail.sum ^ (0.25 : ℝ))) ^ 2)
      - zdt6G 10 (vars x) * (1 - (f1e (x.getD 0 0) / zdt6G 10 (vars x)) ^ 2)| ≤ _
    rw [hg, hG]
    refine h4.trans ?_
    norm_num at hd ⊢
    linarith

/-- The point at which the constant of ZDT6 has the greatest effect. -/
noncomputable def farPoint : List ℝ := 0 :: List.replicate 9 1

theorem C123_zdt6_violated : ¬ NearValues 4e-6 zdt6.fits zdt6.dims (Published.zdt6 10) := by
  intro h
  have hx : InBox farPoint zdt6.dims := by
    simp [farPoint, InBox, zdt6, emoaFitnesses, List.range, List.range.loop, List.replicate]
  have h1 := h farPoint hx
  obtain ⟨q, hq, hq2, hlo, hhi⟩ := root_nine
  have hs : farPoint.tail.sum = 9 := by simp [farPoint]; norm_num
  have hsum := (unit_sum (n := 10) hx (by norm_num)).1
  rw [hs] at hsum
  simp only [zdt6, emoaFitnesses, emoaFitness2, Published.zdt6, List.map_cons, List.map_nil, List.forall₂_cons] at h1
  have hF : zdt6F (vars farPoint) = 1 := by simp [zdt6F, vars, farPoint]
  have hf : f1e (farPoint.getD 0 0) = 1 := by simp [f1e, farPoint]
  have hG : zdt6G 10 (vars farPoint) = 10 := by
    rw [zdt6G, ← hsum]; norm_num
  have h2 := h1.2.1
  rw [hF, hf, hG, hs, show (0.25 : ℝ) = 1 / 4 by norm_num, hq, abs_le] at h2
  have hg : 1 + 5.19615 * q ≤ 10 - 4.1e-6 := by norm_num at hhi ⊢; nlinarith
  have hg1 : 1 ≤ 1 + 5.19615 * q := by nlinarith
  have e : (1 + 5.19615 * q) * (1 - (1 / (1 + 5.19615 * q)) ^ 2) = (1 + 5.19615 * q) - 1 / (1 + 5.19615 * q) := by
    field_simp
  have h3 : 1 / 10 ≤ 1 / (1 + 5.19615 * q) := by
    apply one_div_le_one_div_of_le <;> norm_num at hg ⊢ <;> linarith
  rw [e] at h2
  norm_num at h2 hg h3
  linarith

/-! ## UF8, UF9 and UF10 -/

theorem uf8Y_eq (x : List ℝ) : uf8Y x = sine2Y 30 (vars x) := by
  funext j
  simp [uf8Y, sine2Y, vars]

theorem mod_range {j : ℕ} : (j ∈ mod1 30 → 3 ≤ j ∧ j ≤ 30) ∧ (j ∈ mod2 30 → 3 ≤ j ∧ j ≤ 30) ∧
    (j ∈ mod3 30 → 3 ≤ j ∧ j ≤ 30) := by
  refine ⟨?_, ?_, ?_⟩ <;> intro h <;>
    simp only [mod1, mod2, mod3, List.mem_filter, List.mem_range'_1] at h <;> omega

theorem twiceMean_zero {J : Finset ℕ} {t : ℕ → ℝ} (h : ∀ j ∈ J, t j = 0) : twiceMean J t = 0 := by
  rw [twiceMean, Finset.sum_eq_zero h, mul_zero]

theorem third_range {r j : ℕ} (h : j ∈ thirdJ 30 r) : 3 ≤ j ∧ j ≤ 30 := by
  simpa [thirdJ] using (Finset.mem_filter.mp h).1

theorem base_zero {J : List ℕ} {t : ℕ → ℝ} (h : ∀ j ∈ J, t j = 0) : 2 * (J.map t).sum / (J.length : ℝ) = 0 := by
  rw [map_sum_zero J t h, mul_zero, zero_div]

/-- Where every `y_j` is 0 - which holds on the published Pareto sets - UF8, UF9 and UF10 have the published
values. -/
theorem C123_uf8_partial (x : List ℝ) (h : ∀ j, 3 ≤ j → j ≤ 30 → sine2Y 30 (vars x) j = 0) :
    uf8.fits.map (fun f => f x) = Published.uf8 30 (vars x) ∧
    uf9.fits.map (fun f => f x) = Published.uf9 30 0.1 (vars x) ∧
    uf10.fits.map (fun f => f x) = Published.uf10 30 (vars x) := by
  have h1 : ∀ r, twiceMean (thirdJ 30 r) (fun j => sine2Y 30 (vars x) j ^ 2) = 0 := fun r =>
    twiceMean_zero fun j hj => by rw [h j (third_range hj).1 (third_range hj).2]; norm_num
  have h2 : ∀ r, twiceMean (thirdJ 30 r) (fun j => 4 * sine2Y 30 (vars x) j ^ 2 -
      Real.cos (8 * Real.pi * sine2Y 30 (vars x) j) + 1) = 0 := fun r =>
    twiceMean_zero fun j hj => by rw [h j (third_range hj).1 (third_range hj).2]; norm_num
  have h3 : ∀ J ∈ [mod1 30, mod2 30, mod3 30], uf8Base x J = 0 ∧ uf10Base x J = 0 := by
    intro J hJ
    have : ∀ j ∈ J, 3 ≤ j ∧ j ≤ 30 := by
      intro j hj
      simp only [List.mem_cons, List.not_mem_nil, or_false] at hJ
      rcases hJ with rfl | rfl | rfl
      · exact mod_range.1 hj
      · exact mod_range.2.1 hj
      · exact mod_range.2.2 hj
    constructor
    · exact base_zero fun j hj => by rw [uf8Y_eq, h j (this j hj).1 (this j hj).2]; norm_num
    · exact base_zero fun j hj => by rw [uf8Y_eq, h j (this j hj).1 (this j hj).2]; norm_num
  refine ⟨?_, ?_, ?_⟩
  · simp only [uf8, Published.uf8, Published.uf8On, h1, List.map_cons, List.map_nil, (h3 (mod1 30) (by simp)).1,
      (h3 (mod2 30) (by simp)).1, (h3 (mod3 30) (by simp)).1, vars]
  · simp only [uf9, uf9Hump, Published.uf9, Published.uf9On, h1, List.map_cons, List.map_nil, (h3 (mod1 30) (by simp)).1,
      (h3 (mod2 30) (by simp)).1, (h3 (mod3 30) (by simp)).1, vars]
  · simp only [uf10, Published.uf10, Published.uf10On, h2, List.map_cons, List.map_nil, (h3 (mod1 30) (by simp)).2,
      (h3 (mod2 30) (by simp)).2, (h3 (mod3 30) (by simp)).2, vars]

/-- The indices of UF8 to UF10 that are not in the published set. -/
def otherJ (r : ℕ) : Finset ℕ := Finset.Icc 3 30 \ thirdJ 30 r

theorem base_other {J : List ℕ} {r : ℕ} (hn : J.Nodup) (h : J.toFinset = otherJ r) (t : ℕ → ℝ) :
    2 * (J.map t).sum / (J.length : ℝ) = twiceMean (otherJ r) t := by
  rw [twiceMean, ← h, List.sum_toFinset t hn, List.toFinset_card_of_nodup hn]
  ring

/-- UF8, UF9 and UF10 are the published problems with each set of indices replaced by its complement. -/
theorem C123_uf8_complement (x : List ℝ) :
    uf8.fits.map (fun f => f x) = Published.uf8On (fun r => Finset.Icc 3 30 \ thirdJ 30 r) 30 (vars x) ∧
    uf9.fits.map (fun f => f x) = Published.uf9On (fun r => Finset.Icc 3 30 \ thirdJ 30 r) 30 0.1 (vars x) ∧
    uf10.fits.map (fun f => f x) = Published.uf10On (fun r => Finset.Icc 3 30 \ thirdJ 30 r) 30 (vars x) := by
  have e1 := base_other (J := mod1 30) (r := 1) (by decide) (by decide)
  have e2 := base_other (J := mod2 30) (r := 2) (by decide) (by decide)
  have e3 := base_other (J := mod3 30) (r := 0) (by decide) (by decide)
  refine ⟨?_, ?_, ?_⟩
  · simp only [uf8, Published.uf8On, List.map_cons, List.map_nil, uf8Base, e1, e2, e3, uf8Y_eq, vars, otherJ]
  · simp only [uf9, uf9Hump, Published.uf9On, List.map_cons, List.map_nil, uf8Base, e1, e2, e3, uf8Y_eq, vars, otherJ]
  · simp only [uf10, Published.uf10On, List.map_cons, List.map_nil, uf10Base, e1, e2, e3, uf8Y_eq, vars, otherJ]

/-- Only the fourth variable is not 0. -/
noncomputable def fourth : List ℝ := [0, 0, 0, 1] ++ List.replicate 26 0

theorem vars_fourth {j : ℕ} (h : 1 ≤ j) : vars fourth j = if j = 4 then 1 else 0 := by
  by_cases h4 : j ≤ 4
  · interval_cases j <;> simp [vars, fourth]
  · rw [if_neg (by omega), vars, fourth, List.getD_eq_getElem?_getD, List.getElem?_append_right (by simp; omega),
      List.getElem?_replicate]
    split_ifs <;> rfl

theorem fourth_y {j : ℕ} (h : 1 ≤ j) : sine2Y 30 (vars fourth) j = if j = 4 then 1 else 0 := by
  rw [sine2Y, vars_fourth h, vars_fourth (by norm_num)]
  norm_num

theorem third_one : thirdJ 30 1 = {4, 7, 10, 13, 16, 19, 22, 25, 28} := by decide

theorem fourth_mean (h : ℝ → ℝ) (h0 : h 0 = 0) :
    twiceMean (thirdJ 30 1) (fun j => h (sine2Y 30 (vars fourth) j)) = 2 / 9 * h 1 := by
  have e : ∀ j ∈ thirdJ 30 1, h (sine2Y 30 (vars fourth) j) = if j = 4 then h 1 else 0 := by
    intro j hj
    rw [fourth_y (by have := third_range hj; omega)]
    split_ifs
    · rfl
    · exact h0
  rw [twiceMean, Finset.sum_congr rfl e, Finset.sum_ite_eq', third_one]
  norm_num

theorem fourth_inBox : InBox fourth (List.replicate 2 ((0 : ℝ), (1 : ℝ)) ++ List.replicate (30 - 2) (-2, 2)) := by
  simp [fourth, InBox, List.replicate]
  norm_num

theorem fourth_base : uf8Base fourth (mod1 30) = 0 ∧ uf10Base fourth (mod1 30) = 0 := by
  have e : ∀ j ∈ mod1 30, sine2Y 30 (vars fourth) j = 0 := by
    intro j hj
    rw [fourth_y (by have := mod_range.1 hj; omega), if_neg]
    rintro rfl
    exact absurd hj (by decide)
  exact ⟨base_zero fun j hj => by rw [uf8Y_eq, e j hj]; norm_num,
    base_zero fun j hj => by rw [uf8Y_eq, e j hj]; norm_num⟩

theorem C123_uf8_violated : ¬ SameValues uf8.fits uf8.dims (Published.uf8 30) := by
  intro h
  have h1 := congrArg List.head? (h fourth fourth_inBox)
  simp only [uf8, Published.uf8, Published.uf8On, List.map_cons, List.head?_cons, Option.some.injEq, fourth_base.1,
    fourth_mean (fun t => t ^ 2) (by norm_num)] at h1
  simp only [vars] at h1
  norm_num at h1

theorem C123_uf9_violated : ¬ SameValues uf9.fits uf9.dims (Published.uf9 30 0.1) := by
  intro h
  have h1 := congrArg List.head? (h fourth fourth_inBox)
  simp only [uf9, uf9Hump, Published.uf9, Published.uf9On, List.map_cons, List.head?_cons, Option.some.injEq, fourth_base.1,
    fourth_mean (fun t => t ^ 2) (by norm_num)] at h1
  simp only [vars] at h1
  norm_num at h1

theorem C123_uf10_violated : ¬ SameValues uf10.fits uf10.dims (Published.uf10 30) := by
  intro h
  have h1 := congrArg List.head? (h fourth fourth_inBox)
  have h8 : Real.cos (8 * Real.pi * 1) = 1 := by
    rw [show 8 * Real.pi * 1 = ((4 : ℕ) : ℝ) * (2 * Real.pi) by push_cast; ring, Real.cos_nat_mul_two_pi]
  simp only [uf10, Published.uf10, Published.uf10On, List.map_cons, List.head?_cons, Option.some.injEq, fourth_base.2,
    fourth_mean (fun t => 4 * t ^ 2 - Real.cos (8 * Real.pi * t) + 1) (by norm_num), h8] at h1
  simp only [vars] at h1
  norm_num at h1

/-! ## UF5 and UF6 -/

theorem C123_uf5_violated (box : ℕ → ℝ × ℝ) : ¬ SameBox uf5.dims 30 box := fun h => by
  have := h.1
  simp [uf5] at this

/-- The first variable is 1/8, the others are 0. -/
noncomputable def eighth : List ℝ := 1 / 8 :: List.replicate 29 0

theorem C123_uf6_violated : ¬ SameValues uf6.fits uf6.dims (Published.uf6 30 2 0.1) := by
  intro h
  have hx : InBox eighth uf6.dims := by
    simp [eighth, InBox, uf6, List.replicate]
    norm_num
  have h1 := (uf6_thirty eighth hx).symm.trans (h eighth hx)
  have h2 := congrArg List.head? h1
  simp only [Published.uf6, List.head?_cons, Option.some.injEq] at h2
  have hv : vars eighth 1 = 1 / 8 := by simp [vars, eighth]
  have e1 : Real.sin (2 * (30 : ℕ) * Real.pi * (1 / 8)) = -1 := by
    rw [show 2 * ((30 : ℕ) : ℝ) * Real.pi * (1 / 8) = -(Real.pi / 2) + ((4 : ℕ) : ℝ) * (2 * Real.pi) by push_cast; ring,
      Real.sin_add_nat_mul_two_pi, Real.sin_neg, Real.sin_pi_div_two]
  have e2 : Real.sin (2 * (2 : ℕ) * Real.pi * (1 / 8)) = 1 := by
    rw [show 2 * ((2 : ℕ) : ℝ) * Real.pi * (1 / 8) = Real.pi / 2 by push_cast; ring, Real.sin_pi_div_two]
  rw [hv, e1, e2] at h2
  rw [max_eq_left (by norm_num), max_eq_right (by norm_num)] at h2
  have h3 := add_right_cancel h2
  norm_num at h3

/-! ## The boxes -/

theorem C123_boxes (tk : List (List ℝ)) :
    (∀ p ∈ [zdt1, zdt2, zdt3, uf3], SameBox p.dims 30 unitBox) ∧ SameBox zdt6.dims 10 unitBox ∧
    SameBox zdt4.dims 10 (mixedBox 1 5) ∧ (∀ p ∈ [uf1, uf2, uf6, uf7], SameBox p.dims 30 (mixedBox 1 1)) ∧
    SameBox uf4.dims 30 (mixedBox 1 2) ∧ (∀ p ∈ [uf8, uf9, uf10], SameBox p.dims 30 (mixedBox 2 2)) ∧
    SameBox (kursawe tk).dims 3 (mixedBox 0 5) ∧ SameBox uf5.dims 10 (mixedBox 1 1) := by
  have key : ∀ (d : List (ℝ × ℝ)) (n : ℕ) (box : ℕ → ℝ × ℝ), d = (List.range' 1 n).map box → SameBox d n box := by
    rintro d n box rfl
    refine ⟨by simp, fun i h1 h2 => ?_⟩
    rw [List.getElem?_map, List.getElem?_eq_getElem (by simp; omega)]
    simp only [List.getElem_range', Option.map_some]
    congr 2
    omega
  refine ⟨?_, ?_, ?_, ?_, ?_, ?_, ?_, ?_⟩
  · intro p hp
    simp only [List.mem_cons, List.not_mem_nil, or_false] at hp
    apply key
    rcases hp with rfl | rfl | rfl | rfl <;>
      simp [zdt1, zdt2, zdt3, uf3, emoaFitnesses, List.range, List.range.loop, List.range', List.replicate, unitBox]
  · apply key
    simp [zdt6, emoaFitnesses, List.range, List.range.loop, List.range', unitBox]
  · apply key
    simp [zdt4, emoaFitnesses2, List.range, List.range.loop, List.range', mixedBox]
  · intro p hp
    simp only [List.mem_cons, List.not_mem_nil, or_false] at hp
    apply key
    rcases hp with rfl | rfl | rfl | rfl <;>
      simp [uf1, uf2, uf6, uf7, List.range', List.replicate, mixedBox]
  · apply key
    simp [uf4, List.range', List.replicate, mixedBox]
  · intro p hp
    simp only [List.mem_cons, List.not_mem_nil, or_false] at hp
    apply key
    rcases hp with rfl | rfl | rfl <;> simp [uf8, uf9, uf10, List.range', List.replicate, mixedBox]
  · apply key
    simp [kursawe, List.range', mixedBox]
  · apply key
    simp [uf5, List.range', List.replicate, mixedBox]

/-! ## Summary -/

/-- UF1-4, UF7, ZDT4, kursawe and ackley have the published values in the whole box; ZDT1-3 differ by at most
`2e-16` and ZDT6 by at most `1e-5` from them; UF5 is the published problem with 10 instead of 30 variables, and
UF6 the one with `N = 30` instead of `N = 2`. -/
theorem C123_published_partial (tk : List (List ℝ)) :
    SameValues uf1.fits uf1.dims (Published.uf1 30) ∧ SameValues uf2.fits uf2.dims (Published.uf2 30) ∧
    SameValues uf3.fits uf3.dims (Published.uf3 30) ∧ SameValues uf4.fits uf4.dims (Published.uf4 30) ∧
    SameValues uf7.fits uf7.dims (Published.uf7 30) ∧ SameValues zdt4.fits zdt4.dims (Published.zdt4 10) ∧
    SameValues (kursawe tk).fits (kursawe tk).dims (Published.kursawe 3) ∧
    (∀ f ∈ ackley.fits, ∀ x, f x = Published.ackley (vars x)) ∧
    NearValues 2e-16 zdt1.fits zdt1.dims (Published.zdt1 30) ∧
    NearValues 2e-16 zdt2.fits zdt2.dims (Published.zdt2 30) ∧
    NearValues 2e-16 zdt3.fits zdt3.dims (Published.zdt3 30) ∧
    NearValues 1e-5 zdt6.fits zdt6.dims (Published.zdt6 10) ∧
    SameValues uf5.fits uf5.dims (Published.uf5 10 10 0.1) ∧
    SameValues uf6.fits uf6.dims (Published.uf6 30 30 0.1) :=
  ⟨uf1_published, uf2_published, uf3_published, uf4_published, uf7_published, zdt4_published, kursawe_published tk,
    ackley_published, zdt1_near, zdt2_near, zdt3_near, zdt6_near, uf5_ten, uf6_thirty⟩

/-- UF1 at (0, ..., 0, 1) with 1 as the thirtieth variable: 30 is even, so it enters the second objective. -/
example : (uf1.fits.map fun f => f (List.replicate 29 0 ++ [1])) =
    Published.uf1 30 (vars (List.replicate 29 0 ++ [1])) :=
  uf1_published _ (by simp [InBox, uf1, List.replicate])

example : zdt4.fits.map (fun f => f (1 :: List.replicate 9 0)) = [1, 0] := by
  rw [zdt4_published _ (by simp [InBox, zdt4, emoaFitnesses2, List.range, List.range.loop, List.replicate])]
  have hs : zdt4G 10 (vars (1 :: List.replicate 9 0)) = 1 := by
    have : ∑ i ∈ Finset.Icc 2 10, (vars (1 :: List.replicate 9 0) i ^ 2 -
        10 * Real.cos (4 * Real.pi * vars (1 :: List.replicate 9 0) i)) = ∑ i ∈ Finset.Icc 2 10, (-10 : ℝ) := by
      refine Finset.sum_congr rfl fun i hi => ?_
      have hi' := Finset.mem_Icc.mp hi
      have : vars (1 :: List.replicate 9 0) i = 0 := by
        obtain ⟨k, rfl⟩ : ∃ k, i = k + 2 := ⟨i - 2, by omega⟩
        rw [vars, show k + 2 - 1 = k + 1 by omega, List.getD_cons_succ, List.getD_eq_getElem?_getD,
          List.getElem?_replicate]
        split_ifs <;> rfl
      rw [this]
      norm_num
    rw [zdt4G, this]
    norm_num
  rw [Published.zdt4, hs]
  norm_num [vars]

end Evogil.Problems
