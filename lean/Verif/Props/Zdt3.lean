import Verif.Props.Problems
import Mathlib.Analysis.SpecialFunctions.Trigonometric.Bounds
import Mathlib.Analysis.Real.Pi.Bounds

/-!
# C56 for ZDT3

The reference front of ZDT3 is chosen among 300 samples of a curve. The sample at 25/299 is better than
all samples to the left of it, so it is kept, but it lies just behind a local minimum of the curve:
decision vectors between the samples dominate it.
-/

namespace Evogil.Problems
open Spec

/-- What is subtracted in `zdt3Curve`. -/
noncomputable def zh (x : ℝ) : ℝ := Real.sqrt x + x * Real.sin (10 * Real.pi * x)

theorem curve_eq (x : ℝ) : zdt3Curve x = 1 - zh x := by unfold zdt3Curve zh; ring

theorem theta_bounds : 0.51484 ≤ 49 * Real.pi / 299 ∧ 49 * Real.pi / 299 ≤ 0.51485 := by
  have := Real.pi_gt_d6
  have := Real.pi_lt_d6
  constructor
  · rw [le_div_iff₀ (by norm_num)]; linarith
  · rw [div_le_iff₀ (by norm_num)]; linarith

theorem delta_bounds : 0.10506 ≤ 10 * Real.pi / 299 ∧ 10 * Real.pi / 299 ≤ 0.10508 := by
  have := Real.pi_gt_d6
  have := Real.pi_lt_d6
  constructor
  · rw [le_div_iff₀ (by norm_num)]; linarith
  · rw [div_le_iff₀ (by norm_num)]; linarith

theorem cos_upper {x hi lo : ℝ} (h0 : 0 ≤ lo) (h1 : lo ≤ x) (h2 : x ≤ hi) (h3 : hi ≤ 1) :
    Real.cos x ≤ 1 - lo ^ 2 / 2 + hi ^ 4 * (5 / 96) := by
  have hx : |x| ≤ 1 := by rw [abs_of_nonneg (h0.trans h1)]; linarith
  have := (abs_le.1 (Real.cos_bound hx)).2
  rw [abs_of_nonneg (h0.trans h1)] at this
  have e1 : lo ^ 2 ≤ x ^ 2 := pow_le_pow_left₀ h0 h1 2
  have e2 : x ^ 4 ≤ hi ^ 4 := pow_le_pow_left₀ (h0.trans h1) h2 4
  linarith

theorem cos_lower {x hi lo : ℝ} (h0 : 0 ≤ lo) (h1 : lo ≤ x) (h2 : x ≤ hi) (h3 : hi ≤ 1) :
    1 - hi ^ 2 / 2 - hi ^ 4 * (5 / 96) ≤ Real.cos x := by
  have hx : |x| ≤ 1 := by rw [abs_of_nonneg (h0.trans h1)]; linarith
  have := (abs_le.1 (Real.cos_bound hx)).1
  rw [abs_of_nonneg (h0.trans h1)] at this
  have e1 : x ^ 2 ≤ hi ^ 2 := pow_le_pow_left₀ (h0.trans h1) h2 2
  have e2 : x ^ 4 ≤ hi ^ 4 := pow_le_pow_left₀ (h0.trans h1) h2 4
  linarith

theorem sin_lower {x hi lo : ℝ} (h0 : 0 < lo) (h1 : lo ≤ x) (h2 : x ≤ hi) :
    lo - hi ^ 3 / 6 ≤ Real.sin x := by
  have := Real.sin_gt_sub_cube (h0.trans_le h1)
  have e1 : x ^ 3 ≤ hi ^ 3 := pow_le_pow_left₀ (h0.le.trans h1) h2 3
  linarith

theorem sin_upper {x hi lo : ℝ} (h0 : 0 ≤ lo) (h1 : lo ≤ x) (h2 : x ≤ hi) (h3 : hi ≤ 1) :
    Real.sin x ≤ hi - lo ^ 3 / 6 + hi ^ 5 / 100 := by
  have hx : |x| ≤ 1 := by rw [abs_of_nonneg (h0.trans h1)]; linarith
  have := (abs_le.1 (Real.sin_bound hx)).2
  rw [abs_of_nonneg (h0.trans h1)] at this
  have e1 : lo ^ 3 ≤ x ^ 3 := pow_le_pow_left₀ h0 h1 3
  have e2 : x ^ 5 ≤ hi ^ 5 := pow_le_pow_left₀ (h0.trans h1) h2 5
  linarith

theorem sqrt_sub {x y : ℝ} (hx : 0 < x) (hy : 0 ≤ y) :
    Real.sqrt x - Real.sqrt y = (x - y) / (Real.sqrt x + Real.sqrt y) := by
  have h1 := Real.sqrt_pos.2 hx
  have h2 := Real.sqrt_nonneg y
  rw [eq_div_iff (by linarith)]
  have e1 := Real.mul_self_sqrt hx.le
  have e2 := Real.mul_self_sqrt hy
  linarith

theorem sin25 : Real.sin (10 * Real.pi * (25 / 299)) = Real.sin (49 * Real.pi / 299) := by
  rw [← Real.sin_pi_sub]
  congr 1
  ring

theorem sin24 : Real.sin (10 * Real.pi * (24 / 299)) =
    Real.sin (49 * Real.pi / 299) * Real.cos (10 * Real.pi / 299) +
      Real.cos (49 * Real.pi / 299) * Real.sin (10 * Real.pi / 299) := by
  rw [← Real.sin_add, ← Real.sin_pi_sub]
  congr 1
  ring

theorem zh_24_lt_25 : zh (24 / 299) < zh (25 / 299) := by
  unfold zh
  rw [sin24, sin25]
  obtain ⟨t1, t2⟩ := theta_bounds
  obtain ⟨d1, d2⟩ := delta_bounds
  have hs := sin_lower (by norm_num) t1 t2
  have hc := cos_upper (by norm_num) t1 t2 (by norm_num)
  have hc0 := cos_lower (by norm_num) t1 t2 (by norm_num)
  have hcd := cos_upper (by norm_num) d1 d2 (by norm_num)
  have hsd : Real.sin (10 * Real.pi / 299) ≤ 0.10508 := (Real.sin_le (by linarith)).trans d2
  have hsd0 := sin_lower (by norm_num) d1 d2
  generalize Real.sin (49 * Real.pi / 299) = s at *
  generalize Real.cos (49 * Real.pi / 299) = c at *
  generalize Real.sin (10 * Real.pi / 299) = sd at *
  generalize Real.cos (10 * Real.pi / 299) = cd at *
  have q := sqrt_sub (x := 25 / 299) (y := 24 / 299) (by norm_num) (by norm_num)
  have r1 : Real.sqrt (25 / 299) ≤ 0.28917 := (Real.sqrt_le_left (by norm_num)).2 (by norm_num)
  have r2 : Real.sqrt (24 / 299) ≤ 0.28333 := (Real.sqrt_le_left (by norm_num)).2 (by norm_num)
  have r3 : 0 < Real.sqrt (25 / 299) := Real.sqrt_pos.2 (by norm_num)
  have r4 : 0 ≤ Real.sqrt (24 / 299) := Real.sqrt_nonneg _
  have q1 : (0.00584 : ℝ) ≤ Real.sqrt (25 / 299) - Real.sqrt (24 / 299) := by
    rw [q, le_div_iff₀ (by linarith)]
    norm_num at r1 r2 ⊢
    linarith
  have hs1 : (0.4920 : ℝ) ≤ s := by norm_num at hs ⊢; linarith
  have hc1 : c ≤ 0.87115 := by norm_num at hc ⊢; linarith
  have hc2 : 0 ≤ c := by norm_num at hc0; linarith
  have hcd1 : cd ≤ 0.99450 := by norm_num at hcd ⊢; linarith
  have e1 : s * cd ≤ s * 0.99450 := mul_le_mul_of_nonneg_left hcd1 (by linarith)
  have e2 : c * sd ≤ 0.87115 * 0.10508 := mul_le_mul hc1 hsd (by norm_num at hsd0; linarith) (by norm_num)
  norm_num at *
  linarith

/-- Among the samples up to number 24 the last one is lowest. -/
theorem zh_le_24 {x : ℝ} (h0 : 0 ≤ x) (h1 : x ≤ 24 / 299) : zh x ≤ zh (24 / 299) := by
  rcases eq_or_lt_of_le h1 with rfl | hlt
  · exact le_rfl
  have hpi := Real.pi_gt_d6
  have hpi' := Real.pi_lt_d6
  have v1 : (0.6199 : ℝ) ≤ 59 * Real.pi / 299 := by rw [le_div_iff₀ (by norm_num)]; linarith
  have v2 : 59 * Real.pi / 299 ≤ 0.6200 := by rw [div_le_iff₀ (by norm_num)]; linarith
  have hsb : Real.sin (10 * Real.pi * (24 / 299)) = Real.sin (59 * Real.pi / 299) := by
    rw [← Real.sin_pi_sub]
    congr 1
    ring
  have hcb : Real.cos (10 * Real.pi * (24 / 299)) = - Real.cos (59 * Real.pi / 299) := by
    rw [← Real.cos_pi_sub]
    congr 1
    ring
  have hs := sin_lower (by norm_num) v1 v2
  have hc := cos_upper (by norm_num) v1 v2 (by norm_num)
  have r2 : Real.sqrt (24 / 299) ≤ 0.28334 := (Real.sqrt_le_left (by norm_num)).2 (by norm_num)
  have r1 : Real.sqrt x ≤ 0.28334 := (Real.sqrt_le_sqrt h1).trans r2
  have r3 : 0 < Real.sqrt (24 / 299) := Real.sqrt_pos.2 (by norm_num)
  have r4 : 0 ≤ Real.sqrt x := Real.sqrt_nonneg _
  have q := sqrt_sub (x := 24 / 299) (y := x) (by norm_num) h0
  have hd : 0 < 24 / 299 - x := by linarith
  have q1 : (24 / 299 - x) * 1.76 ≤ Real.sqrt (24 / 299) - Real.sqrt x := by
    rw [q, le_div_iff₀ (by linarith), mul_assoc]
    refine mul_le_of_le_one_right hd.le ?_
    norm_num at r1 r2 ⊢
    linarith
  -- the difference of the sines
  have hdiff := Real.sin_sub_sin (10 * Real.pi * (24 / 299)) (10 * Real.pi * x)
  have hcos : -0.82 ≤ Real.cos ((10 * Real.pi * (24 / 299) + 10 * Real.pi * x) / 2) := by
    have hle : Real.cos (10 * Real.pi * (24 / 299)) ≤
        Real.cos ((10 * Real.pi * (24 / 299) + 10 * Real.pi * x) / 2) := by
      refine Real.cos_le_cos_of_nonneg_of_le_pi ?_ ?_ ?_
      · positivity
      · nlinarith
      · nlinarith
    rw [hcb] at hle
    norm_num at hc ⊢
    linarith
  have hη0 : 0 ≤ (10 * Real.pi * (24 / 299) - 10 * Real.pi * x) / 2 := by nlinarith
  have hη1 : Real.sin ((10 * Real.pi * (24 / 299) - 10 * Real.pi * x) / 2) ≤
      (10 * Real.pi * (24 / 299) - 10 * Real.pi * x) / 2 := Real.sin_le hη0
  have hη2 : 0 ≤ Real.sin ((10 * Real.pi * (24 / 299) - 10 * Real.pi * x) / 2) :=
    Real.sin_nonneg_of_nonneg_of_le_pi hη0 (by nlinarith)
  have hprod : -(0.82 * (10 * Real.pi * (24 / 299 - x))) ≤
      Real.sin (10 * Real.pi * (24 / 299)) - Real.sin (10 * Real.pi * x) := by
    rw [hdiff]
    generalize Real.sin ((10 * Real.pi * (24 / 299) - 10 * Real.pi * x) / 2) = a at *
    generalize Real.cos ((10 * Real.pi * (24 / 299) + 10 * Real.pi * x) / 2) = b at *
    nlinarith
  have hsin : (0.57 : ℝ) ≤ Real.sin (10 * Real.pi * (24 / 299)) := by
    rw [hsb]; norm_num at hs ⊢; linarith
  have hxp : x * (0.82 * (10 * Real.pi * (24 / 299 - x))) ≤ 2.1 * (24 / 299 - x) := by
    have : x * (0.82 * (10 * Real.pi)) ≤ 2.1 := by
      have : x * (0.82 * (10 * Real.pi)) ≤ 24 / 299 * (0.82 * (10 * 3.141593)) :=
        mul_le_mul h1 (by linarith) (by positivity) (by norm_num)
      norm_num at this ⊢
      linarith
    nlinarith
  unfold zh
  generalize Real.sin (10 * Real.pi * (24 / 299)) = sy at *
  generalize Real.sin (10 * Real.pi * x) = sx at *
  have m1 := mul_le_mul_of_nonneg_left hprod h0
  have m2 := mul_le_mul_of_nonneg_left hsin hd.le
  norm_num at *
  nlinarith

/-- A decision value between two samples is better than sample 25. -/
theorem zh_better : zh (25 / 299) < zh 0.0832 := by
  have hpi := Real.pi_gt_d6
  have hpi' := Real.pi_lt_d6
  obtain ⟨t1, t2⟩ := theta_bounds
  have hdiff := Real.sin_sub_sin (10 * Real.pi * (25 / 299)) (10 * Real.pi * 0.0832)
  have hη : (10 * Real.pi * (25 / 299) - 10 * Real.pi * 0.0832) / 2 =
      Real.pi * (1.54 / 747.5) := by ring
  have hφ : (10 * Real.pi * (25 / 299) + 10 * Real.pi * 0.0832) / 2 =
      Real.pi - (49 * Real.pi / 299 + Real.pi * (1.54 / 747.5)) := by ring
  have n1 : (0.00647 : ℝ) ≤ Real.pi * (1.54 / 747.5) := by norm_num; linarith
  have n2 : Real.pi * (1.54 / 747.5) ≤ 0.00648 := by norm_num; linarith
  have hsη := sin_lower (by norm_num) n1 n2
  have hcψ := cos_lower (x := 49 * Real.pi / 299 + Real.pi * (1.54 / 747.5)) (lo := 0.5) (hi := 0.52134)
    (by norm_num) (by norm_num at *; linarith) (by norm_num at *; linarith) (by norm_num)
  have hs := sin_upper (by norm_num) t1 t2 (by norm_num)
  rw [hη, hφ, Real.cos_pi_sub] at hdiff
  rw [sin25] at hdiff
  have r1 : 0.2891 ≤ Real.sqrt (25 / 299) := (Real.le_sqrt' (by norm_num)).2 (by norm_num)
  have r2 : 0.2884 ≤ Real.sqrt 0.0832 := (Real.le_sqrt' (by norm_num)).2 (by norm_num)
  have q := sqrt_sub (x := 25 / 299) (y := 0.0832) (by norm_num) (by norm_num)
  have q1 : Real.sqrt (25 / 299) - Real.sqrt 0.0832 ≤ (25 / 299 - 0.0832) * 1.732 := by
    rw [q, div_le_iff₀ (by linarith), mul_assoc]
    refine le_mul_of_one_le_right (by norm_num) ?_
    norm_num at r1 r2 ⊢
    linarith
  unfold zh
  rw [sin25]
  generalize Real.sin (49 * Real.pi / 299) = sb at *
  generalize Real.sin (10 * Real.pi * 0.0832) = sa at *
  generalize Real.sin (Real.pi * (1.54 / 747.5)) = sn at *
  generalize Real.cos (49 * Real.pi / 299 + Real.pi * (1.54 / 747.5)) = cp at *
  have p1 : (0.00646 : ℝ) ≤ sn := by norm_num at hsη ⊢; linarith
  have p2 : (0.86 : ℝ) ≤ cp := by norm_num at hcψ ⊢; linarith
  have p3 : sb ≤ 0.4930 := by norm_num at hs ⊢; linarith
  have p4 : (0.00646 : ℝ) * 0.86 ≤ sn * cp := mul_le_mul p1 p2 (by norm_num) (by linarith)
  norm_num at *
  linarith

/-- C56 fails for ZDT3: sample 25 is kept in the reference front, but it is dominated by a decision
vector of the box. -/
theorem C56_zdt3_violated : ∃ y ∈ zdt3.front, ¬ Undominated zdt3.fits zdt3.dims y := by
  have hget : ∀ i < 300, ((emoaPoints 300).map zdt3Curve).getD i 0 = zdt3Curve ((i : ℝ) / 299) := by
    intro i hi
    rw [List.getD_eq_getElem?_getD, List.getElem?_map]
    unfold emoaPoints
    rw [List.getElem?_map, List.getElem?_range hi]
    norm_num
  have hgetx : ∀ i < 300, (emoaPoints 300).getD i 0 = (i : ℝ) / 299 := by
    intro i hi
    rw [List.getD_eq_getElem?_getD]
    unfold emoaPoints
    rw [List.getElem?_map, List.getElem?_range hi]
    norm_num
  have hl : ((emoaPoints 300).map zdt3Curve).length = 300 := by simp [emoaPoints]
  have h25 : zdt3Curve (25 / 299) < zdt3Curve (24 / 299) := by
    rw [curve_eq, curve_eq]; linarith [zh_24_lt_25]
  refine ⟨[25 / 299, zdt3Curve (25 / 299)], ?_, ?_⟩
  · unfold zdt3 trimDominated
    dsimp only
    refine List.mem_filter.2 ⟨?_, ?_⟩
    · unfold emoaFitnesses zdt3Known zdt3Keep
      dsimp only
      rw [zipWith_map_map]
      refine List.mem_map.2 ⟨25, List.mem_filter.2 ⟨List.mem_range.2 (by rw [hl]; norm_num), ?_⟩, ?_⟩
      · unfold zdt3Remove
        rw [hget 25 (by norm_num), hget (25 - 1) (by norm_num)]
        norm_num
        exact h25
      · rw [hget 25 (by norm_num), hgetx 25 (by norm_num)]
        norm_num
    · unfold isNonDominated
      rw [List.all_eq_true]
      intro y hy
      unfold emoaFitnesses zdt3Known zdt3Keep at hy
      dsimp only at hy
      rw [zipWith_map_map] at hy
      obtain ⟨j, hj, rfl⟩ := List.mem_map.1 hy
      have hj := List.mem_range.1 (List.mem_filter.1 hj).1
      rw [hl] at hj
      rw [hget j hj, hgetx j hj, Bool.not_eq_true', ← Bool.not_eq_true, dominates_iff_LDom (by simp)]
      refine not_ldom_two fun l1 l2 => ?_
      have hj25 : j ≤ 25 := by
        rw [div_le_div_iff_of_pos_right (by norm_num)] at l1
        exact_mod_cast l1
      rcases Nat.lt_or_ge j 25 with h | h
      · exfalso
        have h24 : (j : ℝ) / 299 ≤ 24 / 299 := by
          rw [div_le_div_iff_of_pos_right (by norm_num)]
          have : j ≤ 24 := by omega
          exact_mod_cast this
        have := zh_le_24 (x := (j : ℝ) / 299) (by positivity) h24
        rw [curve_eq, curve_eq] at l2
        linarith [zh_24_lt_25]
      · obtain rfl : j = 25 := by omega
        norm_num
  · intro h
    refine h (0.0832 :: List.replicate 29 0) ?_ ?_
    · show InBox _ ((List.range 30).map fun _ => ((0 : ℝ), (1 : ℝ)))
      rw [unit_dims]
      exact List.Forall₂.cons (by norm_num) (replicate_inBox 29 0 (0, 1) ⟨le_rfl, zero_le_one⟩)
    · have e : zdt3.fits.map (fun f => f (0.0832 :: List.replicate 29 0)) =
          [0.0832, zdt3Curve 0.0832] := by
        simp only [zdt3, emoaFitnesses, emoaFitness2, List.map_cons, List.map_nil,
          List.getD_cons_zero, List.tail_cons, List.sum_replicate, smul_zero, mul_zero, add_zero,
          div_one, one_mul, zdt3Curve, abs_of_nonneg (show (0 : ℝ) ≤ 0.0832 by norm_num)]
      rw [e]
      have hlt : zdt3Curve 0.0832 < zdt3Curve (25 / 299) := by
        rw [curve_eq, curve_eq]; linarith [zh_better]
      refine ⟨rfl, ?_, 1, by simp, by simp, by simpa using hlt⟩
      intro i hi _
      have : i = 0 ∨ i = 1 := by simp at hi; omega
      rcases this with rfl | rfl
      · simp only [List.getElem_cons_zero]; norm_num
      · exact hlt.le

end Evogil.Problems
