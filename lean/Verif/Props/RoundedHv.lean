import Verif.Lemmas.RoundedHv
import Verif.Props.HyperVolumeUse
import Verif.Props.Rounded

/-! # C127, C128: the hypervolume in floating point -/

set_option linter.unusedSectionVars false

namespace Evogil.Rounded

open Spec Hv Binary64 MeasureTheory
open scoped Pointwise

/-! ## The shifted points -/

section grid

variable {K : Type*} [Field K] [LinearOrder K] [IsStrictOrderedRing K] [FloorRing K]

theorem grid_of_float {x : K} (h : IsFloat x) (hx : 1 / 2 ≤ |x|) : OnGrid 53 x := by
  obtain ⟨m, e, hm, -, rfl⟩ := h
  have h2 : (0 : K) < 2 := by norm_num
  have he : -53 ≤ e := by
    by_contra hlt
    have h1 : (2 : K) ^ e ≤ 2 ^ (-54 : ℤ) := zpow_le_zpow_right₀ (by norm_num) (by omega)
    have h3 : |(m : K)| < 2 ^ 53 := by
      have : ((|m| : ℤ) : K) < ((2 ^ 53 : ℤ) : K) := Int.cast_lt.2 hm
      rw [Int.cast_abs] at this
      push_cast at this
      norm_num
      exact this
    rw [abs_mul, abs_of_pos (zpow_pos h2 e)] at hx
    have h4 : |(m : K)| * 2 ^ e ≤ |(m : K)| * 2 ^ (-54 : ℤ) := mul_le_mul_of_nonneg_left h1 (abs_nonneg _)
    have h5 : |(m : K)| * 2 ^ (-54 : ℤ) < 2 ^ 53 * 2 ^ (-54 : ℤ) := mul_lt_mul_of_pos_right h3 (zpow_pos h2 _)
    have h6 : (2 : K) ^ 53 * 2 ^ (-54 : ℤ) = 1 / 2 := by norm_num
    exact absurd hx (not_le.2 ((h4.trans_lt h5).trans_eq h6))
  obtain ⟨k, rfl⟩ : ∃ k : ℕ, e = (k : ℤ) - 53 := ⟨(e + 53).toNat, by omega⟩
  refine ⟨m * 2 ^ k, ?_⟩
  rw [zpow_sub₀ h2.ne']
  push_cast
  rw [zpow_natCast]
  norm_num
  ring

theorem float_of_grid {x : K} (h : OnGrid 53 x) (hx : |x| < 1 / 2) : IsFloat x := by
  obtain ⟨n, rfl⟩ := h
  refine ⟨n, -53, ?_, by norm_num, by norm_num⟩
  rw [abs_mul, abs_of_pos (show (0 : K) < (1 / 2) ^ 53 by positivity)] at hx
  have h1 : |(n : K)| < 2 ^ 53 := by
    by_contra hge
    have := mul_le_mul_of_nonneg_right (not_lt.1 hge) (show (0 : K) ≤ (1 / 2) ^ 53 by positivity)
    norm_num at this hx
    linarith
  have h2 : ((|n| : ℤ) : K) < ((2 ^ 53 : ℤ) : K) := by
    rw [Int.cast_abs]
    push_cast
    norm_num at h1
    exact h1
  exact Int.cast_lt.1 h2

/-- The distance of a float from a float of at least 1 that is above it, exactly and rounded. -/
theorem shift_grid {p r : K} (hp : round64 p = p) (hr : round64 r = r) (h1 : 1 ≤ r) (hle : p ≤ r) :
    OnGrid 53 (round64 (p - r)) ∧ Big 53 (-(p - r)) := by
  have fp : IsFloat p := hp ▸ isFloat_round64 p
  have fr : IsFloat r := hr ▸ isFloat_round64 r
  rcases le_or_gt (1 / 2) (r - p) with h | h
  · constructor
    · refine grid_of_float (isFloat_round64 _) ?_
      have h2 := round64_mono (K := K) h
      have h3 : round64 ((1 : K) / 2) = 1 / 2 := by
        have := round64_accurate (K := K).power 1 (by norm_num)
        simpa using this
      rw [h3] at h2
      have h4 : round64 (p - r) = -round64 (r - p) := by rw [← round64_neg, neg_sub]
      rw [h4, abs_neg]
      exact h2.trans (le_abs_self _)
    · refine Or.inr ?_
      have : ((1 : K) / 2) ^ 53 ≤ 1 / 2 := by norm_num
      linarith
  · have hp2 : (1 : K) / 2 ≤ p := by linarith
    have g : OnGrid 53 (p - r) := (grid_of_float fp (hp2.trans (le_abs_self p))).sub
      (grid_of_float fr (le_trans (by linarith) (le_abs_self r)))
    have hx : |p - r| < 1 / 2 := by rw [abs_sub_comm, abs_of_nonneg (by linarith)]; exact h
    refine ⟨?_, g.neg.big (by linarith)⟩
    rw [round64_float (float_of_grid g hx)]
    exact g

end grid

/-! ## Scaling -/

theorem vol_scale {c c' : ℕ → ℕ → ℝ} {N : Finset ℕ} {d : ℕ} {s : ℝ} (hs : 0 ≤ s)
    (h : ∀ x ∈ N, ∀ i < d, s * -c x i ≤ -c' x i) : s ^ d * vol c d N ≤ vol c' d N := by
  have hsub : s • reg c d N ⊆ reg c' d N := by
    rintro _ ⟨z, ⟨x, hx, hz⟩, rfl⟩
    refine ⟨x, hx, fun i => ?_⟩
    have h1 := hz i
    have h2 := h x hx i i.2
    have h3 := mul_le_mul_of_nonneg_left h1.1 hs
    have h4 := mul_le_mul_of_nonneg_left h1.2 hs
    simp only [Pi.smul_apply, smul_eq_mul]
    constructor <;> linarith
  have h1 := measureReal_mono (μ := volume) hsub (reg_finite d N)
  rw [Measure.real, Measure.addHaar_smul, ENNReal.toReal_mul, ENNReal.toReal_ofReal (abs_nonneg _), Module.finrank_fin_fun,
    abs_of_nonneg (pow_nonneg hs d)] at h1
  exact h1

/-! ## The value -/

theorem relevant_rounded {fl : ℝ → ℝ} (ref : List ℝ) (front : List (List ℝ)) (h : ∃ r ∈ ref, r ≠ 0) :
    relevant fl ref front = (Hv.relevant ref front).map (List.map fl) := by
  have h' : ref.any (fun r => !(r == 0)) = true := by
    obtain ⟨r, hr, h0⟩ := h
    exact List.any_eq_true.2 ⟨r, hr, by simpa using h0⟩
  unfold relevant Hv.relevant
  simp only [h', if_true, List.map_map]
  apply List.map_congr_left
  intro p _
  rw [Function.comp_apply, List.map_zipWith]

theorem cargo_rounded {fl : ℝ → ℝ} (h0 : fl 0 = 0) (L : List (List ℝ)) (x i : ℕ) :
    cargo (L.map (List.map fl)) x i = fl (cargo L x i) := by
  unfold cargo
  simp only [List.getD_eq_getElem?_getD, List.getElem?_map]
  rcases h : L[x - 1]? with _ | p
  · simp [h0]
  · simp only [Option.map_some, Option.getD_some, List.getElem?_map]
    rcases p[i]? with _ | y <;> simp [h0]

theorem relevant_id (ref : List ℝ) (front : List (List ℝ)) : relevant id ref front = Hv.relevant ref front := rfl

/-- Without rounding: the dominated volume. -/
theorem hypervolume_id {ref : List ℝ} {front : List (List ℝ)} (h1 : 1 ≤ ref.length) (h3 : ref.length ≤ 3)
    (hlen : ∀ p ∈ front, p.length = ref.length) : hypervolume id ref front = some (dominatedVolume ref front) := by
  unfold hypervolume
  simp only [relevant_id]
  rw [← vol_eq_dominated hlen]
  exact value_exact (vol_Vol fun x hx i => cargo_nonpos hlen (List.mem_toFinset.1 hx) i) h1 h3

/-- C127, the model: without rounding the lists give the value of the routine with its multi-list. -/
theorem C127_exact {lowest : ℝ} {ref : List ℝ} {front : List (List ℝ)} (h1 : 1 ≤ ref.length) (h3 : ref.length ≤ 3)
    (hlen : ∀ p ∈ front, p.length = ref.length)
    (hlow : ∀ p ∈ front, ∀ i < ref.length, lowest ≤ p.getD i 0 - ref.getD i 0) :
    hypervolume id ref front = compute lowest ref front := by
  rw [hypervolume_id h1 h3 hlen, C09_exact h1 h3 hlen hlow]

/-- C127: for one to three objectives, a reference point of floats of at least 1 and points of floats, the hypervolume
computed with Python's rounding after every operation differs from the volume dominated by the points by at most
`2 n + 7` relative errors of 2⁻⁵³, where `n` is the number of points. -/
theorem C127_error {ref : List ℝ} {front : List (List ℝ)} (h1 : 1 ≤ ref.length) (h3 : ref.length ≤ 3)
    (hlen : ∀ p ∈ front, p.length = ref.length) (href : ∀ r ∈ ref, 1 ≤ r ∧ round64 r = r)
    (hfl : ∀ p ∈ front, ∀ x ∈ p, round64 x = x) :
    ∃ v, hypervolume round64 ref front = some v ∧
      Near (1 / 2 ^ 53) (2 * front.length + 7) (dominatedVolume ref front) v := by
  have R := round64_accurate (K := ℝ)
  have u0 : (0 : ℝ) ≤ 1 / 2 ^ 53 := by positivity
  have u1 : (1 : ℝ) / 2 ^ 53 ≤ 1 := by norm_num
  have s0 : (0 : ℝ) ≤ 1 - 1 / 2 ^ 53 := by linarith
  have hne : ∃ r ∈ ref, r ≠ 0 := by
    obtain ⟨r, hr⟩ := List.exists_mem_of_length_pos (l := ref) (by omega)
    exact ⟨r, hr, by have := (href r hr).1; intro h; rw [h] at this; norm_num at this⟩
  set L := Hv.relevant ref front with hL
  have hc : ∀ x i, cargo (relevant round64 ref front) x i = round64 (cargo L x i) := by
    intro x i
    rw [relevant_rounded ref front hne, cargo_rounded R.zero]
  have hlenr : (relevant round64 ref front).length = L.length := by
    rw [relevant_rounded ref front hne, List.length_map]
  have hn : L.length ≤ front.length := by
    rw [hL, relevant_eq hlen, List.length_map]
    exact List.length_filter_le _ _
  -- the coordinates of the nodes
  have key : ∀ x ∈ nodesOf L.length, ∀ i, OnGrid 53 (round64 (cargo L x i)) ∧ Big 53 (-cargo L x i) := by
    intro x hx i
    obtain ⟨p, hp, hle, he⟩ := cargo_of_node hlen hx
    rw [hL, he i]
    by_cases hi : i < ref.length
    · have hr := href (ref.getD i 0) (by rw [List.getD_eq_getElem _ _ hi]; exact List.getElem_mem hi)
      have hi' : i < p.length := by rw [hlen p hp]; exact hi
      exact shift_grid (hfl p hp _ (by rw [List.getD_eq_getElem _ _ hi']; exact List.getElem_mem hi')) hr.2 hr.1 (hle i hi)
    · rw [List.getD_eq_default _ _ (by rw [hlen p hp]; omega), List.getD_eq_default _ _ (by omega), sub_zero, R.zero,
        neg_zero]
      exact ⟨⟨0, by simp⟩, Or.inl rfl⟩
  have hnear : ∀ x ∈ nodesOf L.length, ∀ i,
      Near (1 / 2 ^ 53) 1 (-cargo L x i) (-cargo (relevant round64 ref front) x i) := by
    intro x hx i
    rw [hc, ← round64_neg]
    exact near_fl R u0 u1 (key x hx i).2 (by norm_num)
  have hneg : ∀ x ∈ (nodesOf L.length).toFinset, ∀ i, cargo (relevant round64 ref front) x i ≤ 0 := by
    intro x hx i
    have := (hnear x (List.mem_toFinset.1 hx) i).nonneg'
    linarith
  have hvol : Near (1 / 2 ^ 53) ref.length (dominatedVolume ref front)
      (vol (cargo (relevant round64 ref front)) ref.length (nodesOf L.length).toFinset) := by
    rw [← vol_eq_dominated hlen]
    refine ⟨measureReal_nonneg, measureReal_nonneg, ?_, ?_⟩
    · refine vol_scale s0 fun x hx i _ => ?_
      have := (hnear x (List.mem_toFinset.1 hx) i).le
      rwa [pow_one] at this
    · refine vol_scale s0 fun x hx i _ => ?_
      have := (hnear x (List.mem_toFinset.1 hx) i).le'
      rwa [pow_one] at this
  obtain ⟨v, hv, hvn⟩ := value_near R u0 u1 (c := cargo (relevant round64 ref front)) (nodes := nodesOf L.length)
    (fun x hx i _ => ⟨hneg x (List.mem_toFinset.2 hx) i, by rw [hc]; exact (key x hx i).1⟩) h1 h3
    (value_exact (vol_Vol hneg) h1 h3)
  refine ⟨v, ?_, (hvol.trans u1 hvn).mono u0 u1 ?_⟩
  · unfold hypervolume
    simp only
    rw [hlenr]
    exact hv
  · simp only [nodesOf, List.length_map, List.length_range]
    omega

/-- C127: the same as an absolute error, for fewer than 2⁵¹ - 4 points. -/
theorem C127_distance {ref : List ℝ} {front : List (List ℝ)} (h1 : 1 ≤ ref.length) (h3 : ref.length ≤ 3)
    (hlen : ∀ p ∈ front, p.length = ref.length) (href : ∀ r ∈ ref, 1 ≤ r ∧ round64 r = r)
    (hfl : ∀ p ∈ front, ∀ x ∈ p, round64 x = x) (hn : front.length < 2 ^ 51 - 4) {v : ℝ}
    (hv : hypervolume round64 ref front = some v) :
    |v - dominatedVolume ref front| ≤ (2 * front.length + 7) / 2 ^ 52 * dominatedVolume ref front := by
  obtain ⟨w, hw, hnear⟩ := C127_error h1 h3 hlen href hfl
  obtain rfl : w = v := by rw [hw] at hv; exact Option.some.inj hv
  have hk : (2 * front.length + 7 : ℕ) ≤ 2 ^ 52 := by omega
  have hk' : ((2 * front.length + 7 : ℕ) : ℝ) ≤ 2 ^ 52 := by exact_mod_cast hk
  have := hnear.abs_sub (by positivity) (by norm_num) (by
    rw [mul_one_div, div_le_div_iff₀ (by positivity) (by norm_num)]
    calc ((2 * front.length + 7 : ℕ) : ℝ) * 2 ≤ 2 ^ 52 * 2 := by linarith
      _ = 1 * 2 ^ 53 := by norm_num)
  refine this.trans_eq ?_
  push_cast
  ring

theorem near_lt {u a b v w : ℝ} {k l : ℕ} (h1 : u < 1) (h : Near u k a v) (h' : Near u l b w)
    (hlt : a < (1 - u) ^ (k + l) * b) : v < w := by
  have s0 : 0 < 1 - u := by linarith
  refine lt_of_mul_lt_mul_left (lt_of_le_of_lt h.le' (hlt.trans_le ?_)) (pow_nonneg s0.le k)
  rw [pow_add, mul_assoc]
  exact mul_le_mul_of_nonneg_left h'.le (pow_nonneg s0.le k)

/-- C127, comparisons: a result whose dominated volume is larger by more than the relative errors gets the larger
hypervolume, and conversely a hypervolume that is larger by more than the relative errors means a larger volume. -/
theorem C127_rank {ref : List ℝ} {F G : List (List ℝ)} (h1 : 1 ≤ ref.length) (h3 : ref.length ≤ 3)
    (hF : ∀ p ∈ F, p.length = ref.length) (hG : ∀ p ∈ G, p.length = ref.length)
    (href : ∀ r ∈ ref, 1 ≤ r ∧ round64 r = r) (hfF : ∀ p ∈ F, ∀ x ∈ p, round64 x = x)
    (hfG : ∀ p ∈ G, ∀ x ∈ p, round64 x = x) {v w : ℝ} (hv : hypervolume round64 ref F = some v)
    (hw : hypervolume round64 ref G = some w) :
    (dominatedVolume ref F < (1 - 1 / 2 ^ 53) ^ (2 * (F.length + G.length) + 14) * dominatedVolume ref G → v < w) ∧
    (v < (1 - 1 / 2 ^ 53) ^ (2 * (F.length + G.length) + 14) * w → dominatedVolume ref F < dominatedVolume ref G) := by
  obtain ⟨v', hv', nF⟩ := C127_error h1 h3 hF href hfF
  obtain ⟨w', hw', nG⟩ := C127_error h1 h3 hG href hfG
  obtain rfl : v' = v := by rw [hv'] at hv; exact Option.some.inj hv
  obtain rfl : w' = w := by rw [hw'] at hw; exact Option.some.inj hw
  rw [show 2 * (F.length + G.length) + 14 = (2 * F.length + 7) + (2 * G.length + 7) by ring]
  exact ⟨near_lt (by norm_num) nF nG, near_lt (by norm_num) nF.symm nG.symm⟩

theorem metric_rounded {fl : ℝ → ℝ} {s nd pareto : List (List ℝ)} {d : ℕ}
    (hpar : ∃ p ps, pareto = p :: ps ∧ p.length = d) :
    metricHypervolume fl s nd pareto = hypervolume fl (List.replicate d 50) nd := by
  obtain ⟨p, ps, rfl, rfl⟩ := hpar
  rfl

theorem dominatedVolume_filter {d : ℕ} {ref : List ℝ} {solution : List (List ℝ)}
    (hlen : ∀ p ∈ solution, p.length = d) :
    dominatedVolume ref (filterNotDominated solution) = dominatedVolume ref solution := by
  refine le_antisymm
    (dominatedVolume_mono fun x hx => ⟨x, ((C06_mem_filter d solution hlen x).1 hx).1, fun _ _ => le_rfl⟩)
    (dominatedVolume_mono fun x hx => ?_)
  obtain ⟨y, hy, h⟩ := C06_covers d solution hlen x hx
  refine ⟨y, hy, fun i _ => ?_⟩
  rcases h with rfl | h
  · exact le_rfl
  · exact getD_le_of_LDom h i

/-- C127, the metric: the value of a result with one to three objectives differs from the volume dominated by all its
points and bounded by 50 in each objective by at most `2 n + 7` relative errors of 2⁻⁵³. -/
theorem C127_metric {solution pareto : List (List ℝ)} {d : ℕ} (h1 : 1 ≤ d) (h3 : d ≤ 3)
    (hpar : ∃ p ps, pareto = p :: ps ∧ p.length = d) (hlen : ∀ p ∈ solution, p.length = d)
    (hfl : ∀ p ∈ solution, ∀ x ∈ p, round64 x = x) :
    ∃ v, metricHypervolume round64 solution (filterNotDominated solution) pareto = some v ∧
      Near (1 / 2 ^ 53) (2 * solution.length + 7) (dominatedVolume (List.replicate d 50) solution) v := by
  have hmem : ∀ x ∈ filterNotDominated solution, x ∈ solution := fun x hx =>
    ((C06_mem_filter d solution hlen x).1 hx).1
  have h50 : round64 (50 : ℝ) = 50 := by
    apply round64_float
    exact ⟨50, 0, by norm_num, by norm_num, by norm_num⟩
  obtain ⟨v, hv, hn⟩ := C127_error (ref := List.replicate d 50) (front := filterNotDominated solution) (by simpa using h1)
    (by simpa using h3) (by simpa using fun x hx => hlen x (hmem x hx))
    (fun r hr => by rw [List.eq_of_mem_replicate hr]; exact ⟨by norm_num, h50⟩) (fun p hp => hfl p (hmem p hp))
  refine ⟨v, by rw [metric_rounded hpar]; exact hv, ?_⟩
  rw [dominatedVolume_filter hlen] at hn
  refine hn.mono (by positivity) (by norm_num) ?_
  obtain ⟨p, hp, -⟩ := C06_filter_eq d solution hlen
  have : (filterNotDominated solution).length ≤ solution.length := by rw [hp]; exact List.length_filter_le _ _
  omega

/-- Two points in two and four points in three objectives; the area 40 * 40 + 10 * 29.5 needs no rounding. -/
example : hypervolume round64 [50, 50] [[10, 10], [20.5, 0], [(60 : ℚ), 0]] = some 1895 ∧
    hypervolume round64 [50, 50, 50] [[49, 48, 47], [48, 49, 49], [49, 49, 49], [48, 48, (49 : ℚ)]] = some 8 ∧
    hypervolume round64 [50] [[49.5], [(48 : ℚ)]] = some 2 := by decide +kernel

/-- Rounding does happen. -/
example : hypervolume round64 [50, 50] [[round64 (1 / 10), round64 (1 / 3)]] = some (round64 (24783666666666665 / 10 ^ 13 : ℚ)) ∧
    hypervolume id [50, 50] [[round64 (1 / 10), round64 (1 / 3)]] ≠ some (round64 (24783666666666665 / 10 ^ 13 : ℚ)) := by
  decide +kernel

/-! ## Comparing results -/

/-- C128 is violated: a result with a further non-dominated point gets a smaller hypervolume. -/
theorem C128_mono_violated :
    ∃ F G pareto : List (List ℚ), (∀ p ∈ G, p.length = 2 ∧ ∀ x ∈ p, round64 x = x) ∧
      (∀ p ∈ F, p ∈ G) ∧ filterNotDominated F = F ∧ filterNotDominated G = G ∧
      ∃ v w, metricHypervolume round64 F (filterNotDominated F) pareto = some v ∧
        metricHypervolume round64 G (filterNotDominated G) pareto = some w ∧ w < v :=
  ⟨[[0, round64 (1 / 5)]], [[0, round64 (1 / 5)], [-1 / 2 ^ 60, round64 (3 / 10)]], [[0, 0]], by decide +kernel,
    by decide +kernel, by decide +kernel, by decide +kernel, 2490, 2490 - 1 / 2 ^ 41, by decide +kernel,
    by decide +kernel, by norm_num⟩

theorem reg_mono {c c' : ℕ → ℕ → ℝ} {N N' : Finset ℕ} {d : ℕ}
    (h : ∀ x ∈ N, ∃ y ∈ N', ∀ i < d, c' y i ≤ c x i) : vol c d N ≤ vol c' d N' := by
  refine measureReal_mono ?_ (reg_finite d N')
  rintro z ⟨x, hx, hz⟩
  obtain ⟨y, hy, hle⟩ := h x hx
  exact ⟨y, hy, fun i => ⟨(hle i i.2).trans (hz i).1, (hz i).2⟩⟩

/-- C128, one objective: a result that covers another one never gets a smaller value. -/
theorem C128_one_objective_partial {r : ℝ} {F G : List (List ℝ)} (hr : r ≠ 0)
    (hF : ∀ p ∈ F, p.length = 1) (hG : ∀ p ∈ G, p.length = 1)
    (hcov : ∀ p ∈ F, ∃ q ∈ G, ∀ i < 1, q.getD i 0 ≤ p.getD i 0) :
    ∃ v w, hypervolume round64 [r] F = some v ∧ hypervolume round64 [r] G = some w ∧ v ≤ w := by
  have hne : ∃ s ∈ [r], s ≠ 0 := ⟨r, by simp, hr⟩
  have R := round64_accurate (K := ℝ)
  have key : ∀ H : List (List ℝ), (∀ p ∈ H, p.length = 1) → hypervolume round64 [r] H =
      some (vol (cargo (relevant round64 [r] H)) 1 (nodesOf (Hv.relevant [r] H).length).toFinset) := by
    intro H hH
    have hlenr : (relevant round64 [r] H).length = (Hv.relevant [r] H).length := by
      rw [relevant_rounded _ H hne, List.length_map]
    unfold hypervolume
    simp only [hlenr]
    show value id _ _ 1 = _
    refine value_exact (vol_Vol fun x hx i => ?_) le_rfl (by norm_num)
    rw [relevant_rounded _ H hne, cargo_rounded R.zero]
    have := R.nonneg (x := -cargo (Hv.relevant [r] H) x i)
      (by have := cargo_nonpos (ref := [r]) hH (List.mem_toFinset.1 hx) i; linarith)
    rw [round64_neg] at this
    linarith
  refine ⟨_, _, key F hF, key G hG, reg_mono ?_⟩
  intro x hx
  obtain ⟨p, hp, hle, he⟩ := cargo_of_node (ref := [r]) hF (List.mem_toFinset.1 hx)
  obtain ⟨q, hq, hqp⟩ := hcov p hp
  obtain ⟨y, hy, he'⟩ := node_of_point (ref := [r]) hG hq (fun i hi => (hqp i hi).trans (hle i hi))
  refine ⟨y, List.mem_toFinset.2 hy, fun i hi => ?_⟩
  rw [relevant_rounded _ F hne, relevant_rounded _ G hne, cargo_rounded R.zero, cargo_rounded R.zero, he, he']
  exact round64_mono (by linarith [hqp i hi])

section single

variable {K : Type*} [Field K] [LinearOrder K] [IsStrictOrderedRing K] [FloorRing K] {fl : K → K}

theorem single2 {r s a b : K} (hr : r ≠ 0) (ha : a ≤ r) (hb : b ≤ s) :
    hypervolume fl [r, s] [[a, b]] = some (fl (0 + fl (fl (a - r) * fl (b - s)))) := by
  have h : relevant fl [r, s] [[a, b]] = [[fl (a - r), fl (b - s)]] := by
    simp [relevant, Hv.weaklyDominates, hr, not_lt.2 ha, not_lt.2 hb]
  unfold hypervolume
  simp only [h]
  rfl

theorem single3 {r s t a b c : K} (hr : r ≠ 0) (ha : a ≤ r) (hb : b ≤ s) (hc : c ≤ t) :
    hypervolume fl [r, s, t] [[a, b, c]] =
      some (fl (0 - fl (fl (0 + fl (fl (a - r) * fl (b - s))) * fl (c - t)))) := by
  have h : relevant fl [r, s, t] [[a, b, c]] = [[fl (a - r), fl (b - s), fl (c - t)]] := by
    simp [relevant, Hv.weaklyDominates, hr, not_lt.2 ha, not_lt.2 hb, not_lt.2 hc]
  unfold hypervolume
  simp only [h]
  rfl

theorem shift_le {a b r : K} (h : a ≤ b) (hb : b ≤ r) : 0 ≤ -round64 (b - r) ∧ -round64 (b - r) ≤ -round64 (a - r) := by
  refine ⟨?_, neg_le_neg (round64_mono (by linarith))⟩
  rw [← round64_neg]
  exact (round64_accurate (K := K)).nonneg (by linarith)

/-- C128, single points: of two points below the reference point, the one that is at least as good in every objective never
gets a smaller value. -/
theorem C128_single_partial {r s t a b c a' b' c' : K} (hr : r ≠ 0) (ha : a ≤ a') (hb : b ≤ b') (hc : c ≤ c') (har : a' ≤ r)
    (hbs : b' ≤ s) (hct : c' ≤ t) :
    (∃ v w, hypervolume round64 [r, s] [[a', b']] = some v ∧ hypervolume round64 [r, s] [[a, b]] = some w ∧ v ≤ w) ∧
    (∃ v w, hypervolume round64 [r, s, t] [[a', b', c']] = some v ∧
      hypervolume round64 [r, s, t] [[a, b, c]] = some w ∧ v ≤ w) := by
  have R := round64_accurate (K := K)
  have h1 := shift_le ha har
  have h2 := shift_le hb hbs
  have h3 := shift_le hc hct
  have h12 : round64 (a' - r) * round64 (b' - s) ≤ round64 (a - r) * round64 (b - s) := by
    have := mul_le_mul h1.2 h2.2 h2.1 (h1.1.trans h1.2)
    rwa [neg_mul_neg, neg_mul_neg] at this
  have h0 : 0 ≤ round64 (a' - r) * round64 (b' - s) := by
    have := mul_nonneg h1.1 h2.1
    rwa [neg_mul_neg] at this
  have harea := round64_mono (add_le_add_right (round64_mono h12) (0 : K))
  have harea0 : 0 ≤ round64 (0 + round64 (round64 (a' - r) * round64 (b' - s))) :=
    R.nonneg (by rw [zero_add]; exact R.nonneg h0)
  refine ⟨⟨_, _, single2 hr har hbs, single2 hr (ha.trans har) (hb.trans hbs), ?_⟩,
    ⟨_, _, single3 hr har hbs hct, single3 hr (ha.trans har) (hb.trans hbs) (hc.trans hct), ?_⟩⟩
  · exact harea
  · apply round64_mono
    rw [zero_sub, zero_sub, ← round64_neg, ← round64_neg]
    apply round64_mono
    rw [← mul_neg, ← mul_neg]
    exact mul_le_mul harea h3.2 h3.1 (harea0.trans harea)

example : (hypervolume round64 [50, 50, 50] [[round64 (1 / 3), 0, (0 : ℚ)]]).getD 0 < 124167 ∧
    hypervolume round64 [50, 50, 50] [[(0 : ℚ), 0, 0]] = some 125000 := by decide +kernel

end single

end Evogil.Rounded
