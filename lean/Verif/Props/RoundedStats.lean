import Verif.Model.RoundedStats
import Verif.Props.Outliers
import Verif.Lemmas.RoundedMean
import Verif.Props.Rounded

/-! # C133, C134: outliers and the quality mark in floating point -/

set_option linter.unusedSectionVars false

namespace Evogil.Rounded.Stats

open Spec Binary64
open Evogil.Statistics (Analysis Interval bootstrap bootstrap_spec sorted_getElem_le countP_lt_sorted
  countP_gt_sorted)

/-! ## Values -/

/-- A value that the theorems below admit: a float that is 0 or not smaller than 2⁻³⁰⁰. -/
def Tame (x : ℝ) : Prop := round64 x = x ∧ (x = 0 ∨ (1 / 2) ^ 300 ≤ |x|)

theorem Tame.zpow {x : ℝ} (h : Tame x) : x = 0 ∨ (2 : ℝ) ^ (-1000 : ℤ) ≤ |x| := by
  refine h.2.imp id fun h => le_trans ?_ h
  rw [half_zpow]
  exact zpow_le_zpow_right₀ (by norm_num) (by norm_num)

theorem Tame.neg {x : ℝ} (h : Tame x) : Tame (-x) :=
  ⟨by rw [round64_neg, h.1], by rw [neg_eq_zero, abs_neg]; exact h.2⟩

/-! ## Quartiles -/

/-- A quartile lies between two neighbours of the sorted data. -/
theorem quartile_between (quarters : ℕ) (hq : quarters ≤ 4) {data : List ℝ} (hne : data ≠ [])
    (ht : ∀ x ∈ data, Tame x) : ∃ q, quartile round64 quarters data = some q ∧ round64 q = q ∧
    ∃ h : quarters * (data.length - 1) / 4 < (pySorted id data).length,
      (pySorted id data)[quarters * (data.length - 1) / 4] ≤ q ∧
      (∀ h' : quarters * (data.length - 1) / 4 + 1 < (pySorted id data).length,
        q ≤ (pySorted id data)[quarters * (data.length - 1) / 4 + 1]) ∧
      (quarters * (data.length - 1) % 4 = 0 →
        q = (pySorted id data)[quarters * (data.length - 1) / 4]) := by
  have hl := pySorted_length id data
  have hpos : 0 < data.length := List.length_pos_iff.2 hne
  have hs : (pySorted id data).Pairwise (· ≤ ·) := pySorted_sorted id data
  have hmem : ∀ (i : ℕ) (h : i < (pySorted id data).length), Tame (pySorted id data)[i] := fun i h =>
    ht _ ((pySorted_perm id data).mem_iff.1 (List.getElem_mem h))
  generalize hS : pySorted id data = S at *
  generalize hp : quarters * (data.length - 1) = pos
  have hple : pos ≤ 4 * (data.length - 1) := by rw [← hp]; exact Nat.mul_le_mul_right _ hq
  have hi : pos / 4 < S.length := by omega
  have hr : pos % 4 < 4 := Nat.mod_lt _ (by norm_num)
  unfold quartile
  simp only
  rw [hS, hp, List.getElem?_eq_getElem hi]
  simp only
  have ha := hmem _ hi
  refine ⟨_, rfl, round64_round64 _, hi, ?_, ?_, ?_⟩
  · by_cases h' : pos / 4 + 1 < S.length
    · rw [List.getD_eq_getElem?_getD, List.getElem?_eq_getElem h', Option.getD_some]
      have hb := hmem _ h'
      exact (round64_between ha.zpow hb.zpow ha.1 hb.1 (sorted_getElem_le hs (by omega) h') hr).1
    · rw [List.getD_eq_getElem?_getD, List.getElem?_eq_none (by omega), Option.getD_none]
      exact (round64_weighted ha.zpow ha.1 hr).ge
  · intro h'
    rw [List.getD_eq_getElem?_getD, List.getElem?_eq_getElem h', Option.getD_some]
    have hb := hmem _ h'
    exact (round64_between ha.zpow hb.zpow ha.1 hb.1 (sorted_getElem_le hs (by omega) h') hr).2
  · intro h0
    rw [h0]
    have hz : round64 (0 : ℝ) = 0 := by simp [round64, roundPos_zero]
    simp [hz, ha.1]

theorem quartile_isQuartile (quarters : ℕ) (hq : quarters ≤ 4) {data : List ℝ} (hne : data ≠ [])
    (ht : ∀ x ∈ data, Tame x) {q : ℝ} (h : quartile round64 quarters data = some q) : IsQuartile quarters data q := by
  obtain ⟨q', e, -, hi, a, b, z⟩ := quartile_between quarters hq hne ht
  obtain rfl : q' = q := by rw [e] at h; exact Option.some.inj h
  have hl := pySorted_length id data
  have hpos : 0 < data.length := List.length_pos_iff.2 hne
  have hs : (pySorted id data).Pairwise (· ≤ ·) := pySorted_sorted id data
  have hperm := pySorted_perm id data
  generalize pySorted id data = S at *
  have hsplit : quarters * (data.length - 1) + (4 - quarters) * (data.length - 1)
      = 4 * (data.length - 1) := by rw [← Nat.add_mul]; congr 1; omega
  have hcount : ∀ p, data.countP p = S.countP p := fun p => hperm.symm.countP_eq p
  unfold IsQuartile
  rw [hcount, hcount]
  generalize quarters * (data.length - 1) = pos at *
  constructor
  · by_cases h0 : pos % 4 = 0
    · rw [z h0]
      have := countP_lt_sorted hs _ hi
      omega
    · have h' : pos / 4 + 1 < S.length := by omega
      have h2 := countP_lt_sorted hs _ h'
      have h1 : S.countP (fun x => decide (x < q')) ≤ S.countP
          (fun x => decide (x < S[pos / 4 + 1])) := by
        refine List.countP_mono_left ?_
        intro x _ hx
        simp only [decide_eq_true_eq] at hx ⊢
        exact hx.trans_le (b h')
      omega
  · have h2 := countP_gt_sorted hs _ hi
    have h1 : S.countP (fun x => decide (q' < x)) ≤ S.countP
        (fun x => decide (S[pos / 4] < x)) := by
      refine List.countP_mono_left ?_
      intro x _ hx
      simp only [decide_eq_true_eq] at hx ⊢
      exact a.trans_lt hx
    omega

/-- The data below the first and above the third quartile, and a value between them. -/
theorem quartiles_spec {data : List ℝ} (hne : data ≠ []) (h2 : data.length ≠ 2) (ht : ∀ x ∈ data, Tame x) :
    ∃ q1 q3, quartile round64 1 data = some q1 ∧ quartile round64 3 data = some q3 ∧
      round64 q1 = q1 ∧ round64 q3 = q3 ∧
      data.countP (fun x => decide (x < q1)) ≤ (data.length + 2) / 4 ∧
      data.countP (fun x => decide (q3 < x)) ≤ (data.length + 2) / 4 ∧
      ∃ x ∈ data, q1 ≤ x ∧ x ≤ q3 := by
  have hl := pySorted_length id data
  have hpos : 0 < data.length := List.length_pos_iff.2 hne
  have hs : (pySorted id data).Pairwise (· ≤ ·) := pySorted_sorted id data
  have hperm := pySorted_perm id data
  obtain ⟨q1, e1, f1, i1, a1, b1, z1⟩ := quartile_between 1 (by norm_num) hne ht
  obtain ⟨q3, e3, f3, i3, a3, b3, z3⟩ := quartile_between 3 (by norm_num) hne ht
  refine ⟨q1, q3, e1, e3, f1, f3, ?_⟩
  generalize pySorted id data = S at *
  generalize hn : data.length = n at *
  simp only [one_mul] at i1 a1 b1 z1
  have hcount : ∀ p, data.countP p = S.countP p := fun p => hperm.symm.countP_eq p
  have hmem : ∀ (i : ℕ) (h : i < S.length), S[i] ∈ data := fun i h =>
    hperm.mem_iff.1 (List.getElem_mem h)
  have hc1 : S.countP (fun x => decide (x < q1)) ≤ (n + 2) / 4 := by
    by_cases h0 : (n - 1) % 4 = 0
    · rw [z1 h0]
      exact (countP_lt_sorted hs _ i1).trans (by omega)
    · have h' : (n - 1) / 4 + 1 < S.length := by omega
      refine le_trans (List.countP_mono_left (q := fun x => decide (x < S[(n - 1) / 4 + 1])) ?_)
        ((countP_lt_sorted hs _ h').trans (by omega))
      intro x _ hx
      simp only [decide_eq_true_eq] at hx ⊢
      exact hx.trans_le (b1 h')
  have hc3 : S.countP (fun x => decide (q3 < x)) ≤ (n + 2) / 4 := by
    refine le_trans (List.countP_mono_left (q := fun x => decide (S[3 * (n - 1) / 4] < x)) ?_)
      ((countP_gt_sorted hs _ i3).trans (by omega))
    intro x _ hx
    simp only [decide_eq_true_eq] at hx ⊢
    exact a3.trans_lt hx
  refine ⟨by rw [hcount]; exact hc1, by rw [hcount]; exact hc3, ?_⟩
  by_cases hlt : (n - 1) / 4 < 3 * (n - 1) / 4
  · have h' : (n - 1) / 4 + 1 < S.length := by omega
    have hm : S[(n - 1) / 4 + 1] ≤ S[3 * (n - 1) / 4] := sorted_getElem_le hs hlt i3
    exact ⟨_, hmem _ h', b1 h', hm.trans a3⟩
  · have h0 : n - 1 = 0 := by omega
    have z1' := z1 (by omega)
    have z3' := z3 (by omega)
    have e : 3 * (n - 1) / 4 = (n - 1) / 4 := by omega
    have hq : q1 = q3 := by rw [z1', z3']; congr 1; exact e.symm
    exact ⟨_, hmem _ i1, z1'.le, by rw [← z1', hq]⟩

/-! ## The mean -/

theorem abs_sum_le_sum_abs : ∀ l : List ℝ, |l.sum| ≤ (l.map fun x => |x|).sum
  | [] => by simp
  | x :: l => by
    rw [List.sum_cons, List.map_cons, List.sum_cons]
    exact (abs_add_le _ _).trans (by linarith [abs_sum_le_sum_abs l])

theorem mean_facts {data : List ℝ} (hne : data ≠ []) (hn : data.length < 2 ^ 53) (ht : ∀ x ∈ data, Tame x) :
    |mean round64 data * (data.length : ℝ) - data.sum| ≤
        ((1 + 1 / 2 ^ 53) ^ (data.length + 1) - 1) * (data.map fun x => |x|).sum ∧
      round64 (mean round64 data) = mean round64 data ∧ OnGrid 457 (mean round64 data) := by
  have hpos : (0 : ℝ) < data.length := by exact_mod_cast List.length_pos_iff.2 hne
  have hlt : (data.length : ℝ) ≤ 2 ^ 53 := by exact_mod_cast hn.le
  have e1 := sumUp_error fun x hx => (ht x hx).1
  have g := big_abs (sumUp_grid (e := 352) fun x hx => grid_of_big (ht x hx).1 (ht x hx).2)
  unfold mean
  have hb : Big 405 |sumUp round64 data / (data.length : ℝ)| := by
    rw [abs_div, abs_of_pos hpos]
    rcases g with g | g
    · left; rw [g, zero_div]
    · right
      rw [le_div_iff₀ hpos]
      calc (1 / 2 : ℝ) ^ 405 * data.length ≤ (1 / 2 : ℝ) ^ 405 * 2 ^ 53 := mul_le_mul_of_nonneg_left hlt (by positivity)
        _ = (1 / 2) ^ 352 := by
          rw [show (405 : ℕ) = 352 + 53 from rfl, pow_add, mul_assoc, ← mul_pow]
          norm_num
        _ ≤ _ := g
  generalize hS : sumUp round64 data = S at *
  have herr : |round64 (S / (data.length : ℝ)) - S / data.length| ≤ 1 / 2 ^ 53 * |S / data.length| := by
    rcases hb with h | h
    · rw [abs_eq_zero.1 h]; simp [round64, roundPos_zero]
    · exact round64_accurate.error _ (le_trans (pow_le_pow_of_le_one (by norm_num) (by norm_num) (by norm_num)) h)
  refine ⟨?_, round64_round64 _, ?_⟩
  · have h1 : |round64 (S / (data.length : ℝ)) * data.length - S| ≤ 1 / 2 ^ 53 * |S| := by
      have h2 := mul_le_mul_of_nonneg_right herr hpos.le
      rw [← abs_of_pos hpos, mul_assoc, ← abs_mul, ← abs_mul, abs_of_pos hpos, sub_mul, div_mul_cancel₀ _ hpos.ne'] at h2
      exact h2
    have h3 : |S| ≤ (1 + 1 / 2 ^ 53) ^ data.length * (data.map fun x => |x|).sum := by
      have h4 : |data.sum| ≤ (data.map fun x => |x|).sum := abs_sum_le_sum_abs _
      have h5 : |S| ≤ |S - data.sum| + |data.sum| := by
        have := abs_add_le (S - data.sum) data.sum
        rwa [sub_add_cancel] at this
      linarith
    have h6 : |round64 (S / (data.length : ℝ)) * data.length - data.sum| ≤
        |round64 (S / (data.length : ℝ)) * data.length - S| + |S - data.sum| := abs_sub_le _ _ _
    have h7 : (0 : ℝ) ≤ 1 / 2 ^ 53 := by positivity
    rw [pow_succ]
    generalize ((1 : ℝ) + 1 / 2 ^ 53) ^ data.length = P at *
    generalize (1 : ℝ) / 2 ^ 53 = u at *
    have := mul_le_mul_of_nonneg_left h3 h7
    linarith
  · have h1 : (round64 (S / (data.length : ℝ))) = 0 ∨ (1 / 2) ^ 405 ≤ |round64 (S / (data.length : ℝ))| := by
      have he : |round64 (S / (data.length : ℝ))| = round64 |S / (data.length : ℝ)| := by
        have R := round64_accurate (K := ℝ)
        rcases le_total 0 (S / (data.length : ℝ)) with h | h
        · rw [abs_of_nonneg h, abs_of_nonneg (R.nonneg h)]
        · rw [abs_of_nonpos h, round64_neg, abs_of_nonpos]
          have := R.nonneg (x := -(S / (data.length : ℝ))) (by linarith)
          rw [round64_neg] at this
          linarith
      rw [← abs_eq_zero, he]
      exact hb.round round64_accurate (by norm_num)
    exact grid_of_big (round64_round64 _) h1

/-! ## The classification -/

theorem count_split {lowOut lowInn uppInn uppOut : ℝ} (h1 : lowOut ≤ lowInn) (h2 : lowInn ≤ uppInn)
    (h3 : uppInn ≤ uppOut) (data : List ℝ) :
    (data.filter fun x => decide (x < lowInn ∨ uppInn < x)).length =
      data.countP (fun x => decide ((lowOut ≤ x ∧ x < lowInn) ∨ (uppInn < x ∧ x ≤ uppOut))) +
      data.countP (fun x => decide (x < lowOut ∨ uppOut < x)) := by
  rw [← List.countP_eq_length_filter]
  induction data with
  | nil => rfl
  | cons x l ih =>
    simp only [List.countP_cons, ih]
    by_cases hlow : x < lowInn
    · by_cases hlo' : x < lowOut
      · have a1 : ¬ (uppInn < x) := not_lt.2 (hlow.le.trans h2)
        have a2 : ¬ (lowOut ≤ x) := not_le.2 hlo'
        simp [hlow, hlo', a1, a2]; omega
      · have a1 : ¬ (uppOut < x) := not_lt.2 (hlow.le.trans (h2.trans h3))
        simp [hlow, hlo', a1, not_lt.1 hlo']; omega
    · by_cases hup : uppInn < x
      · have a0 : ¬ (x < lowOut) := not_lt.2 (h1.trans (not_lt.1 hlow))
        by_cases hup' : uppOut < x
        · have a1 : ¬ (x ≤ uppOut) := not_le.2 hup'
          simp [hlow, hup, hup', a0, a1]; omega
        · simp [hlow, hup, hup', a0, not_lt.1 hup']; omega
      · have a0 : ¬ (x < lowOut) := not_lt.2 (h1.trans (not_lt.1 hlow))
        have a1 : ¬ (uppOut < x) := not_lt.2 ((not_lt.1 hup).trans h3)
        simp [hlow, hup, a0, a1]

/-- **C133.** For data of any length but two, `yield_analysis` with rounding has the properties of the exact calculation
(C99), save that the mean of the regular values is accurate up to rounding only, so that it can lie outside of the
fences. -/
theorem C133_outliers_partial (sqr sqrt : ℝ → ℝ) {data : List ℝ} (hne : data ≠ []) (h2 : data.length ≠ 2)
    (hn : data.length < 2 ^ 53) (ht : ∀ x ∈ data, Tame x) {draws : List (List ℕ)} (hd : draws ≠ []) {k : ℕ}
    (hk : ∀ d ∈ draws, d.length = k) (hi : ∀ d ∈ draws, ∀ i ∈ d, i < data.length) :
    ∃ r, yieldAnalysis round64 sqr sqrt draws data = some r ∧
      (∃ q1 q3, IsQuartile 1 data q1 ∧ IsQuartile 3 data q3 ∧ q1 ≤ q3 ∧
        r.lowInn = round64 (q1 - round64 (3 / 2 * round64 (q3 - q1))) ∧
        r.uppInn = round64 (q3 + round64 (3 / 2 * round64 (q3 - q1))) ∧
        r.lowOut = round64 (q1 - round64 (3 * round64 (q3 - q1))) ∧
        r.uppOut = round64 (q3 + round64 (3 * round64 (q3 - q1)))) ∧
      r.lowOut ≤ r.lowInn ∧ r.lowInn ≤ r.uppInn ∧ r.uppInn ≤ r.uppOut ∧
      r.extr = data.countP (fun x => decide (x < r.lowOut ∨ r.uppOut < x)) ∧
      r.mild = data.countP (fun x => decide ((r.lowOut ≤ x ∧ x < r.lowInn) ∨
        (r.uppInn < x ∧ x ≤ r.uppOut))) ∧
      data.countP (fun x => decide (x < r.lowInn)) ≤ (data.length + 2) / 4 ∧
      data.countP (fun x => decide (r.uppInn < x)) ≤ (data.length + 2) / 4 ∧
      r.mild + r.extr < data.length ∧
      ∃ (regular : List ℝ) (m : ℝ), regular = data.filter (fun x => decide (r.lowInn ≤ x ∧ x ≤ r.uppInn)) ∧
        regular ≠ [] ∧ r.metricsNooutliers = (m : WithBot ℝ) ∧
        |m * (regular.length : ℝ) - regular.sum| ≤
          ((1 + 1 / 2 ^ 53) ^ (regular.length + 1) - 1) * (regular.map fun x => |x|).sum ∧
        r.stdevNooutliers.isSome := by
  obtain ⟨q1, q3, e1, e3, f1, f3, c1, c3, x0, hx0, l0, u0⟩ := quartiles_spec hne h2 ht
  obtain ⟨bs, -, hbs, -⟩ := bootstrap_spec data (average (K := ℝ) round64) k draws (1 / 40) (by norm_num)
    (by norm_num) hd hk hi
  have hlen : data.length ≠ 0 := by simpa using hne
  have hms : meanStdev round64 sqr sqrt data = some (mean round64 data,
      sqrt (mean round64 (data.map fun x => sqr (round64 (x - mean round64 data))))) := by
    unfold meanStdev; rw [if_neg hlen]
  have hq : q1 ≤ q3 := l0.trans u0
  unfold yieldAnalysis
  rw [e1, e3]
  simp only
  rw [hbs, hms]
  refine ⟨_, rfl, ?_⟩
  simp only
  have R := round64_accurate (K := ℝ)
  have hiq : 0 ≤ round64 (q3 - q1) := R.nonneg (sub_nonneg.2 hq)
  have hinn : 0 ≤ round64 (3 / 2 * round64 (q3 - q1)) := R.nonneg (by linarith)
  have hout : round64 (3 / 2 * round64 (q3 - q1)) ≤ round64 (3 * round64 (q3 - q1)) := round64_mono (by linarith)
  set iq := round64 (q3 - q1) with hiqd
  set lowInn := round64 (q1 - round64 (3 / 2 * iq)) with hli
  set uppInn := round64 (q3 + round64 (3 / 2 * iq)) with hui
  set lowOut := round64 (q1 - round64 (3 * iq)) with hlo
  set uppOut := round64 (q3 + round64 (3 * iq)) with huo
  have hlq : lowInn ≤ q1 := by conv_rhs => rw [← f1]
                               exact round64_mono (by linarith)
  have hqu : q3 ≤ uppInn := by conv_lhs => rw [← f3]
                               exact round64_mono (by linarith)
  have h1 : lowOut ≤ lowInn := round64_mono (by linarith)
  have h2' : lowInn ≤ uppInn := hlq.trans (hq.trans hqu)
  have h3 : uppInn ≤ uppOut := round64_mono (by linarith)
  set regular := data.filter (fun x => decide (lowInn ≤ x ∧ x ≤ uppInn)) with hreg
  have hregne : regular ≠ [] := by
    refine List.ne_nil_of_mem (a := x0) ?_
    rw [hreg, List.mem_filter]
    exact ⟨hx0, by simpa using ⟨hlq.trans l0, u0.trans hqu⟩⟩
  have hreglen : regular.length ≠ 0 := by simpa using hregne
  have hmild := count_split h1 h2' h3 data
  have hexc : (data.filter fun x => decide (x < lowOut ∨ uppOut < x)).length =
      data.countP (fun x => decide (x < lowOut ∨ uppOut < x)) := List.countP_eq_length_filter.symm
  have hall : data.countP (fun x => decide (x < lowInn ∨ uppInn < x)) < data.length := by
    rw [List.length_eq_countP_add_countP (l := data) (fun x => decide (x < lowInn ∨ uppInn < x))]
    have : 0 < data.countP (fun x => decide (¬ decide (x < lowInn ∨ uppInn < x) = true)) := by
      rw [List.countP_pos_iff]
      exact ⟨x0, hx0, by simpa using ⟨hlq.trans l0, u0.trans hqu⟩⟩
    omega
  rw [List.countP_eq_length_filter] at hall
  refine ⟨⟨q1, q3, quartile_isQuartile 1 (by norm_num) hne ht e1,
    quartile_isQuartile 3 (by norm_num) hne ht e3, hq, rfl, rfl, rfl, rfl⟩, h1, h2', h3, hexc, by omega, ?_, ?_, by omega,
    regular, mean round64 regular, rfl, hregne, ?_, ?_, ?_⟩
  · refine le_trans (List.countP_mono_left ?_) c1
    intro x _ hx
    simp only [decide_eq_true_eq] at hx ⊢
    exact hx.trans_le hlq
  · refine le_trans (List.countP_mono_left ?_) c3
    intro x _ hx
    simp only [decide_eq_true_eq] at hx ⊢
    exact hqu.trans_lt hx
  · unfold average; rw [if_neg hreglen]
  · exact (mean_facts hregne (lt_of_le_of_lt (List.length_filter_le _ _) hn)
      fun x hx => ht x (List.mem_filter.1 hx).1).1
  · unfold meanStdev; rw [if_neg hreglen]; rfl

/-- What a result consists of. -/
theorem yieldAnalysis_inv {K : Type*} [Field K] [LinearOrder K] {fl sqr sqrt : K → K} {draws : List (List ℕ)}
    {data : List K} {r : Analysis K} (h : yieldAnalysis fl sqr sqrt draws data = some r) :
    ∃ q1 q3 mean stdev, quartile fl 1 data = some q1 ∧ quartile fl 3 data = some q3 ∧
      meanStdev fl sqr sqrt data = some (mean, stdev) ∧
      r.lowInn = fl (q1 - fl (3 / 2 * fl (q3 - q1))) ∧ r.uppInn = fl (q3 + fl (3 / 2 * fl (q3 - q1))) ∧
      r.lowOut = fl (q1 - fl (3 * fl (q3 - q1))) ∧ r.uppOut = fl (q3 + fl (3 * fl (q3 - q1))) ∧
      r.mean = mean ∧ r.stdev = stdev ∧ r.lower = fl (mean - fl (3 * stdev)) ∧ r.upper = fl (mean + fl (3 * stdev)) ∧
      (r.goodbench = true ↔ ¬ (((data.filter fun x => decide (r.lower ≤ x ∧ x ≤ r.upper)).length : K) <
        fl (fl (95 / 100) * (data.length : K)))) ∧
      r.extr = (data.filter fun x => decide (x < r.lowOut ∨ r.uppOut < x)).length ∧
      r.mild = (data.filter fun x => decide (x < r.lowInn ∨ r.uppInn < x)).length - r.extr ∧
      r.metricsNooutliers = average fl (data.filter fun x => decide (r.lowInn ≤ x ∧ x ≤ r.uppInn)) ∧
      r.stdevNooutliers = (meanStdev fl sqr sqrt
        (data.filter fun x => decide (r.lowInn ≤ x ∧ x ≤ r.uppInn))).map fun r => r.2 := by
  unfold yieldAnalysis at h
  cases e1 : quartile fl 1 data with
  | none => rw [e1] at h; simp at h
  | some q1 =>
    cases e3 : quartile fl 3 data with
    | none => rw [e1, e3] at h; simp at h
    | some q3 =>
      rw [e1, e3] at h
      simp only at h
      cases eb : bootstrap data (average fl) draws (1 / 40) with
      | none => rw [eb] at h; simp at h
      | some bs =>
        cases em : meanStdev fl sqr sqrt data with
        | none => rw [eb, em] at h; simp at h
        | some ms =>
          obtain ⟨mean, stdev⟩ := ms
          rw [eb, em] at h
          rw [← Option.some.inj h]
          exact ⟨q1, q3, mean, stdev, rfl, rfl, rfl, rfl, rfl, rfl, rfl, rfl, rfl, rfl, rfl, by simp, rfl, rfl, rfl, rfl⟩

/-- Two neighbouring floats. -/
def neighbours : List ℚ := [8139546197775877 / 2 ^ 53, 8139546197775878 / 2 ^ 53]

/-- **C133, violated for two values.** For two neighbouring floats the first quartile can exceed the third one; then the
fences are in the wrong order, both values are outliers, and the mean without outliers is minus infinity. -/
theorem C133_two_violated (sqr sqrt : ℚ → ℚ) {draws : List (List ℕ)} {r : Analysis ℚ}
    (h : yieldAnalysis round64 sqr sqrt draws neighbours = some r) :
    (∀ x ∈ neighbours, round64 x = x) ∧ r.uppInn < r.lowInn ∧ r.mild + r.extr = neighbours.length ∧
      r.metricsNooutliers = ⊥ ∧ r.stdevNooutliers = none := by
  obtain ⟨q1, q3, m, s, e1, e3, -, a1, a2, a3, a4, -, -, -, -, -, b1, b2, b3, b4⟩ := yieldAnalysis_inv h
  have k1 : quartile round64 1 neighbours = some (8139546197775878 / 2 ^ 53) := by decide +kernel
  have k3 : quartile round64 3 neighbours = some (8139546197775877 / 2 ^ 53) := by decide +kernel
  rw [k1, Option.some.injEq] at e1
  rw [k3, Option.some.injEq] at e3
  subst e1 e3
  refine ⟨by decide +kernel, ?_, ?_, ?_, ?_⟩
  · rw [a1, a2]; decide +kernel
  · rw [b2, b1, a1, a2, a3, a4]; decide +kernel
  · rw [b3, a1, a2]; decide +kernel
  · have : (neighbours.filter fun x => decide (r.lowInn ≤ x ∧ x ≤ r.uppInn)) = [] := by
      rw [a1, a2]; decide +kernel
    rw [b4, this]
    rfl

/-- The result exists: one resample of one value. -/
example : (yieldAnalysis round64 id id [[0]] neighbours).isSome = true := by decide +kernel

/-- **C133, violated.** Ten times the value 0.1: there is no outlier, and the mean without outliers lies below the lower
inner fence. -/
theorem C133_mean_violated (sqr sqrt : ℚ → ℚ) {draws : List (List ℕ)} {r : Analysis ℚ}
    (h : yieldAnalysis round64 sqr sqrt draws (List.replicate 10 (round64 (1 / 10))) = some r) :
    r.mild = 0 ∧ r.extr = 0 ∧ r.lowInn = round64 (1 / 10) ∧ r.uppInn = round64 (1 / 10) ∧
      r.metricsNooutliers < (r.lowInn : WithBot ℚ) := by
  obtain ⟨q1, q3, m, s, e1, e3, -, a1, a2, a3, a4, -, -, -, -, -, b1, b2, b3, -⟩ := yieldAnalysis_inv h
  have k1 : quartile round64 1 (List.replicate 10 (round64 (1 / 10 : ℚ))) = some (round64 (1 / 10)) := by decide +kernel
  have k3 : quartile round64 3 (List.replicate 10 (round64 (1 / 10 : ℚ))) = some (round64 (1 / 10)) := by decide +kernel
  rw [k1, Option.some.injEq] at e1
  rw [k3, Option.some.injEq] at e3
  subst e1 e3
  refine ⟨?_, ?_, ?_, ?_, ?_⟩
  · rw [b2, b1, a1, a2, a3, a4]; decide +kernel
  · rw [b1, a3, a4]; decide +kernel
  · rw [a1]; decide +kernel
  · rw [a2]; decide +kernel
  · rw [b3, a1, a2]; decide +kernel

/-- **C133, violated.** The mean depends on the order of the data. -/
theorem C133_order_violated (sqr sqrt : ℚ → ℚ) {draws draws' : List (List ℕ)} {r r' : Analysis ℚ}
    (h : yieldAnalysis round64 sqr sqrt draws [1, 1 / 2 ^ 53, 1 / 2 ^ 53] = some r)
    (h' : yieldAnalysis round64 sqr sqrt draws' [1 / 2 ^ 53, 1 / 2 ^ 53, 1] = some r') : r.mean ≠ r'.mean := by
  obtain ⟨-, -, m, s, -, -, e, -, -, -, -, a, -⟩ := yieldAnalysis_inv h
  obtain ⟨-, -, m', s', -, -, e', -, -, -, -, a', -⟩ := yieldAnalysis_inv h'
  rw [a, a']
  have k : m = mean round64 [1, 1 / 2 ^ 53, 1 / 2 ^ 53] := by
    unfold meanStdev at e
    rw [if_neg (by simp)] at e
    simp only [Option.some.injEq, Prod.mk.injEq] at e
    exact e.1.symm
  have k' : m' = mean round64 [1 / 2 ^ 53, 1 / 2 ^ 53, 1] := by
    unfold meanStdev at e'
    rw [if_neg (by simp)] at e'
    simp only [Option.some.injEq, Prod.mk.injEq] at e'
    exact e'.1.symm
  rw [k, k']
  decide +kernel

/-- Seven values, one of them extreme: the inner fences are 2 and 14. -/
example : (quartile round64 1 [5, 6, 7, 8, 9, 10, (100 : ℚ)] = some (13 / 2)) ∧
    (quartile round64 3 [5, 6, 7, 8, 9, 10, (100 : ℚ)] = some (19 / 2)) ∧
    ((yieldAnalysis round64 id id [[0]] [5, 6, 7, 8, 9, 10, (100 : ℚ)]).map fun r => (r.lowInn, r.uppInn, r.mild, r.extr)) =
      some (2, 14, 0, 1) := by decide +kernel

/-! ## The mark -/

/-- 95 percent, rounded, of a number of values. -/
theorem mark_iff {n w : ℕ} (hn : n < 2 ^ 47) (hw : w ≤ n) :
    ¬ ((w : ℝ) < round64 (round64 (95 / 100) * (n : ℝ))) ↔ 19 * n ≤ 20 * w := by
  have hc : round64 (95 / 100 : ℝ) ≤ 95 / 100 := by
    have h : round64 (95 / 100 : ℚ) ≤ 95 / 100 := by decide +kernel
    have e := round64_cast (95 / 100)
    push_cast at e
    rw [e]
    have := (Rat.cast_le (K := ℝ)).2 h
    push_cast at this
    exact this
  have hc' : 95 / 100 - 1 / 2 ^ 53 ≤ round64 (95 / 100 : ℝ) := by
    have := (round64_accurate (K := ℝ)).error (95 / 100)
      (by rw [abs_of_pos (by norm_num)]; exact (pow_le_pow_of_le_one (by norm_num) (by norm_num) (by norm_num : 1 ≤ 1022)).trans (by norm_num))
    rw [abs_of_pos (by norm_num : (0 : ℝ) < 95 / 100)] at this
    have := (abs_le.1 this).1
    linarith
  have hn0 : (0 : ℝ) ≤ n := Nat.cast_nonneg n
  have hnR : (n : ℝ) < 2 ^ 47 := by exact_mod_cast hn
  rw [not_lt]
  constructor
  · intro h
    by_contra hlt
    have h1 : 20 * (w : ℝ) + 1 ≤ 19 * n := by
      have : 20 * w + 1 ≤ 19 * n := by omega
      exact_mod_cast this
    have npos : (1 : ℝ) ≤ n := by
      have : 1 ≤ n := by omega
      exact_mod_cast this
    generalize round64 (95 / 100 : ℝ) = c at *
    have hcn : 1 / 2 ≤ c * n := by
      have : (1 / 2 : ℝ) ≤ c := le_trans (by norm_num) hc'
      nlinarith
    have he := (round64_accurate (K := ℝ)).error (c * n)
      (by rw [abs_of_pos (by linarith)]
          exact (pow_le_pow_of_le_one (by norm_num) (by norm_num) (by norm_num : 1 ≤ 1022)).trans (by linarith))
    rw [abs_of_pos (by linarith : (0 : ℝ) < c * n)] at he
    have he' := (abs_le.1 he).1
    have h2 : c * n ≤ n := by nlinarith
    have h3 : (95 / 100 - 1 / 2 ^ 53) * (n : ℝ) ≤ c * n := mul_le_mul_of_nonneg_right hc' hn0
    have h4 : (1 : ℝ) / 2 ^ 53 * (c * n) ≤ 1 / 2 ^ 53 * n := mul_le_mul_of_nonneg_left h2 (by positivity)
    have h5 : (1 : ℝ) / 2 ^ 53 * n < 1 / 64 := by
      have := mul_lt_mul_of_pos_left hnR (by positivity : (0 : ℝ) < 1 / 2 ^ 53)
      exact this.trans_le (by norm_num)
    generalize (1 : ℝ) / 2 ^ 53 = u at *
    linarith
  · intro h
    have h1 : 19 * (n : ℝ) ≤ 20 * w := by exact_mod_cast h
    have hwf : round64 (w : ℝ) = w := by
      refine round64_float ⟨w, 0, ?_, by norm_num, by simp⟩
      rw [abs_of_nonneg (by positivity)]
      have : w < 2 ^ 53 := by omega
      exact_mod_cast this
    conv_rhs => rw [← hwf]
    refine round64_mono ?_
    nlinarith [mul_le_mul_of_nonneg_right hc hn0]

theorem term_near' {sqr : ℝ → ℝ} (hq : SquareOk sqr) {x y : ℝ} (hx : OnGrid 457 x) (hy : OnGrid 457 y) :
    Near unit 5 ((x - y) ^ 2) (sqr (round64 (x - y))) ∧ Big 915 (sqr (round64 (x - y))) := by
  have R := round64_accurate (K := ℝ)
  have hb := big_abs (hx.sub hy)
  have he : |round64 (x - y)| = round64 |x - y| := by
    rcases le_total 0 (x - y) with h | h
    · rw [abs_of_nonneg h, abs_of_nonneg (R.nonneg h)]
    · rw [abs_of_nonpos h, round64_neg, abs_of_nonpos]
      have := R.nonneg (x := -(x - y)) (by linarith)
      rw [round64_neg] at this
      linarith
  have h1 : Near unit 1 |x - y| |round64 (x - y)| := by
    rw [he]
    exact near_fl R unit_nonneg unit_le hb (by norm_num)
  have h2 : Big 457 |round64 (x - y)| := by
    rw [he]
    exact hb.round R (by norm_num)
  have hd : round64 (x - y) = 0 ∨ (1 / 2 : ℝ) ^ 511 ≤ |round64 (x - y)| := by
    rcases h2 with h | h
    · exact Or.inl (abs_eq_zero.1 h)
    · exact Or.inr (le_trans (pow_le_pow_of_le_one (by norm_num) (by norm_num) (by norm_num)) h)
  have hs := square_near hq hd
  have h3 := h1.mul unit_le h1
  rw [← pow_two, ← pow_two, sq_abs, sq_abs] at h3
  refine ⟨h3.trans unit_le hs, ?_⟩
  rcases h2 with h | h
  · left
    rw [abs_eq_zero] at h
    rw [h] at hs ⊢
    have := hs.le'
    have h5 := hs.nonneg'
    have h6 : (0 : ℝ) < (1 - 1 / 2 ^ 53) ^ 3 := by norm_num
    nlinarith
  · right
    have h4 := hs.le
    have h5 : (1 / 2 : ℝ) ^ 914 ≤ round64 (x - y) ^ 2 := by
      rw [← sq_abs (round64 (x - y))]
      calc (1 / 2 : ℝ) ^ 914 = ((1 / 2) ^ 457) ^ 2 := by rw [show (914 : ℕ) = 457 * 2 by norm_num, pow_mul]
        _ ≤ _ := pow_le_pow_left₀ (by positivity) h 2
    have h6 : (1 / 2 : ℝ) ≤ (1 - 1 / 2 ^ 53) ^ 3 := by norm_num
    calc (1 / 2 : ℝ) ^ 915 = 1 / 2 * (1 / 2) ^ 914 := by rw [pow_succ, mul_comm]
      _ ≤ (1 - 1 / 2 ^ 53) ^ 3 * round64 (x - y) ^ 2 := mul_le_mul h6 h5 (by positivity) (by positivity)
      _ ≤ _ := h4

/-- The standard deviation around `m`. -/
theorem stdev_near {sqr : ℝ → ℝ} (hq : SquareOk sqr) {data : List ℝ} (hne : data ≠ []) (hn : data.length < 2 ^ 53)
    (ht : ∀ x ∈ data, OnGrid 457 x) {m : ℝ} (hm : OnGrid 457 m) :
    Near unit ((data.length + 9) / 2) (Real.sqrt ((data.map fun x => (x - m) ^ 2).sum / data.length))
      (round64 (Real.sqrt (mean round64 (data.map fun x => sqr (round64 (x - m)))))) ∧
    Big 484 (round64 (Real.sqrt (mean round64 (data.map fun x => sqr (round64 (x - m)))))) := by
  have hn0 : (0 : ℝ) < data.length := by exact_mod_cast List.length_pos_iff.2 hne
  obtain ⟨s1, s2⟩ := sumUp_near round64_accurate unit_nonneg unit_le (e := 915) (k := 5) (by norm_num)
    (forall₂_map (f := fun x => (x - m) ^ 2) (g := fun x => sqr (round64 (x - m))) data
      fun x hx => term_near' hq (ht x hx) hm)
  rw [List.length_map] at s1
  have q1 : Near unit (5 + data.length) ((data.map fun x => (x - m) ^ 2).sum / data.length)
      (sumUp round64 (data.map fun x => sqr (round64 (x - m))) / data.length) := by
    refine ⟨div_nonneg s1.nonneg hn0.le, div_nonneg s1.nonneg' hn0.le, ?_, ?_⟩
    · rw [← mul_div_assoc]; exact div_le_div_of_nonneg_right s1.le hn0.le
    · rw [← mul_div_assoc]; exact div_le_div_of_nonneg_right s1.le' hn0.le
  have q2 : Big 968 (sumUp round64 (data.map fun x => sqr (round64 (x - m))) / data.length) := by
    rcases s2 with h | h
    · left; rw [h, zero_div]
    · right
      rw [le_div_iff₀ hn0]
      have : (data.length : ℝ) ≤ 2 ^ 53 := by exact_mod_cast hn.le
      calc (1 / 2 : ℝ) ^ 968 * data.length ≤ (1 / 2) ^ 968 * 2 ^ 53 := mul_le_mul_of_nonneg_left this (by positivity)
        _ = (1 / 2) ^ 915 := by
          rw [show (968 : ℕ) = 915 + 53 by norm_num, pow_add, mul_assoc, ← mul_pow]
          norm_num
        _ ≤ _ := h
  have q3 := q1.trans unit_le (near_fl round64_accurate unit_nonneg unit_le q2 (by norm_num))
  have q4 := root_near (k := (data.length + 7) / 2) (e := 484) (by norm_num)
    (q3.mono unit_nonneg unit_le (by omega)) (q2.round round64_accurate (by norm_num))
  unfold mean
  rw [List.length_map]
  refine ⟨q4.mono unit_nonneg unit_le (by omega), ?_⟩
  exact (Big.sqrt (q2.round round64_accurate (by norm_num))).round round64_accurate (by norm_num)

/-- **C134.** The mean and the standard deviation are accurate up to rounding, and the mark is good if and only if at
least 95 percent of the values lie between the two bounds: the rounding of `0.95 * n` never matters. -/
theorem C134_mark {sqr : ℝ → ℝ} (hq : SquareOk sqr) {data : List ℝ} (hn : data.length < 2 ^ 47)
    (ht : ∀ x ∈ data, Tame x) {draws : List (List ℕ)} {r : Analysis ℝ}
    (h : yieldAnalysis round64 sqr (fun x => round64 (Real.sqrt x)) draws data = some r) :
    |r.mean * (data.length : ℝ) - data.sum| ≤
        ((1 + 1 / 2 ^ 53) ^ (data.length + 1) - 1) * (data.map fun x => |x|).sum ∧
      Near (1 / 2 ^ 53) ((data.length + 9) / 2)
        (Real.sqrt ((data.map fun x => (x - r.mean) ^ 2).sum / data.length)) r.stdev ∧
      r.lower = round64 (r.mean - round64 (3 * r.stdev)) ∧ r.upper = round64 (r.mean + round64 (3 * r.stdev)) ∧
      (r.goodbench = true ↔ 19 * data.length ≤ 20 * data.countP (fun x => decide (r.lower ≤ x ∧ x ≤ r.upper))) := by
  obtain ⟨q1, q3, m, s, -, -, em, -, -, -, -, e1, e2, e3, e4, e5, -⟩ := yieldAnalysis_inv h
  unfold meanStdev at em
  split_ifs at em with hl
  simp only [Option.some.injEq, Prod.mk.injEq] at em
  obtain ⟨rfl, rfl⟩ := em
  have hne : data ≠ [] := by simpa using hl
  obtain ⟨f1, -, f3⟩ := mean_facts hne (by omega) ht
  have hg : ∀ x ∈ data, OnGrid 457 x := fun x hx => grid_of_big (e := 405) (ht x hx).1
    ((ht x hx).2.imp id fun h => le_trans (pow_le_pow_of_le_one (by norm_num) (by norm_num) (by norm_num)) h)
  refine ⟨by rw [e1]; exact f1, ?_, by rw [e3, e1, e2], by rw [e4, e1, e2], ?_⟩
  · rw [e1, e2]
    exact (stdev_near hq hne (by omega) hg f3).1
  · rw [e5, List.countP_eq_length_filter]
    exact mark_iff hn (List.length_filter_le _ _)

/-! ## Few values -/

theorem sum_sq_nonneg (m : ℝ) (l : List ℝ) : 0 ≤ (l.map fun y => (y - m) ^ 2).sum := List.sum_nonneg fun z hz => by
  obtain ⟨y, -, rfl⟩ := List.mem_map.1 hz
  positivity

theorem upper_bound {data : List ℝ} (hn : data.length ≤ 9) (ht : ∀ x ∈ data, Tame x) {m s3 : ℝ}
    (hm : |m * data.length - data.sum| ≤ 1 / 2 ^ 40 * (data.map fun x => |x|).sum)
    (hs : (1 - 1 / 2 ^ 49) * Real.sqrt (data.map fun y => (y - m) ^ 2).sum ≤ s3) {x : ℝ} (hx : x ∈ data) :
    x ≤ round64 (m + s3) := by
  by_contra hlt
  rw [not_le] at hlt
  have hxf := (ht x hx).1
  have hd : s3 < x - m := by
    by_contra hc
    refine absurd hlt (not_lt.2 ?_)
    conv_lhs => rw [← hxf]
    exact round64_mono (by linarith)
  have hp := List.perm_cons_erase hx
  have hlen : ((data.erase x).length : ℝ) ≤ 8 := by
    have : (data.erase x).length ≤ 8 := by
      have := hp.length_eq
      rw [List.length_cons] at this
      omega
    exact_mod_cast this
  have hlen9 : (data.length : ℝ) = (data.erase x).length + 1 := by
    have := hp.length_eq
    rw [List.length_cons] at this
    exact_mod_cast this
  have hsq : (data.map fun y => (y - m) ^ 2).sum = (x - m) ^ 2 + ((data.erase x).map fun y => (y - m) ^ 2).sum := by
    rw [(hp.map _).sum_eq, List.map_cons, List.sum_cons]
  have hsum : data.sum = x + (data.erase x).sum := by rw [hp.sum_eq, List.sum_cons]
  have habs : (data.map fun x => |x|).sum = |x| + ((data.erase x).map fun x => |x|).sum := by
    rw [(hp.map _).sum_eq, List.map_cons, List.sum_cons]
  rw [hsq] at hs
  rw [habs, hsum, hlen9] at hm
  generalize hr : data.erase x = rest at *
  have hQ := sum_sq_nonneg m rest
  have hd0 : 0 < x - m := by
    by_contra hc
    have h0 : 0 ≤ s3 := le_trans (mul_nonneg (by norm_num) (Real.sqrt_nonneg _)) hs
    linarith
  -- the rounded bound is not far from x
  have h1 : x - m ≤ Real.sqrt ((x - m) ^ 2 + (rest.map fun y => (y - m) ^ 2).sum) :=
    Real.le_sqrt_of_sq_le (by linarith)
  have h2 : (1 - 1 / 2 ^ 49) * (x - m) ≤ s3 := le_trans (mul_le_mul_of_nonneg_left h1 (by norm_num)) hs
  have h3 := round64_near (m + s3) hxf
  rw [abs_of_pos (by linarith : 0 < x - (m + s3))] at h3
  have h4 : x - round64 (m + s3) ≤ 1 / 2 ^ 48 * (x - m) := by
    have := (abs_le.1 h3).1
    have e : (1 : ℝ) / 2 ^ 48 = 2 * (1 / 2 ^ 49) := by norm_num
    rw [e]
    generalize (1 : ℝ) / 2 ^ 49 = u at *
    linarith
  have h5 := float_apart hxf (round64_round64 (m + s3)) (ht x hx).zpow hlt.ne'
  rw [abs_of_pos (by linarith : 0 < x - round64 (m + s3))] at h5
  have h6 : |x| ≤ 64 * (x - m) := by
    have h7 := mul_le_mul_of_nonneg_left h4 (by positivity : (0 : ℝ) ≤ 2 ^ 54)
    have e : (2 : ℝ) ^ 54 * (1 / 2 ^ 48 * (x - m)) = 64 * (x - m) := by rw [← mul_assoc]; norm_num
    linarith
  -- the others are not far from the mean
  have h7 : (rest.map fun y => (y - m) ^ 2).sum < (x - m) ^ 2 / 32 := by
    by_contra hc
    rw [not_lt] at hc
    have h8 : 101 / 100 * (x - m) ≤ Real.sqrt ((x - m) ^ 2 + (rest.map fun y => (y - m) ^ 2).sum) := by
      refine Real.le_sqrt_of_sq_le ?_
      nlinarith [sq_nonneg (x - m)]
    have h9 := le_trans (mul_le_mul_of_nonneg_left h8 (by norm_num : (0 : ℝ) ≤ 1 - 1 / 2 ^ 49)) hs
    have e : (1 : ℝ) ≤ (1 - 1 / 2 ^ 49) * (101 / 100) := by norm_num
    rw [← mul_assoc] at h9
    nlinarith
  have h8 : ∀ y ∈ rest, |y| ≤ 66 * (x - m) := by
    intro y hy
    have h9 : (y - m) ^ 2 ≤ (rest.map fun y => (y - m) ^ 2).sum :=
      List.single_le_sum (by
        intro z hz
        obtain ⟨w, -, rfl⟩ := List.mem_map.1 hz
        positivity) _ (List.mem_map.2 ⟨y, hy, rfl⟩)
    have h10 : |y - m| ≤ x - m := abs_le_of_sq_le_sq (by nlinarith [sq_nonneg (x - m)]) hd0.le
    have h11 : |y| ≤ |y - m| + |m - x| + |x| := by
      have e : y = (y - m) + (m - x) + x := by ring
      conv_lhs => rw [e]
      exact (abs_add_le _ _).trans (by linarith [abs_add_le (y - m) (m - x)])
    rw [abs_sub_comm m x, abs_of_pos hd0] at h11
    linarith
  have h9 : (rest.map fun y => |y|).sum ≤ rest.length * (66 * (x - m)) := by
    have := List.sum_le_card_nsmul (rest.map fun y => |y|) (66 * (x - m)) (by
      intro z hz
      obtain ⟨w, hw, rfl⟩ := List.mem_map.1 hz
      exact h8 w hw)
    rw [nsmul_eq_mul, List.length_map] at this
    exact this
  have h10 : (rest.map fun y => |y|).sum ≤ 528 * (x - m) := by nlinarith
  have h11 : |m * (rest.length + 1) - (x + rest.sum)| ≤ (x - m) / 100 := by
    refine hm.trans ?_
    have := mul_le_mul_of_nonneg_left (by linarith : |x| + (rest.map fun y => |y|).sum ≤ 592 * (x - m))
      (by positivity : (0 : ℝ) ≤ 1 / 2 ^ 40)
    refine this.trans ?_
    rw [← mul_assoc, div_eq_mul_inv (x - m) 100, mul_comm (x - m) 100⁻¹]
    exact mul_le_mul_of_nonneg_right (by norm_num : (1 / 2 ^ 40 * 592 : ℝ) ≤ 100⁻¹) hd0.le
  have h12 := Statistics.sum_sq_le (rest.map fun y => y - m)
  have e1 : (rest.map fun y => y - m).sum = rest.sum - m * rest.length := by
    have := Statistics.sum_affine 1 (-m) rest
    simp only [one_mul, ← sub_eq_add_neg] at this
    rw [this]
    ring
  have e2 : ((fun x : ℝ => x ^ 2) ∘ fun y => y - m) = fun y => (y - m) ^ 2 := rfl
  rw [e1, List.length_map, List.map_map, e2] at h12
  have h13 := abs_le.1 h11
  have h14 : 99 / 100 * (x - m) ≤ -(rest.sum - m * rest.length) := by linarith [h13.1, h13.2]
  have h15 : (99 / 100 * (x - m)) ^ 2 ≤ (-(rest.sum - m * rest.length)) ^ 2 :=
    pow_le_pow_left₀ (by linarith) h14 2
  have h16 : (rest.length : ℝ) * (rest.map fun y => (y - m) ^ 2).sum ≤ 8 * ((x - m) ^ 2 / 32) :=
    mul_le_mul hlen h7.le hQ (by norm_num)
  nlinarith [sq_pos_of_pos hd0]

/-- **C134.** With at most nine values the mark is good in floating point, too, whatever the values are. -/
theorem C134_small_partial {sqr : ℝ → ℝ} (hq : SquareOk sqr) {data : List ℝ} (hn : data.length ≤ 9)
    (ht : ∀ x ∈ data, Tame x) {draws : List (List ℕ)} {r : Analysis ℝ}
    (h : yieldAnalysis round64 sqr (fun x => round64 (Real.sqrt x)) draws data = some r) : r.goodbench = true := by
  obtain ⟨f1, f2, f3, f4, f5⟩ := C134_mark hq (by omega) ht h
  obtain ⟨-, -, m, s, -, -, em, -, -, -, -, e1, e2, -⟩ := yieldAnalysis_inv h
  unfold meanStdev at em
  split_ifs at em with hl
  simp only [Option.some.injEq, Prod.mk.injEq] at em
  obtain ⟨rfl, rfl⟩ := em
  have hne : data ≠ [] := by simpa using hl
  have hg : ∀ x ∈ data, OnGrid 457 x := fun x hx => grid_of_big (e := 405) (ht x hx).1
    ((ht x hx).2.imp id fun h => le_trans (pow_le_pow_of_le_one (by norm_num) (by norm_num) (by norm_num)) h)
  obtain ⟨-, -, g⟩ := mean_facts hne (by omega) ht
  have hbig := (stdev_near hq hne (by omega) hg g).2
  rw [← e2] at hbig
  have hn0 : (0 : ℝ) < data.length := by exact_mod_cast Nat.pos_of_ne_zero hl
  have hn9 : (data.length : ℝ) ≤ 9 := by exact_mod_cast hn
  have hm : |r.mean * data.length - data.sum| ≤ 1 / 2 ^ 40 * (data.map fun x => |x|).sum := by
    refine f1.trans (mul_le_mul_of_nonneg_right ?_ (sum_abs_nonneg _))
    have : ((1 : ℝ) + 1 / 2 ^ 53) ^ (data.length + 1) ≤ (1 + 1 / 2 ^ 53) ^ 10 :=
      pow_le_pow_right₀ (by norm_num) (by omega)
    refine (sub_le_sub_right this 1).trans (by norm_num)
  have hb3 : Big 484 (3 * r.stdev) := by
    rcases hbig with h | h
    · left; rw [h, mul_zero]
    · right
      have h0 := half_pos' (K := ℝ) 484
      generalize ((1 : ℝ) / 2) ^ 484 = b at *
      linarith
  have hs : (1 - 1 / 2 ^ 49) * Real.sqrt (data.map fun y => (y - r.mean) ^ 2).sum ≤ round64 (3 * r.stdev) := by
    have h1 := (near_fl round64_accurate unit_nonneg unit_le hb3 (by norm_num)).le
    have h2 := (f2.mono (l := 9) unit_nonneg unit_le (by omega)).le
    have hQ := sum_sq_nonneg r.mean data
    have h3 : Real.sqrt (data.map fun y => (y - r.mean) ^ 2).sum ≤
        3 * Real.sqrt ((data.map fun y => (y - r.mean) ^ 2).sum / data.length) := by
      refine Real.sqrt_le_iff.2 ⟨by positivity, ?_⟩
      rw [mul_pow, Real.sq_sqrt (div_nonneg hQ hn0.le), ← mul_div_assoc, le_div_iff₀ hn0]
      nlinarith
    have h4 : (0 : ℝ) ≤ (1 - 1 / 2 ^ 53) ^ 9 := by norm_num
    have e : (1 - 1 / 2 ^ 49 : ℝ) ≤ (1 - 1 / 2 ^ 53) ^ 1 * (1 - 1 / 2 ^ 53) ^ 9 := by norm_num
    calc _ ≤ ((1 - 1 / 2 ^ 53) ^ 1 * (1 - 1 / 2 ^ 53) ^ 9) * Real.sqrt (data.map fun y => (y - r.mean) ^ 2).sum :=
          mul_le_mul_of_nonneg_right e (Real.sqrt_nonneg _)
      _ ≤ ((1 - 1 / 2 ^ 53) ^ 1 * (1 - 1 / 2 ^ 53) ^ 9) *
            (3 * Real.sqrt ((data.map fun y => (y - r.mean) ^ 2).sum / data.length)) :=
          mul_le_mul_of_nonneg_left h3 (by norm_num)
      _ = (1 - 1 / 2 ^ 53) ^ 1 * (3 * ((1 - 1 / 2 ^ 53) ^ 9 *
            Real.sqrt ((data.map fun y => (y - r.mean) ^ 2).sum / data.length))) := by ring
      _ ≤ (1 - 1 / 2 ^ 53) ^ 1 * (3 * r.stdev) :=
          mul_le_mul_of_nonneg_left (mul_le_mul_of_nonneg_left h2 (by norm_num)) (by norm_num)
      _ ≤ _ := h1
  have hup : ∀ x ∈ data, x ≤ r.upper := fun x hx => by
    rw [f4]
    exact upper_bound hn ht hm hs hx
  have hlow : ∀ x ∈ data, r.lower ≤ x := fun x hx => by
    have e1 : ((data.map fun x => -x).map fun x => |x|) = data.map fun x => |x| := by
      rw [List.map_map]
      exact List.map_congr_left fun x _ => abs_neg x
    have e2 : ((data.map fun x => -x).map fun y => (y - -r.mean) ^ 2) = data.map fun y => (y - r.mean) ^ 2 := by
      rw [List.map_map]
      refine List.map_congr_left fun x _ => ?_
      simp only [Function.comp]
      ring
    have e3 : (data.map fun x => -x).sum = -data.sum := by
      have := Statistics.sum_affine (-1) 0 data
      simp only [add_zero, zero_mul, neg_one_mul] at this
      exact this
    have := upper_bound (data := data.map fun x => -x) (m := -r.mean) (s3 := round64 (3 * r.stdev))
      (by rwa [List.length_map]) (fun y hy => by
        obtain ⟨z, hz, rfl⟩ := List.mem_map.1 hy
        exact (ht z hz).neg) (by
        rw [e1, e3, List.length_map, neg_mul, ← neg_sub', abs_neg]
        exact hm) (by rw [e2]; exact hs) (x := -x) (List.mem_map.2 ⟨x, hx, rfl⟩)
    rw [f3]
    have e4 : -r.mean + round64 (3 * r.stdev) = -(r.mean - round64 (3 * r.stdev)) := by ring
    rw [e4, round64_neg] at this
    linarith
  rw [f5]
  have : data.countP (fun x => decide (r.lower ≤ x ∧ x ≤ r.upper)) = data.length := by
    rw [List.countP_eq_length]
    intro x hx
    simpa using ⟨hlow x hx, hup x hx⟩
  omega

theorem sumUp_cast (xs : List ℚ) : sumUp round64 (xs.map fun q : ℚ => (q : ℝ)) = ((sumUp round64 xs : ℚ) : ℝ) := by
  have key : ∀ (xs : List ℚ) (s : ℚ), (xs.map fun q : ℚ => (q : ℝ)).foldl (fun s x => round64 (s + x)) (s : ℝ) =
      ((xs.foldl (fun s x => round64 (s + x)) s : ℚ) : ℝ) := by
    intro xs
    induction xs with
    | nil => intro s; rfl
    | cons x xs ih =>
      intro s
      rw [List.map_cons, List.foldl_cons, List.foldl_cons, ← Rat.cast_add, round64_cast, ih]
  have := key xs 0
  rwa [Rat.cast_zero] at this

theorem mean_cast (xs : List ℚ) : mean round64 (xs.map fun q : ℚ => (q : ℝ)) = ((mean round64 xs : ℚ) : ℝ) := by
  unfold mean
  rw [sumUp_cast, List.length_map, ← Rat.cast_natCast, ← Rat.cast_div, round64_cast]

/-- Nine runs with the value 0 and one with the value 7. -/
def nineToOne : List ℚ := List.replicate 9 0 ++ [7]

theorem square_ok : SquareOk fun x => round64 (x ^ 2) := by
  intro x hx
  simp only
  rcases hx with rfl | hx
  · simp [round64, roundPos_zero]
  · have h : (1 / 2 : ℝ) ^ 1022 ≤ |x ^ 2| := by
      rw [abs_pow, show (1022 : ℕ) = 511 * 2 from rfl, pow_mul]
      exact pow_le_pow_left₀ (by positivity) hx 2
    have := round64_accurate.error _ h
    rw [abs_of_nonneg (sq_nonneg x)] at this
    refine this.trans (mul_le_mul_of_nonneg_right (by norm_num) (sq_nonneg x))

/-- **C134, violated for ten values.** With exact arithmetic ten values always get the good mark (`C100_small`); nine
times 0 and once 7 get the bad one, because 7 lies above the rounded upper bound 6.999999999999999. -/
theorem C134_ten_violated {draws : List (List ℕ)} {r : Analysis ℝ}
    (h : yieldAnalysis round64 (fun x => round64 (x ^ 2)) (fun x => round64 (Real.sqrt x)) draws
      (nineToOne.map fun q : ℚ => (q : ℝ)) = some r) :
    r.goodbench = false ∧ (∀ x ∈ nineToOne.map fun q : ℚ => (q : ℝ), Tame x) := by
  have ht : ∀ x ∈ nineToOne.map fun q : ℚ => (q : ℝ), Tame x := by
    intro x hx
    obtain ⟨q, hq, rfl⟩ := List.mem_map.1 hx
    have h1 : ∀ q ∈ nineToOne, round64 q = q ∧ (q = 0 ∨ 1 ≤ q) := by decide +kernel
    obtain ⟨a, b⟩ := h1 q hq
    refine ⟨by rw [round64_cast, a], ?_⟩
    rcases b with rfl | b
    · left; simp
    · right
      have hb : (1 : ℝ) ≤ q := by exact_mod_cast b
      rw [abs_of_pos (by linarith)]
      exact (pow_le_one₀ (by norm_num) (by norm_num)).trans hb
  refine ⟨?_, ht⟩
  obtain ⟨-, -, -, f4, f5⟩ := C134_mark square_ok (by decide) ht h
  obtain ⟨-, -, m, s, -, -, em, -, -, -, -, e1, e2, -⟩ := yieldAnalysis_inv h
  unfold meanStdev at em
  rw [if_neg (by decide)] at em
  simp only [Option.some.injEq, Prod.mk.injEq] at em
  obtain ⟨rfl, rfl⟩ := em
  rw [mean_cast] at e1 e2
  have ev : ((nineToOne.map fun q : ℚ => (q : ℝ)).map fun x : ℝ =>
        round64 ((round64 (x - ((mean round64 nineToOne : ℚ) : ℝ))) ^ 2)) =
      (nineToOne.map fun x => round64 ((round64 (x - mean round64 nineToOne)) ^ 2)).map fun q : ℚ => (q : ℝ) := by
    rw [List.map_map, List.map_map]
    refine List.map_congr_left fun q _ => ?_
    simp only [Function.comp]
    rw [← Rat.cast_sub, round64_cast, ← Rat.cast_pow, round64_cast]
  rw [ev, mean_cast] at e2
  have hs : r.stdev ≤ ((round64 (209999999999999984 / 100000000000000000) : ℚ) : ℝ) := by
    rw [e2, ← round64_cast]
    refine round64_mono (Real.sqrt_le_iff.2 ⟨by norm_num, ?_⟩)
    have : mean round64 (nineToOne.map fun x => round64 ((round64 (x - mean round64 nineToOne)) ^ 2)) ≤
        (209999999999999984 / 100000000000000000) ^ 2 := by decide +kernel
    exact_mod_cast this
  have hu : r.upper < 7 := by
    rw [f4, e1]
    have h1 : round64 (3 * r.stdev) ≤ ((round64 (3 * round64 (209999999999999984 / 100000000000000000)) : ℚ) : ℝ) := by
      rw [← round64_cast]
      refine round64_mono ?_
      push_cast
      linarith
    have h2 : round64 ((mean round64 nineToOne : ℚ) + round64 (3 * r.stdev)) ≤ ((round64 (mean round64 nineToOne +
        round64 (3 * round64 (209999999999999984 / 100000000000000000))) : ℚ) : ℝ) := by
      rw [← round64_cast]
      refine round64_mono ?_
      push_cast
      linarith
    refine h2.trans_lt ?_
    have : round64 (mean round64 nineToOne + round64 (3 * round64 (209999999999999984 / 100000000000000000))) <
      (7 : ℚ) := by decide +kernel
    exact_mod_cast this
  rw [← Bool.not_eq_true, f5]
  have hc : (nineToOne.map fun q : ℚ => (q : ℝ)).countP (fun x => decide (r.lower ≤ x ∧ x ≤ r.upper)) ≤ 9 := by
    unfold nineToOne
    rw [List.map_append, List.countP_append]
    have e : ([(7 : ℚ)].map fun q : ℚ => (q : ℝ)).countP (fun x => decide (r.lower ≤ x ∧ x ≤ r.upper)) = 0 := by
      rw [List.countP_eq_zero]
      intro x hx
      simp only [List.map_cons, List.map_nil, List.mem_singleton] at hx
      subst hx
      simp only [decide_eq_true_eq, not_and, not_le]
      intro _
      exact_mod_cast hu
    rw [e]
    refine List.countP_le_length.trans ?_
    simp
  have hl : (nineToOne.map fun q : ℚ => (q : ℝ)).length = 10 := rfl
  omega

/-- The result exists, and the mark is bad. -/
example : ∃ r, yieldAnalysis round64 (fun x => round64 (x ^ 2)) (fun x => round64 (Real.sqrt x)) [[0, 9], [3, 3]]
    (nineToOne.map fun q : ℚ => (q : ℝ)) = some r ∧ r.goodbench = false := by
  have ht : ∀ x ∈ nineToOne.map fun q : ℚ => (q : ℝ), Tame x := by
    intro x hx
    simp only [nineToOne, List.mem_map, List.mem_append, List.mem_replicate, List.mem_singleton] at hx
    obtain ⟨q, ⟨-, rfl⟩ | rfl, rfl⟩ := hx
    · exact ⟨by simp [round64, roundPos_zero], Or.inl (by simp)⟩
    · refine ⟨round64_float ⟨7, 0, by norm_num, by norm_num, by simp⟩, Or.inr ?_⟩
      refine (pow_le_one₀ (by norm_num) (by norm_num)).trans ?_
      norm_num
  obtain ⟨r, hr, -⟩ := C133_outliers_partial (fun x => round64 (x ^ 2)) (fun x => round64 (Real.sqrt x)) (by simp [nineToOne])
    (by decide) (by decide) ht (draws := [[0, 9], [3, 3]]) (by simp) (k := 2) (by simp) (by decide)
  exact ⟨r, hr, (C134_ten_violated hr).1⟩

/-- Three values: the mark is good. -/
example : ∃ r, yieldAnalysis round64 (fun x => round64 (x ^ 2)) (fun x => round64 (Real.sqrt x)) [[0]] [1, 2, (4 : ℝ)] =
    some r ∧ r.goodbench = true := by
  have ht : ∀ x ∈ [1, 2, (4 : ℝ)], Tame x := by
    intro x hx
    simp only [List.mem_cons, List.not_mem_nil, or_false] at hx
    have h1 : ((1 : ℝ) / 2) ^ 300 ≤ 1 := pow_le_one₀ (by norm_num) (by norm_num)
    rcases hx with rfl | rfl | rfl
    · exact ⟨round64_float ⟨1, 0, by norm_num, by norm_num, by simp⟩, Or.inr (h1.trans (by norm_num))⟩
    · exact ⟨round64_float ⟨2, 0, by norm_num, by norm_num, by simp⟩, Or.inr (h1.trans (by norm_num))⟩
    · exact ⟨round64_float ⟨4, 0, by norm_num, by norm_num, by simp⟩, Or.inr (h1.trans (by norm_num))⟩
  obtain ⟨r, hr, -⟩ := C133_outliers_partial (fun x => round64 (x ^ 2)) (fun x => round64 (Real.sqrt x)) (by simp)
    (by decide) (by decide) ht (draws := [[0]]) (by simp) (k := 1) (by simp) (by simp)
  exact ⟨r, hr, C134_small_partial square_ok (by decide) ht hr⟩

end Evogil.Rounded.Stats
