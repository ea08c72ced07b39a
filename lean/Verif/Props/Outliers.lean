import Verif.Model.Outliers
import Verif.Props.Statistics
import Verif.Spec.Quartiles
import Mathlib.Tactic.Linarith
import Mathlib.Tactic.FieldSimp
import Mathlib.Tactic.Ring

/-!
# C99, C100: outliers, means and the quality mark of `yield_analysis`
-/

set_option linter.unusedSectionVars false

namespace Evogil.Statistics

open Spec

variable {K : Type*} [Field K] [LinearOrder K] [IsStrictOrderedRing K]

/-! ## Quartiles -/

theorem sorted_getElem_le {l : List K} (hs : l.Pairwise (· ≤ ·)) {i j : ℕ} (hij : i ≤ j)
    (hj : j < l.length) : l[i] ≤ l[j] := by
  rcases Nat.eq_or_lt_of_le hij with rfl | h
  · exact le_rfl
  · exact List.pairwise_iff_getElem.1 hs i j _ hj h

/-- A quartile lies between two neighbours of the sorted data. -/
theorem quartile_between (quarters : ℕ) (hq : quarters ≤ 4) {data : List K} (hne : data ≠ []) :
    ∃ q, quartile quarters data = some q ∧
    ∃ h : quarters * (data.length - 1) / 4 < (pySorted id data).length,
      (pySorted id data)[quarters * (data.length - 1) / 4] ≤ q ∧
      (∀ h' : quarters * (data.length - 1) / 4 + 1 < (pySorted id data).length,
        q ≤ (pySorted id data)[quarters * (data.length - 1) / 4 + 1] ∧
        q = (pySorted id data)[quarters * (data.length - 1) / 4] +
          ((quarters * (data.length - 1) % 4 : ℕ) : K) / 4 *
            ((pySorted id data)[quarters * (data.length - 1) / 4 + 1]
              - (pySorted id data)[quarters * (data.length - 1) / 4])) ∧
      (quarters * (data.length - 1) % 4 = 0 →
        q = (pySorted id data)[quarters * (data.length - 1) / 4]) := by
  have hl := pySorted_length id data
  have hpos : 0 < data.length := List.length_pos_iff.2 hne
  have hs : (pySorted id data).Pairwise (· ≤ ·) := pySorted_sorted id data
  generalize hS : pySorted id data = S at *
  generalize hp : quarters * (data.length - 1) = pos
  have hple : pos ≤ 4 * (data.length - 1) := by rw [← hp]; exact Nat.mul_le_mul_right _ hq
  have hi : pos / 4 < S.length := by omega
  unfold quartile
  simp only
  rw [hS, hp, List.getElem?_eq_getElem hi]
  simp only
  refine ⟨_, rfl, hi, ?_, ?_, ?_⟩
  · by_cases h' : pos / 4 + 1 < S.length
    · rw [List.getD_eq_getElem?_getD, List.getElem?_eq_getElem h', Option.getD_some]
      have h1 : S[pos / 4] ≤ S[pos / 4 + 1] := sorted_getElem_le hs (by omega) h'
      have h2 : (0 : K) ≤ ((pos % 4 : ℕ) : K) / 4 := by positivity
      have := mul_nonneg h2 (sub_nonneg.2 h1)
      linarith
    · rw [List.getD_eq_getElem?_getD, List.getElem?_eq_none (by omega), Option.getD_none]
      simp
  · intro h'
    rw [List.getD_eq_getElem?_getD, List.getElem?_eq_getElem h', Option.getD_some]
    refine ⟨?_, rfl⟩
    have h1 : S[pos / 4] ≤ S[pos / 4 + 1] := sorted_getElem_le hs (by omega) h'
    have h2 : ((pos % 4 : ℕ) : K) / 4 ≤ 1 := by
      rw [div_le_one (by norm_num)]
      exact_mod_cast (Nat.mod_lt pos (by norm_num)).le
    have := mul_le_mul_of_nonneg_right h2 (sub_nonneg.2 h1)
    linarith
  · intro h0
    rw [h0]
    simp

theorem quartile_isQuartile (quarters : ℕ) (hq : quarters ≤ 4) {data : List K} (hne : data ≠ [])
    {q : K} (h : quartile quarters data = some q) : IsQuartile quarters data q := by
  obtain ⟨q', e, hi, a, b, z⟩ := quartile_between quarters hq hne
  obtain rfl : q' = q := by rw [e] at h; exact Option.some.inj h
  have hl := pySorted_length id data
  have hpos : 0 < data.length := List.length_pos_iff.2 hne
  have hs : (pySorted id data).Pairwise (· ≤ ·) := pySorted_sorted id data
  have hperm := pySorted_perm id data
  generalize pySorted id data = S at *
  have hsplit : quarters * (data.length - 1) + (4 - quarters) * (data.length - 1)
      = 4 * (data.length - 1) := by rw [← Nat.add_mul]; congr 1; omega
  have hcount : ∀ p, data.countP p = S.countP p := fun p => hperm.symm.countP_eq p
  unfold IsQuartile
  rw [hcount, hcount]
  generalize quarters * (data.length - 1) = pos at *
  constructor
  · by_cases h0 : pos % 4 = 0
    · rw [z h0]
      have := countP_lt_sorted hs _ hi
      omega
    · have h' : pos / 4 + 1 < S.length := by omega
      have h2 := countP_lt_sorted hs _ h'
      have h1 : S.countP (fun x => decide (x < q')) ≤ S.countP
          (fun x => decide (x < S[pos / 4 + 1])) := by
        refine List.countP_mono_left ?_
        intro x _ hx
        simp only [decide_eq_true_eq] at hx ⊢
        exact hx.trans_le (b h').1
      omega
  · have h2 := countP_gt_sorted hs _ hi
    have h1 : S.countP (fun x => decide (q' < x)) ≤ S.countP
        (fun x => decide (S[pos / 4] < x)) := by
      refine List.countP_mono_left ?_
      intro x _ hx
      simp only [decide_eq_true_eq] at hx ⊢
      exact a.trans_lt hx
    omega

/-- The data below the first and above the third quartile, and a value which is no outlier. -/
theorem quartiles_spec {data : List K} (hne : data ≠ []) :
    ∃ q1 q3, quartile 1 data = some q1 ∧ quartile 3 data = some q3 ∧ q1 ≤ q3 ∧
      data.countP (fun x => decide (x < q1)) ≤ (data.length + 2) / 4 ∧
      data.countP (fun x => decide (q3 < x)) ≤ (data.length + 2) / 4 ∧
      ∃ x ∈ data, q1 - 3 / 2 * (q3 - q1) ≤ x ∧ x ≤ q3 + 3 / 2 * (q3 - q1) := by
  have hl := pySorted_length id data
  have hpos : 0 < data.length := List.length_pos_iff.2 hne
  have hs : (pySorted id data).Pairwise (· ≤ ·) := pySorted_sorted id data
  have hperm := pySorted_perm id data
  obtain ⟨q1, e1, i1, a1, b1, z1⟩ := quartile_between 1 (by norm_num) hne
  obtain ⟨q3, e3, i3, a3, b3, z3⟩ := quartile_between 3 (by norm_num) hne
  refine ⟨q1, q3, e1, e3, ?_⟩
  generalize pySorted id data = S at *
  generalize hn : data.length = n at *
  simp only [one_mul] at i1 a1 b1 z1
  have hcount : ∀ p, data.countP p = S.countP p := fun p => hperm.symm.countP_eq p
  have hmem : ∀ (i : ℕ) (h : i < S.length), S[i] ∈ data := fun i h =>
    hperm.mem_iff.1 (List.getElem_mem h)
  have hc1 : S.countP (fun x => decide (x < q1)) ≤ (n + 2) / 4 := by
    by_cases h0 : (n - 1) % 4 = 0
    · rw [z1 h0]
      exact (countP_lt_sorted hs _ i1).trans (by omega)
    · have h' : (n - 1) / 4 + 1 < S.length := by omega
      refine le_trans (List.countP_mono_left (q := fun x => decide (x < S[(n - 1) / 4 + 1])) ?_)
        ((countP_lt_sorted hs _ h').trans (by omega))
      intro x _ hx
      simp only [decide_eq_true_eq] at hx ⊢
      exact hx.trans_le (b1 h').1
  have hc3 : S.countP (fun x => decide (q3 < x)) ≤ (n + 2) / 4 := by
    refine le_trans (List.countP_mono_left (q := fun x => decide (S[3 * (n - 1) / 4] < x)) ?_)
      ((countP_gt_sorted hs _ i3).trans (by omega))
    intro x _ hx
    simp only [decide_eq_true_eq] at hx ⊢
    exact a3.trans_lt hx
  by_cases hlt : (n - 1) / 4 < 3 * (n - 1) / 4
  · have h' : (n - 1) / 4 + 1 < S.length := by omega
    have hm : S[(n - 1) / 4 + 1] ≤ S[3 * (n - 1) / 4] := sorted_getElem_le hs hlt i3
    have h1 := (b1 h').1
    have hq : q1 ≤ q3 := h1.trans (hm.trans a3)
    refine ⟨hq, by rw [hcount]; exact hc1, by rw [hcount]; exact hc3, _, hmem _ h', ?_, ?_⟩
    · linarith
    · linarith
  · have hn1 : n - 1 = 0 ∨ n - 1 = 1 := by omega
    rcases hn1 with h0 | h1
    · have z1' := z1 (by omega)
      have z3' := z3 (by omega)
      have e : 3 * (n - 1) / 4 = (n - 1) / 4 := by omega
      have hq : q1 = q3 := by rw [z1', z3']; congr 1; exact e.symm
      refine ⟨hq.le, by rw [hcount]; exact hc1, by rw [hcount]; exact hc3, _, hmem _ i1, ?_, ?_⟩
      · rw [← z1', hq]; simp
      · rw [← z1', hq]; simp
    · have h' : (n - 1) / 4 + 1 < S.length := by omega
      have h3' : 3 * (n - 1) / 4 + 1 < S.length := by omega
      obtain ⟨-, g1⟩ := b1 h'
      obtain ⟨-, g3⟩ := b3 h3'
      have k1 : (n - 1) / 4 = 0 := by omega
      have k3 : 3 * (n - 1) / 4 = 0 := by omega
      have r1 : (n - 1) % 4 = 1 := by omega
      have r3 : 3 * (n - 1) % 4 = 3 := by omega
      simp only [k1, k3, r1, r3] at g1 g3
      have hle : S[0] ≤ S[0 + 1] := sorted_getElem_le hs (by omega) (by omega)
      push_cast at g1 g3
      have hq : q1 ≤ q3 := by rw [g1, g3]; linarith
      refine ⟨hq, by rw [hcount]; exact hc1, by rw [hcount]; exact hc3, S[0]'(by omega),
        hmem 0 _, ?_, ?_⟩
      · rw [g1, g3]; linarith
      · rw [g1, g3]; linarith

/-! ## The classification -/

/-- **C99.** For non-empty data and at least one resample `yield_analysis` does not fail. The fences are
nested; the two numbers of outliers count the values outside of the outer fences, and between the
inner and the outer ones; at most `⌈(n-1)/4⌉` values on either side are outliers, at least one value
is none, and the mean without outliers is the mean of the values within the inner fences. -/
theorem C99_outliers (sq : K → K) {data : List K} (hne : data ≠ []) {draws : List (List ℕ)}
    (hd : draws ≠ []) {k : ℕ} (hk : ∀ d ∈ draws, d.length = k)
    (hi : ∀ d ∈ draws, ∀ i ∈ d, i < data.length) :
    ∃ r, yieldAnalysis sq draws data = some r ∧
      (∃ q1 q3, IsQuartile 1 data q1 ∧ IsQuartile 3 data q3 ∧
        r.lowInn = q1 - 3 / 2 * (q3 - q1) ∧ r.uppInn = q3 + 3 / 2 * (q3 - q1) ∧
        r.lowOut = q1 - 3 * (q3 - q1) ∧ r.uppOut = q3 + 3 * (q3 - q1)) ∧
      r.lowOut ≤ r.lowInn ∧ r.lowInn ≤ r.uppInn ∧ r.uppInn ≤ r.uppOut ∧
      r.extr = data.countP (fun x => decide (x < r.lowOut ∨ r.uppOut < x)) ∧
      r.mild = data.countP (fun x => decide ((r.lowOut ≤ x ∧ x < r.lowInn) ∨
        (r.uppInn < x ∧ x ≤ r.uppOut))) ∧
      data.countP (fun x => decide (x < r.lowInn)) ≤ (data.length + 2) / 4 ∧
      data.countP (fun x => decide (r.uppInn < x)) ≤ (data.length + 2) / 4 ∧
      r.mild + r.extr < data.length ∧
      ∃ (regular : List K) (m : K), regular = data.filter (fun x => decide (r.lowInn ≤ x ∧ x ≤ r.uppInn)) ∧
        regular ≠ [] ∧ r.metricsNooutliers = (m : WithBot K) ∧
        m * (regular.length : K) = regular.sum ∧ r.lowInn ≤ m ∧ m ≤ r.uppInn ∧
        r.stdevNooutliers.isSome := by
  obtain ⟨q1, q3, e1, e3, hq, c1, c3, x0, hx0, l0, u0⟩ := quartiles_spec hne
  obtain ⟨bs, -, hbs, -⟩ := bootstrap_spec data (average (K := K)) k draws (1 / 40) (by norm_num)
    (by norm_num) hd hk hi
  have hlen : data.length ≠ 0 := by simpa using hne
  have hms : meanStdev sq data = some (data.sum / (data.length : K),
      sq ((data.map fun x => (x - data.sum / (data.length : K)) ^ 2).sum / (data.length : K))) := by
    unfold meanStdev; rw [if_neg hlen]
  unfold yieldAnalysis
  rw [e1, e3]
  simp only
  rw [hbs, hms]
  refine ⟨_, rfl, ?_⟩
  simp only
  have hiq : 0 ≤ q3 - q1 := sub_nonneg.2 hq
  set lowInn := q1 - 3 / 2 * (q3 - q1) with hli
  set uppInn := q3 + 3 / 2 * (q3 - q1) with hui
  set lowOut := q1 - 3 * (q3 - q1) with hlo
  set uppOut := q3 + 3 * (q3 - q1) with huo
  have h1 : lowOut ≤ lowInn := by rw [hlo, hli]; linarith
  have h2 : lowInn ≤ uppInn := by rw [hli, hui]; linarith
  have h3 : uppInn ≤ uppOut := by rw [hui, huo]; linarith
  set regular := data.filter (fun x => decide (lowInn ≤ x ∧ x ≤ uppInn)) with hreg
  have hregne : regular ≠ [] := by
    refine List.ne_nil_of_mem (a := x0) ?_
    rw [hreg, List.mem_filter]
    exact ⟨hx0, by simpa using ⟨l0, u0⟩⟩
  have hreglen : regular.length ≠ 0 := by simpa using hregne
  have hmild : (data.filter fun x => decide (x < lowInn ∨ uppInn < x)).length =
      data.countP (fun x => decide ((lowOut ≤ x ∧ x < lowInn) ∨ (uppInn < x ∧ x ≤ uppOut))) +
      data.countP (fun x => decide (x < lowOut ∨ uppOut < x)) := by
    rw [← List.countP_eq_length_filter]
    clear_value lowInn uppInn lowOut uppOut
    clear hregne hreglen regular hreg c1 c3 hms hlen hne hbs hx0 l0 u0 e1 e3 hi
    induction data with
    | nil => rfl
    | cons x l ih =>
      simp only [List.countP_cons, ih]
      by_cases hlow : x < lowInn
      · by_cases hlo' : x < lowOut
        · have a1 : ¬ (uppInn < x) := not_lt.2 (hlow.le.trans h2)
          have a2 : ¬ (lowOut ≤ x) := not_le.2 hlo'
          simp [hlow, hlo', a1, a2]; omega
        · have a1 : ¬ (uppOut < x) := not_lt.2 (hlow.le.trans (h2.trans h3))
          simp [hlow, hlo', a1, not_lt.1 hlo']; omega
      · by_cases hup : uppInn < x
        · have a0 : ¬ (x < lowOut) := not_lt.2 (h1.trans (not_lt.1 hlow))
          by_cases hup' : uppOut < x
          · have a1 : ¬ (x ≤ uppOut) := not_le.2 hup'
            simp [hlow, hup, hup', a0, a1]; omega
          · simp [hlow, hup, hup', a0, not_lt.1 hup']; omega
        · have a0 : ¬ (x < lowOut) := not_lt.2 (h1.trans (not_lt.1 hlow))
          have a1 : ¬ (uppOut < x) := not_lt.2 ((not_lt.1 hup).trans h3)
          simp [hlow, hup, a0, a1]
  have hexc : (data.filter fun x => decide (x < lowOut ∨ uppOut < x)).length =
      data.countP (fun x => decide (x < lowOut ∨ uppOut < x)) := List.countP_eq_length_filter.symm
  have hall : data.countP (fun x => decide (x < lowInn ∨ uppInn < x)) < data.length := by
    rw [List.length_eq_countP_add_countP (l := data) (fun x => decide (x < lowInn ∨ uppInn < x))]
    have : 0 < data.countP (fun x => decide (¬ decide (x < lowInn ∨ uppInn < x) = true)) := by
      rw [List.countP_pos_iff]
      exact ⟨x0, hx0, by simpa using ⟨l0, u0⟩⟩
    omega
  rw [List.countP_eq_length_filter] at hall
  refine ⟨⟨q1, q3, quartile_isQuartile 1 (by norm_num) hne e1,
    quartile_isQuartile 3 (by norm_num) hne e3, rfl, rfl, rfl, rfl⟩, h1, h2, h3, hexc, by omega, ?_, ?_, by omega, regular,
    regular.sum / (regular.length : K), rfl, hregne, ?_, ?_, ?_, ?_, ?_⟩
  · refine le_trans (List.countP_mono_left ?_) c1
    intro x _ hx
    simp only [decide_eq_true_eq] at hx ⊢
    rw [hli] at hx; linarith
  · refine le_trans (List.countP_mono_left ?_) c3
    intro x _ hx
    simp only [decide_eq_true_eq] at hx ⊢
    rw [hui] at hx; linarith
  · unfold average; rw [if_neg hreglen]
  · rw [div_mul_cancel₀]; exact_mod_cast hreglen
  · rw [le_div_iff₀ (by exact_mod_cast Nat.pos_of_ne_zero hreglen)]
    have := List.card_nsmul_le_sum regular lowInn (fun x hx => by
      have := (List.mem_filter.1 hx).2; simp only [decide_eq_true_eq] at this; exact this.1)
    rw [nsmul_eq_mul] at this
    linarith [mul_comm lowInn (regular.length : K)]
  · rw [div_le_iff₀ (by exact_mod_cast Nat.pos_of_ne_zero hreglen)]
    have := List.sum_le_card_nsmul regular uppInn (fun x hx => by
      have := (List.mem_filter.1 hx).2; simp only [decide_eq_true_eq] at this; exact this.2)
    rw [nsmul_eq_mul] at this
    linarith [mul_comm uppInn (regular.length : K)]
  · unfold meanStdev; rw [if_neg hreglen]; rfl

/-! ## Order and scale of the data -/

theorem pySorted_eq_of_perm {l l' : List K} (h : l.Perm l') : pySorted id l = pySorted id l' :=
  List.Perm.eq_of_pairwise' (r := (· ≤ ·)) (pySorted_sorted id l) (pySorted_sorted id l')
    ((pySorted_perm id l).trans (h.trans (pySorted_perm id l').symm))

theorem quartile_perm {l l' : List K} (h : l.Perm l') (quarters : ℕ) :
    quartile quarters l = quartile quarters l' := by
  unfold quartile
  rw [pySorted_eq_of_perm h, h.length_eq]

theorem meanStdev_perm (sq : K → K) {l l' : List K} (h : l.Perm l') :
    meanStdev sq l = meanStdev sq l' := by
  unfold meanStdev
  simp only [h.length_eq, h.sum_eq]
  rw [(h.map fun x => (x - l'.sum / (l'.length : K)) ^ 2).sum_eq]

theorem average_perm {l l' : List K} (h : l.Perm l') : average l = average l' := by
  unfold average; rw [h.length_eq, h.sum_eq]

/-- What a result consists of. -/
theorem yieldAnalysis_inv {sq : K → K} {draws : List (List ℕ)} {data : List K} {r : Analysis K}
    (h : yieldAnalysis sq draws data = some r) :
    ∃ q1 q3 bs mean stdev, quartile 1 data = some q1 ∧ quartile 3 data = some q3 ∧
      bootstrap data average draws (1 / 40) = some bs ∧ meanStdev sq data = some (mean, stdev) ∧
      r = { lowInn := q1 - 3 / 2 * (q3 - q1), uppInn := q3 + 3 / 2 * (q3 - q1)
            lowOut := q1 - 3 * (q3 - q1), uppOut := q3 + 3 * (q3 - q1), stdev, mean
            lower := mean - 3 * stdev, upper := mean + 3 * stdev
            goodbench := ¬ (((data.filter fun x => mean - 3 * stdev ≤ x ∧ x ≤ mean + 3 * stdev).length : K)
              < 95 / 100 * (data.length : K))
            btstrpd := bs
            mild := (data.filter fun x => x < q1 - 3 / 2 * (q3 - q1) ∨ q3 + 3 / 2 * (q3 - q1) < x).length
              - (data.filter fun x => x < q1 - 3 * (q3 - q1) ∨ q3 + 3 * (q3 - q1) < x).length
            extr := (data.filter fun x => x < q1 - 3 * (q3 - q1) ∨ q3 + 3 * (q3 - q1) < x).length
            metricsNooutliers := average
              (data.filter fun x => q1 - 3 / 2 * (q3 - q1) ≤ x ∧ x ≤ q3 + 3 / 2 * (q3 - q1))
            meanDiff := (meanStdev sq (data.filter fun x =>
              q1 - 3 / 2 * (q3 - q1) ≤ x ∧ x ≤ q3 + 3 / 2 * (q3 - q1))).bind fun r => relDiff r.1 mean
            stdevNooutliers := (meanStdev sq (data.filter fun x =>
              q1 - 3 / 2 * (q3 - q1) ≤ x ∧ x ≤ q3 + 3 / 2 * (q3 - q1))).map fun r => r.2
            stdevDiff := (meanStdev sq (data.filter fun x =>
              q1 - 3 / 2 * (q3 - q1) ≤ x ∧ x ≤ q3 + 3 / 2 * (q3 - q1))).bind fun r =>
                relDiff r.2 stdev } := by
  unfold yieldAnalysis at h
  cases e1 : quartile 1 data with
  | none => rw [e1] at h; simp at h
  | some q1 =>
    cases e3 : quartile 3 data with
    | none => rw [e1, e3] at h; simp at h
    | some q3 =>
      rw [e1, e3] at h
      simp only at h
      cases eb : bootstrap data average draws (1 / 40) with
      | none => rw [eb] at h; simp at h
      | some bs =>
        cases em : meanStdev sq data with
        | none => rw [eb, em] at h; simp at h
        | some ms =>
          obtain ⟨mean, stdev⟩ := ms
          rw [eb, em] at h
          exact ⟨q1, q3, bs, mean, stdev, rfl, rfl, rfl, rfl, (Option.some.inj h).symm⟩

theorem bootstrap_metrics {α β : Type*} [LinearOrder β] {population : List α} {f : List α → β}
    {draws : List (List ℕ)} {alpha : ℚ} {r : Interval β}
    (h : bootstrap population f draws alpha = some r) : r.metrics = f population := by
  unfold bootstrap at h
  split at h
  · cases h
  · simp only at h
    split at h
    · rw [← Option.some.inj h]
    · cases h

/-- **C99.** Only the two ends of the bootstrap interval depend on the order of the data and on the
random draws. -/
theorem C99_order (sq : K → K) {data data' : List K} (hp : data.Perm data')
    {draws draws' : List (List ℕ)} {r r' : Analysis K}
    (h : yieldAnalysis sq draws data = some r) (h' : yieldAnalysis sq draws' data' = some r') :
    r'.btstrpd.metrics = r.btstrpd.metrics ∧
      r' = { r with btstrpd := { r'.btstrpd with metrics := r.btstrpd.metrics } } := by
  obtain ⟨q1, q3, bs, mean, stdev, e1, e3, eb, em, rfl⟩ := yieldAnalysis_inv h
  obtain ⟨q1', q3', bs', mean', stdev', e1', e3', eb', em', rfl⟩ := yieldAnalysis_inv h'
  rw [← quartile_perm hp, e1] at e1'
  rw [← quartile_perm hp, e3] at e3'
  rw [← meanStdev_perm sq hp, em] at em'
  cases e1'; cases e3'; cases em'
  have hb : bs'.metrics = bs.metrics := by
    rw [bootstrap_metrics eb, bootstrap_metrics eb', average_perm hp]
  refine ⟨hb, ?_⟩
  simp only [Analysis.mk.injEq, true_and]
  refine ⟨?_, ?_, ?_, ?_, ?_, ?_, ?_, ?_⟩
  · rw [(hp.filter _).length_eq, hp.length_eq]
  · rw [← hb]
  · rw [(hp.filter _).length_eq, (hp.filter _).length_eq]
  · rw [(hp.filter _).length_eq]
  · rw [average_perm (hp.filter _)]
  · rw [meanStdev_perm sq (hp.filter _)]
  · rw [meanStdev_perm sq (hp.filter _)]
  · rw [meanStdev_perm sq (hp.filter _)]

theorem quartile_affine {a b : K} (ha : 0 < a) (quarters : ℕ) (data : List K) :
    quartile quarters (data.map fun x => a * x + b) =
      (quartile quarters data).map fun x => a * x + b := by
  have hm : pySorted id (data.map fun x => a * x + b) =
      (pySorted id data).map fun x => a * x + b := by
    refine List.Perm.eq_of_pairwise' (r := (· ≤ ·)) (pySorted_sorted id _) ?_
      ((pySorted_perm id _).trans ((pySorted_perm id data).map _).symm)
    rw [List.pairwise_map]
    refine (pySorted_sorted id data).imp ?_
    intro x y hxy
    have := mul_le_mul_of_nonneg_left hxy ha.le
    simp only [id] at this
    linarith
  unfold quartile
  simp only [hm, List.length_map, List.getElem?_map]
  generalize quarters * (data.length - 1) = pos
  cases hx : (pySorted id data)[pos / 4]? with
  | none => rfl
  | some x =>
    simp only [Option.map_some, Option.some.injEq]
    rw [List.getD_eq_getElem?_getD, List.getD_eq_getElem?_getD, List.getElem?_map]
    cases (pySorted id data)[pos / 4 + 1]? with
    | none => simp
    | some y => simp only [Option.map_some, Option.getD_some]; ring

theorem sum_affine (a b : K) (l : List K) :
    (l.map fun x => a * x + b).sum = a * l.sum + b * (l.length : K) := by
  induction l with
  | nil => simp
  | cons x l ih => simp only [List.map_cons, List.sum_cons, ih, List.length_cons]; push_cast; ring

theorem meanStdev_affine {sq : K → K} {a : K} (b : K) (hsq : ∀ v, sq (a ^ 2 * v) = a * sq v)
    (data : List K) : meanStdev sq (data.map fun x => a * x + b) =
      (meanStdev sq data).map fun r => (a * r.1 + b, a * r.2) := by
  unfold meanStdev
  rw [List.length_map]
  by_cases h0 : data.length = 0
  · rw [if_pos h0, if_pos h0]; rfl
  · rw [if_neg h0, if_neg h0]
    have hn : (data.length : K) ≠ 0 := by exact_mod_cast h0
    have hmean : (data.map fun x => a * x + b).sum / (data.length : K)
        = a * (data.sum / (data.length : K)) + b := by
      rw [sum_affine]; field_simp
    simp only [hmean, Option.map_some, Option.some.injEq, Prod.mk.injEq, true_and]
    rw [← hsq]
    congr 1
    rw [List.map_map, ← mul_div_assoc (a ^ 2), ← List.sum_map_mul_left]
    congr 2
    refine List.map_congr_left fun x _ => ?_
    simp only [Function.comp]; ring

theorem average_affine {a b : K} {data : List K} {m : K} (h : average data = (m : WithBot K)) :
    average (data.map fun x => a * x + b) = ((a * m + b : K) : WithBot K) := by
  unfold average at h ⊢
  rw [List.length_map]
  split_ifs at h ⊢ with h0
  · cases h
  · have hn : (data.length : K) ≠ 0 := by exact_mod_cast h0
    rw [sum_affine, ← WithBot.coe_inj.1 h]
    exact congrArg _ (by field_simp)

theorem filter_affine {a b : K} (data : List K) (p q : K → Bool)
    (h : ∀ x, p (a * x + b) = q x) :
    (data.map fun x => a * x + b).filter p = (data.filter q).map fun x => a * x + b := by
  rw [List.filter_map]
  congr 1
  refine List.filter_congr fun x _ => ?_
  exact h x

/-- **C99.** A change of the unit and of the origin of the data changes nothing but the unit and the
origin of the result: the same values are outliers, the mark is the same. -/
theorem C99_affine {sq : K → K} {a : K} (b : K) (ha : 0 < a)
    (hsq : ∀ v, sq (a ^ 2 * v) = a * sq v) {data : List K}
    {draws draws' : List (List ℕ)} {r r' : Analysis K} (h : yieldAnalysis sq draws data = some r)
    (h' : yieldAnalysis sq draws' (data.map fun x => a * x + b) = some r') :
    r'.extr = r.extr ∧ r'.mild = r.mild ∧ r'.goodbench = r.goodbench ∧
      r'.mean = a * r.mean + b ∧ r'.stdev = a * r.stdev ∧ r'.lower = a * r.lower + b ∧
      r'.upper = a * r.upper + b ∧ r'.lowInn = a * r.lowInn + b ∧ r'.uppInn = a * r.uppInn + b ∧
      r'.lowOut = a * r.lowOut + b ∧ r'.uppOut = a * r.uppOut + b ∧
      (∀ m : K, r.metricsNooutliers = (m : WithBot K) →
        r'.metricsNooutliers = ((a * m + b : K) : WithBot K)) ∧
      r'.stdevNooutliers = r.stdevNooutliers.map (a * ·) ∧ r'.stdevDiff = r.stdevDiff := by
  obtain ⟨q1, q3, bs, mean, stdev, e1, e3, eb, em, rfl⟩ := yieldAnalysis_inv h
  obtain ⟨q1', q3', bs', mean', stdev', e1', e3', eb', em', rfl⟩ := yieldAnalysis_inv h'
  rw [quartile_affine ha, e1] at e1'
  rw [quartile_affine ha, e3] at e3'
  rw [meanStdev_affine b hsq, em] at em'
  cases e1'; cases e3'; cases em'
  have hle : ∀ x y : K, a * x + b ≤ a * y + b ↔ x ≤ y := fun x y => by
    rw [add_le_add_iff_right, mul_le_mul_iff_right₀ ha]
  have hlt : ∀ x y : K, a * x + b < a * y + b ↔ x < y := fun x y => by
    rw [add_lt_add_iff_right, mul_lt_mul_iff_right₀ ha]
  have f1 : ∀ c : K, a * q1 + b - c * (a * q3 + b - (a * q1 + b))
      = a * (q1 - c * (q3 - q1)) + b := fun c => by ring
  have f3 : ∀ c : K, a * q3 + b + c * (a * q3 + b - (a * q1 + b))
      = a * (q3 + c * (q3 - q1)) + b := fun c => by ring
  have g1 : a * mean + b - 3 * (a * stdev) = a * (mean - 3 * stdev) + b := by ring
  have g3 : a * mean + b + 3 * (a * stdev) = a * (mean + 3 * stdev) + b := by ring
  have hout : ∀ lo up : K, ((data.map fun x => a * x + b).filter
      fun x => decide (x < a * lo + b ∨ a * up + b < x)) =
      (data.filter fun x => decide (x < lo ∨ up < x)).map fun x => a * x + b := fun lo up =>
    filter_affine data _ _ (fun x => by simp only [hlt])
  have hin : ∀ lo up : K, ((data.map fun x => a * x + b).filter
      fun x => decide (a * lo + b ≤ x ∧ x ≤ a * up + b)) =
      (data.filter fun x => decide (lo ≤ x ∧ x ≤ up)).map fun x => a * x + b := fun lo up =>
    filter_affine data _ _ (fun x => by simp only [hle])
  simp only [f1, f3, g1, g3, hout, hin, List.length_map, meanStdev_affine b hsq, true_and]
  refine ⟨?_, ?_, ?_⟩
  · intro m hm
    exact average_affine hm
  · rw [Option.map_map, Option.map_map]; rfl
  · cases meanStdev sq (data.filter fun x => decide (q1 - 3 / 2 * (q3 - q1) ≤ x ∧
        x ≤ q3 + 3 / 2 * (q3 - q1))) with
    | none => rfl
    | some ms =>
      simp only [Option.map_some, Option.bind_some]
      unfold relDiff
      by_cases h0 : stdev = 0
      · rw [if_pos h0, if_pos (by rw [h0, mul_zero])]
      · rw [if_neg h0, if_neg (mul_ne_zero ha.ne' h0)]
        congr 1
        field_simp

/-! ## The mark -/

theorem sum_sq_le (l : List K) : l.sum ^ 2 ≤ (l.length : K) * (l.map fun x => x ^ 2).sum := by
  induction l with
  | nil => simp
  | cons x l ih =>
    simp only [List.sum_cons, List.length_cons, List.map_cons]
    push_cast
    have h2 : 2 * x * l.sum ≤ (l.length : K) * x ^ 2 + (l.map fun x => x ^ 2).sum := by
      clear ih
      induction l with
      | nil => simp
      | cons y l ih =>
        simp only [List.sum_cons, List.length_cons, List.map_cons]
        push_cast
        nlinarith [sq_nonneg (x - y)]
    nlinarith

theorem sum_sub_mean {data : List K} (hne : data ≠ []) :
    (data.map fun x => x - data.sum / (data.length : K)).sum = 0 := by
  have hn : (data.length : K) ≠ 0 := by
    have : data.length ≠ 0 := by simpa using hne
    exact_mod_cast this
  have := sum_affine 1 (-(data.sum / (data.length : K))) data
  simp only [one_mul, ← sub_eq_add_neg] at this
  rw [this]
  field_simp
  ring

/-- No value is further away from the mean than `√(n-1)` standard deviations. -/
theorem dev_le {data : List K} {x : K} (hx : x ∈ data) :
    (x - data.sum / (data.length : K)) ^ 2 ≤ ((data.length : K) - 1) *
      ((data.map fun y => (y - data.sum / (data.length : K)) ^ 2).sum / (data.length : K)) := by
  have hne : data ≠ [] := List.ne_nil_of_mem hx
  have hn : (0 : K) < (data.length : K) := by exact_mod_cast List.length_pos_iff.2 hne
  have hz := sum_sub_mean hne
  generalize hmu : data.sum / (data.length : K) = mu at *
  obtain ⟨s, t, rfl⟩ := List.append_of_mem hx
  simp only [List.map_append, List.map_cons, List.sum_append, List.sum_cons] at hz ⊢
  have hc := sum_sq_le ((s ++ t).map fun y => y - mu)
  rw [List.map_map, List.length_map, List.length_append, List.map_append, List.sum_append,
    List.map_append, List.sum_append] at hc
  have hd : (s.map fun y => y - mu).sum + (t.map fun y => y - mu).sum = -(x - mu) := by linarith
  rw [hd] at hc
  have hl : ((s ++ x :: t).length : K) = (s.length : K) + (t.length : K) + 1 := by
    simp only [List.length_append, List.length_cons]; push_cast; ring
  rw [hl] at hn ⊢
  rw [← mul_div_assoc, le_div_iff₀ hn]
  have e : ((fun x : K => x ^ 2) ∘ fun y => y - mu) = fun y => (y - mu) ^ 2 := rfl
  rw [e] at hc
  push_cast at hc
  nlinarith

/-- **C100.** `mean` and `stdev` are the mean and the standard deviation of the data, and the mark is
good if and only if at least 95 percent of the values are at most three standard deviations away
from the mean. -/
theorem C100_mark {sq : K → K} (h0 : ∀ v, 0 ≤ v → 0 ≤ sq v) (h2 : ∀ v, 0 ≤ v → sq v ^ 2 = v)
    {data : List K} {draws : List (List ℕ)} {r : Analysis K}
    (h : yieldAnalysis sq draws data = some r) :
    r.mean * (data.length : K) = data.sum ∧ 0 ≤ r.stdev ∧
      r.stdev ^ 2 * (data.length : K) = (data.map fun x => (x - r.mean) ^ 2).sum ∧
      (r.goodbench = true ↔ (95 : K) * (data.length : K) ≤
        100 * (data.countP (fun x => decide (|x - r.mean| ≤ 3 * r.stdev)) : ℕ)) := by
  obtain ⟨q1, q3, bs, mean, stdev, -, -, -, em, rfl⟩ := yieldAnalysis_inv h
  unfold meanStdev at em
  split_ifs at em with hl
  have hpos : (0 : K) < (data.length : K) := by exact_mod_cast Nat.pos_of_ne_zero hl
  simp only [Option.some.injEq, Prod.mk.injEq] at em
  obtain ⟨e1, e2⟩ := em
  have hv : 0 ≤ (data.map fun y => (y - mean) ^ 2).sum / (data.length : K) := by
    refine div_nonneg (List.sum_nonneg ?_) hpos.le
    intro z hz
    obtain ⟨y, -, rfl⟩ := List.mem_map.1 hz
    positivity
  rw [e1] at e2
  have hs0 : 0 ≤ stdev := by rw [← e2]; exact h0 _ hv
  have hs2 := h2 _ hv
  rw [e2] at hs2
  refine ⟨by rw [← e1, div_mul_cancel₀ _ hpos.ne'], hs0,
    by simp only; rw [hs2, div_mul_cancel₀ _ hpos.ne'], ?_⟩
  have hf : (data.filter fun x => decide (mean - 3 * stdev ≤ x ∧ x ≤ mean + 3 * stdev)).length =
      data.countP (fun x => decide (|x - mean| ≤ 3 * stdev)) := by
    rw [List.countP_eq_length_filter]
    congr 1
    refine List.filter_congr fun x _ => ?_
    rw [decide_eq_decide, abs_le]
    constructor
    · rintro ⟨a, b⟩; constructor <;> linarith
    · rintro ⟨a, b⟩; constructor <;> linarith
  simp only [hf, decide_eq_true_eq, not_lt]
  constructor <;> intro h <;> linarith

/-- **C100.** With at most ten values the mark is always good, whatever the values are. -/
theorem C100_small {sq : K → K} (h0 : ∀ v, 0 ≤ v → 0 ≤ sq v) (h2 : ∀ v, 0 ≤ v → sq v ^ 2 = v)
    {data : List K} (hn : data.length ≤ 10) {draws : List (List ℕ)} {r : Analysis K}
    (h : yieldAnalysis sq draws data = some r) : r.goodbench = true := by
  obtain ⟨q1, q3, bs, mean, stdev, -, -, -, em, rfl⟩ := yieldAnalysis_inv h
  unfold meanStdev at em
  split_ifs at em with hl
  have hpos : (0 : K) < (data.length : K) := by exact_mod_cast Nat.pos_of_ne_zero hl
  simp only [Option.some.injEq, Prod.mk.injEq] at em
  obtain ⟨e1, e2⟩ := em
  have hv : 0 ≤ (data.map fun y => (y - mean) ^ 2).sum / (data.length : K) := by
    refine div_nonneg (List.sum_nonneg ?_) hpos.le
    intro z hz
    obtain ⟨y, -, rfl⟩ := List.mem_map.1 hz
    positivity
  rw [e1] at e2
  have hs0 : 0 ≤ stdev := by rw [← e2]; exact h0 _ hv
  have hs2 := h2 _ hv
  rw [e2] at hs2
  have hall : (data.filter fun x => decide (mean - 3 * stdev ≤ x ∧ x ≤ mean + 3 * stdev)) = data := by
    rw [List.filter_eq_self]
    intro x hx
    have hd := dev_le hx
    rw [e1, ← hs2] at hd
    have h10 : (data.length : K) ≤ 10 := by exact_mod_cast hn
    have h9 : (x - mean) ^ 2 ≤ (3 * stdev) ^ 2 := by nlinarith [sq_nonneg stdev]
    have := abs_le_of_sq_le_sq' h9 (by linarith)
    simp only [decide_eq_true_eq]
    constructor <;> linarith [this.1, this.2]
  simp only [hall, decide_eq_true_eq]
  linarith

/-- **C100.** Eleven values are enough for a bad mark. -/
theorem C100_eleven {sq : K → K} (h0 : ∀ v, 0 ≤ v → 0 ≤ sq v) (h2 : ∀ v, 0 ≤ v → sq v ^ 2 = v)
    {draws : List (List ℕ)} {r : Analysis K}
    (h : yieldAnalysis sq draws [0, 0, 0, 0, 0, 0, 0, 0, 0, 0, 11] = some r) :
    r.goodbench = false := by
  obtain ⟨q1, q3, bs, mean, stdev, -, -, -, em, rfl⟩ := yieldAnalysis_inv h
  norm_num [meanStdev] at em
  obtain ⟨rfl, rfl⟩ := em
  have hs0 := h0 10 (by norm_num)
  have hs2 := h2 10 (by norm_num)
  have hlt : sq 10 < 10 / 3 := by
    by_contra hc
    push Not at hc
    nlinarith
  have hge : 1 ≤ 3 * sq 10 := by
    by_contra hc
    push Not at hc
    nlinarith
  have a1 : ¬ (11 ≤ 1 + 3 * sq (10 : K)) := by linarith
  have hf : ([0, 0, 0, 0, 0, 0, 0, 0, 0, 0, 11] : List K).filter
      (fun x => decide (1 - 3 * sq 10 ≤ x ∧ x ≤ 1 + 3 * sq 10)) = [0, 0, 0, 0, 0, 0, 0, 0, 0, 0] := by
    have t0 : decide (1 - 3 * sq 10 ≤ (0 : K) ∧ (0 : K) ≤ 1 + 3 * sq 10) = true := by
      rw [decide_eq_true_eq]; constructor <;> linarith
    have t1 : decide (1 - 3 * sq 10 ≤ (11 : K) ∧ (11 : K) ≤ 1 + 3 * sq 10) = false := by
      rw [decide_eq_false_iff_not]; exact fun h => a1 h.2
    simp only [List.filter_cons, t0, t1, if_true, List.filter_nil]
    rfl
  simp only [hf]
  norm_num

/-- Eight runs, one of them far away: an extreme outlier. The square root, which does not matter here,
is replaced by the identity. -/
example : (yieldAnalysis (K := ℚ) id [[0, 1, 2, 3, 4], [4, 4, 7, 7, 1], [2, 3, 5, 6, 6]]
      [5, 3, 4, 100, 4, 5, 6, 2]).map (fun r =>
      (r.lowOut, r.lowInn, r.uppInn, r.uppOut, r.mild, r.extr)) =
    some (-3 / 4, 3 / 2, 15 / 2, 39 / 4, 0, 1) := by
  decide +kernel

end Evogil.Statistics
