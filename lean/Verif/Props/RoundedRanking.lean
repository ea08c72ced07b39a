import Verif.Model.RoundedRanking
import Verif.Props.Statistics
import Verif.Lemmas.RoundedMean
import Verif.Lemmas.MathLib
import Verif.Props.Rounded

/-! # C143: the points of the ranking in floating point -/

set_option linter.unusedSectionVars false

namespace Evogil.Rounded.Ranking

open Spec Binary64
open Evogil.FloatExpr (round64_error)
open Evogil.Statistics (Sense.better bestOf bestOf_spec)

variable {A : Type*} [DecidableEq A]

/-- The exact averages. -/
def averages {K : Type*} [Field K] (data : List (A × List K)) : List (A × K) :=
  data.map fun e => (e.1, e.2.sum / (e.2.length : K))

/-! ## The error of a score -/

theorem pow_error {n : ℕ} (h : n ≤ 2 ^ 16) : (1 + 1 / 2 ^ 53 : ℝ) ^ n - 1 ≤ 1 / 2 ^ 36 := by
  have h1 : (1 + 1 / 2 ^ 53 : ℝ) ^ n * (1 - 1 / 2 ^ 53) ^ n ≤ 1 := by
    rw [← mul_pow]
    exact pow_le_one₀ (by norm_num) (by norm_num)
  have h2 : 1 - (n : ℝ) * (1 / 2 ^ 53) ≤ (1 - 1 / 2 ^ 53 : ℝ) ^ n := by
    have := one_add_mul_le_pow (a := (-(1 / 2 ^ 53) : ℝ)) (by norm_num) n
    rw [← sub_eq_add_neg] at this
    linarith
  have h3 : (n : ℝ) ≤ 2 ^ 16 := by exact_mod_cast h
  have h4 : (1 : ℝ) ≤ (1 + 1 / 2 ^ 53 : ℝ) ^ n := one_le_pow₀ (by norm_num)
  have h5 : (1 - 1 / 2 ^ 37 : ℝ) ≤ (1 - 1 / 2 ^ 53 : ℝ) ^ n := by
    refine le_trans ?_ h2
    have : (n : ℝ) * (1 / 2 ^ 53) ≤ 2 ^ 16 * (1 / 2 ^ 53) := mul_le_mul_of_nonneg_right h3 (by norm_num)
    have e : (2 ^ 16 * (1 / 2 ^ 53) : ℝ) = 1 / 2 ^ 37 := by norm_num
    rw [e] at this
    linarith
  have h6 : (1 + 1 / 2 ^ 53 : ℝ) ^ n * (1 - 1 / 2 ^ 37) ≤ 1 :=
    (mul_le_mul_of_nonneg_left h5 (by linarith)).trans h1
  norm_num at h6 ⊢
  linarith

theorem score_error {xs : List ℝ} (hf : ∀ x ∈ xs, round64 x = x) (h0 : ∀ x ∈ xs, 0 ≤ x) (hne : xs ≠ [])
    (hn : xs.length ≤ 2 ^ 16) :
    0 ≤ xs.sum / (xs.length : ℝ) ∧
    |round64 (Stats.mean round64 xs + 1 / 2 ^ 52) - (xs.sum / (xs.length : ℝ) + 1 / 2 ^ 52)| ≤
      1 / 2 ^ 35 * (xs.sum / (xs.length : ℝ) + 1 / 2 ^ 52) := by
  have hl : (0 : ℝ) < xs.length := by exact_mod_cast List.length_pos_iff.2 hne
  have hs0 : 0 ≤ xs.sum := List.sum_nonneg h0
  have habs : (xs.map fun w => |w|).sum = xs.sum := by
    congr 1
    conv_rhs => rw [← List.map_id xs]
    exact List.map_congr_left fun x hx => abs_of_nonneg (h0 x hx)
  have h1 := sumUp_error hf
  rw [habs] at h1
  have h2 : |sumUp round64 xs - xs.sum| ≤ 1 / 2 ^ 36 * xs.sum :=
    h1.trans (mul_le_mul_of_nonneg_right (pow_error hn) hs0)
  have h3 : |sumUp round64 xs / xs.length - xs.sum / xs.length| ≤ 1 / 2 ^ 36 * (xs.sum / xs.length) := by
    rw [← sub_div, abs_div, abs_of_pos hl, ← mul_div_assoc]
    exact div_le_div_of_nonneg_right h2 hl.le
  have hm0 : 0 ≤ xs.sum / (xs.length : ℝ) := div_nonneg hs0 hl.le
  refine ⟨hm0, ?_⟩
  unfold Stats.mean
  generalize sumUp round64 xs / (xs.length : ℝ) = q at h3 ⊢
  generalize xs.sum / (xs.length : ℝ) = m at h3 hm0 ⊢
  have h4 := round64_error q
  have h5 := round64_error (round64 q + 1 / 2 ^ 52)
  have hq : 0 ≤ q := by
    have := (abs_le.1 h3).1
    norm_num at this
    linarith
  have hr : 0 ≤ round64 q := round64_isRounding.mono 0 q hq |> fun h => by
    rwa [show round64 (0 : ℝ) = 0 by simp [round64, roundPos_zero]] at h
  rw [abs_of_nonneg hq] at h4
  rw [abs_of_nonneg (add_nonneg hr (by positivity))] at h5
  have ht : (1 : ℝ) / 2 ^ 1000 ≤ 1 / 2 ^ 110 :=
    one_div_le_one_div_of_le (by positivity) (pow_le_pow_right₀ (by norm_num) (by norm_num))
  generalize round64 (round64 q + 1 / 2 ^ 52) = p at *
  generalize round64 q = r at *
  generalize (1 : ℝ) / 2 ^ 1000 = t at *
  rw [abs_le] at *
  norm_num at *
  constructor <;> linarith

/-! ## The test -/

/-- The quotient of two approximations, rounded. -/
theorem quotient_error {a b p q : ℝ} (ha : 0 < a) (hb : 0 < b) (hp : |p - a| ≤ 1 / 2 ^ 35 * a)
    (hq : |q - b| ≤ 1 / 2 ^ 35 * b) :
    |round64 (min p q / max p q) - min a b / max a b| ≤ 1 / 2 ^ 32 := by
  have hM : 0 < max a b := lt_max_of_lt_left ha
  have hm : 0 < min a b := lt_min ha hb
  have hR : min a b / max a b ≤ 1 := (div_le_one hM).2 (min_le_max)
  have hR0 : 0 < min a b / max a b := div_pos hm hM
  rw [abs_le] at hp hq
  have e1 : min p q ≤ (1 + 1 / 2 ^ 35) * min a b := by
    rcases min_choice a b with h | h <;> rw [h]
    · exact (min_le_left _ _).trans (by linarith)
    · exact (min_le_right _ _).trans (by linarith)
  have e2 : (1 - 1 / 2 ^ 35) * min a b ≤ min p q := by
    have := min_le_left a b
    have := min_le_right a b
    refine le_min ?_ ?_ <;> linarith
  have e3 : max p q ≤ (1 + 1 / 2 ^ 35) * max a b := by
    have := le_max_left a b
    have := le_max_right a b
    refine max_le ?_ ?_ <;> linarith
  have e4 : (1 - 1 / 2 ^ 35) * max a b ≤ max p q := by
    rcases max_choice a b with h | h <;> rw [h]
    · exact le_trans (by linarith) (le_max_left _ _)
    · exact le_trans (by linarith) (le_max_right _ _)
  have hQ : 0 < max p q := lt_of_lt_of_le (mul_pos (by norm_num) hM) e4
  have u1 : min p q / max p q ≤ min a b / max a b + 1 / 2 ^ 33 := by
    rw [div_le_iff₀ hQ]
    have : min a b = min a b / max a b * max a b := by field_simp
    generalize min a b / max a b = R at *
    have h1 : R * max a b ≤ max a b := by nlinarith
    have h2 : 0 < R * max a b := mul_pos hR0 hM
    have h3 : (R + 1 / 2 ^ 33) * ((1 - 1 / 2 ^ 35) * max a b) ≤ (R + 1 / 2 ^ 33) * max p q :=
      mul_le_mul_of_nonneg_left e4 (by positivity)
    rw [this] at e1
    linarith
  have u2 : min a b / max a b - 1 / 2 ^ 33 ≤ min p q / max p q := by
    rw [le_div_iff₀ hQ]
    have : min a b = min a b / max a b * max a b := by field_simp
    generalize min a b / max a b = R at *
    have h1 : R * max a b ≤ max a b := by nlinarith
    have h2 : 0 < R * max a b := mul_pos hR0 hM
    rcases le_or_gt R (1 / 2 ^ 33) with hs | hs
    · have : (R - 1 / 2 ^ 33) * max p q ≤ 0 := mul_nonpos_of_nonpos_of_nonneg (by linarith) hQ.le
      have : 0 ≤ (1 - 1 / 2 ^ 35) * min a b := mul_nonneg (by norm_num) hm.le
      linarith
    · have h3 : (R - 1 / 2 ^ 33) * max p q ≤ (R - 1 / 2 ^ 33) * ((1 + 1 / 2 ^ 35) * max a b) :=
        mul_le_mul_of_nonneg_left e3 (by linarith)
      rw [this] at e2
      linarith
  have h := round64_error (min p q / max p q)
  have hpos : 0 ≤ min p q / max p q :=
    div_nonneg (le_trans (mul_nonneg (by norm_num) hm.le) e2) hQ.le
  rw [abs_of_nonneg hpos] at h
  have ht : (1 : ℝ) / 2 ^ 1000 ≤ 1 / 2 ^ 110 :=
    one_div_le_one_div_of_le (by positivity) (pow_le_pow_right₀ (by norm_num) (by norm_num))
  generalize min p q / max p q = Q at *
  generalize round64 Q = Q' at *
  generalize min a b / max a b = R at *
  generalize (1 : ℝ) / 2 ^ 1000 = t at *
  rw [abs_le] at *
  constructor <;> linarith

theorem rate_error {t : ℝ} (h0 : 0 ≤ t) (h1 : t ≤ 1 / 2) : |round64 (1 - round64 t) - (1 - t)| ≤ 1 / 2 ^ 50 := by
  have e1 := round64_error t
  have e2 := round64_error (1 - round64 t)
  rw [abs_of_nonneg h0] at e1
  have ht : (1 : ℝ) / 2 ^ 1000 ≤ 1 / 2 ^ 110 :=
    one_div_le_one_div_of_le (by positivity) (pow_le_pow_right₀ (by norm_num) (by norm_num))
  have hpos : 0 ≤ 1 - round64 t := by
    have := (abs_le.1 e1).2
    generalize (1 : ℝ) / 2 ^ 1000 = s at *
    norm_num at *
    linarith
  rw [abs_of_nonneg hpos] at e2
  generalize round64 (1 - round64 t) = p at *
  generalize round64 t = r at *
  generalize (1 : ℝ) / 2 ^ 1000 = s at *
  rw [abs_le] at *
  norm_num at *
  constructor <;> linarith

/-- What rounding leaves of the test of `get_weak_winners`. -/
theorem weakTest_near {t x y a b : ℝ} (h0 : 0 ≤ t) (h1 : t ≤ 1 / 2) (ha : 0 ≤ a) (hb : 0 ≤ b)
    (hx : |round64 (x + 1 / 2 ^ 52) - (a + 1 / 2 ^ 52)| ≤ 1 / 2 ^ 35 * (a + 1 / 2 ^ 52))
    (hy : |round64 (y + 1 / 2 ^ 52) - (b + 1 / 2 ^ 52)| ≤ 1 / 2 ^ 35 * (b + 1 / 2 ^ 52)) :
    (Close (1 / 2 ^ 52) (t - 1 / 2 ^ 30) a b → weakTest round64 (1 / 2 ^ 52) (round64 t) x y = true) ∧
    (weakTest round64 (1 / 2 ^ 52) (round64 t) x y = true → Close (1 / 2 ^ 52) (t + 1 / 2 ^ 30) a b) := by
  have hmono : Monotone fun z : ℝ => round64 (z + 1 / 2 ^ 52) := fun u v huv => round64_mono (by linarith)
  have hmin : round64 (min x y + 1 / 2 ^ 52) = min (round64 (x + 1 / 2 ^ 52)) (round64 (y + 1 / 2 ^ 52)) :=
    hmono.map_min
  have hmax : round64 (max x y + 1 / 2 ^ 52) = max (round64 (x + 1 / 2 ^ 52)) (round64 (y + 1 / 2 ^ 52)) :=
    hmono.map_max
  have hA : (0 : ℝ) < a + 1 / 2 ^ 52 := by positivity
  have hB : (0 : ℝ) < b + 1 / 2 ^ 52 := by positivity
  have hq := quotient_error hA hB hx hy
  have hr := rate_error h0 h1
  rw [min_add_add_right, max_add_add_right] at hq
  have hM : 0 < max a b + 1 / 2 ^ 52 := add_pos_of_nonneg_of_pos (le_max_of_le_left ha) (by positivity)
  unfold weakTest Close
  rw [hmin, hmax, decide_eq_true_eq, ← le_div_iff₀ hM, ← le_div_iff₀ hM]
  generalize round64 (min (round64 (x + 1 / 2 ^ 52)) (round64 (y + 1 / 2 ^ 52)) /
    max (round64 (x + 1 / 2 ^ 52)) (round64 (y + 1 / 2 ^ 52))) = Q at *
  generalize (min a b + 1 / 2 ^ 52) / (max a b + 1 / 2 ^ 52) = R at *
  generalize round64 (1 - round64 t) = f at *
  rw [abs_le] at hq hr
  constructor <;> intro h <;> linarith

/-! ## The cell -/

/-- The runs to which the theorems below apply: every algorithm is listed once and has between 1 and 2¹⁶ runs; the
values of the metric are floats that are not negative. -/
structure Runs (data : List (A × List ℝ)) : Prop where
  names : (data.map Prod.fst).Nodup
  some_run : ∀ e ∈ data, e.2 ≠ []
  few : ∀ e ∈ data, e.2.length ≤ 2 ^ 16
  float : ∀ e ∈ data, ∀ x ∈ e.2, round64 x = x
  nonneg : ∀ e ∈ data, ∀ x ∈ e.2, 0 ≤ x

theorem Runs.error {data : List (A × List ℝ)} (h : Runs data) {e : A × List ℝ} (he : e ∈ data) :
    0 ≤ e.2.sum / (e.2.length : ℝ) ∧
    |round64 (Stats.mean round64 e.2 + 1 / 2 ^ 52) - (e.2.sum / (e.2.length : ℝ) + 1 / 2 ^ 52)| ≤
      1 / 2 ^ 35 * (e.2.sum / (e.2.length : ℝ) + 1 / 2 ^ 52) :=
  score_error (h.float e he) (h.nonneg e he) (h.some_run e he) (h.few e he)

theorem awards_names {K : Type*} [Field K] [LinearOrder K] {fl : K → K} {eps rate : K} {better : K → K → Bool}
    {table : List (A × K)} (hnd : (table.map Prod.fst).Nodup) {v : A × K} (hbest : bestOf better table = some v)
    (hmem : v ∈ table) (hself : weakTest fl eps rate v.2 v.2 = true) {names : List A}
    (hnames : names = (table.filter fun e => weakTest fl eps rate e.2 v.2).map Prod.fst) :
    ∃ l, awards fl eps better table rate = some l ∧
      ((names = [v.1] ∧ l = [v.1, v.1]) ∨ (2 ≤ names.length ∧ l.Perm names)) := by
  have h1 : table.Perm (v :: table.erase v) := List.perm_cons_erase hmem
  have hnd' : v.1 ∉ (table.erase v).map Prod.fst := by
    have := (h1.map Prod.fst).nodup_iff.1 hnd
    exact (List.nodup_cons.1 this).1
  have hperm : names.Perm (v.1 :: (getWeakWinners fl eps table v rate).map Prod.fst) := by
    rw [hnames, ← List.map_cons (f := Prod.fst)]
    refine List.Perm.map _ (((h1.filter _).trans ?_).trans (List.Perm.cons v (h1.filter _).symm))
    rw [List.filter_cons_of_pos (by simpa using hself), List.filter_cons_of_neg (by simp)]
    refine List.Perm.cons _ (List.Perm.of_eq (List.filter_congr fun e he => ?_))
    have hen : e.1 ≠ v.1 := fun h => hnd' (h ▸ List.mem_map_of_mem he)
    simp [hen]
  unfold awards
  rw [hbest]
  simp only
  by_cases hemp : (getWeakWinners fl eps table v rate).isEmpty = true
  · rw [if_pos hemp]
    rw [List.isEmpty_iff.1 hemp] at hperm
    exact ⟨_, rfl, .inl ⟨List.perm_singleton.1 hperm, rfl⟩⟩
  · rw [if_neg hemp]
    refine ⟨_, rfl, .inr ⟨?_, hperm.symm⟩⟩
    rw [hperm.length_eq]
    have : getWeakWinners fl eps table v rate ≠ [] := by simpa using hemp
    have := List.length_pos_iff.2 this
    simp only [List.length_cons, List.length_map]
    omega

/-- The winner and the names: which ones are named is a matter of the rounded test. -/
theorem cell_names {s : Sense} {data : List (A × List ℝ)} (hr : Runs data) (hne : data ≠ []) {t : ℝ}
    (ht : 1 / 2 ^ 10 ≤ t) (h1 : t ≤ 1 / 2) :
    ∃ w ∈ data, (∀ e ∈ data, s.AsGood (Stats.mean round64 w.2) (Stats.mean round64 e.2)) ∧
      ∃ l, cell round64 (1 / 2 ^ 52) (Sense.better s) data (round64 t) = some l ∧
      ∀ names, names = (data.filter fun e => weakTest round64 (1 / 2 ^ 52) (round64 t) (Stats.mean round64 e.2)
          (Stats.mean round64 w.2)).map Prod.fst →
        ((names = [w.1] ∧ l = [w.1, w.1]) ∨ (2 ≤ names.length ∧ l.Perm names)) := by
  have h0 : 0 ≤ t := le_trans (by norm_num) ht
  obtain ⟨w', hw', hbest, hall⟩ := bestOf_spec s (data.map fun e => (e.1, Stats.mean round64 e.2)) (by simpa using hne)
  obtain ⟨w, hw, rfl⟩ := List.mem_map.1 hw'
  refine ⟨w, hw, fun e he => hall _ (List.mem_map_of_mem he), ?_⟩
  have hself : weakTest round64 (1 / 2 ^ 52) (round64 t) (Stats.mean round64 w.2) (Stats.mean round64 w.2) = true := by
    obtain ⟨g0, g1⟩ := hr.error hw
    refine (weakTest_near h0 h1 g0 g0 g1 g1).1 ?_
    unfold Close
    rw [min_self, max_self]
    refine mul_le_of_le_one_left (by positivity) ?_
    norm_num at ht ⊢
    linarith
  generalize hT : (data.map fun e => (e.1, Stats.mean round64 e.2)) = table at hbest
  have hnd : (table.map Prod.fst).Nodup := by
    rw [← hT, List.map_map]
    exact hr.names
  have hnames : (data.filter fun e => weakTest round64 (1 / 2 ^ 52) (round64 t) (Stats.mean round64 e.2)
      (Stats.mean round64 w.2)).map Prod.fst =
      (table.filter fun e => weakTest round64 (1 / 2 ^ 52) (round64 t) e.2 (Stats.mean round64 w.2)).map Prod.fst := by
    rw [← hT, List.filter_map, List.map_map]
    rfl
  have hmem : (w.1, Stats.mean round64 w.2) ∈ table := hT ▸ hw'
  obtain ⟨l, hl, h⟩ := awards_names hnd hbest hmem hself rfl
  refine ⟨l, by rw [cell, hT, hl], fun names e => ?_⟩
  rw [e, hnames]
  exact h

/-- **C143.** If the exact average of no algorithm is within 2⁻³⁰ of the limit for a weak winner, then the points are
those of exact arithmetic: an algorithm that is alone within the tolerance of the best average gets two points and
nobody else any; otherwise each of those within the tolerance gets one point. -/
theorem C143_points_partial (s : Sense) {data : List (A × List ℝ)} (hr : Runs data) {t : ℝ} (ht : 1 / 2 ^ 10 ≤ t)
    (h1 : t ≤ 1 / 2) {b : ℝ} (hb : IsBest s (averages data) b)
    (hsep : ∀ e ∈ averages data, Close (1 / 2 ^ 52) (t - 1 / 2 ^ 30) e.2 b ∨ ¬ Close (1 / 2 ^ 52) (t + 1 / 2 ^ 30) e.2 b) :
    ∃ l, cell round64 (1 / 2 ^ 52) (Sense.better s) data (round64 t) = some l ∧
      ((∃ w, closeNames (1 / 2 ^ 52) t b (averages data) = [w] ∧ l = [w, w]) ∨
        (2 ≤ (closeNames (1 / 2 ^ 52) t b (averages data)).length ∧
          l.Perm (closeNames (1 / 2 ^ 52) t b (averages data)))) := by
  have h0 : 0 ≤ t := le_trans (by norm_num) ht
  obtain ⟨⟨a, hab⟩, hall⟩ := hb
  obtain ⟨x, hx, hxe⟩ := List.mem_map.1 hab
  obtain ⟨rfl, rfl⟩ := Prod.mk.inj hxe
  obtain ⟨w, hw, hwin, l, hl, hnames⟩ := cell_names (s := s) hr (List.ne_nil_of_mem hx) ht h1
  refine ⟨l, hl, ?_⟩
  have hxp := hr.error hx
  have hwp := hr.error hw
  have hbest : s.AsGood (x.2.sum / (x.2.length : ℝ)) (w.2.sum / (w.2.length : ℝ)) :=
    hall (w.1, _) (List.mem_map.2 ⟨w, hw, rfl⟩)
  have hnear : |round64 (Stats.mean round64 w.2 + 1 / 2 ^ 52) - (x.2.sum / (x.2.length : ℝ) + 1 / 2 ^ 52)| ≤
      1 / 2 ^ 35 * (x.2.sum / (x.2.length : ℝ) + 1 / 2 ^ 52) := by
    have hwx := hwin x hx
    obtain ⟨-, hxp⟩ := hxp
    obtain ⟨-, hwp⟩ := hwp
    rw [abs_le] at hxp hwp ⊢
    cases s
    · have g1 : round64 (Stats.mean round64 x.2 + 1 / 2 ^ 52) ≤ round64 (Stats.mean round64 w.2 + 1 / 2 ^ 52) :=
        round64_mono (add_le_add_left hwx _)
      have g2 : w.2.sum / (w.2.length : ℝ) ≤ x.2.sum / (x.2.length : ℝ) := hbest
      constructor <;> linarith
    · have g1 : round64 (Stats.mean round64 w.2 + 1 / 2 ^ 52) ≤ round64 (Stats.mean round64 x.2 + 1 / 2 ^ 52) :=
        round64_mono (add_le_add_left hwx _)
      have g2 : x.2.sum / (x.2.length : ℝ) ≤ w.2.sum / (w.2.length : ℝ) := hbest
      constructor <;> linarith
  have hclose : closeNames (1 / 2 ^ 52) t (x.2.sum / (x.2.length : ℝ)) (averages data) =
      (data.filter fun e => weakTest round64 (1 / 2 ^ 52) (round64 t) (Stats.mean round64 e.2)
          (Stats.mean round64 w.2)).map Prod.fst := by
    unfold closeNames averages
    rw [List.filter_map, List.map_map]
    refine congrArg _ (List.filter_congr fun e he => ?_)
    obtain ⟨ge0, ge⟩ := hr.error he
    have hw := weakTest_near h0 h1 ge0 hxp.1 ge hnear
    have hM : 0 ≤ max (e.2.sum / (e.2.length : ℝ)) (x.2.sum / (x.2.length : ℝ)) + 1 / 2 ^ 52 :=
      add_nonneg (le_max_of_le_left ge0) (by positivity)
    rw [Bool.eq_iff_iff]
    simp only [Function.comp_apply, decide_eq_true_eq]
    have mono : ∀ {t t' : ℝ}, t ≤ t' → Close (1 / 2 ^ 52) t (e.2.sum / (e.2.length : ℝ)) (x.2.sum / (x.2.length : ℝ)) →
        Close (1 / 2 ^ 52) t' (e.2.sum / (e.2.length : ℝ)) (x.2.sum / (x.2.length : ℝ)) :=
      fun htt h => le_trans (mul_le_mul_of_nonneg_right (by linarith) hM) h
    have hp : (0 : ℝ) ≤ 1 / 2 ^ 30 := by positivity
    rcases hsep (e.1, _) (List.mem_map.2 ⟨e, he, rfl⟩) with h | h
    · exact ⟨fun _ => hw.1 h, fun _ => mono (by linarith) h⟩
    · exact ⟨fun h' => absurd (mono (by linarith) h') h, fun h' => absurd (hw.2 h') h⟩
  rcases hnames _ hclose with ⟨h, h'⟩ | h
  · exact .inl ⟨w.1, h, h'⟩
  · exact .inr h

/-- **C143.** Without any condition on the averages: an algorithm that gets both points is alone; the average of no other
algorithm is within the tolerance, less 2⁻³⁰, of its own. -/
theorem C143_strong (s : Sense) {data : List (A × List ℝ)} (hr : Runs data) {t : ℝ} (ht : 1 / 2 ^ 10 ≤ t)
    (h1 : t ≤ 1 / 2) {a : A} (h : cell round64 (1 / 2 ^ 52) (Sense.better s) data (round64 t) = some [a, a]) :
    ∃ w ∈ data, w.1 = a ∧ ∀ e ∈ data, e.1 ≠ a →
      ¬ Close (1 / 2 ^ 52) (t - 1 / 2 ^ 30) (e.2.sum / (e.2.length : ℝ)) (w.2.sum / (w.2.length : ℝ)) := by
  have h0 : 0 ≤ t := le_trans (by norm_num) ht
  have hne : data ≠ [] := by
    rintro rfl
    simp [cell, awards, bestOf] at h
  obtain ⟨w, hw, -, l, hl, hnames⟩ := cell_names (s := s) hr hne ht h1
  rw [hl] at h
  obtain rfl := Option.some.inj h
  have hnd : ((data.filter fun e => weakTest round64 (1 / 2 ^ 52) (round64 t) (Stats.mean round64 e.2)
          (Stats.mean round64 w.2)).map Prod.fst).Nodup := (List.filter_sublist.map Prod.fst).nodup hr.names
  rcases hnames _ rfl with ⟨e1, e2⟩ | ⟨-, e2⟩
  · have hwa : w.1 = a := by
      simp only [List.cons.injEq, and_true] at e2
      exact e2.1.symm
    refine ⟨w, hw, hwa, fun e he hea hc => hea ?_⟩
    have := (weakTest_near h0 h1 (hr.error he).1 (hr.error hw).1 (hr.error he).2 (hr.error hw).2).1 hc
    have hm : e.1 ∈ (data.filter fun e => weakTest round64 (1 / 2 ^ 52) (round64 t) (Stats.mean round64 e.2)
          (Stats.mean round64 w.2)).map Prod.fst := List.mem_map_of_mem (List.mem_filter.2 ⟨he, this⟩)
    rw [e1] at hm
    rw [List.mem_singleton.1 hm, hwa]
  · exact absurd (e2.nodup_iff.2 hnd) (by simp)

/-- **C143.** Two algorithms with the same values in their runs, whatever the order of these: none of them gets both
points, though their averages can differ by rounding. -/
theorem C143_tie (s : Sense) {data : List (A × List ℝ)} (hr : Runs data) {t : ℝ} (ht : 1 / 2 ^ 10 ≤ t)
    (h1 : t ≤ 1 / 2) {e e' : A × List ℝ} (he : e ∈ data) (he' : e' ∈ data) (hne : e.1 ≠ e'.1) (hp : e.2.Perm e'.2) :
    cell round64 (1 / 2 ^ 52) (Sense.better s) data (round64 t) ≠ some [e.1, e.1] := by
  intro h
  obtain ⟨w, hw, hwe, hall⟩ := C143_strong s hr ht h1 h
  obtain rfl : w = e := List.inj_on_of_nodup_map hr.names hw he hwe
  refine hall e' he' hne.symm ?_
  rw [hp.sum_eq, hp.length_eq]
  unfold Close
  rw [min_self, max_self]
  refine mul_le_of_le_one_left (by have := (hr.error he').1; positivity) ?_
  linarith [show (1 / 2 ^ 30 : ℝ) ≤ 1 / 2 ^ 10 by norm_num]

/-- The runs of two algorithms; the averages are 1/3 and just within 5 percent of 1/3. -/
def atTheLimit : List (String × List ℚ) :=
  [("NSGAII", [1, 1 / 2 ^ 53, 1 / 2 ^ 53]), ("SPEA2", [1426139882000657 / 4503599627370496])]

/-- The same runs, those of the first algorithm in another order. -/
def atTheLimit' : List (String × List ℚ) :=
  [("NSGAII", [1 / 2 ^ 53, 1 / 2 ^ 53, 1]), ("SPEA2", [1426139882000657 / 4503599627370496])]

/-- **C143, violated.** Beside the limit the points depend on the order of the runs: the algorithms get one point each,
or the first one gets both. -/
theorem C143_order_violated :
    (∀ e ∈ atTheLimit, ∀ x ∈ e.2, round64 x = x) ∧
    List.Forall₂ (fun e e' => e.1 = e'.1 ∧ e.2.Perm e'.2) atTheLimit atTheLimit' ∧
    cell round64 (1 / 2 ^ 52) (Sense.better .max) atTheLimit (round64 (1 / 20)) = some ["NSGAII", "SPEA2"] ∧
    cell round64 (1 / 2 ^ 52) (Sense.better .max) atTheLimit' (round64 (1 / 20)) = some ["NSGAII", "NSGAII"] := by
  refine ⟨by decide +kernel, ?_, by decide +kernel, by decide +kernel⟩
  unfold atTheLimit atTheLimit'
  refine .cons ⟨rfl, ?_⟩ (.cons ⟨rfl, List.Perm.refl _⟩ .nil)
  exact (List.perm_append_comm (l₁ := [1]) (l₂ := [1 / 2 ^ 53, 1 / 2 ^ 53]))

/- The averages of the first two differ by rounding only; they share the points. -/
example : cell (K := ℚ) round64 (1 / 2 ^ 52) (Sense.better .max)
    [("NSGAII", [1, 1 / 2 ^ 53, 1 / 2 ^ 53]), ("SPEA2", [1 / 2 ^ 53, 1 / 2 ^ 53, 1]), ("IBEA", [1 / 4])]
    (round64 (1 / 20)) = some ["SPEA2", "NSGAII"] := by decide +kernel

/- The smaller the better: a clear winner, and algorithms within and outside of the tolerance. -/
example : cell (K := ℚ) round64 (1 / 2 ^ 52) (Sense.better .min)
    [("NSGAII", [1, 2]), ("SPEA2", [2, 3]), ("IBEA", [7])] (round64 (1 / 20)) = some ["NSGAII", "NSGAII"] := by
  decide +kernel

example : cell (K := ℚ) round64 (1 / 2 ^ 52) (Sense.better .min)
    [("NSGAII", [64, 66]), ("SPEA2", [66, 66]), ("IBEA", [70])] (round64 (1 / 20)) = some ["NSGAII", "SPEA2"] := by
  decide +kernel

end Evogil.Rounded.Ranking
