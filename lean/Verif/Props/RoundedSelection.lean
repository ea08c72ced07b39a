import Verif.Model.RoundedSelection
import Verif.Props.Rounded
import Verif.Props.Spea2
import Verif.Lemmas.Nearest

/-! # Properties C125 and C126: selection in floating point -/

set_option linter.unusedSectionVars false

namespace Evogil.Rounded

open Spec Binary64

variable {K : Type*} [Field K] [LinearOrder K] [IsStrictOrderedRing K] [FloorRing K]

/-! ## Weighted choice -/

/-- A float multiplied by a draw stays below the float. -/
theorem mul_draw_lt {t r : K} (ht : round64 t = t) (h1 : 1 ≤ t) (hr : IsDraw (1 / 2 ^ 53) r) :
    round64 (t * r) < t := by
  have R := round64_isRounding (K := K)
  have t0 : 0 < t := by linarith
  obtain ⟨r0, r1⟩ := draw_bounds R hr
  refine lt_of_le_of_lt (R.mono _ _ (mul_le_mul_of_nonneg_left r1 t0.le)) ?_
  -- the digits of `t`
  have hlog : 0 ≤ Int.log 2 t := by
    have := Int.log_mono_right (b := 2) one_pos h1
    rwa [Int.log_one_right] at this
  have hd : lastDigit t = Int.log 2 t - 52 := by unfold lastDigit; omega
  have hq : t = (roundEven (t / (2 : K) ^ lastDigit t) : K) * (2 : K) ^ lastDigit t := by
    have : roundPos t = t := by
      have := ht
      unfold round64 at this
      rwa [if_neg (not_lt.2 t0.le)] at this
    conv_lhs => rw [← this]
    rfl
  obtain ⟨q, hqd⟩ : ∃ q, q = roundEven (t / (2 : K) ^ lastDigit t) := ⟨_, rfl⟩
  obtain ⟨d, hdd⟩ : ∃ d, d = lastDigit t := ⟨_, rfl⟩
  rw [← hqd, ← hdd] at hq
  have hp := two_zpow_pos (K := K) d
  have hlow : (2 : K) ^ (d + 52) ≤ t := by
    rw [hdd, hd, sub_add_cancel]
    exact_mod_cast Int.zpow_log_le_self (b := 2) (by norm_num) t0
  have hup : t < (2 : K) ^ (d + 53) := by rw [hdd]; exact lt_lastDigit t
  have z52 : (2 : K) ^ (52 : ℤ) = 2 ^ 52 := zpow_natCast 2 52
  have z53 : (2 : K) ^ (53 : ℤ) = 2 ^ 53 := zpow_natCast 2 53
  rw [zpow_add₀ (by norm_num), z52] at hlow
  rw [zpow_add₀ (by norm_num), z53] at hup
  have q1 : (2 : ℤ) ^ 52 ≤ q := by
    have : ((2 ^ 52 : ℤ) : K) ≤ q := by
      by_contra hc
      have := mul_lt_mul_of_pos_right (not_le.1 hc) hp
      rw [← hq] at this
      push_cast at this
      norm_num at this hlow
      linarith
    exact_mod_cast this
  have q2 : q < (2 : ℤ) ^ 53 := by
    have : (q : K) < ((2 ^ 53 : ℤ) : K) := by
      by_contra hc
      have := mul_le_mul_of_nonneg_right (not_lt.1 hc) hp.le
      rw [← hq] at this
      push_cast at this
      norm_num at this hup
      linarith
    exact_mod_cast this
  -- a float nearer than `t`
  obtain ⟨y, hy, hyn⟩ : ∃ y : K, round64 y = y ∧ |y - t * (1 - 1 / 2 ^ 53)| < t - t * (1 - 1 / 2 ^ 53) := by
    have tu : t - t * (1 - 1 / 2 ^ 53) = t / 2 ^ 53 := by ring
    rcases eq_or_lt_of_le q1 with h | h
    · refine ⟨t * (1 - 1 / 2 ^ 53), round64_float ⟨2 ^ 53 - 1, d - 1, by norm_num, by omega, ?_⟩, ?_⟩
      · rw [hq, ← h, zpow_sub_one₀ (by norm_num)]
        push_cast
        norm_num
        ring
      · rw [sub_self, abs_zero, tu]
        positivity
    · refine ⟨(q - 1 : ℤ) * (2 : K) ^ d, round64_float ⟨q - 1, d, ?_, by omega, rfl⟩, ?_⟩
      · rw [abs_of_nonneg (by omega)]; omega
      · rw [tu]
        have hqK : ((2 ^ 52 : ℤ) : K) < q := by exact_mod_cast h
        have hqK2 : (q : K) < ((2 ^ 53 : ℤ) : K) := by exact_mod_cast q2
        push_cast at hqK hqK2
        have e : ((q - 1 : ℤ) : K) * (2 : K) ^ d - t * (1 - 1 / 2 ^ 53) =
            -((1 - (q : K) / 2 ^ 53) * (2 : K) ^ d) := by
          conv_lhs => rw [hq]
          push_cast
          ring
        rw [e, abs_neg, abs_of_nonneg (mul_nonneg (by norm_num; linarith) hp.le)]
        have e2 : t / 2 ^ 53 = (q : K) / 2 ^ 53 * (2 : K) ^ d := by
          conv_lhs => rw [hq]
          ring
        rw [e2]
        refine mul_lt_mul_of_pos_right ?_ hp
        norm_num
        linarith
  have := (le_abs_self _).trans ((round64_near (t * (1 - 1 / 2 ^ 53)) hy).trans hyn.le)
  have h2 : |round64 (t * (1 - 1 / 2 ^ 53)) - t * (1 - 1 / 2 ^ 53)| < t - t * (1 - 1 / 2 ^ 53) :=
    lt_of_le_of_lt (round64_near _ hy) hyn
  linarith [(abs_lt.1 h2).2]

theorem pick_ok {α : Type*} {r : K} : ∀ (choices : List (α × K)) (upto : K), round64 upto = upto → upto ≤ r →
    r < (choices.map Prod.snd).foldl (fun s w => round64 (s + w)) upto →
    ∃ c w, pick round64 r upto choices = some c ∧ (c, w) ∈ choices ∧ 0 < w := by
  have R := round64_isRounding (K := K)
  intro choices
  induction choices with
  | nil => intro upto _ h1 h2; exact absurd (lt_of_le_of_lt h1 h2) (lt_irrefl _)
  | cons cw choices ih =>
    intro upto hu h1 h2
    obtain ⟨c, w⟩ := cw
    rw [pick]
    split_ifs with hc
    · refine ⟨c, w, rfl, List.mem_cons_self, ?_⟩
      by_contra hw
      have := fl_le R hu (show upto + w ≤ upto by linarith)
      linarith
    · obtain ⟨c', w', e, hm, hw⟩ := ih (round64 (upto + w)) (R.idem _) (not_lt.1 hc) h2
      exact ⟨c', w', e, List.mem_cons_of_mem _ hm, hw⟩

/-- C125: in floating point, `weighted_choice` never reaches its assertion and returns an item of positive weight, for
all weights whose sum, added up one after the other, is at least 1. -/
theorem C125_choice {α : Type*} (choices : List (α × K)) (hw : 1 ≤ runningSum round64 (choices.map Prod.snd)) (rnd : K)
    (hr : IsDraw (1 / 2 ^ 53) rnd) :
    ∃ c w, weightedChoice round64 (runningSum round64) rnd choices = some c ∧ (c, w) ∈ choices ∧ 0 < w := by
  have R := round64_isRounding (K := K)
  have hf : ∀ (ws : List K) (s : K), round64 s = s →
      round64 (ws.foldl (fun s w => round64 (s + w)) s) = ws.foldl (fun s w => round64 (s + w)) s := by
    intro ws
    induction ws with
    | nil => intro s hs; exact hs
    | cons w ws ih => intro s _; exact ih _ (R.idem _)
  have ht := hf (choices.map Prod.snd) 0 (fl_zero R)
  have hu : uniform round64 rnd 0 (runningSum round64 (choices.map Prod.snd)) =
      round64 (runningSum round64 (choices.map Prod.snd) * rnd) := by
    unfold uniform
    rw [sub_zero, zero_add, R.idem]
    congr 2
  unfold weightedChoice
  refine pick_ok choices 0 (fl_zero R) ?_ ?_
  · rw [hu]
    exact fl_nonneg R (mul_nonneg (by linarith) (draw_bounds R hr).1)
  · rw [hu]
    exact mul_draw_lt ht hw hr

/-- C125: in floating point, the choice of a layer for a migrant of the island model always succeeds. -/
theorem C125_layer {α : Type*} (layers : List α) (hl : layers ≠ []) (rnd : K) (hr : IsDraw (1 / 2 ^ 53) rnd) :
    ∃ l ∈ layers, chosenLayer round64 (runningSum round64) rnd layers = some l := by
  have R := round64_isRounding (K := K)
  have hlen : (layerWeights round64 layers.length : List K).length = layers.length := by simp [layerWeights]
  have hz : ((layers.zip (layerWeights round64 layers.length : List K)).map Prod.snd) =
      layerWeights round64 layers.length := by
    rw [List.map_snd_zip]
    rw [hlen]
  have hmono : ∀ (ws : List K) (s : K), round64 s = s → (∀ w ∈ ws, 0 ≤ w) →
      s ≤ ws.foldl (fun s w => round64 (s + w)) s := by
    intro ws
    induction ws with
    | nil => intro s _ _; exact le_rfl
    | cons w ws ih =>
      intro s hs hw
      refine le_trans (le_fl R hs ?_) (ih _ (R.idem _) fun w hw' => hw w (List.mem_cons_of_mem _ hw'))
      linarith [hw w List.mem_cons_self]
  have hone : 1 ≤ runningSum round64 (layerWeights round64 layers.length : List K) := by
    obtain ⟨n, hn⟩ : ∃ n, layers.length = n + 1 := ⟨layers.length - 1, by
      have := List.length_pos_of_ne_nil hl; omega⟩
    rw [hn, layerWeights, List.range_succ_eq_map, List.map_cons, runningSum, List.foldl_cons]
    have e : round64 (0 + round64 (1 / (((0 : ℕ) : K) + 1))) = (1 : K) := by
      norm_num [fl_one R]
    rw [e]
    refine hmono _ 1 (fl_one R) ?_
    intro w hw
    obtain ⟨i, -, rfl⟩ := List.mem_map.1 hw
    exact fl_nonneg R (by positivity)
  obtain ⟨c, w, e, hm, -⟩ := C125_choice (layers.zip (layerWeights round64 layers.length)) (by rw [hz]; exact hone) rnd hr
  exact ⟨c, (List.of_mem_zip hm).1, e⟩

/-- The sum has to be added up in the order of the loop: with an exact sum that is rounded once (as by the
compensated `sum` of Python 3.12) the assertion of `weighted_choice` is reached for four layers and the largest draw. -/
theorem C125_exact_sum_fails :
    chosenLayer round64 (fun ws => round64 ws.sum) (1 - 1 / 2 ^ 53 : ℚ) [0, 1, 2, 3] = none := by decide +kernel

/-- The same draw with the sum as in Python 3.6, where the last layer is chosen, and a draw in the middle. -/
example : chosenLayer round64 (runningSum round64) (1 - 1 / 2 ^ 53 : ℚ) [0, 1, 2, 3] = some 3 ∧
    chosenLayer round64 (runningSum round64) (1 / 2 : ℚ) [0, 1, 2, 3] = some 1 := by decide +kernel

/-- A weight of 0 is passed over, even for the smallest draw. -/
example : weightedChoice round64 (runningSum round64) (0 : ℚ) [("a", 0), ("b", 2)] = some "b" := by decide +kernel

/-! ## SPEA2 -/

section spea2

variable {ι : Type*} [DecidableEq ι]

/-- C126: in floating point, the fitness of SPEA2 exceeds 1 exactly for the dominated individuals, as long as no two
objective vectors are farther apart than 2⁵² - 2. -/
theorem C126_spea2_partial (dist : List K → List K → K) (n : ℕ) (obj : ι → List K) (union : List ι)
    (hdist : ∀ x ∈ union, ∀ y ∈ union, 0 ≤ dist (obj x) (obj y) ∧ dist (obj x) (obj y) ≤ 2 ^ 52 - 2)
    (hlen : ∀ x ∈ union, (obj x).length = n) (htwo : 2 ≤ union.length) (p : ι)
    (hp : p ∈ union) :
    ∃ f, spea2Fitness round64 dist obj union p = some f ∧ (1 < f ↔ ∃ y ∈ union, LDom (obj y) (obj p)) := by
  have R := round64_isRounding (K := K)
  obtain ⟨h1, h2⟩ := Spea2.C24_raw n obj union hlen p hp
  have hs : Nat.sqrt union.length < (pySorted id (union.map fun p2 => dist (obj p) (obj p2))).length := by
    rw [pySorted_length, List.length_map]
    exact Nat.sqrt_lt_self (by omega)
  obtain ⟨d, hd⟩ : ∃ d, (pySorted id (union.map fun p2 => dist (obj p) (obj p2)))[Nat.sqrt union.length]? = some d :=
    ⟨_, List.getElem?_eq_getElem hs⟩
  have hdm : d ∈ union.map fun p2 => dist (obj p) (obj p2) :=
    (pySorted_perm id _).mem_iff.1 (List.mem_of_getElem? hd)
  obtain ⟨p2, hpm, hp2⟩ := List.mem_map.1 hdm
  obtain ⟨d0, d1⟩ := hdist p hp p2 hpm
  rw [hp2] at d0 d1
  have f52 : round64 (2 ^ 52 : K) = 2 ^ 52 := round64_float ⟨1, 52, by norm_num, by norm_num, by norm_num⟩
  have e52 : round64 (1 / 2 ^ 52 : K) = 1 / 2 ^ 52 :=
    round64_float ⟨1, -52, by norm_num, by norm_num, by norm_num⟩
  have g1 : round64 (1 + 1 / 2 ^ 52 : K) = 1 + 1 / 2 ^ 52 :=
    round64_float ⟨2 ^ 52 + 1, -52, by norm_num, by norm_num, by norm_num⟩
  have s1 : round64 (d + 2) ≤ 2 ^ 52 := fl_le R f52 (by linarith)
  have s2 : 2 ≤ round64 (d + 2) := le_fl R (fl_two R) (by linarith)
  have s3 : 1 / 2 ^ 52 ≤ round64 (1 / round64 (d + 2)) :=
    le_fl R e52 (one_div_le_one_div_of_le (by linarith) s1)
  have s4 : round64 (1 / round64 (d + 2)) ≤ 1 := fl_le_one R (by
    rw [div_le_one (by linarith)]; linarith)
  refine ⟨round64 (Spea2.rawFitness obj union p + round64 (1 / round64 (d + 2))),
    by unfold spea2Fitness; simp only [hd], ?_⟩
  constructor
  · intro hf
    by_contra hc
    have hr0 : Spea2.rawFitness obj union p = 0 := h1.2 fun y hy hh => hc ⟨y, hy, hh⟩
    rw [hr0, zero_add] at hf
    exact absurd hf (not_lt.2 (fl_le_one R s4))
  · intro hh
    have hr1 := h2 hh
    refine lt_of_lt_of_le ?_ (le_fl R g1 (show (1 : K) + 1 / 2 ^ 52 ≤ _ by linarith))
    have : (0 : K) < 1 / 2 ^ 52 := by positivity
    linarith

/-- Two points far apart. -/
def farApart : Fin 2 → List ℚ := fun i => if i = 0 then [0] else [2 ^ 53]

/-- C126 is violated for objective vectors that are very far apart: the density vanishes in the sum, and a dominated
individual passes for a non-dominated one. -/
theorem C126_spea2_violated :
    spea2Fitness round64 (fun a b => |a.headD 0 - b.headD 0|) farApart [0, 1] 1 = some 1 ∧
      dominates (farApart 0) (farApart 1) = true := by decide +kernel

/-- Three points, the last dominated by the other two; the densities are those of the second nearest. -/
example : [0, 1, 2].map (spea2Fitness round64 (fun a b => |a.headD 0 - b.headD 0|)
      (fun i : Fin 3 => if i = 0 then [0, 1] else if i = 1 then [1, 0] else [(2 : ℚ), 2]) [0, 1, 2]) =
    [some (round64 (1 / 3)), some (round64 (1 / 3)), some (round64 (2 + round64 (1 / 3)))] := by decide +kernel

end spea2

/-! ## IBEA -/

theorem scaled_mem {lo hi f : K} (h1 : lo ≤ f) (h2 : f ≤ hi) :
    0 ≤ scaled round64 (1 / 2 ^ 52) lo hi f ∧ scaled round64 (1 / 2 ^ 52) lo hi f ≤ 1 := by
  obtain ⟨-, b, c⟩ := ratio_mem round64_isRounding (eps := (1 / 2 ^ 52 : K)) (by positivity)
    (round64_float ⟨1, -52, by norm_num, by norm_num, by norm_num⟩) (a := f - lo) (b := hi - lo)
    (by linarith) (by linarith)
  exact ⟨b, c⟩

theorem scaled_mono {lo hi f g : K} (h1 : lo ≤ f) (h : f ≤ g) (h2 : g ≤ hi) :
    scaled round64 (1 / 2 ^ 52) lo hi f ≤ scaled round64 (1 / 2 ^ 52) lo hi g := by
  have R := round64_isRounding (K := K)
  obtain ⟨a, -, -⟩ := ratio_mem R (eps := (1 / 2 ^ 52 : K)) (by positivity)
    (round64_float ⟨1, -52, by norm_num, by norm_num, by norm_num⟩) (a := hi - lo) (b := hi - lo)
    (by linarith) le_rfl
  exact R.mono _ _ (div_le_div_of_nonneg_right (R.mono _ _ (by linarith)) a.le)

/-- C125: in floating point, the scaled objectives of IBEA lie in [0, 1] and are never in the wrong order (different
values may become equal). -/
theorem C125_scaled (lo hi f g : K) (hf : lo ≤ f ∧ f ≤ hi) (hg : lo ≤ g ∧ g ≤ hi) :
    (0 ≤ scaled round64 (1 / 2 ^ 52) lo hi f ∧ scaled round64 (1 / 2 ^ 52) lo hi f ≤ 1) ∧
      (scaled round64 (1 / 2 ^ 52) lo hi f < scaled round64 (1 / 2 ^ 52) lo hi g → f < g) := by
  refine ⟨scaled_mem hf.1 hf.2, fun h => ?_⟩
  by_contra hc
  exact absurd h (not_lt.2 (scaled_mono hg.1 (not_lt.1 hc) hf.2))

theorem ePlus_mem {xs ys : List K} {i : K} (hx : ∀ x ∈ xs, 0 ≤ x ∧ x ≤ 1) (hy : ∀ y ∈ ys, 0 ≤ y ∧ y ≤ 1)
    (h : ePlus round64 xs ys = some i) : |i| ≤ 1 ∧ round64 i = i := by
  have R := round64_isRounding (K := K)
  have hm := List.max?_mem h
  obtain ⟨j, hj, he⟩ := List.getElem_of_mem hm
  rw [List.getElem_zipWith] at he
  rw [← he]
  refine ⟨?_, R.idem _⟩
  have a := hx _ (List.getElem_mem (l := xs) (n := j) (by simp at hj; omega))
  have b := hy _ (List.getElem_mem (l := ys) (n := j) (by simp at hj; omega))
  refine abs_le.2 ⟨?_, fl_le_one R (by linarith)⟩
  have := R.mono (-1) _ (show (-1 : K) ≤ xs[j]'(by simp at hj; omega) - ys[j]'(by simp at hj; omega) by linarith)
  rwa [round64_neg, fl_one R] at this

theorem exponent_le {c k i : K} (hk : 1 / 32 ≤ k) (hi : |i| ≤ c) (hc : round64 c = c) :
    |exponent round64 (1 / 2 ^ 52) c k i| ≤ 32 := by
  have R := round64_isRounding (K := K)
  have c0 : 0 ≤ c := (abs_nonneg i).trans hi
  have e52 : round64 (1 / 2 ^ 52 : K) = 1 / 2 ^ 52 :=
    round64_float ⟨1, -52, by norm_num, by norm_num, by norm_num⟩
  have f32 : round64 (32 : K) = 32 := round64_float ⟨32, 0, by norm_num, by norm_num, by norm_num⟩
  have k0 : 0 ≤ c * k := mul_nonneg c0 (by linarith [show (0 : K) < 1 / 32 by norm_num])
  have d1 : 1 / 2 ^ 52 ≤ round64 (round64 (c * k) + 1 / 2 ^ 52) :=
    le_fl R e52 (by linarith [fl_nonneg R k0])
  have d2 : round64 (c * k) ≤ round64 (round64 (c * k) + 1 / 2 ^ 52) :=
    le_fl R (R.idem _) (by
      have : (0 : K) < 1 / 2 ^ 52 := by positivity
      linarith)
  have dpos : 0 < round64 (round64 (c * k) + 1 / 2 ^ 52) := lt_of_lt_of_le (by positivity) d1
  have hD : c ≤ 32 * round64 (round64 (c * k) + 1 / 2 ^ 52) := by
    rcases le_or_gt c (32 * (1 / 2 ^ 52)) with h | h
    · linarith
    · have hf : round64 (c / 32) = c / 32 := by
        obtain ⟨m, e, hm, he, hce⟩ : IsFloat c := hc ▸ isFloat_round64 c
        have hpos : 0 < c := lt_of_le_of_lt (by positivity) h
        have hme : -100 ≤ e := by
          by_contra hn
          have h1 : (2 : K) ^ e ≤ (2 : K) ^ (-101 : ℤ) := zpow_le_zpow_right₀ (by norm_num) (by omega)
          have hlt : m < 2 ^ 53 := lt_of_le_of_lt (le_abs_self m) hm
          have hmK : (m : K) ≤ 2 ^ 53 := by
            have h2 : (m : K) < ((2 ^ 53 : ℤ) : K) := Int.cast_lt.2 hlt
            push_cast at h2
            exact (lt_of_lt_of_eq h2 (by norm_num)).le
          have h3 : c ≤ 2 ^ 53 * (2 : K) ^ (-101 : ℤ) := by
            rw [hce]
            exact mul_le_mul hmK h1 (two_zpow_pos _).le (by positivity)
          have h4 : (2 : K) ^ 53 * (2 : K) ^ (-101 : ℤ) ≤ 32 * (1 / 2 ^ 52) := by norm_num
          exact absurd (lt_of_lt_of_le h (h3.trans h4)) (lt_irrefl _)
        refine round64_float ⟨m, e - 5, hm, by omega, ?_⟩
        rw [hce, zpow_sub₀ (by norm_num)]
        norm_num
        ring
      have : c / 32 ≤ round64 (c * k) := le_fl R hf (by
        have := mul_le_mul_of_nonneg_left hk c0
        linarith)
      linarith
  unfold exponent
  rw [abs_neg, abs_of_pos dpos]
  have hb : |i / round64 (round64 (c * k) + 1 / 2 ^ 52)| ≤ 32 := by
    rw [abs_div, abs_of_pos dpos, div_le_iff₀ dpos]
    exact hi.trans hD
  have := abs_le.1 hb
  refine abs_le.2 ⟨?_, fl_le R f32 this.2⟩
  refine le_fl R ?_ this.1
  rw [round64_neg, f32]

/-- C125: in floating point, the argument of `math.exp` in IBEA lies between -32 and 32 for the shipped `kappa` of 0.05
(and all others from 1/32 on), so no `OverflowError` is raised: `bounds` encloses the objective vectors of the
population, `c` is the largest absolute value of an indicator. -/
theorem C125_ibea (bounds : List (K × K)) (hb : bounds ≠ []) (objs : List (List K))
    (ho : ∀ f ∈ objs, InBox f bounds) (k : K) (hk : 1 / 32 ≤ k) (c : K)
    (hmem : ∃ f ∈ objs, ∃ g ∈ objs, ∃ i,
      ePlus round64 (scaledVec round64 (1 / 2 ^ 52) bounds f) (scaledVec round64 (1 / 2 ^ 52) bounds g) = some i ∧ c = |i|)
    (hmax : ∀ f ∈ objs, ∀ g ∈ objs, ∀ i,
      ePlus round64 (scaledVec round64 (1 / 2 ^ 52) bounds f) (scaledVec round64 (1 / 2 ^ 52) bounds g) = some i → |i| ≤ c)
    (f g : List K) (hf : f ∈ objs) (hg : g ∈ objs) :
    ∃ i, ePlus round64 (scaledVec round64 (1 / 2 ^ 52) bounds f) (scaledVec round64 (1 / 2 ^ 52) bounds g) = some i ∧
      |exponent round64 (1 / 2 ^ 52) c k i| ≤ 32 := by
  have hlen : ∀ f ∈ objs, (scaledVec round64 (1 / 2 ^ 52 : K) bounds f).length = bounds.length := fun f hf => by
    rw [scaledVec, List.length_zipWith, (ho f hf).length_eq, min_self]
  have hunit : ∀ f ∈ objs, ∀ x ∈ scaledVec round64 (1 / 2 ^ 52 : K) bounds f, 0 ≤ x ∧ x ≤ 1 := by
    intro f hf x hx
    obtain ⟨j, hj, he⟩ := List.getElem_of_mem hx
    rw [hlen f hf] at hj
    have hj2 : j < f.length := by rwa [(ho f hf).length_eq]
    have he2 : x = scaled round64 (1 / 2 ^ 52) (bounds[j]).1 (bounds[j]).2 f[j] := by
      rw [← he]
      exact List.getElem_zipWith ..
    rw [he2]
    have := (ho f hf).get (List.getElem?_eq_getElem hj2) (List.getElem?_eq_getElem hj)
    exact scaled_mem this.1 this.2
  have hsome : ∃ i, ePlus round64 (scaledVec round64 (1 / 2 ^ 52 : K) bounds f)
      (scaledVec round64 (1 / 2 ^ 52) bounds g) = some i := by
    refine Option.ne_none_iff_exists'.1 fun hn => ?_
    unfold ePlus at hn
    rw [List.max?_eq_none_iff] at hn
    have := congrArg List.length hn
    rw [List.length_zipWith, hlen f hf, hlen g hg, min_self] at this
    exact hb (List.length_eq_zero_iff.1 this)
  obtain ⟨i, hi⟩ := hsome
  refine ⟨i, hi, exponent_le hk (hmax f hf g hg i hi) ?_⟩
  obtain ⟨f', hf', g', hg', i', hi', rfl⟩ := hmem
  have := (ePlus_mem (hunit f' hf') (hunit g' hg') hi').2
  rcases abs_choice i' with h | h <;> rw [h]
  · exact this
  · rw [round64_neg, this]

/-- Different values may become equal (here because the difference to -1 is rounded). -/
example : scaled round64 (1 / 2 ^ 52) (-1) (3 : ℚ) (1 / 2 ^ 60) = scaled round64 (1 / 2 ^ 52) (-1) 3 0 ∧
    scaled round64 (1 / 2 ^ 52) (-1) (3 : ℚ) 3 = 1 := by decide +kernel

/-- Two individuals and the shipped `kappa`: the exponents are nearly -20 and 20. -/
example : ePlus round64 [(0 : ℚ), 1] [1, 0] = some 1 ∧
    |exponent round64 (1 / 2 ^ 52) 1 (round64 (1 / 20)) (1 : ℚ)| ≤ 20 ∧
    exponent round64 (1 / 2 ^ 52) 1 (round64 (1 / 20)) (-1 : ℚ) = 20 - 25 / 2 ^ 48 := by decide +kernel

/-! ## NSGA-II -/

/-- The values of a place lie between the ends of the front and the neighbours are in order. -/
def PlaceOk (lo hi : K) : Place K → Prop
  | .last value prev => lo ≤ prev ∧ prev ≤ value ∧ value ≤ hi
  | .inner prev next => lo ≤ prev ∧ prev ≤ next ∧ next ≤ hi

theorem crowdTerm_mem {lo hi : K} {p : Place K} (h : PlaceOk lo hi p) :
    0 ≤ crowdTerm round64 (1 / 2 ^ 52) lo hi p ∧ crowdTerm round64 (1 / 2 ^ 52) lo hi p ≤ 2 := by
  have R := round64_isRounding (K := K)
  have e52 : round64 (1 / 2 ^ 52 : K) = 1 / 2 ^ 52 :=
    round64_float ⟨1, -52, by norm_num, by norm_num, by norm_num⟩
  cases p with
  | last v q =>
    obtain ⟨h1, h2, h3⟩ := h
    obtain ⟨a, b, c⟩ := ratio_mem R (eps := (1 / 2 ^ 52 : K)) (by positivity) e52 (a := v - q) (b := hi - lo)
      (by linarith) (by linarith)
    simp only [crowdTerm]
    have hv : 0 ≤ round64 (v - q) := fl_nonneg R (by linarith)
    have hle : round64 (v - q) ≤ round64 (round64 (hi - lo) + 1 / 2 ^ 52) :=
      (R.mono _ _ (show v - q ≤ hi - lo by linarith)).trans (le_fl R (R.idem _) (by
        have : (0 : K) < 1 / 2 ^ 52 := by positivity
        linarith))
    rw [R.double _ (R.idem _)]
    refine ⟨fl_nonneg R (div_nonneg (by linarith) a.le), fl_le R (fl_two R) ?_⟩
    rw [div_le_iff₀ a]
    linarith
  | inner q v =>
    obtain ⟨h1, h2, h3⟩ := h
    obtain ⟨a, b, c⟩ := ratio_mem R (eps := (1 / 2 ^ 52 : K)) (by positivity) e52 (a := v - q) (b := hi - lo)
      (by linarith) (by linarith)
    simp only [crowdTerm]
    exact ⟨b, c.trans (by norm_num)⟩

/-- C125: in floating point, the crowding distance of NSGA-II of an individual that is not the first for any of up to
2⁵¹ objectives is a number between 0 and twice the number of objectives, and its sort key is positive: nothing is
divided by 0. Larger distances never get larger keys. -/
theorem C125_crowding (terms : List ((K × K) × Place K)) (ht : ∀ t ∈ terms, PlaceOk t.1.1 t.1.2 t.2)
    (hn : terms.length ≤ 2 ^ 51) :
    0 ≤ crowdDist round64 (1 / 2 ^ 52) terms ∧ crowdDist round64 (1 / 2 ^ 52) terms ≤ 2 * terms.length ∧
      0 < crowdKey round64 (1 / 2 ^ 52) (crowdDist round64 (1 / 2 ^ 52) terms) ∧
      ∀ d e : K, 0 ≤ d → d ≤ e → crowdKey round64 (1 / 2 ^ 52) e ≤ crowdKey round64 (1 / 2 ^ 52) d := by
  have R := round64_isRounding (K := K)
  have e52 : round64 (1 / 2 ^ 52 : K) = 1 / 2 ^ 52 :=
    round64_float ⟨1, -52, by norm_num, by norm_num, by norm_num⟩
  have hev : ∀ j : ℕ, j ≤ 2 ^ 51 → round64 (2 * (j : K)) = 2 * j := by
    intro j hj
    refine round64_float ⟨2 * j, 0, ?_, by norm_num, by push_cast; ring⟩
    rw [abs_of_nonneg (by positivity)]
    omega
  have fold : ∀ (ts : List ((K × K) × Place K)) (s : K) (j : ℕ), (∀ t ∈ ts, PlaceOk t.1.1 t.1.2 t.2) → 0 ≤ s →
      s ≤ 2 * j → j + ts.length ≤ 2 ^ 51 →
      0 ≤ ts.foldl (fun s t => round64 (s + crowdTerm round64 (1 / 2 ^ 52) t.1.1 t.1.2 t.2)) s ∧
      ts.foldl (fun s t => round64 (s + crowdTerm round64 (1 / 2 ^ 52) t.1.1 t.1.2 t.2)) s ≤
        2 * ((j + ts.length : ℕ) : K) := by
    intro ts
    induction ts with
    | nil => intro s j _ h0 h1 _; exact ⟨h0, by simpa using h1⟩
    | cons t ts ih =>
      intro s j hts h0 h1 hj
      obtain ⟨c0, c1⟩ := crowdTerm_mem (hts t List.mem_cons_self)
      rw [List.foldl_cons, List.length_cons, show j + (ts.length + 1) = j + 1 + ts.length by ring]
      rw [List.length_cons] at hj
      refine ih _ (j + 1) (fun t ht => hts t (List.mem_cons_of_mem _ ht)) (fl_nonneg R (by linarith)) ?_ (by omega)
      refine fl_le R (hev (j + 1) (by omega)) ?_
      push_cast
      linarith
  obtain ⟨d0, d1⟩ := fold terms 0 0 ht le_rfl (by simp) (by omega)
  rw [zero_add] at d1
  refine ⟨d0, d1, ?_, ?_⟩
  · unfold crowdKey
    have b1 : round64 (crowdDist round64 (1 / 2 ^ 52) terms + 1 / 2 ^ 52) ≤ 2 ^ 53 := by
      refine fl_le R (round64_float ⟨1, 53, by norm_num, by norm_num, by norm_num⟩) ?_
      have h3 : (terms.length : K) ≤ 2 ^ 51 := by exact_mod_cast hn
      have h2 : crowdDist round64 (1 / 2 ^ 52) terms ≤ 2 * terms.length := d1
      have h4 : (1 / 2 ^ 52 : K) ≤ 1 := by norm_num
      have h5 : (2 * 2 ^ 51 + 1 : K) ≤ 2 ^ 53 := by norm_num
      linarith
    have b0 : 1 / 2 ^ 52 ≤ round64 (crowdDist round64 (1 / 2 ^ 52) terms + 1 / 2 ^ 52) :=
      le_fl R e52 (by
        have : 0 ≤ crowdDist round64 (1 / 2 ^ 52) terms := d0
        linarith)
    have bp : 0 < round64 (crowdDist round64 (1 / 2 ^ 52) terms + 1 / 2 ^ 52) := lt_of_lt_of_le (by positivity) b0
    have : (1 / 2 ^ 53 : K) ≤ round64 (1 / round64 (crowdDist round64 (1 / 2 ^ 52) terms + 1 / 2 ^ 52)) := by
      refine le_fl R (round64_float ⟨1, -53, by norm_num, by norm_num, by norm_num⟩) ?_
      exact one_div_le_one_div_of_le bp b1
    exact lt_of_lt_of_le (by positivity) this
  · intro d e hd hde
    unfold crowdKey
    refine R.mono _ _ (one_div_le_one_div_of_le ?_ (R.mono _ _ (by linarith)))
    exact lt_of_lt_of_le (by positivity) (le_fl R e52 (by linarith))

/-- An individual that is the last for one objective and an inner one for the other. -/
example : crowdDist round64 (1 / 2 ^ 52) [((0, 4), .last (4 : ℚ) 3), ((0, 4), .inner 0 2)] = 1 ∧
    crowdKey round64 (1 / 2 ^ 52) (1 : ℚ) = 1 - 1 / 2 ^ 52 ∧ crowdKey round64 (1 / 2 ^ 52) (0 : ℚ) = 2 ^ 52 := by
  decide +kernel

/-- All values equal: nothing is divided by 0. -/
example : crowdDist round64 (1 / 2 ^ 52) [((1, 1), .last (1 : ℚ) 1)] = 0 := by decide +kernel

end Evogil.Rounded
