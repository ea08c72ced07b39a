import Verif.Model.RoundedIbea
import Verif.Props.Ibea
import Verif.Props.RoundedSelection
import Verif.Lemmas.RoundedError
import Mathlib.Analysis.SpecialFunctions.Exp
import Mathlib.Analysis.Complex.ExponentialBounds

/-! # Property C132: the environmental selection of IBEA in floating point -/

set_option linter.unusedSectionVars false

namespace Evogil.Rounded.Ibea

open Spec Binary64
open Evogil.Ibea (SpecFitness specFitness_perm specFitness_erase)

section general

variable {ι : Type*} [DecidableEq ι] {K : Type*} [Field K] [LinearOrder K] [IsStrictOrderedRing K] [FloorRing K]

/-! ## Errors of single operations -/

theorem abs_error (x : K) : |round64 x - x| ≤ 1 / 2 ^ 53 * |x| + 1 / 2 ^ 200 := by
  rcases le_or_gt ((1 / 2 : K) ^ 1022) |x| with h | h
  · have := round64_accurate.error x h
    have h2 : (0 : K) ≤ 1 / 2 ^ 200 := by positivity
    linarith
  · have hb : |round64 x| ≤ (1 / 2 : K) ^ 1022 := by
      have hx := abs_le.1 h.le
      have p := (round64_accurate (K := K)).power 1022 le_rfl
      rw [abs_le]
      constructor
      · have := round64_mono hx.1
        rwa [round64_neg, p] at this
      · have := round64_mono hx.2
        rwa [p] at this
    have hs : (1 / 2 : K) ^ 1022 ≤ 1 / 2 ^ 201 := by
      rw [one_div_pow]
      exact one_div_le_one_div_of_le (by positivity) (pow_le_pow_right₀ (by norm_num) (by norm_num))
    have h3 : |round64 x - x| ≤ |round64 x| + |x| := abs_sub _ _
    have h4 : (1 : K) / 2 ^ 201 + 1 / 2 ^ 201 = 1 / 2 ^ 200 := by rw [pow_succ]; field_simp; norm_num
    have h5 : (0 : K) ≤ 1 / 2 ^ 53 * |x| := by positivity
    exact h3.trans ((add_le_add (hb.trans hs) (h.le.trans hs)).trans (h4.le.trans (le_add_of_nonneg_left h5)))

/-- One rounded addition near a sum of at most `A`. -/
theorem step_error {A ε v w d : K} (h1 : 1 ≤ A) (hε : ε = A / 2 ^ 52) (hv : |v| ≤ A) (hd : |w - v| ≤ d) (hA : d ≤ A / 2) :
    |round64 w - v| ≤ d + ε := by
  have hw : |w| ≤ A + A / 2 := by
    have : |w| ≤ |w - v| + |v| := by simpa using abs_add_le (w - v) v
    linarith
  have he := abs_error w
  have h2 : |round64 w - v| ≤ |round64 w - w| + |w - v| := abs_sub_le _ _ _
  have h3 : (1 : K) / 2 ^ 53 * |w| ≤ 1 / 2 ^ 53 * (A + A / 2) := mul_le_mul_of_nonneg_left hw (by positivity)
  have h4 : (1 : K) / 2 ^ 200 ≤ 1 / 2 ^ 54 * 1 := by
    rw [mul_one]
    exact one_div_le_one_div_of_le (by positivity) (pow_le_pow_right₀ (by norm_num) (by norm_num))
  have h5 : (1 : K) / 2 ^ 54 * 1 ≤ 1 / 2 ^ 54 * A := mul_le_mul_of_nonneg_left h1 (by positivity)
  have h6 : (1 : K) / 2 ^ 53 * (A + A / 2) + 1 / 2 ^ 54 * A ≤ ε := by
    rw [hε]
    have : (1 : K) / 2 ^ 53 * (A + A / 2) + 1 / 2 ^ 54 * A = A / 2 ^ 52 := by
      field_simp
      norm_num
    rw [this]
  linarith

/-- The error of a sum. -/
theorem sum_error {A ε : K} (h1 : 1 ≤ A) (hε : ε = A / 2 ^ 52) : ∀ (ws : List K) (s S : K) (j : ℕ),
    |s - S| ≤ j * ε → |S| + (ws.map fun w => |w|).sum ≤ A → ((j + ws.length : ℕ) : K) * ε ≤ A / 2 →
    |ws.foldl (fun s w => round64 (s + w)) s - (S + ws.sum)| ≤ ((j + ws.length : ℕ) : K) * ε
  | [], s, S, j, h, _, _ => by simpa using h
  | w :: ws, s, S, j, h, hs, hj => by
    have hε0 : 0 ≤ ε := by rw [hε]; positivity
    rw [List.map_cons, List.sum_cons] at hs
    rw [List.length_cons] at hj ⊢
    have hsum : 0 ≤ (ws.map fun w => |w|).sum := List.sum_nonneg fun x hx => by
      obtain ⟨y, -, rfl⟩ := List.mem_map.1 hx
      exact abs_nonneg y
    have hSw : |S + w| ≤ |S| + |w| := abs_add_le _ _
    have hjle : (j : K) * ε ≤ A / 2 := le_trans (mul_le_mul_of_nonneg_right (by exact_mod_cast (by omega)) hε0) hj
    have hstep := step_error (v := S + w) (w := s + w) h1 hε (by linarith) (d := j * ε)
      (by rwa [add_sub_add_right_eq_sub]) hjle
    have := sum_error h1 hε ws (round64 (s + w)) (S + w) (j + 1)
      (by push_cast; linarith) (by linarith) (by
        have e : j + 1 + ws.length = j + (ws.length + 1) := by omega
        rwa [e])
    rw [List.foldl_cons, List.sum_cons, ← add_assoc]
    have e : j + 1 + ws.length = j + (ws.length + 1) := by omega
    rwa [e] at this

/-! ## The loop -/

/-- Specification of the reduction with a tolerance: as long as there are more than `size` individuals, one leaves
whose indicator fitness in the present population exceeds that of nobody by more than `t`. The last list names the
removed individuals in order. -/
inductive ReducesWithin (e : ι → ι → K) (t : K) (size : ℕ) : List ι → List ι → List ι → Prop
  | stop {l l' : List ι} : l.length ≤ size → l.Perm l' → ReducesWithin e t size l l' []
  | remove {l l' rs : List ι} {r : ι} : size < l.length → r ∈ l →
      (∀ x ∈ l, SpecFitness e l r ≤ SpecFitness e l x + t) →
      ReducesWithin e t size (l.erase r) l' rs → ReducesWithin e t size l l' (r :: rs)

theorem ReducesWithin.of_perm {e : ι → ι → K} {t : K} {size : ℕ} {l l1 l' rs : List ι} (hp : l.Perm l1)
    (h : ReducesWithin e t size l l' rs) : ReducesWithin e t size l1 l' rs := by
  induction h generalizing l1 with
  | stop h1 h2 => exact .stop (by rw [← hp.length_eq]; exact h1) (hp.symm.trans h2)
  | remove h1 h2 h3 _ ih =>
    refine .remove (by rw [← hp.length_eq]; exact h1) (hp.mem_iff.1 h2) ?_ (ih (hp.erase _))
    intro x hx
    rw [← specFitness_perm e hp, ← specFitness_perm e hp]
    exact h3 x (hp.mem_iff.2 hx)

theorem sum_le_of_bounded {M : K} : ∀ {ws : List K}, (∀ w ∈ ws, w ≤ M) → ws.sum ≤ ws.length * M
  | [], _ => by simp
  | w :: ws, h => by
    have := sum_le_of_bounded (ws := ws) fun x hx => h x (List.mem_cons_of_mem _ hx)
    have h0 := h w List.mem_cons_self
    rw [List.sum_cons, List.length_cons]
    push_cast
    linarith

theorem specFitness_abs {e : ι → ι → K} {M A : K} (hM : 0 ≤ M) {l : List ι} {x : ι}
    (he : ∀ z ∈ l, 0 ≤ e z x ∧ e z x ≤ M) (hA : l.length * M ≤ A) : |SpecFitness e l x| ≤ A := by
  unfold SpecFitness
  rw [abs_neg]
  have h0 : 0 ≤ ((l.erase x).map fun y => e y x).sum := List.sum_nonneg fun w hw => by
    obtain ⟨y, hy, rfl⟩ := List.mem_map.1 hw
    exact (he y (List.mem_of_mem_erase hy)).1
  have h1 := sum_le_of_bounded (M := M) (ws := (l.erase x).map fun y => e y x) fun w hw => by
    obtain ⟨y, hy, rfl⟩ := List.mem_map.1 hw
    exact (he y (List.mem_of_mem_erase hy)).2
  rw [abs_of_nonneg h0]
  refine h1.trans (le_trans (mul_le_mul_of_nonneg_right ?_ hM) hA)
  rw [List.length_map]
  exact_mod_cast List.length_erase_le

theorem fitness_error {e : ι → ι → K} {M A ε : K} (hM : 0 ≤ M) (h1 : 1 ≤ A) (hε : ε = A / 2 ^ 52) {l : List ι}
    (hnd : l.Nodup) {x : ι} (he : ∀ z ∈ l, 0 ≤ e z x ∧ e z x ≤ M) (hA : l.length * M ≤ A)
    (hj : (l.length : K) * ε ≤ A / 2) : |fitness round64 e l x - SpecFitness e l x| ≤ l.length * ε := by
  have hε0 : 0 ≤ ε := by rw [hε]; positivity
  rw [← Evogil.Ibea.fitness_eq_spec e hnd]
  unfold fitness Evogil.Ibea.fitness runningSum
  simp only [neg_one_mul]
  set ws := (l.filter fun x2 => decide (x2 ≠ x)).map fun x2 => -e x2 x with hws
  have hlen : ws.length ≤ l.length := by
    rw [hws, List.length_map]
    exact List.length_filter_le _ _
  have hle : ((0 + ws.length : ℕ) : K) * ε ≤ l.length * ε :=
    mul_le_mul_of_nonneg_right (by exact_mod_cast (by omega)) hε0
  have hb := sum_le_of_bounded (M := M) (ws := ws.map fun w => |w|) fun w hw => by
    obtain ⟨w', hw', rfl⟩ := List.mem_map.1 hw
    obtain ⟨z, hz, rfl⟩ := List.mem_map.1 hw'
    have := he z (List.mem_filter.1 hz).1
    simp only [abs_neg]
    rw [abs_of_nonneg this.1]
    exact this.2
  have hb2 : ((ws.map fun w => |w|).length : K) * M ≤ l.length * M :=
    mul_le_mul_of_nonneg_right (by rw [List.length_map]; exact_mod_cast hlen) hM
  have := sum_error h1 hε ws 0 0 0 (by simp) (by rw [abs_zero, zero_add]; linarith) (by linarith)
  rw [zero_add] at this
  exact this.trans hle

theorem selectionLoop_spec (e : ι → ι → K) {M A ε T : K} (hM : 0 ≤ M) (h1 : 1 ≤ A) (hε : ε = A / 2 ^ 52) (hT : T ≤ A / 2)
    (size : ℕ) : ∀ (fuel : ℕ) (l : List ι) (fit : ι → K) (j : ℕ), l.Nodup →
    (∀ x ∈ l, |fit x - SpecFitness e l x| ≤ j * ε) → (∀ x ∈ l, ∀ z ∈ l, 0 ≤ e z x ∧ e z x ≤ M) → l.length * M ≤ A →
    ((j + l.length : ℕ) : K) * ε ≤ T → l.length ≤ size + fuel →
    ∃ l' fit' rs, selectionLoop round64 e size fuel l fit = some (l', fit') ∧ ReducesWithin e (2 * T) size l l' rs ∧
      l'.length = min size l.length ∧ (l' ++ rs).Perm l ∧ ∀ x ∈ l', |fit' x - SpecFitness e l' x| ≤ T := by
  have hε0 : 0 ≤ ε := by rw [hε]; positivity
  have hle : ∀ (j : ℕ) (l : List ι), ((j + l.length : ℕ) : K) * ε ≤ T → (j : K) * ε ≤ T := fun j l h =>
    le_trans (mul_le_mul_of_nonneg_right (by exact_mod_cast (by omega)) hε0) h
  intro fuel
  induction fuel with
  | zero =>
    intro l fit j hnd hfit he hA hj hlen
    refine ⟨l, fit, [], ?_, .stop (by omega) (List.Perm.refl _), by omega, by simp,
      fun x hx => (hfit x hx).trans (hle j l hj)⟩
    rw [selectionLoop, if_neg (by omega)]
  | succ fuel ih =>
    intro l fit j hnd hfit he hA hj hlen
    rw [selectionLoop]
    by_cases h : l.length > size
    · rw [if_pos h]
      simp only
      set s := pySorted (fun y => OrderDual.toDual (fit y)) l with hs
      have hsp : s.Perm l := pySorted_perm _ _
      have hsne : s ≠ [] := by
        intro e0
        have := hsp.length_eq
        rw [e0] at this
        simp at this
        omega
      have hsplit := List.dropLast_append_getLast hsne
      set r := s.getLast hsne with hr
      have hlast : s.getLast? = some r := List.getLast?_eq_getLast_of_ne_nil hsne
      rw [hlast]
      simp only
      have hrl : r ∈ l := hsp.mem_iff.1 (List.getLast_mem hsne)
      have hdp : s.dropLast.Perm (l.erase r) := by
        have h1 : (r :: s.dropLast).Perm l := by
          refine (List.perm_append_comm (l₁ := [r]) (l₂ := s.dropLast)).trans ?_
          rw [hsplit]; exact hsp
        exact (List.cons_perm_iff_perm_erase.1 h1).2
      have hdnd : s.dropLast.Nodup := hdp.nodup_iff.2 (hnd.erase r)
      have hdlen : s.dropLast.length + 1 = l.length := by
        rw [hdp.length_eq, List.length_erase_of_mem hrl]
        have := List.length_pos_of_mem hrl
        omega
      have hsub : ∀ x ∈ s.dropLast, x ∈ l := fun x hx => List.mem_of_mem_erase (hdp.mem_iff.1 hx)
      have hmin : ∀ x ∈ l, fit r ≤ fit x := by
        intro x hx
        have hxs : x ∈ s := hsp.mem_iff.2 hx
        rw [← hsplit] at hxs
        rcases List.mem_append.1 hxs with hx' | hx'
        · have hsort := pySorted_sorted (fun y => OrderDual.toDual (fit y)) l
          rw [← hs, ← hsplit, List.pairwise_append] at hsort
          exact OrderDual.toDual_le_toDual.1 (hsort.2.2 x hx' r (by simp))
        · rw [List.mem_singleton] at hx'
          rw [hx']
      have hA' : (s.dropLast.length : K) * M ≤ A := by
        refine le_trans (mul_le_mul_of_nonneg_right ?_ hM) hA
        exact_mod_cast (by omega)
      have hjT := hle j l hj
      obtain ⟨l', fit', rs, g1, g2, g3, g4, g5⟩ := ih s.dropLast
        (fun x => if x ∈ s.dropLast then round64 (fit x + e r x) else fit x) (j + 1) hdnd (by
          intro x hx
          have hx' := (hnd.mem_erase_iff).1 (hdp.mem_iff.1 hx)
          simp only [hx, if_true]
          have hv : SpecFitness e s.dropLast x = SpecFitness e l x + e r x := by
            rw [specFitness_perm e hdp, specFitness_erase e hrl hx'.1.symm]
          have := step_error (A := A) (ε := ε) (v := SpecFitness e s.dropLast x) (w := fit x + e r x) h1 hε
            (specFitness_abs hM (fun z hz => he x hx'.2 z (hsub z hz)) hA') (d := j * ε)
            (by rw [hv, add_sub_add_right_eq_sub]; exact hfit x hx'.2) (by linarith)
          push_cast
          linarith)
        (fun x hx z hz => he x (hsub x hx) z (hsub z hz)) hA' (by
          have e0 : j + 1 + s.dropLast.length = j + l.length := by omega
          rwa [e0])
        (by omega)
      refine ⟨l', fit', r :: rs, g1, ?_, ?_, ?_, g5⟩
      · refine .remove h hrl ?_ (g2.of_perm hdp)
        intro x hx
        have a := abs_le.1 ((hfit r hrl).trans hjT)
        have b := abs_le.1 ((hfit x hx).trans hjT)
        have := hmin x hx
        linarith [a.1, a.2, b.1, b.2]
      · rw [g3]; omega
      · refine List.perm_middle.trans ?_
        exact ((g4.trans hdp).cons r).trans (List.perm_cons_erase hrl).symm
    · rw [if_neg h]
      exact ⟨l, fit, [], rfl, .stop (by omega) (List.Perm.refl _), by omega, by simp,
        fun x hx => (hfit x hx).trans (hle j l hj)⟩

/-! ## Dominance -/

theorem indicator_spec {scaled : List (ι → K)} (hne : scaled ≠ []) (x y : ι) :
    (∃ o ∈ scaled, indicator round64 scaled x y = round64 (o x - o y)) ∧
      ∀ o ∈ scaled, round64 (o x - o y) ≤ indicator round64 scaled x y := by
  obtain ⟨m, hm⟩ := Option.isSome_iff_exists.1
    (pyMax_isSome.2 (show (scaled.map fun o => round64 (o x - o y)) ≠ [] by simpa using hne))
  obtain ⟨h1, h2⟩ := pyMax_eq_some.1 hm
  unfold indicator
  rw [hm]
  simp only [Option.getD_some]
  constructor
  · obtain ⟨o, ho, e⟩ := List.mem_map.1 h1
    exact ⟨o, ho, e.symm⟩
  · intro o ho
    exact h2 _ (List.mem_map.2 ⟨o, ho, rfl⟩)

theorem indicator_mono {scaled : List (ι → K)} (hne : scaled ≠ []) {r y : ι} (h : ∀ o ∈ scaled, o r ≤ o y) (z : ι) :
    indicator round64 scaled z y ≤ indicator round64 scaled z r := by
  obtain ⟨o, ho, e⟩ := (indicator_spec hne z y).1
  rw [e]
  exact (round64_mono (by linarith [h o ho])).trans ((indicator_spec hne z r).2 o ho)

theorem indicator_nonpos {scaled : List (ι → K)} (hne : scaled ≠ []) {r y : ι} (h : ∀ o ∈ scaled, o r ≤ o y) :
    indicator round64 scaled r y ≤ 0 := by
  obtain ⟨o, ho, e⟩ := (indicator_spec hne r y).1
  rw [e]
  exact fl_nonpos round64_isRounding (by linarith [h o ho])

/-- The divisor of the exponents. -/
def width (c k : K) : K := |round64 (round64 (c * k) + 1 / 2 ^ 52)|

theorem exponent_anti (c k : K) {i j : K} (h : i ≤ j) :
    exponent round64 (1 / 2 ^ 52) c k j ≤ exponent round64 (1 / 2 ^ 52) c k i := by
  unfold exponent
  exact neg_le_neg (round64_mono (div_le_div_of_nonneg_right h (abs_nonneg _)))

theorem exponent_nonneg (c k : K) {i : K} (h : i ≤ 0) : 0 ≤ exponent round64 (1 / 2 ^ 52) c k i := by
  unfold exponent
  exact neg_nonneg.2 (fl_nonpos round64_isRounding (div_nonpos_of_nonpos_of_nonneg h (abs_nonneg _)))

/-- If nobody loses more to `y` than to `r`, the difference of the two fitness values is at least what they lose to
each other. -/
theorem gap {e : ι → ι → K} {l : List ι} {r y : ι} (hr : r ∈ l) (hy : y ∈ l) (hne : r ≠ y)
    (he : ∀ z, e z r ≤ e z y) {t : K} (h : SpecFitness e l r ≤ SpecFitness e l y + t) : e r y - e y r ≤ t := by
  unfold SpecFitness at h
  have hx' : (l.erase r).Perm (y :: (l.erase r).erase y) :=
    List.perm_cons_erase ((List.mem_erase_of_ne (Ne.symm hne)).2 hy)
  have hy' : (l.erase y).Perm (r :: (l.erase r).erase y) := by
    rw [List.erase_comm]
    exact List.perm_cons_erase ((List.mem_erase_of_ne hne).2 hr)
  rw [(hx'.map _).sum_eq, (hy'.map _).sum_eq] at h
  simp only [List.map_cons, List.sum_cons] at h
  have : (((l.erase r).erase y).map fun z => e z r).sum ≤ (((l.erase r).erase y).map fun z => e z y).sum :=
    List.sum_le_sum fun z _ => he z
  linarith

theorem reduces_gap {e : ι → ι → K} {t : K} {size : ℕ} {l l' rs : List ι} (hnd : l.Nodup)
    (h : ReducesWithin e t size l l' rs) :
    (∀ x ∈ l', x ∈ l) ∧ ∀ r ∈ rs, ∀ y ∈ l', (∀ z, e z r ≤ e z y) → e r y - e y r ≤ t := by
  induction h with
  | stop _ hp => exact ⟨fun x hx => hp.mem_iff.2 hx, by simp⟩
  | @remove l l' rs r h1 h2 h3 h4 ih =>
    obtain ⟨i1, i2⟩ := ih (hnd.erase r)
    have hsub : ∀ x ∈ l', x ∈ l := fun x hx => List.mem_of_mem_erase (i1 x hx)
    refine ⟨hsub, ?_⟩
    intro q hq y hy he
    rcases List.mem_cons.1 hq with rfl | hq
    · have hne : q ≠ y := by
        rintro rfl
        exact (hnd.mem_erase_iff.1 (i1 q hy)).1 rfl
      exact gap h2 (hsub y hy) hne he (h3 y (hsub y hy))
    · exact i2 q hq y hy he

/-! ## The scaled objectives -/

theorem scaledObjectives_spec (objectives : List (ι → K)) (l : List ι) (hne : l ≠ []) :
    ∃ ss, scaledObjectives round64 (1 / 2 ^ 52) objectives l = some ss ∧
      List.Forall₂ (fun (o s : ι → K) => ∃ a ∈ l, ∃ b ∈ l, (∀ x ∈ l, o b ≤ o x ∧ o x ≤ o a) ∧
        ∀ x, s x = scaled round64 (1 / 2 ^ 52) (o b) (o a) (o x)) objectives ss := by
  induction objectives with
  | nil => exact ⟨[], rfl, List.Forall₂.nil⟩
  | cons o os ih =>
    obtain ⟨ss, h1, h2⟩ := ih
    have hmn : l.map o ≠ [] := by simpa using hne
    obtain ⟨mn, hmn'⟩ := Option.isSome_iff_exists.1 (pyMin_isSome.2 hmn)
    obtain ⟨mx, hmx'⟩ := Option.isSome_iff_exists.1 (pyMax_isSome.2 hmn)
    obtain ⟨a1, a2⟩ := pyMin_eq_some.1 hmn'
    obtain ⟨b1, b2⟩ := pyMax_eq_some.1 hmx'
    obtain ⟨b, hb, rfl⟩ := List.mem_map.1 a1
    obtain ⟨a, ha, rfl⟩ := List.mem_map.1 b1
    refine ⟨(fun x => scaled round64 (1 / 2 ^ 52) (o b) (o a) (o x)) :: ss, ?_, List.Forall₂.cons ⟨a, ha, b, hb,
      fun x hx => ⟨a2 _ (List.mem_map.2 ⟨x, hx, rfl⟩), b2 _ (List.mem_map.2 ⟨x, hx, rfl⟩)⟩, fun x => rfl⟩ h2⟩
    unfold scaledObjectives at h1 ⊢
    rw [List.mapM_cons, h1]
    simp [hmn', hmx']

theorem scaled_error {lo hi f : K} (h1 : lo ≤ f) (h2 : f ≤ hi) :
    |scaled round64 (1 / 2 ^ 52) lo hi f - (f - lo) / (hi - lo + 1 / 2 ^ 52)| ≤ 1 / 2 ^ 49 := by
  have tiny : (1 : K) / 2 ^ 200 ≤ 1 / 2 ^ 53 * (1 / 2 ^ 52) := by
    rw [one_div_mul_one_div, ← pow_add]
    exact one_div_le_one_div_of_le (by positivity) (pow_le_pow_right₀ (by norm_num) (by norm_num))
  have tiny2 : (1 : K) / 2 ^ 53 * (1 / 2 ^ 52) ≤ 1 / 2 ^ 53 := by norm_num
  have u0 : (0 : K) < 1 / 2 ^ 53 := by positivity
  have ep0 : (0 : K) < 1 / 2 ^ 52 := by positivity
  have u1 : (1 : K) / 2 ^ 53 ≤ 1 / 1000 := by norm_num
  have u2 : (1 : K) / 2 ^ 49 = 16 * (1 / 2 ^ 53) := by norm_num
  have err : ∀ x : K, |round64 x - x| ≤ 1 / 2 ^ 53 * |x| + 1 / 2 ^ 53 * (1 / 2 ^ 52) := fun x =>
    (abs_error x).trans (add_le_add_right tiny _)
  unfold scaled
  rw [u2]
  clear tiny u2
  generalize (1 : K) / 2 ^ 53 = u at *
  generalize (1 : K) / 2 ^ 52 = ep at *
  set a := f - lo with ha
  set w := hi - lo with hw
  have a0 : 0 ≤ a := by linarith
  have aw : a ≤ w := by linarith
  have e1 := abs_le.1 (err a)
  rw [abs_of_nonneg a0] at e1
  have e2 := abs_le.1 (err w)
  rw [abs_of_nonneg (a0.trans aw)] at e2
  have w0 : 0 ≤ round64 w := fl_nonneg round64_isRounding (a0.trans aw)
  have e3 := abs_le.1 (err (round64 w + ep))
  rw [abs_of_nonneg (by linarith)] at e3
  have uw : 0 ≤ u * w := mul_nonneg u0.le (a0.trans aw)
  have ue : 0 ≤ u * ep := mul_nonneg u0.le ep0.le
  have b1 : (w + ep) * (1 - u) ≤ round64 w + ep := by nlinarith [e2.1]
  have b2 : round64 w + ep ≤ (w + ep) * (1 + u) := by nlinarith [e2.2]
  have W0 : 0 < w + ep := by linarith
  have uW : 0 < u * (w + ep) := mul_pos u0 W0
  have c1 : (w + ep) * (1 - 4 * u) ≤ round64 (round64 w + ep) := by nlinarith [e3.1]
  have c2 : round64 (round64 w + ep) ≤ (w + ep) * (1 + 4 * u) := by nlinarith [e3.2]
  have D0 : 0 < round64 (round64 w + ep) := lt_of_lt_of_le (mul_pos W0 (by linarith)) c1
  set D := round64 (round64 w + ep) with hD
  have q0 : 0 ≤ a / (w + ep) := div_nonneg a0 W0.le
  have q1 : a / (w + ep) ≤ 1 := by rw [div_le_one W0]; linarith
  have qa : a / (w + ep) * (w + ep) = a := div_mul_cancel₀ _ W0.ne'
  set q := a / (w + ep) with hq
  have g1 : round64 a / D ≤ q + 8 * u := by
    rw [div_le_iff₀ D0]
    have h3 : (q + 8 * u) * ((w + ep) * (1 - 4 * u)) ≤ (q + 8 * u) * D := mul_le_mul_of_nonneg_left c1 (by linarith)
    refine le_trans ?_ h3
    have h4 : round64 a ≤ (q * (1 + u) + u) * (w + ep) := by
      have : a * (1 + u) + u * ep ≤ (q * (1 + u) + u) * (w + ep) := by
        have : (q * (1 + u) + u) * (w + ep) = q * (w + ep) * (1 + u) + u * w + u * ep := by ring
        rw [this, qa]
        linarith
      linarith [e1.2]
    refine h4.trans ?_
    have h5 : (q + 8 * u) * ((w + ep) * (1 - 4 * u)) = ((q + 8 * u) * (1 - 4 * u)) * (w + ep) := by ring
    rw [h5]
    exact mul_le_mul_of_nonneg_right (by nlinarith [mul_nonneg u0.le u0.le, mul_nonneg u0.le q0]) W0.le
  have g2 : q - 8 * u ≤ round64 a / D := by
    rcases le_or_gt q (8 * u) with h | h
    · exact le_trans (by linarith) (div_nonneg (fl_nonneg round64_isRounding a0) D0.le)
    rw [le_div_iff₀ D0]
    have h3 : (q - 8 * u) * D ≤ (q - 8 * u) * ((w + ep) * (1 + 4 * u)) := mul_le_mul_of_nonneg_left c2 (by linarith)
    refine h3.trans ?_
    have h4 : (q * (1 - u) - u) * (w + ep) ≤ round64 a := by
      have : (q * (1 - u) - u) * (w + ep) = q * (w + ep) * (1 - u) - u * w - u * ep := by ring
      rw [this, qa]
      linarith [e1.1]
    refine le_trans ?_ h4
    have h5 : (q - 8 * u) * ((w + ep) * (1 + 4 * u)) = ((q - 8 * u) * (1 + 4 * u)) * (w + ep) := by ring
    rw [h5]
    exact mul_le_mul_of_nonneg_right (by nlinarith [mul_nonneg u0.le u0.le, mul_nonneg u0.le q0]) W0.le
  have p0 : 0 ≤ round64 a / D := div_nonneg (fl_nonneg round64_isRounding a0) D0.le
  have e4 := abs_le.1 (err (round64 a / D))
  rw [abs_of_nonneg p0] at e4
  have g3 : u * (round64 a / D) ≤ u * 2 := mul_le_mul_of_nonneg_left (by linarith) u0.le
  rw [abs_le]
  obtain ⟨e5, e6⟩ := e4
  clear_value D q a w
  generalize round64 a / D = p at *
  clear e1 e2 e3 err b1 b2 c1 c2 qa
  constructor
  · linarith
  · linarith

theorem scaled_unit {objectives ss : List (ι → K)} {l : List ι}
    (h : List.Forall₂ (fun (o s : ι → K) => ∃ a ∈ l, ∃ b ∈ l, (∀ x ∈ l, o b ≤ o x ∧ o x ≤ o a) ∧
        ∀ x, s x = scaled round64 (1 / 2 ^ 52) (o b) (o a) (o x)) objectives ss) :
    ∀ s ∈ ss, ∀ x ∈ l, 0 ≤ s x ∧ s x ≤ 1 := by
  induction h with
  | nil => simp
  | cons h _ ih =>
    intro s hs x hx
    rcases List.mem_cons.1 hs with rfl | hs
    · obtain ⟨a, -, b, -, h1, h2⟩ := h
      rw [h2]
      exact scaled_mem (h1 x hx).1 (h1 x hx).2
    · exact ih s hs x hx

theorem indicator_abs {scaled : List (ι → K)} (hne : scaled ≠ []) {l : List ι}
    (hu : ∀ s ∈ scaled, ∀ x ∈ l, 0 ≤ s x ∧ s x ≤ 1) {x y : ι} (hx : x ∈ l) (hy : y ∈ l) :
    |indicator round64 scaled x y| ≤ 1 := by
  have R := round64_isRounding (K := K)
  obtain ⟨o, ho, e⟩ := (indicator_spec hne x y).1
  rw [e]
  have a := hu o ho x hx
  have b := hu o ho y hy
  refine abs_le.2 ⟨?_, fl_le_one R (by linarith)⟩
  have := R.mono (-1) _ (show (-1 : K) ≤ o x - o y by linarith)
  rwa [round64_neg, fl_one R] at this

end general

/-! ## The margin -/

section margin

variable {ι : Type*} [DecidableEq ι]

/-- Specification of `math.exp`: it never decreases, is exact at 0 and otherwise has a relative error of at most
2⁻⁵⁰ as long as the result is a normal float. -/
structure ExpOk (ex : ℝ → ℝ) : Prop where
  mono : Monotone ex
  zero : ex 0 = 1
  error : ∀ t, |t| ≤ 700 → |ex t - Real.exp t| ≤ 1 / 2 ^ 50 * Real.exp t

theorem exp_bound : Real.exp (20 + 1 / 100) * (1 + 1 / 2 ^ 50) ≤ 2 ^ 29 := by
  have h1 := Real.exp_one_lt_d9
  have h2 : Real.exp (20 + 1 / 100) = Real.exp 1 ^ 20 * Real.exp (1 / 100) := by
    rw [Real.exp_add, ← Real.exp_nat_mul]
    norm_num
  have h3 : Real.exp 1 ^ 20 ≤ 2.7182818286 ^ 20 := pow_le_pow_left₀ (Real.exp_pos _).le h1.le 20
  have h4 : Real.exp (1 / 100) ≤ 100 / 99 := by
    have := Real.one_sub_le_exp_neg (1 / 100)
    rw [Real.exp_neg] at this
    have hp := Real.exp_pos (1 / 100)
    have h5 := (le_inv_comm₀ (by norm_num) hp).1 this
    refine h5.trans (by norm_num)
  rw [h2]
  calc _ ≤ (2.7182818286 ^ 20 : ℝ) * (100 / 99) * (1 + 1 / 2 ^ 50) := by
        refine mul_le_mul_of_nonneg_right ?_ (by positivity)
        exact mul_le_mul h3 h4 (Real.exp_pos _).le (by positivity)
    _ ≤ 2 ^ 29 := by norm_num

theorem width_bounds {c k : ℝ} (hc : 0 ≤ c) (hc1 : c ≤ 1) (hk : 1 / 20 ≤ k) :
    c ≤ (20 + 1 / 1000) * width c k ∧ 0 < width c k ∧ width c k ≤ k * (1 + 1 / 1000) := by
  have tiny : (1 : ℝ) / 2 ^ 200 ≤ 1 / 2 ^ 53 * (1 / 2 ^ 52) := by norm_num
  have err : ∀ x : ℝ, |round64 x - x| ≤ 1 / 2 ^ 53 * |x| + 1 / 2 ^ 53 * (1 / 2 ^ 52) := fun x =>
    (abs_error x).trans (add_le_add_right tiny _)
  have u0 : (0 : ℝ) < 1 / 2 ^ 53 := by positivity
  have u1 : (1 : ℝ) / 2 ^ 53 ≤ 1 / 10 ^ 12 := by norm_num
  have ep0 : (0 : ℝ) < 1 / 2 ^ 52 := by positivity
  have ep1 : (1 : ℝ) / 2 ^ 52 ≤ 1 / 10 ^ 12 := by norm_num
  unfold width
  clear tiny
  generalize (1 : ℝ) / 2 ^ 53 = u at *
  generalize (1 : ℝ) / 2 ^ 52 = ep at *
  have p0 : 0 ≤ c * k := mul_nonneg hc (by linarith)
  have pk : c * k ≤ k := by nlinarith
  have pc : c * (1 / 20) ≤ c * k := mul_le_mul_of_nonneg_left hk hc
  have e1 := abs_le.1 (err (c * k))
  rw [abs_of_nonneg p0] at e1
  have r0 : 0 ≤ round64 (c * k) := fl_nonneg round64_isRounding p0
  have e2 := abs_le.1 (err (round64 (c * k) + ep))
  rw [abs_of_nonneg (by linarith)] at e2
  have s0 : 0 ≤ round64 (round64 (c * k) + ep) := fl_nonneg round64_isRounding (by linarith)
  rw [abs_of_nonneg s0]
  generalize round64 (round64 (c * k) + ep) = D at *
  generalize round64 (c * k) = P at *
  generalize c * k = p at *
  have ue : u * ep ≤ 1 / 10 ^ 12 * ep := mul_le_mul_of_nonneg_right u1 ep0.le
  have up : u * p ≤ 1 / 10 ^ 12 * p := mul_le_mul_of_nonneg_right u1 p0
  have uP : u * (P + ep) ≤ 1 / 10 ^ 12 * (P + ep) := mul_le_mul_of_nonneg_right u1 (by linarith)
  obtain ⟨e3, e4⟩ := e1
  obtain ⟨e5, e6⟩ := e2
  refine ⟨by linarith, by linarith, by linarith⟩

theorem exponent_small {c k i : ℝ} (hc : 0 ≤ c) (hc1 : c ≤ 1) (hk : 1 / 20 ≤ k) (hi : |i| ≤ c) :
    |exponent round64 (1 / 2 ^ 52) c k i| ≤ 20 + 1 / 100 := by
  obtain ⟨w1, w2, -⟩ := width_bounds hc hc1 hk
  have e : exponent round64 (1 / 2 ^ 52) c k i = -round64 (i / width c k) := rfl
  rw [e, abs_neg]
  have h1 : |i / width c k| ≤ 20 + 1 / 1000 := by
    rw [abs_div, abs_of_pos w2, div_le_iff₀ w2]
    exact hi.trans w1
  have h2 := abs_error (i / width c k)
  have h3 : |round64 (i / width c k)| ≤ |round64 (i / width c k) - i / width c k| + |i / width c k| := by
    simpa using abs_add_le (round64 (i / width c k) - i / width c k) (i / width c k)
  have h4 : (1 : ℝ) / 2 ^ 53 * |i / width c k| ≤ 1 / 2 ^ 53 * (20 + 1 / 1000) :=
    mul_le_mul_of_nonneg_left h1 (by positivity)
  have h5 : (1 : ℝ) / 2 ^ 53 * (20 + 1 / 1000) + 1 / 2 ^ 200 ≤ 1 / 1000 := by norm_num
  linarith

theorem loss_bounds {ex : ℝ → ℝ} (hex : ExpOk ex) {t : ℝ} (ht : |t| ≤ 20 + 1 / 100) : 0 ≤ ex t ∧ ex t ≤ 2 ^ 29 := by
  have h := abs_le.1 (hex.error t (by linarith))
  have hp := Real.exp_pos t
  have h1 : Real.exp t ≤ Real.exp (20 + 1 / 100) := Real.exp_le_exp.2 ((le_abs_self t).trans ht)
  have h2 := exp_bound
  have h3 : (1 : ℝ) / 2 ^ 50 * Real.exp t ≤ Real.exp t := by
    have : (1 : ℝ) / 2 ^ 50 ≤ 1 := by norm_num
    nlinarith
  refine ⟨by linarith, ?_⟩
  have h4 : Real.exp t * (1 + 1 / 2 ^ 50) ≤ Real.exp (20 + 1 / 100) * (1 + 1 / 2 ^ 50) :=
    mul_le_mul_of_nonneg_right h1 (by positivity)
  linarith

/-- How much worse one can be if the difference of the losses is small. -/
theorem small_indicator {ex : ℝ → ℝ} (hex : ExpOk ex) {c k d : ℝ} (hc : 0 ≤ c) (hc1 : c ≤ 1) (hk : 1 / 20 ≤ k)
    (hd : 0 ≤ d) (hdc : d ≤ c) (h : 1 - 1 / 2 ^ 7 ≤ ex (exponent round64 (1 / 2 ^ 52) c k d)) :
    d ≤ k * (8 / 1000) := by
  obtain ⟨-, w2, w3⟩ := width_bounds hc hc1 hk
  have ht := exponent_small hc hc1 hk (i := d) (by rwa [abs_of_nonneg hd])
  have he := abs_le.1 (hex.error (exponent round64 (1 / 2 ^ 52) c k d) (ht.trans (by norm_num)))
  have e : exponent round64 (1 / 2 ^ 52) c k d = -round64 (d / width c k) := rfl
  rw [e] at he h
  have q0 : 0 ≤ d / width c k := div_nonneg hd w2.le
  have t0 : 0 ≤ round64 (d / width c k) := fl_nonneg round64_isRounding q0
  have hq := abs_le.1 (abs_error (d / width c k))
  rw [abs_of_nonneg q0] at hq
  have hdq : d / width c k * width c k = d := div_mul_cancel₀ _ w2.ne'
  generalize d / width c k = q at *
  generalize round64 q = τ at *
  have h1 : Real.exp (-τ) * (1 + τ) ≤ 1 := by
    have := Real.add_one_le_exp τ
    have hp := Real.exp_pos (-τ)
    calc Real.exp (-τ) * (1 + τ) ≤ Real.exp (-τ) * Real.exp τ := mul_le_mul_of_nonneg_left (by linarith) hp.le
      _ = 1 := by rw [← Real.exp_add]; simp
  have h2 : 1 - 1 / 2 ^ 7 ≤ Real.exp (-τ) * (1 + 1 / 2 ^ 50) := by linarith [he.2]
  have h3 : (1 - 1 / 2 ^ 7) * (1 + τ) ≤ 1 + 1 / 2 ^ 50 := by
    calc (1 - 1 / 2 ^ 7) * (1 + τ) ≤ Real.exp (-τ) * (1 + 1 / 2 ^ 50) * (1 + τ) :=
          mul_le_mul_of_nonneg_right h2 (by linarith)
      _ = Real.exp (-τ) * (1 + τ) * (1 + 1 / 2 ^ 50) := by ring
      _ ≤ 1 * (1 + 1 / 2 ^ 50) := mul_le_mul_of_nonneg_right h1 (by norm_num)
      _ = _ := one_mul _
  have h4 : τ ≤ 7875 / 1000000 := by norm_num at h3; linarith
  have h5 : q ≤ 79 / 10000 := by
    have h6 : (1 : ℝ) / 2 ^ 53 * q ≤ 1 / 10 ^ 6 * q := mul_le_mul_of_nonneg_right (by norm_num) q0
    have h7 : (1 : ℝ) / 2 ^ 200 ≤ 1 / 10 ^ 7 := by norm_num
    linarith [hq.1]
  rw [← hdq]
  calc q * width c k ≤ 79 / 10000 * (k * (1 + 1 / 1000)) := mul_le_mul h5 w3 w2.le (by norm_num)
    _ ≤ k * (8 / 1000) := by linarith

theorem select_spec {ex : ℝ → ℝ} (hex : ExpOk ex) {k : ℝ} (hk : 1 / 20 ≤ k) (objectives : List (ι → ℝ))
    (ho : objectives ≠ []) (size fuel : ℕ) (l : List ι) (hnd : l.Nodup) (hne : l ≠ []) (hn : l.length ≤ 128)
    (hf : l.length ≤ size + fuel) :
    ∃ ss c l' fit' rs, scaledObjectives round64 (1 / 2 ^ 52) objectives l = some ss ∧ ss ≠ [] ∧
      List.Forall₂ (fun (o s : ι → ℝ) => ∃ a ∈ l, ∃ b ∈ l, (∀ x ∈ l, o b ≤ o x ∧ o x ≤ o a) ∧
        ∀ x, s x = scaled round64 (1 / 2 ^ 52) (o b) (o a) (o x)) objectives ss ∧
      maxIndicator round64 ss l = some c ∧ 0 ≤ c ∧ c ≤ 1 ∧ (∀ x ∈ l, ∀ y ∈ l, |indicator round64 ss x y| ≤ c) ∧
      select round64 ex (1 / 2 ^ 52) k objectives size fuel l = some (l', fit') ∧
      ReducesWithin (loss round64 ex (1 / 2 ^ 52) c k ss) (2 * (1 / 2 ^ 8)) size l l' rs ∧
      l'.length = min size l.length ∧ (l' ++ rs).Perm l ∧
      ∀ x ∈ l', |fit' x - SpecFitness (loss round64 ex (1 / 2 ^ 52) c k ss) l' x| ≤ 1 / 2 ^ 8 := by
  obtain ⟨ss, hs, hs2⟩ := scaledObjectives_spec objectives l hne
  have hsne : ss ≠ [] := by
    rintro rfl
    cases hs2
    exact ho rfl
  have hu := scaled_unit hs2
  obtain ⟨c, hc⟩ : ∃ c, maxIndicator round64 ss l = some c := by
    rw [← Option.isSome_iff_exists, maxIndicator, pyMax_isSome]
    obtain ⟨x, hx⟩ := List.exists_mem_of_ne_nil l hne
    intro h
    rw [List.map_eq_nil_iff] at h
    have : (x, x) ∈ l.product l := List.mem_product.2 ⟨hx, hx⟩
    rw [h] at this
    simp at this
  obtain ⟨hc1, hc2⟩ := pyMax_eq_some.1 hc
  have hcle : ∀ x ∈ l, ∀ y ∈ l, |indicator round64 ss x y| ≤ c := fun x hx y hy =>
    hc2 _ (List.mem_map.2 ⟨(x, y), List.mem_product.2 ⟨hx, hy⟩, rfl⟩)
  obtain ⟨c0, c1⟩ : 0 ≤ c ∧ c ≤ 1 := by
    obtain ⟨p, hp, rfl⟩ := List.mem_map.1 hc1
    obtain ⟨h1, h2⟩ := List.mem_product.1 hp
    exact ⟨abs_nonneg _, indicator_abs hsne hu h1 h2⟩
  set e := loss round64 ex (1 / 2 ^ 52) c k ss with he
  have hM : ∀ x ∈ l, ∀ z ∈ l, 0 ≤ e z x ∧ e z x ≤ 2 ^ 29 := fun x hx z hz =>
    loss_bounds hex (exponent_small c0 c1 hk (hcle z hz x hx))
  have hlen : (l.length : ℝ) ≤ 128 := by exact_mod_cast hn
  have hA : (l.length : ℝ) * 2 ^ 29 ≤ 2 ^ 36 := by norm_num; linarith
  have hfit : ∀ x ∈ l, |fitness round64 e l x - SpecFitness e l x| ≤ l.length * (2 ^ 36 / 2 ^ 52 : ℝ) := fun x hx =>
    fitness_error (by norm_num) (by norm_num) rfl hnd (hM x hx) hA (by norm_num; linarith)
  obtain ⟨l', fit', rs, g1, g2, g3, g4, g5⟩ := selectionLoop_spec e (M := 2 ^ 29) (A := 2 ^ 36) (T := 1 / 2 ^ 8) (by norm_num)
    (by norm_num) rfl (by norm_num) size fuel l (fitness round64 e l) l.length hnd hfit hM hA
    (by push_cast; norm_num; linarith) hf
  exact ⟨ss, c, l', fit', rs, hs, hsne, hs2, hc, c0, c1, hcle, by simp only [select, hs, hc]; exact g1, g2, g3, g4, g5⟩

/-- **C132 (who leaves).** In floating point, with the shipped `kappa` of 0.05 or a larger one and up to 128 candidates,
the environmental selection of IBEA returns `min size (number of candidates)` of them. The candidates leave one at a
time; nobody who stays has an indicator fitness that is smaller by more than 2⁻⁷ than that of the one who leaves, at
that moment; and the fitness stored for the survivors is, up to 2⁻⁸, their indicator fitness in the final population. -/
theorem C132_leaves {ex : ℝ → ℝ} (hex : ExpOk ex) {k : ℝ} (hk : 1 / 20 ≤ k) (objectives : List (ι → ℝ))
    (ho : objectives ≠ []) (size fuel : ℕ) (l : List ι) (hnd : l.Nodup) (hne : l ≠ []) (hn : l.length ≤ 128)
    (hf : l.length ≤ size + fuel) :
    ∃ ss c l' fit' rs, scaledObjectives round64 (1 / 2 ^ 52) objectives l = some ss ∧ maxIndicator round64 ss l = some c ∧
      select round64 ex (1 / 2 ^ 52) k objectives size fuel l = some (l', fit') ∧
      ReducesWithin (loss round64 ex (1 / 2 ^ 52) c k ss) (1 / 2 ^ 7) size l l' rs ∧
      l'.length = min size l.length ∧ (l' ++ rs).Perm l ∧
      ∀ x ∈ l', |fit' x - SpecFitness (loss round64 ex (1 / 2 ^ 52) c k ss) l' x| ≤ 1 / 2 ^ 8 := by
  obtain ⟨ss, c, l', fit', rs, hs, -, -, hc, -, -, -, g1, g2, g3, g4, g5⟩ :=
    select_spec hex hk objectives ho size fuel l hnd hne hn hf
  have e : (2 * (1 / 2 ^ 8) : ℝ) = 1 / 2 ^ 7 := by norm_num
  rw [e] at g2
  exact ⟨ss, c, l', fit', rs, hs, hc, g1, g2, g3, g4, g5⟩

/-- **C132 (the margin).** In floating point, with the shipped `kappa` of 0.05 or a larger one and up to 128 candidates, the
environmental selection of IBEA returns `min size (number of candidates)` of them, and an individual is discarded
while one that is nowhere better is kept only if it is hardly worse: in no objective by more than a hundredth of
`kappa` of the range of the candidates (plus 2⁻⁵²). -/
theorem C132_margin {ex : ℝ → ℝ} (hex : ExpOk ex) {k : ℝ} (hk : 1 / 20 ≤ k) (objectives : List (ι → ℝ))
    (ho : objectives ≠ []) (size fuel : ℕ) (l : List ι) (hnd : l.Nodup) (hne : l ≠ []) (hn : l.length ≤ 128)
    (hf : l.length ≤ size + fuel) :
    ∃ l' fit' rs, select round64 ex (1 / 2 ^ 52) k objectives size fuel l = some (l', fit') ∧
      l'.length = min size l.length ∧ (l' ++ rs).Perm l ∧
      ∀ r ∈ rs, ∀ y ∈ l', (∀ o ∈ objectives, o r ≤ o y) →
        ∀ o ∈ objectives, ∃ a ∈ l, ∃ b ∈ l, o y - o r ≤ k / 100 * (o a - o b + 1 / 2 ^ 52) := by
  obtain ⟨ss, c, l', fit', rs, -, hsne, hs2, -, c0, c1, hcle, g1, g2, g3, g4, -⟩ :=
    select_spec hex hk objectives ho size fuel l hnd hne hn hf
  have hu := scaled_unit hs2
  set e := loss round64 ex (1 / 2 ^ 52) c k ss with he
  refine ⟨l', fit', rs, g1, g3, g4, ?_⟩
  intro r hr y hy hry o hom
  have hrl : r ∈ l := g4.mem_iff.1 (List.mem_append_right _ hr)
  have hyl : y ∈ l := g4.mem_iff.1 (List.mem_append_left _ hy)
  have hdom : ∀ s ∈ ss, s r ≤ s y := by
    intro s hs
    obtain ⟨i, hi, rfl⟩ := List.getElem_of_mem hs
    have hi' : i < objectives.length := by rw [hs2.length_eq]; exact hi
    obtain ⟨a, -, b, -, h1, h2⟩ := (List.forall₂_iff_get.1 hs2).2 i hi' hi
    simp only [List.get_eq_getElem] at h1 h2
    rw [h2, h2]
    exact scaled_mono (h1 r hrl).1 (hry _ (List.getElem_mem _)) (h1 y hyl).2
  have hgap := (reduces_gap hnd g2).2 r hr y hy (fun z => hex.mono (exponent_anti c k (indicator_mono hsne hdom z)))
  have h1 : 1 ≤ e r y := by
    have := hex.mono (exponent_nonneg c k (indicator_nonpos hsne hdom))
    rwa [hex.zero] at this
  obtain ⟨i, hi, hoi⟩ := List.getElem_of_mem hom
  have hi' : i < ss.length := by rw [← hs2.length_eq]; exact hi
  obtain ⟨a, ha, b, hb, h2, h3⟩ := (List.forall₂_iff_get.1 hs2).2 i hi hi'
  simp only [List.get_eq_getElem, hoi] at h2 h3
  have hsm : ss[i] ∈ ss := List.getElem_mem _
  have hi0 : 0 ≤ round64 (ss[i] y - ss[i] r) := fl_nonneg round64_isRounding (by linarith [hdom _ hsm])
  have hid := (indicator_spec hsne y r).2 _ hsm
  have hsmall : indicator round64 ss y r ≤ k * (8 / 1000) := by
    refine small_indicator hex c0 c1 hk (hi0.trans hid) ((le_abs_self _).trans (hcle y hyl r hrl)) ?_
    have : e y r = ex (exponent round64 (1 / 2 ^ 52) c k (indicator round64 ss y r)) := rfl
    rw [← this]
    norm_num at hgap ⊢
    linarith
  have hv := abs_le.1 (abs_error (ss[i] y - ss[i] r))
  rw [abs_of_nonneg (by linarith [hdom _ hsm])] at hv
  have ey := abs_le.1 (scaled_error (h2 y hyl).1 (h2 y hyl).2)
  have er := abs_le.1 (scaled_error (h2 r hrl).1 (h2 r hrl).2)
  rw [← h3] at ey er
  refine ⟨a, ha, b, hb, ?_⟩
  have W0 : 0 < o a - o b + 1 / 2 ^ 52 := by
    have := h2 b hb
    have : (0 : ℝ) < 1 / 2 ^ 52 := by positivity
    linarith
  rw [← div_le_iff₀ W0]
  have hsub : (o y - o r) / (o a - o b + 1 / 2 ^ 52) =
      (o y - o b) / (o a - o b + 1 / 2 ^ 52) - (o r - o b) / (o a - o b + 1 / 2 ^ 52) := by
    rw [← sub_div]; congr 1; ring
  rw [hsub]
  generalize (o y - o b) / (o a - o b + 1 / 2 ^ 52) = qy at *
  generalize (o r - o b) / (o a - o b + 1 / 2 ^ 52) = qr at *
  have n1 : (1 : ℝ) / 2 ^ 49 ≤ 1 / 10 ^ 6 := by norm_num
  have n2 : (1 : ℝ) / 2 ^ 200 ≤ 1 / 10 ^ 6 := by norm_num
  have n3 : (1 : ℝ) / 2 ^ 53 * (ss[i] y - ss[i] r) ≤ 1 / 10 ^ 6 * (ss[i] y - ss[i] r) :=
    mul_le_mul_of_nonneg_right (by norm_num) (by linarith [hdom _ hsm])
  have n4 := hu _ hsm y hyl
  have n5 := hu _ hsm r hrl
  linarith [hv.1, ey.1, er.2]

/-- The correctly rounded exponential function is as specified. -/
theorem expOk_round : ExpOk fun t => round64 (Real.exp t) where
  mono _ _ h := round64_mono (Real.exp_le_exp.2 h)
  zero := by rw [Real.exp_zero]; exact fl_one round64_isRounding
  error t ht := by
    have hp := Real.exp_pos t
    have hb : (1 / 2 : ℝ) ^ 1022 ≤ |Real.exp t| := by
      rw [abs_of_pos hp]
      have h1 : Real.exp (-700) ≤ Real.exp t := Real.exp_le_exp.2 (by linarith [abs_le.1 ht])
      refine le_trans ?_ h1
      have h2 : Real.exp (-700) = ((Real.exp 1 ^ 70) ^ 10)⁻¹ := by
        rw [Real.exp_neg, ← pow_mul, ← Real.exp_nat_mul]
        norm_num
      have h3 : Real.exp 1 ^ 70 ≤ 2 ^ 102 := by
        calc Real.exp 1 ^ 70 ≤ 2.7182818286 ^ 70 := pow_le_pow_left₀ (Real.exp_pos _).le Real.exp_one_lt_d9.le 70
          _ ≤ _ := by norm_num
      have h4 : (Real.exp 1 ^ 70) ^ 10 ≤ 2 ^ 1022 := by
        calc (Real.exp 1 ^ 70) ^ 10 ≤ (2 ^ 102) ^ 10 := pow_le_pow_left₀ (pow_pos (Real.exp_pos _) 70).le h3 10
          _ = 2 ^ 1020 := by rw [← pow_mul]
          _ ≤ 2 ^ 1022 := pow_le_pow_right₀ (by norm_num) (by norm_num)
      rw [h2, one_div, inv_pow]
      exact inv_anti₀ (pow_pos (pow_pos (Real.exp_pos _) 70) 10) h4
    have := round64_accurate.error _ hb
    rw [abs_of_pos hp] at this
    refine this.trans (mul_le_mul_of_nonneg_right ?_ hp.le)
    norm_num

/-- Two individuals with the values 0 and 1 of one objective: the second one leaves. -/
example : ∃ fit', select round64 (fun t => round64 (Real.exp t)) (1 / 2 ^ 52) (1 / 20)
    [fun i : Fin 2 => if i = 0 then (0 : ℝ) else 1] 1 1 [0, 1] = some ([0], fit') := by
  obtain ⟨l', fit', rs, h1, h2, h3, h4⟩ := C132_margin expOk_round (k := 1 / 20) le_rfl
    [fun i : Fin 2 => if i = 0 then (0 : ℝ) else 1] (by simp) 1 1 [0, 1] (by decide) (by simp) (by simp) (by simp)
  obtain ⟨x, rfl⟩ := List.length_eq_one_iff.1 (show l'.length = 1 by rw [h2]; rfl)
  obtain ⟨r, rfl⟩ := List.length_eq_one_iff.1 (show rs.length = 1 by
    have := h3.length_eq
    simp at this
    omega)
  have hx : x = 0 := by
    by_contra hne
    have hx1 : x = 1 := by omega
    have hr : r = 0 := by
      have := h3.nodup_iff.2 (by decide)
      simp at this
      omega
    subst hx1 hr
    obtain ⟨a, -, b, -, h5⟩ := h4 0 (by simp) 1 (by simp) (by simp) _ List.mem_cons_self
    have ha : ∀ i : Fin 2, (0 : ℝ) ≤ (if i = 0 then (0 : ℝ) else 1) ∧ (if i = 0 then (0 : ℝ) else 1) ≤ (1 : ℝ) := by
      intro i
      split_ifs <;> norm_num
    have h6 := (ha a).2
    have h7 := (ha b).1
    norm_num at h5
    linarith
  subst hx
  exact ⟨fit', h1⟩

end margin

/-! ## Ties -/

/-- Three individuals: the last one dominates the second. -/
def exTie : Fin 3 → ℚ := ![-2 ^ 60, 1, 0]

/-- **C132 (ties).** The margin cannot be dropped: far from the best, different values become equal, and the last one of the
list is discarded although it dominates one that is kept. -/
theorem C132_tie (ex : ℚ → ℚ) (hm : Monotone ex) (h0 : ex 0 = 1) : exTie 2 < exTie 1 ∧
    (select round64 ex (1 / 2 ^ 52) (round64 (1 / 20)) [exTie] 2 1 [0, 1, 2]).map Prod.fst = some [0, 1] := by
  refine ⟨by decide +kernel, ?_⟩
  have hmin : pyMin ([0, 1, 2].map exTie) = some (-2 ^ 60) := by decide +kernel
  have hmax : pyMax ([0, 1, 2].map exTie) = some 1 := by decide +kernel
  have hs : scaledObjectives round64 (1 / 2 ^ 52) [exTie] [0, 1, 2] =
      some [fun x => scaled round64 (1 / 2 ^ 52) (-2 ^ 60) 1 (exTie x)] := by
    simp only [scaledObjectives, List.mapM_cons, List.mapM_nil, hmin, hmax]
    rfl
  have hc : maxIndicator round64 [fun x => scaled round64 (1 / 2 ^ 52) (-2 ^ 60) 1 (exTie x)] [0, 1, 2] = some 1 := by
    decide +kernel
  have hi : ∀ i j : Fin 3, exponent round64 (1 / 2 ^ 52) 1 (round64 (1 / 20)) (indicator round64
      [fun x => scaled round64 (1 / 2 ^ 52) (-2 ^ 60) 1 (exTie x)] i j) =
      (![![0, 5629499534213095 / 281474976710656, 5629499534213095 / 281474976710656],
        ![-5629499534213095 / 281474976710656, 0, 0], ![-5629499534213095 / 281474976710656, 0, 0]] i j : ℚ) := by
    decide +kernel
  have hup : 1 ≤ ex (5629499534213095 / 281474976710656) := h0 ▸ hm (by norm_num)
  have hdown : ex (-5629499534213095 / 281474976710656) ≤ 1 := h0 ▸ hm (by norm_num)
  simp only [select, hs, hc]
  set e := loss round64 ex (1 / 2 ^ 52) 1 (round64 (1 / 20))
    [fun x => scaled round64 (1 / 2 ^ 52) (-2 ^ 60) 1 (exTie x)] with he
  have el : ∀ i j, e i j = ex (![![0, 5629499534213095 / 281474976710656, 5629499534213095 / 281474976710656],
        ![-5629499534213095 / 281474976710656, 0, 0], ![-5629499534213095 / 281474976710656, 0, 0]] i j : ℚ) := fun i j => by
    rw [he, loss, hi]
  have f0 : fitness round64 e [0, 1, 2] 0 = round64 (round64 (0 + -e 1 0) + -e 2 0) := rfl
  have f1 : fitness round64 e [0, 1, 2] 1 = round64 (round64 (0 + -e 0 1) + -e 2 1) := rfl
  have f2 : fitness round64 e [0, 1, 2] 2 = round64 (round64 (0 + -e 0 2) + -e 1 2) := rfl
  have e12 : fitness round64 e [0, 1, 2] 1 = fitness round64 e [0, 1, 2] 2 := by
    rw [f1, f2]
    simp [el]
  have e10 : fitness round64 e [0, 1, 2] 1 ≤ fitness round64 e [0, 1, 2] 0 := by
    rw [f1, f0]
    simp only [el]
    simp [h0]
    refine round64_mono ?_
    have := round64_mono (show -ex (5629499534213095 / 281474976710656) ≤ -ex (-5629499534213095 / 281474976710656) by linarith)
    linarith
  have hsort : pySorted (fun y => OrderDual.toDual (fitness round64 e [0, 1, 2] y)) [0, 1, 2] = [0, 1, 2] := by
    simp only [pySorted, List.insertionSort, List.foldr, List.orderedInsert, OrderDual.toDual_le_toDual, e12.symm.le, e10, if_true]
  rw [selectionLoop]
  simp only [hsort]
  simp [selectionLoop]

end Evogil.Rounded.Ibea
