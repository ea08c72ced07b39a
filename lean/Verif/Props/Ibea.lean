import Verif.Model.Ibea
import Verif.Props.Dominance
import Mathlib.Tactic.Linarith
import Mathlib.Tactic.NormNum
import Mathlib.Tactic.Positivity
import Mathlib.Tactic.Abel
import Mathlib.Algebra.Order.BigOperators.Group.List
import Mathlib.Algebra.Order.Ring.Rat
import Mathlib.Analysis.SpecialFunctions.Exp

/-! # C26, C59, C69, C70: IBEA -/

set_option linter.unusedSectionVars false

namespace Evogil.Ibea

open Spec

variable {ι : Type*} [DecidableEq ι] {K : Type*} [Field K] [LinearOrder K]

/-! ## C26 -/

/-- Specification: indicator fitness of `x` in the population `l`, the negated sum of the losses
caused by the other members. -/
def SpecFitness (e : ι → ι → K) (l : List ι) (x : ι) : K := -((l.erase x).map fun y => e y x).sum

/-- Specification of the reduction: as long as there are more than `size` individuals, one with the
smallest indicator fitness in the present population leaves. The last list names the removed
individuals in order. -/
inductive Reduces (e : ι → ι → K) (size : ℕ) : List ι → List ι → List ι → Prop
  | stop {l l' : List ι} : l.length ≤ size → l.Perm l' → Reduces e size l l' []
  | remove {l l' rs : List ι} {r : ι} : size < l.length → r ∈ l →
      (∀ x ∈ l, SpecFitness e l r ≤ SpecFitness e l x) →
      Reduces e size (l.erase r) l' rs → Reduces e size l l' (r :: rs)

section C26
variable [IsStrictOrderedRing K]

theorem fitness_eq_spec (e : ι → ι → K) {l : List ι} (hnd : l.Nodup) (x : ι) :
    fitness e l x = SpecFitness e l x := by
  unfold fitness SpecFitness
  rw [hnd.erase_eq_filter]
  have : (l.filter fun x2 => decide (x2 ≠ x)) = l.filter (fun b => b != x) := by
    congr 1
    funext b
    by_cases h : b = x <;> simp [h]
  rw [this]
  induction l.filter (fun b => b != x) with
  | nil => simp
  | cons a l ih =>
    simp only [List.map_cons, List.sum_cons, ih]
    ring

theorem specFitness_perm (e : ι → ι → K) {l l' : List ι} (h : l.Perm l') (x : ι) :
    SpecFitness e l x = SpecFitness e l' x := by
  unfold SpecFitness
  rw [((h.erase x).map _).sum_eq]

theorem specFitness_erase (e : ι → ι → K) {l : List ι} {r x : ι} (hr : r ∈ l) (hne : r ≠ x) :
    SpecFitness e (l.erase r) x = SpecFitness e l x + e r x := by
  unfold SpecFitness
  have hr' : r ∈ l.erase x := (List.mem_erase_of_ne hne).2 hr
  have h := ((List.perm_cons_erase hr').map fun y => e y x).sum_eq
  rw [List.map_cons, List.sum_cons] at h
  rw [h, List.erase_comm]
  ring

theorem Reduces.of_perm {e : ι → ι → K} {size : ℕ} {l l1 l' rs : List ι} (hp : l.Perm l1)
    (h : Reduces e size l l' rs) : Reduces e size l1 l' rs := by
  induction h generalizing l1 with
  | stop h1 h2 => exact .stop (by rw [← hp.length_eq]; exact h1) (hp.symm.trans h2)
  | remove h1 h2 h3 _ ih =>
    refine .remove (by rw [← hp.length_eq]; exact h1) (hp.mem_iff.1 h2) ?_ (ih (hp.erase _))
    intro x hx
    rw [← specFitness_perm e hp, ← specFitness_perm e hp]
    exact h3 x (hp.mem_iff.2 hx)

theorem selectionLoop_spec (e : ι → ι → K) (size : ℕ) : ∀ (fuel : ℕ) (l : List ι) (fit : ι → K),
    l.Nodup → (∀ x ∈ l, fit x = SpecFitness e l x) → l.length ≤ size + fuel →
    ∃ l' fit' rs, selectionLoop e size fuel l fit = some (l', fit') ∧ Reduces e size l l' rs ∧
      l'.length = min size l.length ∧ (l' ++ rs).Perm l ∧
      ∀ x ∈ l', fit' x = SpecFitness e l' x := by
  intro fuel
  induction fuel with
  | zero =>
    intro l fit hnd hfit hlen
    refine ⟨l, fit, [], ?_, .stop (by omega) (List.Perm.refl _), by omega, by simp, hfit⟩
    rw [selectionLoop, if_neg (by omega)]
  | succ fuel ih =>
    intro l fit hnd hfit hlen
    rw [selectionLoop]
    by_cases h : l.length > size
    · rw [if_pos h]
      simp only
      set s := pySorted (fun y => OrderDual.toDual (fit y)) l with hs
      have hsp : s.Perm l := pySorted_perm _ _
      have hsne : s ≠ [] := by
        intro e0
        have := hsp.length_eq
        rw [e0] at this
        simp at this
        omega
      have hsplit := List.dropLast_append_getLast hsne
      set r := s.getLast hsne with hr
      have hlast : s.getLast? = some r := List.getLast?_eq_getLast_of_ne_nil hsne
      rw [hlast]
      simp only
      have hrl : r ∈ l := hsp.mem_iff.1 (List.getLast_mem hsne)
      have hsnd : s.Nodup := hsp.nodup_iff.2 hnd
      have hdp : s.dropLast.Perm (l.erase r) := by
        have h1 : (r :: s.dropLast).Perm l := by
          refine (List.perm_append_comm (l₁ := [r]) (l₂ := s.dropLast)).trans ?_
          rw [hsplit]; exact hsp
        exact (List.cons_perm_iff_perm_erase.1 h1).2
      have hdnd : s.dropLast.Nodup := hdp.nodup_iff.2 (hnd.erase r)
      have hmin : ∀ x ∈ l, fit r ≤ fit x := by
        intro x hx
        have hxs : x ∈ s := hsp.mem_iff.2 hx
        rw [← hsplit] at hxs
        rcases List.mem_append.1 hxs with hx' | hx'
        · have hsort := pySorted_sorted (fun y => OrderDual.toDual (fit y)) l
          rw [← hs, ← hsplit, List.pairwise_append] at hsort
          exact OrderDual.toDual_le_toDual.1 (hsort.2.2 x hx' r (by simp))
        · rw [List.mem_singleton] at hx'
          rw [hx']
      obtain ⟨l', fit', rs, g1, g2, g3, g4, g5⟩ := ih s.dropLast
        (fun x => if x ∈ s.dropLast then fit x + e r x else fit x) hdnd (by
          intro x hx
          have hx' := (hnd.mem_erase_iff).1 (hdp.mem_iff.1 hx)
          simp only [hx, if_true]
          rw [hfit x hx'.2, specFitness_perm e hdp, specFitness_erase e hrl hx'.1.symm])
        (by rw [hdp.length_eq, List.length_erase_of_mem hrl]; omega)
      refine ⟨l', fit', r :: rs, g1, ?_, ?_, ?_, g5⟩
      · refine .remove h hrl ?_ (g2.of_perm hdp)
        intro x hx
        rw [← hfit r hrl, ← hfit x hx]
        exact hmin x hx
      · rw [g3, hdp.length_eq, List.length_erase_of_mem hrl]; omega
      · refine List.perm_middle.trans ?_
        exact ((g4.trans hdp).cons r).trans (List.perm_cons_erase hrl).symm
    · rw [if_neg h]
      exact ⟨l, fit, [], rfl, .stop (by omega) (List.Perm.refl _), by omega, by simp, hfit⟩

/-- C26: the selection terminates; it returns `min size (number of candidates)` of the candidates;
the candidates leave one at a time, each with the smallest indicator fitness of the population at
that moment; and the fitness stored for each survivor is its indicator fitness in the final
population. -/
theorem C26_selection (ex : K → K) (eps k : K) (scaled : List (ι → K)) (size fuel : ℕ) (l : List ι)
    (hnd : l.Nodup) (hne : l ≠ []) (hf : l.length ≤ size + fuel) :
    ∃ c l' fit' rs, maxIndicator scaled l = some c ∧
      select ex eps k scaled size fuel l = some (l', fit') ∧
      Reduces (loss ex eps c k scaled) size l l' rs ∧
      l'.length = min size l.length ∧ (l' ++ rs).Perm l ∧
      ∀ x ∈ l', fit' x = SpecFitness (loss ex eps c k scaled) l' x := by
  obtain ⟨c, hc⟩ : ∃ c, maxIndicator scaled l = some c := by
    rw [← Option.isSome_iff_exists, maxIndicator, pyMax_isSome]
    obtain ⟨x, hx⟩ := List.exists_mem_of_ne_nil l hne
    intro h
    rw [List.map_eq_nil_iff] at h
    have : (x, x) ∈ l.product l := List.mem_product.2 ⟨hx, hx⟩
    rw [h] at this
    simp at this
  obtain ⟨l', fit', rs, h1, h2, h3, h4, h5⟩ := selectionLoop_spec (loss ex eps c k scaled) size fuel
    l (fitness (loss ex eps c k scaled) l) hnd (fun x _ => fitness_eq_spec _ hnd x) hf
  exact ⟨c, l', fit', rs, hc, by simp [select, hc, h1], h2, h3, h4, h5⟩

end C26

/-- Three individuals with values 0, 1, 5 of one objective, two places: the worst one leaves. -/
example : (selectionLoop (fun x y : ℚ => 10 - x + y) 2 1 [0, 5, 1]
    (fitness (fun x y : ℚ => 10 - x + y) [0, 5, 1])).map Prod.fst = some [0, 1] := by
  decide +kernel

/-! ## C69: scaling -/

section C69
variable [IsStrictOrderedRing K]

/-- C69: for a non-empty population the scaled objectives exist, one per objective; on the
population their values lie in [0, 1) and they order the individuals as the objective does. -/
theorem C69_scaled {eps : K} (heps : 0 < eps) (objectives : List (ι → K)) (l : List ι)
    (hne : l ≠ []) :
    ∃ scaled, scaledObjectives eps objectives l = some scaled ∧
      List.Forall₂ (fun (o s : ι → K) => (∀ x ∈ l, 0 ≤ s x ∧ s x < 1) ∧
        ∀ x y, s x < s y ↔ o x < o y) objectives scaled := by
  induction objectives with
  | nil => exact ⟨[], rfl, List.Forall₂.nil⟩
  | cons o os ih =>
    obtain ⟨ss, h1, h2⟩ := ih
    have hmn : l.map o ≠ [] := by simpa using hne
    obtain ⟨mn, hmn'⟩ := Option.isSome_iff_exists.1 (pyMin_isSome.2 hmn)
    obtain ⟨mx, hmx'⟩ := Option.isSome_iff_exists.1 (pyMax_isSome.2 hmn)
    obtain ⟨a1, a2⟩ := pyMin_eq_some.1 hmn'
    obtain ⟨b1, b2⟩ := pyMax_eq_some.1 hmx'
    have hle : mn ≤ mx := a2 _ b1
    have hpos : 0 < mx - mn + eps := by linarith
    refine ⟨scale eps o mn mx :: ss, ?_, List.Forall₂.cons ⟨?_, ?_⟩ h2⟩
    · unfold scaledObjectives at h1 ⊢
      rw [List.mapM_cons, h1]
      simp [hmn', hmx']
    · intro x hx
      have hx1 := a2 (o x) (List.mem_map.2 ⟨x, hx, rfl⟩)
      have hx2 := b2 (o x) (List.mem_map.2 ⟨x, hx, rfl⟩)
      unfold scale
      constructor
      · apply div_nonneg <;> linarith
      · rw [div_lt_one hpos]; linarith
    · intro x y
      unfold scale
      rw [div_lt_div_iff_of_pos_right hpos]
      constructor <;> intro h <;> linarith

end C69

/-! ## C70: dominance and indicator fitness -/

section C70
variable [IsStrictOrderedRing K]

/-- Dominance with respect to a list of objectives -/
abbrev Dom (objs : List (ι → K)) (x y : ι) : Prop :=
  LDom (objs.map fun o => o x) (objs.map fun o => o y)

theorem dom_le {objs : List (ι → K)} {x y : ι} (h : Dom objs x y) : ∀ o ∈ objs, o x ≤ o y := by
  intro o ho
  obtain ⟨i, hi, rfl⟩ := List.getElem_of_mem ho
  have := h.2.1 i (by simpa using hi) (by simpa using hi)
  simpa using this

theorem dom_lt {objs : List (ι → K)} {x y : ι} (h : Dom objs x y) : ∃ o ∈ objs, o x < o y := by
  obtain ⟨i, h1, h2, h3⟩ := h.2.2
  refine ⟨objs[i]'(by simpa using h1), List.getElem_mem _, ?_⟩
  simpa using h3

theorem indicator_spec {scaled : List (ι → K)} (hne : scaled ≠ []) (x y : ι) :
    (∃ o ∈ scaled, indicator scaled x y = o x - o y) ∧
      ∀ o ∈ scaled, o x - o y ≤ indicator scaled x y := by
  obtain ⟨m, hm⟩ := Option.isSome_iff_exists.1
    (pyMax_isSome.2 (show (scaled.map fun o => o x - o y) ≠ [] by simpa using hne))
  obtain ⟨h1, h2⟩ := pyMax_eq_some.1 hm
  unfold indicator
  rw [hm]
  simp only [Option.getD_some]
  constructor
  · obtain ⟨o, ho, e⟩ := List.mem_map.1 h1
    exact ⟨o, ho, e.symm⟩
  · intro o ho
    exact h2 _ (List.mem_map.2 ⟨o, ho, rfl⟩)

/-- C70, the indicator is compatible with dominance: if `x` dominates `y`, `x` loses against `y` less
than `y` against `x`, and nobody is better against `x` than against `y`. -/
theorem C70_indicator {scaled : List (ι → K)} {x y : ι} (h : Dom scaled x y) :
    indicator scaled x y ≤ 0 ∧ 0 < indicator scaled y x ∧
      ∀ z, indicator scaled z y ≤ indicator scaled z x := by
  obtain ⟨o, ho, hlt⟩ := dom_lt h
  have hne : scaled ≠ [] := List.ne_nil_of_mem ho
  refine ⟨?_, ?_, fun z => ?_⟩
  · obtain ⟨o', ho', e⟩ := (indicator_spec hne x y).1
    rw [e]; have := dom_le h o' ho'; linarith
  · have := (indicator_spec hne y x).2 o ho
    linarith
  · obtain ⟨o', ho', e⟩ := (indicator_spec hne z y).1
    rw [e]
    have h1 := (indicator_spec hne z x).2 o' ho'
    have h2 := dom_le h o' ho'
    linarith

/-- C70: in any population a dominating individual has the strictly larger indicator fitness. -/
theorem C70_fitness {ex : K → K} (hex : StrictMono ex) {eps c k : K} (hD : c * k + eps ≠ 0)
    (scaled : List (ι → K)) (l : List ι) (hnd : l.Nodup) {x y : ι} (hx : x ∈ l) (hy : y ∈ l)
    (h : Dom scaled x y) :
    SpecFitness (loss ex eps c k scaled) l y < SpecFitness (loss ex eps c k scaled) l x := by
  have hD' : 0 < |c * k + eps| := abs_pos.2 hD
  obtain ⟨h1, h2, h3⟩ := C70_indicator h
  have hne : x ≠ y := by rintro rfl; exact LDom_irrefl _ h
  unfold SpecFitness
  rw [neg_lt_neg_iff]
  have hx' : (l.erase x).Perm (y :: (l.erase x).erase y) :=
    List.perm_cons_erase ((List.mem_erase_of_ne (Ne.symm hne)).2 hy)
  have hy' : (l.erase y).Perm (x :: (l.erase x).erase y) := by
    rw [List.erase_comm]
    exact List.perm_cons_erase ((List.mem_erase_of_ne hne).2 hx)
  rw [(hx'.map _).sum_eq, (hy'.map _).sum_eq]
  simp only [List.map_cons, List.sum_cons]
  have hmono : ∀ a b : K, a ≤ b → ex ((-1) * (b / |c * k + eps|)) ≤ ex ((-1) * (a / |c * k + eps|)) := by
    intro a b hab
    apply hex.monotone
    have := (div_le_div_iff_of_pos_right hD').2 hab
    linarith
  have hstrict : ∀ a b : K, a < b → ex ((-1) * (b / |c * k + eps|)) < ex ((-1) * (a / |c * k + eps|)) := by
    intro a b hab
    apply hex
    have := (div_lt_div_iff_of_pos_right hD').2 hab
    linarith
  refine add_lt_add_of_lt_of_le ?_ ?_
  · exact hstrict _ _ (lt_of_le_of_lt h1 h2)
  · apply List.sum_le_sum
    intro z _
    exact hmono _ _ (h3 z)

theorem reduces_not_dominated {ex : K → K} (hex : StrictMono ex) {eps c k : K}
    (hD : c * k + eps ≠ 0) (scaled : List (ι → K)) (size : ℕ) {l l' rs : List ι} (hnd : l.Nodup)
    (h : Reduces (loss ex eps c k scaled) size l l' rs) :
    (∀ x ∈ l', x ∈ l) ∧ ∀ r ∈ rs, ∀ x ∈ l', ¬ Dom scaled r x := by
  induction h with
  | stop _ hp => exact ⟨fun x hx => hp.mem_iff.2 hx, by simp⟩
  | @remove l l' rs r h1 h2 h3 h4 ih =>
    obtain ⟨i1, i2⟩ := ih (hnd.erase r)
    have hsub : ∀ x ∈ l', x ∈ l := fun x hx => List.mem_of_mem_erase (i1 x hx)
    refine ⟨hsub, ?_⟩
    intro q hq x hx
    rcases List.mem_cons.1 hq with rfl | hq
    · intro hd
      exact absurd (h3 x (hsub x hx)) (not_le.2 (C70_fitness hex hD scaled l hnd h2 (hsub x hx) hd))
    · exact i2 q hq x hx

/-- C70: the environmental selection never removes an individual while keeping one it dominates
(with respect to the unscaled objectives). -/
theorem C70_selection {ex : K → K} (hex : StrictMono ex) {eps k : K} (heps : 0 < eps) (hk : 0 ≤ k)
    (objectives : List (ι → K)) (size fuel : ℕ) (l : List ι) (hnd : l.Nodup) (hne : l ≠ [])
    (hf : l.length ≤ size + fuel) :
    ∃ scaled l' fit' rs, scaledObjectives eps objectives l = some scaled ∧
      select ex eps k scaled size fuel l = some (l', fit') ∧ (l' ++ rs).Perm l ∧
      ∀ r ∈ rs, ∀ x ∈ l', ¬ Dom objectives r x := by
  obtain ⟨scaled, hs, hs2⟩ := C69_scaled heps objectives l hne
  obtain ⟨c, l', fit', rs, h1, h2, h3, -, h5, -⟩ := C26_selection ex eps k scaled size fuel l hnd hne hf
  refine ⟨scaled, l', fit', rs, hs, h2, h5, ?_⟩
  have hc : 0 ≤ c := by
    obtain ⟨hm, -⟩ := pyMax_eq_some.1 h1
    obtain ⟨p, -, e⟩ := List.mem_map.1 hm
    rw [← e]; exact abs_nonneg _
  have hD : c * k + eps ≠ 0 := by positivity
  intro r hr x hx hd
  refine (reduces_not_dominated hex hD scaled size hnd h3).2 r hr x hx ?_
  -- scaling preserves dominance
  clear h1 h2 h3 h5 hs
  have hget : ∀ (i : ℕ) (h1 : i < objectives.length) (h2 : i < scaled.length), ∀ x y,
      scaled[i] x < scaled[i] y ↔ objectives[i] x < objectives[i] y := by
    intro i h1 h2
    exact ((List.forall₂_iff_get.1 hs2).2 i h1 h2).2
  have hlen : objectives.length = scaled.length := hs2.length_eq
  obtain ⟨-, hle, i, hi1, hi2, hi3⟩ := hd
  refine ⟨by simp, ?_, i, by simpa [hlen] using hi1, by simpa [hlen] using hi2, ?_⟩
  · intro j hj1 hj2
    simp only [List.length_map] at hj1 hj2
    have := hle j (by simpa [hlen] using hj1) (by simpa [hlen] using hj2)
    simp only [List.getElem_map] at this ⊢
    rw [← not_lt] at this ⊢
    rw [hget j (by rw [hlen]; exact hj1) hj1]
    exact this
  · simp only [List.getElem_map] at hi3 ⊢
    exact (hget i (by simpa using hi1) (by rw [← hlen]; simpa using hi1) r x).2 hi3

/-- The exponential function satisfies the hypothesis used above. -/
example : StrictMono Real.exp := Real.exp_strictMono

end C70

/-! ## C59: the mating tournament -/

/-- C59 is violated: with the outcome of probability `p` (0.9 in the code) the individual with the
smaller fitness, which the environmental selection would remove first, wins; with the other outcome
the fitter one. -/
theorem C59_violated (fit : ι → K) (x1 x2 : ι) (h : fit x1 ≠ fit x2) :
    (fit (better fit true x1 x2) = min (fit x1) (fit x2) ∧
      fit (better fit true x1 x2) < max (fit x1) (fit x2)) ∧
      fit (better fit false x1 x2) = max (fit x1) (fit x2) := by
  unfold better
  rcases lt_or_gt_of_ne h with h | h
  · simp [h, h.le, h.not_gt]
  · simp [h, h.le, h.not_gt]

/-- C59: of the draws of `random.random()` in [0, 1), exactly those below `p` let the less fit
individual win. -/
theorem C59_partial (fit : ι → K) (x1 x2 : ι) (h : fit x1 ≠ fit x2) (p r : K) :
    fit (better fit (decide (r < p)) x1 x2) < max (fit x1) (fit x2) ↔ r < p := by
  obtain ⟨⟨-, h2⟩, h3⟩ := C59_violated fit x1 x2 h
  by_cases hr : r < p
  · simp only [hr, decide_true, iff_true]; exact h2
  · simp only [hr, decide_false, iff_false, h3, lt_irrefl, not_false_eq_true]

example : better (fun i : ℕ => ([-3, -1] : List ℚ).getD i 0) true 0 1 = 0 := by decide +kernel

end Evogil.Ibea
