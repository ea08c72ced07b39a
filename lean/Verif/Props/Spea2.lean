import Verif.Model.Spea2
import Verif.Props.Dominance
import Mathlib.Data.List.TakeWhile
import Mathlib.Tactic.Linarith
import Mathlib.Tactic.NormNum
import Mathlib.Tactic.Positivity
import Mathlib.Algebra.Order.BigOperators.Group.List
import Mathlib.Algebra.Order.Ring.Rat

/-! # C24, C25, C67: SPEA2 fitness, archive and truncation -/

set_option linter.unusedSectionVars false

namespace Evogil.Spea2

open Spec

variable {ι K : Type*} [DecidableEq ι] [Field K] [LinearOrder K]

/-! ## C24 -/

section C24
variable [IsStrictOrderedRing K]

theorem density_spec {dist : List K → List K → K} (hdist : ∀ a b, 0 ≤ dist a b)
    (obj : ι → List K) {pop : List ι} (hpop : 2 ≤ pop.length) (p : ι) :
    ∃ d, density dist obj pop p = some d ∧ 0 < d ∧ d < 1 := by
  unfold density
  simp only
  have hlt : Nat.sqrt pop.length <
      (pySorted id (pop.map fun p2 => dist (obj p) (obj p2))).length := by
    rw [pySorted_length, List.length_map]
    exact Nat.sqrt_lt_self (by omega)
  rw [List.getElem?_eq_getElem hlt]
  set d := (pySorted id (pop.map fun p2 => dist (obj p) (obj p2)))[Nat.sqrt pop.length] with hd
  have hmem : d ∈ pop.map fun p2 => dist (obj p) (obj p2) :=
    (mem_pySorted _).1 (List.getElem_mem hlt)
  have h0 : 0 ≤ d := by
    obtain ⟨q, -, hq⟩ := List.mem_map.1 hmem
    rw [← hq]; exact hdist _ _
  refine ⟨_, rfl, by positivity, ?_⟩
  rw [div_lt_one (by linarith)]
  linarith

theorem rawFitness_eq_zero {obj : ι → List K} {pop : List ι} {p : ι}
    (h : ∀ y ∈ pop, dominates (obj y) (obj p) = false) : rawFitness obj pop p = 0 := by
  unfold rawFitness
  rw [List.filter_eq_nil_iff.2 (by intro y hy; simp [h y hy])]
  simp

theorem rawFitness_nonneg (obj : ι → List K) (pop : List ι) (p : ι) : 0 ≤ rawFitness obj pop p := by
  unfold rawFitness
  rw [zero_add]
  apply List.sum_nonneg
  intro x hx
  obtain ⟨y, -, rfl⟩ := List.mem_map.1 hx
  exact Nat.cast_nonneg _

theorem rawFitness_ge {obj : ι → List K} {pop : List ι} {p y : ι} (hp : p ∈ pop) (hy : y ∈ pop)
    (h : dominates (obj y) (obj p) = true) : 1 ≤ rawFitness obj pop p := by
  have hne : y ≠ p := by rintro rfl; rw [dominates_irrefl] at h; simp at h
  have hs : 1 ≤ strength obj pop y := by
    unfold strength
    rw [Nat.one_le_iff_ne_zero, Ne, List.length_eq_zero_iff, List.filter_eq_nil_iff]
    intro hc
    exact hc p hp (by simp [hne, h])
  have hmem : (strength obj pop y : K) ∈ (pop.filter fun y => dominates (obj y) (obj p)).map
      fun y => (strength obj pop y : K) :=
    List.mem_map.2 ⟨y, List.mem_filter.2 ⟨hy, h⟩, rfl⟩
  unfold rawFitness
  rw [zero_add]
  have h1 : (1 : K) ≤ (strength obj pop y : K) := by exact_mod_cast hs
  refine h1.trans ?_
  refine List.single_le_sum ?_ _ hmem
  intro x hx
  obtain ⟨z, -, rfl⟩ := List.mem_map.1 hx
  exact Nat.cast_nonneg _

/-- C24, raw fitness: it is zero exactly for the individuals nobody in the union dominates, and at
least one for the others. -/
theorem C24_raw (n : ℕ) (obj : ι → List K) (union : List ι)
    (hlen : ∀ x ∈ union, (obj x).length = n) (p : ι) (hp : p ∈ union) :
    (rawFitness obj union p = 0 ↔ ∀ y ∈ union, ¬ LDom (obj y) (obj p)) ∧
      ((∃ y ∈ union, LDom (obj y) (obj p)) → 1 ≤ rawFitness obj union p) := by
  have key : ∀ y ∈ union, dominates (obj y) (obj p) = true ↔ LDom (obj y) (obj p) := fun y hy =>
    dominates_iff_LDom (by rw [hlen y hy, hlen p hp])
  have h2 : (∃ y ∈ union, LDom (obj y) (obj p)) → 1 ≤ rawFitness obj union p := by
    rintro ⟨y, hy, hd⟩
    exact rawFitness_ge hp hy ((key y hy).2 hd)
  refine ⟨⟨?_, ?_⟩, h2⟩
  · intro h0 y hy hd
    have := h2 ⟨y, hy, hd⟩
    rw [h0] at this
    exact absurd this (not_le.2 one_pos)
  · intro h
    exact rawFitness_eq_zero fun y hy => by
      rw [← Bool.not_eq_true, key y hy]; exact h y hy

/-- C24: in a union of at least two individuals every individual gets a fitness; it is below one
for the non-dominated and above one for the dominated individuals. -/
theorem C24_fitness {dist : List K → List K → K} (hdist : ∀ a b, 0 ≤ dist a b) (n : ℕ)
    (obj : ι → List K) (union : List ι) (hlen : ∀ x ∈ union, (obj x).length = n)
    (htwo : 2 ≤ union.length) (p : ι) (hp : p ∈ union) :
    ∃ f d, fitness dist obj union p = some f ∧ density dist obj union p = some d ∧
      f = rawFitness obj union p + d ∧ 0 < d ∧ d < 1 ∧
      (f < 1 ↔ ∀ y ∈ union, ¬ LDom (obj y) (obj p)) ∧
      (1 < f ↔ ∃ y ∈ union, LDom (obj y) (obj p)) := by
  obtain ⟨d, hd, hd0, hd1⟩ := density_spec hdist obj htwo p
  obtain ⟨h1, h2⟩ := C24_raw n obj union hlen p hp
  refine ⟨rawFitness obj union p + d, d, by simp [fitness, hd], hd, rfl, hd0, hd1, ?_, ?_⟩
  · constructor
    · intro hf y hy hdom
      have := h2 ⟨y, hy, hdom⟩
      linarith
    · intro h
      rw [h1.2 h]
      linarith
  · constructor
    · intro hf
      by_contra hc
      push Not at hc
      rw [h1.2 hc] at hf
      linarith
    · intro h
      have := h2 h
      linarith

end C24

/-- With a single individual `calculate_density` raises `IndexError`. -/
theorem C24_single_raises (dist : List K → List K → K) (obj : ι → List K) (p : ι) :
    fitness dist obj [p] p = none := by
  simp [fitness, density, pySorted_length]

example : fitness (fun a b => |a.headD 0 - b.headD 0|) (fun i : Fin 3 =>
    (([[0, 1], [1, 0], [2, 2]] : List (List ℚ))[i.1]?).getD []) [0, 1, 2] 2
    = some (2 + 1 / 3) := by decide +kernel

/-! ## C25 -/

section C25

theorem dominationIndex_spec {fit : ι → K} {l : List ι} (hs : l.Pairwise fun a b => fit a ≤ fit b) :
    dominationIndex fit l ≤ l.length ∧
      l.take (dominationIndex fit l) = l.filter (fun x => decide (fit x ≤ 1)) ∧
      l.drop (dominationIndex fit l) = l.filter (fun x => decide (1 < fit x)) := by
  unfold dominationIndex
  induction l with
  | nil => simp
  | cons a l ih =>
    rw [List.pairwise_cons] at hs
    rw [List.findIdx?_cons]
    by_cases h : fit a > 1
    · have hall : ∀ x ∈ a :: l, 1 < fit x := by
        intro x hx
        rcases List.mem_cons.1 hx with rfl | hx
        · exact h
        · exact lt_of_lt_of_le h (hs.1 x hx)
      rw [if_pos (by simpa using h)]
      refine ⟨by simp, ?_, ?_⟩
      · rw [List.filter_eq_nil_iff.2 (by intro x hx; simpa using hall x hx)]; simp
      · rw [List.filter_eq_self.2 (by intro x hx; simpa using hall x hx)]; simp
    · rw [if_neg (by simpa using h)]
      have ih' := ih hs.2
      have ha : fit a ≤ 1 := not_lt.1 h
      cases hf : l.findIdx? (fun p => decide (fit p > 1)) with
      | none =>
        rw [hf] at ih'
        simp only [Option.map_none] at ih' ⊢
        refine ⟨le_rfl, ?_, ?_⟩
        · rw [List.take_of_length_le le_rfl, List.filter_cons_of_pos (by simpa using ha),
            ← ih'.2.1, List.take_of_length_le le_rfl]
        · rw [List.drop_of_length_le le_rfl, List.filter_cons_of_neg (by simpa using ha),
            ← ih'.2.2, List.drop_of_length_le le_rfl]
      | some i =>
        rw [hf] at ih'
        simp only [Option.map_some] at ih' ⊢
        refine ⟨by simp; omega, ?_, ?_⟩
        · rw [List.take_succ_cons, List.filter_cons_of_pos (by simpa using ha), ih'.2.1]
        · rw [List.drop_succ_cons, List.filter_cons_of_neg (by simpa using ha), ih'.2.2]

omit [DecidableEq ι] in
theorem tied_subset (level : ℕ) (l : List (ι × List K)) : ∀ x ∈ tied level l, x ∈ l := by
  cases l with
  | nil => simp [tied]
  | cons a l =>
    intro x hx
    simp only [tied, List.mem_cons] at hx ⊢
    rcases hx with hx | hx
    · exact Or.inl hx
    · exact Or.inr ((List.takeWhile_prefix _).subset hx)

omit [DecidableEq ι] in
theorem getMin_mem (l : List (ι × List K)) (level : ℕ) :
    (l ≠ [] → ∃ x, getMin l level = some x) ∧ ∀ x, getMin l level = some x → x ∈ l := by
  induction l, level using getMin.induct with
  | case1 l level h =>
    rw [getMin.eq_def, if_pos h]
    refine ⟨?_, ?_⟩
    · intro hne
      cases l with
      | nil => exact absurd rfl hne
      | cons a l => exact ⟨a, rfl⟩
    · intro x hx
      exact List.mem_of_mem_head? (by rw [hx]; rfl)
  | case2 l level h sorted result h2 ih =>
    rw [getMin.eq_def, if_neg h]
    simp only
    rw [if_pos h2]
    have hne : result ≠ [] := by intro e; rw [e] at h2; simp at h2
    refine ⟨fun _ => ih.1 hne, ?_⟩
    intro x hx
    exact (mem_pySorted _).1 (tied_subset _ _ x (ih.2 x hx))
  | case3 l level h sorted result h2 =>
    rw [getMin.eq_def, if_neg h]
    simp only
    rw [if_neg h2]
    refine ⟨?_, ?_⟩
    · intro hne
      have : sorted ≠ [] := by
        intro e
        have := pySorted_length (fun d : ι × List K => d.2.getD level 0) l
        rw [show pySorted (fun d : ι × List K => d.2.getD level 0) l = [] from e] at this
        exact hne (List.length_eq_zero_iff.1 (by simpa using this.symm))
      cases hs : sorted with
      | nil => exact absurd hs this
      | cons a s =>
        refine ⟨a, ?_⟩
        have : pySorted (fun d : ι × List K => d.2.getD level 0) l = a :: s := hs
        rw [this]
        rfl
    · intro x hx
      exact (mem_pySorted _).1 (tied_subset _ _ x (List.mem_of_mem_head? (by rw [hx]; rfl)))

omit [DecidableEq ι] in
theorem chooseToTruncate_mem (dist : List K → List K → K) (obj : ι → List K) {pop : List ι}
    (hne : pop ≠ []) : ∃ x ∈ pop, chooseToTruncate dist obj pop = some x := by
  obtain ⟨x, hx⟩ := (getMin_mem (distanceTable dist obj pop) 0).1 (by
    intro e; exact hne (by simpa [distanceTable] using e))
  have hm := (getMin_mem (distanceTable dist obj pop) 0).2 x hx
  unfold distanceTable at hm
  obtain ⟨p, hp, rfl⟩ := List.mem_map.1 hm
  exact ⟨p, hp, by simp [chooseToTruncate, hx]⟩

omit [DecidableEq ι] in
theorem truncLoop_spec {same : ι → ι → Bool} (hsame : ∀ x, same x x = true)
    (dist : List K → List K → K) (obj : ι → List K) (size : ℕ) :
    ∀ (fuel : ℕ) (env : List ι), size ≤ env.length → env.length ≤ size + fuel →
      ∃ res, truncLoop same dist obj size fuel env = some res ∧ res.length = size ∧
        res.Sublist env := by
  intro fuel
  induction fuel with
  | zero =>
    intro env h1 h2
    refine ⟨env, ?_, by omega, List.Sublist.refl _⟩
    rw [truncLoop, if_neg (by omega)]
  | succ fuel ih =>
    intro env h1 h2
    rw [truncLoop]
    by_cases h : env.length > size
    · rw [if_pos h]
      obtain ⟨x, hx, hc⟩ := chooseToTruncate_mem dist obj (pop := env)
        (by intro e; rw [e] at h; simp at h)
      rw [hc]
      simp only
      have hl : (env.eraseP (same x)).length = env.length - 1 :=
        List.length_eraseP_of_mem hx (hsame x)
      obtain ⟨res, h3, h4, h5⟩ := ih (env.eraseP (same x)) (by omega) (by omega)
      exact ⟨res, h3, h4, h5.trans List.eraseP_sublist⟩
    · rw [if_neg h]
      exact ⟨env, rfl, by omega, List.Sublist.refl _⟩

/-- C25. Let the fitness separate the candidates as in C24. The environmental selection terminates
and returns `min size (number of candidates)` individuals, which together with some others are the
candidates. If the non-dominated candidates fit into the archive all of them are kept, and the
remaining places go to dominated candidates with the smallest fitness; otherwise only non-dominated
candidates are kept. -/
theorem C25_archive {same : ι → ι → Bool} (hsame : ∀ x, same x x = true)
    (dist : List K → List K → K) (obj : ι → List K) (fit : ι → K) (size fuel : ℕ)
    (pop archive : List ι) (hfuel : (archive ++ pop).length ≤ fuel)
    (hfit : ∀ x ∈ archive ++ pop, (fit x ≤ 1 ↔ ∀ y ∈ archive ++ pop, ¬ LDom (obj y) (obj x))) :
    ∃ kept lost, environmentalSelection same dist obj fit size fuel pop archive = some kept ∧
      kept.length = min size (archive ++ pop).length ∧ (kept ++ lost).Perm (archive ++ pop) ∧
      (((archive ++ pop).countP (fun x => decide (fit x ≤ 1)) ≤ size ∧
          (∀ x ∈ lost, ∃ y ∈ archive ++ pop, LDom (obj y) (obj x)) ∧
          (∀ x ∈ kept, ∀ y ∈ lost, fit x ≤ fit y)) ∨
        (size < (archive ++ pop).countP (fun x => decide (fit x ≤ 1)) ∧
          ∀ x ∈ kept, ∀ y ∈ archive ++ pop, ¬ LDom (obj y) (obj x))) := by
  set union := archive ++ pop with hunion
  set su := pySorted fit union with hsu
  have hsorted := pySorted_sorted fit union
  obtain ⟨hi1, hi2, hi3⟩ := dominationIndex_spec (fit := fit) hsorted
  rw [← hsu] at hsorted hi1 hi2 hi3
  have hperm : su.Perm union := pySorted_perm fit union
  have hlen : su.length = union.length := hperm.length_eq
  set index := dominationIndex fit su with hindex
  have hcount : (su.take index).length = union.countP (fun x => decide (fit x ≤ 1)) := by
    rw [hi2, ← List.countP_eq_length_filter, hperm.countP_eq]
  have hle1 : ∀ x ∈ su.take index, fit x ≤ 1 := by
    intro x hx
    rw [hi2] at hx
    simpa using (List.mem_filter.1 hx).2
  have hgt1 : ∀ x ∈ su.drop index, 1 < fit x := by
    intro x hx
    rw [hi3] at hx
    simpa using (List.mem_filter.1 hx).2
  have htl : (su.take index).length = index := by rw [List.length_take]; omega
  have hmemU : ∀ x ∈ su, x ∈ union := fun x hx => hperm.mem_iff.1 hx
  by_cases h1 : (su.take index).length < size
  · refine ⟨su.take index ++ (su.drop index).take (size - (su.take index).length),
      (su.drop index).drop (size - (su.take index).length), ?_, ?_, ?_, Or.inl ⟨?_, ?_, ?_⟩⟩
    · unfold environmentalSelection
      simp only
      rw [← hunion, ← hsu, ← hindex, if_pos h1]
    · simp only [List.length_append, List.length_take, List.length_drop, htl]
      rw [hlen] at hi1 ⊢
      have : index ≤ size := by omega
      omega
    · rw [List.append_assoc, List.take_append_drop, List.take_append_drop]
      exact hperm
    · omega
    · intro x hx
      have hx' := List.mem_of_mem_drop hx
      have := hgt1 x hx'
      by_contra hc
      push Not at hc
      exact absurd ((hfit x (hmemU x (List.mem_of_mem_drop hx'))).2 hc) (not_le.2 this)
    · intro x hx y hy
      have h := hsorted
      rw [← List.take_append_drop (index + (size - (su.take index).length)) su,
        List.pairwise_append] at h
      refine h.2.2 x ?_ y ?_
      · rw [List.take_add]; exact hx
      · rw [← List.drop_drop]; exact hy
  · by_cases h2 : (su.take index).length > size
    · obtain ⟨res, hr1, hr2, hr3⟩ := truncLoop_spec hsame dist obj size fuel (su.take index)
        (by omega) (by rw [htl]; omega)
      obtain ⟨lost1, hl1⟩ := hr3.exists_perm_append
      refine ⟨res, lost1 ++ su.drop index, ?_, ?_, ?_, Or.inr ⟨?_, ?_⟩⟩
      · unfold environmentalSelection
        simp only
        rw [← hunion, ← hsu, ← hindex, if_neg h1, if_pos h2, hr1]
      · rw [hr2]; omega
      · rw [← List.append_assoc]
        refine (hl1.symm.append_right _).trans ?_
        rw [List.take_append_drop]
        exact hperm
      · omega
      · intro x hx
        have hx' := hr3.subset hx
        exact (hfit x (hmemU x (List.mem_of_mem_take hx'))).1 (hle1 x hx')
    · refine ⟨su.take index, su.drop index, ?_, ?_, ?_, Or.inl ⟨by omega, ?_, ?_⟩⟩
      · unfold environmentalSelection
        simp only
        rw [← hunion, ← hsu, ← hindex, if_neg h1, if_neg h2]
      · omega
      · rw [List.take_append_drop]; exact hperm
      · intro x hx
        have := hgt1 x hx
        by_contra hc
        push Not at hc
        exact absurd ((hfit x (hmemU x (List.mem_of_mem_drop hx))).2 hc) (not_le.2 this)
      · intro x hx y hy
        exact (hle1 x hx).trans (hgt1 y hy).le

/-- C25 for the fitness the code computes. -/
theorem C25_step [IsStrictOrderedRing K] {same : ι → ι → Bool} (hsame : ∀ x, same x x = true)
    {dist : List K → List K → K} (hdist : ∀ a b, 0 ≤ dist a b) (n : ℕ) (obj : ι → List K)
    (size : ℕ) (pop archive : List ι) (hlen : ∀ x ∈ archive ++ pop, (obj x).length = n)
    (htwo : 2 ≤ (archive ++ pop).length) (fit : ι → K)
    (hfit : ∀ x ∈ archive ++ pop, fitness dist obj (archive ++ pop) x = some (fit x))
    (fuel : ℕ) (hfuel : (archive ++ pop).length ≤ fuel) :
    ∃ kept lost, environmentalSelection same dist obj fit size fuel pop archive = some kept ∧
      kept.length = min size (archive ++ pop).length ∧ (kept ++ lost).Perm (archive ++ pop) ∧
      ((∀ x ∈ lost, ∃ y ∈ archive ++ pop, LDom (obj y) (obj x)) ∨
        ∀ x ∈ kept, ∀ y ∈ archive ++ pop, ¬ LDom (obj y) (obj x)) := by
  have key : ∀ x ∈ archive ++ pop, (fit x ≤ 1 ↔ ∀ y ∈ archive ++ pop, ¬ LDom (obj y) (obj x)) := by
    intro x hx
    obtain ⟨f, d, h1, -, -, -, -, h6, h7⟩ := C24_fitness hdist n obj (archive ++ pop) hlen htwo x hx
    obtain rfl : fit x = f := Option.some.inj ((hfit x hx).symm.trans h1)
    constructor
    · intro h y hy hd
      exact absurd (h7.2 ⟨y, hy, hd⟩) (not_lt.2 h)
    · intro h
      exact (h6.2 h).le
  obtain ⟨kept, lost, h1, h2, h3, h4⟩ := C25_archive hsame dist obj fit size fuel pop archive hfuel key
  refine ⟨kept, lost, h1, h2, h3, ?_⟩
  rcases h4 with h4 | h4
  · exact Or.inl h4.2.1
  · exact Or.inr h4.2

/-- Two non-dominated and two dominated candidates, three places. -/
example : environmentalSelection (fun a b => decide (a = b)) (fun _ _ => 0)
    (fun i : Fin 4 => (([[0, 1], [1, 0], [2, 2], [3, 3]] : List (List ℚ))[i.1]?).getD [])
    (fun i => (([1 / 3, 1 / 2, 5 + 1 / 3, 3 + 1 / 2] : List ℚ)[i.1]?).getD 0) 3 4 [2, 3] [0, 1]
    = some [0, 1, 3] := by decide +kernel

end C25

/-! ## C67: truncation -/

section C67

/-- what `get_min` guarantees about the level it starts at -/
theorem getMin_min (l : List (ι × List K)) (level : ℕ) (hl : level < l.length) (x : ι × List K)
    (h : getMin l level = some x) : ∀ y ∈ l, x.2.getD level 0 ≤ y.2.getD level 0 := by
  rw [getMin.eq_def, if_neg (by omega)] at h
  simp only at h
  set key := fun d : ι × List K => d.2.getD level 0 with hkey
  have hs := pySorted_sorted key l
  have hmem : x ∈ tied level (pySorted key l) := by
    split at h
    · exact (getMin_mem _ _).2 x h
    · exact List.mem_of_mem_head? (by rw [h]; rfl)
  intro y hy
  have hy' : y ∈ pySorted key l := (mem_pySorted _).2 hy
  cases hp : pySorted key l with
  | nil => rw [hp] at hy'; simp at hy'
  | cons a s =>
    rw [hp] at hs hmem hy'
    rw [List.pairwise_cons] at hs
    have hxa : key x = key a := by
      simp only [tied, List.mem_cons] at hmem
      rcases hmem with rfl | hmem
      · rfl
      · have := List.mem_takeWhile_imp hmem
        exact of_decide_eq_true this
    change key x ≤ key y
    rw [hxa]
    rcases List.mem_cons.1 hy' with rfl | hy'
    · exact le_rfl
    · exact hs.1 y hy'

/-- if all candidates agree at `level` and there are several, `get_min` goes on with all of them -/
theorem getMin_all_tied (l : List (ι × List K)) (level : ℕ) (hl : level < l.length)
    (htwo : 2 ≤ l.length) (h : ∀ x ∈ l, ∀ y ∈ l, x.2.getD level 0 = y.2.getD level 0) :
    getMin l level
      = getMin (pySorted (fun d : ι × List K => d.2.getD level 0) l) (level + 1) := by
  rw [getMin.eq_def, if_neg (by omega)]
  simp only
  set s := pySorted (fun d : ι × List K => d.2.getD level 0) l with hs
  have hlen : s.length = l.length := pySorted_length _ _
  have htied : tied level s = s := by
    cases he : s with
    | nil => rfl
    | cons a s' =>
      simp only [tied]
      congr 1
      rw [List.takeWhile_eq_self_iff]
      intro d hd
      have hmem : ∀ z ∈ a :: s', z ∈ l := by
        intro z hz
        rw [← he] at hz
        exact (mem_pySorted _).1 hz
      simpa using h d (hmem d (by simp [hd])) a (hmem a (by simp))
  rw [htied, if_pos (by omega)]

/-- the sorted distances of one individual: itself first, then the others -/
theorem sorted_row {dist : List K → List K → K} (hdist : ∀ a b, 0 ≤ dist a b)
    (hself : ∀ a, dist a a = 0) (obj : ι → List K) {pop : List ι} {p : ι} (hp : p ∈ pop) :
    pySorted id (pop.map fun p2 => dist (obj p) (obj p2))
      = 0 :: pySorted id ((pop.erase p).map fun p2 => dist (obj p) (obj p2)) := by
  have h1 : (pySorted id (pop.map fun p2 => dist (obj p) (obj p2))).Perm
      (0 :: pySorted id ((pop.erase p).map fun p2 => dist (obj p) (obj p2))) := by
    refine (pySorted_perm _ _).trans ?_
    refine ((List.perm_cons_erase hp).map _).trans ?_
    rw [List.map_cons, hself]
    exact List.Perm.cons 0 (pySorted_perm _ _).symm
  refine h1.eq_of_pairwise' (r := (· ≤ ·)) (pySorted_sorted id _) ?_
  rw [List.pairwise_cons]
  refine ⟨?_, pySorted_sorted id _⟩
  intro x hx
  obtain ⟨q, -, rfl⟩ := List.mem_map.1 ((mem_pySorted _).1 hx)
  exact hdist _ _

/-- C67, partial: the individual chosen for removal is one of a closest pair.

Missing: the choice between the candidates that tie for the nearest neighbour, where the code does
not go on to the following distances in general (`C67_violated`). -/
theorem C67_truncation_partial {dist : List K → List K → K} (hdist : ∀ a b, 0 ≤ dist a b)
    (hself : ∀ a, dist a a = 0) (obj : ι → List K) (pop : List ι) (hnd : pop.Nodup)
    (htwo : 2 ≤ pop.length) (x : ι) (h : chooseToTruncate dist obj pop = some x) :
    x ∈ pop ∧ ∃ y ∈ pop, y ≠ x ∧
      ∀ u ∈ pop, ∀ v ∈ pop, u ≠ v → dist (obj x) (obj y) ≤ dist (obj u) (obj v) := by
  set row := fun p => pySorted id (pop.map fun p2 => dist (obj p) (obj p2)) with hrow
  have htab : distanceTable dist obj pop = pop.map fun p => (p, row p) := rfl
  have hlenT : (distanceTable dist obj pop).length = pop.length := by rw [htab, List.length_map]
  unfold chooseToTruncate at h
  have h0 := getMin_all_tied (distanceTable dist obj pop) 0 (by omega) (by omega) (by
    intro a ha b hb
    rw [htab] at ha hb
    obtain ⟨p, hp, rfl⟩ := List.mem_map.1 ha
    obtain ⟨q, hq, rfl⟩ := List.mem_map.1 hb
    simp only [hrow]
    rw [sorted_row hdist hself obj hp, sorted_row hdist hself obj hq]
    rfl)
  rw [h0] at h
  cases hg : getMin (pySorted (fun d : ι × List K => d.2.getD 0 0) (distanceTable dist obj pop))
      (0 + 1) with
  | none => rw [hg] at h; simp at h
  | some z =>
    rw [hg] at h
    simp only [Option.map_some, Option.some.injEq] at h
    have hmin := getMin_min _ (0 + 1) (by rw [pySorted_length]; omega) z hg
    have hzmem := (mem_pySorted _).1 ((getMin_mem _ _).2 z hg)
    rw [htab] at hzmem
    obtain ⟨p, hp, rfl⟩ := List.mem_map.1 hzmem
    simp only at h
    subst h
    have hne : ∀ q ∈ pop, pop.erase q ≠ [] := by
      intro q hq e
      have := List.length_erase_of_mem hq
      rw [e] at this
      simp at this
      omega
    have hsecond : ∀ q ∈ pop, ∃ y ∈ pop, y ≠ q ∧ (row q).getD 1 0 = dist (obj q) (obj y) ∧
        ∀ v ∈ pop, v ≠ q → (row q).getD 1 0 ≤ dist (obj q) (obj v) := by
      intro q hq
      simp only [hrow]
      rw [sorted_row hdist hself obj hq]
      set rest := pySorted id ((pop.erase q).map fun p2 => dist (obj q) (obj p2)) with hrest
      have hs : rest.Pairwise (fun a b => id a ≤ id b) := pySorted_sorted id _
      have hmr : ∀ a, a ∈ rest ↔ ∃ v ∈ pop.erase q, dist (obj q) (obj v) = a := by
        intro a
        rw [hrest, mem_pySorted, List.mem_map]
      cases he : rest with
      | nil =>
        have : rest.length = (pop.erase q).length := by rw [hrest, pySorted_length, List.length_map]
        rw [he] at this
        exact absurd (List.length_eq_zero_iff.1 (by simpa using this.symm)) (hne q hq)
      | cons a r =>
        rw [he] at hs hmr
        rw [List.pairwise_cons] at hs
        obtain ⟨y, hy, hya⟩ := (hmr a).1 (by simp)
        have hy' := (hnd.mem_erase_iff).1 hy
        refine ⟨y, hy'.2, hy'.1, by simpa using hya.symm, ?_⟩
        intro v hv hvq
        have hvm := (hmr (dist (obj q) (obj v))).2 ⟨v, (hnd.mem_erase_iff).2 ⟨hvq, hv⟩, rfl⟩
        simp only [List.getD_cons_succ, List.getD_cons_zero]
        rcases List.mem_cons.1 hvm with hvm | hvm
        · exact hvm.symm.le
        · exact hs.1 _ hvm
    obtain ⟨y, hy, hyp, hy1, -⟩ := hsecond p hp
    refine ⟨hp, y, hy, hyp, ?_⟩
    intro u hu v hv huv
    rw [← hy1]
    obtain ⟨-, -, -, -, hu2⟩ := hsecond u hu
    refine le_trans ?_ (hu2 v hv (Ne.symm huv))
    exact hmin (u, row u) ((mem_pySorted _).2 (List.mem_map.2 ⟨u, hu, rfl⟩))

/-- C67 is violated: three mutually non-dominated individuals on a line with (Euclidean) distances
5, 10 and 15. The first has the sorted distances 0, 5, 15 and the second 0, 5, 10, so the second is
the most crowded one, but the first, an extreme point, is chosen. -/
theorem C67_violated :
    ∃ (dist : List ℚ → List ℚ → ℚ) (pop : List (List ℚ)),
      pop = [[0, 20], [3, 16], [9, 8]] ∧
      (∀ x ∈ pop, ∀ y ∈ pop, dominates x y = false ∧ 0 ≤ dist x y ∧
        dist x y * dist x y = ((List.zipWith (fun a b => (a - b) * (a - b)) x y).sum)) ∧
      chooseToTruncate dist id pop = some [0, 20] ∧
      (pop.map fun p => pySorted id (pop.map (dist p))) = [[0, 5, 15], [0, 5, 10], [0, 10, 15]] := by
  refine ⟨fun a b => |a.headD 0 - b.headD 0| * (5 / 3), _, rfl, ?_, ?_, ?_⟩
  · decide +kernel
  · simp only [chooseToTruncate, distanceTable]
    rw [getMin_all_tied _ 0 (by simp) (by simp) (by decide +kernel)]
    rw [getMin.eq_def, if_neg (by simp [pySorted_length])]
    simp only
    rw [if_pos (by decide +kernel), getMin.eq_def, if_pos (by decide +kernel)]
    decide +kernel
  · decide +kernel

example : chooseToTruncate (fun a b : List ℚ => |a.headD 0 - b.headD 0|) id [[0], [5], [6], [9]]
    = some [5] := by
  simp only [chooseToTruncate, distanceTable]
  rw [getMin_all_tied _ 0 (by simp) (by simp) (by decide +kernel)]
  rw [getMin.eq_def, if_neg (by simp [pySorted_length])]
  simp only
  rw [if_pos (by decide +kernel), getMin.eq_def, if_pos (by decide +kernel)]
  decide +kernel

end C67

/-! ## C81 -/

section C81

/-- **C81** A mating tournament returns one of the two archive members drawn, and neither of them
has a smaller fitness. -/
theorem C81_select (fit : ι → K) (archive : List ι) {i j : ℕ} (hi : i < archive.length)
    (hj : j < archive.length) (hij : i ≠ j) :
    ∃ w, select fit archive i j = some w ∧ (w = archive[i] ∨ w = archive[j]) ∧
      fit w ≤ fit archive[i] ∧ fit w ≤ fit archive[j] := by
  refine ⟨tournament fit archive[i] archive[j], ?_, ?_⟩
  · unfold select
    rw [if_neg hij, List.getElem?_eq_getElem hi, List.getElem?_eq_getElem hj]
  · unfold tournament
    by_cases h : fit archive[j] < fit archive[i]
    · rw [if_pos h]; exact ⟨Or.inr rfl, h.le, le_rfl⟩
    · rw [if_neg h]; exact ⟨Or.inl rfl, le_rfl, not_lt.mp h⟩

/-- **C81** With the fitness of the step, a dominated individual never wins against a
non-dominated one. -/
theorem C81_nondominated [IsStrictOrderedRing K] {dist : List K → List K → K}
    (hdist : ∀ a b, 0 ≤ dist a b) (n : ℕ) (obj : ι → List K) (union archive : List ι)
    (hsub : ∀ x ∈ archive, x ∈ union) (hlen : ∀ x ∈ union, (obj x).length = n)
    (fit : ι → K) (hfit : ∀ x ∈ union, fitness dist obj union x = some (fit x))
    {i j : ℕ} (hi : i < archive.length) (hj : j < archive.length) (hij : i ≠ j)
    (hnd : (∀ y ∈ union, ¬ LDom (obj y) (obj archive[i])) ∨
      ∀ y ∈ union, ¬ LDom (obj y) (obj archive[j])) (w : ι)
    (hw : select fit archive i j = some w) : ∀ y ∈ union, ¬ LDom (obj y) (obj w) := by
  obtain ⟨w', h1, h2, h3, h4⟩ := C81_select fit archive hi hj hij
  rw [hw] at h1
  injection h1 with h1
  subst h1
  have hmi : archive[i] ∈ union := hsub _ (List.getElem_mem hi)
  have hmj : archive[j] ∈ union := hsub _ (List.getElem_mem hj)
  have hmw : w ∈ union := by rcases h2 with e | e <;> rw [e] <;> assumption
  by_cases htwo : 2 ≤ union.length
  · have key : ∀ x ∈ union, (fit x < 1 ↔ ∀ y ∈ union, ¬ LDom (obj y) (obj x)) := by
      intro x hx
      obtain ⟨f, d, g1, -, -, -, -, g6, -⟩ := C24_fitness hdist n obj union hlen htwo x hx
      rw [hfit x hx] at g1
      injection g1 with g1
      rw [g1]; exact g6
    rw [← key w hmw]
    rcases hnd with h | h
    · exact lt_of_le_of_lt h3 ((key _ hmi).2 h)
    · exact lt_of_le_of_lt h4 ((key _ hmj).2 h)
  · have : ∀ x ∈ union, ∀ y ∈ union, x = y := by
      intro x hx y hy
      match union, htwo, hx, hy with
      | [a], _, hx, hy => simp at hx hy; rw [hx, hy]
      | a :: b :: l, h, _, _ => simp at h
    rcases h2 with e | e <;> rcases hnd with h | h <;> intro y hy <;>
      first
        | (rw [this w hmw _ hmi]; exact h y hy)
        | (rw [this w hmw _ hmj]; exact h y hy)

/-- **C81** (finding) From an archive with a single member no mate can be drawn. -/
theorem C81_single_raises (fit : ι → K) (a : ι) (i j : ℕ) : select fit [a] i j = none := by
  unfold select
  by_cases h : i = j
  · rw [if_pos h]
  · rw [if_neg h]
    cases i <;> cases j <;> simp_all

example : select (fun x : ℚ => x) [3, 1, 2] 0 2 = some 2 := by decide +kernel

end C81

end Evogil.Spea2
