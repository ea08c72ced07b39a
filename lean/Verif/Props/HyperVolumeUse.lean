import Verif.Model.MetricHv
import Verif.Props.HyperVolume
import Verif.Props.ParetoFilter
import Verif.Props.Smsemoa

/-! # C68, C84: the hypervolume routine as used by SMS-EMOA and by the metric -/

set_option linter.unusedSectionVars false

namespace Evogil.Hv

open MeasureTheory Spec

/-- Coordinatewise comparison of lists by `getD`. -/
theorem getD_le_of_LDom {p q : List ℝ} (h : LDom p q) (i : ℕ) : p.getD i 0 ≤ q.getD i 0 := by
  obtain ⟨hl, hle, -⟩ := h
  by_cases hi : i < p.length
  · rw [List.getD_eq_getElem _ _ hi, List.getD_eq_getElem _ _ (hl ▸ hi)]
    exact hle i hi (hl ▸ hi)
  · rw [List.getD_eq_default _ _ (by omega), List.getD_eq_default _ _ (by omega)]

theorem LDom_of_getD_le {n : ℕ} {p q : List ℝ} (hp : p.length = n) (hq : q.length = n)
    (hle : ∀ i < n, p.getD i 0 ≤ q.getD i 0) (hne : p ≠ q) : LDom p q := by
  refine ⟨hp.trans hq.symm, fun i h1 h2 => ?_, ?_⟩
  · have := hle i (by omega)
    rwa [List.getD_eq_getElem _ _ h1, List.getD_eq_getElem _ _ h2] at this
  · by_contra hno
    push Not at hno
    apply hne
    apply List.ext_getElem (by omega)
    intro i h1 h2
    have := hle i (by omega)
    rw [List.getD_eq_getElem _ _ h1, List.getD_eq_getElem _ _ h2] at this
    exact le_antisymm this (hno i h1 h2)

/-- The dominated volume has the properties used of the hypervolume. -/
theorem hvLike_dominatedVolume (ref : List ℝ) : Smsemoa.HvLike (dominatedVolume ref) where
  perm l l' h := le_antisymm
    (dominatedVolume_mono fun p hp => ⟨p, h.mem_iff.1 hp, fun _ _ => le_rfl⟩)
    (dominatedVolume_mono fun p hp => ⟨p, h.mem_iff.2 hp, fun _ _ => le_rfl⟩)
  mono l a := dominatedVolume_mono fun p hp => ⟨p, List.mem_cons_of_mem _ hp, fun _ _ => le_rfl⟩
  dom l a b hb hd := le_antisymm
    (dominatedVolume_mono fun p hp => by
      rcases List.mem_cons.1 hp with rfl | hp
      · exact ⟨b, hb, fun i _ => getD_le_of_LDom hd i⟩
      · exact ⟨p, hp, fun _ _ => le_rfl⟩)
    (dominatedVolume_mono fun p hp => ⟨p, List.mem_cons_of_mem _ hp, fun _ _ => le_rfl⟩)

/-- `compute` is exact for at most four objectives on mutually non-dominated points. With four
objectives no relevant point may touch the reference point in a coordinate. -/
theorem compute_antichain {lowest : ℝ} {ref : List ℝ} {front : List (List ℝ)}
    (h1 : 1 ≤ ref.length) (h4 : ref.length ≤ 4) (hlen : ∀ p ∈ front, p.length = ref.length)
    (hlow : ∀ p ∈ front, ∀ i < ref.length, lowest ≤ p.getD i 0 - ref.getD i 0)
    (hstrict : ref.length = 4 → ∀ p ∈ front, (∀ i < 4, p.getD i 0 ≤ ref.getD i 0) →
      ∀ i < 4, p.getD i 0 < ref.getD i 0)
    (hnd : ∀ p ∈ front, ∀ q ∈ front, ¬ LDom p q) :
    compute lowest ref front = some (dominatedVolume ref front) := by
  by_cases h3 : ref.length ≤ 3
  · exact C09_exact h1 h3 hlen hlow
  · have hD : ref.length = 4 := by omega
    rw [hD] at hlen hlow
    refine C82_four_partial hD hlen hlow (hstrict hD) ?_
    intro p hp q hq hle
    by_contra hne
    exact hnd p hp q hq (LDom_of_getD_le (hlen p hp) (hlen q hq) hle hne)

variable {ι : Type*} [DecidableEq ι]

/-- C68 with the routine of hv.py: for one to four objectives, the volume dominated by the
population never decreases. -/
theorem C68_routine (iter : List ι → List ι) (hiter : ∀ l, (iter l).Perm l) (lowest : ℝ)
    (ref : List ℝ) (h1 : 1 ≤ ref.length) (h4 : ref.length ≤ 4) (obj : ι → List ℝ)
    (hd : ∀ x, (obj x).length = ref.length)
    (hlow : ∀ x, ∀ i < ref.length, lowest ≤ (obj x).getD i 0 - ref.getD i 0)
    (hstrict : ref.length = 4 → ∀ x, (∀ i < 4, (obj x).getD i 0 ≤ ref.getD i 0) →
      ∀ i < 4, (obj x).getD i 0 < ref.getD i 0)
    (children pop : List ι) (hp : (pop ++ children).Nodup) (fuel : ℕ)
    (hf : pop.length + 1 ≤ fuel) (pop' : List ι)
    (h : Smsemoa.step iter fuel (fun l => (compute lowest ref l).getD 0) obj pop children =
      some pop') :
    dominatedVolume ref (pop.map obj) ≤ dominatedVolume ref (pop'.map obj) := by
  refine Smsemoa.C68_step_of iter hiter (hvLike_dominatedVolume ref) ref.length obj hd ?_ children
    pop hp fuel hf pop' h
  intro l hl
  have : ∀ p ∈ l.map obj, ∃ x ∈ l, p = obj x := fun p hp => by
    obtain ⟨x, hx, rfl⟩ := List.mem_map.1 hp
    exact ⟨x, hx, rfl⟩
  rw [compute_antichain h1 h4 (fun p hp => by obtain ⟨x, -, rfl⟩ := this p hp; exact hd x)
    (fun p hp => by obtain ⟨x, -, rfl⟩ := this p hp; exact hlow x)
    (fun hD p hp => by obtain ⟨x, -, rfl⟩ := this p hp; exact hstrict hD x)
    (fun p hp q hq => by
      obtain ⟨x, hx, rfl⟩ := this p hp
      obtain ⟨y, hy, rfl⟩ := this q hq
      exact hl x hx y hy)]
  rfl

/-- C84: for one to four objectives the hypervolume metric of a result is the volume dominated by
all its points (not only the non-dominated ones that it is computed from), bounded by 50 in each
objective. -/
theorem C84_metric {lowest : ℝ} {solution pareto : List (List ℝ)} {d : ℕ} (h1 : 1 ≤ d) (h4 : d ≤ 4)
    (hpar : ∃ p ps, pareto = p :: ps ∧ p.length = d) (hlen : ∀ p ∈ solution, p.length = d)
    (hlow : ∀ p ∈ solution, ∀ i < d, lowest ≤ p.getD i 0 - 50)
    (hstrict : d = 4 → ∀ p ∈ solution, ∀ i < 4, p.getD i 0 ≠ 50) :
    metricHypervolume lowest solution (filterNotDominated solution) pareto =
      some (dominatedVolume (List.replicate d 50) solution) := by
  obtain ⟨p, ps, rfl, hp⟩ := hpar
  have hr : ∀ i < d, (List.replicate d (50 : ℝ)).getD i 0 = 50 := by
    intro i hi
    simp [List.getD_eq_getElem?_getD, hi]
  have hmem : ∀ x ∈ filterNotDominated solution, x ∈ solution := fun x hx =>
    ((C06_mem_filter d solution hlen x).1 hx).1
  unfold metricHypervolume
  simp only [hp]
  rw [compute_antichain (by simpa using h1) (by simpa using h4)
    (by simpa using fun x hx => hlen x (hmem x hx))
    (by
      intro x hx i hi
      rw [List.length_replicate] at hi
      rw [hr i hi]
      exact hlow x (hmem x hx) i hi)
    (by
      intro hD x hx hle i hi
      rw [List.length_replicate] at hD
      have := hle i hi
      rw [hr i (by omega)] at this ⊢
      exact lt_of_le_of_ne this (hstrict hD x (hmem x hx) i hi))
    (by
      intro x hx y hy hxy
      exact ((C06_mem_filter d solution hlen y).1 hy).2 x (hmem x hx) hxy)]
  congr 1
  refine le_antisymm
    (dominatedVolume_mono fun x hx => ⟨x, hmem x hx, fun _ _ => le_rfl⟩)
    (dominatedVolume_mono fun x hx => ?_)
  obtain ⟨y, hy, h⟩ := C06_covers d solution hlen x hx
  refine ⟨y, hy, fun i _ => ?_⟩
  rcases h with rfl | h
  · exact le_rfl
  · exact getD_le_of_LDom h i

/-- C84: consequently the metric never ranks a result below another one that it covers. -/
theorem C84_mono {lowest : ℝ} {F G pareto : List (List ℝ)} {d : ℕ} (h1 : 1 ≤ d) (h4 : d ≤ 4)
    (hpar : ∃ p ps, pareto = p :: ps ∧ p.length = d) (hF : ∀ p ∈ F, p.length = d)
    (hG : ∀ p ∈ G, p.length = d)
    (hlF : ∀ p ∈ F, ∀ i < d, lowest ≤ p.getD i 0 - 50)
    (hlG : ∀ p ∈ G, ∀ i < d, lowest ≤ p.getD i 0 - 50)
    (hsF : d = 4 → ∀ p ∈ F, ∀ i < 4, p.getD i 0 ≠ 50)
    (hsG : d = 4 → ∀ p ∈ G, ∀ i < 4, p.getD i 0 ≠ 50)
    (h : ∀ p ∈ F, ∃ q ∈ G, ∀ i < d, q.getD i 0 ≤ p.getD i 0) :
    ∃ v w, metricHypervolume lowest F (filterNotDominated F) pareto = some v ∧
      metricHypervolume lowest G (filterNotDominated G) pareto = some w ∧ v ≤ w :=
  ⟨_, _, C84_metric h1 h4 hpar hF hlF hsF, C84_metric h1 h4 hpar hG hlG hsG,
    dominatedVolume_mono (by simpa using h)⟩

/-- C84: with an empty reference front the metric raises. -/
theorem C84_empty (lowest : ℝ) (s nd : List (List ℝ)) : metricHypervolume lowest s nd [] = none :=
  rfl

/-- Two objectives: three points, one of them dominated. -/
example : metricHypervolume (-1000 : ℤ) [[10, 20], [20, 10], [30, 30]]
      (filterNotDominated [[10, 20], [20, 10], [30, 30]]) [[0, 0]] = some 1500 := by
  have h : filterNotDominated [[10, 20], [20, 10], [30, (30 : ℤ)]] = [[10, 20], [20, 10]] := by
    decide +kernel
  rw [h]
  show compute (-1000 : ℤ) [50, 50] [[10, 20], [20, 10]] = _
  rw [← Eval.computeF_eq]
  decide +kernel

end Evogil.Hv
