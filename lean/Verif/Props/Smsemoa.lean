import Verif.Model.Smsemoa
import Verif.Props.NdSort
import Mathlib.Tactic.Linarith
import Mathlib.Algebra.Order.Ring.Rat

/-! # C27, C68: the SMS-EMOA reduction -/

set_option linter.unusedSectionVars false

namespace Evogil.Smsemoa

open Spec

variable {ι : Type*} [DecidableEq ι] {K : Type*} [Field K] [LinearOrder K]

/-- Pareto dominance between individuals -/
abbrev Dom (obj : ι → List K) (x y : ι) : Prop := LDom (obj x) (obj y)

theorem eraseIdx_eq_erase : ∀ (l : List ι) (i : ℕ) (x : ι), l.Nodup → l[i]? = some x →
    l.take i ++ l.drop (i + 1) = l.erase x := by
  intro l i x hnd hx
  induction l generalizing i with
  | nil => simp at hx
  | cons a l ih =>
    cases i with
    | zero =>
      simp only [List.getElem?_cons_zero, Option.some.injEq] at hx
      subst hx
      simp
    | succ i =>
      simp only [List.getElem?_cons_succ] at hx
      have hxl : x ∈ l := List.mem_of_getElem? hx
      have hne : a ≠ x := by rintro rfl; exact (List.nodup_cons.1 hnd).1 hxl
      rw [List.take_succ_cons, List.drop_succ_cons, List.cons_append,
        ih i (List.nodup_cons.1 hnd).2 hx, List.erase_cons_tail (by simpa using hne)]

theorem mem_contributions (hv : List (List K) → K) (obj : ι → List K) {pop : List ι}
    (hnd : pop.Nodup) (c : ι × K) :
    c ∈ contributions hv obj pop ↔
      c.1 ∈ pop ∧ c.2 = hv (pop.map obj) - hv ((pop.erase c.1).map obj) := by
  unfold contributions
  simp only [List.mem_map, ← List.map_take, ← List.map_drop, ← List.map_append]
  constructor
  · rintro ⟨⟨x, i⟩, hp, rfl⟩
    have := List.mem_zipIdx_iff_getElem?.1 hp
    simp only at this
    refine ⟨List.mem_of_getElem? this, ?_⟩
    simp only
    rw [eraseIdx_eq_erase pop i x hnd this]
  · rintro ⟨h1, h2⟩
    obtain ⟨i, hi⟩ := List.getElem?_of_mem h1
    refine ⟨(c.1, i), List.mem_zipIdx_iff_getElem?.2 hi, ?_⟩
    simp only
    rw [eraseIdx_eq_erase pop i c.1 hnd hi, ← h2]

/-- C27: the reduction removes exactly one individual `m`. No individual has a larger rank than `m`;
and among the individuals of the rank of `m` (`front`), `m` has the smallest contribution, that is,
difference between the hypervolumes of the front with and without it. -/
theorem C27_reduce (iter : List ι → List ι) (hiter : ∀ l, (iter l).Perm l)
    (hv : List (List K) → K) (d : ℕ) (obj : ι → List K) (pop : List ι) (hp : pop.Nodup)
    (hd : ∀ x ∈ pop, (obj x).length = d) (hne : pop ≠ []) (fuel : ℕ) (hf : pop.length ≤ fuel) :
    ∃ m ∈ pop, ∃ front : List ι, ∃ k,
      reducePopulation iter fuel hv obj pop = some (pop.erase m) ∧
      front.Nodup ∧ m ∈ front ∧ (∀ x, x ∈ front ↔ IsRank (Dom obj) pop x k) ∧
      (∀ x ∈ pop, ∃ j ≤ k, IsRank (Dom obj) pop x j) ∧
      ∀ x ∈ front, hv (front.map obj) - hv ((front.erase m).map obj)
        ≤ hv (front.map obj) - hv ((front.erase x).map obj) := by
  obtain ⟨h1, h2⟩ := C05_smsemoa_sorts_by_rank iter hiter d obj pop hp hd
  obtain ⟨L, hL⟩ := h1 fuel hf
  obtain ⟨hperm, hnonempty, hrank⟩ := h2 fuel L hL
  have hLne : L ≠ [] := by
    rintro rfl
    exact hne (by simpa using hperm.symm)
  obtain ⟨worst, hw⟩ : ∃ w, L.getLast? = some w := by
    rw [← Option.isSome_iff_exists]; simpa using hLne
  have hwmem : worst ∈ L := List.mem_of_mem_getLast? (by rw [hw]; rfl)
  have hwk : L[L.length - 1]? = some worst := by rw [← List.getLast?_eq_getElem?, hw]
  have hwnd : worst.Nodup := by
    have h := hperm.nodup_iff.2 hp
    rw [List.nodup_flatten] at h
    exact h.1 _ hwmem
  have hcne : contributions hv obj worst ≠ [] := by
    unfold contributions
    simp only [ne_eq, List.map_eq_nil_iff, List.zipIdx_eq_nil_iff]
    exact hnonempty worst hwmem
  obtain ⟨c, hc⟩ := pyMinBy_isSome Prod.snd hcne
  obtain ⟨hc1, hc2⟩ := pyMinBy_mem hc
  obtain ⟨hcm, hcv⟩ := (mem_contributions hv obj hwnd c).1 hc1
  have hfront : ∀ x, x ∈ worst ↔ IsRank (Dom obj) pop x (L.length - 1) := by
    intro x
    rw [← hrank (L.length - 1) x]
    constructor
    · intro hx; exact ⟨worst, hwk, hx⟩
    · rintro ⟨l, hl, hx⟩
      rw [hwk] at hl
      exact (Option.some.inj hl) ▸ hx
  refine ⟨c.1, ?_, worst, L.length - 1, ?_, hwnd, hcm, hfront, ?_, ?_⟩
  · exact hperm.mem_iff.1 (List.mem_flatten.2 ⟨worst, hwmem, hcm⟩)
  · unfold reducePopulation
    simp only at hL
    rw [hL]
    simp only [hw, hc]
  · intro x hx
    obtain ⟨l, hl, hxl⟩ := List.mem_flatten.1 (hperm.mem_iff.2 hx)
    obtain ⟨j, hj⟩ := List.getElem?_of_mem hl
    refine ⟨j, ?_, (hrank j x).1 ⟨l, hj, hxl⟩⟩
    have : j < L.length := by
      by_contra hc
      rw [List.getElem?_eq_none (by omega)] at hj
      simp at hj
    omega
  · intro x hx
    have := hc2 (x, hv (worst.map obj) - hv ((worst.erase x).map obj))
      ((mem_contributions hv obj hwnd _).2 ⟨hx, rfl⟩)
    rw [hcv] at this
    exact this

/-- C27: without individuals the reduction raises (`max` of an empty sequence). -/
theorem C27_empty_raises (iter : List ι → List ι) (fuel : ℕ) (hv : List (List K) → K)
    (obj : ι → List K) : reducePopulation iter fuel hv obj [] = none := by
  cases fuel <;> simp [reducePopulation, ndSort, frontsLoop]

/-- C27: the population size is the same after any number of children. -/
theorem C27_size (iter : List ι → List ι) (hiter : ∀ l, (iter l).Perm l) (hv : List (List K) → K)
    (d : ℕ) (obj : ι → List K) (hd : ∀ x, (obj x).length = d) (children : List ι) :
    ∀ (pop : List ι), (pop ++ children).Nodup → ∀ fuel, pop.length + 1 ≤ fuel →
      ∃ pop', step iter fuel hv obj pop children = some pop' ∧ pop'.length = pop.length ∧
        pop'.Nodup ∧ ∀ x ∈ pop', x ∈ pop ++ children := by
  induction children with
  | nil => intro pop hp fuel _; exact ⟨pop, rfl, rfl, by simpa using hp, by simp⟩
  | cons c cs ih =>
    intro pop hp fuel hf
    have hpc : (pop ++ [c]).Nodup := by
      refine hp.sublist ?_
      exact List.Sublist.append_left (by simp) pop
    obtain ⟨m, hm, -, -, h1, -⟩ := C27_reduce iter hiter hv d obj (pop ++ [c]) hpc
      (fun x _ => hd x) (by simp) fuel (by simpa using hf)
    have hlen : ((pop ++ [c]).erase m).length = pop.length := by
      rw [List.length_erase_of_mem hm]; simp
    obtain ⟨pop', g1, g2, g3, g4⟩ := ih ((pop ++ [c]).erase m) (by
      refine hp.sublist ?_
      have : pop ++ c :: cs = (pop ++ [c]) ++ cs := by simp
      rw [this]
      exact List.Sublist.append_right List.erase_sublist cs) fuel (by omega)
    refine ⟨pop', ?_, by omega, g3, ?_⟩
    · rw [step, h1]; exact g1
    · intro x hx
      have := g4 x hx
      rcases List.mem_append.1 this with h | h
      · have := List.mem_of_mem_erase h
        simp at this ⊢
        tauto
      · simp [h]

/-! ## C68 -/

/-- What is used of the hypervolume: it does not depend on the order of the points, an additional
point never decreases it, and a point dominated by another one does not change it. -/
structure HvLike (hv : List (List K) → K) : Prop where
  perm : ∀ l l' : List (List K), l.Perm l' → hv l = hv l'
  mono : ∀ (l : List (List K)) a, hv l ≤ hv (a :: l)
  dom : ∀ (l : List (List K)) a b, b ∈ l → LDom b a → hv (a :: l) = hv l

/-- C68, one child: the hypervolume `V` of the population after the reduction is at least that of
the population before the child was added, if the routine `hv` agrees with `V` on mutually
non-dominated individuals. -/
theorem C68_reduce_of [IsStrictOrderedRing K] (iter : List ι → List ι) (hiter : ∀ l, (iter l).Perm l)
    {hv V : List (List K) → K} (hhv : HvLike V) (d : ℕ) (obj : ι → List K) (pop : List ι)
    (child : ι) (hp : (pop ++ [child]).Nodup) (hd : ∀ x ∈ pop ++ [child], (obj x).length = d)
    (hag : ∀ l : List ι, (∀ x ∈ l, x ∈ pop ++ [child]) →
      (∀ x ∈ l, ∀ y ∈ l, ¬ LDom (obj x) (obj y)) → hv (l.map obj) = V (l.map obj))
    (fuel : ℕ) (hf : pop.length + 1 ≤ fuel) (pop' : List ι)
    (h : reducePopulation iter fuel hv obj (pop ++ [child]) = some pop') :
    V (pop.map obj) ≤ V (pop'.map obj) := by
  obtain ⟨m, hm, front, k, h1, hfnd, hmf, hfront, hmax, hmin⟩ :=
    C27_reduce iter hiter hv d obj (pop ++ [child]) hp hd (by simp) fuel (by simpa using hf)
  obtain rfl : pop' = (pop ++ [child]).erase m := Option.some.inj (h.symm.trans h1)
  have hall : V (pop.map obj) ≤ V ((pop ++ [child]).map obj) := by
    rw [hhv.perm ((pop ++ [child]).map obj) (obj child :: pop.map obj)
      (by rw [List.map_append]; exact List.perm_append_comm)]
    exact hhv.mono _ _
  have hcons : V ((pop ++ [child]).map obj) = V (obj m :: ((pop ++ [child]).erase m).map obj) :=
    hhv.perm _ _ ((List.perm_cons_erase hm).map obj)
  cases k with
  | succ k =>
    -- some individual dominates the removed one
    obtain ⟨-, y, hy, hyk⟩ := ((hfront m).1 hmf).1
    have hyp : y ∈ pop ++ [child] := by
      cases k with
      | zero => exact hyk
      | succ k => exact hyk.1
    have hne : y ≠ m := by rintro rfl; exact LDom_irrefl _ hy
    have hmem : obj y ∈ ((pop ++ [child]).erase m).map obj :=
      List.mem_map.2 ⟨y, (hp.mem_erase_iff).2 ⟨hne, hyp⟩, rfl⟩
    rw [hcons, hhv.dom _ _ _ hmem hy] at hall
    exact hall
  | zero =>
    -- everybody is non-dominated, the front is the whole population
    have hperm : front.Perm (pop ++ [child]) := by
      refine (List.perm_ext_iff_of_nodup hfnd hp).2 fun x => ⟨fun hx => ?_, fun hx => ?_⟩
      · exact ((hfront x).1 hx).1
      · obtain ⟨j, hj, hr⟩ := hmax x hx
        obtain rfl : j = 0 := by omega
        exact (hfront x).2 hr
    have hc : child ∈ front := hperm.mem_iff.2 (by simp)
    have := hmin child hc
    have hnd : ∀ x ∈ front, ∀ y ∈ front, ¬ LDom (obj x) (obj y) := fun x hx y hy hxy =>
      ((hfront y).1 hy).2 ⟨hperm.mem_iff.1 hy, x, hxy, hperm.mem_iff.1 hx⟩
    have hsub : ∀ z, ∀ x ∈ front.erase z, x ∈ front := fun z x hx => List.mem_of_mem_erase hx
    rw [hag (front.erase m) (fun x hx => hperm.mem_iff.1 (hsub m x hx))
        (fun x hx y hy => hnd x (hsub m x hx) y (hsub m y hy)),
      hag (front.erase child) (fun x hx => hperm.mem_iff.1 (hsub child x hx))
        (fun x hx y hy => hnd x (hsub child x hx) y (hsub child y hy))] at this
    have e1 : V ((front.erase m).map obj) = V (((pop ++ [child]).erase m).map obj) :=
      hhv.perm _ _ ((hperm.erase m).map obj)
    have e2 : V ((front.erase child).map obj) = V (pop.map obj) := by
      refine hhv.perm _ _ (List.Perm.map obj ?_)
      refine (hperm.erase child).trans ?_
      have hcp : child ∉ pop := by
        intro hcp
        have := (List.nodup_append.1 hp).2.2 child hcp child (by simp)
        exact this rfl
      rw [List.erase_append_right _ hcp]
      simp
    rw [e1, e2] at this
    linarith

/-- C68, one child: the hypervolume of the population after the reduction is at least that of the
population before the child was added. -/
theorem C68_reduce [IsStrictOrderedRing K] (iter : List ι → List ι) (hiter : ∀ l, (iter l).Perm l)
    {hv : List (List K) → K} (hhv : HvLike hv) (d : ℕ) (obj : ι → List K) (pop : List ι)
    (child : ι) (hp : (pop ++ [child]).Nodup) (hd : ∀ x ∈ pop ++ [child], (obj x).length = d)
    (fuel : ℕ) (hf : pop.length + 1 ≤ fuel) (pop' : List ι)
    (h : reducePopulation iter fuel hv obj (pop ++ [child]) = some pop') :
    hv (pop.map obj) ≤ hv (pop'.map obj) :=
  C68_reduce_of iter hiter hhv d obj pop child hp hd (fun _ _ _ => rfl) fuel hf pop' h

/-- C68: the hypervolume `V` of the population never decreases, whatever children are generated, if
the routine `hv` agrees with `V` on mutually non-dominated individuals. -/
theorem C68_step_of [IsStrictOrderedRing K] (iter : List ι → List ι) (hiter : ∀ l, (iter l).Perm l)
    {hv V : List (List K) → K} (hhv : HvLike V) (d : ℕ) (obj : ι → List K)
    (hd : ∀ x, (obj x).length = d)
    (hag : ∀ l : List ι, (∀ x ∈ l, ∀ y ∈ l, ¬ LDom (obj x) (obj y)) →
      hv (l.map obj) = V (l.map obj)) (children : List ι) :
    ∀ (pop : List ι), (pop ++ children).Nodup → ∀ fuel, pop.length + 1 ≤ fuel → ∀ pop',
      step iter fuel hv obj pop children = some pop' →
      V (pop.map obj) ≤ V (pop'.map obj) := by
  induction children with
  | nil =>
    intro pop _ fuel _ pop' h
    rw [step] at h
    rw [Option.some.inj h]
  | cons c cs ih =>
    intro pop hp fuel hf pop' h
    have hpc : (pop ++ [c]).Nodup := hp.sublist (List.Sublist.append_left (by simp) pop)
    obtain ⟨m, hm, -, -, h1, -⟩ := C27_reduce iter hiter hv d obj (pop ++ [c]) hpc
      (fun x _ => hd x) (by simp) fuel (by simpa using hf)
    rw [step, h1] at h
    simp only at h
    have hlen : ((pop ++ [c]).erase m).length = pop.length := by
      rw [List.length_erase_of_mem hm]; simp
    have hnext := ih ((pop ++ [c]).erase m) (by
      refine hp.sublist ?_
      have : pop ++ c :: cs = (pop ++ [c]) ++ cs := by simp
      rw [this]
      exact List.Sublist.append_right List.erase_sublist cs) fuel (by omega) pop' h
    exact (C68_reduce_of iter hiter hhv d obj pop c hpc (fun x _ => hd x) (fun l _ hl => hag l hl)
      fuel hf _ h1).trans hnext

/-- C68: the hypervolume of the population never decreases, whatever children are generated. -/
theorem C68_step [IsStrictOrderedRing K] (iter : List ι → List ι) (hiter : ∀ l, (iter l).Perm l)
    {hv : List (List K) → K} (hhv : HvLike hv) (d : ℕ) (obj : ι → List K)
    (hd : ∀ x, (obj x).length = d) (children pop : List ι) (hp : (pop ++ children).Nodup) (fuel : ℕ)
    (hf : pop.length + 1 ≤ fuel) (pop' : List ι)
    (h : step iter fuel hv obj pop children = some pop') :
    hv (pop.map obj) ≤ hv (pop'.map obj) :=
  C68_step_of iter hiter hhv d obj hd (fun _ _ => rfl) children pop hp fuel hf pop' h

/-- A function with the three properties used, for one objective and reference point 10: the
distance between the reference point and the best value. -/
example : HvLike (K := ℚ) (fun l => (l.map fun p => 10 - p.headD 10).foldr max 0) := by
  refine ⟨?_, ?_, ?_⟩
  · intro l l' h
    exact (h.map _).foldr_eq (f := max) 0
  · intro l a
    simp
  · rintro l a b hb hd
    simp only [List.map_cons, List.foldr_cons]
    refine max_eq_right ?_
    have hle : b.headD 10 ≤ a.headD 10 := by
      obtain ⟨h1, h2, -⟩ := hd
      cases a with
      | nil => cases b with
        | nil => simp
        | cons => simp at h1
      | cons a as => cases b with
        | nil => simp at h1
        | cons b bs => exact h2 0 (by simp) (by simp)
    have : ∀ l : List (List ℚ), b ∈ l → 10 - b.headD 10 ≤ (l.map fun p => 10 - p.headD 10).foldr max 0 := by
      intro l
      induction l with
      | nil => simp
      | cons c l ih =>
        intro hb
        simp only [List.map_cons, List.foldr_cons]
        rcases List.mem_cons.1 hb with rfl | hb
        · exact le_max_left _ _
        · exact (ih hb).trans (le_max_right _ _)
    have := this l hb
    linarith

/-- Two fronts: the dominated individual 2 is removed. -/
example : reducePopulation id 3 (fun l => (l.length : ℚ)) (fun i : Fin 3 =>
    (([[0, 1], [1, 0], [2, 2]] : List (List ℚ))[i.1]?).getD []) [0, 2, 1] = some [0, 1] := by
  decide +kernel

end Evogil.Smsemoa
