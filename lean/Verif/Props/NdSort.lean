import Verif.Lemmas.NdSort
import Verif.Props.Layers

/-! # Property C05: the counting non-dominated sorts compute the dominance rank -/

namespace Evogil
open Spec

variable {α ι : Type*} [LinearOrder α] [DecidableEq ι]

/-- What a non-dominated sort has to deliver for a dominance relation `dom`:
it terminates (as many rounds as individuals suffice), the fronts partition the
population, none is empty, and front number `k` holds exactly the individuals of
rank `k`. -/
def SortsByRank (dom : ι → ι → Prop) (pop : List ι)
    (run : ℕ → Option (List (List ι))) : Prop :=
  (∀ fuel, pop.length ≤ fuel → ∃ L, run fuel = some L) ∧
  ∀ fuel L, run fuel = some L →
    L.flatten.Perm pop ∧ (∀ l ∈ L, l ≠ []) ∧
    ∀ k x, (∃ l, L[k]? = some l ∧ x ∈ l) ↔ IsRank dom pop x k

omit [DecidableEq ι] in
private theorem chain_congr {d1 d2 : ι → ι → Prop} {S : List ι}
    (h : ∀ x ∈ S, ∀ y ∈ S, d1 x y ↔ d2 x y) (k : ℕ) (x : ι) :
    HasChain d1 S k x ↔ HasChain d2 S k x := by
  induction k generalizing x with
  | zero => exact Iff.rfl
  | succ k ih =>
    constructor
    · rintro ⟨hx, y, hy, hc⟩
      exact ⟨hx, y, (h y (HasChain.mem hc) x hx).1 hy, (ih y).1 hc⟩
    · rintro ⟨hx, y, hy, hc⟩
      exact ⟨hx, y, (h y (HasChain.mem hc) x hx).2 hy, (ih y).2 hc⟩

private theorem sortsByRank_of {dom : ι → ι → Prop} {r : ι → ι → Bool} {pop : List ι}
    {iter : List ι → List ι} (hiter : ∀ l, (iter l).Perm l) (hp : pop.Nodup)
    (hs : StrictOn r pop) (h : ∀ x ∈ pop, ∀ y ∈ pop, r x y = true ↔ dom x y) :
    SortsByRank dom pop fun fuel => ndSort iter r fuel pop := by
  obtain ⟨h1, h2⟩ := ndSort_peels hiter hp hs
  refine ⟨h1, fun fuel L hL => ?_⟩
  have hpl := h2 fuel L hL
  refine ⟨hpl.perm, hpl.nonempty, fun k x => ?_⟩
  rw [hpl.rank k x]
  unfold IsRank
  rw [chain_congr h, chain_congr h]

/-- C05 for NSGA-II (`_nd_sort`) and NSLS (`nd_sort`, same text and same test), for every
iteration order of the sets involved. -/
theorem C05_nsgaii_sorts_by_rank (iter : List ι → List ι) (hiter : ∀ l, (iter l).Perm l)
    (d : ℕ) (obj : ι → List α) (pop : List ι) (hp : pop.Nodup)
    (hd : ∀ x ∈ pop, (obj x).length = d) :
    SortsByRank (fun x y => LDom (obj x) (obj y)) pop
      fun fuel => ndSort iter (nsgaiiDom obj) fuel pop := by
  refine sortsByRank_of hiter hp (strictOn_nsgaii obj hd) fun x hx y hy => ?_
  unfold nsgaiiDom
  rw [nsgaiiDominates_iff_zip, ← dominates_iff_zip,
    dominates_iff_LDom ((hd x hx).trans (hd y hy).symm)]

/-- C05 for SMS-EMOA. -/
theorem C05_smsemoa_sorts_by_rank (iter : List ι → List ι) (hiter : ∀ l, (iter l).Perm l)
    (d : ℕ) (obj : ι → List α) (pop : List ι) (hp : pop.Nodup)
    (hd : ∀ x ∈ pop, (obj x).length = d) :
    SortsByRank (fun x y => LDom (obj x) (obj y)) pop
      fun fuel => ndSort iter (smsemoaDom obj) fuel pop :=
  sortsByRank_of hiter hp (strictOn_dominates_map obj hd) fun x hx y hy =>
    dominates_iff_LDom ((hd x hx).trans (hd y hy).symm)

/-- C05 for NSGA-III: the same for theta-dominance (same cluster, smaller theta value). -/
theorem C05_nsgaiii_sorts_by_rank (iter : List ι → List ι) (hiter : ∀ l, (iter l).Perm l)
    (cluster : ι → ℕ) (theta : ι → α) (pop : List ι) (hp : pop.Nodup) :
    SortsByRank (fun x y => cluster x = cluster y ∧ theta x < theta y) pop
      fun fuel => ndSort iter (thetaDom cluster theta) fuel pop :=
  sortsByRank_of hiter hp (strictOn_theta pop cluster theta) fun x _ y _ => by
    simp [thetaDom]

/-- C05: the stored number `nsga_rank` is the dominance rank plus one. -/
theorem C05_nsga_rank (iter : List ι → List ι) (hiter : ∀ l, (iter l).Perm l)
    (d : ℕ) (obj : ι → List α) (pop : List ι) (hp : pop.Nodup)
    (hd : ∀ x ∈ pop, (obj x).length = d) (fuel : ℕ) (L : List (List ι))
    (hL : ndSort iter (nsgaiiDom obj) fuel pop = some L) (x : ι) (hx : x ∈ pop) (k : ℕ) :
    nsgaRank L x = k + 1 ↔ IsRank (fun x y => LDom (obj x) (obj y)) pop x k := by
  obtain ⟨hperm, -, hr⟩ := (C05_nsgaii_sorts_by_rank iter hiter d obj pop hp hd).2 fuel L hL
  have hmem : ∃ l ∈ L, x ∈ l := by
    have := hperm.mem_iff.2 hx
    rwa [List.mem_flatten] at this
  obtain ⟨j, hj⟩ : ∃ j, L.findIdx? (fun l => decide (x ∈ l)) = some j := by
    rw [← Option.isSome_iff_exists, List.findIdx?_isSome, List.any_eq_true]
    simpa using hmem
  have hjr : IsRank (fun x y => LDom (obj x) (obj y)) pop x j := by
    rw [List.findIdx?_eq_some_iff_getElem] at hj
    obtain ⟨hjl, hx', -⟩ := hj
    rw [← hr]
    exact ⟨L[j], by simp [hjl], by simpa using hx'⟩
  unfold nsgaRank
  rw [hj]
  simp only [Nat.add_right_cancel_iff]
  exact ⟨fun h => h ▸ hjr, fun h => IsRank.unique hjr h⟩

/-- C05: the fronts of the counting sorts coincide (as sets) with the layers of
`paretofront_layers`. -/
theorem C05_fronts_eq_layers (iter : List ι → List ι) (hiter : ∀ l, (iter l).Perm l)
    (d : ℕ) (obj : ι → List α) (pop : List ι) (hp : pop.Nodup)
    (hd : ∀ x ∈ pop, (obj x).length = d) (f1 f2 : ℕ) (L1 L2 : List (List ι))
    (h1 : ndSort iter (nsgaiiDom obj) f1 pop = some L1)
    (h2 : paretofrontLayers f2 pop obj = some L2) (k : ℕ) (x : ι) :
    (∃ l, L1[k]? = some l ∧ x ∈ l) ↔ (∃ l, L2[k]? = some l ∧ x ∈ l) := by
  rw [((C05_nsgaii_sorts_by_rank iter hiter d obj pop hp hd).2 f1 L1 h1).2.2 k x,
    C04_layer_rank d pop obj hd f2 L2 h2 k x]

/-- Non-trivial instance: five individuals, three fronts, identity iteration order. -/
example : ndSort id (nsgaiiDom fun i : ℕ => if i = 0 then [2, 2] else if i = 1 then [1, 1]
    else if i = 2 then [1, 1] else if i = 3 then [0, 3] else [3, (3 : ℕ)]) 5 [0, 1, 2, 3, 4] =
    some [[1, 2, 3], [0], [4]] := by decide

end Evogil
