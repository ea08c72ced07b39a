import Verif.Spec.Walk
import Verif.Lemmas.HvCompute
import Verif.Lemmas.HvEval

/-! # Properties of the hypervolume routine (`algorithms/base/hv.py`) -/

set_option linter.unusedSectionVars false

namespace Evogil.Hv

open MeasureTheory Spec

/-! ## The multi-list -/

section lists

variable {K : Type*} [CommRing K] [LinearOrder K]

theorem ring_next {nx pv : ℕ → ℕ} {L : List ℕ} (h : Linked nx pv L) : Circuit nx L := by
  have key : ∀ (B A : List ℕ), L = A ++ B →
      walk nx (B.length + 1) (A.getLastD 0) = B ++ [0] := by
    intro B
    induction B with
    | nil =>
      intro A hA
      have := (h A [] hA).1
      simp only [List.headD_nil] at this
      show [nx (A.getLastD 0)] = _
      rw [this]; rfl
    | cons b B ih =>
      intro A hA
      have h1 := (h A (b :: B) hA).1
      have h2 := ih (A ++ [b]) (by simpa using hA)
      rw [List.getLastD_concat] at h2
      rw [List.headD_cons] at h1
      rw [List.length_cons, walk, h1, h2, List.cons_append]
  exact key L [] rfl

theorem ring_prev {nx pv : ℕ → ℕ} {L : List ℕ} (h : Linked nx pv L) : Circuit pv L.reverse := by
  have key : ∀ (A : List ℕ) (B : List ℕ), L = A.reverse ++ B →
      walk pv (A.length + 1) (B.headD 0) = A ++ [0] := by
    intro A
    induction A with
    | nil =>
      intro B hA
      have := (h [] B (by simpa using hA)).2
      simp only [List.getLastD_nil] at this
      show [pv (B.headD 0)] = _
      rw [this]; rfl
    | cons a A ih =>
      intro B hA
      have h1 := (h (A.reverse ++ [a]) B (by simpa using hA)).2
      have h2 := ih (a :: B) (by simpa using hA)
      rw [List.getLastD_concat] at h1
      rw [List.headD_cons] at h2
      rw [List.length_cons, walk, h1, h2, List.cons_append]
  exact key L.reverse [] (by simp)

variable (c : ℕ → ℕ → K)

theorem pre_linked (lowest : K) (D n : ℕ) : ∀ i < D,
    Linked ((preProcess c lowest D n).next i) ((preProcess c lowest D n).prev i)
      (order c (nodesOf n) i) :=
  (preLoop_spec c lowest (nodesOf_nodup n) (zero_notMem_nodesOf n) D).2.1

/-- C10, initial lists: for every dimension, the pointers built by `preProcess` run once through all
nodes, in ascending order of that coordinate, and the backward pointers run through them in the
opposite order. -/
theorem C10_lists (lowest : K) (D n i : ℕ) (hi : i < D) :
    ∃ L : List ℕ, L.Perm ((List.range n).map (· + 1)) ∧
      L.Pairwise (fun a b => c a i ≤ c b i) ∧
      Circuit ((preProcess c lowest D n).next i) L ∧
      Circuit ((preProcess c lowest D n).prev i) L.reverse :=
  ⟨order c (nodesOf n) i, order_perm c _ i,
    (order_ctx c (nodesOf_nodup n) (zero_notMem_nodesOf n)).sorted i,
    ring_next (pre_linked c lowest D n i hi), ring_prev (pre_linked c lowest D n i hi)⟩

/-- C10, removal: after removing any distinct nodes `B` from the first `d` lists, each of these
lists contains exactly the remaining nodes, in the order they had before. -/
theorem C10_remove (lowest : K) (D n d : ℕ) (hd : d ≤ D) (B : List ℕ) (hB : B.Nodup)
    (hBn : ∀ x ∈ B, 1 ≤ x ∧ x ≤ n) (i : ℕ) (hi : i < d) (L : List ℕ)
    (hL : Circuit ((preProcess c lowest D n).next i) L) (hlen : L.length = n) :
    Circuit ((B.foldr (fun b s => remove c b d s) (preProcess c lowest D n)).next i)
        (L.filter fun x => x ∉ B) ∧
      Circuit ((B.foldr (fun b s => remove c b d s) (preProcess c lowest D n)).prev i)
        (L.filter fun x => x ∉ B).reverse := by
  have hc := order_ctx c (nodesOf_nodup n) (zero_notMem_nodesOf n)
  obtain rfl : L = order c (nodesOf n) i := by
    have h1 := ring_next (pre_linked c lowest D n i (by omega))
    have hl : (order c (nodesOf n) i).length = n := by
      rw [(order_perm c _ i).length_eq]; simp [nodesOf]
    unfold Circuit at hL h1
    rw [hl] at h1
    rw [hlen, h1] at hL
    exact (List.append_cancel_right hL).symm
  have hlst : ∀ i, lst (order c (nodesOf n)) i (nodesOf n).toFinset = order c (nodesOf n) i := by
    intro i
    apply List.filter_eq_self.2
    intro x hx
    rw [(order_perm c (nodesOf n) i).mem_iff] at hx
    simpa using hx
  have hset : (((nodesOf n).filter fun x => x ∉ B) ++ B).toFinset = (nodesOf n).toFinset := by
    ext x
    simp only [List.toFinset_append, Finset.mem_union, List.mem_toFinset, List.mem_filter,
      decide_eq_true_eq, mem_nodesOf]
    constructor
    · rintro (h | h)
      · exact h.1
      · exact hBn x h
    · intro h
      by_cases hx : x ∈ B
      · exact Or.inr hx
      · exact Or.inl ⟨h, hx⟩
  have key := linked_removeAll hc (d := d) (s := preProcess c lowest D n) B
    ((nodesOf n).filter fun x => x ∉ B)
    (by
      rw [List.nodup_append]
      refine ⟨(nodesOf_nodup n).filter _, hB, ?_⟩
      rintro a ha b hb rfl
      simp at ha
      exact ha.2 hb)
    (by rw [hset])
    (by
      intro j hj
      rw [hset, hlst]
      exact pre_linked c lowest D n j (by omega)) i hi
  have e : lst (order c (nodesOf n)) i ((nodesOf n).filter fun x => x ∉ B).toFinset =
      (order c (nodesOf n) i).filter fun x => x ∉ B := by
    unfold lst
    apply List.filter_congr
    intro x hx
    rw [(order_perm c _ i).mem_iff] at hx
    simp [hx]
  rw [e] at key
  exact ⟨ring_next key, ring_prev key⟩

theorem reinsertAll_ptr {d : ℕ} (lowest : K) (D n : ℕ) (hd : d ≤ D) : ∀ (B : List ℕ), B.Nodup →
    (∀ x ∈ B, 1 ≤ x ∧ x ≤ n) → ∀ t : St K, t.next = (removeAll c d B (preProcess c lowest D n)).next →
    t.prev = (removeAll c d B (preProcess c lowest D n)).prev →
    (B.foldl (fun s b => reinsert c b d s) t).next = (preProcess c lowest D n).next ∧
    (B.foldl (fun s b => reinsert c b d s) t).prev = (preProcess c lowest D n).prev
  | [], _, _, t, h1, h2 => ⟨h1, h2⟩
  | b :: B, hB, hBn, t, h1, h2 => by
    have hc := order_ctx c (nodesOf_nodup n) (zero_notMem_nodesOf n)
    have hb : b ∉ B := (List.nodup_cons.1 hB).1
    have hBd : B.Nodup := (List.nodup_cons.1 hB).2
    have hBn' : ∀ x ∈ B, 1 ≤ x ∧ x ≤ n := fun x hx => hBn x (by simp [hx])
    have hset : (((nodesOf n).filter fun x => x ∉ B) ++ B).toFinset = (nodesOf n).toFinset := by
      ext x
      simp only [List.toFinset_append, Finset.mem_union, List.mem_toFinset, List.mem_filter,
        decide_eq_true_eq, mem_nodesOf]
      constructor
      · rintro (h | h)
        · exact h.1
        · exact hBn' x h
      · intro h
        by_cases hx : x ∈ B
        · exact Or.inr hx
        · exact Or.inl ⟨h, hx⟩
    have hlst : ∀ i, lst (order c (nodesOf n)) i (nodesOf n).toFinset = order c (nodesOf n) i := by
      intro i
      apply List.filter_eq_self.2
      intro x hx
      rw [(order_perm c (nodesOf n) i).mem_iff] at hx
      simpa using hx
    have key := linked_removeAll hc (d := d) (s := preProcess c lowest D n) B
      ((nodesOf n).filter fun x => x ∉ B)
      (by
        rw [List.nodup_append]
        refine ⟨(nodesOf_nodup n).filter _, hBd, ?_⟩
        rintro a ha b hb rfl
        simp at ha
        exact ha.2 hb)
      (by rw [hset])
      (by
        intro j hj
        rw [hset, hlst]
        exact pre_linked c lowest D n j (by omega))
    have hr := reinsert_remove_ptr c (x := b) (d := d) (t := t) key
      (by
        intro i _
        unfold lst
        rw [List.mem_filter, (order_perm c _ i).mem_iff, mem_nodesOf]
        refine ⟨hBn b (by simp), ?_⟩
        simpa [hb, mem_nodesOf] using hBn b (by simp))
      (fun i _ => (hc.nodup i).filter _)
      (fun i _ h => hc.zero ((hc.mem i 0).1 (List.mem_filter.1 h).1)) h1 h2
    rw [List.foldl_cons]
    exact reinsertAll_ptr lowest D n hd B hBd hBn' _ hr.1 hr.2

/-- C10, restoration: after removing any distinct nodes and putting them back in the opposite order,
all pointers are as before. -/
theorem C10_restore (lowest : K) (D n d : ℕ) (hd : d ≤ D) (B : List ℕ) (hB : B.Nodup)
    (hBn : ∀ x ∈ B, 1 ≤ x ∧ x ≤ n) :
    (B.foldl (fun s b => reinsert c b d s)
        (B.foldr (fun b s => remove c b d s) (preProcess c lowest D n))).next =
      (preProcess c lowest D n).next ∧
    (B.foldl (fun s b => reinsert c b d s)
        (B.foldr (fun b s => remove c b d s) (preProcess c lowest D n))).prev =
      (preProcess c lowest D n).prev :=
  reinsertAll_ptr c lowest D n hd B hB hBn _ rfl rfl

end lists

/-- C10, the recursion: on a front with any number of objectives and any points, `compute`
terminates, and the recursion leaves all pointers as it found them. -/
theorem C10_run (lowest : ℝ) (ref : List ℝ) (front : List (List ℝ)) (hD : 1 ≤ ref.length)
    (hlen : ∀ p ∈ front, p.length = ref.length) :
    ∃ v s', hvRec (cargo (relevant ref front)) ((relevant ref front).length + 1) (ref.length - 1)
        (relevant ref front).length
        (preProcess (cargo (relevant ref front)) lowest ref.length (relevant ref front).length) =
          some (v, s') ∧
      compute lowest ref front = some v ∧
      s'.next = (preProcess (cargo (relevant ref front)) lowest ref.length
        (relevant ref front).length).next ∧
      s'.prev = (preProcess (cargo (relevant ref front)) lowest ref.length
        (relevant ref front).length).prev := by
  have hV := vol_Vol (c := cargo (relevant ref front))
    (N := (nodesOf (relevant ref front).length).toFinset)
    (fun x hx i => cargo_nonpos hlen (List.mem_toFinset.1 hx) i)
  obtain ⟨v, s', h1, h2, h3, -⟩ := run_spec (cargo (relevant ref front)) lowest
    (relevant ref front).length ref.length hD hV
  refine ⟨v, s', h1, ?_, h2, h3⟩
  unfold compute
  simp only
  rw [h1, Option.map_some]

/-- Two dimensions, three nodes with cargo (1,3), (2,2), (3,1) (shifted): the lists, and the lists
without node 2. -/
example : Circuit ((preProcess (fun x i => (if i = 0 then (x : ℤ) else 4 - x) - 10) (-1000) 2 3).next 0)
      [1, 2, 3] ∧
    Circuit ((preProcess (fun x i => (if i = 0 then (x : ℤ) else 4 - x) - 10) (-1000) 2 3).next 1)
      [3, 2, 1] ∧
    Circuit ((remove (fun x i => (if i = 0 then (x : ℤ) else 4 - x) - 10) 2 2
      (preProcess (fun x i => (if i = 0 then (x : ℤ) else 4 - x) - 10) (-1000) 2 3)).next 1)
      [3, 1] := by
  unfold Circuit
  decide +kernel

/-! ## Facts about the dominated volume -/

theorem dominated_finite (ref : List ℝ) (front : List (List ℝ)) :
    volume (dominated ref front) ≠ ⊤ := by
  have : dominated ref front ⊆ ⋃ p ∈ front.toFinset,
      Set.Icc (fun i : Fin ref.length => p.getD i 0) (fun i => ref.getD i 0) := by
    rintro z ⟨p, hp, h⟩
    simp only [Set.mem_iUnion]
    exact ⟨p, List.mem_toFinset.2 hp, fun i => (h i).1, fun i => (h i).2⟩
  refine ne_of_lt (lt_of_le_of_lt (measure_mono this)
    (lt_of_le_of_lt (measure_biUnion_finset_le _ _) ?_))
  apply ENNReal.sum_lt_top.2
  intro x _
  exact isCompact_Icc.measure_lt_top

theorem dominatedVolume_mono {ref : List ℝ} {F G : List (List ℝ)}
    (h : ∀ p ∈ F, ∃ q ∈ G, ∀ i < ref.length, q.getD i 0 ≤ p.getD i 0) :
    dominatedVolume ref F ≤ dominatedVolume ref G := by
  refine ENNReal.toReal_mono (dominated_finite ref G) (measure_mono ?_)
  rintro z ⟨p, hp, hz⟩
  obtain ⟨q, hq, hle⟩ := h p hp
  exact ⟨q, hq, fun i => ⟨(hle i i.2).trans (hz i).1, (hz i).2⟩⟩

/-! ## One, two and three objectives -/

/-- C09: for at most three objectives, and for every list of points (dominated, repeated and tied
points included), `compute` returns the volume dominated by the points and bounded by the reference
point. -/
theorem C09_exact {lowest : ℝ} {ref : List ℝ} {front : List (List ℝ)} (h1 : 1 ≤ ref.length)
    (h3 : ref.length ≤ 3) (hlen : ∀ p ∈ front, p.length = ref.length)
    (hlow : ∀ p ∈ front, ∀ i < ref.length, lowest ≤ p.getD i 0 - ref.getD i 0) :
    compute lowest ref front = some (dominatedVolume ref front) :=
  compute_exact h1 hlen hlow (Or.inl h3)

/-- Four points of which one is dominated, one lies outside and one is repeated. -/
example : compute (-1000 : ℤ) [4, 4, 4] [[1, 2, 3], [2, 3, 3], [5, 0, 0], [3, 1, 1], [3, 1, 1]] =
    some 13 := by
  rw [← Eval.computeF_eq]
  decide +kernel

/-! ## Any number of objectives -/

/-- C82: `compute` is exact for every number of objectives if no relevant point touches the reference
point in a coordinate and two points that are comparable in the first `k + 1` coordinates
(`k = 3, …`) are equal or strictly ordered in the coordinates `2, …, k - 1`. -/
theorem C82_exact_partial {lowest : ℝ} {ref : List ℝ} {front : List (List ℝ)}
    (hD : 1 ≤ ref.length) (hlen : ∀ p ∈ front, p.length = ref.length)
    (hlow : ∀ p ∈ front, ∀ i < ref.length, lowest ≤ p.getD i 0 - ref.getD i 0)
    (hstrict : ∀ p ∈ front, (∀ i < ref.length, p.getD i 0 ≤ ref.getD i 0) →
      ∀ i < ref.length, p.getD i 0 < ref.getD i 0)
    (hcomp : ∀ p ∈ front, ∀ q ∈ front, ∀ k, 3 ≤ k → k < ref.length →
      (∀ i ≤ k, p.getD i 0 ≤ q.getD i 0) → p = q ∨ ∀ j, 2 ≤ j → j < k → p.getD j 0 < q.getD j 0) :
    compute lowest ref front = some (dominatedVolume ref front) :=
  compute_exact hD hlen hlow (Or.inr (good_of hlen hstrict hcomp))

/-- C82 for four objectives: exact for mutually non-dominated points (ties and repetitions
allowed). -/
theorem C82_four_partial {lowest : ℝ} {ref : List ℝ} {front : List (List ℝ)}
    (hD : ref.length = 4) (hlen : ∀ p ∈ front, p.length = 4)
    (hlow : ∀ p ∈ front, ∀ i < 4, lowest ≤ p.getD i 0 - ref.getD i 0)
    (hstrict : ∀ p ∈ front, (∀ i < 4, p.getD i 0 ≤ ref.getD i 0) →
      ∀ i < 4, p.getD i 0 < ref.getD i 0)
    (hnd : ∀ p ∈ front, ∀ q ∈ front, (∀ i < 4, p.getD i 0 ≤ q.getD i 0) → p = q) :
    compute lowest ref front = some (dominatedVolume ref front) := by
  refine C82_exact_partial (by omega) (by rwa [hD]) (by rwa [hD]) (by rwa [hD]) ?_
  intro p hp q hq k hk hkD hle
  left
  exact hnd p hp q hq (fun i hi => hle i (by omega))

/-- C82 for any number of objectives: exact if different points differ in every coordinate. -/
theorem C82_distinct_partial {lowest : ℝ} {ref : List ℝ} {front : List (List ℝ)}
    (hD : 1 ≤ ref.length) (hlen : ∀ p ∈ front, p.length = ref.length)
    (hlow : ∀ p ∈ front, ∀ i < ref.length, lowest ≤ p.getD i 0 - ref.getD i 0)
    (hstrict : ∀ p ∈ front, (∀ i < ref.length, p.getD i 0 ≤ ref.getD i 0) →
      ∀ i < ref.length, p.getD i 0 < ref.getD i 0)
    (hne : ∀ p ∈ front, ∀ q ∈ front, p ≠ q → ∀ i < ref.length, p.getD i 0 ≠ q.getD i 0) :
    compute lowest ref front = some (dominatedVolume ref front) := by
  refine C82_exact_partial hD hlen hlow hstrict ?_
  intro p hp q hq k hk hkD hle
  by_cases he : p = q
  · exact Or.inl he
  · right
    intro j _ hj
    exact lt_of_le_of_ne (hle j hj.le) (hne p hp q hq he j (by omega))

/-! ### Where it fails -/

theorem compute_real (ref : List ℤ) (front : List (List ℤ)) (v : ℤ)
    (h : Eval.computeF (-1000) ref front = some v) :
    compute (-1000 : ℝ) (Eval.castP ℝ ref) (front.map (Eval.castP ℝ)) = some (v : ℝ) := by
  have := Eval.compute_cast (K := ℝ) (-1000) ref front
  rw [← Eval.computeF_eq, h] at this
  simpa using this

theorem castP_getD (p : List ℤ) (i : ℕ) : (Eval.castP ℝ p).getD i 0 = ((p.getD i 0 : ℤ) : ℝ) := by
  unfold Eval.castP
  simp only [List.getD_eq_getElem?_getD, List.getElem?_map]
  generalize p[i]? = o
  cases o <;> simp

/-- The four points of the first counterexample; the second one dominates the others. -/
def four : List (List ℤ) := [[-2, -2, -2, -1], [-2, -2, -2, -2], [-1, -2, -1, -1], [-2, -1, -2, -2]]

/-- C82 fails with four objectives when dominated points are present: for the four points above
`compute` returns 12, while the second point alone dominates a volume of 16. -/
theorem C82_violated_four :
    compute (-1000 : ℝ) (Eval.castP ℝ [0, 0, 0, 0]) (four.map (Eval.castP ℝ)) = some 12 ∧
    16 ≤ dominatedVolume (Eval.castP ℝ [0, 0, 0, 0]) (four.map (Eval.castP ℝ)) := by
  constructor
  · have := compute_real [0, 0, 0, 0] four 12 (by decide +kernel)
    simpa using this
  · have h1 := compute_real [0, 0, 0, 0] [[-2, -2, -2, -2]] 16 (by decide +kernel)
    have h2 : compute (-1000 : ℝ) (Eval.castP ℝ [0, 0, 0, 0])
        ([[-2, -2, -2, -2]].map (Eval.castP ℝ)) = _ :=
      C82_distinct_partial (by simp [Eval.castP]) (by simp [Eval.castP])
        (by
          intro p hp i hi
          simp only [List.map_cons, List.map_nil, List.mem_singleton] at hp
          subst hp
          rw [castP_getD, castP_getD]
          have : i < 4 := by simpa [Eval.castP] using hi
          interval_cases i <;> norm_num)
        (by
          intro p hp _ i hi
          simp only [List.map_cons, List.map_nil, List.mem_singleton] at hp
          subst hp
          rw [castP_getD, castP_getD]
          have : i < 4 := by simpa [Eval.castP] using hi
          interval_cases i <;> norm_num)
        (by
          intro p hp q hq hne
          simp only [List.map_cons, List.map_nil, List.mem_singleton] at hp hq
          exact absurd (hp.trans hq.symm) hne)
    have h3 : (16 : ℝ) = dominatedVolume (Eval.castP ℝ [0, 0, 0, 0])
        ([[-2, -2, -2, -2]].map (Eval.castP ℝ)) := by
      have := Option.some.inj (h1.symm.trans h2)
      simpa using this
    rw [h3]
    apply dominatedVolume_mono
    intro p hp
    refine ⟨p, ?_, fun _ _ => le_rfl⟩
    simp only [List.map_cons, List.map_nil, List.mem_singleton] at hp
    subst hp
    simp [four]

/-- The five points of the second counterexample. -/
def five : List (List ℤ) :=
  [[-4, -4, -2, -4, -6], [-2, -6, -2, -4, -6], [-2, -4, -6, -2, -6], [-2, -2, -4, -6, -2],
    [-4, -4, -2, -6, -2]]

/-- The same points with one coordinate moved towards the reference point. -/
def fiveUp : List (List ℤ) :=
  [[-4, -4, -2, -4, -6], [-2, -6, -2, -4, -6], [-2, -4, -6, -2, -6], [-2, -2, -4, -6, -2],
    [-4, -3, -2, -6, -2]]

/-- C82 fails with five objectives even for mutually non-dominated points: for the five points above
`compute` returns 1472, while they dominate a volume of at least 1504. -/
theorem C82_violated_five :
    (∀ p ∈ five, ∀ q ∈ five, (∀ i ∈ List.range 5, p.getD i 0 ≤ q.getD i 0) → p = q) ∧
    compute (-1000 : ℝ) (Eval.castP ℝ [0, 0, 0, 0, 0]) (five.map (Eval.castP ℝ)) = some 1472 ∧
    1504 ≤ dominatedVolume (Eval.castP ℝ [0, 0, 0, 0, 0]) (five.map (Eval.castP ℝ)) := by
  refine ⟨by decide, ?_, ?_⟩
  · have := compute_real [0, 0, 0, 0, 0] five 1472 (by decide +kernel)
    simpa using this
  · have h1 := compute_real [0, 0, 0, 0, 0] fiveUp 1504 (by decide +kernel)
    have hl : (Eval.castP ℝ [0, 0, 0, 0, 0]).length = 5 := by simp [Eval.castP]
    have h0 : ∀ i, (Eval.castP ℝ [0, 0, 0, 0, 0]).getD i 0 = 0 := by
      intro i
      rw [castP_getD]
      have : ([0, 0, 0, 0, 0] : List ℤ).getD i 0 = 0 := by
        by_cases hi : i < 5
        · interval_cases i <;> rfl
        · exact List.getD_eq_default _ _ (by simpa using hi)
      rw [this]; simp
    have hmem : ∀ p ∈ fiveUp.map (Eval.castP ℝ), ∃ z ∈ fiveUp, p = Eval.castP ℝ z := by
      intro p hp
      obtain ⟨z, hz, rfl⟩ := List.mem_map.1 hp
      exact ⟨z, hz, rfl⟩
    have h2 : compute (-1000 : ℝ) (Eval.castP ℝ [0, 0, 0, 0, 0])
        (fiveUp.map (Eval.castP ℝ)) = _ :=
      C82_exact_partial (by omega)
        (by
          intro p hp
          obtain ⟨z, hz, rfl⟩ := hmem p hp
          rw [hl]
          have : ∀ z ∈ fiveUp, z.length = 5 := by decide
          simpa [Eval.castP] using this z hz)
        (by
          intro p hp i hi
          obtain ⟨z, hz, rfl⟩ := hmem p hp
          rw [hl] at hi
          rw [h0, castP_getD, sub_zero]
          have : ∀ z ∈ fiveUp, ∀ i ∈ List.range 5, -1000 ≤ z.getD i 0 := by decide
          exact_mod_cast this z hz i (List.mem_range.2 hi))
        (by
          intro p hp _ i hi
          obtain ⟨z, hz, rfl⟩ := hmem p hp
          rw [hl] at hi
          rw [h0, castP_getD]
          have : ∀ z ∈ fiveUp, ∀ i ∈ List.range 5, z.getD i 0 < 0 := by decide
          exact_mod_cast this z hz i (List.mem_range.2 hi))
        (by
          intro p hp q hq k hk hkD hle
          obtain ⟨z, hz, rfl⟩ := hmem p hp
          obtain ⟨w, hw, rfl⟩ := hmem q hq
          rw [hl] at hkD
          have : ∀ z ∈ fiveUp, ∀ w ∈ fiveUp, ∀ k ∈ List.range 5, 3 ≤ k →
              (∀ i ∈ List.range (k + 1), z.getD i 0 ≤ w.getD i 0) →
              z = w ∨ ∀ j ∈ List.range k, 2 ≤ j → z.getD j 0 < w.getD j 0 := by decide
          rcases this z hz w hw k (List.mem_range.2 hkD) hk (fun i hi => by
            have := hle i (by have := List.mem_range.1 hi; omega)
            rw [castP_getD, castP_getD] at this
            exact_mod_cast this) with h | h
          · left; rw [h]
          · right
            intro j hj1 hj2
            rw [castP_getD, castP_getD]
            exact_mod_cast h j (List.mem_range.2 hj2) hj1)
    have h3 : (1504 : ℝ) = dominatedVolume (Eval.castP ℝ [0, 0, 0, 0, 0])
        (fiveUp.map (Eval.castP ℝ)) := by
      have := Option.some.inj (h1.symm.trans h2)
      simpa using this
    rw [h3]
    apply dominatedVolume_mono
    intro p hp
    obtain ⟨z, hz, rfl⟩ := hmem p hp
    have : ∀ z ∈ fiveUp, ∃ w ∈ five, ∀ i ∈ List.range 5, w.getD i 0 ≤ z.getD i 0 := by decide
    obtain ⟨w, hw, hle⟩ := this z hz
    refine ⟨Eval.castP ℝ w, List.mem_map.2 ⟨w, hw, rfl⟩, fun i hi => ?_⟩
    rw [castP_getD, castP_getD]
    rw [hl] at hi
    exact_mod_cast hle i (List.mem_range.2 hi)

/-! ## What users of the indicator rely on -/

/-- C83: for at most three objectives, a set of points at least as good as another one (every point
of the other is weakly dominated) never gets a smaller hypervolume. -/
theorem C83_mono {lowest : ℝ} {ref : List ℝ} {F G : List (List ℝ)} (h1 : 1 ≤ ref.length)
    (h3 : ref.length ≤ 3) (hF : ∀ p ∈ F, p.length = ref.length)
    (hG : ∀ p ∈ G, p.length = ref.length)
    (hlF : ∀ p ∈ F, ∀ i < ref.length, lowest ≤ p.getD i 0 - ref.getD i 0)
    (hlG : ∀ p ∈ G, ∀ i < ref.length, lowest ≤ p.getD i 0 - ref.getD i 0)
    (h : ∀ p ∈ F, ∃ q ∈ G, ∀ i < ref.length, q.getD i 0 ≤ p.getD i 0) :
    ∃ v w, compute lowest ref F = some v ∧ compute lowest ref G = some w ∧ v ≤ w :=
  ⟨_, _, C09_exact h1 h3 hF hlF, C09_exact h1 h3 hG hlG, dominatedVolume_mono h⟩

/-- C83: for at most three objectives, the value depends only on the set of points: order,
repetitions and dominated points make no difference. -/
theorem C83_congr {lowest : ℝ} {ref : List ℝ} {F G : List (List ℝ)} (h1 : 1 ≤ ref.length)
    (h3 : ref.length ≤ 3) (hF : ∀ p ∈ F, p.length = ref.length)
    (hG : ∀ p ∈ G, p.length = ref.length)
    (hlF : ∀ p ∈ F, ∀ i < ref.length, lowest ≤ p.getD i 0 - ref.getD i 0)
    (hlG : ∀ p ∈ G, ∀ i < ref.length, lowest ≤ p.getD i 0 - ref.getD i 0)
    (hFG : ∀ p ∈ F, ∃ q ∈ G, ∀ i < ref.length, q.getD i 0 ≤ p.getD i 0)
    (hGF : ∀ p ∈ G, ∃ q ∈ F, ∀ i < ref.length, q.getD i 0 ≤ p.getD i 0) :
    compute lowest ref F = compute lowest ref G := by
  rw [C09_exact h1 h3 hF hlF, C09_exact h1 h3 hG hlG,
    le_antisymm (dominatedVolume_mono hFG) (dominatedVolume_mono hGF)]

/-- A dominated and a repeated point make no difference. -/
example : compute (-1000 : ℤ) [4, 4, 4] [[1, 2, 3], [3, 1, 1]] =
    compute (-1000 : ℤ) [4, 4, 4] [[3, 1, 1], [2, 3, 3], [1, 2, 3], [3, 1, 1]] := by
  rw [← Eval.computeF_eq, ← Eval.computeF_eq]
  decide +kernel

end Evogil.Hv
