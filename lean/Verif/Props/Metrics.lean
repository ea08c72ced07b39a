import Verif.Lemmas.Metrics
import Verif.Spec.Indicators
import Verif.Props.ParetoFilter
import Mathlib.Data.Fin.VecNotation
import Mathlib.Algebra.BigOperators.Intervals
import Mathlib.Data.Rat.Cast.Order
import Mathlib.Tactic.NormNum
import Mathlib.Tactic.FieldSimp

/-!
# Quality indicators: C07, C08, C11, C12
-/

namespace Evogil
open Spec

/-! ### C07 -/

theorem sqrDistance_eq_sqDist (d : ℕ) : ∀ (x y : List ℝ), x.length = d → y.length = d →
    sqrDistance x y = sqDist d x y := by
  induction d with
  | zero =>
    intro x y hx hy
    rw [List.eq_nil_of_length_eq_zero hx, List.eq_nil_of_length_eq_zero hy]
    simp [sqrDistance, sqDist]
  | succ d ih =>
    intro x y hx hy
    cases x with
    | nil => simp at hx
    | cons a x =>
      cases y with
      | nil => simp at hy
      | cons b y =>
        have := ih x y (by simpa using hx) (by simpa using hy)
        unfold sqDist at this ⊢
        rw [Finset.sum_range_succ']
        simp only [List.getD_cons_zero, List.getD_cons_succ]
        rw [← this]
        simp [sqrDistance, add_comm]

/-- **C07** The distance indicator is defined exactly for two non-empty sets. -/
theorem C07_defined (S T : List (List ℝ)) :
    (generationalDistance S T).isSome ↔ S ≠ [] ∧ T ≠ [] := distance_isSome

/-- **C07** It is the root of the mean of the squared distances to a nearest reference point. -/
theorem C07_value (d : ℕ) (S T : List (List ℝ)) (hS : ∀ x ∈ S, x.length = d)
    (hT : ∀ x ∈ T, x.length = d) (v : ℝ) (h : generationalDistance S T = some v) :
    ∃ ms, List.Forall₂ (fun f m => IsLeast {x | ∃ t ∈ T, x = sqDist d f t} m) S ms ∧
      v = Real.sqrt (ms.sum / (S.length : ℝ)) := by
  obtain ⟨-, ms, hms, hv⟩ := distance_eq_some h
  refine ⟨ms, ?_, hv⟩
  clear hv h
  induction hms with
  | nil => exact .nil
  | @cons f m S ms h1 _ ih =>
    refine .cons ⟨?_, ?_⟩ (ih fun x hx => hS x (by simp [hx]))
    · obtain ⟨t, ht, hm⟩ := List.mem_map.mp h1.1
      exact ⟨t, ht, by rw [← hm, sqrDistance_eq_sqDist d _ _ (hS f (by simp)) (hT t ht)]⟩
    · rintro x ⟨t, ht, rfl⟩
      rw [← sqrDistance_eq_sqDist d _ _ (hS f (by simp)) (hT t ht)]
      exact h1.2 t ht

/-- **C07** It is never negative. -/
theorem C07_nonneg (S T : List (List ℝ)) (v : ℝ) (h : generationalDistance S T = some v) :
    0 ≤ v := by
  obtain ⟨-, ms, -, rfl⟩ := distance_eq_some h
  exact Real.sqrt_nonneg _

/-- **C07** It is zero exactly when every solution point is a reference point. -/
theorem C07_zero_iff (d : ℕ) (S T : List (List ℝ)) (hS : ∀ x ∈ S, x.length = d)
    (hT : ∀ x ∈ T, x.length = d) (v : ℝ) (h : generationalDistance S T = some v) :
    v = 0 ↔ ∀ x ∈ S, x ∈ T := by
  obtain ⟨hne, ms, hms, rfl⟩ := distance_eq_some h
  have hn : (0 : ℝ) < S.length := by
    have : 0 < S.length := List.length_pos_of_ne_nil hne
    exact_mod_cast this
  have hpos : ∀ m ∈ ms, 0 ≤ m := by
    intro m hm
    obtain ⟨i, hi⟩ := List.getElem?_of_mem hm
    have hil : i < S.length := by
      rw [hms.length_eq]; exact (List.getElem?_eq_some_iff.mp hi).1
    have hmi : i < ms.length := (List.getElem?_eq_some_iff.mp hi).1
    have := (List.forall₂_iff_get.mp hms).2 i hil hmi
    obtain ⟨t, -, ht⟩ := List.mem_map.mp this.1
    have hme : ms.get ⟨i, hmi⟩ = m := by
      simpa [List.getElem?_eq_getElem hmi] using hi
    rw [← hme, ← ht]
    exact sqrDistance_nonneg _ _
  have h0 : 0 ≤ ms.sum / (S.length : ℝ) := div_nonneg (sum_nonneg' hpos) hn.le
  rw [Real.sqrt_eq_zero h0, div_eq_zero_iff, or_iff_left hn.ne', sum_eq_zero_iff' hpos]
  clear h hne hn h0 hpos
  induction hms with
  | nil => simp
  | @cons f m S ms h1 _ ih =>
    simp only [List.mem_cons, forall_eq_or_imp]
    refine and_congr ⟨?_, ?_⟩ (ih fun x hx => hS x (by simp [hx]))
    · rintro rfl
      obtain ⟨t, ht, hm⟩ := List.mem_map.mp h1.1
      rw [sqrDistance_eq_zero ((hS f (by simp)).trans (hT t ht).symm)] at hm
      rw [hm]; exact ht
    · intro hf
      have h2 := h1.2 f hf
      rw [(sqrDistance_eq_zero rfl).mpr rfl] at h2
      obtain ⟨t, -, ht⟩ := List.mem_map.mp h1.1
      have := sqrDistance_nonneg f t
      rw [ht] at this
      exact le_antisymm h2 this

/-- **C07** The inverse indicator swaps the arguments. -/
theorem C07_igd_swap (S T : List (List ℝ)) :
    inverseGenerationalDistance S T = generationalDistance T S := rfl

/-- **C07** The averaged Hausdorff distance is the larger of the two (computed on the
non-dominated part and on all solutions, respectively). -/
theorem C07_ahd_value (sol nd T : List (List ℝ)) (v : ℝ) (h : metricAHD sol nd T = some v) :
    ∃ a b, generationalDistance nd T = some a ∧ inverseGenerationalDistance sol T = some b ∧
      v = max a b := by
  unfold metricAHD at h
  simp only [Option.bind_eq_bind, Option.bind_eq_some_iff, Option.pure_def,
    Option.some.injEq] at h
  obtain ⟨a, ha, b, hb, rfl⟩ := h
  exact ⟨a, b, ha, hb, rfl⟩

/-- **C07** For a reference front whose points do not dominate each other, the averaged
Hausdorff distance is zero exactly when the non-dominated solutions and the front are the
same set. -/
theorem C07_ahd_zero_iff (d : ℕ) (sol T : List (List ℝ)) (hS : ∀ x ∈ sol, x.length = d)
    (hT : ∀ x ∈ T, x.length = d) (hanti : ∀ x ∈ T, ∀ y ∈ T, ¬ LDom x y) (v : ℝ)
    (h : metricAHD sol (filterNotDominated sol) T = some v) :
    v = 0 ↔ ∀ x, x ∈ filterNotDominated sol ↔ x ∈ T := by
  obtain ⟨a, b, ha, hb, rfl⟩ := C07_ahd_value _ _ _ _ h
  have hmem := C06_mem_filter d sol hS
  have ha0 := C07_nonneg _ _ _ ha
  have hb0 := C07_nonneg _ _ _ (C07_igd_swap sol T ▸ hb)
  have hza := C07_zero_iff d _ _ (fun x hx => hS x ((hmem x).mp hx).1) hT a ha
  have hzb := C07_zero_iff d _ _ hT hS b (C07_igd_swap sol T ▸ hb)
  constructor
  · intro hv
    have h1 : a = 0 := le_antisymm (hv ▸ le_max_left a b) ha0
    have h2 : b = 0 := le_antisymm (hv ▸ le_max_right a b) hb0
    intro x
    refine ⟨hza.mp h1 x, fun hx => (hmem x).mpr ⟨hzb.mp h2 x hx, ?_⟩⟩
    intro y hy hd
    obtain ⟨z, hz, hzy⟩ := C06_covers d sol hS y hy
    have hzT := hza.mp h1 z hz
    rcases hzy with rfl | hzy
    · exact hanti z hzT x hx hd
    · refine hanti z hzT x hx ?_
      have e1 := hS y hy
      have e2 := hT x hx
      have e3 := hT z hzT
      rw [← dominates_iff_LDom (by omega)] at hzy hd ⊢
      exact dominates_trans (by omega) (by omega) hzy hd
  · intro hx
    have h1 : a = 0 := hza.mpr fun x h => (hx x).mp h
    have h2 : b = 0 := hzb.mpr fun x h => ((hmem x).mp ((hx x).mpr h)).1
    rw [h1, h2, max_self]

/-- Hypotheses of the theorems above are met by a two-point front. -/
example : generationalDistance [[0, 1], [1, 0]] [[1, 0], [0, 1]] = some 0 := by
  obtain ⟨v, hv⟩ := Option.isSome_iff_exists.mp
    ((C07_defined [[0, 1], [1, 0]] [[1, 0], [0, 1]]).mpr (by simp))
  rw [hv, (C07_zero_iff 2 _ _ (by simp) (by simp) v hv).mpr (by simp)]

/-! ### C08 -/

section epsilon
variable {α : Type*} [AddCommGroup α] [LinearOrder α] [IsOrderedAddMonoid α] {d : ℕ}

/-- **C08** For non-empty sets and at least one objective, the indicator is the least shift `e`
such that each solution is weakly dominated by a reference point moved by `e`. -/
theorem C08_least_shift (hd : 0 < d) (A R : List (Fin d → α)) (hA : A ≠ []) (hR : R ≠ []) :
    ∃ e : α, epsilonIndicator A R = some (e : WithBot α) ∧ IsLeast {e | ShiftCovers A R e} e := by
  obtain ⟨n, rfl⟩ : ∃ n, d = n + 1 := ⟨d - 1, by omega⟩
  obtain ⟨p, ps, rfl⟩ := List.exists_cons_of_ne_nil hR
  obtain ⟨s, ss, rfl⟩ := List.exists_cons_of_ne_nil hA
  obtain ⟨e, he, ⟨t, ht, het⟩, hub⟩ := epsLoopI_spec s ss p ps (⊥, 0, 0)
  refine ⟨e, ?_, ?_, ?_⟩
  · unfold epsilonIndicator
    rw [if_neg (by simp), he]
  · intro a ha
    obtain ⟨⟨q, hq, h1⟩, -⟩ := epsLoopJ_spec a p ps (0, 0)
    refine ⟨q, hq, fun k => ?_⟩
    have h2 := (epsLoopK_succ q a 0).2 k
    rw [← h1] at h2
    have h3 := h2.trans (hub a ha)
    rw [sub_le_iff_le_add] at h3 ⊢
    rwa [add_comm]
  · intro e' he'
    obtain ⟨r, hr, hk⟩ := he' t ht
    rw [het]
    obtain ⟨-, h2⟩ := epsLoopJ_spec t p ps (0, 0)
    refine (h2 r hr).trans ?_
    obtain ⟨⟨k, h3⟩, -⟩ := epsLoopK_succ r t 0
    rw [h3]
    have := hk k
    rw [sub_le_iff_le_add] at this ⊢
    rwa [add_comm]

/-- **C08** It is non-positive exactly when every solution is weakly dominated by a reference
point. -/
theorem C08_nonpos_iff (hd : 0 < d) (A R : List (Fin d → α)) (hA : A ≠ []) (hR : R ≠ []) (e : α)
    (he : epsilonIndicator A R = some (e : WithBot α)) :
    e ≤ 0 ↔ ∀ a ∈ A, ∃ r ∈ R, WeakDom r a := by
  obtain ⟨e', he', hmem, hle⟩ := C08_least_shift hd A R hA hR
  rw [he] at he'
  injection he' with he'
  have he' := WithBot.coe_injective he'
  subst he'
  constructor
  · intro h0 a ha
    obtain ⟨r, hr, hk⟩ := hmem a ha
    refine ⟨r, hr, fun k => ?_⟩
    have h1 := hk k
    rw [sub_le_iff_le_add] at h1
    exact h1.trans (by simpa using add_le_add_right h0 (a k))
  · intro h
    apply hle
    intro a ha
    obtain ⟨r, hr, hk⟩ := h a ha
    exact ⟨r, hr, fun k => by simpa using hk k⟩

omit [IsOrderedAddMonoid α] in
/-- **C08** Exceptional cases: an empty front raises, an empty solution gives `-inf`. -/
theorem C08_empty (A R : List (Fin d → α)) :
    epsilonIndicator A ([] : List (Fin d → α)) = none ∧
    (R ≠ [] → epsilonIndicator ([] : List (Fin d → α)) R = some ⊥) := by
  refine ⟨by simp [epsilonIndicator], fun h => ?_⟩
  unfold epsilonIndicator
  rw [if_neg h]; rfl

end epsilon

example : epsilonIndicator [![(3 : ℤ), 4]] [![1, 5], ![5, 1]] = some ((1 : ℤ) : WithBot ℤ) := by
  decide +kernel

/-- **C08, orientation** The value is *not* the usual additive epsilon indicator (the least shift
after which every reference point is weakly dominated by a solution): a solution set covering
only one end of the front already gets the perfect value 0. -/
theorem C08_not_the_usual_orientation :
    epsilonIndicator [![(0 : ℤ), 2]] [![0, 2], ![2, 0]] = some ((0 : ℤ) : WithBot ℤ) ∧
    ¬ ShiftCovers [![(0 : ℤ), 2], ![2, 0]] [![0, 2]] 0 := by
  refine ⟨by decide +kernel, ?_⟩
  intro h
  obtain ⟨r, hr, hk⟩ := h ![2, 0] (by simp)
  simp only [List.mem_singleton] at hr
  subst hr
  have := hk 1
  simp at this

/-! ### C12 -/

section spread
variable {d : ℕ}

/-- **C12** Spacing is non-negative. -/
theorem C12_spacing_nonneg (eps : ℝ) (S : List (Fin d → ℝ)) (v : ℝ)
    (h : spacing eps S = some v) : 0 ≤ v := by
  unfold spacing at h
  split_ifs at h
  injection h with h
  rw [← h]; exact Real.sqrt_nonneg _

/-- The distances to the nearest other point, one for each point, as a specification. -/
def IsNearestDistances (S : List (Fin d → ℝ)) (ms : List ℝ) : Prop :=
  ms.length = S.length ∧ ∀ (i : ℕ) (x : Fin d → ℝ) (m : ℝ), S[i]? = some x → ms[i]? = some m →
    IsLeast {z | ∃ (j : ℕ) (y : Fin d → ℝ), j ≠ i ∧ S[j]? = some y ∧ z = ∑ k, |x k - y k|} m

theorem l1Dist_eq_sum (x y : Fin d → ℝ) : l1Dist x y = ∑ k, |x k - y k| := by
  unfold l1Dist
  rw [← List.ofFn_eq_map, List.sum_ofFn]

theorem filterMap_all_some {β γ : Type*} (f : β → Option γ) : ∀ (l : List β),
    (∀ x ∈ l, (f x).isSome) → (l.filterMap f).map some = l.map f := by
  intro l
  induction l with
  | nil => simp
  | cons a l ih =>
    intro h
    obtain ⟨b, hb⟩ := Option.isSome_iff_exists.mp (h a (by simp))
    rw [List.filterMap_cons_some hb, List.map_cons, List.map_cons, hb,
      ih fun x hx => h x (by simp [hx])]

/-- **C12** With at least two points, the list used by spacing is the list of nearest-neighbour
distances. -/
theorem C12_nearest (S : List (Fin d → ℝ)) (h2 : 2 ≤ S.length) :
    IsNearestDistances S (nnDistances S) := by
  have hsome : ∀ a ∈ S.zipIdx, (pyMin ((S.zipIdx.filter fun b => ¬ a.2 = b.2).map
      fun b => l1Dist a.1 b.1)).isSome := by
    intro a ha
    rw [pyMin_isSome]
    intro hn
    rw [List.map_eq_nil_iff, List.filter_eq_nil_iff] at hn
    have : ∃ j, j < S.length ∧ a.2 ≠ j := by
      by_cases h0 : a.2 = 0
      · exact ⟨1, by omega, by omega⟩
      · exact ⟨0, by omega, h0⟩
    obtain ⟨j, hj, hne⟩ := this
    have hjm : (S[j], j) ∈ S.zipIdx := by
      rw [List.mem_zipIdx_iff_getElem?]; exact List.getElem?_eq_getElem hj
    have := hn _ hjm
    simp at this
    exact hne this
  have hmap := filterMap_all_some _ _ hsome
  have hget : ∀ i : ℕ, ((nnDistances S)[i]?).map some = (S[i]?).map fun x =>
      pyMin ((S.zipIdx.filter fun b => ¬ i = b.2).map fun b => l1Dist x b.1) := by
    intro i
    have := congrArg (fun l => l[i]?) hmap
    simp only [List.getElem?_map] at this
    unfold nnDistances
    rw [this, List.getElem?_zipIdx]
    cases S[i]? <;> simp
  constructor
  · have := congrArg List.length hmap
    simpa [nnDistances] using this
  · intro i x m hx hm
    have := hget i
    rw [hx, hm] at this
    simp only [Option.map_some, Option.some.injEq] at this
    have := pyMin_eq_some.mp this.symm
    obtain ⟨g1, g2⟩ := this
    constructor
    · obtain ⟨b, hb, hbm⟩ := List.mem_map.mp g1
      rw [List.mem_filter] at hb
      obtain ⟨hb1, hb2⟩ := hb
      rw [List.mem_zipIdx_iff_getElem?] at hb1
      refine ⟨b.2, b.1, ?_, hb1, by rw [← hbm, l1Dist_eq_sum]⟩
      intro hc
      rw [hc] at hb2; simp at hb2
    · rintro z ⟨j, y, hne, hy, rfl⟩
      rw [← l1Dist_eq_sum]
      apply g2
      refine List.mem_map.mpr ⟨(y, j), ?_, rfl⟩
      rw [List.mem_filter]
      refine ⟨by rw [List.mem_zipIdx_iff_getElem?]; exact hy, ?_⟩
      simpa using fun hc : i = j => hne hc.symm

/-- **C12** With at least two points, spacing is zero exactly when all nearest-neighbour
distances coincide. -/
theorem C12_spacing_zero_iff (eps : ℝ) (he : 0 ≤ eps) (S : List (Fin d → ℝ))
    (h2 : 2 ≤ S.length) (v : ℝ) (h : spacing eps S = some v) :
    v = 0 ↔ ∀ ms, IsNearestDistances S ms → ∀ a ∈ ms, ∀ b ∈ ms, a = b := by
  have hnn := C12_nearest S h2
  have huniq : ∀ ms, IsNearestDistances S ms → ms = nnDistances S := by
    intro ms hms
    apply List.ext_getElem (hms.1.trans hnn.1.symm)
    intro i h1 h2
    have hi : i < S.length := by rw [← hms.1]; exact h1
    exact (hms.2 i _ _ (List.getElem?_eq_getElem hi) (List.getElem?_eq_getElem h1)).unique
      (hnn.2 i _ _ (List.getElem?_eq_getElem hi) (List.getElem?_eq_getElem h2))
  unfold spacing at h
  rw [if_neg (by rintro rfl; simp at h2)] at h
  simp only [Option.some.injEq] at h
  have hlen : (nnDistances S).length = S.length := hnn.1
  rw [if_pos (by omega)] at h
  set ms := nnDistances S with hms
  set mean := ms.sum / (ms.length : ℝ) with hmean
  have hSpos : (0 : ℝ) < (S.length : ℝ) - 1 + eps := by
    have : (2 : ℝ) ≤ S.length := by exact_mod_cast h2
    linarith
  have hmpos : (0 : ℝ) < ms.length := by
    have : 0 < ms.length := by omega
    exact_mod_cast this
  have hsq : ∀ z ∈ ms.map (fun x => (mean - x) ^ 2), 0 ≤ z := by
    intro z hz
    obtain ⟨x, -, rfl⟩ := List.mem_map.mp hz
    positivity
  have hzero : v = 0 ↔ ∀ x ∈ ms, x = mean := by
    rw [← h, Real.sqrt_eq_zero (div_nonneg (sum_nonneg' hsq) hSpos.le), div_eq_zero_iff,
      or_iff_left hSpos.ne', sum_eq_zero_iff' hsq]
    constructor
    · intro hx x hxm
      have := hx _ (List.mem_map_of_mem (f := fun x => (mean - x) ^ 2) hxm)
      have := pow_eq_zero_iff (n := 2) (by norm_num) |>.mp this
      linarith
    · intro hx z hz
      obtain ⟨x, hxm, rfl⟩ := List.mem_map.mp hz
      rw [hx x hxm]; simp
  rw [hzero]
  constructor
  · intro hx ms' hms' a ha b hb
    rw [huniq ms' hms'] at ha hb
    rw [hx a ha, hx b hb]
  · intro hall x hx
    have heq : ∀ b ∈ ms, b = x := fun b hb => hall ms hnn b hb x hx
    have hsum : ms.sum = ms.length * x := by
      rw [List.eq_replicate_of_mem heq, List.sum_replicate, List.length_replicate, nsmul_eq_mul]
    rw [hmean, hsum]
    field_simp

theorem extent_eq_some {S : List (Fin d → ℝ)} {v : ℝ} (h : extent S = some v) :
    S ≠ [] ∧ ∃ ms : List ℝ, List.Forall₂ (fun i m => spreadIn S i = some m) (List.finRange d) ms ∧
      v = Real.sqrt ms.sum := by
  unfold extent at h
  split_ifs at h with h0
  simp only [Option.bind_eq_bind, Option.bind_eq_some_iff, Option.pure_def,
    Option.some.injEq] at h
  obtain ⟨ms, hms, rfl⟩ := h
  exact ⟨h0, ms, (mapM_option_eq_some _ _ _).mp hms, rfl⟩

/-- **C12** The extent is the root of the sum, over the objectives, of the largest difference of
two points in that objective; in particular it is non-negative. -/
theorem C12_extent_value (S : List (Fin d → ℝ)) (v : ℝ) (h : extent S = some v) :
    0 ≤ v ∧ ∃ m : Fin d → ℝ,
      (∀ i, IsGreatest {z | ∃ x ∈ S, ∃ y ∈ S, z = |x i - y i|} (m i)) ∧
      v = Real.sqrt (∑ i, m i) := by
  obtain ⟨hne, ms, hms, rfl⟩ := extent_eq_some h
  refine ⟨Real.sqrt_nonneg _, ?_⟩
  have hlen : ms.length = d := by simpa using hms.length_eq.symm
  subst hlen
  refine ⟨fun i => ms.get i, ?_, ?_⟩
  · intro i
    have := (List.forall₂_iff_get.mp hms).2 i.val (by simp) i.isLt
    simp only [List.get_eq_getElem, List.getElem_finRange] at this
    obtain ⟨⟨x, hx, y, hy, h1⟩, h2⟩ := spreadIn_eq_some this
    refine ⟨⟨x, hx, y, hy, h1⟩, ?_⟩
    rintro z ⟨x, hx, y, hy, rfl⟩
    exact h2 x hx y hy
  · congr 1
    have : (List.ofFn fun i => ms.get i).sum = ∑ i, ms.get i := List.sum_ofFn
    rw [← this, List.ofFn_get]

/-- **C12** The extent never decreases when points are added. -/
theorem C12_extent_mono (S T : List (Fin d → ℝ)) (hsub : ∀ x ∈ S, x ∈ T) (v w : ℝ)
    (h : extent S = some v) (h' : extent T = some w) : v ≤ w := by
  obtain ⟨-, m, hm, rfl⟩ := C12_extent_value S v h
  obtain ⟨-, m', hm', rfl⟩ := C12_extent_value T w h'
  apply Real.sqrt_le_sqrt
  apply Finset.sum_le_sum
  intro i _
  obtain ⟨x, hx, y, hy, he⟩ := (hm i).1
  rw [he]
  exact (hm' i).2 ⟨x, hsub x hx, y, hsub y hy, rfl⟩

/-- **C12** The extent is zero exactly when all points coincide. -/
theorem C12_extent_zero_iff (S : List (Fin d → ℝ)) (v : ℝ) (h : extent S = some v) :
    v = 0 ↔ ∀ x ∈ S, ∀ y ∈ S, x = y := by
  obtain ⟨-, m, hm, rfl⟩ := C12_extent_value S v h
  have h0 : ∀ i, 0 ≤ m i := by
    intro i
    obtain ⟨x, hx, y, hy, he⟩ := (hm i).1
    rw [he]; exact abs_nonneg _
  rw [Real.sqrt_eq_zero (Finset.sum_nonneg fun i _ => h0 i),
    Finset.sum_eq_zero_iff_of_nonneg fun i _ => h0 i]
  constructor
  · intro hz x hx y hy
    funext i
    have h1 := (hm i).2 ⟨x, hx, y, hy, rfl⟩
    rw [hz i (Finset.mem_univ i)] at h1
    exact sub_eq_zero.mp (abs_eq_zero.mp (le_antisymm h1 (abs_nonneg _)))
  · intro hxy i _
    obtain ⟨x, hx, y, hy, he⟩ := (hm i).1
    rw [he, hxy x hx y hy]; simp

/-- **C12** The extent is defined exactly for a non-empty solution. -/
theorem C12_extent_defined (S : List (Fin d → ℝ)) : (extent S).isSome ↔ S ≠ [] := by
  unfold extent
  split_ifs with h0
  · simp [h0]
  · simp only [ne_eq, h0, not_false_eq_true, iff_true]
    obtain ⟨r, hr⟩ := mapM_option_isSome (fun i => spreadIn S i) (List.finRange d)
      (fun i _ => spreadIn_isSome h0 i)
    rw [hr]; rfl

end spread

/-- **C12** The non-domination ratio lies in (0, 1], and is 1 exactly when no point is
dominated. -/
theorem C12_ndr {α : Type*} [LinearOrder α] (d : ℕ) (S : List (List α))
    (hS : ∀ x ∈ S, x.length = d) (hne : S ≠ []) :
    ∃ q, nonDominationRatio S (filterNotDominated S) = some q ∧ 0 < q ∧ q ≤ 1 ∧
      (q = 1 ↔ ∀ x ∈ S, NonDominated LDom S x) := by
  have hpos : 0 < S.length := List.length_pos_of_ne_nil hne
  have hq : (0 : ℚ) < S.length := by exact_mod_cast hpos
  obtain ⟨p, hp, hpx⟩ := C06_filter_eq d S hS
  have hle : (filterNotDominated S).length ≤ S.length := by
    rw [hp]; exact List.length_filter_le _ _
  refine ⟨_, if_neg (by omega), ?_, ?_, ?_⟩
  · apply div_pos _ hq
    obtain ⟨x, hx⟩ := List.exists_mem_of_ne_nil S hne
    obtain ⟨y, hy, -⟩ := C06_covers d S hS x hx
    have : 0 < (filterNotDominated S).length := List.length_pos_of_mem hy
    exact_mod_cast this
  · rw [div_le_one hq]; exact_mod_cast hle
  · rw [div_eq_one_iff_eq hq.ne', Nat.cast_inj, hp, List.length_filter_eq_length_iff]
    exact forall₂_congr fun x hx => hpx x hx

example : nonDominationRatio [[(1 : ℕ), 2], [2, 1], [2, 2]]
    (filterNotDominated [[1, 2], [2, 1], [2, 2]]) = some (2 / 3) := by decide +kernel

/-! ### C11 -/

/-- **C11** The combined front consists, without repetition, of the solutions of all runs which
are dominated by no solution of any run. -/
theorem C11_combined_front {α : Type*} [LinearOrder α] (d : ℕ) (runs : List (List (List α)))
    (hS : ∀ r ∈ runs, ∀ x ∈ r, x.length = d) :
    (combinedFront runs).Nodup ∧ ∀ x, x ∈ combinedFront runs ↔
      (∃ r ∈ runs, x ∈ r) ∧ ∀ r ∈ runs, ∀ y ∈ r, ¬ LDom y x := by
  have hS' : ∀ x ∈ runs.flatten, x.length = d := by
    intro x hx
    obtain ⟨r, hr, hx⟩ := List.mem_flatten.mp hx
    exact hS r hr x hx
  refine ⟨nodup_dictKeys _, fun x => ?_⟩
  unfold combinedFront
  rw [mem_dictKeys, C06_mem_filter d _ hS', List.mem_flatten]
  refine and_congr Iff.rfl ⟨fun h r hr y hy => h y (List.mem_flatten.mpr ⟨r, hr, hy⟩), ?_⟩
  intro h y hy
  obtain ⟨r, hr, hy⟩ := List.mem_flatten.mp hy
  exact h r hr y hy

/-- **C11 (partial)** If the run's non-dominated list has no repetition, the indicator times the
size of the combined front is the number of its points found by the run, it lies between 0 and 1
and is 1 exactly when the run has all points of the combined front. Missing (and false, see
`C11_exceeds_one`): the case of repeated points. -/
theorem C11_share_partial {α : Type*} [DecidableEq α] (nd all : List α) (hall : all.Nodup)
    (hnd : nd.Nodup) (hne : all ≠ []) :
    ∃ q, paretoDominanceIndicator nd all = some q ∧
      q * all.length = ((all.filter (· ∈ nd)).length : ℚ) ∧ 0 ≤ q ∧ q ≤ 1 ∧
      (q = 1 ↔ ∀ x ∈ all, x ∈ nd) := by
  have hpos : 0 < all.length := List.length_pos_of_ne_nil hne
  have hq : (0 : ℚ) < all.length := by exact_mod_cast hpos
  have hperm : (nd.filter fun s => s ∈ all).Perm (all.filter fun s => s ∈ nd) := by
    rw [List.perm_ext_iff_of_nodup (hnd.filter _) (hall.filter _)]
    intro x
    simp [and_comm]
  have hlen := hperm.length_eq
  refine ⟨_, if_neg (by omega), ?_, ?_, ?_, ?_⟩
  · rw [hlen]; field_simp
  · positivity
  · rw [div_le_one hq, hlen]; exact_mod_cast List.length_filter_le _ _
  · rw [div_eq_one_iff_eq hq.ne', hlen, Nat.cast_inj, List.length_filter_eq_length_iff]
    simp

/-- **C11, with repetitions** In general the indicator counts repeated points of the run several
times. -/
theorem C11_general {α : Type*} [DecidableEq α] (nd all : List α) (hne : all ≠ []) :
    ∃ q, paretoDominanceIndicator nd all = some q ∧
      q * all.length = ((nd.countP (· ∈ all) : ℕ) : ℚ) := by
  have hpos : 0 < all.length := List.length_pos_of_ne_nil hne
  have hq : (0 : ℚ) < all.length := by exact_mod_cast hpos
  refine ⟨_, if_neg (by omega), ?_⟩
  rw [List.countP_eq_length_filter]
  field_simp

/-- **C11, negation** The indicator of a run whose population contains the same point twice can
exceed 1. -/
theorem C11_exceeds_one :
    ∃ (runs : List (List (List ℕ))) (run : List (List ℕ)), run ∈ runs ∧
      ∃ q, paretoDominanceIndicator (filterNotDominated run) (combinedFront runs) = some q ∧
        1 < q :=
  ⟨[[[1, 2], [1, 2]]], [[1, 2], [1, 2]], by simp, 2, by decide +kernel, by norm_num⟩

example : paretoDominanceIndicator (filterNotDominated [[(1 : ℕ), 2], [3, 3]])
    (combinedFront [[[1, 2], [3, 3]], [[2, 1]]]) = some (1 / 2) := by decide +kernel

end Evogil
