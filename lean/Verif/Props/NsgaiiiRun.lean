import Verif.Model.NsgaiiiRun
import Verif.Props.Nsgaiii
import Verif.Props.GenerationsRun

/-!
# C101: runs of NSGA-III
-/

set_option linter.unusedSectionVars false

namespace Evogil.Nsgaiii

open Spec Generations

variable {K : Type*} [Field K] [LinearOrder K] [IsStrictOrderedRing K]
variable {pw : K → K → K} {sq : K → K} {eps : K} {f : List K → List K} {cf : Conf K}

/-! ## Which children are evaluated -/

theorem mutLoop_none {rate eta : K} {ds : ℕ → MutDraw K} :
    ∀ (dims : List (K × K)) (i : ℕ) (x y : Ind K), x.objectives = none →
      mutLoop pw eps rate eta ds i dims x = some y → y.objectives = none := by
  intro dims
  induction dims with
  | nil => intro i x y hx h; rw [mutLoop] at h; rw [← Option.some.inj h]; exact hx
  | cons d dims ih =>
    intro i x y hx h
    rw [mutLoop] at h
    split_ifs at h
    · exact ih _ _ _ hx h
    · split at h
      · cases h
      · split at h
        · cases h
        · exact ih _ ⟨_, none⟩ _ rfl h

theorem mutLoop_idle {rate eta : K} {ds : ℕ → MutDraw K} (hds : ∀ i, rate < (ds i).select) :
    ∀ (dims : List (K × K)) (i : ℕ) (x : Ind K),
      mutLoop pw eps rate eta ds i dims x = some x := by
  intro dims
  induction dims with
  | nil => intro i x; rw [mutLoop]
  | cons d dims ih => intro i x; rw [mutLoop, if_pos (hds i)]; exact ih _ _

theorem makePair_none {inds : List (Ind K)} {d : PairDraw K} (hc : d.first ≤ cf.rateC)
    {l : List (Ind K)} (h : makePair pw eps cf inds d = some l) :
    l.length = 2 ∧ ∀ x ∈ l, x.objectives = none := by
  unfold makePair at h
  split at h
  · unfold sbx at h
    rw [if_neg (not_lt.2 hc)] at h
    split at h
    · cases h
    · rename_i ca cb e
      split at e
      · cases e
      · cases e
        split at h
        · rename_i x y ex ey
          cases h
          refine ⟨rfl, ?_⟩
          intro z hz
          rw [List.mem_cons, List.mem_singleton] at hz
          rcases hz with rfl | rfl
          · exact mutLoop_none _ _ _ _ rfl ex
          · exact mutLoop_none _ _ _ _ rfl ey
        · cases h
  · cases h

theorem makePair_idle {inds : List (Ind K)} {d : PairDraw K} (hc : cf.rateC < d.first)
    (hA : ∀ i, cf.rateM < (d.mutA i).select) (hB : ∀ i, cf.rateM < (d.mutB i).select)
    {l : List (Ind K)} (h : makePair pw eps cf inds d = some l) :
    ∀ x ∈ l, x.objectives.isSome = true := by
  unfold makePair at h
  split at h
  · unfold sbx at h
    rw [if_pos hc] at h
    split at h
    · cases h
    · rename_i ca cb e
      split at e
      · cases e
        unfold polyMutation at h
        rw [mutLoop_idle hA, mutLoop_idle hB] at h
        cases h
        intro z hz
        rw [List.mem_cons, List.mem_singleton] at hz
        rcases hz with rfl | rfl <;> rfl
      · cases e
  · cases h

theorem makeOffspring_none {inds : List (Ind K)} {ds : ℕ → PairDraw K}
    (hc : ∀ j, (ds j).first ≤ cf.rateC) : ∀ (n j : ℕ) (l : List (Ind K)),
      makeOffspring pw eps cf ds inds n j = some l →
      l.length = 2 * n ∧ ∀ x ∈ l, x.objectives = none := by
  intro n
  induction n with
  | zero => intro j l h; rw [makeOffspring] at h; cases h; simp
  | succ n ih =>
    intro j l h
    rw [makeOffspring] at h
    split at h
    · rename_i p q e1 e2
      cases h
      obtain ⟨a1, a2⟩ := makePair_none (hc j) e1
      obtain ⟨b1, b2⟩ := ih _ _ e2
      refine ⟨by rw [List.length_append, a1, b1]; omega, ?_⟩
      intro x hx
      rcases List.mem_append.1 hx with hx | hx
      · exact a2 x hx
      · exact b2 x hx
    · cases h

theorem makeOffspring_idle {inds : List (Ind K)} {ds : ℕ → PairDraw K}
    (hc : ∀ j, cf.rateC < (ds j).first) (hA : ∀ j i, cf.rateM < ((ds j).mutA i).select)
    (hB : ∀ j i, cf.rateM < ((ds j).mutB i).select) : ∀ (n j : ℕ) (l : List (Ind K)),
      makeOffspring pw eps cf ds inds n j = some l → ∀ x ∈ l, x.objectives.isSome = true := by
  intro n
  induction n with
  | zero => intro j l h; rw [makeOffspring] at h; cases h; simp
  | succ n ih =>
    intro j l h
    rw [makeOffspring] at h
    split at h
    · rename_i p q e1 e2
      cases h
      intro x hx
      rcases List.mem_append.1 hx with hx | hx
      · exact makePair_idle (hc j) (hA j) (hB j) e1 x hx
      · exact ih _ _ e2 x hx
    · cases h

theorem evaluations_le (l : List (Ind K)) : evaluations l ≤ l.length := List.length_filter_le _ _

theorem evaluations_all {l : List (Ind K)} (h : ∀ x ∈ l, x.objectives = none) :
    evaluations l = l.length := by
  unfold evaluations
  rw [List.filter_eq_self.2]
  intro x hx
  rw [h x hx]; rfl

theorem evaluations_zero {l : List (Ind K)} (h : ∀ x ∈ l, x.objectives.isSome = true) :
    evaluations l = 0 := by
  unfold evaluations
  rw [List.filter_eq_nil_iff.2]
  · rfl
  · intro x hx
    have := h x hx
    cases hx : x.objectives with
    | none => rw [hx] at this; cases this
    | some o => simp

theorem makeOffspring_pos {inds : List (Ind K)} {ds : ℕ → PairDraw K} {j : ℕ}
    (hc : (ds j).first ≤ cf.rateC) : ∀ (n i : ℕ) (l : List (Ind K)), i ≤ j → j < i + n →
      makeOffspring pw eps cf ds inds n i = some l → 0 < evaluations l := by
  intro n
  induction n with
  | zero => intro i l h1 h2; omega
  | succ n ih =>
    intro i l h1 h2 h
    rw [makeOffspring] at h
    split at h
    · rename_i p q e1 e2
      cases h
      have happ : evaluations (p ++ q) = evaluations p + evaluations q := by
        simp [evaluations, List.filter_append]
      rw [happ]
      by_cases hij : i = j
      · subst hij
        obtain ⟨a1, a2⟩ := makePair_none hc e1
        rw [evaluations_all a2]
        omega
      · have := ih _ _ (by omega) (by omega) e2
        omega
    · cases h

/-! ## Steps -/

/-- The draws of one step are valid. -/
structure DrawsOk (N : ℕ) (ds : ℕ → PairDraw K) (iter : List ℕ → List ℕ)
    (sample : List ℕ → ℕ → List ℕ) : Prop where
  pairs : ∀ j, DrawOk N (ds j)
  iter : ∀ l, (iter l).Perm l
  sample : ∀ l n, n ≤ l.length → IsSample l n (sample l n)

/-- What holds between the steps of a run with `N` individuals. -/
def CGood (f : List K → List K) (cf : Conf K) (N : ℕ) (s : Costed K) : Prop :=
  Good f cf s.st ∧ s.st.size = N

/-- The same when individuals may have arrived which are not part of the history of the ideal point. -/
def CSound (f : List K → List K) (cf : Conf K) (N : ℕ) (s : Costed K) : Prop :=
  Sound f cf s.st ∧ s.st.size = N ∧
    ∃ hist, s.st.ideal = updateIdeal (initialIdeal cf.m) hist ∧ ∀ o ∈ hist, o.length = cf.m

theorem CGood.sound {N : ℕ} {s : Costed K} (h : CGood f cf N s) : CSound f cf N s := by
  obtain ⟨hist, e1, e2, -⟩ := h.1.ideal
  exact ⟨h.1.toSound, h.2, hist, e1, e2⟩

theorem stepCosted_any (hp : PowLaws pw) (he : 0 < eps) (hcf : ConfOk f cf) {N : ℕ} (h2 : 2 ≤ N)
    {s : Costed K} (hs : CSound f cf N s) {ds : ℕ → PairDraw K} {iter : List ℕ → List ℕ}
    {sample : List ℕ → ℕ → List ℕ} (hd : DrawsOk N ds iter sample) :
    ∃ raw s', makeOffspring pw eps cf ds s.st.inds (N / 2) 0 = some raw ∧
      step pw sq eps f cf ds iter sample (2 * s.st.size + 1) s.st = some s'.st ∧
      stepCosted pw sq eps f cf ds iter sample s = some s' ∧ CSound f cf N s' ∧
      raw.length = 2 * (N / 2) ∧ s'.cost = s.cost + evaluations raw := by
  obtain ⟨hg, hN, hist, hi1, hi2⟩ := hs
  have hl : s.st.inds.length = N := by rw [hg.size, hN]
  obtain ⟨raw, r1, r2, -⟩ := makeOffspring_spec hp he hcf hg ds (by rw [hl]; exact hd.pairs)
    (s.st.size / 2) 0
  obtain ⟨st', off, t1, t2, t3, -, t4, -⟩ := C31_step_any hp sq he hcf hg (by omega) ds
    (by rw [hl]; exact hd.pairs) iter hd.iter sample hd.sample (2 * s.st.size + 1) (by omega)
  refine ⟨raw, ⟨st', s.cost + evaluations raw⟩, by rw [← hN]; exact r1, t1, ?_,
    ⟨t2, by rw [t3, hN], hist ++ off.map fun x => f x.v, ?_, ?_⟩, by rw [r2, hN], rfl⟩
  rotate_left
  · rw [t4, hi1, C31_ideal_history]
  · intro o ho
    rcases List.mem_append.1 ho with ho | ho
    · exact hi2 o ho
    · obtain ⟨x, -, rfl⟩ := List.mem_map.1 ho
      exact hcf.objectives _
  unfold stepCosted
  rw [r1]
  simp only
  rw [t1]
  rfl

theorem stepCosted_spec (hp : PowLaws pw) (he : 0 < eps) (hcf : ConfOk f cf) {N : ℕ} (h2 : 2 ≤ N)
    {s : Costed K} (hs : CGood f cf N s) {ds : ℕ → PairDraw K} {iter : List ℕ → List ℕ}
    {sample : List ℕ → ℕ → List ℕ} (hd : DrawsOk N ds iter sample) :
    ∃ raw s', makeOffspring pw eps cf ds s.st.inds (N / 2) 0 = some raw ∧
      stepCosted pw sq eps f cf ds iter sample s = some s' ∧ CGood f cf N s' ∧
      raw.length = 2 * (N / 2) ∧ s'.cost = s.cost + evaluations raw := by
  obtain ⟨hg, hN⟩ := hs
  obtain ⟨raw, s', r1, r2, r3, r4, r5, r6⟩ := stepCosted_any (sq := sq) hp he hcf h2 (CGood.sound ⟨hg, hN⟩) hd
  obtain ⟨st', t1, t2, -⟩ := C31_step hp sq he hcf hg (by omega) ds
    (by rw [hg.size, hN]; exact hd.pairs) iter hd.iter sample hd.sample (2 * s.st.size + 1) (by omega)
  rw [r2] at t1
  rw [← Option.some.inj t1] at t2
  exact ⟨raw, s', r1, r3, ⟨t2, r4.2.1⟩, r5, r6⟩

/-- A driver reached from a constructor call with `N` vectors of the box by `k` steps with valid
draws. -/
inductive Reach (pw : K → K → K) (sq : K → K) (eps : K) (f : List K → List K) (cf : Conf K) (N : ℕ) :
    ℕ → Costed K → Prop
  | start (pop : List (List K)) (hn : pop.length = N) (hbox : ∀ v ∈ pop, InBox v cf.dims) :
      Reach pw sq eps f cf N 0 (initCosted f cf pop)
  | step {k s s'} (h : Reach pw sq eps f cf N k s) (ds : ℕ → PairDraw K) (iter : List ℕ → List ℕ)
      (sample : List ℕ → ℕ → List ℕ) (hd : DrawsOk N ds iter sample)
      (hs : stepCosted pw sq eps f cf ds iter sample s = some s') :
      Reach pw sq eps f cf N (k + 1) s'

theorem initCosted_good (hcf : ConfOk f cf) {pop : List (List K)}
    (hbox : ∀ v ∈ pop, InBox v cf.dims) : CGood f cf pop.length (initCosted f cf pop) :=
  C31_init hcf pop hbox

theorem initCosted_cost (f : List K → List K) (cf : Conf K) (pop : List (List K)) :
    (initCosted f cf pop).cost = pop.length := by
  unfold initCosted
  simp only
  rw [evaluations_all, List.length_map]
  intro x hx
  obtain ⟨v, -, rfl⟩ := List.mem_map.1 hx
  rfl

/-- **C101.** Runs of NSGA-III with at least two individuals: no step raises or diverges, there are
always `N` individuals, all in the box and with their true objectives, and a run of `k` steps costs
at least `N` and at most `N + 2 k ⌊N / 2⌋` evaluations. -/
theorem C101_run (hp : PowLaws pw) (he : 0 < eps) (hcf : ConfOk f cf) {N : ℕ} (h2 : 2 ≤ N) (k : ℕ)
    (s : Costed K) (h : Reach pw sq eps f cf N k s) :
    s.st.inds.length = N ∧ (∀ x ∈ s.st.inds, InBox x.v cf.dims ∧ x.objectives = some (f x.v)) ∧
      N ≤ s.cost ∧ s.cost ≤ N + k * (2 * (N / 2)) ∧
      ∀ ds iter sample, DrawsOk N ds iter sample →
        ∃ s', stepCosted pw sq eps f cf ds iter sample s = some s' := by
  have key : CGood f cf N s ∧ N ≤ s.cost ∧ s.cost ≤ N + k * (2 * (N / 2)) := by
    induction h with
    | start pop hn hbox =>
      subst hn
      exact ⟨initCosted_good hcf hbox, by rw [initCosted_cost], by rw [initCosted_cost]; omega⟩
    | @step k s s' _ ds iter sample hd hs ih =>
      obtain ⟨g, c1, c2⟩ := ih
      obtain ⟨raw, t, -, t2, t3, t4, t5⟩ := stepCosted_spec (sq := sq) hp he hcf h2 g hd
      obtain rfl : s' = t := Option.some.inj (hs.symm.trans t2)
      have := evaluations_le raw
      refine ⟨t3, by omega, ?_⟩
      rw [Nat.succ_mul k]
      omega
  obtain ⟨g, c1, c2⟩ := key
  refine ⟨by rw [g.1.size, g.2], fun x hx => ⟨g.1.box x hx, g.1.eval x hx⟩, c1, c2, ?_⟩
  intro ds iter sample hd
  obtain ⟨-, t, -, t2, -⟩ := stepCosted_spec (sq := sq) hp he hcf h2 g hd
  exact ⟨t, t2⟩

/-- **C101.** If every pair of parents is crossed over (`crossover_rate` is at least 1), a run of `k`
steps costs exactly `N + 2 k ⌊N / 2⌋` evaluations. -/
theorem C101_cost (hp : PowLaws pw) (he : 0 < eps) (hcf : ConfOk f cf) {N : ℕ} (h2 : 2 ≤ N)
    (ds : ℕ → ℕ → PairDraw K) (iter : ℕ → List ℕ → List ℕ) (sample : ℕ → List ℕ → ℕ → List ℕ)
    (hd : ∀ n, DrawsOk N (ds n) (iter n) (sample n)) (hc : 1 ≤ cf.rateC)
    (hfirst : ∀ n j, (ds n j).first < 1) (pop : List (List K)) (hn : pop.length = N)
    (hbox : ∀ v ∈ pop, InBox v cf.dims) (k : ℕ) :
    (driver pw sq eps f cf ds iter sample).cost
      ((driver pw sq eps f cf ds iter sample).step^[k] (some (0, initCosted f cf pop))) =
      ((N + k * (2 * (N / 2)) : ℕ) : ℤ) := by
  have key' : ∃ s : Costed K, (driver pw sq eps f cf ds iter sample).step^[k]
      (some (0, initCosted f cf pop)) = some (k, s) ∧ CGood f cf N s ∧
        s.cost = N + k * (2 * (N / 2)) := by
    induction k with
    | zero =>
      subst hn
      exact ⟨_, rfl, initCosted_good hcf hbox, by rw [initCosted_cost]; omega⟩
    | succ k ih =>
      obtain ⟨s, h1, g, h3⟩ := ih
      obtain ⟨raw, t, t1, t2, t3, t4, t5⟩ := stepCosted_spec (sq := sq) hp he hcf h2 g (hd k)
      obtain ⟨-, hnone⟩ := makeOffspring_none (fun j => (hfirst k j).le.trans hc) _ _ _ t1
      refine ⟨t, ?_, t3, ?_⟩
      · rw [Function.iterate_succ_apply', h1]
        simp [driver, optDriver, t2]
      · rw [t5, evaluations_all hnone, t4, h3, Nat.succ_mul k]
        omega
  obtain ⟨s, h1, -, h3⟩ := key'
  rw [h1]
  show (s.cost : ℤ) = _
  rw [h3]

/-- **C101.** If every step crosses over at least one pair, a budget simulation with NSGA-III stores a
result of `N` vectors of the box for every budget, at no less than the cost asked for. -/
theorem C101_budget (hp : PowLaws pw) (he : 0 < eps) (hcf : ConfOk f cf) {N : ℕ} (h2 : 2 ≤ N)
    (ds : ℕ → ℕ → PairDraw K) (iter : ℕ → List ℕ → List ℕ) (sample : ℕ → List ℕ → ℕ → List ℕ)
    (hd : ∀ n, DrawsOk N (ds n) (iter n) (sample n))
    (hfirst : ∀ n, ∃ j, j < N / 2 ∧ (ds n j).first ≤ cf.rateC) (pop : List (List K))
    (hn : pop.length = N) (hbox : ∀ v ∈ pop, InBox v cf.dims) (budgets : List ℤ) (fuel : ℕ)
    (hfuel : ∀ b ∈ budgets, b ≤ fuel) :
    ∃ res o', budgetWorker (driver pw sq eps f cf ds iter sample) fuel budgets
        ⟨some (0, initCosted f cf pop), 0⟩ = some (res, o') ∧
      res.map (fun r => r.name) = budgets ∧
      ∀ r ∈ res, r.name ≤ r.cost ∧ ∃ p, r.pop = some p ∧ p.length = N ∧
        ∀ v ∈ p, InBox v cf.dims := by
  subst hn
  refine optDriver_worker
    (P := fun p : List (List K) => p.length = pop.length ∧ ∀ v ∈ p, InBox v cf.dims)
    (Inv := CGood f cf pop.length) ?_ budgets ?_ fuel hfuel 0 _ (initCosted_good hcf hbox) 0
  · intro n s g
    obtain ⟨raw, t, t1, t2, t3, t4, t5⟩ := stepCosted_spec (sq := sq) hp he hcf h2 g (hd n)
    refine ⟨t, t2, t3, ?_⟩
    obtain ⟨j, hj, hf⟩ := hfirst n
    have := makeOffspring_pos hf _ _ _ (by omega) (by omega) t1
    omega
  · intro n s b _ g _
    refine ⟨s, _, rfl, g, ⟨by rw [List.length_map, g.1.size, g.2], ?_⟩, le_rfl⟩
    intro v hv
    obtain ⟨x, hx, rfl⟩ := List.mem_map.1 hv
    exact g.1.box x hx

/-- **C101.** Without crossover and mutation (both rates 0 and no draw exactly 0) nothing is ever
evaluated after the start: a budget above `N` is never reached, and the run does not end. -/
theorem C101_stuck (hp : PowLaws pw) (he : 0 < eps) (hcf : ConfOk f cf) {N : ℕ} (h2 : 2 ≤ N)
    (ds : ℕ → ℕ → PairDraw K) (iter : ℕ → List ℕ → List ℕ) (sample : ℕ → List ℕ → ℕ → List ℕ)
    (hd : ∀ n, DrawsOk N (ds n) (iter n) (sample n))
    (hc : ∀ n j, cf.rateC < (ds n j).first)
    (hA : ∀ n j i, cf.rateM < ((ds n j).mutA i).select)
    (hB : ∀ n j i, cf.rateM < ((ds n j).mutB i).select) (pop : List (List K))
    (hn : pop.length = N) (hbox : ∀ v ∈ pop, InBox v cf.dims) (b : ℤ) (hb : N < b) (fuel : ℕ) :
    budgetRun (driver pw sq eps f cf ds iter sample) b fuel
      ⟨some (0, initCosted f cf pop), 0⟩ = none := by
  refine budgetRun_never _ hb _ (fun k => ?_) fuel
  simp only
  have key' : ∃ s : Costed K, (driver pw sq eps f cf ds iter sample).step^[k]
      (some (0, initCosted f cf pop)) = some (k, s) ∧ CGood f cf N s ∧ s.cost = N := by
    induction k with
    | zero =>
      subst hn
      exact ⟨_, rfl, initCosted_good hcf hbox, initCosted_cost _ _ _⟩
    | succ k ih =>
      obtain ⟨s, h1, g, h3⟩ := ih
      obtain ⟨raw, t, t1, t2, t3, t4, t5⟩ := stepCosted_spec (sq := sq) hp he hcf h2 g (hd k)
      have hz := makeOffspring_idle (hc k) (hA k) (hB k) _ _ _ t1
      refine ⟨t, ?_, t3, ?_⟩
      · rw [Function.iterate_succ_apply', h1]
        simp [driver, optDriver, t2]
      · rw [t5, evaluations_zero hz, h3]
        rfl
  obtain ⟨s, h1, -, h3⟩ := key'
  rw [h1]
  show (s.cost : ℤ) ≤ _
  rw [h3]

/-- Two pairs of children, the first by crossover and the second without: two of the four children are
evaluated, and the step costs 2. -/
example :
    let cf : Conf ℚ := ⟨[(0, 4)], 1, 1, 9 / 10, 0, 5, id, [[1, 0], [0, 1], [1 / 2, 1 / 2], [1, 1]], 2⟩
    let dr : ℚ → PairDraw ℚ := fun first => ⟨0, 1, first, fun _ => ⟨1 / 4, 1 / 4, 1 / 4⟩,
      fun _ => ⟨1 / 2, 1 / 2⟩, fun _ => ⟨1 / 2, 1 / 2⟩⟩
    let f : List ℚ → List ℚ := fun v => [v.getD 0 0, 4 - v.getD 0 0]
    let s0 := initCosted f cf [[0], [1], [2], [4]]
    s0.cost = 4 ∧
    (stepCosted (fun b _ => b) id (1 / 1000) f cf (fun j => dr (if j = 0 then 1 / 2 else 95 / 100)) id
      (fun l n => l.take n) s0).map (fun s => (s.cost, s.st.inds.map Ind.v)) =
      some (6, [[3 / 8], [2], [4], [17011 / 26014]]) := by
  decide +kernel

end Evogil.Nsgaiii
