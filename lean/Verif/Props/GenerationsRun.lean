import Verif.Model.GenerationsRun
import Verif.Lemmas.Driver
import Verif.Props.Generations
import Verif.Props.Evaluation

/-!
# C95: budget simulations with NSGA-II, SPEA2, IBEA and SMS-EMOA

From the constructor to the stored results: every budget is reached, and every stored result has as
many vectors as the initial population, all of them in the box.
-/

set_option linter.unusedSectionVars false

namespace Evogil.Generations

open Evaluation Spec

/-! ## Any driver whose steps cost something -/

section
variable {σ π : Type*} {step : ℕ → σ → Option σ} {cost : σ → ℕ}
  {finalize : ℕ → σ → Option (σ × π)} {Inv : σ → Prop}

theorem optDriver_iterate
    (hstep : ∀ n s, Inv s → ∃ s', step n s = some s' ∧ Inv s' ∧ cost s + 1 ≤ cost s') (k : ℕ) :
    ∀ (n : ℕ) (s : σ), Inv s → ∃ n' s', (optDriver step cost finalize).step^[k] (some (n, s))
      = some (n', s') ∧ Inv s' ∧ cost s + k ≤ cost s' := by
  induction k with
  | zero => intro n s h; exact ⟨n, s, rfl, h, by omega⟩
  | succ k ih =>
    intro n s h
    obtain ⟨s1, h1, h2, h3⟩ := hstep n s h
    obtain ⟨n', s', h4, h5, h6⟩ := ih (n + 1) s1 h2
    refine ⟨n', s', ?_, h5, by omega⟩
    rw [Function.iterate_succ_apply, ← h4]
    congr 1
    simp [optDriver, h1]

/-- If every step of a driver costs at least one evaluation, and finalization gives what `P` asks for
as soon as a budget is reached, then the worker stores a result for every budget, each with `P` and
with at least the cost asked for. -/
theorem optDriver_worker {P : π → Prop}
    (hstep : ∀ n s, Inv s → ∃ s', step n s = some s' ∧ Inv s' ∧ cost s + 1 ≤ cost s') :
    ∀ (budgets : List ℤ),
    (∀ n s b, b ∈ budgets → Inv s → b ≤ (cost s : ℤ) →
      ∃ s' r, finalize n s = some (s', r) ∧ Inv s' ∧ P r ∧ cost s ≤ cost s') →
    ∀ (fuel : ℕ), (∀ b ∈ budgets, b ≤ fuel) → ∀ (n : ℕ) (s : σ), Inv s → ∀ k,
    ∃ res o', budgetWorker (optDriver step cost finalize) fuel budgets ⟨some (n, s), k⟩
        = some (res, o') ∧ res.map (fun r => r.name) = budgets ∧
      ∀ r ∈ res, r.name ≤ r.cost ∧ ∃ p, r.pop = some p ∧ P p := by
  intro budgets
  induction budgets with
  | nil => intro _ fuel _ n s _ k; exact ⟨[], _, rfl, rfl, by simp⟩
  | cons b bs ih =>
    intro hfin fuel hfuel n s hs k
    obtain ⟨n1, s1, h1, h2, h3⟩ := optDriver_iterate (finalize := finalize) hstep fuel n s hs
    have hb := hfuel b (by simp)
    obtain ⟨⟨evs, o1⟩, hrun⟩ := Option.isSome_iff_exists.1
      (budgetRun_some_of_reach (optDriver step cost finalize) b fuel ⟨some (n, s), k⟩ (by
        simp only [h1]
        show b ≤ (cost s1 : ℤ)
        omega))
    obtain ⟨j, -, -, rfl, -, hj⟩ := budgetRun_spec _ _ _ _ _ _ hrun
    obtain ⟨n2, s2, h4, h5, -⟩ := optDriver_iterate (finalize := finalize) hstep j n s hs
    simp only [h4] at hj hrun
    have hj' : b ≤ (cost s2 : ℤ) := hj
    obtain ⟨s3, r, h6, h7, h8, h9⟩ := hfin n2 s2 b (by simp) h5 hj'
    obtain ⟨res, o', h10, h11, h12⟩ := ih (fun n s b hb => hfin n s b (List.mem_cons_of_mem _ hb))
      fuel (fun b hb => hfuel b (List.mem_cons_of_mem _ hb)) (n2 + 1) s3 h7 (k + j)
    have hf : (optDriver step cost finalize).finalize (some (n2, s2)) = (some (n2 + 1, s3), some r) := by
      simp [optDriver, h6]
    refine ⟨⟨b, (cost s3 : ℤ), some r⟩ :: res, o', ?_, by simp [h11], ?_⟩
    · simp only [budgetWorker, hrun, hf, h10, Option.map_some]
      rfl
    · intro x hx
      rcases List.mem_cons.1 hx with rfl | hx
      · refine ⟨?_, r, rfl, h8⟩
        show b ≤ (cost s3 : ℤ)
        omega
      · exact h12 x hx

end

/-! ## Runs with linear costs -/

/-- A driver all of whose states cost at most `n` never reaches a budget above `n`. -/
theorem budgetRun_never {σ π : Type*} (d : DriverSig σ π) {b n : ℤ} (hb : n < b) (o : DriverObj σ)
    (h : ∀ k, d.cost (d.step^[k] o.st) ≤ n) (fuel : ℕ) : budgetRun d b fuel o = none := by
  cases hr : budgetRun d b fuel o with
  | none => rfl
  | some r =>
    obtain ⟨k, -, -, -, -, h1⟩ := budgetRun_spec _ _ _ _ _ _ hr
    have h2 := h k
    omega

/-- If every step costs `g`, a run overshoots the budget by less than `g`. -/
theorem budgetRun_overshoot {σ π : Type*} (d : DriverSig σ π) {b a g : ℤ} (hb : a < b)
    (o o' : DriverObj σ) (evs : List (Event ProgressMessage))
    (h : ∀ k : ℕ, d.cost (d.step^[k] o.st) = a + k * g) (fuel : ℕ)
    (hr : budgetRun d b fuel o = some (evs, o')) : b ≤ d.cost o'.st ∧ d.cost o'.st < b + g := by
  obtain ⟨n, -, -, rfl, h1, h2⟩ := budgetRun_spec _ _ _ _ _ _ hr
  refine ⟨h2, ?_⟩
  cases n with
  | zero => rw [h 0] at h2; simp at h2; omega
  | succ n =>
    have h3 := h1 n (by omega)
    rw [h n] at h3
    simp only [h (n + 1)]
    push_cast
    have : ((n : ℤ) + 1) * g = n * g + g := by ring
    rw [this]
    omega

/-- What a result stored for a population of `N` should be. -/
def GoodResult {K : Type*} [LE K] (dims : List (K × K)) (N : ℕ) (r : List (List K)) : Prop :=
  r.length = N ∧ ∀ v ∈ r, InBox v dims

/-! ## NSGA-II -/

section nsgaii
variable {K : Type*} [Field K] [LinearOrder K] [IsStrictOrderedRing K] [FloorSemiring K]
  {A : Type*} [DecidableEq A]

/-- Without an archive the cost of an evaluation is the number of individuals without objectives. -/
theorem evalAll_none {V F : Type*} (key : V → A) (fit : V → F) :
    ∀ (inds : List (Ind V F)) (st : Acc V A F), st.archive = none →
      (evalAll key fit st inds).1.archive = none ∧
      (evalAll key fit st inds).1.cost = st.cost + inds.countP fun i => i.objectives.isNone := by
  intro inds
  induction inds with
  | nil => intro st h; exact ⟨h, by simp [evalAll]⟩
  | cons i inds ih =>
    intro st h
    have h1 : (evalOne key fit st i).1.archive = none ∧ (evalOne key fit st i).1.cost
        = st.cost + if i.objectives.isNone then 1 else 0 := by
      unfold evalOne
      cases ho : i.objectives with
      | some f => exact ⟨h, by simp⟩
      | none => rw [h]; exact ⟨rfl, by simp⟩
    obtain ⟨h2, h3⟩ := ih _ h1.1
    simp only [evalAll]
    refine ⟨h2, ?_⟩
    rw [h3, h1.2, List.countP_cons]
    omega

variable {S : Setup K} {key : List K → A} {fit : List K → List K} {m : ℕ} {c : K} {N : ℕ}

theorem NInv.step_cost (hS : S.Valid)
    {iter : List (Ind (List K) (List K)) → List (Ind (List K) (List K))}
    (hiter : ∀ l, (iter l).Perm l) {dm : ℕ → MateDraw} (hdm : ∀ i, (dm i).Valid N)
    {dv : ℕ → VarDraw K} (hdv : ∀ i, (dv i).Valid) {s : NState K A} (h : NInv S m c N s)
    (ha : s.acc.archive = none) {s' : NState K A}
    (hs : nsgaiiStep S key fit m iter dm dv s = some s') :
    s'.acc.archive = none ∧ s'.acc.cost = s.acc.cost + ⌊c * (N : K)⌋₊ := by
  obtain ⟨kept, fitness, h1, h2, h3⟩ := nsgaiiSelect_spec hiter S.eps m s.popSize h.nodup
  rw [h.size, min_eq_left h.large] at h2
  have hmem : ∀ x ∈ kept, x ∈ s.individuals := fun x hx => h3.subset hx
  obtain ⟨vs, h4, h5, -⟩ := offspring_box hS (nsgaiiBetter fitness) (nsgaiiBetter_or fitness)
    (fun x => x.v) (dm := dm) (dv := dv) (individuals := kept) (by rw [h2]; exact hdm) hdv
    (fun x hx => h.box x (hmem x hx)) s.matingSize
  simp only [nsgaiiStep, h1, h4, Option.some.injEq] at hs
  subst hs
  obtain ⟨e1, e2⟩ := evalAll_none key fit (kept ++ newInds s.nextId vs) s.acc ha
  refine ⟨e1, ?_⟩
  simp only
  rw [e2, List.countP_append]
  have hk : kept.countP (fun i => i.objectives.isNone) = 0 := by
    rw [List.countP_eq_zero]
    intro x hx
    obtain ⟨f, hf, -⟩ := h.objs x (hmem x hx)
    simp [hf]
  have hn : (newInds s.nextId vs).countP (fun i => i.objectives.isNone) = vs.length := by
    rw [← newInds_length s.nextId vs, List.countP_eq_length]
    intro x hx
    simp [(newInds_none _ _ _ hx).1]
  rw [hk, hn, h5, h.mating]
  omega

theorem NInv.finish_cost {iter : List (Ind (List K) (List K)) → List (Ind (List K) (List K))}
    {s : NState K A} (h : NInv S m c N s) (ha : s.acc.archive = none) {s' : NState K A}
    {r : List (List K)} (hs : nsgaiiFinish S key fit m iter s = some (s', r)) :
    s'.acc.archive = none ∧ s'.acc.cost = s.acc.cost := by
  obtain ⟨e1, e2⟩ := evalAll_none key fit s.individuals s.acc ha
  have hk : s.individuals.countP (fun i => i.objectives.isNone) = 0 := by
    rw [List.countP_eq_zero]
    intro x hx
    obtain ⟨f, hf, -⟩ := h.objs x hx
    simp [hf]
  rw [hk] at e2
  simp only [nsgaiiFinish] at hs
  cases hsel : nsgaiiSelect iter S.eps m s.popSize (evalAll key fit s.acc s.individuals).2 with
  | none => rw [hsel] at hs; simp at hs
  | some p =>
    rw [hsel] at hs
    simp only [Option.some.injEq, Prod.mk.injEq] at hs
    obtain ⟨rfl, -⟩ := hs
    exact ⟨e1, e2⟩

theorem nsgaiiInit_reach {population : List (List K)} (hn : population.length = N)
    (hbox : ∀ v ∈ population, InBox v S.dims) :
    NReach S key fit m c N (nsgaiiInit S key fit none c population) :=
  .start none (by simp) population hn hbox

/-- Cost of the constructor: one evaluation per vector. -/
theorem nsgaiiInit_cost (population : List (List K)) :
    (nsgaiiInit S key fit none c population).acc.archive = none ∧
    (nsgaiiInit S key fit none c population).acc.cost = population.length := by
  obtain ⟨e1, e2⟩ := evalAll_none key fit (newInds 0 (population.map S.trim)) ⟨0, none, []⟩ rfl
  refine ⟨e1, ?_⟩
  show (evalAll key fit ⟨0, none, []⟩ (newInds 0 (population.map S.trim))).1.cost = _
  rw [e2]
  have hn : (newInds 0 (population.map S.trim)).countP (fun i => i.objectives.isNone)
      = population.length := by
    rw [← List.length_map (f := S.trim), ← newInds_length 0 (population.map S.trim),
      List.countP_eq_length]
    intro x hx
    simp [(newInds_none _ _ _ hx).1]
  rw [hn]
  exact Nat.zero_add _

/-- **C95 for NSGA-II.** If a generation has at least one offspring, a budget simulation stores a
result for every budget, whatever is drawn: `N` vectors in the box, at no less than the cost asked
for. -/
theorem C95_nsgaii (hS : S.Valid) (hfit : ∀ v, (fit v).length = m) (hM : 1 ≤ ⌊c * (N : K)⌋₊)
    (iter : ℕ → List (Ind (List K) (List K)) → List (Ind (List K) (List K)))
    (hiter : ∀ n l, (iter n l).Perm l) (dm : ℕ → ℕ → MateDraw) (hdm : ∀ n i, (dm n i).Valid N)
    (dv : ℕ → ℕ → VarDraw K) (hdv : ∀ n i, (dv n i).Valid) (population : List (List K))
    (hn : population.length = N) (hbox : ∀ v ∈ population, InBox v S.dims) (budgets : List ℤ)
    (fuel : ℕ) (hfuel : ∀ b ∈ budgets, b ≤ fuel) :
    ∃ res o', budgetWorker (nsgaiiDriver S key fit m iter dm dv) fuel budgets
        ⟨some (0, nsgaiiInit S key fit none c population), 0⟩ = some (res, o') ∧
      res.map (fun r => r.name) = budgets ∧
      ∀ r ∈ res, r.name ≤ r.cost ∧ ∃ p, r.pop = some p ∧ GoodResult S.dims N p := by
  refine optDriver_worker (Inv := fun s : NState K A => NInv S m c N s ∧ s.acc.archive = none)
    ?_ budgets ?_ fuel hfuel 0 _
    ⟨((nsgaiiInit_reach hn hbox).inv hS hfit).1, (nsgaiiInit_cost population).1⟩ 0
  · rintro n s ⟨h, ha⟩
    obtain ⟨s', h1, h2, -⟩ := h.step (key := key) hS hfit (hiter n) (hdm n) (hdv n)
    obtain ⟨h3, h4⟩ := h.step_cost hS (hiter n) (hdm n) (hdv n) ha h1
    exact ⟨s', h1, ⟨h2, h3⟩, by omega⟩
  · rintro n s b - ⟨h, ha⟩ -
    obtain ⟨s', r, h1, h2, h3, rfl⟩ := h.finish (key := key) hfit (hiter n)
    obtain ⟨h4, h5⟩ := h.finish_cost ha h1
    refine ⟨s', _, h1, ⟨h2, h4⟩, ⟨by rw [List.length_map, h3], ?_⟩, h5.ge⟩
    intro v hv
    obtain ⟨x, hx, rfl⟩ := List.mem_map.1 hv
    exact h2.box x hx

/-- **C95.** What the generations of NSGA-II cost: `N` evaluations at the start, then as many as there
are offspring; finalization is free. -/
theorem C95_nsgaii_cost (hS : S.Valid) (hfit : ∀ v, (fit v).length = m)
    (iter : ℕ → List (Ind (List K) (List K)) → List (Ind (List K) (List K)))
    (hiter : ∀ n l, (iter n l).Perm l) (dm : ℕ → ℕ → MateDraw) (hdm : ∀ n i, (dm n i).Valid N)
    (dv : ℕ → ℕ → VarDraw K) (hdv : ∀ n i, (dv n i).Valid) (population : List (List K))
    (hn : population.length = N) (hbox : ∀ v ∈ population, InBox v S.dims) (k : ℕ) :
    (nsgaiiDriver S key fit m iter dm dv).cost ((nsgaiiDriver S key fit m iter dm dv).step^[k]
      (some (0, nsgaiiInit S key fit none c population))) = N + k * ⌊c * (N : K)⌋₊ := by
  have key' : ∃ s : NState K A, (nsgaiiDriver S key fit m iter dm dv).step^[k]
      (some (0, nsgaiiInit S key fit none c population)) = some (k, s) ∧ NInv S m c N s ∧
      s.acc.archive = none ∧ s.acc.cost = N + k * ⌊c * (N : K)⌋₊ := by
    induction k with
    | zero =>
      refine ⟨_, rfl, ((nsgaiiInit_reach hn hbox).inv hS hfit).1, (nsgaiiInit_cost population).1, ?_⟩
      rw [(nsgaiiInit_cost population).2, hn]; omega
    | succ k ih =>
      obtain ⟨s, h1, h2, h3, h4⟩ := ih
      obtain ⟨s', h5, h6, -⟩ := h2.step (key := key) hS hfit (hiter k) (hdm k) (hdv k)
      obtain ⟨h7, h8⟩ := h2.step_cost hS (hiter k) (hdm k) (hdv k) h3 h5
      refine ⟨s', ?_, h6, h7, ?_⟩
      · rw [Function.iterate_succ_apply', h1]
        simp [nsgaiiDriver, optDriver, h5]
      · rw [h8, h4, Nat.succ_mul]; omega
  obtain ⟨s, h1, -, -, h4⟩ := key'
  rw [h1]
  show (s.acc.cost : ℤ) = _
  rw [h4]
  push_cast
  rfl

/-- **C95.** With an empty generation (`int(mating_population_size * N) = 0`) the cost never grows: a
budget above `N` is never reached, and the run does not end. -/
theorem C95_nsgaii_empty (hS : S.Valid) (hfit : ∀ v, (fit v).length = m) (hM : ⌊c * (N : K)⌋₊ = 0)
    (iter : ℕ → List (Ind (List K) (List K)) → List (Ind (List K) (List K)))
    (hiter : ∀ n l, (iter n l).Perm l) (dm : ℕ → ℕ → MateDraw) (hdm : ∀ n i, (dm n i).Valid N)
    (dv : ℕ → ℕ → VarDraw K) (hdv : ∀ n i, (dv n i).Valid) (population : List (List K))
    (hn : population.length = N) (hbox : ∀ v ∈ population, InBox v S.dims) (b : ℤ) (hb : N < b)
    (fuel : ℕ) :
    budgetRun (nsgaiiDriver S key fit m iter dm dv) b fuel
      ⟨some (0, nsgaiiInit S key fit none c population), 0⟩ = none := by
  refine budgetRun_never _ hb _ (fun k => ?_) fuel
  simp only
  rw [C95_nsgaii_cost hS hfit iter hiter dm hdm dv hdv population hn hbox k, hM]
  simp

/-- **C95.** The cost of a run with a budget above `N` exceeds it by less than one generation. -/
theorem C95_nsgaii_overshoot (hS : S.Valid) (hfit : ∀ v, (fit v).length = m)
    (iter : ℕ → List (Ind (List K) (List K)) → List (Ind (List K) (List K)))
    (hiter : ∀ n l, (iter n l).Perm l) (dm : ℕ → ℕ → MateDraw) (hdm : ∀ n i, (dm n i).Valid N)
    (dv : ℕ → ℕ → VarDraw K) (hdv : ∀ n i, (dv n i).Valid) (population : List (List K))
    (hn : population.length = N) (hbox : ∀ v ∈ population, InBox v S.dims) (b : ℤ) (hb : N < b)
    (fuel : ℕ) (evs : List (Event ProgressMessage)) (o' : DriverObj (Option (ℕ × NState K A)))
    (h : budgetRun (nsgaiiDriver S key fit m iter dm dv) b fuel
      ⟨some (0, nsgaiiInit S key fit none c population), 0⟩ = some (evs, o')) :
    b ≤ (nsgaiiDriver S key fit m iter dm dv).cost o'.st ∧
      (nsgaiiDriver S key fit m iter dm dv).cost o'.st < b + ⌊c * (N : K)⌋₊ :=
  budgetRun_overshoot _ hb _ o' evs
    (C95_nsgaii_cost hS hfit iter hiter dm hdm dv hdv population hn hbox) fuel h

/-- Two vectors, as many offspring, budgets 3 and 5: the costs are 4 and 6. -/
example : (budgetWorker (nsgaiiDriver exSetup (fun v : List ℚ => v) exFit 2 (fun _ l => l)
      (fun _ _ => ⟨0, 1, true⟩) (fun _ _ => exDraw)) 5 [3, 5]
      ⟨some (0, nsgaiiInit exSetup id exFit none 1 [[0], [1 / 2]]), 0⟩).map
      (fun r => r.1.map fun x => (x.name, x.cost, x.pop.map List.length))
    = some [(3, 4, some 2), (5, 6, some 2)] := by decide +kernel

end nsgaii

/-! ## Costs of the other drivers -/

section
variable {V A F : Type*}

/-- Without an archive the evaluation of a population charges `size` once. -/
theorem chargeAll_none (key : V → A) (fit : V → F) (size : ℕ) {pop : List V} (h : pop ≠ []) :
    (chargeAll key fit none size pop).1 = size := by
  obtain ⟨pop, v, rfl⟩ := List.eq_nil_or_concat pop |>.resolve_left h
  rw [List.concat_eq_append, chargeAll_append]
  rfl

end

/-! ## SPEA2 -/

section spea2
variable {K : Type*} [Field K] [LinearOrder K] [IsStrictOrderedRing K] {A : Type*}
  {S : Setup K} {dist : List K → List K → K} {key : List K → A} {fit : List K → List K} {m N : ℕ}

theorem spea2Step_cost (hN : 1 ≤ N) {dt : ℕ → (ℕ × ℕ) × (ℕ × ℕ)} {dv : ℕ → VarDraw K}
    {s s' : SState K} (h : SInv S m N s) (hs : spea2Step S dist key fit none dt dv s = some s') :
    s'.cost = s.cost + N := by
  have he : (spea2Eval key fit none s.individuals).1 = N := by
    have := chargeAll_none key fit s.individuals.length (pop := s.individuals.map fun x => x.v) (by
      intro e
      rw [List.map_eq_nil_iff] at e
      have := h.inds
      rw [e, List.length_nil] at this
      omega)
    rw [h.inds] at this
    simp only [spea2Eval, h.inds, this]
  simp only [spea2Step] at hs
  split at hs
  · simp at hs
  split at hs
  · simp at hs
  split at hs
  · simp at hs
  simp only [Option.some.injEq] at hs
  subst hs
  simp only [he]

/-- The states of SPEA2 after the constructor or a step: the archive is full as soon as something
was charged. -/
def SFull (S : Setup K) (m N : ℕ) (s : SState K) : Prop :=
  SInv S m N s ∧ (s.cost = 0 ∨ s.archive.length = N)

theorem SFull.start (hS : S.Valid) {population : List (List K)} (hn : population.length = N)
    (hbox : ∀ v ∈ population, InBox v S.dims) : SFull S m N (spea2Init S population) := by
  refine ⟨⟨hn, by simp [spea2Init, newInds_length, hn], ?_, Or.inl rfl, by simp [spea2Init]⟩,
    Or.inl rfl⟩
  intro x hx
  obtain ⟨v, hv, e⟩ := List.mem_map.1 (newInds_none _ _ _ hx).2
  rw [← e]
  exact hS.trim v (hbox v hv)

/-- **C95 for SPEA2.** With at least two individuals a budget simulation stores a result for every
positive budget, whatever is drawn: `N` vectors in the box, at no less than the cost asked for. -/
theorem C95_spea2 (hS : S.Valid) (hdist : ∀ a b, 0 ≤ dist a b) (hfit : ∀ v, (fit v).length = m)
    (hN : 2 ≤ N) (dt : ℕ → ℕ → (ℕ × ℕ) × (ℕ × ℕ))
    (hdt : ∀ n i, PairDraw N (dt n i).1 ∧ PairDraw N (dt n i).2)
    (dv : ℕ → ℕ → VarDraw K) (hdv : ∀ n i, (dv n i).Valid) (population : List (List K))
    (hn : population.length = N) (hbox : ∀ v ∈ population, InBox v S.dims) (budgets : List ℤ)
    (hpos : ∀ b ∈ budgets, 0 < b) (fuel : ℕ) (hfuel : ∀ b ∈ budgets, b ≤ fuel) :
    ∃ res o', budgetWorker (spea2Driver S dist key fit none dt dv) fuel budgets
        ⟨some (0, spea2Init S population), 0⟩ = some (res, o') ∧
      res.map (fun r => r.name) = budgets ∧
      ∀ r ∈ res, r.name ≤ r.cost ∧ ∃ p, r.pop = some p ∧ GoodResult S.dims N p := by
  refine optDriver_worker (Inv := SFull S m N) ?_ budgets ?_ fuel hfuel 0 _ (SFull.start hS hn hbox) 0
  · rintro n s ⟨h, -⟩
    obtain ⟨s', h1, h2, h3⟩ := h.step (key := key) (fa := none) hS hdist hfit hN (by simp) (hdt n)
      (hdv n)
    exact ⟨s', h1, ⟨h2, Or.inr h3⟩, by rw [spea2Step_cost (by omega) h h1]; omega⟩
  · rintro n s b hb ⟨h, hf⟩ hc
    have := hpos b hb
    have hl : s.archive.length = N := hf.resolve_left (by omega)
    refine ⟨s, _, rfl, ⟨h, hf⟩, ⟨by rw [spea2Final, List.length_map, hl], ?_⟩, le_rfl⟩
    intro v hv
    obtain ⟨x, hx, rfl⟩ := List.mem_map.1 hv
    exact (h.abox x hx).1

/-- **C95.** What the generations of SPEA2 cost: `N` evaluations each, nothing at the start. -/
theorem C95_spea2_cost (hS : S.Valid) (hdist : ∀ a b, 0 ≤ dist a b) (hfit : ∀ v, (fit v).length = m)
    (hN : 2 ≤ N) (dt : ℕ → ℕ → (ℕ × ℕ) × (ℕ × ℕ))
    (hdt : ∀ n i, PairDraw N (dt n i).1 ∧ PairDraw N (dt n i).2)
    (dv : ℕ → ℕ → VarDraw K) (hdv : ∀ n i, (dv n i).Valid) (population : List (List K))
    (hn : population.length = N) (hbox : ∀ v ∈ population, InBox v S.dims) (k : ℕ) :
    (spea2Driver S dist key fit none dt dv).cost ((spea2Driver S dist key fit none dt dv).step^[k]
      (some (0, spea2Init S population))) = k * N := by
  have key' : ∃ s : SState K, (spea2Driver S dist key fit none dt dv).step^[k]
      (some (0, spea2Init S population)) = some (k, s) ∧ SInv S m N s ∧ s.cost = k * N := by
    induction k with
    | zero => exact ⟨_, rfl, (SFull.start hS hn hbox).1, by simp [spea2Init]⟩
    | succ k ih =>
      obtain ⟨s, h1, h2, h3⟩ := ih
      obtain ⟨s', h4, h5, -⟩ := h2.step (key := key) (fa := none) hS hdist hfit hN (by simp) (hdt k)
        (hdv k)
      refine ⟨s', ?_, h5, ?_⟩
      · rw [Function.iterate_succ_apply', h1]
        simp [spea2Driver, optDriver, h4]
      · rw [spea2Step_cost (by omega) h2 h4, h3, Nat.succ_mul]
  obtain ⟨s, h1, -, h4⟩ := key'
  rw [h1]
  show (s.cost : ℤ) = _
  rw [h4]
  push_cast
  rfl

/-- **C95.** The cost of a run with a positive budget exceeds it by less than `N`. -/
theorem C95_spea2_overshoot (hS : S.Valid) (hdist : ∀ a b, 0 ≤ dist a b)
    (hfit : ∀ v, (fit v).length = m) (hN : 2 ≤ N) (dt : ℕ → ℕ → (ℕ × ℕ) × (ℕ × ℕ))
    (hdt : ∀ n i, PairDraw N (dt n i).1 ∧ PairDraw N (dt n i).2)
    (dv : ℕ → ℕ → VarDraw K) (hdv : ∀ n i, (dv n i).Valid) (population : List (List K))
    (hn : population.length = N) (hbox : ∀ v ∈ population, InBox v S.dims) (b : ℤ) (hb : 0 < b)
    (fuel : ℕ) (evs : List (Event ProgressMessage)) (o' : DriverObj (Option (ℕ × SState K)))
    (h : budgetRun (spea2Driver S dist key fit none dt dv) b fuel
      ⟨some (0, spea2Init S population), 0⟩ = some (evs, o')) :
    b ≤ (spea2Driver S dist key fit none dt dv).cost o'.st ∧
      (spea2Driver S dist key fit none dt dv).cost o'.st < b + N :=
  budgetRun_overshoot _ hb _ o' evs (fun k => by
    rw [C95_spea2_cost hS hdist hfit hN dt hdt dv hdv population hn hbox k]; ring) fuel h

/-- The budget has to be positive: nothing is stored for the budget 0, as the archive is empty. -/
example : (budgetWorker (spea2Driver exSetup (fun _ _ => 0) id exFit none (fun _ _ => ((0, 1), (1, 0)))
      (fun _ _ => exDraw)) 5 [0, 3] ⟨some (0, spea2Init exSetup [[0], [1 / 2]]), 0⟩).map
      (fun r => r.1.map fun x => (x.name, x.cost, x.pop.map List.length))
    = some [(0, 0, some 0), (3, 4, some 2)] := by decide +kernel

end spea2

/-! ## IBEA -/

section ibea
variable {K : Type*} [Field K] [LinearOrder K] [IsStrictOrderedRing K] [FloorSemiring K]
  {S : Setup K} {ex : K → K} {kappa : K} {objectives : List (List K → K)} {c : K} {N : ℕ}

theorem ibeaScale_cost {eps : K} {inArchive : List K → Bool} {s s' : IState K}
    (h : ibeaScale eps objectives inArchive false s = some s') :
    s'.cost = s.cost + s.individuals.length ∧ s'.individuals.length = s.individuals.length := by
  simp only [ibeaScale] at h
  split at h
  · simp at h
  simp only [Option.some.injEq] at h
  subst h
  simp [ibeaCharge]

theorem ibeaInit_cost {population : List (List K)} {s : IState K}
    (h : ibeaInit S objectives c population = some s) : s.cost = population.length := by
  have := (ibeaScale_cost h).1
  simp only [newIInds_length, List.length_map, Nat.zero_add] at this
  exact this

theorem ibeaStep_cost {inArchive : List K → Bool} {dm : ℕ → MateDraw} {dv : ℕ → VarDraw K}
    {s s' : IState K} (h : ibeaStep S ex kappa objectives inArchive false dm dv s = some s') :
    s'.cost = s.cost + s'.individuals.length := by
  simp only [ibeaStep] at h
  split at h
  · simp at h
  split at h
  · simp at h
  obtain ⟨h1, h2⟩ := ibeaScale_cost h
  rw [h1, h2]

theorem ibeaFinish_cost {inArchive : List K → Bool} {s s' : IState K} {r : List (List K)}
    (h : ibeaFinish S ex kappa objectives inArchive false s = some (s', r)) :
    s'.cost = s.cost + s.individuals.length := by
  simp only [ibeaFinish] at h
  split at h
  · simp at h
  · rename_i s1 hs
    split at h
    · simp at h
    · simp only [Option.some.injEq, Prod.mk.injEq] at h
      obtain ⟨rfl, -⟩ := h
      exact (ibeaScale_cost hs).1

/-- **C95 for IBEA.** With at least one individual a budget simulation stores a result for every
budget, whatever is drawn: `N` vectors in the box, at no less than the cost asked for. -/
theorem C95_ibea (hS : S.Valid) (hN : 1 ≤ N) (dm : ℕ → ℕ → MateDraw) (hdm : ∀ n i, (dm n i).Valid N)
    (dv : ℕ → ℕ → VarDraw K) (hdv : ∀ n i, (dv n i).Valid) (population : List (List K))
    (hn : population.length = N) (hbox : ∀ v ∈ population, InBox v S.dims) (budgets : List ℤ)
    (fuel : ℕ) (hfuel : ∀ b ∈ budgets, b ≤ fuel) :
    ∃ s, ibeaInit S objectives c population = some s ∧
    ∃ res o', budgetWorker (ibeaDriver S ex kappa objectives dm dv) fuel budgets ⟨some (0, s), 0⟩
        = some (res, o') ∧
      res.map (fun r => r.name) = budgets ∧
      ∀ r ∈ res, r.name ≤ r.cost ∧ ∃ p, r.pop = some p ∧ GoodResult S.dims N p := by
  obtain ⟨s0, h0, hi, -⟩ := ibeaInit_spec (objectives := objectives) (c := c) hS hN hn hbox
  refine ⟨s0, h0, ?_⟩
  refine optDriver_worker (Inv := IInv S c N) ?_ budgets ?_ fuel hfuel 0 _ hi 0
  · rintro n s h
    obtain ⟨s', h1, h2, h3⟩ := h.step (ex := ex) (kappa := kappa) (objectives := objectives) hS hN
      (fun _ => false) false (hdm n) (hdv n)
    exact ⟨s', h1, h2, by rw [ibeaStep_cost h1, h3]; omega⟩
  · rintro n s b - h -
    obtain ⟨s', r, h1, h2, h3, rfl⟩ := h.finish (ex := ex) (kappa := kappa)
      (objectives := objectives) hN (fun _ => false) false
    refine ⟨s', _, h1, h2, ⟨by rw [List.length_map, h3], ?_⟩, by rw [ibeaFinish_cost h1]; omega⟩
    intro v hv
    obtain ⟨x, hx, rfl⟩ := List.mem_map.1 hv
    exact h2.box x hx

/-- **C95.** What IBEA charges: every step pays for the kept individuals again, and even asking for
the result is charged. -/
theorem C95_ibea_cost (hS : S.Valid) (hN : 1 ≤ N) (s : IState K) (h : IReach S ex kappa objectives c N s) :
    (∀ dm dv, (∀ i, MateDraw.Valid N (dm i)) → (∀ i, VarDraw.Valid (dv i)) →
      ∃ s', ibeaStep S ex kappa objectives (fun _ => false) false dm dv s = some s' ∧
        s'.cost = s.cost + (N + ⌊c * (N : K)⌋₊)) ∧
    ∃ s' r, ibeaFinish S ex kappa objectives (fun _ => false) false s = some (s', r) ∧
      s'.cost = s.cost + s.individuals.length ∧ s.cost < s'.cost := by
  obtain ⟨hi, -⟩ := h.inv hS hN
  constructor
  · intro dm dv hdm hdv
    obtain ⟨s', h1, -, h3⟩ := hi.step (ex := ex) (kappa := kappa) (objectives := objectives) hS hN
      (fun _ => false) false hdm hdv
    exact ⟨s', h1, by rw [ibeaStep_cost h1, h3]⟩
  · obtain ⟨s', r, h1, -⟩ := hi.finish (ex := ex) (kappa := kappa)
      (objectives := objectives) hN (fun _ => false) false
    have := hi.large
    exact ⟨s', r, h1, ibeaFinish_cost h1, by rw [ibeaFinish_cost h1]; omega⟩

/-- Two vectors, as many offspring: 2 evaluations at the start, 4 for the step and 4 more for the
result. -/
example : ((ibeaInit exSetup [fun v => v.sum, fun v => 1 - v.sum] 1 [[0], [1 / 2]]).bind fun s =>
      (budgetWorker (ibeaDriver exSetup (fun x => x) 1 [fun v => v.sum, fun v => 1 - v.sum]
        (fun _ _ => ⟨0, 1, true⟩) (fun _ _ => exDraw)) 5 [3, 5] ⟨some (0, s), 0⟩).map
      (fun r => r.1.map fun x => (x.name, x.cost, x.pop.map List.length)))
    = some [(3, 10, some 2), (5, 12, some 2)] := by decide +kernel

end ibea

/-! ## SMS-EMOA -/

section smsemoa
variable {K : Type*} [Field K] [LinearOrder K] [IsStrictOrderedRing K] [FloorSemiring K]
  {A : Type*} {S : Setup K} {key : List K → A} {fit : List K → List K} {m : ℕ} {mult : K} {N : ℕ}

theorem smsTurn_cost {iter : List (Ind (List K) (List K)) → List (Ind (List K) (List K))}
    {hv : List (List K) → K} {t : ℕ × ℕ} {d : VarDraw K} {s s' : MState K}
    (h : smsTurn S key fit none iter hv t d s = some s') :
    s'.cost = s.cost + s.individuals.length := by
  simp only [smsTurn] at h
  split at h
  · simp at h
  split at h
  · simp at h
  simp only [Option.some.injEq] at h
  subst h
  simp only [smsEval]
  rw [chargeAll_none key fit _ (by simp [newInds])]

theorem smsTurns_cost (hS : S.Valid) (hfit : ∀ v, (fit v).length = m)
    {iter : List (Ind (List K) (List K)) → List (Ind (List K) (List K))}
    (hiter : ∀ l, (iter l).Perm l) (hv : List (List K) → K) {dt : ℕ → ℕ × ℕ}
    (hdt : ∀ i, PairDraw N (dt i)) {dv : ℕ → VarDraw K} (hdv : ∀ i, (dv i).Valid) (n : ℕ) :
    ∀ (k : ℕ) (s s' : MState K), MInv S m mult N s →
      smsTurns S key fit none iter hv dt dv k n s = some s' → s'.cost = s.cost + n * N := by
  induction n with
  | zero =>
    intro k s s' _ h
    simp only [smsTurns, Option.some.injEq] at h
    subst h
    omega
  | succ n ih =>
    intro k s s' hi h
    obtain ⟨s1, h1, h2⟩ := hi.turn (key := key) (fa := none) hS hfit (by simp) hiter hv (hdt k) (hdv k)
    simp only [smsTurns, h1] at h
    rw [ih (k + 1) s1 s' h2 h, smsTurn_cost h1, hi.size, Nat.succ_mul]
    omega

theorem smsInit_cost (hN : 1 ≤ N) {population : List (List K)} (hn : population.length = N) :
    (smsInit S key fit none mult population).cost = N := by
  simp only [smsInit, smsEval]
  rw [chargeAll_none, newInds_length, List.length_map, hn]
  intro e
  have := congrArg List.length e
  rw [List.length_map, newInds_length, List.length_map, hn, List.length_nil] at this
  omega

/-- **C95 for SMS-EMOA.** If an epoch has at least one turn, a budget simulation stores a result for
every budget, whatever is drawn: `N` vectors in the box, at no less than the cost asked for. -/
theorem C95_smsemoa (hS : S.Valid) (hfit : ∀ v, (fit v).length = m) (hM : 1 ≤ ⌊(N : K) * mult⌋₊)
    (iter : ℕ → List (Ind (List K) (List K)) → List (Ind (List K) (List K)))
    (hiter : ∀ n l, (iter n l).Perm l) (hv : List (List K) → K) (dt : ℕ → ℕ → ℕ × ℕ)
    (hdt : ∀ n i, PairDraw N (dt n i)) (dv : ℕ → ℕ → VarDraw K) (hdv : ∀ n i, (dv n i).Valid)
    (population : List (List K)) (hn : population.length = N)
    (hbox : ∀ v ∈ population, InBox v S.dims) (budgets : List ℤ)
    (fuel : ℕ) (hfuel : ∀ b ∈ budgets, b ≤ fuel) :
    ∃ res o', budgetWorker (smsDriver S key fit none iter hv dt dv) fuel budgets
        ⟨some (0, smsInit S key fit none mult population), 0⟩ = some (res, o') ∧
      res.map (fun r => r.name) = budgets ∧
      ∀ r ∈ res, r.name ≤ r.cost ∧ ∃ p, r.pop = some p ∧ GoodResult S.dims N p := by
  have hN : 1 ≤ N := by
    rcases Nat.eq_zero_or_pos N with e | e
    · rw [e] at hM; simp at hM
    · exact e
  refine optDriver_worker (Inv := MInv S m mult N) ?_ budgets ?_ fuel hfuel 0 _
    ((MReach.start (fit := fit) (key := key) (mult := mult) none (by simp) population hn hbox).inv
      hS hfit) 0
  · rintro n s h
    obtain ⟨s', h1, h2⟩ := MInv.turns (key := key) (fa := none) hS hfit (by simp) (hiter n) hv
      (hdt n) (hdv n) s.epochLength 0 s h
    refine ⟨s', h1, h2, ?_⟩
    rw [smsTurns_cost hS hfit (hiter n) hv (hdt n) (hdv n) _ _ _ _ h h1, h.epoch]
    have := Nat.mul_le_mul hM hN
    omega
  · rintro n s b - h -
    refine ⟨s, _, rfl, h, ⟨by rw [smsFinal, List.length_map, h.size], ?_⟩, le_rfl⟩
    intro v hv
    obtain ⟨x, hx, rfl⟩ := List.mem_map.1 hv
    exact h.box x hx

/-- **C95.** What the epochs of SMS-EMOA cost: `N` at the start, then `N` for every single child,
although only one vector is evaluated. -/
theorem C95_smsemoa_cost (hS : S.Valid) (hfit : ∀ v, (fit v).length = m) (hN : 1 ≤ N)
    (iter : ℕ → List (Ind (List K) (List K)) → List (Ind (List K) (List K)))
    (hiter : ∀ n l, (iter n l).Perm l) (hv : List (List K) → K) (dt : ℕ → ℕ → ℕ × ℕ)
    (hdt : ∀ n i, PairDraw N (dt n i)) (dv : ℕ → ℕ → VarDraw K) (hdv : ∀ n i, (dv n i).Valid)
    (population : List (List K)) (hn : population.length = N)
    (hbox : ∀ v ∈ population, InBox v S.dims) (k : ℕ) :
    (smsDriver S key fit none iter hv dt dv).cost ((smsDriver S key fit none iter hv dt dv).step^[k]
      (some (0, smsInit S key fit none mult population))) = N + k * (⌊(N : K) * mult⌋₊ * N) := by
  have key' : ∃ s : MState K, (smsDriver S key fit none iter hv dt dv).step^[k]
      (some (0, smsInit S key fit none mult population)) = some (k, s) ∧ MInv S m mult N s ∧
      s.cost = N + k * (⌊(N : K) * mult⌋₊ * N) := by
    induction k with
    | zero => exact ⟨_, rfl, (MReach.start (fit := fit) (key := key) (mult := mult) none (by simp)
        population hn hbox).inv hS hfit, by rw [smsInit_cost hN hn]; omega⟩
    | succ k ih =>
      obtain ⟨s, h1, h2, h3⟩ := ih
      obtain ⟨s', h4, h5⟩ := MInv.turns (key := key) (fa := none) hS hfit (by simp) (hiter k) hv
        (hdt k) (hdv k) s.epochLength 0 s h2
      have h4' : smsStep S key fit none (iter k) hv (dt k) (dv k) s = some s' := h4
      refine ⟨s', ?_, h5, ?_⟩
      · rw [Function.iterate_succ_apply', h1]
        simp [smsDriver, optDriver, h4']
      · rw [smsTurns_cost hS hfit (hiter k) hv (hdt k) (hdv k) _ _ _ _ h2 h4, h3, h2.epoch,
          Nat.succ_mul]
        omega
  obtain ⟨s, h1, -, h4⟩ := key'
  rw [h1]
  show (s.cost : ℤ) = _
  rw [h4]
  push_cast
  rfl

/-- **C95.** With an empty epoch (`int(N * epoch_length_multiplier) = 0`) no budget above `N` is ever
reached. -/
theorem C95_smsemoa_empty (hS : S.Valid) (hfit : ∀ v, (fit v).length = m) (hN : 1 ≤ N)
    (hM : ⌊(N : K) * mult⌋₊ = 0)
    (iter : ℕ → List (Ind (List K) (List K)) → List (Ind (List K) (List K)))
    (hiter : ∀ n l, (iter n l).Perm l) (hv : List (List K) → K) (dt : ℕ → ℕ → ℕ × ℕ)
    (hdt : ∀ n i, PairDraw N (dt n i)) (dv : ℕ → ℕ → VarDraw K) (hdv : ∀ n i, (dv n i).Valid)
    (population : List (List K)) (hn : population.length = N)
    (hbox : ∀ v ∈ population, InBox v S.dims) (b : ℤ) (hb : N < b) (fuel : ℕ) :
    budgetRun (smsDriver S key fit none iter hv dt dv) b fuel
      ⟨some (0, smsInit S key fit none mult population), 0⟩ = none := by
  refine budgetRun_never _ hb _ (fun k => ?_) fuel
  simp only
  rw [C95_smsemoa_cost hS hfit hN iter hiter hv dt hdt dv hdv population hn hbox k, hM]
  simp

/-- **C95.** The cost of a run with a budget above `N` exceeds it by less than one epoch. -/
theorem C95_smsemoa_overshoot (hS : S.Valid) (hfit : ∀ v, (fit v).length = m) (hN : 1 ≤ N)
    (iter : ℕ → List (Ind (List K) (List K)) → List (Ind (List K) (List K)))
    (hiter : ∀ n l, (iter n l).Perm l) (hv : List (List K) → K) (dt : ℕ → ℕ → ℕ × ℕ)
    (hdt : ∀ n i, PairDraw N (dt n i)) (dv : ℕ → ℕ → VarDraw K) (hdv : ∀ n i, (dv n i).Valid)
    (population : List (List K)) (hn : population.length = N)
    (hbox : ∀ v ∈ population, InBox v S.dims) (b : ℤ) (hb : N < b)
    (fuel : ℕ) (evs : List (Event ProgressMessage)) (o' : DriverObj (Option (ℕ × MState K)))
    (h : budgetRun (smsDriver S key fit none iter hv dt dv) b fuel
      ⟨some (0, smsInit S key fit none mult population), 0⟩ = some (evs, o')) :
    b ≤ (smsDriver S key fit none iter hv dt dv).cost o'.st ∧
      (smsDriver S key fit none iter hv dt dv).cost o'.st < b + (⌊(N : K) * mult⌋₊ * N : ℕ) :=
  budgetRun_overshoot _ hb _ o' evs (fun k => by
    rw [C95_smsemoa_cost hS hfit hN iter hiter hv dt hdt dv hdv population hn hbox k]
    push_cast; rfl) fuel h

/-- Two vectors and one child per step: every child is charged with 2. -/
example : (budgetWorker (smsDriver exSetup id exFit none (fun _ l => l)
      (fun l => (l.map List.sum).sum) (fun _ _ => (0, 1)) (fun _ _ => exDraw)) 5 [3, 5]
      ⟨some (0, smsInit exSetup id exFit none (1 / 2) [[0], [1 / 2]]), 0⟩).map
      (fun r => r.1.map fun x => (x.name, x.cost, x.pop.map List.length))
    = some [(3, 4, some 2), (5, 6, some 2)] := by decide +kernel

end smsemoa

end Evogil.Generations
