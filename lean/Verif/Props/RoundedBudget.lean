import Verif.Model.RoundedBudget
import Verif.Props.RoundedJumping

/-!
# C152: budget simulations of NSGA-II, SPEA2, IBEA and SMS-EMOA in floating point
-/

set_option linter.unusedSectionVars false

namespace Evogil.Rounded.Run

open Evaluation Generations Spec Binary64

/-- What a result stored for a population of `N` should be: `N` vectors of floats of the box. -/
def GoodFloats {K : Type*} [Field K] [LinearOrder K] [IsStrictOrderedRing K] [FloorRing K] (dims : List (K × K)) (N : ℕ)
    (r : List (List K)) : Prop :=
  r.length = N ∧ ∀ v ∈ r, FBox dims v

/-! ## NSGA-II -/

section nsgaii
variable {K : Type*} [Field K] [LinearOrder K] [IsStrictOrderedRing K] [FloorRing K] {A : Type*} [DecidableEq A]
  {S : Setup K} {key : List K → A} {fit : List K → List K} {m : ℕ} {c : K} {N : ℕ}

/-- C152 for NSGA-II: if a generation has at least one offspring, a budget simulation stores a result for every budget,
whatever is drawn: `N` vectors of floats of the box, at no less than the cost asked for. -/
theorem C152_nsgaii (hS : Usable S) (hm : m ≤ 2 ^ 51) (hfit : ∀ v, (fit v).length = m) (hM : 1 ≤ portion round64 c N)
    (iter : ℕ → List (Ind (List K) (List K)) → List (Ind (List K) (List K)))
    (hiter : ∀ n l, (iter n l).Perm l) (dm : ℕ → ℕ → MateDraw) (hdm : ∀ n i, (dm n i).Valid N)
    (dv : ℕ → ℕ → VarDraw K) (hdv : ∀ n i, Draws (dv n i)) (population : List (List K))
    (hn : population.length = N) (hbox : ∀ v ∈ population, FBox S.dims v) (budgets : List ℤ)
    (fuel : ℕ) (hfuel : ∀ b ∈ budgets, b ≤ fuel) :
    ∃ res o', budgetWorker (nsgaiiDriver round64 S key fit m iter dm dv) fuel budgets
        ⟨some (0, nsgaiiInit round64 S key fit none c population), 0⟩ = some (res, o') ∧
      res.map (fun r => r.name) = budgets ∧
      ∀ r ∈ res, r.name ≤ r.cost ∧ ∃ p, r.pop = some p ∧ GoodFloats S.dims N p := by
  refine optDriver_worker (Inv := fun s : NState K A => NInv S m c N s ∧ s.acc.archive = none)
    ?_ budgets ?_ fuel hfuel 0 _
    ⟨((NReach.start none (by simp) population hn hbox).inv hS hm hfit).1, (nsgaiiInit_cost population).1⟩ 0
  · rintro n s ⟨h, ha⟩
    obtain ⟨s', h1, h2, -⟩ := h.step (key := key) hS hm hfit (hiter n) (hdm n) (hdv n)
    obtain ⟨h3, h4⟩ := (nsgaiiStep_shape hS hm hfit (hiter n) (hdm n) (hdv n) h h1).2.2 ha
    exact ⟨s', h1, ⟨h2, h3⟩, by omega⟩
  · rintro n s b - ⟨h, ha⟩ -
    obtain ⟨s', r, h1, h2, h3, rfl⟩ := h.finish (key := key) hS hm hfit (hiter n)
    obtain ⟨h4, h5⟩ := h.finish_cost ha h1
    refine ⟨s', _, h1, ⟨h2, h4⟩, ⟨by rw [List.length_map, h3], ?_⟩, h5.ge⟩
    intro v hv
    obtain ⟨x, hx, rfl⟩ := List.mem_map.1 hv
    exact h2.box x hx

/-- C152: what the generations of NSGA-II cost: `N` evaluations at the start, then as many as there are offspring, the number
of which is `c * N` rounded to a float and then down to an integer. -/
theorem C152_nsgaii_cost (hS : Usable S) (hm : m ≤ 2 ^ 51) (hfit : ∀ v, (fit v).length = m)
    (iter : ℕ → List (Ind (List K) (List K)) → List (Ind (List K) (List K)))
    (hiter : ∀ n l, (iter n l).Perm l) (dm : ℕ → ℕ → MateDraw) (hdm : ∀ n i, (dm n i).Valid N)
    (dv : ℕ → ℕ → VarDraw K) (hdv : ∀ n i, Draws (dv n i)) (population : List (List K))
    (hn : population.length = N) (hbox : ∀ v ∈ population, FBox S.dims v) (k : ℕ) :
    (nsgaiiDriver round64 S key fit m iter dm dv).cost ((nsgaiiDriver round64 S key fit m iter dm dv).step^[k]
      (some (0, nsgaiiInit round64 S key fit none c population))) = N + k * ⌊round64 (c * (N : K))⌋₊ := by
  have key' : ∃ s : NState K A, (nsgaiiDriver round64 S key fit m iter dm dv).step^[k]
      (some (0, nsgaiiInit round64 S key fit none c population)) = some (k, s) ∧ NInv S m c N s ∧
      s.acc.archive = none ∧ s.acc.cost = N + k * portion round64 c N := by
    induction k with
    | zero =>
      refine ⟨_, rfl, ((NReach.start none (by simp) population hn hbox).inv hS hm hfit).1,
        (nsgaiiInit_cost population).1, ?_⟩
      rw [(nsgaiiInit_cost population).2, hn]; omega
    | succ k ih =>
      obtain ⟨s, h1, h2, h3, h4⟩ := ih
      obtain ⟨s', h5, h6, -⟩ := h2.step (key := key) hS hm hfit (hiter k) (hdm k) (hdv k)
      obtain ⟨h7, h8⟩ := (nsgaiiStep_shape hS hm hfit (hiter k) (hdm k) (hdv k) h2 h5).2.2 h3
      refine ⟨s', ?_, h6, h7, ?_⟩
      · rw [Function.iterate_succ_apply', h1]
        show (nsgaiiStep round64 S key fit m (iter k) (dm k) (dv k) s).map (fun s => (k + 1, s)) = _
        rw [h5]
        rfl
      · rw [h8, h4, Nat.succ_mul]; omega
  obtain ⟨s, h1, -, -, h4⟩ := key'
  rw [h1]
  show (s.acc.cost : ℤ) = _
  rw [h4]
  push_cast
  rfl

/-- Two vectors, as many offspring, budgets 3 and 5: the costs are 4 and 6. -/
example : (budgetWorker (nsgaiiDriver round64 exSetup (fun v : List ℚ => v) exFit 2 (fun _ l => l)
      (fun _ _ => ⟨0, 1, true⟩) (fun _ _ => exDraw)) 5 [3, 5]
      ⟨some (0, nsgaiiInit round64 exSetup id exFit none 1 [[0], [6004799503160661 / 2 ^ 54]]), 0⟩).map
      (fun r => r.1.map fun x => (x.name, x.cost, x.pop.map List.length))
    = some [(3, 4, some 2), (5, 6, some 2)] := by decide +kernel

end nsgaii

/-! ## SPEA2 -/

section spea2
variable {K : Type*} [Field K] [LinearOrder K] [IsStrictOrderedRing K] [FloorRing K] {A : Type*}
  {S : Setup K} {dist : List K → List K → K} {key : List K → A} {fit : List K → List K} {m N : ℕ}

theorem spea2Step_cost (hN : 1 ≤ N) {dt : ℕ → (ℕ × ℕ) × (ℕ × ℕ)} {dv : ℕ → VarDraw K}
    {s s' : SState K} (h : SInv S m N s) (hs : spea2Step round64 S dist key fit none dt dv s = some s') :
    s'.cost = s.cost + N := by
  have he : (spea2Eval key fit none s.individuals).1 = N := by
    have := chargeAll_none key fit s.individuals.length (pop := s.individuals.map fun x => x.v) (by
      intro e
      rw [List.map_eq_nil_iff] at e
      have := h.inds
      rw [e, List.length_nil] at this
      omega)
    rw [h.inds] at this
    simp only [spea2Eval, h.inds, this]
  simp only [spea2Step] at hs
  split at hs
  · cases hs
  split at hs
  · cases hs
  split at hs
  · cases hs
  simp only [Option.some.injEq] at hs
  subst hs
  simp only [he]

/-- The states of SPEA2 after the constructor or a step: the archive is full as soon as something was charged. -/
def SFull (S : Setup K) (m N : ℕ) (s : SState K) : Prop :=
  SInv S m N s ∧ (s.cost = 0 ∨ s.archive.length = N)

theorem SFull.start (hS : Usable S) {population : List (List K)} (hn : population.length = N)
    (hbox : ∀ v ∈ population, FBox S.dims v) : SFull S m N (spea2Init S population) := by
  refine ⟨⟨hn, by simp [spea2Init, newInds_length, hn], ?_, Or.inl rfl, by simp [spea2Init]⟩, Or.inl rfl⟩
  intro x hx
  obtain ⟨v, hv, e⟩ := List.mem_map.1 (newInds_none _ _ _ hx).2
  rw [← e]
  exact hS.trim v (hbox v hv)

/-- C152 for SPEA2: with at least two individuals a budget simulation stores a result for every positive budget, whatever is
drawn: `N` vectors of floats of the box, at no less than the cost asked for. -/
theorem C152_spea2 (hS : Usable S) (hdist : ∀ a b, 0 ≤ dist a b) (hfit : ∀ v, (fit v).length = m)
    (hN : 2 ≤ N) (dt : ℕ → ℕ → (ℕ × ℕ) × (ℕ × ℕ))
    (hdt : ∀ n i, PairDraw N (dt n i).1 ∧ PairDraw N (dt n i).2)
    (dv : ℕ → ℕ → VarDraw K) (hdv : ∀ n i, Draws (dv n i)) (population : List (List K))
    (hn : population.length = N) (hbox : ∀ v ∈ population, FBox S.dims v) (budgets : List ℤ)
    (hpos : ∀ b ∈ budgets, 0 < b) (fuel : ℕ) (hfuel : ∀ b ∈ budgets, b ≤ fuel) :
    ∃ res o', budgetWorker (spea2Driver round64 S dist key fit none dt dv) fuel budgets
        ⟨some (0, spea2Init S population), 0⟩ = some (res, o') ∧
      res.map (fun r => r.name) = budgets ∧
      ∀ r ∈ res, r.name ≤ r.cost ∧ ∃ p, r.pop = some p ∧ GoodFloats S.dims N p := by
  refine optDriver_worker (Inv := SFull S m N) ?_ budgets ?_ fuel hfuel 0 _ (SFull.start hS hn hbox) 0
  · rintro n s ⟨h, -⟩
    obtain ⟨s', h1, h2, h3⟩ := h.step (key := key) (fa := none) hS hdist hfit hN (by simp) (hdt n) (hdv n)
    exact ⟨s', h1, ⟨h2, Or.inr h3⟩, by rw [spea2Step_cost (by omega) h h1]; omega⟩
  · rintro n s b hb ⟨h, hf⟩ hc
    have := hpos b hb
    have hl : s.archive.length = N := hf.resolve_left (by omega)
    refine ⟨s, _, rfl, ⟨h, hf⟩, ⟨by rw [spea2Final, List.length_map, hl], ?_⟩, le_rfl⟩
    intro v hv
    obtain ⟨x, hx, rfl⟩ := List.mem_map.1 hv
    exact (h.abox x hx).1

/-- C152: what the generations of SPEA2 cost: `N` evaluations each, nothing at the start. -/
theorem C152_spea2_cost (hS : Usable S) (hdist : ∀ a b, 0 ≤ dist a b) (hfit : ∀ v, (fit v).length = m)
    (hN : 2 ≤ N) (dt : ℕ → ℕ → (ℕ × ℕ) × (ℕ × ℕ))
    (hdt : ∀ n i, PairDraw N (dt n i).1 ∧ PairDraw N (dt n i).2)
    (dv : ℕ → ℕ → VarDraw K) (hdv : ∀ n i, Draws (dv n i)) (population : List (List K))
    (hn : population.length = N) (hbox : ∀ v ∈ population, FBox S.dims v) (k : ℕ) :
    (spea2Driver round64 S dist key fit none dt dv).cost ((spea2Driver round64 S dist key fit none dt dv).step^[k]
      (some (0, spea2Init S population))) = k * N := by
  have key' : ∃ s : SState K, (spea2Driver round64 S dist key fit none dt dv).step^[k]
      (some (0, spea2Init S population)) = some (k, s) ∧ SInv S m N s ∧ s.cost = k * N := by
    induction k with
    | zero => exact ⟨_, rfl, (SFull.start hS hn hbox).1, by simp [spea2Init]⟩
    | succ k ih =>
      obtain ⟨s, h1, h2, h3⟩ := ih
      obtain ⟨s', h4, h5, -⟩ := h2.step (key := key) (fa := none) hS hdist hfit hN (by simp) (hdt k) (hdv k)
      refine ⟨s', ?_, h5, ?_⟩
      · rw [Function.iterate_succ_apply', h1]
        show (spea2Step round64 S dist key fit none (dt k) (dv k) s).map (fun s => (k + 1, s)) = _
        rw [h4]
        rfl
      · rw [spea2Step_cost (by omega) h2 h4, h3, Nat.succ_mul]
  obtain ⟨s, h1, -, h4⟩ := key'
  rw [h1]
  show (s.cost : ℤ) = _
  rw [h4]
  push_cast
  rfl

/-- Nothing is stored for the budget 0, as the archive is empty. -/
example : (budgetWorker (spea2Driver round64 exSetup (fun a b => |round64 (a.sum - b.sum)|) id exFit none
      (fun _ _ => ((0, 1), (1, 0))) (fun _ _ => exDraw)) 5 [0, 3]
      ⟨some (0, spea2Init exSetup [[0], [6004799503160661 / 2 ^ 54]]), 0⟩).map
      (fun r => r.1.map fun x => (x.name, x.cost, x.pop.map List.length))
    = some [(0, 0, some 0), (3, 4, some 2)] := by decide +kernel

end spea2

/-! ## IBEA -/

section ibea
variable {K : Type*} [Field K] [LinearOrder K] [IsStrictOrderedRing K] [FloorRing K]
  {S : Setup K} {ex : K → K} {kappa : K} {objectives : List (List K → K)} {c : K} {N : ℕ}

theorem ibeaScale_cost {eps : K} {inArchive : List K → Bool} {s s' : IState K}
    (h : ibeaScale round64 eps objectives inArchive false s = some s') :
    s'.cost = s.cost + s.individuals.length ∧ s'.individuals.length = s.individuals.length := by
  simp only [ibeaScale] at h
  split at h
  · cases h
  split at h
  · cases h
  simp only [Option.some.injEq] at h
  subst h
  simp [ibeaCharge]

theorem ibeaStep_cost {inArchive : List K → Bool} {dm : ℕ → MateDraw} {dv : ℕ → VarDraw K}
    {s s' : IState K} (h : ibeaStep round64 S ex kappa objectives inArchive false dm dv s = some s') :
    s'.cost = s.cost + s'.individuals.length := by
  simp only [ibeaStep] at h
  split at h
  · cases h
  split at h
  · cases h
  obtain ⟨h1, h2⟩ := ibeaScale_cost h
  rw [h1, h2]

theorem ibeaFinish_cost {inArchive : List K → Bool} {s s' : IState K} {r : List (List K)}
    (h : ibeaFinish round64 S ex kappa objectives inArchive false s = some (s', r)) :
    s'.cost = s.cost + s.individuals.length := by
  simp only [ibeaFinish] at h
  split at h
  · cases h
  · rename_i s1 hs
    split at h
    · cases h
    · simp only [Option.some.injEq, Prod.mk.injEq] at h
      obtain ⟨rfl, -⟩ := h
      exact (ibeaScale_cost hs).1

/-- C152 for IBEA: with at least one individual and one objective, and with `kappa` at least 1/32, a budget simulation stores
a result for every budget, whatever is drawn: `N` vectors of floats of the box, at no less than the cost asked for. -/
theorem C152_ibea (hS : Usable S) (hobj : objectives ≠ []) (hk : 1 / 32 ≤ kappa) (hN : 1 ≤ N) (dm : ℕ → ℕ → MateDraw)
    (hdm : ∀ n i, (dm n i).Valid N) (dv : ℕ → ℕ → VarDraw K) (hdv : ∀ n i, Draws (dv n i)) (population : List (List K))
    (hn : population.length = N) (hbox : ∀ v ∈ population, FBox S.dims v) (budgets : List ℤ)
    (fuel : ℕ) (hfuel : ∀ b ∈ budgets, b ≤ fuel) :
    ∃ s, ibeaInit round64 S objectives c population = some s ∧
    ∃ res o', budgetWorker (ibeaDriver round64 S ex kappa objectives dm dv) fuel budgets ⟨some (0, s), 0⟩
        = some (res, o') ∧
      res.map (fun r => r.name) = budgets ∧
      ∀ r ∈ res, r.name ≤ r.cost ∧ ∃ p, r.pop = some p ∧ GoodFloats S.dims N p := by
  obtain ⟨s0, h0, hi, hu, -⟩ := ibeaInit_ok (objectives := objectives) (c := c) hS hobj hN hn hbox
  refine ⟨s0, h0, ?_⟩
  refine optDriver_worker (Inv := fun s : IState K => IInv S c N s ∧ InUnit s.scaled s.individuals) ?_ budgets ?_ fuel hfuel
    0 _ ⟨hi, hu⟩ 0
  · rintro n s ⟨h, hu⟩
    obtain ⟨s', h1, h2, h2u, h3⟩ := h.step (ex := ex) (kappa := kappa) (objectives := objectives) hS hobj hk hN
      (fun _ => false) false (hdm n) (hdv n) hu.1
    exact ⟨s', h1, ⟨h2, h2u⟩, by rw [ibeaStep_cost h1, h3]; omega⟩
  · rintro n s b - ⟨h, -⟩ -
    obtain ⟨s', r, h1, h2, h2u, h3, rfl⟩ := h.finish (ex := ex) (kappa := kappa)
      (objectives := objectives) hS hobj hk hN (fun _ => false) false
    refine ⟨s', _, h1, ⟨h2, h2u⟩, ⟨by rw [List.length_map, h3], ?_⟩, by rw [ibeaFinish_cost h1]; omega⟩
    intro v hv
    obtain ⟨x, hx, rfl⟩ := List.mem_map.1 hv
    exact h2.box x hx

/-- C152: what IBEA charges: every step pays for the kept individuals again, and even asking for the result is charged. -/
theorem C152_ibea_cost (hS : Usable S) (hobj : objectives ≠ []) (hk : 1 / 32 ≤ kappa) (hN : 1 ≤ N) (s : IState K)
    (h : IReach S ex kappa objectives c N s) :
    (∀ dm dv, (∀ i, MateDraw.Valid N (dm i)) → (∀ i, Draws (dv i)) →
      ∃ s', ibeaStep round64 S ex kappa objectives (fun _ => false) false dm dv s = some s' ∧
        s'.cost = s.cost + (N + ⌊round64 (c * (N : K))⌋₊)) ∧
    ∃ s' r, ibeaFinish round64 S ex kappa objectives (fun _ => false) false s = some (s', r) ∧
      s'.cost = s.cost + s.individuals.length ∧ s.cost < s'.cost := by
  obtain ⟨hi, hu, -⟩ := h.inv hS hobj hk hN
  constructor
  · intro dm dv hdm hdv
    obtain ⟨s', h1, -, -, h3⟩ := hi.step (ex := ex) (kappa := kappa) (objectives := objectives) hS hobj hk hN
      (fun _ => false) false hdm hdv hu.1
    exact ⟨s', h1, by rw [ibeaStep_cost h1, h3]; rfl⟩
  · obtain ⟨s', r, h1, -⟩ := hi.finish (ex := ex) (kappa := kappa)
      (objectives := objectives) hS hobj hk hN (fun _ => false) false
    have := hi.large
    exact ⟨s', r, h1, ibeaFinish_cost h1, by rw [ibeaFinish_cost h1]; omega⟩

/-- Two vectors, as many offspring: 2 evaluations at the start, 4 for the step and 4 more for the result. -/
example : ((ibeaInit round64 exSetup [fun v => v.sum, fun v => round64 (1 - v.sum)] 1
        [[0], [6004799503160661 / 2 ^ 54]]).bind fun s =>
      (budgetWorker (ibeaDriver round64 exSetup (fun x => x) (1 / 20) [fun v => v.sum, fun v => round64 (1 - v.sum)]
        (fun _ _ => ⟨0, 1, true⟩) (fun _ _ => exDraw)) 5 [3, 5] ⟨some (0, s), 0⟩).map
      (fun r => r.1.map fun x => (x.name, x.cost, x.pop.map List.length)))
    = some [(3, 10, some 2), (5, 12, some 2)] := by decide +kernel

end ibea

/-! ## SMS-EMOA -/

section smsemoa
variable {K : Type*} [Field K] [LinearOrder K] [IsStrictOrderedRing K] [FloorRing K]
  {A : Type*} {S : Setup K} {key : List K → A} {fit : List K → List K} {m : ℕ} {mult : K} {N : ℕ}

theorem smsTurn_cost {iter : List (Ind (List K) (List K)) → List (Ind (List K) (List K))}
    {hv : List (List K) → K} {t : ℕ × ℕ} {d : VarDraw K} {s s' : MState K}
    (h : smsTurn round64 S key fit none iter hv t d s = some s') :
    s'.cost = s.cost + s.individuals.length := by
  simp only [smsTurn] at h
  split at h
  · cases h
  split at h
  · cases h
  simp only [Option.some.injEq] at h
  subst h
  simp only [smsEval]
  rw [chargeAll_none key fit _ (by simp [newInds])]

theorem smsTurns_cost (hS : Usable S) (hfit : ∀ v, (fit v).length = m)
    {iter : List (Ind (List K) (List K)) → List (Ind (List K) (List K))}
    (hiter : ∀ l, (iter l).Perm l) (hv : List (List K) → K) {dt : ℕ → ℕ × ℕ}
    (hdt : ∀ i, PairDraw N (dt i)) {dv : ℕ → VarDraw K} (hdv : ∀ i, Draws (dv i)) (n : ℕ) :
    ∀ (k : ℕ) (s s' : MState K), MInv S m mult N s →
      smsTurns round64 S key fit none iter hv dt dv k n s = some s' → s'.cost = s.cost + n * N := by
  induction n with
  | zero =>
    intro k s s' _ h
    simp only [smsTurns, Option.some.injEq] at h
    subst h
    omega
  | succ n ih =>
    intro k s s' hi h
    obtain ⟨s1, h1, h2⟩ := hi.turn (key := key) (fa := none) hS hfit (by simp) hiter hv (hdt k) (hdv k)
    simp only [smsTurns, h1] at h
    rw [ih (k + 1) s1 s' h2 h, smsTurn_cost h1, hi.size, Nat.succ_mul]
    omega

theorem smsInit_cost (hN : 1 ≤ N) {population : List (List K)} (hn : population.length = N) :
    (smsInit round64 S key fit none mult population).cost = N := by
  simp only [smsInit, smsEval]
  rw [chargeAll_none, newInds_length, List.length_map, hn]
  intro e
  have := congrArg List.length e
  rw [List.length_map, newInds_length, List.length_map, hn, List.length_nil] at this
  omega

/-- C152 for SMS-EMOA: if an epoch has at least one turn, a budget simulation stores a result for every budget, whatever is
drawn: `N` vectors of floats of the box, at no less than the cost asked for. -/
theorem C152_smsemoa (hS : Usable S) (hfit : ∀ v, (fit v).length = m) (hM : 1 ≤ portion round64 mult N) (hN : 1 ≤ N)
    (iter : ℕ → List (Ind (List K) (List K)) → List (Ind (List K) (List K)))
    (hiter : ∀ n l, (iter n l).Perm l) (hv : List (List K) → K) (dt : ℕ → ℕ → ℕ × ℕ)
    (hdt : ∀ n i, PairDraw N (dt n i)) (dv : ℕ → ℕ → VarDraw K) (hdv : ∀ n i, Draws (dv n i))
    (population : List (List K)) (hn : population.length = N)
    (hbox : ∀ v ∈ population, FBox S.dims v) (budgets : List ℤ)
    (fuel : ℕ) (hfuel : ∀ b ∈ budgets, b ≤ fuel) :
    ∃ res o', budgetWorker (smsDriver round64 S key fit none iter hv dt dv) fuel budgets
        ⟨some (0, smsInit round64 S key fit none mult population), 0⟩ = some (res, o') ∧
      res.map (fun r => r.name) = budgets ∧
      ∀ r ∈ res, r.name ≤ r.cost ∧ ∃ p, r.pop = some p ∧ GoodFloats S.dims N p := by
  refine optDriver_worker (Inv := MInv S m mult N) ?_ budgets ?_ fuel hfuel 0 _
    ((MReach.start (fit := fit) (key := key) (mult := mult) none (by simp) population hn hbox).inv
      hS hfit) 0
  · rintro n s h
    obtain ⟨s', h1, h2⟩ := MInv.turns (key := key) (fa := none) hS hfit (by simp) (hiter n) hv
      (hdt n) (hdv n) s.epochLength 0 s h
    refine ⟨s', h1, h2, ?_⟩
    rw [smsTurns_cost hS hfit (hiter n) hv (hdt n) (hdv n) _ _ _ _ h h1, h.epoch]
    have := Nat.mul_le_mul hM hN
    omega
  · rintro n s b - h -
    refine ⟨s, _, rfl, h, ⟨by rw [smsFinal, List.length_map, h.size], ?_⟩, le_rfl⟩
    intro v hv
    obtain ⟨x, hx, rfl⟩ := List.mem_map.1 hv
    exact h.box x hx

/-- C152: what the epochs of SMS-EMOA cost: `N` at the start, then `N` for every single child, although only one vector is
evaluated. -/
theorem C152_smsemoa_cost (hS : Usable S) (hfit : ∀ v, (fit v).length = m) (hN : 1 ≤ N)
    (iter : ℕ → List (Ind (List K) (List K)) → List (Ind (List K) (List K)))
    (hiter : ∀ n l, (iter n l).Perm l) (hv : List (List K) → K) (dt : ℕ → ℕ → ℕ × ℕ)
    (hdt : ∀ n i, PairDraw N (dt n i)) (dv : ℕ → ℕ → VarDraw K) (hdv : ∀ n i, Draws (dv n i))
    (population : List (List K)) (hn : population.length = N)
    (hbox : ∀ v ∈ population, FBox S.dims v) (k : ℕ) :
    (smsDriver round64 S key fit none iter hv dt dv).cost ((smsDriver round64 S key fit none iter hv dt dv).step^[k]
      (some (0, smsInit round64 S key fit none mult population))) = N + k * (⌊round64 (mult * (N : K))⌋₊ * N) := by
  have key' : ∃ s : MState K, (smsDriver round64 S key fit none iter hv dt dv).step^[k]
      (some (0, smsInit round64 S key fit none mult population)) = some (k, s) ∧ MInv S m mult N s ∧
      s.cost = N + k * (portion round64 mult N * N) := by
    induction k with
    | zero => exact ⟨_, rfl, (MReach.start (fit := fit) (key := key) (mult := mult) none (by simp)
        population hn hbox).inv hS hfit, by rw [smsInit_cost hN hn]; omega⟩
    | succ k ih =>
      obtain ⟨s, h1, h2, h3⟩ := ih
      obtain ⟨s', h4, h5⟩ := MInv.turns (key := key) (fa := none) hS hfit (by simp) (hiter k) hv
        (hdt k) (hdv k) s.epochLength 0 s h2
      have h4' : smsStep round64 S key fit none (iter k) hv (dt k) (dv k) s = some s' := h4
      refine ⟨s', ?_, h5, ?_⟩
      · rw [Function.iterate_succ_apply', h1]
        show (smsStep round64 S key fit none (iter k) hv (dt k) (dv k) s).map (fun s => (k + 1, s)) = _
        rw [h4']
        rfl
      · rw [smsTurns_cost hS hfit (hiter k) hv (hdt k) (hdv k) _ _ _ _ h2 h4, h3, h2.epoch,
          Nat.succ_mul]
        omega
  obtain ⟨s, h1, -, h4⟩ := key'
  rw [h1]
  show (s.cost : ℤ) = _
  rw [h4]
  push_cast
  rfl

/-- Two vectors and one child per step: every child is charged with 2. -/
example : (budgetWorker (smsDriver round64 exSetup id exFit none (fun _ l => l)
      (fun l => (l.map List.sum).sum) (fun _ _ => (0, 1)) (fun _ _ => exDraw)) 5 [3, 5]
      ⟨some (0, smsInit round64 exSetup id exFit none (1 / 2) [[0], [6004799503160661 / 2 ^ 54]]), 0⟩).map
      (fun r => r.1.map fun x => (x.name, x.cost, x.pop.map List.length))
    = some [(3, 4, some 2), (5, 6, some 2)] := by decide +kernel

end smsemoa

/-! ## The number of offspring -/

section
variable {K : Type*} [Field K] [LinearOrder K] [IsStrictOrderedRing K] [FloorRing K]

theorem portion_error {p : K} (hp : (1 / 2) ^ 1022 ≤ p) {N : ℕ} (hN : 1 ≤ N) (hl : p * (N : K) ≤ 2 ^ 50) :
    |round64 (round64 p * (N : K)) - p * (N : K)| < 1 := by
  have hN' : (1 : K) ≤ N := by exact_mod_cast hN
  have p0 : 0 < p := lt_of_lt_of_le (by positivity) hp
  have h1 := round64_accurate.error p (by rwa [abs_of_pos p0])
  rw [abs_of_pos p0] at h1
  have ha : (1 / 2) ^ 1022 ≤ round64 p := by
    rw [← round64_accurate.power (K := K) 1022 le_rfl]
    exact round64_mono hp
  have a0 : 0 < round64 p := lt_of_lt_of_le (by positivity) ha
  have hab : (1 / 2) ^ 1022 ≤ round64 p * (N : K) := ha.trans (le_mul_of_one_le_right a0.le hN')
  have h2 := round64_accurate.error (round64 p * (N : K)) (by rwa [abs_of_pos (by positivity)])
  rw [abs_of_pos (by positivity : 0 < round64 p * (N : K))] at h2
  generalize round64 (round64 p * (N : K)) = b at *
  generalize round64 p = a at *
  generalize (N : K) = n at *
  have hu : (1 / 2 ^ 53 : K) = 1 / 9007199254740992 := by norm_num
  have hl' : p * n ≤ 1125899906842624 := by norm_num at hl ⊢; exact hl
  rw [hu] at h1 h2
  rw [abs_le] at h1 h2
  have h3 : |a * n - p * n| ≤ 1 / 9007199254740992 * (p * n) := by
    rw [← sub_mul, abs_mul, abs_of_nonneg (by linarith : (0 : K) ≤ n), ← mul_assoc]
    exact mul_le_mul_of_nonneg_right (abs_le.2 h1) (by linarith)
  rw [abs_le] at h3
  rw [abs_lt]
  generalize a * n = x at *
  generalize p * n = y at *
  constructor <;> linarith [h3.1, h3.2, h2.1, h2.2]

/-- C152: the number of offspring (or of turns) asked for as a portion `p` of `N` individuals, of which Python knows only the
nearest float, is wrong by at most one; and if `p * N` is an integer, it is that integer or one less. -/
theorem C152_offspring {p : K} (hp : (1 / 2) ^ 1022 ≤ p) {N : ℕ} (hN : 1 ≤ N) (hl : p * (N : K) ≤ 2 ^ 50) :
    portion round64 (round64 p) N ≤ ⌊p * (N : K)⌋₊ + 1 ∧ ⌊p * (N : K)⌋₊ ≤ portion round64 (round64 p) N + 1 ∧
    ∀ k : ℕ, p * (N : K) = k → portion round64 (round64 p) N = k ∨ portion round64 (round64 p) N + 1 = k := by
  have h := abs_lt.1 (portion_error hp hN hl)
  have p0 : 0 < p := lt_of_lt_of_le (by positivity) hp
  have y0 : 0 ≤ p * (N : K) := by positivity
  have b0 : 0 ≤ round64 (round64 p * (N : K)) :=
    fl_nonneg round64_isRounding (mul_nonneg (fl_nonneg round64_isRounding p0.le) (by positivity))
  unfold portion
  generalize round64 (round64 p * (N : K)) = b at *
  generalize p * (N : K) = y at *
  have f1 := Nat.floor_le b0
  have f2 := Nat.lt_floor_add_one b
  have f3 := Nat.floor_le y0
  have f4 := Nat.lt_floor_add_one y
  have g1 : ⌊b⌋₊ ≤ ⌊y⌋₊ + 1 := by
    have : (⌊b⌋₊ : K) < ((⌊y⌋₊ + 2 : ℕ) : K) := by push_cast; linarith [h.2]
    have := Nat.cast_lt.1 this
    omega
  have g2 : ⌊y⌋₊ ≤ ⌊b⌋₊ + 1 := by
    have : (⌊y⌋₊ : K) < ((⌊b⌋₊ + 2 : ℕ) : K) := by push_cast; linarith [h.1]
    have := Nat.cast_lt.1 this
    omega
  refine ⟨g1, g2, ?_⟩
  intro k hk
  subst hk
  rw [Nat.floor_natCast] at g1 g2
  have : (⌊b⌋₊ : K) < ((k + 1 : ℕ) : K) := by push_cast; linarith [h.2]
  have := Nat.cast_lt.1 this
  omega

end

/-- One less happens: 0.29 of 100 individuals are 28, because `0.29 * 100` is 28.999999999999996. -/
theorem C152_offspring_less : portion round64 (round64 (29 / 100 : ℚ)) 100 = 28 := by decide +kernel

/-- No rounding error for the 0.5 of simulation/run_config.py, and none that matters for 0.07, where `0.07 * 100` is
7.000000000000001. -/
example : portion round64 (round64 (1 / 2 : ℚ)) 100 = 50 ∧ portion round64 (round64 (7 / 100 : ℚ)) 100 = 7 := by
  decide +kernel

end Evogil.Rounded.Run
