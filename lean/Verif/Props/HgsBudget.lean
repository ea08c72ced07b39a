import Verif.Spec.HgsBudget
import Verif.Props.GenerationsRun
import Verif.Props.HgsRunSeeded
import Verif.Props.HgsRunNsgaii
import Verif.Props.RunConfigRuns

/-!
# C114: budget simulations of HGS
-/

set_option linter.unusedSectionVars false

namespace Evogil.Hgs

open Generations

section
variable {W σ D K : Type*} [Field K] [LinearOrder K] [IsStrictOrderedRing K] [FloorRing K]
  {O : NodeOps W σ D} {cfg : Conf D K} {C : RunConf D K}

theorem runSteps_add : ∀ (n k m : ℕ) (s : Run W σ D K),
    runSteps cfg O C k (n + m) s = (runSteps cfg O C k n s).bind (runSteps cfg O C (k + n) m)
  | 0, k, m, s => by rw [Nat.zero_add, runSteps, Option.bind_some, Nat.add_zero]
  | n + 1, k, m, s => by
    rw [show n + 1 + m = (n + m) + 1 by omega, runSteps, runSteps, Option.bind_assoc]
    congr 1
    funext t
    rw [runSteps_add n (k + 1) m t, show k + 1 + n = k + (n + 1) by omega]

theorem hgsDriver_iterate : ∀ (n k : ℕ) (s : Run W σ D K),
    (hgsDriver cfg O C).step^[n] (some (k, s)) = (runSteps cfg O C k n s).map fun t => (k + n, t)
  | 0, k, s => rfl
  | n + 1, k, s => by
    rw [Function.iterate_succ_apply]
    have e : (hgsDriver cfg O C).step (some (k, s)) = (runStep cfg O C k s).map fun t => (k + 1, t) := rfl
    rw [e, runSteps]
    cases h : runStep cfg O C k s with
    | none =>
      simp only [Option.map_none, Option.bind_none]
      clear e h
      induction n with
      | zero => rfl
      | succ n ih => rw [Function.iterate_succ_apply]; exact ih
    | some t =>
      simp only [Option.map_some, Option.bind_some]
      rw [hgsDriver_iterate n (k + 1) t]
      congr 1
      funext u
      rw [show k + 1 + n = k + (n + 1) by omega]

/-- What is stored by a budget simulation of HGS, from a state in which nothing raises. -/
theorem hgs_stored {s : Run W σ D K} (hrun : ∀ n, ∃ t, runSteps cfg O C 0 n s = some t) (fuel : ℕ)
    {Z : Prop} : ∀ (budgets : List ℤ) (k j : ℕ) (t : Run W σ D K), (Z → budgets.Pairwise (· ≤ ·)) →
    runSteps cfg O C 0 k s = some t → (Z → ∀ m < k, ∀ u, runSteps cfg O C 0 m s = some u → ∀ b ∈ budgets,
      u.tree.cost < (b : K)) →
    ∀ (res : List (Stored (Option (List D × K)))) (o' : DriverObj (Option (ℕ × Run W σ D K))),
    budgetWorker (hgsDriver cfg O C) fuel budgets ⟨some (k, t), j⟩ = some (res, o') →
    res.map (fun r => r.name) = budgets ∧
      ∀ r ∈ res, ∃ n t', runSteps cfg O C 0 n s = some t' ∧ r.pop = some (result t', t'.tree.cost) ∧
        (r.name : K) ≤ t'.tree.cost ∧ (Z → ∀ m < n, ∀ u,
          runSteps cfg O C 0 m s = some u → u.tree.cost < (r.name : K)) := by
  intro budgets
  induction budgets with
  | nil =>
    intro k j t _ _ _ res o' h
    cases h
    simp
  | cons b bs ih =>
    intro k j t hz ht hk res o' h
    rw [budgetWorker] at h
    cases hb : budgetRun (hgsDriver cfg O C) b fuel ⟨some (k, t), j⟩ with
    | none => rw [hb] at h; cases h
    | some q =>
      obtain ⟨evs, o1⟩ := q
      rw [hb] at h
      obtain ⟨i, -, -, rfl, h1, h2⟩ := budgetRun_spec _ _ _ _ _ _ hb
      obtain ⟨t', ht'⟩ := hrun (k + i)
      have hi : runSteps cfg O C k i t = some t' := by
        rw [runSteps_add, ht, Option.bind_some, Nat.zero_add] at ht'
        exact ht'
      simp only at h1 h2 h
      rw [hgsDriver_iterate, hi, Option.map_some] at h2 h
      have hcost : (b : K) ≤ t'.tree.cost := Int.le_floor.1 h2
      have hbefore : Z → ∀ m < k + i, ∀ u, runSteps cfg O C 0 m s = some u →
          ∀ c ∈ b :: bs, u.tree.cost < (c : K) := by
        intro hp m hm u hu c hc
        rcases Nat.lt_or_ge m k with hmk | hmk
        · exact hk hp m hmk u hu c hc
        · obtain ⟨e, rfl⟩ := Nat.exists_eq_add_of_le hmk
          have h3 := h1 e (by omega)
          rw [runSteps_add, ht, Option.bind_some, Nat.zero_add] at hu
          rw [hgsDriver_iterate, hu, Option.map_some] at h3
          have h4 : u.tree.cost < (b : K) := Int.floor_lt.1 h3
          rcases List.mem_cons.1 hc with rfl | hc
          · exact h4
          · exact lt_of_lt_of_le h4 (Int.cast_le.2 ((List.pairwise_cons.1 (hz hp)).1 c hc))
      cases hw : budgetWorker (hgsDriver cfg O C) fuel bs ⟨some (k + i, t'), j + i⟩ with
      | none =>
        simp only [hgsDriver, Option.map_some] at h hw
        rw [hw] at h
        cases h
      | some q =>
        obtain ⟨res1, o2⟩ := q
        obtain ⟨e1, e2⟩ := ih (k + i) (j + i) t' (fun z => (List.pairwise_cons.1 (hz z)).2) ht'
          (fun z m hm u hu c hc => hbefore z m hm u hu c (List.mem_cons_of_mem _ hc)) res1 o2 hw
        simp only [hgsDriver, Option.map_some] at h hw
        rw [hw] at h
        simp only [Option.map_some, Option.some.injEq, Prod.mk.injEq] at h
        rw [← h.1]
        refine ⟨by rw [List.map_cons, e1], ?_⟩
        intro r hr
        rcases List.mem_cons.1 hr with rfl | hr
        · exact ⟨k + i, t', ht', rfl, hcost, fun z m hm u hu => hbefore z m hm u hu b (by simp)⟩
        · exact e2 r hr

/-- The worker ends if the cost is high enough after `fuel` steps, from wherever it starts. -/
theorem hgs_ends {s : Run W σ D K} (fuel : ℕ) : ∀ (budgets : List ℤ) (k j : ℕ) (t : Run W σ D K),
    runSteps cfg O C 0 k s = some t →
    (∀ k, ∃ t, runSteps cfg O C 0 (k + fuel) s = some t ∧ ∀ b ∈ budgets, (b : K) ≤ t.tree.cost) →
    ∃ r, budgetWorker (hgsDriver cfg O C) fuel budgets ⟨some (k, t), j⟩ = some r := by
  intro budgets
  induction budgets with
  | nil => intro k j t _ _; exact ⟨_, rfl⟩
  | cons b bs ih =>
    intro k j t ht hreach
    obtain ⟨u, hu, hc⟩ := hreach k
    have hu' : runSteps cfg O C k fuel t = some u := by
      rw [runSteps_add, ht, Option.bind_some, Nat.zero_add] at hu
      exact hu
    obtain ⟨⟨evs, o1⟩, hb⟩ := Option.isSome_iff_exists.1
      (budgetRun_some_of_reach (hgsDriver cfg O C) b fuel ⟨some (k, t), j⟩ (by
        simp only [hgsDriver_iterate, hu', Option.map_some]
        exact Int.le_floor.2 (hc b (by simp))))
    obtain ⟨i, hi, -, rfl, -, -⟩ := budgetRun_spec _ _ _ _ _ _ hb
    obtain ⟨v, hv⟩ : ∃ v, runSteps cfg O C k i t = some v := by
      obtain ⟨e, rfl⟩ := Nat.exists_eq_add_of_le hi
      rw [runSteps_add] at hu'
      obtain ⟨v, hv, -⟩ := Option.bind_eq_some_iff.1 hu'
      exact ⟨v, hv⟩
    have hv0 : runSteps cfg O C 0 (k + i) s = some v := by
      rw [runSteps_add, ht, Option.bind_some, Nat.zero_add, hv]
    obtain ⟨r, hr⟩ := ih (k + i) (j + i) v hv0 (fun k => by
      obtain ⟨t, e1, e2⟩ := hreach k
      exact ⟨t, e1, fun b hb => e2 b (List.mem_cons_of_mem _ hb)⟩)
    rw [budgetWorker, hb]
    simp only [hgsDriver_iterate, hv, Option.map_some]
    have : (hgsDriver cfg O C).finalize (some (k + i, v)) = (some (k + i, v), some (result v, v.tree.cost)) :=
      rfl
    simp only [this, hr, Option.map_some]
    exact ⟨_, rfl⟩

end

section
variable {W σ D K : Type*} [Field K] [LinearOrder K] [IsStrictOrderedRing K] [FloorRing K]
  {O : NodeOps W σ D} {cfg : Conf D K} {C : RunConf D K} {P : D → Prop} {N : ℕ → ℕ} {Sz : ℕ → ℕ → Prop}
  {size : ℕ} {G H : ℕ → σ → Prop}
  {GW : W → (ℕ → ℕ) → Prop} {Free : Prop} {g : ℕ}

theorem Contract.cost_grow (h : Contract O cfg.maxLevel P N Sz G H GW Free g) (hm2 : cfg.maxLevel ≤ 2)
    (hlen : ∀ l, 1 ≤ C.len l) (hsh : ∀ i k l, (C.shuffle i k l).Perm l)
    (hseed : ∀ l, l ≤ cfg.maxLevel → ∀ i d, P d → ∃ pop, C.seedPop l i d = some pop ∧
      pop.length = N l ∧ ∀ x ∈ pop, P x) (μ : K) (hμ : 0 ≤ μ)
    (hmod : ∀ l, l ≤ cfg.maxLevel → μ ≤ cfg.modifier l) :
    ∀ (n k : ℕ) (s : Run W σ D K), RunInv cfg O P Sz G GW Free s →
      ∃ t, Hgs.runSteps cfg O C k n s = some t ∧ s.tree.cost + n * (μ * g) ≤ t.tree.cost
  | 0, k, s, _ => ⟨s, rfl, by simp⟩
  | n + 1, k, s, hs => by
    obtain ⟨u, e, hu, hle⟩ := C106_progress h hm2 C hlen hsh hseed μ hμ hmod k s hs
    obtain ⟨t, e', hle'⟩ := Contract.cost_grow h hm2 hlen hsh hseed μ hμ hmod n (k + 1) u hu
    refine ⟨t, by rw [Hgs.runSteps, e, Option.bind_some, e'], ?_⟩
    push_cast
    linarith

/-- **C114.** A budget simulation of HGS with drivers that keep the contract: if it ends, it has stored what it
should. -/
theorem C114_stored (h : Contract O cfg.maxLevel P N Sz G H GW Free g) (hsize : ∀ p, Sz 0 p → size ≤ p)
    (hm2 : cfg.maxLevel ≤ 2)
    (hlen : ∀ l, 1 ≤ C.len l) (hsh : ∀ i k l, (C.shuffle i k l).Perm l)
    (hseed : ∀ l, l ≤ cfg.maxLevel → ∀ i d, P d → ∃ pop, C.seedPop l i d = some pop ∧
      pop.length = N l ∧ ∀ x ∈ pop, P x) {ratio : List K} (hr : 3 ≤ ratio.length)
    (perm : List D → List D) (hperm : ∀ l, (perm l).Perm l) (w : W) (hw : GW w fun _ => 0)
    (population : List D) (hN : N 0 ≤ population.length) (hP : ∀ d ∈ population, P d) :
    ∃ s, start O ratio perm (N 0) w population = some s ∧
      ∀ (fuel : ℕ) (budgets : List ℤ) (res : List (Stored (Option (List D × K))))
        (o' : DriverObj (Option (ℕ × Run W σ D K))),
        budgetWorker (hgsDriver cfg O C) fuel budgets ⟨some (0, s), 0⟩ = some (res, o') →
        Stores cfg O C P size s budgets res := by
  obtain ⟨s, e0, i0, ht⟩ := h.start (cfg := cfg) rfl hr perm hperm w hw population hN hP
  have hrun : ∀ n, ∃ t, runSteps cfg O C 0 n s = some t ∧ (∀ d ∈ result t, P d) ∧
      (1 ≤ n → size ≤ (result t).length) := by
    intro n
    obtain ⟨s1, t, f0, f1, f2, -, f3⟩ := C106_run h hm2 C hlen hsh hseed hr perm hperm w hw population hN hP n
    have : s = s1 := Option.some.inj (e0.symm.trans f0)
    subst this
    exact ⟨t, f1, f2, fun hn => (f3 hn).elim fun p hp => (hsize p hp.1).trans hp.2⟩
  refine ⟨s, e0, ?_⟩
  intro fuel budgets res o' hw'
  obtain ⟨h1, h2⟩ := hgs_stored (Z := budgets.Pairwise (· ≤ ·)) (fun n => (hrun n).imp fun _ x => x.1) fuel
    budgets 0 0 s id rfl (by simp) res o' hw'
  refine ⟨h1, fun r hr => ?_⟩
  obtain ⟨n, t, e1, e2, e3, e4⟩ := h2 r hr
  obtain ⟨t', f1, f2, f3⟩ := hrun n
  have : t = t' := Option.some.inj (e1.symm.trans f1)
  subst this
  refine ⟨n, t, e1, e2, e3, f2, fun hpos => f3 ?_, e4⟩
  by_contra hn
  have : n = 0 := by omega
  subst this
  cases e1
  rw [ht] at e3
  have : (0 : K) < (r.name : K) := Int.cast_pos.2 hpos
  have : (r.name : K) ≤ 0 := e3
  linarith

/-- **C114.** If every step of a driver costs something and all modifiers are positive, the simulation ends. -/
theorem C114_ends (h : Contract O cfg.maxLevel P N Sz G H GW Free g) (hm2 : cfg.maxLevel ≤ 2)
    (hlen : ∀ l, 1 ≤ C.len l) (hsh : ∀ i k l, (C.shuffle i k l).Perm l)
    (hseed : ∀ l, l ≤ cfg.maxLevel → ∀ i d, P d → ∃ pop, C.seedPop l i d = some pop ∧
      pop.length = N l ∧ ∀ x ∈ pop, P x) {ratio : List K} (hr : 3 ≤ ratio.length)
    (perm : List D → List D) (hperm : ∀ l, (perm l).Perm l) (w : W) (hw : GW w fun _ => 0)
    (population : List D) (hN : N 0 ≤ population.length) (hP : ∀ d ∈ population, P d)
    (μ : K) (hμ : 0 ≤ μ) (hmod : ∀ l, l ≤ cfg.maxLevel → μ ≤ cfg.modifier l) (budgets : List ℤ) (fuel : ℕ)
    (hfuel : ∀ b ∈ budgets, (b : K) ≤ fuel * (μ * g)) :
    ∃ s r, start O ratio perm (N 0) w population = some s ∧
      budgetWorker (hgsDriver cfg O C) fuel budgets ⟨some (0, s), 0⟩ = some r := by
  obtain ⟨s, e0, i0, ht⟩ := h.start (cfg := cfg) rfl hr perm hperm w hw population hN hP
  obtain ⟨r, hr'⟩ := hgs_ends (cfg := cfg) (O := O) (C := C) (s := s) fuel budgets 0 0 s rfl (fun k => by
    obtain ⟨t, e1, e2⟩ := h.cost_grow hm2 hlen hsh hseed μ hμ hmod (k + fuel) 0 s i0
    refine ⟨t, e1, fun b hb => (hfuel b hb).trans (le_trans ?_ e2)⟩
    rw [ht]
    have h0 : (0 : K) ≤ k * (μ * g) := by positivity
    have hc : (init : State D K).cost = 0 := rfl
    rw [hc]
    push_cast
    linarith)
  exact ⟨s, r, e0, hr'⟩

/-- **C114.** Both together, for vectors of a box and sprouts made by `population_from_delegate`. -/
theorem C114_box {W σ : Type*} {O : NodeOps W σ (List K)} {cfg : Conf (List K) K} {S : ℕ → Setup K}
    {dims : List (K × K)} {G H : ℕ → σ → Prop} {GW : W → (ℕ → ℕ) → Prop} (hm2 : cfg.maxLevel ≤ 2)
    (hc : Contract O cfg.maxLevel (fun v => InBox v dims) N Sz G H GW Free g)
    (hsize : ∀ p, Sz 0 p → size ≤ p) (hS : ∀ l, l ≤ cfg.maxLevel → (S l).Valid) (hN1 : ∀ l, l ≤ cfg.maxLevel → 1 ≤ N l)
    (len : ℕ → ℕ) (hlen : ∀ l, 1 ≤ len l) (hv : List (List K) → K)
    (shuffle : ℕ → ℕ → List (List K) → List (List K)) (hsh : ∀ i k l, (shuffle i k l).Perm l)
    (ds : ℕ → ℕ → ℕ → ℕ → MutDraw K)
    (hds : ∀ l i k n, 0 ≤ (ds l i k n).rnd ∧ (ds l i k n).rnd ≤ 1) (rate eta : ℕ → K)
    (heta : ∀ l, 0 ≤ eta l) {ratio : List K} (hr : 3 ≤ ratio.length)
    (perm : List (List K) → List (List K)) (hperm : ∀ l, (perm l).Perm l) (w : W) (hw : GW w fun _ => 0)
    (population : List (List K)) (hN : N 0 ≤ population.length) (hbox : ∀ v ∈ population, InBox v dims)
    (μ : K) (hμ : 0 ≤ μ) (hmod : ∀ l, l ≤ cfg.maxLevel → μ ≤ cfg.modifier l) (budgets : List ℤ) (fuel : ℕ)
    (hfuel : ∀ b ∈ budgets, (b : K) ≤ fuel * (μ * g)) :
    ∃ s res o', start O ratio perm (N 0) w population = some s ∧
      budgetWorker (hgsDriver cfg O ⟨len, hv, shuffle, fun l i v =>
        populationFromDelegate (S l).pw (S l).eps (ds l i) v (N l) dims (rate l) (eta l)⟩) fuel budgets
          ⟨some (0, s), 0⟩ = some (res, o') ∧
      Stores cfg O ⟨len, hv, shuffle, fun l i v =>
        populationFromDelegate (S l).pw (S l).eps (ds l i) v (N l) dims (rate l) (eta l)⟩
          (fun v => InBox v dims) size s budgets res := by
  have hseed : ∀ l, l ≤ cfg.maxLevel → ∀ (i : ℕ) (v : List K), InBox v dims → ∃ pop,
      populationFromDelegate (S l).pw (S l).eps (ds l i) v (N l) dims (rate l) (eta l) = some pop ∧
        pop.length = N l ∧ ∀ x ∈ pop, InBox x dims := by
    intro l hl i v hv
    obtain ⟨pop, hp⟩ := Option.isSome_iff_exists.1 (C90_from_delegate_total (hS l hl).pow (hS l hl).eps
      (ds l i) (hds l i) v (N l) dims (rate l) (eta l) (heta l) hv)
    obtain ⟨h1, -, h3⟩ := C90_from_delegate _ _ _ _ _ _ _ _ hv pop hp
    exact ⟨pop, hp, h1.trans (max_eq_right (hN1 l hl)), h3⟩
  obtain ⟨s, ⟨res, o'⟩, e1, e2⟩ := C114_ends (C := ⟨len, hv, shuffle, fun l i v =>
    populationFromDelegate (S l).pw (S l).eps (ds l i) v (N l) dims (rate l) (eta l)⟩) hc hm2 hlen hsh hseed hr
    perm hperm w hw population hN hbox μ hμ hmod budgets fuel hfuel
  obtain ⟨s1, f1, f2⟩ := C114_stored (C := ⟨len, hv, shuffle, fun l i v =>
    populationFromDelegate (S l).pw (S l).eps (ds l i) v (N l) dims (rate l) (eta l)⟩) hc hsize hm2 hlen hsh hseed hr
    perm hperm w hw population hN hbox
  have : s1 = s := Option.some.inj (f1.symm.trans e1)
  subst this
  exact ⟨s1, res, o', e1, e2, f2 fuel budgets res o' e2⟩

end

end Evogil.Hgs
