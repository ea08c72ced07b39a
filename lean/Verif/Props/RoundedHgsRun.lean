import Verif.Spec.RoundedHgsRun
import Verif.Lemmas.RoundedHgsRun
import Verif.Props.HgsBudget
import Verif.Props.RoundedBudget

/-!
# C155: whole runs and budget simulations of HGS in floating point
-/

set_option linter.unusedSectionVars false

namespace Evogil.Rounded.Hgs

open Evogil.Hgs (Node State Conf Report NodeOps RunConf Run Contract RunInv start result newNode init Core weighted)
open Evaluation Generations Spec Binary64 Rounded.Run

section
variable {W σ D K : Type*} [Field K] [LinearOrder K] [IsStrictOrderedRing K] [FloorRing K]
  {O : NodeOps W σ D} {cfg : Conf D K} {maxLevel : ℕ} {P : D → Prop} {N : ℕ → ℕ} {Sz : ℕ → ℕ → Prop}
  {G H : ℕ → σ → Prop}
  {GW : W → (ℕ → ℕ) → Prop} {Free : Prop} {g : ℕ}

theorem runStep_all (h : Contract O maxLevel P N Sz G H GW Free g) (hm : cfg.maxLevel = maxLevel)
    (hm2 : maxLevel ≤ 2) (C : RunConf D K) (hlen : ∀ l, 1 ≤ C.len l)
    (hsh : ∀ i k l, (C.shuffle i k l).Perm l)
    (hseed : ∀ l, l ≤ maxLevel → ∀ i d, P d → ∃ pop, C.seedPop l i d = some pop ∧ pop.length = N l ∧
      ∀ x ∈ pop, P x) (k : ℕ) (s : Run W σ D K) (hs : RunInv cfg O P Sz G GW Free s) :
    ∃ s', runStep round64 cfg O C k s = some s' ∧ RunInv cfg O P Sz G GW Free s' ∧
      (∀ (i : ℕ) (n n' : Node D K), s.tree.nodes[i]? = some n → s'.tree.nodes[i]? = some n' →
        n'.level = n.level ∧ (n.alive = true → Sz n.level n'.pop.length) ∧
        (n.alive = false → n'.pop = n.pop) ∧
        ∃ c c' : ℕ, n.cost = c ∧ n'.cost = c' ∧ c ≤ c' ∧ (n.alive = true → c + g ≤ c')) ∧
      s.tree.nodes.length ≤ s'.tree.nodes.length ∧
      ∀ (i : ℕ) (n' : Node D K), s'.tree.nodes[i]? = some n' → s.tree.nodes.length ≤ i → n'.cost = 0 := by
  have hm2' : cfg.maxLevel ≤ 2 := hm ▸ hm2
  exact h.runStep_with hm hm2 C hlen hsh hseed k (step round64 cfg (cfg.maxLevel + 1))
    (fun env st ratio c hr => step_all round64 hm2' (Nat.lt_succ_self _) hr c env) s hs

theorem runSteps_all (h : Contract O maxLevel P N Sz G H GW Free g) (hm : cfg.maxLevel = maxLevel)
    (hm2 : maxLevel ≤ 2) (C : RunConf D K) (hlen : ∀ l, 1 ≤ C.len l)
    (hsh : ∀ i k l, (C.shuffle i k l).Perm l)
    (hseed : ∀ l, l ≤ maxLevel → ∀ i d, P d → ∃ pop, C.seedPop l i d = some pop ∧ pop.length = N l ∧
      ∀ x ∈ pop, P x) : ∀ (n k : ℕ) (s : Run W σ D K), RunInv cfg O P Sz G GW Free s →
    ∃ s', runSteps round64 cfg O C k n s = some s' ∧ RunInv cfg O P Sz G GW Free s' := by
  intro n
  induction n with
  | zero => intro k s hs; exact ⟨s, rfl, hs⟩
  | succ n ih =>
    intro k s hs
    obtain ⟨s1, e1, h1, -⟩ := runStep_all h hm hm2 C hlen hsh hseed k s hs
    obtain ⟨s2, e2, h2⟩ := ih (k + 1) s1 h1
    exact ⟨s2, by rw [runSteps, e1]; exact e2, h2⟩

theorem runSteps_succ (C : RunConf D K) : ∀ (n k : ℕ) (s : Run W σ D K),
    runSteps round64 cfg O C k (n + 1) s = (runSteps round64 cfg O C k n s).bind (runStep round64 cfg O C (k + n)) := by
  intro n
  induction n with
  | zero =>
    intro k s
    simp only [runSteps, Option.bind_some, Nat.add_zero]
    cases runStep round64 cfg O C k s <;> rfl
  | succ n ih =>
    intro k s
    rw [runSteps, runSteps]
    cases h : runStep round64 cfg O C k s with
    | none => rfl
    | some s1 =>
      simp only [Option.bind_some]
      rw [ih, show k + 1 + n = k + (n + 1) by omega]

/-- C155: a run of HGS in floating point with a driver that keeps the contract, however many steps it makes and whatever is
drawn: nothing raises; every vector of the result satisfies `P`; every node that has run contributes as many vectors as `Sz`
allows on its level, and those that have not run contribute none; after the first step the root has run. -/
theorem C155_run (h : Contract O cfg.maxLevel P N Sz G H GW Free g) (hm2 : cfg.maxLevel ≤ 2) (C : RunConf D K)
    (hlen : ∀ l, 1 ≤ C.len l) (hsh : ∀ i k l, (C.shuffle i k l).Perm l)
    (hseed : ∀ l, l ≤ cfg.maxLevel → ∀ i d, P d → ∃ pop, C.seedPop l i d = some pop ∧
      pop.length = N l ∧ ∀ x ∈ pop, P x) {ratio : List K} (hr : 3 ≤ ratio.length)
    (perm : List D → List D) (hperm : ∀ l, (perm l).Perm l) (w : W) (hw : GW w fun _ => 0)
    (population : List D) (hN : N 0 ≤ population.length) (hP : ∀ d ∈ population, P d) (n : ℕ) :
    ∃ s s', start O ratio perm (N 0) w population = some s ∧ runSteps round64 cfg O C 0 n s = some s' ∧
      (∀ d ∈ result s', P d) ∧
      (∀ m ∈ s'.tree.nodes, Sz m.level m.pop.length ∨ (m.alive = true ∧ m.pop = [] ∧ m.cost = 0)) ∧
      (1 ≤ n → ∃ p, Sz 0 p ∧ p ≤ (result s').length) := by
  obtain ⟨s, e0, h0, ht⟩ := h.start (cfg := cfg) rfl hr perm hperm w hw population hN hP
  obtain ⟨s', e1, h1⟩ := runSteps_all h rfl hm2 C hlen hsh hseed n 0 s h0
  refine ⟨s, s', e0, e1, ?_, ?_, ?_⟩
  · intro d hd
    obtain ⟨m, hm, hd⟩ := List.mem_flatMap.1 hd
    exact (h1.ok m hm).1 d hd
  · intro m hm
    obtain ⟨i, hi⟩ := List.mem_iff_getElem?.1 hm
    have hlt : i < s'.drivers.length := by rw [h1.length]; exact (List.getElem?_eq_some_iff.1 hi).1
    rcases h1.node i m _ hi (List.getElem?_eq_getElem hlt) with h2 | h2
    · exact .inr h2
    · exact .inl h2.1
  · intro hn
    obtain ⟨n, rfl⟩ := Nat.exists_eq_succ_of_ne_zero (Nat.one_le_iff_ne_zero.1 hn)
    have key : ∀ (n : ℕ) (t : Run W σ D K), runSteps round64 cfg O C 0 n s = some t →
        RunInv cfg O P Sz G GW Free t ∧ ∃ q, t.tree.nodes[0]? = some q ∧ q.level = 0 ∧
          (1 ≤ n → Sz 0 q.pop.length) ∧ (n = 0 → q.alive = true) := by
      intro n
      induction n with
      | zero =>
        intro t ht'
        cases ht'
        exact ⟨h0, newNode 0 none, by rw [ht]; rfl, rfl, by omega, fun _ => rfl⟩
      | succ n ih =>
        intro t ht'
        rw [runSteps_succ] at ht'
        obtain ⟨u, hu, ht'⟩ := Option.bind_eq_some_iff.1 ht'
        obtain ⟨i1, q, hq, hq0, hq1, hq2⟩ := ih u hu
        obtain ⟨v, e2, i2, f2, l2, -⟩ := runStep_all h rfl hm2 C hlen hsh hseed (0 + n) u i1
        rw [ht', Option.some.injEq] at e2
        subst e2
        have hpos : 0 < t.tree.nodes.length := lt_of_lt_of_le (List.getElem?_eq_some_iff.1 hq).1 l2
        obtain ⟨g1, g2, g3, -⟩ := f2 0 q _ hq (List.getElem?_eq_getElem hpos)
        refine ⟨i2, _, List.getElem?_eq_getElem hpos, g1.trans hq0, fun _ => ?_, by omega⟩
        by_cases ha : q.alive = true
        · have := g2 ha
          rwa [hq0] at this
        · rw [g3 (by simpa using ha)]
          by_cases hn0 : n = 0
          · exact absurd (hq2 hn0) ha
          · exact hq1 (by omega)
    obtain ⟨-, q, hq, -, hq1, -⟩ := key _ s' e1
    exact ⟨_, hq1 (by omega), (List.sublist_flatten_of_mem (List.mem_map_of_mem (List.mem_of_getElem? hq))).length_le⟩

/-- C155: if every step of a driver costs at least `g` and the cost modifiers are at least `μ`, a step of HGS raises its cost
by at least `μ * g`: some node is always alive, however the decisions about nodes are rounded. -/
theorem C155_progress (h : Contract O cfg.maxLevel P N Sz G H GW Free g)
    (hm2 : cfg.maxLevel ≤ 2) (C : RunConf D K)
    (hlen : ∀ l, 1 ≤ C.len l) (hsh : ∀ i k l, (C.shuffle i k l).Perm l)
    (hseed : ∀ l, l ≤ cfg.maxLevel → ∀ i d, P d → ∃ pop, C.seedPop l i d = some pop ∧
      pop.length = N l ∧ ∀ x ∈ pop, P x) (μ : K) (hμ : 0 ≤ μ)
    (hmod : ∀ l, l ≤ cfg.maxLevel → μ ≤ cfg.modifier l) (k : ℕ)
    (s : Run W σ D K) (hs : RunInv cfg O P Sz G GW Free s) :
    ∃ s', runStep round64 cfg O C k s = some s' ∧ RunInv cfg O P Sz G GW Free s' ∧
      s.tree.cost + μ * g ≤ s'.tree.cost := by
  obtain ⟨s', e1, h1, f1, l1, z1⟩ := runStep_all h rfl hm2 C hlen hsh hseed k s hs
  refine ⟨s', e1, h1, ?_⟩
  rw [hs.core.cost, h1.core.cost, weighted, weighted]
  have hz : ∀ l : List (Node D K), (∀ n ∈ l, n.cost = 0) →
      (l.map fun n => cfg.modifier n.level * n.cost).sum = 0 := by
    intro l hl
    refine List.sum_eq_zero ?_
    intro x hx
    obtain ⟨n, hn, rfl⟩ := List.mem_map.1 hx
    rw [hl n hn, mul_zero]
  have key : ∀ (l l' : List (Node D K)), l.length ≤ l'.length → (∀ n ∈ l, n.level ≤ cfg.maxLevel) →
      (∀ (i : ℕ) (n n' : Node D K), l[i]? = some n → l'[i]? = some n' → n'.level = n.level ∧
        ∃ c c' : ℕ, n.cost = c ∧ n'.cost = c' ∧ c ≤ c' ∧ (n.alive = true → c + g ≤ c')) →
      (∀ (i : ℕ) (n' : Node D K), l'[i]? = some n' → l.length ≤ i → n'.cost = 0) →
      (l.map fun n => cfg.modifier n.level * n.cost).sum ≤
        (l'.map fun n => cfg.modifier n.level * n.cost).sum ∧
      ((∃ n ∈ l, n.alive = true) → (l.map fun n => cfg.modifier n.level * n.cost).sum + μ * g ≤
        (l'.map fun n => cfg.modifier n.level * n.cost).sum) := by
    intro l
    induction l with
    | nil =>
      intro l' _ _ _ h0
      refine ⟨?_, by simp⟩
      rw [hz l' (fun n hn => by
        obtain ⟨i, hi⟩ := List.mem_iff_getElem?.1 hn
        exact h0 i n hi (Nat.zero_le _))]
      simp
    | cons a l ih =>
      intro l' hl hd hle h0
      cases l' with
      | nil => simp at hl
      | cons b l' =>
        obtain ⟨i1, i2⟩ := ih l' (by simpa using hl)
          (fun n hn => hd n (List.mem_cons_of_mem _ hn)) (fun i n n' hn hn' => hle (i + 1) n n' hn hn')
          (fun i n' hn' hi => h0 (i + 1) n' hn' (by simpa using hi))
        obtain ⟨e1, c, c', e2, e3, e4, e5⟩ := hle 0 a b rfl rfl
        have hma : μ ≤ cfg.modifier a.level := hmod _ (hd a (by simp))
        have hpos : 0 ≤ cfg.modifier a.level := hμ.trans hma
        have hab : cfg.modifier a.level * a.cost ≤ cfg.modifier b.level * b.cost := by
          rw [e1, e2, e3]
          exact mul_le_mul_of_nonneg_left (by exact_mod_cast e4) hpos
        simp only [List.map_cons, List.sum_cons]
        refine ⟨add_le_add hab i1, ?_⟩
        rintro ⟨n, hn, ha⟩
        rcases List.mem_cons.1 hn with rfl | hn
        · have : cfg.modifier n.level * n.cost + μ * g ≤ cfg.modifier b.level * b.cost := by
            rw [e1, e2, e3]
            have h5 : (c : K) + g ≤ c' := by exact_mod_cast e5 ha
            calc cfg.modifier n.level * (c : K) + μ * g
                ≤ cfg.modifier n.level * c + cfg.modifier n.level * g :=
                  add_le_add le_rfl (mul_le_mul_of_nonneg_right hma (Nat.cast_nonneg _))
              _ = cfg.modifier n.level * (c + g) := by ring
              _ ≤ _ := mul_le_mul_of_nonneg_left h5 hpos
          linarith
        · have := i2 ⟨n, hn, ha⟩
          linarith
  exact (key _ _ l1 (fun n hn => hs.core.tree.depth n hn)
    (fun i n n' hn hn' => ⟨(f1 i n n' hn hn').1, (f1 i n n' hn hn').2.2.2⟩) z1).2 hs.alive

theorem runSteps_add {C : RunConf D K} : ∀ (n k m : ℕ) (s : Run W σ D K),
    runSteps round64 cfg O C k (n + m) s = (runSteps round64 cfg O C k n s).bind (runSteps round64 cfg O C (k + n) m)
  | 0, k, m, s => by rw [Nat.zero_add, runSteps, Option.bind_some, Nat.add_zero]
  | n + 1, k, m, s => by
    rw [show n + 1 + m = (n + m) + 1 by omega, runSteps, runSteps, Option.bind_assoc]
    congr 1
    funext t
    rw [runSteps_add n (k + 1) m t, show k + 1 + n = k + (n + 1) by omega]

theorem hgsDriver_iterate {C : RunConf D K} : ∀ (n k : ℕ) (s : Run W σ D K),
    (hgsDriver round64 cfg O C).step^[n] (some (k, s)) = (runSteps round64 cfg O C k n s).map fun t => (k + n, t)
  | 0, k, s => rfl
  | n + 1, k, s => by
    rw [Function.iterate_succ_apply]
    have e : (hgsDriver round64 cfg O C).step (some (k, s)) = (runStep round64 cfg O C k s).map fun t => (k + 1, t) := rfl
    rw [e, runSteps]
    cases h : runStep round64 cfg O C k s with
    | none =>
      simp only [Option.map_none, Option.bind_none]
      clear e h
      induction n with
      | zero => rfl
      | succ n ih => rw [Function.iterate_succ_apply]; exact ih
    | some t =>
      simp only [Option.map_some, Option.bind_some]
      rw [hgsDriver_iterate n (k + 1) t]
      congr 1
      funext u
      rw [show k + 1 + n = k + (n + 1) by omega]

theorem hgs_stored {C : RunConf D K} {s : Run W σ D K} (hrun : ∀ n, ∃ t, runSteps round64 cfg O C 0 n s = some t) (fuel : ℕ)
    {Z : Prop} : ∀ (budgets : List ℤ) (k j : ℕ) (t : Run W σ D K), (Z → budgets.Pairwise (· ≤ ·)) →
    runSteps round64 cfg O C 0 k s = some t → (Z → ∀ m < k, ∀ u, runSteps round64 cfg O C 0 m s = some u → ∀ b ∈ budgets,
      u.tree.cost < (b : K)) →
    ∀ (res : List (Stored (Option (List D × K)))) (o' : DriverObj (Option (ℕ × Run W σ D K))),
    budgetWorker (hgsDriver round64 cfg O C) fuel budgets ⟨some (k, t), j⟩ = some (res, o') →
    res.map (fun r => r.name) = budgets ∧
      ∀ r ∈ res, ∃ n t', runSteps round64 cfg O C 0 n s = some t' ∧ r.pop = some (result t', t'.tree.cost) ∧
        (r.name : K) ≤ t'.tree.cost ∧ (Z → ∀ m < n, ∀ u,
          runSteps round64 cfg O C 0 m s = some u → u.tree.cost < (r.name : K)) := by
  intro budgets
  induction budgets with
  | nil =>
    intro k j t _ _ _ res o' h
    cases h
    simp
  | cons b bs ih =>
    intro k j t hz ht hk res o' h
    rw [budgetWorker] at h
    cases hb : budgetRun (hgsDriver round64 cfg O C) b fuel ⟨some (k, t), j⟩ with
    | none => rw [hb] at h; cases h
    | some q =>
      obtain ⟨evs, o1⟩ := q
      rw [hb] at h
      obtain ⟨i, -, -, rfl, h1, h2⟩ := budgetRun_spec _ _ _ _ _ _ hb
      obtain ⟨t', ht'⟩ := hrun (k + i)
      have hi : runSteps round64 cfg O C k i t = some t' := by
        rw [runSteps_add, ht, Option.bind_some, Nat.zero_add] at ht'
        exact ht'
      simp only at h1 h2 h
      rw [hgsDriver_iterate, hi, Option.map_some] at h2 h
      have hcost : (b : K) ≤ t'.tree.cost := Int.le_floor.1 h2
      have hbefore : Z → ∀ m < k + i, ∀ u, runSteps round64 cfg O C 0 m s = some u →
          ∀ c ∈ b :: bs, u.tree.cost < (c : K) := by
        intro hp m hm u hu c hc
        rcases Nat.lt_or_ge m k with hmk | hmk
        · exact hk hp m hmk u hu c hc
        · obtain ⟨e, rfl⟩ := Nat.exists_eq_add_of_le hmk
          have h3 := h1 e (by omega)
          rw [runSteps_add, ht, Option.bind_some, Nat.zero_add] at hu
          rw [hgsDriver_iterate, hu, Option.map_some] at h3
          have h4 : u.tree.cost < (b : K) := Int.floor_lt.1 h3
          rcases List.mem_cons.1 hc with rfl | hc
          · exact h4
          · exact lt_of_lt_of_le h4 (Int.cast_le.2 ((List.pairwise_cons.1 (hz hp)).1 c hc))
      cases hw : budgetWorker (hgsDriver round64 cfg O C) fuel bs ⟨some (k + i, t'), j + i⟩ with
      | none =>
        simp only [hgsDriver, Option.map_some] at h hw
        rw [hw] at h
        cases h
      | some q =>
        obtain ⟨res1, o2⟩ := q
        obtain ⟨e1, e2⟩ := ih (k + i) (j + i) t' (fun z => (List.pairwise_cons.1 (hz z)).2) ht'
          (fun z m hm u hu c hc => hbefore z m hm u hu c (List.mem_cons_of_mem _ hc)) res1 o2 hw
        simp only [hgsDriver, Option.map_some] at h hw
        rw [hw] at h
        simp only [Option.map_some, Option.some.injEq, Prod.mk.injEq] at h
        rw [← h.1]
        refine ⟨by rw [List.map_cons, e1], ?_⟩
        intro r hr
        rcases List.mem_cons.1 hr with rfl | hr
        · exact ⟨k + i, t', ht', rfl, hcost, fun z m hm u hu => hbefore z m hm u hu b (by simp)⟩
        · exact e2 r hr

theorem hgs_ends {C : RunConf D K} {s : Run W σ D K} (fuel : ℕ) : ∀ (budgets : List ℤ) (k j : ℕ) (t : Run W σ D K),
    runSteps round64 cfg O C 0 k s = some t →
    (∀ k, ∃ t, runSteps round64 cfg O C 0 (k + fuel) s = some t ∧ ∀ b ∈ budgets, (b : K) ≤ t.tree.cost) →
    ∃ r, budgetWorker (hgsDriver round64 cfg O C) fuel budgets ⟨some (k, t), j⟩ = some r := by
  intro budgets
  induction budgets with
  | nil => intro k j t _ _; exact ⟨_, rfl⟩
  | cons b bs ih =>
    intro k j t ht hreach
    obtain ⟨u, hu, hc⟩ := hreach k
    have hu' : runSteps round64 cfg O C k fuel t = some u := by
      rw [runSteps_add, ht, Option.bind_some, Nat.zero_add] at hu
      exact hu
    obtain ⟨⟨evs, o1⟩, hb⟩ := Option.isSome_iff_exists.1
      (budgetRun_some_of_reach (hgsDriver round64 cfg O C) b fuel ⟨some (k, t), j⟩ (by
        simp only [hgsDriver_iterate, hu', Option.map_some]
        exact Int.le_floor.2 (hc b (by simp))))
    obtain ⟨i, hi, -, rfl, -, -⟩ := budgetRun_spec _ _ _ _ _ _ hb
    obtain ⟨v, hv⟩ : ∃ v, runSteps round64 cfg O C k i t = some v := by
      obtain ⟨e, rfl⟩ := Nat.exists_eq_add_of_le hi
      rw [runSteps_add] at hu'
      obtain ⟨v, hv, -⟩ := Option.bind_eq_some_iff.1 hu'
      exact ⟨v, hv⟩
    have hv0 : runSteps round64 cfg O C 0 (k + i) s = some v := by
      rw [runSteps_add, ht, Option.bind_some, Nat.zero_add, hv]
    obtain ⟨r, hr⟩ := ih (k + i) (j + i) v hv0 (fun k => by
      obtain ⟨t, e1, e2⟩ := hreach k
      exact ⟨t, e1, fun b hb => e2 b (List.mem_cons_of_mem _ hb)⟩)
    rw [budgetWorker, hb]
    simp only [hgsDriver_iterate, hv, Option.map_some]
    have : (hgsDriver round64 cfg O C).finalize (some (k + i, v)) = (some (k + i, v), some (result v, v.tree.cost)) :=
      rfl
    simp only [this, hr, Option.map_some]
    exact ⟨_, rfl⟩

theorem cost_grow {C : RunConf D K} (h : Contract O cfg.maxLevel P N Sz G H GW Free g) (hm2 : cfg.maxLevel ≤ 2)
    (hlen : ∀ l, 1 ≤ C.len l) (hsh : ∀ i k l, (C.shuffle i k l).Perm l)
    (hseed : ∀ l, l ≤ cfg.maxLevel → ∀ i d, P d → ∃ pop, C.seedPop l i d = some pop ∧
      pop.length = N l ∧ ∀ x ∈ pop, P x) (μ : K) (hμ : 0 ≤ μ)
    (hmod : ∀ l, l ≤ cfg.maxLevel → μ ≤ cfg.modifier l) :
    ∀ (n k : ℕ) (s : Run W σ D K), RunInv cfg O P Sz G GW Free s →
      ∃ t, runSteps round64 cfg O C k n s = some t ∧ s.tree.cost + n * (μ * g) ≤ t.tree.cost
  | 0, k, s, _ => ⟨s, rfl, by simp⟩
  | n + 1, k, s, hs => by
    obtain ⟨u, e, hu, hle⟩ := C155_progress h hm2 C hlen hsh hseed μ hμ hmod k s hs
    obtain ⟨t, e', hle'⟩ := cost_grow h hm2 hlen hsh hseed μ hμ hmod n (k + 1) u hu
    refine ⟨t, by rw [runSteps, e, Option.bind_some, e'], ?_⟩
    push_cast
    linarith

/-- C155: a budget simulation of HGS in floating point with drivers that keep the contract: if it ends, it has stored what it
should. -/
theorem C155_stored {C : RunConf D K} {size : ℕ} (h : Contract O cfg.maxLevel P N Sz G H GW Free g) (hsize : ∀ p, Sz 0 p → size ≤ p)
    (hm2 : cfg.maxLevel ≤ 2)
    (hlen : ∀ l, 1 ≤ C.len l) (hsh : ∀ i k l, (C.shuffle i k l).Perm l)
    (hseed : ∀ l, l ≤ cfg.maxLevel → ∀ i d, P d → ∃ pop, C.seedPop l i d = some pop ∧
      pop.length = N l ∧ ∀ x ∈ pop, P x) {ratio : List K} (hr : 3 ≤ ratio.length)
    (perm : List D → List D) (hperm : ∀ l, (perm l).Perm l) (w : W) (hw : GW w fun _ => 0)
    (population : List D) (hN : N 0 ≤ population.length) (hP : ∀ d ∈ population, P d) :
    ∃ s, start O ratio perm (N 0) w population = some s ∧
      ∀ (fuel : ℕ) (budgets : List ℤ) (res : List (Stored (Option (List D × K))))
        (o' : DriverObj (Option (ℕ × Run W σ D K))),
        budgetWorker (hgsDriver round64 cfg O C) fuel budgets ⟨some (0, s), 0⟩ = some (res, o') →
        Stores round64 cfg O C P size s budgets res := by
  obtain ⟨s, e0, i0, ht⟩ := h.start (cfg := cfg) rfl hr perm hperm w hw population hN hP
  have hrun : ∀ n, ∃ t, runSteps round64 cfg O C 0 n s = some t ∧ (∀ d ∈ result t, P d) ∧
      (1 ≤ n → size ≤ (result t).length) := by
    intro n
    obtain ⟨s1, t, f0, f1, f2, -, f3⟩ := C155_run h hm2 C hlen hsh hseed hr perm hperm w hw population hN hP n
    have : s = s1 := Option.some.inj (e0.symm.trans f0)
    subst this
    exact ⟨t, f1, f2, fun hn => (f3 hn).elim fun p hp => (hsize p hp.1).trans hp.2⟩
  refine ⟨s, e0, ?_⟩
  intro fuel budgets res o' hw'
  obtain ⟨h1, h2⟩ := hgs_stored (Z := budgets.Pairwise (· ≤ ·)) (fun n => (hrun n).imp fun _ x => x.1) fuel
    budgets 0 0 s id rfl (by simp) res o' hw'
  refine ⟨h1, fun r hr => ?_⟩
  obtain ⟨n, t, e1, e2, e3, e4⟩ := h2 r hr
  obtain ⟨t', f1, f2, f3⟩ := hrun n
  have : t = t' := Option.some.inj (e1.symm.trans f1)
  subst this
  refine ⟨n, t, e1, e2, e3, f2, fun hpos => f3 ?_, e4⟩
  by_contra hn
  have : n = 0 := by omega
  subst this
  cases e1
  rw [ht] at e3
  have : (0 : K) < (r.name : K) := Int.cast_pos.2 hpos
  have : (r.name : K) ≤ 0 := e3
  linarith

/-- C155: if every step of a driver costs something and all modifiers are positive, the simulation ends. -/
theorem C155_ends {C : RunConf D K} (h : Contract O cfg.maxLevel P N Sz G H GW Free g) (hm2 : cfg.maxLevel ≤ 2)
    (hlen : ∀ l, 1 ≤ C.len l) (hsh : ∀ i k l, (C.shuffle i k l).Perm l)
    (hseed : ∀ l, l ≤ cfg.maxLevel → ∀ i d, P d → ∃ pop, C.seedPop l i d = some pop ∧
      pop.length = N l ∧ ∀ x ∈ pop, P x) {ratio : List K} (hr : 3 ≤ ratio.length)
    (perm : List D → List D) (hperm : ∀ l, (perm l).Perm l) (w : W) (hw : GW w fun _ => 0)
    (population : List D) (hN : N 0 ≤ population.length) (hP : ∀ d ∈ population, P d)
    (μ : K) (hμ : 0 ≤ μ) (hmod : ∀ l, l ≤ cfg.maxLevel → μ ≤ cfg.modifier l) (budgets : List ℤ) (fuel : ℕ)
    (hfuel : ∀ b ∈ budgets, (b : K) ≤ fuel * (μ * g)) :
    ∃ s r, start O ratio perm (N 0) w population = some s ∧
      budgetWorker (hgsDriver round64 cfg O C) fuel budgets ⟨some (0, s), 0⟩ = some r := by
  obtain ⟨s, e0, i0, ht⟩ := h.start (cfg := cfg) rfl hr perm hperm w hw population hN hP
  obtain ⟨r, hr'⟩ := hgs_ends (cfg := cfg) (O := O) (C := C) (s := s) fuel budgets 0 0 s rfl (fun k => by
    obtain ⟨t, e1, e2⟩ := cost_grow h hm2 hlen hsh hseed μ hμ hmod (k + fuel) 0 s i0
    refine ⟨t, e1, fun b hb => (hfuel b hb).trans (le_trans ?_ e2)⟩
    rw [ht]
    have h0 : (0 : K) ≤ k * (μ * g) := by positivity
    have hc : (init : State D K).cost = 0 := rfl
    rw [hc]
    push_cast
    linarith)
  exact ⟨s, r, e0, hr'⟩

end

/-! ## Boxes of floats -/

section
variable {K : Type*} [Field K] [LinearOrder K] [IsStrictOrderedRing K] [FloorRing K]

/-- The populations of sprouts consist of floats of the box. -/
theorem seeds_ok {S : Setup K} (hS : Usable S) {ds : ℕ → ℕ → MutDraw K} (hds : ∀ k n, IsDraw (1 / 2 ^ 53) (ds k n).rnd)
    {rate eta : K} (heta : 0 ≤ eta) {N : ℕ} (hN : 1 ≤ N) {v : List K} (hv : FBox S.dims v) :
    ∃ pop, populationFromDelegate round64 S.pw S.eps ds v N S.dims rate eta = some pop ∧ pop.length = N ∧
      ∀ x ∈ pop, FBox S.dims x := by
  obtain ⟨rest, h1, h2, h3⟩ := mapM_total (P := fun x => FBox S.dims x)
    (f := fun i => (Rounded.mutate round64 S.pw S.eps rate eta (ds i) v S.dims).toOption) (List.range (N - 1)) (by
    intro i _
    obtain ⟨zs, e, a, b, -⟩ := C121_mutate S.pw hS.pow rate eta heta (ds i) (hds i) S.dims hS.dims v hv.1 hv.2
    exact ⟨zs, by rw [hS.eps, e]; rfl, a, b⟩)
  refine ⟨v :: rest, by simp only [populationFromDelegate, h1, Option.map_some], ?_, ?_⟩
  · rw [List.length_cons, h2, List.length_range]; omega
  · intro x hx
    rcases List.mem_cons.1 hx with rfl | hx
    · exact hv
    · exact h3 x hx

/-- C155, for vectors of a box of floats and sprouts made by `population_from_delegate`: however many steps are made, nothing
raises, the result consists of floats of the box, there are as many vectors as the root has from the first step on, and every
step costs something. -/
theorem C155_box {W σ : Type*} {O : NodeOps W σ (List K)} {cfg : Conf (List K) K} {S : ℕ → Setup K}
    {dims : List (K × K)} {N : ℕ → ℕ} {Sz : ℕ → ℕ → Prop} {size : ℕ} {G H : ℕ → σ → Prop} {GW : W → (ℕ → ℕ) → Prop}
    {Free : Prop} {g : ℕ} (hm2 : cfg.maxLevel ≤ 2)
    (hc : Contract O cfg.maxLevel (FBox dims) N Sz G H GW Free g)
    (hsize : ∀ p, Sz 0 p → size ≤ p) (hS : ∀ l, l ≤ cfg.maxLevel → Usable (S l))
    (hdims : ∀ l, l ≤ cfg.maxLevel → (S l).dims = dims) (hN1 : ∀ l, l ≤ cfg.maxLevel → 1 ≤ N l)
    (len : ℕ → ℕ) (hlen : ∀ l, 1 ≤ len l) (hv : List (List K) → K)
    (shuffle : ℕ → ℕ → List (List K) → List (List K)) (hsh : ∀ i k l, (shuffle i k l).Perm l)
    (ds : ℕ → ℕ → ℕ → ℕ → MutDraw K)
    (hds : ∀ l i k n, IsDraw (1 / 2 ^ 53) (ds l i k n).rnd) (rate eta : ℕ → K)
    (heta : ∀ l, 0 ≤ eta l) {ratio : List K} (hr : 3 ≤ ratio.length)
    (perm : List (List K) → List (List K)) (hperm : ∀ l, (perm l).Perm l) (w : W) (hw : GW w fun _ => 0)
    (population : List (List K)) (hN : N 0 ≤ population.length) (hbox : ∀ v ∈ population, FBox dims v)
    (μ : K) (hμ : 0 ≤ μ) (hmod : ∀ l, l ≤ cfg.maxLevel → μ ≤ cfg.modifier l) :
    ∃ s, start O ratio perm (N 0) w population = some s ∧
      (∀ n, ∃ s', runSteps round64 cfg O ⟨len, hv, shuffle, fun l i v =>
          populationFromDelegate round64 (S l).pw (S l).eps (ds l i) v (N l) dims (rate l) (eta l)⟩ 0 n s = some s' ∧
        (∀ v ∈ result s', FBox dims v) ∧ (1 ≤ n → size ≤ (result s').length) ∧ n * (μ * g) ≤ s'.tree.cost) ∧
      ∀ (budgets : List ℤ) (fuel : ℕ), (∀ b ∈ budgets, (b : K) ≤ fuel * (μ * g)) →
        ∃ res o', budgetWorker (hgsDriver round64 cfg O ⟨len, hv, shuffle, fun l i v =>
          populationFromDelegate round64 (S l).pw (S l).eps (ds l i) v (N l) dims (rate l) (eta l)⟩) fuel budgets
            ⟨some (0, s), 0⟩ = some (res, o') ∧
        Stores round64 cfg O ⟨len, hv, shuffle, fun l i v =>
          populationFromDelegate round64 (S l).pw (S l).eps (ds l i) v (N l) dims (rate l) (eta l)⟩
            (FBox dims) size s budgets res := by
  have hseed : ∀ l, l ≤ cfg.maxLevel → ∀ (i : ℕ) (v : List K), FBox dims v → ∃ pop,
      populationFromDelegate round64 (S l).pw (S l).eps (ds l i) v (N l) dims (rate l) (eta l) = some pop ∧
        pop.length = N l ∧ ∀ x ∈ pop, FBox dims x := by
    intro l hl i v hv
    have := seeds_ok (hS l hl) (hds l i) (heta l) (rate := rate l) (hN1 l hl) (v := v) (by rw [hdims l hl]; exact hv)
    rwa [hdims l hl] at this
  obtain ⟨s, e0, i0, ht⟩ := hc.start (cfg := cfg) rfl hr perm hperm w hw population hN hbox
  refine ⟨s, e0, fun n => ?_, fun budgets fuel hfuel => ?_⟩
  · obtain ⟨s1, s', f0, f1, f2, -, f3⟩ := C155_run hc hm2 ⟨len, hv, shuffle, fun l i v =>
      populationFromDelegate round64 (S l).pw (S l).eps (ds l i) v (N l) dims (rate l) (eta l)⟩ hlen hsh hseed hr
      perm hperm w hw population hN hbox n
    have : s = s1 := Option.some.inj (e0.symm.trans f0)
    subst this
    obtain ⟨t, e1, e2⟩ := cost_grow hc hm2 (C := ⟨len, hv, shuffle, fun l i v =>
      populationFromDelegate round64 (S l).pw (S l).eps (ds l i) v (N l) dims (rate l) (eta l)⟩) hlen hsh hseed μ hμ hmod
      n 0 s i0
    have : s' = t := Option.some.inj (f1.symm.trans e1)
    subst this
    refine ⟨s', f1, f2, fun hn => (f3 hn).elim fun p hp => (hsize p hp.1).trans hp.2, ?_⟩
    rw [ht] at e2
    simpa [init] using e2
  · obtain ⟨s1, ⟨res, o'⟩, e1, e2⟩ := C155_ends (C := ⟨len, hv, shuffle, fun l i v =>
      populationFromDelegate round64 (S l).pw (S l).eps (ds l i) v (N l) dims (rate l) (eta l)⟩) hc hm2 hlen hsh hseed hr
      perm hperm w hw population hN hbox μ hμ hmod budgets fuel hfuel
    have : s = s1 := Option.some.inj (e0.symm.trans e1)
    subst this
    obtain ⟨s1, f1, f2⟩ := C155_stored (C := ⟨len, hv, shuffle, fun l i v =>
      populationFromDelegate round64 (S l).pw (S l).eps (ds l i) v (N l) dims (rate l) (eta l)⟩) hc hsize hm2 hlen hsh hseed
      hr perm hperm w hw population hN hbox
    have : s = s1 := Option.some.inj (e0.symm.trans f1)
    subst this
    exact ⟨res, o', e2, f2 fuel budgets res o' e2⟩

end

end Evogil.Rounded.Hgs
