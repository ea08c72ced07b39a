import Verif.Spec.HgsRun
import Verif.Lemmas.HgsRun
import Verif.Props.HgsFitness
import Verif.Props.GenerationsRun
import Mathlib.Tactic.Linarith

/-!
# C106: whole runs of the sequential HGS

For any driver that keeps a contract; `Verif.Props.HgsRunNsgaii` shows that NSGA-II does.
-/

set_option linter.unusedSectionVars false

namespace Evogil.Hgs

/-! ## Costs by level -/

theorem levelCost_nil (l : ℕ) : levelCost [] [] l = 0 := rfl

theorem levelCost_cons (a : ℕ) (ls : List ℕ) (c : ℕ) (cs : List ℕ) (l : ℕ) :
    levelCost (a :: ls) (c :: cs) l = (if a = l then c else 0) + levelCost ls cs l := by
  simp [levelCost]

theorem levelCost_set : ∀ (ls cs : List ℕ) (i a c c' : ℕ), ls[i]? = some a → cs[i]? = some c → c ≤ c' →
    levelCost ls (cs.set i c') = charge (levelCost ls cs) a (c' - c) := by
  intro ls
  induction ls with
  | nil => intro cs i a c c' h; simp at h
  | cons x ls ih =>
    intro cs i a c c' h1 h2 hle
    cases cs with
    | nil => simp at h2
    | cons y cs =>
      cases i with
      | zero =>
        simp only [List.getElem?_cons_zero, Option.some.injEq] at h1 h2
        subst h1 h2
        funext l
        simp only [List.set_cons_zero, levelCost_cons, charge]
        by_cases e : l = x
        · subst e; simp; omega
        · rw [if_neg e, if_neg (fun h => e h.symm), if_neg (fun h => e h.symm)]
      | succ i =>
        simp only [List.getElem?_cons_succ] at h1 h2
        funext l
        have := congrFun (ih cs i a c c' h1 h2 hle) l
        simp only [List.set_cons_succ, levelCost_cons, this, charge]
        by_cases e : l = a
        · subst e; simp; omega
        · simp [e]

theorem levelCost_append (ls cs : List ℕ) (h : ls.length = cs.length) (a c : ℕ) :
    levelCost (ls ++ [a]) (cs ++ [c]) = charge (levelCost ls cs) a c := by
  funext l
  unfold levelCost charge
  rw [List.zip_append h, List.map_append, List.sum_append]
  by_cases e : l = a
  · subst e; simp
  · rw [if_neg e]; simp only [List.zip_cons_cons, List.zip_nil_right, List.map_cons, List.map_nil,
      List.sum_cons, List.sum_nil, if_neg (fun h : a = l => e h.symm), add_zero]

theorem charge_zero (f : ℕ → ℕ) (l : ℕ) : charge f l 0 = f := by
  funext l'; unfold charge; split
  · rename_i e; rw [e]; rfl
  · rfl

theorem charge_charge (f : ℕ → ℕ) (l a b : ℕ) : charge (charge f l a) l b = charge f l (a + b) := by
  funext l'; unfold charge; split <;> simp; omega

/-! ## Any driver -/

section
variable {W σ D K : Type*} [Field K] [LinearOrder K]

/-- What the drivers have to satisfy. `P` should hold for all vectors, `G l` describes the states of a
driver of level `l`, `H l` those right after a step, `GW w f` what the drivers share when `f l` has been charged on level `l`. `N l` is
`population_sizes[l]`, `Sz l` the sizes a population of level `l` may have after a metaepoch, every step
costs at least `g`. `Free` may be assumed if concluding a metaepoch
costs nothing. -/
structure Contract (O : NodeOps W σ D) (maxLevel : ℕ) (P : D → Prop) (N : ℕ → ℕ)
    (Sz : ℕ → ℕ → Prop) (G H : ℕ → σ → Prop) (GW : W → (ℕ → ℕ) → Prop) (Free : Prop) (g : ℕ) : Prop where
  make : ∀ l, l ≤ maxLevel → ∀ i pop w f, pop.length = N l → (∀ d ∈ pop, P d) → GW w f →
    ∃ w' s, O.make l i pop w = some (w', s) ∧ G l s ∧ GW w' (charge f l (O.cost s))
  step : ∀ l, l ≤ maxLevel → ∀ i k j w f s, G l s → GW w f →
    ∃ w' s', O.step l i k j w s = some (w', s') ∧ G l s' ∧ O.cost s + g ≤ O.cost s' ∧
      GW w' (charge f l (O.cost s' - O.cost s))
  settled : ∀ l, l ≤ maxLevel → ∀ i k j w f s w' s', G l s → GW w f →
    O.step l i k j w s = some (w', s') → H l s'
  conclude : ∀ l, l ≤ maxLevel → ∀ i k w f s, G l s → H l s → GW w f →
    ∃ w' s' pop del, O.conclude l i k w s = some (w', s', pop, del) ∧ G l s' ∧
      O.cost s ≤ O.cost s' ∧ (Free → O.cost s' = O.cost s) ∧
      GW w' (charge f l (O.cost s' - O.cost s)) ∧ Sz l pop.length ∧ (∀ d ∈ pop, P d) ∧
      ∀ d ∈ del, P d

variable {O : NodeOps W σ D} {maxLevel : ℕ} {P : D → Prop} {N : ℕ → ℕ} {Sz : ℕ → ℕ → Prop}
  {G H : ℕ → σ → Prop}
  {GW : W → (ℕ → ℕ) → Prop} {Free : Prop} {g : ℕ}

theorem Contract.nodeSteps (h : Contract O maxLevel P N Sz G H GW Free g) {l : ℕ} (hl : l ≤ maxLevel)
    (i k : ℕ) : ∀ (n j : ℕ) (w : W) (f : ℕ → ℕ) (s : σ), G l s → GW w f →
    ∃ costs w' s', nodeSteps O l i k j n w s = some (costs, w', s') ∧ costs.length = n ∧ G l s' ∧
      (costs ≠ [] → H l s') ∧ O.cost s ≤ O.cost s' ∧ GW w' (charge f l (O.cost s' - O.cost s)) ∧
      (∀ c ∈ costs, O.cost s + g ≤ c) ∧ ∀ hne : costs ≠ [], costs.getLast hne = O.cost s' := by
  intro n
  induction n with
  | zero =>
    intro j w f s hs hw
    exact ⟨[], w, s, rfl, rfl, hs, fun h => absurd rfl h, le_rfl, by rw [Nat.sub_self, charge_zero]; exact hw, by simp,
      fun hne => absurd rfl hne⟩
  | succ n ih =>
    intro j w f s hs hw
    obtain ⟨w1, s1, e1, g1, c1, k1⟩ := h.step l hl i k j w f s hs hw
    obtain ⟨cs, w2, s2, e2, l2, g2, b2, c2, k2, m2, t2⟩ := ih (j + 1) w1 _ s1 g1 k1
    refine ⟨O.cost s1 :: cs, w2, s2, ?_, by simp [l2], g2, fun _ => ?_, by omega, ?_, ?_, ?_⟩
    · rw [Hgs.nodeSteps, e1]
      simp only
      rw [e2]; rfl
    · cases n with
      | zero =>
        have e2' : some (([] : List ℕ), w1, s1) = some (cs, w2, s2) := e2
        simp only [Option.some.injEq, Prod.mk.injEq] at e2'
        rw [← e2'.2.2]
        exact h.settled l hl i k j w f s w1 s1 hs hw e1
      | succ n => exact b2 (by intro e; rw [e] at l2; simp at l2)
    · rw [charge_charge] at k2
      rwa [show O.cost s2 - O.cost s = O.cost s1 - O.cost s + (O.cost s2 - O.cost s1) by omega]
    · intro c hc
      rcases List.mem_cons.1 hc with rfl | hc
      · exact c1
      · have := m2 c hc; omega
    · intro hne
      by_cases hcs : cs = []
      · subst hcs
        cases n with
        | zero =>
          have e2' : some (([] : List ℕ), w1, s1) = some ([], w2, s2) := e2
          simp only [Option.some.injEq, Prod.mk.injEq, true_and] at e2'
          simp [e2'.2]
        | succ n => simp at l2
      · rw [List.getLast_cons hcs]
        exact t2 hcs

/-- What the report of a node looks like; `c₀` is what its driver had charged before and `s` the driver
afterwards. -/
def ReportOk (O : NodeOps W σ D) (P : D → Prop) (Sz : ℕ → ℕ → Prop) (Free : Prop) (g l c₀ : ℕ)
    (r : Report D K) (s : σ) : Prop :=
  Sz l r.pop.length ∧ (∀ d ∈ r.pop, P d) ∧ (∀ d ∈ r.delegates, P d) ∧
    (∀ x ∈ r.costs, ∃ y : ℕ, x = y ∧ c₀ + g ≤ y) ∧ ∃ hne : r.costs ≠ [], ∃ c : ℕ,
      r.costs.getLast hne = c ∧ c₀ + g ≤ c ∧ c ≤ O.cost s ∧ (Free → c = O.cost s)

theorem Contract.nodeReport (h : Contract O maxLevel P N Sz G H GW Free g) (C : RunConf D K)
    (hlen : ∀ l, 1 ≤ C.len l) (hsh : ∀ i k l, (C.shuffle i k l).Perm l) {l : ℕ} (hl : l ≤ maxLevel)
    (i k : ℕ) (w : W) (f : ℕ → ℕ) (s : σ) (hs : G l s) (hw : GW w f) :
    ∃ w' s' r, nodeReport O C l i k w s = some (w', s', r) ∧ G l s' ∧ O.cost s ≤ O.cost s' ∧
      GW w' (charge f l (O.cost s' - O.cost s)) ∧ ReportOk O P Sz Free g l (O.cost s) r s' := by
  obtain ⟨cs, w1, s1, e1, l1, g1, b1, c1, k1, m1, t1⟩ := h.nodeSteps hl i k (C.len l) 0 w f s hs hw
  have hne : cs ≠ [] := by
    intro e
    have := hlen l
    rw [← l1, e] at this
    simp at this
  obtain ⟨w2, s2, pop, del, e2, g2, c2, f2, k2, p1, p2, p3⟩ :=
    h.conclude l hl i k w1 _ s1 g1 (b1 hne) k1
  refine ⟨w2, s2, _, by rw [Hgs.nodeReport, e1]; simp only; rw [e2], g2, c1.trans c2, ?_, p1, p2, ?_,
    ?_, ?_⟩
  · rw [charge_charge] at k2
    rwa [show O.cost s2 - O.cost s = O.cost s1 - O.cost s + (O.cost s2 - O.cost s1) by omega]
  · intro d hd
    exact p3 d ((hsh i k del).mem_iff.1 hd)
  · intro x hx
    obtain ⟨y, hy, rfl⟩ := List.mem_map.1 hx
    exact ⟨y, rfl, m1 y hy⟩
  · refine ⟨by simpa using hne, O.cost s1, ?_, ?_, c2, fun hf => (f2 hf).symm⟩
    swap
    · have := m1 _ (List.getLast_mem hne)
      rwa [t1 hne] at this
    simp only
    rw [List.getLast_map (by simpa using hne), t1 hne]

/-- The state of the drivers while the metaepoch is running; `done` are the nodes that had their
turn. -/
structure Midway (O : NodeOps W σ D) (P : D → Prop) (Sz : ℕ → ℕ → Prop) (G : ℕ → σ → Prop)
    (GW : W → (ℕ → ℕ) → Prop) (Free : Prop) (g : ℕ) (tree : State D K) (ds₀ : List σ) (done : ℕ → Prop) (w : W)
    (ds : List σ) (env : ℕ → Report D K) : Prop where
  length : ds.length = tree.nodes.length
  good : ∀ (i : ℕ) (n : Node D K) (s : σ), tree.nodes[i]? = some n → ds[i]? = some s → G n.level s
  more : ∀ (i : ℕ) (s₀ s : σ), ds₀[i]? = some s₀ → ds[i]? = some s → O.cost s₀ ≤ O.cost s
  ran : ∀ (i : ℕ) (n : Node D K) (s₀ s : σ), done i → tree.nodes[i]? = some n → n.alive = true →
    ds₀[i]? = some s₀ → ds[i]? = some s → ReportOk O P Sz Free g n.level (O.cost s₀) (env i) s
  idle : ∀ (i : ℕ) (n : Node D K), tree.nodes[i]? = some n → n.alive = false → ds[i]? = ds₀[i]?
  world : GW w (levelCost (tree.nodes.map Node.level) (ds.map O.cost))

theorem ReportOk.mono {l c₀ c₁ : ℕ} {r : Report D K} {s : σ} (h : ReportOk O P Sz Free g l c₁ r s)
    (hc : c₀ ≤ c₁) : ReportOk O P Sz Free g l c₀ r s := by
  obtain ⟨h1, h2, h3, h4, hne, c, h5, h6, h7⟩ := h
  refine ⟨h1, h2, h3, ?_, hne, c, h5, by omega, h7⟩
  intro x hx
  obtain ⟨y, e, hy⟩ := h4 x hx
  exact ⟨y, e, by omega⟩

theorem Contract.gather (h : Contract O maxLevel P N Sz G H GW Free g) (C : RunConf D K)
    (hlen : ∀ l, 1 ≤ C.len l) (hsh : ∀ i k l, (C.shuffle i k l).Perm l) (k : ℕ) (tree : State D K)
    (hd : ∀ n ∈ tree.nodes, n.level ≤ maxLevel) (ds₀ : List σ) : ∀ (is : List ℕ) (done : ℕ → Prop)
    (w : W) (ds : List σ) (env : ℕ → Report D K), (∀ i ∈ is, i < tree.nodes.length) →
    Midway O P Sz G GW Free g tree ds₀ done w ds env →
    ∃ w' ds' env', gather O C k tree is w ds env = some (w', ds', env') ∧
      Midway O P Sz G GW Free g tree ds₀ (fun i => done i ∨ i ∈ is) w' ds' env' := by
  intro is
  induction is with
  | nil =>
    intro done w ds env _ hm
    refine ⟨w, ds, env, rfl, hm.length, hm.good, hm.more, ?_, hm.idle, hm.world⟩
    intro i n s₀ s hi
    exact hm.ran i n s₀ s (hi.resolve_right (by simp))
  | cons i is ih =>
    intro done w ds env hi hm
    have hin : i < tree.nodes.length := hi i (by simp)
    have hid : i < ds.length := by rw [hm.length]; exact hin
    have hn := List.getElem?_eq_getElem hin
    have hs := List.getElem?_eq_getElem hid
    by_cases ha : tree.nodes[i].alive = true
    · obtain ⟨w1, s1, r, e1, g1, c1, k1, r1⟩ := h.nodeReport C hlen hsh
        (hd _ (List.mem_of_getElem? hn)) i k w _ ds[i] (hm.good i _ _ hn hs) hm.world
      have hmid : Midway O P Sz G GW Free g tree ds₀ (fun j => done j ∨ j = i) w1 (ds.set i s1)
          (Function.update env i r) := by
        refine ⟨by simp [hm.length], ?_, ?_, ?_, ?_, ?_⟩
        · intro j n s hj hsj
          by_cases e : i = j
          · subst e
            rw [List.getElem?_set_self hid, Option.some.injEq] at hsj
            rw [hn, Option.some.injEq] at hj
            subst hj hsj
            exact g1
          · rw [List.getElem?_set_ne e] at hsj
            exact hm.good j n s hj hsj
        · intro j s₀ s hj hsj
          by_cases e : i = j
          · subst e
            rw [List.getElem?_set_self hid, Option.some.injEq] at hsj
            subst hsj
            exact (hm.more i s₀ _ hj hs).trans c1
          · rw [List.getElem?_set_ne e] at hsj
            exact hm.more j s₀ s hj hsj
        · intro j n s₀ s hdj hj haj h0 hsj
          by_cases e : i = j
          · subst e
            rw [List.getElem?_set_self hid, Option.some.injEq] at hsj
            rw [hn, Option.some.injEq] at hj
            subst hj hsj
            rw [Function.update_self]
            exact r1.mono (hm.more i s₀ _ h0 hs)
          · rw [List.getElem?_set_ne e] at hsj
            rw [Function.update_of_ne (fun h => e h.symm)]
            exact hm.ran j n s₀ s (hdj.resolve_right fun h => e h.symm) hj haj h0 hsj
        · intro j n hj haj
          have e : i ≠ j := by
            rintro rfl
            rw [hn, Option.some.injEq] at hj
            subst hj
            rw [ha] at haj
            cases haj
          rw [List.getElem?_set_ne e]
          exact hm.idle j n hj haj
        · rw [List.map_set, levelCost_set _ _ i tree.nodes[i].level (O.cost ds[i]) _ (by simp [hin])
            (by simp [hid]) c1]
          exact k1
      obtain ⟨w', ds', env', e2, m2⟩ := ih _ w1 _ _ (fun j hj => hi j (List.mem_cons_of_mem _ hj)) hmid
      refine ⟨w', ds', env', ?_, m2.length, m2.good, m2.more, ?_, m2.idle, m2.world⟩
      · rw [Hgs.gather, hn, hs]
        simp only
        rw [if_pos ha, e1]
        exact e2
      · intro j n s₀ s hj
        refine m2.ran j n s₀ s ?_
        rcases hj with hj | hj
        · exact .inl (.inl hj)
        · rcases List.mem_cons.1 hj with hj | hj
          · exact .inl (.inr hj)
          · exact .inr hj
    · obtain ⟨w', ds', env', e2, m2⟩ := ih _ w ds env (fun j hj => hi j (List.mem_cons_of_mem _ hj)) hm
      refine ⟨w', ds', env', ?_, m2.length, m2.good, m2.more, ?_, m2.idle, m2.world⟩
      · rw [Hgs.gather, hn, hs]
        simp only
        rw [if_neg ha]
        exact e2
      · intro j n s₀ s hj hn' haj
        refine m2.ran j n s₀ s ?_ hn' haj
        rcases hj with hj | hj
        · exact .inl hj
        · rcases List.mem_cons.1 hj with hj | hj
          · subst hj
            rw [hn, Option.some.injEq] at hn'
            subst hn'
            exact absurd haj ha
          · exact .inr hj

/-- The new drivers. -/
theorem Contract.plant (h : Contract O maxLevel P N Sz G H GW Free g) (C : RunConf D K)
    (hseed : ∀ l, l ≤ maxLevel → ∀ i d, P d → ∃ pop, C.seedPop l i d = some pop ∧ pop.length = N l ∧
      ∀ x ∈ pop, P x) : ∀ (ns : List (Node D K)) (i : ℕ) (w : W) (ls : List ℕ) (ds : List σ),
    (∀ n ∈ ns, n.level ≤ maxLevel ∧ ∃ d, n.seed = some d ∧ P d) → ls.length = ds.length →
    GW w (levelCost ls (ds.map O.cost)) →
    ∃ w' new, plant O C i ns w ds = some (w', ds ++ new) ∧ new.length = ns.length ∧
      (∀ (j : ℕ) (n : Node D K) (s : σ), ns[j]? = some n → new[j]? = some s → G n.level s) ∧
      GW w' (levelCost (ls ++ ns.map Node.level) ((ds ++ new).map O.cost)) := by
  intro ns
  induction ns with
  | nil =>
    intro i w ls ds _ _ hw
    exact ⟨w, [], by simp [Hgs.plant], rfl, by simp, by simpa using hw⟩
  | cons n ns ih =>
    intro i w ls ds hns hl hw
    obtain ⟨hn, d, hd, hp⟩ := hns n (by simp)
    obtain ⟨pop, e1, p1, p2⟩ := hseed n.level hn i d hp
    obtain ⟨w1, s, e2, g1, k1⟩ := h.make n.level hn i pop w _ p1 p2 hw
    rw [← levelCost_append _ _ (by simpa using hl), ← List.map_singleton (f := O.cost),
      ← List.map_append] at k1
    obtain ⟨w2, new, e3, l3, g3, k3⟩ := ih (i + 1) w1 _ _
      (fun m hm => hns m (List.mem_cons_of_mem _ hm)) (by simp [hl]) k1
    refine ⟨w2, s :: new, ?_, by simp [l3], ?_, ?_⟩
    · rw [Hgs.plant, hd]
      simp only
      rw [e1]
      simp only
      rw [e2]
      simp only
      rw [e3, List.append_assoc]
      rfl
    · intro j m t hj ht
      cases j with
      | zero =>
        simp only [List.getElem?_cons_zero, Option.some.injEq] at hj ht
        subst hj ht
        exact g1
      | succ j => exact g3 j m t (by simpa using hj) (by simpa using ht)
    · simpa [List.append_assoc] using k3

/-- The states of a run. -/
structure RunInv (cfg : Conf D K) (O : NodeOps W σ D) (P : D → Prop) (Sz : ℕ → ℕ → Prop) (G : ℕ → σ → Prop)
    (GW : W → (ℕ → ℕ) → Prop) (Free : Prop) (s : Run W σ D K) : Prop where
  core : Core cfg s.tree
  ratio : 3 ≤ s.ratio.length
  alive : ∃ n ∈ s.tree.nodes, n.alive = true
  ok : TreeOk P s.tree
  length : s.drivers.length = s.tree.nodes.length
  good : ∀ (i : ℕ) (n : Node D K) (x : σ), s.tree.nodes[i]? = some n → s.drivers[i]? = some x →
    G n.level x
  node : ∀ (i : ℕ) (n : Node D K) (x : σ), s.tree.nodes[i]? = some n → s.drivers[i]? = some x →
    (n.alive = true ∧ n.pop = [] ∧ n.cost = 0) ∨
      (Sz n.level n.pop.length ∧ ∃ c : ℕ, n.cost = c ∧ c ≤ O.cost x ∧ (Free → c = O.cost x))
  world : GW s.world (levelCost (s.tree.nodes.map Node.level) (s.drivers.map O.cost))

variable {cfg : Conf D K}

theorem Contract.start (h : Contract O maxLevel P N Sz G H GW Free g) (hm : cfg.maxLevel = maxLevel)
    {ratio : List K} (hr : 3 ≤ ratio.length) (perm : List D → List D) (hperm : ∀ l, (perm l).Perm l)
    (w : W) (hw : GW w fun _ => 0) (population : List D) (hN : N 0 ≤ population.length)
    (hP : ∀ d ∈ population, P d) :
    ∃ s, start O ratio perm (N 0) w population = some s ∧ RunInv cfg O P Sz G GW Free s ∧
      s.tree = init := by
  obtain ⟨w1, x, e1, g1, k1⟩ := h.make 0 (Nat.zero_le _) 0 ((perm population).take (N 0)) w _ (by
    rw [List.length_take, (hperm _).length_eq, min_eq_left hN]) (fun d hd =>
      hP d ((hperm _).mem_iff.1 (List.mem_of_mem_take hd))) hw
  refine ⟨⟨init, ratio, [x], w1⟩, ?_, ?_, rfl⟩
  · rw [Hgs.start, if_neg (Nat.not_lt.2 hN), e1]; rfl
  · refine ⟨init_core cfg, hr, ⟨newNode 0 none, by simp [init], rfl⟩, ?_, rfl, ?_, ?_, ?_⟩
    · intro n hn
      simp only [init, List.mem_singleton] at hn
      subst hn
      exact ⟨by simp [newNode], by simp [newNode], by simp [newNode]⟩
    · intro i n y hn hy
      cases i with
      | zero =>
        simp only [init, List.getElem?_cons_zero, Option.some.injEq] at hn hy
        subst hn hy
        exact g1
      | succ i => simp at hy
    · intro i n y hn hy
      cases i with
      | zero =>
        simp only [init, List.getElem?_cons_zero, Option.some.injEq] at hn
        subst hn
        exact .inl ⟨rfl, rfl, rfl⟩
      | succ i => simp at hy
    · convert k1 using 1
      funext l
      simp only [init, newNode, List.map_cons, List.map_nil, levelCost, charge, List.zip_cons_cons,
        List.zip_nil_right, List.sum_cons, List.sum_nil]
      by_cases e : l = 0
      · subst e; simp
      · rw [if_neg e, if_neg (fun h => e h.symm), Nat.add_zero]

/-- `runStep` with another function for the step of the tree. -/
def runStepWith (stp : (ℕ → Report D K) → State D K → List K → Option (State D K × List K)) (O : NodeOps W σ D)
    (C : RunConf D K) (k : ℕ) (s : Run W σ D K) : Option (Run W σ D K) :=
  match s.tree.levels[2]?, s.tree.levels[1]?, s.tree.levels[0]? with
  | some l2, some l1, some l0 =>
    match gather O C k s.tree (l2 ++ l1 ++ l0) s.world s.drivers (fun _ => ⟨[], [], [], 0⟩) with
    | none => none
    | some (w1, ds1, env) =>
      match stp env s.tree s.ratio with
      | none => none
      | some (tree', ratio') =>
        (plant O C s.tree.nodes.length (tree'.nodes.drop s.tree.nodes.length) w1 ds1).map
          fun r => ⟨tree', ratio', r.2, r.1⟩
  | _, _, _ => none

/-- One step of a run, with any step of the tree. -/
theorem Contract.runStep_with (h : Contract O maxLevel P N Sz G H GW Free g) (hm : cfg.maxLevel = maxLevel)
    (hm2 : maxLevel ≤ 2) (C : RunConf D K) (hlen : ∀ l, 1 ≤ C.len l)
    (hsh : ∀ i k l, (C.shuffle i k l).Perm l)
    (hseed : ∀ l, l ≤ maxLevel → ∀ i d, P d → ∃ pop, C.seedPop l i d = some pop ∧ pop.length = N l ∧
      ∀ x ∈ pop, P x) (k : ℕ)
    (stp : (ℕ → Report D K) → State D K → List K → Option (State D K × List K))
    (hstp : ∀ env st ratio, Core cfg st → 3 ≤ ratio.length → ∃ st' ratio', stp env st ratio = some (st', ratio') ∧
      StepOk cfg env st st' ∧ ratio'.length = ratio.length)
    (s : Run W σ D K) (hs : RunInv cfg O P Sz G GW Free s) :
    ∃ s', runStepWith stp O C k s = some s' ∧ RunInv cfg O P Sz G GW Free s' ∧
      (∀ (i : ℕ) (n n' : Node D K), s.tree.nodes[i]? = some n → s'.tree.nodes[i]? = some n' →
        n'.level = n.level ∧ (n.alive = true → Sz n.level n'.pop.length) ∧
        (n.alive = false → n'.pop = n.pop) ∧
        ∃ c c' : ℕ, n.cost = c ∧ n'.cost = c' ∧ c ≤ c' ∧ (n.alive = true → c + g ≤ c')) ∧
      s.tree.nodes.length ≤ s'.tree.nodes.length ∧
      ∀ (i : ℕ) (n' : Node D K), s'.tree.nodes[i]? = some n' → s.tree.nodes.length ≤ i → n'.cost = 0 := by
  subst hm
  have hm2' : cfg.maxLevel ≤ 2 := hm2
  obtain ⟨l2, h2⟩ : ∃ ids, s.tree.levels[2]? = some ids := ⟨_, hs.core.tree.level_list (by omega)⟩
  obtain ⟨l1, h1⟩ : ∃ ids, s.tree.levels[1]? = some ids := ⟨_, hs.core.tree.level_list (by omega)⟩
  obtain ⟨l0, h0⟩ : ∃ ids, s.tree.levels[0]? = some ids := ⟨_, hs.core.tree.level_list (by omega)⟩
  have hlt : ∀ {l : ℕ} {ids : List ℕ}, l ≤ 2 → s.tree.levels[l]? = some ids → ∀ i ∈ ids,
      i < s.tree.nodes.length := fun hl h i hi => by
    obtain ⟨n, hn, _⟩ := (hs.core.tree.mem_level hl h).1 hi
    exact (List.getElem?_eq_some_iff.1 hn).1
  have hall : ∀ (i : ℕ) (n : Node D K), s.tree.nodes[i]? = some n → i ∈ l2 ++ l1 ++ l0 := by
    intro i n hn
    have := hs.core.tree.depth n (List.mem_of_getElem? hn)
    have : n.level = 0 ∨ n.level = 1 ∨ n.level = 2 := by omega
    simp only [List.mem_append]
    rcases this with e | e | e
    · exact .inr ((hs.core.tree.mem_level (by omega) h0).2 ⟨n, hn, e⟩)
    · exact .inl (.inr ((hs.core.tree.mem_level (by omega) h1).2 ⟨n, hn, e⟩))
    · exact .inl (.inl ((hs.core.tree.mem_level (by omega) h2).2 ⟨n, hn, e⟩))
  obtain ⟨w1, ds1, env, e1, m1⟩ := h.gather C hlen hsh k s.tree hs.core.tree.depth s.drivers
    (l2 ++ l1 ++ l0) (fun _ => False) s.world s.drivers (fun _ => ⟨[], [], [], 0⟩) (by
      intro i hi
      rw [List.mem_append, List.mem_append] at hi
      rcases hi with (hi | hi) | hi
      · exact hlt (by omega) h2 i hi
      · exact hlt (by omega) h1 i hi
      · exact hlt (by omega) h0 i hi)
    ⟨hs.length, hs.good, fun i a b ha hb => by
      rw [ha, Option.some.injEq] at hb; rw [hb], fun i n a b hf => hf.elim, fun i n _ _ => rfl, hs.world⟩
  obtain ⟨t', r', e2, ⟨c2, ha2, n1, n2, n3, n4, q1, q2⟩, hr2⟩ := hstp env s.tree s.ratio hs.core hs.ratio
  have hdrv : ∀ (i : ℕ) (n : Node D K), s.tree.nodes[i]? = some n → ∃ x₀ x, s.drivers[i]? = some x₀ ∧
      ds1[i]? = some x := by
    intro i n hn
    have hi := (List.getElem?_eq_some_iff.1 hn).1
    have ha : i < s.drivers.length := by rw [hs.length]; exact hi
    have hb : i < ds1.length := by rw [m1.length]; exact hi
    exact ⟨_, _, List.getElem?_eq_getElem ha, List.getElem?_eq_getElem hb⟩
  have hrep : ∀ (i : ℕ) (n : Node D K) (x₀ x : σ), s.tree.nodes[i]? = some n → n.alive = true →
      s.drivers[i]? = some x₀ → ds1[i]? = some x →
      ReportOk O P Sz Free g n.level (O.cost x₀) (env i) x := fun i n x₀ x hn ha h0 hx =>
    m1.ran i n x₀ x (.inr (hall i n hn)) hn ha h0 hx
  have hok : TreeOk P t' := n4 P hs.ok (by
    intro i n hn ha
    obtain ⟨x₀, x, hx₀, hx⟩ := hdrv i n hn
    have := hrep i n x₀ x hn ha hx₀ hx
    exact ⟨this.2.1, this.2.2.1⟩)
  have hdrop : ∀ n ∈ t'.nodes.drop s.tree.nodes.length, n.level ≤ cfg.maxLevel ∧
      ∃ d, n.seed = some d ∧ P d := by
    intro n hn
    obtain ⟨j, hj⟩ := List.mem_iff_getElem?.1 hn
    rw [List.getElem?_drop] at hj
    obtain ⟨-, -, d, hd⟩ := n2 _ n hj (by omega)
    have hmem := List.mem_of_getElem? hj
    exact ⟨c2.tree.depth n hmem, d, hd, (hok n hmem).2.2 d hd⟩
  obtain ⟨w2, new, e3, l3, g3, k3⟩ := h.plant C hseed (t'.nodes.drop s.tree.nodes.length)
    s.tree.nodes.length w1 (s.tree.nodes.map Node.level) ds1 hdrop (by simp [m1.length]) m1.world
  have hlevels : s.tree.nodes.map Node.level ++ (t'.nodes.drop s.tree.nodes.length).map Node.level
      = t'.nodes.map Node.level := by
    have : s.tree.nodes.map Node.level = (t'.nodes.take s.tree.nodes.length).map Node.level := by
      refine List.ext_getElem? fun i => ?_
      rw [List.getElem?_map, List.getElem?_map, List.getElem?_take]
      by_cases hi : i < s.tree.nodes.length
      · rw [if_pos hi]
        obtain ⟨n', hn', hl, -⟩ := n1 i _ (List.getElem?_eq_getElem hi)
        rw [List.getElem?_eq_getElem hi, hn']
        simp [hl]
      · rw [if_neg hi, List.getElem?_eq_none (by omega)]
    rw [this, ← List.map_append, List.take_append_drop]
  have hget : ∀ (i : ℕ) (x : σ), (ds1 ++ new)[i]? = some x →
      (i < s.tree.nodes.length ∧ ds1[i]? = some x) ∨
        (s.tree.nodes.length ≤ i ∧ new[i - s.tree.nodes.length]? = some x) := by
    intro i x hx
    by_cases hi : i < s.tree.nodes.length
    · rw [List.getElem?_append_left (by rw [m1.length]; exact hi)] at hx
      exact .inl ⟨hi, hx⟩
    · rw [List.getElem?_append_right (by rw [m1.length]; omega), m1.length] at hx
      exact .inr ⟨by omega, hx⟩
  refine ⟨⟨t', r', ds1 ++ new, w2⟩, ?_, ?_, ?_, n3, q2⟩
  · rw [runStepWith, h2, h1, h0]
    simp only
    rw [e1]
    simp only
    rw [e2]
    simp only
    rw [e3]
    rfl
  · refine ⟨c2, hr2 ▸ hs.ratio, ha2, hok, ?_, ?_, ?_, ?_⟩
    · simp only [List.length_append, l3, m1.length, List.length_drop]
      omega
    · intro i n x hn hx
      rcases hget i x hx with ⟨hi, hx⟩ | ⟨hi, hx⟩
      · obtain ⟨n', hn', hl, -⟩ := n1 i _ (List.getElem?_eq_getElem hi)
        have : some n = some n' := hn.symm.trans hn'
        cases this
        rw [hl]
        exact m1.good i _ x (List.getElem?_eq_getElem hi) hx
      · refine g3 _ n x ?_ hx
        rw [List.getElem?_drop, show s.tree.nodes.length + (i - s.tree.nodes.length) = i by omega]
        exact hn
    · intro i n x hn hx
      rcases hget i x hx with ⟨hi, hx⟩ | ⟨hi, hx⟩
      · have hold := List.getElem?_eq_getElem hi
        obtain ⟨n', hn', hl, hp⟩ := n1 i _ hold
        have : some n = some n' := hn.symm.trans hn'
        cases this
        obtain ⟨n', hn', -, hc⟩ := q1 i _ hold
        have : some n = some n' := hn.symm.trans hn'
        cases this
        obtain ⟨x₀, y, hx₀, hy⟩ := hdrv i _ hold
        rw [hx, Option.some.injEq] at hy
        subst hy
        right
        by_cases ha : s.tree.nodes[i].alive = true
        · obtain ⟨a1, -, -, -, hne, c, a2, -, a3, a4⟩ := hrep i _ x₀ x hold ha hx₀ hx
          rw [if_pos ha] at hp hc
          rw [hp, hl]
          refine ⟨a1, c, ?_, a3, a4⟩
          rw [hc, List.getLast_cons hne, a2]
        · rw [if_neg ha] at hp hc
          have hidle := m1.idle i _ hold (by simpa using ha)
          rw [hx, hx₀, Option.some.injEq] at hidle
          subst hidle
          rw [hp, hl, hc]
          rcases hs.node i _ x hold hx₀ with ⟨b, -⟩ | b
          · exact absurd b ha
          · exact b
      · left
        obtain ⟨ha, hp, -⟩ := n2 i n hn hi
        exact ⟨ha, hp, q2 i n hn hi⟩
    · simp only
      rw [← hlevels]
      exact k3
  · intro i n n' hn hn'
    obtain ⟨m, hm', hl, hp⟩ := n1 i n hn
    have : some n' = some m := hn'.symm.trans hm'
    cases this
    obtain ⟨m, hm', -, hc⟩ := q1 i n hn
    have : some n' = some m := hn'.symm.trans hm'
    cases this
    obtain ⟨x₀, x, hx₀, hx⟩ := hdrv i n hn
    refine ⟨hl, fun ha => ?_, fun ha => by rw [hp, ha]; rfl, ?_⟩
    · rw [if_pos ha] at hp
      rw [hp]
      exact (hrep i n x₀ x hn ha hx₀ hx).1
    · obtain ⟨c, b1, b2⟩ : ∃ c : ℕ, n.cost = c ∧ c ≤ O.cost x₀ := by
        rcases hs.node i n x₀ hn hx₀ with ⟨-, -, b⟩ | ⟨-, c, b1, b2, -⟩
        · exact ⟨0, by simpa using b, Nat.zero_le _⟩
        · exact ⟨c, b1, b2⟩
      by_cases ha : n.alive = true
      · obtain ⟨-, -, -, -, hne, c', a2, a3, -⟩ := hrep i n x₀ x hn ha hx₀ hx
        rw [if_pos ha] at hc
        exact ⟨c, c', b1, by rw [hc, List.getLast_cons hne, a2], by omega, fun _ => by omega⟩
      · rw [if_neg ha] at hc
        exact ⟨c, c, b1, by rw [hc, b1], le_rfl, fun h => absurd h ha⟩

/-- One step of a run. -/
theorem Contract.runStep (h : Contract O maxLevel P N Sz G H GW Free g) (hm : cfg.maxLevel = maxLevel)
    (hm2 : maxLevel ≤ 2) (C : RunConf D K) (hlen : ∀ l, 1 ≤ C.len l)
    (hsh : ∀ i k l, (C.shuffle i k l).Perm l)
    (hseed : ∀ l, l ≤ maxLevel → ∀ i d, P d → ∃ pop, C.seedPop l i d = some pop ∧ pop.length = N l ∧
      ∀ x ∈ pop, P x) (k : ℕ) (s : Run W σ D K) (hs : RunInv cfg O P Sz G GW Free s) :
    ∃ s', runStep cfg O C k s = some s' ∧ RunInv cfg O P Sz G GW Free s' ∧
      (∀ (i : ℕ) (n n' : Node D K), s.tree.nodes[i]? = some n → s'.tree.nodes[i]? = some n' →
        n'.level = n.level ∧ (n.alive = true → Sz n.level n'.pop.length) ∧
        (n.alive = false → n'.pop = n.pop) ∧
        ∃ c c' : ℕ, n.cost = c ∧ n'.cost = c' ∧ c ≤ c' ∧ (n.alive = true → c + g ≤ c')) ∧
      s.tree.nodes.length ≤ s'.tree.nodes.length ∧
      ∀ (i : ℕ) (n' : Node D K), s'.tree.nodes[i]? = some n' → s.tree.nodes.length ≤ i → n'.cost = 0 := by
  have hm2' : cfg.maxLevel ≤ 2 := hm ▸ hm2
  exact h.runStep_with hm hm2 C hlen hsh hseed k (Hgs.step cfg (cfg.maxLevel + 1))
    (fun env st ratio c hr => step_ok hm2' (Nat.lt_succ_self _) hr c env) s hs

theorem Contract.runSteps (h : Contract O maxLevel P N Sz G H GW Free g) (hm : cfg.maxLevel = maxLevel)
    (hm2 : maxLevel ≤ 2) (C : RunConf D K) (hlen : ∀ l, 1 ≤ C.len l)
    (hsh : ∀ i k l, (C.shuffle i k l).Perm l)
    (hseed : ∀ l, l ≤ maxLevel → ∀ i d, P d → ∃ pop, C.seedPop l i d = some pop ∧ pop.length = N l ∧
      ∀ x ∈ pop, P x) : ∀ (n k : ℕ) (s : Run W σ D K), RunInv cfg O P Sz G GW Free s →
    ∃ s', runSteps cfg O C k n s = some s' ∧ RunInv cfg O P Sz G GW Free s' := by
  intro n
  induction n with
  | zero => intro k s hs; exact ⟨s, rfl, hs⟩
  | succ n ih =>
    intro k s hs
    obtain ⟨s1, e1, h1, -⟩ := h.runStep hm hm2 C hlen hsh hseed k s hs
    obtain ⟨s2, e2, h2⟩ := ih (k + 1) s1 h1
    exact ⟨s2, by rw [Hgs.runSteps, e1]; exact e2, h2⟩

theorem runSteps_succ (C : RunConf D K) : ∀ (n k : ℕ) (s : Run W σ D K),
    runSteps cfg O C k (n + 1) s = (runSteps cfg O C k n s).bind (runStep cfg O C (k + n)) := by
  intro n
  induction n with
  | zero =>
    intro k s
    simp only [Hgs.runSteps, Option.bind_some, Nat.add_zero]
    cases runStep cfg O C k s <;> rfl
  | succ n ih =>
    intro k s
    rw [Hgs.runSteps, Hgs.runSteps]
    cases h : runStep cfg O C k s with
    | none => rfl
    | some s1 =>
      simp only [Option.bind_some]
      rw [ih, show k + 1 + n = k + (n + 1) by omega]

/-- **C106.** A run of HGS with a driver that keeps the contract, however many steps it makes and
whatever is drawn: nothing raises; every vector of the result satisfies `P`; every node that has run
contributes as many vectors as `Sz` allows on its level (for NSGA-II, SPEA2, IBEA and SMS-EMOA exactly
`population_sizes[level]`), and those that have not run contribute none;
after the first step the root has run. -/
theorem C106_run (h : Contract O cfg.maxLevel P N Sz G H GW Free g) (hm2 : cfg.maxLevel ≤ 2) (C : RunConf D K)
    (hlen : ∀ l, 1 ≤ C.len l) (hsh : ∀ i k l, (C.shuffle i k l).Perm l)
    (hseed : ∀ l, l ≤ cfg.maxLevel → ∀ i d, P d → ∃ pop, C.seedPop l i d = some pop ∧
      pop.length = N l ∧ ∀ x ∈ pop, P x) {ratio : List K} (hr : 3 ≤ ratio.length)
    (perm : List D → List D) (hperm : ∀ l, (perm l).Perm l) (w : W) (hw : GW w fun _ => 0)
    (population : List D) (hN : N 0 ≤ population.length) (hP : ∀ d ∈ population, P d) (n : ℕ) :
    ∃ s s', start O ratio perm (N 0) w population = some s ∧ runSteps cfg O C 0 n s = some s' ∧
      (∀ d ∈ result s', P d) ∧
      (∀ m ∈ s'.tree.nodes, Sz m.level m.pop.length ∨ (m.alive = true ∧ m.pop = [] ∧ m.cost = 0)) ∧
      (1 ≤ n → ∃ p, Sz 0 p ∧ p ≤ (result s').length) := by
  obtain ⟨s, e0, h0, ht⟩ := h.start (cfg := cfg) rfl hr perm hperm w hw population hN hP
  obtain ⟨s', e1, h1⟩ := h.runSteps rfl hm2 C hlen hsh hseed n 0 s h0
  refine ⟨s, s', e0, e1, ?_, ?_, ?_⟩
  · intro d hd
    obtain ⟨m, hm, hd⟩ := List.mem_flatMap.1 hd
    exact (h1.ok m hm).1 d hd
  · intro m hm
    obtain ⟨i, hi⟩ := List.mem_iff_getElem?.1 hm
    have hlt : i < s'.drivers.length := by rw [h1.length]; exact (List.getElem?_eq_some_iff.1 hi).1
    rcases h1.node i m _ hi (List.getElem?_eq_getElem hlt) with h2 | h2
    · exact .inr h2
    · exact .inl h2.1
  · intro hn
    obtain ⟨n, rfl⟩ := Nat.exists_eq_succ_of_ne_zero (Nat.one_le_iff_ne_zero.1 hn)
    have key : ∀ (n : ℕ) (t : Run W σ D K), runSteps cfg O C 0 n s = some t →
        RunInv cfg O P Sz G GW Free t ∧ ∃ q, t.tree.nodes[0]? = some q ∧ q.level = 0 ∧
          (1 ≤ n → Sz 0 q.pop.length) ∧ (n = 0 → q.alive = true) := by
      intro n
      induction n with
      | zero =>
        intro t ht'
        cases ht'
        exact ⟨h0, newNode 0 none, by rw [ht]; rfl, rfl, by omega, fun _ => rfl⟩
      | succ n ih =>
        intro t ht'
        rw [runSteps_succ] at ht'
        obtain ⟨u, hu, ht'⟩ := Option.bind_eq_some_iff.1 ht'
        obtain ⟨i1, q, hq, hq0, hq1, hq2⟩ := ih u hu
        obtain ⟨v, e2, i2, f2, l2, -⟩ := h.runStep rfl hm2 C hlen hsh hseed (0 + n) u i1
        rw [ht', Option.some.injEq] at e2
        subst e2
        have hpos : 0 < t.tree.nodes.length := lt_of_lt_of_le (List.getElem?_eq_some_iff.1 hq).1 l2
        obtain ⟨g1, g2, g3, -⟩ := f2 0 q _ hq (List.getElem?_eq_getElem hpos)
        refine ⟨i2, _, List.getElem?_eq_getElem hpos, g1.trans hq0, fun _ => ?_, by omega⟩
        by_cases ha : q.alive = true
        · have := g2 ha
          rwa [hq0] at this
        · rw [g3 (by simpa using ha)]
          by_cases hn0 : n = 0
          · exact absurd (hq2 hn0) ha
          · exact hq1 (by omega)
    obtain ⟨-, q, hq, -, hq1, -⟩ := key _ s' e1
    exact ⟨_, hq1 (by omega), (List.sublist_flatten_of_mem (List.mem_map_of_mem (List.mem_of_getElem? hq))).length_le⟩

/-- **C106.** If every step of a driver costs at least `g` and the cost modifiers are at least `μ`, a
step of HGS raises its cost by at least `μ * g`: some node is always alive. So every budget is reached
if both are positive. -/
theorem C106_progress [IsStrictOrderedRing K] (h : Contract O cfg.maxLevel P N Sz G H GW Free g)
    (hm2 : cfg.maxLevel ≤ 2) (C : RunConf D K)
    (hlen : ∀ l, 1 ≤ C.len l) (hsh : ∀ i k l, (C.shuffle i k l).Perm l)
    (hseed : ∀ l, l ≤ cfg.maxLevel → ∀ i d, P d → ∃ pop, C.seedPop l i d = some pop ∧
      pop.length = N l ∧ ∀ x ∈ pop, P x) (μ : K) (hμ : 0 ≤ μ)
    (hmod : ∀ l, l ≤ cfg.maxLevel → μ ≤ cfg.modifier l) (k : ℕ)
    (s : Run W σ D K) (hs : RunInv cfg O P Sz G GW Free s) :
    ∃ s', runStep cfg O C k s = some s' ∧ RunInv cfg O P Sz G GW Free s' ∧
      s.tree.cost + μ * g ≤ s'.tree.cost := by
  obtain ⟨s', e1, h1, f1, l1, z1⟩ := h.runStep rfl hm2 C hlen hsh hseed k s hs
  refine ⟨s', e1, h1, ?_⟩
  rw [hs.core.cost, h1.core.cost, weighted, weighted]
  have hz : ∀ l : List (Node D K), (∀ n ∈ l, n.cost = 0) →
      (l.map fun n => cfg.modifier n.level * n.cost).sum = 0 := by
    intro l hl
    refine List.sum_eq_zero ?_
    intro x hx
    obtain ⟨n, hn, rfl⟩ := List.mem_map.1 hx
    rw [hl n hn, mul_zero]
  have key : ∀ (l l' : List (Node D K)), l.length ≤ l'.length → (∀ n ∈ l, n.level ≤ cfg.maxLevel) →
      (∀ (i : ℕ) (n n' : Node D K), l[i]? = some n → l'[i]? = some n' → n'.level = n.level ∧
        ∃ c c' : ℕ, n.cost = c ∧ n'.cost = c' ∧ c ≤ c' ∧ (n.alive = true → c + g ≤ c')) →
      (∀ (i : ℕ) (n' : Node D K), l'[i]? = some n' → l.length ≤ i → n'.cost = 0) →
      (l.map fun n => cfg.modifier n.level * n.cost).sum ≤
        (l'.map fun n => cfg.modifier n.level * n.cost).sum ∧
      ((∃ n ∈ l, n.alive = true) → (l.map fun n => cfg.modifier n.level * n.cost).sum + μ * g ≤
        (l'.map fun n => cfg.modifier n.level * n.cost).sum) := by
    intro l
    induction l with
    | nil =>
      intro l' _ _ _ h0
      refine ⟨?_, by simp⟩
      rw [hz l' (fun n hn => by
        obtain ⟨i, hi⟩ := List.mem_iff_getElem?.1 hn
        exact h0 i n hi (Nat.zero_le _))]
      simp
    | cons a l ih =>
      intro l' hl hd hle h0
      cases l' with
      | nil => simp at hl
      | cons b l' =>
        obtain ⟨i1, i2⟩ := ih l' (by simpa using hl)
          (fun n hn => hd n (List.mem_cons_of_mem _ hn)) (fun i n n' hn hn' => hle (i + 1) n n' hn hn')
          (fun i n' hn' hi => h0 (i + 1) n' hn' (by simpa using hi))
        obtain ⟨e1, c, c', e2, e3, e4, e5⟩ := hle 0 a b rfl rfl
        have hma : μ ≤ cfg.modifier a.level := hmod _ (hd a (by simp))
        have hpos : 0 ≤ cfg.modifier a.level := hμ.trans hma
        have hab : cfg.modifier a.level * a.cost ≤ cfg.modifier b.level * b.cost := by
          rw [e1, e2, e3]
          exact mul_le_mul_of_nonneg_left (by exact_mod_cast e4) hpos
        simp only [List.map_cons, List.sum_cons]
        refine ⟨add_le_add hab i1, ?_⟩
        rintro ⟨n, hn, ha⟩
        rcases List.mem_cons.1 hn with rfl | hn
        · have : cfg.modifier n.level * n.cost + μ * g ≤ cfg.modifier b.level * b.cost := by
            rw [e1, e2, e3]
            have h5 : (c : K) + g ≤ c' := by exact_mod_cast e5 ha
            calc cfg.modifier n.level * (c : K) + μ * g
                ≤ cfg.modifier n.level * c + cfg.modifier n.level * g :=
                  add_le_add le_rfl (mul_le_mul_of_nonneg_right hma (Nat.cast_nonneg _))
              _ = cfg.modifier n.level * (c + g) := by ring
              _ ≤ _ := mul_le_mul_of_nonneg_left h5 hpos
          linarith
        · have := i2 ⟨n, hn, ha⟩
          linarith
  exact (key _ _ l1 (fun n hn => hs.core.tree.depth n hn)
    (fun i n n' hn hn' => ⟨(f1 i n n' hn hn').1, (f1 i n n' hn hn').2.2.2⟩) z1).2 hs.alive

omit [LinearOrder K] in
/-- A weighted sum, by level. -/
theorem levelCost_weighted (f : ℕ → K) : ∀ (ls cs : List ℕ), (∀ l ∈ ls, l ≤ 2) →
    ((ls.zip cs).map fun p => f p.1 * (p.2 : K)).sum =
      ((List.range 3).map fun l => f l * (levelCost ls cs l : K)).sum := by
  intro ls
  induction ls with
  | nil => intro cs _; simp [levelCost]
  | cons a ls ih =>
    intro cs h
    cases cs with
    | nil => simp [levelCost]
    | cons c cs =>
      have ha := h a (by simp)
      rw [List.zip_cons_cons, List.map_cons, List.sum_cons,
        ih cs (fun l hl => h l (List.mem_cons_of_mem _ hl))]
      simp only [levelCost_cons, List.range_succ, List.range_zero, List.nil_append,
        List.map_cons, List.map_nil, List.sum_cons, List.sum_nil, Nat.cast_add,
        List.cons_append]
      obtain rfl | rfl | rfl : a = 0 ∨ a = 1 ∨ a = 2 := by omega
      all_goals simp; ring

/-- **C106.** What a run of HGS costs, if concluding a metaepoch is free and populations are not
empty: the cost and what the drivers of the sprouts made in the last step have charged so far add up to
what all drivers have charged, weighted with the cost modifiers of their levels. -/
theorem C106_cost (hfree : Free) (hm2 : cfg.maxLevel ≤ 2) (hN : ∀ l, l ≤ cfg.maxLevel → ¬ Sz l 0)
    (s : Run W σ D K) (hs : RunInv cfg O P Sz G GW Free s) :
    s.tree.cost + ((s.tree.nodes.zip s.drivers).map fun p =>
        if p.1.pop.isEmpty then cfg.modifier p.1.level * (O.cost p.2 : K) else 0).sum =
      ((List.range 3).map fun l => cfg.modifier l *
        (levelCost (s.tree.nodes.map Node.level) (s.drivers.map O.cost) l : K)).sum := by
  rw [← levelCost_weighted _ _ _ (by
    intro l hl
    obtain ⟨n, hn, rfl⟩ := List.mem_map.1 hl
    exact (hs.core.tree.depth n hn).trans hm2), hs.core.cost, weighted]
  have key : ∀ (ns : List (Node D K)) (xs : List σ), ns.length = xs.length →
      (∀ (i : ℕ) (n : Node D K) (x : σ), ns[i]? = some n → xs[i]? = some x →
        n.cost + (if n.pop.isEmpty then (O.cost x : K) else 0) = O.cost x) →
      (ns.map fun n => cfg.modifier n.level * n.cost).sum + ((ns.zip xs).map fun p =>
        if p.1.pop.isEmpty then cfg.modifier p.1.level * (O.cost p.2 : K) else 0).sum =
      (((ns.map Node.level).zip (xs.map O.cost)).map fun p => cfg.modifier p.1 * (p.2 : K)).sum := by
    intro ns
    induction ns with
    | nil => intro xs _ _; simp
    | cons n ns ih =>
      intro xs hl hx
      cases xs with
      | nil => simp at hl
      | cons x xs =>
        have h0 := hx 0 n x rfl rfl
        have h1 := ih xs (by simpa using hl) (fun i m y hm hy => hx (i + 1) m y hm hy)
        simp only [List.map_cons, List.zip_cons_cons, List.sum_cons]
        rw [← h1, ← h0]
        split
        · rename_i he
          simp only [he, if_true] at h0
          have : n.cost = 0 := by
            have := congrArg (fun y => y - (O.cost x : K)) h0
            simpa using this
          rw [this]; ring
        · ring
  refine key _ _ hs.length.symm ?_
  intro i n x hn hx
  rcases hs.node i n x hn hx with ⟨-, h1, h2⟩ | ⟨h1, c, h2, -, h3⟩
  · rw [h1, h2]; simp
  · have : n.pop ≠ [] := by
      intro e
      have := hN n.level (hs.core.tree.depth n (List.mem_of_getElem? hn))
      rw [e] at h1
      exact this h1
    rw [if_neg (by simpa using this), h2, h3 hfree, add_zero]

end

/-! ## The setting of the examples -/

open Generations in
/-- A tree with one sprout per node; a node is not progressing when it grows by less than a factor. -/
def exTreeConf : Conf (List ℚ) ℚ :=
  ⟨2, 1, 1, fun l => 1 / 2 ^ l, fun _ _ _ => false, fun l => l.headD [], 1 / 100, id⟩

open Generations in
/-- One step per metaepoch, two vectors around a delegate. -/
def exRunConf : RunConf (List ℚ) ℚ :=
  ⟨fun _ => 1, fun p => p.flatten.sum, fun _ _ => id, fun _ _ v =>
    populationFromDelegate exSetup.pw exSetup.eps (fun _ _ => ⟨0, 1 / 4⟩) v 2 [(0, 1)] 1 1⟩

end Evogil.Hgs
