import Verif.Lemmas.DistDrivers
import Verif.Spec.DistDrivers
import Verif.Props.DistHgsStep
import Verif.Props.HgsRun

/-!
# C113: whole runs of the distributed HGS with drivers in its nodes
-/

set_option linter.unusedSectionVars false

namespace Evogil.Dist

open Spec Hgs

variable {δ D K : Type*} [Field K] [LinearOrder K] [IsStrictOrderedRing K]
variable {cfg : Hgs.Conf D K} {env env' : ℕ → ℕ → Hgs.Report D K} {spawn spawn' : ℕ → ℕ → ℕ → List D}
variable {O : NodeOps Unit δ D} {C : RunConf D K} {draw : ℕ → ℕ → ℕ → ℕ} {P : D → Prop} {N : ℕ → ℕ}
  {Sz : ℕ → ℕ → Prop} {size : ℕ}
  {G H : ℕ → δ → Prop} {Free : Prop} {g : ℕ}

/-- What holds between two calls. -/
structure DInv (cfg : Hgs.Conf D K) (O : NodeOps Unit δ D) (P : D → Prop) (Sz : ℕ → ℕ → Prop) (G : ℕ → δ → Prop)
    (σ : PState D K) (ds : List δ) : Prop where
  good : Good cfg σ
  length : ds.length = σ.st.nodes.length
  driver : ∀ i s, i < σ.st.nodes.length → ds[i]? = some s →
    G (nodeAt σ.st i).level s ∧ (nodeAt σ.st i).cost ≤ (O.cost s : K)
  pops : ∀ i < σ.st.nodes.length, ∀ d ∈ (nodeAt σ.st i).pop, P d
  sizes : ∀ i < σ.st.nodes.length, (nodeAt σ.st i).pop = [] ∨
    Sz (nodeAt σ.st i).level (nodeAt σ.st i).pop.length
  delegates : ∀ i < σ.st.nodes.length, ∀ d ∈ (nodeAt σ.st i).delegates, P d

theorem core_level {a b : Hgs.Node D K} (h : core a = core b) : a.level = b.level ∧ a.cost = b.cost ∧
    a.pop = b.pop ∧ a.delegates = b.delegates := by
  have h1 := congrArg Hgs.Node.level h
  have h2 := congrArg Hgs.Node.cost h
  have h3 := congrArg Hgs.Node.pop h
  have h4 := congrArg Hgs.Node.delegates h
  exact ⟨h1, h2, h3, h4⟩

theorem nodeMetaepoch_alive (fl : K → K) (r : Hgs.Report D K) (hne : r.costs ≠ []) (a : Hgs.Node D K)
    (ha : a.alive = true) : (nodeMetaepoch fl r a).1.level = a.level ∧
      (nodeMetaepoch fl r a).1.cost = r.costs.getLast hne ∧ (nodeMetaepoch fl r a).1.pop = r.pop ∧
      (nodeMetaepoch fl r a).1.delegates = r.delegates := by
  simp only [nodeMetaepoch, ha, if_true, Rounded.Hgs.afterMetaepoch, List.getLast?_eq_some_getLast hne,
    Option.getD_some]
  split <;> exact ⟨rfl, rfl, rfl, rfl⟩

theorem nodeMetaepoch_dead (fl : K → K) (r : Hgs.Report D K) (a : Hgs.Node D K) (ha : a.alive = false) :
    (nodeMetaepoch fl r a).1 = a := by
  simp [nodeMetaepoch, ha]

theorem newNode_core {a : Hgs.Node D K} {l : ℕ} (h : core a = Hgs.newNode l none) :
    a.cost = 0 ∧ a.pop = [] ∧ a.delegates = [] := by
  have h2 := congrArg Hgs.Node.cost h
  have h3 := congrArg Hgs.Node.pop h
  have h4 := congrArg Hgs.Node.delegates h
  exact ⟨h2, h3, h4⟩

/-- Seeding gives populations of the size of the level. -/
def Seeds (cfg : Hgs.Conf D K) (C : RunConf D K) (P : D → Prop) (N : ℕ → ℕ) : Prop :=
  ∀ l, l ≤ cfg.maxLevel → ∀ (x : ℕ) (d : D), P d → ∃ pop, C.seedPop l x d = some pop ∧ pop.length = N l ∧
    ∀ y ∈ pop, P y

theorem level_le {σ : PState D K} (g : Good cfg σ) {i : ℕ} (hi : i < σ.st.nodes.length) :
    (nodeAt σ.st i).level ≤ cfg.maxLevel :=
  g.tree.depth _ (List.mem_of_getElem? (nodeAt_get hi))

/-- One step. -/
theorem DInv.step (hc : Contract O cfg.maxLevel P N Sz G H (fun _ _ => True) Free g) (hm : cfg.maxLevel ≤ 2)
    (henv : ∀ n k, (env n k).costs ≠ []) (hlen : ∀ l, 1 ≤ C.len l)
    (hsh : ∀ i k l, (C.shuffle i k l).Perm l) (hseed : Seeds cfg C P N) (μ : K) (hμ : 0 ≤ μ)
    (hmod : ∀ l, l ≤ cfg.maxLevel → μ ≤ cfg.modifier l) {σ σ' : PState D K} {ds ds' : List δ}
    (h : DInv cfg O P Sz G σ ds) (hs : seqStep cfg env spawn σ = some σ')
    (ha : Along O C draw env spawn σ ds σ' ds') :
    DInv cfg O P Sz G σ' ds' ∧ σ.st.cost + μ * g ≤ σ'.st.cost ∧
      ((nodeAt σ.st 0).alive = true ∨ Sz 0 (nodeAt σ.st 0).pop.length →
        Sz 0 (nodeAt σ'.st 0).pop.length) := by
  obtain ⟨g', hle, hold, hnew, hfrom, σ₁, hserv, hcost⟩ := seqStep_core hm henv h.good hs
  -- the living nodes
  have hrun : ∀ i, i < σ.st.nodes.length → (nodeAt σ.st i).alive = true → ∃ s s', ds[i]? = some s ∧
      ds'[i]? = some s' ∧ G (nodeAt σ.st i).level s ∧ (nodeAt σ.st i).cost ≤ (O.cost s : K) ∧
      G (nodeAt σ.st i).level s' ∧
      ReportOk O P Sz Free g (nodeAt σ.st i).level (O.cost s) (env i (σ.ctr i)) s' := by
    intro i hi hal
    have hid : i < ds.length := by rw [h.length]; exact hi
    have hsd := List.getElem?_eq_getElem hid
    obtain ⟨s', e1, e2⟩ := ha.run i _ _ (nodeAt_get hi) hsd hal
    obtain ⟨d1, d2⟩ := h.driver i _ hi hsd
    obtain ⟨w, t, r, f1, f2, -, -, f3⟩ := hc.nodeReport C hlen hsh (level_le h.good hi) i (σ.ctr i) ()
      (fun _ => 0) ds[i] d1 trivial
    rw [e1] at f1
    simp only [Option.some.injEq, Prod.mk.injEq] at f1
    obtain ⟨-, rfl, rfl⟩ := f1
    exact ⟨_, s', hsd, e2, d1, d2, f2, f3⟩
  have hdel : ∀ i < σ'.st.nodes.length, ∀ d ∈ (nodeAt σ'.st i).delegates, P d := by
    intro i hi
    by_cases e : i < σ.st.nodes.length
    · obtain ⟨-, -, -, c4⟩ := core_level (hold i e)
      rw [c4]
      by_cases hal : (nodeAt σ.st i).alive = true
      · obtain ⟨s, s', -, -, -, -, -, r1⟩ := hrun i e hal
        rw [(nodeMetaepoch_alive cfg.fl _ (henv _ _) _ hal).2.2.2]
        exact r1.2.2.1
      · rw [nodeMetaepoch_dead cfg.fl _ _ (by simpa using hal)]
        exact h.delegates i e
    · obtain ⟨l, hl⟩ := hnew i (by omega) hi
      rw [(newNode_core hl).2.2]
      simp
  refine ⟨⟨g', ha.length, ?_, ?_, ?_, hdel⟩, ?_, ?_⟩
  · intro i s hi hsi
    by_cases e : i < σ.st.nodes.length
    · obtain ⟨c1, c2, -, -⟩ := core_level (hold i e)
      rw [c1, c2]
      by_cases hal : (nodeAt σ.st i).alive = true
      · obtain ⟨s0, s', -, h2, -, -, h5, -, -, -, -, hne, c, r1, -, r3, -⟩ := hrun i e hal
        rw [h2, Option.some.injEq] at hsi
        subst hsi
        obtain ⟨n1, n2, -, -⟩ := nodeMetaepoch_alive cfg.fl _ hne _ hal
        rw [n1, n2, r1]
        exact ⟨h5, by exact_mod_cast r3⟩
      · have hal' : (nodeAt σ.st i).alive = false := by simpa using hal
        have hid : i < ds.length := by rw [h.length]; exact e
        have hsd := List.getElem?_eq_getElem hid
        have := ha.rest i _ _ (nodeAt_get e) hsd hal'
        rw [this, Option.some.injEq] at hsi
        subst hsi
        rw [nodeMetaepoch_dead cfg.fl _ _ hal']
        exact h.driver i _ e hsd
    · obtain ⟨i', a, k, idx, d, s', m1, m2, m3, -, m4, m5, m6⟩ := ha.made i _ (by omega) (nodeAt_get hi)
      rw [m6, Option.some.injEq] at hsi
      subst hsi
      have hi' := (List.getElem?_eq_some_iff.1 m1).1
      have hd : P d := by
        apply hdel i' hi'
        have : nodeAt σ'.st i' = a := by simp [nodeAt, m1]
        rw [this]
        exact List.mem_of_getElem? m3
      have hlv := level_le g' hi
      obtain ⟨pop, p1, p2, p3⟩ := hseed _ hlv (draw i' k idx) d hd
      rw [m4, Option.some.injEq] at p1
      subst p1
      obtain ⟨w, t, q1, q2, -⟩ := hc.make _ hlv i _ () (fun _ => 0) p2 p3 trivial
      rw [m5] at q1
      simp only [Option.some.injEq, Prod.mk.injEq, true_and] at q1
      obtain ⟨-, rfl⟩ := q1
      obtain ⟨l, hl⟩ := hnew i (by omega) hi
      rw [(newNode_core hl).1]
      exact ⟨q2, by exact_mod_cast Nat.zero_le _⟩
  · intro i hi
    by_cases e : i < σ.st.nodes.length
    · obtain ⟨-, -, c3, -⟩ := core_level (hold i e)
      rw [c3]
      by_cases hal : (nodeAt σ.st i).alive = true
      · obtain ⟨s, s', -, -, -, -, -, r1⟩ := hrun i e hal
        rw [(nodeMetaepoch_alive cfg.fl _ (henv _ _) _ hal).2.2.1]
        exact r1.2.1
      · rw [nodeMetaepoch_dead cfg.fl _ _ (by simpa using hal)]
        exact h.pops i e
    · obtain ⟨l, hl⟩ := hnew i (by omega) hi
      rw [(newNode_core hl).2.1]
      simp
  · intro i hi
    by_cases e : i < σ.st.nodes.length
    · obtain ⟨c1, -, c3, -⟩ := core_level (hold i e)
      rw [c3, c1]
      by_cases hal : (nodeAt σ.st i).alive = true
      · obtain ⟨s, s', -, -, -, -, -, r1⟩ := hrun i e hal
        obtain ⟨n1, -, n3, -⟩ := nodeMetaepoch_alive cfg.fl (env i (σ.ctr i)) (henv _ _) _ hal
        rw [n1, n3]
        exact .inr r1.1
      · rw [nodeMetaepoch_dead cfg.fl _ _ (by simpa using hal)]
        exact h.sizes i e
    · obtain ⟨l, hl⟩ := hnew i (by omega) hi
      exact .inl (newNode_core hl).2.1
  · obtain ⟨-, -, hmax⟩ := C86_cost hserv
    obtain ⟨i, hi, hal⟩ := h.good.living
    obtain ⟨s, s', -, -, -, d2, -, -, -, -, -, hne, c, r1, r2, -⟩ := hrun i hi hal
    have := hmax i _ c (nodeAt_get hi) hal (by rw [List.getLast?_eq_some_getLast hne, r1])
    rw [hcost]
    have hx : (g : K) ≤ c - (nodeAt σ.st i).cost := by
      have : ((O.cost s + g : ℕ) : K) ≤ c := by exact_mod_cast r2
      push_cast at this
      linarith
    have h1 : μ * g ≤ cfg.modifier (nodeAt σ.st i).level * (c - (nodeAt σ.st i).cost) :=
      mul_le_mul (hmod _ (level_le h.good hi)) hx (by exact_mod_cast Nat.zero_le _)
        (hμ.trans (hmod _ (level_le h.good hi)))
    linarith
  · intro h0
    have hpos := tree_pos h.good.tree
    have hroot : (nodeAt σ.st 0).level = 0 := by
      have := h.good.tree.root
      rw [nodeAt_get hpos] at this
      simpa using this
    obtain ⟨-, -, c3, -⟩ := core_level (hold 0 hpos)
    rw [c3]
    by_cases hal : (nodeAt σ.st 0).alive = true
    · obtain ⟨s, s', -, -, -, -, -, r1⟩ := hrun 0 hpos hal
      rw [(nodeMetaepoch_alive cfg.fl _ (henv _ _) _ hal).2.2.1]
      have := r1.1
      rwa [hroot] at this
    · rw [nodeMetaepoch_dead cfg.fl _ _ (by simpa using hal)]
      exact h0.resolve_left hal

/-- Between the calls only the numbers of the tasks may change. -/
theorem DInv.bump {σ : PState D K} {ds : List δ} (h : DInv cfg O P Sz G σ ds) {T : List ℕ}
    (hT : ∀ n ∈ T, n < σ.st.nodes.length) :
    DInv cfg O P Sz G { σ with ctr := Dist.bump T σ.ctr } ds :=
  ⟨h.good.bump hT, h.length, h.driver, h.pops, h.sizes, h.delegates⟩

theorem asked_lt (hm : cfg.maxLevel ≤ 2) {σ : PState D K} (g : Good cfg σ) (lvl : Option ℕ) :
    ∀ n ∈ asked cfg σ lvl, n < σ.st.nodes.length := by
  cases lvl with
  | none => simp [asked]
  | some l =>
    intro n hn
    simp only [asked] at hn
    split at hn
    · rename_i hl
      obtain ⟨ids, hids⟩ : ∃ ids, σ.st.levels[l]? = some ids := ⟨_, g.tree.level_list (by omega)⟩
      rw [List.getD, hids, Option.getD_some] at hn
      obtain ⟨a, ha, _⟩ := (g.tree.mem_level (by omega) hids).1 hn
      exact (List.getElem?_eq_some_iff.1 ha).1
    · cases hn

/-! ## All calls -/

/-- A population answered consists of vectors with `P`; if the root has its population, there are at least
as many as the root has. -/
def PopOk (P : D → Prop) (root : Prop) (n : ℕ) (m : Msg D K) : Prop :=
  ∀ pop id, m = .answer (.population pop) id → (∀ d ∈ pop, P d) ∧ (root → n ≤ pop.length)

theorem root_le {σ : PState D K} (h0 : 0 < σ.st.nodes.length) :
    (nodeAt σ.st 0).pop.length ≤ (σ.st.nodes.flatMap Hgs.Node.pop).length := by
  obtain ⟨a, l, e⟩ := List.exists_cons_of_length_pos h0
  simp [nodeAt, e]

theorem DInv.calls (hc : Contract O cfg.maxLevel P N Sz G H (fun _ _ => True) Free g)
    (hsize : ∀ p, Sz 0 p → size ≤ p) (hm : cfg.maxLevel ≤ 2)
    (henv : ∀ n k, (env n k).costs ≠ []) (hlen : ∀ l, 1 ≤ C.len l)
    (hsh : ∀ i k l, (C.shuffle i k l).Perm l) (hseed : Seeds cfg C P N) (μ : K) (hμ : 0 ≤ μ)
    (hmod : ∀ l, l ≤ cfg.maxLevel → μ ≤ cfg.modifier l) {σ σ' : PState D K} {ds ds' : List δ}
    {calls : List Call} (hd : Drives O C draw cfg env spawn σ ds calls σ' ds') :
    ∀ {σ₁ : PState D K} {sent : ℕ} {as : List (Msg D K)}, DInv cfg O P Sz G σ ds →
    (nodeAt σ.st 0).alive = true ∨ Sz 0 (nodeAt σ.st 0).pop.length →
    Run cfg env spawn σ sent (calls.flatMap Call.requests) as σ₁ →
    σ₁ = σ' ∧ DInv cfg O P Sz G σ' ds' ∧ σ.st.cost + (calls.count .step : ℕ) * (μ * g) ≤ σ'.st.cost ∧
      ∀ m ∈ as, PopOk P (Sz 0 (nodeAt σ.st 0).pop.length ∨ calls.head? = some .step) size m := by
  induction hd with
  | nil σ ds =>
    intro σ₁ sent as h _ R
    cases R
    exact ⟨rfl, h, by simp, by simp⟩
  | @step σ σ' σ'' ds ds' ds'' calls hs ha t ih =>
    intro σ₁ sent as h h0 R
    rw [List.flatMap_cons] at R
    obtain ⟨as₁, as₂, ρ, rfl, R1, R2⟩ := R.split
    obtain ⟨bs, R1'⟩ := run_step hs sent
    obtain ⟨rfl, -⟩ := C41_order R1 R1'
    obtain ⟨i1, i2, i3⟩ := h.step hc hm henv hlen hsh hseed μ hμ hmod hs ha
    obtain ⟨j1, j2, j3, j4⟩ := ih i1 (.inr (i3 h0)) R2
    refine ⟨j1, j2, ?_, ?_⟩
    · rw [List.count_cons_self]
      push_cast
      linarith
    · intro m hmem
      rcases List.mem_append.1 hmem with hmem | hmem
      · have hw := R1.wants
        intro pop id e
        subst e
        exfalso
        simp only [Call.requests, stepRequests] at hw
        rcases hw with _ | ⟨w1, _ | ⟨w2, _ | ⟨w3, _ | ⟨w4, _ | ⟨w5, _ | _⟩⟩⟩⟩⟩
        simp only [Req.wants] at w1 w2 w3 w4 w5
        obtain ⟨_, _, rfl⟩ := w1
        obtain ⟨_, rfl⟩ := w2
        obtain ⟨_, rfl⟩ := w3
        obtain ⟨_, rfl⟩ := w4
        obtain ⟨_, rfl⟩ := w5
        simp at hmem
      · intro pop id e
        obtain ⟨p1, p2⟩ := j4 m hmem pop id e
        exact ⟨p1, fun _ => p2 (.inl (i3 h0))⟩
  | @population σ σ'' ds ds'' calls t ih =>
    intro σ₁ sent as h h0 R
    rw [List.flatMap_cons] at R
    obtain ⟨as₁, as₂, ρ, rfl, R1, R2⟩ := R.split
    have R1' : Run cfg env spawn σ sent [.population] as₁ ρ := R1
    cases R1' with
    | cons hs ht =>
      cases ht
      cases hs with
      | population pop hp =>
        obtain ⟨j1, j2, j3, j4⟩ := ih (h.bump (by simp)) h0 R2
        refine ⟨j1, j2, ?_, ?_⟩
        · have : (Call.finalizedPopulation :: calls).count Call.step = calls.count Call.step :=
            List.count_cons_of_ne (by simp)
          rw [this]
          exact j3
        · intro m hmem pop' id e
          rcases List.mem_append.1 hmem with hmem | hmem
          · rw [List.mem_singleton.1 hmem] at e
            cases e
            constructor
            · intro d hd
              obtain ⟨n, hn, hdn⟩ := List.mem_flatMap.1 (hp.mem_iff.1 hd)
              obtain ⟨i, hi⟩ := List.mem_iff_getElem?.1 hn
              have hl := (List.getElem?_eq_some_iff.1 hi).1
              rw [nodeAt_get hl, Option.some.injEq] at hi
              rw [← hi] at hdn
              exact h.pops i hl d hdn
            · intro hr
              rw [hp.length_eq]
              exact (hsize _ (hr.resolve_right (by simp))).trans (root_le (tree_pos h.good.tree))
          · obtain ⟨p1, p2⟩ := j4 m hmem pop' id e
            exact ⟨p1, fun hr => p2 (.inl (hr.resolve_right (by simp)))⟩
  | @status σ σ'' ds ds'' calls lvl t ih =>
    intro σ₁ sent as h h0 R
    rw [List.flatMap_cons] at R
    obtain ⟨as₁, as₂, ρ, rfl, R1, R2⟩ := R.split
    have R1' : Run cfg env spawn σ sent [.checkStatus lvl] as₁ ρ := R1
    cases R1' with
    | cons hs ht =>
      cases ht
      cases hs with
      | status _ states hp =>
        obtain ⟨j1, j2, j3, j4⟩ := ih (h.bump (asked_lt hm h.good lvl)) h0 R2
        refine ⟨j1, j2, ?_, ?_⟩
        · have : (Call.status lvl :: calls).count Call.step = calls.count Call.step :=
            List.count_cons_of_ne (by simp)
          rw [this]
          exact j3
        · intro m hmem pop' id e
          rcases List.mem_append.1 hmem with hmem | hmem
          · rw [List.mem_singleton.1 hmem] at e
            cases e
          · obtain ⟨p1, p2⟩ := j4 m hmem pop' id e
            exact ⟨p1, fun hr => p2 (.inl (hr.resolve_right (by simp)))⟩

/-! ## The calls can be made -/

theorem exists_list (n : ℕ) (Q : ℕ → δ → Prop) (h : ∀ j < n, ∃ s, Q j s) :
    ∃ ds : List δ, ds.length = n ∧ ∀ j < n, ∃ s, ds[j]? = some s ∧ Q j s := by
  choose f hf using h
  refine ⟨List.ofFn fun j : Fin n => f j j.2, by simp, fun j hj => ⟨f j hj, ?_, hf j hj⟩⟩
  rw [List.getElem?_ofFn, dif_pos hj]

/-- The reports of the drivers, in place of those of `env` for the tasks given next. -/
def nextEnv (O : NodeOps Unit δ D) (C : RunConf D K) (σ : PState D K) (ds : List δ)
    (env : ℕ → ℕ → Hgs.Report D K) (n k : ℕ) : Hgs.Report D K :=
  match ds[n]? with
  | none => env n k
  | some s =>
    if k = σ.ctr n then
      match nodeReport O C (nodeAt σ.st n).level n k () s with
      | some r => r.2.2
      | none => env n k
    else env n k

/-- The populations made from the delegates, in place of those of `spawn` for the tasks given next. -/
def nextSpawn (C : RunConf D K) (draw : ℕ → ℕ → ℕ → ℕ) (σ : PState D K) (del : ℕ → List D)
    (spawn : ℕ → ℕ → ℕ → List D) (i k idx : ℕ) : List D :=
  if k < σ.ctr i then spawn i k idx
  else (((del i)[idx]?).bind (C.seedPop ((nodeAt σ.st i).level + 1) (draw i k idx))).getD []

theorem Along.congr {σ σ' : PState D K} {ds ds' : List δ} (h : Along O C draw env spawn σ ds σ' ds')
    (he : ∀ n < σ.st.nodes.length, env' n (σ.ctr n) = env n (σ.ctr n))
    (hs : ∀ i k, k < σ'.ctr i → spawn' i k = spawn i k) : Along O C draw env' spawn' σ ds σ' ds' := by
  refine ⟨h.length, ?_, h.rest, ?_⟩
  · intro i a s hi hsd ha
    rw [he i (List.getElem?_eq_some_iff.1 hi).1]
    exact h.run i a s hi hsd ha
  · intro j b hj hb
    obtain ⟨i, a, k, idx, d, s, h1, h2, h3, h4, h5, h6, h7⟩ := h.made j b hj hb
    exact ⟨i, a, k, idx, d, s, h1, h2, h3, h4, by rw [hs i k h4]; exact h5, by rw [hs i k h4]; exact h6, h7⟩

theorem DInv.next (hc : Contract O cfg.maxLevel P N Sz G H (fun _ _ => True) Free g) (hm : cfg.maxLevel ≤ 2)
    (henv : ∀ n k, (env n k).costs ≠ []) (hlen : ∀ l, 1 ≤ C.len l)
    (hsh : ∀ i k l, (C.shuffle i k l).Perm l) (hseed : Seeds cfg C P N) {σ : PState D K} {ds : List δ}
    (h : DInv cfg O P Sz G σ ds) :
    ∃ env' spawn' σ' ds', (∀ n k, k < σ.ctr n → env' n k = env n k ∧ spawn' n k = spawn n k) ∧
      (∀ n k, (env' n k).costs ≠ []) ∧ seqStep cfg env' spawn' σ = some σ' ∧
      Along O C draw env' spawn' σ ds σ' ds' := by
  obtain ⟨env', he'⟩ : ∃ e, e = nextEnv O C σ ds env := ⟨_, rfl⟩
  have hrep : ∀ i s, i < σ.st.nodes.length → ds[i]? = some s →
      ∃ s', nodeReport O C (nodeAt σ.st i).level i (σ.ctr i) () s = some ((), s', env' i (σ.ctr i)) ∧
        G (nodeAt σ.st i).level s' ∧
        ReportOk O P Sz Free g (nodeAt σ.st i).level (O.cost s) (env' i (σ.ctr i)) s' := by
    intro i s hi hsd
    obtain ⟨w, t, r, f1, f2, -, -, f3⟩ := hc.nodeReport C hlen hsh (level_le h.good hi) i (σ.ctr i) ()
      (fun _ => 0) s (h.driver i s hi hsd).1 trivial
    have : env' i (σ.ctr i) = r := by
      rw [he']
      simp only [nextEnv, hsd, if_true, f1]
    rw [this]
    exact ⟨t, f1, f2, f3⟩
  have henv' : ∀ n k, (env' n k).costs ≠ [] := by
    intro n k
    by_cases hn : n < σ.st.nodes.length
    · have hid : n < ds.length := by rw [h.length]; exact hn
      have hsd := List.getElem?_eq_getElem hid
      by_cases hk : k = σ.ctr n
      · subst hk
        obtain ⟨s', -, -, -, -, -, -, hne, -⟩ := hrep n _ hn hsd
        exact hne
      · rw [he']
        simp only [nextEnv, hsd, if_neg hk]
        exact henv n k
    · rw [he']
      simp only [nextEnv, List.getElem?_eq_none (show ds.length ≤ n by rw [h.length]; omega)]
      exact henv n k
  obtain ⟨spawn', hs'⟩ : ∃ e, e = nextSpawn C draw σ
      (fun i => (nodeMetaepoch cfg.fl (env' i (σ.ctr i)) (nodeAt σ.st i)).1.delegates) spawn := ⟨_, rfl⟩
  obtain ⟨σ₁, σ₂, σ', T, p⟩ := phases (cfg := cfg) (env := env') (spawn := spawn') hm henv' h.good
  have hstep := p.step
  obtain ⟨g', hle, hold, hnew, hfrom, -⟩ := seqStep_core hm henv' h.good hstep
  have hdel : ∀ i, i < σ.st.nodes.length →
      ∀ d ∈ (nodeMetaepoch cfg.fl (env' i (σ.ctr i)) (nodeAt σ.st i)).1.delegates, P d := by
    intro i hi
    by_cases hal : (nodeAt σ.st i).alive = true
    · have hid : i < ds.length := by rw [h.length]; exact hi
      obtain ⟨s', -, -, r1⟩ := hrep i _ hi (List.getElem?_eq_getElem hid)
      rw [(nodeMetaepoch_alive cfg.fl _ (henv' _ _) _ hal).2.2.2]
      exact r1.2.2.1
    · rw [nodeMetaepoch_dead cfg.fl _ _ (by simpa using hal)]
      exact h.delegates i hi
  obtain ⟨ds', hl', hds'⟩ := exists_list σ'.st.nodes.length (fun j s =>
    if j < σ.st.nodes.length then
      if (nodeAt σ.st j).alive = true then ∃ s0, ds[j]? = some s0 ∧
        nodeReport O C (nodeAt σ.st j).level j (σ.ctr j) () s0 = some ((), s, env' j (σ.ctr j))
      else ds[j]? = some s
    else ∃ (i k idx : ℕ) (d : D), i < σ'.st.nodes.length ∧ j ∈ (nodeAt σ'.st i).sprouts ∧
      (nodeAt σ'.st i).delegates[idx]? = some d ∧ k < σ'.ctr i ∧
      C.seedPop (nodeAt σ'.st j).level (draw i k idx) d = some (spawn' i k idx) ∧
      O.make (nodeAt σ'.st j).level j (spawn' i k idx) () = some ((), s)) (by
    intro j hj
    by_cases e : j < σ.st.nodes.length
    · have hid : j < ds.length := by rw [h.length]; exact e
      have hsd := List.getElem?_eq_getElem hid
      simp only [if_pos e]
      by_cases hal : (nodeAt σ.st j).alive = true
      · simp only [if_pos hal]
        obtain ⟨s', e1, -⟩ := hrep j _ e hsd
        exact ⟨s', _, hsd, e1⟩
      · simp only [if_neg hal]
        exact ⟨_, hsd⟩
    · simp only [if_neg e]
      obtain ⟨i, k, idx, d, a1, a2, a3, a4, a5, a6⟩ := hfrom j (by omega) hj
      have hi : i < σ.st.nodes.length := by
        by_contra hge
        obtain ⟨l, hl⟩ := hnew i (by omega) a1
        rw [(newNode_core hl).2.2] at a4
        simp at a4
      obtain ⟨c1, -, -, c4⟩ := core_level (hold i hi)
      rw [c4] at a4
      have hlv : (nodeAt σ'.st j).level = (nodeAt σ.st i).level + 1 := by
        rw [a6, c1]
        have := (nodeMetaepoch_same cfg.fl (env' i (σ.ctr i)) (nodeAt σ.st i)).1
        simp only [Hgs.shape, Prod.mk.injEq] at this
        rw [this.1]
      have hd : P d := hdel i hi d (List.mem_of_getElem? a4)
      have hlj := level_le g' hj
      obtain ⟨pop, p1, p2, p3⟩ := hseed _ hlj (draw i k idx) d hd
      obtain ⟨w, t, q1, -⟩ := hc.make _ hlj j _ () (fun _ => 0) p2 p3 trivial
      have hsp : spawn' i k idx = pop := by
        rw [hs', nextSpawn, if_neg (by omega), a4, Option.bind_some, ← hlv, p1, Option.getD_some]
      refine ⟨t, i, k, idx, d, a1, a5, by rw [c4]; exact a4, a3, ?_, ?_⟩
      · rw [hsp]; exact p1
      · rw [hsp]; exact q1)
  refine ⟨env', spawn', σ', ds', ?_, henv', hstep, hl', ?_, ?_, ?_⟩
  · intro n k hk
    constructor
    · rw [he']
      simp only [nextEnv]
      split
      · rfl
      · rw [if_neg (by omega)]
    · funext idx
      rw [hs', nextSpawn, if_pos hk]
  · intro i a s hi hsd hal
    have hl := (List.getElem?_eq_some_iff.1 hi).1
    have ha : nodeAt σ.st i = a := by simp [nodeAt, hi]
    obtain ⟨s', e1, e2⟩ := hds' i (by omega)
    rw [← ha] at hal
    simp only [if_pos hl, if_pos hal] at e2
    obtain ⟨s0, e3, e4⟩ := e2
    rw [hsd, Option.some.injEq] at e3
    subst e3
    exact ⟨s', by rw [← ha]; exact e4, e1⟩
  · intro i a s hi hsd hal
    have hl := (List.getElem?_eq_some_iff.1 hi).1
    have ha : nodeAt σ.st i = a := by simp [nodeAt, hi]
    obtain ⟨s', e1, e2⟩ := hds' i (by omega)
    rw [← ha] at hal
    simp only [if_pos hl, hal, Bool.false_eq_true, if_false] at e2
    rw [e1, ← e2, hsd]
  · intro j b hj hb
    have hl := (List.getElem?_eq_some_iff.1 hb).1
    have hbb : nodeAt σ'.st j = b := by simp [nodeAt, hb]
    obtain ⟨s', e1, e2⟩ := hds' j hl
    simp only [if_neg (show ¬ j < σ.st.nodes.length by omega)] at e2
    obtain ⟨i, k, idx, d, a1, a2, a3, a4, a5, a6⟩ := e2
    rw [hbb] at a5 a6
    exact ⟨i, _, k, idx, d, s', nodeAt_get a1, a2, a3, a4, a5, a6, e1⟩

/-- Whatever is called, there is a way in which the drivers go along. -/
theorem DInv.drives (hc : Contract O cfg.maxLevel P N Sz G H (fun _ _ => True) Free g) (hm : cfg.maxLevel ≤ 2)
    (hlen : ∀ l, 1 ≤ C.len l) (hsh : ∀ i k l, (C.shuffle i k l).Perm l) (hseed : Seeds cfg C P N)
    (μ : K) (hμ : 0 ≤ μ) (hmod : ∀ l, l ≤ cfg.maxLevel → μ ≤ cfg.modifier l) :
    ∀ (calls : List Call) (σ : PState D K) (ds : List δ) (env : ℕ → ℕ → Hgs.Report D K)
      (spawn : ℕ → ℕ → ℕ → List D), (∀ n k, (env n k).costs ≠ []) → DInv cfg O P Sz G σ ds →
    ∃ env' spawn' σ' ds', (∀ n k, k < σ.ctr n → env' n k = env n k ∧ spawn' n k = spawn n k) ∧
      (∀ n k, (env' n k).costs ≠ []) ∧ Drives O C draw cfg env' spawn' σ ds calls σ' ds'
  | [], σ, ds, env, spawn, henv, _ => ⟨env, spawn, σ, ds, fun _ _ _ => ⟨rfl, rfl⟩, henv, .nil _ _⟩
  | .step :: calls, σ, ds, env, spawn, henv, h => by
    obtain ⟨e1, s1, σ1, ds1, h1, h2, h3, h4⟩ := h.next (spawn := spawn) (draw := draw) hc hm henv hlen hsh hseed
    obtain ⟨h5, -⟩ := h.step hc hm h2 hlen hsh hseed μ hμ hmod h3 h4
    obtain ⟨e2, s2, σ2, ds2, i1, i2, i3⟩ := DInv.drives hc hm hlen hsh hseed μ hμ hmod calls σ1 ds1 e1 s1 h2 h5
    obtain ⟨c1, c2⟩ := seqStep_ctr h3
    have ea : ∀ n < σ.st.nodes.length, e2 n (σ.ctr n) = e1 n (σ.ctr n) := fun n hn => (i1 n _ (c2 n hn)).1
    have sa : ∀ i k, k < σ1.ctr i → s2 i k = s1 i k := fun i k hk => (i1 i k hk).2
    refine ⟨e2, s2, σ2, ds2, ?_, i2, .step (seqStep_congr h3 ea sa) (h4.congr ea sa) i3⟩
    intro n k hk
    obtain ⟨a, b⟩ := i1 n k (lt_of_lt_of_le hk (c1 n))
    obtain ⟨a', b'⟩ := h1 n k hk
    exact ⟨a.trans a', b.trans b'⟩
  | .finalizedPopulation :: calls, σ, ds, env, spawn, henv, h => by
    obtain ⟨e2, s2, σ2, ds2, i1, i2, i3⟩ := DInv.drives hc hm hlen hsh hseed μ hμ hmod calls (bumpAll σ) ds
      env spawn henv (h.bump (by simp))
    exact ⟨e2, s2, σ2, ds2, fun n k hk => i1 n k (lt_of_lt_of_le hk (le_bump _ _ _)), i2, .population i3⟩
  | .status lvl :: calls, σ, ds, env, spawn, henv, h => by
    obtain ⟨e2, s2, σ2, ds2, i1, i2, i3⟩ := DInv.drives hc hm hlen hsh hseed μ hμ hmod calls
      { σ with ctr := Dist.bump (asked cfg σ lvl) σ.ctr } ds env spawn henv (h.bump (asked_lt hm h.good lvl))
    exact ⟨e2, s2, σ2, ds2, fun n k hk => i1 n k (lt_of_lt_of_le hk (le_bump _ _ _)), i2, .status lvl i3⟩

/-! ## C113 -/

theorem DInv.start {ratio : List K} (hr : cfg.maxLevel < ratio.length) {s : δ} (hs : G 0 s) :
    DInv cfg O P Sz G (started ratio) [s] := by
  have h0 := (good_init (D := D) hr).bump (T := List.range 1) (by simp [PState.init, Hgs.init])
  have hnode : ∀ i < 1, nodeAt (started (D := D) ratio).st i = Hgs.newNode 0 none := by
    intro i hi
    have : i = 0 := by omega
    subst this
    rfl
  have hl : (started (D := D) ratio).st.nodes.length = 1 := rfl
  refine ⟨h0, rfl, ?_, ?_, ?_, ?_⟩
  · intro i t hi ht
    rw [hl] at hi
    rw [hnode i hi]
    have : i = 0 := by omega
    subst this
    cases ht
    exact ⟨hs, by simp [Hgs.newNode]⟩
  all_goals
    intro i hi
    rw [hl] at hi
    rw [hnode i hi]
    simp [Hgs.newNode]

/-- **C113.** The distributed HGS with drivers that keep the contract delivers, whatever the user calls;
each step costs at least the smallest cost of a step of a driver times the smallest modifier. -/
theorem C113_run (hc : Contract O cfg.maxLevel P N Sz G H (fun _ _ => True) Free g)
    (hsize : ∀ p, Sz 0 p → size ≤ p) (hm : cfg.maxLevel ≤ 2)
    (hlen : ∀ l, 1 ≤ C.len l) (hsh : ∀ i k l, (C.shuffle i k l).Perm l) (hseed : Seeds cfg C P N)
    {ratio : List K} (hr : cfg.maxLevel < ratio.length) (μ : K) (hμ : 0 ≤ μ)
    (hmod : ∀ l, l ≤ cfg.maxLevel → μ ≤ cfg.modifier l) (population : List D)
    (hN : population.length = N 0) (hP : ∀ d ∈ population, P d) (calls : List Call) :
    Delivers O C draw cfg ratio P Sz size (μ * g) population calls := by
  obtain ⟨w, s, hs, hG, -⟩ := hc.make 0 (Nat.zero_le _) 0 population () (fun _ => 0) hN hP trivial
  have h0 : DInv cfg O P Sz G (started ratio) [s] := DInv.start hr hG
  refine ⟨s, hs, ?_, ?_⟩
  · obtain ⟨e, p, σ, ds, -, h1, h2⟩ := DInv.drives (draw := draw) hc hm hlen hsh hseed μ hμ hmod calls
      (started ratio) [s] (fun _ _ => ⟨[0], [], [], 0⟩) (fun _ _ _ => []) (by simp) h0
    exact ⟨e, p, σ, ds, h1, h2⟩
  · intro env spawn σ ds henv hd
    refine (C41_served hm henv hr population calls (.checkStatus none :: calls.flatMap Call.requests) [] (by
      simp [startRequests])).mono ?_
    rintro sys ⟨as, σ₁, R, sh, h1, h2, _, h4⟩
    cases R with
    | cons hs ht =>
      cases hs with
      | status _ states hp =>
        obtain ⟨rfl, j2, j3, j4⟩ := h0.calls hc hsize hm henv hlen hsh hseed μ hμ hmod hd (.inl rfl) ht
        refine ⟨h1, h2, sh, ?_, ?_, ?_⟩
        · intro pop id hmem
          rw [h4] at hmem
          rcases List.mem_cons.1 hmem with hmem | hmem
          · cases hmem
          · rcases List.mem_cons.1 hmem with hmem | hmem
            · cases hmem
            · obtain ⟨p1, p2⟩ := j4 _ hmem pop id rfl
              exact ⟨p1, fun hh => p2 (.inr hh)⟩
        · intro n hn
          obtain ⟨i, hi⟩ := List.mem_iff_getElem?.1 hn
          have hl := (List.getElem?_eq_some_iff.1 hi).1
          rw [nodeAt_get hl, Option.some.injEq] at hi
          rw [← hi]
          exact ⟨j2.pops i hl, j2.sizes i hl⟩
        · rw [sh.cost]
          have e : (bumpAll (PState.init (D := D) ratio)).st.cost = 0 := rfl
          rw [e, zero_add] at j3
          exact j3

end Evogil.Dist
