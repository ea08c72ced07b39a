import Verif.Spec.DistHgs
import Verif.Lemmas.DistRun

/-!
# C41: the requests to the distributed HGS
-/

set_option linter.unusedSectionVars false

namespace Evogil.Dist

open Spec

variable {D K : Type*} [Field K] [LinearOrder K]
variable {cfg : Hgs.Conf D K} {env : ℕ → ℕ → Hgs.Report D K} {spawn : ℕ → ℕ → ℕ → List D}

theorem Run.append {σ σ' σ'' : PState D K} {sent : ℕ} {rs rs' : List (Req D)} {as as' : List (Msg D K)}
    (h : Run cfg env spawn σ sent rs as σ') (h' : Run cfg env spawn σ' (sent + rs.length) rs' as' σ'') :
    Run cfg env spawn σ sent (rs ++ rs') (as ++ as') σ'' := by
  induction h with
  | nil => exact h'
  | cons h _ ih =>
    refine .cons h (ih ?_)
    rw [List.length_cons, ← Nat.add_assoc, Nat.add_right_comm] at h'
    exact h'

theorem Run.length {σ σ' : PState D K} {sent : ℕ} {rs : List (Req D)} {as : List (Msg D K)}
    (h : Run cfg env spawn σ sent rs as σ') : as.length = rs.length := by
  induction h with
  | nil => rfl
  | cons _ _ ih => simp [ih]

theorem shows_of {σ : PState D K} {todo : List (Req D)} {sent : ℕ} {inbox : List (Msg D K)} {c s : Sys D K}
    {pre : ℕ → Pre D} (i : Idle σ todo sent inbox c) (is : Is pre c s) : Shows σ s := by
  refine ⟨by rw [is.sup, i.sup.nodes], by rw [is.sup, i.sup.levels], by rw [is.sup, i.sup.cost],
    by rw [is.sup, i.sup.ratio], by rw [is.sup, i.sup.states], ?_, ?_⟩
  · intro n a ha
    have hm := (i.nodes n a ha).mem
    rw [is.nodes]
    cases hp : pre n with
    | two l p =>
      refine Or.inr ⟨rfl, l, p, ?_, ?_⟩
      · rw [is.chan]; simp [resid, hp]
      · rw [is.young n l p (Or.inl hp)] at hm
        simpa [booted] using hm.symm
    | one l p =>
      refine Or.inr ⟨rfl, l, p, ?_, ?_⟩
      · rw [is.chan]; simp [resid, hp]
      · rw [is.young n l p (Or.inr hp)] at hm
        simpa [booted] using hm.symm
    | ack => exact Or.inl hm
    | clear => exact Or.inl hm
  · intro a b m hm
    rw [is.chan, i.chan] at hm
    simp only [empty, List.append_nil] at hm
    cases a with
    | client => simp [resid] at hm
    | sup =>
      cases b with
      | client => simp [resid] at hm
      | sup => simp [resid] at hm
      | node n =>
        cases hp : pre n with
        | two l p =>
          simp only [resid, hp, List.mem_cons, List.not_mem_nil, or_false] at hm
          rcases hm with rfl | rfl
          · exact Or.inl rfl
          · exact Or.inr (Or.inr ⟨l, p, rfl⟩)
        | one l p =>
          simp only [resid, hp, List.mem_cons, List.not_mem_nil, or_false] at hm
          exact Or.inr (Or.inr ⟨l, p, hm⟩)
        | ack => simp [resid, hp] at hm
        | clear => simp [resid, hp] at hm
    | node n =>
      cases b with
      | client => simp [resid] at hm
      | node n => simp [resid] at hm
      | sup =>
        cases hp : pre n with
        | ack =>
          simp only [resid, hp, List.mem_cons, List.not_mem_nil, or_false] at hm
          exact Or.inr (Or.inl hm)
        | two l p => simp [resid, hp] at hm
        | one l p => simp [resid, hp] at hm
        | clear => simp [resid, hp] at hm

theorem asked_ok (hm : cfg.maxLevel ≤ 2) {σ : PState D K} (g : Good cfg σ) {u : Sup D K} (h : SupOK σ u)
    (lvl : Option ℕ) : nodesToCheck cfg u lvl = some (asked cfg σ lvl) ∧ (asked cfg σ lvl).Nodup ∧
      ∀ n ∈ asked cfg σ lvl, n < σ.st.nodes.length := by
  cases lvl with
  | none =>
    refine ⟨by simp only [nodesToCheck, h.nodes, asked], List.nodup_range, ?_⟩
    simp [asked]
  | some l =>
    simp only [nodesToCheck, h.levels, asked]
    by_cases hl : l ≤ cfg.maxLevel
    · obtain ⟨ids, hids⟩ : ∃ ids, σ.st.levels[l]? = some ids := ⟨_, g.tree.level_list (by omega)⟩
      rw [if_pos hl, if_pos hl, List.getD, hids, Option.getD_some]
      refine ⟨rfl, g.tree.nodup_level (by omega) hids, ?_⟩
      intro n hn
      obtain ⟨a, ha, _⟩ := (g.tree.mem_level (by omega) hids).1 hn
      exact (List.getElem?_eq_some_iff.1 ha).1
    · rw [if_neg hl, if_neg hl]
      exact ⟨rfl, List.nodup_nil, by simp⟩

theorem Good.bump {σ : PState D K} (g : Good cfg σ) {T : List ℕ} (h : ∀ n ∈ T, n < σ.st.nodes.length) :
    Good cfg { σ with ctr := bump T σ.ctr } := by
  refine ⟨g.tree, g.ratio, ?_, g.flags, g.living⟩
  intro n hn
  have hn' : σ.st.nodes.length ≤ n := hn
  have : n ∉ T := fun e => by have := h n e; omega
  simp [Dist.bump, this, g.zero n hn']

/-- What is reached after the requests `rs`, when `rest` is left. -/
def Reached (cfg : Hgs.Conf D K) (env : ℕ → ℕ → Hgs.Report D K) (spawn : ℕ → ℕ → ℕ → List D)
    (σ : PState D K) (sent : ℕ) (inbox : List (Msg D K)) (rs rest : List (Req D)) (c : Sys D K) : Prop :=
  ∃ as σ', Run cfg env spawn σ sent rs as σ' ∧ Idle σ' rest (sent + rs.length) (inbox ++ as) c

/-- The same when `rs` are whole calls. -/
def ReachedGood (cfg : Hgs.Conf D K) (env : ℕ → ℕ → Hgs.Report D K) (spawn : ℕ → ℕ → ℕ → List D)
    (σ : PState D K) (sent : ℕ) (inbox : List (Msg D K)) (rs rest : List (Req D)) (c : Sys D K) : Prop :=
  ∃ as σ', Run cfg env spawn σ sent rs as σ' ∧ Good cfg σ' ∧
    Idle σ' rest (sent + rs.length) (inbox ++ as) c

/-- One step, stopped after any number of its requests. -/
theorem ev_step_prefix (hm : cfg.maxLevel ≤ 2) {σ σ₁ σ₂ σ₃ : PState D K} {T : List ℕ}
    (p : Phases cfg env spawn σ σ₁ σ₂ σ₃ T) {rest : List (Req D)} {sent : ℕ} {inbox : List (Msg D K)}
    {c : Sys D K} {rs rs' : List (Req D)} (hrs : stepRequests = rs ++ rs')
    (idle : Idle σ (stepRequests ++ rest) sent inbox c) :
    EvC cfg env spawn (Reached cfg env spawn σ sent inbox rs (rs' ++ rest)) c := by
  have l1 : σ₁.st.nodes.length = σ.st.nodes.length := p.keep.same.length
  have l2 : (seqRedundant (seqTrim cfg σ₁)).st.nodes.length = σ.st.nodes.length := by
    rw [← l1]; exact (seqTrim_same (cfg := cfg) σ₁).length
  obtain ⟨lvl, hl⟩ := tree_leaf hm p.tree₂
  have r := tree_ready hm p.tree₂ (fun n hn => p.pos₂ n (by omega)) hl
  match rs, hrs with
  | [], e =>
    rw [List.nil_append] at e
    rw [e] at idle
    exact .done ⟨[], σ, .nil _ _, by simpa using idle⟩
  | x :: rs, e =>
    rw [stepRequests, List.cons_append, List.cons.injEq] at e
    obtain ⟨rfl, e⟩ := e
    refine (ev_metaepoch idle (tree_ne p.good.tree) p.metaepoch).bind fun c1 i1 => ?_
    have R1 : Served cfg env spawn σ .metaepoch (.metaepochEnd σ₁.st.cost) σ₁ := .metaepoch p.metaepoch
    match rs, e with
    | [], e =>
      rw [List.nil_append] at e
      subst e
      exact .done ⟨_, σ₁, .cons R1 (.nil _ _), i1⟩
    | x :: rs, e =>
      rw [List.cons_append, List.cons.injEq] at e
      obtain ⟨rfl, e⟩ := e
      refine (ev_trim i1 hm (by rw [p.keep.ratio]; exact p.good.ratio) p.tree₁).bind fun c2 i2 => ?_
      have R2 : Served cfg env spawn σ₁ .trimNotProgressing .trimNotProgressingEnd _ := .trim σ₁
      match rs, e with
      | [], e =>
        rw [List.nil_append] at e
        subst e
        exact .done ⟨_, _, .cons R1 (.cons R2 (.nil _ _)), by simpa using i2⟩
      | x :: rs, e =>
        rw [List.cons_append, List.cons.injEq] at e
        obtain ⟨rfl, e⟩ := e
        refine (ev_redundant i2 (tree_ne p.tree₂)).bind fun c3 i3 => ?_
        have R3 : Served cfg env spawn (seqTrim cfg σ₁) .trimRedundant .trimRedundantEnd _ := .redundant _
        match rs, e with
        | [], e =>
          rw [List.nil_append] at e
          subst e
          exact .done ⟨_, _, .cons R1 (.cons R2 (.cons R3 (.nil _ _))), by simpa using i3⟩
        | x :: rs, e =>
          rw [List.cons_append, List.cons.injEq] at e
          obtain ⟨rfl, e⟩ := e
          refine (ev_release i3 hl r (fun n hn => p.zero₂ n (by omega)) p.release).bind fun c4 i4 => ?_
          have R4 : Served cfg env spawn _ .releaseSprouts .releaseEnd σ₂ := .release p.release
          match rs, e with
          | [], e =>
            rw [List.nil_append] at e
            subst e
            exact .done ⟨_, _, .cons R1 (.cons R2 (.cons R3 (.cons R4 (.nil _ _)))), by simpa using i4⟩
          | x :: rs, e =>
            rw [List.cons_append, List.cons.injEq] at e
            obtain ⟨rfl, e⟩ := e
            refine (ev_revive i4 p.targets p.revive).bind fun c5 i5 => ?_
            have R5 : Served cfg env spawn _ .revive .reviveEnd σ₃ := .revive p.revive
            have e2 : rs = [] ∧ rs' = [] := List.append_eq_nil_iff.1 e.symm
            obtain ⟨rfl, rfl⟩ := e2
            exact .done ⟨_, _, .cons R1 (.cons R2 (.cons R3 (.cons R4 (.cons R5 (.nil _ _))))), by
              simpa using i5⟩

theorem ev_call (hm : cfg.maxLevel ≤ 2) (henv : ∀ n k, (env n k).costs ≠ []) {σ : PState D K}
    (g : Good cfg σ) (call : Call) {rest : List (Req D)} {sent : ℕ} {inbox : List (Msg D K)} {c : Sys D K}
    (idle : Idle σ (call.requests ++ rest) sent inbox c) :
    EvC cfg env spawn (ReachedGood cfg env spawn σ sent inbox call.requests rest) c := by
  cases call with
  | step =>
    obtain ⟨σ₁, σ₂, σ₃, T, p⟩ := phases (cfg := cfg) (env := env) (spawn := spawn) hm henv g
    refine (ev_step hm p idle).mono fun c' i => ?_
    exact ⟨_, _, .cons (.metaepoch p.metaepoch) (.cons (.trim _) (.cons (.redundant _)
      (.cons (.release p.release) (.cons (.revive p.revive) (.nil _ _))))), p.good', i⟩
  | finalizedPopulation =>
    refine (ev_population idle (tree_ne g.tree) ?_).mono ?_
    · rw [g.tree.levels]; simp; omega
    · rintro c' ⟨pop, hp, i⟩
      exact ⟨_, _, .cons (.population _ pop hp) (.nil _ _), g.bump (by simp), i⟩
  | status lvl =>
    obtain ⟨h1, h2, h3⟩ := asked_ok hm g idle.sup lvl
    refine (ev_status idle h1 h2 h3).mono ?_
    rintro c' ⟨st, hp, i⟩
    exact ⟨_, _, .cons (.status _ lvl st hp) (.nil _ _), g.bump h3, i⟩

theorem ev_calls (hm : cfg.maxLevel ≤ 2) (henv : ∀ n k, (env n k).costs ≠ []) :
    ∀ (calls : List Call) {σ : PState D K}, Good cfg σ → ∀ {rs rest : List (Req D)} {sent : ℕ}
      {inbox : List (Msg D K)} {c : Sys D K}, calls.flatMap Call.requests = rs ++ rest →
      Idle σ (rs ++ rest) sent inbox c →
      EvC cfg env spawn (Reached cfg env spawn σ sent inbox rs rest) c
  | [], σ, g, rs, rest, sent, inbox, c, e, idle => by
    have : rs = [] ∧ rest = [] := by simpa using e.symm
    obtain ⟨rfl, rfl⟩ := this
    exact .done ⟨[], σ, .nil _ _, by simpa using idle⟩
  | call :: calls, σ, g, rs, rest, sent, inbox, c, e, idle => by
    rw [List.flatMap_cons] at e
    rcases List.append_eq_append_iff.1 e with ⟨rs₁, rfl, e₁⟩ | ⟨rs₁, e₁, rfl⟩
    · -- the whole first call
      rw [List.append_assoc] at idle
      refine (ev_call hm henv g call idle).bind ?_
      rintro c' ⟨as, σ', R, g', i⟩
      refine (ev_calls hm henv calls g' e₁ i).mono ?_
      rintro c'' ⟨as', σ'', R', i'⟩
      refine ⟨as ++ as', σ'', R.append R', ?_⟩
      simpa [List.append_assoc, Nat.add_assoc] using i'
    · -- part of the first call
      have idle' : Idle σ (call.requests ++ calls.flatMap Call.requests) sent inbox c := by
        rw [e₁]; simpa [List.append_assoc] using idle
      cases call with
      | step =>
        obtain ⟨σ₁, σ₂, σ₃, T, p⟩ := phases (cfg := cfg) (env := env) (spawn := spawn) hm henv g
        exact ev_step_prefix hm p e₁ idle'
      | finalizedPopulation =>
        match rs, e₁ with
        | [], e₁ => exact .done ⟨[], σ, .nil _ _, by simpa using idle⟩
        | x :: rs, e₁ =>
          obtain ⟨rfl, e2⟩ : x = .population ∧ rs = [] ∧ rs₁ = [] := by
            simp [Call.requests] at e₁
            exact ⟨e₁.1.symm, e₁.2⟩
          obtain ⟨rfl, rfl⟩ := e2
          refine (ev_call hm henv g .finalizedPopulation idle').mono ?_
          rintro c' ⟨as, σ', R, _, i⟩
          exact ⟨as, σ', R, i⟩
      | status lvl =>
        match rs, e₁ with
        | [], e₁ => exact .done ⟨[], σ, .nil _ _, by simpa using idle⟩
        | x :: rs, e₁ =>
          obtain ⟨rfl, e2⟩ : x = .checkStatus lvl ∧ rs = [] ∧ rs₁ = [] := by
            simp [Call.requests] at e₁
            exact ⟨e₁.1.symm, e₁.2⟩
          obtain ⟨rfl, rfl⟩ := e2
          refine (ev_call hm henv g (.status lvl) idle').mono ?_
          rintro c' ⟨as, σ', R, _, i⟩
          exact ⟨as, σ', R, i⟩

/-- C41: whatever calls follow the constructor, and however they are cut after some request, every execution
of the actors — every order in which messages arrive — comes, without an exception, to the point at which
exactly the requests before the cut have been answered, each once and in order, and nothing of them is under
way any more; states and answers are those of serving the requests one after another. -/
theorem C41_served (hm : cfg.maxLevel ≤ 2) (henv : ∀ n k, (env n k).costs ≠ []) {ratio : List K}
    (hr : cfg.maxLevel < ratio.length) (pop : List D) (calls : List Call) (rs rest : List (Req D))
    (h : startRequests pop ++ calls.flatMap Call.requests = .start pop :: rs ++ rest) :
    Inevitable (Step cfg env spawn)
      (fun s => ∃ as σ, Run cfg env spawn (PState.init ratio) 1 rs as σ ∧ Shows σ s ∧ s.todo = rest ∧
        s.waiting = false ∧ s.sent = rs.length + 1 ∧ s.inbox = .done :: as)
      (Sys.new ratio (startRequests pop ++ calls.flatMap Call.requests)) := by
  have e : (.status none :: calls : List Call).flatMap Call.requests = rs ++ rest := by
    simp only [startRequests, List.cons_append, List.nil_append, List.cons.injEq, true_and] at h
    simpa [Call.requests] using h
  have key : EvC cfg env spawn (Reached cfg env spawn (PState.init ratio) 1 [.done] rs rest)
      (Sys.new ratio (startRequests pop ++ calls.flatMap Call.requests)) := by
    rw [h]
    refine ev_boot.bind fun c i => ?_
    exact ev_calls hm henv (.status none :: calls) (good_init hr) e i
  refine (key.inevitable is_new).mono ?_
  rintro s ⟨c, pre, ⟨as, σ, R, i⟩, is⟩
  refine ⟨as, σ, R, shows_of i is, ?_, ?_, ?_, ?_⟩
  · rw [is.todo, i.client.todo]
  · rw [is.waiting, i.client.waiting]
  · rw [is.sent, i.client.sent]; omega
  · rw [is.inbox, i.client.inbox]; rfl

theorem Run.wants {σ σ' : PState D K} {sent : ℕ} {rs : List (Req D)} {as : List (Msg D K)}
    (h : Run cfg env spawn σ sent rs as σ') : List.Forall₂ Req.wants rs as := by
  induction h with
  | nil => exact .nil
  | cons h _ ih =>
    refine .cons ?_ ih
    cases h <;> simp [Req.wants]

/-- C41, for the user: after the requests before the cut the client has received exactly one answer of the
right kind for each, and no message of any of them is under way. -/
theorem C41_once (hm : cfg.maxLevel ≤ 2) (henv : ∀ n k, (env n k).costs ≠ []) {ratio : List K}
    (hr : cfg.maxLevel < ratio.length) (pop : List D) (calls : List Call) (rs rest : List (Req D))
    (h : startRequests pop ++ calls.flatMap Call.requests = .start pop :: rs ++ rest) :
    Inevitable (Step cfg env spawn)
      (fun s => s.todo = rest ∧ s.waiting = false ∧ List.Forall₂ Req.wants (.start pop :: rs) s.inbox ∧
        ∀ a b m, m ∈ s.chan a b → m = .hello ∨ m = .done ∨ ∃ l p, m = .reset l p)
      (Sys.new ratio (startRequests pop ++ calls.flatMap Call.requests)) := by
  refine (C41_served hm henv hr pop calls rs rest h).mono ?_
  rintro s ⟨as, σ, R, sh, h1, h2, _, h4⟩
  refine ⟨h1, h2, ?_, sh.quiet⟩
  rw [h4]
  exact .cons rfl R.wants

theorem Served.det {σ σ₁ σ₂ : PState D K} {r : Req D} {a b : Answer D K}
    (h : Served cfg env spawn σ r a σ₁) (h' : Served cfg env spawn σ r b σ₂) (i : Id) :
    σ₁ = σ₂ ∧ sameAnswer (.answer a i) (.answer b i) := by
  cases h with
  | metaepoch h => cases h' with | metaepoch h' => rw [h] at h'; cases h'; exact ⟨rfl, rfl⟩
  | trim => cases h'; exact ⟨rfl, rfl⟩
  | redundant => cases h'; exact ⟨rfl, rfl⟩
  | release h => cases h' with | release h' => rw [h] at h'; cases h'; exact ⟨rfl, rfl⟩
  | revive h => cases h' with | revive h' => rw [h] at h'; cases h'; exact ⟨rfl, rfl⟩
  | population p hp => cases h' with | population q hq => exact ⟨rfl, hp.trans hq.symm, rfl⟩
  | status l p hp => cases h' with | status _ q hq => exact ⟨rfl, hp.trans hq.symm, rfl⟩

/-- C41: the order in which messages arrive makes no difference to the states, and in the answers at most
to the order of the entries of the merged lists. -/
theorem C41_order {σ σ₁ σ₂ : PState D K} {sent : ℕ} {rs : List (Req D)} {as bs : List (Msg D K)}
    (h : Run cfg env spawn σ sent rs as σ₁) (h' : Run cfg env spawn σ sent rs bs σ₂) :
    σ₁ = σ₂ ∧ List.Forall₂ sameAnswer as bs := by
  induction h generalizing bs with
  | nil => cases h'; exact ⟨rfl, .nil⟩
  | cons h _ ih =>
    cases h' with
    | cons g t =>
      obtain ⟨rfl, hs⟩ := h.det g (.client, _)
      obtain ⟨e, hf⟩ := ih t
      exact ⟨e, .cons hs hf⟩

end Evogil.Dist
