import Verif.Lemmas.DistGrow

/-!
# The release of sprouts, from the request to the answer
-/

set_option linter.unusedSectionVars false

namespace Evogil.Dist

variable {D K : Type*} [Field K] [LinearOrder K]

section
variable {cfg : Hgs.Conf D K} {env : ℕ → ℕ → Hgs.Report D K} {spawn : ℕ → ℕ → ℕ → List D}

/-- The supervisor has told node `i`, number `idx` of the level `lvl`, to release sprouts. -/
structure Told (σ : PState D K) (t : ℕ) (cid : Id) (lvl idx i : ℕ) (cur next : List (NState D))
    (todo : List (Req D)) (sent : ℕ) (inbox : List (Msg D K)) (c : Sys D K) : Prop where
  sup : SupOK σ c.sup
  nodes : NodesOK σ c
  chan : c.chan = only .sup (.node i) (.release (.sup, t) next)
  client : Client todo true sent inbox c
  task : c.sup.tasks (.sup, t) = some (.release .client cid lvl idx cur next)
  lt : t < c.sup.nextTask

/-- What comes after the last node of level `lvl`. -/
def After (cfg : Hgs.Conf D K) (env : ℕ → ℕ → Hgs.Report D K) (spawn : ℕ → ℕ → ℕ → List D)
    (Q : Sys D K → Prop) (σ : PState D K) (t : ℕ) (cid : Id) (lvl : ℕ) (cur : List (NState D))
    (todo : List (Req D)) (sent : ℕ) (inbox : List (Msg D K)) : Prop :=
  match lvl with
  | 0 => ∀ c : Sys D K, SupOK σ c.sup → NodesOK σ c →
      c.chan = only .sup .client (.answer .releaseEnd cid) → Client todo true sent inbox c →
      EvC cfg env spawn Q c
  | l + 1 => ∀ (c : Sys D K) (i : ℕ), (σ.st.levels[l]?).bind (fun ns => ns[0]?) = some i →
      Told σ t cid l 0 i [] cur todo sent inbox c → EvC cfg env spawn Q c

theorem Turn.sup {σ σ' : PState D K} {st : NState D} {created : List (NState D)} {u : Sup D K}
    (h : SupOK { σ' with states := σ.states } u) (hst : σ'.states = σ.states ++ [st] ++ created) {t : ℕ}
    (ht : t < u.nextTask) (x : STask D K) :
    SupOK σ' (setS (.sup, t) x { u with states := u.states ++ [st] ++ created }) := by
  have h' : SupOK σ' { u with states := u.states ++ [st] ++ created } :=
    ⟨h.nodes, h.next, h.levels, h.cost, h.ratio, by rw [hst, h.states], h.wf⟩
  exact h'.set ht x

theorem ev_nodes {Q : Sys D K → Prop} {t : ℕ} {cid : Id} {lvl : ℕ} {todo : List (Req D)} {sent : ℕ}
    {inbox : List (Msg D K)} {ns : List ℕ} :
    ∀ (is : List ℕ) (i idx : ℕ) (cur next : List (NState D)) (σ σ' : PState D K) (cur' : List (NState D))
      (c : Sys D K),
      σ.st.levels[lvl]? = some ns → ns.drop idx = i :: is → (i :: is).Nodup →
      (∀ j ∈ i :: is, Pend cfg σ j ∧ (nodeAt σ.st j).level = lvl) →
      (∀ n, σ.st.nodes.length ≤ n → σ.ctr n = 0) →
      (∀ l, lvl = l + 1 → ∃ ms, σ.st.levels[l]? = some ms ∧ ms ≠ []) →
      releaseNodes cfg spawn (i :: is) cur next σ = some (σ', cur') →
      Told σ t cid lvl idx i cur next todo sent inbox c →
      After cfg env spawn Q σ' t cid lvl cur' todo sent inbox →
      EvC cfg env spawn Q c := by
  intro is
  induction is with
  | nil =>
    intro i idx cur next σ σ' cur' c hns hdrop hnd hp hz hlow hrel told hQ
    obtain ⟨hpi, hli⟩ := hp i (List.mem_cons_self ..)
    obtain ⟨σ₁, created, h1, T⟩ := releaseTurn_some (cfg := cfg) (spawn := spawn) (next := next) hpi.lt
    simp only [releaseNodes, h1, Option.bind_some, Option.some.injEq, Prod.mk.injEq] at hrel
    obtain ⟨rfl, rfl⟩ := hrel
    refine ev_turn (me := (.sup, t)) rfl hz hpi.lt hpi.lv hpi.nodup hpi.self (fun n hn => (hpi.ok n hn).1)
      (fun n hn => (hpi.ok n hn).2) told.sup told.nodes told.chan told.client rfl rfl h1 ?_
    intro c' g1 g2 g3 g4 g5 g6
    have hlt : t < c'.sup.nextTask := by rw [g6]; exact told.lt
    have hlen : ns.length ≤ idx + 1 := by
      have := congrArg List.length hdrop
      simp at this
      omega
    have hlev : ∀ l, l ≠ lvl + 1 → σ₁.st.levels[l]? = σ.st.levels[l]? := by
      have := T.grow.levels
      rw [hli] at this
      exact this
    have hsl : c'.sup.levels = σ₁.st.levels := g1.levels
    have hN : c'.sup.nextNode = σ₁.st.nodes.length := g1.next
    have hi1 : i < σ₁.st.nodes.length := lt_of_lt_of_le hpi.lt T.grow.len
    have hpos : 0 < (c'.nodes i).nextTask := by
      rw [(nodesOK_iff.1 g2 i hi1).next, T.ctr]
      simp [bump]
    have hsrc : okSrc c' (.node i) := ⟨hN ▸ hi1, hpos⟩
    have hns1 : c'.sup.levels[lvl]? = some ns := by rw [hsl, hlev lvl (by omega), hns]
    have htask : c'.sup.tasks (.sup, t) = some (.release .client cid lvl idx cur next) := by
      rw [g5, told.task]
    cases lvl with
    | zero =>
      have hnr : supReceive cfg c'.sup (.releaseEnd (.sup, t) (stateOf cfg (.node i) (nodeAt σ.st i)) created)
          (.node i) = some (setS (.sup, t) (.release .client cid 0 0 []
              (cur ++ [stateOf cfg (.node i) (nodeAt σ.st i)]))
            { c'.sup with states := c'.sup.states ++ [stateOf cfg (.node i) (nodeAt σ.st i)] ++ created },
            [(.client, .answer .releaseEnd cid)]) := by
        simp only [supReceive, htask, supTask, hns1, if_pos hlen]
      refine ev_single (c' := { c' with
          sup := setS (.sup, t) (.release .client cid 0 0 []
              (cur ++ [stateOf cfg (.node i) (nodeAt σ.st i)]))
            { c'.sup with states := c'.sup.states ++ [stateOf cfg (.node i) (nodeAt σ.st i)] ++ created }
          chan := only .sup .client (.answer .releaseEnd cid) }) g3 g4.waiting hsrc trivial ?_ ?_
      · simp only [chandle, hnr, Option.map_some, g3, pop_only, pushAll_one, syncPost]
      · apply hQ
        · exact Turn.sup g1 T.states hlt _
        · exact g2
        · rfl
        · exact ⟨g4.todo, g4.waiting, g4.sent, g4.inbox⟩
    | succ l =>
      obtain ⟨ms, hms, hne⟩ := hlow l rfl
      obtain ⟨n, ms', rfl⟩ := List.exists_cons_of_ne_nil hne
      have hms1 : c'.sup.levels[l]? = some (n :: ms') := by rw [hsl, hlev l (by omega), hms]
      have hnr : supReceive cfg c'.sup (.releaseEnd (.sup, t) (stateOf cfg (.node i) (nodeAt σ.st i)) created)
          (.node i) = some (setS (.sup, t) (.release .client cid l 0 []
              (cur ++ [stateOf cfg (.node i) (nodeAt σ.st i)]))
            { c'.sup with states := c'.sup.states ++ [stateOf cfg (.node i) (nodeAt σ.st i)] ++ created },
            [(.node n, .release (.sup, t) (cur ++ [stateOf cfg (.node i) (nodeAt σ.st i)]))]) := by
        simp only [supReceive, htask, supTask, hns1, if_pos hlen, sendNext, hms1, Option.bind_some,
          List.getElem?_cons_zero, Option.map_some]
      refine ev_single (c' := { c' with
          sup := setS (.sup, t) (.release .client cid l 0 []
              (cur ++ [stateOf cfg (.node i) (nodeAt σ.st i)]))
            { c'.sup with states := c'.sup.states ++ [stateOf cfg (.node i) (nodeAt σ.st i)] ++ created }
          chan := only .sup (.node n)
            (.release (.sup, t) (cur ++ [stateOf cfg (.node i) (nodeAt σ.st i)])) })
        g3 g4.waiting hsrc trivial ?_ ?_
      · simp only [chandle, hnr, Option.map_some, g3, pop_only, pushAll_one, syncPost]
      · apply hQ _ n
        · rw [hlev l (by omega), hms]; rfl
        · exact ⟨Turn.sup g1 T.states hlt _, g2, rfl, ⟨g4.todo, g4.waiting, g4.sent, g4.inbox⟩,
            by simp [setS], hlt⟩
  | cons j is ih =>
    intro i idx cur next σ σ' cur' c hns hdrop hnd hp hz hlow hrel told hQ
    obtain ⟨hpi, hli⟩ := hp i (List.mem_cons_self ..)
    obtain ⟨σ₁, created, h1, T⟩ := releaseTurn_some (cfg := cfg) (spawn := spawn) (next := next) hpi.lt
    rw [releaseNodes, h1, Option.bind_some] at hrel
    rw [List.nodup_cons] at hnd
    refine ev_turn (me := (.sup, t)) rfl hz hpi.lt hpi.lv hpi.nodup hpi.self (fun n hn => (hpi.ok n hn).1)
      (fun n hn => (hpi.ok n hn).2) told.sup told.nodes told.chan told.client rfl rfl h1 ?_
    intro c' g1 g2 g3 g4 g5 g6
    have hlt : t < c'.sup.nextTask := by rw [g6]; exact told.lt
    have hdrop' : ns.drop (idx + 1) = j :: is := by
      rw [← List.drop_drop, hdrop]
      rfl
    have hlen : ¬ ns.length ≤ idx + 1 := by
      intro h
      rw [List.drop_eq_nil_of_le h] at hdrop'
      cases hdrop'
    have hget : ns[idx + 1]? = some j := by
      have := congrArg (fun l : List ℕ => l[0]?) hdrop'
      simpa using this
    have hlev : ∀ l, l ≠ lvl + 1 → σ₁.st.levels[l]? = σ.st.levels[l]? := by
      have := T.grow.levels
      rw [hli] at this
      exact this
    have hsl : c'.sup.levels = σ₁.st.levels := g1.levels
    have hN : c'.sup.nextNode = σ₁.st.nodes.length := g1.next
    have hi1 : i < σ₁.st.nodes.length := lt_of_lt_of_le hpi.lt T.grow.len
    have hpos : 0 < (c'.nodes i).nextTask := by
      rw [(nodesOK_iff.1 g2 i hi1).next, T.ctr]
      simp [bump]
    have hsrc : okSrc c' (.node i) := ⟨hN ▸ hi1, hpos⟩
    have hns1 : c'.sup.levels[lvl]? = some ns := by rw [hsl, hlev lvl (by omega), hns]
    have htask : c'.sup.tasks (.sup, t) = some (.release .client cid lvl idx cur next) := by
      rw [g5, told.task]
    have hnr : supReceive cfg c'.sup (.releaseEnd (.sup, t) (stateOf cfg (.node i) (nodeAt σ.st i)) created)
        (.node i) = some (setS (.sup, t) (.release .client cid lvl (idx + 1)
            (cur ++ [stateOf cfg (.node i) (nodeAt σ.st i)]) (next ++ created))
          { c'.sup with states := c'.sup.states ++ [stateOf cfg (.node i) (nodeAt σ.st i)] ++ created },
          [(.node j, .release (.sup, t) (next ++ created))]) := by
      simp only [supReceive, htask, supTask, hns1, if_neg hlen, sendNext, Option.bind_some, hget,
        Option.map_some]
    refine ev_single (c' := { c' with
        sup := setS (.sup, t) (.release .client cid lvl (idx + 1)
            (cur ++ [stateOf cfg (.node i) (nodeAt σ.st i)]) (next ++ created))
          { c'.sup with states := c'.sup.states ++ [stateOf cfg (.node i) (nodeAt σ.st i)] ++ created }
        chan := only .sup (.node j) (.release (.sup, t) (next ++ created)) })
      g3 g4.waiting hsrc trivial ?_ ?_
    · simp only [chandle, hnr, Option.map_some, g3, pop_only, pushAll_one, syncPost]
    · have hne : ∀ k ∈ j :: is, k ≠ i := fun k hk e => hnd.1 (e ▸ hk)
      refine ih j (idx + 1) (cur ++ [stateOf cfg (.node i) (nodeAt σ.st i)]) (next ++ created) σ₁ σ' cur' _
        (by rw [hlev lvl (by omega), hns]) hdrop' hnd.2 ?_ (T.zero hpi hz) ?_ hrel
        ⟨Turn.sup g1 T.states hlt _, g2, rfl, ⟨g4.todo, g4.waiting, g4.sent, g4.inbox⟩,
          by simp [setS], hlt⟩ hQ
      · intro k hk
        obtain ⟨h3, h4⟩ := hp k (List.mem_cons_of_mem _ hk)
        refine ⟨h3.turn T (hne k hk), ?_⟩
        rw [T.grow.same k h3.lt (by simpa using hne k hk), h4]
      · intro l hl
        obtain ⟨ms, hms, hmne⟩ := hlow l hl
        exact ⟨ms, by rw [hlev l (by omega), hms], hmne⟩

theorem ev_levels {Q : Sys D K → Prop} {t : ℕ} {cid : Id} {todo : List (Req D)} {sent : ℕ}
    {inbox : List (Msg D K)} :
    ∀ (lvl i : ℕ) (next : List (NState D)) (σ σ' : PState D K) (c : Sys D K),
      Ready cfg lvl σ → (∀ n, σ.st.nodes.length ≤ n → σ.ctr n = 0) →
      (σ.st.levels[lvl]?).bind (fun ns => ns[0]?) = some i →
      releaseLevels cfg spawn lvl next σ = some σ' →
      Told σ t cid lvl 0 i [] next todo sent inbox c →
      (∀ c : Sys D K, SupOK σ' c.sup → NodesOK σ' c →
        c.chan = only .sup .client (.answer .releaseEnd cid) → Client todo true sent inbox c →
        EvC cfg env spawn Q c) →
      EvC cfg env spawn Q c
  | lvl, i, next, σ, σ', c, r, hz, hi, hrel, told, hQ => by
    obtain ⟨ns, h1, h2, h3, h4⟩ := r lvl le_rfl
    rw [h1, Option.bind_some] at hi
    obtain ⟨i', is, rfl⟩ := List.exists_cons_of_ne_nil h2
    simp only [List.getElem?_cons_zero, Option.some.injEq] at hi
    subst hi
    obtain ⟨σ₁, e, T⟩ := releaseNodes_some (cfg := cfg) (spawn := spawn) (i' :: is) [] next σ h3 h4
    rw [releaseLevels] at hrel
    simp only [h1, Option.bind_some, e] at hrel
    refine ev_nodes is i' 0 [] next σ σ₁ _ c h1 rfl h3 h4 hz ?_ e told ?_
    · intro l hl
      obtain ⟨ms, g1, g2, _, _⟩ := r l (by omega)
      exact ⟨ms, g1, g2⟩
    · cases lvl with
      | zero =>
        simp only [Option.some.injEq] at hrel
        subst hrel
        exact hQ
      | succ l =>
        intro c' n hn told'
        exact ev_levels l n _ σ₁ σ' c' (r.next h1 T) (T.zero hz) hn hrel told' hQ

theorem findLeaf_spec {levels : List (List ℕ)} : ∀ (k l : ℕ), findLeaf levels k = some l →
    l < k ∧ (∃ n ns, levels[l]? = some (n :: ns)) ∧ ∀ j, l < j → j < k → levels[j]? = some []
  | 0, l, h => by simp [findLeaf] at h
  | k + 1, l, h => by
    simp only [findLeaf] at h
    split at h
    · cases h
    · rename_i hk
      obtain ⟨h1, h2, h3⟩ := findLeaf_spec k l h
      refine ⟨by omega, h2, ?_⟩
      intro j hj hjk
      by_cases e : j = k
      · subst e; exact hk
      · exact h3 j hj (by omega)
    · rename_i n ns hk
      cases h
      exact ⟨by omega, ⟨n, ns, hk⟩, fun j h1 h2 => by omega⟩

/-- `RELEASE_SPROUTS`, from the client's request to the answer. -/
theorem ev_release {σ σ' : PState D K} {rest : List (Req D)} {sent : ℕ} {inbox : List (Msg D K)}
    {c : Sys D K} (idle : Idle σ (.releaseSprouts :: rest) sent inbox c) {lvl : ℕ}
    (hleaf : findLeaf σ.st.levels (cfg.maxLevel + 1) = some lvl) (r : Ready cfg lvl σ)
    (hz : ∀ n, σ.st.nodes.length ≤ n → σ.ctr n = 0) (h : seqRelease cfg spawn σ = some σ') :
    EvC cfg env spawn (fun c => Idle σ' rest (sent + 1)
      (inbox ++ [.answer .releaseEnd (.client, sent)]) c) c := by
  simp only [seqRelease, hleaf, Option.bind_some] at h
  obtain ⟨_, ⟨n, ns, hns⟩, _⟩ := findLeaf_spec _ _ hleaf
  apply ev_ask idle.chan idle.client.waiting idle.client.todo
  have hchan : (ask c .releaseSprouts rest).chan =
      only .client .sup (.req .releaseSprouts (.client, sent)) := by
    simp only [ask, idle.chan, push_empty, idle.client.sent]
  have hnr : supReceive cfg c.sup (.req .releaseSprouts (.client, sent)) .client =
      some (putS (.release .client (.client, sent) lvl 0 [] []) c.sup,
        [(.node n, .release (.sup, c.sup.nextTask) [])]) := by
    simp only [supReceive, supRequest, idle.sup.levels, hleaf, Option.bind_some, sendNext, hns,
      List.getElem?_cons_zero, Option.map_some]
  refine ev_single (c' := { ask c .releaseSprouts rest with
      sup := putS (.release .client (.client, sent) lvl 0 [] []) c.sup
      chan := only .sup (.node n) (.release (.sup, c.sup.nextTask) []) }) hchan rfl trivial trivial ?_ ?_
  · simp only [chandle, hchan, pop_only]
    simp only [ask, hnr, Option.map_some, syncPost, pushAll_one]
  · refine ev_levels (t := c.sup.nextTask) (cid := (.client, sent)) (todo := rest) (sent := sent + 1)
      (inbox := inbox) lvl n [] σ σ' _ r hz (by rw [hns]; rfl) h ?_ ?_
    · refine ⟨idle.sup.put _, idle.nodes, rfl, ⟨rfl, rfl, ?_, idle.client.inbox⟩, by simp [putS],
        Nat.lt_succ_self _⟩
      simp only [ask, idle.client.sent]
    · intro c' h1 h2 h3 h4
      refine ev_answer h3 h4.waiting (.done ?_)
      refine ⟨h1, h2, rfl, h4.todo, rfl, h4.sent, ?_⟩
      simp only [h4.inbox]

end

end Evogil.Dist
