import Verif.Lemmas.DistSprout

/-!
# One node's turn in the release of sprouts
-/

set_option linter.unusedSectionVars false

namespace Evogil.Dist

variable {D K : Type*} [Field K] [LinearOrder K]

/-- The channels while node `i` asks the nodes in `W`, and those in `R` have answered. -/
def cchan (i : ℕ) (req : Msg D K) (rep : ℕ → Msg D K) (W R : Finset ℕ) : Addr → Addr → List (Msg D K)
  | .node x, .node y => if x = i ∧ y ∈ W then [req] else if y = i ∧ x ∈ R then [rep x] else []
  | _, _ => []

theorem pushAll_checks {i : ℕ} {req : Msg D K} (rep : ℕ → Msg D K) {T : List ℕ} (h : T.Nodup) :
    pushAll empty (.node i) (T.map fun n => (Addr.node n, req)) = cchan i req rep T.toFinset ∅ := by
  funext x y
  rw [pushAll_eq]
  cases x with
  | client => simp [empty, cchan]
  | sup => simp [empty, cchan]
  | node n =>
    cases y with
    | client => simp [empty, cchan, outTo_map_other (req := fun _ => req)]
    | sup => simp [empty, cchan, outTo_map_other (req := fun _ => req)]
    | node m =>
      by_cases e : n = i
      · subst e
        simp [empty, cchan, outTo_map (req := fun _ => req) h]
      · simp [empty, cchan, e]

section
variable {cfg : Hgs.Conf D K} {env : ℕ → ℕ → Hgs.Report D K} {spawn : ℕ → ℕ → ℕ → List D}

/-- The state while node `i` asks its sprouts `T` whether they are alive. -/
structure Ck (cfg : Hgs.Conf D K) (σ : PState D K) (i k : ℕ) (T : List ℕ) (me : Id)
    (next : List (NState D)) (todo : List (Req D)) (sent : ℕ) (inbox : List (Msg D K))
    (tk : Option (STask D K)) (nt : ℕ) (W R : Finset ℕ) (L : List ℕ) (c : Sys D K) : Prop where
  chan : c.chan = cchan i (.check (.node i, k) none)
    (fun j => .check (.node i, k) (some (stateOf cfg (.node i) (nodeAt σ.st j)))) W R
  sup : SupOK σ c.sup
  subW : ∀ n ∈ W, n ∈ T
  subR : ∀ n ∈ R, n ∈ T
  disj : ∀ n ∈ W, n ∉ R
  coll : ∀ n, n ∈ L ↔ n ∈ T ∧ n ∉ W ∧ n ∉ R
  nodup : L.Nodup
  todoN : ∀ n ∈ W, NodeOK n (nodeAt σ.st n) (σ.ctr n) (c.nodes n)
  doneN : ∀ n < σ.st.nodes.length, n ∉ W → NodeOK n (nodeAt σ.st n) (bump (i :: T) σ.ctr n) (c.nodes n)
  task : (c.nodes i).tasks (.node i, k) =
    some (.release ⟨.sup, me, (L.filter (Hgs.aliveAt σ.st)).length, next, L.length, 0, 0, []⟩)
  client : Client todo true sent inbox c
  tsk : c.sup.tasks me = tk
  nt : c.sup.nextTask = nt

theorem ev_checks {Q : Sys D K → Prop} {σ : PState D K} {i : ℕ} {T : List ℕ} {me : Id}
    {next : List (NState D)} {todo : List (Req D)} {sent : ℕ} {inbox : List (Msg D K)}
    {tk : Option (STask D K)} {nt : ℕ} (hi : i < σ.st.nodes.length) (hT : T.Nodup) (hiT : i ∉ T)
    (hTN : ∀ n ∈ T, n < σ.st.nodes.length) (hctr : ∀ n ∈ T, 0 < σ.ctr n)
    (hsp : (nodeAt σ.st i).sprouts = T)
    (hQ : ∀ c : Sys D K, ∀ r : Rel D, r = ⟨.sup, me, Hgs.livingSprouts σ.st i, next, T.length, 0, 0, []⟩ →
      SupOK σ c.sup → NodesOK { σ with ctr := bump (i :: T) σ.ctr } c →
      (c.nodes i).tasks (.node i, σ.ctr i) =
        some (.release (startSprouting cfg spawn i (σ.ctr i) (nodeAt σ.st i) .sup r).1) →
      c.chan = pushAll empty (.node i) (startSprouting cfg spawn i (σ.ctr i) (nodeAt σ.st i) .sup r).2 →
      Client todo true sent inbox c → c.sup.tasks me = tk → c.sup.nextTask = nt → EvC cfg env spawn Q c) :
    ∀ (w : ℕ) (W R : Finset ℕ) (L : List ℕ) (c : Sys D K), 2 * W.card + R.card = w → L.length < T.length →
      Ck cfg σ i (σ.ctr i) T me next todo sent inbox tk nt W R L c → EvC cfg env spawn Q c := by
  intro w
  induction w using Nat.strong_induction_on with
  | _ w ih =>
  intro W R L c hw hL b
  have hTc : T.toFinset.card = T.length := List.toFinset_card_of_nodup hT
  have hcard : L.length + W.card + R.card = T.length := by
    have e : L.toFinset ∪ W ∪ R = T.toFinset := by
      ext n
      simp only [Finset.mem_union, List.mem_toFinset, b.coll]
      constructor
      · rintro ((h | h) | h)
        · exact h.1
        · exact b.subW n h
        · exact b.subR n h
      · intro h
        by_cases h1 : n ∈ W
        · exact Or.inl (Or.inr h1)
        · by_cases h2 : n ∈ R
          · exact Or.inr h2
          · exact Or.inl (Or.inl ⟨h, h1, h2⟩)
    rw [← hTc, ← e, Finset.card_union_of_disjoint, Finset.card_union_of_disjoint,
      List.toFinset_card_of_nodup b.nodup]
    · rw [Finset.disjoint_left]
      intro n hn
      exact ((b.coll n).1 (List.mem_toFinset.1 hn)).2.1
    · rw [Finset.disjoint_left]
      intro n hn
      rcases Finset.mem_union.1 hn with hn | hn
      · exact ((b.coll n).1 (List.mem_toFinset.1 hn)).2.2
      · exact b.disj n hn
  have hiW : i ∉ W := fun h => hiT (b.subW i h)
  have hiR : i ∉ R := fun h => hiT (b.subR i h)
  have hneR : ∀ n ∈ R, n ≠ i := fun n hn e => hiR (e ▸ hn)
  have hneW : ∀ n ∈ W, n ≠ i := fun n hn e => hiW (e ▸ hn)
  have hnotW : ∀ n ∈ R, n ∉ W := fun n hn h => b.disj n h hn
  have hoki := b.doneN i hi hiW
  have hbi : bump (i :: T) σ.ctr i = σ.ctr i + 1 := by simp [bump]
  have hbT : ∀ n ∈ T, bump (i :: T) σ.ctr n = σ.ctr n + 1 := fun n hn => by simp [bump, hn]
  have hN : c.sup.nextNode = σ.st.nodes.length := b.sup.next
  have hposi : 0 < (c.nodes i).nextTask := by rw [hoki.next, hbi]; omega
  -- every step
  have key : ∀ r, CStep cfg env spawn c r → ∃ c', r = some c' ∧ EvC cfg env spawn Q c' := by
    intro r hr
    cases hr with
    | ask q rest _ hw' => rw [b.client.waiting] at hw'; cases hw'
    | deliver x y m ms hm =>
      rw [b.chan] at hm
      cases x with
      | client => simp [cchan] at hm
      | sup => simp [cchan] at hm
      | node x =>
      cases y with
      | client => simp [cchan] at hm
      | sup => simp [cchan] at hm
      | node n =>
        simp only [cchan] at hm
        split at hm
        · -- a sprout answers
          rename_i hn
          obtain ⟨rfl, hn⟩ := hn
          cases hm
          have hoknn := b.todoN n hn
          have hnr : nodeReceive cfg env spawn n (c.nodes n) (.check (.node x, σ.ctr x) none) (.node x) =
              some (putN n .check (c.nodes n), [(.node x, .check (.node x, σ.ctr x)
                (some (stateOf cfg (.node x) (nodeAt σ.st n))))]) := by
            rw [nodeReceive_sup hoknn (i := (.node x, σ.ctr x)) (by simp; exact fun e => hneW n hn e.symm) rfl]
            simp only [nodeRequest, hoknn.mem, hoknn.sup]
          refine ⟨_, by simp only [chandle, handle, hnr, Option.map_some]; rfl, ?_⟩
          have hWc : (W.erase n).card + 1 = W.card := Finset.card_erase_add_one hn
          have hRc : (insert n R).card = R.card + 1 := Finset.card_insert_of_notMem (b.disj n hn)
          have hnx : n ≠ x := hneW n hn
          have hxn : ¬ x = n := fun e => hnx e.symm
          refine ih (2 * (W.erase n).card + (insert n R).card) (by omega) (W.erase n) (insert n R) L _ rfl hL ?_
          refine ⟨?_, b.sup, ?_, ?_, ?_, ?_, b.nodup, ?_, ?_, ?_, ?_, b.tsk, b.nt⟩
          · funext p q
            simp only [pushAll, push, pop, b.chan]
            cases p with
            | client => simp [cchan]
            | sup => simp [cchan]
            | node p =>
              cases q with
              | client => simp [cchan]
              | sup => simp [cchan]
              | node q =>
                by_cases ep : p = x
                · subst ep
                  by_cases eq : q = n
                  · subst eq
                    simp [cchan, hn, hxn, hnx]
                  · simp [cchan, eq, hxn, hiR]
                · by_cases ep' : p = n
                  · subst ep'
                    by_cases eq : q = x
                    · subst eq; simp [cchan, ep, b.disj p hn]
                    · simp [cchan, ep, eq]
                  · simp [cchan, ep, ep']
          · intro j hj; exact b.subW j (Finset.mem_of_mem_erase hj)
          · intro j hj
            rcases Finset.mem_insert.1 hj with rfl | hj
            · exact b.subW _ hn
            · exact b.subR j hj
          · intro j hj hj'
            rw [Finset.mem_erase] at hj
            rcases Finset.mem_insert.1 hj' with e | hj'
            · exact hj.1 e
            · exact b.disj j hj.2 hj'
          · intro j
            rw [b.coll, Finset.mem_erase, Finset.mem_insert]
            by_cases e : j = n
            · subst e; simp [hn]
            · simp [e]
          · intro j hj
            rw [Finset.mem_erase] at hj
            simp only [Function.update_of_ne hj.1]
            exact b.todoN j hj.2
          · intro j hj hjW
            by_cases e : j = n
            · subst e
              simp only [Function.update_self]
              rw [hbT j (b.subW j hn)]
              exact hoknn.put' _
            · simp only [Function.update_of_ne e]
              exact b.doneN j hj (fun h => hjW (Finset.mem_erase.2 ⟨e, h⟩))
          · simp only [Function.update_of_ne (fun e => hnx e.symm : x ≠ n)]
            exact b.task
          · exact ⟨b.client.todo, b.client.waiting, b.client.sent, b.client.inbox⟩
        · split at hm
          · -- node `i` counts the answer
            rename_i hn
            obtain ⟨rfl, hn⟩ := hn
            cases hm
            have hnL : x ∉ L := fun h => ((b.coll x).1 h).2.2 hn
            have hLT : ∀ y ∈ L, y ∈ T := fun y hy => ((b.coll y).1 hy).1
            have hRc : (R.erase x).card + 1 = R.card := Finset.card_erase_add_one hn
            have hxT := b.subR x hn
            have hxN := hTN x hxT
            have hal : (if (stateOf cfg (.node n) (nodeAt σ.st x)).alive = true then 1 else 0) =
                ([x].filter (Hgs.aliveAt σ.st)).length := by
              simp only [stateOf, createNodeState, List.filter_cons, List.filter_nil, Hgs.aliveAt, nodeAt,
                List.getElem?_eq_getElem hxN, Option.getD_some, Option.map_some]
              split <;> simp
            have hcnt : (L.filter (Hgs.aliveAt σ.st)).length +
                (if (stateOf cfg (.node n) (nodeAt σ.st x)).alive = true then 1 else 0) =
                ((L ++ [x]).filter (Hgs.aliveAt σ.st)).length := by
              rw [hal, List.filter_append, List.length_append]
            have hnx : x ≠ n := hneR x hn
            have hpop : ∀ p q, (pop c.chan (.node x) (.node n)) p q =
                cchan n (.check (.node n, σ.ctr n) none) (fun j => .check (.node n, σ.ctr n)
                  (some (stateOf cfg (.node n) (nodeAt σ.st j)))) W (R.erase x) p q := by
              intro p q
              simp only [pop, b.chan]
              cases p with
              | client => simp [cchan]
              | sup => simp [cchan]
              | node p =>
                cases q with
                | client => simp [cchan]
                | sup => simp [cchan]
                | node q =>
                  by_cases ep : p = x
                  · subst ep
                    by_cases eq : q = n
                    · subst eq; simp [cchan, hn, hnx]
                    · simp [cchan, eq]
                  · simp [cchan, ep]
            by_cases hlast : L.length + 1 < T.length
            · have hnr : nodeReceive cfg env spawn n (c.nodes n) (.check (.node n, σ.ctr n)
                  (some (stateOf cfg (.node n) (nodeAt σ.st x)))) (.node x) =
                  some (setN (.node n, σ.ctr n) (.release ⟨.sup, me,
                    ((L ++ [x]).filter (Hgs.aliveAt σ.st)).length, next, (L ++ [x]).length, 0, 0, []⟩)
                    (c.nodes n), []) := by
                simp only [nodeReceive, Msg.id?, Option.bind_some, b.task, Option.map_some, nodeTask, hoki.mem,
                  hoki.sup, hsp]
                rw [if_neg (by omega), hcnt]
                simp
              refine ⟨_, by simp only [chandle, handle, hnr, Option.map_some]; rfl, ?_⟩
              refine ih (2 * W.card + (R.erase x).card) (by omega) W (R.erase x) (L ++ [x]) _ rfl
                (by simpa using hlast) ?_
              refine ⟨?_, b.sup, b.subW, ?_, ?_, ?_, ?_, ?_, ?_, ?_, ?_, b.tsk, b.nt⟩
              · funext p q
                exact hpop p q
              · intro j hj; exact b.subR j (Finset.mem_of_mem_erase hj)
              · intro j hj hj'
                exact b.disj j hj (Finset.mem_of_mem_erase hj')
              · intro j
                rw [List.mem_append, b.coll, List.mem_singleton, Finset.mem_erase]
                by_cases e : j = x
                · subst e; simp [hxT, hnotW _ hn]
                · simp [e]
              · exact List.nodup_append.2 ⟨b.nodup, List.nodup_singleton x, fun p hp q hq => by
                  rw [List.mem_singleton] at hq
                  subst hq
                  exact fun e => hnL (e ▸ hp)⟩
              · intro j hj
                simp only [Function.update_of_ne (hneW j hj)]
                exact b.todoN j hj
              · intro j hj hjW
                by_cases e : j = n
                · subst e
                  simp only [Function.update_self]
                  exact hoki.set' (by rw [hbi]; omega) _
                · simp only [Function.update_of_ne e]
                  exact b.doneN j hj hjW
              · simp [setN]
              · exact ⟨b.client.todo, b.client.waiting, b.client.sent, b.client.inbox⟩
            · have hlast' : L.length + 1 = T.length := by omega
              have hperm := perm_range hT b.nodup hxT hnL hLT hlast'
              have hliv : ((L ++ [x]).filter (Hgs.aliveAt σ.st)).length = Hgs.livingSprouts σ.st n := by
                rw [(hperm.filter _).length_eq, Hgs.livingSprouts, ← hsp, nodeAt_get hi]
                rfl
              have hW0 : W = ∅ := by
                have hRpos : 0 < R.card := Finset.card_pos.2 ⟨x, hn⟩
                have : W.card = 0 := by omega
                exact Finset.card_eq_zero.1 this
              have hR0 : R.erase x = ∅ := by
                have hRpos : 0 < R.card := Finset.card_pos.2 ⟨x, hn⟩
                have : (R.erase x).card = 0 := by omega
                exact Finset.card_eq_zero.1 this
              obtain ⟨r, hr⟩ : ∃ r : Rel D,
                r = ⟨.sup, me, Hgs.livingSprouts σ.st n, next, T.length, 0, 0, []⟩ := ⟨_, rfl⟩
              have hnr : nodeReceive cfg env spawn n (c.nodes n) (.check (.node n, σ.ctr n)
                  (some (stateOf cfg (.node n) (nodeAt σ.st x)))) (.node x) =
                  some (setN (.node n, σ.ctr n)
                      (.release (startSprouting cfg spawn n (σ.ctr n) (nodeAt σ.st n) .sup r).1) (c.nodes n),
                    (startSprouting cfg spawn n (σ.ctr n) (nodeAt σ.st n) .sup r).2) := by
                simp only [nodeReceive, Msg.id?, Option.bind_some, b.task, Option.map_some, nodeTask, hoki.mem,
                  hoki.sup, hsp]
                rw [if_pos hlast', hcnt, hliv, hr, hlast']
              refine ⟨_, by simp only [chandle, handle, hnr, Option.map_some]; rfl, ?_⟩
              refine hQ _ r hr b.sup ?_ ?_ ?_
                ⟨b.client.todo, b.client.waiting, b.client.sent, b.client.inbox⟩ b.tsk b.nt
              · rw [nodesOK_iff]
                intro j hj
                by_cases e : j = n
                · subst e
                  simp only [Function.update_self]
                  exact hoki.set' (by rw [hbi]; omega) _
                · simp only [Function.update_of_ne e]
                  exact b.doneN j hj (by simp [hW0])
              · simp [setN]
              · have : pop c.chan (.node x) (.node n) = empty := by
                  funext p q
                  rw [hpop, hW0, hR0]
                  cases p <;> cases q <;> simp [cchan, empty]
                simp only [this]
          · cases hm
  refine .step ?_ ?_ ?_ ?_
  · by_cases hW : W = ∅
    · have : 0 < R.card := by rw [hW, Finset.card_empty] at hcard; omega
      obtain ⟨n, hn⟩ := Finset.card_pos.1 this
      exact ⟨_, .deliver (.node n) (.node i) _ [] (by rw [b.chan]; simp [cchan, hn, hiW]; rfl)⟩
    · obtain ⟨n, hn⟩ := Finset.nonempty_iff_ne_empty.2 hW
      exact ⟨_, .deliver (.node i) (.node n) _ [] (by rw [b.chan]; simp [cchan, hn]; rfl)⟩
  · intro x y hne
    rw [b.chan] at hne
    cases x with
    | client => simp [cchan] at hne
    | sup => simp [cchan] at hne
    | node x =>
      cases y with
      | client => simp [cchan] at hne
      | sup => simp [cchan] at hne
      | node y =>
        simp only [cchan] at hne
        split at hne
        · rename_i h
          obtain ⟨rfl, hy⟩ := h
          refine ⟨⟨hN ▸ hi, hposi⟩, hN ▸ hTN y (b.subW y hy), Or.inr ?_⟩
          rw [(b.todoN y hy).next]
          exact hctr y (b.subW y hy)
        · split at hne
          · rename_i h
            obtain ⟨rfl, hx⟩ := h
            have hxT := b.subR x hx
            refine ⟨⟨hN ▸ hTN x hxT, ?_⟩, hN ▸ hi, Or.inr hposi⟩
            rw [(b.doneN x (hTN x hxT) (hnotW x hx)).next, hbT x hxT]
            omega
          · exact absurd rfl hne
  · intro r hr
    obtain ⟨c', e, _⟩ := key r hr
    exact ⟨c', e⟩
  · intro t ht
    obtain ⟨c', e, h⟩ := key _ ht
    cases e
    exact h

/-- From the start of the sprouting to the final answer. -/
theorem ev_start {Q : Sys D K → Prop} {σ : PState D K} {i k : ℕ} {me : Id} {next : List (NState D)}
    {todo : List (Req D)} {sent : ℕ} {inbox : List (Msg D K)} {tk : Option (STask D K)} {nt checked : ℕ}
    {c : Sys D K} (hk : k < σ.ctr i) (hz : ∀ n, σ.st.nodes.length ≤ n → σ.ctr n = 0)
    (hi : i < σ.st.nodes.length) (hlv : (nodeAt σ.st i).level < cfg.maxLevel →
      (nodeAt σ.st i).level + 1 < σ.st.levels.length)
    (r : Rel D) (hr : r = ⟨.sup, me, Hgs.livingSprouts σ.st i, next, checked, 0, 0, []⟩)
    (hsup : SupOK σ c.sup) (hnodes : NodesOK σ c)
    (htask : (c.nodes i).tasks (.node i, k) =
        some (.release (startSprouting cfg spawn i k (nodeAt σ.st i) .sup r).1))
    (hchan : c.chan = pushAll empty (.node i) (startSprouting cfg spawn i k (nodeAt σ.st i) .sup r).2)
    (hcl : Client todo true sent inbox c) (htk : c.sup.tasks me = tk) (hnt : c.sup.nextTask = nt)
    (res : Hgs.State D K × List (NState D))
    (hres : res = if (nodeAt σ.st i).level < cfg.maxLevel ∧ Hgs.livingSprouts σ.st i < cfg.maxSprouts then
        sproutLoop cfg spawn i k (nodeAt σ.st i).level (Hgs.livingSprouts σ.st i) (nodeAt σ.st i).delegates 0 0
          next [] σ.st
      else (σ.st, []))
    (hQ : ∀ c' : Sys D K, SupOK { σ with st := res.1 } c'.sup → NodesOK { σ with st := res.1 } c' →
        c'.chan = only (.node i) .sup (.releaseEnd me (stateOf cfg (.node i) (nodeAt σ.st i)) res.2) →
        Client todo true sent inbox c' → c'.sup.tasks me = tk → c'.sup.nextTask = nt →
        EvC cfg env spawn Q c') : EvC cfg env spawn Q c := by
  subst hr
  by_cases hc : (nodeAt σ.st i).level < cfg.maxLevel ∧ Hgs.livingSprouts σ.st i < cfg.maxSprouts ∧
      (nodeAt σ.st i).delegates ≠ []
  · simp only [startSprouting, if_pos hc] at htask hchan
    rw [if_pos ⟨hc.1, hc.2.1⟩] at hres
    rw [hres] at hQ
    exact ev_sprout hk (nodeAt σ.st i).delegates 0 0 next [] σ.st c hz hi rfl rfl rfl (hlv hc.1) hsup hnodes htask
      hchan hcl htk hnt hQ
  · simp only [startSprouting, if_neg hc, finish, pushAll_one] at htask hchan
    have : res = (σ.st, []) := by
      rw [hres]
      by_cases h2 : (nodeAt σ.st i).level < cfg.maxLevel ∧ Hgs.livingSprouts σ.st i < cfg.maxSprouts
      · rw [if_pos h2]
        have : (nodeAt σ.st i).delegates = [] := by
          by_contra hne
          exact hc ⟨h2.1, h2.2, hne⟩
        rw [this]
        rfl
      · rw [if_neg h2]
    rw [this] at hQ
    exact hQ c hsup hnodes hchan hcl htk hnt

/-- The turn of node `i`: from `RELEASE_SPROUTS` under way to its `RELEASE_SPROUTS_END` under way. -/
theorem ev_turn {Q : Sys D K → Prop} {σ σ' : PState D K} {i : ℕ} {me : Id} {next created : List (NState D)}
    {st : NState D} {todo : List (Req D)} {sent : ℕ} {inbox : List (Msg D K)} {tk : Option (STask D K)}
    {nt : ℕ} {c : Sys D K} (hme : me.1 = .sup)
    (hz : ∀ n, σ.st.nodes.length ≤ n → σ.ctr n = 0) (hi : i < σ.st.nodes.length)
    (hlv : (nodeAt σ.st i).level < cfg.maxLevel → (nodeAt σ.st i).level + 1 < σ.st.levels.length)
    (hT : (nodeAt σ.st i).sprouts.Nodup) (hiT : i ∉ (nodeAt σ.st i).sprouts)
    (hTN : ∀ n ∈ (nodeAt σ.st i).sprouts, n < σ.st.nodes.length)
    (hctr : ∀ n ∈ (nodeAt σ.st i).sprouts, 0 < σ.ctr n)
    (hsup : SupOK σ c.sup) (hnodes : NodesOK σ c) (hchan : c.chan = only .sup (.node i) (.release me next))
    (hcl : Client todo true sent inbox c) (htk : c.sup.tasks me = tk) (hnt : c.sup.nextTask = nt)
    (hrt : releaseTurn cfg spawn i next σ = some (σ', st, created))
    (hQ : ∀ c' : Sys D K, SupOK { σ' with states := σ.states } c'.sup → NodesOK σ' c' →
        c'.chan = only (.node i) .sup (.releaseEnd me st created) →
        Client todo true sent inbox c' → c'.sup.tasks me = tk → c'.sup.nextTask = nt →
        EvC cfg env spawn Q c') : EvC cfg env spawn Q c := by
  have hoki := nodesOK_iff.1 hnodes i hi
  have hid : me.1 ≠ .node i := by rw [hme]; simp
  have hN : c.sup.nextNode = σ.st.nodes.length := hsup.next
  simp only [releaseTurn, nodeAt_get hi, Option.some.injEq, Prod.mk.injEq] at hrt
  obtain ⟨hσ', hst, hcr⟩ := hrt
  have hbi : ∀ T, bump (i :: T) σ.ctr i = σ.ctr i + 1 := fun T => by simp [bump]
  have hrec : nodeReceive cfg env spawn i (c.nodes i) (.release me next) .sup =
      nodeRequest cfg env spawn i (c.nodes i) (.release me next) .sup := by
    rw [nodeReceive_sup hoki hid rfl]
  have hput : ∀ t n, n < σ.st.nodes.length →
      NodeOK n (nodeAt σ.st n) (bump [i] σ.ctr n) (Function.update c.nodes i (putN i t (c.nodes i)) n) := by
    intro t n hn
    by_cases e : n = i
    · subst e
      simp only [Function.update_self]
      rw [hbi]
      exact hoki.put' _
    · simp only [Function.update_of_ne e]
      have : bump [i] σ.ctr n = σ.ctr n := by simp [bump, e]
      rw [this]
      exact nodesOK_iff.1 hnodes n hn
  have htaskput : ∀ t, (Function.update c.nodes i (putN i t (c.nodes i)) i).tasks (.node i, σ.ctr i) = some t := by
    intro t
    have := hoki.next
    simp [putN, this]
  by_cases hripe : (nodeAt σ.st i).ripe = true
  · by_cases hsp : (nodeAt σ.st i).sprouts = []
    · -- no sprouts yet
      obtain ⟨r, hr⟩ : ∃ r : Rel D, r = ⟨.sup, me, 0, next, 0, 0, 0, []⟩ := ⟨_, rfl⟩
      have hnr : nodeReceive cfg env spawn i (c.nodes i) (.release me next) .sup =
          some (putN i (.release (startSprouting cfg spawn i (σ.ctr i) (nodeAt σ.st i) .sup r).1) (c.nodes i),
            (startSprouting cfg spawn i (σ.ctr i) (nodeAt σ.st i) .sup r).2) := by
        rw [hrec]
        simp only [nodeRequest, hoki.mem, hoki.sup, hripe, hsp, if_true, hr]
        rw [hoki.next]
      have hliv : Hgs.livingSprouts σ.st i = 0 := by
        simp [Hgs.livingSprouts, nodeAt_get hi, hsp]
      refine ev_single (c' := { c with
          nodes := Function.update c.nodes i
            (putN i (.release (startSprouting cfg spawn i (σ.ctr i) (nodeAt σ.st i) .sup r).1) (c.nodes i))
          chan := pushAll empty (.node i) (startSprouting cfg spawn i (σ.ctr i) (nodeAt σ.st i) .sup r).2 })
        hchan hcl.waiting trivial ⟨hN ▸ hi, Or.inl rfl⟩ ?_ ?_
      · simp only [chandle, handle, hnr, Option.map_some, hchan, pop_only]
      refine ev_start (σ := { σ with ctr := bump [i] σ.ctr }) (k := σ.ctr i) (me := me) (next := next)
        (checked := 0) (by simp only [hbi]; omega) ?_ hi hlv r (by rw [hr]; simp only [hliv]) (hsup.bump _) ?_
        ?_ rfl ⟨hcl.todo, hcl.waiting, hcl.sent, hcl.inbox⟩ htk hnt _ rfl ?_
      · intro n hn
        have : n ≠ i := by
          have : σ.st.nodes.length ≤ n := hn
          omega
        simp [bump, this, hz n hn]
      · rw [nodesOK_iff]; exact hput _
      · exact htaskput _
      · intro c' h1 h2 h3 h4 h5 h6
        have hif : (if (nodeAt σ.st i).ripe = true ∧ (nodeAt σ.st i).level < cfg.maxLevel ∧
            Hgs.livingSprouts σ.st i < cfg.maxSprouts then
            sproutLoop cfg spawn i (σ.ctr i) (nodeAt σ.st i).level (Hgs.livingSprouts σ.st i)
              (nodeAt σ.st i).delegates 0 0 next [] σ.st else (σ.st, [])) =
            (if (nodeAt σ.st i).level < cfg.maxLevel ∧ Hgs.livingSprouts σ.st i < cfg.maxSprouts then
            sproutLoop cfg spawn i (σ.ctr i) (nodeAt σ.st i).level (Hgs.livingSprouts σ.st i)
              (nodeAt σ.st i).delegates 0 0 next [] σ.st else (σ.st, [])) := by
          simp [hripe]
        rw [hif] at hσ' hcr
        simp only [hripe, hsp, if_true] at hσ'
        apply hQ c'
        · rw [← hσ']; exact ⟨h1.nodes, h1.next, h1.levels, h1.cost, h1.ratio, h1.states, h1.wf⟩
        · rw [← hσ']; exact h2
        · rw [h3, hst, ← hcr]
        · exact h4
        · exact h5
        · exact h6
    · -- the sprouts are asked first
      have hnr : nodeReceive cfg env spawn i (c.nodes i) (.release me next) .sup =
          some (putN i (.release ⟨.sup, me, 0, next, 0, 0, 0, []⟩) (c.nodes i),
            (nodeAt σ.st i).sprouts.map fun j => (.node j, .check (.node i, σ.ctr i) none)) := by
        rw [hrec]
        simp only [nodeRequest, hoki.mem, hoki.sup, hripe, hsp, if_true, if_false]
        rw [hoki.next]
      refine ev_single (c' := { c with
          nodes := Function.update c.nodes i (putN i (.release ⟨.sup, me, 0, next, 0, 0, 0, []⟩) (c.nodes i))
          chan := cchan i (.check (.node i, σ.ctr i) none)
            (fun j => .check (.node i, σ.ctr i) (some (stateOf cfg (.node i) (nodeAt σ.st j))))
            (nodeAt σ.st i).sprouts.toFinset ∅ })
        hchan hcl.waiting trivial ⟨hN ▸ hi, Or.inl rfl⟩ ?_ ?_
      · simp only [chandle, handle, hnr, Option.map_some, hchan, pop_only]
        rw [pushAll_checks _ hT]
      refine ev_checks (σ := σ) (i := i) (T := (nodeAt σ.st i).sprouts) (me := me) (next := next) (todo := todo)
        (sent := sent) (inbox := inbox) (tk := tk) (nt := nt) hi hT hiT hTN hctr rfl ?_ _
        (nodeAt σ.st i).sprouts.toFinset ∅ [] _ rfl (List.length_pos_iff.2 hsp) ?_
      · intro c' r hr h1 h2 h3 h4 h5 h6 h7
        refine ev_start (σ := { σ with ctr := bump (i :: (nodeAt σ.st i).sprouts) σ.ctr }) (k := σ.ctr i)
          (me := me) (next := next) (checked := (nodeAt σ.st i).sprouts.length) (by simp only [hbi]; omega) ?_ hi
          hlv r hr (h1.bump _) h2 h3 h4 h5 h6 h7 _ rfl ?_
        · intro n hn
          have hn' : σ.st.nodes.length ≤ n := hn
          have e1 : n ≠ i := by omega
          have e2 : n ∉ (nodeAt σ.st i).sprouts := fun h => by
            have := hTN n h; omega
          simp [bump, e1, e2, hz n hn']
        · intro c'' g1 g2 g3 g4 g5 g6
          have hif : (if (nodeAt σ.st i).ripe = true ∧ (nodeAt σ.st i).level < cfg.maxLevel ∧
              Hgs.livingSprouts σ.st i < cfg.maxSprouts then
              sproutLoop cfg spawn i (σ.ctr i) (nodeAt σ.st i).level (Hgs.livingSprouts σ.st i)
                (nodeAt σ.st i).delegates 0 0 next [] σ.st else (σ.st, [])) =
              (if (nodeAt σ.st i).level < cfg.maxLevel ∧ Hgs.livingSprouts σ.st i < cfg.maxSprouts then
              sproutLoop cfg spawn i (σ.ctr i) (nodeAt σ.st i).level (Hgs.livingSprouts σ.st i)
                (nodeAt σ.st i).delegates 0 0 next [] σ.st else (σ.st, [])) := by
            simp [hripe]
          rw [hif] at hσ' hcr
          simp only [hripe, if_true] at hσ'
          apply hQ c''
          · rw [← hσ']; exact ⟨g1.nodes, g1.next, g1.levels, g1.cost, g1.ratio, g1.states, g1.wf⟩
          · rw [← hσ']; exact g2
          · rw [g3, hst, ← hcr]
          · exact g4
          · exact g5
          · exact g6
      · refine ⟨rfl, hsup, by simp, by simp, by simp, by simp, by simp, ?_, ?_, htaskput _,
          ⟨hcl.todo, hcl.waiting, hcl.sent, hcl.inbox⟩, htk, hnt⟩
        · intro n hn
          have hn' : n ∈ (nodeAt σ.st i).sprouts := by simpa using hn
          have : n ≠ i := fun e => hiT (e ▸ hn')
          simp only [Function.update_of_ne this]
          exact nodesOK_iff.1 hnodes n (hTN n hn')
        · intro n hn hnW
          have hn' : n ∉ (nodeAt σ.st i).sprouts := by simpa using hnW
          have e : bump (i :: (nodeAt σ.st i).sprouts) σ.ctr n = bump [i] σ.ctr n := by
            simp [bump, hn']
          rw [e]
          exact hput _ n hn
  · -- not ripe
    have hrf : (nodeAt σ.st i).ripe = false := by simpa using hripe
    have hnr : nodeReceive cfg env spawn i (c.nodes i) (.release me next) .sup =
        some (putN i (.release ⟨.sup, me, 0, next, 0, 0, 0, []⟩) (c.nodes i),
          [(.sup, .releaseEnd me (stateOf cfg (.node i) (nodeAt σ.st i)) [])]) := by
      rw [hrec]
      simp only [nodeRequest, hoki.mem, hoki.sup, hrf, finish]
      rfl
    refine ev_single (c' := { c with
        nodes := Function.update c.nodes i (putN i (.release ⟨.sup, me, 0, next, 0, 0, 0, []⟩) (c.nodes i))
        chan := only (.node i) .sup (.releaseEnd me (stateOf cfg (.node i) (nodeAt σ.st i)) []) })
      hchan hcl.waiting trivial ⟨hN ▸ hi, Or.inl rfl⟩ ?_ ?_
    · simp only [chandle, handle, hnr, Option.map_some, hchan, pop_only, pushAll_one]
    · have hif : (if (nodeAt σ.st i).ripe = true ∧ (nodeAt σ.st i).level < cfg.maxLevel ∧
          Hgs.livingSprouts σ.st i < cfg.maxSprouts then
          sproutLoop cfg spawn i (σ.ctr i) (nodeAt σ.st i).level (Hgs.livingSprouts σ.st i)
            (nodeAt σ.st i).delegates 0 0 next [] σ.st else (σ.st, [])) = (σ.st, []) := by
        simp [hrf]
      rw [hif] at hσ' hcr
      simp only [hrf] at hσ'
      apply hQ _
      · rw [← hσ']
        exact ⟨hsup.nodes, hsup.next, hsup.levels, hsup.cost, hsup.ratio, hsup.states, hsup.wf⟩
      · rw [← hσ', nodesOK_iff]; exact hput _
      · rw [hst, ← hcr]
      · exact ⟨hcl.todo, hcl.waiting, hcl.sent, hcl.inbox⟩
      · exact htk
      · exact hnt

end

end Evogil.Dist
