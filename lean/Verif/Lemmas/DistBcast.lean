import Verif.Lemmas.DistSim
import Verif.Model.DistHgsSeq
import Mathlib.Data.Finset.Card
import Mathlib.Data.Finset.Range
import Mathlib.Data.Finset.SDiff

/-!
# Sending a request to many nodes and collecting the answers
-/

set_option linter.unusedSectionVars false

namespace Evogil.Dist

variable {D K : Type*} [Field K] [LinearOrder K]

/-- The actor of node `n` has the attributes `a`, has been given `k` tasks, and no foreign task ids. -/
structure NodeOK (n : ℕ) (a : Hgs.Node D K) (k : ℕ) (x : NodeS D K) : Prop where
  mem : x.mem = some a
  sup : x.supervisor = some .sup
  next : x.nextTask = k
  wf : ∀ i, x.tasks i ≠ none → i.1 = .node n ∧ i.2 < k

/-- The supervisor holds what `σ` says. -/
structure SupOK (σ : PState D K) (u : Sup D K) : Prop where
  nodes : u.nodes = List.range σ.st.nodes.length
  next : u.nextNode = σ.st.nodes.length
  levels : u.levels = σ.st.levels
  cost : u.cost = σ.st.cost
  ratio : u.ratio = σ.ratio
  states : u.states = σ.states
  wf : ∀ i, u.tasks i ≠ none → i.1 = .sup ∧ i.2 < u.nextTask

/-- All nodes are as `σ` says. -/
def NodesOK (σ : PState D K) (c : Sys D K) : Prop :=
  ∀ n a, σ.st.nodes[n]? = some a → NodeOK n a (σ.ctr n) (c.nodes n)

/-- What the client looks like. -/
structure Client (todo : List (Req D)) (waiting : Bool) (sent : ℕ) (inbox : List (Msg D K))
    (c : Sys D K) : Prop where
  todo : c.todo = todo
  waiting : c.waiting = waiting
  sent : c.sent = sent
  inbox : c.inbox = inbox

/-- The channels when one message is under way. -/
def only (a b : Addr) (m : Msg D K) : Addr → Addr → List (Msg D K) :=
  fun x y => if x = a ∧ y = b then [m] else []

/-- The channels when no message is under way. -/
def empty : Addr → Addr → List (Msg D K) := fun _ _ => []

/-- Between two requests, in the system with immediate creation. -/
structure Idle (σ : PState D K) (todo : List (Req D)) (sent : ℕ) (inbox : List (Msg D K)) (c : Sys D K) :
    Prop where
  sup : SupOK σ c.sup
  nodes : NodesOK σ c
  chan : c.chan = empty
  client : Client todo false sent inbox c

theorem pop_only (a b : Addr) (m : Msg D K) : pop (only a b m) a b = empty := by
  funext x y
  simp only [pop, only, empty]
  split <;> simp_all

theorem push_empty (a b : Addr) (m : Msg D K) : push empty a b m = only a b m := by
  funext x y
  simp only [push, only, empty]
  split <;> simp_all

theorem pushAll_one (a b : Addr) (m : Msg D K) : pushAll empty a [(b, m)] = only a b m := by
  simp only [pushAll, push_empty]

theorem SupOK.put {σ : PState D K} {u : Sup D K} (h : SupOK σ u) (t : STask D K) : SupOK σ (putS t u) := by
  refine ⟨h.nodes, h.next, h.levels, h.cost, h.ratio, h.states, ?_⟩
  intro i hi
  by_cases e : i = (.sup, u.nextTask)
  · subst e; exact ⟨rfl, Nat.lt_succ_self _⟩
  · simp only [putS, Function.update_of_ne e] at hi ⊢
    exact ⟨(h.wf i hi).1, Nat.lt_succ_of_lt (h.wf i hi).2⟩

theorem SupOK.set {σ : PState D K} {u : Sup D K} (h : SupOK σ u) {k : ℕ} (hk : k < u.nextTask)
    (t : STask D K) : SupOK σ (setS (.sup, k) t u) := by
  refine ⟨h.nodes, h.next, h.levels, h.cost, h.ratio, h.states, ?_⟩
  intro i hi
  by_cases e : i = (.sup, k)
  · subst e; exact ⟨rfl, hk⟩
  · simp only [setS, Function.update_of_ne e] at hi ⊢
    exact h.wf i hi

section
variable {cfg : Hgs.Conf D K} {env : ℕ → ℕ → Hgs.Report D K} {spawn : ℕ → ℕ → ℕ → List D}

/-- With one message under way and the client waiting there is one possible step. -/
theorem ev_single {Q : Sys D K → Prop} {c c' : Sys D K} {a b : Addr} {m : Msg D K}
    (hc : c.chan = only a b m) (hw : c.waiting = true) (hs : okSrc c a) (hd : okDest c a b)
    (h : chandle cfg env spawn c a b m = some c') (hq : EvC cfg env spawn Q c') : EvC cfg env spawn Q c := by
  have key : ∀ {r}, CStep cfg env spawn c r → r = some c' := by
    intro r hr
    cases hr with
    | ask q rest _ hw' => rw [hw] at hw'; cases hw'
    | deliver x y m' ms hm =>
      rw [hc] at hm
      simp only [only] at hm
      split at hm
      · rename_i e
        obtain ⟨rfl, rfl⟩ := e
        cases hm
        exact h
      · cases hm
  refine .step ⟨_, .deliver a b m [] (by rw [hc]; simp [only])⟩ ?_ ?_ ?_
  · intro x y hne
    rw [hc] at hne
    simp only [only] at hne
    split at hne
    · rename_i e; obtain ⟨rfl, rfl⟩ := e; exact ⟨hs, hd⟩
    · exact absurd rfl hne
  · intro r hr; exact ⟨c', key hr⟩
  · intro t ht
    cases key ht
    exact hq

theorem ev_ask {Q : Sys D K → Prop} {c : Sys D K} {r : Req D} {rest : List (Req D)} (hc : c.chan = empty)
    (hw : c.waiting = false) (ht : c.todo = r :: rest) (hq : EvC cfg env spawn Q (ask c r rest)) :
    EvC cfg env spawn Q c := by
  have key : ∀ {x}, CStep cfg env spawn c x → x = some (ask c r rest) := by
    intro x hx
    cases hx with
    | ask q rest' hq' _ =>
      rw [ht] at hq'
      cases hq'
      rfl
    | deliver x y m' ms hm =>
      rw [hc] at hm
      cases hm
  refine .step ⟨_, .ask r rest ht hw⟩ ?_ ?_ ?_
  · intro x y hne
    rw [hc] at hne
    exact absurd rfl hne
  · intro x hx; exact ⟨_, key hx⟩
  · intro t ht
    cases key ht
    exact hq

/-! ## Broadcast -/

/-- The channels while nodes in `W` have a request pending and nodes in `R` have answered. -/
def bchan (req rep : ℕ → Msg D K) (W R : Finset ℕ) : Addr → Addr → List (Msg D K)
  | .sup, .node n => if n ∈ W then [req n] else []
  | .node n, .sup => if n ∈ R then [rep n] else []
  | _, _ => []

theorem outTo_map {req : ℕ → Msg D K} {T : List ℕ} (h : T.Nodup) (n : ℕ) :
    outTo (.node n) (T.map fun n => (Addr.node n, req n)) = if n ∈ T then [req n] else [] := by
  induction T with
  | nil => simp [outTo]
  | cons t T ih =>
    obtain ⟨ht, hT⟩ := List.nodup_cons.1 h
    simp only [outTo, List.map_cons, List.filterMap_cons] at ih ⊢
    by_cases e : t = n
    · subst e
      simp only [if_true, ih hT, ht, if_false, List.mem_cons, true_or]
    · have e' : ¬ n = t := fun h => e h.symm
      simp only [Addr.node.injEq, e, if_false, ih hT, List.mem_cons, e', false_or]

theorem outTo_map_other {req : ℕ → Msg D K} {T : List ℕ} {d : Addr} (hd : ∀ n, d ≠ .node n) :
    outTo d (T.map fun n => (Addr.node n, req n)) = [] := by
  simp only [outTo, List.filterMap_map, List.filterMap_eq_nil_iff, Function.comp]
  intro n _
  rw [if_neg (fun e => hd n e.symm)]

theorem pushAll_bcast {req : ℕ → Msg D K} (rep : ℕ → Msg D K) {T : List ℕ} (h : T.Nodup) :
    pushAll empty .sup (T.map fun n => (Addr.node n, req n)) = bchan req rep T.toFinset ∅ := by
  funext x y
  rw [pushAll_eq]
  cases x with
  | client => simp [empty, bchan]
  | node n => cases y <;> simp [empty, bchan]
  | sup =>
    cases y with
    | client => simp [empty, bchan, outTo_map_other]
    | sup => simp [empty, bchan, outTo_map_other]
    | node n => simp [empty, bchan, outTo_map h]

/-- The state during a broadcast to `T`; `L` are the nodes whose answers have been collected, `S L`
describes the supervisor then. -/
structure Bc (T : Finset ℕ) (N : ℕ) (req rep : ℕ → Msg D K) (a a' : ℕ → Hgs.Node D K) (k k' : ℕ → ℕ)
    (S : List ℕ → Sup D K → Prop) (todo : List (Req D)) (sent : ℕ) (inbox : List (Msg D K))
    (W R : Finset ℕ) (L : List ℕ) (c : Sys D K) : Prop where
  chan : c.chan = bchan req rep W R
  next : c.sup.nextNode = N
  subW : W ⊆ T
  subR : R ⊆ T
  disj : Disjoint W R
  coll : ∀ n, n ∈ L ↔ n ∈ T ∧ n ∉ W ∧ n ∉ R
  nodup : L.Nodup
  todoN : ∀ n ∈ W, NodeOK n (a n) (k n) (c.nodes n)
  doneN : ∀ n < N, n ∉ W → NodeOK n (a' n) (k' n) (c.nodes n)
  sup : S L c.sup
  client : Client todo true sent inbox c

theorem okSrc_bchan {c : Sys D K} {req rep : ℕ → Msg D K} {W R : Finset ℕ} {N : ℕ}
    (hc : c.chan = bchan req rep W R) (hN : c.sup.nextNode = N) (hW : ∀ n ∈ W, n < N)
    (hR : ∀ n ∈ R, n < N ∧ 0 < (c.nodes n).nextTask) :
    ∀ x y, c.chan x y ≠ [] → okSrc c x ∧ okDest c x y := by
  intro x y hne
  rw [hc] at hne
  cases x with
  | client => simp [bchan] at hne
  | sup =>
    cases y with
    | client => simp [bchan] at hne
    | sup => simp [bchan] at hne
    | node n =>
      simp only [bchan] at hne
      split at hne
      · rename_i h
        exact ⟨trivial, hN ▸ hW n h, Or.inl rfl⟩
      · exact absurd rfl hne
  | node n =>
    cases y with
    | client => simp [bchan] at hne
    | node _ => simp [bchan] at hne
    | sup =>
      simp only [bchan] at hne
      split at hne
      · rename_i h
        exact ⟨⟨hN ▸ (hR n h).1, (hR n h).2⟩, trivial⟩
      · exact absurd rfl hne

theorem ev_bcast {T : Finset ℕ} {N : ℕ} {req rep : ℕ → Msg D K} {a a' : ℕ → Hgs.Node D K} {k k' : ℕ → ℕ}
    {S : List ℕ → Sup D K → Prop} {F : Sup D K → Msg D K → Prop} {todo : List (Req D)} {sent : ℕ}
    {inbox : List (Msg D K)} {Q : Sys D K → Prop}
    (hT : ∀ n ∈ T, n < N) (hk : ∀ n ∈ T, k' n = k n + 1)
    (hnode : ∀ n ∈ T, ∀ x, NodeOK n (a n) (k n) x → ∃ x', nodeReceive cfg env spawn n x (req n) .sup =
      some (x', [(.sup, rep n)]) ∧ NodeOK n (a' n) (k' n) x')
    (hsup : ∀ L n u, S L u → n ∈ T → n ∉ L → L.Nodup → (∀ x ∈ L, x ∈ T) → L.length + 1 < T.card →
      ∃ u', supReceive cfg u (rep n) (.node n) = some (u', []) ∧ S (L ++ [n]) u' ∧ u'.nextNode = u.nextNode)
    (hend : ∀ L n u, S L u → n ∈ T → n ∉ L → L.Nodup → (∀ x ∈ L, x ∈ T) → L.length + 1 = T.card →
      ∃ u' ans, supReceive cfg u (rep n) (.node n) = some (u', [(.client, ans)]) ∧ F u' ans ∧
        u'.nextNode = u.nextNode ∧ ans ≠ .hello)
    (hQ : ∀ c ans, F c.sup ans → (∀ n < N, NodeOK n (a' n) (k' n) (c.nodes n)) →
      c.chan = only .sup .client ans → Client todo true sent inbox c → EvC cfg env spawn Q c) :
    ∀ (w : ℕ) (W R : Finset ℕ) (L : List ℕ) (c : Sys D K), 2 * W.card + R.card = w → L.length < T.card →
      Bc T N req rep a a' k k' S todo sent inbox W R L c → EvC cfg env spawn Q c := by
  intro w
  induction w using Nat.strong_induction_on with
  | _ w ih =>
  intro W R L c hw hL b
  have hcard : L.length + W.card + R.card = T.card := by
    have e : L.toFinset ∪ W ∪ R = T := by
      ext n
      simp only [Finset.mem_union, List.mem_toFinset, b.coll]
      constructor
      · rintro ((h | h) | h)
        · exact h.1
        · exact b.subW h
        · exact b.subR h
      · intro h
        by_cases h1 : n ∈ W
        · exact Or.inl (Or.inr h1)
        · by_cases h2 : n ∈ R
          · exact Or.inr h2
          · exact Or.inl (Or.inl ⟨h, h1, h2⟩)
    rw [← e, Finset.card_union_of_disjoint, Finset.card_union_of_disjoint, List.toFinset_card_of_nodup b.nodup]
    · rw [Finset.disjoint_left]
      intro n hn
      exact ((b.coll n).1 (List.mem_toFinset.1 hn)).2.1
    · rw [Finset.disjoint_left]
      intro n hn
      rcases Finset.mem_union.1 hn with hn | hn
      · exact ((b.coll n).1 (List.mem_toFinset.1 hn)).2.2
      · exact Finset.disjoint_left.1 b.disj hn
  have hRok : ∀ n ∈ R, n < N ∧ 0 < (c.nodes n).nextTask := by
    intro n hn
    have h1 := hT n (b.subR hn)
    refine ⟨h1, ?_⟩
    rw [(b.doneN n h1 (fun h => Finset.disjoint_left.1 b.disj h hn)).next, hk n (b.subR hn)]
    omega
  have hnotW : ∀ n ∈ R, n ∉ W := fun n hn h => Finset.disjoint_left.1 b.disj h hn
  -- every step
  have key : ∀ r, CStep cfg env spawn c r → ∃ c', r = some c' ∧ EvC cfg env spawn Q c' := by
    intro r hr
    cases hr with
    | ask q rest _ hw' => rw [b.client.waiting] at hw'; cases hw'
    | deliver x y m ms hm =>
      rw [b.chan] at hm
      cases x with
      | client => simp [bchan] at hm
      | sup =>
        cases y with
        | client => simp [bchan] at hm
        | sup => simp [bchan] at hm
        | node n =>
          simp only [bchan] at hm
          split at hm
          · rename_i hn
            cases hm
            obtain ⟨x', hx', ok'⟩ := hnode n (b.subW hn) _ (b.todoN n hn)
            refine ⟨_, by simp only [chandle, handle, hx', Option.map_some]; rfl, ?_⟩
            have hWc : (W.erase n).card + 1 = W.card := Finset.card_erase_add_one hn
            have hRc : (insert n R).card = R.card + 1 :=
              Finset.card_insert_of_notMem (Finset.disjoint_left.1 b.disj hn)
            refine ih (2 * (W.erase n).card + (insert n R).card) (by omega) (W.erase n) (insert n R) L _ rfl hL ?_
            refine ⟨?_, b.next, (Finset.erase_subset _ _).trans b.subW, ?_, ?_, ?_, b.nodup, ?_, ?_, b.sup, ?_⟩
            · funext x y
              simp only [pushAll, push, pop, b.chan]
              cases x with
              | client => cases y <;> simp [bchan]
              | sup =>
                cases y with
                | client => simp [bchan]
                | sup => simp [bchan]
                | node j =>
                  by_cases e : j = n
                  · subst e; simp [bchan, hn]
                  · simp [bchan, e]
              | node j =>
                cases y with
                | client => simp [bchan]
                | node _ => simp [bchan]
                | sup =>
                  by_cases e : j = n
                  · subst e; simp [bchan, Finset.disjoint_left.1 b.disj hn]
                  · simp [bchan, e]
            · intro j hj
              rcases Finset.mem_insert.1 hj with rfl | hj
              · exact b.subW hn
              · exact b.subR hj
            · rw [Finset.disjoint_left]
              intro j hj hj'
              rw [Finset.mem_erase] at hj
              rcases Finset.mem_insert.1 hj' with e | hj'
              · exact hj.1 e
              · exact Finset.disjoint_left.1 b.disj hj.2 hj'
            · intro j
              rw [b.coll, Finset.mem_erase, Finset.mem_insert]
              by_cases e : j = n
              · subst e; simp [hn]
              · simp [e]
            · intro j hj
              rw [Finset.mem_erase] at hj
              simp only [Function.update_of_ne hj.1]
              exact b.todoN j hj.2
            · intro j hj hjW
              by_cases e : j = n
              · subst e; simpa using ok'
              · simp only [Function.update_of_ne e]
                exact b.doneN j hj (fun h => hjW (Finset.mem_erase.2 ⟨e, h⟩))
            · exact ⟨b.client.todo, b.client.waiting, b.client.sent, b.client.inbox⟩
          · cases hm
      | node n =>
        cases y with
        | client => simp [bchan] at hm
        | node _ => simp [bchan] at hm
        | sup =>
          simp only [bchan] at hm
          split at hm
          · rename_i hn
            cases hm
            have hnL : n ∉ L := fun h => ((b.coll n).1 h).2.2 hn
            have hLT : ∀ x ∈ L, x ∈ T := fun x hx => ((b.coll x).1 hx).1
            have hRc : (R.erase n).card + 1 = R.card := Finset.card_erase_add_one hn
            by_cases hlast : L.length + 1 < T.card
            · obtain ⟨u', hu', hS, hnx⟩ := hsup L n _ b.sup (b.subR hn) hnL b.nodup hLT hlast
              refine ⟨_, by simp only [chandle, hu', Option.map_some]; rw [syncPost_plain (by simp [plain])], ?_⟩
              refine ih (2 * W.card + (R.erase n).card) (by omega) W (R.erase n) (L ++ [n]) _ rfl
                (by simpa using hlast) ?_
              refine ⟨?_, hnx.trans b.next, b.subW, (Finset.erase_subset _ _).trans b.subR, ?_, ?_, ?_, b.todoN,
                b.doneN, hS, ?_⟩
              · funext x y
                simp only [pushAll, pop, b.chan]
                cases x with
                | client => cases y <;> simp [bchan]
                | sup => cases y <;> simp [bchan]
                | node j =>
                  cases y with
                  | client => simp [bchan]
                  | node _ => simp [bchan]
                  | sup =>
                    by_cases e : j = n
                    · subst e; simp [bchan, hn]
                    · simp [bchan, e]
              · rw [Finset.disjoint_left]
                intro j hj hj'
                exact Finset.disjoint_left.1 b.disj hj (Finset.mem_of_mem_erase hj')
              · intro j
                rw [List.mem_append, b.coll, List.mem_singleton, Finset.mem_erase]
                by_cases e : j = n
                · subst e; simp [b.subR hn, hnotW _ hn]
                · simp [e]
              · exact List.nodup_append.2 ⟨b.nodup, List.nodup_singleton n, fun x hx y hy => by
                  rw [List.mem_singleton] at hy
                  subst hy
                  exact fun e => hnL (e ▸ hx)⟩
              · exact ⟨b.client.todo, b.client.waiting, b.client.sent, b.client.inbox⟩
            · have hlast' : L.length + 1 = T.card := by omega
              obtain ⟨u', ans, hu', hF, hnx, hans⟩ := hend L n _ b.sup (b.subR hn) hnL b.nodup hLT hlast'
              have hW0 : W = ∅ := by
                have hRpos : 0 < R.card := Finset.card_pos.2 ⟨n, hn⟩
                have : W.card = 0 := by omega
                exact Finset.card_eq_zero.1 this
              have hR0 : R = {n} := by
                have hRpos : 0 < R.card := Finset.card_pos.2 ⟨n, hn⟩
                have : R.card = 1 := by omega
                obtain ⟨j, hj⟩ := Finset.card_eq_one.1 this
                rw [hj, Finset.mem_singleton] at hn
                rw [hj, hn]
              have e : chandle cfg env spawn c (.node n) .sup (rep n) = some { c with
                  sup := u'
                  chan := pushAll (pop c.chan (.node n) .sup) .sup [(.client, ans)] } := by
                simp only [chandle, hu', Option.map_some]
                congr 1
              refine ⟨_, e, ?_⟩
              refine hQ _ ans hF ?_ ?_ ⟨b.client.todo, b.client.waiting, b.client.sent, b.client.inbox⟩
              · intro j hj
                exact b.doneN j hj (by simp [hW0])
              · have : pop c.chan (.node n) .sup = empty := by
                  funext x y
                  simp only [pop, b.chan, hW0, hR0, empty]
                  cases x with
                  | client => cases y <;> simp [bchan]
                  | sup => cases y <;> simp [bchan]
                  | node j =>
                    cases y with
                    | client => simp [bchan]
                    | node _ => simp [bchan]
                    | sup =>
                      by_cases e : j = n
                      · subst e; simp [bchan]
                      · simp [bchan, e]
                simp only [this, pushAll_one]
          · cases hm
  refine .step ?_ (okSrc_bchan b.chan b.next (fun n hn => hT n (b.subW hn)) hRok) ?_ ?_
  · by_cases hW : W = ∅
    · have : 0 < R.card := by rw [hW, Finset.card_empty] at hcard; omega
      obtain ⟨n, hn⟩ := Finset.card_pos.1 this
      exact ⟨_, .deliver (.node n) .sup (rep n) [] (by rw [b.chan]; simp [bchan, hn])⟩
    · obtain ⟨n, hn⟩ := Finset.nonempty_iff_ne_empty.2 hW
      exact ⟨_, .deliver .sup (.node n) (req n) [] (by rw [b.chan]; simp [bchan, hn])⟩
  · intro r hr
    obtain ⟨c', e, _⟩ := key r hr
    exact ⟨c', e⟩
  · intro t ht
    obtain ⟨c', e, h⟩ := key _ ht
    cases e
    exact h

end

end Evogil.Dist
