import Verif.Lemmas.DistBcast
import Verif.Lemmas.HgsTree
import Mathlib.Data.List.MinMax

/-!
# The phases in which the supervisor asks all nodes
-/

set_option linter.unusedSectionVars false

namespace Evogil.Dist

variable {D K : Type*} [Field K] [LinearOrder K]

/-- The node with the given number. -/
def nodeAt (st : Hgs.State D K) (n : ℕ) : Hgs.Node D K := (st.nodes[n]?).getD (Hgs.newNode 0 none)

theorem nodeAt_get {st : Hgs.State D K} {n : ℕ} (h : n < st.nodes.length) :
    st.nodes[n]? = some (nodeAt st n) := by
  simp [nodeAt, List.getElem?_eq_getElem h]

theorem nodesOK_iff {σ : PState D K} {c : Sys D K} :
    NodesOK σ c ↔ ∀ n < σ.st.nodes.length, NodeOK n (nodeAt σ.st n) (σ.ctr n) (c.nodes n) := by
  constructor
  · intro h n hn
    exact h n _ (nodeAt_get hn)
  · intro h n a ha
    obtain ⟨hn, _⟩ := List.getElem?_eq_some_iff.1 ha
    have := h n hn
    rwa [nodeAt, ha] at this

theorem NodeOK.put {n : ℕ} {a a' : Hgs.Node D K} {k : ℕ} {x : NodeS D K} (h : NodeOK n a k x) (t : NTask D) :
    NodeOK n a' (k + 1) { putN n t x with mem := some a' } := by
  refine ⟨rfl, h.sup, by simp [putN, h.next], ?_⟩
  intro i hi
  by_cases e : i = (.node n, x.nextTask)
  · subst e; exact ⟨rfl, by simp [h.next]⟩
  · simp only [putN, Function.update_of_ne e] at hi
    exact ⟨(h.wf i hi).1, Nat.lt_succ_of_lt (h.wf i hi).2⟩

theorem NodeOK.put' {n : ℕ} {a : Hgs.Node D K} {k : ℕ} {x : NodeS D K} (h : NodeOK n a k x) (t : NTask D) :
    NodeOK n a (k + 1) (putN n t x) := by
  have := h.put (a' := a) t
  rw [← h.mem] at this
  exact this

section
variable {cfg : Hgs.Conf D K} {env : ℕ → ℕ → Hgs.Report D K} {spawn : ℕ → ℕ → ℕ → List D}

/-- A message whose id is not the id of a task of the node starts a new task. -/
theorem nodeReceive_sup {n : ℕ} {a : Hgs.Node D K} {k : ℕ} {x : NodeS D K} (h : NodeOK n a k x) {i : Id}
    (hi : i.1 ≠ .node n) {m : Msg D K} (hm : m.id? = some i) {from' : Addr} :
    nodeReceive cfg env spawn n x m from' =
      match m with
      | .done => none
      | .hello => some ({ x with supervisor := some from' }, [])
      | .reset level _ => some ({ x with mem := some (Hgs.newNode level none) }, [(from', .done)])
      | .req _ _ | .answer _ _ | .registerNode _ _ _ | .registerNodeEnd _ _ => some (x, [])
      | m => nodeRequest cfg env spawn n x m from' := by
  have : x.tasks i = none := by
    by_contra hne
    exact hi (h.wf i hne).1
  simp only [nodeReceive, hm, Option.bind_some, this, Option.map_none]
  cases m <;> rfl

theorem ev_answer {Q : Sys D K → Prop} {c : Sys D K} {ans : Msg D K} (hc : c.chan = only .sup .client ans)
    (hw : c.waiting = true)
    (h : EvC cfg env spawn Q { c with
      chan := empty
      waiting := false
      inbox := c.inbox ++ [ans] }) : EvC cfg env spawn Q c := by
  refine ev_single hc hw trivial trivial ?_ h
  simp only [chandle, handle, hc, pop_only]

/-- A request for which the supervisor asks the nodes in `T` and then answers. -/
theorem ev_phase {σ σ' σm : PState D K} {r : Req D} {rest : List (Req D)} {sent : ℕ} {inbox : List (Msg D K)}
    {c : Sys D K} (idle : Idle σ (r :: rest) sent inbox c) {T : List ℕ} {u₁ : Sup D K}
    {req rep : ℕ → Msg D K} {A : Msg D K → Prop} {task : List ℕ → STask D K}
    (hT : T.Nodup) (hT0 : T ≠ []) (hTN : ∀ n ∈ T, n < σ.st.nodes.length)
    (hlen : σ'.st.nodes.length = σ.st.nodes.length) (hlen' : σm.st.nodes.length = σ.st.nodes.length)
    (hr : supRequest cfg c.sup r (.client, sent) .client =
      some (putS (task []) u₁, T.map fun n => (.node n, req n)))
    (hu₁ : SupOK σm u₁) (hnext : u₁.nextTask = c.sup.nextTask)
    (hk : ∀ n ∈ T, σ'.ctr n = σ.ctr n + 1)
    (hsame : ∀ n < σ.st.nodes.length, n ∉ T → nodeAt σ'.st n = nodeAt σ.st n ∧ σ'.ctr n = σ.ctr n)
    (hnode : ∀ n ∈ T, ∀ x, NodeOK n (nodeAt σ.st n) (σ.ctr n) x →
      ∃ x', nodeReceive cfg env spawn n x (req n) .sup = some (x', [(.sup, rep n)]) ∧
        NodeOK n (nodeAt σ'.st n) (σ'.ctr n) x')
    (hrep : ∀ n u t, u.tasks (.sup, c.sup.nextTask) = some t →
      supReceive cfg u (rep n) (.node n) = supTask cfg u (.sup, c.sup.nextTask) t (rep n) (.node n))
    (hsup : ∀ L n u, SupOK σm u → n ∈ T → n ∉ L → L.Nodup → (∀ x ∈ L, x ∈ T) → L.length + 1 < T.length →
      supTask cfg u (.sup, c.sup.nextTask) (task L) (rep n) (.node n) =
        some (setS (.sup, c.sup.nextTask) (task (L ++ [n])) u, []))
    (hend : ∀ L n u, SupOK σm u → c.sup.nextTask < u.nextTask → n ∈ T → n ∉ L → L.Nodup → (∀ x ∈ L, x ∈ T) →
      L.length + 1 = T.length →
      ∃ u' ans, supTask cfg u (.sup, c.sup.nextTask) (task L) (rep n) (.node n) =
        some (u', [(.client, ans)]) ∧ SupOK σ' u' ∧ A ans ∧ ans ≠ .hello) :
    EvC cfg env spawn (fun c => ∃ ans, A ans ∧ Idle σ' rest (sent + 1) (inbox ++ [ans]) c) c := by
  have hTc : T.toFinset.card = T.length := List.toFinset_card_of_nodup hT
  apply ev_ask idle.chan idle.client.waiting idle.client.todo
  have hchan : (ask c r rest).chan = only .client .sup (.req r (.client, sent)) := by
    simp only [ask, idle.chan, push_empty, idle.client.sent]
  have hplain : plain (T.map fun n => (Addr.node n, req n)) := by
    intro o ho
    obtain ⟨n, hn, rfl⟩ := List.mem_map.1 ho
    obtain ⟨x', hx', _⟩ := hnode n hn (c.nodes n) (nodesOK_iff.1 idle.nodes n (hTN n hn))
    constructor
    · intro e
      simp only at e
      rw [e] at hx'
      simp [nodeReceive, Msg.id?] at hx'
    · intro l p e
      simp only at e
      rw [e] at hx'
      simp only [nodeReceive, Msg.id?, Option.bind_none, Option.some.injEq, Prod.mk.injEq,
        List.cons.injEq, and_true, true_and] at hx'
      have h1 := hx'.2
      have h2 := hrep n { (u₁ : Sup D K) with tasks := fun _ => some (task []) } (task []) rfl
      rw [← h1] at h2
      have h3 := hx'
      simp only [supReceive] at h2
      unfold supTask at h2
      cases task [] <;> simp at h2
  refine ev_single (c' := { ask c r rest with
      sup := putS (task []) u₁
      chan := bchan req rep T.toFinset ∅ }) hchan rfl trivial trivial ?_ ?_
  · have e : supReceive cfg (ask c r rest).sup (.req r (.client, sent)) .client =
        some (putS (task []) u₁, T.map fun n => (.node n, req n)) := hr
    simp only [chandle, e, Option.map_some, hchan, pop_only]
    rw [syncPost_plain hplain, pushAll_bcast rep hT]
  · refine ev_bcast (T := T.toFinset) (N := σ.st.nodes.length) (req := req) (rep := rep)
      (a := nodeAt σ.st) (a' := nodeAt σ'.st) (k := σ.ctr) (k' := σ'.ctr)
      (S := fun L u => SupOK σm u ∧ c.sup.nextTask < u.nextTask ∧
        u.tasks (.sup, c.sup.nextTask) = some (task L))
      (F := fun u ans => SupOK σ' u ∧ A ans ∧ ans ≠ .hello) (todo := rest) (sent := sent + 1) (inbox := inbox)
      ?_ ?_ ?_ ?_ ?_ ?_ _ T.toFinset ∅ [] _ rfl ?_ ?_
    · intro n hn; exact hTN n (List.mem_toFinset.1 hn)
    · intro n hn; exact hk n (List.mem_toFinset.1 hn)
    · intro n hn; exact hnode n (List.mem_toFinset.1 hn)
    · rintro L n u ⟨h1, h2, h3⟩ hn hnL hL hLT hlt
      refine ⟨_, (hrep n u _ h3).trans (hsup L n u h1 (List.mem_toFinset.1 hn) hnL hL
        (fun x hx => List.mem_toFinset.1 (hLT x hx)) (hTc ▸ hlt)), ⟨h1.set h2 _, h2, ?_⟩, rfl⟩
      simp [setS]
    · rintro L n u ⟨h1, h2, h3⟩ hn hnL hL hLT hlt
      obtain ⟨u', ans, h4, h5, h6, h7⟩ := hend L n u h1 h2 (List.mem_toFinset.1 hn) hnL hL
        (fun x hx => List.mem_toFinset.1 (hLT x hx)) (hTc ▸ hlt)
      refine ⟨u', ans, (hrep n u _ h3).trans h4, ⟨h5, h6, h7⟩, ?_, h7⟩
      rw [h5.next, h1.next, hlen, hlen']
    · rintro c' ans ⟨h1, h2, h3⟩ h4 h5 h6
      apply ev_answer h5 h6.waiting
      refine .done ⟨ans, h2, ⟨h1, ?_, rfl, h6.todo, rfl, h6.sent, ?_⟩⟩
      · rw [nodesOK_iff, hlen]
        exact h4
      · simp only [h6.inbox]
    · rw [hTc]
      exact List.length_pos_iff.2 hT0
    · refine ⟨rfl, ?_, subset_rfl, by simp, by simp, by simp, by simp, ?_, ?_, ⟨hu₁.put _, ?_, ?_⟩, ?_⟩
      · rw [(hu₁.put _).next, hlen']
      · intro n hn
        exact nodesOK_iff.1 idle.nodes n (hTN n (List.mem_toFinset.1 hn))
      · intro n hn hnT
        obtain ⟨e1, e2⟩ := hsame n hn (fun h => hnT (List.mem_toFinset.2 h))
        rw [e1, e2]
        exact nodesOK_iff.1 idle.nodes n hn
      · simp [putS, hnext]
      · simp [putS, hnext]
      · refine ⟨rfl, rfl, ?_, idle.client.inbox⟩
        simp [ask, idle.client.sent]

end

end Evogil.Dist
