import Verif.Props.DistHgs
import Verif.Props.Hgs

/-!
# What one step of the distributed HGS does to the nodes
-/

set_option linter.unusedSectionVars false

namespace Evogil.Dist

variable {D K : Type*} [Field K] [LinearOrder K]
variable {cfg : Hgs.Conf D K} {env : ℕ → ℕ → Hgs.Report D K} {spawn : ℕ → ℕ → ℕ → List D}

/-! ## Between calls -/

theorem Good.call (hm : cfg.maxLevel ≤ 2) (henv : ∀ n k, (env n k).costs ≠ []) {σ σ' : PState D K}
    (g : Good cfg σ) {call : Call} {sent : ℕ} {as : List (Msg D K)}
    (R : Run cfg env spawn σ sent call.requests as σ') : Good cfg σ' := by
  cases call with
  | step =>
    obtain ⟨σ₁, σ₂, σ₃, T, p⟩ := phases (cfg := cfg) (env := env) (spawn := spawn) hm henv g
    have R' : Run cfg env spawn σ sent stepRequests _ σ₃ :=
      .cons (.metaepoch p.metaepoch) (.cons (.trim _) (.cons (.redundant _)
        (.cons (.release p.release) (.cons (.revive p.revive) (.nil _ _)))))
    obtain ⟨rfl, _⟩ := C41_order R R'
    exact p.good'
  | finalizedPopulation =>
    cases R with
    | cons h t =>
      cases t
      cases h
      exact g.bump (by simp)
  | status lvl =>
    cases R with
    | cons h t =>
      cases t
      cases h
      refine g.bump ?_
      cases lvl with
      | none => simp [asked]
      | some l =>
        intro n hn
        simp only [asked] at hn
        split at hn
        · rename_i hl
          obtain ⟨ids, hids⟩ : ∃ ids, σ.st.levels[l]? = some ids := ⟨_, g.tree.level_list (by omega)⟩
          rw [List.getD, hids, Option.getD_some] at hn
          obtain ⟨a, ha, _⟩ := (g.tree.mem_level (by omega) hids).1 hn
          exact (List.getElem?_eq_some_iff.1 ha).1
        · cases hn

theorem Run.split : ∀ (rs : List (Req D)) {rs' : List (Req D)} {σ σ' : PState D K} {sent : ℕ}
    {as : List (Msg D K)}, Run cfg env spawn σ sent (rs ++ rs') as σ' →
    ∃ as₁ as₂ σ₁, as = as₁ ++ as₂ ∧ Run cfg env spawn σ sent rs as₁ σ₁ ∧
      Run cfg env spawn σ₁ (sent + rs.length) rs' as₂ σ'
  | [], _, σ, _, _, as, R => ⟨[], as, σ, rfl, .nil _ _, R⟩
  | r :: rs, rs', σ, σ', sent, _, R => by
    cases R with
    | cons h t =>
      obtain ⟨as₁, as₂, σ₁, rfl, h1, h2⟩ := Run.split rs t
      refine ⟨_, _, σ₁, rfl, .cons h h1, ?_⟩
      rw [List.length_cons, ← Nat.add_assoc, Nat.add_right_comm]
      exact h2

theorem Good.run (hm : cfg.maxLevel ≤ 2) (henv : ∀ n k, (env n k).costs ≠ []) :
    ∀ (calls : List Call) {σ σ' : PState D K}, Good cfg σ → ∀ {sent : ℕ} {as : List (Msg D K)},
      Run cfg env spawn σ sent (calls.flatMap Call.requests) as σ' → Good cfg σ'
  | [], σ, _, g, _, _, R => by cases R; exact g
  | call :: calls, σ, σ', g, sent, as, R => by
    rw [List.flatMap_cons] at R
    obtain ⟨as₁, as₂, σ₁, _, h1, h2⟩ := R.split
    exact Good.run hm henv calls (g.call hm henv h1) h2

/-! ## The metaepoch and the sequential HGS -/

theorem nodeMetaepoch_rounded (r : Hgs.Report D K) (a : Hgs.Node D K) :
    (nodeMetaepoch cfg.fl r a).1 = (Rounded.Hgs.runNode cfg.fl cfg r a).1 := by
  simp only [nodeMetaepoch, Rounded.Hgs.runNode]
  split
  · simp only
    congr 2
    rw [Hgs.costLoop_last]
    cases h : r.costs with
    | nil => rfl
    | cons x xs => rw [List.getLast_cons (by simp), List.getLast?_eq_getLast_of_ne_nil (by simp)]; rfl
  · rfl

/-- Without rounding a node does what the sequential HGS would do. -/
theorem nodeMetaepoch_classic (hfl : cfg.fl = id) (r : Hgs.Report D K) (a : Hgs.Node D K) :
    (nodeMetaepoch cfg.fl r a).1 = (Hgs.runNode cfg r a).1 := by
  rw [nodeMetaepoch_rounded, hfl]
  simp only [Rounded.Hgs.runNode, Hgs.runNode]
  split <;> rfl

/-- Level and cost are those of the sequential HGS also with rounding. -/
theorem nodeMetaepoch_cost (r : Hgs.Report D K) (a : Hgs.Node D K) :
    (Hgs.runNode cfg r a).1.level = (nodeMetaepoch cfg.fl r a).1.level ∧
      (Hgs.runNode cfg r a).1.cost = (nodeMetaepoch cfg.fl r a).1.cost := by
  rw [nodeMetaepoch_rounded]
  simp only [Rounded.Hgs.runNode, Hgs.runNode]
  split
  · cases h : a.rel <;> simp [Rounded.Hgs.afterMetaepoch, Hgs.afterMetaepoch, h]
  · exact ⟨rfl, rfl⟩

theorem runMetaepoch_tree (hm : cfg.maxLevel ≤ 2) {st : Hgs.State D K} (t : Hgs.Tree cfg.maxLevel st)
    (env : ℕ → Hgs.Report D K) : ∃ st', Hgs.runMetaepoch cfg env st = some st' ∧
      (∀ (j : ℕ) (n : Hgs.Node D K), st.nodes[j]? = some n →
        st'.nodes[j]? = some (Hgs.runNode cfg (env j) n).1) ∧ Hgs.SameTree st st' ∧
      st'.cost - Hgs.weighted cfg st' = st.cost - Hgs.weighted cfg st := by
  obtain ⟨l2, h2⟩ : ∃ ids, st.levels[2]? = some ids := ⟨_, t.level_list (by omega)⟩
  obtain ⟨l1, h1⟩ : ∃ ids, st.levels[1]? = some ids := ⟨_, t.level_list (by omega)⟩
  obtain ⟨l0, h0⟩ : ∃ ids, st.levels[0]? = some ids := ⟨_, t.level_list (by omega)⟩
  have hlt : ∀ {l : ℕ} {ids : List ℕ}, l ≤ 2 → st.levels[l]? = some ids → ∀ i ∈ ids,
      i < st.nodes.length := fun hl h i hi => by
    obtain ⟨n, hn, _⟩ := (t.mem_level hl h).1 hi
    exact (List.getElem?_eq_some_iff.1 hn).1
  obtain ⟨st', hs⟩ := Hgs.runNodes_some cfg env (l2 ++ l1 ++ l0) st (by
    intro i hi
    rw [List.mem_append, List.mem_append] at hi
    rcases hi with (hi | hi) | hi
    · exact hlt (by omega) h2 i hi
    · exact hlt (by omega) h1 i hi
    · exact hlt (by omega) h0 i hi)
  have e : Hgs.runMetaepoch cfg env st = some st' := by simp only [Hgs.runMetaepoch, h2, h1, h0, hs]
  obtain ⟨hT, hc⟩ := Hgs.runNodes_spec cfg env _ _ _ hs
  exact ⟨st', e, fun j n hn => Hgs.runMetaepoch_get_tree t env hm e hn, hT, hc⟩

/-! ## Sprouts -/

/-- The supervisor knows the nodes of the level below. -/
def Known (cfg : Hgs.Conf D K) (st : Hgs.State D K) (lvl : ℕ) (next : List (NState D)) : Prop :=
  ∀ m ∈ st.nodes, m.level = lvl + 1 → m.pop ≠ [] →
    ∃ s ∈ next, 0 < s.popLen ∧ s.center = some (cfg.mean m.pop)

theorem redundantDelegate_false {lvl : ℕ} {d : D} {next : List (NState D)}
    (h : redundantDelegate cfg lvl d next = false) {s : NState D} (hs : s ∈ next) (hp : 0 < s.popLen) {c : D}
    (hc : s.center = some c) : cfg.near lvl d c = false := by
  simp only [redundantDelegate, List.any_eq_false] at h
  have := h s hs
  simpa [hp, hc] using this

theorem redundantDelegate_mono {lvl : ℕ} {d : D} {next more : List (NState D)}
    (h : redundantDelegate cfg lvl d (next ++ more) = false) : redundantDelegate cfg lvl d next = false := by
  simp only [redundantDelegate, List.any_append, Bool.or_eq_false_iff] at h ⊢
  exact h.1

/-- The state of a sprout that starts with a population. -/
theorem sproutState {ad : Addr} {lvl : ℕ} {pop : List D} (h : pop ≠ []) :
    0 < (createNodeState cfg ad lvl true false pop).popLen ∧
      (createNodeState cfg ad lvl true false pop).center = some (cfg.mean pop) := by
  cases pop with
  | nil => exact absurd rfl h
  | cons x xs => simp [createNodeState]

theorem sproutLoop_spec {i k lvl alive : ℕ} (dl : List D) : ∀ (ds : List D) (idx released : ℕ)
    (next created : List (NState D)) (st : Hgs.State D K), dl.drop idx = ds → i < st.nodes.length →
    ∃ idxs : List ℕ,
      (nodeAt (sproutLoop cfg spawn i k lvl alive ds idx released next created st).1 i).sprouts =
        (nodeAt st i).sprouts ++ List.range' st.nodes.length idxs.length ∧
      (sproutLoop cfg spawn i k lvl alive ds idx released next created st).2 =
        created ++ idxs.map (fun j => createNodeState cfg (.node i) (lvl + 1) true false (spawn i k j)) ∧
      (idxs = [] ∨ released + idxs.length ≤ cfg.sproutiveness) ∧ idxs.Pairwise (· < ·) ∧
      (∀ j ∈ idxs, idx ≤ j ∧ ∃ d, dl[j]? = some d ∧ redundantDelegate cfg (lvl + 1) d next = false) ∧
      idxs.Pairwise fun b c => ∀ d, dl[c]? = some d → spawn i k b ≠ [] →
        cfg.near (lvl + 1) d (cfg.mean (spawn i k b)) = false
  | [], idx, released, next, created, st, _, _ => ⟨[], by simp [sproutLoop]⟩
  | d :: ds, idx, released, next, created, st, hd, hi => by
    have hget : dl[idx]? = some d := by
      have := congrArg (fun l => l[0]?) hd
      simpa using this
    have hdrop : dl.drop (idx + 1) = ds := by
      have := congrArg List.tail hd
      simpa [List.tail_drop] using this
    simp only [sproutLoop]
    split
    · exact ⟨[], by simp⟩
    · rename_i hlim
      split
      · obtain ⟨idxs, h1, h2, h3, h4, h5, h6⟩ := sproutLoop_spec (i := i) (k := k) (lvl := lvl)
          (alive := alive) dl ds (idx + 1) released next created st hdrop hi
        exact ⟨idxs, h1, h2, h3, h4, fun j hj => ⟨by have := (h5 j hj).1; omega, (h5 j hj).2⟩, h6⟩
      · rename_i hred
        obtain ⟨idxs, h1, h2, h3, h4, h5, h6⟩ := sproutLoop_spec (i := i) (k := k) (lvl := lvl)
          (alive := alive) dl ds (idx + 1) (released + 1)
          (next ++ [createNodeState cfg (.node i) (lvl + 1) true false (spawn i k idx)])
          (created ++ [createNodeState cfg (.node i) (lvl + 1) true false (spawn i k idx)])
          (addSprout st i lvl) hdrop (by rw [addSprout_length]; omega)
        push Not at hlim
        refine ⟨idx :: idxs, ?_, ?_, ?_, ?_, ?_, ?_⟩
        · rw [h1, addSprout_length]
          have : (nodeAt (addSprout st i lvl) i).sprouts = (nodeAt st i).sprouts ++ [st.nodes.length] := by
            rw [nodeAt_mk (a := { nodeAt st i with
              sprouts := (nodeAt st i).sprouts ++ [st.nodes.length] }) rfl]
            rw [addSprout, List.getElem?_append_left (by simpa using hi), List.getElem?_modify_eq,
              nodeAt_get hi]
            rfl
          rw [this, List.length_cons, List.range'_succ, List.append_assoc]
          rfl
        · rw [h2, List.map_cons, List.append_assoc]
          rfl
        · right
          rw [List.length_cons]
          rcases h3 with rfl | h3
          · simp; omega
          · omega
        · refine List.pairwise_cons.2 ⟨fun j hj => ?_, h4⟩
          have := (h5 j hj).1
          omega
        · intro j hj
          rcases List.mem_cons.1 hj with rfl | hj
          · exact ⟨le_rfl, d, hget, by simpa using hred⟩
          · obtain ⟨a, d', b, c⟩ := h5 j hj
            exact ⟨by omega, d', b, redundantDelegate_mono c⟩
        · refine List.pairwise_cons.2 ⟨fun j hj d' hd' hp => ?_, h6⟩
          obtain ⟨_, d'', b, c⟩ := h5 j hj
          rw [hd', Option.some.injEq] at b
          subst b
          obtain ⟨s1, s2⟩ := sproutState (cfg := cfg) (ad := .node i) (lvl := lvl + 1) hp
          exact redundantDelegate_false c (List.mem_append_right _ (List.mem_singleton.2 rfl)) s1 s2

/-- `livingSprouts` looks only at the sprouts and their flags. -/
theorem livingSprouts_at {st : Hgs.State D K} {i : ℕ} {a : Hgs.Node D K} (h : st.nodes[i]? = some a) :
    Hgs.livingSprouts st i =
      (a.sprouts.filter fun j => ((st.nodes[j]?).map Hgs.Node.alive).getD false).length := by
  simp only [Hgs.livingSprouts, h, Option.map_some, Option.getD_some]
  rfl

theorem alive_at {st : Hgs.State D K} {j : ℕ} (hj : j < st.nodes.length) :
    ((st.nodes[j]?).map Hgs.Node.alive).getD false = (nodeAt st j).alive := by
  rw [nodeAt_get hj]; rfl

theorem bare_alive {a b : Hgs.Node D K} (h : bare a = bare b) : a.alive = b.alive := by
  have := congrArg Hgs.Node.alive h
  exact this

theorem releaseLevels_same : ∀ (lvl : ℕ) (next : List (NState D)) (σ : PState D K), Ready cfg lvl σ →
    ∀ {σ' : PState D K}, releaseLevels cfg spawn lvl next σ = some σ' →
    ∀ j < σ.st.nodes.length, j ∉ order σ.st.levels lvl → nodeAt σ'.st j = nodeAt σ.st j
  | 0, next, σ, r, σ', h, j, hj, hno => by
    obtain ⟨ns, h1, h2, h3, h4⟩ := r 0 le_rfl
    obtain ⟨σ₁, e, T⟩ := releaseNodes_some (cfg := cfg) (spawn := spawn) ns [] next σ h3 h4
    rw [releaseLevels] at h
    simp only [h1, Option.bind_some, e, Option.some.injEq] at h
    subst h
    simp only [order, List.getD, h1, Option.getD_some] at hno
    exact T.grow.same j hj hno
  | l + 1, next, σ, r, σ', h, j, hj, hno => by
    obtain ⟨ns, h1, h2, h3, h4⟩ := r (l + 1) le_rfl
    obtain ⟨σ₁, e, T⟩ := releaseNodes_some (cfg := cfg) (spawn := spawn) ns [] next σ h3 h4
    rw [releaseLevels] at h
    simp only [h1, Option.bind_some, e] at h
    have ho : order σ₁.st.levels l = order σ.st.levels l :=
      order_congr l (fun k hk => T.grow.levels k (by omega))
    simp only [order, List.getD, h1, Option.getD_some, List.mem_append, not_or] at hno
    rw [releaseLevels_same l _ σ₁ (r.next h1 T) h j (lt_of_lt_of_le hj T.grow.len) (by rw [ho]; exact hno.2),
      T.grow.same j hj hno.1]

theorem releaseLevels_new : ∀ (lvl : ℕ) (next : List (NState D)) (σ : PState D K), Ready cfg lvl σ →
    ∀ {σ' : PState D K}, releaseLevels cfg spawn lvl next σ = some σ' →
    ∀ j, σ.st.nodes.length ≤ j → j < σ'.st.nodes.length → (nodeAt σ'.st j).sprouts = []
  | 0, next, σ, r, σ', h, j, h1j, h2j => by
    obtain ⟨ns, h1, h2, h3, h4⟩ := r 0 le_rfl
    obtain ⟨σ₁, e, T⟩ := releaseNodes_some (cfg := cfg) (spawn := spawn) ns [] next σ h3 h4
    rw [releaseLevels] at h
    simp only [h1, Option.bind_some, e, Option.some.injEq] at h
    subst h
    rw [T.grow.new j h1j h2j]
    rfl
  | l + 1, next, σ, r, σ', h, j, h1j, h2j => by
    obtain ⟨ns, h1, h2, h3, h4⟩ := r (l + 1) le_rfl
    obtain ⟨σ₁, e, T⟩ := releaseNodes_some (cfg := cfg) (spawn := spawn) ns [] next σ h3 h4
    rw [releaseLevels] at h
    simp only [h1, Option.bind_some, e] at h
    have r1 := r.next h1 T
    by_cases hj : j < σ₁.st.nodes.length
    · have hnew := T.grow.new j h1j hj
      rw [releaseLevels_same l _ σ₁ r1 h j hj, hnew]
      · rfl
      · intro hmem
        have := (order_lt l r1 j hmem).2
        rw [hnew] at this
        simp only [Hgs.newNode] at this
        omega
    · exact releaseLevels_new l _ σ₁ r1 h j (by omega) h2j

/-- What a turn gives to the node, in terms of the tree `ρ` before the phase. -/
theorem turn_sprouted {ρ : Hgs.State D K} {i : ℕ} {next : List (NState D)} {σ : PState D K}
    {r : PState D K × NState D × List (NState D)} (h : releaseTurn cfg spawn i next σ = some r)
    (hi : i < ρ.nodes.length) (hl : ρ.nodes.length ≤ σ.st.nodes.length)
    (hs : nodeAt σ.st i = nodeAt ρ i) (hsp : ∀ j ∈ (nodeAt ρ i).sprouts, j < ρ.nodes.length)
    (hal : ∀ j < ρ.nodes.length, (nodeAt σ.st j).alive = (nodeAt ρ j).alive)
    (hk : (nodeAt ρ i).level < cfg.maxLevel → Known cfg ρ (nodeAt ρ i).level next) :
    ∃ new, (nodeAt r.1.st i).sprouts = (nodeAt ρ i).sprouts ++ new ∧
      Sprouted cfg spawn ρ i (nodeAt ρ i) new := by
  have hi' : i < σ.st.nodes.length := lt_of_lt_of_le hi hl
  have hget := nodeAt_get hi'
  simp only [releaseTurn, hget, Option.some.injEq] at h
  subst h
  simp only
  have hliv : Hgs.livingSprouts σ.st i = ((nodeAt ρ i).sprouts.filter fun j =>
      ((ρ.nodes[j]?).map Hgs.Node.alive).getD false).length := by
    rw [livingSprouts_at hget, hs]
    congr 1
    apply List.filter_congr
    intro j hj
    have := hsp j hj
    rw [alive_at (by omega), alive_at this, hal j this]
  split
  · rename_i hc
    obtain ⟨idxs, h1, h2, h3, h4, h5, h6⟩ := sproutLoop_spec (cfg := cfg) (spawn := spawn) (i := i)
      (k := σ.ctr i) (lvl := (nodeAt σ.st i).level) (alive := Hgs.livingSprouts σ.st i)
      (nodeAt σ.st i).delegates (nodeAt σ.st i).delegates 0 0 next [] σ.st rfl hi'
    rw [hs] at hc h5 h6
    refine ⟨_, by rw [h1, hs], ?_, ?_, σ.ctr i, idxs, by simp, h4, ?_, h6⟩
    · rw [List.length_range']
      rcases h3 with rfl | h3
      · simp
      · omega
    · intro _
      rw [← hliv]
      exact ⟨hc.1, hc.2.1, hc.2.2⟩
    · intro j hj
      obtain ⟨_, d, hd, hr⟩ := h5 j hj
      refine ⟨d, hd, fun m hm hml hmp => ?_⟩
      obtain ⟨s, s1, s2, s3⟩ := hk hc.2.1 m hm hml hmp
      exact redundantDelegate_false hr s1 s2 s3
  · exact ⟨[], by rw [hs]; simp, by simp, fun h => absurd rfl h, 0, [], rfl, by simp, by simp, by simp⟩

theorem releaseNodes_sprouted {ρ : Hgs.State D K} {lvl : ℕ} : ∀ (is : List ℕ) (cur next : List (NState D))
    (σ : PState D K), is.Nodup → (∀ i ∈ is, Pend cfg σ i ∧ (nodeAt ρ i).level = lvl ∧ i < ρ.nodes.length ∧
      nodeAt σ.st i = nodeAt ρ i ∧ ∀ j ∈ (nodeAt ρ i).sprouts, j < ρ.nodes.length) →
    ρ.nodes.length ≤ σ.st.nodes.length →
    (∀ j < ρ.nodes.length, (nodeAt σ.st j).alive = (nodeAt ρ j).alive) →
    (lvl < cfg.maxLevel → Known cfg ρ lvl next) →
    ∀ {σ' : PState D K} {out : List (NState D)}, releaseNodes cfg spawn is cur next σ = some (σ', out) →
    ∀ i ∈ is, ∃ new, (nodeAt σ'.st i).sprouts = (nodeAt ρ i).sprouts ++ new ∧
      Sprouted cfg spawn ρ i (nodeAt ρ i) new
  | [], _, _, _, _, _, _, _, _, _, _, _, _, hi => by cases hi
  | i :: is, cur, next, σ, hnd, hp, hl, hal, hk, σ', out, h, j, hj => by
    obtain ⟨p1, p2, p3, p4, p5⟩ := hp i (List.mem_cons_self ..)
    rw [List.nodup_cons] at hnd
    obtain ⟨σ₁, created, h1, t⟩ := releaseTurn_some (cfg := cfg) (spawn := spawn) (next := next) p1.lt
    have hne : ∀ j ∈ is, j ≠ i := fun j hj e => hnd.1 (e ▸ hj)
    have hsame : ∀ j ∈ is, nodeAt σ₁.st j = nodeAt σ.st j := fun j hj =>
      t.grow.same j (hp j (List.mem_cons_of_mem _ hj)).1.lt (by simpa using hne j hj)
    simp only [releaseNodes, h1, Option.bind_some] at h
    have hlvl : (nodeAt σ.st i).level = lvl := by rw [p4, p2]
    have hp' : ∀ j ∈ is, Pend cfg σ₁ j ∧ (nodeAt ρ j).level = lvl ∧ j < ρ.nodes.length ∧
        nodeAt σ₁.st j = nodeAt ρ j ∧ ∀ x ∈ (nodeAt ρ j).sprouts, x < ρ.nodes.length := by
      intro j hj
      obtain ⟨q1, q2, q3, q4, q5⟩ := hp j (List.mem_cons_of_mem _ hj)
      exact ⟨q1.turn t (hne j hj), q2, q3, by rw [hsame j hj, q4], q5⟩
    rcases List.mem_cons.1 hj with rfl | hj
    · obtain ⟨new, n1, n2⟩ := turn_sprouted h1 p3 hl p4 p5 hal (by rw [p2]; exact hk)
      refine ⟨new, ?_, n2⟩
      obtain ⟨σ'', e, T⟩ := releaseNodes_some (cfg := cfg) (spawn := spawn) (lvl := lvl) is
        (cur ++ [stateOf cfg (.node j) (nodeAt σ.st j)]) (next ++ created) σ₁ hnd.2
        (fun x hx => ⟨(hp' x hx).1, by rw [(hp' x hx).2.2.2.1, (hp' x hx).2.1]⟩)
      rw [e] at h
      simp only [Option.some.injEq, Prod.mk.injEq] at h
      rw [← h.1, T.grow.same j (lt_of_lt_of_le p1.lt t.grow.len) hnd.1]
      exact n1
    · refine releaseNodes_sprouted is _ _ σ₁ hnd.2 hp' (hl.trans t.grow.len) ?_ ?_ h j hj
      · intro x hx
        rw [← hal x hx]
        exact bare_alive (t.grow.keep x (by omega))
      · intro hlt m hm hml hmp
        obtain ⟨s, s1, s2⟩ := hk hlt m hm hml hmp
        exact ⟨s, List.mem_append_left _ s1, s2⟩

theorem releaseLevels_sprouted {ρ : Hgs.State D K} (hm : cfg.maxLevel ≤ 2)
    (t : Hgs.Tree cfg.maxLevel ρ) : ∀ (lvl : ℕ) (next : List (NState D)) (σ : PState D K), Ready cfg lvl σ →
    (∀ l ≤ lvl, σ.st.levels[l]? = ρ.levels[l]?) → ρ.nodes.length ≤ σ.st.nodes.length →
    (∀ j < ρ.nodes.length, bare (nodeAt σ.st j) = bare (nodeAt ρ j)) →
    (∀ j < ρ.nodes.length, (nodeAt ρ j).level ≤ lvl → nodeAt σ.st j = nodeAt ρ j) →
    (lvl < cfg.maxLevel → Known cfg ρ lvl next) → lvl ≤ cfg.maxLevel →
    ∀ {σ' : PState D K}, releaseLevels cfg spawn lvl next σ = some σ' →
    ∀ i < ρ.nodes.length, (nodeAt ρ i).level ≤ lvl → ∃ new,
      (nodeAt σ'.st i).sprouts = (nodeAt ρ i).sprouts ++ new ∧ Sprouted cfg spawn ρ i (nodeAt ρ i) new := by
  intro lvl
  induction lvl with
  | zero =>
    intro next σ r hlev hl hb hs hk _ σ' h i hi hil
    obtain ⟨ns, h1, h2, h3, h4⟩ := r 0 le_rfl
    rw [releaseLevels] at h
    simp only [h1, Option.bind_some] at h
    have hns : ρ.levels[0]? = some ns := by rw [← hlev 0 le_rfl, h1]
    have hp : ∀ i ∈ ns, Pend cfg σ i ∧ (nodeAt ρ i).level = 0 ∧ i < ρ.nodes.length ∧
        nodeAt σ.st i = nodeAt ρ i ∧ ∀ j ∈ (nodeAt ρ i).sprouts, j < ρ.nodes.length := by
      intro i hi
      obtain ⟨a, ha, hal⟩ := (t.mem_level (by omega) hns).1 hi
      have hlt := (List.getElem?_eq_some_iff.1 ha).1
      rw [nodeAt_get hlt, Option.some.injEq] at ha
      exact ⟨(h4 i hi).1, by rw [ha]; exact hal, hlt, hs i hlt (by rw [ha]; omega), (tree_sprouts t hlt).2.2⟩
    obtain ⟨⟨σ'', out⟩, e, e'⟩ := Option.bind_eq_some_iff.1 h
    simp only [Option.some.injEq] at e'
    subst e'
    refine releaseNodes_sprouted ns _ _ σ h3 hp hl (fun j hj => bare_alive (hb j hj)) hk e i ?_
    exact (t.mem_level (by omega) hns).2 ⟨_, nodeAt_get hi, by omega⟩
  | succ l ih =>
    intro next σ r hlev hl hb hs hk hlm σ' h i hi hil
    obtain ⟨ns, h1, h2, h3, h4⟩ := r (l + 1) le_rfl
    rw [releaseLevels] at h
    simp only [h1, Option.bind_some] at h
    have hns : ρ.levels[l + 1]? = some ns := by rw [← hlev (l + 1) le_rfl, h1]
    have hp : ∀ i ∈ ns, Pend cfg σ i ∧ (nodeAt ρ i).level = l + 1 ∧ i < ρ.nodes.length ∧
        nodeAt σ.st i = nodeAt ρ i ∧ ∀ j ∈ (nodeAt ρ i).sprouts, j < ρ.nodes.length := by
      intro i hi
      obtain ⟨a, ha, hal⟩ := (t.mem_level (by omega) hns).1 hi
      have hlt := (List.getElem?_eq_some_iff.1 ha).1
      rw [nodeAt_get hlt, Option.some.injEq] at ha
      exact ⟨(h4 i hi).1, by rw [ha]; exact hal, hlt, hs i hlt (by rw [ha]; omega), (tree_sprouts t hlt).2.2⟩
    obtain ⟨σ₁, e, T⟩ := releaseNodes_some (cfg := cfg) (spawn := spawn) ns [] next σ h3 h4
    have key := releaseNodes_sprouted ns _ _ σ h3 hp hl
      (fun j hj => bare_alive (hb j hj)) hk e
    rw [e, Option.bind_some] at h
    simp only at h
    have r1 := r.next h1 T
    have hnin : ∀ j < ρ.nodes.length, (nodeAt ρ j).level ≤ l → j ∉ ns := by
      intro j hj hjl hjn
      have := (hp j hjn).2.1
      omega
    by_cases hil' : (nodeAt ρ i).level ≤ l
    · refine ih _ σ₁ r1 ?_ (hl.trans T.grow.len) ?_ ?_ ?_ (by omega) h i hi hil'
      · intro k hk
        rw [T.grow.levels k (by omega), hlev k (by omega)]
      · intro j hj
        rw [T.grow.keep j (by omega), hb j hj]
      · intro j hj hjl
        rw [T.grow.same j (by omega) (hnin j hj hjl), hs j hj (by omega)]
      · intro _ m hmm hml hmp
        obtain ⟨j, hj⟩ := List.mem_iff_getElem?.1 hmm
        have hjl := (List.getElem?_eq_some_iff.1 hj).1
        have hjn : j ∈ ns := (t.mem_level (by omega) hns).2 ⟨m, hj, hml⟩
        rw [nodeAt_get hjl, Option.some.injEq] at hj
        refine ⟨stateOf cfg (.node j) (nodeAt σ.st j), ?_, ?_⟩
        · rw [List.nil_append, List.mem_map]
          exact ⟨j, hjn, rfl⟩
        · rw [(hp j hjn).2.2.2.1, hj]
          cases hq : m.pop with
          | nil => exact absurd hq hmp
          | cons x xs => simp [stateOf, createNodeState, hq]
    · have hin : i ∈ ns := (t.mem_level (by omega) hns).2 ⟨_, nodeAt_get hi, by omega⟩
      obtain ⟨new, n1, n2⟩ := key i hin
      refine ⟨new, ?_, n2⟩
      rw [releaseLevels_same l _ σ₁ r1 h i (by have := T.grow.len; omega), n1]
      intro hmem
      have := order_lt l r1 i hmem
      have hb' := congrArg Hgs.Node.level ((T.grow.keep i (by omega)).trans (hb i hi))
      simp only [bare] at hb'
      omega

theorem seqRelease_sprouted (hm : cfg.maxLevel ≤ 2) {σ σ' : PState D K} (t : Hgs.Tree cfg.maxLevel σ.st)
    (hc : ∀ n < σ.st.nodes.length, 0 < σ.ctr n) (h : seqRelease cfg spawn σ = some σ') :
    ∀ i < σ.st.nodes.length, ∃ new, (nodeAt σ'.st i).sprouts = (nodeAt σ.st i).sprouts ++ new ∧
      Sprouted cfg spawn σ.st i (nodeAt σ.st i) new := by
  obtain ⟨lvl, hl⟩ := tree_leaf hm t
  have r := tree_ready hm t hc hl
  obtain ⟨h1, _, h3⟩ := findLeaf_spec _ _ hl
  simp only [seqRelease, hl, Option.bind_some] at h
  -- there is no node below the level of the leaves
  have top : ∀ i < σ.st.nodes.length, (nodeAt σ.st i).level ≤ lvl := by
    intro i hi
    by_contra hlt
    have hd : (nodeAt σ.st i).level ≤ cfg.maxLevel := t.depth _ (List.mem_of_getElem? (nodeAt_get hi))
    obtain ⟨ids, hids⟩ : ∃ ids, σ.st.levels[(nodeAt σ.st i).level]? = some ids :=
      ⟨_, t.level_list (by omega)⟩
    have hmem := (t.mem_level (by omega) hids).2 ⟨_, nodeAt_get hi, rfl⟩
    rw [h3 _ (by omega) (by omega), Option.some.injEq] at hids
    subst hids
    cases hmem
  intro i hi
  refine releaseLevels_sprouted hm t lvl [] σ r (fun _ _ => rfl) le_rfl (fun _ _ => rfl) (fun _ _ _ => rfl)
    ?_ (by omega) h i hi (top i hi)
  intro _ m hmm hml
  obtain ⟨j, hj⟩ := List.mem_iff_getElem?.1 hmm
  have hjl := (List.getElem?_eq_some_iff.1 hj).1
  rw [nodeAt_get hjl, Option.some.injEq] at hj
  have := top j hjl
  rw [hj] at this
  omega

end Evogil.Dist
