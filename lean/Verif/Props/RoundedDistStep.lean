import Verif.Props.DistHgsStep
import Verif.Props.RoundedHgsTrim

/-!
# C86 in floating point: a distributed metaepoch does the work of a sequential one, digit for digit
-/

set_option linter.unusedSectionVars false

namespace Evogil.Dist

open Spec

variable {D K : Type*} [Field K] [LinearOrder K]
variable {cfg : Hgs.Conf D K} {env : ℕ → ℕ → Hgs.Report D K} {spawn : ℕ → ℕ → ℕ → List D}

/-- C86: for any rounding, a metaepoch leaves every node as the metaepoch of the sequential HGS with the same rounding does. -/
theorem C86_metaepoch_rounded (hm : cfg.maxLevel ≤ 2) (henv : ∀ n k, (env n k).costs ≠ []) {ratio : List K}
    (hr : cfg.maxLevel < ratio.length) {σ σ' : PState D K} (h : Reachable cfg env spawn ratio σ)
    {a : Answer D K} (hs : Served cfg env spawn σ .metaepoch a σ') :
    ∃ st, Rounded.Hgs.runMetaepoch cfg.fl cfg (fun n => env n (σ.ctr n)) σ.st = some st ∧ σ'.st.nodes = st.nodes ∧
      σ'.st.levels = st.levels := by
  have g := h.good hm henv hr
  obtain ⟨st, e, hget, hT, _⟩ := runMetaepoch_tree hm g.tree
    (Rounded.Hgs.exactEnv cfg.fl (fun n => env n (σ.ctr n)) σ.st)
  refine ⟨st, by rw [Rounded.Hgs.runMetaepoch_eq cfg.fl g.tree, e], ?_, ?_⟩
  · cases hs with
    | metaepoch hs =>
      simp only [seqMetaepoch, Option.map_eq_some_iff] at hs
      obtain ⟨top, _, rfl⟩ := hs
      apply List.ext_getElem?
      intro i
      simp only [List.getElem?_map, List.getElem?_mapIdx]
      by_cases hi : i < σ.st.nodes.length
      · rw [hget i _ (nodeAt_get hi), nodeAt_get hi]
        simp only [Option.map_some, nodeMetaepoch_rounded (cfg := cfg), Rounded.Hgs.runNode_eq, Rounded.Hgs.exactEnv,
          nodeAt_get hi]
      · have := hT.length
        rw [List.getElem?_eq_none (by omega), List.getElem?_eq_none (by omega)]
        rfl
  · cases hs with
    | metaepoch hs =>
      simp only [seqMetaepoch, Option.map_eq_some_iff] at hs
      obtain ⟨top, _, rfl⟩ := hs
      exact hT.1.symm

/-- C86: for any rounding, the second request stops exactly those nodes as not progressing which the sequential HGS with the
same rounding stops. -/
theorem C86_trim_rounded (hm : cfg.maxLevel ≤ 2) (henv : ∀ n k, (env n k).costs ≠ []) {ratio : List K}
    (hr : cfg.maxLevel < ratio.length) {σ σ₁ σ₂ : PState D K} (h : Reachable cfg env spawn ratio σ) {sent : ℕ}
    {as : List (Msg D K)} (R : Run cfg env spawn σ sent [.metaepoch] as σ₁) {a : Answer D K}
    (hs : Served cfg env spawn σ₁ .trimNotProgressing a σ₂) {l : ℕ} {ids : List ℕ}
    (hids : σ₁.st.levels[l]? = some ids) :
    ∃ st, Rounded.Hgs.trimNotProgressing cfg.fl cfg σ₁.ratio ids σ₁.st = some st ∧
      ∀ i ∈ ids, σ₂.st.nodes[i]? = st.nodes[i]? := by
  have g := h.good hm henv hr
  obtain ⟨σ₁', e1, k1⟩ := seqMetaepoch_some (cfg := cfg) henv g.living
  obtain ⟨rfl, _⟩ := C41_order R (.cons (.metaepoch e1) (.nil _ _))
  have t1 := g.tree.of_same k1.same
  have hl : l ≤ 2 := by
    have := (List.getElem?_eq_some_iff.1 hids).1
    rw [t1.levels] at this
    simp at this
    omega
  have hlev : ∀ n ∈ σ₁.st.nodes, n.level < σ₁.ratio.length := by
    intro n hn
    rw [k1.ratio]
    exact lt_of_le_of_lt (t1.depth n hn) g.ratio
  obtain ⟨st, hst⟩ := Rounded.Hgs.trimNotProgressing_some cfg.fl cfg σ₁.ratio ids σ₁.st (fun i hi => by
    obtain ⟨n, hn, _⟩ := (t1.mem_level hl hids).1 hi
    exact (List.getElem?_eq_some_iff.1 hn).1) hlev
  refine ⟨st, hst, fun i hi => ?_⟩
  obtain ⟨n, hn, _⟩ := (t1.mem_level hl hids).1 hi
  have hq := List.getElem?_eq_getElem (hlev n (List.mem_of_getElem? hn))
  have hstale : Rounded.Hgs.notProgressing cfg.fl cfg σ₁.ratio n = some (stale cfg (σ₁.ratio.getD n.level 0) n) := by
    simp only [Rounded.Hgs.notProgressing, stale, List.getD, hq, Option.getD_some]
    cases n.oldHv with
    | none => rfl
    | some o =>
      simp only
      split
      · cases n.hv <;> rfl
      · rfl
  have h2 : σ₂.st.nodes[i]? = some (nodeTrim cfg (σ₁.ratio.getD n.level 0) n) := by
    cases hs
    simp [seqTrim, hn]
  rw [h2]
  rcases Rounded.Hgs.trimNotProgressing_get cfg.fl cfg σ₁.ratio ids σ₁.st st (t1.nodup_level hl hids) hst i hi n hn with
    ⟨x1, x2, x3⟩ | ⟨x1, x2⟩
  · rw [hstale, Option.some.injEq] at x2
    rw [x3]
    simp only [nodeTrim, x1, x2, Bool.and_self, if_true]
  · rw [hstale, Option.some.injEq] at x1
    rw [x2]
    have : (n.alive && stale cfg (σ₁.ratio.getD n.level 0) n) = false := by
      by_contra hne
      rw [Bool.not_eq_false, Bool.and_eq_true] at hne
      exact x1 hne
    simp only [nodeTrim, this, Bool.false_eq_true, if_false]

section
variable {K : Type*} [Field K] [LinearOrder K] [IsStrictOrderedRing K] [FloorRing K]
variable {cfg : Hgs.Conf D K} {env : ℕ → ℕ → Hgs.Report D K} {spawn : ℕ → ℕ → ℕ → List D}

open Binary64 Rounded Rounded.Hgs

/-- C146: also in the distributed HGS a living node of a level with a positive limit is stopped by the second request if its
hypervolume has not grown. -/
theorem C146_distributed_partial (hfl : cfg.fl = round64) (heps : cfg.eps = epsilon) {σ σ' : PState D K} {a : Answer D K}
    (hs : Served cfg env spawn σ .trimNotProgressing a σ') {i : ℕ} {n : Hgs.Node D K} (hn : σ.st.nodes[i]? = some n)
    (ha : n.alive = true) {o v q : K} (ho : n.oldHv = some o) (hv : n.hv = some v) (hf : round64 o = o) (h0 : 0 < o)
    (hle : v ≤ o) (hq : σ.ratio[n.level]? = some q) (hlim : 0 < round64 (q / 2 ^ n.level)) :
    ∃ n', σ'.st.nodes[i]? = some n' ∧ n'.alive = false ∧ n'.ripe = true := by
  refine ⟨nodeTrim cfg q n, ?_, ?_⟩
  · cases hs
    simp [seqTrim, hn, hq]
  · have : stale cfg q n = true := by
      simp only [stale, ho, hv, h0, if_true, hfl, heps]
      exact C146_positive_partial n.level hf h0 hle hlim
    simp [nodeTrim, ha, this]

/-- C146 is violated in the distributed HGS as well: with the shipped limit 0.0 a root whose hypervolume is 4 or more and has
not grown is not stopped by the second request. -/
theorem C146_distributed_violated (hfl : cfg.fl = round64) (heps : cfg.eps = epsilon) {σ σ' : PState D K} {a : Answer D K}
    (hs : Served cfg env spawn σ .trimNotProgressing a σ') {i : ℕ} {n : Hgs.Node D K} (hn : σ.st.nodes[i]? = some n)
    (hl : n.level = 0) {o : K} (ho : n.oldHv = some o) (hv : n.hv = some o) (hf : round64 o = o) (h4 : 4 ≤ o)
    (hq : σ.ratio[0]? = some 0) : σ'.st.nodes[i]? = some n := by
  have h0 : 0 < o := by linarith
  have : stale cfg 0 n = false := by
    simp only [stale, ho, hv, h0, if_true, hfl, heps, hl]
    exact (C146_root_violated hf h4).1
  cases hs
  simp [seqTrim, hn, hl, hq, nodeTrim, this]

/-- Only the root, alive, and what it remembers of its hypervolumes; `hv k` is what its driver reports to its task `k`. -/
def RootOnly (hv : ℕ → K) (ratio : List K) (σ : PState D K) : Prop :=
  ∃ n : Hgs.Node D K, σ.st.nodes = [n] ∧ σ.st.levels = [[0], [], []] ∧ σ.ratio = ratio ∧ n.level = 0 ∧ n.alive = true ∧
    n.ripe = false ∧ (n.hv ≠ none → n.rel ≠ none) ∧ ∀ v, n.rel = some v → ∃ j < σ.ctr 0, v = hv j ∧
      ∀ h, n.hv = some h → ∃ i, j ≤ i ∧ i < σ.ctr 0 ∧ h = round64 (hv i - hv j)

theorem RootOnly.ctr {hv : ℕ → K} {ratio : List K} {σ σ' : PState D K} (h : RootOnly hv ratio σ) (h1 : σ'.st = σ.st)
    (h2 : σ'.ratio = σ.ratio) (h3 : σ.ctr 0 ≤ σ'.ctr 0) : RootOnly hv ratio σ' := by
  obtain ⟨n, e1, e2, e3, e4, e5, e6, e7, e8⟩ := h
  refine ⟨n, h1 ▸ e1, h1 ▸ e2, h2 ▸ e3, e4, e5, e6, e7, fun v hv => ?_⟩
  obtain ⟨j, hj, rfl, hh⟩ := e8 v hv
  refine ⟨j, by omega, rfl, fun h hh' => ?_⟩
  obtain ⟨i, h4, h5, h6⟩ := hh h hh'
  exact ⟨i, h4, by omega, h6⟩

/-- After a metaepoch the hypervolume before it is 0 or at least 4, and has not fallen. -/
theorem RootOnly.metaepoch (hfl : cfg.fl = round64) {hv : ℕ → K} (hhv : ∀ k, (env 0 k).hv = hv k)
    (hbig : ∀ i j, i ≤ j → hv j = hv i ∨ hv i + 4 ≤ hv j) {ratio : List K} {σ σ' : PState D K} (h : RootOnly hv ratio σ)
    (hs : seqMetaepoch cfg env σ = some σ') :
    RootOnly hv ratio σ' ∧ σ'.states = [] ∧ ∀ n ∈ σ'.st.nodes, ∀ o, n.oldHv = some o → 0 < o →
      4 ≤ o ∧ round64 o = o ∧ ∃ h, n.hv = some h ∧ round64 h = h ∧ o ≤ h := by
  have zero : round64 (0 : K) = 0 := fl_zero round64_isRounding
  have four : round64 (4 : K) = 4 := round64_float ⟨4, 0, by norm_num, by norm_num, by norm_num⟩
  obtain ⟨n, e1, e2, e3, e4, e5, e6, e7, e8⟩ := h
  simp only [seqMetaepoch, Option.map_eq_some_iff] at hs
  obtain ⟨top, -, rfl⟩ := hs
  have hmono : ∀ i j, i ≤ j → hv i ≤ hv j := fun i j hij => by rcases hbig i j hij with h | h <;> linarith
  have hctr : bump (List.range σ.st.nodes.length) σ.ctr 0 = σ.ctr 0 + 1 := by simp [bump, e1]
  cases hrel : n.rel with
  | none =>
    have hhvn : n.hv = none := by
      by_contra hne
      exact e7 hne hrel
    refine ⟨⟨(nodeMetaepoch cfg.fl (env 0 (σ.ctr 0)) n).1, by
        simp only [e1, List.mapIdx_cons, List.mapIdx_nil, List.map_cons, List.map_nil], e2, e3, ?_⟩, rfl, ?_⟩
    · simp only [nodeMetaepoch, e5, if_true, afterMetaepoch, hrel, hhvn, bumpAll, hctr]
      refine ⟨e4, trivial, e6, by simp, fun v hv' => ⟨σ.ctr 0, by omega, ?_, by simp⟩⟩
      rw [← hhv]
      simpa using hv'.symm
    · intro m hm o ho
      simp only [e1, List.mapIdx_cons, List.mapIdx_nil, List.map_cons, List.map_nil, List.mem_singleton] at hm
      subst hm
      simp [nodeMetaepoch, e5, afterMetaepoch, hrel, hhvn] at ho
  | some v =>
    obtain ⟨j, hj, rfl, hh⟩ := e8 v hrel
    refine ⟨⟨(nodeMetaepoch cfg.fl (env 0 (σ.ctr 0)) n).1, by
        simp only [e1, List.mapIdx_cons, List.mapIdx_nil, List.map_cons, List.map_nil], e2, e3, ?_⟩, rfl, ?_⟩
    · simp only [nodeMetaepoch, e5, if_true, afterMetaepoch, hrel, bumpAll, hctr]
      refine ⟨e4, trivial, e6, by simp, fun v hv' => ⟨j, by omega, by simpa using hv'.symm, fun h hh' => ?_⟩⟩
      refine ⟨σ.ctr 0, hj.le, by omega, ?_⟩
      rw [← hhv (σ.ctr 0), ← hfl]
      simpa using hh'.symm
    · intro m hm o ho h0
      simp only [e1, List.mapIdx_cons, List.mapIdx_nil, List.map_cons, List.map_nil, List.mem_singleton] at hm
      subst hm
      simp only [nodeMetaepoch, e5, if_true, afterMetaepoch, hrel] at ho ⊢
      obtain ⟨i, hji, hi, rfl⟩ := hh o ho
      refine ⟨?_, round64_round64 _, _, rfl, by rw [hfl, round64_round64], ?_⟩
      · rcases hbig j i hji with h | h
        · rw [h, sub_self, zero] at h0
          exact absurd h0 (lt_irrefl _)
        · exact le_fl round64_isRounding four (by linarith)
      · rw [hhv, hfl]
        exact round64_mono (by linarith [hmono i (σ.ctr 0) hi.le])

theorem run_step_states {σ σ' : PState D K} {sent : ℕ} {as : List (Msg D K)} (R : Run cfg env spawn σ sent stepRequests as σ') :
    ∃ σ₁ σ₂, seqMetaepoch cfg env σ = some σ₁ ∧ seqRelease cfg spawn (seqRedundant (seqTrim cfg σ₁)) = some σ₂ ∧
      seqRevive cfg σ₂ = some σ' := by
  rw [stepRequests] at R
  cases R with
  | cons s1 R =>
  cases R with
  | cons s2 R =>
  cases R with
  | cons s3 R =>
  cases R with
  | cons s4 R =>
  cases R with
  | cons s5 R =>
  cases R
  cases s1 with
  | metaepoch s1 =>
  cases s2
  cases s3
  cases s4 with
  | release s4 =>
  cases s5 with
  | revive s5 =>
  exact ⟨_, _, s1, s4, s5⟩

theorem RootOnly.step (hm : cfg.maxLevel ≤ 2) (hfl : cfg.fl = round64) (heps : cfg.eps = epsilon) {hv : ℕ → K}
    (hhv : ∀ k, (env 0 k).hv = hv k) (hbig : ∀ i j, i ≤ j → hv j = hv i ∨ hv i + 4 ≤ hv j) {ratio : List K}
    (hq : ratio[0]? = some 0) {σ σ' : PState D K} (h : RootOnly hv ratio σ) {sent : ℕ} {as : List (Msg D K)}
    (R : Run cfg env spawn σ sent stepRequests as σ') : RootOnly hv ratio σ' := by
  obtain ⟨σ₁, σ₂, s1, s4, s5⟩ := run_step_states R
  obtain ⟨h1, h2, h3⟩ := h.metaepoch hfl hhv hbig s1
  have htrim : (seqTrim cfg σ₁).st = σ₁.st := by
    obtain ⟨n, e1, e2, e3, e4, e5, e6, e7, e8⟩ := h1
    have hst : stale cfg 0 n = false := by
      simp only [stale]
      split
      · rfl
      · rename_i o ho
        split_ifs with h0
        · obtain ⟨h4, hf, v, hv', hfv, hle⟩ := h3 n (by simp [e1]) o ho h0
          rw [hv']
          simp only [hfl, heps, e4]
          rw [Bool.eq_false_iff, Ne, (C146_root_violated hf h4).2.2 _ hfv]
          exact not_lt.2 hle
        · rfl
    have : nodeTrim cfg (σ₁.ratio.getD n.level 0) n = n := by
      rw [List.getD, e3, e4, hq, Option.getD_some, nodeTrim, hst, Bool.and_false, if_neg (by simp)]
    obtain ⟨⟨nodes, levels, cost⟩, _, _, _⟩ := σ₁
    simp only at e1
    subst e1
    simp only [seqTrim, bumpAll, List.map_cons, List.map_nil]
    simp only at this
    rw [this]
  have h4 : RootOnly hv ratio (seqRedundant (seqTrim cfg σ₁)) := by
    refine h1.ctr (by rw [← htrim]; rfl) rfl ?_
    simp only [seqRedundant, seqTrim, bumpAll, bump]
    split_ifs <;> omega
  have h5 : (seqRedundant (seqTrim cfg σ₁)).states = [] := h2
  generalize seqRedundant (seqTrim cfg σ₁) = σ₃ at h4 h5 s4
  have h6 : RootOnly hv ratio σ₂ ∧ (σ₂.states.filter NState.alive).length = 1 := by
    have h4' := h4
    obtain ⟨n, e1, e2, e3, e4, e5, e6, e7, e8⟩ := h4
    have hleaf : findLeaf σ₃.st.levels (cfg.maxLevel + 1) = some 0 := by
      rw [e2]
      generalize cfg.maxLevel = m at hm
      interval_cases m <;> rfl
    have hlev : σ₃.st.levels[0]? = some [0] := by rw [e2]; rfl
    have hnode : σ₃.st.nodes[0]? = some n := by rw [e1]; rfl
    rw [seqRelease, hleaf, Option.bind_some, releaseLevels, hlev, Option.bind_some] at s4
    simp only [Option.bind_some, releaseNodes, releaseTurn, hnode, e6, Bool.false_eq_true, false_and, if_false,
      Option.some.injEq] at s4
    subst s4
    refine ⟨h4'.ctr rfl rfl ?_, ?_⟩
    · simp [bump]
    · simp [h5, stateOf, createNodeState, e5]
  rw [seqRevive, if_neg (by rw [h6.2]; simp), Option.some.injEq] at s5
  exact s5 ▸ h6.1

/-- C146 is violated in whole runs of the distributed HGS as well: if the root's hypervolume never changes by less than 4
(for instance if it never changes), the root is never stopped with the shipped limit 0.0, and the tree never grows, whatever
the user calls. -/
theorem C146_distributed_run_violated (hm : cfg.maxLevel ≤ 2) (hfl : cfg.fl = round64) (heps : cfg.eps = epsilon)
    (hbig : ∀ i j, i ≤ j → (env 0 j).hv = (env 0 i).hv ∨ (env 0 i).hv + 4 ≤ (env 0 j).hv) {ratio : List K}
    (hq : ratio[0]? = some 0) {σ : PState D K} (h : Reachable cfg env spawn ratio σ) :
    σ.ratio = ratio ∧ ∃ n, σ.st.nodes = [n] ∧ n.alive = true ∧ n.ripe = false := by
  have key : ∀ (calls : List Call) {σ σ' : PState D K} {sent : ℕ} {as : List (Msg D K)},
      RootOnly (fun k => (env 0 k).hv) ratio σ → Run cfg env spawn σ sent (calls.flatMap Call.requests) as σ' →
      RootOnly (fun k => (env 0 k).hv) ratio σ' := by
    intro calls
    induction calls with
    | nil =>
      intro σ σ' sent as h R
      cases R
      exact h
    | cons c calls ih =>
      intro σ σ' sent as h R
      obtain ⟨as₁, as₂, σ₁, rfl, R1, R2⟩ := Run.split _ R
      refine ih ?_ R2
      cases c with
      | step => exact h.step hm hfl heps (fun _ => rfl) hbig hq R1
      | finalizedPopulation =>
        cases R1 with
        | cons s R1 =>
        cases R1
        cases s
        refine h.ctr rfl rfl ?_
        simp only [bumpAll, bump]
        split_ifs <;> omega
      | status lvl =>
        cases R1 with
        | cons s R1 =>
        cases R1
        cases s
        refine h.ctr rfl rfl ?_
        simp only [bump]
        split_ifs <;> omega
  obtain ⟨calls, as, R⟩ := h
  have h0 : RootOnly (fun k => (env 0 k).hv) ratio (PState.init ratio : PState D K) := by
    refine ⟨Hgs.newNode 0 none, rfl, rfl, rfl, rfl, rfl, rfl, by simp [Hgs.newNode], by simp [Hgs.newNode]⟩
  obtain ⟨n, e1, -, e3, -, e5, e6, -⟩ := key (.status none :: calls) h0 R
  exact ⟨e3, n, e1, e5, e6⟩

end

/-- Hypervolumes that are not multiples of a power of two: 1/3, 11/3, ... as floats. -/
def exThirds (n k : ℕ) : Hgs.Report ℚ ℚ := { exEnv n k with hv := Binary64.round64 ((10 * (k - 3 * (1 - n)) + 1) / 3) }

/-- The state after a first distributed metaepoch (it only sets the reference hypervolumes). -/
def exAfter : Option (PState ℚ ℚ) :=
  seqMetaepoch { exConf 2 with fl := Binary64.round64 } exThirds (decode exThree)

/-- In the second metaepoch the hypervolume of node 1 is the rounded difference of two floats, the
same in both variants, and it is not the exact difference. -/
example :
    (exAfter.bind (seqMetaepoch { exConf 2 with fl := Binary64.round64 } exThirds)).map
        (fun σ => σ.st.nodes.map fun n => n.hv)
      = some [some 1, some (3752999689475413 / 1125899906842624), some (938249922368853 / 281474976710656)] ∧
    (exAfter.bind fun σ => Rounded.Hgs.runMetaepoch Binary64.round64 (exConf 2)
        (fun n => exThirds n (σ.ctr n)) σ.st).map (fun st => st.nodes.map fun n => n.hv)
      = some [some 1, some (3752999689475413 / 1125899906842624), some (938249922368853 / 281474976710656)] ∧
    (exAfter.bind fun σ => Evogil.Hgs.runMetaepoch (exConf 2)
        (fun n => exThirds n (σ.ctr n)) σ.st).map (fun st => st.nodes.map fun n => n.hv)
      = some [some 1, some (60047995031606611 / 18014398509481984), some (938249922368853 / 281474976710656)] := by
  decide +kernel

/-- A root whose hypervolume is 0 in the first metaepoch and 4 ever after. -/
def exStill (n k : ℕ) : Hgs.Report ℚ ℚ := { exEnv n k with hv := if k ≤ 1 then 0 else 4 }

/-- Three steps with the rounding `fl`, from the constructor on. -/
def exSteps (fl : ℚ → ℚ) : Option (PState ℚ ℚ) :=
  let step := seqStep { exConf 2 with fl := fl, eps := Rounded.Hgs.epsilon } exStill fun _ _ _ => []
  ((step (PState.init [0, 1, 1])).bind step).bind step

/-- In exact arithmetic the root is stopped in the third step and gets two sprouts; in floating point it goes on alone. -/
example :
    (exSteps id).map (fun σ => σ.st.nodes.map fun n => (n.alive, n.ripe))
      = some [(false, true), (true, false), (true, false)] ∧
    (exSteps Binary64.round64).map (fun σ => σ.st.nodes.map fun n => (n.alive, n.ripe)) = some [(true, false)] := by
  decide +kernel

/-- The hypervolumes of this root are as in `C146_distributed_run_violated`. -/
example : ∀ i j, i ≤ j → (exStill 0 j).hv = (exStill 0 i).hv ∨ (exStill 0 i).hv + 4 ≤ (exStill 0 j).hv := by
  intro i j h
  simp only [exStill]
  split_ifs <;> first | omega | simp

end Evogil.Dist
