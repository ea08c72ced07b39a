import Verif.Lemmas.DistMore
import Mathlib.Algebra.Order.BigOperators.Group.List
import Mathlib.Tactic.Linarith

/-!
# C42, C85, C86, C87, C88: what the steps of the distributed HGS do
-/

set_option linter.unusedSectionVars false

namespace Evogil.Dist

open Spec

variable {D K : Type*} [Field K] [LinearOrder K]
variable {cfg : Hgs.Conf D K} {env : ℕ → ℕ → Hgs.Report D K} {spawn : ℕ → ℕ → ℕ → List D}

theorem Reachable.good (hm : cfg.maxLevel ≤ 2) (henv : ∀ n k, (env n k).costs ≠ []) {ratio : List K}
    (hr : cfg.maxLevel < ratio.length) {σ : PState D K} (h : Reachable cfg env spawn ratio σ) :
    Good cfg σ := by
  obtain ⟨calls, as, R⟩ := h
  exact Good.run hm henv (.status none :: calls) (good_init hr) R

/-! ## C85 -/

/-- C85: between any two calls the nodes form a tree of the allowed depth, every node is either alive or
ripe, and some node is alive. -/
theorem C85_tree (hm : cfg.maxLevel ≤ 2) (henv : ∀ n k, (env n k).costs ≠ []) {ratio : List K}
    (hr : cfg.maxLevel < ratio.length) {σ : PState D K} (h : Reachable cfg env spawn ratio σ) :
    Hgs.Tree cfg.maxLevel σ.st ∧ (∀ n ∈ σ.st.nodes, n.ripe = !n.alive) ∧
      ∃ n ∈ σ.st.nodes, n.alive = true := by
  have g := h.good hm henv hr
  refine ⟨g.tree, ?_, ?_⟩
  · intro n hn
    obtain ⟨i, hi⟩ := List.mem_iff_getElem?.1 hn
    have hl := (List.getElem?_eq_some_iff.1 hi).1
    rw [nodeAt_get hl, Option.some.injEq] at hi
    rw [← hi]
    exact g.flags i hl
  · obtain ⟨i, hi, ha⟩ := g.living
    exact ⟨_, List.mem_of_getElem? (nodeAt_get hi), ha⟩

/-- C85, in terms of executions: whatever is called after the constructor, every execution comes to the
point at which everything has been answered and the actors hold such a tree. -/
theorem C85_always (hm : cfg.maxLevel ≤ 2) (henv : ∀ n k, (env n k).costs ≠ []) {ratio : List K}
    (hr : cfg.maxLevel < ratio.length) (pop : List D) (calls : List Call) :
    Inevitable (Step cfg env spawn)
      (fun s => s.todo = [] ∧ s.waiting = false ∧ ∃ σ, Shows σ s ∧ Hgs.Tree cfg.maxLevel σ.st ∧
        (∀ n ∈ σ.st.nodes, n.ripe = !n.alive) ∧ ∃ n ∈ σ.st.nodes, n.alive = true)
      (Sys.new ratio (startRequests pop ++ calls.flatMap Call.requests)) := by
  refine (C41_served hm henv hr pop calls (.checkStatus none :: calls.flatMap Call.requests) [] (by
    simp [startRequests])).mono ?_
  rintro s ⟨as, σ, R, sh, h1, h2, _, _⟩
  exact ⟨h1, h2, σ, sh, C85_tree hm henv hr ⟨calls, as, R⟩⟩

/-- The requests of a step before the last one. -/
def beforeRevive : List (Req D) := [.metaepoch, .trimNotProgressing, .trimRedundant, .releaseSprouts]

/-- C85, revival: the last request of a step changes nothing if some node is alive. Otherwise every node is
revived, and the thresholds of the levels are halved. -/
theorem C85_revival (hm : cfg.maxLevel ≤ 2) (henv : ∀ n k, (env n k).costs ≠ []) {ratio : List K}
    (hr : cfg.maxLevel < ratio.length) {σ σ₂ σ₃ : PState D K} (h : Reachable cfg env spawn ratio σ) {sent : ℕ}
    {as : List (Msg D K)} (R : Run cfg env spawn σ sent beforeRevive as σ₂) {a : Answer D K}
    (hs : Served cfg env spawn σ₂ .revive a σ₃) : σ₂.ratio = σ.ratio ∧
    (((∃ n ∈ σ₂.st.nodes, n.alive = true) ∧ σ₃.st = σ₂.st ∧ σ₃.ratio = σ₂.ratio) ∨
    ((∀ n ∈ σ₂.st.nodes, n.alive = false) ∧
      σ₃.st.nodes = σ₂.st.nodes.map (fun n => { n with alive := true, ripe := false }) ∧
      σ₃.st.levels = σ₂.st.levels ∧ σ₃.st.cost = σ₂.st.cost ∧
      ∀ l, σ₃.ratio[l]? = (σ₂.ratio[l]?).map fun q => if l ≤ cfg.maxLevel then cfg.fl (q / 2) else q)) := by
  have g := h.good hm henv hr
  obtain ⟨σ₁, ρ₂, ρ₃, T, p⟩ := phases (cfg := cfg) (env := env) (spawn := spawn) hm henv g
  have R' : Run cfg env spawn σ sent beforeRevive _ ρ₂ :=
    .cons (.metaepoch p.metaepoch) (.cons (.trim _) (.cons (.redundant _)
      (.cons (.release p.release) (.nil _ _))))
  obtain ⟨rfl, _⟩ := C41_order R R'
  obtain ⟨rfl, _⟩ := hs.det (.revive p.revive) (.client, 0)
  have hrat : σ₂.ratio = σ.ratio := by
    obtain ⟨lvl, σ', _, _, _, e, S⟩ := seqRelease_some (spawn := spawn) hm p.tree₂ (fun n hn => p.pos₂ n (by
      have h1 := p.keep.same.length
      have h2 := (seqTrim_same (cfg := cfg) σ₁).length
      have h3 : (seqRedundant (seqTrim cfg σ₁)).st.nodes.length = (seqTrim cfg σ₁).st.nodes.length := rfl
      omega))
    rw [p.release, Option.some.injEq] at e
    rw [e, S.ratio]
    exact p.keep.ratio
  refine ⟨hrat, ?_⟩
  have hrev := p.revive
  by_cases hal : (σ₂.states.filter NState.alive).length = 0
  · right
    obtain ⟨hT, hdead⟩ := p.all hal
    obtain ⟨hta, _, _, _⟩ := p.targets hal
    have hin : ∀ n, Addr.node n ∈ (σ₂.states.filter NState.ripe).map NState.address ↔
        n < σ₂.st.nodes.length := by
      intro n
      rw [hta, List.mem_map_of_injective (fun a b h => by cases h; rfl), hT.mem_iff, List.mem_range]
    have hlen : cfg.maxLevel + 1 ≤ σ₂.ratio.length := by
      rw [hrat]; exact g.ratio
    simp only [seqRevive, if_pos hal, halveUpTo, if_pos hlen, Option.map_some, Option.some.injEq] at hrev
    subst hrev
    refine ⟨?_, ?_, rfl, rfl, ?_⟩
    · intro n hn
      obtain ⟨i, hi⟩ := List.mem_iff_getElem?.1 hn
      have hl := (List.getElem?_eq_some_iff.1 hi).1
      rw [nodeAt_get hl, Option.some.injEq] at hi
      rw [← hi]
      exact hdead i hl
    · apply List.ext_getElem?
      intro i
      simp only [List.getElem?_mapIdx, List.getElem?_map]
      by_cases hi : i < σ₂.st.nodes.length
      · rw [nodeAt_get hi]
        simp only [Option.map_some, if_pos ((hin i).2 hi)]
        rfl
      · rw [List.getElem?_eq_none (by omega)]
        rfl
    · intro l
      simp only [List.getElem?_append, List.length_map, List.length_take, Nat.min_eq_left hlen,
        List.getElem?_map, List.getElem?_take, List.getElem?_drop]
      by_cases hl : l < cfg.maxLevel + 1
      · rw [if_pos hl, if_pos hl]
        simp only [if_pos (Nat.lt_succ_iff.1 hl)]
      · rw [if_neg hl]
        have : ¬ l ≤ cfg.maxLevel := by omega
        simp only [if_neg this, Option.map_id']
        congr 1
        omega
  · left
    obtain ⟨i, hi, ha⟩ := p.one hal
    simp only [seqRevive, if_neg hal, Option.some.injEq] at hrev
    subst hrev
    exact ⟨⟨_, List.mem_of_getElem? (nodeAt_get hi), ha⟩, rfl, rfl⟩

/-! ## C86 -/

/-- C86: a metaepoch of the distributed HGS does to every node what the sequential HGS would do, and leaves
the tree as it is. -/
theorem C86_metaepoch (hfl : cfg.fl = id) (hm : cfg.maxLevel ≤ 2) (henv : ∀ n k, (env n k).costs ≠ []) {ratio : List K}
    (hr : cfg.maxLevel < ratio.length) {σ σ' : PState D K} (h : Reachable cfg env spawn ratio σ)
    {a : Answer D K} (hs : Served cfg env spawn σ .metaepoch a σ') :
    ∃ st, Hgs.runMetaepoch cfg (fun n => env n (σ.ctr n)) σ.st = some st ∧ σ'.st.nodes = st.nodes ∧
      σ'.st.levels = st.levels := by
  have g := h.good hm henv hr
  obtain ⟨st, e, hget, hT, _⟩ := runMetaepoch_tree hm g.tree (fun n => env n (σ.ctr n))
  refine ⟨st, e, ?_, ?_⟩
  · cases hs with
    | metaepoch hs =>
      simp only [seqMetaepoch, Option.map_eq_some_iff] at hs
      obtain ⟨top, _, rfl⟩ := hs
      apply List.ext_getElem?
      intro i
      simp only [List.getElem?_map, List.getElem?_mapIdx]
      by_cases hi : i < σ.st.nodes.length
      · rw [hget i _ (nodeAt_get hi), nodeAt_get hi]
        simp [nodeMetaepoch_classic (cfg := cfg) hfl]
      · have := hT.length
        rw [List.getElem?_eq_none (by omega), List.getElem?_eq_none (by omega)]
        rfl
  · cases hs with
    | metaepoch hs =>
      simp only [seqMetaepoch, Option.map_eq_some_iff] at hs
      obtain ⟨top, _, rfl⟩ := hs
      exact hT.1.symm

/-- C86: the cost answered is the cost before plus the weighted cost of the most expensive living node. -/
theorem C86_cost {σ σ' : PState D K} {c : K}
    (hs : Served cfg env spawn σ .metaepoch (.metaepochEnd c) σ') : c = σ'.st.cost ∧
    (∃ i n x, σ.st.nodes[i]? = some n ∧ n.alive = true ∧ (env i (σ.ctr i)).costs.getLast? = some x ∧
      c = σ.st.cost + cfg.modifier n.level * (x - n.cost)) ∧
    ∀ i n x, σ.st.nodes[i]? = some n → n.alive = true → (env i (σ.ctr i)).costs.getLast? = some x →
      cfg.modifier n.level * (x - n.cost) ≤ c - σ.st.cost := by
  cases hs with
  | metaepoch hs =>
    simp only [seqMetaepoch, Option.map_eq_some_iff] at hs
    obtain ⟨top, htop, rfl⟩ := hs
    rw [List.max?_eq_some_iff] at htop
    obtain ⟨h1, h2⟩ := htop
    refine ⟨rfl, ?_, ?_⟩
    · simp only [List.mem_filterMap, List.mem_mapIdx, Option.map_eq_some_iff] at h1
      obtain ⟨r, ⟨i, hi, rfl⟩, e, he, rfl⟩ := h1
      simp only [nodeMetaepoch] at he
      split at he
      · rename_i ha
        simp only [Option.map_eq_some_iff] at he
        obtain ⟨x, hx, rfl⟩ := he
        exact ⟨i, _, x, List.getElem?_eq_getElem hi, ha, hx, rfl⟩
      · cases he
    · intro i n x hn ha hx
      have hi := (List.getElem?_eq_some_iff.1 hn).1
      have : cfg.modifier n.level * (x - n.cost) ≤ top := by
        apply h2
        simp only [List.mem_filterMap, List.mem_mapIdx, Option.map_eq_some_iff]
        refine ⟨_, ⟨i, hi, rfl⟩, (n.level, x - n.cost), ?_, rfl⟩
        have hge : σ.st.nodes[i] = n := by
          rw [List.getElem?_eq_getElem hi, Option.some.injEq] at hn
          exact hn
        simp only [hge, nodeMetaepoch, ha, if_true, hx, Option.map_some]
      simpa using this

theorem sum_le_sum_of_single [IsStrictOrderedRing K] {α : Type*} (f : α → K) : ∀ (l : List α),
    (∀ a ∈ l, 0 ≤ f a) → ∀ a ∈ l, f a ≤ (l.map f).sum
  | [], _, a, ha => by cases ha
  | x :: l, h, a, ha => by
    have h0 : 0 ≤ (l.map f).sum := List.sum_nonneg (by
      intro y hy
      obtain ⟨b, hb, rfl⟩ := List.mem_map.1 hy
      exact h b (List.mem_cons_of_mem _ hb))
    have hx := h x (List.mem_cons_self ..)
    rw [List.map_cons, List.sum_cons]
    rcases List.mem_cons.1 ha with rfl | ha
    · exact le_add_of_nonneg_right h0
    · exact (sum_le_sum_of_single f l (fun b hb => h b (List.mem_cons_of_mem _ hb)) a ha).trans
        (le_add_of_nonneg_left hx)

theorem sum_sub_of_get (g : Hgs.Node D K → K) (f : ℕ → Hgs.Node D K → Hgs.Node D K) :
    ∀ (l l' : List (Hgs.Node D K)), l' = l.mapIdx f →
      (l'.map g).sum - (l.map g).sum = ((l.mapIdx fun i a => g (f i a) - g a)).sum
  | l, _, rfl => by
    induction l generalizing f with
    | nil => simp
    | cons x l ih =>
      simp only [List.mapIdx_cons, List.map_cons, List.sum_cons]
      rw [← ih (fun i => f (i + 1))]
      ring

/-- C86: the distributed HGS never charges more for a metaepoch than the sequential one (which adds up the
costs of all living nodes), provided the modifiers are not negative and no node reports less than before. -/
theorem C86_parallel [IsStrictOrderedRing K] (hm : cfg.maxLevel ≤ 2) (henv : ∀ n k, (env n k).costs ≠ [])
    {ratio : List K} (hr : cfg.maxLevel < ratio.length) {σ σ' : PState D K}
    (h : Reachable cfg env spawn ratio σ) (hmod : ∀ l, 0 ≤ cfg.modifier l)
    (hmono : ∀ i n x, σ.st.nodes[i]? = some n → n.alive = true →
      (env i (σ.ctr i)).costs.getLast? = some x → n.cost ≤ x) {c : K}
    (hs : Served cfg env spawn σ .metaepoch (.metaepochEnd c) σ') {st : Hgs.State D K}
    (hc : Hgs.runMetaepoch cfg (fun n => env n (σ.ctr n)) σ.st = some st) : c ≤ st.cost := by
  have g := h.good hm henv hr
  obtain ⟨st', e, hget, hT, hcost⟩ := runMetaepoch_tree hm g.tree (fun n => env n (σ.ctr n))
  rw [hc, Option.some.injEq] at e
  subst e
  obtain ⟨_, ⟨i, n, x, hn, ha, hx, hcx⟩, _⟩ := C86_cost hs
  have hl' : st.nodes = σ.st.nodes.mapIdx fun j a => (Hgs.runNode cfg (env j (σ.ctr j)) a).1 := by
    apply List.ext_getElem?
    intro j
    rw [List.getElem?_mapIdx]
    by_cases hj : j < σ.st.nodes.length
    · rw [nodeAt_get hj, hget j _ (nodeAt_get hj)]; rfl
    · have := hT.length
      rw [List.getElem?_eq_none (by omega), List.getElem?_eq_none (by omega)]; rfl
  have hsum := sum_sub_of_get (fun n : Hgs.Node D K => cfg.modifier n.level * n.cost)
    (fun j a => (Hgs.runNode cfg (env j (σ.ctr j)) a).1) σ.st.nodes st.nodes hl'
  have hnode : ∀ j a, σ.st.nodes[j]? = some a → a.alive = true → ∀ y,
      (env j (σ.ctr j)).costs.getLast? = some y →
      cfg.modifier (Hgs.runNode cfg (env j (σ.ctr j)) a).1.level * (Hgs.runNode cfg (env j (σ.ctr j)) a).1.cost
        - cfg.modifier a.level * a.cost = cfg.modifier a.level * (y - a.cost) := by
    intro j a _ haa y hy
    rw [(nodeMetaepoch_cost (cfg := cfg) _ _).1, (nodeMetaepoch_cost (cfg := cfg) _ _).2]
    have hlev : (nodeMetaepoch cfg.fl (env j (σ.ctr j)) a).1.level = a.level := by
      have := (nodeMetaepoch_same cfg.fl (env j (σ.ctr j)) a).1
      simp only [Hgs.shape, Prod.mk.injEq] at this
      exact this.1
    have hco : (nodeMetaepoch cfg.fl (env j (σ.ctr j)) a).1.cost = y := by
      simp only [nodeMetaepoch, haa, if_true, hy, Option.getD_some, Rounded.Hgs.afterMetaepoch]
      split <;> rfl
    rw [hlev, hco]
    ring
  have hterm : ∀ t ∈ σ.st.nodes.mapIdx (fun j a =>
      cfg.modifier (Hgs.runNode cfg (env j (σ.ctr j)) a).1.level * (Hgs.runNode cfg (env j (σ.ctr j)) a).1.cost
        - cfg.modifier a.level * a.cost), (0 : K) ≤ t := by
    intro t ht
    obtain ⟨j, hj, rfl⟩ := List.mem_mapIdx.1 ht
    have hgj := List.getElem?_eq_getElem hj
    by_cases haj : σ.st.nodes[j].alive = true
    · obtain ⟨y, hy⟩ := Option.ne_none_iff_exists'.1
        (fun e => henv j (σ.ctr j) (List.getLast?_eq_none_iff.1 e))
      rw [hnode j _ hgj haj y hy]
      exact mul_nonneg (hmod _) (sub_nonneg.2 (hmono j _ y hgj haj hy))
    · simp [Hgs.runNode, haj]
  have hmem : cfg.modifier n.level * (x - n.cost) ∈ σ.st.nodes.mapIdx (fun j a =>
      cfg.modifier (Hgs.runNode cfg (env j (σ.ctr j)) a).1.level * (Hgs.runNode cfg (env j (σ.ctr j)) a).1.cost
        - cfg.modifier a.level * a.cost) := by
    have hi := (List.getElem?_eq_some_iff.1 hn).1
    refine List.mem_mapIdx.2 ⟨i, hi, ?_⟩
    have hge : σ.st.nodes[i] = n := by
      have := hn
      rw [List.getElem?_eq_getElem hi, Option.some.injEq] at this
      exact this
    rw [hge]
    exact hnode i n hn ha x hx
  have := sum_le_sum_of_single (fun t : K => t) _ hterm _ hmem
  rw [List.map_id'] at this
  rw [← hsum] at this
  simp only [Hgs.weighted] at hcost
  rw [hcx]
  linarith

/-- C86: the second request stops exactly those nodes as not progressing which the sequential HGS stops. -/
theorem C86_trim (hfl : cfg.fl = id) (hm : cfg.maxLevel ≤ 2) (henv : ∀ n k, (env n k).costs ≠ []) {ratio : List K}
    (hr : cfg.maxLevel < ratio.length) {σ σ₁ σ₂ : PState D K} (h : Reachable cfg env spawn ratio σ) {sent : ℕ}
    {as : List (Msg D K)} (R : Run cfg env spawn σ sent [.metaepoch] as σ₁) {a : Answer D K}
    (hs : Served cfg env spawn σ₁ .trimNotProgressing a σ₂) {l : ℕ} {ids : List ℕ}
    (hids : σ₁.st.levels[l]? = some ids) :
    ∃ st, Hgs.trimNotProgressing cfg σ₁.ratio ids σ₁.st = some st ∧
      ∀ i ∈ ids, σ₂.st.nodes[i]? = st.nodes[i]? := by
  have g := h.good hm henv hr
  obtain ⟨σ₁', e1, k1⟩ := seqMetaepoch_some (cfg := cfg) henv g.living
  obtain ⟨rfl, _⟩ := C41_order R (.cons (.metaepoch e1) (.nil _ _))
  have t1 := g.tree.of_same k1.same
  have hl : l ≤ 2 := by
    have := (List.getElem?_eq_some_iff.1 hids).1
    rw [t1.levels] at this
    simp at this
    omega
  have hlev : ∀ n ∈ σ₁.st.nodes, n.level < σ₁.ratio.length := by
    intro n hn
    rw [k1.ratio]
    exact lt_of_le_of_lt (t1.depth n hn) g.ratio
  obtain ⟨st, hst⟩ := Hgs.trimNotProgressing_some cfg σ₁.ratio ids σ₁.st (fun i hi => by
    obtain ⟨n, hn, _⟩ := (t1.mem_level hl hids).1 hi
    exact (List.getElem?_eq_some_iff.1 hn).1) hlev
  refine ⟨st, hst, fun i hi => ?_⟩
  obtain ⟨n, hn, _⟩ := (t1.mem_level hl hids).1 hi
  have hq := List.getElem?_eq_getElem (hlev n (List.mem_of_getElem? hn))
  have hstale : Hgs.notProgressing cfg σ₁.ratio n = some (stale cfg (σ₁.ratio.getD n.level 0) n) := by
    simp only [Hgs.notProgressing, stale, Rounded.Hgs.lags, hfl, id_eq, List.getD, hq, Option.getD_some]
    cases n.oldHv with
    | none => rfl
    | some o =>
      simp only
      split
      · cases n.hv <;> rfl
      · rfl
  have h2 : σ₂.st.nodes[i]? = some (nodeTrim cfg (σ₁.ratio.getD n.level 0) n) := by
    cases hs
    simp [seqTrim, hn]
  rw [h2]
  rcases Hgs.trimNotProgressing_get cfg σ₁.ratio ids σ₁.st st (t1.nodup_level hl hids) hst i hi n hn with
    ⟨x1, x2, x3⟩ | ⟨x1, x2⟩
  · rw [hstale, Option.some.injEq] at x2
    rw [x3]
    simp only [nodeTrim, x1, x2, Bool.and_self, if_true]
  · rw [hstale, Option.some.injEq] at x1
    rw [x2]
    have : (n.alive && stale cfg (σ₁.ratio.getD n.level 0) n) = false := by
      by_contra hne
      rw [Bool.not_eq_false, Bool.and_eq_true] at hne
      exact x1 hne
    simp only [nodeTrim, this, Bool.false_eq_true, if_false]

/-! ## C87 -/

/-- The requests of a step before the sprouts are released. -/
def beforeRelease : List (Req D) := [.metaepoch, .trimNotProgressing, .trimRedundant]

/-- What the tree is before the sprouts are released. -/
theorem before_release (hm : cfg.maxLevel ≤ 2) (henv : ∀ n k, (env n k).costs ≠ []) {σ σ₂ : PState D K}
    (g : Good cfg σ) {sent : ℕ} {as : List (Msg D K)} (R : Run cfg env spawn σ sent beforeRelease as σ₂) :
    Hgs.Tree cfg.maxLevel σ₂.st ∧ ∀ n < σ₂.st.nodes.length, 0 < σ₂.ctr n := by
  obtain ⟨σ₁, ρ₂, ρ₃, T, p⟩ := phases (cfg := cfg) (env := env) (spawn := spawn) hm henv g
  have R' : Run cfg env spawn σ sent beforeRelease _ (seqRedundant (seqTrim cfg σ₁)) :=
    .cons (.metaepoch p.metaepoch) (.cons (.trim _) (.cons (.redundant _) (.nil _ _)))
  obtain ⟨rfl, _⟩ := C41_order R R'
  refine ⟨p.tree₂, fun n hn => p.pos₂ n ?_⟩
  have h1 := p.keep.same.length
  have h2 := (seqTrim_same (cfg := cfg) σ₁).length
  have h3 : (seqRedundant (seqTrim cfg σ₁)).st.nodes.length = (seqTrim cfg σ₁).st.nodes.length := rfl
  omega

/-- C87, without the limit on living sprouts: the fourth request of a step changes nothing about the nodes
there were but that some of them get sprouts, as `Sprouted` says, and the nodes it adds are alive and have no
population yet. Each of them is the sprout of one node by `C85_tree`. -/
theorem C87_sprouts_partial (hm : cfg.maxLevel ≤ 2) (henv : ∀ n k, (env n k).costs ≠ []) {ratio : List K}
    (hr : cfg.maxLevel < ratio.length) {σ σ₂ σ₃ : PState D K} (h : Reachable cfg env spawn ratio σ) {sent : ℕ}
    {as : List (Msg D K)} (R : Run cfg env spawn σ sent beforeRelease as σ₂) {a : Answer D K}
    (hs : Served cfg env spawn σ₂ .releaseSprouts a σ₃) :
    Hgs.Tree cfg.maxLevel σ₃.st ∧ σ₃.st.cost = σ₂.st.cost ∧ σ₃.ratio = σ₂.ratio ∧
    (∀ i n, σ₂.st.nodes[i]? = some n → ∃ new, σ₃.st.nodes[i]? = some { n with sprouts := n.sprouts ++ new } ∧
      Sprouted cfg spawn σ₂.st i n new) ∧
    ∀ i n, σ₂.st.nodes.length ≤ i → σ₃.st.nodes[i]? = some n →
      n.alive = true ∧ n.ripe = false ∧ n.pop = [] ∧ n.cost = 0 ∧ n.sprouts = [] := by
  have g := h.good hm henv hr
  obtain ⟨t2, c2⟩ := before_release hm henv g R
  obtain ⟨lvl, σ', hle, hrd, hperm, e, S⟩ := seqRelease_some (spawn := spawn) hm t2 c2
  cases hs with
  | release hs =>
    rw [hs, Option.some.injEq] at e
    subst e
    refine ⟨S.tree _ hm le_rfl t2, S.cost, S.ratio, ?_, ?_⟩
    · intro i n hn
      have hi := (List.getElem?_eq_some_iff.1 hn).1
      rw [nodeAt_get hi, Option.some.injEq] at hn
      obtain ⟨new, n1, n2⟩ := seqRelease_sprouted hm t2 c2 hs i hi
      rw [hn] at n1 n2
      refine ⟨new, ?_, n2⟩
      rw [nodeAt_get (lt_of_lt_of_le hi S.len), Option.some.injEq]
      have hb := S.keep i hi
      rw [hn] at hb
      have : nodeAt σ₃.st i = { bare (nodeAt σ₃.st i) with sprouts := (nodeAt σ₃.st i).sprouts } := rfl
      rw [this, hb, n1]
      rfl
    · intro i n hi hn
      have hl := (List.getElem?_eq_some_iff.1 hn).1
      obtain ⟨l, hb⟩ := S.new i hi hl
      rw [nodeAt_get hl, Option.some.injEq] at hn
      rw [hn] at hb
      refine ⟨?_, ?_, ?_, ?_, ?_⟩
      · exact congrArg Hgs.Node.alive hb
      · exact congrArg Hgs.Node.ripe hb
      · exact congrArg Hgs.Node.pop hb
      · exact congrArg Hgs.Node.cost hb
      · simp only [seqRelease, hle, Option.bind_some] at hs
        rw [← hn]
        exact releaseLevels_new lvl _ _ hrd hs i hi hl

/-! ## C88 -/

/-- The population a node has, also if it has not got its attributes yet. -/
def popOf (s : Sys D K) (n : ℕ) : List D := ((s.nodes n).mem.map Hgs.Node.pop).getD []

/-- C88: every execution that ends with `finalized_population` answers with the populations of all nodes,
each of them once. -/
theorem C88_population (hm : cfg.maxLevel ≤ 2) (henv : ∀ n k, (env n k).costs ≠ []) {ratio : List K}
    (hr : cfg.maxLevel < ratio.length) (pop : List D) (calls : List Call) :
    Inevitable (Step cfg env spawn)
      (fun s => s.todo = [] ∧ s.waiting = false ∧ ∃ answer id, s.inbox.getLast? =
        some (.answer (.population answer) id) ∧ answer.Perm (s.sup.nodes.flatMap (popOf s)))
      (Sys.new ratio (startRequests pop ++ (calls ++ [Call.finalizedPopulation]).flatMap Call.requests)) := by
  refine (C41_served hm henv hr pop (calls ++ [Call.finalizedPopulation])
    (.checkStatus none :: (calls ++ [Call.finalizedPopulation]).flatMap Call.requests) [] (by
    simp [startRequests])).mono ?_
  rintro s ⟨as, σ, R, sh, h1, h2, _, h4⟩
  refine ⟨h1, h2, ?_⟩
  rw [List.flatMap_append, ← List.cons_append] at R
  obtain ⟨as₁, as₂, σ₁, rfl, R1, R2⟩ := R.split
  have R2' : Run cfg env spawn σ₁ _ [.population] as₂ σ := R2
  cases R2' with
  | cons h t =>
    cases t
    cases h with
    | population pop' hp =>
      refine ⟨pop', (.client, 1 + (Req.checkStatus (D := D) none :: calls.flatMap Call.requests).length), ?_, ?_⟩
      · rw [h4, ← List.cons_append, List.getLast?_append]; rfl
      · refine hp.trans (List.Perm.of_eq ?_)
        have e : s.sup.nodes = List.range σ₁.st.nodes.length := sh.nodes
        rw [e, List.flatMap_def, List.flatMap_def]
        congr 1
        apply List.ext_getElem?
        intro i
        simp only [List.getElem?_map]
        by_cases hi : i < σ₁.st.nodes.length
        · rw [List.getElem?_range hi, nodeAt_get hi]
          simp only [Option.map_some, Option.some.injEq, popOf]
          rcases sh.node i _ (nodeAt_get hi) with hmem | ⟨hmem, l, p, _, he⟩
          · rw [hmem]; rfl
          · have he' : nodeAt σ₁.st i = Hgs.newNode l none := he
            rw [hmem, he']; rfl
        · have hi' : (List.range σ₁.st.nodes.length)[i]? = none := List.getElem?_eq_none (by simpa using hi)
          rw [hi', List.getElem?_eq_none (by omega)]
          rfl

/-! ## C42 -/

theorem mem_take_sorted {l : List ℕ} (hpw : l.Pairwise (· < ·)) {k i : ℕ} (hk : l[k]? = some i) (j : ℕ) :
    j ∈ l.take k ↔ j ∈ l ∧ j < i := by
  obtain ⟨hk1, hk2⟩ := List.getElem?_eq_some_iff.1 hk
  rw [List.pairwise_iff_getElem] at hpw
  constructor
  · intro hj
    obtain ⟨p, hp1, hp2⟩ := List.mem_iff_getElem.1 hj
    simp only [List.length_take, List.getElem_take] at hp1 hp2
    refine ⟨hp2 ▸ List.getElem_mem _, ?_⟩
    rw [← hp2, ← hk2]
    exact hpw p k _ hk1 (by omega)
  · rintro ⟨hj, hlt⟩
    obtain ⟨p, hp1, hp2⟩ := List.mem_iff_getElem.1 hj
    have hpk : p < k := by
      by_contra hge
      rcases Nat.lt_or_eq_of_le (Nat.le_of_not_lt hge) with h' | h'
      · have := hpw k p hk1 hp1 h'
        rw [hp2, hk2] at this; omega
      · subst h'; rw [hp2] at hk2; omega
    rw [List.mem_iff_getElem]
    exact ⟨p, by simp; omega, by simp [hp2]⟩

/-- C42, as far as it holds: after the redundancy phase exactly the nodes are alive that were before, so the
distributed variant agrees with the sequential one on a level only if nothing on that level is redundant. -/
theorem C42_partial (hm : cfg.maxLevel ≤ 2) (henv : ∀ n k, (env n k).costs ≠ []) {ratio : List K}
    (hr : cfg.maxLevel < ratio.length) {σ σ₁ σ₂ : PState D K} (h : Reachable cfg env spawn ratio σ) {sent : ℕ}
    {as : List (Msg D K)} (R : Run cfg env spawn σ sent [.metaepoch, .trimNotProgressing] as σ₁)
    {a : Answer D K} (hs : Served cfg env spawn σ₁ .trimRedundant a σ₂) {l : ℕ} {ids : List ℕ}
    (hids : σ₁.st.levels[l]? = some ids) {st : Hgs.State D K}
    (hst : Hgs.trimRedundant cfg ids σ₁.st = some st) :
    σ₂.st = σ₁.st ∧ ((∀ i : ℕ, (σ₂.st.nodes[i]?).map Hgs.Node.alive = (st.nodes[i]?).map Hgs.Node.alive) ↔
      Apart cfg σ₁.st l) := by
  have g := h.good hm henv hr
  obtain ⟨ρ, e1, k1⟩ := seqMetaepoch_some (cfg := cfg) henv g.living
  obtain ⟨rfl, _⟩ := C41_order R (.cons (.metaepoch e1) (.cons (.trim _) (.nil _ _)))
  have t1 : Hgs.Tree cfg.maxLevel (seqTrim cfg ρ).st := (g.tree.of_same k1.same).of_same (seqTrim_same ρ)
  have e2 : σ₂.st = (seqTrim cfg ρ).st := by cases hs; rfl
  refine ⟨e2, ?_⟩
  rw [e2]
  generalize (seqTrim cfg ρ).st = τ at hids hst t1
  have hl : l ≤ 2 := by
    have := (List.getElem?_eq_some_iff.1 hids).1
    rw [t1.levels] at this
    simp at this
    omega
  have hnd := t1.nodup_level hl hids
  have hsort : ids.Pairwise (· < ·) := by
    have := hids
    rw [t1.level_list hl, Option.some.injEq] at this
    rw [← this]
    exact List.pairwise_lt_range.filter _
  unfold Hgs.trimRedundant at hst
  obtain ⟨b1, b2, b3, b4, b5⟩ := Hgs.redundantLoop_spec cfg _ _ _ τ st hst
    (fun i hi => (List.mem_filter.1 hi).2) (hnd.filter _)
  have bgt := Hgs.redundantLoop_get cfg _ _ _ τ st hst (hnd.filter _) (by
    intro i hi
    refine ⟨fun hi' => ?_, by simp⟩
    have h1 := (List.mem_filter.1 hi).2
    have h2 := (List.mem_filter.1 hi').2
    simp [h1] at h2) (by simp)
  have hmem : ∀ {i : ℕ}, i ∈ ids ↔ ∃ n, τ.nodes[i]? = some n ∧ n.level = l := t1.mem_level hl hids
  -- the index of a living node among the living ones of its level
  have hidx : ∀ (i : ℕ) (n : Hgs.Node D K), τ.nodes[i]? = some n → n.level = l → n.alive = true →
      ∃ k, (ids.filter (Hgs.aliveAt τ))[k]? = some i ∧
        ∀ j, j ∈ (ids.filter (Hgs.aliveAt τ)).take k ↔ j ∈ ids.filter (Hgs.aliveAt τ) ∧ j < i := by
    intro i n hn hnl ha
    have hif : i ∈ ids.filter (Hgs.aliveAt τ) :=
      List.mem_filter.2 ⟨hmem.2 ⟨n, hn, hnl⟩, by simp [Hgs.aliveAt, hn, ha]⟩
    obtain ⟨k, hk⟩ := List.mem_iff_getElem?.1 hif
    refine ⟨k, hk, fun j => ?_⟩
    have hpw : (ids.filter (Hgs.aliveAt τ)).Pairwise (· < ·) := hsort.filter _
    exact mem_take_sorted hpw hk j
  have halive : ∀ i : ℕ, i ∈ ids.filter (Hgs.aliveAt τ) → ∃ n, τ.nodes[i]? = some n ∧ n.level = l ∧
      n.alive = true := by
    intro i hi
    obtain ⟨h1, h2⟩ := List.mem_filter.1 hi
    obtain ⟨n, hn, hnl⟩ := hmem.1 h1
    exact ⟨n, hn, hnl, by simpa [Hgs.aliveAt, hn] using h2⟩
  -- what decides about a living node
  have hdec : ∀ (i : ℕ) (n : Hgs.Node D K), τ.nodes[i]? = some n → n.level = l → n.alive = true →
      ∃ n', st.nodes[i]? = some n' ∧ n'.center = some (cfg.mean n.pop) ∧ (n'.alive = false ↔
        (∃ (j : ℕ) (m : Hgs.Node D K) (d : D), τ.nodes[j]? = some m ∧ m.level = l ∧ m.alive = false ∧ m.ripe = true ∧ m.center = some d ∧
          cfg.near l d (cfg.mean n.pop) = true) ∨
        ∃ (j : ℕ) (m : Hgs.Node D K), τ.nodes[j]? = some m ∧ m.level = l ∧ m.alive = true ∧ j < i ∧
          cfg.near l (cfg.mean m.pop) (cfg.mean n.pop) = true) := by
    intro i n hn hnl ha
    obtain ⟨k, hk, htake⟩ := hidx i n hn hnl ha
    obtain ⟨b, x1, x2⟩ := bgt k i hk n hn
    refine ⟨_, x1, rfl, ?_⟩
    simp only [ha, Bool.true_and, Bool.not_eq_false']
    rw [x2, hnl]
    refine or_congr ?_ ?_
    · constructor
      · rintro ⟨j, hj, m, d, hmj, hmr, hmc, hnear⟩
        obtain ⟨y1, y2⟩ := List.mem_filter.1 hj
        obtain ⟨m', hm', hml⟩ := hmem.1 y1
        rw [hmj] at hm'; cases hm'
        exact ⟨j, m, d, hmj, hml, by simpa [Hgs.aliveAt, hmj] using y2, hmr, hmc, hnear⟩
      · rintro ⟨j, m, d, hmj, hml, hma, hmr, hmc, hnear⟩
        exact ⟨j, List.mem_filter.2 ⟨hmem.2 ⟨m, hmj, hml⟩, by simp [Hgs.aliveAt, hmj, hma]⟩, m, d, hmj, hmr,
          hmc, hnear⟩
    · have hcen : ∀ (j : ℕ) (m : Hgs.Node D K), τ.nodes[j]? = some m → m.level = l → m.alive = true →
          ∃ m', st.nodes[j]? = some m' ∧ m'.center = some (cfg.mean m.pop) := by
        intro j m hmj hml hma
        obtain ⟨k', hk', _⟩ := hidx j m hmj hml hma
        obtain ⟨b', y1, _⟩ := bgt k' j hk' m hmj
        exact ⟨_, y1, rfl⟩
      constructor
      · rintro ⟨j, hj, q, d, hq, hqc, hnear⟩
        rw [List.nil_append, htake] at hj
        obtain ⟨m, hmj, hml, hma⟩ := halive j hj.1
        obtain ⟨m', z1, z2⟩ := hcen j m hmj hml hma
        rw [hq] at z1; cases z1
        rw [hqc] at z2; cases z2
        exact ⟨j, m, hmj, hml, hma, hj.2, hnear⟩
      · rintro ⟨j, m, hmj, hml, hma, hji, hnear⟩
        obtain ⟨m', z1, z2⟩ := hcen j m hmj hml hma
        refine ⟨j, ?_, m', _, z1, z2, hnear⟩
        rw [List.nil_append, htake]
        exact ⟨List.mem_filter.2 ⟨hmem.2 ⟨m, hmj, hml⟩, by simp [Hgs.aliveAt, hmj, hma]⟩, hji⟩
  constructor
  · intro hagree i j n m hn hm' hnl hml ha
    obtain ⟨n', y1, _, y3⟩ := hdec i n hn hnl ha
    have hal : n'.alive = true := by
      have := hagree i
      rw [hn, y1] at this
      simp only [Option.map_some, Option.some.injEq] at this
      rw [← this]; exact ha
    have hno : ¬ n'.alive = false := by rw [hal]; simp
    rw [y3, not_or] at hno
    refine ⟨fun hma hmr d hd => ?_, fun hma hji => ?_⟩
    · by_contra hnear
      exact hno.1 ⟨j, m, d, hm', hml, hma, hmr, hd, by simpa using hnear⟩
    · by_contra hnear
      exact hno.2 ⟨j, m, hm', hml, hma, hji, by simpa using hnear⟩
  · intro hap i
    by_cases hi : i ∈ ids.filter (Hgs.aliveAt τ)
    · obtain ⟨n, hn, hnl, ha⟩ := halive i hi
      obtain ⟨n', y1, _, y3⟩ := hdec i n hn hnl ha
      rw [hn, y1, Option.map_some, Option.map_some, Option.some.injEq, ha]
      by_contra hne
      have hne' : n'.alive = false := by
        cases e : n'.alive
        · rfl
        · exact absurd e.symm hne
      rcases y3.1 hne' with ⟨j, m, d, z1, z2, z3, z4, z5, z6⟩ | ⟨j, m, z1, z2, z3, z4, z5⟩
      · have := (hap i j n m hn z1 hnl z2 ha).1 z3 z4 d z5
        rw [z6] at this; cases this
      · have := (hap i j n m hn z1 hnl z2 ha).2 z3 z4
        rw [z5] at this; cases this
    · rw [b4 i hi]

/-! ## Concrete runs -/

/-- Successive steps of the sequential reading. -/
def seqSteps (cfg : Hgs.Conf D K) (env : ℕ → ℕ → Hgs.Report D K) (spawn : ℕ → ℕ → ℕ → List D) :
    ℕ → PState D K → Option (PState D K)
  | 0, σ => some σ
  | n + 1, σ => (seqStep cfg env spawn σ).bind (seqSteps cfg env spawn n)

theorem run_step {σ σ' : PState D K} (h : seqStep cfg env spawn σ = some σ') (sent : ℕ) :
    ∃ as, Run cfg env spawn σ sent stepRequests as σ' := by
  simp only [seqStep, Option.bind_eq_some_iff] at h
  obtain ⟨σ₂, ⟨σ₁, h1, h2⟩, h3⟩ := h
  exact ⟨_, .cons (.metaepoch h1) (.cons (.trim _) (.cons (.redundant _)
    (.cons (.release h2) (.cons (.revive h3) (.nil _ _)))))⟩

theorem run_steps : ∀ (n : ℕ) {σ σ' : PState D K}, seqSteps cfg env spawn n σ = some σ' → ∀ sent,
    ∃ as, Run cfg env spawn σ sent ((List.replicate n Call.step).flatMap Call.requests) as σ'
  | 0, σ, σ', h, sent => by cases h; exact ⟨[], .nil _ _⟩
  | n + 1, σ, σ', h, sent => by
    obtain ⟨σ₁, h1, h2⟩ := Option.bind_eq_some_iff.1 h
    obtain ⟨as, R⟩ := run_step h1 sent
    obtain ⟨as', R'⟩ := run_steps n h2 (sent + (stepRequests (D := D)).length)
    exact ⟨as ++ as', by rw [List.replicate_succ, List.flatMap_cons]; exact R.append R'⟩

/-- After the constructor, which asks for the status of the root. -/
def started (ratio : List K) : PState D K := bumpAll (PState.init ratio)

theorem reachable_steps {ratio : List K} {n : ℕ} {σ : PState D K}
    (h : seqSteps cfg env spawn n (started ratio) = some σ) : Reachable cfg env spawn ratio σ := by
  obtain ⟨as, R⟩ := run_steps n h (1 + 1)
  exact ⟨List.replicate n .step, _, .cons (.status _ none _ (List.Perm.refl _)) R⟩

/-- Decision vectors are numbers, two of them are near if they differ by less than 1; two sprouts at a time,
`max` at most. -/
def exConf (max : ℕ) : Hgs.Conf ℚ ℚ :=
  { maxLevel := 1, maxSprouts := max, sproutiveness := 2, modifier := fun l => if l = 0 then 1 else 2
    near := fun _ a b => decide ((a - b) ^ 2 < 1), mean := fun l => l.sum / l.length, eps := 0, fl := id }

/-- The root makes no progress after its second metaepoch; the sprouts both come to the population 5. -/
def exEnv (n k : ℕ) : Hgs.Report ℚ ℚ :=
  { costs := [k + 1], pop := [if n = 0 then 0 else 5], delegates := [0, 10]
    hv := if k < 4 then 1 else 2 }

/-- A sprout starts with the delegate. -/
def exSpawn (_ _ idx : ℕ) : List ℚ := [if idx = 0 then 0 else 10]

/-- A state with the numbers of tasks as a list, which can be compared. -/
def code (N : ℕ) (σ : PState D K) : Hgs.State D K × List K × List (NState D) × List ℕ :=
  (σ.st, σ.ratio, σ.states, (List.range N).map σ.ctr)

/-- The state described by `code`. -/
def decode (c : Hgs.State D K × List K × List (NState D) × List ℕ) : PState D K :=
  ⟨c.1, c.2.1, c.2.2.1, fun n => c.2.2.2.getD n 0⟩

theorem decode_code {N : ℕ} {σ : PState D K} (g : Good cfg σ) (h : σ.st.nodes.length ≤ N) :
    decode (code N σ) = σ := by
  cases σ with
  | mk st ratio states ctr =>
    simp only [decode, code, PState.mk.injEq, true_and]
    funext n
    by_cases hn : n < N
    · simp [List.getD, hn]
    · have := g.zero n (by simp only at h ⊢; omega)
      simp only at this
      rw [this, List.getD, List.getElem?_eq_none (by simpa using hn)]
      rfl

/-- One more step, computed. -/
theorem steps_decode (hm : cfg.maxLevel ≤ 2) (henv : ∀ n k, (env n k).costs ≠ []) {σ : PState D K}
    (g : Good cfg σ) {N : ℕ} {c : Hgs.State D K × List K × List (NState D) × List ℕ}
    (h : (seqStep cfg env spawn σ).map (code N) = some c) (hN : c.1.nodes.length ≤ N) :
    seqStep cfg env spawn σ = some (decode c) ∧ Good cfg (decode c) := by
  obtain ⟨σ', h1, rfl⟩ := Option.map_eq_some_iff.1 h
  obtain ⟨σ₁, σ₂, σ₃, T, p⟩ := phases (cfg := cfg) (env := env) (spawn := spawn) hm henv g
  have h2 := p.step
  rw [h1, Option.some.injEq] at h2
  subst h2
  rw [decode_code p.good' hN]
  exact ⟨h1, p.good'⟩

/-- After the first step. -/
def exOne : Hgs.State ℚ ℚ × List ℚ × List (NState ℚ) × List ℕ :=
  (⟨[⟨0, true, false, 2, [0], [0, 10], [], some 1, none, none, none, none⟩], [[0], [], []], 2⟩, [1, 1],
    [⟨.node 0, 0, true, false, some 0, 1⟩], [5, 0, 0])

/-- After the second step. -/
def exTwo : Hgs.State ℚ ℚ × List ℚ × List (NState ℚ) × List ℕ :=
  (⟨[⟨0, true, false, 6, [0], [0, 10], [], some 1, none, some 1, none, none⟩], [[0], [], []], 6⟩, [1, 1],
    [⟨.node 0, 0, true, false, some 0, 1⟩], [9, 0, 0])

/-- After the third step: the root is ripe and has two sprouts. -/
def exThree : Hgs.State ℚ ℚ × List ℚ × List (NState ℚ) × List ℕ :=
  (⟨[⟨0, false, true, 10, [0], [0, 10], [1, 2], some 1, some 1, some 1, some 0, none⟩,
      Hgs.newNode 1 none, Hgs.newNode 1 none], [[0], [1, 2], []], 10⟩, [1, 1],
    [⟨.node 0, 0, false, true, some 0, 1⟩, ⟨.node 0, 1, true, false, some 0, 1⟩,
      ⟨.node 0, 1, true, false, some 10, 1⟩], [13, 0, 0])

theorem exThree_steps (max : ℕ) (hmax : max = 1 ∨ max = 2) :
    seqSteps (exConf max) exEnv exSpawn 3 (started [1, 1]) = some (decode exThree) := by
  have hm : (exConf max).maxLevel ≤ 2 := by simp [exConf]
  have he : ∀ n k, (exEnv n k).costs ≠ [] := fun _ _ => by simp [exEnv]
  have g0 : Good (exConf max) (started [1, 1] : PState ℚ ℚ) :=
    (good_init (by simp [exConf])).bump (by simp)
  obtain ⟨e1, g1⟩ := steps_decode (spawn := exSpawn) (N := 3) (c := exOne) hm he g0
    (by rcases hmax with rfl | rfl <;> decide +kernel) (by decide)
  obtain ⟨e2, g2⟩ := steps_decode (spawn := exSpawn) (N := 3) (c := exTwo) hm he g1
    (by rcases hmax with rfl | rfl <;> decide +kernel) (by decide)
  obtain ⟨e3, _⟩ := steps_decode (spawn := exSpawn) (N := 3) (c := exThree) hm he g2
    (by rcases hmax with rfl | rfl <;> decide +kernel) (by decide)
  simp only [seqSteps, e1, e2, e3, Option.bind_some]

theorem exThree_reached (max : ℕ) (hmax : max = 1 ∨ max = 2) :
    Reachable (exConf max) exEnv exSpawn [1, 1] (decode exThree) :=
  reachable_steps (exThree_steps max hmax)

/-- C41 for the three steps: every execution ends with the root ripe and two sprouts, and with seventeen
answers. -/
example (pop : List ℚ) : Inevitable (Step (exConf 2) exEnv exSpawn)
    (fun s => Shows (decode exThree) s ∧ s.todo = [] ∧ s.inbox.length = 17)
    (Sys.new [1, 1] (startRequests pop ++ (List.replicate 3 Call.step).flatMap Call.requests)) := by
  refine (C41_served (cfg := exConf 2) (env := exEnv) (spawn := exSpawn) (by decide)
    (fun _ _ => by simp [exEnv]) (by decide) pop (List.replicate 3 Call.step)
    (.checkStatus none :: (List.replicate 3 Call.step).flatMap Call.requests) [] (by
      simp [startRequests])).mono ?_
  rintro s ⟨as, σ, R, sh, h1, _, _, h4⟩
  obtain ⟨as', R'⟩ := run_steps 3 (exThree_steps 2 (.inr rfl)) (1 + 1)
  obtain ⟨rfl, _⟩ := C41_order R (.cons (.status _ none _ (List.Perm.refl _)) R')
  refine ⟨sh, h1, ?_⟩
  rw [h4, List.length_cons, R.length]
  rfl

/-- In the fourth step the distributed HGS is charged for one of the two sprouts only; the sequential one
would be charged for both. -/
example : (seqMetaepoch (exConf 2) exEnv (decode exThree)).map
      (fun σ => (σ.st.nodes.map Hgs.Node.cost, σ.st.cost)) = some ([10, 1, 1], 12) ∧
    (Hgs.runMetaepoch (exConf 2) (fun n => exEnv n ((decode exThree).ctr n)) (decode exThree).st).map
      (fun st => (st.nodes.map Hgs.Node.cost, st.cost)) = some ([10, 1, 1], 14) := by
  decide +kernel

/-- C42, violated: the sequential variant stops the second of two sprouts with the same population, the
distributed one does not. -/
theorem C42_violated :
    ∃ (cfg : Hgs.Conf ℚ ℚ) (env : ℕ → ℕ → Hgs.Report ℚ ℚ) (spawn : ℕ → ℕ → ℕ → List ℚ) (ratio : List ℚ),
      cfg.maxLevel ≤ 2 ∧ (∀ n k, (env n k).costs ≠ []) ∧ cfg.maxLevel < ratio.length ∧
      ∃ σ σ₁ σ₂ as a ids st, Reachable cfg env spawn ratio σ ∧
        Run cfg env spawn σ 0 [.metaepoch, .trimNotProgressing] as σ₁ ∧
        Served cfg env spawn σ₁ .trimRedundant a σ₂ ∧ σ₁.st.levels[1]? = some ids ∧
        Hgs.trimRedundant cfg ids σ₁.st = some st ∧
        (st.nodes[2]?).map Hgs.Node.alive = some false ∧ (σ₂.st.nodes[2]?).map Hgs.Node.alive = some true := by
  refine ⟨exConf 2, exEnv, exSpawn, [1, 1], by decide, fun _ _ => by simp [exEnv], by decide, ?_⟩
  have h : ((seqMetaepoch (exConf 2) exEnv (decode exThree)).bind fun σ =>
      ((seqTrim (exConf 2) σ).st.levels[1]?).bind fun ids =>
      (Hgs.trimRedundant (exConf 2) ids (seqTrim (exConf 2) σ).st).map fun st =>
        ((st.nodes[2]?).map Hgs.Node.alive, ((seqTrim (exConf 2) σ).st.nodes[2]?).map Hgs.Node.alive)) =
      some (some false, some true) := by decide +kernel
  obtain ⟨σ₁, h1, h⟩ := Option.bind_eq_some_iff.1 h
  obtain ⟨ids, h2, h⟩ := Option.bind_eq_some_iff.1 h
  obtain ⟨st, h3, h⟩ := Option.map_eq_some_iff.1 h
  obtain ⟨h4, h5⟩ := Prod.mk.inj h
  exact ⟨decode exThree, _, _, _, _, ids, st, exThree_reached 2 (.inr rfl),
    .cons (.metaepoch h1) (.cons (.trim _) (.nil _ _)), .redundant _, h2, h3, h4, h5⟩

/-- C87, violated: a node can get more living sprouts than allowed, by one request. -/
theorem C87_limit_violated :
    ∃ (cfg : Hgs.Conf ℚ ℚ) (env : ℕ → ℕ → Hgs.Report ℚ ℚ) (spawn : ℕ → ℕ → ℕ → List ℚ) (ratio : List ℚ),
      cfg.maxLevel ≤ 2 ∧ (∀ n k, (env n k).costs ≠ []) ∧ cfg.maxLevel < ratio.length ∧
      ∃ σ n, Reachable cfg env spawn ratio σ ∧ σ.st.nodes[0]? = some n ∧ cfg.maxSprouts <
        (n.sprouts.filter fun j => ((σ.st.nodes[j]?).map Hgs.Node.alive).getD false).length :=
  ⟨exConf 1, exEnv, exSpawn, [1, 1], by decide, fun _ _ => by simp [exEnv], by decide, decode exThree, _,
    exThree_reached 1 (.inl rfl), rfl, by decide⟩

end Evogil.Dist
