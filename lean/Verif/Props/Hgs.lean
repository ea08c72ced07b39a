import Verif.Lemmas.HgsUnder
import Verif.Lemmas.HgsTrim
import Mathlib.Algebra.Order.Ring.Rat
import Mathlib.Tactic.NormNum

/-!
# C38–C40, C77, C78: the tree of the sequential HGS
-/

set_option linter.unusedSectionVars false

namespace Evogil.Hgs

variable {D K : Type*} [Field K] [LinearOrder K]

/-- The states HGS can be in after any number of steps, with the list of thresholds it then holds. -/
def Reachable (cfg : Conf D K) (ratio₀ : List K) (st : State D K) (ratio : List K) : Prop :=
  ∃ (fuel : ℕ) (envs : List (ℕ → Report D K)), cfg.maxLevel < fuel ∧
    run cfg fuel envs init ratio₀ = some (st, ratio)

theorem Reachable.core {cfg : Conf D K} (hm : cfg.maxLevel ≤ 2) {r₀ : List K} (h₀ : 3 ≤ r₀.length)
    {st : State D K} {ratio : List K} (h : Reachable cfg r₀ st ratio) :
    Core cfg st ∧ 3 ≤ ratio.length ∧ ∃ n ∈ st.nodes, n.alive = true := by
  obtain ⟨fuel, envs, hf, h⟩ := h
  obtain ⟨s, r, e, c, hl, ha⟩ := run_steps_core hm hf envs init r₀ h₀ (init_core cfg)
    ⟨newNode 0 none, by simp [init], rfl⟩
  rw [h] at e; cases e
  exact ⟨c, hl ▸ h₀, ha⟩

/-! ## C38 -/

/-- C38: for every number of steps and everything the drivers may report, the steps succeed (no exception;
depth of the recursion at most `max_level + 1`), the nodes form one tree with correct per-level lists, and
no node is both alive and ripe. -/
theorem C38_tree (cfg : Conf D K) (hm : cfg.maxLevel ≤ 2) (fuel : ℕ) (hf : cfg.maxLevel < fuel)
    (ratio : List K) (hr : 3 ≤ ratio.length) (envs : List (ℕ → Report D K)) :
    ∃ st ratio', run cfg fuel envs init ratio = some (st, ratio') ∧ Tree cfg.maxLevel st ∧
      (∀ n ∈ st.nodes, ¬ (n.alive = true ∧ n.ripe = true)) := by
  obtain ⟨s, r, e, c, _, _⟩ := run_steps_core hm hf envs init ratio hr (init_core cfg)
    ⟨newNode 0 none, by simp [init], rfl⟩
  exact ⟨s, r, e, c.tree, c.flags⟩

/-- C38, consequence: `level_nodes[0]` is the root alone. -/
theorem C38_root_level (cfg : Conf D K) (hm : cfg.maxLevel ≤ 2) {r₀ : List K} (hr : 3 ≤ r₀.length)
    {st : State D K} {ratio : List K} (h : Reachable cfg r₀ st ratio) : st.levels[0]? = some [0] :=
  (h.core hm hr).1.tree.level_zero

/-! ## C39 -/

/-- C39: the cost is the weighted sum of the nodes' costs. -/
theorem C39_cost (cfg : Conf D K) (hm : cfg.maxLevel ≤ 2) {r₀ : List K} (hr : 3 ≤ r₀.length)
    {st : State D K} {ratio : List K} (h : Reachable cfg r₀ st ratio) :
    st.cost = (st.nodes.map fun n => cfg.modifier n.level * n.cost).sum :=
  (h.core hm hr).1.cost

theorem costLoop_last (m : K) : ∀ (cs : List K) (c : K), (costLoop m c cs).1 = (c :: cs).getLast (by simp)
  | [], c => rfl
  | a :: cs, c => by
    simp only [costLoop, costLoop_last m cs a, List.getLast_cons_cons]

theorem runMetaepoch_get_tree {cfg : Conf D K} {st st' : State D K} (t : Tree cfg.maxLevel st) (env : ℕ → Report D K)
    (hm : cfg.maxLevel ≤ 2) (h : runMetaepoch cfg env st = some st') {i : ℕ} {n : Node D K}
    (hn : st.nodes[i]? = some n) : st'.nodes[i]? = some (runNode cfg (env i) n).1 := by
  unfold runMetaepoch at h
  obtain ⟨l2, h2⟩ : ∃ ids, st.levels[2]? = some ids := ⟨_, t.level_list (by omega)⟩
  obtain ⟨l1, h1⟩ : ∃ ids, st.levels[1]? = some ids := ⟨_, t.level_list (by omega)⟩
  obtain ⟨l0, h0⟩ : ∃ ids, st.levels[0]? = some ids := ⟨_, t.level_list (by omega)⟩
  simp only [h2, h1, h0] at h
  have dis : ∀ {l l' : ℕ} {a b : List ℕ}, l ≤ 2 → l' ≤ 2 → l ≠ l' → st.levels[l]? = some a →
      st.levels[l']? = some b → List.Disjoint a b := by
    intro l l' a b hl hl' hne ha hb x hx hx'
    obtain ⟨q, hq, e⟩ := (t.mem_level hl ha).1 hx
    obtain ⟨q', hq', e'⟩ := (t.mem_level hl' hb).1 hx'
    rw [hq] at hq'; cases hq'; exact hne (e.symm.trans e')
  have hnd : (l2 ++ l1 ++ l0).Nodup := by
    rw [List.nodup_append', List.nodup_append']
    refine ⟨⟨t.nodup_level (by omega) h2, t.nodup_level (by omega) h1,
      dis (by omega) (by omega) (by omega) h2 h1⟩, t.nodup_level (by omega) h0, ?_⟩
    intro x hx hx'
    rcases List.mem_append.1 hx with hx | hx
    · exact dis (by omega) (by omega) (by omega) h2 h0 hx hx'
    · exact dis (by omega) (by omega) (by omega) h1 h0 hx hx'
  rw [runNodes_get cfg env _ st st' hnd h i n hn, if_pos]
  have hd := t.depth n (List.mem_of_getElem? hn)
  have : n.level = 0 ∨ n.level = 1 ∨ n.level = 2 := by omega
  simp only [List.mem_append]
  rcases this with e | e | e
  · exact .inr ((t.mem_level (by omega) h0).2 ⟨n, hn, e⟩)
  · exact .inl (.inr ((t.mem_level (by omega) h1).2 ⟨n, hn, e⟩))
  · exact .inl (.inl ((t.mem_level (by omega) h2).2 ⟨n, hn, e⟩))

theorem runMetaepoch_get {cfg : Conf D K} {st st' : State D K} (c : Core cfg st) (env : ℕ → Report D K)
    (hm : cfg.maxLevel ≤ 2) (h : runMetaepoch cfg env st = some st') {i : ℕ} {n : Node D K}
    (hn : st.nodes[i]? = some n) : st'.nodes[i]? = some (runNode cfg (env i) n).1 :=
  runMetaepoch_get_tree c.tree env hm h hn

/-- What happens to the cost of a node in one step. -/
theorem step_node_cost {cfg : Conf D K} (hm : cfg.maxLevel ≤ 2) {fuel : ℕ} (hf : cfg.maxLevel < fuel)
    {ratio : List K} (hr : 3 ≤ ratio.length) {st st' : State D K} {ratio' : List K} (c : Core cfg st)
    (env : ℕ → Report D K) (h : step cfg fuel env st ratio = some (st', ratio')) :
    (∀ (i : ℕ) (n : Node D K), st.nodes[i]? = some n → ∃ n', st'.nodes[i]? = some n' ∧ n'.level = n.level ∧
      n'.cost = if n.alive then (n.cost :: (env i).costs).getLast (by simp) else n.cost) ∧
    ∀ (i : ℕ) (n' : Node D K), st'.nodes[i]? = some n' → st.nodes.length ≤ i → n'.cost = 0 := by
  obtain ⟨s1, e1, c1⟩ := run_core c env
  obtain ⟨s2, e2, c2, t2, h2⟩ := trimSprouts_core hm hr c1
  obtain ⟨q, hq, _⟩ := Option.map_eq_some_iff.1 c2.tree.root
  obtain ⟨s3, e3, c3, d3, x3⟩ := release_core hm fuel 0 s2 c2 (fun n hn _ => h2 n hn) q hq (by omega)
  simp only [step, e1, Option.bind_some, e2, e3] at h
  have hw : ∀ (i : ℕ) (n : Node D K), s3.nodes[i]? = some n → ∃ n', st'.nodes[i]? = some n' ∧
      n'.level = n.level ∧ n'.cost = n.cost := by
    intro i n hn
    unfold reviveRoot at h
    split at h
    · split at h
      · cases h
      · cases h
        refine ⟨wake n, by simp [hn], ?_, ?_⟩ <;> (unfold wake; split <;> rfl)
    · cases h; exact ⟨n, hn, rfl, rfl⟩
  have hw' : ∀ (i : ℕ) (n' : Node D K), st'.nodes[i]? = some n' → ∃ n, s3.nodes[i]? = some n ∧
      n'.cost = n.cost := by
    intro i n' hn'
    unfold reviveRoot at h
    split at h
    · split at h
      · cases h
      · cases h
        simp only [List.getElem?_map] at hn'
        obtain ⟨m, hm', rfl⟩ := Option.map_eq_some_iff.1 hn'
        exact ⟨m, hm', by unfold wake; split <;> rfl⟩
    · cases h; exact ⟨n', hn', rfl⟩
  constructor
  · intro i n hn
    have g1 := runMetaepoch_get c env hm e1 hn
    obtain ⟨m2, g2, r2⟩ := forall₂_get' t2 g1
    obtain ⟨sp, g3⟩ := x3 i m2 g2
    obtain ⟨m4, g4, l4, k4⟩ := hw i _ g3
    have hs1 := runNode_shape cfg (env i) n
    have hs2 := r2.shape
    simp only [shape, Prod.mk.injEq] at hs1 hs2
    refine ⟨m4, g4, by rw [l4]; exact hs2.1.trans hs1.1, ?_⟩
    rw [k4]; simp only
    rw [r2.cost]
    unfold runNode
    split
    · simp only [(afterMetaepoch_flags _ _).2.2.1]
      exact costLoop_last _ _ _
    · rfl
  · intro i n' hn' hi
    obtain ⟨m3, g3, k3⟩ := hw' i n' hn'
    rw [k3]
    have hlen : s2.nodes.length ≤ i := by
      have a1 := t2.length_eq
      have a2 : s1.nodes.length = st.nodes.length := by
        unfold runMetaepoch at e1
        split at e1
        · exact (runNodes_spec cfg env _ _ _ e1).1.length
        · cases e1
      omega
    have e3' := e3
    have hg := (Grown.release hm fuel 0 s2 s3 (Grown.refl c2 (fun n hn _ => h2 n hn)) e3).1
    -- fresh nodes have never run
    have hz : ∀ (fuel i : ℕ) (s s' : State D K), (∀ (j : ℕ) (n : Node D K), s.nodes[j]? = some n →
        s2.nodes.length ≤ j → n.cost = 0) → release cfg fuel i s = some s' →
        ∀ (j : ℕ) (n : Node D K), s'.nodes[j]? = some n → s2.nodes.length ≤ j → n.cost = 0 := by
      have hloop : ∀ (i level : ℕ) (ds : List D) (k : ℕ) (s s' : State D K),
          (∀ (j : ℕ) (n : Node D K), s.nodes[j]? = some n → s2.nodes.length ≤ j → n.cost = 0) →
          releaseLoop cfg i level ds k s = some s' →
          ∀ (j : ℕ) (n : Node D K), s'.nodes[j]? = some n → s2.nodes.length ≤ j → n.cost = 0 := by
        intro i level ds
        induction ds with
        | nil => intro k s s' hs h; cases h; exact hs
        | cons d ds ih =>
          intro k s s' hs h
          rw [releaseLoop] at h
          split at h
          · cases h; exact hs
          · split at h
            · cases h
            · split at h
              · cases h
              · split at h
                · exact ih k s s' hs h
                · refine ih (k + 1) _ s' (fun j n hn hj => ?_) h
                  rcases addSprout_mem s i level _ d hn with ⟨rfl, _⟩ | ⟨m, sp, hm', rfl⟩
                  · rfl
                  · exact hs j m hm' hj
      intro fuel
      induction fuel with
      | zero => intro i s s' _ h; cases h
      | succ fuel ih =>
        intro i s s' hs h
        rw [release] at h
        split at h
        · cases h
        · rename_i n hn
          split at h
          · have hfold : ∀ (js : List ℕ) (a b : State D K), (∀ (j : ℕ) (n : Node D K),
                a.nodes[j]? = some n → s2.nodes.length ≤ j → n.cost = 0) →
                js.foldlM (fun s j => release cfg fuel j s) a = some b →
                ∀ (j : ℕ) (n : Node D K), b.nodes[j]? = some n → s2.nodes.length ≤ j → n.cost = 0 := by
              intro js
              induction js with
              | nil => intro a b ha h; cases h; exact ha
              | cons x js ihj =>
                intro a b ha h
                rw [List.foldlM_cons] at h
                obtain ⟨a1, h1, h2⟩ := Option.bind_eq_some_iff.1 h
                exact ihj a1 b (ih x a a1 ha h1) h2
            split at h
            · cases h
            · rename_i sx hsx
              have := hfold _ _ _ hs hsx
              split at h
              · exact hloop _ _ _ _ _ _ this h
              · cases h; exact this
          · cases h; exact hs
    exact hz fuel 0 s2 s3 (fun j n hn hj => by
      have := (List.getElem?_eq_some_iff.1 hn).1; omega) e3 i m3 g3 hlen

/-- C39, the meaning of the summands: after a step the cost of a node that was alive is the one its driver
reported last, that of a finished node is unchanged and that of a new sprout is 0. -/
theorem C39_node_cost (cfg : Conf D K) (hm : cfg.maxLevel ≤ 2) {fuel : ℕ} (hf : cfg.maxLevel < fuel)
    {r₀ : List K} (hr : 3 ≤ r₀.length) {st st' : State D K} {ratio ratio' : List K}
    (h : Reachable cfg r₀ st ratio) (env : ℕ → Report D K)
    (hs : step cfg fuel env st ratio = some (st', ratio')) :
    (∀ (i : ℕ) (n : Node D K), st.nodes[i]? = some n → ∃ n', st'.nodes[i]? = some n' ∧ n'.level = n.level ∧
      n'.cost = if n.alive then (n.cost :: (env i).costs).getLast (by simp) else n.cost) ∧
    ∀ (i : ℕ) (n' : Node D K), st'.nodes[i]? = some n' → st.nodes.length ≤ i → n'.cost = 0 :=
  step_node_cost hm hf (h.core hm hr).2.1 (h.core hm hr).1 env hs

/-- C39: the cost never decreases, provided that the modifiers are not negative and no driver reports less
than before. -/
theorem C39_monotone [IsStrictOrderedRing K] (cfg : Conf D K) (hm : cfg.maxLevel ≤ 2) {fuel : ℕ}
    (hf : cfg.maxLevel < fuel) {r₀ : List K} (hr : 3 ≤ r₀.length) {st st' : State D K} {ratio ratio' : List K}
    (h : Reachable cfg r₀ st ratio) (env : ℕ → Report D K) (hmod : ∀ l, 0 ≤ cfg.modifier l)
    (hrep : ∀ (i : ℕ) (n : Node D K), st.nodes[i]? = some n → n.alive = true →
      ∀ c ∈ (env i).costs, n.cost ≤ c)
    (hs : step cfg fuel env st ratio = some (st', ratio')) : st.cost ≤ st'.cost := by
  obtain ⟨c, hl, _⟩ := h.core hm hr
  obtain ⟨s, r, e, c', _⟩ := step_core hm hf hl c env
  rw [hs] at e; cases e
  obtain ⟨h1, h2⟩ := step_node_cost hm hf hl c env hs
  rw [c.cost, c'.cost]
  unfold weighted
  have hpre : ∀ (l l' : List (Node D K)), (∀ (i : ℕ) (n : Node D K), l[i]? = some n → ∃ n', l'[i]? = some n' ∧
        cfg.modifier n.level * n.cost ≤ cfg.modifier n'.level * n'.cost) →
      (∀ (i : ℕ) (n' : Node D K), l'[i]? = some n' → l.length ≤ i → n'.cost = 0) →
      (l.map fun n => cfg.modifier n.level * n.cost).sum ≤
        (l'.map fun n => cfg.modifier n.level * n.cost).sum := by
    intro l
    induction l with
    | nil =>
      intro l' _ h0
      have : ∀ x ∈ l'.map (fun n => cfg.modifier n.level * n.cost), x = 0 := by
        intro x hx
        obtain ⟨n, hn, rfl⟩ := List.mem_map.1 hx
        obtain ⟨i, hi⟩ := List.mem_iff_getElem?.1 hn
        rw [h0 i n hi (Nat.zero_le _), mul_zero]
      rw [List.sum_eq_zero this]; simp
    | cons a l ih =>
      intro l' hle h0
      cases l' with
      | nil =>
        obtain ⟨n', hn', _⟩ := hle 0 a rfl
        simp at hn'
      | cons b l' =>
        simp only [List.map_cons, List.sum_cons]
        refine add_le_add ?_ (ih l' (fun i n hn => hle (i + 1) n hn) (fun i n' hn' hi =>
          h0 (i + 1) n' hn' (by simpa using hi)))
        obtain ⟨n', hn', hle'⟩ := hle 0 a rfl
        simp only [List.getElem?_cons_zero, Option.some.injEq] at hn'
        subst hn'; exact hle'
  refine hpre _ _ (fun i n hn => ?_) (fun i n' hn' hi => h2 i n' hn' hi)
  obtain ⟨n', hn', e1, e2⟩ := h1 i n hn
  refine ⟨n', hn', ?_⟩
  rw [e1]
  refine mul_le_mul_of_nonneg_left ?_ (hmod _)
  rw [e2]
  split
  · rename_i ha
    cases hc : (env i).costs with
    | nil => simp
    | cons x xs =>
      rw [List.getLast_cons (by simp)]
      exact hrep i n hn ha _ (by rw [hc]; exact List.getLast_mem _)
  · exact le_rfl

/-! ## C40 -/

/-- C40, first clause: after every number of steps some node is alive. -/
theorem C40_alive_partial (cfg : Conf D K) (hm : cfg.maxLevel ≤ 2) {r₀ : List K} (hr : 3 ≤ r₀.length)
    {st : State D K} {ratio : List K} (h : Reachable cfg r₀ st ratio) : ∃ n ∈ st.nodes, n.alive = true :=
  (h.core hm hr).2.2

/-- C40, second clause: with `s` the state after trimming and sprouting, either some node is alive, and
nothing changes, or exactly the ripe nodes come to life and the three thresholds are halved. -/
theorem C40_revival_partial (cfg : Conf D K) (hm : cfg.maxLevel ≤ 2) {fuel : ℕ} (hf : cfg.maxLevel < fuel)
    {r₀ : List K} (hr : 3 ≤ r₀.length) {st st' : State D K} {ratio ratio' : List K}
    (h : Reachable cfg r₀ st ratio) (env : ℕ → Report D K)
    (hs : step cfg fuel env st ratio = some (st', ratio')) :
    ∃ s : State D K, (((runMetaepoch cfg env st).bind (trimSprouts cfg ratio)).bind
        (release cfg fuel 0) = some s) ∧
      (((∃ n ∈ s.nodes, n.alive = true) ∧ st' = s ∧ ratio' = ratio) ∨
        ((∀ n ∈ s.nodes, n.alive = false) ∧
          (∀ (i : ℕ) (n : Node D K), s.nodes[i]? = some n → ∃ n', st'.nodes[i]? = some n' ∧
            n'.alive = n.ripe ∧ n'.ripe = false) ∧
          ratio'.length = ratio.length ∧
          ∀ (i : ℕ) (q : K), i < 3 → ratio[i]? = some q → ratio'[i]? = some (q / 2))) := by
  obtain ⟨c, hl, _⟩ := h.core hm hr
  obtain ⟨s1, e1, c1⟩ := run_core c env
  obtain ⟨s2, e2, c2, t2, h2⟩ := trimSprouts_core hm hl c1
  obtain ⟨q, hq, _⟩ := Option.map_eq_some_iff.1 c2.tree.root
  obtain ⟨s3, e3, c3, d3, x3⟩ := release_core hm fuel 0 s2 c2 (fun n hn _ => h2 n hn) q hq (by omega)
  refine ⟨s3, by simp [e1, e2, e3], ?_⟩
  simp only [step, e1, Option.bind_some, e2, e3] at hs
  unfold reviveRoot at hs
  split at hs
  · rename_i h0
    rw [List.length_eq_zero_iff, List.filter_eq_nil_iff] at h0
    have hd : ∀ n ∈ s3.nodes, n.alive = false := fun n hn => by simpa using h0 n hn
    right
    obtain ⟨r, hr1, hr2⟩ := halve_some hl
    rw [hr1] at hs
    cases hs
    refine ⟨hd, fun i n hn => ⟨wake n, by simp [hn], ?_, ?_⟩, hr2, ?_⟩
    · unfold wake; split
      · rename_i h'; rw [h']
      · rename_i h'; rw [hd n (List.mem_of_getElem? hn)]; simpa using h'
    · unfold wake; split
      · rfl
      · rename_i h'; simpa using h'
    · intro i q hi hq
      match ratio, hr1, hq with
      | a :: b :: c :: rest, hr1, hq =>
        cases hr1
        have : i = 0 ∨ i = 1 ∨ i = 2 := by omega
        rcases this with rfl | rfl | rfl <;> (simp at hq; subst hq; rfl)
  · rename_i h0
    cases hs
    left
    rw [List.length_eq_zero_iff, List.filter_eq_nil_iff] at h0
    push Not at h0
    obtain ⟨n, hn, ha⟩ := h0
    exact ⟨⟨n, hn, ha⟩, rfl, rfl⟩

/-! ### Concrete runs -/

/-- Decision vectors are numbers, two of them are near if they differ by less than 1. -/
def exConf : Conf ℚ ℚ :=
  { maxLevel := 1, maxSprouts := 1, sproutiveness := 1, modifier := fun l => if l = 0 then 1 else 2
    near := fun _ a b => decide ((a - b) ^ 2 < 1), mean := fun l => l.sum / l.length, eps := 0, fl := id }

/-- The same report for the node in every metaepoch but for the cost: the hypervolume never improves
after the first metaepoch. -/
def exEnv (k : ℕ) : ℕ → Report ℚ ℚ := fun i =>
  { costs := [3 * k + 1, 3 * k + 3], pop := [if i = 2 then 10 else 0], delegates := [0, 10]
    hv := if k ∈ [0, 3, 6] then 1 else 2 }

/-- The states of the example are not trivial: after four steps there are two nodes, the root is ripe and
its sprout alive. -/
example : (run exConf 3 ((List.range 4).map exEnv) init [1, 1, 1]).map
    (fun r => r.1.nodes.map fun n => (n.level, n.alive, n.ripe, n.sprouts)) =
    some [(0, false, true, [1]), (1, true, false, [])] := by
  decide +kernel

example : (run exConf 3 ((List.range 4).map exEnv) init [1, 1, 1]).map
    (fun r => (r.1.nodes.map Node.cost, r.1.cost, r.2)) = some ([9, 12], 33, [1, 1, 1]) := by
  decide +kernel

/-- C40, last clause, violated: the list of thresholds that was passed in (`min_progress_ratio` of the
configuration, which is neither copied by the factory nor by HGS) has been changed after nine steps. -/
theorem C40_config_violated :
    ∃ (cfg : Conf ℚ ℚ) (envs : List (ℕ → Report ℚ ℚ)) (ratio : List ℚ), cfg.maxLevel ≤ 2 ∧
      ratio.length = 3 ∧ ∃ st ratio', run cfg 3 envs init ratio = some (st, ratio') ∧ ratio' ≠ ratio := by
  refine ⟨exConf, (List.range 9).map exEnv, [1, 1, 1], by decide, rfl, ?_⟩
  have h : ((run exConf 3 ((List.range 9).map exEnv) init [1, 1, 1]).map (·.2)) =
      some [1 / 2, 1 / 2, 1 / 2] := by decide +kernel
  obtain ⟨⟨st, r⟩, h1, h2⟩ := Option.map_eq_some_iff.1 h
  refine ⟨st, r, h1, ?_⟩
  simp only at h2
  rw [h2]; decide +kernel

/-! ## C77 -/

/-- C77, distance: the node around which a new sprout is created is not near the centre of any node of
that level that has already run. -/
theorem C77_far_partial (cfg : Conf D K) (hm : cfg.maxLevel ≤ 2) {fuel : ℕ} {r₀ : List K} (hr : 3 ≤ r₀.length)
    {st s s' : State D K} {ratio : List K} (h : Reachable cfg r₀ st ratio) (env : ℕ → Report D K)
    (h1 : (runMetaepoch cfg env st).bind (trimSprouts cfg ratio) = some s)
    (h2 : release cfg fuel 0 s = some s') (j : ℕ) (n : Node D K) (hj : s.nodes.length ≤ j)
    (hn : s'.nodes[j]? = some n) :
    n.alive = true ∧ ∃ d, n.seed = some d ∧ ∀ m ∈ s.nodes, m.level = n.level → m.pop ≠ [] →
      ∃ c, m.center = some c ∧ cfg.near n.level d c = false := by
  obtain ⟨c, hl, _⟩ := h.core hm hr
  obtain ⟨s1, e1, c1⟩ := run_core c env
  obtain ⟨s2, e2, c2, t2, hc2⟩ := trimSprouts_core hm hl c1
  simp only [e1, Option.bind_some, e2, Option.some.injEq] at h1
  subst h1
  obtain ⟨g, _⟩ := Grown.release hm fuel 0 s2 s' (Grown.refl c2 (fun n hn _ => hc2 n hn)) h2
  obtain ⟨ha, _, d, hd, hf⟩ := g.fresh j n hn hj
  refine ⟨ha, d, hd, fun m hm' hml hp => ?_⟩
  obtain ⟨c, hc⟩ := Option.isSome_iff_exists.1 (hc2 m hm')
  exact ⟨c, hc, hf m hm' hml hp c hc⟩

/-- C77, limits: only ripe nodes above the last level get sprouts, at most `sproutiveness` in a step, and
when they have got some they have at most `max_sprouts_no` living ones. -/
theorem C77_limits_partial (cfg : Conf D K) (hm : cfg.maxLevel ≤ 2) {fuel : ℕ} (hf : cfg.maxLevel < fuel)
    {r₀ : List K} (hr : 3 ≤ r₀.length) {st s s' : State D K} {ratio : List K}
    (h : Reachable cfg r₀ st ratio) (env : ℕ → Report D K)
    (h1 : (runMetaepoch cfg env st).bind (trimSprouts cfg ratio) = some s)
    (h2 : release cfg fuel 0 s = some s') (i : ℕ) (n n' : Node D K) (hn : s.nodes[i]? = some n)
    (hn' : s'.nodes[i]? = some n') :
    n'.sprouts.length ≤ n.sprouts.length + cfg.sproutiveness ∧
      (n'.sprouts ≠ n.sprouts → n.ripe = true ∧ n.level < cfg.maxLevel ∧
        (n'.sprouts.filter fun k => ((s'.nodes[k]?).map Node.alive).getD false).length ≤
          cfg.maxSprouts) := by
  obtain ⟨c, hl, _⟩ := h.core hm hr
  obtain ⟨s1, e1, c1⟩ := run_core c env
  obtain ⟨s2, e2, c2, t2, hc2⟩ := trimSprouts_core hm hl c1
  simp only [e1, Option.bind_some, e2, Option.some.injEq] at h1
  subst h1
  have hcen : Centred s2 := fun n hn _ => hc2 n hn
  obtain ⟨g, _⟩ := Grown.release hm fuel 0 s2 s' (Grown.refl c2 hcen) h2
  obtain ⟨q, hq, hql⟩ := Option.map_eq_some_iff.1 c2.tree.root
  refine ⟨(release_limit hm fuel 0 s2 s' c2 hcen q hq (by omega) h2 i n n' hn hn').1, fun hne => ?_⟩
  obtain ⟨a, b, c⟩ := g.limit i n n' hn hn' hne
  rw [livingSprouts_eq s' hn'] at c
  exact ⟨a, b, c⟩

/-- C77: while the root is alive nothing sprouts. -/
theorem C77_root_alive (cfg : Conf D K) (hm : cfg.maxLevel ≤ 2) {fuel : ℕ} {r₀ : List K} (hr : 3 ≤ r₀.length)
    {st s s' : State D K} {ratio : List K} (h : Reachable cfg r₀ st ratio) (env : ℕ → Report D K)
    (h1 : (runMetaepoch cfg env st).bind (trimSprouts cfg ratio) = some s)
    (h2 : release cfg fuel 0 s = some s') (n : Node D K) (hn : s.nodes[0]? = some n)
    (ha : n.alive = true) : s' = s := by
  obtain ⟨c, hl, _⟩ := h.core hm hr
  obtain ⟨s1, e1, c1⟩ := run_core c env
  obtain ⟨s2, e2, c2, t2, hc2⟩ := trimSprouts_core hm hl c1
  simp only [e1, Option.bind_some, e2, Option.some.injEq] at h1
  subst h1
  have hnr : ¬ n.ripe = true := fun hr => c2.flags n (List.mem_of_getElem? hn) ⟨ha, hr⟩
  cases fuel with
  | zero => cases h2
  | succ fuel =>
    rw [release] at h2
    simp only [hn, if_neg hnr, Option.some.injEq] at h2
    exact h2.symm

/-- C77, violated: after a revival a node can have more living sprouts than `max_sprouts_no`. -/
theorem C77_violated :
    ∃ (cfg : Conf ℚ ℚ) (envs : List (ℕ → Report ℚ ℚ)) (ratio : List ℚ), cfg.maxLevel ≤ 2 ∧
      ratio.length = 3 ∧ ∃ st ratio' n, run cfg 3 envs init ratio = some (st, ratio') ∧
      st.nodes[0]? = some n ∧ cfg.maxSprouts <
        (n.sprouts.filter fun k => ((st.nodes[k]?).map Node.alive).getD false).length := by
  refine ⟨exConf, (List.range 9).map exEnv, [1, 1, 1], by decide, rfl, ?_⟩
  have h : ((run exConf 3 ((List.range 9).map exEnv) init [1, 1, 1]).map fun r =>
      (r.1.nodes[0]?).map fun n =>
        (n.sprouts.filter fun k => ((r.1.nodes[k]?).map Node.alive).getD false).length) =
      some (some 2) := by decide +kernel
  obtain ⟨⟨st, r⟩, h1, h2⟩ := Option.map_eq_some_iff.1 h
  obtain ⟨n, h3, h4⟩ := Option.map_eq_some_iff.1 h2
  exact ⟨st, r, n, h1, h3, by simp only at h4; rw [h4]; decide⟩

/-! ## C78 -/

/-- C78: what trimming does. Finished nodes stay as they are. A living node without progress is stopped and
becomes ripe. Any other living node is stopped, without becoming ripe, exactly if its centre is near the
centre of a ripe node of its level, or of an earlier one of its level that was alive before trimming. -/
theorem C78_trim (cfg : Conf D K) (hm : cfg.maxLevel ≤ 2) {r₀ : List K} (hr : 3 ≤ r₀.length)
    {st s s' : State D K} {ratio : List K} (h : Reachable cfg r₀ st ratio) (env : ℕ → Report D K)
    (h1 : runMetaepoch cfg env st = some s) (h2 : trimSprouts cfg ratio s = some s') (i : ℕ) (n : Node D K)
    (hn : s.nodes[i]? = some n) :
    ∃ n', s'.nodes[i]? = some n' ∧ (n.alive = false → n' = n) ∧
      (n.alive = true → Stalled cfg ratio n → n'.alive = false ∧ n'.ripe = true) ∧
      (n.alive = true → ¬ Stalled cfg ratio n → n'.ripe = false ∧ n'.center = some (cfg.mean n.pop) ∧
        (n'.alive = false ↔ ∃ j m m' d, s.nodes[j]? = some m ∧ s'.nodes[j]? = some m' ∧ m.level = n.level ∧
          (m'.ripe = true ∨ (j < i ∧ m.alive = true)) ∧ m'.center = some d ∧
          cfg.near n.level d (cfg.mean n.pop) = true)) := by
  obtain ⟨c, hl, _⟩ := h.core hm hr
  obtain ⟨s1, e1, c1⟩ := run_core c env
  rw [h1] at e1; cases e1
  obtain ⟨a2, f2, d2, r2, _⟩ := trimAll_core hm hl c1 (l := 2) (by omega)
  obtain ⟨a1, f1, d1, r1, _⟩ := trimAll_core hm hl d2 (l := 1) (by omega)
  obtain ⟨a0, f0, d0, r0, _⟩ := trimAll_core hm hl d1 (l := 0) (by omega)
  have : s' = a0 := by
    simp only [trimSprouts, f2, f1, f0, Option.bind_some, Option.some.injEq] at h2
    exact h2.symm
  subst this
  obtain ⟨k2, g2⟩ := trimAll_get c1 (by omega) f2
  obtain ⟨k1, g1⟩ := trimAll_get d2 (by omega) f1
  obtain ⟨k0, g0⟩ := trimAll_get d1 (by omega) f0
  have hflags := c1.flags n (List.mem_of_getElem? hn)
  have hd := c1.tree.depth n (List.mem_of_getElem? hn)
  -- the same statement for a level trimmed between two states which agree with `s`, `s'` on it
  have key : ∀ (l : ℕ) (u v : State D K), n.level = l →
      (∀ (j : ℕ) (m : Node D K), m.level = l → (u.nodes[j]? = some m ↔ s.nodes[j]? = some m)) →
      (∀ (j : ℕ) (m : Node D K), m.level = l → (v.nodes[j]? = some m ↔ s'.nodes[j]? = some m)) →
      List.Forall₂ TrimRel s.nodes s'.nodes → List.Forall₂ TrimRel u.nodes v.nodes →
      (∀ (i : ℕ) (n : Node D K), u.nodes[i]? = some n → n.level = l →
      ∃ n', v.nodes[i]? = some n' ∧
        (n.alive = false → n' = n) ∧
        (n.alive = true → Stalled cfg ratio n →
          n' = { n with alive := false, ripe := true, center := some (cfg.mean n.pop) }) ∧
        (n.alive = true → ¬ Stalled cfg ratio n →
          n' = { n with alive := n'.alive, center := some (cfg.mean n.pop) } ∧
          (n'.alive = false ↔ ∃ j m m' d, u.nodes[j]? = some m ∧ v.nodes[j]? = some m' ∧ m.level = l ∧
            (m'.ripe = true ∨ (j < i ∧ m.alive = true)) ∧ m'.center = some d ∧
            cfg.near l d (cfg.mean n.pop) = true))) →
      ∃ n', s'.nodes[i]? = some n' ∧ (n.alive = false → n' = n) ∧
      (n.alive = true → Stalled cfg ratio n → n'.alive = false ∧ n'.ripe = true) ∧
      (n.alive = true → ¬ Stalled cfg ratio n → n'.ripe = false ∧ n'.center = some (cfg.mean n.pop) ∧
        (n'.alive = false ↔ ∃ j m m' d, s.nodes[j]? = some m ∧ s'.nodes[j]? = some m' ∧ m.level = n.level ∧
          (m'.ripe = true ∨ (j < i ∧ m.alive = true)) ∧ m'.center = some d ∧
          cfg.near n.level d (cfg.mean n.pop) = true)) := by
    intro l u v hnl hu hv hss huv g
    have hlev : ∀ {a b : List (Node D K)}, List.Forall₂ TrimRel a b → ∀ {j : ℕ} {m m' : Node D K},
        a[j]? = some m → b[j]? = some m' → m'.level = m.level := by
      intro a b hab j m m' hm hm'
      obtain ⟨q, hq, r⟩ := forall₂_get hab hm'
      rw [hm] at hq; cases hq
      have := r.shape
      simp only [shape, Prod.mk.injEq] at this
      exact this.1
    have hun := (hu i n hnl).2 hn
    obtain ⟨n', hn', p1, p2, p3⟩ := g i n hun hnl
    refine ⟨n', (hv i n' ((hlev huv hun hn').trans hnl)).1 hn', p1, fun ha hs => ?_, fun ha hs => ?_⟩
    · rw [p2 ha hs]; exact ⟨rfl, rfl⟩
    · obtain ⟨q1, q2⟩ := p3 ha hs
      refine ⟨?_, by rw [q1], q2.trans ?_⟩
      · rw [q1]; simp only
        by_contra hr; exact hflags ⟨ha, by simpa using hr⟩
      · rw [hnl]
        constructor
        · rintro ⟨j, m, m', d, x1, x2, x3, x4⟩
          exact ⟨j, m, m', d, (hu j m x3).1 x1, (hv j m' ((hlev huv x1 x2).trans x3)).1 x2, x3, x4⟩
        · rintro ⟨j, m, m', d, x1, x2, x3, x4⟩
          exact ⟨j, m, m', d, (hu j m x3).2 x1, (hv j m' ((hlev hss x1 x2).trans x3)).2 x2, x3, x4⟩
  have hall := forall₂_trans TrimRel.trans (forall₂_trans TrimRel.trans r2 r1) r0
  -- a level which is not trimmed stays the same
  have hkeep : ∀ {l : ℕ} {u v : State D K}, (∀ (i : ℕ) (n : Node D K), u.nodes[i]? = some n → n.level ≠ l →
      v.nodes[i]? = some n) → List.Forall₂ TrimRel u.nodes v.nodes → ∀ (j : ℕ) (m : Node D K),
      m.level ≠ l → (u.nodes[j]? = some m ↔ v.nodes[j]? = some m) := by
    intro l u v hk huv j m hml
    refine ⟨fun h => hk j m h hml, fun h => ?_⟩
    obtain ⟨q, hq, r⟩ := forall₂_get huv h
    have := r.shape
    simp only [shape, Prod.mk.injEq] at this
    have := hk j q hq (this.1 ▸ hml)
    rw [h] at this; cases this; exact hq
  have w2 := hkeep k2 r2
  have w1 := hkeep k1 r1
  have w0 := hkeep k0 r0
  have : n.level = 0 ∨ n.level = 1 ∨ n.level = 2 := by omega
  rcases this with e | e | e
  · refine key 0 a1 s' e (fun j m hml => ?_) (fun j m _ => Iff.rfl) hall r0 g0
    exact ((w2 j m (by omega)).trans (w1 j m (by omega))).symm
  · refine key 1 a2 a1 e (fun j m hml => ?_) (fun j m hml => ?_) hall r1 g1
    · exact (w2 j m (by omega)).symm
    · exact w0 j m (by omega)
  · refine key 2 s a2 e (fun j m _ => Iff.rfl) (fun j m hml => ?_) hall r2 g2
    exact (w1 j m (by omega)).trans (w0 j m (by omega))

/-- C78, consequence: the living nodes of a level are pairwise apart, and apart from the ripe ones. -/
theorem C78_apart (cfg : Conf D K) (hm : cfg.maxLevel ≤ 2) {r₀ : List K} (hr : 3 ≤ r₀.length)
    {st s s' : State D K} {ratio : List K} (h : Reachable cfg r₀ st ratio) (env : ℕ → Report D K)
    (h1 : runMetaepoch cfg env st = some s) (h2 : trimSprouts cfg ratio s = some s') (i j : ℕ)
    (n m : Node D K) (hn : s'.nodes[i]? = some n) (hm' : s'.nodes[j]? = some m) (hl : m.level = n.level)
    (hna : n.alive = true) (hma : m.ripe = true ∨ (m.alive = true ∧ j < i)) (c d : D)
    (hc : n.center = some c) (hd : m.center = some d) : cfg.near n.level d c = false := by
  obtain ⟨c0, hlr, _⟩ := h.core hm hr
  obtain ⟨s1, e1, c1⟩ := run_core c0 env
  rw [h1] at e1; cases e1
  obtain ⟨s2, e2, c2, t2, _⟩ := trimSprouts_core hm hlr c1
  rw [h2] at e2; cases e2
  obtain ⟨n0, hn0, r⟩ := forall₂_get t2 hn
  obtain ⟨m0, hm0, r'⟩ := forall₂_get t2 hm'
  have hs1 := r.shape
  have hs2 := r'.shape
  simp only [shape, Prod.mk.injEq] at hs1 hs2
  obtain ⟨n', hn', p1, p2, p3⟩ := C78_trim cfg hm hr h env h1 h2 i n0 hn0
  rw [hn] at hn'; cases hn'
  have ha0 : n0.alive = true := by
    by_contra hne
    have := p1 (by simpa using hne)
    subst this; exact hne hna
  have hst : ¬ Stalled cfg ratio n0 := fun hs => by
    have := (p2 ha0 hs).1; rw [hna] at this; cases this
  obtain ⟨q1, q2, q3⟩ := p3 ha0 hst
  rw [hc] at q2; cases q2
  by_contra hnear
  have : n.alive = false := q3.2 ⟨j, m0, m, d, hm0, hm', by rw [← hs2.1, hl, hs1.1], by
    rcases hma with h' | ⟨h', hlt⟩
    · exact .inl h'
    · refine .inr ⟨hlt, ?_⟩
      by_contra hne
      have := r'.dead (by simpa using hne)
      subst this; exact hne h', hd, by rw [← hs1.1]; simpa using hnear⟩
  rw [hna] at this; cases this

/-- C78: a node stopped as redundant never runs again: it is the same after every further step. -/
theorem C78_redundant_final (cfg : Conf D K) (hm : cfg.maxLevel ≤ 2) {fuel : ℕ} (hf : cfg.maxLevel < fuel)
    {r₀ : List K} (hr : 3 ≤ r₀.length) {st st' : State D K} {ratio ratio' : List K}
    (h : Reachable cfg r₀ st ratio) (env : ℕ → Report D K)
    (hs : step cfg fuel env st ratio = some (st', ratio')) (i : ℕ) (n : Node D K)
    (hn : st.nodes[i]? = some n) (ha : n.alive = false) (hri : n.ripe = false) :
    st'.nodes[i]? = some n := by
  obtain ⟨c, hl, _⟩ := h.core hm hr
  obtain ⟨s1, e1, c1⟩ := run_core c env
  obtain ⟨s2, e2, c2, t2, hc2⟩ := trimSprouts_core hm hl c1
  obtain ⟨q, hq, _⟩ := Option.map_eq_some_iff.1 c2.tree.root
  obtain ⟨s3, e3, c3, d3, x3⟩ := release_core hm fuel 0 s2 c2 (fun n hn _ => hc2 n hn) q hq (by omega)
  simp only [step, e1, Option.bind_some, e2, e3] at hs
  have g1 := runMetaepoch_get c env hm e1 hn
  have : (runNode cfg (env i) n).1 = n := (runNode_rel cfg (env i) n).dead ha
  rw [this] at g1
  obtain ⟨m2, g2, r2⟩ := forall₂_get' t2 g1
  have := r2.dead ha
  subst this
  obtain ⟨g, _⟩ := Grown.release hm fuel 0 s2 s3 (Grown.refl c2 (fun n hn _ => hc2 n hn)) e3
  obtain ⟨sp, g3⟩ := x3 i m2 g2
  have hsp : m2.sprouts ++ sp = m2.sprouts := by
    by_contra hne
    have := (g.limit i m2 _ g2 g3 hne).1
    rw [hri] at this; cases this
  have g3' : s3.nodes[i]? = some m2 := by rw [g3, hsp]
  unfold reviveRoot at hs
  split at hs
  · split at hs
    · cases hs
    · cases hs
      simp [g3', wake, hri]
  · cases hs; exact g3'

/-- Non-trivial case: two sprouts at the same place, the younger one is stopped and not ripe. -/
example : (trimRedundant exConf [1, 2] (⟨[newNode 0 none, { newNode 1 (some 0) with pop := [0] },
    { newNode 1 (some 0) with pop := [1 / 2] }], [[0], [1, 2], []], 0⟩ : State ℚ ℚ)).map
    (fun s => s.nodes.map fun n => (n.alive, n.ripe)) =
    some [(true, false), (true, false), (false, false)] := by decide +kernel

end Evogil.Hgs
