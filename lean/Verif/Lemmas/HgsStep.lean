import Verif.Lemmas.HgsTree

/-! # The invariant of HGS through the phases of a step -/

set_option linter.unusedSectionVars false

namespace Evogil.Hgs

variable {D K : Type*} [Field K] [LinearOrder K]

/-- The invariant which holds between any two phases. -/
structure Core (cfg : Conf D K) (st : State D K) : Prop where
  tree : Tree cfg.maxLevel st
  flags : ∀ n ∈ st.nodes, ¬ (n.alive = true ∧ n.ripe = true)
  root : ∀ n, st.nodes[0]? = some n → (n.alive || n.ripe) = true
  dead : ∀ n ∈ st.nodes, n.alive = false → n.center.isSome
  cost : st.cost = weighted cfg st

/-- Nodes with a population know their centre. -/
def Centred (st : State D K) : Prop := ∀ n ∈ st.nodes, n.pop ≠ [] → n.center.isSome

theorem init_core (cfg : Conf D K) : Core cfg (init : State D K) := by
  refine ⟨⟨rfl, ?_, ?_, ?_, ?_⟩, ?_, ?_, ?_, ?_⟩
  · simp [init, newNode]
  · intro p n s hn hs
    cases p with
    | zero => simp [init] at hn; subst hn; simp [newNode] at hs
    | succ p => simp [init] at hn
  · intro n hn; simp [init] at hn; subst hn; simp [newNode]
  · simp [init, newNode]
  · intro n hn; simp [init] at hn; subst hn; simp [newNode]
  · intro n hn; simp [init] at hn; subst hn; simp [newNode]
  · intro n hn; simp [init] at hn; subst hn; simp [newNode]
  · simp [init, weighted, newNode]

theorem init_centred : Centred (init : State D K) := by
  intro n hn; simp [init] at hn; subst hn; simp [newNode]

theorem run_core {cfg : Conf D K} {st : State D K} (c : Core cfg st) (env : ℕ → Report D K) :
    ∃ st', runMetaepoch cfg env st = some st' ∧ Core cfg st' := by
  unfold runMetaepoch
  obtain ⟨l2, h2⟩ : ∃ ids, st.levels[2]? = some ids := ⟨_, c.tree.level_list (by omega)⟩
  obtain ⟨l1, h1⟩ : ∃ ids, st.levels[1]? = some ids := ⟨_, c.tree.level_list (by omega)⟩
  obtain ⟨l0, h0⟩ : ∃ ids, st.levels[0]? = some ids := ⟨_, c.tree.level_list (by omega)⟩
  simp only [h2, h1, h0]
  have hlt : ∀ {l : ℕ} {ids : List ℕ}, l ≤ 2 → st.levels[l]? = some ids → ∀ i ∈ ids,
      i < st.nodes.length := fun hl h i hi => by
    obtain ⟨n, hn, _⟩ := (c.tree.mem_level hl h).1 hi
    exact (List.getElem?_eq_some_iff.1 hn).1
  obtain ⟨st', hs⟩ := runNodes_some cfg env (l2 ++ l1 ++ l0) st (by
    intro i hi
    rw [List.mem_append, List.mem_append] at hi
    rcases hi with (hi | hi) | hi
    · exact hlt (by omega) h2 i hi
    · exact hlt (by omega) h1 i hi
    · exact hlt (by omega) h0 i hi)
  refine ⟨st', hs, ?_⟩
  obtain ⟨hT, hc⟩ := runNodes_spec cfg env _ _ _ hs
  have hR := runNodes_rel cfg env _ _ _ hs
  refine ⟨c.tree.of_same hT, fun n hn => ?_, fun n hn => ?_, fun n hn ha => ?_, ?_⟩
  · obtain ⟨m, hm, r⟩ := forall₂_mem hR hn
    rw [r.alive, r.ripe]; exact c.flags m hm
  · obtain ⟨m, hm, r⟩ := forall₂_get hR hn
    rw [r.alive, r.ripe]; exact c.root m hm
  · obtain ⟨m, hm, r⟩ := forall₂_mem hR hn
    rw [r.center]; exact c.dead m hm (r.alive ▸ ha)
  · rw [c.cost, sub_self, sub_eq_zero] at hc; exact hc

theorem weighted_of_trim {cfg : Conf D K} {a b : State D K} (h : List.Forall₂ TrimRel a.nodes b.nodes) :
    weighted cfg b = weighted cfg a := by
  unfold weighted
  rw [forall₂_map_eq (fun x y r => ?_) h]
  have := r.shape
  simp only [shape, Prod.mk.injEq] at this
  rw [this.1, r.cost]

theorem sameTree_of_trim {a b : State D K} (hl : b.levels = a.levels)
    (h : List.Forall₂ TrimRel a.nodes b.nodes) : SameTree a b :=
  ⟨hl, forall₂_map_eq (fun _ _ r => r.shape) h⟩

/-- Trimming keeps the invariant, if the root is all right. -/
theorem Core.of_trim {cfg : Conf D K} {a b : State D K} (c : Core cfg a) (hl : b.levels = a.levels)
    (hc : b.cost = a.cost) (h : List.Forall₂ TrimRel a.nodes b.nodes)
    (hr : ∀ n, b.nodes[0]? = some n → (n.alive || n.ripe) = true) : Core cfg b := by
  refine ⟨c.tree.of_same (sameTree_of_trim hl h), fun n hn => ?_, hr, fun n hn ha => ?_, ?_⟩
  · obtain ⟨m, hm, r⟩ := forall₂_mem h hn
    rintro ⟨h1, h2⟩
    have hma : m.alive = true := by
      by_contra hma
      have := r.dead (by simpa using hma)
      subst this; exact hma h1
    exact c.flags m hm ⟨hma, (r.live h1) ▸ h2⟩
  · obtain ⟨m, hm, r⟩ := forall₂_mem h hn
    rcases r.died ha with h' | h'
    · exact h'
    · subst h'; exact c.dead n hm ha
  · rw [hc, c.cost, weighted_of_trim h]

theorem redundantLoop_single (cfg : Conf D K) {st st' : State D K} {i : ℕ} {n : Node D K}
    (hn : st.nodes[i]? = some n) (h : redundantLoop cfg [] [] [i] st = some st') :
    ∃ m, st'.nodes[i]? = some m ∧ m.alive = n.alive ∧ m.ripe = n.ripe := by
  simp only [redundantLoop, hn, List.append_nil, findRedundant, Option.some.injEq] at h
  subst h
  have hlt := (List.getElem?_eq_some_iff.1 hn).1
  simp only [set_set_center]
  rw [List.getElem?_set_self hlt]
  exact ⟨_, rfl, by simp, rfl⟩

theorem trimAll_core {cfg : Conf D K} (hm : cfg.maxLevel ≤ 2) {ratio : List K} (hr : 3 ≤ ratio.length)
    {st : State D K} (c : Core cfg st) {l : ℕ} (hl : l ≤ 2) :
    ∃ st', trimAll cfg ratio l st = some st' ∧ Core cfg st' ∧
      List.Forall₂ TrimRel st.nodes st'.nodes ∧
      ∀ n ∈ st'.nodes, n.level = l → n.center.isSome := by
  unfold trimAll
  obtain ⟨ids, hids⟩ : ∃ ids, st.levels[l]? = some ids := ⟨_, c.tree.level_list hl⟩
  have hlt : ∀ i ∈ ids, i < st.nodes.length := fun i hi => by
    obtain ⟨n, hn, _⟩ := (c.tree.mem_level hl hids).1 hi
    exact (List.getElem?_eq_some_iff.1 hn).1
  obtain ⟨s1, hs1⟩ := trimNotProgressing_some cfg ratio ids st hlt
    (fun n hn => by have := c.tree.depth n hn; omega)
  obtain ⟨a1, a2, a3, a4, a5⟩ := trimNotProgressing_spec cfg ratio ids st s1 hs1
  have c1 : Core cfg s1 := c.of_trim a1 a2 a3 (fun n hn => by
    obtain ⟨m, hm, r⟩ := forall₂_get a4 hn
    exact r (c.root m hm))
  have hids1 : s1.levels[l]? = some ids := by rw [a1]; exact hids
  have hlt1 : ∀ i ∈ ids, i < s1.nodes.length := fun i hi => by
    rw [(sameTree_of_trim a1 a3).length]; exact hlt i hi
  simp only [hids, hs1]
  unfold trimRedundant
  obtain ⟨s2, hs2⟩ := redundantLoop_some cfg (ids.filter fun i => !aliveAt s1 i)
    (ids.filter (aliveAt s1)) [] s1 (fun i hi => hlt1 i (List.mem_filter.1 hi).1) (by
      intro a ha
      rw [List.append_nil, List.mem_filter] at ha
      have hal := hlt1 a ha.1
      have hg := List.getElem?_eq_getElem hal
      refine ⟨_, hg, c1.dead _ (List.getElem_mem hal) ?_⟩
      have := ha.2
      simpa [aliveAt, hg] using this)
  obtain ⟨b1, b2, b3, b4, b5⟩ := redundantLoop_spec cfg _ _ _ s1 s2 hs2
    (fun i hi => (List.mem_filter.1 hi).2) ((c.tree.nodup_level hl hids).filter _)
  refine ⟨s2, hs2, c1.of_trim b1 b2 b3 ?_, forall₂_trans TrimRel.trans a3 b3, ?_⟩
  · intro n hn
    by_cases h0 : 0 ∈ ids.filter (aliveAt s1)
    · have h0' := (List.mem_filter.1 h0).1
      have hl0 : l = 0 := by
        obtain ⟨q, hq, e⟩ := (c.tree.mem_level hl hids).1 h0'
        have := c.tree.root
        rw [hq] at this
        simpa [e] using this
      subst hl0
      rw [c.tree.level_zero, Option.some.injEq] at hids
      subst hids
      have ha := (List.mem_filter.1 h0).2
      have e1 : [0].filter (aliveAt s1) = [0] := by simp [ha]
      have e2 : [0].filter (fun i => !aliveAt s1 i) = [] := by simp [ha]
      rw [e1, e2] at hs2
      obtain ⟨q, hq⟩ : ∃ q, s1.nodes[0]? = some q := by
        obtain ⟨q, hq, _⟩ := Option.map_eq_some_iff.1 c1.tree.root
        exact ⟨q, hq⟩
      obtain ⟨k, hk, e3, e4⟩ := redundantLoop_single cfg hq hs2
      rw [hk] at hn; cases hn
      rw [e3, e4]; exact c1.root q hq
    · rw [b4 0 h0] at hn
      exact c1.root n hn
  · intro n hn hnl
    obtain ⟨i, hi⟩ := List.mem_iff_getElem?.1 hn
    have t2 := sameTree_of_trim b1 b3
    obtain ⟨q, hq, e1, e2⟩ := t2.get hi
    have hmem : i ∈ ids := (c1.tree.mem_level hl hids1).2 ⟨q, hq, e1.trans hnl⟩
    by_cases ha : aliveAt s1 i = true
    · obtain ⟨k, hk, hc⟩ := b5 i (List.mem_filter.2 ⟨hmem, ha⟩)
      rw [hi] at hk; cases hk; exact hc
    · have : i ∉ ids.filter (aliveAt s1) := fun h => ha (List.mem_filter.1 h).2
      rw [b4 i this] at hi
      refine c1.dead n (List.mem_of_getElem? hi) ?_
      simpa [aliveAt, hi] using ha

theorem trimSprouts_core {cfg : Conf D K} (hm : cfg.maxLevel ≤ 2) {ratio : List K} (hr : 3 ≤ ratio.length)
    {st : State D K} (c : Core cfg st) :
    ∃ st', trimSprouts cfg ratio st = some st' ∧ Core cfg st' ∧ List.Forall₂ TrimRel st.nodes st'.nodes ∧
      ∀ n ∈ st'.nodes, n.center.isSome := by
  obtain ⟨s2, h2, c2, r2, e2⟩ := trimAll_core hm hr c (l := 2) (by omega)
  obtain ⟨s1, h1, c1, r1, e1⟩ := trimAll_core hm hr c2 (l := 1) (by omega)
  obtain ⟨s0, h0, c0, r0, e0⟩ := trimAll_core hm hr c1 (l := 0) (by omega)
  refine ⟨s0, by simp [trimSprouts, h2, h1, h0], c0,
    forall₂_trans TrimRel.trans (forall₂_trans TrimRel.trans r2 r1) r0, fun n hn => ?_⟩
  have hd := c0.tree.depth n hn
  obtain ⟨m1, hm1, q1⟩ := forall₂_mem r0 hn
  obtain ⟨m2, hm2, q2⟩ := forall₂_mem r1 hm1
  have s1' := q1.shape
  have s2' := q2.shape
  simp only [shape, Prod.mk.injEq] at s1' s2'
  have : n.level = 0 ∨ n.level = 1 ∨ n.level = 2 := by omega
  rcases this with h | h | h
  · exact e0 n hn h
  · exact q1.center (e1 m1 hm1 (by rw [← s1'.1, h]))
  · exact q1.center (q2.center (e2 m2 hm2 (by rw [← s2'.1, ← s1'.1, h])))

/-! ## Sprouting -/

/-- Nothing but sprouts has been added. -/
def Ext (a b : State D K) : Prop :=
  ∀ (i : ℕ) (n : Node D K), a.nodes[i]? = some n →
    ∃ s, b.nodes[i]? = some { n with sprouts := n.sprouts ++ s }

theorem Ext.refl (a : State D K) : Ext a a := fun i n h => ⟨[], by simpa using h⟩

theorem Ext.trans {a b c : State D K} (h : Ext a b) (h' : Ext b c) : Ext a c := by
  intro i n hn
  obtain ⟨s, hs⟩ := h i n hn
  obtain ⟨s', hs'⟩ := h' i _ hs
  exact ⟨s ++ s', by rw [hs']; simp⟩

theorem addSprout_ext (st : State D K) (i level : ℕ) (ids : List ℕ) (d : D) :
    Ext st (addSprout st i level ids d) := by
  intro j n hn
  have hlt := (List.getElem?_eq_some_iff.1 hn).1
  rw [addSprout_get, if_pos hlt, hn]
  simp only [Option.map_some]
  split
  · exact ⟨_, rfl⟩
  · exact ⟨[], by simp⟩

theorem weighted_addSprout (cfg : Conf D K) (st : State D K) (i level : ℕ) (ids : List ℕ) (d : D) :
    weighted cfg (addSprout st i level ids d) = weighted cfg st := by
  unfold weighted
  simp only [addSprout, List.map_append, List.sum_append, List.map_cons, List.map_nil, List.sum_cons,
    List.sum_nil, newNode, mul_zero, add_zero]
  congr 1
  apply List.ext_getElem?
  intro j
  simp only [List.getElem?_map, List.getElem?_modify]
  cases st.nodes[j]? with
  | none => rfl
  | some n => by_cases e : i = j <;> simp [e]

/-- A node of the new state is new, or old up to its sprouts. -/
theorem addSprout_mem (st : State D K) (i level : ℕ) (ids : List ℕ) (d : D) {j : ℕ} {n : Node D K}
    (h : (addSprout st i level ids d).nodes[j]? = some n) :
    (n = newNode (level + 1) (some d) ∧ j = st.nodes.length) ∨
      ∃ m s, st.nodes[j]? = some m ∧ n = { m with sprouts := s } := by
  rw [addSprout_get] at h
  split at h
  · obtain ⟨m, hm, rfl⟩ := Option.map_eq_some_iff.1 h
    right
    split
    · exact ⟨m, _, hm, rfl⟩
    · exact ⟨m, m.sprouts, hm, rfl⟩
  · split at h
    · rename_i e; cases h; exact .inl ⟨rfl, e⟩
    · cases h

theorem Core.addSprout {cfg : Conf D K} (hm : cfg.maxLevel ≤ 2) {st : State D K} (c : Core cfg st)
    (hc : Centred st) {i level : ℕ} {ids : List ℕ} {d : D} {n : Node D K} (hn : st.nodes[i]? = some n)
    (hl : n.level = level) (hlm : level < cfg.maxLevel) (hids : st.levels[level + 1]? = some ids) :
    Core cfg (addSprout st i level ids d) ∧ Centred (Hgs.addSprout st i level ids d) := by
  refine ⟨⟨c.tree.addSprout hm hn hl hlm hids, ?_, ?_, ?_, ?_⟩, ?_⟩
  · intro q hq
    obtain ⟨j, hj⟩ := List.mem_iff_getElem?.1 hq
    rcases addSprout_mem st i level ids d hj with ⟨rfl, _⟩ | ⟨m, s, hm, rfl⟩
    · simp [newNode]
    · exact c.flags m (List.mem_of_getElem? hm)
  · intro q hj
    rcases addSprout_mem st i level ids d hj with ⟨rfl, _⟩ | ⟨m, s, hm, rfl⟩
    · simp [newNode]
    · exact c.root m hm
  · intro q hq
    obtain ⟨j, hj⟩ := List.mem_iff_getElem?.1 hq
    rcases addSprout_mem st i level ids d hj with ⟨rfl, _⟩ | ⟨m, s, hm, rfl⟩
    · simp [newNode]
    · exact c.dead m (List.mem_of_getElem? hm)
  · rw [weighted_addSprout]; exact c.cost
  · intro q hq
    obtain ⟨j, hj⟩ := List.mem_iff_getElem?.1 hq
    rcases addSprout_mem st i level ids d hj with ⟨rfl, _⟩ | ⟨m, s, hm, rfl⟩
    · simp [newNode]
    · exact hc m (List.mem_of_getElem? hm)

theorem nodeCenters_some {st : State D K} (hc : Centred st) : ∀ (ids : List ℕ),
    (∀ i ∈ ids, i < st.nodes.length) → ∃ cs, nodeCenters st ids = some cs
  | [], _ => ⟨_, rfl⟩
  | i :: is, h => by
    obtain ⟨cs, hcs⟩ := nodeCenters_some hc is fun j hj => h j (List.mem_cons_of_mem _ hj)
    have hi := h i (List.mem_cons_self ..)
    rw [nodeCenters, List.getElem?_eq_getElem hi]
    simp only
    split
    · exact ⟨_, hcs⟩
    · rename_i hp
      obtain ⟨c, hc'⟩ := Option.isSome_iff_exists.1 (hc _ (List.getElem_mem hi) (by simpa using hp))
      rw [hc', hcs]; exact ⟨_, rfl⟩

theorem releaseLoop_core {cfg : Conf D K} (hm : cfg.maxLevel ≤ 2) {i level : ℕ}
    (hlm : level < cfg.maxLevel) : ∀ (ds : List D) (k : ℕ) (st : State D K), Core cfg st → Centred st →
    (∃ n, st.nodes[i]? = some n ∧ n.level = level) →
    ∃ st', releaseLoop cfg i level ds k st = some st' ∧ Core cfg st' ∧ Centred st' ∧ Ext st st'
  | [], k, st, c, hc, hn => ⟨st, rfl, c, hc, Ext.refl st⟩
  | d :: ds, k, st, c, hc, hn => by
    rw [releaseLoop]
    split
    · exact ⟨st, rfl, c, hc, Ext.refl st⟩
    · obtain ⟨ids, hids⟩ : ∃ ids, st.levels[level + 1]? = some ids :=
        ⟨_, c.tree.level_list (by omega)⟩
      obtain ⟨cs, hcs⟩ := nodeCenters_some hc ids fun j hj => by
        obtain ⟨n, hn, _⟩ := (c.tree.mem_level (by omega) hids).1 hj
        exact (List.getElem?_eq_some_iff.1 hn).1
      simp only [hids, hcs]
      split
      · exact releaseLoop_core hm hlm ds k st c hc hn
      · obtain ⟨n, hn, hl⟩ := hn
        obtain ⟨c', hc'⟩ := c.addSprout hm hc (d := d) hn hl hlm hids
        have hx := addSprout_ext st i level ids d
        obtain ⟨s, hs⟩ := hx i n hn
        obtain ⟨st', e, r1, r2, r3⟩ := releaseLoop_core hm hlm ds (k + 1) _ c' hc' ⟨_, hs, hl⟩
        exact ⟨st', e, r1, r2, hx.trans r3⟩

theorem release_core {cfg : Conf D K} (hm : cfg.maxLevel ≤ 2) : ∀ (fuel i : ℕ) (st : State D K),
    Core cfg st → Centred st → ∀ n, st.nodes[i]? = some n → cfg.maxLevel < n.level + fuel →
    ∃ st', release cfg fuel i st = some st' ∧ Core cfg st' ∧ Centred st' ∧ Ext st st'
  | 0, i, st, c, hc, n, hn, hf => by
    have := c.tree.depth n (List.mem_of_getElem? hn); omega
  | fuel + 1, i, st, c, hc, n, hn, hf => by
    rw [release]
    simp only [hn]
    split
    · have hfold : ∀ (js : List ℕ) (s : State D K), Core cfg s → Centred s →
          (∀ j ∈ js, ∃ q, s.nodes[j]? = some q ∧ q.level = n.level + 1) →
          ∃ s', js.foldlM (fun s j => release cfg fuel j s) s = some s' ∧ Core cfg s' ∧ Centred s' ∧
            Ext s s' := by
        intro js
        induction js with
        | nil => intro s c hc _; exact ⟨s, rfl, c, hc, Ext.refl s⟩
        | cons j js ih =>
          intro s c hc hj
          obtain ⟨q, hq, hql⟩ := hj j (List.mem_cons_self ..)
          obtain ⟨s1, e1, c1, d1, x1⟩ := release_core hm fuel j s c hc q hq (by omega)
          obtain ⟨s2, e2, c2, d2, x2⟩ := ih s1 c1 d1 (fun j' hj' => by
            obtain ⟨q, hq, hql⟩ := hj j' (List.mem_cons_of_mem _ hj')
            obtain ⟨t, ht⟩ := x1 j' q hq
            exact ⟨_, ht, hql⟩)
          refine ⟨s2, ?_, c2, d2, x1.trans x2⟩
          rw [List.foldlM_cons, e1]
          exact e2
      obtain ⟨s', e', c', d', x'⟩ := hfold n.sprouts st c hc (fun j hj => by
        have := (c.tree.child i n j hn hj).2
        exact Option.map_eq_some_iff.1 this)
      simp only [e']
      split
      · rename_i hcond
        obtain ⟨t, ht⟩ := x' i n hn
        obtain ⟨s2, e2, c2, d2, x2⟩ := releaseLoop_core hm hcond.1 n.delegates 0 s' c' d' ⟨_, ht, rfl⟩
        exact ⟨s2, e2, c2, d2, x'.trans x2⟩
      · exact ⟨s', rfl, c', d', x'⟩
    · exact ⟨st, rfl, c, hc, Ext.refl st⟩

/-! ## Revival -/

theorem wake_shape (n : Node D K) : shape (wake n) = shape n := by
  unfold wake; split <;> rfl

theorem halve_some : ∀ {ratio : List K}, 3 ≤ ratio.length → ∃ r, halve ratio = some r ∧
    r.length = ratio.length
  | a :: b :: c :: rest, _ => ⟨_, rfl, by simp⟩
  | [], h => by simp at h
  | [_], h => by simp at h
  | [_, _], h => by simp at h

theorem revive_core {cfg : Conf D K} {ratio : List K} (hr : 3 ≤ ratio.length) {st : State D K}
    (c : Core cfg st) (hc : Centred st) :
    ∃ st' ratio', reviveRoot ratio st = some (st', ratio') ∧ Core cfg st' ∧ Centred st' ∧
      ratio'.length = ratio.length ∧ ∃ n ∈ st'.nodes, n.alive = true := by
  unfold reviveRoot
  by_cases h : (st.nodes.filter Node.alive).length = 0
  · rw [if_pos h]
    obtain ⟨r, e, hl⟩ := halve_some hr
    rw [e]
    have hdead : ∀ n ∈ st.nodes, n.alive = false := by
      intro n hn
      rw [List.length_eq_zero_iff, List.filter_eq_nil_iff] at h
      simpa using h n hn
    refine ⟨_, r, rfl, ⟨c.tree.of_same ⟨rfl, ?_⟩, ?_, ?_, ?_, ?_⟩, ?_, hl, ?_⟩
    · rw [List.map_map]; exact List.map_congr_left fun n _ => wake_shape n
    · intro n hn
      obtain ⟨m, hm, rfl⟩ := List.mem_map.1 hn
      unfold wake; split
      · simp
      · exact c.flags m hm
    · intro n hn
      simp only [List.getElem?_map] at hn
      obtain ⟨m, hm, rfl⟩ := Option.map_eq_some_iff.1 hn
      unfold wake; split
      · rfl
      · exact c.root m hm
    · intro n hn ha
      obtain ⟨m, hm, rfl⟩ := List.mem_map.1 hn
      have := c.dead m hm (hdead m hm)
      unfold wake; split <;> exact this
    · rw [c.cost]; unfold weighted
      simp only [List.map_map]
      congr 1
      refine List.map_congr_left fun n _ => ?_
      simp only [Function.comp_apply, wake]; split <;> rfl
    · intro n hn hp
      obtain ⟨m, hm, rfl⟩ := List.mem_map.1 hn
      have := c.dead m hm (hdead m hm)
      unfold wake; split <;> exact this
    · obtain ⟨q, hq, _⟩ := Option.map_eq_some_iff.1 c.tree.root
      have hqm := List.mem_of_getElem? hq
      have hrip : q.ripe = true := by
        have := c.root q hq
        simpa [hdead q hqm] using this
      exact ⟨wake q, List.mem_map_of_mem hqm, by simp [wake, hrip]⟩
  · rw [if_neg h]
    refine ⟨st, ratio, rfl, c, hc, rfl, ?_⟩
    rw [List.length_eq_zero_iff, List.filter_eq_nil_iff] at h
    push Not at h
    obtain ⟨n, hn, ha⟩ := h
    exact ⟨n, hn, ha⟩

/-! ## Steps -/

theorem step_core {cfg : Conf D K} (hm : cfg.maxLevel ≤ 2) {fuel : ℕ} (hf : cfg.maxLevel < fuel)
    {ratio : List K} (hr : 3 ≤ ratio.length) {st : State D K} (c : Core cfg st) (env : ℕ → Report D K) :
    ∃ st' ratio', step cfg fuel env st ratio = some (st', ratio') ∧ Core cfg st' ∧ Centred st' ∧
      ratio'.length = ratio.length ∧ ∃ n ∈ st'.nodes, n.alive = true := by
  obtain ⟨s1, e1, c1⟩ := run_core c env
  obtain ⟨s2, e2, c2, _, h2⟩ := trimSprouts_core hm hr c1
  obtain ⟨q, hq, _⟩ := Option.map_eq_some_iff.1 c2.tree.root
  obtain ⟨s3, e3, c3, d3, _⟩ := release_core hm fuel 0 s2 c2 (fun n hn _ => h2 n hn) q hq (by omega)
  obtain ⟨s4, r4, e4, rest⟩ := revive_core hr c3 d3
  exact ⟨s4, r4, by simp [step, e1, e2, e3, e4], rest⟩

theorem run_steps_core {cfg : Conf D K} (hm : cfg.maxLevel ≤ 2) {fuel : ℕ} (hf : cfg.maxLevel < fuel) :
    ∀ (envs : List (ℕ → Report D K)) (st : State D K) (ratio : List K), 3 ≤ ratio.length → Core cfg st →
    (∃ n ∈ st.nodes, n.alive = true) →
    ∃ st' ratio', run cfg fuel envs st ratio = some (st', ratio') ∧ Core cfg st' ∧
      ratio'.length = ratio.length ∧ ∃ n ∈ st'.nodes, n.alive = true
  | [], st, ratio, _, c, ha => ⟨st, ratio, rfl, c, rfl, ha⟩
  | env :: envs, st, ratio, hr, c, _ => by
    obtain ⟨s, r, e, cs, _, hl, ha⟩ := step_core hm hf hr c env
    obtain ⟨s', r', e', c', hl', ha'⟩ := run_steps_core hm hf envs s r (hl ▸ hr) cs ha
    exact ⟨s', r', by simp [run, e, e'], c', hl'.trans hl, ha'⟩

end Evogil.Hgs
