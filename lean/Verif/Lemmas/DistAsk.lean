import Verif.Lemmas.DistPhases

/-!
# The requests in which the supervisor asks all nodes, one by one
-/

set_option linter.unusedSectionVars false

namespace Evogil.Dist

variable {D K : Type*} [Field K] [LinearOrder K]

theorem max?_perm {l l' : List K} (h : l.Perm l') : l.max? = l'.max? := by
  cases hl : l.max? with
  | none =>
    rw [List.max?_eq_none_iff] at hl
    subst hl
    rw [List.nil_perm.1 h]
    rfl
  | some m =>
    symm
    rw [List.max?_eq_some_iff] at hl ⊢
    exact ⟨h.mem_iff.1 hl.1, fun b hb => hl.2 b (h.mem_iff.2 hb)⟩

/-- A list of distinct numbers below `N` that is as long as `N`. -/
theorem perm_range {T L : List ℕ} {n : ℕ} (hT : T.Nodup) (hL : L.Nodup) (hn : n ∈ T) (hnL : n ∉ L)
    (hLT : ∀ x ∈ L, x ∈ T) (hlen : L.length + 1 = T.length) : (L ++ [n]).Perm T := by
  have hnd : (L ++ [n]).Nodup := List.nodup_append.2 ⟨hL, List.nodup_singleton n, fun x hx y hy => by
    rw [List.mem_singleton] at hy
    subst hy
    exact fun e => hnL (e ▸ hx)⟩
  apply List.Subperm.perm_of_length_le
  · apply hnd.subperm
    intro x hx
    rcases List.mem_append.1 hx with hx | hx
    · exact hLT x hx
    · rw [List.mem_singleton] at hx; exact hx ▸ hn
  · simp; omega

theorem mapIdx_eq_map_range {α β : Type*} (f : ℕ → α → β) (l : List α) (d : α) :
    l.mapIdx f = (List.range l.length).map fun n => f n ((l[n]?).getD d) := by
  apply List.ext_getElem?
  intro i
  rw [List.getElem?_mapIdx, List.getElem?_map]
  by_cases h : i < l.length
  · rw [List.getElem?_range h]
    simp [List.getElem?_eq_getElem h]
  · rw [List.getElem?_eq_none (by omega), List.getElem?_eq_none (by simp; omega)]
    rfl

theorem map_eq_map_range {α β : Type*} (f : α → β) (l : List α) (d : α) :
    l.map f = (List.range l.length).map fun n => f ((l[n]?).getD d) := by
  rw [← mapIdx_eq_map_range (fun _ => f)]
  apply List.ext_getElem?
  intro i
  rw [List.getElem?_mapIdx, List.getElem?_map]

theorem SupOK.states_nil {σ : PState D K} {u : Sup D K} (h : SupOK σ u) :
    SupOK { σ with states := [] } { u with states := [] } :=
  ⟨h.nodes, h.next, h.levels, h.cost, h.ratio, rfl, h.wf⟩

section
variable {cfg : Hgs.Conf D K} {env : ℕ → ℕ → Hgs.Report D K} {spawn : ℕ → ℕ → ℕ → List D}

/-- The cost of the metaepoch of one node, with its weight; none if it did not run. -/
def epochCost (cfg : Hgs.Conf D K) (env : ℕ → ℕ → Hgs.Report D K) (σ : PState D K) (n : ℕ) : Option K :=
  (nodeMetaepoch cfg.fl (env n (σ.ctr n)) (nodeAt σ.st n)).2.map fun e => cfg.modifier e.1 * e.2

theorem ev_metaepoch {σ σ' : PState D K} {rest : List (Req D)} {sent : ℕ} {inbox : List (Msg D K)}
    {c : Sys D K} (idle : Idle σ (.metaepoch :: rest) sent inbox c) (hN : σ.st.nodes ≠ [])
    (h : seqMetaepoch cfg env σ = some σ') :
    EvC cfg env spawn (fun c => Idle σ' rest (sent + 1)
      (inbox ++ [.answer (.metaepochEnd σ'.st.cost) (.client, sent)]) c) c := by
  have hpos : 0 < σ.st.nodes.length := List.length_pos_iff.2 hN
  have hcosts : ((σ.st.nodes.mapIdx fun n a => nodeMetaepoch cfg.fl (env n (σ.ctr n)) a).filterMap
      fun r => r.2.map fun e => cfg.modifier e.1 * e.2) =
      (List.range σ.st.nodes.length).filterMap (epochCost cfg env σ) := by
    rw [mapIdx_eq_map_range _ _ (Hgs.newNode 0 none), List.filterMap_map]
    rfl
  simp only [seqMetaepoch, hcosts, Option.map_eq_some_iff] at h
  obtain ⟨top, htop, h⟩ := h
  have hlen : σ'.st.nodes.length = σ.st.nodes.length := by subst h; simp
  have hctr : ∀ n < σ.st.nodes.length, σ'.ctr n = σ.ctr n + 1 := by
    intro n hn; subst h; simp [bumpAll, bump, hn]
  have hat : ∀ n < σ.st.nodes.length, nodeAt σ'.st n =
      (nodeMetaepoch cfg.fl (env n (σ.ctr n)) (nodeAt σ.st n)).1 := by
    intro n hn
    subst h
    simp [nodeAt, List.getElem?_map, List.getElem?_mapIdx, List.getElem?_eq_getElem hn]
  have main := ev_phase (cfg := cfg) (env := env) (spawn := spawn) (σ' := σ')
    (σm := { σ with states := [] }) idle (T := List.range σ.st.nodes.length)
    (u₁ := { c.sup with states := [] })
    (req := fun _ => .metaepoch (.sup, c.sup.nextTask))
    (rep := fun n => .metaepochEnd (.sup, c.sup.nextTask)
      (nodeMetaepoch cfg.fl (env n (σ.ctr n)) (nodeAt σ.st n)).2)
    (A := fun m => m = .answer (.metaepochEnd σ'.st.cost) (.client, sent))
    (task := fun L => .metaepoch .client (.client, sent) σ.st.nodes.length L.length
      (L.filterMap (epochCost cfg env σ)))
    List.nodup_range (by simpa using hN) (by simp) hlen rfl
    (by simp only [supRequest, idle.sup.nodes, List.length_range]; rfl)
    idle.sup.states_nil rfl
    (by intro n hn; exact hctr n (by simpa using hn))
    (by intro n hn hnT; simp at hnT; omega)
    (by
      intro n hn x hx
      have hn' : n < σ.st.nodes.length := by simpa using hn
      rw [nodeReceive_sup hx (i := (.sup, c.sup.nextTask)) (by simp) rfl]
      simp only [nodeRequest, hx.mem, hx.sup, hx.next]
      refine ⟨_, rfl, ?_⟩
      rw [hctr n hn', hat n hn']
      exact hx.put _)
    (by intro n u t ht; simp only [supReceive, ht])
    (by
      intro L n u hu hn hnL hL hLT hlt
      simp only [List.length_range] at hlt
      have hcs : addCost cfg (L.filterMap (epochCost cfg env σ)) (nodeMetaepoch cfg.fl (env n (σ.ctr n)) (nodeAt σ.st n)).2 =
          (L ++ [n]).filterMap (epochCost cfg env σ) := by
        rw [List.filterMap_append]
        simp only [List.filterMap_cons, List.filterMap_nil, epochCost]
        cases (nodeMetaepoch cfg.fl (env n (σ.ctr n)) (nodeAt σ.st n)).2 <;> simp [addCost]
      simp only [supTask]
      rw [if_neg (by omega), hcs]
      simp)
    (by
      intro L n u hu hk hn hnL hL hLT hlt
      have hperm := perm_range List.nodup_range hL hn hnL hLT hlt
      simp only [List.length_range] at hlt
      have hcs : addCost cfg (L.filterMap (epochCost cfg env σ)) (nodeMetaepoch cfg.fl (env n (σ.ctr n)) (nodeAt σ.st n)).2 =
          (L ++ [n]).filterMap (epochCost cfg env σ) := by
        rw [List.filterMap_append]
        simp only [List.filterMap_cons, List.filterMap_nil, epochCost]
        cases (nodeMetaepoch cfg.fl (env n (σ.ctr n)) (nodeAt σ.st n)).2 <;> simp [addCost]
      simp only [supTask]
      rw [if_pos hlt, hcs, max?_perm (hperm.filterMap _), htop]
      refine ⟨_, _, rfl, ?_, ?_, by simp⟩
      · have h1 := hu.set hk (.metaepoch .client (.client, sent) σ.st.nodes.length (L.length + 1)
          ((L ++ [n]).filterMap (epochCost cfg env σ)))
        refine ⟨?_, ?_, ?_, ?_, ?_, ?_, ?_⟩
        · rw [hlen]; exact h1.nodes
        · rw [hlen]; exact h1.next
        · subst h; exact h1.levels
        · subst h
          simp only [bumpAll]
          rw [h1.cost]
        · subst h; exact h1.ratio
        · subst h; exact h1.states
        · exact h1.wf
      · subst h
        have : (setS (.sup, c.sup.nextTask) (.metaepoch .client (.client, sent) σ.st.nodes.length (L.length + 1)
          ((L ++ [n]).filterMap (epochCost cfg env σ))) u).cost = σ.st.cost := hu.cost
        simp only [this])
  refine main.mono ?_
  rintro c' ⟨ans, rfl, h'⟩
  exact h'

/-! ## Trimming -/

theorem trimLevel_eq {i : Id} {ratio : List K} {lvl : ℕ} {ns : List ℕ} (h : ns ≠ [] → lvl < ratio.length) :
    trimLevel (D := D) i ratio lvl ns = some (ns.map fun n => (.node n, .trim i (ratio.getD lvl 0))) := by
  induction ns with
  | nil => simp [trimLevel]
  | cons n ns ih =>
    have hl := h (by simp)
    have := ih (fun _ => hl)
    simp only [trimLevel, List.mapM_cons] at this ⊢
    rw [this]
    simp [List.getElem?_eq_getElem hl]

theorem tree_flatten {m : ℕ} (hm : m ≤ 2) {st : Hgs.State D K} (t : Hgs.Tree m st) :
    st.levels.flatten.Nodup ∧ (∀ n, n ∈ st.levels.flatten ↔ n < st.nodes.length) := by
  constructor
  · rw [List.nodup_flatten]
    constructor
    · intro l hl
      obtain ⟨i, hi⟩ := List.mem_iff_getElem?.1 hl
      have : i ≤ 2 := by
        have := (List.getElem?_eq_some_iff.1 hi).1
        rw [t.levels] at this
        simp at this
        omega
      exact t.nodup_level this hi
    · rw [List.pairwise_iff_getElem]
      intro i j hi hj hij x hx hx'
      have hi2 : i ≤ 2 := by
        have := hi; rw [t.levels] at this; simp at this; omega
      have hj2 : j ≤ 2 := by
        have := hj; rw [t.levels] at this; simp at this; omega
      obtain ⟨a, ha, e⟩ := (t.mem_level hi2 (List.getElem?_eq_getElem hi)).1 hx
      obtain ⟨b, hb, e'⟩ := (t.mem_level hj2 (List.getElem?_eq_getElem hj)).1 hx'
      rw [ha] at hb
      cases hb
      omega
  · intro n
    rw [List.mem_flatten]
    constructor
    · rintro ⟨l, hl, hn⟩
      obtain ⟨i, hi⟩ := List.mem_iff_getElem?.1 hl
      have : i ≤ 2 := by
        have := (List.getElem?_eq_some_iff.1 hi).1
        rw [t.levels] at this
        simp at this
        omega
      obtain ⟨a, ha, _⟩ := (t.mem_level this hi).1 hn
      exact (List.getElem?_eq_some_iff.1 ha).1
    · intro hn
      have hd := t.depth _ (List.mem_of_getElem? (nodeAt_get hn))
      have h2 : (nodeAt st n).level ≤ 2 := hd.trans hm
      exact ⟨_, List.mem_of_getElem? (t.level_list h2), (t.mem_level h2 (t.level_list h2)).2
        ⟨_, nodeAt_get hn, rfl⟩⟩

theorem trimRequests_tree {i : Id} {ratio : List K} {m : ℕ} (hm : m ≤ 2) (hr : m < ratio.length)
    {st : Hgs.State D K} (t : Hgs.Tree m st) :
    trimRequests (D := D) i ratio 0 st.levels =
      some (st.levels.flatten.map fun n => (.node n, .trim i (ratio.getD (nodeAt st n).level 0))) := by
  obtain ⟨l0, h0⟩ : ∃ l, st.levels[0]? = some l := ⟨_, t.level_list (by omega)⟩
  obtain ⟨l1, h1⟩ : ∃ l, st.levels[1]? = some l := ⟨_, t.level_list (by omega)⟩
  obtain ⟨l2, h2⟩ : ∃ l, st.levels[2]? = some l := ⟨_, t.level_list (by omega)⟩
  have e : st.levels = [l0, l1, l2] := by
    have := t.levels
    rw [this] at h0 h1 h2 ⊢
    simp only [List.map_cons, List.map_nil, List.getElem?_cons_zero, List.getElem?_cons_succ,
      Option.some.injEq] at h0 h1 h2 ⊢
    rw [h0, h1, h2]
  have hb : ∀ l ns, l ≤ 2 → st.levels[l]? = some ns → (ns ≠ [] → l < ratio.length) ∧
      ∀ n ∈ ns, (nodeAt st n).level = l := by
    intro l ns hl hns
    have hmem : ∀ n ∈ ns, (nodeAt st n).level = l ∧ l ≤ m := by
      intro n hn
      obtain ⟨a, ha, e⟩ := (t.mem_level hl hns).1 hn
      have : nodeAt st n = a := by simp [nodeAt, ha]
      rw [this]
      exact ⟨e, e ▸ t.depth a (List.mem_of_getElem? ha)⟩
    refine ⟨fun hne => ?_, fun n hn => (hmem n hn).1⟩
    obtain ⟨n, hn⟩ := List.exists_mem_of_ne_nil _ hne
    have := (hmem n hn).2
    omega
  have a0 := hb 0 l0 (by omega) h0
  have a1 := hb 1 l1 (by omega) h1
  have a2 := hb 2 l2 (by omega) h2
  rw [e]
  simp only [trimRequests, trimLevel_eq a0.1, trimLevel_eq a1.1, trimLevel_eq a2.1, List.flatten_cons,
    List.flatten_nil, List.append_nil, List.map_append, Nat.zero_add, Nat.reduceAdd]
  congr 2
  · apply List.map_congr_left
    intro n hn; rw [a0.2 n hn]
  · congr 1
    · apply List.map_congr_left
      intro n hn; rw [a1.2 n hn]
    · apply List.map_congr_left
      intro n hn; rw [a2.2 n hn]

theorem ev_trim {σ : PState D K} {rest : List (Req D)} {sent : ℕ} {inbox : List (Msg D K)}
    {c : Sys D K} (idle : Idle σ (.trimNotProgressing :: rest) sent inbox c) {m : ℕ} (hm : m ≤ 2)
    (hr : m < σ.ratio.length) (t : Hgs.Tree m σ.st) :
    EvC cfg env spawn (fun c => Idle (seqTrim cfg σ) rest (sent + 1)
      (inbox ++ [.answer .trimNotProgressingEnd (.client, sent)]) c) c := by
  obtain ⟨hnd, hmem⟩ := tree_flatten hm t
  have hpos : 0 < σ.st.nodes.length := by
    obtain ⟨n, hn, _⟩ := Option.map_eq_some_iff.1 t.root
    exact (List.getElem?_eq_some_iff.1 hn).1
  have hcard : σ.st.levels.flatten.length = σ.st.nodes.length := by
    have : σ.st.levels.flatten.Perm (List.range σ.st.nodes.length) :=
      (List.perm_ext_iff_of_nodup hnd List.nodup_range).2 (fun n => by rw [hmem, List.mem_range])
    rw [this.length_eq, List.length_range]
  have hctr : ∀ n < σ.st.nodes.length, (seqTrim cfg σ).ctr n = σ.ctr n + 1 := by
    intro n hn; simp [seqTrim, bumpAll, bump, hn]
  have main := ev_phase (cfg := cfg) (env := env) (spawn := spawn) (σ' := seqTrim cfg σ)
    (σm := σ) idle (T := σ.st.levels.flatten)
    (u₁ := c.sup)
    (req := fun n => .trim (.sup, c.sup.nextTask) (σ.ratio.getD (nodeAt σ.st n).level 0))
    (rep := fun n => .trimEnd (.sup, c.sup.nextTask))
    (A := fun m => m = .answer .trimNotProgressingEnd (.client, sent))
    (task := fun L => .trim .client (.client, sent) σ.st.nodes.length L.length)
    hnd (by rw [← List.length_pos_iff, hcard]; exact hpos) (by intro n hn; exact (hmem n).1 hn)
    (by simp [seqTrim]) rfl
    (by
      simp only [supRequest, idle.sup.ratio, idle.sup.levels, trimRequests_tree hm hr t, Option.map_some,
        idle.sup.nodes, List.length_range, List.length_nil])
    idle.sup rfl
    (by intro n hn; exact hctr n ((hmem n).1 hn))
    (by intro n hn hnT; exact absurd ((hmem n).2 hn) hnT)
    (by
      intro n hn x hx
      have hn' := (hmem n).1 hn
      rw [nodeReceive_sup hx (i := (.sup, c.sup.nextTask)) (by simp) rfl]
      simp only [nodeRequest, hx.mem, hx.sup]
      refine ⟨_, rfl, ?_⟩
      have e : nodeAt (seqTrim cfg σ).st n =
          nodeTrim cfg (σ.ratio.getD (nodeAt σ.st n).level 0) (nodeAt σ.st n) := by
        simp [nodeAt, seqTrim, List.getElem?_map, List.getElem?_eq_getElem hn']
      rw [hctr n hn', e]
      exact hx.put _)
    (by intro n u t ht; simp only [supReceive, ht])
    (by
      intro L n u hu hn hnL hL hLT hlt
      rw [hcard] at hlt
      simp only [supTask]
      rw [if_neg (by omega)]
      simp)
    (by
      intro L n u hu hk hn hnL hL hLT hlt
      rw [hcard] at hlt
      simp only [supTask]
      rw [if_pos hlt]
      refine ⟨_, _, rfl, ?_, rfl, by simp⟩
      have h1 := hu.set hk (.trim .client (.client, sent) σ.st.nodes.length (L.length + 1))
      exact ⟨by simpa [seqTrim, bumpAll] using h1.nodes, by simpa [seqTrim, bumpAll] using h1.next, h1.levels,
        h1.cost, h1.ratio, h1.states, h1.wf⟩)
  refine main.mono ?_
  rintro c' ⟨ans, rfl, h'⟩
  exact h'

theorem redundantGroups_some (infos : List (NState D × Addr)) : redundantGroups infos = some () := by
  unfold redundantGroups
  generalize List.splitBy _ _ = g
  induction g with
  | nil => rfl
  | cons a g ih =>
    simp only [List.forM_cons, drain]
    have : trimRedundant ([] : List (NState D × Addr)) = some () := rfl
    rw [this]
    exact ih

/-- What the phases that change no node have in common. -/
theorem bump_ctr {σ : PState D K} {T : List ℕ} {n : ℕ} (h : n ∈ T) :
    ({ σ with ctr := bump T σ.ctr } : PState D K).ctr n = σ.ctr n + 1 := by
  simp [bump, h]

theorem SupOK.bump {σ : PState D K} {u : Sup D K} (h : SupOK σ u) (f : ℕ → ℕ) :
    SupOK { σ with ctr := f } u :=
  ⟨h.nodes, h.next, h.levels, h.cost, h.ratio, h.states, h.wf⟩

theorem ev_redundant {σ : PState D K} {rest : List (Req D)} {sent : ℕ} {inbox : List (Msg D K)}
    {c : Sys D K} (idle : Idle σ (.trimRedundant :: rest) sent inbox c) (hN : σ.st.nodes ≠ []) :
    EvC cfg env spawn (fun c => Idle (seqRedundant σ) rest (sent + 1)
      (inbox ++ [.answer .trimRedundantEnd (.client, sent)]) c) c := by
  have main := ev_phase (cfg := cfg) (env := env) (spawn := spawn) (σ' := seqRedundant σ)
    (σm := σ) idle (T := List.range σ.st.nodes.length)
    (u₁ := c.sup)
    (req := fun n => .check (.sup, c.sup.nextTask) none)
    (rep := fun n => .check (.sup, c.sup.nextTask) (some (stateOf cfg .sup (nodeAt σ.st n))))
    (A := fun m => m = .answer .trimRedundantEnd (.client, sent))
    (task := fun L => .redundant .client (.client, sent) σ.st.nodes.length
      (L.map fun n => (stateOf cfg .sup (nodeAt σ.st n), Addr.node n)))
    List.nodup_range (by simpa using hN) (by simp) rfl rfl
    (by simp only [supRequest, idle.sup.nodes, List.length_range]; rfl)
    idle.sup rfl
    (by intro n hn; exact bump_ctr hn)
    (by intro n hn hnT; simp at hnT; omega)
    (by
      intro n hn x hx
      rw [nodeReceive_sup hx (i := (.sup, c.sup.nextTask)) (by simp) rfl]
      simp only [nodeRequest, hx.mem, hx.sup]
      refine ⟨_, rfl, ?_⟩
      rw [seqRedundant, bumpAll, bump_ctr hn]
      exact hx.put' _)
    (by intro n u t ht; simp only [supReceive, ht])
    (by
      intro L n u hu hn hnL hL hLT hlt
      simp only [List.length_range] at hlt
      simp only [supTask]
      rw [if_neg (by simp; omega)]
      simp)
    (by
      intro L n u hu hk hn hnL hL hLT hlt
      simp only [List.length_range] at hlt
      simp only [supTask]
      rw [if_pos (by simp; omega), redundantGroups_some]
      refine ⟨_, _, rfl, ?_, rfl, by simp⟩
      exact (hu.set hk _).bump _)
  refine main.mono ?_
  rintro c' ⟨ans, rfl, h'⟩
  exact h'

/-! ## Population and status -/

theorem ev_population {σ : PState D K} {rest : List (Req D)} {sent : ℕ} {inbox : List (Msg D K)}
    {c : Sys D K} (idle : Idle σ (.population :: rest) sent inbox c) (hN : σ.st.nodes ≠ [])
    (hl : cfg.maxLevel < σ.st.levels.length) :
    EvC cfg env spawn (fun c => ∃ pop, pop.Perm (σ.st.nodes.flatMap Hgs.Node.pop) ∧
      Idle (bumpAll σ) rest (sent + 1) (inbox ++ [.answer (.population pop) (.client, sent)]) c) c := by
  have hflat : (List.range σ.st.nodes.length).flatMap (fun n => (nodeAt σ.st n).pop) =
      σ.st.nodes.flatMap Hgs.Node.pop := by
    rw [List.flatMap_def, List.flatMap_def, map_eq_map_range Hgs.Node.pop _ (Hgs.newNode 0 none)]
    rfl
  have main := ev_phase (cfg := cfg) (env := env) (spawn := spawn) (σ' := bumpAll σ)
    (σm := σ) idle (T := List.range σ.st.nodes.length)
    (u₁ := c.sup)
    (req := fun n => .population (.sup, c.sup.nextTask) none)
    (rep := fun n => .population (.sup, c.sup.nextTask) (some (nodeAt σ.st n).pop))
    (A := fun m => ∃ pop : List D, pop.Perm (σ.st.nodes.flatMap Hgs.Node.pop) ∧
      m = .answer (.population pop) (.client, sent))
    (task := fun L => .population .client (.client, sent) σ.st.nodes.length L.length
      (L.flatMap fun n => (nodeAt σ.st n).pop))
    List.nodup_range (by simpa using hN) (by simp) rfl rfl
    (by simp only [supRequest, idle.sup.nodes, List.length_range]; rfl)
    idle.sup rfl
    (by intro n hn; exact bump_ctr hn)
    (by intro n hn hnT; simp at hnT; omega)
    (by
      intro n hn x hx
      rw [nodeReceive_sup hx (i := (.sup, c.sup.nextTask)) (by simp) rfl]
      simp only [nodeRequest, hx.mem, hx.sup]
      refine ⟨_, rfl, ?_⟩
      rw [bumpAll, bump_ctr hn]
      exact hx.put' _)
    (by intro n u t ht; simp only [supReceive, ht])
    (by
      intro L n u hu hn hnL hL hLT hlt
      simp only [List.length_range] at hlt
      simp only [supTask]
      rw [if_neg (by omega)]
      simp)
    (by
      intro L n u hu hk hn hnL hL hLT hlt
      have hperm := perm_range List.nodup_range hL hn hnL hLT hlt
      simp only [List.length_range] at hlt
      have hu' := hu.set hk (.population .client (.client, sent) σ.st.nodes.length (L.length + 1)
        ((L.flatMap fun n => (nodeAt σ.st n).pop) ++ (nodeAt σ.st n).pop))
      have hlog : logState cfg (setS (.sup, c.sup.nextTask) (.population .client (.client, sent)
          σ.st.nodes.length (L.length + 1)
          ((L.flatMap fun n => (nodeAt σ.st n).pop) ++ (nodeAt σ.st n).pop)) u) = true := by
        simp only [logState, hu'.levels, List.all_eq_true, List.mem_range]
        intro l hlm
        rw [List.getElem?_eq_getElem (by omega)]
        rfl
      simp only [supTask]
      rw [if_pos hlt, if_pos hlog]
      refine ⟨_, _, rfl, hu'.bump _, ⟨_, ?_, rfl⟩, by simp⟩
      rw [← hflat]
      have := hperm.flatMap_right (fun n => (nodeAt σ.st n).pop)
      simpa [List.flatMap_append] using this)
  refine main.mono ?_
  rintro c' ⟨ans, ⟨pop, h1, rfl⟩, h'⟩
  exact ⟨pop, h1, h'⟩

theorem ev_status {σ : PState D K} {lvl : Option ℕ} {rest : List (Req D)} {sent : ℕ}
    {inbox : List (Msg D K)} {c : Sys D K} (idle : Idle σ (.checkStatus lvl :: rest) sent inbox c)
    {T : List ℕ} (hT : nodesToCheck cfg c.sup lvl = some T) (hnd : T.Nodup)
    (hmem : ∀ n ∈ T, n < σ.st.nodes.length) :
    EvC cfg env spawn (fun c => ∃ states, states.Perm (T.map fun n => stateOf cfg .sup (nodeAt σ.st n)) ∧
      Idle { σ with ctr := bump T σ.ctr } rest (sent + 1)
        (inbox ++ [.answer (.status states) (.client, sent)]) c) c := by
  by_cases hT0 : T = []
  · -- nothing to check
    subst hT0
    apply ev_ask idle.chan idle.client.waiting idle.client.todo
    have hchan : (ask c (.checkStatus lvl) rest).chan =
        only .client .sup (.req (.checkStatus lvl) (.client, sent)) := by
      simp only [ask, idle.chan, push_empty, idle.client.sent]
    refine ev_single (c' := { ask c (.checkStatus lvl) rest with
      sup := putS (.status .client (.client, sent) [] []) c.sup
      chan := only .sup .client (.answer (.status []) (.client, sent)) }) hchan rfl trivial trivial ?_ ?_
    · have hT' : nodesToCheck cfg (ask c (.checkStatus lvl) rest).sup lvl = some [] := hT
      have e : supReceive cfg (ask c (.checkStatus lvl) rest).sup
          (.req (.checkStatus lvl) (.client, sent)) .client =
          some (putS (.status .client (.client, sent) [] []) c.sup,
            [(.client, .answer (.status []) (.client, sent))]) := by
        simp only [supReceive, supRequest, hT', Option.map_some, List.isEmpty_nil, if_true]
        rfl
      simp only [chandle, e, Option.map_some, hchan, pop_only]
      rw [syncPost_plain (by simp [plain]), pushAll_one]
    · apply ev_answer rfl rfl
      refine .done ⟨[], by simp, ⟨(idle.sup.put _).bump _, ?_, rfl, rfl, rfl, ?_, ?_⟩⟩
      · have : bump [] σ.ctr = σ.ctr := by
          funext n
          simp [bump]
        rw [this]
        exact idle.nodes
      · simp [ask, idle.client.sent]
      · simp [ask, idle.client.inbox]
  · have main := ev_phase (cfg := cfg) (env := env) (spawn := spawn)
      (σ' := { σ with ctr := bump T σ.ctr }) (σm := σ) idle (T := T)
      (u₁ := c.sup)
      (req := fun n => .check (.sup, c.sup.nextTask) none)
      (rep := fun n => .check (.sup, c.sup.nextTask) (some (stateOf cfg .sup (nodeAt σ.st n))))
      (A := fun m => ∃ states : List (NState D),
        states.Perm (T.map fun n => stateOf cfg .sup (nodeAt σ.st n)) ∧
        m = .answer (.status states) (.client, sent))
      (task := fun L => .status .client (.client, sent) T (L.map fun n => stateOf cfg .sup (nodeAt σ.st n)))
      hnd hT0 hmem rfl rfl
      (by
        simp only [supRequest, hT, Option.map_some]
        rw [if_neg (by simpa using hT0)]
        rfl)
      idle.sup rfl
      (by intro n hn; exact bump_ctr hn)
      (by intro n hn hnT; exact ⟨rfl, by simp [bump, hnT]⟩)
      (by
        intro n hn x hx
        rw [nodeReceive_sup hx (i := (.sup, c.sup.nextTask)) (by simp) rfl]
        simp only [nodeRequest, hx.mem, hx.sup]
        refine ⟨_, rfl, ?_⟩
        rw [show bump T σ.ctr n = σ.ctr n + 1 from bump_ctr (σ := σ) hn]
        exact hx.put' _)
      (by intro n u t ht; simp only [supReceive, ht])
      (by
        intro L n u hu hn hnL hL hLT hlt
        simp only [supTask]
        rw [if_neg (by simp; omega)]
        simp)
      (by
        intro L n u hu hk hn hnL hL hLT hlt
        have hperm := perm_range hnd hL hn hnL hLT hlt
        simp only [supTask]
        rw [if_pos (by simp; omega)]
        refine ⟨_, _, rfl, (hu.set hk _).bump _, ⟨_, ?_, rfl⟩, by simp⟩
        have := hperm.map (fun n => stateOf cfg .sup (nodeAt σ.st n))
        simpa using this)
    refine main.mono ?_
    rintro c' ⟨ans, ⟨pop, h1, rfl⟩, h'⟩
    exact ⟨pop, h1, h'⟩

/-! ## Revival -/

theorem ev_revive {σ σ' : PState D K} {rest : List (Req D)} {sent : ℕ} {inbox : List (Msg D K)}
    {c : Sys D K} (idle : Idle σ (.revive :: rest) sent inbox c) {T : List ℕ}
    (hT : (σ.states.filter NState.alive).length = 0 →
      (σ.states.filter NState.ripe).map NState.address = T.map Addr.node ∧ T.Nodup ∧ T ≠ [] ∧
      ∀ n ∈ T, n < σ.st.nodes.length)
    (h : seqRevive cfg σ = some σ') :
    EvC cfg env spawn (fun c => Idle σ' rest (sent + 1)
      (inbox ++ [.answer .reviveEnd (.client, sent)]) c) c := by
  by_cases hal : (σ.states.filter NState.alive).length = 0
  · obtain ⟨hT1, hnd, hT0, hmem⟩ := hT hal
    simp only [seqRevive, if_pos hal, Option.map_eq_some_iff] at h
    obtain ⟨ratio, hratio, h⟩ := h
    have hin : ∀ n, Addr.node n ∈ (σ.states.filter NState.ripe).map NState.address ↔ n ∈ T := by
      intro n; rw [hT1]; simp
    have hctr : ∀ n, σ'.ctr n = if n ∈ T then σ.ctr n + 1 else σ.ctr n := by
      intro n; subst h; simp only [hin]
    have hat : ∀ n < σ.st.nodes.length, nodeAt σ'.st n =
        if n ∈ T then nodeRevive (nodeAt σ.st n) else nodeAt σ.st n := by
      intro n hn
      subst h
      simp only [nodeAt, List.getElem?_mapIdx, List.getElem?_eq_getElem hn, hin, Option.map_some,
        Option.getD_some]
    have main := ev_phase (cfg := cfg) (env := env) (spawn := spawn) (σ' := σ')
      (σm := { σ with ratio := ratio }) idle (T := T)
      (u₁ := { c.sup with ratio := ratio })
      (req := fun n => .revive (.sup, c.sup.nextTask))
      (rep := fun n => .revive (.sup, c.sup.nextTask))
      (A := fun m => m = .answer .reviveEnd (.client, sent))
      (task := fun L => .revive .client (.client, sent) T.length L.length)
      hnd hT0 hmem (by subst h; simp) rfl
      (by
        simp only [supRequest, idle.sup.states, if_pos hal, idle.sup.ratio, hratio, Option.map_some, hT1,
          List.length_map, List.map_map]
        rfl)
      ⟨idle.sup.nodes, idle.sup.next, idle.sup.levels, idle.sup.cost, rfl, idle.sup.states, idle.sup.wf⟩ rfl
      (by intro n hn; rw [hctr, if_pos hn])
      (by intro n hn hnT; rw [hat n hn, hctr, if_neg hnT, if_neg hnT]; exact ⟨rfl, rfl⟩)
      (by
        intro n hn x hx
        rw [nodeReceive_sup hx (i := (.sup, c.sup.nextTask)) (by simp) rfl]
        simp only [nodeRequest, hx.mem, hx.sup]
        refine ⟨_, rfl, ?_⟩
        rw [hat n (hmem n hn), hctr, if_pos hn, if_pos hn]
        exact hx.put _)
      (by intro n u t ht; simp only [supReceive, ht])
      (by
        intro L n u hu hn hnL hL hLT hlt
        simp only [supTask]
        rw [if_neg (by omega)]
        simp)
      (by
        intro L n u hu hk hn hnL hL hLT hlt
        simp only [supTask]
        rw [if_pos hlt]
        refine ⟨_, _, rfl, ?_, rfl, by simp⟩
        have h1 := hu.set hk (.revive .client (.client, sent) T.length (L.length + 1))
        subst h
        exact ⟨by simpa using h1.nodes, by simpa using h1.next, h1.levels,
          h1.cost, h1.ratio, h1.states, h1.wf⟩)
    refine main.mono ?_
    rintro c' ⟨ans, rfl, h'⟩
    exact h'
  · simp only [seqRevive, if_neg hal, Option.some.injEq] at h
    subst h
    apply ev_ask idle.chan idle.client.waiting idle.client.todo
    have hchan : (ask c .revive rest).chan = only .client .sup (.req .revive (.client, sent)) := by
      simp only [ask, idle.chan, push_empty, idle.client.sent]
    refine ev_single (c' := { ask c .revive rest with
      sup := putS (.revive .client (.client, sent) 0 0) c.sup
      chan := only .sup .client (.answer .reviveEnd (.client, sent)) }) hchan rfl trivial trivial ?_ ?_
    · have e : supReceive cfg (ask c .revive rest).sup (.req .revive (.client, sent)) .client =
          some (putS (.revive .client (.client, sent) 0 0) c.sup,
            [(.client, .answer .reviveEnd (.client, sent))]) := by
        have : (ask c .revive rest).sup = c.sup := rfl
        simp only [supReceive, supRequest, this, idle.sup.states, if_neg hal]
      simp only [chandle, e, Option.map_some, hchan, pop_only]
      rw [syncPost_plain (by simp [plain]), pushAll_one]
    · apply ev_answer rfl rfl
      refine .done ⟨idle.sup.put _, idle.nodes, rfl, rfl, rfl, ?_, ?_⟩
      · simp [ask, idle.client.sent]
      · simp [ask, idle.client.inbox]

end

end Evogil.Dist
