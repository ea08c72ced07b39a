import Verif.Lemmas.DistRelease

/-!
# Whole steps of the distributed HGS
-/

set_option linter.unusedSectionVars false

namespace Evogil.Dist

variable {D K : Type*} [Field K] [LinearOrder K]

/-- What holds between two steps. -/
structure Good (cfg : Hgs.Conf D K) (σ : PState D K) : Prop where
  tree : Hgs.Tree cfg.maxLevel σ.st
  ratio : cfg.maxLevel < σ.ratio.length
  zero : ∀ n, σ.st.nodes.length ≤ n → σ.ctr n = 0
  flags : ∀ n < σ.st.nodes.length, (nodeAt σ.st n).ripe = !(nodeAt σ.st n).alive
  living : ∃ n < σ.st.nodes.length, (nodeAt σ.st n).alive = true

theorem tree_pos {m : ℕ} {st : Hgs.State D K} (t : Hgs.Tree m st) : 0 < st.nodes.length := by
  obtain ⟨n, hn, _⟩ := Option.map_eq_some_iff.1 t.root
  exact (List.getElem?_eq_some_iff.1 hn).1

theorem tree_ne {m : ℕ} {st : Hgs.State D K} (t : Hgs.Tree m st) : st.nodes ≠ [] :=
  List.length_pos_iff.1 (tree_pos t)

section
variable {cfg : Hgs.Conf D K} {env : ℕ → ℕ → Hgs.Report D K} {spawn : ℕ → ℕ → ℕ → List D}

theorem nodeAt_mk {st : Hgs.State D K} {l : List (Hgs.Node D K)} {n : ℕ} {a : Hgs.Node D K}
    (hst : st.nodes = l) (h : l[n]? = some a) : nodeAt st n = a := by
  simp [nodeAt, hst, h]

/-! ## The metaepoch -/

theorem nodeMetaepoch_same (fl : K → K) (r : Hgs.Report D K) (a : Hgs.Node D K) :
    Hgs.shape (nodeMetaepoch fl r a).1 = Hgs.shape a ∧ (nodeMetaepoch fl r a).1.alive = a.alive ∧
      (nodeMetaepoch fl r a).1.ripe = a.ripe := by
  simp only [nodeMetaepoch]
  split
  · refine ⟨?_, ?_, ?_⟩
    · cases h : a.rel <;> simp [Rounded.Hgs.afterMetaepoch, h, Hgs.shape]
    · cases h : a.rel <;> simp [Rounded.Hgs.afterMetaepoch, h]
    · cases h : a.rel <;> simp [Rounded.Hgs.afterMetaepoch, h]
  · exact ⟨rfl, rfl, rfl⟩

/-- What a metaepoch keeps. -/
structure MetaKeep (σ σ' : PState D K) : Prop where
  same : Hgs.SameTree σ.st σ'.st
  ratio : σ'.ratio = σ.ratio
  states : σ'.states = []
  ctr : σ'.ctr = (bumpAll σ).ctr
  flags : ∀ n < σ.st.nodes.length, (nodeAt σ'.st n).alive = (nodeAt σ.st n).alive ∧
    (nodeAt σ'.st n).ripe = (nodeAt σ.st n).ripe

theorem seqMetaepoch_some (henv : ∀ n k, (env n k).costs ≠ []) {σ : PState D K}
    (hl : ∃ n < σ.st.nodes.length, (nodeAt σ.st n).alive = true) :
    ∃ σ', seqMetaepoch cfg env σ = some σ' ∧ MetaKeep σ σ' := by
  obtain ⟨n, hn, ha⟩ := hl
  have hne : ((σ.st.nodes.mapIdx fun n a => nodeMetaepoch cfg.fl (env n (σ.ctr n)) a).filterMap
      fun r => r.2.map fun e => cfg.modifier e.1 * e.2).max? ≠ none := by
    rw [Ne, List.max?_eq_none_iff, List.filterMap_eq_nil_iff]
    intro h
    have hmem : nodeMetaepoch cfg.fl (env n (σ.ctr n)) (nodeAt σ.st n) ∈
        σ.st.nodes.mapIdx fun n a => nodeMetaepoch cfg.fl (env n (σ.ctr n)) a := by
      rw [List.mem_mapIdx]
      refine ⟨n, hn, ?_⟩
      rw [nodeAt, List.getElem?_eq_getElem hn]
      rfl
    have := h _ hmem
    simp only [nodeMetaepoch, ha, if_true] at this
    obtain ⟨x, hx⟩ := Option.ne_none_iff_exists'.1
      (fun e => henv n (σ.ctr n) (List.getLast?_eq_none_iff.1 e))
    rw [hx] at this
    cases this
  obtain ⟨top, htop⟩ := Option.ne_none_iff_exists'.1 hne
  refine ⟨{ bumpAll σ with
      st := ⟨(σ.st.nodes.mapIdx fun n a => nodeMetaepoch cfg.fl (env n (σ.ctr n)) a).map Prod.fst, σ.st.levels,
        σ.st.cost + top⟩
      states := [] }, by simp only [seqMetaepoch, htop, Option.map_some], ?_, rfl, rfl, rfl, ?_⟩
  · refine ⟨rfl, ?_⟩
    simp only [List.map_map]
    apply List.ext_getElem?
    intro i
    simp only [List.getElem?_map, List.getElem?_mapIdx]
    cases σ.st.nodes[i]? with
    | none => rfl
    | some a => simp [(nodeMetaepoch_same cfg.fl (env i (σ.ctr i)) a).1]
  · intro i hi
    have : ((σ.st.nodes.mapIdx fun n a => nodeMetaepoch cfg.fl (env n (σ.ctr n)) a).map Prod.fst)[i]? =
        some (nodeMetaepoch cfg.fl (env i (σ.ctr i)) (nodeAt σ.st i)).1 := by
      simp [List.getElem?_map, List.getElem?_mapIdx, nodeAt_get hi]
    rw [nodeAt_mk rfl this]
    exact (nodeMetaepoch_same _ _ _).2

/-! ## Trimming -/

theorem nodeTrim_shape (q : K) (a : Hgs.Node D K) : Hgs.shape (nodeTrim cfg q a) = Hgs.shape a := by
  simp only [nodeTrim]; split <;> rfl

theorem nodeTrim_flags (q : K) (a : Hgs.Node D K) (h : a.ripe = !a.alive) :
    (nodeTrim cfg q a).ripe = !(nodeTrim cfg q a).alive := by
  simp only [nodeTrim]; split
  · rfl
  · exact h

theorem seqTrim_same (σ : PState D K) : Hgs.SameTree σ.st (seqTrim cfg σ).st := by
  refine ⟨rfl, ?_⟩
  simp only [seqTrim, List.map_map]
  apply List.map_congr_left
  intro a _
  exact nodeTrim_shape _ _

theorem nodeAt_seqTrim {σ : PState D K} {n : ℕ} (hn : n < σ.st.nodes.length) :
    nodeAt (seqTrim cfg σ).st n =
      nodeTrim cfg (σ.ratio.getD (nodeAt σ.st n).level 0) (nodeAt σ.st n) := by
  apply nodeAt_mk rfl
  simp [seqTrim, nodeAt_get hn]

/-! ## Releasing -/

theorem tree_sprouts {m : ℕ} {st : Hgs.State D K} (t : Hgs.Tree m st) {i : ℕ} (hi : i < st.nodes.length) :
    (nodeAt st i).sprouts.Nodup ∧ i ∉ (nodeAt st i).sprouts ∧
      ∀ n ∈ (nodeAt st i).sprouts, n < st.nodes.length := by
  have hmem : nodeAt st i ∈ st.nodes := List.mem_of_getElem? (nodeAt_get hi)
  refine ⟨?_, ?_, ?_⟩
  · have : (st.nodes.flatMap Hgs.Node.sprouts).Nodup := t.once.nodup_iff.2 List.nodup_range'
    exact (List.nodup_flatMap.1 this).1 _ hmem
  · intro h
    exact lt_irrefl _ (t.child i _ i (nodeAt_get hi) h).1
  · intro n hn
    obtain ⟨a, ha, _⟩ := Option.map_eq_some_iff.1 (t.child i _ n (nodeAt_get hi) hn).2
    exact (List.getElem?_eq_some_iff.1 ha).1

/-- Above every node there are nodes on all levels. -/
theorem tree_above {m : ℕ} {st : Hgs.State D K} (t : Hgs.Tree m st) :
    ∀ (l : ℕ) (i : ℕ), i < st.nodes.length → (nodeAt st i).level = l → ∀ k ≤ l,
      ∃ j < st.nodes.length, (nodeAt st j).level = k
  | 0, i, hi, hl, k, hk => ⟨i, hi, by omega⟩
  | l + 1, i, hi, hl, k, hk => by
    by_cases e : k = l + 1
    · exact ⟨i, hi, by omega⟩
    · have hi0 : i ≠ 0 := by
        rintro rfl
        have := t.root
        rw [nodeAt_get hi] at this
        simp at this
        omega
      have : i ∈ List.range' 1 (st.nodes.length - 1) := by
        rw [List.mem_range'_1]; omega
      rw [← t.once.mem_iff, List.mem_flatMap] at this
      obtain ⟨p, hp, hs⟩ := this
      obtain ⟨j, hj⟩ := List.mem_iff_getElem?.1 hp
      have hjl := (List.getElem?_eq_some_iff.1 hj).1
      have := (t.child j p i hj hs).2
      rw [nodeAt_get hi] at this
      simp only [Option.map_some, Option.some.injEq] at this
      rw [nodeAt_get hjl, Option.some.injEq] at hj
      exact tree_above t l j hjl (by rw [hj]; omega) k (by omega)

theorem tree_leaf {st : Hgs.State D K} {m : ℕ} (hm : m ≤ 2) (t : Hgs.Tree m st) :
    ∃ l, findLeaf st.levels (m + 1) = some l := by
  have key : ∀ k ≤ m, ∃ l, findLeaf st.levels (k + 1) = some l := by
    intro k
    induction k with
    | zero => intro _; exact ⟨0, by simp [findLeaf, t.level_zero]⟩
    | succ k ih =>
      intro hk
      rw [findLeaf, t.level_list (l := k + 1) (by omega)]
      cases (List.range st.nodes.length).filter fun i => (st.nodes[i]?).map Hgs.Node.level = some (k + 1) with
      | nil => exact ih (by omega)
      | cons a l => exact ⟨_, rfl⟩
  exact key m le_rfl

theorem tree_ready (hm : cfg.maxLevel ≤ 2) {σ : PState D K} (t : Hgs.Tree cfg.maxLevel σ.st)
    (hc : ∀ n < σ.st.nodes.length, 0 < σ.ctr n) {lvl : ℕ}
    (hl : findLeaf σ.st.levels (cfg.maxLevel + 1) = some lvl) : Ready cfg lvl σ := by
  obtain ⟨h1, ⟨n, ns, h2⟩, _⟩ := findLeaf_spec _ _ hl
  intro l hll
  have hl2 : l ≤ 2 := by omega
  obtain ⟨ids, hids⟩ : ∃ ids, σ.st.levels[l]? = some ids := ⟨_, t.level_list hl2⟩
  obtain ⟨a, ha, hal⟩ := (t.mem_level (by omega) h2).1 (List.mem_cons_self ..)
  have hn := (List.getElem?_eq_some_iff.1 ha).1
  rw [nodeAt_get hn, Option.some.injEq] at ha
  obtain ⟨j, hj, hjl⟩ := tree_above t lvl n hn (by rw [ha]; exact hal) l hll
  refine ⟨ids, hids, ?_, t.nodup_level hl2 hids, ?_⟩
  · exact List.ne_nil_of_mem ((t.mem_level hl2 hids).2 ⟨_, nodeAt_get hj, hjl⟩)
  · intro i hi
    obtain ⟨b, hb, hbl⟩ := (t.mem_level hl2 hids).1 hi
    have hiN := (List.getElem?_eq_some_iff.1 hb).1
    rw [nodeAt_get hiN, Option.some.injEq] at hb
    obtain ⟨s1, s2, s3⟩ := tree_sprouts t hiN
    refine ⟨⟨hiN, ?_, s1, s2, fun n hn => ⟨s3 n hn, hc n (s3 n hn)⟩⟩, by rw [hb]; exact hbl⟩
    intro h
    rw [t.levels]
    simp
    omega

theorem mem_order {levels : List (List ℕ)} {j : ℕ} : ∀ lvl, j ∈ order levels lvl ↔
    ∃ l ≤ lvl, ∃ ns, levels[l]? = some ns ∧ j ∈ ns
  | 0 => by
    simp only [order, List.getD]
    constructor
    · intro h
      cases e : levels[0]? with
      | none => simp [e] at h
      | some ns => exact ⟨0, le_rfl, ns, e, by simpa [e] using h⟩
    · rintro ⟨l, hl, ns, e, h⟩
      obtain rfl : l = 0 := by omega
      simpa [e] using h
  | k + 1 => by
    simp only [order, List.getD, List.mem_append, mem_order k]
    constructor
    · rintro (h | ⟨l, hl, ns, e, h⟩)
      · cases e : levels[k + 1]? with
        | none => simp [e] at h
        | some ns => exact ⟨k + 1, le_rfl, ns, e, by simpa [e] using h⟩
      · exact ⟨l, by omega, ns, e, h⟩
    · rintro ⟨l, hl, ns, e, h⟩
      by_cases hk : l = k + 1
      · subst hk; left; simpa [e] using h
      · right; exact ⟨l, by omega, ns, e, h⟩

theorem order_nodup {σ : PState D K} : ∀ lvl, Ready cfg lvl σ → (order σ.st.levels lvl).Nodup
  | 0, r => by
    obtain ⟨ns, h1, _, h3, _⟩ := r 0 le_rfl
    simpa [order, List.getD, h1] using h3
  | k + 1, r => by
    obtain ⟨ns, h1, _, h3, h4⟩ := r (k + 1) le_rfl
    have r' : Ready cfg k σ := fun l hl => r l (by omega)
    simp only [order, List.getD, h1, Option.getD_some]
    refine List.nodup_append.2 ⟨h3, order_nodup k r', ?_⟩
    intro a ha b hb e
    subst e
    have := (h4 a ha).2
    have := (order_lt k r' a hb).2
    omega

/-- Every node has its turn exactly once. -/
theorem order_perm (hm : cfg.maxLevel ≤ 2) {σ : PState D K} (t : Hgs.Tree cfg.maxLevel σ.st)
    (hc : ∀ n < σ.st.nodes.length, 0 < σ.ctr n) {lvl : ℕ}
    (hl : findLeaf σ.st.levels (cfg.maxLevel + 1) = some lvl) :
    (order σ.st.levels lvl).Perm (List.range σ.st.nodes.length) := by
  have r := tree_ready hm t hc hl
  obtain ⟨h1, _, h3⟩ := findLeaf_spec _ _ hl
  rw [List.perm_ext_iff_of_nodup (order_nodup lvl r) List.nodup_range]
  intro j
  rw [List.mem_range]
  constructor
  · exact fun h => (order_lt lvl r j h).1
  · intro hj
    rw [mem_order]
    have hd : (nodeAt σ.st j).level ≤ cfg.maxLevel :=
      t.depth _ (List.mem_of_getElem? (nodeAt_get hj))
    obtain ⟨ids, hids⟩ : ∃ ids, σ.st.levels[(nodeAt σ.st j).level]? = some ids :=
      ⟨_, t.level_list (by omega)⟩
    have hmem := (t.mem_level (by omega) hids).2 ⟨_, nodeAt_get hj, rfl⟩
    refine ⟨_, ?_, ids, hids, hmem⟩
    by_contra hlt
    rw [h3 _ (by omega) (by omega), Option.some.injEq] at hids
    subst hids
    cases hmem

theorem seqRelease_some (hm : cfg.maxLevel ≤ 2) {σ : PState D K} (t : Hgs.Tree cfg.maxLevel σ.st)
    (hc : ∀ n < σ.st.nodes.length, 0 < σ.ctr n) :
    ∃ lvl σ', findLeaf σ.st.levels (cfg.maxLevel + 1) = some lvl ∧ Ready cfg lvl σ ∧
      (order σ.st.levels lvl).Perm (List.range σ.st.nodes.length) ∧
      seqRelease cfg spawn σ = some σ' ∧ Sweep cfg (order σ.st.levels lvl) σ σ' := by
  obtain ⟨lvl, hl⟩ := tree_leaf hm t
  have r := tree_ready hm t hc hl
  obtain ⟨σ', h1, h2⟩ := releaseLevels_some (cfg := cfg) (spawn := spawn) lvl [] σ r
  exact ⟨lvl, σ', hl, r, order_perm hm t hc hl, by simp only [seqRelease, hl, Option.bind_some, h1], h2⟩

/-! ## A whole step -/

/-- The states after the three phases before the release, the release and the revival. -/
structure Phases (cfg : Hgs.Conf D K) (env : ℕ → ℕ → Hgs.Report D K) (spawn : ℕ → ℕ → ℕ → List D)
    (σ σ₁ σ₂ σ₃ : PState D K) (T : List ℕ) : Prop where
  good : Good cfg σ
  metaepoch : seqMetaepoch cfg env σ = some σ₁
  keep : MetaKeep σ σ₁
  tree₁ : Hgs.Tree cfg.maxLevel σ₁.st
  tree₂ : Hgs.Tree cfg.maxLevel (seqRedundant (seqTrim cfg σ₁)).st
  zero₂ : ∀ n, σ.st.nodes.length ≤ n → (seqRedundant (seqTrim cfg σ₁)).ctr n = 0
  pos₂ : ∀ n < σ.st.nodes.length, 0 < (seqRedundant (seqTrim cfg σ₁)).ctr n
  release : seqRelease cfg spawn (seqRedundant (seqTrim cfg σ₁)) = some σ₂
  revive : seqRevive cfg σ₂ = some σ₃
  targets : (σ₂.states.filter NState.alive).length = 0 →
    (σ₂.states.filter NState.ripe).map NState.address = T.map Addr.node ∧ T.Nodup ∧ T ≠ [] ∧
      ∀ n ∈ T, n < σ₂.st.nodes.length
  /-- if nobody reported to be alive, all nodes there are, are dead and are revived -/
  all : (σ₂.states.filter NState.alive).length = 0 →
    T.Perm (List.range σ₂.st.nodes.length) ∧ ∀ n < σ₂.st.nodes.length, (nodeAt σ₂.st n).alive = false
  /-- otherwise somebody is alive -/
  one : (σ₂.states.filter NState.alive).length ≠ 0 →
    ∃ n < σ₂.st.nodes.length, (nodeAt σ₂.st n).alive = true
  good' : Good cfg σ₃

theorem halveUpTo_some {fl : K → K} {k : ℕ} {ratio : List K} (h : k ≤ ratio.length) :
    ∃ r, halveUpTo fl k ratio = some r ∧ r.length = ratio.length := by
  refine ⟨_, by rw [halveUpTo, if_pos h], ?_⟩
  simp
  omega

theorem phases (hm : cfg.maxLevel ≤ 2) (henv : ∀ n k, (env n k).costs ≠ []) {σ : PState D K}
    (g : Good cfg σ) : ∃ σ₁ σ₂ σ₃ T, Phases cfg env spawn σ σ₁ σ₂ σ₃ T := by
  obtain ⟨σ₁, h1, k1⟩ := seqMetaepoch_some (cfg := cfg) henv g.living
  have t1 := g.tree.of_same k1.same
  have l1 : σ₁.st.nodes.length = σ.st.nodes.length := k1.same.length
  have t2 : Hgs.Tree cfg.maxLevel (seqRedundant (seqTrim cfg σ₁)).st := t1.of_same (seqTrim_same σ₁)
  have l2 : (seqRedundant (seqTrim cfg σ₁)).st.nodes.length = σ.st.nodes.length := by
    rw [← l1]; exact (seqTrim_same (cfg := cfg) σ₁).length
  have lt : (seqTrim cfg σ₁).st.nodes.length = σ.st.nodes.length := l2
  have z1 : ∀ n, σ.st.nodes.length ≤ n → σ₁.ctr n = 0 := by
    intro n hn
    rw [k1.ctr]
    simp [bumpAll, bump, g.zero n hn, hn]
  have z2 : ∀ n, σ.st.nodes.length ≤ n → (seqRedundant (seqTrim cfg σ₁)).ctr n = 0 := by
    intro n hn
    have hz := z1 n hn
    have h1 : (seqTrim cfg σ₁).ctr n = 0 := by
      simp only [seqTrim, bumpAll, bump, List.mem_range]
      rw [if_neg (by omega), hz]
    simp only [seqRedundant, bumpAll, bump, List.mem_range]
    rw [if_neg (by omega), h1]
  have p2 : ∀ n < σ.st.nodes.length, 0 < (seqRedundant (seqTrim cfg σ₁)).ctr n := by
    intro n hn
    simp only [seqRedundant, bumpAll, bump, List.mem_range]
    rw [if_pos (by omega)]
    omega
  have f1 : ∀ n < σ.st.nodes.length, (nodeAt σ₁.st n).ripe = !(nodeAt σ₁.st n).alive := by
    intro n hn
    rw [(k1.flags n hn).1, (k1.flags n hn).2]
    exact g.flags n hn
  have f2 : ∀ n < σ.st.nodes.length, (nodeAt (seqRedundant (seqTrim cfg σ₁)).st n).ripe =
      !(nodeAt (seqRedundant (seqTrim cfg σ₁)).st n).alive := by
    intro n hn
    have : nodeAt (seqRedundant (seqTrim cfg σ₁)).st n = nodeAt (seqTrim cfg σ₁).st n := rfl
    rw [this, nodeAt_seqTrim (by omega)]
    exact nodeTrim_flags _ _ (f1 n hn)
  obtain ⟨lvl, σ₂, hl, r, hperm, h2, S⟩ := seqRelease_some (spawn := spawn) hm t2
    (fun n hn => p2 n (by omega))
  obtain ⟨ρ, hρ⟩ : ∃ ρ, ρ = seqRedundant (seqTrim cfg σ₁) := ⟨_, rfl⟩
  rw [← hρ] at t2 l2 z2 p2 f2 hl r hperm h2 S
  have hstates : ρ.states = [] := by rw [hρ]; exact k1.states
  have hratio : ρ.ratio = σ.ratio := by rw [hρ]; exact k1.ratio
  have t3 := S.tree cfg.maxLevel hm le_rfl t2
  have hkeep : ∀ j < ρ.st.nodes.length, (nodeAt σ₂.st j).alive = (nodeAt ρ.st j).alive ∧
      (nodeAt σ₂.st j).ripe = (nodeAt ρ.st j).ripe := by
    intro j hj
    have h1 := congrArg Hgs.Node.alive (S.keep j hj)
    have h2 := congrArg Hgs.Node.ripe (S.keep j hj)
    exact ⟨h1, h2⟩
  have hnew : ∀ j, ρ.st.nodes.length ≤ j → j < σ₂.st.nodes.length → (nodeAt σ₂.st j).alive = true ∧
      (nodeAt σ₂.st j).ripe = false := by
    intro j h1 h2
    obtain ⟨l, hl⟩ := S.new j h1 h2
    have h1 := congrArg Hgs.Node.alive hl
    have h2 := congrArg Hgs.Node.ripe hl
    exact ⟨h1, h2⟩
  have f3 : ∀ n < σ₂.st.nodes.length, (nodeAt σ₂.st n).ripe = !(nodeAt σ₂.st n).alive := by
    intro n hn
    by_cases e : n < ρ.st.nodes.length
    · rw [(hkeep n e).1, (hkeep n e).2]; exact f2 n (by omega)
    · rw [(hnew n (by omega) hn).1, (hnew n (by omega) hn).2]; rfl
  have z3 := S.zero (fun n hn => z2 n (by omega))
  have r3 : cfg.maxLevel < σ₂.ratio.length := by rw [S.ratio, hratio]; exact g.ratio
  have hmemo : ∀ n < ρ.st.nodes.length, n ∈ order ρ.st.levels lvl := fun n hn =>
    hperm.mem_iff.2 (List.mem_range.2 hn)
  obtain ⟨T, hT⟩ : ∃ T, T = (order ρ.st.levels lvl).filter fun i => (nodeAt ρ.st i).ripe := ⟨_, rfl⟩
  have hTa : (σ₂.states.filter NState.ripe).map NState.address = T.map Addr.node := by
    rw [S.ripe, hstates, hT]
    simp only [List.filter_nil, List.nil_append, List.filter_map, List.map_map]
    rfl
  have hall : (σ₂.states.filter NState.alive).length = 0 →
      T.Perm (List.range σ₂.st.nodes.length) ∧ ∀ n < σ₂.st.nodes.length, (nodeAt σ₂.st n).alive = false := by
    intro h
    obtain ⟨_, a2, a3⟩ := S.alive h
    have hd : ∀ n < ρ.st.nodes.length, (nodeAt ρ.st n).alive = false := fun n hn => a2 n (hmemo n hn)
    constructor
    · rw [a3, hT, List.filter_eq_self.2]
      · exact hperm
      · intro n hn
        have hn' := List.mem_range.1 (hperm.mem_iff.1 hn)
        rw [f2 n (by omega), hd n hn']
        rfl
    · intro n hn
      rw [(hkeep n (by omega)).1]
      exact hd n (by omega)
  have htargets : (σ₂.states.filter NState.alive).length = 0 →
      (σ₂.states.filter NState.ripe).map NState.address = T.map Addr.node ∧ T.Nodup ∧ T ≠ [] ∧
        ∀ n ∈ T, n < σ₂.st.nodes.length := by
    intro h
    obtain ⟨hp, _⟩ := hall h
    refine ⟨hTa, hp.nodup_iff.2 List.nodup_range, ?_, fun n hn => List.mem_range.1 (hp.mem_iff.1 hn)⟩
    exact List.ne_nil_of_mem (hp.mem_iff.2 (List.mem_range.2 (tree_pos t3)))
  have hsome : (σ₂.states.filter NState.alive).length ≠ 0 →
      ∃ n < σ₂.st.nodes.length, (nodeAt σ₂.st n).alive = true := by
    intro h
    by_contra hno
    push Not at hno
    have hlen : σ₂.st.nodes.length = ρ.st.nodes.length := by
      by_contra hne
      have h1 := S.len
      have h2 : ρ.st.nodes.length < σ₂.st.nodes.length := by omega
      exact hno _ h2 (hnew _ le_rfl h2).1
    apply h
    apply S.dead
    · intro i hi
      have hi' := List.mem_range.1 (hperm.mem_iff.1 hi)
      have := hno i (by omega)
      rw [(hkeep i hi').1] at this
      simpa using this
    · rw [hstates]; rfl
    · exact hlen
  obtain ⟨rr, hrr, hrl⟩ := halveUpTo_some (fl := cfg.fl) (k := cfg.maxLevel + 1) (ratio := σ₂.ratio) (by omega)
  by_cases hal : (σ₂.states.filter NState.alive).length = 0
  · have hin : ∀ n, Addr.node n ∈ (σ₂.states.filter NState.ripe).map NState.address ↔
        n < σ₂.st.nodes.length := by
      intro n
      rw [hTa, List.mem_map_of_injective (fun a b h => by cases h; rfl), (hall hal).1.mem_iff, List.mem_range]
    obtain ⟨σ₃, h3, e3⟩ : ∃ σ₃, seqRevive cfg σ₂ = some σ₃ ∧ σ₃ = { σ₂ with
        st := { σ₂.st with
          nodes := (σ₂.st.nodes.mapIdx fun n a => if Addr.node n ∈
            (σ₂.states.filter NState.ripe).map NState.address then nodeRevive a else a) }
        ratio := rr
        ctr := fun n => if Addr.node n ∈ (σ₂.states.filter NState.ripe).map NState.address
          then σ₂.ctr n + 1 else σ₂.ctr n } :=
      ⟨_, by simp only [seqRevive, if_pos hal, hrr, Option.map_some], rfl⟩
    have hl3 : σ₃.st.nodes.length = σ₂.st.nodes.length := by rw [e3]; simp
    have hnode : ∀ n < σ₂.st.nodes.length, nodeAt σ₃.st n = nodeRevive (nodeAt σ₂.st n) := by
      intro n hn
      rw [e3]
      apply nodeAt_mk rfl
      rw [List.getElem?_mapIdx, nodeAt_get hn, Option.map_some, if_pos ((hin n).2 hn)]
    refine ⟨σ₁, σ₂, σ₃, T, ⟨g, h1, k1, t1, hρ ▸ t2, hρ ▸ z2, hρ ▸ p2, hρ ▸ h2, h3, htargets, hall, hsome, ?_⟩⟩
    refine ⟨?_, ?_, ?_, ?_, ?_⟩
    · refine t3.of_same ⟨by rw [e3], ?_⟩
      rw [e3]
      simp only
      apply List.ext_getElem?
      intro i
      simp only [List.getElem?_map, List.getElem?_mapIdx]
      cases σ₂.st.nodes[i]? with
      | none => rfl
      | some a =>
        simp only [Option.map_some]
        split <;> rfl
    · rw [e3]; simp only [hrl]; exact r3
    · intro n hn
      rw [hl3] at hn
      rw [e3]
      simp only
      rw [if_neg (by rw [hin]; omega), z3 n hn]
    · intro n hn
      rw [hnode n (by omega)]
      rfl
    · exact ⟨0, by rw [hl3]; exact tree_pos t3, by rw [hnode 0 (tree_pos t3)]; rfl⟩
  · refine ⟨σ₁, σ₂, σ₂, T, ⟨g, h1, k1, t1, hρ ▸ t2, hρ ▸ z2, hρ ▸ p2, hρ ▸ h2, by
      simp only [seqRevive, if_neg hal], htargets, hall, hsome, ?_⟩⟩
    exact ⟨t3, r3, z3, f3, hsome hal⟩

theorem Phases.step {σ σ₁ σ₂ σ₃ : PState D K} {T : List ℕ} (p : Phases cfg env spawn σ σ₁ σ₂ σ₃ T) :
    seqStep cfg env spawn σ = some σ₃ := by
  simp only [seqStep, p.metaepoch, Option.bind_some, p.release, p.revive]

/-- The answers to the requests of one step; the first one has the number `sent`. -/
def stepAnswers (cost : K) (sent : ℕ) : List (Msg D K) :=
  [.answer (.metaepochEnd cost) (.client, sent), .answer .trimNotProgressingEnd (.client, sent + 1),
    .answer .trimRedundantEnd (.client, sent + 2), .answer .releaseEnd (.client, sent + 3),
    .answer .reviveEnd (.client, sent + 4)]

theorem ev_step (hm : cfg.maxLevel ≤ 2) {σ σ₁ σ₂ σ₃ : PState D K} {T : List ℕ}
    (p : Phases cfg env spawn σ σ₁ σ₂ σ₃ T) {rest : List (Req D)} {sent : ℕ} {inbox : List (Msg D K)}
    {c : Sys D K} (idle : Idle σ (stepRequests ++ rest) sent inbox c) :
    EvC cfg env spawn (fun c => Idle σ₃ rest (sent + 5) (inbox ++ stepAnswers σ₁.st.cost sent) c) c := by
  have l1 : σ₁.st.nodes.length = σ.st.nodes.length := p.keep.same.length
  have l2 : (seqRedundant (seqTrim cfg σ₁)).st.nodes.length = σ.st.nodes.length := by
    rw [← l1]; exact (seqTrim_same (cfg := cfg) σ₁).length
  obtain ⟨lvl, hl⟩ := tree_leaf hm p.tree₂
  have r := tree_ready hm p.tree₂ (fun n hn => p.pos₂ n (by omega)) hl
  refine (ev_metaepoch idle (tree_ne p.good.tree) p.metaepoch).bind fun c1 i1 => ?_
  refine (ev_trim i1 hm (by rw [p.keep.ratio]; exact p.good.ratio) p.tree₁).bind fun c2 i2 => ?_
  refine (ev_redundant i2 (tree_ne p.tree₂)).bind fun c3 i3 => ?_
  refine (ev_release i3 hl r (fun n hn => p.zero₂ n (by omega)) p.release).bind fun c4 i4 => ?_
  refine (ev_revive i4 p.targets p.revive).mono fun c5 i5 => ?_
  simpa [stepAnswers, List.append_assoc] using i5

/-! ## The start -/

theorem good_init {ratio : List K} (hr : cfg.maxLevel < ratio.length) :
    Good (D := D) cfg (PState.init ratio) := by
  refine ⟨?_, hr, fun _ _ => rfl, ?_, ⟨0, by simp [PState.init, Hgs.init], rfl⟩⟩
  · refine ⟨rfl, ?_, ?_, ?_, ?_⟩
    · simp [PState.init, Hgs.init, Hgs.newNode]
    · intro p n s hp hs
      have : n = Hgs.newNode 0 none := by
        have := List.mem_of_getElem? hp
        simpa [PState.init, Hgs.init] using this
      subst this
      simp [Hgs.newNode] at hs
    · intro n hn
      have : n = Hgs.newNode 0 none := by simpa [PState.init, Hgs.init] using hn
      subst this
      simp [Hgs.newNode]
    · simp [PState.init, Hgs.init, Hgs.newNode]
  · intro n hn
    have : n = 0 := by simpa [PState.init, Hgs.init] using hn
    subst this
    rfl

theorem ev_boot {ratio : List K} {pop : List D} {rest : List (Req D)} :
    EvC cfg env spawn (fun c => Idle (PState.init ratio) rest 1 [.done] c)
      (Sys.new ratio (.start pop :: rest)) := by
  refine ev_ask rfl rfl rfl ?_
  refine ev_single (a := .client) (b := .sup) (m := .req (.start pop) (.client, 0))
    (c' := { (ask (Sys.new ratio (.start pop :: rest)) (.start pop) rest : Sys D K) with
      sup := (supStart (Sup.new ratio) pop .client).1
      nodes := Function.update (fun _ => NodeS.new) 0 (booted 0)
      chan := only .sup .client .done }) ?_ rfl trivial trivial ?_ ?_
  · simp only [ask, Sys.new]
    exact push_empty _ _ _
  · have hch : (ask (Sys.new ratio (.start pop :: rest)) (.start pop) rest : Sys D K).chan =
        only .client .sup (.req (.start pop) (.client, 0)) := push_empty _ _ _
    simp only [chandle, hch, pop_only]
    simp only [ask, Sys.new, supReceive, supRequest, Option.map_some, supStart, createNode, Sup.new,
      List.cons_append, List.nil_append, syncPost, pushAll_one]
  · refine ev_answer rfl rfl (.done ?_)
    refine ⟨⟨rfl, rfl, rfl, rfl, rfl, rfl, ?_⟩, ?_, rfl, ⟨rfl, rfl, rfl, rfl⟩⟩
    · intro i hi
      exact absurd rfl hi
    · rw [nodesOK_iff]
      intro n hn
      have : n = 0 := by simpa [PState.init, Hgs.init] using hn
      subst this
      refine ⟨rfl, rfl, rfl, ?_⟩
      intro i hi
      exact absurd rfl hi

theorem is_new {ratio : List K} {todo : List (Req D)} :
    Is (fun _ => .clear) (Sys.new ratio todo) (Sys.new ratio todo) := by
  refine ⟨rfl, fun _ => rfl, ?_, fun _ _ => ⟨rfl, rfl⟩, ?_, rfl, rfl, rfl, rfl⟩
  · rintro n l p (h | h) <;> cases h
  · intro a b
    cases a <;> cases b <;> rfl

end

end Evogil.Dist
