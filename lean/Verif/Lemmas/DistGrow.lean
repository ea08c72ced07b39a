import Verif.Lemmas.DistTurn

/-!
# How the tree and the reported states change while sprouts are released
-/

set_option linter.unusedSectionVars false

namespace Evogil.Dist

variable {D K : Type*} [Field K] [LinearOrder K]

/-- A node without the list of its sprouts. -/
def bare (a : Hgs.Node D K) : Hgs.Node D K := { a with sprouts := [] }

theorem stateOf_bare {cfg : Hgs.Conf D K} {ad : Addr} {a b : Hgs.Node D K} (h : bare a = bare b) :
    stateOf cfg ad a = stateOf cfg ad b := by
  have h1 := congrArg Hgs.Node.level h
  have h2 := congrArg Hgs.Node.alive h
  have h3 := congrArg Hgs.Node.ripe h
  have h4 := congrArg Hgs.Node.pop h
  simp only [bare] at h1 h2 h3 h4
  simp only [stateOf, h1, h2, h3, h4]

/-- Nothing has changed but that nodes of `is` have got new sprouts on level `lvl + 1`. -/
structure Grow (is : List ℕ) (lvl : ℕ) (st st' : Hgs.State D K) : Prop where
  len : st.nodes.length ≤ st'.nodes.length
  keep : ∀ j < st.nodes.length, bare (nodeAt st' j) = bare (nodeAt st j)
  same : ∀ j < st.nodes.length, j ∉ is → nodeAt st' j = nodeAt st j
  levels : ∀ l, l ≠ lvl + 1 → st'.levels[l]? = st.levels[l]?
  llen : st'.levels.length = st.levels.length
  cost : st'.cost = st.cost
  new : ∀ j, st.nodes.length ≤ j → j < st'.nodes.length → nodeAt st' j = Hgs.newNode (lvl + 1) none

theorem Grow.refl (is : List ℕ) (lvl : ℕ) (st : Hgs.State D K) : Grow is lvl st st :=
  ⟨le_rfl, fun _ _ => rfl, fun _ _ _ => rfl, fun _ _ => rfl, rfl, rfl, fun j h1 h2 => by omega⟩

theorem Grow.mono {is is' : List ℕ} {lvl : ℕ} {st st' : Hgs.State D K} (h : Grow is lvl st st')
    (hs : ∀ j ∈ is, j ∈ is') : Grow is' lvl st st' :=
  ⟨h.len, h.keep, fun j hj hj' => h.same j hj (fun e => hj' (hs j e)), h.levels, h.llen, h.cost, h.new⟩

theorem Grow.trans {is : List ℕ} {lvl : ℕ} {a b c : Hgs.State D K} (h : Grow is lvl a b)
    (g : Grow is lvl b c) (his : ∀ j ∈ is, j < a.nodes.length) : Grow is lvl a c := by
  refine ⟨h.len.trans g.len, ?_, ?_, ?_, ?_, ?_, ?_⟩
  · intro j hj
    rw [g.keep j (lt_of_lt_of_le hj h.len), h.keep j hj]
  · intro j hj hj'
    rw [g.same j (lt_of_lt_of_le hj h.len) hj', h.same j hj hj']
  · intro l hl; rw [g.levels l hl, h.levels l hl]
  · rw [g.llen, h.llen]
  · rw [g.cost, h.cost]
  · intro j h1 h2
    by_cases e : j < b.nodes.length
    · rw [g.same j e (fun hh => by have := his j hh; omega), h.new j h1 e]
    · exact g.new j (by omega) h2

theorem grow_addSprout (st : Hgs.State D K) {i lvl : ℕ} (hi : i < st.nodes.length) :
    Grow [i] lvl st (addSprout st i lvl) := by
  refine ⟨by rw [addSprout_length]; omega, ?_, ?_, ?_, ?_, rfl, ?_⟩
  · intro j hj
    rw [nodeAt_addSprout st hi j hj]
    split
    · rename_i e; subst e; rfl
    · rfl
  · intro j hj hj'
    rw [nodeAt_addSprout st hi j hj, if_neg (by simpa using hj')]
  · intro l hl
    simp only [addSprout, List.getElem?_modify]
    simp [Ne.symm hl]
  · simp [addSprout]
  · intro j h1 h2
    rw [addSprout_length] at h2
    have : j = st.nodes.length := by omega
    subst this
    exact nodeAt_addSprout_new st i lvl

section
variable {cfg : Hgs.Conf D K} {spawn : ℕ → ℕ → ℕ → List D}

/-- Induction over the loop over the delegates. -/
theorem sproutLoop_ind {i k lvl alive : ℕ} {P : Hgs.State D K → List (NState D) → Prop} (d₀ : List D)
    (step : ∀ st created idx, ∀ d ∈ d₀, P st created → P (addSprout st i lvl)
      (created ++ [createNodeState cfg (.node i) (lvl + 1) true false (spawn i k idx)])) :
    ∀ (ds : List D) (idx released : ℕ) (next created : List (NState D)) (st : Hgs.State D K),
      (∀ d ∈ ds, d ∈ d₀) → P st created →
      P (sproutLoop cfg spawn i k lvl alive ds idx released next created st).1
        (sproutLoop cfg spawn i k lvl alive ds idx released next created st).2
  | [], _, _, _, _, _, _, h => h
  | d :: ds, idx, released, next, created, st, hds, h => by
    simp only [sproutLoop]
    split
    · exact h
    · split
      · exact sproutLoop_ind d₀ step ds _ _ _ _ _ (fun x hx => hds x (List.mem_cons_of_mem _ hx)) h
      · exact sproutLoop_ind d₀ step ds _ _ _ _ _ (fun x hx => hds x (List.mem_cons_of_mem _ hx))
          (step _ _ _ d (hds d (List.mem_cons_self ..)) h)

/-- The tree stays a tree. -/
theorem tree_addSprout {m : ℕ} (hm : m ≤ 2) {st : Hgs.State D K} (t : Hgs.Tree m st) {i lvl : ℕ} (d : D)
    (hi : i < st.nodes.length) (hl : (nodeAt st i).level = lvl) (hlm : lvl < m) :
    Hgs.Tree m (addSprout st i lvl) := by
  have hids := t.level_list (l := lvl + 1) (by omega)
  refine (t.addSprout hm (d := d) (nodeAt_get hi) hl hlm hids).of_same ⟨?_, ?_⟩
  · simp only [addSprout, Hgs.addSprout]
    rw [List.modify_eq_set_getElem?, hids]
    rfl
  · simp [addSprout, Hgs.addSprout, Hgs.shape, Hgs.newNode]

/-- What a turn leaves behind. -/
structure Turn (cfg : Hgs.Conf D K) (i : ℕ) (σ σ' : PState D K) (created : List (NState D)) : Prop where
  grow : Grow [i] (nodeAt σ.st i).level σ.st σ'.st
  ratio : σ'.ratio = σ.ratio
  states : σ'.states = σ.states ++ [stateOf cfg (.node i) (nodeAt σ.st i)] ++ created
  fresh : ∀ x ∈ created, x.alive = true ∧ x.ripe = false ∧ x.level = (nodeAt σ.st i).level + 1
  count : σ'.st.nodes.length = σ.st.nodes.length + created.length
  ctr : σ'.ctr = bump (i :: if (nodeAt σ.st i).ripe then (nodeAt σ.st i).sprouts else []) σ.ctr
  tree : ∀ m, m ≤ 2 → cfg.maxLevel ≤ m → Hgs.Tree m σ.st → Hgs.Tree m σ'.st

theorem releaseTurn_some {i : ℕ} {next : List (NState D)} {σ : PState D K} (hi : i < σ.st.nodes.length) :
    ∃ σ' created, releaseTurn cfg spawn i next σ =
        some (σ', stateOf cfg (.node i) (nodeAt σ.st i), created) ∧ Turn cfg i σ σ' created := by
  simp only [releaseTurn, nodeAt_get hi]
  refine ⟨_, _, rfl, ?_⟩
  split
  · rename_i hc
    have key := sproutLoop_ind (cfg := cfg) (spawn := spawn) (i := i) (k := σ.ctr i)
      (lvl := (nodeAt σ.st i).level) (alive := Hgs.livingSprouts σ.st i)
      (P := fun st created => Grow [i] (nodeAt σ.st i).level σ.st st ∧
        (∀ x ∈ created, x.alive = true ∧ x.ripe = false ∧ x.level = (nodeAt σ.st i).level + 1) ∧
        st.nodes.length = σ.st.nodes.length + created.length ∧
        (∀ m, m ≤ 2 → cfg.maxLevel ≤ m → Hgs.Tree m σ.st → Hgs.Tree m st))
      (nodeAt σ.st i).delegates ?_ (nodeAt σ.st i).delegates 0 0 next [] σ.st (fun _ h => h)
      ⟨Grow.refl _ _ _, by simp, by simp, fun _ _ _ h => h⟩
    · exact ⟨key.1, rfl, rfl, key.2.1, key.2.2.1, rfl, key.2.2.2⟩
    · rintro st created idx d hd ⟨h1, h2, h3, h4⟩
      have hi' := lt_of_lt_of_le hi h1.len
      refine ⟨h1.trans (grow_addSprout st hi') (by simpa using hi), ?_, ?_, ?_⟩
      · intro x hx
        rcases List.mem_append.1 hx with hx | hx
        · exact h2 x hx
        · rw [List.mem_singleton] at hx
          subst hx
          exact ⟨rfl, rfl, rfl⟩
      · rw [addSprout_length, h3]; simp; omega
      · intro m hm hmm ht
        refine tree_addSprout hm (h4 m hm hmm ht) d hi' ?_ (lt_of_lt_of_le hc.2.1 hmm)
        have := congrArg Hgs.Node.level (h1.keep i hi)
        exact this
  · exact ⟨Grow.refl _ _ _, rfl, rfl, by simp, by simp, rfl, fun _ _ _ h => h⟩

end

/-- A node can be told to release sprouts: its sprouts are other nodes that have had a task before. -/
structure Pend (cfg : Hgs.Conf D K) (σ : PState D K) (j : ℕ) : Prop where
  lt : j < σ.st.nodes.length
  lv : (nodeAt σ.st j).level < cfg.maxLevel → (nodeAt σ.st j).level + 1 < σ.st.levels.length
  nodup : (nodeAt σ.st j).sprouts.Nodup
  self : j ∉ (nodeAt σ.st j).sprouts
  ok : ∀ n ∈ (nodeAt σ.st j).sprouts, n < σ.st.nodes.length ∧ 0 < σ.ctr n

section
variable {cfg : Hgs.Conf D K} {spawn : ℕ → ℕ → ℕ → List D}

theorem le_bump (l : List ℕ) (ctr : ℕ → ℕ) (n : ℕ) : ctr n ≤ bump l ctr n := by
  simp only [bump]; split <;> omega

theorem Pend.turn {i j : ℕ} {σ σ' : PState D K} {created : List (NState D)} (h : Pend cfg σ j)
    (t : Turn cfg i σ σ' created) (hij : j ≠ i) : Pend cfg σ' j := by
  have e := t.grow.same j h.lt (by simpa using hij)
  refine ⟨lt_of_lt_of_le h.lt t.grow.len, ?_, ?_, ?_, ?_⟩
  · rw [e, t.grow.llen]; exact h.lv
  · rw [e]; exact h.nodup
  · rw [e]; exact h.self
  · rw [e]
    intro n hn
    refine ⟨lt_of_lt_of_le (h.ok n hn).1 t.grow.len, lt_of_lt_of_le (h.ok n hn).2 ?_⟩
    rw [t.ctr]
    exact le_bump _ _ _

theorem Turn.zero {i : ℕ} {σ σ' : PState D K} {created : List (NState D)} (t : Turn cfg i σ σ' created)
    (h : Pend cfg σ i) (hz : ∀ n, σ.st.nodes.length ≤ n → σ.ctr n = 0) :
    ∀ n, σ'.st.nodes.length ≤ n → σ'.ctr n = 0 := by
  intro n hn
  have hn' := t.grow.len.trans hn
  have h1 : n ≠ i := fun e => by have := h.lt; omega
  have h2 : n ∉ (nodeAt σ.st i).sprouts := fun e => by have := (h.ok n e).1; omega
  rw [t.ctr, bump, if_neg, hz n hn']
  rw [List.mem_cons, not_or]
  refine ⟨h1, ?_⟩
  split
  · exact h2
  · simp

/-- What the turns of some nodes of one level leave behind. -/
structure Turns (cfg : Hgs.Conf D K) (lvl : ℕ) (is : List ℕ) (σ σ' : PState D K) : Prop where
  grow : Grow is lvl σ.st σ'.st
  ratio : σ'.ratio = σ.ratio
  ripe : σ'.states.filter NState.ripe = σ.states.filter NState.ripe ++
    ((is.map fun i => stateOf cfg (.node i) (nodeAt σ.st i)).filter NState.ripe)
  alive : (σ'.states.filter NState.alive).length = 0 →
    (σ.states.filter NState.alive).length = 0 ∧ (∀ i ∈ is, (nodeAt σ.st i).alive = false) ∧
      σ'.st.nodes.length = σ.st.nodes.length
  dead : (∀ i ∈ is, (nodeAt σ.st i).alive = false) → (σ.states.filter NState.alive).length = 0 →
    σ'.st.nodes.length = σ.st.nodes.length → (σ'.states.filter NState.alive).length = 0
  ctr : ∀ n, σ.ctr n ≤ σ'.ctr n
  zero : (∀ n, σ.st.nodes.length ≤ n → σ.ctr n = 0) → ∀ n, σ'.st.nodes.length ≤ n → σ'.ctr n = 0
  pend : ∀ j, j ∉ is → Pend cfg σ j → Pend cfg σ' j
  tree : ∀ m, m ≤ 2 → cfg.maxLevel ≤ m → Hgs.Tree m σ.st → Hgs.Tree m σ'.st

theorem releaseNodes_some {lvl : ℕ} : ∀ (is : List ℕ) (cur next : List (NState D)) (σ : PState D K),
    is.Nodup → (∀ i ∈ is, Pend cfg σ i ∧ (nodeAt σ.st i).level = lvl) →
    ∃ σ', releaseNodes cfg spawn is cur next σ =
        some (σ', cur ++ is.map fun i => stateOf cfg (.node i) (nodeAt σ.st i)) ∧
      Turns cfg lvl is σ σ'
  | [], cur, next, σ, _, _ => by
    refine ⟨σ, by simp [releaseNodes], Grow.refl _ _ _, rfl, by simp, fun h => ⟨h, by simp, rfl⟩,
      fun _ h _ => h, fun _ => le_rfl, fun h => h, fun _ _ h => h, fun _ _ _ h => h⟩
  | i :: is, cur, next, σ, hnd, hp => by
    obtain ⟨hi, hil⟩ := hp i (List.mem_cons_self ..)
    rw [List.nodup_cons] at hnd
    obtain ⟨σ₁, created, h1, t⟩ := releaseTurn_some (cfg := cfg) (spawn := spawn) (next := next) hi.lt
    have hne : ∀ j ∈ is, j ≠ i := fun j hj e => hnd.1 (e ▸ hj)
    have hsame : ∀ j ∈ is, nodeAt σ₁.st j = nodeAt σ.st j := fun j hj =>
      t.grow.same j (hp j (List.mem_cons_of_mem _ hj)).1.lt (by simpa using hne j hj)
    obtain ⟨σ', h2, T⟩ := releaseNodes_some is (cur ++ [stateOf cfg (.node i) (nodeAt σ.st i)])
      (next ++ created) σ₁ hnd.2 (fun j hj => ⟨(hp j (List.mem_cons_of_mem _ hj)).1.turn t (hne j hj), by
        rw [hsame j hj]; exact (hp j (List.mem_cons_of_mem _ hj)).2⟩)
    have hmap : (is.map fun j => stateOf cfg (.node j) (nodeAt σ₁.st j)) =
        is.map fun j => stateOf cfg (.node j) (nodeAt σ.st j) :=
      List.map_congr_left (fun j hj => by rw [hsame j hj])
    rw [hmap] at h2
    have hg1 : Grow (i :: is) lvl σ.st σ₁.st := by
      have := t.grow
      rw [hil] at this
      exact this.mono (by simp)
    have hcr : created.filter NState.ripe = [] := by
      rw [List.filter_eq_nil_iff]
      intro x hx
      simp [(t.fresh x hx).2.1]
    have hca : created.filter NState.alive = created := by
      rw [List.filter_eq_self]
      intro x hx
      exact (t.fresh x hx).1
    have hal : (stateOf cfg (.node i) (nodeAt σ.st i)).alive = (nodeAt σ.st i).alive := rfl
    refine ⟨σ', ?_, ?_, ?_, ?_, ?_, ?_, ?_, ?_, ?_, ?_⟩
    · simp only [releaseNodes, h1, Option.bind_some, h2, List.map_cons, List.append_assoc]
      rfl
    · refine hg1.trans (T.grow.mono (fun j hj => List.mem_cons_of_mem _ hj)) ?_
      intro j hj
      exact (hp j hj).1.lt
    · rw [T.ratio, t.ratio]
    · rw [T.ripe, t.states, hmap]
      simp only [List.filter_append, List.map_cons, List.filter_cons, List.filter_nil, hcr]
      split <;> simp
    · intro h
      obtain ⟨g1, g2, g3⟩ := T.alive h
      rw [t.states] at g1
      simp only [List.filter_append, List.length_append, hca, List.filter_cons, List.filter_nil, hal] at g1
      have hc0 : created.length = 0 := by omega
      refine ⟨by omega, ?_, ?_⟩
      · intro j hj
        rcases List.mem_cons.1 hj with rfl | hj
        · cases e : (nodeAt σ.st j).alive
          · rfl
          · simp [e] at g1
        · rw [← hsame j hj]; exact g2 j hj
      · rw [g3, t.count, hc0]; rfl
    · intro g1 g2 g3
      have l1 := t.grow.len
      have l2 := T.grow.len
      have hc0 : created.length = 0 := by have := t.count; omega
      have hcn : created = [] := List.eq_nil_of_length_eq_zero hc0
      apply T.dead
      · intro j hj; rw [hsame j hj]; exact g1 j (List.mem_cons_of_mem _ hj)
      · rw [t.states, hcn]
        simp [List.filter_append, g1 i (List.mem_cons_self ..), hal, g2]
      · omega
    · intro n
      refine le_trans ?_ (T.ctr n)
      rw [t.ctr]; exact le_bump _ _ _
    · intro hz
      exact T.zero (t.zero hi hz)
    · intro j hj hpj
      rw [List.mem_cons, not_or] at hj
      exact T.pend j hj.2 (hpj.turn t hj.1)
    · intro m hm hmm ht
      exact T.tree m hm hmm (t.tree m hm hmm ht)

/-- The order in which the nodes take their turns: level by level, the leaves first. -/
def order (levels : List (List ℕ)) : ℕ → List ℕ
  | 0 => levels.getD 0 []
  | l + 1 => levels.getD (l + 1) [] ++ order levels l

/-- The levels up to `lvl` are ready. -/
def Ready (cfg : Hgs.Conf D K) (lvl : ℕ) (σ : PState D K) : Prop :=
  ∀ l ≤ lvl, ∃ ns, σ.st.levels[l]? = some ns ∧ ns ≠ [] ∧ ns.Nodup ∧
    ∀ j ∈ ns, Pend cfg σ j ∧ (nodeAt σ.st j).level = l

/-- What the turns of all nodes leave behind. -/
structure Sweep (cfg : Hgs.Conf D K) (is : List ℕ) (σ σ' : PState D K) : Prop where
  len : σ.st.nodes.length ≤ σ'.st.nodes.length
  keep : ∀ j < σ.st.nodes.length, bare (nodeAt σ'.st j) = bare (nodeAt σ.st j)
  new : ∀ j, σ.st.nodes.length ≤ j → j < σ'.st.nodes.length →
    ∃ l, bare (nodeAt σ'.st j) = Hgs.newNode l none
  cost : σ'.st.cost = σ.st.cost
  ratio : σ'.ratio = σ.ratio
  ripe : σ'.states.filter NState.ripe = σ.states.filter NState.ripe ++
    ((is.map fun i => stateOf cfg (.node i) (nodeAt σ.st i)).filter NState.ripe)
  alive : (σ'.states.filter NState.alive).length = 0 →
    (σ.states.filter NState.alive).length = 0 ∧ (∀ i ∈ is, (nodeAt σ.st i).alive = false) ∧
      σ'.st.nodes.length = σ.st.nodes.length
  dead : (∀ i ∈ is, (nodeAt σ.st i).alive = false) → (σ.states.filter NState.alive).length = 0 →
    σ'.st.nodes.length = σ.st.nodes.length → (σ'.states.filter NState.alive).length = 0
  ctr : ∀ n, σ.ctr n ≤ σ'.ctr n
  zero : (∀ n, σ.st.nodes.length ≤ n → σ.ctr n = 0) → ∀ n, σ'.st.nodes.length ≤ n → σ'.ctr n = 0
  tree : ∀ m, m ≤ 2 → cfg.maxLevel ≤ m → Hgs.Tree m σ.st → Hgs.Tree m σ'.st

theorem Turns.sweep {lvl : ℕ} {is : List ℕ} {σ σ' : PState D K} (h : Turns cfg lvl is σ σ') :
    Sweep cfg is σ σ' :=
  ⟨h.grow.len, h.grow.keep, fun j h1 h2 => ⟨_, by rw [h.grow.new j h1 h2]; rfl⟩, h.grow.cost, h.ratio, h.ripe, h.alive,
    h.dead, h.ctr, h.zero, h.tree⟩

theorem Ready.next {lvl : ℕ} {σ σ' : PState D K} (r : Ready cfg (lvl + 1) σ) {ns : List ℕ}
    (hns : σ.st.levels[lvl + 1]? = some ns) (T : Turns cfg (lvl + 1) ns σ σ') : Ready cfg lvl σ' := by
  intro l hl
  obtain ⟨ns', h1, h2, h3, h4⟩ := r l (by omega)
  refine ⟨ns', by rw [T.grow.levels l (by omega), h1], h2, h3, ?_⟩
  intro j hj
  obtain ⟨hp, hlev⟩ := h4 j hj
  have hjn : j ∉ ns := by
    intro h
    obtain ⟨ns'', g1, _, _, g4⟩ := r (lvl + 1) le_rfl
    rw [hns] at g1
    cases g1
    have := (g4 j h).2
    omega
  refine ⟨T.pend j hjn hp, ?_⟩
  rw [T.grow.same j hp.lt hjn, hlev]

theorem order_congr {a b : List (List ℕ)} : ∀ l, (∀ k ≤ l, a[k]? = b[k]?) → order a l = order b l
  | 0, h => by simp [order, List.getD, h 0 le_rfl]
  | l + 1, h => by
    simp only [order, List.getD, h (l + 1) le_rfl]
    rw [order_congr l (fun k hk => h k (by omega))]

theorem order_lt {σ : PState D K} : ∀ lvl, Ready cfg lvl σ →
    ∀ j ∈ order σ.st.levels lvl, j < σ.st.nodes.length ∧ (nodeAt σ.st j).level ≤ lvl
  | 0, r, j, hj => by
    obtain ⟨ns, h1, _, _, h4⟩ := r 0 le_rfl
    simp only [order, List.getD, h1, Option.getD_some] at hj
    exact ⟨(h4 j hj).1.lt, (h4 j hj).2.le⟩
  | l + 1, r, j, hj => by
    obtain ⟨ns, h1, _, _, h4⟩ := r (l + 1) le_rfl
    simp only [order, List.getD, h1, Option.getD_some] at hj
    rcases List.mem_append.1 hj with hj | hj
    · exact ⟨(h4 j hj).1.lt, (h4 j hj).2.le⟩
    · have := order_lt l (fun k hk => r k (by omega)) j hj
      exact ⟨this.1, by omega⟩

theorem releaseLevels_some : ∀ (lvl : ℕ) (next : List (NState D)) (σ : PState D K), Ready cfg lvl σ →
    ∃ σ', releaseLevels cfg spawn lvl next σ = some σ' ∧ Sweep cfg (order σ.st.levels lvl) σ σ'
  | 0, next, σ, r => by
    obtain ⟨ns, h1, h2, h3, h4⟩ := r 0 le_rfl
    obtain ⟨σ', e, T⟩ := releaseNodes_some (cfg := cfg) (spawn := spawn) ns [] next σ h3 h4
    refine ⟨σ', by simp only [releaseLevels, h1, Option.bind_some, e], ?_⟩
    simp only [order, List.getD, h1, Option.getD_some]
    exact T.sweep
  | l + 1, next, σ, r => by
    obtain ⟨ns, h1, h2, h3, h4⟩ := r (l + 1) le_rfl
    obtain ⟨σ₁, e, T⟩ := releaseNodes_some (cfg := cfg) (spawn := spawn) ns [] next σ h3 h4
    have r1 := r.next h1 T
    obtain ⟨σ', e', S⟩ := releaseLevels_some l
      ([] ++ ns.map fun i => stateOf cfg (.node i) (nodeAt σ.st i)) σ₁ r1
    refine ⟨σ', by rw [releaseLevels]; simp only [h1, Option.bind_some, e, e'], ?_⟩
    have ho : order σ₁.st.levels l = order σ.st.levels l :=
      order_congr l (fun k hk => T.grow.levels k (by omega))
    rw [ho] at S
    have hlt := order_lt l (fun k hk => r k (by omega))
    have hb : ∀ j ∈ order σ.st.levels l, bare (nodeAt σ₁.st j) = bare (nodeAt σ.st j) :=
      fun j hj => T.grow.keep j (hlt j hj).1
    have hmap : ((order σ.st.levels l).map fun i => stateOf cfg (.node i) (nodeAt σ₁.st i)) =
        (order σ.st.levels l).map fun i => stateOf cfg (.node i) (nodeAt σ.st i) :=
      List.map_congr_left (fun j hj => stateOf_bare (hb j hj))
    have halive : ∀ j ∈ order σ.st.levels l, (nodeAt σ₁.st j).alive = (nodeAt σ.st j).alive :=
      fun j hj => by
        have := congrArg Hgs.Node.alive (hb j hj)
        exact this
    simp only [order, List.getD, h1, Option.getD_some]
    have l1 := T.grow.len
    have l2 := S.len
    refine ⟨l1.trans l2, ?_, ?_, ?_, ?_, ?_, ?_, ?_, ?_, ?_, ?_⟩
    · intro j hj
      rw [S.keep j (by omega), T.grow.keep j hj]
    · intro j g1 g2
      by_cases g : j < σ₁.st.nodes.length
      · have hnew := T.grow.new j g1 g
        have hbare := S.keep j g
        rw [hnew] at hbare
        exact ⟨_, hbare⟩
      · exact S.new j (by omega) g2
    · rw [S.cost, T.grow.cost]
    · rw [S.ratio, T.ratio]
    · rw [S.ripe, T.ripe, hmap, List.map_append, List.filter_append, List.append_assoc]
    · intro h
      obtain ⟨g1, g2, g3⟩ := S.alive h
      obtain ⟨k1, k2, k3⟩ := T.alive g1
      refine ⟨k1, ?_, by omega⟩
      intro j hj
      rcases List.mem_append.1 hj with hj | hj
      · exact k2 j hj
      · rw [← halive j hj]; exact g2 j hj
    · intro g1 g2 g3
      apply S.dead
      · intro j hj; rw [halive j hj]; exact g1 j (List.mem_append_right _ hj)
      · exact T.dead (fun j hj => g1 j (List.mem_append_left _ hj)) g2 (by omega)
      · omega
    · intro n; exact (T.ctr n).trans (S.ctr n)
    · intro hz; exact S.zero (T.zero hz)
    · intro m hm hmm ht; exact S.tree m hm hmm (T.tree m hm hmm ht)

end

end Evogil.Dist
