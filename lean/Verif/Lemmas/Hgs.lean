import Verif.Spec.HgsTree
import Mathlib.Data.List.Basic
import Mathlib.Data.List.Perm.Basic
import Mathlib.Data.List.Forall2
import Mathlib.Algebra.BigOperators.Group.List.Basic
import Mathlib.Tactic.Ring

/-! # Lemmas on the tree of HGS nodes -/

set_option linter.unusedSectionVars false

namespace Evogil.Hgs

variable {D K : Type*} [Field K] [LinearOrder K]

/-- The part of a node which only sprouting changes. -/
def shape (n : Node D K) : ℕ × List ℕ := (n.level, n.sprouts)

/-- The tree is the same. -/
def SameTree (st st' : State D K) : Prop :=
  st'.levels = st.levels ∧ st'.nodes.map shape = st.nodes.map shape

theorem SameTree.refl (st : State D K) : SameTree st st := ⟨rfl, rfl⟩

theorem SameTree.trans {a b c : State D K} (h : SameTree a b) (h' : SameTree b c) : SameTree a c :=
  ⟨h'.1.trans h.1, h'.2.trans h.2⟩

theorem map_set_same {α β : Type*} (g : α → β) : ∀ (l : List α) (i : ℕ) (a b : α),
    l[i]? = some a → g b = g a → (l.set i b).map g = l.map g
  | [], _, _, _, h, _ => by simp at h
  | x :: l, 0, a, b, h, e => by
    simp only [List.getElem?_cons_zero, Option.some.injEq] at h
    subst h; simp [e]
  | x :: l, i + 1, a, b, h, e => by
    simp only [List.getElem?_cons_succ] at h
    simp [map_set_same g l i a b h e]

theorem sameTree_set (st : State D K) {i : ℕ} {n m : Node D K} {c : K} (h : st.nodes[i]? = some n)
    (hs : shape m = shape n) :
    SameTree st { st with nodes := st.nodes.set i m, cost := c } :=
  ⟨rfl, map_set_same shape _ _ _ _ h hs⟩

/-- A statement on all nodes survives the change of one. -/
theorem forall_set {α : Type*} {P : α → Prop} {l : List α} {i : ℕ} {b : α} (h : ∀ a ∈ l, P a)
    (hb : P b) : ∀ a ∈ l.set i b, P a := by
  intro a ha
  rcases List.mem_or_eq_of_mem_set ha with h' | h'
  · exact h a h'
  · exact h' ▸ hb

theorem SameTree.length {a b : State D K} (h : SameTree a b) : b.nodes.length = a.nodes.length := by
  have := congrArg List.length h.2; simpa using this

theorem SameTree.get {a b : State D K} (h : SameTree a b) {i : ℕ} {n : Node D K}
    (hn : b.nodes[i]? = some n) : ∃ m, a.nodes[i]? = some m ∧ m.level = n.level ∧ m.sprouts = n.sprouts := by
  have := congrArg (fun l : List (ℕ × List ℕ) => l[i]?) h.2
  simp only [List.getElem?_map, hn, Option.map_some] at this
  cases hm : a.nodes[i]? with
  | none => simp [hm] at this
  | some m =>
    rw [hm] at this
    simp only [Option.map_some, Option.some.injEq, shape, Prod.mk.injEq] at this
    exact ⟨m, rfl, this.1.symm, this.2.symm⟩

theorem SameTree.symm {a b : State D K} (h : SameTree a b) : SameTree b a := ⟨h.1.symm, h.2.symm⟩

/-! ## Metaepoch -/

theorem afterMetaepoch_shape (r : Report D K) (n : Node D K) : shape (afterMetaepoch r n) = shape n := by
  cases h : n.rel <;> simp [afterMetaepoch, h, shape]

theorem afterMetaepoch_flags (r : Report D K) (n : Node D K) :
    (afterMetaepoch r n).alive = n.alive ∧ (afterMetaepoch r n).ripe = n.ripe ∧
      (afterMetaepoch r n).cost = n.cost ∧ (afterMetaepoch r n).center = n.center ∧
      (afterMetaepoch r n).pop = r.pop ∧ (afterMetaepoch r n).delegates = r.delegates := by
  cases h : n.rel <;> simp [afterMetaepoch, h]

theorem runNode_shape (cfg : Conf D K) (r : Report D K) (n : Node D K) :
    shape (runNode cfg r n).1 = shape n := by
  unfold runNode; split
  · exact afterMetaepoch_shape _ _
  · rfl

theorem costLoop_sum (m : K) : ∀ (cs : List K) (c : K),
    (costLoop m c cs).2 = m * ((costLoop m c cs).1 - c)
  | [], c => by simp [costLoop]
  | a :: cs, c => by
    simp only [costLoop, costLoop_sum m cs a]; ring

/-- The weighted cost of the nodes -/
def weighted (cfg : Conf D K) (st : State D K) : K :=
  (st.nodes.map fun n => cfg.modifier n.level * n.cost).sum

theorem sum_set {α : Type*} (g : α → K) : ∀ (l : List α) (i : ℕ) (a b : α),
    l[i]? = some a → ((l.set i b).map g).sum = (l.map g).sum + (g b - g a)
  | [], _, _, _, h => by simp at h
  | x :: l, 0, a, b, h => by
    simp only [List.getElem?_cons_zero, Option.some.injEq] at h
    subst h; simp; ring
  | x :: l, i + 1, a, b, h => by
    simp only [List.getElem?_cons_succ] at h
    simp only [List.set_cons_succ, List.map_cons, List.sum_cons, sum_set g l i a b h]; ring

theorem runNode_cost (cfg : Conf D K) (r : Report D K) (n : Node D K) :
    (runNode cfg r n).2 = cfg.modifier (runNode cfg r n).1.level * (runNode cfg r n).1.cost -
      cfg.modifier n.level * n.cost := by
  have hs := runNode_shape cfg r n
  simp only [shape, Prod.mk.injEq] at hs
  rw [hs.1]
  unfold runNode; split
  · simp only [(afterMetaepoch_flags _ _).2.2.1]
    rw [costLoop_sum]; ring
  · simp

theorem runNodes_spec (cfg : Conf D K) (env : ℕ → Report D K) : ∀ (ids : List ℕ) (st st' : State D K),
    runNodes cfg env ids st = some st' →
    SameTree st st' ∧ st'.cost - weighted cfg st' = st.cost - weighted cfg st
  | [], st, st', h => by
    simp only [runNodes, Option.some.injEq] at h; subst h
    exact ⟨SameTree.refl _, rfl⟩
  | i :: is, st, st', h => by
    rw [runNodes] at h
    cases hn : st.nodes[i]? with
    | none => simp [hn] at h
    | some n =>
      simp only [hn] at h
      obtain ⟨h1, h2⟩ := runNodes_spec cfg env is _ _ h
      refine ⟨(sameTree_set st hn (runNode_shape cfg _ n)).trans h1, h2.trans ?_⟩
      simp only [weighted]
      rw [sum_set _ _ _ _ _ hn, runNode_cost]
      ring

theorem runNodes_some (cfg : Conf D K) (env : ℕ → Report D K) : ∀ (ids : List ℕ) (st : State D K),
    (∀ i ∈ ids, i < st.nodes.length) → ∃ st', runNodes cfg env ids st = some st'
  | [], st, _ => ⟨st, rfl⟩
  | i :: is, st, h => by
    rw [runNodes]
    have hi := h i (List.mem_cons_self ..)
    rw [List.getElem?_eq_getElem hi]
    refine runNodes_some cfg env is _ (fun j hj => ?_)
    simpa using h j (List.mem_cons_of_mem _ hj)

/-! ## Pointwise relations between lists of nodes -/

theorem forall₂_set {α : Type*} {R : α → α → Prop} (hr : ∀ a, R a a) : ∀ (l : List α) (i : ℕ) (a b : α),
    l[i]? = some a → R a b → List.Forall₂ R l (l.set i b)
  | [], _, _, _, h, _ => by simp at h
  | x :: l, 0, a, b, h, e => by
    simp only [List.getElem?_cons_zero, Option.some.injEq] at h
    subst h
    simp only [List.set_cons_zero]
    exact .cons e (List.forall₂_same.2 fun x _ => hr x)
  | x :: l, i + 1, a, b, h, e => by
    simp only [List.getElem?_cons_succ] at h
    exact .cons (hr x) (forall₂_set hr l i a b h e)

theorem forall₂_trans {α : Type*} {R : α → α → Prop} (ht : ∀ a b c, R a b → R b c → R a c) :
    ∀ {l₁ l₂ l₃ : List α}, List.Forall₂ R l₁ l₂ → List.Forall₂ R l₂ l₃ → List.Forall₂ R l₁ l₃
  | _, _, _, .nil, h => h
  | _, _, _, .cons h t, .cons h' t' => .cons (ht _ _ _ h h') (forall₂_trans ht t t')

theorem forall₂_get {α : Type*} {R : α → α → Prop} {l₁ l₂ : List α} (h : List.Forall₂ R l₁ l₂) {i : ℕ}
    {b : α} (hb : l₂[i]? = some b) : ∃ a, l₁[i]? = some a ∧ R a b := by
  induction h generalizing i with
  | nil => simp at hb
  | cons h t ih =>
    cases i with
    | zero =>
      simp only [List.getElem?_cons_zero, Option.some.injEq] at hb
      subst hb; exact ⟨_, rfl, h⟩
    | succ i => simpa using ih (by simpa using hb)

theorem forall₂_get' {α : Type*} {R : α → α → Prop} {l₁ l₂ : List α} (h : List.Forall₂ R l₁ l₂) {i : ℕ}
    {a : α} (ha : l₁[i]? = some a) : ∃ b, l₂[i]? = some b ∧ R a b := by
  induction h generalizing i with
  | nil => simp at ha
  | cons h t ih =>
    cases i with
    | zero =>
      simp only [List.getElem?_cons_zero, Option.some.injEq] at ha
      subst ha; exact ⟨_, rfl, h⟩
    | succ i => simpa using ih (by simpa using ha)

theorem forall₂_mem {α : Type*} {R : α → α → Prop} {l₁ l₂ : List α} (h : List.Forall₂ R l₁ l₂)
    {b : α} (hb : b ∈ l₂) : ∃ a ∈ l₁, R a b := by
  obtain ⟨i, hi, rfl⟩ := List.mem_iff_getElem.1 hb
  obtain ⟨a, ha, r⟩ := forall₂_get h (List.getElem?_eq_getElem hi)
  exact ⟨a, List.mem_of_getElem? ha, r⟩

theorem forall₂_map_eq {α β : Type*} {R : α → α → Prop} {g : α → β} (hg : ∀ a b, R a b → g b = g a)
    {l₁ l₂ : List α} (h : List.Forall₂ R l₁ l₂) : l₂.map g = l₁.map g := by
  induction h with
  | nil => rfl
  | cons h t ih => simp [hg _ _ h, ih]

/-- What a metaepoch does to a node. -/
structure RunRel (n n' : Node D K) : Prop where
  shape : shape n' = shape n
  alive : n'.alive = n.alive
  ripe : n'.ripe = n.ripe
  center : n'.center = n.center
  dead : n.alive = false → n' = n

theorem runNode_rel (cfg : Conf D K) (r : Report D K) (n : Node D K) : RunRel n (runNode cfg r n).1 := by
  refine ⟨runNode_shape cfg r n, ?_, ?_, ?_, ?_⟩ <;> unfold runNode <;> split <;> rename_i h
  · exact (afterMetaepoch_flags _ _).1
  · rfl
  · exact (afterMetaepoch_flags _ _).2.1
  · rfl
  · exact (afterMetaepoch_flags _ _).2.2.2.1
  · rfl
  · intro h'; rw [h] at h'; exact absurd h' (by decide)
  · intro _; rfl

theorem RunRel.refl (n : Node D K) : RunRel n n := ⟨rfl, rfl, rfl, rfl, fun _ => rfl⟩

theorem RunRel.trans (a b c : Node D K) (h : RunRel a b) (h' : RunRel b c) : RunRel a c :=
  ⟨h'.shape.trans h.shape, h'.alive.trans h.alive, h'.ripe.trans h.ripe, h'.center.trans h.center,
    fun ha => by
      have := h.dead ha; subst this; exact h'.dead ha⟩

theorem runNodes_rel (cfg : Conf D K) (env : ℕ → Report D K) : ∀ (ids : List ℕ) (st st' : State D K),
    runNodes cfg env ids st = some st' → List.Forall₂ RunRel st.nodes st'.nodes
  | [], st, st', h => by
    simp only [runNodes, Option.some.injEq] at h; subst h
    exact List.forall₂_same.2 fun x _ => RunRel.refl x
  | i :: is, st, st', h => by
    rw [runNodes] at h
    cases hn : st.nodes[i]? with
    | none => simp [hn] at h
    | some n =>
      simp only [hn] at h
      exact forall₂_trans RunRel.trans
        (forall₂_set RunRel.refl _ _ _ _ hn (runNode_rel cfg _ n)) (runNodes_rel cfg env is _ _ h)

/-! ## Trimming -/

/-- What trimming does to a node. -/
structure TrimRel (n n' : Node D K) : Prop where
  shape : shape n' = shape n
  cost : n'.cost = n.cost
  pop : n'.pop = n.pop
  delegates : n'.delegates = n.delegates
  dead : n.alive = false → n' = n
  live : n'.alive = true → n'.ripe = n.ripe
  died : n'.alive = false → n'.center.isSome ∨ n' = n
  center : n.center.isSome → n'.center.isSome

theorem TrimRel.refl (n : Node D K) : TrimRel n n :=
  ⟨rfl, rfl, rfl, rfl, fun _ => rfl, fun _ => rfl, fun _ => .inr rfl, fun h => h⟩

theorem TrimRel.trans (a b c : Node D K) (h : TrimRel a b) (h' : TrimRel b c) : TrimRel a c := by
  refine ⟨h'.shape.trans h.shape, h'.cost.trans h.cost, h'.pop.trans h.pop,
    h'.delegates.trans h.delegates, fun ha => ?_, fun hc => ?_, fun hc => ?_,
    fun hc => h'.center (h.center hc)⟩
  · have := h.dead ha; subst this; exact h'.dead ha
  · cases hb : b.alive with
    | true => exact (h'.live hc).trans (h.live hb)
    | false =>
      have := h'.dead hb; subst this
      rw [hb] at hc; exact absurd hc (by decide)
  · rcases h'.died hc with h2 | h2
    · exact .inl h2
    · subst h2; exact h.died hc

theorem trimNotProgressing_spec (cfg : Conf D K) (ratio : List K) : ∀ (ids : List ℕ) (st st' : State D K),
    trimNotProgressing cfg ratio ids st = some st' →
    st'.levels = st.levels ∧ st'.cost = st.cost ∧ List.Forall₂ TrimRel st.nodes st'.nodes ∧
      List.Forall₂ (fun n n' : Node D K => (n.alive || n.ripe) = true → (n'.alive || n'.ripe) = true)
        st.nodes st'.nodes ∧ ∀ j, j ∉ ids → st'.nodes[j]? = st.nodes[j]?
  | [], st, st', h => by
    simp only [trimNotProgressing, Option.some.injEq] at h; subst h
    exact ⟨rfl, rfl, List.forall₂_same.2 fun x _ => TrimRel.refl x,
      List.forall₂_same.2 fun x _ h => h, fun _ _ => rfl⟩
  | i :: is, st, st', h => by
    rw [trimNotProgressing] at h
    cases hn : st.nodes[i]? with
    | none => simp [hn] at h
    | some n =>
      simp only [hn] at h
      have skip : trimNotProgressing cfg ratio is st = some st' → _ := fun h => by
        obtain ⟨h1, h2, h3, h4, h5⟩ := trimNotProgressing_spec cfg ratio is _ _ h
        exact (⟨h1, h2, h3, h4, fun j hj => h5 j (fun hj' => hj (List.mem_cons_of_mem _ hj'))⟩ :
          st'.levels = st.levels ∧ st'.cost = st.cost ∧ List.Forall₂ TrimRel st.nodes st'.nodes ∧
          List.Forall₂ (fun n n' : Node D K => (n.alive || n.ripe) = true → (n'.alive || n'.ripe) = true)
          st.nodes st'.nodes ∧ ∀ j, j ∉ i :: is → st'.nodes[j]? = st.nodes[j]?)
      by_cases ha : n.alive = true
      · rw [if_pos ha] at h
        cases hp : notProgressing cfg ratio n with
        | none => simp [hp] at h
        | some b =>
          cases b with
          | false => simp only [hp] at h; exact skip h
          | true =>
            simp only [hp] at h
            obtain ⟨h1, h2, h3, h4, h5⟩ := trimNotProgressing_spec cfg ratio is _ _ h
            refine ⟨h1, h2, forall₂_trans TrimRel.trans (forall₂_set TrimRel.refl _ _ _ _ hn ?_) h3,
              forall₂_trans (fun a b c hab hbc h => hbc (hab h))
                (forall₂_set (fun a h => h) _ _ _ _ hn ?_) h4, fun j hj => ?_⟩
            · refine ⟨rfl, rfl, rfl, rfl, fun h => ?_, fun h => ?_, fun _ => .inl rfl,
                fun _ => rfl⟩
              · rw [ha] at h; exact absurd h (by decide)
              · exact absurd h (by simp)
            · intro _; rfl
            · rw [h5 j (fun hj' => hj (List.mem_cons_of_mem _ hj'))]
              simp only
              rw [List.getElem?_set_ne]
              rintro rfl; exact hj (List.mem_cons_self ..)
      · rw [if_neg ha] at h; exact skip h

theorem notProgressing_some (cfg : Conf D K) {ratio : List K} {n : Node D K} (h : n.level < ratio.length) :
    ∃ b, notProgressing cfg ratio n = some b := by
  unfold notProgressing
  split
  · exact ⟨_, rfl⟩
  · split
    · rw [List.getElem?_eq_getElem h]; simp only; split <;> exact ⟨_, rfl⟩
    · exact ⟨_, rfl⟩

theorem trimNotProgressing_some (cfg : Conf D K) (ratio : List K) : ∀ (ids : List ℕ) (st : State D K),
    (∀ i ∈ ids, i < st.nodes.length) → (∀ n ∈ st.nodes, n.level < ratio.length) →
    ∃ st', trimNotProgressing cfg ratio ids st = some st'
  | [], st, _, _ => ⟨st, rfl⟩
  | i :: is, st, h, hl => by
    rw [trimNotProgressing]
    have hi := h i (List.mem_cons_self ..)
    rw [List.getElem?_eq_getElem hi]
    simp only
    have hm := List.getElem_mem hi
    have rest := fun j hj => h j (List.mem_cons_of_mem i hj)
    obtain ⟨b, hb⟩ := notProgressing_some cfg (hl _ hm)
    rw [hb]
    split
    · cases b with
      | false => exact trimNotProgressing_some cfg ratio is st rest hl
      | true =>
        refine trimNotProgressing_some cfg ratio is _ (fun j hj => by simpa using rest j hj) ?_
        exact forall_set (P := fun n : Node D K => n.level < ratio.length) hl (hl (st.nodes[i]) hm)
    · exact trimNotProgressing_some cfg ratio is st rest hl

theorem findRedundant_some (cfg : Conf D K) (st : State D K) (l : ℕ) (c : D) (pr : List ℕ) :
    ∀ (as : List ℕ), (∀ a ∈ as, ∃ n, st.nodes[a]? = some n ∧ n.center.isSome) →
    ∃ b, findRedundant cfg st l c pr as = some b
  | [], _ => ⟨_, rfl⟩
  | a :: as, h => by
    rw [findRedundant]
    obtain ⟨n, hn, hc⟩ := h a (List.mem_cons_self ..)
    obtain ⟨d, hd⟩ := Option.isSome_iff_exists.1 hc
    obtain ⟨b, hb⟩ := findRedundant_some cfg st l c pr as fun a ha => h a (List.mem_cons_of_mem _ ha)
    simp only [hn, hd, hb]
    split
    · split <;> exact ⟨_, rfl⟩
    · exact ⟨_, rfl⟩

/-- The update of a node in `redundantLoop` -/
theorem set_set_center (st : State D K) (i : ℕ) (a b : Node D K) :
    (st.nodes.set i a).set i b = st.nodes.set i b := by simp

theorem redundantLoop_spec (cfg : Conf D K) (dead : List ℕ) : ∀ (is pr : List ℕ) (st st' : State D K),
    redundantLoop cfg dead pr is st = some st' → (∀ i ∈ is, aliveAt st i = true) → is.Nodup →
    st'.levels = st.levels ∧ st'.cost = st.cost ∧ List.Forall₂ TrimRel st.nodes st'.nodes ∧
      (∀ j, j ∉ is → st'.nodes[j]? = st.nodes[j]?) ∧
      ∀ j ∈ is, ∃ n, st'.nodes[j]? = some n ∧ n.center.isSome
  | [], pr, st, st', h, _, _ => by
    simp only [redundantLoop, Option.some.injEq] at h; subst h
    exact ⟨rfl, rfl, List.forall₂_same.2 fun x _ => TrimRel.refl x, fun _ _ => rfl, by simp⟩
  | i :: is, pr, st, st', h, hal, hnd => by
    rw [redundantLoop] at h
    cases hn : st.nodes[i]? with
    | none => simp [hn] at h
    | some n =>
      simp only [hn] at h
      have ha : n.alive = true := by
        have := hal i (List.mem_cons_self ..)
        simpa [aliveAt, hn] using this
      have hni : i ∉ is := (List.nodup_cons.1 hnd).1
      split at h
      · exact absurd h (by simp)
      · rename_i b hb
        obtain ⟨h1, h2, h3, h4, h5⟩ := redundantLoop_spec cfg dead is _ _ _ h (by
          intro j hj
          have hji : i ≠ j := fun e => hni (e ▸ hj)
          have := hal j (List.mem_cons_of_mem _ hj)
          simpa [aliveAt, List.getElem?_set_ne hji] using this) (List.nodup_cons.1 hnd).2
        simp only [set_set_center] at h1 h2 h3 h4 h5
        refine ⟨h1, h2, forall₂_trans TrimRel.trans (forall₂_set TrimRel.refl _ _ _ _ hn ?_) h3,
          fun j hj => ?_, fun j hj => ?_⟩
        · refine ⟨rfl, rfl, rfl, rfl, fun h => ?_, fun h => rfl, fun _ => .inl rfl,
                fun _ => rfl⟩
          rw [ha] at h; exact absurd h (by decide)
        · rw [h4 j (fun hj' => hj (List.mem_cons_of_mem _ hj')), List.getElem?_set_ne]
          rintro rfl; exact hj (List.mem_cons_self ..)
        · rcases List.mem_cons.1 hj with rfl | hj
          · rw [h4 j hni]
            have hlt : j < st.nodes.length := (List.getElem?_eq_some_iff.1 hn).1
            rw [List.getElem?_set_self hlt]
            exact ⟨_, rfl, rfl⟩
          · exact h5 j hj

theorem redundantLoop_some (cfg : Conf D K) (dead : List ℕ) : ∀ (is pr : List ℕ) (st : State D K),
    (∀ i ∈ is, i < st.nodes.length) →
    (∀ a ∈ dead ++ pr, ∃ n, st.nodes[a]? = some n ∧ n.center.isSome) →
    ∃ st', redundantLoop cfg dead pr is st = some st'
  | [], pr, st, _, _ => ⟨_, rfl⟩
  | i :: is, pr, st, hi, hc => by
    rw [redundantLoop]
    have hi' := hi i (List.mem_cons_self ..)
    rw [List.getElem?_eq_getElem hi']
    simp only
    have key : ∀ (m : Node D K), m.center.isSome → ∀ a ∈ dead ++ pr,
        ∃ n, (st.nodes.set i m)[a]? = some n ∧ n.center.isSome := by
      intro m hm a ha
      by_cases e : i = a
      · subst e; rw [List.getElem?_set_self hi']; exact ⟨_, rfl, hm⟩
      · rw [List.getElem?_set_ne e]; exact hc a ha
    obtain ⟨b, hb⟩ := findRedundant_some cfg
      { st with nodes := (st.nodes.set i { st.nodes[i] with center := some (cfg.mean st.nodes[i].pop) }) }
      st.nodes[i].level (cfg.mean st.nodes[i].pop) pr (dead ++ pr) (key _ rfl)
    rw [hb]
    simp only [set_set_center]
    refine redundantLoop_some cfg dead is _ _ (fun j hj => ?_) ?_
    · simpa using hi j (List.mem_cons_of_mem _ hj)
    · intro a ha
      rw [← List.append_assoc] at ha
      rcases List.mem_append.1 ha with ha | ha
      · exact key _ rfl a ha
      · rw [List.mem_singleton.1 ha]
        rw [List.getElem?_set_self hi']
        exact ⟨_, rfl, rfl⟩

end Evogil.Hgs
