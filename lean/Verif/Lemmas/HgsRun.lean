import Verif.Model.HgsRun
import Verif.Props.Hgs

/-!
# Lemmas for C106: what a step of HGS does with populations, delegates and seeds
-/

set_option linter.unusedSectionVars false

namespace Evogil.Hgs

variable {W σ D K : Type*} [Field K] [LinearOrder K]

/-- All vectors known to a node satisfy `P`. -/
def NodeOk (P : D → Prop) (n : Node D K) : Prop :=
  (∀ d ∈ n.pop, P d) ∧ (∀ d ∈ n.delegates, P d) ∧ ∀ d, n.seed = some d → P d

/-- All vectors of all nodes satisfy `P`. -/
def TreeOk (P : D → Prop) (st : State D K) : Prop := ∀ n ∈ st.nodes, NodeOk P n

theorem afterMetaepoch_fields (r : Report D K) (n : Node D K) :
    (afterMetaepoch r n).pop = r.pop ∧ (afterMetaepoch r n).delegates = r.delegates ∧
      (afterMetaepoch r n).seed = n.seed := by
  unfold afterMetaepoch
  simp only
  split <;> exact ⟨rfl, rfl, rfl⟩

theorem runNode_fields (cfg : Conf D K) (r : Report D K) (n : Node D K) :
    (runNode cfg r n).1.pop = (if n.alive then r.pop else n.pop) ∧
      (runNode cfg r n).1.delegates = (if n.alive then r.delegates else n.delegates) ∧
      (runNode cfg r n).1.seed = n.seed := by
  unfold runNode
  by_cases h : n.alive = true
  · simp only [h, if_true]
    exact afterMetaepoch_fields _ _
  · simp only [if_neg h, true_and]

theorem runMetaepoch_ok {cfg : Conf D K} (hm : cfg.maxLevel ≤ 2) {P : D → Prop} {st st' : State D K}
    (c : Core cfg st) (env : ℕ → Report D K) (h : runMetaepoch cfg env st = some st')
    (hok : TreeOk P st) (henv : ∀ (i : ℕ) (n : Node D K), st.nodes[i]? = some n → n.alive = true →
      (∀ d ∈ (env i).pop, P d) ∧ ∀ d ∈ (env i).delegates, P d) : TreeOk P st' := by
  have hlen : st'.nodes.length = st.nodes.length := by
    unfold runMetaepoch at h
    split at h
    · exact (runNodes_spec cfg env _ _ _ h).1.length
    · cases h
  intro n' hn'
  obtain ⟨i, hi⟩ := List.mem_iff_getElem?.1 hn'
  have hlt : i < st.nodes.length := by rw [← hlen]; exact (List.getElem?_eq_some_iff.1 hi).1
  have hn := List.getElem?_eq_getElem hlt
  have hg := runMetaepoch_get c env hm h hn
  rw [hi, Option.some.injEq] at hg
  subst hg
  obtain ⟨e1, e2, e3⟩ := runNode_fields cfg (env i) st.nodes[i]
  have ho := hok _ (List.mem_of_getElem? hn)
  refine ⟨?_, ?_, ?_⟩
  · rw [e1]
    split
    · rename_i ha; exact (henv i _ hn ha).1
    · exact ho.1
  · rw [e2]
    split
    · rename_i ha; exact (henv i _ hn ha).2
    · exact ho.2.1
  · rw [e3]; exact ho.2.2

theorem TreeOk.set {P : D → Prop} {st : State D K} (h : TreeOk P st) {i : ℕ} {m : Node D K} {c : K}
    (hm : NodeOk P m) : TreeOk P { st with nodes := st.nodes.set i m, cost := c } :=
  forall_set h hm

theorem trimNotProgressing_ok {cfg : Conf D K} {P : D → Prop} {ratio : List K} : ∀ (is : List ℕ)
    (st st' : State D K), TreeOk P st → trimNotProgressing cfg ratio is st = some st' → TreeOk P st' := by
  intro is
  induction is with
  | nil => intro st st' h e; cases e; exact h
  | cons i is ih =>
    intro st st' h e
    rw [trimNotProgressing] at e
    split at e
    · cases e
    · rename_i n hn
      split at e
      · split at e
        · cases e
        · refine ih _ _ ?_ e
          exact h.set (c := st.cost) (h n (List.mem_of_getElem? hn))
        · exact ih _ _ h e
      · exact ih _ _ h e

theorem redundantLoop_ok {cfg : Conf D K} {P : D → Prop} {dead : List ℕ} : ∀ (is processed : List ℕ)
    (st st' : State D K), TreeOk P st → redundantLoop cfg dead processed is st = some st' →
    TreeOk P st' := by
  intro is
  induction is with
  | nil => intro pr st st' h e; cases e; exact h
  | cons i is ih =>
    intro pr st st' h e
    rw [redundantLoop] at e
    split at e
    · cases e
    · rename_i n hn
      simp only at e
      split at e
      · cases e
      · refine ih _ _ _ ?_ e
        have hn' := h n (List.mem_of_getElem? hn)
        exact TreeOk.set (c := st.cost) (h.set (c := st.cost) (i := i)
          (m := { n with center := some (cfg.mean n.pop) }) hn') hn'

theorem trimAll_ok {cfg : Conf D K} {P : D → Prop} {ratio : List K} {l : ℕ} {st st' : State D K}
    (h : TreeOk P st) (e : trimAll cfg ratio l st = some st') : TreeOk P st' := by
  unfold trimAll at e
  split at e
  · cases e
  · split at e
    · cases e
    · rename_i s hs
      exact redundantLoop_ok _ _ _ _ (trimNotProgressing_ok _ _ _ h hs) e

theorem trimSprouts_ok {cfg : Conf D K} {P : D → Prop} {ratio : List K} {st st' : State D K}
    (h : TreeOk P st) (e : trimSprouts cfg ratio st = some st') : TreeOk P st' := by
  unfold trimSprouts at e
  obtain ⟨s1, e1, e⟩ := Option.bind_eq_some_iff.1 e
  obtain ⟨s2, e2, e1⟩ := Option.bind_eq_some_iff.1 e1
  exact trimAll_ok (trimAll_ok (trimAll_ok h e2) e1) e

theorem addSprout_ok {P : D → Prop} {st : State D K} (h : TreeOk P st) (i level : ℕ) (ids : List ℕ)
    {d : D} (hd : P d) : TreeOk P (addSprout st i level ids d) := by
  intro n hn
  obtain ⟨j, hj⟩ := List.mem_iff_getElem?.1 hn
  rcases addSprout_mem st i level ids d hj with ⟨rfl, _⟩ | ⟨m, sp, hm', rfl⟩
  · refine ⟨by simp [newNode], by simp [newNode], ?_⟩
    intro d' hd'
    simp only [newNode, Option.some.injEq] at hd'
    exact hd' ▸ hd
  · exact h m (List.mem_of_getElem? hm')

theorem releaseLoop_ok {cfg : Conf D K} {P : D → Prop} {i level : ℕ} : ∀ (ds : List D) (k : ℕ)
    (s s' : State D K), TreeOk P s → (∀ d ∈ ds, P d) → releaseLoop cfg i level ds k s = some s' →
    TreeOk P s' := by
  intro ds
  induction ds with
  | nil => intro k s s' hs _ h; cases h; exact hs
  | cons d ds ih =>
    intro k s s' hs hd h
    have hd' : ∀ d ∈ ds, P d := fun x hx => hd x (List.mem_cons_of_mem _ hx)
    rw [releaseLoop] at h
    split at h
    · cases h; exact hs
    · split at h
      · cases h
      · split at h
        · cases h
        · split at h
          · exact ih k s s' hs hd' h
          · exact ih (k + 1) _ s' (addSprout_ok hs _ _ _ (hd d (by simp))) hd' h

theorem release_ok {cfg : Conf D K} {P : D → Prop} : ∀ (fuel i : ℕ) (s s' : State D K), TreeOk P s →
    release cfg fuel i s = some s' → TreeOk P s' := by
  intro fuel
  induction fuel with
  | zero => intro i s s' _ h; cases h
  | succ fuel ih =>
    intro i s s' hs h
    rw [release] at h
    split at h
    · cases h
    · rename_i n hn
      split at h
      · have hfold : ∀ (js : List ℕ) (a b : State D K), TreeOk P a →
            js.foldlM (fun s j => release cfg fuel j s) a = some b → TreeOk P b := by
          intro js
          induction js with
          | nil => intro a b ha h; cases h; exact ha
          | cons x js ihj =>
            intro a b ha h
            rw [List.foldlM_cons] at h
            obtain ⟨a1, h1, h2⟩ := Option.bind_eq_some_iff.1 h
            exact ihj a1 b (ih x a a1 ha h1) h2
        split at h
        · cases h
        · rename_i sx hsx
          have := hfold _ _ _ hs hsx
          split at h
          · exact releaseLoop_ok _ _ _ _ this (hs n (List.mem_of_getElem? hn)).2.1 h
          · cases h; exact this
      · cases h; exact hs

theorem wake_fields (n : Node D K) : (wake n).pop = n.pop ∧ (wake n).delegates = n.delegates ∧
    (wake n).seed = n.seed ∧ (wake n).level = n.level ∧ (n.alive = true → (wake n).alive = true) := by
  unfold wake; split
  · exact ⟨rfl, rfl, rfl, rfl, fun _ => rfl⟩
  · exact ⟨rfl, rfl, rfl, rfl, id⟩

theorem reviveRoot_get {ratio ratio' : List K} {s s' : State D K}
    (h : reviveRoot ratio s = some (s', ratio')) : s'.nodes.length = s.nodes.length ∧
    ∀ (i : ℕ) (n : Node D K), s.nodes[i]? = some n → ∃ n', s'.nodes[i]? = some n' ∧
      n'.pop = n.pop ∧ n'.delegates = n.delegates ∧ n'.seed = n.seed ∧ n'.level = n.level ∧
      (n.alive = true → n'.alive = true) := by
  unfold reviveRoot at h
  split at h
  · split at h
    · cases h
    · cases h
      exact ⟨by simp, fun i n hn => ⟨wake n, by simp [hn], wake_fields n⟩⟩
  · cases h; exact ⟨rfl, fun i n hn => ⟨n, hn, rfl, rfl, rfl, rfl, id⟩⟩

/-- What a step of HGS does with the vectors: a living node takes over what its driver reports, a dead
one keeps what it has, and a sprout has no population yet but a seed. -/
theorem step_nodes {cfg : Conf D K} (hm : cfg.maxLevel ≤ 2) {fuel : ℕ} (hf : cfg.maxLevel < fuel)
    {ratio : List K} (hr : 3 ≤ ratio.length) {st st' : State D K} {ratio' : List K} (c : Core cfg st)
    (env : ℕ → Report D K) (h : step cfg fuel env st ratio = some (st', ratio')) :
    (∀ (i : ℕ) (n : Node D K), st.nodes[i]? = some n → ∃ n', st'.nodes[i]? = some n' ∧
      n'.level = n.level ∧ n'.pop = if n.alive then (env i).pop else n.pop) ∧
    (∀ (i : ℕ) (n' : Node D K), st'.nodes[i]? = some n' → st.nodes.length ≤ i →
      n'.alive = true ∧ n'.pop = [] ∧ ∃ d, n'.seed = some d) ∧ st.nodes.length ≤ st'.nodes.length ∧
    ∀ (P : D → Prop), TreeOk P st → (∀ (i : ℕ) (n : Node D K), st.nodes[i]? = some n →
      n.alive = true → (∀ d ∈ (env i).pop, P d) ∧ ∀ d ∈ (env i).delegates, P d) → TreeOk P st' := by
  obtain ⟨s1, e1, c1⟩ := run_core c env
  obtain ⟨s2, e2, c2, t2, h2⟩ := trimSprouts_core hm hr c1
  obtain ⟨q, hq, _⟩ := Option.map_eq_some_iff.1 c2.tree.root
  obtain ⟨s3, e3, c3, d3, x3⟩ := release_core hm fuel 0 s2 c2 (fun n hn _ => h2 n hn) q hq (by omega)
  simp only [step, e1, Option.bind_some, e2, e3] at h
  obtain ⟨hl4, h4⟩ := reviveRoot_get h
  have hl2 : s2.nodes.length = st.nodes.length := by
    have a1 := t2.length_eq
    have a2 : s1.nodes.length = st.nodes.length := by
      unfold runMetaepoch at e1
      split at e1
      · exact (runNodes_spec cfg env _ _ _ e1).1.length
      · cases e1
    omega
  have hg := (Grown.release hm fuel 0 s2 s3 (Grown.refl c2 (fun n hn _ => h2 n hn)) e3).1
  have hl3 : s2.nodes.length ≤ s3.nodes.length := by
    by_contra hlt
    obtain ⟨sp, g⟩ := x3 s3.nodes.length _ (List.getElem?_eq_getElem (Nat.lt_of_not_le hlt))
    simp at g
  refine ⟨?_, ?_, by omega, ?_⟩
  · intro i n hn
    have g1 := runMetaepoch_get c env hm e1 hn
    obtain ⟨m2, g2, r2⟩ := forall₂_get' t2 g1
    obtain ⟨sp, g3⟩ := x3 i m2 g2
    obtain ⟨m4, g4, p4, -, -, l4, -⟩ := h4 i _ g3
    have hs1 := runNode_shape cfg (env i) n
    have hs2 := r2.shape
    simp only [shape, Prod.mk.injEq] at hs1 hs2
    exact ⟨m4, g4, by rw [l4]; exact hs2.1.trans hs1.1, by
      rw [p4]; simp only; rw [r2.pop]; exact (runNode_fields cfg (env i) n).1⟩
  · intro i n' hn' hi
    have hlt : i < s3.nodes.length := by rw [← hl4]; exact (List.getElem?_eq_some_iff.1 hn').1
    have g3 := List.getElem?_eq_getElem hlt
    obtain ⟨m4, g4, p4, -, q4, -, a4⟩ := h4 i _ g3
    rw [hn', Option.some.injEq] at g4
    subst g4
    obtain ⟨f1, f2, d, f3, -⟩ := hg.fresh i _ g3 (by omega)
    exact ⟨a4 f1, p4.trans f2, d, q4.trans f3⟩
  · intro P hok henv
    have k3 := release_ok (P := P) _ _ _ _ (trimSprouts_ok (runMetaepoch_ok hm c env e1 hok henv) e2) e3
    intro n' hn'
    obtain ⟨i, hi⟩ := List.mem_iff_getElem?.1 hn'
    have hlt : i < s3.nodes.length := by rw [← hl4]; exact (List.getElem?_eq_some_iff.1 hi).1
    have g3 := List.getElem?_eq_getElem hlt
    obtain ⟨m4, g4, p4, d4, q4, -⟩ := h4 i _ g3
    rw [hi, Option.some.injEq] at g4
    subst g4
    obtain ⟨a1, a2, a3⟩ := k3 _ (List.mem_of_getElem? g3)
    exact ⟨by rw [p4]; exact a1, by rw [d4]; exact a2, by rw [q4]; exact a3⟩

/-- What a step of HGS does, from `st` to `st'` with the reports `env`. -/
structure StepOk (cfg : Conf D K) (env : ℕ → Report D K) (st st' : State D K) : Prop where
  core : Core cfg st'
  alive : ∃ n ∈ st'.nodes, n.alive = true
  old : ∀ (i : ℕ) (n : Node D K), st.nodes[i]? = some n → ∃ n', st'.nodes[i]? = some n' ∧
    n'.level = n.level ∧ n'.pop = if n.alive then (env i).pop else n.pop
  new : ∀ (i : ℕ) (n' : Node D K), st'.nodes[i]? = some n' → st.nodes.length ≤ i →
    n'.alive = true ∧ n'.pop = [] ∧ ∃ d, n'.seed = some d
  length : st.nodes.length ≤ st'.nodes.length
  ok : ∀ (P : D → Prop), TreeOk P st → (∀ (i : ℕ) (n : Node D K), st.nodes[i]? = some n →
    n.alive = true → (∀ d ∈ (env i).pop, P d) ∧ ∀ d ∈ (env i).delegates, P d) → TreeOk P st'
  cost : ∀ (i : ℕ) (n : Node D K), st.nodes[i]? = some n → ∃ n', st'.nodes[i]? = some n' ∧ n'.level = n.level ∧
    n'.cost = if n.alive then (n.cost :: (env i).costs).getLast (by simp) else n.cost
  free : ∀ (i : ℕ) (n' : Node D K), st'.nodes[i]? = some n' → st.nodes.length ≤ i → n'.cost = 0

theorem step_ok {cfg : Conf D K} (hm : cfg.maxLevel ≤ 2) {fuel : ℕ} (hf : cfg.maxLevel < fuel)
    {ratio : List K} (hr : 3 ≤ ratio.length) {st : State D K} (c : Core cfg st) (env : ℕ → Report D K) :
    ∃ st' ratio', step cfg fuel env st ratio = some (st', ratio') ∧ StepOk cfg env st st' ∧
      ratio'.length = ratio.length := by
  obtain ⟨st', r', e, c2, -, hr2, ha⟩ := step_core hm hf hr c env
  obtain ⟨n1, n2, n3, n4⟩ := step_nodes hm hf hr c env e
  obtain ⟨q1, q2⟩ := step_node_cost hm hf hr c env e
  exact ⟨st', r', e, ⟨c2, ha, n1, n2, n3, n4, q1, q2⟩, hr2⟩

end Evogil.Hgs
