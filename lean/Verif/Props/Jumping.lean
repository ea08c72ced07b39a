import Verif.Model.Jumping
import Verif.Props.Jgbl
import Verif.Props.GenerationsRun

/-!
# C97: complete runs of JGBL
-/

set_option linter.unusedSectionVars false

namespace Evogil.Jumping

open Evaluation Generations Jgbl Spec

section
variable {K : Type*} [Field K] [LinearOrder K] [IsStrictOrderedRing K] [FloorSemiring K]
  {A : Type*} [DecidableEq A]

/-- All sets are visited completely, each member once. -/
structure Orders.Valid {ι : Type*} (o : Orders ι) : Prop where
  inner : ∀ l, (o.inner l).Perm l
  first : ∀ l, (o.first l).Perm l
  second : ∀ l, (o.second l).Perm l
  union : ∀ l, (o.union l).Perm l
  jumped : ∀ l, (o.jumped l).Perm l

/-- The draws of the jumps of one step: sorted samples of `k` positions, and mates that exist. -/
def JumpsValid (n k : ℕ) (jd : ℕ → ℕ → Option JumpDraw) : Prop :=
  ∀ mates i d, 1 ≤ mates → jd mates i = some d → d.Ok n k mates

/-- The states of a JGBL driver started with `N` vectors in the box: after the constructor, and
after any sequence of steps and calls of `finalized_population`, whatever is drawn and in whatever
order the sets are visited. The fitness archive, if any, holds vectors of `m` values. -/
inductive JReach (S : Setup K) (key : List K → A) (fit : List K → List K) (m k : ℕ) (c : K) (N : ℕ) :
    NState K A → Prop
  | start (archive : Option (Archive A (List K)))
      (ha : ∀ a, archive = some a → ∀ k f, a k = some f → f.length = m)
      (population : List (List K)) (hn : population.length = N)
      (hbox : ∀ v ∈ population, InBox v S.dims) :
      JReach S key fit m k c N (nsgaiiInit S key fit archive c population)
  | step (orders : Orders (Ind (List K) (List K))) (ho : orders.Valid)
      (dm : ℕ → MateDraw) (hdm : ∀ i, (dm i).Valid N) (dv : ℕ → VarDraw K) (hdv : ∀ i, (dv i).Valid)
      (jd : ℕ → ℕ → Option JumpDraw) (hjd : JumpsValid S.dims.length k jd) (s s' : NState K A)
      (hs : JReach S key fit m k c N s) (h : jgblStep S key fit m orders dm dv jd s = some s') :
      JReach S key fit m k c N s'
  | finish (iter : List (Ind (List K) (List K)) → List (Ind (List K) (List K)))
      (hiter : ∀ l, (iter l).Perm l) (s s' : NState K A) (r : List (List K))
      (hs : JReach S key fit m k c N s) (h : nsgaiiFinish S key fit m iter s = some (s', r)) :
      JReach S key fit m k c N s'

/-! ## The step of NSGA-II in detail -/

theorem evalAll_append {V F : Type*} (key : V → A) (fit : V → F) :
    ∀ (a b : List (Ind V F)) (st : Acc V A F), (∀ x ∈ a, x.objectives.isSome) →
      evalAll key fit st (a ++ b) = ((evalAll key fit st b).1, a ++ (evalAll key fit st b).2) := by
  intro a
  induction a with
  | nil => intro b st _; rfl
  | cons x a ih =>
    intro b st h
    obtain ⟨f, hf⟩ := Option.isSome_iff_exists.1 (h x (by simp))
    have e : evalOne key fit st x = (st, x) := by unfold evalOne; rw [hf]
    simp only [List.cons_append, evalAll, e]
    rw [ih b st fun y hy => h y (List.mem_cons_of_mem _ hy)]

variable {S : Setup K} {key : List K → A} {fit : List K → List K} {m k : ℕ} {c : K} {N : ℕ}

theorem _root_.Evogil.Generations.NInv.known {s : NState K A} (h : NInv S m c N s) :
    ∀ x ∈ s.individuals, x.objectives.isSome := by
  intro x hx
  obtain ⟨f, hf, -⟩ := h.objs x hx
  simp [hf]

/-- A step keeps individuals of the population and adds new ones. -/
theorem nsgaiiStep_shape (hS : S.Valid) (hfit : ∀ v, (fit v).length = m)
    {iter : List (Ind (List K) (List K)) → List (Ind (List K) (List K))}
    (hiter : ∀ l, (iter l).Perm l) {dm : ℕ → MateDraw} (hdm : ∀ i, (dm i).Valid N)
    {dv : ℕ → VarDraw K} (hdv : ∀ i, (dv i).Valid) {s s' : NState K A} (h : NInv S m c N s)
    (hs : nsgaiiStep S key fit m iter dm dv s = some s') :
    ∃ kept new, s'.individuals = kept ++ new ∧ kept.Subperm s.individuals ∧
      (∃ fitness, nsgaiiSelect iter S.eps m s.popSize s.individuals = some (kept, fitness)) ∧
      ∀ x ∈ new, s.nextId ≤ x.id := by
  obtain ⟨kept, fitness, h1, h2, h3⟩ := nsgaiiSelect_spec hiter S.eps m s.popSize h.nodup
  rw [h.size, min_eq_left h.large] at h2
  have hmem : ∀ x ∈ kept, x ∈ s.individuals := fun x hx => h3.subset hx
  obtain ⟨vs, h4, h5, -⟩ := offspring_box hS (nsgaiiBetter fitness) (nsgaiiBetter_or fitness)
    (fun x => x.v) (dm := dm) (dv := dv) (individuals := kept) (by rw [h2]; exact hdm) hdv
    (fun x hx => h.box x (hmem x hx)) s.matingSize
  simp only [nsgaiiStep, h1, h4, Option.some.injEq] at hs
  subst hs
  refine ⟨kept, (evalAll key fit s.acc (newInds s.nextId vs)).2, ?_, h3, ⟨fitness, h1⟩, ?_⟩
  · simp only
    rw [evalAll_append key fit kept _ _ fun x hx => h.known x (hmem x hx)]
  · intro x hx
    obtain ⟨e1, -⟩ := evalAll_keeps key fit (fun f => f.length = m) hfit (newInds s.nextId vs) s.acc
      h.arch (by
        intro y hy f hf
        rw [(newInds_none _ _ _ hy).1] at hf
        simp at hf)
    have : x.id ∈ (evalAll key fit s.acc (newInds s.nextId vs)).2.map (fun i => i.id) :=
      List.mem_map_of_mem hx
    rw [e1, newInds_id] at this
    exact (List.mem_range'_1.1 this).1

/-- Any large enough part of a good population is one. -/
theorem _root_.Evogil.Generations.NInv.sub {s : NState K A} (h : NInv S m c N s) {l : List (Ind (List K) (List K))}
    (hl : l.Subperm s.individuals) (hN : N ≤ l.length) : NInv S m c N { s with individuals := l } :=
  ⟨h.size, h.mating, h.ids.of_subperm (subperm_map _ hl), hN, fun x hx => h.box x (hl.subset hx),
    fun x hx => h.objs x (hl.subset hx), h.arch⟩

/-- The union of the old and the new population is a good population, too. -/
theorem union_inv (hS : S.Valid) (hfit : ∀ v, (fit v).length = m)
    {orders : Orders (Ind (List K) (List K))} (ho : orders.Valid)
    {dm : ℕ → MateDraw} (hdm : ∀ i, (dm i).Valid N)
    {dv : ℕ → VarDraw K} (hdv : ∀ i, (dv i).Valid) {s s1 : NState K A} (h : NInv S m c N s)
    (hs : nsgaiiStep S key fit m orders.inner dm dv s = some s1) (h1 : NInv S m c N s1) :
    NInv S m c N { s1 with individuals := asSet orders.union (s.individuals ++ s1.individuals) } := by
  obtain ⟨kept, new, e1, e2, -, e3⟩ := nsgaiiStep_shape hS hfit ho.inner hdm hdv h hs
  have hnext : s.nextId ≤ s1.nextId := by
    unfold nsgaiiStep at hs
    split at hs
    · cases hs
    · split at hs
      · cases hs
      · simp only [Option.some.injEq] at hs
        subst hs
        simp
  have hmem : ∀ x, x ∈ asSet orders.union (s.individuals ++ s1.individuals) ↔
      x ∈ s.individuals ∨ x ∈ s1.individuals := by
    intro x
    rw [asSet, (ho.union _).mem_iff, List.mem_dedup, List.mem_append]
  have hnd : (asSet orders.union (s.individuals ++ s1.individuals)).Nodup :=
    (ho.union _).nodup_iff.2 (List.nodup_dedup _)
  have hinj : ∀ x, x ∈ s.individuals → ∀ y, y ∈ s1.individuals → x.id = y.id → x = y := by
    intro x hx y hy hxy
    rw [e1] at hy
    rcases List.mem_append.1 hy with hy | hy
    · exact List.inj_on_of_nodup_map h.ids.1 hx (e2.subset hy) hxy
    · have := e3 y hy
      have := h.ids.2 x.id (List.mem_map_of_mem hx)
      omega
  refine ⟨h1.size, h1.mating, ⟨?_, ?_⟩, ?_, ?_, ?_, h1.arch⟩
  · refine List.Nodup.map_on ?_ hnd
    intro x hx y hy hxy
    rcases (hmem x).1 hx with hx | hx <;> rcases (hmem y).1 hy with hy | hy
    · exact List.inj_on_of_nodup_map h.ids.1 hx hy hxy
    · exact hinj x hx y hy hxy
    · exact (hinj y hy x hx hxy.symm).symm
    · exact List.inj_on_of_nodup_map h1.ids.1 hx hy hxy
  · intro i hi
    obtain ⟨x, hx, rfl⟩ := List.mem_map.1 hi
    rcases (hmem x).1 hx with hx | hx
    · have := h.ids.2 x.id (List.mem_map_of_mem hx)
      exact this.trans_le hnext
    · exact h1.ids.2 x.id (List.mem_map_of_mem hx)
  · have := (List.subperm_of_subset h1.nodup fun x hx => (hmem x).2 (Or.inr hx)).length_le
    exact h1.large.trans this
  · intro x hx
    rcases (hmem x).1 hx with hx | hx
    exacts [h.box x hx, h1.box x hx]
  · intro x hx
    rcases (hmem x).1 hx with hx | hx
    exacts [h.objs x hx, h1.objs x hx]

/-- The first front exists, has no duplicates, and consists of members of the population. -/
theorem firstFront_spec {iter : List (Ind (List K) (List K)) → List (Ind (List K) (List K))}
    (hiter : ∀ l, (iter l).Perm l) (m : ℕ) {pop : List (Ind (List K) (List K))} (hp : pop.Nodup) :
    ∃ front, firstFront iter m pop = some front ∧ front.Nodup ∧ ∀ x ∈ front, x ∈ pop := by
  have hd : ∀ x ∈ pop, ((objFns (K := K) m).map fun o => o x).length = m := by simp [objFns]
  obtain ⟨L, hL⟩ := (C05_nsgaii_sorts_by_rank iter hiter m
    (fun x => (objFns m).map fun o => o x) pop hp hd).1 pop.length le_rfl
  have hperm := ((C05_nsgaii_sorts_by_rank iter hiter m
    (fun x => (objFns m).map fun o => o x) pop hp hd).2 pop.length L hL).1
  simp only at hL
  refine ⟨L.headD [], by simp [firstFront, hL], ?_, ?_⟩
  · have hLn : L.flatten.Nodup := hperm.nodup_iff.2 hp
    cases L with
    | nil => simp
    | cons f L =>
      simp only [List.flatten_cons] at hLn
      exact (List.nodup_append.1 hLn).1
  · intro x hx
    refine hperm.mem_iff.1 ?_
    cases L with
    | nil => simp at hx
    | cons f L => simp only [List.flatten_cons]; exact List.mem_append_left _ hx

/-- One step: it does not fail, and the state is good again. Without an archive it costs the offspring
and six evaluations for every jump. -/
theorem _root_.Evogil.Generations.NInv.jump (hS : S.Valid) (hp : ProperBox S.dims) (hfit : ∀ v, (fit v).length = m)
    {orders : Orders (Ind (List K) (List K))} (ho : orders.Valid)
    {dm : ℕ → MateDraw} (hdm : ∀ i, (dm i).Valid N) {dv : ℕ → VarDraw K} (hdv : ∀ i, (dv i).Valid)
    {jd : ℕ → ℕ → Option JumpDraw} (hjd : JumpsValid S.dims.length k jd) {s : NState K A}
    (h : NInv S m c N s) :
    ∃ s', jgblStep S key fit m orders dm dv jd s = some s' ∧ NInv S m c N s' ∧
      (s'.individuals.length = N ∨ s'.individuals.length = N + ⌊c * (N : K)⌋₊) ∧
      (s.acc.archive = none → s'.acc.archive = none ∧ ∃ j ≤ N,
        s'.acc.cost = s.acc.cost + ⌊c * (N : K)⌋₊ + 6 * j) := by
  obtain ⟨s1, h1, h2, h3⟩ := h.step (key := key) hS hfit ho.inner hdm hdv
  have hu := union_inv hS hfit ho hdm hdv h h1 h2
  set all := asSet orders.union (s.individuals ++ s1.individuals) with hall
  obtain ⟨kept, fitness, k1, k2, k3⟩ := nsgaiiSelect_spec ho.first S.eps m s.popSize hu.nodup
  obtain ⟨front, f1, f2, f3⟩ := firstFront_spec ho.first m hu.nodup
  simp only at k1 k2 k3 f1 f3
  have hul : N ≤ all.length := hu.large
  rw [h.size, min_eq_left hul] at k2
  unfold jgblStep
  rw [h1]
  simp only
  rw [← hall, k1, f1]
  simp only
  by_cases hlt : kept.length < front.length
  · rw [if_pos hlt]
    set mates := front.filter fun n => n ∉ kept with hmates
    have hne : 1 ≤ mates.length := by
      by_contra hc
      have hnil : mates = [] := List.length_eq_zero_iff.1 (by omega)
      have hsub : ∀ x ∈ front, x ∈ kept := by
        intro x hx
        by_contra hxs
        have : x ∈ mates := by rw [hmates, List.mem_filter]; exact ⟨hx, by simpa using hxs⟩
        rw [hnil] at this
        simp at this
      have := (List.subperm_of_subset f2 hsub).length_le
      omega
    have hkbox : ∀ x ∈ kept, InBox x.v S.dims := fun x hx => hu.box x (k3.subset hx)
    obtain ⟨vs, v1, v2, v3⟩ := C34_jump_genes S.dims hp k (mates.map fun x => x.v)
      (by
        intro v hv
        obtain ⟨x, hx, rfl⟩ := List.mem_map.1 hv
        exact hu.box x (f3 x (List.mem_filter.1 hx).1))
      (kept.map fun x => x.v)
      (by
        intro v hv
        obtain ⟨x, hx, rfl⟩ := List.mem_map.1 hv
        exact hkbox x hx)
      ((List.range kept.length).map (jd mates.length)) (by simp)
      (by
        intro d hd
        obtain ⟨i, -, hi⟩ := List.mem_map.1 hd
        rw [List.length_map]
        exact hjd mates.length i d hne hi)
    rw [v1]
    simp only
    set new := newInds s1.nextId (vs.map S.trim) with hnew
    have hids : Ids (s1.nextId + vs.length) ((kept ++ new).map fun x => x.id) := by
      rw [List.map_append, hnew, newInds_id, List.length_map]
      exact (hu.ids.of_subperm (subperm_map _ k3)).append_range'
    have hnd : (kept ++ new).Nodup := hids.1.of_map _
    have hperm : (asSet orders.jumped (kept ++ new)).Perm (kept ++ new) := by
      unfold asSet
      rw [hnd.dedup]
      exact ho.jumped _
    have hkeptsome : ∀ x ∈ kept, ∃ f, x.objectives = some f ∧ f.length = m :=
      fun x hx => hu.objs x (k3.subset hx)
    obtain ⟨h7, h8⟩ := NInv.eval (S := S) (key := key) (c := c) (N := N) hfit s1
      (asSet orders.jumped (kept ++ new)) h2.arch h2.size h2.mating (s1.nextId + vs.length)
      (hids.of_subperm (hperm.map _).subperm) (by
        rw [hperm.length_eq, List.length_append]; omega)
      (by
        intro x hx
        rcases List.mem_append.1 (hperm.mem_iff.1 hx) with hx | hx
        · exact hkbox x hx
        · obtain ⟨v, hv, e⟩ := List.mem_map.1 (newInds_none _ _ _ hx).2
          rw [← e]
          exact hS.trim v (v3 v hv))
      (by
        intro x hx f hf
        rcases List.mem_append.1 (hperm.mem_iff.1 hx) with hx | hx
        · obtain ⟨g, hg, hl⟩ := hkeptsome x hx
          obtain rfl : f = g := Option.some.inj (hf.symm.trans hg)
          exact hl
        · rw [(newInds_none _ _ _ hx).1] at hf
          simp at hf)
    obtain ⟨final, fitness', g1, g2, g3⟩ := nsgaiiSelect_spec ho.second S.eps m s.popSize h7.nodup
    simp only at g1 g2 g3
    have hNl : N ≤ (evalAll key fit s1.acc (asSet orders.jumped (kept ++ new))).2.length := by
      rw [h8, hperm.length_eq, List.length_append]; omega
    rw [h.size, min_eq_left hNl] at g2
    rw [g1]
    refine ⟨_, rfl, h7.sub g3 g2.ge, Or.inl g2, ?_⟩
    intro ha
    obtain ⟨c1, c2⟩ := h.step_cost hS ho.inner hdm hdv ha h1
    obtain ⟨e1, e2⟩ := evalAll_none key fit (asSet orders.jumped (kept ++ new)) s1.acc c1
    refine ⟨e1, ((List.range kept.length).map (jd mates.length)).countP fun d => d.isSome, ?_, ?_⟩
    · refine List.countP_le_length.trans ?_
      rw [List.length_map, List.length_range, k2]
    · simp only
      rw [e2, c2, ← v2, hperm.countP_eq, List.countP_append]
      have hk : kept.countP (fun i => i.objectives.isNone) = 0 := by
        rw [List.countP_eq_zero]
        intro x hx
        obtain ⟨f, hf, -⟩ := hkeptsome x hx
        simp [hf]
      have hn : new.countP (fun i => i.objectives.isNone) = vs.length := by
        rw [← List.length_map (f := S.trim), ← newInds_length s1.nextId (vs.map S.trim),
          List.countP_eq_length]
        intro x hx
        simp [(newInds_none _ _ _ hx).1]
      rw [hk, hn]
      omega
  · rw [if_neg hlt]
    refine ⟨s1, rfl, h2, Or.inr h3, fun ha => ?_⟩
    obtain ⟨c1, c2⟩ := h.step_cost hS ho.inner hdm hdv ha h1
    exact ⟨c1, 0, by omega, by omega⟩

theorem JReach.inv (hS : S.Valid) (hp : ProperBox S.dims) (hfit : ∀ v, (fit v).length = m)
    {s : NState K A} (h : JReach S key fit m k c N s) : NInv S m c N s ∧
      (s.individuals.length = N ∨ s.individuals.length = N + ⌊c * (N : K)⌋₊) := by
  induction h with
  | start archive ha population hn hbox =>
    exact (NReach.start archive ha population hn hbox).inv hS hfit
  | step orders ho dm hdm dv hdv jd hjd s s' hs h ih =>
    obtain ⟨t, h1, h2, h3, -⟩ := ih.1.jump (key := key) hS hp hfit ho hdm hdv hjd
    obtain rfl : s' = t := Option.some.inj (h.symm.trans h1)
    exact ⟨h2, h3⟩
  | finish iter hiter s s' r hs h ih =>
    obtain ⟨t, r', h1, h2, h3, -⟩ := ih.1.finish (key := key) hfit hiter
    obtain ⟨rfl, -⟩ : s' = t ∧ r = r' := by simpa using h.symm.trans h1
    exact ⟨h2, Or.inl h3⟩

/-- **C97.** JGBL started with `N` vectors of the box neither fails nor leaves the box; its result
has `N` vectors. -/
theorem C97_jgbl (hS : S.Valid) (hp : ProperBox S.dims) (hfit : ∀ v, (fit v).length = m)
    (s : NState K A) (h : JReach S key fit m k c N s) :
    (∀ x ∈ s.individuals, InBox x.v S.dims ∧ ∃ f, x.objectives = some f ∧ f.length = m) ∧
    (s.individuals.length = N ∨ s.individuals.length = N + ⌊c * (N : K)⌋₊) ∧
    (∀ orders dm dv jd, Orders.Valid orders → (∀ i, MateDraw.Valid N (dm i)) →
      (∀ i, VarDraw.Valid (dv i)) → JumpsValid S.dims.length k jd →
      ∃ s', jgblStep S key fit m orders dm dv jd s = some s') ∧
    ∀ iter : List (Ind (List K) (List K)) → List (Ind (List K) (List K)),
      (∀ l, (iter l).Perm l) → ∃ s' r, nsgaiiFinish S key fit m iter s = some (s', r) ∧
        r.length = N ∧ ∀ v ∈ r, InBox v S.dims := by
  obtain ⟨hi, hl⟩ := h.inv hS hp hfit
  refine ⟨fun x hx => ⟨hi.box x hx, hi.objs x hx⟩, hl, ?_, ?_⟩
  · intro orders dm dv jd ho hdm hdv hjd
    obtain ⟨s', h1, -⟩ := hi.jump (key := key) hS hp hfit ho hdm hdv hjd
    exact ⟨s', h1⟩
  · intro iter hiter
    obtain ⟨s', r, h1, h2, h3, rfl⟩ := hi.finish (key := key) hfit hiter
    refine ⟨s', _, h1, by rw [List.length_map, h3], ?_⟩
    intro v hv
    obtain ⟨x, hx, rfl⟩ := List.mem_map.1 hv
    exact h2.box x hx

/-- **C97.** If a generation has at least one offspring, a budget simulation with JGBL stores a
result for every budget: `N` vectors in the box, at no less than the cost asked for. -/
theorem C97_budget (hS : S.Valid) (hp : ProperBox S.dims) (hfit : ∀ v, (fit v).length = m)
    (hM : 1 ≤ ⌊c * (N : K)⌋₊) (orders : ℕ → Orders (Ind (List K) (List K)))
    (ho : ∀ n, (orders n).Valid) (dm : ℕ → ℕ → MateDraw) (hdm : ∀ n i, (dm n i).Valid N)
    (dv : ℕ → ℕ → VarDraw K) (hdv : ∀ n i, (dv n i).Valid) (jd : ℕ → ℕ → ℕ → Option JumpDraw)
    (hjd : ∀ n, JumpsValid S.dims.length k (jd n)) (population : List (List K))
    (hn : population.length = N) (hbox : ∀ v ∈ population, InBox v S.dims) (budgets : List ℤ)
    (fuel : ℕ) (hfuel : ∀ b ∈ budgets, b ≤ fuel) :
    ∃ res o', budgetWorker (jgblDriver S key fit m orders dm dv jd) fuel budgets
        ⟨some (0, nsgaiiInit S key fit none c population), 0⟩ = some (res, o') ∧
      res.map (fun r => r.name) = budgets ∧
      ∀ r ∈ res, r.name ≤ r.cost ∧ ∃ p, r.pop = some p ∧ GoodResult S.dims N p := by
  refine optDriver_worker (Inv := fun s : NState K A => NInv S m c N s ∧ s.acc.archive = none)
    ?_ budgets ?_ fuel hfuel 0 _
    ⟨((nsgaiiInit_reach hn hbox).inv hS hfit).1, (nsgaiiInit_cost population).1⟩ 0
  · rintro n s ⟨h, ha⟩
    obtain ⟨s', h1, h2, -, h3⟩ := h.jump (key := key) hS hp hfit (ho n) (hdm n) (hdv n) (hjd n)
    obtain ⟨h4, j, -, h5⟩ := h3 ha
    exact ⟨s', h1, ⟨h2, h4⟩, by omega⟩
  · rintro n s b - ⟨h, ha⟩ -
    obtain ⟨s', r, h1, h2, h3, rfl⟩ := h.finish (key := key) hfit (ho n).inner
    obtain ⟨h4, h5⟩ := h.finish_cost ha h1
    refine ⟨s', _, h1, ⟨h2, h4⟩, ⟨by rw [List.length_map, h3], ?_⟩, h5.ge⟩
    intro v hv
    obtain ⟨x, hx, rfl⟩ := List.mem_map.1 hv
    exact h2.box x hx

/-- **C97.** What the generations of JGBL cost: `N` evaluations at the start, then the offspring and
at most six evaluations per individual. -/
theorem C97_cost (hS : S.Valid) (hp : ProperBox S.dims) (hfit : ∀ v, (fit v).length = m)
    (orders : ℕ → Orders (Ind (List K) (List K)))
    (ho : ∀ n, (orders n).Valid) (dm : ℕ → ℕ → MateDraw) (hdm : ∀ n i, (dm n i).Valid N)
    (dv : ℕ → ℕ → VarDraw K) (hdv : ∀ n i, (dv n i).Valid) (jd : ℕ → ℕ → ℕ → Option JumpDraw)
    (hjd : ∀ n, JumpsValid S.dims.length k (jd n)) (population : List (List K))
    (hn : population.length = N) (hbox : ∀ v ∈ population, InBox v S.dims) (n : ℕ) :
    ∃ j ≤ n * N, (jgblDriver S key fit m orders dm dv jd).cost
      ((jgblDriver S key fit m orders dm dv jd).step^[n]
        (some (0, nsgaiiInit S key fit none c population)))
      = ((N + n * ⌊c * (N : K)⌋₊ + 6 * j : ℕ) : ℤ) := by
  have key' : ∃ j ≤ n * N, ∃ s : NState K A, (jgblDriver S key fit m orders dm dv jd).step^[n]
      (some (0, nsgaiiInit S key fit none c population)) = some (n, s) ∧ NInv S m c N s ∧
      s.acc.archive = none ∧ s.acc.cost = N + n * ⌊c * (N : K)⌋₊ + 6 * j := by
    induction n with
    | zero =>
      refine ⟨0, by omega, _, rfl, ((nsgaiiInit_reach hn hbox).inv hS hfit).1,
        (nsgaiiInit_cost population).1, ?_⟩
      rw [(nsgaiiInit_cost population).2, hn]; omega
    | succ n ih =>
      obtain ⟨j, hj, s, h1, h2, h3, h4⟩ := ih
      obtain ⟨s', h5, h6, -, h7⟩ := h2.jump (key := key) hS hp hfit (ho n) (hdm n) (hdv n) (hjd n)
      obtain ⟨h8, i, hi, h9⟩ := h7 h3
      refine ⟨j + i, by rw [Nat.succ_mul]; omega, s', ?_, h6, h8, ?_⟩
      · rw [Function.iterate_succ_apply', h1]
        simp [jgblDriver, optDriver, h5]
      · rw [h9, h4, Nat.succ_mul n]; omega
  obtain ⟨j, hj, s, h1, -, -, h4⟩ := key'
  refine ⟨j, hj, ?_⟩
  rw [h1]
  show (s.acc.cost : ℤ) = _
  rw [h4]

/-- Two vectors, both nondominated; the first of them jumps: two evaluations at the start, two for
the offspring, six for the jump. -/
example : (jgblStep exSetup (fun v : List ℚ => v) exFit 2 ⟨id, id, id, id, id⟩
      (fun _ => ⟨0, 1, true⟩) (fun _ => exDraw)
      (fun _ i => if i = 0 then some ⟨⟨[0], [0], 0, 0⟩, ⟨[0], [0], 0, 0⟩, 0, ⟨[0], [0], 0, 0⟩, 0,
        ⟨[0], [0], 0, 0⟩⟩ else none)
      (nsgaiiInit exSetup id exFit none 1 [[0], [1 / 2]])).map
      (fun s => (s.individuals.map fun x => (x.id, x.v), s.acc.cost, s.nextId))
    = some ([(0, [0]), (2, [151 / 202])], 10, 10) := by decide +kernel

end

end Evogil.Jumping
