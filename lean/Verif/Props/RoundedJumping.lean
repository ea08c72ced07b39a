import Verif.Model.RoundedJumping
import Verif.Props.Jumping
import Verif.Props.RoundedJgbl
import Verif.Props.RoundedRun

/-!
# C151: complete runs of JGBL in floating point
-/

set_option linter.unusedSectionVars false

namespace Evogil.Rounded.Run

open Evaluation Generations Spec Binary64 Jgbl

section
variable {K : Type*} [Field K] [LinearOrder K] [IsStrictOrderedRing K] [FloorRing K] {A : Type*} [DecidableEq A]

/-- The boxes in which a ratio of 1 is decoded to a number of the box: no width is rounded to 0, and the lower end plus the
width is, after rounding, not above the upper end. -/
def Closed (dims : List (K × K)) : Prop :=
  (∀ d ∈ dims, 0 < round64 (d.2 - d.1)) ∧ ∀ d ∈ dims, round64 (d.1 + round64 (d.2 - d.1)) ≤ d.2

/-- The states of a JGBL driver started with `N` vectors of floats in the box: after the constructor, and after any sequence
of steps and calls of `finalized_population`, whatever is drawn and in whatever order the sets are visited. The fitness
archive, if any, holds vectors of `m` values. -/
inductive JReach (S : Setup K) (key : List K → A) (fit : List K → List K) (m k : ℕ) (c : K) (N : ℕ) : NState K A → Prop
  | start (archive : Option (Archive A (List K))) (ha : ∀ a, archive = some a → ∀ k f, a k = some f → f.length = m)
      (population : List (List K)) (hn : population.length = N) (hbox : ∀ v ∈ population, FBox S.dims v) :
      JReach S key fit m k c N (nsgaiiInit round64 S key fit archive c population)
  | step (orders : Jumping.Orders (Ind (List K) (List K))) (ho : orders.Valid) (dm : ℕ → MateDraw)
      (hdm : ∀ i, (dm i).Valid N) (dv : ℕ → VarDraw K) (hdv : ∀ i, Draws (dv i)) (jd : ℕ → ℕ → Option JumpDraw)
      (hjd : Jumping.JumpsValid S.dims.length k jd) (s s' : NState K A) (hs : JReach S key fit m k c N s)
      (h : jgblStep round64 S key fit m orders dm dv jd s = some s') : JReach S key fit m k c N s'
  | finish (iter : List (Ind (List K) (List K)) → List (Ind (List K) (List K))) (hiter : ∀ l, (iter l).Perm l)
      (s s' : NState K A) (r : List (List K)) (hs : JReach S key fit m k c N s)
      (h : nsgaiiFinish round64 S key fit m iter s = some (s', r)) : JReach S key fit m k c N s'

variable {S : Setup K} {key : List K → A} {fit : List K → List K} {m k : ℕ} {c : K} {N : ℕ}

/-! ## What the parts of a step cost -/

theorem known_countP {l : List (Ind (List K) (List K))} (h : ∀ x ∈ l, ∃ f, x.objectives = some f ∧ f.length = m) :
    l.countP (fun i => i.objectives.isNone) = 0 := by
  rw [List.countP_eq_zero]
  intro x hx
  obtain ⟨f, hf, -⟩ := h x hx
  simp [hf]

theorem newInds_countP (next : ℕ) (vs : List (List K)) :
    (newInds next vs).countP (fun i => i.objectives.isNone) = vs.length := by
  rw [← newInds_length next vs, List.countP_eq_length]
  intro x hx
  simp [(newInds_none _ _ _ hx).1]

theorem nsgaiiStep_shape (hS : Usable S) (hm : m ≤ 2 ^ 51) (hfit : ∀ v, (fit v).length = m)
    {iter : List (Ind (List K) (List K)) → List (Ind (List K) (List K))}
    (hiter : ∀ l, (iter l).Perm l) {dm : ℕ → MateDraw} (hdm : ∀ i, (dm i).Valid N)
    {dv : ℕ → VarDraw K} (hdv : ∀ i, Draws (dv i)) {s s' : NState K A} (h : NInv S m c N s)
    (hs : nsgaiiStep round64 S key fit m iter dm dv s = some s') :
    (∃ kept new, s'.individuals = kept ++ new ∧ kept.Subperm s.individuals ∧ ∀ x ∈ new, s.nextId ≤ x.id) ∧
      s.nextId ≤ s'.nextId ∧ (s.acc.archive = none →
        s'.acc.archive = none ∧ s'.acc.cost = s.acc.cost + portion round64 c N) := by
  obtain ⟨kept, fitness, h1, h2, h3⟩ := nsgaiiSelect_ok hiter hm s.popSize h.nodup
  rw [h.size, min_eq_left h.large] at h2
  have hmem : ∀ x ∈ kept, x ∈ s.individuals := fun x hx => h3.subset hx
  obtain ⟨vs, h4, h5, -⟩ := offspring_ok hS (nsgaiiBetter fitness) (nsgaiiBetter_or fitness)
    (fun x => x.v) (dm := dm) (dv := dv) (individuals := kept) (by rw [h2]; exact hdm) hdv
    (fun x hx => h.box x (hmem x hx)) s.matingSize
  simp only [nsgaiiStep, hS.eps, h1, h4, Option.some.injEq] at hs
  subst hs
  refine ⟨⟨kept, (evalAll key fit s.acc (newInds s.nextId vs)).2, ?_, h3, ?_⟩, Nat.le_add_right _ _, fun ha => ?_⟩
  · simp only
    rw [Jumping.evalAll_append key fit kept _ _ fun x hx => by
      obtain ⟨f, hf, -⟩ := h.objs x (hmem x hx)
      simp [hf]]
  · intro x hx
    obtain ⟨e1, -⟩ := evalAll_keeps key fit (fun f => f.length = m) hfit (newInds s.nextId vs) s.acc
      h.arch (by
        intro y hy f hf
        rw [(newInds_none _ _ _ hy).1] at hf
        cases hf)
    have : x.id ∈ (evalAll key fit s.acc (newInds s.nextId vs)).2.map (fun i => i.id) :=
      List.mem_map_of_mem hx
    rw [e1, newInds_id] at this
    exact (List.mem_range'_1.1 this).1
  · obtain ⟨e1, e2⟩ := evalAll_none key fit (kept ++ newInds s.nextId vs) s.acc ha
    refine ⟨e1, ?_⟩
    simp only
    rw [e2, List.countP_append, known_countP (m := m) fun x hx => h.objs x (hmem x hx), newInds_countP, h5, h.mating]
    omega

theorem NInv.finish_cost {iter : List (Ind (List K) (List K)) → List (Ind (List K) (List K))}
    {s : NState K A} (h : NInv S m c N s) (ha : s.acc.archive = none) {s' : NState K A}
    {r : List (List K)} (hs : nsgaiiFinish round64 S key fit m iter s = some (s', r)) :
    s'.acc.archive = none ∧ s'.acc.cost = s.acc.cost := by
  obtain ⟨e1, e2⟩ := evalAll_none key fit s.individuals s.acc ha
  rw [known_countP h.objs] at e2
  simp only [nsgaiiFinish] at hs
  cases hsel : nsgaiiSelect round64 iter S.eps m s.popSize (evalAll key fit s.acc s.individuals).2 with
  | none => rw [hsel] at hs; cases hs
  | some p =>
    rw [hsel] at hs
    simp only [Option.some.injEq, Prod.mk.injEq] at hs
    obtain ⟨rfl, -⟩ := hs
    exact ⟨e1, e2⟩

theorem nsgaiiInit_cost (population : List (List K)) :
    (nsgaiiInit round64 S key fit none c population).acc.archive = none ∧
    (nsgaiiInit round64 S key fit none c population).acc.cost = population.length := by
  obtain ⟨e1, e2⟩ := evalAll_none key fit (newInds 0 (population.map S.trim)) ⟨0, none, []⟩ rfl
  refine ⟨e1, ?_⟩
  show (evalAll key fit ⟨0, none, []⟩ (newInds 0 (population.map S.trim))).1.cost = _
  rw [e2, newInds_countP, List.length_map]
  exact Nat.zero_add _

/-- Any large enough part of a good population is one. -/
theorem NInv.sub {s : NState K A} (h : NInv S m c N s) {l : List (Ind (List K) (List K))}
    (hl : l.Subperm s.individuals) (hN : N ≤ l.length) : NInv S m c N { s with individuals := l } :=
  ⟨h.size, h.mating, h.ids.of_subperm (subperm_map _ hl), hN, fun x hx => h.box x (hl.subset hx),
    fun x hx => h.objs x (hl.subset hx), h.arch⟩

/-- The union of the old and the new population is a good population, too. -/
theorem union_inv (hS : Usable S) (hm : m ≤ 2 ^ 51) (hfit : ∀ v, (fit v).length = m)
    {orders : Jumping.Orders (Ind (List K) (List K))} (ho : orders.Valid)
    {dm : ℕ → MateDraw} (hdm : ∀ i, (dm i).Valid N)
    {dv : ℕ → VarDraw K} (hdv : ∀ i, Draws (dv i)) {s s1 : NState K A} (h : NInv S m c N s)
    (hs : nsgaiiStep round64 S key fit m orders.inner dm dv s = some s1) (h1 : NInv S m c N s1) :
    NInv S m c N { s1 with individuals := asSet orders.union (s.individuals ++ s1.individuals) } := by
  obtain ⟨⟨kept, new, e1, e2, e3⟩, hnext, -⟩ := nsgaiiStep_shape hS hm hfit ho.inner hdm hdv h hs
  have hmem : ∀ x, x ∈ asSet orders.union (s.individuals ++ s1.individuals) ↔
      x ∈ s.individuals ∨ x ∈ s1.individuals := by
    intro x
    rw [asSet, (ho.union _).mem_iff, List.mem_dedup, List.mem_append]
  have hnd : (asSet orders.union (s.individuals ++ s1.individuals)).Nodup :=
    (ho.union _).nodup_iff.2 (List.nodup_dedup _)
  have hinj : ∀ x, x ∈ s.individuals → ∀ y, y ∈ s1.individuals → x.id = y.id → x = y := by
    intro x hx y hy hxy
    rw [e1] at hy
    rcases List.mem_append.1 hy with hy | hy
    · exact List.inj_on_of_nodup_map h.ids.1 hx (e2.subset hy) hxy
    · have := e3 y hy
      have := h.ids.2 x.id (List.mem_map_of_mem hx)
      omega
  refine ⟨h1.size, h1.mating, ⟨?_, ?_⟩, ?_, ?_, ?_, h1.arch⟩
  · refine List.Nodup.map_on ?_ hnd
    intro x hx y hy hxy
    rcases (hmem x).1 hx with hx | hx <;> rcases (hmem y).1 hy with hy | hy
    · exact List.inj_on_of_nodup_map h.ids.1 hx hy hxy
    · exact hinj x hx y hy hxy
    · exact (hinj y hy x hx hxy.symm).symm
    · exact List.inj_on_of_nodup_map h1.ids.1 hx hy hxy
  · intro i hi
    obtain ⟨x, hx, rfl⟩ := List.mem_map.1 hi
    rcases (hmem x).1 hx with hx | hx
    · exact (h.ids.2 x.id (List.mem_map_of_mem hx)).trans_le hnext
    · exact h1.ids.2 x.id (List.mem_map_of_mem hx)
  · exact h1.large.trans (List.subperm_of_subset h1.nodup fun x hx => (hmem x).2 (Or.inr hx)).length_le
  · intro x hx
    rcases (hmem x).1 hx with hx | hx
    exacts [h.box x hx, h1.box x hx]
  · intro x hx
    rcases (hmem x).1 hx with hx | hx
    exacts [h.objs x hx, h1.objs x hx]

/-- One step: it does not fail, and the state is good again. Without an archive it costs the offspring and six evaluations
for every jump. -/
theorem NInv.jump (hS : Usable S) (hp : Closed S.dims) (hm : m ≤ 2 ^ 51) (hfit : ∀ v, (fit v).length = m)
    {orders : Jumping.Orders (Ind (List K) (List K))} (ho : orders.Valid)
    {dm : ℕ → MateDraw} (hdm : ∀ i, (dm i).Valid N) {dv : ℕ → VarDraw K} (hdv : ∀ i, Draws (dv i))
    {jd : ℕ → ℕ → Option JumpDraw} (hjd : Jumping.JumpsValid S.dims.length k jd) {s : NState K A} (h : NInv S m c N s) :
    ∃ s', jgblStep round64 S key fit m orders dm dv jd s = some s' ∧ NInv S m c N s' ∧
      (s'.individuals.length = N ∨ s'.individuals.length = N + portion round64 c N) ∧
      (s.acc.archive = none → s'.acc.archive = none ∧ ∃ j ≤ N,
        s'.acc.cost = s.acc.cost + portion round64 c N + 6 * j) := by
  obtain ⟨s1, h1, h2, h3⟩ := h.step (key := key) hS hm hfit ho.inner hdm hdv
  have hu := union_inv hS hm hfit ho hdm hdv h h1 h2
  have hcost := (nsgaiiStep_shape hS hm hfit ho.inner hdm hdv h h1).2.2
  set all := asSet orders.union (s.individuals ++ s1.individuals) with hall
  obtain ⟨kept, fitness, k1, k2, k3⟩ := nsgaiiSelect_ok ho.first hm s.popSize hu.nodup
  obtain ⟨front, f1, f2, f3⟩ := Jumping.firstFront_spec ho.first m hu.nodup
  simp only at k1 k2 k3 f1 f3
  have hul : N ≤ all.length := hu.large
  rw [h.size, min_eq_left hul] at k2
  unfold jgblStep
  rw [h1]
  simp only
  rw [← hall, hS.eps, k1, f1]
  simp only
  by_cases hlt : kept.length < front.length
  · rw [if_pos hlt]
    set mates := front.filter fun n => n ∉ kept with hmates
    have hne : 1 ≤ mates.length := by
      by_contra hc
      have hnil : mates = [] := List.length_eq_zero_iff.1 (by omega)
      have hsub : ∀ x ∈ front, x ∈ kept := by
        intro x hx
        by_contra hxs
        have : x ∈ mates := by rw [hmates, List.mem_filter]; exact ⟨hx, by simpa using hxs⟩
        rw [hnil] at this
        cases this
      have := (List.subperm_of_subset f2 hsub).length_le
      omega
    have hkbox : ∀ x ∈ kept, FBox S.dims x.v := fun x hx => hu.box x (k3.subset hx)
    obtain ⟨vs, v1, v2, v3⟩ := C122_jump_partial S.dims hS.dims hp.1 hp.2 k (mates.map fun x => x.v)
      (by
        intro v hv
        obtain ⟨x, hx, rfl⟩ := List.mem_map.1 hv
        exact (hu.box x (f3 x (List.mem_filter.1 hx).1)).1)
      (kept.map fun x => x.v)
      (by
        intro v hv
        obtain ⟨x, hx, rfl⟩ := List.mem_map.1 hv
        exact (hkbox x hx).1)
      ((List.range kept.length).map (jd mates.length)) (by simp)
      (by
        intro d hd
        obtain ⟨i, -, hi⟩ := List.mem_map.1 hd
        rw [List.length_map]
        exact hjd mates.length i d hne hi)
    rw [v1]
    simp only
    set new := newInds s1.nextId (vs.map S.trim) with hnew
    have hids : Ids (s1.nextId + vs.length) ((kept ++ new).map fun x => x.id) := by
      rw [List.map_append, hnew, newInds_id, List.length_map]
      exact (hu.ids.of_subperm (subperm_map _ k3)).append_range'
    have hnd : (kept ++ new).Nodup := hids.1.of_map _
    have hperm : (asSet orders.jumped (kept ++ new)).Perm (kept ++ new) := by
      unfold asSet
      rw [hnd.dedup]
      exact ho.jumped _
    have hkeptsome : ∀ x ∈ kept, ∃ f, x.objectives = some f ∧ f.length = m :=
      fun x hx => hu.objs x (k3.subset hx)
    obtain ⟨h7, h8⟩ := NInv.eval (S := S) (key := key) (c := c) (N := N) hfit s1
      (asSet orders.jumped (kept ++ new)) h2.arch h2.size h2.mating (s1.nextId + vs.length)
      (hids.of_subperm (hperm.map _).subperm) (by
        rw [hperm.length_eq, List.length_append]; omega)
      (by
        intro x hx
        rcases List.mem_append.1 (hperm.mem_iff.1 hx) with hx | hx
        · exact hkbox x hx
        · obtain ⟨v, hv, e⟩ := List.mem_map.1 (newInds_none _ _ _ hx).2
          rw [← e]
          exact hS.trim v (v3 v hv))
      (by
        intro x hx f hf
        rcases List.mem_append.1 (hperm.mem_iff.1 hx) with hx | hx
        · obtain ⟨g, hg, hl⟩ := hkeptsome x hx
          obtain rfl : f = g := Option.some.inj (hf.symm.trans hg)
          exact hl
        · rw [(newInds_none _ _ _ hx).1] at hf
          cases hf)
    obtain ⟨final, fitness', g1, g2, g3⟩ := nsgaiiSelect_ok ho.second hm s.popSize h7.nodup
    simp only at g1 g2 g3
    have hNl : N ≤ (evalAll key fit s1.acc (asSet orders.jumped (kept ++ new))).2.length := by
      rw [h8, hperm.length_eq, List.length_append]; omega
    rw [h.size, min_eq_left hNl] at g2
    rw [g1]
    refine ⟨_, rfl, h7.sub g3 g2.ge, Or.inl g2, ?_⟩
    intro ha
    obtain ⟨c1, c2⟩ := hcost ha
    obtain ⟨e1, e2⟩ := evalAll_none key fit (asSet orders.jumped (kept ++ new)) s1.acc c1
    refine ⟨e1, ((List.range kept.length).map (jd mates.length)).countP fun d => d.isSome, ?_, ?_⟩
    · refine List.countP_le_length.trans ?_
      rw [List.length_map, List.length_range, k2]
    · simp only
      rw [e2, c2, ← v2, hperm.countP_eq, List.countP_append, known_countP hkeptsome, hnew, newInds_countP, List.length_map]
      omega
  · rw [if_neg hlt]
    refine ⟨s1, rfl, h2, Or.inr h3, fun ha => ?_⟩
    obtain ⟨c1, c2⟩ := hcost ha
    exact ⟨c1, 0, by omega, by omega⟩

theorem JReach.inv (hS : Usable S) (hp : Closed S.dims) (hm : m ≤ 2 ^ 51) (hfit : ∀ v, (fit v).length = m)
    {s : NState K A} (h : JReach S key fit m k c N s) : NInv S m c N s ∧
      (s.individuals.length = N ∨ s.individuals.length = N + portion round64 c N) := by
  induction h with
  | start archive ha population hn hbox =>
    exact (NReach.start archive ha population hn hbox).inv hS hm hfit
  | step orders ho dm hdm dv hdv jd hjd s s' hs h ih =>
    obtain ⟨t, h1, h2, h3, -⟩ := ih.1.jump (key := key) hS hp hm hfit ho hdm hdv hjd
    obtain rfl : s' = t := Option.some.inj (h.symm.trans h1)
    exact ⟨h2, h3⟩
  | finish iter hiter s s' r hs h ih =>
    obtain ⟨t, r', h1, h2, h3, -⟩ := ih.1.finish (key := key) hS hm hfit hiter
    have := Option.some.inj (h.symm.trans h1)
    injection this with e1 e2
    subst e1
    exact ⟨h2, Or.inl h3⟩

/-- C151: JGBL started in floating point with `N` vectors of floats of a closed box neither fails nor leaves the box, and its
result has `N` vectors. Missing: the other boxes, see `C151_box_violated`. -/
theorem C151_run_partial (hS : Usable S) (hp : Closed S.dims) (hm : m ≤ 2 ^ 51) (hfit : ∀ v, (fit v).length = m)
    (s : NState K A) (h : JReach S key fit m k c N s) :
    (∀ x ∈ s.individuals, FBox S.dims x.v ∧ ∃ f, x.objectives = some f ∧ f.length = m) ∧
    (s.individuals.length = N ∨ s.individuals.length = N + portion round64 c N) ∧
    (∀ orders dm dv jd, Jumping.Orders.Valid orders → (∀ i, MateDraw.Valid N (dm i)) → (∀ i, Draws (dv i)) →
      Jumping.JumpsValid S.dims.length k jd → ∃ s', jgblStep round64 S key fit m orders dm dv jd s = some s') ∧
    ∀ iter : List (Ind (List K) (List K)) → List (Ind (List K) (List K)), (∀ l, (iter l).Perm l) →
      ∃ s' r, nsgaiiFinish round64 S key fit m iter s = some (s', r) ∧ r.length = N ∧ ∀ v ∈ r, FBox S.dims v := by
  obtain ⟨hi, hl⟩ := h.inv hS hp hm hfit
  refine ⟨fun x hx => ⟨hi.box x hx, hi.objs x hx⟩, hl, ?_, ?_⟩
  · intro orders dm dv jd ho hdm hdv hjd
    obtain ⟨s', h1, -⟩ := hi.jump (key := key) hS hp hm hfit ho hdm hdv hjd
    exact ⟨s', h1⟩
  · intro iter hiter
    obtain ⟨s', r, h1, h2, h3, rfl⟩ := hi.finish (key := key) hS hm hfit hiter
    refine ⟨s', _, h1, by rw [List.length_map, h3], ?_⟩
    intro v hv
    obtain ⟨x, hx, rfl⟩ := List.mem_map.1 hv
    exact h2.box x hx

/-- C151: if a generation has at least one offspring, a budget simulation with JGBL in floating point stores a result for
every budget: `N` vectors of floats in the box, at no less than the cost asked for. Missing as above. -/
theorem C151_budget_partial (hS : Usable S) (hp : Closed S.dims) (hm : m ≤ 2 ^ 51) (hfit : ∀ v, (fit v).length = m)
    (hM : 1 ≤ portion round64 c N) (orders : ℕ → Jumping.Orders (Ind (List K) (List K)))
    (ho : ∀ n, (orders n).Valid) (dm : ℕ → ℕ → MateDraw) (hdm : ∀ n i, (dm n i).Valid N)
    (dv : ℕ → ℕ → VarDraw K) (hdv : ∀ n i, Draws (dv n i)) (jd : ℕ → ℕ → ℕ → Option JumpDraw)
    (hjd : ∀ n, Jumping.JumpsValid S.dims.length k (jd n)) (population : List (List K))
    (hn : population.length = N) (hbox : ∀ v ∈ population, FBox S.dims v) (budgets : List ℤ)
    (fuel : ℕ) (hfuel : ∀ b ∈ budgets, b ≤ fuel) :
    ∃ res o', budgetWorker (jgblDriver round64 S key fit m orders dm dv jd) fuel budgets
        ⟨some (0, nsgaiiInit round64 S key fit none c population), 0⟩ = some (res, o') ∧
      res.map (fun r => r.name) = budgets ∧
      ∀ r ∈ res, r.name ≤ r.cost ∧ ∃ p, r.pop = some p ∧ p.length = N ∧ ∀ v ∈ p, FBox S.dims v := by
  refine optDriver_worker (Inv := fun s : NState K A => NInv S m c N s ∧ s.acc.archive = none)
    (P := fun p : List (List K) => p.length = N ∧ ∀ v ∈ p, FBox S.dims v) ?_ budgets ?_ fuel hfuel 0 _
    ⟨((NReach.start none (by simp) population hn hbox).inv hS hm hfit).1, (nsgaiiInit_cost population).1⟩ 0
  · rintro n s ⟨h, ha⟩
    obtain ⟨s', h1, h2, -, h3⟩ := h.jump (key := key) hS hp hm hfit (ho n) (hdm n) (hdv n) (hjd n)
    obtain ⟨h4, j, -, h5⟩ := h3 ha
    exact ⟨s', h1, ⟨h2, h4⟩, by omega⟩
  · rintro n s b - ⟨h, ha⟩ -
    obtain ⟨s', r, h1, h2, h3, rfl⟩ := h.finish (key := key) hS hm hfit (ho n).inner
    obtain ⟨h4, h5⟩ := h.finish_cost ha h1
    refine ⟨s', _, h1, ⟨h2, h4⟩, ⟨by rw [List.length_map, h3], ?_⟩, h5.ge⟩
    intro v hv
    obtain ⟨x, hx, rfl⟩ := List.mem_map.1 hv
    exact h2.box x hx

/-- C151: what the generations of JGBL cost in floating point: `N` evaluations at the start, then the offspring and at most
six evaluations per individual. Missing as above. -/
theorem C151_cost_partial (hS : Usable S) (hp : Closed S.dims) (hm : m ≤ 2 ^ 51) (hfit : ∀ v, (fit v).length = m)
    (orders : ℕ → Jumping.Orders (Ind (List K) (List K)))
    (ho : ∀ n, (orders n).Valid) (dm : ℕ → ℕ → MateDraw) (hdm : ∀ n i, (dm n i).Valid N)
    (dv : ℕ → ℕ → VarDraw K) (hdv : ∀ n i, Draws (dv n i)) (jd : ℕ → ℕ → ℕ → Option JumpDraw)
    (hjd : ∀ n, Jumping.JumpsValid S.dims.length k (jd n)) (population : List (List K))
    (hn : population.length = N) (hbox : ∀ v ∈ population, FBox S.dims v) (n : ℕ) :
    ∃ j ≤ n * N, (jgblDriver round64 S key fit m orders dm dv jd).cost
      ((jgblDriver round64 S key fit m orders dm dv jd).step^[n]
        (some (0, nsgaiiInit round64 S key fit none c population)))
      = ((N + n * portion round64 c N + 6 * j : ℕ) : ℤ) := by
  have key' : ∃ j ≤ n * N, ∃ s : NState K A, (jgblDriver round64 S key fit m orders dm dv jd).step^[n]
      (some (0, nsgaiiInit round64 S key fit none c population)) = some (n, s) ∧ NInv S m c N s ∧
      s.acc.archive = none ∧ s.acc.cost = N + n * portion round64 c N + 6 * j := by
    induction n with
    | zero =>
      refine ⟨0, by omega, _, rfl, ((NReach.start none (by simp) population hn hbox).inv hS hm hfit).1,
        (nsgaiiInit_cost population).1, ?_⟩
      rw [(nsgaiiInit_cost population).2, hn]; omega
    | succ n ih =>
      obtain ⟨j, hj, s, h1, h2, h3, h4⟩ := ih
      obtain ⟨s', h5, h6, -, h7⟩ := h2.jump (key := key) hS hp hm hfit (ho n) (hdm n) (hdv n) (hjd n)
      obtain ⟨h8, i, hi, h9⟩ := h7 h3
      refine ⟨j + i, by rw [Nat.succ_mul]; omega, s', ?_, h6, h8, ?_⟩
      · rw [Function.iterate_succ_apply', h1]
        show (jgblStep round64 S key fit m (orders n) (dm n) (dv n) (jd n) s).map (fun s => (n + 1, s)) = _
        rw [h5]
        rfl
      · rw [h9, h4, Nat.succ_mul n]; omega
  obtain ⟨j, hj, s, h1, -, -, h4⟩ := key'
  refine ⟨j, hj, ?_⟩
  rw [h1]
  show (s.acc.cost : ℤ) = _
  rw [h4]

/-- The boxes of all problems other than UF11 and UF12 are closed. -/
theorem C151_problems (f : List (List ℝ)) (p : Problems.Problem) (hp : p ∈ plainProblems f) : Closed (floatDims p) :=
  (C122_problems f p hp).2

end

/-! ## Examples -/

theorem exSetup_closed : Closed exSetup.dims := by
  unfold Closed
  decide +kernel

/-- The draws of one jump in one dimension. -/
def exJump : JumpDraw := ⟨⟨[0], [0], 0, 0⟩, ⟨[0], [0], 0, 0⟩, 0, ⟨[0], [0], 0, 0⟩, 0, ⟨[0], [0], 0, 0⟩⟩

/-- The individual at position 0 jumps, no other one does. -/
def exJumps (_ i : ℕ) : Option JumpDraw := if i = 0 then some exJump else none

theorem exJumps_valid (n : ℕ) (hn : 1 ≤ n) : Jumping.JumpsValid n 1 exJumps := by
  intro mates i d hm h
  have e : d = exJump := by
    unfold exJumps at h
    split at h
    · exact (Option.some.inj h).symm
    · cases h
  subst e
  simp [exJump, JumpDraw.Ok, PasteDraw.Ok, IsSortedSample]
  omega

/-- Two vectors, both nondominated; the first of them jumps: two evaluations at the start, two for the offspring, six for the
jump. -/
example : (jgblStep round64 exSetup id exFit 2 ⟨id, id, id, id, id⟩ (fun _ => ⟨0, 1, true⟩) (fun _ => exDraw) exJumps
      (nsgaiiInit round64 exSetup id exFit none 1 [[0], [6004799503160661 / 2 ^ 54]])).map
      (fun s => (s.individuals.map fun x => x.v, s.acc.cost, s.nextId))
    = some ([[0], [1501199875790165 / 2 ^ 51]], 10, 10) := by decide +kernel

/-! ## UF11 and UF12 -/

/-- A setup with the box of UF11 and UF12; nothing is crossed or mutated. -/
def rotSetup : Setup ℚ := ⟨fun b _ => min b 1, 1 / 2 ^ 52, rotFloat, 0, 1, 0, 1, id⟩

/-- The first coordinate and its negation: all vectors are nondominated. -/
def rotFit (v : List ℚ) : List ℚ := [v.headD 0, - v.headD 0]

/-- The corner of all lower ends -/
def rotBottom : List ℚ := rotFloat.map Prod.fst

/-- A state in which the run of JGBL below is after its first step. -/
def rotState : Option (NState ℚ (List ℚ)) :=
  jgblStep round64 rotSetup id rotFit 2 ⟨id, id, id, id, id⟩ (fun _ => ⟨0, 1, true⟩) (fun _ => exDraw) exJumps
    (nsgaiiInit round64 rotSetup id rotFit none 1 [rotTop, rotBottom])

theorem rotSetup_usable : Usable rotSetup where
  pow := ⟨fun _ _ h => le_min h zero_le_one, fun _ _ _ _ _ => min_le_right _ _, fun _ _ _ _ => min_le_right _ _⟩
  eps := rfl
  crossEta := by decide +kernel
  mutEta := by decide +kernel
  dims := C122_box_violated.1
  trim _ h := h

/-- What `finalized_population` gives after that step. -/
def rotResult : Option (NState ℚ (List ℚ) × List (List ℚ)) :=
  rotState.bind (nsgaiiFinish round64 rotSetup id rotFit 2 id)

/-- C151 fails in the box of UF11 and UF12: a run of JGBL started with two vectors of floats of the box gives a result with a
vector outside of it after one step. -/
theorem C151_box_violated : Usable rotSetup ∧ ∃ s s' r, JReach rotSetup id rotFit 2 1 1 2 s ∧
    nsgaiiFinish round64 rotSetup id rotFit 2 id s = some (s', r) ∧ ∃ v ∈ r, ¬ InBox v rotFloat := by
  have h0 : rotResult.any (fun p => p.2.any fun v =>
      !decide (List.Forall₂ (fun (a : ℚ) (d : ℚ × ℚ) => d.1 ≤ a ∧ a ≤ d.2) v rotFloat)) = true := by decide +kernel
  refine ⟨rotSetup_usable, ?_⟩
  unfold rotResult at h0
  cases h1 : rotState with
  | none => rw [h1] at h0; cases h0
  | some s =>
    rw [h1, Option.bind_some] at h0
    cases h2 : nsgaiiFinish round64 rotSetup id rotFit 2 id s with
    | none => rw [h2] at h0; cases h0
    | some p =>
      rw [h2, Option.any_some, List.any_eq_true] at h0
      obtain ⟨v, hv, hn⟩ := h0
      refine ⟨s, p.1, p.2, ?_, h2, v, hv, ?_⟩
      · refine .step ⟨id, id, id, id, id⟩ ⟨fun _ => .rfl, fun _ => .rfl, fun _ => .rfl, fun _ => .rfl, fun _ => .rfl⟩
          (fun _ => ⟨0, 1, true⟩) (fun _ => ⟨by decide, by decide⟩) (fun _ => exDraw) (fun _ => exDraw_draws) exJumps
          (exJumps_valid _ (by decide +kernel)) _ s (.start none (by simp) [rotTop, rotBottom] rfl ?_) h1
        intro v hv
        simp only [List.mem_cons, List.not_mem_nil, or_false] at hv
        rcases hv with rfl | rfl
        · exact ⟨rotTop_inBox, C122_box_violated.2.1⟩
        · exact ⟨by unfold InBox; decide +kernel, by unfold Floats; decide +kernel⟩
      · simpa [InBox] using hn

end Evogil.Rounded.Run
