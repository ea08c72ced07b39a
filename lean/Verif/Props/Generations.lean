import Verif.Lemmas.Generations
import Verif.Props.Nsgaii
import Verif.Props.Spea2
import Verif.Props.Ibea
import Verif.Props.Smsemoa
import Verif.Props.Evaluation

/-!
# C94: every generation of NSGA-II, SPEA2, IBEA and SMS-EMOA

Through any number of steps and calls of `finalized_population`, in any order and for all random
draws: no exception, all vectors in the box, the sizes as configured.
-/

set_option linter.unusedSectionVars false

namespace Evogil.Generations

open Evaluation Spec

/-! A small setup for the examples: one coordinate between 0 and 1, `pow(b, e)` replaced by
`min(b, 1)`. -/

/-- The setup of the examples. -/
def exSetup : Setup ℚ := ⟨fun b _ => min b 1, 1 / 100, [(0, 1)], 1, 1, 1, 1, id⟩

theorem exSetup_valid : exSetup.Valid :=
  ⟨⟨fun _ _ h => le_min h zero_le_one, fun _ _ _ _ => min_le_right _ _⟩, by decide +kernel, by decide +kernel,
    by decide +kernel, fun _ h => h⟩

/-- The draws of the examples. -/
def exDraw : VarDraw ℚ := ⟨1 / 2, true, fun _ => ⟨0, 1 / 4, 0⟩, fun _ => ⟨0, 3 / 4⟩⟩

theorem exDraw_valid : exDraw.Valid :=
  ⟨fun _ => (by decide +kernel : (0 : ℚ) ≤ 1 / 4 ∧ (1 / 4 : ℚ) < 1),
    fun _ => (by decide +kernel : (0 : ℚ) ≤ 3 / 4 ∧ (3 / 4 : ℚ) ≤ 1)⟩

/-- Two objectives: `x` and `1 - x`. -/
def exFit (v : List ℚ) : List ℚ := [v.sum, 1 - v.sum]

section nsgaii
variable {K : Type*} [Field K] [LinearOrder K] [IsStrictOrderedRing K] [FloorSemiring K]
  {A : Type*} [DecidableEq A]

/-- The states of an NSGA-II driver started with `N` vectors in the box: after the constructor,
and after any sequence of steps and calls of `finalized_population`, whatever is drawn and in
whatever order the sets are iterated. The fitness archive, if any, holds vectors of `m` values. -/
inductive NReach (S : Setup K) (key : List K → A) (fit : List K → List K) (m : ℕ) (c : K) (N : ℕ) :
    NState K A → Prop
  | start (archive : Option (Archive A (List K)))
      (ha : ∀ a, archive = some a → ∀ k f, a k = some f → f.length = m)
      (population : List (List K)) (hn : population.length = N)
      (hbox : ∀ v ∈ population, InBox v S.dims) :
      NReach S key fit m c N (nsgaiiInit S key fit archive c population)
  | step (iter : List (Ind (List K) (List K)) → List (Ind (List K) (List K)))
      (hiter : ∀ l, (iter l).Perm l) (dm : ℕ → MateDraw) (hdm : ∀ i, (dm i).Valid N)
      (dv : ℕ → VarDraw K) (hdv : ∀ i, (dv i).Valid) (s s' : NState K A)
      (hs : NReach S key fit m c N s) (h : nsgaiiStep S key fit m iter dm dv s = some s') :
      NReach S key fit m c N s'
  | finish (iter : List (Ind (List K) (List K)) → List (Ind (List K) (List K)))
      (hiter : ∀ l, (iter l).Perm l) (s s' : NState K A) (r : List (List K))
      (hs : NReach S key fit m c N s) (h : nsgaiiFinish S key fit m iter s = some (s', r)) :
      NReach S key fit m c N s'

/-- The invariant behind C94 for NSGA-II. -/
structure NInv (S : Setup K) (m : ℕ) (c : K) (N : ℕ) (s : NState K A) : Prop where
  size : s.popSize = N
  mating : s.matingSize = ⌊c * (N : K)⌋₊
  ids : Ids s.nextId (s.individuals.map fun x => x.id)
  large : N ≤ s.individuals.length
  box : ∀ x ∈ s.individuals, InBox x.v S.dims
  objs : ∀ x ∈ s.individuals, ∃ f, x.objectives = some f ∧ f.length = m
  arch : ∀ a, s.acc.archive = some a → ∀ k f, a k = some f → f.length = m

theorem nsgaiiSelect_spec {iter : List (Ind (List K) (List K)) → List (Ind (List K) (List K))}
    (hiter : ∀ l, (iter l).Perm l) (eps : K) (m size : ℕ) {pop : List (Ind (List K) (List K))}
    (hp : pop.Nodup) :
    ∃ kept fitness, nsgaiiSelect iter eps m size pop = some (kept, fitness) ∧
      kept.length = min size pop.length ∧ kept.Subperm pop := by
  obtain ⟨kept, lost, h1, h2, h3, -⟩ :=
    Nsgaii.C23_elitist iter hiter eps (objFns m) size pop hp pop.length le_rfl
  unfold Nsgaii.select at h1
  unfold nsgaiiSelect
  cases hf : ndSort iter (nsgaiiDom fun x => (objFns m).map (fun o => o x)) pop.length pop with
  | none => rw [hf] at h1; simp at h1
  | some fronts =>
    rw [hf] at h1
    simp only [Option.some.injEq] at h1
    refine ⟨kept, _, by simp only [h1]; rfl, h2, ?_⟩
    exact (List.sublist_append_left kept lost).subperm.trans h3.subperm

theorem nsgaiiBetter_or {ι κ : Type*} [LT κ] [DecidableRel (α := κ) (· < ·)] (fit : ι → κ) (c : Bool)
    (x y : ι) : nsgaiiBetter fit c x y = x ∨ nsgaiiBetter fit c x y = y := by
  unfold nsgaiiBetter
  split_ifs <;> simp

theorem NInv.nodup {S : Setup K} {m : ℕ} {c : K} {N : ℕ} {s : NState K A} (h : NInv S m c N s) :
    s.individuals.Nodup := h.ids.1.of_map _

variable {S : Setup K} {key : List K → A} {fit : List K → List K} {m : ℕ} {c : K} {N : ℕ}

/-- Evaluation turns a list of individuals, the known ones of which have `m` objectives, into a
list satisfying the invariant. -/
theorem NInv.eval (hfit : ∀ v, (fit v).length = m) (s : NState K A)
    (inds : List (Ind (List K) (List K)))
    (ha : ∀ a, s.acc.archive = some a → ∀ k f, a k = some f → f.length = m) (hsize : s.popSize = N)
    (hmating : s.matingSize = ⌊c * (N : K)⌋₊) (next : ℕ)
    (hids : Ids next (inds.map fun x => x.id)) (hlarge : N ≤ inds.length)
    (hbox : ∀ x ∈ inds, InBox x.v S.dims)
    (hobj : ∀ x ∈ inds, ∀ f, x.objectives = some f → f.length = m) :
    NInv S m c N { s with
      individuals := (evalAll key fit s.acc inds).2
      acc := (evalAll key fit s.acc inds).1
      nextId := next } ∧
    (evalAll key fit s.acc inds).2.length = inds.length := by
  obtain ⟨h1, h2, h3, h4⟩ := evalAll_keeps key fit (fun f => f.length = m) hfit inds s.acc ha hobj
  have hlen : (evalAll key fit s.acc inds).2.length = inds.length := by
    have := congrArg List.length h1
    simpa using this
  refine ⟨⟨hsize, hmating, by rw [h1]; exact hids, by rw [hlen]; exact hlarge, ?_, h3, h4⟩, hlen⟩
  intro x hx
  have : x.v ∈ (evalAll key fit s.acc inds).2.map (fun i => i.v) := List.mem_map_of_mem hx
  rw [h2] at this
  obtain ⟨y, hy, e⟩ := List.mem_map.1 this
  rw [← e]
  exact hbox y hy

/-- One step from a state satisfying the invariant. -/
theorem NInv.step (hS : S.Valid) (hfit : ∀ v, (fit v).length = m)
    {iter : List (Ind (List K) (List K)) → List (Ind (List K) (List K))}
    (hiter : ∀ l, (iter l).Perm l) {dm : ℕ → MateDraw} (hdm : ∀ i, (dm i).Valid N)
    {dv : ℕ → VarDraw K} (hdv : ∀ i, (dv i).Valid) {s : NState K A} (h : NInv S m c N s) :
    ∃ s', nsgaiiStep S key fit m iter dm dv s = some s' ∧ NInv S m c N s' ∧
      s'.individuals.length = N + ⌊c * (N : K)⌋₊ := by
  obtain ⟨kept, fitness, h1, h2, h3⟩ := nsgaiiSelect_spec hiter S.eps m s.popSize h.nodup
  rw [h.size, min_eq_left h.large] at h2
  have hmem : ∀ x ∈ kept, x ∈ s.individuals := fun x hx => h3.subset hx
  obtain ⟨vs, h4, h5, h6⟩ := offspring_box hS (nsgaiiBetter fitness) (nsgaiiBetter_or fitness)
    (fun x => x.v) (dm := dm) (dv := dv) (individuals := kept) (by rw [h2]; exact hdm) hdv
    (fun x hx => h.box x (hmem x hx)) s.matingSize
  have hids : Ids (s.nextId + vs.length)
      ((kept ++ newInds s.nextId vs).map fun x => x.id) := by
    rw [List.map_append, newInds_id]
    exact (h.ids.of_subperm (subperm_map _ h3)).append_range'
  obtain ⟨h7, h8⟩ := NInv.eval (S := S) (key := key) (c := c) (N := N) hfit s
    (kept ++ newInds s.nextId vs) h.arch h.size h.mating (s.nextId + vs.length) hids
    (by rw [List.length_append, h2]; omega) (by
      intro x hx
      rcases List.mem_append.1 hx with hx | hx
      · exact h.box x (hmem x hx)
      · exact h6 _ (newInds_none _ _ _ hx).2) (by
      intro x hx f hf
      rcases List.mem_append.1 hx with hx | hx
      · obtain ⟨g, hg, hl⟩ := h.objs x (hmem x hx)
        obtain rfl : f = g := Option.some.inj (hf.symm.trans hg)
        exact hl
      · rw [(newInds_none _ _ _ hx).1] at hf; cases hf)
  refine ⟨_, by simp only [nsgaiiStep, h1, h4], h7, ?_⟩
  show (evalAll key fit s.acc (kept ++ newInds s.nextId vs)).2.length = _
  rw [h8, List.length_append, newInds_length, h2, h5, h.mating]

/-- `finalized_population` from a state satisfying the invariant. -/
theorem NInv.finish (hfit : ∀ v, (fit v).length = m)
    {iter : List (Ind (List K) (List K)) → List (Ind (List K) (List K))}
    (hiter : ∀ l, (iter l).Perm l) {s : NState K A} (h : NInv S m c N s) :
    ∃ s' r, nsgaiiFinish S key fit m iter s = some (s', r) ∧ NInv S m c N s' ∧
      s'.individuals.length = N ∧ r = s'.individuals.map fun x => x.v := by
  obtain ⟨h7, h8⟩ := NInv.eval (S := S) (key := key) (c := c) (N := N) hfit s s.individuals h.arch
    h.size h.mating s.nextId h.ids h.large h.box (by
      intro x hx f hf
      obtain ⟨g, hg, hl⟩ := h.objs x hx
      obtain rfl : f = g := Option.some.inj (hf.symm.trans hg)
      exact hl)
  obtain ⟨kept, fitness, h1, h2, h3⟩ := nsgaiiSelect_spec hiter S.eps m s.popSize h7.nodup
  have hl : N ≤ (evalAll key fit s.acc s.individuals).2.length := by rw [h8]; exact h.large
  rw [h.size] at h2
  simp only [min_eq_left hl] at h2
  refine ⟨{ s with individuals := kept, acc := (evalAll key fit s.acc s.individuals).1 },
    kept.map fun x => x.v, ?_, ?_, h2, rfl⟩
  · simp only [nsgaiiFinish]
    simp only at h1
    simp only [h1]
  · exact ⟨h.size, h.mating, h7.ids.of_subperm (subperm_map _ h3), h2.ge,
      fun x hx => h7.box x (h3.subset hx), fun x hx => h7.objs x (h3.subset hx), h7.arch⟩

theorem NReach.inv (hS : S.Valid) (hfit : ∀ v, (fit v).length = m) {s : NState K A}
    (h : NReach S key fit m c N s) : NInv S m c N s ∧
      (s.individuals.length = N ∨ s.individuals.length = N + ⌊c * (N : K)⌋₊) := by
  induction h with
  | start archive ha population hn hbox =>
    have hl : (newInds 0 (population.map S.trim)).length = N := by
      rw [newInds_length, List.length_map, hn]
    obtain ⟨h1, h2⟩ := NInv.eval (S := S) (key := key) (c := c) (N := N) hfit
      ⟨[], ⟨0, archive, []⟩, N, ⌊c * (N : K)⌋₊, 0⟩ (newInds 0 (population.map S.trim)) ha rfl rfl N
      (by
        rw [newInds_id, List.length_map, hn]
        have := Ids.append_range' (next := 0) (n := N) (l := []) ⟨List.nodup_nil, by simp⟩
        simpa using this) hl.ge (by
        intro x hx
        obtain ⟨v, hv, e⟩ := List.mem_map.1 (newInds_none _ _ _ hx).2
        rw [← e]
        exact hS.trim v (hbox v hv)) (by
        intro x hx f hf
        rw [(newInds_none _ _ _ hx).1] at hf; cases hf)
    have e : nsgaiiInit S key fit archive c population =
        ⟨(evalAll key fit ⟨0, archive, []⟩ (newInds 0 (population.map S.trim))).2,
          (evalAll key fit ⟨0, archive, []⟩ (newInds 0 (population.map S.trim))).1, N,
          ⌊c * (N : K)⌋₊, N⟩ := by
      simp only [nsgaiiInit, hl]
    rw [e]
    exact ⟨h1, Or.inl (h2.trans hl)⟩
  | step iter hiter dm hdm dv hdv s s' hs h ih =>
    obtain ⟨t, ht, h1, h2⟩ := NInv.step hS (key := key) hfit hiter hdm hdv ih.1
    obtain rfl : s' = t := Option.some.inj (h.symm.trans ht)
    exact ⟨h1, Or.inr h2⟩
  | finish iter hiter s s' r hs h ih =>
    obtain ⟨t, r', ht, h1, h2, -⟩ := NInv.finish (key := key) hfit hiter ih.1
    have := Option.some.inj (h.symm.trans ht)
    injection this with e1 e2
    subst e1
    exact ⟨h1, Or.inl h2⟩

/-- **C94 for NSGA-II.** In every reachable state all vectors are in the box and evaluated, there
are `N` of them or, after a step, `N` and the offspring; no further step raises; and
`finalized_population` returns `N` vectors of the box. -/
theorem C94_nsgaii (hS : S.Valid) (hfit : ∀ v, (fit v).length = m) (s : NState K A)
    (h : NReach S key fit m c N s) :
    (∀ x ∈ s.individuals, InBox x.v S.dims ∧ ∃ f, x.objectives = some f ∧ f.length = m) ∧
    (s.individuals.length = N ∨ s.individuals.length = N + ⌊c * (N : K)⌋₊) ∧
    (∀ iter : List (Ind (List K) (List K)) → List (Ind (List K) (List K)),
      (∀ l, (iter l).Perm l) →
      (∀ dm dv, (∀ i, MateDraw.Valid N (dm i)) → (∀ i, VarDraw.Valid (dv i)) →
        ∃ s', nsgaiiStep S key fit m iter dm dv s = some s' ∧
          s'.individuals.length = N + ⌊c * (N : K)⌋₊) ∧
      ∃ s' r, nsgaiiFinish S key fit m iter s = some (s', r) ∧ r.length = N ∧
        ∀ v ∈ r, InBox v S.dims) := by
  obtain ⟨hi, hl⟩ := h.inv hS hfit
  refine ⟨fun x hx => ⟨hi.box x hx, hi.objs x hx⟩, hl, fun iter hiter => ⟨?_, ?_⟩⟩
  · intro dm dv hdm hdv
    obtain ⟨s', h1, -, h2⟩ := hi.step hS hfit hiter hdm hdv
    exact ⟨s', h1, h2⟩
  · obtain ⟨s', r, h1, h2, h3, rfl⟩ := hi.finish (key := key) hfit hiter
    refine ⟨s', _, h1, by rw [List.length_map, h3], ?_⟩
    intro v hv
    obtain ⟨x, hx, rfl⟩ := List.mem_map.1 hv
    exact h2.box x hx

/-- Two vectors, as many offspring: four individuals after a step, two in the result. -/
example : (nsgaiiStep exSetup id exFit 2 id (fun _ => ⟨0, 1, true⟩) (fun _ => exDraw)
      (nsgaiiInit exSetup id exFit none 1 [[0], [1 / 2]])).map (fun s => s.individuals.map fun x => x.v)
      = some [[0], [1 / 2], [151 / 202], [151 / 202]] ∧
    ((nsgaiiStep exSetup id exFit 2 id (fun _ => ⟨0, 1, true⟩) (fun _ => exDraw)
      (nsgaiiInit exSetup id exFit none 1 [[0], [1 / 2]])).bind fun s =>
        (nsgaiiFinish exSetup id exFit 2 id s).map Prod.snd) = some [[0], [151 / 202]] := by
  decide +kernel

example : NReach exSetup id exFit 2 1 2 (nsgaiiInit exSetup id exFit none 1 [[0], [1 / 2]]) :=
  .start none (by simp) _ rfl (by
    intro v hv
    simp only [List.mem_cons, List.not_mem_nil, or_false] at hv
    rcases hv with rfl | rfl <;>
      exact List.Forall₂.cons ⟨by decide +kernel, by decide +kernel⟩ List.Forall₂.nil)

end nsgaii

/-! ## SPEA2 -/

section spea2
variable {K : Type*} [Field K] [LinearOrder K] [IsStrictOrderedRing K] {A : Type*}

/-- Two different positions in a list of `n` elements, as drawn by `random.sample`. -/
def PairDraw (n : ℕ) (t : ℕ × ℕ) : Prop := t.1 ≠ t.2 ∧ t.1 < n ∧ t.2 < n

/-- The states of an SPEA2 driver started with `N` vectors in the box. The fitness archive may be
changed by others between the steps; it holds vectors of `m` values. -/
inductive SReach (S : Setup K) (dist : List K → List K → K) (key : List K → A)
    (fit : List K → List K) (m N : ℕ) : SState K → Prop
  | start (population : List (List K)) (hn : population.length = N)
      (hbox : ∀ v ∈ population, InBox v S.dims) : SReach S dist key fit m N (spea2Init S population)
  | step (fa : Option (Archive A (List K)))
      (ha : ∀ a, fa = some a → ∀ k f, a k = some f → f.length = m)
      (dt : ℕ → (ℕ × ℕ) × (ℕ × ℕ)) (hdt : ∀ i, PairDraw N (dt i).1 ∧ PairDraw N (dt i).2)
      (dv : ℕ → VarDraw K) (hdv : ∀ i, (dv i).Valid) (s s' : SState K)
      (hs : SReach S dist key fit m N s) (h : spea2Step S dist key fit fa dt dv s = some s') :
      SReach S dist key fit m N s'

/-- The invariant behind C94 for SPEA2. -/
structure SInv (S : Setup K) (m N : ℕ) (s : SState K) : Prop where
  size : s.archiveSize = N
  inds : s.individuals.length = N
  ibox : ∀ x ∈ s.individuals, InBox x.v S.dims
  arch : s.archive = [] ∨ s.archive.length = N
  abox : ∀ x ∈ s.archive, InBox x.v S.dims ∧ ∃ f, x.objectives = some f ∧ f.length = m

/-- The objectives given by the evaluations without memo have the right length. -/
theorem chargeAll_lengths (key : List K → A) (fit : List K → List K)
    (fa : Option (Archive A (List K))) (size m : ℕ) (hfit : ∀ v, (fit v).length = m)
    (ha : ∀ a, fa = some a → ∀ k f, a k = some f → f.length = m) (pop : List (List K)) :
    (chargeAll key fit fa size pop).2.2.length = pop.length ∧
      ∀ f ∈ (chargeAll key fit fa size pop).2.2, f.length = m := by
  unfold chargeAll
  induction pop using List.reverseRecOn with
  | nil => simp
  | append_singleton pop v ih =>
    rw [List.foldl_append, List.foldl_cons, List.foldl_nil]
    revert ih
    generalize List.foldl (chargeStep key fit fa size) (0, [], []) pop = st
    intro ih
    unfold chargeStep
    cases hq : fa.bind fun a => a (key v) with
    | none =>
      refine ⟨by simp [ih.1], ?_⟩
      intro f hf
      rcases List.mem_append.1 hf with hf | hf
      · exact ih.2 f hf
      · rw [List.mem_singleton.1 hf]; exact hfit v
    | some g =>
      refine ⟨by simp [ih.1], ?_⟩
      intro f hf
      rcases List.mem_append.1 hf with hf | hf
      · exact ih.2 f hf
      · rw [List.mem_singleton.1 hf]
        cases fa with
        | none => simp at hq
        | some a => exact ha a rfl _ _ hq

theorem zipWith_eval {pop : List (Ind (List K) (List K))} {os : List (List K)} {m : ℕ}
    (hl : os.length = pop.length) (hos : ∀ f ∈ os, f.length = m) :
    (pop.zipWith (fun x o => { x with objectives := some o }) os).length = pop.length ∧
    (pop.zipWith (fun x o => { x with objectives := some o }) os).map (fun x => x.v)
      = pop.map (fun x => x.v) ∧
    (pop.zipWith (fun x o => { x with objectives := some o }) os).map (fun x => x.id)
      = pop.map (fun x => x.id) ∧
    ∀ x ∈ pop.zipWith (fun x o => { x with objectives := some o }) os,
      ∃ f, x.objectives = some f ∧ f.length = m := by
  induction pop generalizing os with
  | nil => simp
  | cons x pop ih =>
    cases os with
    | nil => simp at hl
    | cons o os =>
      obtain ⟨h1, h2, h3, h4⟩ := ih (os := os) (by simpa using hl)
        (fun f hf => hos f (List.mem_cons_of_mem _ hf))
      simp only [List.zipWith_cons_cons, List.length_cons, List.map_cons, h1, h2, h3, true_and]
      intro y hy
      rcases List.mem_cons.1 hy with rfl | hy
      · exact ⟨o, rfl, hos o (by simp)⟩
      · exact h4 y hy

theorem spea2_select_mem {ι : Type*} {fit : ι → K} {pool : List ι} {t : ℕ × ℕ}
    (ht : PairDraw pool.length t) : ∃ x ∈ pool, Spea2.select fit pool t.1 t.2 = some x := by
  obtain ⟨h1, h2, h3⟩ := ht
  unfold Spea2.select
  rw [if_neg h1, List.getElem?_eq_getElem h2, List.getElem?_eq_getElem h3]
  refine ⟨_, ?_, rfl⟩
  unfold Spea2.tournament
  split_ifs <;> exact List.getElem_mem _

variable {S : Setup K} {dist : List K → List K → K} {key : List K → A} {fit : List K → List K}
  {m N : ℕ}

theorem SInv.step (hS : S.Valid) (hdist : ∀ a b, 0 ≤ dist a b) (hfit : ∀ v, (fit v).length = m)
    (hN : 2 ≤ N) {fa : Option (Archive A (List K))}
    (ha : ∀ a, fa = some a → ∀ k f, a k = some f → f.length = m)
    {dt : ℕ → (ℕ × ℕ) × (ℕ × ℕ)} (hdt : ∀ i, PairDraw N (dt i).1 ∧ PairDraw N (dt i).2)
    {dv : ℕ → VarDraw K} (hdv : ∀ i, (dv i).Valid) {s : SState K} (h : SInv S m N s) :
    ∃ s', spea2Step S dist key fit fa dt dv s = some s' ∧ SInv S m N s' ∧ s'.archive.length = N := by
  obtain ⟨c1, c2⟩ := chargeAll_lengths key fit fa s.individuals.length m hfit ha
    (s.individuals.map fun x => x.v)
  rw [List.length_map] at c1
  obtain ⟨e1, e2, -, e4⟩ := zipWith_eval c1 c2
  set ev := spea2Eval key fit fa s.individuals with hev
  have hel : ev.2.length = N := e1.trans h.inds
  have hebox : ∀ x ∈ ev.2, InBox x.v S.dims := by
    intro x hx
    have : x.v ∈ ev.2.map (fun x => x.v) := List.mem_map_of_mem hx
    rw [show ev.2.map (fun x => x.v) = s.individuals.map (fun x => x.v) from e2] at this
    obtain ⟨y, hy, e⟩ := List.mem_map.1 this
    rw [← e]; exact h.ibox y hy
  have heobj : ∀ x ∈ ev.2, ∃ f, x.objectives = some f ∧ f.length = m := e4
  have hall : ∀ x ∈ s.archive ++ ev.2, InBox x.v S.dims ∧ ∃ f, x.objectives = some f ∧ f.length = m := by
    intro x hx
    rcases List.mem_append.1 hx with hx | hx
    · exact h.abox x hx
    · exact ⟨hebox x hx, heobj x hx⟩
  have hlen : ∀ x ∈ s.archive ++ ev.2, (objsOf x).length = m := by
    intro x hx
    obtain ⟨-, f, hf, hl⟩ := hall x hx
    rw [objsOf, hf]; exact hl
  have htwo : 2 ≤ (s.archive ++ ev.2).length := by rw [List.length_append]; omega
  obtain ⟨fs, hfs, -, -⟩ := mapM_total (P := fun _ : K => True)
    (f := Spea2.fitness dist objsOf (s.archive ++ ev.2)) (s.archive ++ ev.2) (by
      intro x hx
      obtain ⟨f, d, h1, -⟩ := Spea2.C24_fitness hdist m objsOf (s.archive ++ ev.2) hlen htwo x hx
      exact ⟨f, h1, trivial⟩)
  set fitness : Ind (List K) (List K) → K :=
    fun x => (Spea2.fitness dist objsOf (s.archive ++ ev.2) x).getD 0 with hfitness
  obtain ⟨kept, lost, k1, k2, k3, -⟩ := Spea2.C25_step
    (same := sameDict (s.archive ++ ev.2) fitness) (by intro x; simp [sameDict]) hdist m objsOf
    s.archiveSize ev.2 s.archive hlen htwo fitness (by
      intro x hx
      obtain ⟨f, d, h1, -⟩ := Spea2.C24_fitness hdist m objsOf (s.archive ++ ev.2) hlen htwo x hx
      rw [h1, hfitness]; simp only [h1, Option.getD_some]) (s.archive ++ ev.2).length le_rfl
  have hkl : kept.length = N := by
    rw [k2, h.size, List.length_append, hel]; omega
  have hkmem : ∀ x ∈ kept, x ∈ s.archive ++ ev.2 := fun x hx =>
    k3.mem_iff.1 (List.mem_append_left _ hx)
  obtain ⟨vs, v1, v2, v3⟩ := mapM_total (P := fun v => InBox v S.dims)
    (f := fun i => spea2Child S fitness kept (dt i) (dv i)) (List.range ev.2.length) (by
      intro i _
      obtain ⟨x, hx, hx'⟩ := spea2_select_mem (fit := fitness) (pool := kept) (t := (dt i).1)
        (by rw [hkl]; exact (hdt i).1)
      obtain ⟨y, hy, hy'⟩ := spea2_select_mem (fit := fitness) (pool := kept) (t := (dt i).2)
        (by rw [hkl]; exact (hdt i).2)
      obtain ⟨c, hc, hcb⟩ := makeChild_box hS (hdv i) (hall x (hkmem x hx)).1 (hall y (hkmem y hy)).1
      exact ⟨c, by simp only [spea2Child, hx', hy', hc], hcb⟩)
  rw [List.length_range, hel] at v2
  refine ⟨⟨newInds s.nextId vs, kept, s.archiveSize, s.cost + ev.1, s.nextId + vs.length⟩, ?_, ?_, hkl⟩
  · simp only [spea2Step, ← hev, hfs, ← hfitness, k1, v1]
  · refine ⟨h.size, by rw [newInds_length, v2], ?_, Or.inr hkl, fun x hx => hall x (hkmem x hx)⟩
    intro x hx
    exact v3 _ (newInds_none _ _ _ hx).2

theorem SReach.inv (hS : S.Valid) (hdist : ∀ a b, 0 ≤ dist a b) (hfit : ∀ v, (fit v).length = m)
    (hN : 2 ≤ N) {s : SState K} (h : SReach S dist key fit m N s) : SInv S m N s := by
  induction h with
  | start population hn hbox =>
    refine ⟨hn, by simp [spea2Init, newInds_length, hn], ?_, Or.inl rfl, by simp [spea2Init]⟩
    intro x hx
    obtain ⟨v, hv, e⟩ := List.mem_map.1 (newInds_none _ _ _ hx).2
    rw [← e]
    exact hS.trim v (hbox v hv)
  | step fa ha dt hdt dv hdv s s' hs h ih =>
    obtain ⟨t, ht, h1, -⟩ := ih.step hS hdist hfit hN ha hdt hdv
    obtain rfl : s' = t := Option.some.inj (h.symm.trans ht)
    exact h1

/-- **C94 for SPEA2** with at least two individuals. In every reachable state there are `N`
individuals in the box; the archive, which `finalized_population` returns, is in the box; no
further step raises, and after it the archive has exactly `N` members. -/
theorem C94_spea2 (hS : S.Valid) (hdist : ∀ a b, 0 ≤ dist a b) (hfit : ∀ v, (fit v).length = m)
    (hN : 2 ≤ N) (s : SState K) (h : SReach S dist key fit m N s) :
    s.individuals.length = N ∧ (∀ x ∈ s.individuals, InBox x.v S.dims) ∧
    (∀ v ∈ spea2Final s, InBox v S.dims) ∧
    ∀ (fa : Option (Archive A (List K))),
      (∀ a, fa = some a → ∀ k f, a k = some f → f.length = m) →
      ∀ dt dv, (∀ i, PairDraw N (dt i).1 ∧ PairDraw N (dt i).2) → (∀ i, VarDraw.Valid (dv i)) →
        ∃ s', spea2Step S dist key fit fa dt dv s = some s' ∧ (spea2Final s').length = N ∧
          ∀ v ∈ spea2Final s', InBox v S.dims := by
  have hi := h.inv hS hdist hfit hN
  have hfinal : ∀ s : SState K, SInv S m N s → ∀ v ∈ spea2Final s, InBox v S.dims := by
    intro s hi v hv
    obtain ⟨x, hx, rfl⟩ := List.mem_map.1 hv
    exact (hi.abox x hx).1
  refine ⟨hi.inds, hi.ibox, hfinal s hi, ?_⟩
  intro fa ha dt dv hdt hdv
  obtain ⟨s', h1, h2, h3⟩ := hi.step hS hdist hfit hN ha hdt hdv
  exact ⟨s', h1, by rw [spea2Final, List.length_map, h3], hfinal s' h2⟩

/-- A single individual is not enough for SPEA2: the first step raises, whatever is drawn. -/
theorem C94_spea2_single (S : Setup K) (dist : List K → List K → K) (key : List K → A)
    (fit : List K → List K) (fa : Option (Archive A (List K))) (v : List K)
    (dt : ℕ → (ℕ × ℕ) × (ℕ × ℕ)) (dv : ℕ → VarDraw K) :
    spea2Step S dist key fit fa dt dv (spea2Init S [v]) = none := by
  have h : ∀ x : Ind (List K) (List K), Spea2.fitness dist objsOf [x] x = none := by
    intro x
    unfold Spea2.fitness Spea2.density
    have : (pySorted id (List.map (fun p2 => dist (objsOf x) (objsOf p2)) [x])).length = 1 := by
      rw [pySorted_length]; rfl
    simp only [List.length_singleton, Nat.sqrt_one]
    rw [List.getElem?_eq_none (by omega)]
  have e : ∃ x, (spea2Eval key fit fa (spea2Init S [v]).individuals).2 = [x] := by
    unfold spea2Eval spea2Init newInds chargeAll chargeStep
    simp only [List.map_cons, List.map_nil, List.zipIdx_cons, List.zipIdx_nil, List.foldl_cons,
      List.foldl_nil]
    cases fa.bind fun a => a (key (S.trim v)) <;> exact ⟨_, rfl⟩
  obtain ⟨x, hx⟩ := e
  unfold spea2Step
  simp only [hx]
  simp [spea2Init, h]

/-- Two individuals: the archive takes both, two new ones are made. -/
example : (spea2Step exSetup (fun a b => |a.sum - b.sum|) id exFit none
      (fun _ => ((0, 1), (1, 0))) (fun _ => exDraw) (spea2Init exSetup [[0], [1 / 2]])).map
      (fun s => (spea2Final s, s.individuals.map fun x => x.v, s.cost))
    = some ([[0], [1 / 2]], [[953 / 1616], [953 / 1616]], 2) := by decide +kernel

end spea2

/-! ## IBEA -/

section ibea
variable {K : Type*} [Field K] [LinearOrder K] [IsStrictOrderedRing K] [FloorSemiring K]

/-- The states of an IBEA driver started with `N` vectors in the box. What the fitness archive
contains is only looked at for the cost. -/
inductive IReach (S : Setup K) (ex : K → K) (kappa : K) (objectives : List (List K → K)) (c : K)
    (N : ℕ) : IState K → Prop
  | start (population : List (List K)) (hn : population.length = N)
      (hbox : ∀ v ∈ population, InBox v S.dims) (s : IState K)
      (h : ibeaInit S objectives c population = some s) : IReach S ex kappa objectives c N s
  | step (inArchive : List K → Bool) (hasArchive : Bool) (dm : ℕ → MateDraw)
      (hdm : ∀ i, (dm i).Valid N) (dv : ℕ → VarDraw K) (hdv : ∀ i, (dv i).Valid) (s s' : IState K)
      (hs : IReach S ex kappa objectives c N s)
      (h : ibeaStep S ex kappa objectives inArchive hasArchive dm dv s = some s') :
      IReach S ex kappa objectives c N s'
  | finish (inArchive : List K → Bool) (hasArchive : Bool) (s s' : IState K) (r : List (List K))
      (hs : IReach S ex kappa objectives c N s)
      (h : ibeaFinish S ex kappa objectives inArchive hasArchive s = some (s', r)) :
      IReach S ex kappa objectives c N s'

/-- The invariant behind C94 for IBEA. -/
structure IInv (S : Setup K) (c : K) (N : ℕ) (s : IState K) : Prop where
  size : s.popSize = N
  mating : s.matingSize = ⌊c * (N : K)⌋₊
  ids : Ids s.nextId (s.individuals.map fun x => x.id)
  large : N ≤ s.individuals.length
  box : ∀ x ∈ s.individuals, InBox x.v S.dims

theorem newIInds_length (next : ℕ) (vs : List (List K)) :
    (newIInds next vs).length = vs.length := by simp [newIInds]

theorem newIInds_mem (next : ℕ) (vs : List (List K)) (x : IInd K) (hx : x ∈ newIInds next vs) :
    x.v ∈ vs ∧ x.known = false := by
  obtain ⟨p, hp, rfl⟩ := List.mem_map.1 hx
  exact ⟨List.mem_of_getElem? (List.mem_zipIdx_iff_getElem?.1 hp), rfl⟩

theorem newIInds_id (next : ℕ) (vs : List (List K)) :
    (newIInds next vs).map (fun x => x.id) = List.range' next vs.length := by
  rw [← newInds_id]
  unfold newIInds newInds
  rw [List.map_map, List.map_map]
  rfl

theorem ibeaScale_spec (eps : K) (objectives : List (List K → K)) (inArchive : List K → Bool)
    (hasArchive : Bool) (s : IState K) (hne : s.individuals ≠ []) :
    ∃ scaled, ibeaScale eps objectives inArchive hasArchive s = some { s with
      individuals := s.individuals.map fun x => { x with known := true }
      cost := s.cost +
        ibeaCharge inArchive hasArchive (s.individuals.map fun x => (x.v, x.known))
      scaled := scaled } := by
  unfold ibeaScale
  have hi : ∀ o : IInd K → K,
      (s.individuals.map fun x => { x with known := true }).map o ≠ [] := by
    intro o h
    rw [List.map_eq_nil_iff, List.map_eq_nil_iff] at h
    exact hne h
  obtain ⟨scaled, hs, -⟩ := mapM_total (P := fun _ : IInd K → K => True)
    (f := fun o : IInd K → K =>
      match pyMin ((s.individuals.map fun x => { x with known := true }).map o),
        pyMax ((s.individuals.map fun x => { x with known := true }).map o) with
      | some minO, some maxO => some (Ibea.scale eps o minO maxO)
      | _, _ => none) (objectives.map fun o (x : IInd K) => o x.v) (by
    intro o _
    obtain ⟨a, ha⟩ := Option.isSome_iff_exists.1 (pyMin_isSome.2 (hi o))
    obtain ⟨b, hb⟩ := Option.isSome_iff_exists.1 (pyMax_isSome.2 (hi o))
    exact ⟨_, by rw [ha, hb], trivial⟩)
  have hs' : Ibea.scaledObjectives eps (objectives.map fun o (x : IInd K) => o x.v)
      (s.individuals.map fun x => { x with known := true }) = some scaled := hs
  exact ⟨scaled, by simp only [hs']⟩

theorem IInv.known {S : Setup K} {c : K} {N : ℕ} {s : IState K} (h : IInv S c N s)
    (cost : ℕ) (scaled : List (IInd K → K)) : IInv S c N { s with
      individuals := s.individuals.map fun x => { x with known := true }
      cost := cost
      scaled := scaled } := by
  refine ⟨h.size, h.mating, ?_, ?_, ?_⟩
  · rw [List.map_map]; exact h.ids
  · simp only [List.length_map]; exact h.large
  · intro x hx
    obtain ⟨y, hy, rfl⟩ := List.mem_map.1 hx
    exact h.box y hy

theorem IInv.select {S : Setup K} {c : K} {N : ℕ} {s : IState K} (h : IInv S c N s) (hN : 1 ≤ N)
    (ex : K → K) (eps kappa : K) (scaled : List (IInd K → K)) :
    ∃ kept fitness, Ibea.select ex eps kappa scaled s.popSize s.individuals.length s.individuals
        = some (kept, fitness) ∧ kept.length = N ∧ kept.Subperm s.individuals := by
  have hne : s.individuals ≠ [] := by
    intro e
    have := h.large
    rw [e, List.length_nil] at this
    omega
  obtain ⟨-, kept, fitness, rs, -, h1, -, h2, h3, -⟩ := Ibea.C26_selection ex eps kappa scaled
    s.popSize s.individuals.length s.individuals (h.ids.1.of_map _) hne (by omega)
  refine ⟨kept, fitness, h1, ?_, (List.sublist_append_left kept rs).subperm.trans h3.subperm⟩
  rw [h2, h.size, min_eq_left h.large]

theorem ibeaBetter_or {ι : Type*} (fit : ι → K) (c : Bool) (x y : ι) :
    Ibea.better fit c x y = x ∨ Ibea.better fit c x y = y := by
  unfold Ibea.better
  split_ifs <;> simp

variable {S : Setup K} {ex : K → K} {kappa : K} {objectives : List (List K → K)} {c : K} {N : ℕ}

theorem IInv.step (hS : S.Valid) (hN : 1 ≤ N) (inArchive : List K → Bool) (hasArchive : Bool)
    {dm : ℕ → MateDraw} (hdm : ∀ i, (dm i).Valid N) {dv : ℕ → VarDraw K}
    (hdv : ∀ i, (dv i).Valid) {s : IState K} (h : IInv S c N s) :
    ∃ s', ibeaStep S ex kappa objectives inArchive hasArchive dm dv s = some s' ∧ IInv S c N s' ∧
      s'.individuals.length = N + ⌊c * (N : K)⌋₊ := by
  obtain ⟨kept, fitness, h1, h2, h3⟩ := h.select hN ex S.eps kappa s.scaled
  have hmem : ∀ x ∈ kept, x ∈ s.individuals := fun x hx => h3.subset hx
  obtain ⟨vs, h4, h5, h6⟩ := offspring_box hS (Ibea.better fitness) (ibeaBetter_or fitness)
    (fun x : IInd K => x.v) (dm := dm) (dv := dv) (individuals := kept) (by rw [h2]; exact hdm) hdv
    (fun x hx => h.box x (hmem x hx)) s.matingSize
  have hl : (kept ++ newIInds s.nextId vs).length = N + ⌊c * (N : K)⌋₊ := by
    rw [List.length_append, newIInds_length, h2, h5, h.mating]
  have hinv : IInv S c N { s with
      individuals := kept ++ newIInds s.nextId vs
      nextId := s.nextId + vs.length } := by
    refine ⟨h.size, h.mating, ?_, by simp only [hl]; omega, ?_⟩
    · simp only
      rw [List.map_append, newIInds_id]
      exact (h.ids.of_subperm (subperm_map _ h3)).append_range'
    · intro x hx
      rcases List.mem_append.1 hx with hx | hx
      · exact h.box x (hmem x hx)
      · exact h6 _ (newIInds_mem _ _ _ hx).1
  obtain ⟨scaled, h7⟩ := ibeaScale_spec S.eps objectives inArchive hasArchive { s with
      individuals := kept ++ newIInds s.nextId vs
      nextId := s.nextId + vs.length } (by
    intro e
    simp only at e
    rw [e, List.length_nil] at hl
    omega)
  refine ⟨_, by simp only [ibeaStep, h1, h4, h7]; rfl, hinv.known _ _, ?_⟩
  simp only [List.length_map]
  exact hl

theorem IInv.finish (hN : 1 ≤ N) (inArchive : List K → Bool) (hasArchive : Bool)
    {s : IState K} (h : IInv S c N s) :
    ∃ s' r, ibeaFinish S ex kappa objectives inArchive hasArchive s = some (s', r) ∧
      IInv S c N s' ∧ s'.individuals.length = N ∧ r = s'.individuals.map fun x => x.v := by
  obtain ⟨scaled, h1⟩ := ibeaScale_spec S.eps objectives inArchive hasArchive s (by
    intro e
    have := h.large
    rw [e, List.length_nil] at this
    omega)
  have hk := h.known (s.cost +
    ibeaCharge inArchive hasArchive (s.individuals.map fun x => (x.v, x.known))) scaled
  obtain ⟨kept, fitness, h2, h3, h4⟩ := hk.select hN ex S.eps kappa scaled
  simp only at h2 h4
  refine ⟨_, kept.map fun x => x.v, by simp only [ibeaFinish, h1, h2]; rfl, ?_, h3, rfl⟩
  exact ⟨h.size, h.mating, hk.ids.of_subperm (subperm_map _ h4), h3.ge,
    fun x hx => hk.box x (h4.subset hx)⟩

theorem ibeaInit_spec (hS : S.Valid) (hN : 1 ≤ N) {population : List (List K)}
    (hn : population.length = N) (hbox : ∀ v ∈ population, InBox v S.dims) :
    ∃ s, ibeaInit S objectives c population = some s ∧ IInv S c N s ∧ s.individuals.length = N := by
  have hl : (newIInds 0 (population.map S.trim)).length = N := by
    rw [newIInds_length, List.length_map, hn]
  have hinv : IInv S c N ⟨newIInds 0 (population.map S.trim), N, ⌊c * (N : K)⌋₊, 0, [], N⟩ := by
    refine ⟨rfl, rfl, ?_, hl.ge, ?_⟩
    · simp only
      rw [newIInds_id, List.length_map, hn]
      have := Ids.append_range' (next := 0) (n := N) (l := []) ⟨List.nodup_nil, by simp⟩
      simpa using this
    · intro x hx
      obtain ⟨v, hv, e⟩ := List.mem_map.1 (newIInds_mem _ _ _ hx).1
      rw [← e]
      exact hS.trim v (hbox v hv)
  obtain ⟨scaled, h1⟩ := ibeaScale_spec S.eps objectives (fun _ => false) false
    ⟨newIInds 0 (population.map S.trim), N, ⌊c * (N : K)⌋₊, 0, [], N⟩ (by
      intro e
      simp only at e
      rw [e, List.length_nil] at hl
      omega)
  refine ⟨_, by simp only [ibeaInit, hl, h1]; rfl, hinv.known _ _, ?_⟩
  simp only [List.length_map]
  exact hl

theorem IReach.inv (hS : S.Valid) (hN : 1 ≤ N) {s : IState K}
    (h : IReach S ex kappa objectives c N s) : IInv S c N s ∧
      (s.individuals.length = N ∨ s.individuals.length = N + ⌊c * (N : K)⌋₊) := by
  induction h with
  | start population hn hbox s h =>
    obtain ⟨t, ht, h1, h2⟩ := ibeaInit_spec (objectives := objectives) (c := c) hS hN hn hbox
    obtain rfl : s = t := Option.some.inj (h.symm.trans ht)
    exact ⟨h1, Or.inl h2⟩
  | step inArchive hasArchive dm hdm dv hdv s s' hs h ih =>
    obtain ⟨t, ht, h1, h2⟩ := ih.1.step (ex := ex) (kappa := kappa) (objectives := objectives) hS hN
      inArchive hasArchive hdm hdv
    obtain rfl : s' = t := Option.some.inj (h.symm.trans ht)
    exact ⟨h1, Or.inr h2⟩
  | finish inArchive hasArchive s s' r hs h ih =>
    obtain ⟨t, r', ht, h1, h2, -⟩ := ih.1.finish (ex := ex) (kappa := kappa)
      (objectives := objectives) hN inArchive hasArchive
    have := Option.some.inj (h.symm.trans ht)
    injection this with e1 e2
    subst e1
    exact ⟨h1, Or.inl h2⟩

/-- **C94 for IBEA** with at least one individual. The constructor does not raise; in every
reachable state all vectors are in the box, there are `N` of them or, after a step, `N` and the
offspring; no further step raises; `finalized_population` returns `N` vectors of the box. -/
theorem C94_ibea (hS : S.Valid) (hN : 1 ≤ N) :
    (∀ population : List (List K), population.length = N → (∀ v ∈ population, InBox v S.dims) →
      ∃ s, ibeaInit S objectives c population = some s) ∧
    ∀ s : IState K, IReach S ex kappa objectives c N s →
    (∀ x ∈ s.individuals, InBox x.v S.dims) ∧
    (s.individuals.length = N ∨ s.individuals.length = N + ⌊c * (N : K)⌋₊) ∧
    (∀ inArchive hasArchive dm dv, (∀ i, MateDraw.Valid N (dm i)) → (∀ i, VarDraw.Valid (dv i)) →
      ∃ s', ibeaStep S ex kappa objectives inArchive hasArchive dm dv s = some s' ∧
        s'.individuals.length = N + ⌊c * (N : K)⌋₊) ∧
    ∀ inArchive hasArchive,
      ∃ s' r, ibeaFinish S ex kappa objectives inArchive hasArchive s = some (s', r) ∧
        r.length = N ∧ ∀ v ∈ r, InBox v S.dims := by
  refine ⟨?_, ?_⟩
  · intro population hn hbox
    obtain ⟨s, h1, -⟩ := ibeaInit_spec (objectives := objectives) (c := c) hS hN hn hbox
    exact ⟨s, h1⟩
  intro s h
  obtain ⟨hi, hl⟩ := h.inv hS hN
  refine ⟨hi.box, hl, ?_, ?_⟩
  · intro inArchive hasArchive dm dv hdm hdv
    obtain ⟨s', h1, -, h2⟩ := hi.step (ex := ex) (kappa := kappa) (objectives := objectives) hS hN
      inArchive hasArchive hdm hdv
    exact ⟨s', h1, h2⟩
  · intro inArchive hasArchive
    obtain ⟨s', r, h1, h2, h3, rfl⟩ := hi.finish (ex := ex) (kappa := kappa)
      (objectives := objectives) hN inArchive hasArchive
    refine ⟨s', _, h1, by rw [List.length_map, h3], ?_⟩
    intro v hv
    obtain ⟨x, hx, rfl⟩ := List.mem_map.1 hv
    exact h2.box x hx

/-- Two vectors, as many offspring (`exp` replaced by the identity). -/
example : ((ibeaInit exSetup [fun v => v.sum, fun v => 1 - v.sum] 1 [[0], [1 / 2]]).bind
      (ibeaStep exSetup (fun x => x) 1 [fun v => v.sum, fun v => 1 - v.sum] (fun _ => false) false
        (fun _ => ⟨0, 1, true⟩) (fun _ => exDraw))).map
      (fun s => (s.individuals.map (fun x => x.v), s.cost))
    = some ([[0], [1 / 2], [151 / 202], [151 / 202]], 6) := by decide +kernel

end ibea

/-! ## SMS-EMOA -/

section smsemoa
variable {K : Type*} [Field K] [LinearOrder K] [IsStrictOrderedRing K] [FloorSemiring K]
  {A : Type*}

/-- The states of an SMS-EMOA driver started with `N` vectors in the box. -/
inductive MReach (S : Setup K) (key : List K → A) (fit : List K → List K) (m : ℕ) (mult : K)
    (N : ℕ) : MState K → Prop
  | start (fa : Option (Archive A (List K)))
      (ha : ∀ a, fa = some a → ∀ k f, a k = some f → f.length = m)
      (population : List (List K)) (hn : population.length = N)
      (hbox : ∀ v ∈ population, InBox v S.dims) :
      MReach S key fit m mult N (smsInit S key fit fa mult population)
  | step (fa : Option (Archive A (List K)))
      (ha : ∀ a, fa = some a → ∀ k f, a k = some f → f.length = m)
      (iter : List (Ind (List K) (List K)) → List (Ind (List K) (List K)))
      (hiter : ∀ l, (iter l).Perm l) (hv : List (List K) → K)
      (dt : ℕ → ℕ × ℕ) (hdt : ∀ i, PairDraw N (dt i)) (dv : ℕ → VarDraw K)
      (hdv : ∀ i, (dv i).Valid) (s s' : MState K) (hs : MReach S key fit m mult N s)
      (h : smsStep S key fit fa iter hv dt dv s = some s') : MReach S key fit m mult N s'

/-- The invariant behind C94 for SMS-EMOA. -/
structure MInv (S : Setup K) (m : ℕ) (mult : K) (N : ℕ) (s : MState K) : Prop where
  epoch : s.epochLength = ⌊(N : K) * mult⌋₊
  ids : Ids s.nextId (s.individuals.map fun x => x.id)
  size : s.individuals.length = N
  box : ∀ x ∈ s.individuals, InBox x.v S.dims
  objs : ∀ x ∈ s.individuals, ∃ f, x.objectives = some f ∧ f.length = m

variable {S : Setup K} {key : List K → A} {fit : List K → List K} {m : ℕ} {mult : K} {N : ℕ}

theorem smsEval_spec (hfit : ∀ v, (fit v).length = m) {fa : Option (Archive A (List K))}
    (ha : ∀ a, fa = some a → ∀ k f, a k = some f → f.length = m) (size : ℕ)
    (pop : List (Ind (List K) (List K))) :
    (smsEval key fit fa size pop).2.length = pop.length ∧
    (smsEval key fit fa size pop).2.map (fun x => x.v) = pop.map (fun x => x.v) ∧
    (smsEval key fit fa size pop).2.map (fun x => x.id) = pop.map (fun x => x.id) ∧
    ∀ x ∈ (smsEval key fit fa size pop).2, ∃ f, x.objectives = some f ∧ f.length = m := by
  obtain ⟨c1, c2⟩ := chargeAll_lengths key fit fa size m hfit ha (pop.map fun x => x.v)
  rw [List.length_map] at c1
  exact zipWith_eval c1 c2

theorem MInv.turn (hS : S.Valid) (hfit : ∀ v, (fit v).length = m)
    {fa : Option (Archive A (List K))}
    (ha : ∀ a, fa = some a → ∀ k f, a k = some f → f.length = m)
    {iter : List (Ind (List K) (List K)) → List (Ind (List K) (List K))}
    (hiter : ∀ l, (iter l).Perm l) (hv : List (List K) → K) {t : ℕ × ℕ} (ht : PairDraw N t)
    {d : VarDraw K} (hd : d.Valid) {s : MState K} (h : MInv S m mult N s) :
    ∃ s', smsTurn S key fit fa iter hv t d s = some s' ∧ MInv S m mult N s' := by
  obtain ⟨h1, h2, h3⟩ := ht
  rw [← h.size] at h2 h3
  obtain ⟨v, hv1, hvb⟩ := makeChild_box hS hd (h.box _ (List.getElem_mem h2))
    (h.box _ (List.getElem_mem h3))
  have hgen : smsGenerate S s.individuals t d = some v := by
    unfold smsGenerate
    rw [if_neg h1, List.getElem?_eq_getElem h2, List.getElem?_eq_getElem h3]
    exact hv1
  obtain ⟨e1, e2, e3, e4⟩ := smsEval_spec (key := key) hfit ha s.individuals.length
    (newInds s.nextId [v])
  set ev := smsEval key fit fa s.individuals.length (newInds s.nextId [v]) with hev
  have hall : ∀ x ∈ s.individuals ++ ev.2,
      InBox x.v S.dims ∧ ∃ f, x.objectives = some f ∧ f.length = m := by
    intro x hx
    rcases List.mem_append.1 hx with hx | hx
    · exact ⟨h.box x hx, h.objs x hx⟩
    · refine ⟨?_, e4 x hx⟩
      have : x.v ∈ ev.2.map (fun x => x.v) := List.mem_map_of_mem hx
      rw [e2, newInds_v, List.mem_singleton] at this
      rw [this]; exact hvb
  have hids : Ids (s.nextId + 1) ((s.individuals ++ ev.2).map fun x => x.id) := by
    rw [List.map_append, e3, newInds_id]
    exact h.ids.append_range'
  have hl : (s.individuals ++ ev.2).length = N + 1 := by
    rw [List.length_append, e1, newInds_length, h.size]; rfl
  obtain ⟨x, hx, -, -, hr, -⟩ := Smsemoa.C27_reduce iter hiter hv m objsOf (s.individuals ++ ev.2)
    (hids.1.of_map _) (by
      intro x hx
      obtain ⟨-, f, hf, hl⟩ := hall x hx
      rw [objsOf, hf]; exact hl) (by
      intro e; rw [e, List.length_nil] at hl; omega) (s.individuals.length + 1)
    (by rw [hl, h.size])
  refine ⟨{ s with individuals := (s.individuals ++ ev.2).erase x, cost := s.cost + ev.1, nextId := s.nextId + 1 }, by simp only [smsTurn, hgen, ← hev, hr], ?_⟩
  have hsub : ((s.individuals ++ ev.2).erase x).Subperm (s.individuals ++ ev.2) :=
    (List.erase_sublist).subperm
  refine ⟨h.epoch, hids.of_subperm (subperm_map _ hsub), ?_, ?_, ?_⟩
  · simp only
    rw [List.length_erase_of_mem hx, hl]; rfl
  · exact fun y hy => (hall y (hsub.subset hy)).1
  · exact fun y hy => (hall y (hsub.subset hy)).2

theorem MInv.turns (hS : S.Valid) (hfit : ∀ v, (fit v).length = m)
    {fa : Option (Archive A (List K))}
    (ha : ∀ a, fa = some a → ∀ k f, a k = some f → f.length = m)
    {iter : List (Ind (List K) (List K)) → List (Ind (List K) (List K))}
    (hiter : ∀ l, (iter l).Perm l) (hv : List (List K) → K) {dt : ℕ → ℕ × ℕ}
    (hdt : ∀ i, PairDraw N (dt i)) {dv : ℕ → VarDraw K} (hdv : ∀ i, (dv i).Valid) (n : ℕ) :
    ∀ (k : ℕ) (s : MState K), MInv S m mult N s →
      ∃ s', smsTurns S key fit fa iter hv dt dv k n s = some s' ∧ MInv S m mult N s' := by
  induction n with
  | zero => intro k s h; exact ⟨s, rfl, h⟩
  | succ n ih =>
    intro k s h
    obtain ⟨s1, h1, hi⟩ := h.turn (key := key) hS hfit ha hiter hv (hdt k) (hdv k)
    obtain ⟨s2, h2, hi2⟩ := ih (k + 1) s1 hi
    exact ⟨s2, by simp only [smsTurns, h1, h2], hi2⟩

theorem MReach.inv (hS : S.Valid) (hfit : ∀ v, (fit v).length = m) {s : MState K}
    (h : MReach S key fit m mult N s) : MInv S m mult N s := by
  induction h with
  | start fa ha population hn hbox =>
    have hl : (newInds 0 (population.map S.trim)).length = N := by
      rw [newInds_length, List.length_map, hn]
    obtain ⟨e1, e2, e3, e4⟩ := smsEval_spec (key := key) hfit ha N
      (newInds 0 (population.map S.trim))
    have e : smsInit S key fit fa mult population =
        ⟨(smsEval key fit fa N (newInds 0 (population.map S.trim))).2, ⌊(N : K) * mult⌋₊,
          (smsEval key fit fa N (newInds 0 (population.map S.trim))).1, N⟩ := by
      simp only [smsInit, hl]
    rw [e]
    refine ⟨rfl, ?_, e1.trans hl, ?_, e4⟩
    · simp only
      rw [e3, newInds_id, List.length_map, hn]
      have := Ids.append_range' (next := 0) (n := N) (l := []) ⟨List.nodup_nil, by simp⟩
      simpa using this
    · intro x hx
      have hxv : x.v ∈ (smsEval key fit fa N (newInds 0 (population.map S.trim))).2.map
        (fun x => x.v) := List.mem_map_of_mem hx
      rw [e2, newInds_v] at hxv
      obtain ⟨v, hv, e⟩ := List.mem_map.1 hxv
      rw [← e]
      exact hS.trim v (hbox v hv)
  | step fa ha iter hiter hv dt hdt dv hdv s s' hs h ih =>
    obtain ⟨t, ht, h1⟩ := MInv.turns (key := key) hS hfit ha hiter hv hdt hdv s.epochLength 0 s ih
    obtain rfl : s' = t := Option.some.inj (h.symm.trans ht)
    exact h1

/-- **C94 for SMS-EMOA.** In every reachable state there are exactly `N` individuals, all of them
in the box and evaluated, and no further step raises. (The hypothesis on the draws says that
`random.sample` can draw two different positions, so it needs `N ≥ 2`.) -/
theorem C94_smsemoa (hS : S.Valid) (hfit : ∀ v, (fit v).length = m) (s : MState K)
    (h : MReach S key fit m mult N s) :
    (smsFinal s).length = N ∧ (∀ v ∈ smsFinal s, InBox v S.dims) ∧
    (∀ x ∈ s.individuals, ∃ f, x.objectives = some f ∧ f.length = m) ∧
    ∀ (fa : Option (Archive A (List K))),
      (∀ a, fa = some a → ∀ k f, a k = some f → f.length = m) →
      ∀ iter : List (Ind (List K) (List K)) → List (Ind (List K) (List K)),
      (∀ l, (iter l).Perm l) → ∀ hv dt dv, (∀ i, PairDraw N (dt i)) → (∀ i, VarDraw.Valid (dv i)) →
        ∃ s', smsStep S key fit fa iter hv dt dv s = some s' := by
  have hi := h.inv hS hfit
  refine ⟨by rw [smsFinal, List.length_map, hi.size], ?_, hi.objs, ?_⟩
  · intro v hv
    obtain ⟨x, hx, rfl⟩ := List.mem_map.1 hv
    exact hi.box x hx
  · intro fa ha iter hiter hv dt dv hdt hdv
    obtain ⟨t, ht, -⟩ := MInv.turns (key := key) hS hfit ha hiter hv hdt hdv s.epochLength 0 s hi
    exact ⟨t, ht⟩

/-- Two vectors and one child per step (sum of the values instead of the hypervolume). -/
example : (smsStep exSetup id exFit none id (fun l => (l.map List.sum).sum) (fun _ => (0, 1))
      (fun _ => exDraw) (smsInit exSetup id exFit none (1 / 2) [[0], [1 / 2]])).map
      (fun s => (smsFinal s, s.cost)) = some ([[1 / 2], [953 / 1616]], 4) := by decide +kernel

end smsemoa

end Evogil.Generations
