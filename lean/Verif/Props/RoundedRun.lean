import Verif.Lemmas.RoundedRun

/-!
# C142: every generation of NSGA-II, SPEA2, IBEA and SMS-EMOA in floating point

Through any number of steps and calls of `finalized_population`, in any order and for all random draws: no exception, no NaN
in a vector, all vectors are floats in the box, the sizes as configured.
-/

set_option linter.unusedSectionVars false

namespace Evogil.Rounded.Run

open Evaluation Generations Spec Binary64

/-! A small setup for the examples: one coordinate between 0 and 1, `pow(b, e)` replaced by `min(b, 1)`. -/

/-- The setup of the examples. -/
def exSetup : Setup ℚ := ⟨fun b _ => min b 1, 1 / 2 ^ 52, [(0, 1)], 1, 1, 1, 1, id⟩

theorem exSetup_usable : Usable exSetup where
  pow := ⟨fun _ _ h => le_min h zero_le_one, fun _ _ _ _ _ => min_le_right _ _, fun _ _ _ _ => min_le_right _ _⟩
  eps := rfl
  crossEta := by decide +kernel
  mutEta := by decide +kernel
  dims := by
    intro d hd
    simp only [exSetup, List.mem_singleton] at hd
    subst hd
    decide +kernel
  trim _ h := h

/-- The draws of the examples. -/
def exDraw : VarDraw ℚ := ⟨1 / 2, true, fun _ => ⟨0, 1 / 4, 0⟩, fun _ => ⟨0, 3 / 4⟩⟩

theorem exDraw_draws : Draws exDraw :=
  ⟨fun _ => ⟨2 ^ 51, by norm_num, (by norm_num : (1 / 4 : ℚ) = ((2 ^ 51 : ℕ) : ℚ) * (1 / 2 ^ 53))⟩,
    fun _ => ⟨3 * 2 ^ 51, by norm_num, (by norm_num : (3 / 4 : ℚ) = ((3 * 2 ^ 51 : ℕ) : ℚ) * (1 / 2 ^ 53))⟩⟩

/-- Two objectives: `x` and `1 - x`. -/
def exFit (v : List ℚ) : List ℚ := [v.sum, round64 (1 - v.sum)]

section nsgaii
variable {K : Type*} [Field K] [LinearOrder K] [IsStrictOrderedRing K] [FloorRing K] {A : Type*} [DecidableEq A]

/-- The states of an NSGA-II driver started with `N` vectors of floats in the box: after the constructor, and after any
sequence of steps and calls of `finalized_population`, whatever is drawn and in whatever order the sets are iterated. The
fitness archive, if any, holds vectors of `m` values. -/
inductive NReach (S : Setup K) (key : List K → A) (fit : List K → List K) (m : ℕ) (c : K) (N : ℕ) : NState K A → Prop
  | start (archive : Option (Archive A (List K))) (ha : ∀ a, archive = some a → ∀ k f, a k = some f → f.length = m)
      (population : List (List K)) (hn : population.length = N) (hbox : ∀ v ∈ population, FBox S.dims v) :
      NReach S key fit m c N (nsgaiiInit round64 S key fit archive c population)
  | step (iter : List (Ind (List K) (List K)) → List (Ind (List K) (List K))) (hiter : ∀ l, (iter l).Perm l)
      (dm : ℕ → MateDraw) (hdm : ∀ i, (dm i).Valid N) (dv : ℕ → VarDraw K) (hdv : ∀ i, Draws (dv i)) (s s' : NState K A)
      (hs : NReach S key fit m c N s) (h : nsgaiiStep round64 S key fit m iter dm dv s = some s') :
      NReach S key fit m c N s'
  | finish (iter : List (Ind (List K) (List K)) → List (Ind (List K) (List K))) (hiter : ∀ l, (iter l).Perm l)
      (s s' : NState K A) (r : List (List K)) (hs : NReach S key fit m c N s)
      (h : nsgaiiFinish round64 S key fit m iter s = some (s', r)) : NReach S key fit m c N s'

/-- The invariant behind C142 for NSGA-II. -/
structure NInv (S : Setup K) (m : ℕ) (c : K) (N : ℕ) (s : NState K A) : Prop where
  size : s.popSize = N
  mating : s.matingSize = portion round64 c N
  ids : Ids s.nextId (s.individuals.map fun x => x.id)
  large : N ≤ s.individuals.length
  box : ∀ x ∈ s.individuals, FBox S.dims x.v
  objs : ∀ x ∈ s.individuals, ∃ f, x.objectives = some f ∧ f.length = m
  arch : ∀ a, s.acc.archive = some a → ∀ k f, a k = some f → f.length = m

theorem nsgaiiSelect_ok {iter : List (Ind (List K) (List K)) → List (Ind (List K) (List K))} (hiter : ∀ l, (iter l).Perm l)
    {m : ℕ} (hm : m ≤ 2 ^ 51) (size : ℕ) {pop : List (Ind (List K) (List K))} (hp : pop.Nodup) :
    ∃ kept fitness, nsgaiiSelect round64 iter (1 / 2 ^ 52) m size pop = some (kept, fitness) ∧
      kept.length = min size pop.length ∧ kept.Subperm pop := by
  have hd : ∀ x ∈ pop, ((objFns m).map fun o => o x).length = m := by simp [objFns]
  obtain ⟨h1, h2⟩ := C05_nsgaii_sorts_by_rank iter hiter m (fun x => (objFns m).map fun o => o x) pop hp hd
  obtain ⟨L, hL⟩ := h1 pop.length le_rfl
  obtain ⟨hperm, -, -⟩ := h2 pop.length L hL
  have hw := (crowding_spec (objFns (K := K) m) (by simpa [objFns] using hm) L (hperm.nodup_iff.2 hp)).2
  unfold nsgaiiSelect
  simp only at hL
  rw [hL]
  simp only
  rw [if_neg (by
    intro h0
    rcases List.mem_append.1 h0 with h0 | h0
    · exact lt_irrefl _ (crowdDivisors_pos _ _ _ h0)
    · exact lt_irrefl _ (keyDivisors_pos (fun x r hr => (hw x r hr).1) _ _ h0))]
  refine ⟨_, _, rfl, ?_, ?_⟩
  · rw [nsgaSelection, List.length_take, pySorted_length]
  · exact (List.take_sublist _ _).subperm.trans (pySorted_perm _ _).subperm

theorem NInv.nodup {S : Setup K} {m : ℕ} {c : K} {N : ℕ} {s : NState K A} (h : NInv S m c N s) :
    s.individuals.Nodup := h.ids.1.of_map _

variable {S : Setup K} {key : List K → A} {fit : List K → List K} {m : ℕ} {c : K} {N : ℕ}

/-- Evaluation turns a list of individuals, the known ones of which have `m` objectives, into a
list satisfying the invariant. -/
theorem NInv.eval (hfit : ∀ v, (fit v).length = m) (s : NState K A)
    (inds : List (Ind (List K) (List K)))
    (ha : ∀ a, s.acc.archive = some a → ∀ k f, a k = some f → f.length = m) (hsize : s.popSize = N)
    (hmating : s.matingSize = portion round64 c N) (next : ℕ)
    (hids : Ids next (inds.map fun x => x.id)) (hlarge : N ≤ inds.length)
    (hbox : ∀ x ∈ inds, FBox S.dims x.v)
    (hobj : ∀ x ∈ inds, ∀ f, x.objectives = some f → f.length = m) :
    NInv S m c N { s with
      individuals := (evalAll key fit s.acc inds).2
      acc := (evalAll key fit s.acc inds).1
      nextId := next } ∧
    (evalAll key fit s.acc inds).2.length = inds.length := by
  obtain ⟨h1, h2, h3, h4⟩ := evalAll_keeps key fit (fun f => f.length = m) hfit inds s.acc ha hobj
  have hlen : (evalAll key fit s.acc inds).2.length = inds.length := by
    have := congrArg List.length h1
    simpa using this
  refine ⟨⟨hsize, hmating, by rw [h1]; exact hids, by rw [hlen]; exact hlarge, ?_, h3, h4⟩, hlen⟩
  intro x hx
  have : x.v ∈ (evalAll key fit s.acc inds).2.map (fun i => i.v) := List.mem_map_of_mem hx
  rw [h2] at this
  obtain ⟨y, hy, e⟩ := List.mem_map.1 this
  rw [← e]
  exact hbox y hy

/-- One step from a state satisfying the invariant. -/
theorem NInv.step (hS : Usable S) (hm : m ≤ 2 ^ 51) (hfit : ∀ v, (fit v).length = m)
    {iter : List (Ind (List K) (List K)) → List (Ind (List K) (List K))}
    (hiter : ∀ l, (iter l).Perm l) {dm : ℕ → MateDraw} (hdm : ∀ i, (dm i).Valid N)
    {dv : ℕ → VarDraw K} (hdv : ∀ i, Draws (dv i)) {s : NState K A} (h : NInv S m c N s) :
    ∃ s', nsgaiiStep round64 S key fit m iter dm dv s = some s' ∧ NInv S m c N s' ∧
      s'.individuals.length = N + portion round64 c N := by
  obtain ⟨kept, fitness, h1, h2, h3⟩ := nsgaiiSelect_ok hiter hm s.popSize h.nodup
  rw [h.size, min_eq_left h.large] at h2
  have hmem : ∀ x ∈ kept, x ∈ s.individuals := fun x hx => h3.subset hx
  obtain ⟨vs, h4, h5, h6⟩ := offspring_ok hS (nsgaiiBetter fitness) (nsgaiiBetter_or fitness)
    (fun x => x.v) (dm := dm) (dv := dv) (individuals := kept) (by rw [h2]; exact hdm) hdv
    (fun x hx => h.box x (hmem x hx)) s.matingSize
  have hids : Ids (s.nextId + vs.length)
      ((kept ++ newInds s.nextId vs).map fun x => x.id) := by
    rw [List.map_append, newInds_id]
    exact (h.ids.of_subperm (subperm_map _ h3)).append_range'
  obtain ⟨h7, h8⟩ := NInv.eval (S := S) (key := key) (c := c) (N := N) hfit s
    (kept ++ newInds s.nextId vs) h.arch h.size h.mating (s.nextId + vs.length) hids
    (by rw [List.length_append, h2]; omega) (by
      intro x hx
      rcases List.mem_append.1 hx with hx | hx
      · exact h.box x (hmem x hx)
      · exact h6 _ (newInds_none _ _ _ hx).2) (by
      intro x hx f hf
      rcases List.mem_append.1 hx with hx | hx
      · obtain ⟨g, hg, hl⟩ := h.objs x (hmem x hx)
        obtain rfl : f = g := Option.some.inj (hf.symm.trans hg)
        exact hl
      · rw [(newInds_none _ _ _ hx).1] at hf; cases hf)
  refine ⟨_, by simp only [nsgaiiStep, hS.eps, h1, h4], h7, ?_⟩
  show (evalAll key fit s.acc (kept ++ newInds s.nextId vs)).2.length = _
  rw [h8, List.length_append, newInds_length, h2, h5, h.mating]

/-- `finalized_population` from a state satisfying the invariant. -/
theorem NInv.finish (hS : Usable S) (hm : m ≤ 2 ^ 51) (hfit : ∀ v, (fit v).length = m)
    {iter : List (Ind (List K) (List K)) → List (Ind (List K) (List K))}
    (hiter : ∀ l, (iter l).Perm l) {s : NState K A} (h : NInv S m c N s) :
    ∃ s' r, nsgaiiFinish round64 S key fit m iter s = some (s', r) ∧ NInv S m c N s' ∧
      s'.individuals.length = N ∧ r = s'.individuals.map fun x => x.v := by
  obtain ⟨h7, h8⟩ := NInv.eval (S := S) (key := key) (c := c) (N := N) hfit s s.individuals h.arch
    h.size h.mating s.nextId h.ids h.large h.box (by
      intro x hx f hf
      obtain ⟨g, hg, hl⟩ := h.objs x hx
      obtain rfl : f = g := Option.some.inj (hf.symm.trans hg)
      exact hl)
  obtain ⟨kept, fitness, h1, h2, h3⟩ := nsgaiiSelect_ok hiter hm s.popSize h7.nodup
  have hl : N ≤ (evalAll key fit s.acc s.individuals).2.length := by rw [h8]; exact h.large
  rw [h.size] at h2
  simp only [min_eq_left hl] at h2
  refine ⟨{ s with individuals := kept, acc := (evalAll key fit s.acc s.individuals).1 },
    kept.map fun x => x.v, ?_, ?_, h2, rfl⟩
  · simp only [nsgaiiFinish, hS.eps]
    simp only at h1
    simp only [h1]
  · exact ⟨h.size, h.mating, h7.ids.of_subperm (subperm_map _ h3), h2.ge,
      fun x hx => h7.box x (h3.subset hx), fun x hx => h7.objs x (h3.subset hx), h7.arch⟩

theorem NReach.inv (hS : Usable S) (hm : m ≤ 2 ^ 51) (hfit : ∀ v, (fit v).length = m) {s : NState K A}
    (h : NReach S key fit m c N s) : NInv S m c N s ∧
      (s.individuals.length = N ∨ s.individuals.length = N + portion round64 c N) := by
  induction h with
  | start archive ha population hn hbox =>
    have hl : (newInds 0 (population.map S.trim)).length = N := by
      rw [newInds_length, List.length_map, hn]
    obtain ⟨h1, h2⟩ := NInv.eval (S := S) (key := key) (c := c) (N := N) hfit
      ⟨[], ⟨0, archive, []⟩, N, portion round64 c N, 0⟩ (newInds 0 (population.map S.trim)) ha rfl rfl N
      (by
        rw [newInds_id, List.length_map, hn]
        have := Ids.append_range' (next := 0) (n := N) (l := []) ⟨List.nodup_nil, by simp⟩
        simpa using this) hl.ge (by
        intro x hx
        obtain ⟨v, hv, e⟩ := List.mem_map.1 (newInds_none _ _ _ hx).2
        rw [← e]
        exact hS.trim v (hbox v hv)) (by
        intro x hx f hf
        rw [(newInds_none _ _ _ hx).1] at hf; cases hf)
    have e : nsgaiiInit round64 S key fit archive c population =
        ⟨(evalAll key fit ⟨0, archive, []⟩ (newInds 0 (population.map S.trim))).2,
          (evalAll key fit ⟨0, archive, []⟩ (newInds 0 (population.map S.trim))).1, N,
          portion round64 c N, N⟩ := by
      simp only [nsgaiiInit, hl]
    rw [e]
    exact ⟨h1, Or.inl (h2.trans hl)⟩
  | step iter hiter dm hdm dv hdv s s' hs h ih =>
    obtain ⟨t, ht, h1, h2⟩ := NInv.step hS hm (key := key) hfit hiter hdm hdv ih.1
    obtain rfl : s' = t := Option.some.inj (h.symm.trans ht)
    exact ⟨h1, Or.inr h2⟩
  | finish iter hiter s s' r hs h ih =>
    obtain ⟨t, r', ht, h1, h2, -⟩ := NInv.finish hS hm (key := key) hfit hiter ih.1
    have := Option.some.inj (h.symm.trans ht)
    injection this with e1 e2
    subst e1
    exact ⟨h1, Or.inl h2⟩

/-- C142 for NSGA-II. In every reachable state all vectors are floats in the box and evaluated, there are `N` of them or,
after a step, `N` and the offspring; no further step raises; and `finalized_population` returns `N` vectors of floats in the
box. -/
theorem C142_nsgaii (hS : Usable S) (hm : m ≤ 2 ^ 51) (hfit : ∀ v, (fit v).length = m) (s : NState K A)
    (h : NReach S key fit m c N s) :
    (∀ x ∈ s.individuals, FBox S.dims x.v ∧ ∃ f, x.objectives = some f ∧ f.length = m) ∧
    (s.individuals.length = N ∨ s.individuals.length = N + portion round64 c N) ∧
    (∀ iter : List (Ind (List K) (List K)) → List (Ind (List K) (List K)), (∀ l, (iter l).Perm l) →
      (∀ dm dv, (∀ i, MateDraw.Valid N (dm i)) → (∀ i, Draws (dv i)) →
        ∃ s', nsgaiiStep round64 S key fit m iter dm dv s = some s' ∧ s'.individuals.length = N + portion round64 c N) ∧
      ∃ s' r, nsgaiiFinish round64 S key fit m iter s = some (s', r) ∧ r.length = N ∧ ∀ v ∈ r, FBox S.dims v) := by
  obtain ⟨hi, hl⟩ := h.inv hS hm hfit
  refine ⟨fun x hx => ⟨hi.box x hx, hi.objs x hx⟩, hl, fun iter hiter => ⟨?_, ?_⟩⟩
  · intro dm dv hdm hdv
    obtain ⟨s', h1, -, h2⟩ := hi.step hS hm hfit hiter hdm hdv
    exact ⟨s', h1, h2⟩
  · obtain ⟨s', r, h1, h2, h3, rfl⟩ := hi.finish hS hm (key := key) hfit hiter
    refine ⟨s', _, h1, by rw [List.length_map, h3], ?_⟩
    intro v hv
    obtain ⟨x, hx, rfl⟩ := List.mem_map.1 hv
    exact h2.box x hx

/-- Two vectors, as many offspring: four individuals after a step, two in the result. One third and two thirds are rounded. -/
example : (nsgaiiStep round64 exSetup id exFit 2 id (fun _ => ⟨0, 1, true⟩) (fun _ => exDraw)
      (nsgaiiInit round64 exSetup id exFit none 1 [[0], [6004799503160661 / 2 ^ 54]])).map
        (fun s => s.individuals.map fun x => x.v)
      = some [[0], [6004799503160661 / 2 ^ 54], [1501199875790165 / 2 ^ 51], [1501199875790165 / 2 ^ 51]] ∧
    ((nsgaiiStep round64 exSetup id exFit 2 id (fun _ => ⟨0, 1, true⟩) (fun _ => exDraw)
      (nsgaiiInit round64 exSetup id exFit none 1 [[0], [6004799503160661 / 2 ^ 54]])).bind fun s =>
        (nsgaiiFinish round64 exSetup id exFit 2 id s).map Prod.snd) = some [[0], [1501199875790165 / 2 ^ 51]] := by
  decide +kernel

example : NReach exSetup id exFit 2 1 2 (nsgaiiInit round64 exSetup id exFit none 1 [[0], [6004799503160661 / 2 ^ 54]]) :=
  .start none (by simp) _ rfl (by
    intro v hv
    simp only [List.mem_cons, List.not_mem_nil, or_false] at hv
    rcases hv with rfl | rfl <;>
      exact ⟨List.Forall₂.cons ⟨by decide +kernel, by decide +kernel⟩ List.Forall₂.nil, by
        intro x hx
        rw [List.mem_singleton.1 hx]
        decide +kernel⟩)

end nsgaii

/-! ## SPEA2 -/

section spea2
variable {K : Type*} [Field K] [LinearOrder K] [IsStrictOrderedRing K] [FloorRing K] {A : Type*}

/-- The states of an SPEA2 driver started with `N` vectors of floats in the box. The fitness archive may be
changed by others between the steps; it holds vectors of `m` values. -/
inductive SReach (S : Setup K) (dist : List K → List K → K) (key : List K → A)
    (fit : List K → List K) (m N : ℕ) : SState K → Prop
  | start (population : List (List K)) (hn : population.length = N)
      (hbox : ∀ v ∈ population, FBox S.dims v) : SReach S dist key fit m N (spea2Init S population)
  | step (fa : Option (Archive A (List K)))
      (ha : ∀ a, fa = some a → ∀ k f, a k = some f → f.length = m)
      (dt : ℕ → (ℕ × ℕ) × (ℕ × ℕ)) (hdt : ∀ i, PairDraw N (dt i).1 ∧ PairDraw N (dt i).2)
      (dv : ℕ → VarDraw K) (hdv : ∀ i, Draws (dv i)) (s s' : SState K)
      (hs : SReach S dist key fit m N s) (h : spea2Step round64 S dist key fit fa dt dv s = some s') :
      SReach S dist key fit m N s'

/-- The invariant behind C142 for SPEA2. -/
structure SInv (S : Setup K) (m N : ℕ) (s : SState K) : Prop where
  size : s.archiveSize = N
  inds : s.individuals.length = N
  ibox : ∀ x ∈ s.individuals, FBox S.dims x.v
  arch : s.archive = [] ∨ s.archive.length = N
  abox : ∀ x ∈ s.archive, FBox S.dims x.v ∧ ∃ f, x.objectives = some f ∧ f.length = m

variable {S : Setup K} {dist : List K → List K → K} {key : List K → A} {fit : List K → List K}
  {m N : ℕ}

theorem spea2Fitness_ok (hdist : ∀ a b, 0 ≤ dist a b) {union : List (Ind (List K) (List K))} (htwo : 2 ≤ union.length)
    (p : Ind (List K) (List K)) : ∃ f, spea2Fitness round64 dist union p = some f ∧ True := by
  have hs : Nat.sqrt union.length < (pySorted id (union.map fun p2 => dist (objsOf p) (objsOf p2))).length := by
    rw [pySorted_length, List.length_map]
    exact Nat.sqrt_lt_self (by omega)
  obtain ⟨d, hd⟩ : ∃ d, (pySorted id (union.map fun p2 => dist (objsOf p) (objsOf p2)))[Nat.sqrt union.length]? = some d :=
    ⟨_, List.getElem?_eq_getElem hs⟩
  have hdm : d ∈ union.map fun p2 => dist (objsOf p) (objsOf p2) :=
    (pySorted_perm id _).mem_iff.1 (List.mem_of_getElem? hd)
  obtain ⟨p2, -, rfl⟩ := List.mem_map.1 hdm
  have R := round64_isRounding (K := K)
  have h2 : 2 ≤ round64 (dist (objsOf p) (objsOf p2) + 2) := le_fl R (fl_two R) (by linarith [hdist (objsOf p) (objsOf p2)])
  unfold spea2Fitness
  simp only [hd]
  rw [if_neg (by intro h0; rw [h0] at h2; linarith)]
  unfold Rounded.spea2Fitness
  simp only [hd]
  exact ⟨_, rfl, trivial⟩

theorem SInv.step (hS : Usable S) (hdist : ∀ a b, 0 ≤ dist a b) (hfit : ∀ v, (fit v).length = m)
    (hN : 2 ≤ N) {fa : Option (Archive A (List K))}
    (ha : ∀ a, fa = some a → ∀ k f, a k = some f → f.length = m)
    {dt : ℕ → (ℕ × ℕ) × (ℕ × ℕ)} (hdt : ∀ i, PairDraw N (dt i).1 ∧ PairDraw N (dt i).2)
    {dv : ℕ → VarDraw K} (hdv : ∀ i, Draws (dv i)) {s : SState K} (h : SInv S m N s) :
    ∃ s', spea2Step round64 S dist key fit fa dt dv s = some s' ∧ SInv S m N s' ∧ s'.archive.length = N := by
  obtain ⟨c1, c2⟩ := chargeAll_lengths key fit fa s.individuals.length m hfit ha
    (s.individuals.map fun x => x.v)
  rw [List.length_map] at c1
  obtain ⟨e1, e2, -, e4⟩ := zipWith_eval c1 c2
  set ev := spea2Eval key fit fa s.individuals with hev
  have hel : ev.2.length = N := e1.trans h.inds
  have hebox : ∀ x ∈ ev.2, FBox S.dims x.v := by
    intro x hx
    have : x.v ∈ ev.2.map (fun x => x.v) := List.mem_map_of_mem hx
    rw [show ev.2.map (fun x => x.v) = s.individuals.map (fun x => x.v) from e2] at this
    obtain ⟨y, hy, e⟩ := List.mem_map.1 this
    rw [← e]; exact h.ibox y hy
  have heobj : ∀ x ∈ ev.2, ∃ f, x.objectives = some f ∧ f.length = m := e4
  have hall : ∀ x ∈ s.archive ++ ev.2, FBox S.dims x.v ∧ ∃ f, x.objectives = some f ∧ f.length = m := by
    intro x hx
    rcases List.mem_append.1 hx with hx | hx
    · exact h.abox x hx
    · exact ⟨hebox x hx, heobj x hx⟩
  have htwo : 2 ≤ (s.archive ++ ev.2).length := by rw [List.length_append]; omega
  have hfitn : ∀ x ∈ s.archive ++ ev.2, ∃ f, spea2Fitness round64 dist (s.archive ++ ev.2) x = some f ∧ True :=
    fun x hx => spea2Fitness_ok hdist htwo x
  obtain ⟨fs, hfs, -, -⟩ := mapM_total (s.archive ++ ev.2) hfitn
  set fitness : Ind (List K) (List K) → K :=
    fun x => (spea2Fitness round64 dist (s.archive ++ ev.2) x).getD 0 with hfitness
  obtain ⟨kept, k1, k2, k3⟩ := spea2_sizes
    (same := sameDict (s.archive ++ ev.2) fitness) (by intro x; simp [sameDict]) dist objsOf fitness
    s.archiveSize (s.archive ++ ev.2).length ev.2 s.archive le_rfl
  have hkl : kept.length = N := by
    rw [k2, h.size, List.length_append, hel]; omega
  have hkmem : ∀ x ∈ kept, x ∈ s.archive ++ ev.2 := k3
  obtain ⟨vs, v1, v2, v3⟩ := mapM_total (P := fun v => FBox S.dims v)
    (f := fun i => spea2Child round64 S fitness kept (dt i) (dv i)) (List.range ev.2.length) (by
      intro i _
      obtain ⟨x, hx, hx'⟩ := spea2_select_mem (fit := fitness) (pool := kept) (t := (dt i).1)
        (by rw [hkl]; exact (hdt i).1)
      obtain ⟨y, hy, hy'⟩ := spea2_select_mem (fit := fitness) (pool := kept) (t := (dt i).2)
        (by rw [hkl]; exact (hdt i).2)
      obtain ⟨c, hc, hcb⟩ := makeChild_ok hS (hdv i) (hall x (hkmem x hx)).1 (hall y (hkmem y hy)).1
      exact ⟨c, by simp only [spea2Child, hx', hy', hc], hcb⟩)
  rw [List.length_range, hel] at v2
  refine ⟨⟨newInds s.nextId vs, kept, s.archiveSize, s.cost + ev.1, s.nextId + vs.length⟩, ?_, ?_, hkl⟩
  · simp only [spea2Step, ← hev, hfs, ← hfitness, k1, v1]
  · refine ⟨h.size, by rw [newInds_length, v2], ?_, Or.inr hkl, fun x hx => hall x (hkmem x hx)⟩
    intro x hx
    exact v3 _ (newInds_none _ _ _ hx).2

theorem SReach.inv (hS : Usable S) (hdist : ∀ a b, 0 ≤ dist a b) (hfit : ∀ v, (fit v).length = m)
    (hN : 2 ≤ N) {s : SState K} (h : SReach S dist key fit m N s) : SInv S m N s := by
  induction h with
  | start population hn hbox =>
    refine ⟨hn, by simp [spea2Init, newInds_length, hn], ?_, Or.inl rfl, by simp [spea2Init]⟩
    intro x hx
    obtain ⟨v, hv, e⟩ := List.mem_map.1 (newInds_none _ _ _ hx).2
    rw [← e]
    exact hS.trim v (hbox v hv)
  | step fa ha dt hdt dv hdv s s' hs h ih =>
    obtain ⟨t, ht, h1, -⟩ := ih.step hS hdist hfit hN ha hdt hdv
    obtain rfl : s' = t := Option.some.inj (h.symm.trans ht)
    exact h1

/-- C142 for SPEA2 with at least two individuals. In every reachable state there are `N`
individuals in the box; the archive, which `finalized_population` returns, is in the box; no
further step raises, and after it the archive has exactly `N` members. -/
theorem C142_spea2 (hS : Usable S) (hdist : ∀ a b, 0 ≤ dist a b) (hfit : ∀ v, (fit v).length = m)
    (hN : 2 ≤ N) (s : SState K) (h : SReach S dist key fit m N s) :
    s.individuals.length = N ∧ (∀ x ∈ s.individuals, FBox S.dims x.v) ∧
    (∀ v ∈ spea2Final s, FBox S.dims v) ∧
    ∀ (fa : Option (Archive A (List K))),
      (∀ a, fa = some a → ∀ k f, a k = some f → f.length = m) →
      ∀ dt dv, (∀ i, PairDraw N (dt i).1 ∧ PairDraw N (dt i).2) → (∀ i, Draws (dv i)) →
        ∃ s', spea2Step round64 S dist key fit fa dt dv s = some s' ∧ (spea2Final s').length = N ∧
          ∀ v ∈ spea2Final s', FBox S.dims v := by
  have hi := h.inv hS hdist hfit hN
  have hfinal : ∀ s : SState K, SInv S m N s → ∀ v ∈ spea2Final s, FBox S.dims v := by
    intro s hi v hv
    obtain ⟨x, hx, rfl⟩ := List.mem_map.1 hv
    exact (hi.abox x hx).1
  refine ⟨hi.inds, hi.ibox, hfinal s hi, ?_⟩
  intro fa ha dt dv hdt hdv
  obtain ⟨s', h1, h2, h3⟩ := hi.step hS hdist hfit hN ha hdt hdv
  exact ⟨s', h1, by rw [spea2Final, List.length_map, h3], hfinal s' h2⟩

/-- Two individuals: the archive takes both, two new ones are made. -/
example : (spea2Step round64 exSetup (fun a b => |round64 (a.sum - b.sum)|) id exFit none
      (fun _ => ((0, 1), (1, 0))) (fun _ => exDraw) (spea2Init exSetup [[0], [6004799503160661 / 2 ^ 54]])).map
      (fun s => (spea2Final s, s.individuals.map fun x => x.v, s.cost))
    = some ([[0], [6004799503160661 / 2 ^ 54]], [[5066549580791807 / 2 ^ 53], [5066549580791807 / 2 ^ 53]], 2) := by
  decide +kernel

end spea2

/-! ## IBEA -/

section ibea
variable {K : Type*} [Field K] [LinearOrder K] [IsStrictOrderedRing K] [FloorRing K]

/-- The states of an IBEA driver started with `N` vectors in the box. What the fitness archive
contains is only looked at for the cost. -/
inductive IReach (S : Setup K) (ex : K → K) (kappa : K) (objectives : List (List K → K)) (c : K)
    (N : ℕ) : IState K → Prop
  | start (population : List (List K)) (hn : population.length = N)
      (hbox : ∀ v ∈ population, FBox S.dims v) (s : IState K)
      (h : ibeaInit round64 S objectives c population = some s) : IReach S ex kappa objectives c N s
  | step (inArchive : List K → Bool) (hasArchive : Bool) (dm : ℕ → MateDraw)
      (hdm : ∀ i, (dm i).Valid N) (dv : ℕ → VarDraw K) (hdv : ∀ i, Draws (dv i)) (s s' : IState K)
      (hs : IReach S ex kappa objectives c N s)
      (h : ibeaStep round64 S ex kappa objectives inArchive hasArchive dm dv s = some s') :
      IReach S ex kappa objectives c N s'
  | finish (inArchive : List K → Bool) (hasArchive : Bool) (s s' : IState K) (r : List (List K))
      (hs : IReach S ex kappa objectives c N s)
      (h : ibeaFinish round64 S ex kappa objectives inArchive hasArchive s = some (s', r)) :
      IReach S ex kappa objectives c N s'

/-- The invariant behind C142 for IBEA. -/
structure IInv (S : Setup K) (c : K) (N : ℕ) (s : IState K) : Prop where
  size : s.popSize = N
  mating : s.matingSize = portion round64 c N
  ids : Ids s.nextId (s.individuals.map fun x => x.id)
  large : N ≤ s.individuals.length
  box : ∀ x ∈ s.individuals, FBox S.dims x.v

theorem scaleDivisors_pos {objectives : List (List K → K)} {l : List (IInd K)} (d : K)
    (hd : d ∈ scaleDivisors round64 (1 / 2 ^ 52) objectives l) : 0 < d := by
  unfold scaleDivisors at hd
  rw [List.mem_filterMap] at hd
  obtain ⟨o, -, hd⟩ := hd
  cases h1 : pyMin (l.map fun x => o x.v) with
  | none => rw [h1] at hd; simp at hd
  | some a =>
    cases h2 : pyMax (l.map fun x => o x.v) with
    | none => rw [h1, h2] at hd; simp at hd
    | some b =>
      rw [h1, h2] at hd
      simp only [Option.some.injEq] at hd
      rw [← hd]
      exact divisor_pos (diff_nonneg ((pyMin_eq_some.1 h1).2 _ (pyMax_eq_some.1 h2).1))

/-- The scaled objectives are there and lie between 0 and 1 for the individuals of the population. -/
def InUnit (scaled : List (IInd K → K)) (l : List (IInd K)) : Prop :=
  scaled ≠ [] ∧ ∀ s ∈ scaled, ∀ x ∈ l, 0 ≤ s x ∧ s x ≤ 1

theorem ibeaScale_ok {objectives : List (List K → K)} (hobj : objectives ≠ []) (inArchive : List K → Bool)
    (hasArchive : Bool) (s : IState K) (hne : s.individuals ≠ []) :
    ∃ scaled, ibeaScale round64 (1 / 2 ^ 52) objectives inArchive hasArchive s = some { s with
      individuals := s.individuals.map fun x => { x with known := true }
      cost := s.cost + ibeaCharge inArchive hasArchive (s.individuals.map fun x => (x.v, x.known))
      scaled := scaled } ∧ InUnit scaled (s.individuals.map fun x => { x with known := true }) := by
  unfold ibeaScale
  obtain ⟨ss, h1, h2⟩ := Rounded.Ibea.scaledObjectives_spec (objectives.map fun o (x : IInd K) => o x.v)
    (s.individuals.map fun x => { x with known := true }) (by simpa using hne)
  simp only
  rw [if_neg (fun h0 => lt_irrefl _ (scaleDivisors_pos _ h0)), h1]
  refine ⟨ss, rfl, ?_, Rounded.Ibea.scaled_unit h2⟩
  rintro rfl
  have := h2.length_eq
  rw [List.length_map, List.length_nil, List.length_eq_zero_iff] at this
  exact hobj this

theorem IInv.known {S : Setup K} {c : K} {N : ℕ} {s : IState K} (h : IInv S c N s)
    (cost : ℕ) (scaled : List (IInd K → K)) : IInv S c N { s with
      individuals := s.individuals.map fun x => { x with known := true }
      cost := cost
      scaled := scaled } := by
  refine ⟨h.size, h.mating, ?_, ?_, ?_⟩
  · rw [List.map_map]; exact h.ids
  · simp only [List.length_map]; exact h.large
  · intro x hx
    obtain ⟨y, hy, rfl⟩ := List.mem_map.1 hx
    exact h.box y hy

theorem IInv.select {S : Setup K} {c : K} {N : ℕ} {s : IState K} (h : IInv S c N s) (hN : 1 ≤ N)
    (ex : K → K) {kappa : K} (hk : 1 / 32 ≤ kappa) {scaled : List (IInd K → K)} (hu : scaled ≠ []) :
    ∃ kept fitness, ibeaSelect round64 ex (1 / 2 ^ 52) kappa scaled s.popSize s.individuals.length s.individuals
        = some (kept, fitness) ∧ kept.length = N ∧ kept.Subperm s.individuals := by
  have hne : s.individuals ≠ [] := by
    intro e
    have := h.large
    rw [e, List.length_nil] at this
    omega
  obtain ⟨x0, hx0⟩ := List.exists_mem_of_ne_nil _ hne
  obtain ⟨mx, hmx⟩ := Option.isSome_iff_exists.1 (pyMax_isSome.2 (show ((s.individuals.product s.individuals).map
    fun p => |Rounded.Ibea.indicator round64 scaled p.1 p.2|) ≠ [] from by
      intro e
      rw [List.map_eq_nil_iff] at e
      have : (x0, x0) ∈ s.individuals.product s.individuals := List.mem_product.2 ⟨hx0, hx0⟩
      rw [e] at this
      simp at this))
  obtain ⟨m1, m2⟩ := pyMax_eq_some.1 hmx
  obtain ⟨⟨y1, y2⟩, hy, hy2⟩ := List.mem_map.1 m1
  obtain ⟨hy1, hy2'⟩ := List.mem_product.1 hy
  have hfl : round64 mx = mx := by
    rw [← hy2]
    obtain ⟨o, -, e⟩ := (Rounded.Ibea.indicator_spec hu y1 y2).1
    simp only
    rw [e]
    rcases abs_choice (round64 (o y1 - o y2)) with h | h <;> rw [h]
    · exact round64_round64 _
    · rw [round64_neg, round64_round64]
  have hm0 : 0 ≤ mx := by rw [← hy2]; exact abs_nonneg _
  have hexp : ∀ x2 ∈ s.individuals, ∀ x1 ∈ s.individuals,
      |exponent round64 (1 / 2 ^ 52) mx kappa (Rounded.Ibea.indicator round64 scaled x2 x1)| ≤ 32 :=
    fun x2 h2 x1 h1 => exponent_le hk (m2 _ (List.mem_map.2 ⟨(x2, x1), List.mem_product.2 ⟨h2, h1⟩, rfl⟩)) hfl
  have hk0 : 0 ≤ kappa := le_trans (by norm_num) hk
  have hdiv : 0 < round64 (round64 (mx * kappa) + 1 / 2 ^ 52) :=
    divisor_pos (fl_nonneg round64_isRounding (mul_nonneg hm0 hk0))
  unfold ibeaSelect
  have hmx' : Rounded.Ibea.maxIndicator round64 scaled s.individuals = some mx := hmx
  rw [if_neg (by simpa using hu), hmx']
  simp only
  rw [if_neg (by
    rintro (h0 | ⟨x2, h2, x1, h1, h0⟩)
    · exact hdiv.ne' h0
    · have := (abs_le.1 (hexp x2 h2 x1 h1)).2
      linarith)]
  obtain ⟨kept, fitness, h1, h2, h3⟩ := selectionLoop_sizes round64
    (Rounded.Ibea.loss round64 ex (1 / 2 ^ 52) mx kappa scaled) s.popSize s.individuals.length s.individuals
    (Rounded.Ibea.fitness round64 (Rounded.Ibea.loss round64 ex (1 / 2 ^ 52) mx kappa scaled) s.individuals) (by omega)
  exact ⟨kept, fitness, h1, by rw [h2, h.size, min_eq_left h.large], h3⟩

variable {S : Setup K} {ex : K → K} {kappa : K} {objectives : List (List K → K)} {c : K} {N : ℕ}

theorem IInv.step (hS : Usable S) (hobj : objectives ≠ []) (hk : 1 / 32 ≤ kappa) (hN : 1 ≤ N) (inArchive : List K → Bool) (hasArchive : Bool)
    {dm : ℕ → MateDraw} (hdm : ∀ i, (dm i).Valid N) {dv : ℕ → VarDraw K}
    (hdv : ∀ i, Draws (dv i)) {s : IState K} (h : IInv S c N s) (hu : s.scaled ≠ []) :
    ∃ s', ibeaStep round64 S ex kappa objectives inArchive hasArchive dm dv s = some s' ∧ IInv S c N s' ∧ InUnit s'.scaled s'.individuals ∧
      s'.individuals.length = N + portion round64 c N := by
  obtain ⟨kept, fitness, h1, h2, h3⟩ := h.select hN ex hk hu
  have hmem : ∀ x ∈ kept, x ∈ s.individuals := fun x hx => h3.subset hx
  obtain ⟨vs, h4, h5, h6⟩ := offspring_ok hS (Ibea.better fitness) (ibeaBetter_or fitness)
    (fun x : IInd K => x.v) (dm := dm) (dv := dv) (individuals := kept) (by rw [h2]; exact hdm) hdv
    (fun x hx => h.box x (hmem x hx)) s.matingSize
  have hl : (kept ++ newIInds s.nextId vs).length = N + portion round64 c N := by
    rw [List.length_append, newIInds_length, h2, h5, h.mating]
  have hinv : IInv S c N { s with
      individuals := kept ++ newIInds s.nextId vs
      nextId := s.nextId + vs.length } := by
    refine ⟨h.size, h.mating, ?_, by simp only [hl]; omega, ?_⟩
    · simp only
      rw [List.map_append, newIInds_id]
      exact (h.ids.of_subperm (subperm_map _ h3)).append_range'
    · intro x hx
      rcases List.mem_append.1 hx with hx | hx
      · exact h.box x (hmem x hx)
      · exact h6 _ (newIInds_mem _ _ _ hx).1
  obtain ⟨scaled, h7, h7u⟩ := ibeaScale_ok hobj inArchive hasArchive { s with
      individuals := kept ++ newIInds s.nextId vs
      nextId := s.nextId + vs.length } (by
    intro e
    simp only at e
    rw [e, List.length_nil] at hl
    omega)
  refine ⟨_, by simp only [ibeaStep, hS.eps, h1, h4, h7]; rfl, hinv.known _ _, h7u, ?_⟩
  simp only [List.length_map]
  exact hl

theorem IInv.finish (hS : Usable S) (hobj : objectives ≠ []) (hk : 1 / 32 ≤ kappa) (hN : 1 ≤ N) (inArchive : List K → Bool) (hasArchive : Bool)
    {s : IState K} (h : IInv S c N s) :
    ∃ s' r, ibeaFinish round64 S ex kappa objectives inArchive hasArchive s = some (s', r) ∧
      IInv S c N s' ∧ InUnit s'.scaled s'.individuals ∧ s'.individuals.length = N ∧ r = s'.individuals.map fun x => x.v := by
  obtain ⟨scaled, h1, h1u⟩ := ibeaScale_ok hobj inArchive hasArchive s (by
    intro e
    have := h.large
    rw [e, List.length_nil] at this
    omega)
  have hkn := h.known (s.cost +
    ibeaCharge inArchive hasArchive (s.individuals.map fun x => (x.v, x.known))) scaled
  obtain ⟨kept, fitness, h2, h3, h4⟩ := hkn.select hN ex hk h1u.1
  simp only at h2 h4
  refine ⟨_, kept.map fun x => x.v, by simp only [ibeaFinish, hS.eps, h1, h2]; rfl, ?_, ⟨h1u.1, fun o ho x hx => h1u.2 o ho x (h4.subset hx)⟩, h3, rfl⟩
  exact ⟨h.size, h.mating, hkn.ids.of_subperm (subperm_map _ h4), h3.ge,
    fun x hx => hkn.box x (h4.subset hx)⟩

theorem ibeaInit_ok (hS : Usable S) (hobj : objectives ≠ []) (hN : 1 ≤ N) {population : List (List K)}
    (hn : population.length = N) (hbox : ∀ v ∈ population, FBox S.dims v) :
    ∃ s, ibeaInit round64 S objectives c population = some s ∧ IInv S c N s ∧ InUnit s.scaled s.individuals ∧
      s.individuals.length = N := by
  have hl : (newIInds 0 (population.map S.trim)).length = N := by
    rw [newIInds_length, List.length_map, hn]
  have hinv : IInv S c N ⟨newIInds 0 (population.map S.trim), N, portion round64 c N, 0, [], N⟩ := by
    refine ⟨rfl, rfl, ?_, hl.ge, ?_⟩
    · simp only
      rw [newIInds_id, List.length_map, hn]
      have := Ids.append_range' (next := 0) (n := N) (l := []) ⟨List.nodup_nil, by simp⟩
      simpa using this
    · intro x hx
      obtain ⟨v, hv, e⟩ := List.mem_map.1 (newIInds_mem _ _ _ hx).1
      rw [← e]
      exact hS.trim v (hbox v hv)
  obtain ⟨scaled, h1, h1u⟩ := ibeaScale_ok hobj (fun _ => false) false
    ⟨newIInds 0 (population.map S.trim), N, portion round64 c N, 0, [], N⟩ (by
      intro e
      simp only at e
      rw [e, List.length_nil] at hl
      omega)
  refine ⟨_, by simp only [ibeaInit, hS.eps, hl, h1]; rfl, hinv.known _ _, h1u, ?_⟩
  simp only [List.length_map]
  exact hl

theorem IReach.inv (hS : Usable S) (hobj : objectives ≠ []) (hk : 1 / 32 ≤ kappa) (hN : 1 ≤ N) {s : IState K}
    (h : IReach S ex kappa objectives c N s) : IInv S c N s ∧ InUnit s.scaled s.individuals ∧
      (s.individuals.length = N ∨ s.individuals.length = N + portion round64 c N) := by
  induction h with
  | start population hn hbox s h =>
    obtain ⟨t, ht, h1, h1u, h2⟩ := ibeaInit_ok (objectives := objectives) (c := c) hS hobj hN hn hbox
    obtain rfl : s = t := Option.some.inj (h.symm.trans ht)
    exact ⟨h1, h1u, Or.inl h2⟩
  | step inArchive hasArchive dm hdm dv hdv s s' hs h ih =>
    obtain ⟨t, ht, h1, h1u, h2⟩ := ih.1.step (ex := ex) (kappa := kappa) (objectives := objectives) hS hobj
      hk hN inArchive hasArchive hdm hdv ih.2.1.1
    obtain rfl : s' = t := Option.some.inj (h.symm.trans ht)
    exact ⟨h1, h1u, Or.inr h2⟩
  | finish inArchive hasArchive s s' r hs h ih =>
    obtain ⟨t, r', ht, h1, h1u, h2, -⟩ := ih.1.finish (ex := ex) (kappa := kappa)
      (objectives := objectives) hS hobj hk hN inArchive hasArchive
    have := Option.some.inj (h.symm.trans ht)
    injection this with e1 e2
    subst e1
    exact ⟨h1, h1u, Or.inl h2⟩

/-- C142 for IBEA with at least one individual. The constructor does not raise; in every
reachable state all vectors are in the box, there are `N` of them or, after a step, `N` and the
offspring; no further step raises; `finalized_population` returns `N` vectors of the box. -/
theorem C142_ibea (hS : Usable S) (hobj : objectives ≠ []) (hk : 1 / 32 ≤ kappa) (hN : 1 ≤ N) :
    (∀ population : List (List K), population.length = N → (∀ v ∈ population, FBox S.dims v) →
      ∃ s, ibeaInit round64 S objectives c population = some s) ∧
    ∀ s : IState K, IReach S ex kappa objectives c N s →
    (∀ x ∈ s.individuals, FBox S.dims x.v) ∧
    (s.individuals.length = N ∨ s.individuals.length = N + portion round64 c N) ∧
    (∀ inArchive hasArchive dm dv, (∀ i, MateDraw.Valid N (dm i)) → (∀ i, Draws (dv i)) →
      ∃ s', ibeaStep round64 S ex kappa objectives inArchive hasArchive dm dv s = some s' ∧
        s'.individuals.length = N + portion round64 c N) ∧
    ∀ inArchive hasArchive,
      ∃ s' r, ibeaFinish round64 S ex kappa objectives inArchive hasArchive s = some (s', r) ∧
        r.length = N ∧ ∀ v ∈ r, FBox S.dims v := by
  refine ⟨?_, ?_⟩
  · intro population hn hbox
    obtain ⟨s, h1, -⟩ := ibeaInit_ok (objectives := objectives) (c := c) hS hobj hN hn hbox
    exact ⟨s, h1⟩
  intro s h
  obtain ⟨hi, hu, hl⟩ := h.inv hS hobj hk hN
  refine ⟨hi.box, hl, ?_, ?_⟩
  · intro inArchive hasArchive dm dv hdm hdv
    obtain ⟨s', h1, -, -, h2⟩ := hi.step (ex := ex) (kappa := kappa) (objectives := objectives) hS hobj
      hk hN inArchive hasArchive hdm hdv hu.1
    exact ⟨s', h1, h2⟩
  · intro inArchive hasArchive
    obtain ⟨s', r, h1, h2, -, h3, rfl⟩ := hi.finish (ex := ex) (kappa := kappa)
      (objectives := objectives) hS hobj hk hN inArchive hasArchive
    refine ⟨s', _, h1, by rw [List.length_map, h3], ?_⟩
    intro v hv
    obtain ⟨x, hx, rfl⟩ := List.mem_map.1 hv
    exact h2.box x hx

/-- Two vectors, as many offspring (`exp` replaced by the identity). -/
example : ((ibeaInit round64 exSetup [fun v => v.sum, fun v => round64 (1 - v.sum)] 1
      [[0], [6004799503160661 / 2 ^ 54]]).bind
      (ibeaStep round64 exSetup (fun x => x) (1 / 20) [fun v => v.sum, fun v => round64 (1 - v.sum)] (fun _ => false) false
        (fun _ => ⟨0, 1, true⟩) (fun _ => exDraw))).map
      (fun s => (s.individuals.map (fun x => x.v), s.cost))
    = some ([[0], [6004799503160661 / 2 ^ 54], [1501199875790165 / 2 ^ 51], [1501199875790165 / 2 ^ 51]], 6) := by
  decide +kernel

end ibea

/-! ## SMS-EMOA -/

section smsemoa
variable {K : Type*} [Field K] [LinearOrder K] [IsStrictOrderedRing K] [FloorRing K]
  {A : Type*}

/-- The states of an SMS-EMOA driver started with `N` vectors in the box. -/
inductive MReach (S : Setup K) (key : List K → A) (fit : List K → List K) (m : ℕ) (mult : K)
    (N : ℕ) : MState K → Prop
  | start (fa : Option (Archive A (List K)))
      (ha : ∀ a, fa = some a → ∀ k f, a k = some f → f.length = m)
      (population : List (List K)) (hn : population.length = N)
      (hbox : ∀ v ∈ population, FBox S.dims v) :
      MReach S key fit m mult N (smsInit round64 S key fit fa mult population)
  | step (fa : Option (Archive A (List K)))
      (ha : ∀ a, fa = some a → ∀ k f, a k = some f → f.length = m)
      (iter : List (Ind (List K) (List K)) → List (Ind (List K) (List K)))
      (hiter : ∀ l, (iter l).Perm l) (hv : List (List K) → K)
      (dt : ℕ → ℕ × ℕ) (hdt : ∀ i, PairDraw N (dt i)) (dv : ℕ → VarDraw K)
      (hdv : ∀ i, Draws (dv i)) (s s' : MState K) (hs : MReach S key fit m mult N s)
      (h : smsStep round64 S key fit fa iter hv dt dv s = some s') : MReach S key fit m mult N s'

/-- The invariant behind C142 for SMS-EMOA. -/
structure MInv (S : Setup K) (m : ℕ) (mult : K) (N : ℕ) (s : MState K) : Prop where
  epoch : s.epochLength = portion round64 mult N
  ids : Ids s.nextId (s.individuals.map fun x => x.id)
  size : s.individuals.length = N
  box : ∀ x ∈ s.individuals, FBox S.dims x.v
  objs : ∀ x ∈ s.individuals, ∃ f, x.objectives = some f ∧ f.length = m

variable {S : Setup K} {key : List K → A} {fit : List K → List K} {m : ℕ} {mult : K} {N : ℕ}

theorem MInv.turn (hS : Usable S) (hfit : ∀ v, (fit v).length = m)
    {fa : Option (Archive A (List K))}
    (ha : ∀ a, fa = some a → ∀ k f, a k = some f → f.length = m)
    {iter : List (Ind (List K) (List K)) → List (Ind (List K) (List K))}
    (hiter : ∀ l, (iter l).Perm l) (hv : List (List K) → K) {t : ℕ × ℕ} (ht : PairDraw N t)
    {d : VarDraw K} (hd : Draws d) {s : MState K} (h : MInv S m mult N s) :
    ∃ s', smsTurn round64 S key fit fa iter hv t d s = some s' ∧ MInv S m mult N s' := by
  obtain ⟨h1, h2, h3⟩ := ht
  rw [← h.size] at h2 h3
  obtain ⟨v, hv1, hvb⟩ := makeChild_ok hS hd (h.box _ (List.getElem_mem h2))
    (h.box _ (List.getElem_mem h3))
  have hgen : smsGenerate round64 S s.individuals t d = some v := by
    unfold smsGenerate
    rw [if_neg h1, List.getElem?_eq_getElem h2, List.getElem?_eq_getElem h3]
    exact hv1
  obtain ⟨e1, e2, e3, e4⟩ := smsEval_spec (key := key) hfit ha s.individuals.length
    (newInds s.nextId [v])
  set ev := smsEval key fit fa s.individuals.length (newInds s.nextId [v]) with hev
  have hall : ∀ x ∈ s.individuals ++ ev.2,
      FBox S.dims x.v ∧ ∃ f, x.objectives = some f ∧ f.length = m := by
    intro x hx
    rcases List.mem_append.1 hx with hx | hx
    · exact ⟨h.box x hx, h.objs x hx⟩
    · refine ⟨?_, e4 x hx⟩
      have : x.v ∈ ev.2.map (fun x => x.v) := List.mem_map_of_mem hx
      rw [e2, newInds_v, List.mem_singleton] at this
      rw [this]; exact hvb
  have hids : Ids (s.nextId + 1) ((s.individuals ++ ev.2).map fun x => x.id) := by
    rw [List.map_append, e3, newInds_id]
    exact h.ids.append_range'
  have hl : (s.individuals ++ ev.2).length = N + 1 := by
    rw [List.length_append, e1, newInds_length, h.size]; rfl
  obtain ⟨x, hx, hr⟩ := reduce_one round64 iter hiter hv m objsOf (s.individuals ++ ev.2)
    (hids.1.of_map _) (by
      intro x hx
      obtain ⟨-, f, hf, hl⟩ := hall x hx
      rw [objsOf, hf]; exact hl) (by
      intro e; rw [e, List.length_nil] at hl; omega) (s.individuals.length + 1)
    (by rw [hl, h.size])
  refine ⟨{ s with individuals := (s.individuals ++ ev.2).erase x, cost := s.cost + ev.1, nextId := s.nextId + 1 }, by simp only [smsTurn, hgen, ← hev, hr], ?_⟩
  have hsub : ((s.individuals ++ ev.2).erase x).Subperm (s.individuals ++ ev.2) :=
    (List.erase_sublist).subperm
  refine ⟨h.epoch, hids.of_subperm (subperm_map _ hsub), ?_, ?_, ?_⟩
  · simp only
    rw [List.length_erase_of_mem hx, hl]; rfl
  · exact fun y hy => (hall y (hsub.subset hy)).1
  · exact fun y hy => (hall y (hsub.subset hy)).2

theorem MInv.turns (hS : Usable S) (hfit : ∀ v, (fit v).length = m)
    {fa : Option (Archive A (List K))}
    (ha : ∀ a, fa = some a → ∀ k f, a k = some f → f.length = m)
    {iter : List (Ind (List K) (List K)) → List (Ind (List K) (List K))}
    (hiter : ∀ l, (iter l).Perm l) (hv : List (List K) → K) {dt : ℕ → ℕ × ℕ}
    (hdt : ∀ i, PairDraw N (dt i)) {dv : ℕ → VarDraw K} (hdv : ∀ i, Draws (dv i)) (n : ℕ) :
    ∀ (k : ℕ) (s : MState K), MInv S m mult N s →
      ∃ s', smsTurns round64 S key fit fa iter hv dt dv k n s = some s' ∧ MInv S m mult N s' := by
  induction n with
  | zero => intro k s h; exact ⟨s, rfl, h⟩
  | succ n ih =>
    intro k s h
    obtain ⟨s1, h1, hi⟩ := h.turn (key := key) hS hfit ha hiter hv (hdt k) (hdv k)
    obtain ⟨s2, h2, hi2⟩ := ih (k + 1) s1 hi
    exact ⟨s2, by simp only [smsTurns, h1, h2], hi2⟩

theorem MReach.inv (hS : Usable S) (hfit : ∀ v, (fit v).length = m) {s : MState K}
    (h : MReach S key fit m mult N s) : MInv S m mult N s := by
  induction h with
  | start fa ha population hn hbox =>
    have hl : (newInds 0 (population.map S.trim)).length = N := by
      rw [newInds_length, List.length_map, hn]
    obtain ⟨e1, e2, e3, e4⟩ := smsEval_spec (key := key) hfit ha N
      (newInds 0 (population.map S.trim))
    have e : smsInit round64 S key fit fa mult population =
        ⟨(smsEval key fit fa N (newInds 0 (population.map S.trim))).2, portion round64 mult N,
          (smsEval key fit fa N (newInds 0 (population.map S.trim))).1, N⟩ := by
      simp only [smsInit, hl]
    rw [e]
    refine ⟨rfl, ?_, e1.trans hl, ?_, e4⟩
    · simp only
      rw [e3, newInds_id, List.length_map, hn]
      have := Ids.append_range' (next := 0) (n := N) (l := []) ⟨List.nodup_nil, by simp⟩
      simpa using this
    · intro x hx
      have hxv : x.v ∈ (smsEval key fit fa N (newInds 0 (population.map S.trim))).2.map
        (fun x => x.v) := List.mem_map_of_mem hx
      rw [e2, newInds_v] at hxv
      obtain ⟨v, hv, e⟩ := List.mem_map.1 hxv
      rw [← e]
      exact hS.trim v (hbox v hv)
  | step fa ha iter hiter hv dt hdt dv hdv s s' hs h ih =>
    obtain ⟨t, ht, h1⟩ := MInv.turns (key := key) hS hfit ha hiter hv hdt hdv s.epochLength 0 s ih
    obtain rfl : s' = t := Option.some.inj (h.symm.trans ht)
    exact h1

/-- C142 for SMS-EMOA. In every reachable state there are exactly `N` individuals, all of them
in the box and evaluated, and no further step raises. (The hypothesis on the draws says that
`random.sample` can draw two different positions, so it needs `N ≥ 2`.) -/
theorem C142_smsemoa (hS : Usable S) (hfit : ∀ v, (fit v).length = m) (s : MState K)
    (h : MReach S key fit m mult N s) :
    (smsFinal s).length = N ∧ (∀ v ∈ smsFinal s, FBox S.dims v) ∧
    (∀ x ∈ s.individuals, ∃ f, x.objectives = some f ∧ f.length = m) ∧
    ∀ (fa : Option (Archive A (List K))),
      (∀ a, fa = some a → ∀ k f, a k = some f → f.length = m) →
      ∀ iter : List (Ind (List K) (List K)) → List (Ind (List K) (List K)),
      (∀ l, (iter l).Perm l) → ∀ hv dt dv, (∀ i, PairDraw N (dt i)) → (∀ i, Draws (dv i)) →
        ∃ s', smsStep round64 S key fit fa iter hv dt dv s = some s' := by
  have hi := h.inv hS hfit
  refine ⟨by rw [smsFinal, List.length_map, hi.size], ?_, hi.objs, ?_⟩
  · intro v hv
    obtain ⟨x, hx, rfl⟩ := List.mem_map.1 hv
    exact hi.box x hx
  · intro fa ha iter hiter hv dt dv hdt hdv
    obtain ⟨t, ht, -⟩ := MInv.turns (key := key) hS hfit ha hiter hv hdt hdv s.epochLength 0 s hi
    exact ⟨t, ht⟩

/-- Two vectors and one child per step (sum of the values instead of the hypervolume). -/
example : (smsStep round64 exSetup id exFit none id (fun l => (l.map List.sum).sum) (fun _ => (0, 1))
      (fun _ => exDraw) (smsInit round64 exSetup id exFit none (1 / 2) [[0], [6004799503160661 / 2 ^ 54]])).map
      (fun s => (smsFinal s, s.cost)) = some ([[6004799503160661 / 2 ^ 54], [5066549580791807 / 2 ^ 53]], 4) := by decide +kernel

end smsemoa

end Evogil.Rounded.Run
