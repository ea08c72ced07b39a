import Verif.Model.RoundedImga
import Verif.Props.ImgaRunRest
import Verif.Props.RoundedBudget
import Verif.Props.RoundedSelection

/-!
# C153: whole runs of IMGA whose islands compute in floating point
-/

set_option linter.unusedSectionVars false

namespace Evogil.Rounded.Islands

open Evaluation Generations Spec Binary64 Imga Rounded.Run

section
variable {K : Type*} [Field K] [LinearOrder K] [IsStrictOrderedRing K] [FloorRing K] {σ ι : Type*}
  {D : IslandOps σ ι (List K)}

/-- `run_torus` for results of floats. -/
theorem run_floats {n N : ℕ} (hn : 0 < n) {Inv Ready : ℕ → σ → Prop} {P : ι → Prop} {W : Type*}
    {obs : ι → W} {g G : ℕ → ℕ} {dims : List (K × K)}
    (h : Loose D n Inv Ready P obs (islandSize N n) g G (fun i r => GoodFloats dims (islandSize N n i) r))
    {mk : List (List K) → Option σ} {population : List (List K)} (hN : population.length = N)
    (hmk : ∀ i, i < n → ∀ p : List (List K), p.length = islandSize N n i →
      (∀ v ∈ p, v ∈ population) → ∃ s, mk p = some s ∧ Inv i s)
    (fit : List K → List K) {w : ℕ} (hw : 0 < w) {mig : ℕ} (hmig : mig * 4 ≤ N / n)
    {len : ℕ} (hlen : 0 < len) (hg : ∃ i, i < n ∧ 0 < g i)
    (pick : ℕ → ℕ → ℕ → ℕ → List (List (List K)) → Option (List K))
    (hpick : ∀ k a b j, PickOk (pick k a b j)) (budgets : List ℤ) (hpos : ∀ b ∈ budgets, 0 < b)
    (fuel : ℕ) (hfuel : ∀ b ∈ budgets, b ≤ fuel) :
    ∃ top s, torus w n = some top ∧ start mk n population = some s ∧
      ∃ res o', budgetWorker (driver D fit top mig len pick) fuel budgets ⟨some (0, s), 0⟩ = some (res, o') ∧
        res.map (fun r => r.name) = budgets ∧
        ∀ r ∈ res, r.name ≤ r.cost ∧ ∃ p, r.pop = some p ∧ GoodFloats dims N p := by
  obtain ⟨top, s, htop, h1, res, o', e1, e2, e3⟩ := run_torus_any hn h hN hmk fit hw hmig hlen hg pick hpick
    budgets hpos fuel hfuel
  refine ⟨top, s, htop, h1, res, o', e1, e2, fun r hr => ?_⟩
  obtain ⟨f1, p, f2, rs, rfl, f3, f4⟩ := e3 r hr
  refine ⟨f1, _, f2, flatten_size hn rs f3 (fun i r hr => (f4 i r hr).1), ?_⟩
  intro v hv
  obtain ⟨r, hr, hv⟩ := List.mem_flatten.1 hv
  obtain ⟨i, hi⟩ := List.mem_iff_getElem?.1 hr
  exact (f4 i r hi).2 v hv

end

/-! ## NSGA-II -/

section nsgaii
variable {K : Type*} [Field K] [LinearOrder K] [IsStrictOrderedRing K] [FloorRing K] {A : Type*} [DecidableEq A]
  {S : Setup K} {key : List K → A} {fit : List K → List K} {m jumps : ℕ} {c : K} {n N : ℕ}

theorem nsgaii_contract (hS : Usable S) (hm : m ≤ 2 ^ 51) (hfit : ∀ v, (fit v).length = m)
    {iter : ℕ → ℕ → ℕ → List (Ind (List K) (List K)) → List (Ind (List K) (List K))}
    (hiter : ∀ i k j l, (iter i k j l).Perm l) {dm : ℕ → ℕ → ℕ → ℕ → MateDraw}
    (hdm : ∀ i k j t, (dm i k j t).Valid (islandSize N n i)) {dv : ℕ → ℕ → ℕ → ℕ → VarDraw K}
    (hdv : ∀ i k j t, Draws (dv i k j t)) :
    Contract (nsgaiiOps round64 S key fit m iter dm dv) n
      (fun i s => Rounded.Run.NInv S m c (islandSize N n i) s ∧ s.acc.archive = none)
      (fun i s => Rounded.Run.NInv S m c (islandSize N n i) s ∧ s.acc.archive = none)
      (fun x => FBox S.dims x.1 ∧ ∃ f, x.2 = some f ∧ f.length = m) (islandSize N n)
      (fun i => portion round64 c (islandSize N n i))
      (fun i r => GoodFloats S.dims (islandSize N n i) r) where
  ready := fun i s h => h
  step := by
    rintro i - k j s ⟨h, ha⟩
    obtain ⟨s', h1, h2, -⟩ := h.step (key := key) hS hm hfit (hiter i k j) (hdm i k j) (hdv i k j)
    obtain ⟨h3, h4⟩ := (nsgaiiStep_shape hS hm hfit (hiter i k j) (hdm i k j) (hdv i k j) h h1).2.2 ha
    exact ⟨s', h1, ⟨h2, h3⟩, h4⟩
  put := by
    rintro i - s l ⟨h, ha⟩ hl hP
    have hl' : l.length = s.individuals.length := by simpa [nsgaiiOps] using hl
    refine ⟨⟨⟨h.size, h.mating, renumber_ids s.nextId l, ?_, ?_, ?_, h.arch⟩, ha⟩, rfl,
      renumber_payload s.nextId l⟩
    · show _ ≤ (renumber s.nextId l).length
      rw [renumber_length, hl']
      exact h.large
    · exact fun x hx => (hP _ (renumber_mem hx)).1
    · exact fun x hx => (hP _ (renumber_mem hx)).2
  inds := by
    rintro i - s ⟨h, -⟩
    refine ⟨by simpa [nsgaiiOps] using h.large, ?_⟩
    intro x hx
    obtain ⟨y, hy, rfl⟩ := List.mem_map.1 hx
    exact ⟨h.box y hy, h.objs y hy⟩
  finish := by
    rintro i - k s ⟨h, ha⟩
    obtain ⟨s', r, h1, h2, h3, rfl⟩ := h.finish (key := key) hS hm hfit (hiter i k 0)
    obtain ⟨h4, h5⟩ := h.finish_cost ha h1
    refine ⟨s', _, h1, ⟨h2, h4⟩, ⟨by rw [List.length_map, h3], ?_⟩, h5.ge⟩
    intro v hv
    obtain ⟨x, hx, rfl⟩ := List.mem_map.1 hv
    exact h2.box x hx

/-- C153 for islands with NSGA-II. If the largest island has offspring and nobody sends away more than the population of an
island, there is a result for every positive budget: as many vectors as in the initial population, all of floats of the box,
at no less than the cost asked for. -/
theorem C153_nsgaii (hS : Usable S) (hm : m ≤ 2 ^ 51) (hfit : ∀ v, (fit v).length = m) (hn : 0 < n)
    (hM : 1 ≤ portion round64 c (islandSize N n 0))
    (iter : ℕ → ℕ → ℕ → List (Ind (List K) (List K)) → List (Ind (List K) (List K)))
    (hiter : ∀ i k j l, (iter i k j l).Perm l) (dm : ℕ → ℕ → ℕ → ℕ → MateDraw)
    (hdm : ∀ i k j t, (dm i k j t).Valid (islandSize N n i)) (dv : ℕ → ℕ → ℕ → ℕ → VarDraw K)
    (hdv : ∀ i k j t, Draws (dv i k j t)) (population : List (List K)) (hN : population.length = N)
    (hbox : ∀ v ∈ population, FBox S.dims v) {w : ℕ} (hw : 0 < w) {mig : ℕ}
    (hmig : mig * 4 ≤ N / n) {len : ℕ} (hlen : 0 < len)
    (pick : ℕ → ℕ → ℕ → ℕ → List (List (List K)) → Option (List K))
    (hpick : ∀ k a b j, PickOk (pick k a b j)) (budgets : List ℤ) (hpos : ∀ b ∈ budgets, 0 < b)
    (fuel : ℕ) (hfuel : ∀ b ∈ budgets, b ≤ fuel) :
    ∃ top s, torus w n = some top ∧
      start (fun p => some (nsgaiiInit round64 S key fit none c p)) n population = some s ∧
      ∃ res o', budgetWorker (driver (nsgaiiOps round64 S key fit m iter dm dv) fit top mig len pick) fuel
          budgets ⟨some (0, s), 0⟩ = some (res, o') ∧
        res.map (fun r => r.name) = budgets ∧
        ∀ r ∈ res, r.name ≤ r.cost ∧ ∃ p, r.pop = some p ∧ GoodFloats S.dims N p :=
  run_floats hn (nsgaii_contract (c := c) hS hm hfit hiter hdm hdv).loose hN (by
    intro i _ p hp hmem
    exact ⟨_, rfl, ((Rounded.Run.NReach.start none (by simp) p hp fun v hv => hbox v (hmem v hv)).inv hS hm hfit).1,
      (Rounded.Run.nsgaiiInit_cost p).1⟩) fit hw hmig hlen ⟨0, hn, hM⟩ pick hpick budgets hpos fuel hfuel

/-- Two islands with two vectors each, one migrant, epochs of one step. -/
example : ((start (fun p => some (Rounded.Run.nsgaiiInit round64 Rounded.Run.exSetup (fun v : List ℚ => v) Rounded.Run.exFit none 1 p)) 2
      [[0], [1 / 2], [1], [6004799503160661 / 2 ^ 54]]).bind fun s =>
      (budgetWorker (driver (nsgaiiOps round64 Rounded.Run.exSetup (fun v : List ℚ => v) Rounded.Run.exFit 2 (fun _ _ _ l => l)
        (fun _ _ _ _ => ⟨0, 1, true⟩) (fun _ _ _ _ => Rounded.Run.exDraw)) Rounded.Run.exFit [[1], [0]] 1 1
        (fun _ _ _ _ L => L.flatten.head?)) 5 [5, 9] ⟨some (0, s), 0⟩).map
      (fun r => r.1.map fun x => (x.name, x.cost, x.pop.map List.length)))
    = some [(5, 8, some 4), (9, 12, some 4)] := by decide +kernel

/-! ## JGBL -/

theorem jgbl_contract (hS : Usable S) (hp : Rounded.Run.Closed S.dims) (hm : m ≤ 2 ^ 51) (hfit : ∀ v, (fit v).length = m)
    {d : JgblDraws K} (ho : ∀ i k j, (d.orders i k j).Valid)
    (hdm : ∀ i k j t, (d.dm i k j t).Valid (islandSize N n i)) (hdv : ∀ i k j t, Draws (d.dv i k j t))
    (hjd : ∀ i k j, Jumping.JumpsValid S.dims.length jumps (d.jd i k j)) :
    Loose (jgblOps round64 S key fit m d) n
      (fun i s => Rounded.Run.NInv S m c (islandSize N n i) s ∧ s.acc.archive = none)
      (fun i s => Rounded.Run.NInv S m c (islandSize N n i) s ∧ s.acc.archive = none)
      (fun x => FBox S.dims x.1 ∧ ∃ f, x.2 = some f ∧ f.length = m) id (islandSize N n)
      (fun i => portion round64 c (islandSize N n i))
      (fun i => portion round64 c (islandSize N n i) + 6 * islandSize N n i)
      (fun i r => GoodFloats S.dims (islandSize N n i) r) := by
  have base := (nsgaii_contract (S := S) (key := key) (c := c) (n := n) (N := N) hS hm hfit
    (iter := fun i k j => (d.orders i k j).inner) (fun i k j => (ho i k j).inner) hdm hdv).loose
  refine ⟨base.ready, ?_, base.put, base.inds, base.finish⟩
  rintro i - k j s ⟨h, ha⟩
  obtain ⟨s', e1, g1, -, g3⟩ := h.jump (key := key) hS hp hm hfit (ho i k j) (hdm i k j) (hdv i k j)
    (jd := d.jd i k j) (k := jumps) (hjd i k j)
  obtain ⟨b1, q, b3, b2⟩ := g3 ha
  refine ⟨s', e1, ⟨g1, b1⟩, ?_, ?_⟩
  all_goals
    simp only [jgblOps, b2]
    omega

/-- C153 for islands with JGBL in the boxes in which a ratio of 1 is decoded to a number of the box, if the largest island
has offspring. -/
theorem C153_jgbl (hS : Usable S) (hp : Rounded.Run.Closed S.dims) (hm : m ≤ 2 ^ 51) (hfit : ∀ v, (fit v).length = m) (hn : 0 < n)
    (hM : 1 ≤ portion round64 c (islandSize N n 0)) (d : JgblDraws K) (ho : ∀ i k j, (d.orders i k j).Valid)
    (hdm : ∀ i k j t, (d.dm i k j t).Valid (islandSize N n i)) (hdv : ∀ i k j t, Draws (d.dv i k j t))
    (hjd : ∀ i k j, Jumping.JumpsValid S.dims.length jumps (d.jd i k j))
    (population : List (List K)) (hN : population.length = N)
    (hbox : ∀ v ∈ population, FBox S.dims v) {w : ℕ} (hw : 0 < w) {mig : ℕ} (hmig : mig * 4 ≤ N / n)
    {len : ℕ} (hlen : 0 < len) (pick : ℕ → ℕ → ℕ → ℕ → List (List (List K)) → Option (List K))
    (hpick : ∀ k a b j, PickOk (pick k a b j)) (budgets : List ℤ) (hpos : ∀ b ∈ budgets, 0 < b)
    (fuel : ℕ) (hfuel : ∀ b ∈ budgets, b ≤ fuel) :
    ∃ top s, torus w n = some top ∧
      start (fun p => some (nsgaiiInit round64 S key fit none c p)) n population = some s ∧
      ∃ res o', budgetWorker (driver (jgblOps round64 S key fit m d) fit top mig len pick) fuel
          budgets ⟨some (0, s), 0⟩ = some (res, o') ∧
        res.map (fun r => r.name) = budgets ∧
        ∀ r ∈ res, r.name ≤ r.cost ∧ ∃ p, r.pop = some p ∧ GoodFloats S.dims N p :=
  run_floats hn (jgbl_contract (c := c) hS hp hm hfit ho hdm hdv hjd) hN (by
    intro i _ p hp hmem
    exact ⟨_, rfl, ((Rounded.Run.NReach.start none (by simp) p hp fun v hv => hbox v (hmem v hv)).inv hS hm hfit).1,
      (Rounded.Run.nsgaiiInit_cost p).1⟩) fit hw hmig hlen ⟨0, hn, hM⟩ pick hpick budgets hpos fuel hfuel

/-- Two islands of two vectors with JGBL; the first individual jumps if there are mates. -/
example : ((start (fun p => some (Rounded.Run.nsgaiiInit round64 Rounded.Run.exSetup (fun v : List ℚ => v) Rounded.Run.exFit
      none 1 p)) 2 [[0], [1 / 2], [1], [6004799503160661 / 2 ^ 54]]).bind fun s =>
      (budgetWorker (driver (jgblOps round64 Rounded.Run.exSetup (fun v : List ℚ => v) Rounded.Run.exFit 2
        ⟨fun _ _ _ => ⟨id, id, id, id, id⟩, fun _ _ _ _ => ⟨0, 1, true⟩, fun _ _ _ _ => Rounded.Run.exDraw,
          fun _ _ _ => Rounded.Run.exJumps⟩) Rounded.Run.exFit [[1], [0]] 1 1
        (fun _ _ _ _ L => L.flatten.head?)) 9 [5, 9] ⟨some (0, s), 0⟩).map
      (fun r => r.1.map fun x => (x.name, x.cost, x.pop.map List.length)))
    = some [(5, 20, some 4), (9, 20, some 4)] := by decide +kernel

end nsgaii

/-! ## SPEA2 -/

section spea2
variable {K : Type*} [Field K] [LinearOrder K] [IsStrictOrderedRing K] [FloorRing K] {A : Type*}
  {S : Setup K} {dist : List K → List K → K} {key : List K → A} {fit : List K → List K} {m n N : ℕ}

theorem spea2_contract (hS : Usable S) (hdist : ∀ a b, 0 ≤ dist a b) (hfit : ∀ v, (fit v).length = m)
    (h2 : 2 ≤ N / n) {dt : ℕ → ℕ → ℕ → ℕ → (ℕ × ℕ) × (ℕ × ℕ)}
    (hdt : ∀ i k j t, PairDraw (islandSize N n i) (dt i k j t).1 ∧ PairDraw (islandSize N n i) (dt i k j t).2)
    {dv : ℕ → ℕ → ℕ → ℕ → VarDraw K} (hdv : ∀ i k j t, Draws (dv i k j t)) :
    Contract (spea2Ops round64 S dist key fit dt dv) n (fun i s => Rounded.Run.SInv S m (islandSize N n i) s)
      (fun i s => Rounded.Run.SInv S m (islandSize N n i) s ∧ s.archive.length = islandSize N n i)
      (fun x => FBox S.dims x.1) (islandSize N n) (islandSize N n)
      (fun i r => GoodFloats S.dims (islandSize N n i) r) where
  ready := fun i s h => h.1
  step := by
    rintro i - k j s h
    have hN : 2 ≤ islandSize N n i := by unfold islandSize; omega
    obtain ⟨s', h1, h2, h3⟩ := h.step (key := key) (fa := none) hS hdist hfit hN (by simp) (hdt i k j) (hdv i k j)
    exact ⟨s', h1, ⟨h2, h3⟩, Rounded.Run.spea2Step_cost (by omega) h h1⟩
  put := by
    rintro i - s l ⟨h, ha⟩ hl hP
    have hl' : l.length = s.individuals.length := by simpa [spea2Ops] using hl
    refine ⟨⟨⟨h.size, ?_, ?_, h.arch, h.abox⟩, ha⟩, rfl, renumber_payload s.nextId l⟩
    · show (renumber s.nextId l).length = _
      rw [renumber_length, hl', h.inds]
    · exact fun x hx => hP _ (renumber_mem hx)
  inds := by
    rintro i - s ⟨h, -⟩
    refine ⟨by simp [spea2Ops, h.inds], ?_⟩
    intro x hx
    obtain ⟨y, hy, rfl⟩ := List.mem_map.1 hx
    exact h.ibox y hy
  finish := by
    rintro i - k s ⟨h, ha⟩
    refine ⟨s, _, rfl, ⟨h, ha⟩, ⟨by rw [spea2Final, List.length_map, ha], ?_⟩, le_rfl⟩
    intro v hv
    obtain ⟨x, hx, rfl⟩ := List.mem_map.1 hv
    exact (h.abox x hx).1

/-- C153 for islands with SPEA2, with at least two individuals on every island. -/
theorem C153_spea2 (hS : Usable S) (hdist : ∀ a b, 0 ≤ dist a b) (hfit : ∀ v, (fit v).length = m)
    (hn : 0 < n) (h2 : 2 ≤ N / n) (dt : ℕ → ℕ → ℕ → ℕ → (ℕ × ℕ) × (ℕ × ℕ))
    (hdt : ∀ i k j t, PairDraw (islandSize N n i) (dt i k j t).1 ∧ PairDraw (islandSize N n i) (dt i k j t).2)
    (dv : ℕ → ℕ → ℕ → ℕ → VarDraw K) (hdv : ∀ i k j t, Draws (dv i k j t)) (population : List (List K))
    (hN : population.length = N) (hbox : ∀ v ∈ population, FBox S.dims v) {w : ℕ} (hw : 0 < w) {mig : ℕ}
    (hmig : mig * 4 ≤ N / n) {len : ℕ} (hlen : 0 < len)
    (pick : ℕ → ℕ → ℕ → ℕ → List (List (List K)) → Option (List K))
    (hpick : ∀ k a b j, PickOk (pick k a b j)) (budgets : List ℤ) (hpos : ∀ b ∈ budgets, 0 < b)
    (fuel : ℕ) (hfuel : ∀ b ∈ budgets, b ≤ fuel) :
    ∃ top s, torus w n = some top ∧
      start (fun p => some (Generations.spea2Init S p)) n population = some s ∧
      ∃ res o', budgetWorker (driver (spea2Ops round64 S dist key fit dt dv) fit top mig len pick) fuel
          budgets ⟨some (0, s), 0⟩ = some (res, o') ∧
        res.map (fun r => r.name) = budgets ∧
        ∀ r ∈ res, r.name ≤ r.cost ∧ ∃ p, r.pop = some p ∧ GoodFloats S.dims N p :=
  run_floats hn (spea2_contract hS hdist hfit h2 hdt hdv).loose hN (by
    intro i _ p hp hmem
    exact ⟨_, rfl, (Rounded.Run.SFull.start hS hp fun v hv => hbox v (hmem v hv)).1⟩) fit hw hmig hlen
    ⟨0, hn, by unfold islandSize; omega⟩ pick hpick budgets hpos fuel hfuel

/-- Two islands of two vectors. -/
example : ((start (fun p => some (Generations.spea2Init Rounded.Run.exSetup p)) 2 [[0], [1 / 2], [1], [6004799503160661 / 2 ^ 54]]).bind fun s =>
      (budgetWorker (driver (spea2Ops round64 Rounded.Run.exSetup (fun a b => |round64 (a.sum - b.sum)|) id Rounded.Run.exFit
        (fun _ _ _ _ => ((0, 1), (1, 0))) (fun _ _ _ _ => Rounded.Run.exDraw)) Rounded.Run.exFit [[1], [0]] 1 1
        (fun _ _ _ _ L => L.flatten.head?)) 9 [5, 9] ⟨some (0, s), 0⟩).map
      (fun r => r.1.map fun x => (x.name, x.cost, x.pop.map List.length)))
    = some [(5, 8, some 4), (9, 12, some 4)] := by decide +kernel

end spea2

/-! ## IBEA -/

section ibea
variable {K : Type*} [Field K] [LinearOrder K] [IsStrictOrderedRing K] [FloorRing K]
  {S : Setup K} {ex : K → K} {kappa : K} {objectives : List (List K → K)} {c : K} {n N : ℕ}

theorem ibea_contract (hS : Usable S) (hobj : objectives ≠ []) (hk : 1 / 32 ≤ kappa) (h1 : 1 ≤ N / n)
    {dm : ℕ → ℕ → ℕ → ℕ → MateDraw} (hdm : ∀ i k j t, (dm i k j t).Valid (islandSize N n i))
    {dv : ℕ → ℕ → ℕ → ℕ → VarDraw K} (hdv : ∀ i k j t, Draws (dv i k j t)) :
    Contract (ibeaOps round64 S ex kappa objectives dm dv) n
      (fun i s => Rounded.Run.IInv S c (islandSize N n i) s ∧ s.scaled ≠ [])
      (fun i s => Rounded.Run.IInv S c (islandSize N n i) s ∧ s.scaled ≠ [])
      (fun x => FBox S.dims x.1) (islandSize N n)
      (fun i => islandSize N n i + portion round64 c (islandSize N n i))
      (fun i r => GoodFloats S.dims (islandSize N n i) r) where
  ready := fun i s h => h
  step := by
    rintro i - k j s ⟨h, hu⟩
    obtain ⟨s', h1, h2, h2u, h3⟩ := h.step (ex := ex) (kappa := kappa) (objectives := objectives) hS hobj hk
      (by unfold islandSize; omega) (fun _ => false) false (hdm i k j) (hdv i k j) hu
    exact ⟨s', h1, ⟨h2, h2u.1⟩, by
      show s'.cost = s.cost + _
      rw [Rounded.Run.ibeaStep_cost h1, h3]⟩
  put := by
    rintro i - s l ⟨h, hu⟩ hl hP
    have hl' : l.length = s.individuals.length := by simpa [ibeaOps] using hl
    have hmem : ∀ x ∈ (l.zipIdx.map fun p => (⟨s.nextId + p.2, p.1.1, p.1.2⟩ : IInd K)), (x.v, x.known) ∈ l := by
      intro x hx
      obtain ⟨p, hp, rfl⟩ := List.mem_map.1 hx
      exact List.fst_mem_of_mem_zipIdx hp
    refine ⟨⟨⟨h.size, h.mating, ?_, ?_, fun x hx => hP _ (hmem x hx)⟩, hu⟩, rfl, ?_⟩
    · have e : (l.zipIdx.map fun p => (⟨s.nextId + p.2, p.1.1, p.1.2⟩ : IInd K)).map (fun x => x.id)
          = List.range' s.nextId l.length := by
        rw [List.map_map]
        refine List.ext_getElem (by simp) fun i hi _ => ?_
        simp
      have := Ids.append_range' (next := s.nextId) (n := l.length) (l := []) ⟨List.nodup_nil, by simp⟩
      show Ids (s.nextId + l.length) _
      simp only [ibeaOps] at *
      rw [e]
      simpa using this
    · show _ ≤ (l.zipIdx.map fun p => (⟨s.nextId + p.2, p.1.1, p.1.2⟩ : IInd K)).length
      rw [List.length_map, List.length_zipIdx, hl']
      exact h.large
    · show (l.zipIdx.map fun p => (⟨s.nextId + p.2, p.1.1, p.1.2⟩ : IInd K)).map (fun x => (x.v, x.known)) = l
      rw [List.map_map]
      refine List.ext_getElem (by simp) fun i hi _ => ?_
      simp
  inds := by
    rintro i - s ⟨h, -⟩
    refine ⟨by simpa [ibeaOps] using h.large, ?_⟩
    intro x hx
    obtain ⟨y, hy, rfl⟩ := List.mem_map.1 hx
    exact h.box y hy
  finish := by
    rintro i - k s ⟨h, hu⟩
    obtain ⟨s', r, h1, h2, h2u, h3, rfl⟩ := h.finish (ex := ex) (kappa := kappa)
      (objectives := objectives) hS hobj hk (by unfold islandSize; omega) (fun _ => false) false
    refine ⟨s', _, h1, ⟨h2, h2u.1⟩, ⟨by rw [List.length_map, h3], ?_⟩, ?_⟩
    · intro v hv
      obtain ⟨x, hx, rfl⟩ := List.mem_map.1 hv
      exact h2.box x hx
    · show s.cost ≤ s'.cost
      rw [Rounded.Run.ibeaFinish_cost h1]
      omega

/-- C153 for islands with IBEA with `kappa` at least 1/32: although immigrants are compared by objectives scaled for the
population before migration, no argument of `math.exp` is too large. -/
theorem C153_ibea (hS : Usable S) (hobj : objectives ≠ []) (hk : 1 / 32 ≤ kappa) (hn : 0 < n) (h1 : 1 ≤ N / n)
    (dm : ℕ → ℕ → ℕ → ℕ → MateDraw) (hdm : ∀ i k j t, (dm i k j t).Valid (islandSize N n i))
    (dv : ℕ → ℕ → ℕ → ℕ → VarDraw K) (hdv : ∀ i k j t, Draws (dv i k j t)) (population : List (List K))
    (hN : population.length = N) (hbox : ∀ v ∈ population, FBox S.dims v) {w : ℕ} (hw : 0 < w) {mig : ℕ}
    (hmig : mig * 4 ≤ N / n) {len : ℕ} (hlen : 0 < len)
    (pick : ℕ → ℕ → ℕ → ℕ → List (List (List K)) → Option (List K))
    (hpick : ∀ k a b j, PickOk (pick k a b j)) (budgets : List ℤ) (hpos : ∀ b ∈ budgets, 0 < b)
    (fuel : ℕ) (hfuel : ∀ b ∈ budgets, b ≤ fuel) :
    ∃ top s, torus w n = some top ∧
      start (ibeaInit round64 S objectives c) n population = some s ∧
      ∃ res o', budgetWorker (driver (ibeaOps round64 S ex kappa objectives dm dv)
          (fun v => objectives.map fun o => o v) top mig len pick) fuel
          budgets ⟨some (0, s), 0⟩ = some (res, o') ∧
        res.map (fun r => r.name) = budgets ∧
        ∀ r ∈ res, r.name ≤ r.cost ∧ ∃ p, r.pop = some p ∧ GoodFloats S.dims N p :=
  run_floats hn (ibea_contract (c := c) hS hobj hk h1 hdm hdv).loose hN (by
    intro i _ p hp hmem
    obtain ⟨s, e1, e2, e3, -⟩ := Rounded.Run.ibeaInit_ok (objectives := objectives) (c := c) hS hobj
      (show 1 ≤ islandSize N n i by unfold islandSize; omega) hp (fun v hv => hbox v (hmem v hv))
    exact ⟨s, e1, e2, e3.1⟩) _ hw hmig hlen
    ⟨0, hn, by unfold islandSize; omega⟩ pick hpick budgets hpos fuel hfuel

/-- Two islands of two vectors with as many offspring. -/
example : ((start (ibeaInit round64 Rounded.Run.exSetup [fun v => v.sum, fun v => round64 (1 - v.sum)] 1) 2
      [[0], [1 / 2], [1], [6004799503160661 / 2 ^ 54]]).bind fun s =>
      (budgetWorker (driver (ibeaOps round64 Rounded.Run.exSetup (fun x => x) (1 / 20)
        [fun v => v.sum, fun v => round64 (1 - v.sum)] (fun _ _ _ _ => ⟨0, 1, true⟩) (fun _ _ _ _ => Rounded.Run.exDraw))
        Rounded.Run.exFit [[1], [0]] 1 1 (fun _ _ _ _ L => L.flatten.head?)) 9 [5, 9] ⟨some (0, s), 0⟩).map
      (fun r => r.1.map fun x => (x.name, x.cost, x.pop.map List.length)))
    = some [(5, 12, some 4), (9, 12, some 4)] := by decide +kernel

end ibea

/-! ## SMS-EMOA -/

section smsemoa
variable {K : Type*} [Field K] [LinearOrder K] [IsStrictOrderedRing K] [FloorRing K]
  {A : Type*} {S : Setup K} {key : List K → A} {fit : List K → List K} {m : ℕ} {mult : K} {n N : ℕ}

theorem sms_contract (hS : Usable S) (hfit : ∀ v, (fit v).length = m)
    {iter : ℕ → ℕ → ℕ → List (Ind (List K) (List K)) → List (Ind (List K) (List K))}
    (hiter : ∀ i k j l, (iter i k j l).Perm l) (hv : List (List K) → K)
    {dt : ℕ → ℕ → ℕ → ℕ → ℕ × ℕ} (hdt : ∀ i k j t, PairDraw (islandSize N n i) (dt i k j t))
    {dv : ℕ → ℕ → ℕ → ℕ → VarDraw K} (hdv : ∀ i k j t, Draws (dv i k j t)) :
    Contract (smsOps round64 S key fit iter hv dt dv) n (fun i s => Rounded.Run.MInv S m mult (islandSize N n i) s)
      (fun i s => Rounded.Run.MInv S m mult (islandSize N n i) s)
      (fun x => FBox S.dims x.1 ∧ ∃ f, x.2 = some f ∧ f.length = m) (islandSize N n)
      (fun i => portion round64 mult (islandSize N n i) * islandSize N n i)
      (fun i r => GoodFloats S.dims (islandSize N n i) r) where
  ready := fun i s h => h
  step := by
    rintro i - k j s h
    obtain ⟨s', h1, h2⟩ := Rounded.Run.MInv.turns (key := key) (fa := none) hS hfit (by simp) (hiter i k j) hv
      (hdt i k j) (hdv i k j) s.epochLength 0 s h
    refine ⟨s', h1, h2, ?_⟩
    show s'.cost = s.cost + _
    rw [Rounded.Run.smsTurns_cost hS hfit (hiter i k j) hv (hdt i k j) (hdv i k j) _ _ _ _ h h1, h.epoch]
  put := by
    rintro i - s l h hl hP
    have hl' : l.length = s.individuals.length := by simpa [smsOps] using hl
    refine ⟨⟨h.epoch, renumber_ids s.nextId l, ?_, ?_, ?_⟩, rfl, renumber_payload s.nextId l⟩
    · show (renumber s.nextId l).length = _
      rw [renumber_length, hl', h.size]
    · exact fun x hx => (hP _ (renumber_mem hx)).1
    · exact fun x hx => (hP _ (renumber_mem hx)).2
  inds := by
    rintro i - s h
    refine ⟨by simp [smsOps, h.size], ?_⟩
    intro x hx
    obtain ⟨y, hy, rfl⟩ := List.mem_map.1 hx
    exact ⟨h.box y hy, h.objs y hy⟩
  finish := by
    rintro i - k s h
    refine ⟨s, _, rfl, h, ⟨by rw [smsFinal, List.length_map, h.size], ?_⟩, le_rfl⟩
    intro v hv
    obtain ⟨x, hx, rfl⟩ := List.mem_map.1 hv
    exact h.box x hx

/-- C153 for islands with SMS-EMOA, with at least two individuals on every island and at least one child per epoch on the
largest one. -/
theorem C153_smsemoa (hS : Usable S) (hfit : ∀ v, (fit v).length = m) (hn : 0 < n)
    (hM : 1 ≤ portion round64 mult (islandSize N n 0))
    (iter : ℕ → ℕ → ℕ → List (Ind (List K) (List K)) → List (Ind (List K) (List K)))
    (hiter : ∀ i k j l, (iter i k j l).Perm l) (hv : List (List K) → K)
    (dt : ℕ → ℕ → ℕ → ℕ → ℕ × ℕ) (hdt : ∀ i k j t, PairDraw (islandSize N n i) (dt i k j t))
    (dv : ℕ → ℕ → ℕ → ℕ → VarDraw K) (hdv : ∀ i k j t, Draws (dv i k j t)) (population : List (List K))
    (hN : population.length = N) (hbox : ∀ v ∈ population, FBox S.dims v) {w : ℕ} (hw : 0 < w) {mig : ℕ}
    (hmig : mig * 4 ≤ N / n) {len : ℕ} (hlen : 0 < len)
    (pick : ℕ → ℕ → ℕ → ℕ → List (List (List K)) → Option (List K))
    (hpick : ∀ k a b j, PickOk (pick k a b j)) (budgets : List ℤ) (hpos : ∀ b ∈ budgets, 0 < b)
    (fuel : ℕ) (hfuel : ∀ b ∈ budgets, b ≤ fuel) :
    ∃ top s, torus w n = some top ∧
      start (fun p => some (smsInit round64 S key fit none mult p)) n population = some s ∧
      ∃ res o', budgetWorker (driver (smsOps round64 S key fit iter hv dt dv) fit top mig len pick) fuel
          budgets ⟨some (0, s), 0⟩ = some (res, o') ∧
        res.map (fun r => r.name) = budgets ∧
        ∀ r ∈ res, r.name ≤ r.cost ∧ ∃ p, r.pop = some p ∧ GoodFloats S.dims N p :=
  run_floats hn (sms_contract (mult := mult) hS hfit hiter hv hdt hdv).loose hN (by
    intro i _ p hp hmem
    exact ⟨_, rfl, (Rounded.Run.MReach.start (fit := fit) (key := key) (mult := mult) none (by simp) p hp
      fun v hv => hbox v (hmem v hv)).inv hS hfit⟩) fit hw hmig hlen
    ⟨0, hn, Nat.mul_pos hM (by
      have := (hdt 0 0 0 0).2.1
      omega)⟩ pick hpick budgets hpos fuel hfuel

/-- Two islands of two vectors with one child per step. -/
example : ((start (fun p => some (smsInit round64 Rounded.Run.exSetup id Rounded.Run.exFit none (1 / 2) p)) 2
      [[0], [1 / 2], [1], [6004799503160661 / 2 ^ 54]]).bind fun s =>
      (budgetWorker (driver (smsOps round64 Rounded.Run.exSetup id Rounded.Run.exFit (fun _ _ _ l => l)
        (fun l => (l.map List.sum).sum) (fun _ _ _ _ => (0, 1)) (fun _ _ _ _ => Rounded.Run.exDraw)) Rounded.Run.exFit
        [[1], [0]] 1 1 (fun _ _ _ _ L => L.flatten.head?)) 9 [5, 9] ⟨some (0, s), 0⟩).map
      (fun r => r.1.map fun x => (x.name, x.cost, x.pop.map List.length)))
    = some [(5, 8, some 4), (9, 12, some 4)] := by decide +kernel

end smsemoa

/-! ## The sizes of the islands -/

/-- C153: `int(len(init_population) / islands_number)` (IMGA.py:98), a division of floats, is the quotient of the integers,
for populations of less than 2 ^ 53. -/
theorem C153_size {K : Type*} [Field K] [LinearOrder K] [IsStrictOrderedRing K] [FloorRing K] {N n : ℕ} (hn : 0 < n)
    (hN : N < 2 ^ 53) : ⌊round64 ((N : K) / n)⌋₊ = N / n := by
  have hn' : (0 : K) < n := by exact_mod_cast hn
  have R := round64_isRounding (K := K)
  rcases Nat.eq_zero_or_pos N with rfl | h0
  · simp [fl_zero R]
  have hq : N / n ≤ N := Nat.div_le_self N n
  have hqn : N / n * n ≤ N := Nat.div_mul_le_self N n
  have hlt : N + 1 ≤ (N / n + 1) * n := Nat.lt_mul_of_div_lt (Nat.lt_succ_self _) hn
  generalize N / n = q at *
  have hq' : round64 (q : K) = q := by
    refine round64_float ⟨(q : ℤ), 0, ?_, by norm_num, by simp⟩
    rw [abs_of_nonneg (by positivity)]
    exact_mod_cast (by omega : q < 2 ^ 53)
  have hqn' : (q : K) * n ≤ N := by exact_mod_cast hqn
  have hlt' : (N : K) + 1 ≤ (q + 1) * n := by exact_mod_cast hlt
  have hN' : (N : K) < 9007199254740992 := by exact_mod_cast (by norm_num at hN; exact hN)
  rw [Nat.floor_eq_iff (fl_nonneg R (by positivity))]
  constructor
  · calc (q : K) = round64 (q : K) := hq'.symm
      _ ≤ _ := round64_mono (by rwa [le_div_iff₀ hn'])
  · have q0 : (0 : K) ≤ q := by positivity
    rcases le_total ((1 / 2) ^ 1022) ((N : K) / n) with hx | hx
    · have h1 := round64_accurate.error ((N : K) / n) (by rwa [abs_of_nonneg (by positivity)])
      rw [abs_of_nonneg (by positivity : (0 : K) ≤ (N : K) / n)] at h1
      have h2 := (abs_le.1 h1).2
      have h3 : (1 / 2 ^ 53 : K) * ((N : K) / n) < 1 / n := by
        rw [← mul_div_assoc]
        refine div_lt_div_of_pos_right ?_ hn'
        rw [show (2 : K) ^ 53 = 9007199254740992 by norm_num]
        linarith
      have h4 : (N : K) / n + 1 / n ≤ q + 1 := by
        rw [← add_div, div_le_iff₀ hn']
        exact hlt'
      linarith
    · have h1 := round64_mono hx
      rw [round64_accurate.power (K := K) 1022 le_rfl] at h1
      have h2 : ((1 / 2 : K)) ^ 1022 < 1 := pow_lt_one₀ (by norm_num) (by norm_num) (by norm_num)
      linarith

/-- 100 individuals on 7 islands; and for larger populations the division of floats is wrong. -/
example : ⌊round64 ((100 : ℚ) / 7)⌋₊ = 14 ∧ ⌊round64 ((2 ^ 54 - 1 : ℚ) / 1)⌋₊ = 2 ^ 54 := by decide +kernel

/-! ## The choice of the emigrants -/

/-- C153: `weighted_choice` of a layer in floating point followed by `random.choice` in it finds a member of some layer,
whatever is drawn: this is all that the theorems above ask of `pick`. -/
theorem C153_pick {K V : Type*} [Field K] [LinearOrder K] [IsStrictOrderedRing K] [FloorRing K] {rnd : K}
    (hr : IsDraw (1 / 2 ^ 53) rnd) {index : ℕ → ℕ} (hi : ∀ n, 0 < n → index n < n) :
    PickOk fun layers : List (List V) => (refugee round64 (runningSum round64) rnd index layers) := by
  intro L hL hne
  obtain ⟨l, hl, e⟩ := C125_layer L hL rnd hr
  have h := hi l.length (List.length_pos_of_ne_nil (hne l hl))
  refine ⟨l[index l.length], List.mem_flatten.2 ⟨l, hl, List.getElem_mem h⟩, ?_⟩
  simp only [refugee, e]
  exact List.getElem?_eq_getElem h

/-- Two layers with weights 1 and 1/2: 3/4 leads to the second one. -/
example : refugee round64 (runningSum round64) (3 / 4 : ℚ) (fun n => n - 1) [[1, 2], [3, 4, 5]] = some 5 ∧
    refugee round64 (runningSum round64) (1 / 2 : ℚ) (fun n => n - 1) [[1, 2], [3, 4, 5]] = some 2 := by decide +kernel

end Evogil.Rounded.Islands
