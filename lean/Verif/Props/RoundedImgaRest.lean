import Verif.Model.RoundedImgaRest
import Verif.Props.RoundedImga
import Verif.Props.RoundedNsgaiiiRun
import Verif.Props.RoundedNsls
import Verif.Props.RoundedSwarm

/-!
# C154: whole runs of OMOPSO, alone and on islands, and of islands with NSGA-III and NSLS, in floating point
-/

set_option linter.unusedSectionVars false

/-! ## OMOPSO alone -/

namespace Evogil.Rounded.Swarm

open Evaluation Generations Spec Binary64 Rounded.Run
open Evogil.Swarm (Snap Particle OState SpeedDraw evalSwarm omopsoFinal mapM_get)

section
variable {K : Type*} [Field K] [LinearOrder K] [IsStrictOrderedRing K] [FloorRing K] {A : Type*}
  {dims : List (K × K)} {trim : List K → List K} {eta : K} {m : ℕ} {key : List K → A} {fit : List K → List K} {N : ℕ}

theorem step_cost {fl : K → K} {ds : ℕ → SpeedDraw K} {s s' : OState K} (hne : s.particles ≠ [])
    (h : step fl dims trim eta m key fit none ds s = some s') : s'.cost = s.cost + s.particles.length := by
  simp only [step] at h
  split at h
  · cases h
  rename_i ps1 h1
  split at h
  · cases h
  split_ifs at h
  obtain rfl := Option.some.inj h
  have l : ps1.length = s.particles.length := by
    rw [(mapM_get h1).1, List.length_zipIdx]
  simp only [evalSwarm]
  rw [chargeAll_none, l]
  intro e
  have := congrArg List.length e
  rw [List.length_map, l, List.length_nil] at this
  exact hne (List.eq_nil_of_length_eq_zero this)

/-- **C154.** A budget simulation with OMOPSO in floating point stores a result for every budget: at least one vector, all of
them of floats of the box, at no less than the cost asked for. -/
theorem C154_alone (T : FTask dims trim m key fit none) (hN : 1 ≤ N) (ds : ℕ → ℕ → SpeedDraw K)
    (hds : ∀ n i, (ds n i).Valid ∧ Mild (turn (ds n i))) (population : List (List K)) (hn : population.length = N)
    (hbox : ∀ v ∈ population, FBox dims v) (budgets : List ℤ) (fuel : ℕ) (hfuel : ∀ b ∈ budgets, b ≤ fuel) :
    ∃ s, init round64 trim eta m key fit none population = some s ∧
    ∃ res o', budgetWorker (driver round64 dims trim eta m key fit none ds) fuel budgets
        ⟨some (0, s), 0⟩ = some (res, o') ∧
      res.map (fun r => r.name) = budgets ∧
      ∀ r ∈ res, r.name ≤ r.cost ∧ ∃ p, r.pop = some p ∧ p ≠ [] ∧ ∀ v ∈ p, FBox dims v := by
  obtain ⟨s0, h0, hi, -⟩ := init_spec (eta := eta) T hN hn hbox
  refine ⟨s0, h0, ?_⟩
  refine optDriver_worker (P := fun p : List (List K) => p ≠ [] ∧ ∀ v ∈ p, FBox dims v)
    (Inv := fun s => ∃ rounds, FInv dims fit N rounds s) ?_ budgets ?_ fuel hfuel 0 _ ⟨_, hi⟩ 0
  · rintro n s ⟨rounds, h⟩
    obtain ⟨s', h1, h2⟩ := h.step (eta := eta) T hN (hds n)
    refine ⟨s', h1, ⟨_, h2⟩, ?_⟩
    rw [step_cost _ h1, h.size]
    · omega
    · intro e
      have := h.size
      rw [e, List.length_nil] at this
      omega
  · rintro n s b - ⟨rounds, h⟩ -
    refine ⟨s, _, rfl, ⟨rounds, h⟩, ⟨?_, ?_⟩, le_rfl⟩
    · intro e
      exact h.arch.1 (List.map_eq_nil_iff.1 e)
    · intro v hv
      obtain ⟨x, hx, rfl⟩ := List.mem_map.1 hv
      obtain ⟨-, r, hr, hxr⟩ := h.arch.2 x hx
      exact h.rbox r hr _ hxr

end

/-- Two particles and two budgets. -/
example : ((init round64 id (round64 (3 / 400)) 2 id exFit none [[0], [round64 (7 / 10)]]).bind fun s =>
      (budgetWorker (driver round64 [(0, 1)] id (round64 (3 / 400)) 2 id exFit none
        (fun _ _ => ⟨fun _ => (1, 0), 1, round64 (1 / 10), 2, 2, 1 / 2⟩)) 9 [3, 5] ⟨some (0, s), 0⟩).map
      (fun r => r.1.map fun x => (x.name, x.cost, x.pop.map List.length)))
    = some [(3, 4, some 3), (5, 6, some 4)] := by decide +kernel

end Evogil.Rounded.Swarm

namespace Evogil.Rounded.Islands

open Evaluation Generations Spec Binary64 Imga Rounded.Run

/-! ## Islands with OMOPSO -/

section
variable {K : Type*} [Field K] [LinearOrder K] [IsStrictOrderedRing K] [FloorRing K] {dims : List (K × K)}
  {trim : List K → List K} {eta : K} {m : ℕ} {fit : List K → List K} {n N : ℕ}

/-- The particles of a swarm may be replaced by others that are evaluated, slow and have a personal best in the box. -/
theorem omopso_replace {M : ℕ} {rounds : List (List (List K))} {s : Evogil.Swarm.OState K}
    (h : Swarm.FInv dims fit M rounds s) (l : List (Evogil.Swarm.Particle K)) (hl : l.length = M)
    (hP : ∀ p ∈ l, FBox dims p.v ∧ Slow round64 dims p.speed ∧ p.objs = fit p.v ∧
      ∃ b, p.best = some (b, fit b) ∧ FBox dims b) :
    ∃ rounds', Swarm.FInv dims fit M rounds' { s with particles := l } := by
  set bests : List (List K) := l.map fun p => (p.best.map Prod.fst).getD [] with hb
  have hmem : ∀ b ∈ bests, FBox dims b := by
    intro b hb'
    obtain ⟨p, hp, rfl⟩ := List.mem_map.1 hb'
    obtain ⟨-, -, -, b, e1, e2⟩ := hP p hp
    rw [e1]
    exact e2
  have hsnap : ∀ x : Evogil.Swarm.Snap K, (∃ r ∈ rounds, x.v ∈ r) → FBox dims x.v := fun x ⟨r, hr, hx⟩ =>
    h.rbox r hr _ hx
  refine ⟨[bests ++ (s.archive.map Evogil.Swarm.Snap.v ++ s.leaders.map Evogil.Swarm.Snap.v)], hl, h.lsize,
    fun p hp => ⟨(hP p hp).1, (hP p hp).2.1, (hP p hp).2.2.1⟩, ?_, ?_, ⟨h.arch.1, ?_⟩, h.lead.1, h.lead.2.1, ?_⟩
  · intro i p hp
    obtain ⟨-, -, -, b, e1, -⟩ := hP p (List.mem_of_getElem? hp)
    have hi : i < l.length := (List.getElem?_eq_some_iff.1 hp).1
    have hget : (bests ++ (s.archive.map Evogil.Swarm.Snap.v ++ s.leaders.map Evogil.Swarm.Snap.v))[i]? = some b := by
      rw [List.getElem?_append_left (by rw [hb, List.length_map]; exact hi), hb, List.getElem?_map]
      simp only at hp
      rw [hp]
      simp [e1]
    refine ⟨b, e1, ⟨_, List.mem_singleton.2 rfl, hget⟩, ?_⟩
    intro r hr x hx
    rw [List.mem_singleton.1 hr, hget] at hx
    obtain rfl := Option.some.inj hx
    exact LDom_irrefl _
  · intro r hr x hx
    rw [List.mem_singleton.1 hr] at hx
    rcases List.mem_append.1 hx with hx | hx
    · exact hmem x hx
    · rcases List.mem_append.1 hx with hx | hx
      · obtain ⟨y, hy, rfl⟩ := List.mem_map.1 hx
        exact hsnap y (h.arch.2 y hy).2
      · obtain ⟨y, hy, rfl⟩ := List.mem_map.1 hx
        exact hsnap y (h.lead.2.2 y hy).2
  · intro x hx
    exact ⟨(h.arch.2 x hx).1, _, List.mem_singleton.2 rfl, List.mem_append_right _
      (List.mem_append_left _ (List.mem_map_of_mem hx))⟩
  · intro x hx
    exact ⟨(h.lead.2.2 x hx).1, _, List.mem_singleton.2 rfl, List.mem_append_right _
      (List.mem_append_right _ (List.mem_map_of_mem hx))⟩

theorem omopso_contract (T : Swarm.FTask dims trim m (id : List K → List K) fit none) (h1 : 1 ≤ N / n)
    {ds : ℕ → ℕ → ℕ → ℕ → Evogil.Swarm.SpeedDraw K}
    (hds : ∀ i k j p, (ds i k j p).Valid ∧ Mild (Swarm.turn (ds i k j p))) :
    Loose (omopsoOps round64 dims trim eta m fit ds) n
      (fun i s => ∃ rounds, Swarm.FInv dims fit (islandSize N n i) rounds s.st)
      (fun i s => ∃ rounds, Swarm.FInv dims fit (islandSize N n i) rounds s.st)
      (fun x => FBox dims x.1.v ∧ Slow round64 dims x.1.speed ∧ x.1.objs = fit x.1.v ∧
        ∃ b, x.1.best = some (b, fit b) ∧ FBox dims b)
      (fun x => (x.1.v, x.1.best, x.1.objs)) (islandSize N n) (islandSize N n) (islandSize N n)
      (fun _ r => r ≠ [] ∧ ∀ v ∈ r, FBox dims v) := by
  have hsize : ∀ i, 1 ≤ islandSize N n i := fun i => by unfold islandSize; omega
  have hobj : ∀ i (s : OmopsoIsland K), (∃ rounds, Swarm.FInv dims fit (islandSize N n i) rounds s.st) →
      ∀ p ∈ s.st.particles, FBox dims p.v ∧ Slow round64 dims p.speed ∧ p.objs = fit p.v ∧
        ∃ b, p.best = some (b, fit b) ∧ FBox dims b := by
    rintro i s ⟨r, h⟩ p hp
    obtain ⟨a, b, c⟩ := h.box p hp
    obtain ⟨j, hj⟩ := List.mem_iff_getElem?.1 hp
    obtain ⟨x, e1, ⟨q, hq, e2⟩, -⟩ := h.best j p hj
    exact ⟨a, b, c, x, e1, h.rbox q hq _ (List.mem_of_getElem? e2)⟩
  refine ⟨fun _ _ h => h, ?_, ?_, ?_, ?_⟩
  · rintro i - k j s ⟨r, h⟩
    obtain ⟨s', e, h'⟩ := h.step (eta := eta) T (hsize i) (ds := ds i k j) (hds i k j)
    have hne : s.st.particles ≠ [] := by
      intro e'
      have h0 := h.size
      have := hsize i
      rw [e', List.length_nil] at h0
      omega
    have hc := Swarm.step_cost hne e
    refine ⟨⟨s', i⟩, by simp only [omopsoOps, e, Option.map_some], ⟨_, h'⟩, ?_, ?_⟩
    all_goals
      simp only [omopsoOps, hc, h.size]
      omega
  · rintro i - s l ⟨r, h⟩ hl hP
    have hlen : l.length = islandSize N n i := by
      rw [hl]
      simp [omopsoOps, h.size]
    refine ⟨?_, rfl, ?_⟩
    · refine omopso_replace h _ (by rw [List.length_map, hlen]) ?_
      intro p hp
      obtain ⟨x, hx, rfl⟩ := List.mem_map.1 hp
      obtain ⟨a, b, c, d⟩ := hP x hx
      split_ifs
      · exact ⟨a, b, c, d⟩
      · exact ⟨a, slow_atRest T.box a.1, c, d⟩
    · simp only [omopsoOps, List.map_map]
      refine List.map_congr_left fun x _ => ?_
      simp only [Function.comp]
      split_ifs <;> rfl
  · rintro i - s h
    refine ⟨by obtain ⟨r, h⟩ := h; simp [omopsoOps, h.size], ?_⟩
    intro x hx
    obtain ⟨p, hp, rfl⟩ := List.mem_map.1 hx
    exact hobj i s h p hp
  · rintro i - k s ⟨r, h⟩
    refine ⟨s, _, rfl, ⟨r, h⟩, ⟨?_, ?_⟩, le_rfl⟩
    · rw [Evogil.Swarm.omopsoFinal]
      simpa using h.arch.1
    · intro v hv
      obtain ⟨x, hx, rfl⟩ := List.mem_map.1 hv
      obtain ⟨-, q, hq, hxq⟩ := h.arch.2 x hx
      exact h.rbox q hq _ hxq

/-- **C154 for islands with OMOPSO**, with at least one particle on every island: for every positive budget there is
a result, at no less than the cost asked for, made of at least one vector of floats of the box from every island. -/
theorem C154_omopso (T : Swarm.FTask dims trim m (id : List K → List K) fit none)
    (hn : 0 < n) (h1 : 1 ≤ N / n) (ds : ℕ → ℕ → ℕ → ℕ → Evogil.Swarm.SpeedDraw K)
    (hds : ∀ i k j p, (ds i k j p).Valid ∧ Mild (Swarm.turn (ds i k j p))) (population : List (List K))
    (hN : population.length = N)
    (hbox : ∀ v ∈ population, FBox dims v) {w : ℕ} (hw : 0 < w) {mig : ℕ} (hmig : mig * 4 ≤ N / n)
    {len : ℕ} (hlen : 0 < len) (pick : ℕ → ℕ → ℕ → ℕ → List (List (List K)) → Option (List K))
    (hpick : ∀ k a b j, PickOk (pick k a b j)) (budgets : List ℤ) (hpos : ∀ b ∈ budgets, 0 < b)
    (fuel : ℕ) (hfuel : ∀ b ∈ budgets, b ≤ fuel) :
    ∃ top s, torus w n = some top ∧ start (omopsoMake round64 trim eta m fit) n population = some s ∧
      ∃ res o', budgetWorker (driver (omopsoOps round64 dims trim eta m fit ds) fit top mig len pick) fuel
          budgets ⟨some (0, s), 0⟩ = some (res, o') ∧
        res.map (fun r => r.name) = budgets ∧
        ∀ r ∈ res, r.name ≤ r.cost ∧ ∃ p, r.pop = some p ∧ n ≤ p.length ∧ ∀ v ∈ p, FBox dims v := by
  have hsize : ∀ i, 1 ≤ islandSize N n i := fun i => by unfold islandSize; omega
  obtain ⟨top, s, e1, e2, res, o', e3, e4, e5⟩ := run_torus_any hn
    (omopso_contract (eta := eta) T h1 hds) hN (mk := omopsoMake round64 trim eta m fit) (by
      intro i _ p hp hmem
      obtain ⟨s, a1, a2, -⟩ := Swarm.init_spec (eta := eta) T (hsize i) hp
        (fun v hv => hbox v (hmem v hv))
      exact ⟨⟨s, 0⟩, by rw [omopsoMake, a1]; rfl, _, a2⟩) fit hw hmig hlen ⟨0, hn, hsize 0⟩ pick hpick budgets
    hpos fuel hfuel
  refine ⟨top, s, e1, e2, res, o', e3, e4, fun r hr => ?_⟩
  obtain ⟨f1, p, f2, rs, rfl, f3, f4⟩ := e5 r hr
  refine ⟨f1, _, f2, ?_, ?_⟩
  · rw [List.length_flatten, ← f3, ← List.length_map (f := List.length) (as := rs)]
    refine List.length_le_sum_of_one_le _ fun k hk => ?_
    obtain ⟨q, hq, rfl⟩ := List.mem_map.1 hk
    obtain ⟨i, hi⟩ := List.mem_iff_getElem?.1 hq
    exact List.length_pos_iff.2 (f4 i q hi).1
  · intro v hv
    obtain ⟨q, hq, hv⟩ := List.mem_flatten.1 hv
    obtain ⟨i, hi⟩ := List.mem_iff_getElem?.1 hq
    exact (f4 i q hi).2 v hv

end

/-- Two islands with two particles each, one migrant, epochs of one step. -/
example : ((start (omopsoMake round64 id (round64 (3 / 400)) 2 Swarm.exFit) 2
      [[0], [round64 (7 / 10)], [1], [round64 (1 / 3)]]).bind fun s =>
      (budgetWorker (driver (omopsoOps round64 [(0, 1)] id (round64 (3 / 400)) 2 Swarm.exFit
        (fun _ _ _ _ => ⟨fun _ => (1, 0), 1, round64 (1 / 10), 2, 2, 1 / 2⟩)) Swarm.exFit [[1], [0]] 1 1
        (fun _ _ _ _ L => L.flatten.head?)) 5 [5, 9] ⟨some (0, s), 0⟩).map
      (fun r => r.1.map fun x => (x.name, x.cost, x.pop.map List.length)))
    = some [(5, 8, some 6), (9, 12, some 9)] := by decide +kernel

/-! ## Islands with NSGA-III -/

section
variable {K : Type*} [Field K] [LinearOrder K] [IsStrictOrderedRing K] [FloorRing K]
  {pw : K → K → K} {dot : List K → List K → K} {norm : List K → K} {f : List K → List K} {cf : Evogil.Nsgaiii.Conf K}
  {n N g : ℕ}

/-- NSGA-III in floating point keeps the contract of the islands, although the immigrants are not taken into the ideal
point. -/
theorem nsgaiii_contract (hp : PowerLaws pw) {d : NsgaiiiDraws K}
    (hcf : ∀ i, Nsgaiii.FloatConf f norm { cf with refs := d.refs i }) (h2 : 2 ≤ N / n)
    (hd : ∀ i k j, Nsgaiii.DrawsOk (islandSize N n i) (d.ds i k j) (d.iter i k j) (d.sample i k j))
    (hg : g = 0 ∨ (g = 1 ∧ ∀ i k j, (d.ds i k j 0).first ≤ cf.rateC)) :
    Loose (nsgaiiiOps round64 pw dot norm (1 / 2 ^ 52) f cf d) n
      (fun i s => Nsgaiii.CSound f cf (islandSize N n i) s)
      (fun i s => Nsgaiii.CSound f cf (islandSize N n i) s)
      (fun x => FBox cf.dims x.v ∧ cf.trim x.v = x.v ∧ x.objectives = some (f x.v)) id (islandSize N n)
      (fun _ => g) (fun i => 2 * (islandSize N n i / 2))
      (fun i r => GoodFloats cf.dims (islandSize N n i) r) where
  ready := fun _ _ h => h
  step := by
    rintro i - k j s h
    have h2' : 2 ≤ islandSize N n i := by unfold islandSize; omega
    obtain ⟨raw, s', r1, r2, r3, -, r4, r5⟩ := Nsgaiii.stepCosted_any (cf := { cf with refs := d.refs i })
      (dot := dot) hp (hcf i) h2'
      (s := s) ⟨⟨h.1.size, h.1.box, h.1.trimmed, h.1.eval⟩, h.2.1, h.2.2⟩ (hd i k j)
    refine ⟨s', r2, ⟨⟨r3.1.size, r3.1.box, r3.1.trimmed, r3.1.eval⟩, r3.2.1, r3.2.2⟩, ?_, ?_⟩
    · simp only [nsgaiiiOps, r5]
      rcases hg with rfl | ⟨rfl, hfirst⟩
      · omega
      · obtain ⟨raw', q1, -, -, -, q2, -⟩ := Nsgaiii.makeOffspring_spec (cf := { cf with refs := d.refs i })
          hp (hcf i) (inds := s.st.inds) (fun x hx => ⟨h.1.box x hx, h.2.2.2 x hx, h.1.eval x hx⟩) (d.ds i k j)
          (by rw [h.1.size, h.2.1]; exact (hd i k j).pairs) (islandSize N n i / 2) 0
        obtain rfl : raw = raw' := Option.some.inj (r1.symm.trans q1)
        have := q2 0 le_rfl (by omega) (hfirst i k j)
        omega
    · have := Evogil.Nsgaiii.evaluations_le raw
      simp only [nsgaiiiOps, r5]
      omega
  put := by
    rintro i - s l h hl hP
    refine ⟨⟨⟨?_, fun x hx => (hP x hx).1.1, fun x hx => (hP x hx).2.1, fun x hx => (hP x hx).2.2⟩, h.2.1, h.2.2.1,
      fun x hx => (hP x hx).1.2⟩, rfl, rfl⟩
    show l.length = s.st.size
    rw [hl]
    exact h.1.size
  inds := by
    rintro i - s h
    refine ⟨by show _ ≤ s.st.inds.length; rw [h.1.size, h.2.1], ?_⟩
    exact fun x hx => ⟨⟨h.1.box x hx, h.2.2.2 x hx⟩, h.1.trimmed x hx, h.1.eval x hx⟩
  finish := by
    rintro i - k s h
    refine ⟨s, _, rfl, h, ⟨by rw [List.length_map, h.1.size, h.2.1], ?_⟩, le_rfl⟩
    intro v hv
    obtain ⟨x, hx, rfl⟩ := List.mem_map.1 hv
    exact ⟨h.1.box x hx, h.2.2.2 x hx⟩

/-- **C154 for islands with NSGA-III**, with at least two individuals on each and the first pair of every generation
crossed. -/
theorem C154_nsgaiii (hp : PowerLaws pw) (d : NsgaiiiDraws K)
    (hcf : ∀ i, Nsgaiii.FloatConf f norm { cf with refs := d.refs i }) (hn : 0 < n) (h2 : 2 ≤ N / n)
    (hd : ∀ i k j, Nsgaiii.DrawsOk (islandSize N n i) (d.ds i k j) (d.iter i k j) (d.sample i k j))
    (hfirst : ∀ i k j, (d.ds i k j 0).first ≤ cf.rateC) (population : List (List K)) (hN : population.length = N)
    (hbox : ∀ v ∈ population, FBox cf.dims v) {w : ℕ} (hw : 0 < w) {mig : ℕ} (hmig : mig * 4 ≤ N / n)
    {len : ℕ} (hlen : 0 < len) (pick : ℕ → ℕ → ℕ → ℕ → List (List (List K)) → Option (List K))
    (hpick : ∀ k a b j, PickOk (pick k a b j)) (budgets : List ℤ) (hpos : ∀ b ∈ budgets, 0 < b)
    (fuel : ℕ) (hfuel : ∀ b ∈ budgets, b ≤ fuel) :
    ∃ top s, torus w n = some top ∧
      start (fun p => some (Evogil.Nsgaiii.initCosted f cf p)) n population = some s ∧
      ∃ res o', budgetWorker (driver (nsgaiiiOps round64 pw dot norm (1 / 2 ^ 52) f cf d) f top mig len pick) fuel budgets
          ⟨some (0, s), 0⟩ = some (res, o') ∧
        res.map (fun r => r.name) = budgets ∧
        ∀ r ∈ res, r.name ≤ r.cost ∧ ∃ p, r.pop = some p ∧ GoodFloats cf.dims N p :=
  run_floats hn (nsgaiii_contract (g := 1) hp hcf h2 hd (Or.inr ⟨rfl, hfirst⟩)) hN (by
    intro i _ p hp hmem
    have := (Nsgaiii.initCosted_good (hcf i) (pop := p) fun v hv => hbox v (hmem v hv)).sound
    rw [hp] at this
    exact ⟨_, rfl, ⟨this.1.size, this.1.box, this.1.trimmed, this.1.eval⟩, this.2⟩) f hw hmig hlen
    ⟨0, hn, Nat.one_pos⟩ pick hpick budgets hpos fuel hfuel

end

/-! ## Islands with NSLS -/

section
variable {K : Type*} [Field K] [LinearOrder K] [IsStrictOrderedRing K] [FloorRing K] {dims : List (K × K)}
  {trim : List K → List K} {f : List K → List K} {m : ℕ} {vdist : List K → List K → K} {n N : ℕ}

theorem nsls_contract (hb : FloatBox round64 dims) (ht : Evogil.Nsls.TrimOk dims trim)
    (hf : ∀ v, Floats round64 v → Floats round64 (trim v)) (hl : ∀ v, (f v).length = m) (hm : 1 ≤ m) (h2 : 2 ≤ N / n)
    {d : NslsDraws K}
    (hd : ∀ i k j, Evogil.Nsls.DrawsOk (islandSize N n i) (d.ds i k j) (d.iter i k j) (d.sample i k j))
    (hprod : ∀ i k j inds, inds.length = islandSize N n i → (∀ x ∈ inds, FBox dims x.v) →
      (∀ x ∈ inds, ∀ o, x.objectives = some o → o = f x.v) → Nsls.Productive dims trim f (d.ds i k j) inds) :
    Loose (nslsOps round64 dims trim f m vdist d) n
      (fun i s => ∃ done, Evogil.Nsls.CGood dims f (islandSize N n i) done s ∧ ∀ x ∈ s.inds, Floats round64 x.v)
      (fun i s => Evogil.Nsls.CGood dims f (islandSize N n i) true s ∧ ∀ x ∈ s.inds, Floats round64 x.v)
      (fun x => FBox dims x.v ∧ x.objectives = some (f x.v)) id (islandSize N n)
      (fun i => islandSize N n i * (dims.length * 2))
      (fun i => islandSize N n i + islandSize N n i * (dims.length * 2))
      (fun i r => GoodFloats dims (islandSize N n i) r) where
  ready := fun _ _ h => ⟨true, h⟩
  step := by
    rintro i - k j s ⟨done, h, hfl⟩
    obtain ⟨s', e, h', hfl', hc⟩ := (Nsls.step_good (vdist := vdist) hb ht hf hl hm
      (show 2 ≤ islandSize N n i by unfold islandSize; omega) h hfl (hd i k j)).1
      (hprod i k j s.inds h.length (fun x hx => ⟨h.box x hx, hfl x hx⟩) (by
        intro x hx o ho
        rw [h.objs x hx] at ho
        split_ifs at ho
        exact (Option.some.inj ho).symm))
    refine ⟨s', e, ⟨h', hfl'⟩, ?_, ?_⟩
    · simp only [nslsOps, hc]
      omega
    · simp only [nslsOps, hc]
      have : (if done then 0 else islandSize N n i) ≤ islandSize N n i := by cases done <;> simp
      omega
  put := by
    rintro i - s l ⟨h, -⟩ hl hP
    refine ⟨⟨⟨h.size, ?_, fun x hx => (hP x hx).1.1, fun x hx => ?_⟩, fun x hx => (hP x hx).1.2⟩, rfl, rfl⟩
    · show l.length = _
      rw [hl]
      exact h.length
    · simpa using (hP x hx).2
  inds := by
    rintro i - s ⟨h, hfl⟩
    refine ⟨h.length.ge, fun x hx => ⟨⟨h.box x hx, hfl x hx⟩, by simpa using h.objs x hx⟩⟩
  finish := by
    rintro i - k s ⟨h, hfl⟩
    refine ⟨s, _, rfl, ⟨h, hfl⟩, ⟨by rw [List.length_map, h.length], ?_⟩, le_rfl⟩
    intro v hv
    obtain ⟨x, hx, rfl⟩ := List.mem_map.1 hv
    exact ⟨h.box x hx, hfl x hx⟩

/-- **C154 for islands with NSLS**, with at least two individuals on each, if every local search finds a trial that
is not dominated (otherwise the step does not end, C149). -/
theorem C154_nsls (hb : FloatBox round64 dims) (ht : Evogil.Nsls.TrimOk dims trim)
    (hf : ∀ v, Floats round64 v → Floats round64 (trim v)) (hl : ∀ v, (f v).length = m) (hm : 1 ≤ m)
    (hdims : 1 ≤ dims.length) (hn : 0 < n) (h2 : 2 ≤ N / n) (d : NslsDraws K)
    (hd : ∀ i k j, Evogil.Nsls.DrawsOk (islandSize N n i) (d.ds i k j) (d.iter i k j) (d.sample i k j))
    (hprod : ∀ i k j inds, inds.length = islandSize N n i → (∀ x ∈ inds, FBox dims x.v) →
      (∀ x ∈ inds, ∀ o, x.objectives = some o → o = f x.v) → Nsls.Productive dims trim f (d.ds i k j) inds)
    (population : List (List K)) (hN : population.length = N)
    (hbox : ∀ v ∈ population, FBox dims v) {w : ℕ} (hw : 0 < w) {mig : ℕ} (hmig : mig * 4 ≤ N / n)
    {len : ℕ} (hlen : 0 < len) (pick : ℕ → ℕ → ℕ → ℕ → List (List (List K)) → Option (List K))
    (hpick : ∀ k a b j, PickOk (pick k a b j)) (budgets : List ℤ) (hpos : ∀ b ∈ budgets, 0 < b)
    (fuel : ℕ) (hfuel : ∀ b ∈ budgets, b ≤ fuel) :
    ∃ top s, torus w n = some top ∧ start (fun p => some (Evogil.Nsls.initCosted trim p)) n population = some s ∧
      ∃ res o', budgetWorker (driver (nslsOps round64 dims trim f m vdist d) f top mig len pick) fuel budgets
          ⟨some (0, s), 0⟩ = some (res, o') ∧
        res.map (fun r => r.name) = budgets ∧
        ∀ r ∈ res, r.name ≤ r.cost ∧ ∃ p, r.pop = some p ∧ GoodFloats dims N p :=
  run_floats hn (nsls_contract hb ht hf hl hm h2 hd hprod) hN (by
    intro i _ p hp hmem
    have := Evogil.Nsls.initCosted_good (f := f) ht (pop := p) fun v hv => (hbox v (hmem v hv)).1
    rw [hp] at this
    exact ⟨_, rfl, false, this, Nsls.init_floats hf fun v hv => (hbox v (hmem v hv)).2⟩) f hw hmig hlen
    ⟨0, hn, Nat.mul_pos (by unfold islandSize; omega) (by omega)⟩ pick hpick budgets hpos fuel hfuel

end

/-! ## Examples -/

/-- Two islands of two individuals with NSGA-III. -/
example : ((start (fun p => some (Evogil.Nsgaiii.initCosted Swarm.exFit Dist.exNsgaiiiConf p)) 2
      [[0], [1 / 2], [1], [round64 (1 / 3)]]).bind fun s =>
    (budgetWorker (driver (nsgaiiiOps round64 (fun b _ => b) Evogil.Nsgaiii.dot (Evogil.Nsgaiii.norm id) (1 / 2 ^ 52)
        Swarm.exFit Dist.exNsgaiiiConf exNsgaiiiIslands)
      Swarm.exFit [[1], [0]] 1 1 (fun _ _ _ _ L => L.flatten.head?)) 9 [5, 9] ⟨some (0, s), 0⟩).map
      (fun r => r.1.map fun x => (x.name, x.cost, x.pop.map List.length)))
    = some [(5, 8, some 4), (9, 12, some 4)] := by decide +kernel

/-- Two islands of two individuals with NSLS: twelve evaluations after the first epoch, eight more after the
second. -/
example : ((start (fun p => some (Evogil.Nsls.initCosted id p)) 2 [[0], [1 / 2], [1], [round64 (1 / 3)]]).bind fun s =>
    (budgetWorker (driver (nslsOps round64 [(0, 1)] id Dist.exOpposite 2 (fun a b => |a.getD 0 0 - b.getD 0 0|) exNslsIslands)
      Dist.exOpposite [[1], [0]] 1 1 (fun _ _ _ _ L => L.flatten.head?)) 15 [5, 15] ⟨some (0, s), 0⟩).map
      (fun r => r.1.map fun x => (x.name, x.cost, x.pop.map List.length)))
    = some [(5, 12, some 4), (15, 20, some 4)] := by decide +kernel

/-- Two objectives of the first coordinate. -/
def exHead (v : List ℚ) : List ℚ := [v.getD 0 0, round64 (1 - v.getD 0 0)]

theorem exEightFloats : ∀ v ∈ ([[0], [1 / 8], [1 / 4], [3 / 8], [1 / 2], [5 / 8], [3 / 4], [1]] : List (List ℚ)),
    FBox [(0, 1)] v := by
  intro v hv
  refine ⟨exEight v hv, ?_⟩
  intro x hx
  have : ∀ v ∈ ([[0], [1 / 8], [1 / 4], [3 / 8], [1 / 2], [5 / 8], [3 / 4], [1]] : List (List ℚ)),
      ∀ x ∈ v, round64 x = x := by decide +kernel
  exact this v hv x hx

/-- The theorem applies to two islands of four particles each. -/
example := C154_omopso (dims := [((0 : ℚ), 1)]) (trim := id) (eta := round64 (3 / 400)) (m := 2) (fit := exHead)
  (n := 2) (N := 8) ⟨by intro d hd; simp only [List.mem_singleton] at hd; subst hd; decide +kernel, fun _ h => h,
    fun _ => rfl, by
      intro v hv x hx
      simp only [exHead, List.mem_cons, List.not_mem_nil, or_false] at hx
      rcases hx with rfl | rfl
      · cases v with
        | nil => decide +kernel
        | cons a l => exact hv a (by simp)
      · exact round64_isRounding.idem _, fun _ h => by cases h⟩ (by decide) (by decide)
  (fun _ _ _ _ => ⟨fun _ => (1, 0), 1, 1 / 4, 2, 2, 1 / 2⟩)
  (fun _ _ _ _ => ⟨fun n h => ⟨by simp, by simp only; omega, by simp only; omega⟩,
    by constructor <;> norm_num [Swarm.turn]⟩)
  [[0], [1 / 8], [1 / 4], [3 / 8], [1 / 2], [5 / 8], [3 / 4], [1]] rfl exEightFloats (w := 4) (by decide)
  (mig := 1) (by decide) (len := 5) (by decide) (fun _ _ _ _ L => L.flatten.head?) exPick [10, 100]
  (by decide) 100 (by decide)

theorem exNsgaiiiIslands_floats (i k j : ℕ) : Nsgaiii.DrawsOk (islandSize 8 2 i) (exNsgaiiiIslands.ds i k j)
    (exNsgaiiiIslands.iter i k j) (exNsgaiiiIslands.sample i k j) := by
  have h : 2 ≤ islandSize 8 2 i := by unfold islandSize; omega
  have q : IsDraw (1 / 2 ^ 53) (1 / 4 : ℚ) := ⟨2 ^ 51, by norm_num, by norm_num⟩
  have q' : IsDraw (1 / 2 ^ 53) (1 / 2 : ℚ) := ⟨2 ^ 52, by norm_num, by norm_num⟩
  refine ⟨fun _ => ⟨?_, ?_, fun _ => q, fun _ => q', fun _ => q'⟩, fun _ => List.Perm.refl _,
    fun l n h => Dist.exSample l n h⟩
  · simp only [exNsgaiiiIslands]; omega
  · simp only [exNsgaiiiIslands]; omega

/-- The theorem applies to two islands of four individuals each. -/
example := C154_nsgaiii (pw := Rounded.Run.exSetup.pw) (dot := Evogil.Nsgaiii.dot) (norm := Evogil.Nsgaiii.norm id)
  (f := exHead) (cf := Dist.exNsgaiiiConf) (n := 2) (N := 8) Rounded.Run.exSetup_usable.pow exNsgaiiiIslands
  (fun _ => ⟨⟨by norm_num [Dist.exNsgaiiiConf], by norm_num [Dist.exNsgaiiiConf], fun _ h => h, fun _ => rfl,
    fun _ => rfl⟩, by
      intro d hd
      simp only [Dist.exNsgaiiiConf, List.mem_singleton] at hd
      subst hd
      decide +kernel, fun _ h => h, by
      have : ∀ r ∈ exNsgaiiiIslands.refs 0, Evogil.Nsgaiii.norm id r ≠ 0 := by decide +kernel
      exact this⟩)
  (by decide) (by decide) exNsgaiiiIslands_floats
  (fun _ _ _ => by norm_num [exNsgaiiiIslands, Dist.exNsgaiiiConf])
  [[0], [1 / 8], [1 / 4], [3 / 8], [1 / 2], [5 / 8], [3 / 4], [1]] rfl exEightFloats (w := 4) (by decide) (mig := 1)
  (by decide) (len := 5) (by decide) (fun _ _ _ _ L => L.flatten.head?) exPick [50, 100] (by decide) 100 (by decide)

/-- The theorem applies to two islands of four individuals each and two objectives that rank the vectors in opposite
orders: there every trial succeeds. -/
example := C154_nsls (dims := [((0 : ℚ), 1)]) (trim := id) (f := Dist.exOpposite) (m := 2)
  (vdist := fun a b => |a.getD 0 0 - b.getD 0 0|) (n := 2) (N := 8)
  (by intro d hd; simp only [List.mem_singleton] at hd; subst hd; decide +kernel) Dist.exTrimOk (fun _ h => h)
  (fun _ => rfl) (by decide) (by decide) (by decide) (by decide) exNslsIslands exNslsIslands_ok
  (fun i k j inds h1 h2 h3 => Nsls.C149_incomparable (m := 2)
    (by intro d hd; simp only [List.mem_singleton] at hd; subst hd; decide +kernel) Dist.exTrimOk (fun _ h => h)
    (fun _ => rfl) (by simp) (fun x y _ _ => Dist.exOpposite_incomparable x y)
    (by rw [h1]; unfold islandSize; omega) (by rw [h1]; exact (exNslsIslands_ok i k j).pairs) h2 h3)
  [[0], [1 / 8], [1 / 4], [3 / 8], [1 / 2], [5 / 8], [3 / 4], [1]] rfl exEightFloats (w := 4) (by decide) (mig := 1)
  (by decide) (len := 5) (by decide) (fun _ _ _ _ L => L.flatten.head?) exPick [50, 100] (by decide) 100 (by decide)

end Evogil.Rounded.Islands
