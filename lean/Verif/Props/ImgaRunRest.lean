import Verif.Model.ImgaRunRest
import Verif.Props.ImgaRun
import Verif.Props.Jumping
import Verif.Props.NsgaiiiRun
import Verif.Props.NslsRun
import Verif.Props.Swarm
import Verif.Props.DistDriversRest

/-!
# C103: whole runs of the island model with OMOPSO, JGBL, NSGA-III and NSLS
-/

set_option linter.unusedSectionVars false

namespace Evogil.Imga

open Generations Evaluation Spec

theorem exEight : ∀ v ∈ ([[0], [1 / 8], [1 / 4], [3 / 8], [1 / 2], [5 / 8], [3 / 4], [1]] : List (List ℚ)),
    InBox v [(0, 1)] := by
  intro v hv
  simp only [List.mem_cons, List.not_mem_nil, or_false] at hv
  rcases hv with rfl | rfl | rfl | rfl | rfl | rfl | rfl | rfl <;>
    exact List.Forall₂.cons (by norm_num) List.Forall₂.nil

theorem exPick : ∀ _ _ _ _ : ℕ, PickOk fun L : List (List (List ℚ)) => L.flatten.head? := by
  intro _ _ _ _ L hL hne
  obtain ⟨x, l, e⟩ := List.exists_cons_of_ne_nil (l := L.flatten) (by
    obtain ⟨a, L, rfl⟩ := List.exists_cons_of_ne_nil hL
    obtain ⟨x, a, rfl⟩ := List.exists_cons_of_ne_nil (hne a List.mem_cons_self)
    simp)
  exact ⟨x, by simp [e], by simp [e]⟩

/-! ## OMOPSO -/

section
variable {K : Type*} [Field K] [LinearOrder K] [IsStrictOrderedRing K] {dims : List (K × K)}
  {trim : List K → List K} {eta : K} {m : ℕ} {fit : List K → List K} {n N : ℕ}

/-- The particles of a swarm may be replaced by others that are evaluated and have a personal best in the box. -/
theorem omopso_replace {M : ℕ} {rounds : List (List (List K))} {s : Swarm.OState K}
    (h : Swarm.OInv dims fit M rounds s) (l : List (Swarm.Particle K)) (hl : l.length = M)
    (hP : ∀ p ∈ l, InBox p.v dims ∧ p.speed.length = dims.length ∧ p.objs = fit p.v ∧
      ∃ b, p.best = some (b, fit b) ∧ InBox b dims) :
    ∃ rounds', Swarm.OInv dims fit M rounds' { s with particles := l } := by
  set bests : List (List K) := l.map fun p => (p.best.map Prod.fst).getD [] with hb
  have hmem : ∀ b ∈ bests, InBox b dims := by
    intro b hb'
    obtain ⟨p, hp, rfl⟩ := List.mem_map.1 hb'
    obtain ⟨-, -, -, b, e1, e2⟩ := hP p hp
    rw [e1]
    exact e2
  have hsnap : ∀ x : Swarm.Snap K, (∃ r ∈ rounds, x.v ∈ r) → InBox x.v dims := fun x ⟨r, hr, hx⟩ =>
    h.rbox r hr _ hx
  refine ⟨[bests ++ (s.archive.map Swarm.Snap.v ++ s.leaders.map Swarm.Snap.v)], hl, h.lsize,
    fun p hp => ⟨(hP p hp).1, (hP p hp).2.1, (hP p hp).2.2.1⟩, ?_, ?_, ⟨h.arch.1, ?_⟩, h.lead.1, h.lead.2.1, ?_⟩
  · intro i p hp
    obtain ⟨-, -, -, b, e1, -⟩ := hP p (List.mem_of_getElem? hp)
    have hi : i < l.length := (List.getElem?_eq_some_iff.1 hp).1
    have hget : (bests ++ (s.archive.map Swarm.Snap.v ++ s.leaders.map Swarm.Snap.v))[i]? = some b := by
      rw [List.getElem?_append_left (by rw [hb, List.length_map]; exact hi), hb, List.getElem?_map]
      simp only at hp
      rw [hp]
      simp [e1]
    refine ⟨b, e1, ⟨_, List.mem_singleton.2 rfl, hget⟩, ?_⟩
    intro r hr x hx
    rw [List.mem_singleton.1 hr, hget] at hx
    obtain rfl := Option.some.inj hx
    exact LDom_irrefl _
  · intro r hr x hx
    rw [List.mem_singleton.1 hr] at hx
    rcases List.mem_append.1 hx with hx | hx
    · exact hmem x hx
    · rcases List.mem_append.1 hx with hx | hx
      · obtain ⟨y, hy, rfl⟩ := List.mem_map.1 hx
        exact hsnap y (h.arch.2 y hy).2
      · obtain ⟨y, hy, rfl⟩ := List.mem_map.1 hx
        exact hsnap y (h.lead.2.2 y hy).2
  · intro x hx
    exact ⟨(h.arch.2 x hx).1, _, List.mem_singleton.2 rfl, List.mem_append_right _
      (List.mem_append_left _ (List.mem_map_of_mem hx))⟩
  · intro x hx
    exact ⟨(h.lead.2.2 x hx).1, _, List.mem_singleton.2 rfl, List.mem_append_right _
      (List.mem_append_right _ (List.mem_map_of_mem hx))⟩

/-- OMOPSO keeps the contract of the islands; everything but the speed of a particle survives its migration, and a
step costs as much as there are particles. -/
theorem omopso_contract (htrim : ∀ v, InBox v dims → InBox (trim v) dims) (hfit : ∀ v, (fit v).length = m)
    (h1 : 1 ≤ N / n) {ds : ℕ → ℕ → ℕ → ℕ → Swarm.SpeedDraw K} (hds : ∀ i k j p, (ds i k j p).Valid) :
    Loose (omopsoOps dims trim eta m fit ds) n
      (fun i s => ∃ rounds, Swarm.OInv dims fit (islandSize N n i) rounds s.st)
      (fun i s => ∃ rounds, Swarm.OInv dims fit (islandSize N n i) rounds s.st)
      (fun x => InBox x.1.v dims ∧ x.1.speed.length = dims.length ∧ x.1.objs = fit x.1.v ∧
        ∃ b, x.1.best = some (b, fit b) ∧ InBox b dims)
      (fun x => (x.1.v, x.1.best, x.1.objs)) (islandSize N n) (islandSize N n) (islandSize N n)
      (fun _ r => r ≠ [] ∧ ∀ v ∈ r, InBox v dims) := by
  have T : Swarm.OTask dims trim m (id : List K → List K) fit none := ⟨htrim, hfit, fun _ h => by cases h⟩
  have hsize : ∀ i, 1 ≤ islandSize N n i := fun i => by unfold islandSize; omega
  have hobj : ∀ i (s : OmopsoIsland K), (∃ rounds, Swarm.OInv dims fit (islandSize N n i) rounds s.st) →
      ∀ p ∈ s.st.particles, InBox p.v dims ∧ p.speed.length = dims.length ∧ p.objs = fit p.v ∧
        ∃ b, p.best = some (b, fit b) ∧ InBox b dims := by
    rintro i s ⟨r, h⟩ p hp
    obtain ⟨a, b, c⟩ := h.box p hp
    obtain ⟨j, hj⟩ := List.mem_iff_getElem?.1 hp
    obtain ⟨x, e1, ⟨q, hq, e2⟩, -⟩ := h.best j p hj
    exact ⟨a, b, c, x, e1, h.rbox q hq _ (List.mem_of_getElem? e2)⟩
  refine ⟨fun _ _ h => h, ?_, ?_, ?_, ?_⟩
  · rintro i - k j s ⟨r, h⟩
    obtain ⟨s', e, h'⟩ := h.step (eta := eta) T (hsize i) (ds := ds i k j) (hds i k j)
    have hne : s.st.particles ≠ [] := by
      intro e'
      have h0 := h.size
      have := hsize i
      rw [e', List.length_nil] at h0
      omega
    have hc := Swarm.omopsoStep_cost hne e
    refine ⟨⟨s', i⟩, by simp only [omopsoOps, e, Option.map_some], ⟨_, h'⟩, ?_, ?_⟩
    all_goals
      simp only [omopsoOps, hc, h.size]
      omega
  · rintro i - s l ⟨r, h⟩ hl hP
    have hlen : l.length = islandSize N n i := by
      rw [hl]
      simp [omopsoOps, h.size]
    refine ⟨?_, rfl, ?_⟩
    · refine omopso_replace h _ (by rw [List.length_map, hlen]) ?_
      intro p hp
      obtain ⟨x, hx, rfl⟩ := List.mem_map.1 hp
      obtain ⟨a, b, c, d⟩ := hP x hx
      split_ifs
      · exact ⟨a, b, c, d⟩
      · exact ⟨a, by simp only [resetSpeed, List.length_map]; exact a.length_eq, c, d⟩
    · simp only [omopsoOps, List.map_map]
      refine List.map_congr_left fun x _ => ?_
      simp only [Function.comp]
      split_ifs <;> rfl
  · rintro i - s h
    refine ⟨by obtain ⟨r, h⟩ := h; simp [omopsoOps, h.size], ?_⟩
    intro x hx
    obtain ⟨p, hp, rfl⟩ := List.mem_map.1 hx
    exact hobj i s h p hp
  · rintro i - k s ⟨r, h⟩
    refine ⟨s, _, rfl, ⟨r, h⟩, ⟨?_, ?_⟩, le_rfl⟩
    · rw [Swarm.omopsoFinal]
      simpa using h.arch.1
    · intro v hv
      obtain ⟨x, hx, rfl⟩ := List.mem_map.1 hv
      obtain ⟨-, q, hq, hxq⟩ := h.arch.2 x hx
      exact h.rbox q hq _ hxq

/-- **C103 for islands with OMOPSO**, with at least one particle on every island: for every positive budget there is
a result, at no less than the cost asked for, made of at least one vector of the box from every island. -/
theorem C103_omopso (htrim : ∀ v, InBox v dims → InBox (trim v) dims) (hfit : ∀ v, (fit v).length = m)
    (hn : 0 < n) (h1 : 1 ≤ N / n) (ds : ℕ → ℕ → ℕ → ℕ → Swarm.SpeedDraw K)
    (hds : ∀ i k j p, (ds i k j p).Valid) (population : List (List K)) (hN : population.length = N)
    (hbox : ∀ v ∈ population, InBox v dims) {w : ℕ} (hw : 0 < w) {mig : ℕ} (hmig : mig * 4 ≤ N / n)
    {len : ℕ} (hlen : 0 < len) (pick : ℕ → ℕ → ℕ → ℕ → List (List (List K)) → Option (List K))
    (hpick : ∀ k a b j, PickOk (pick k a b j)) (budgets : List ℤ) (hpos : ∀ b ∈ budgets, 0 < b)
    (fuel : ℕ) (hfuel : ∀ b ∈ budgets, b ≤ fuel) :
    ∃ top s, torus w n = some top ∧ start (omopsoMake trim eta m fit) n population = some s ∧
      ∃ res o', budgetWorker (driver (omopsoOps dims trim eta m fit ds) fit top mig len pick) fuel
          budgets ⟨some (0, s), 0⟩ = some (res, o') ∧
        res.map (fun r => r.name) = budgets ∧
        ∀ r ∈ res, r.name ≤ r.cost ∧ ∃ p, r.pop = some p ∧ n ≤ p.length ∧ ∀ v ∈ p, InBox v dims := by
  have T : Swarm.OTask dims trim m (id : List K → List K) fit none := ⟨htrim, hfit, fun _ h => by cases h⟩
  have hsize : ∀ i, 1 ≤ islandSize N n i := fun i => by unfold islandSize; omega
  obtain ⟨top, s, e1, e2, res, o', e3, e4, e5⟩ := run_torus_any hn
    (omopso_contract (eta := eta) htrim hfit h1 hds) hN (mk := omopsoMake trim eta m fit) (by
      intro i _ p hp hmem
      obtain ⟨s, a1, a2, -⟩ := Swarm.omopsoInit_spec (eta := eta) T (hsize i) hp
        (fun v hv => hbox v (hmem v hv))
      exact ⟨⟨s, 0⟩, by rw [omopsoMake, a1]; rfl, _, a2⟩) fit hw hmig hlen ⟨0, hn, hsize 0⟩ pick hpick budgets
    hpos fuel hfuel
  refine ⟨top, s, e1, e2, res, o', e3, e4, fun r hr => ?_⟩
  obtain ⟨f1, p, f2, rs, rfl, f3, f4⟩ := e5 r hr
  refine ⟨f1, _, f2, ?_, ?_⟩
  · rw [List.length_flatten, ← f3, ← List.length_map (f := List.length) (as := rs)]
    refine List.length_le_sum_of_one_le _ fun k hk => ?_
    obtain ⟨q, hq, rfl⟩ := List.mem_map.1 hk
    obtain ⟨i, hi⟩ := List.mem_iff_getElem?.1 hq
    exact List.length_pos_iff.2 (f4 i q hi).1
  · intro v hv
    obtain ⟨q, hq, hv⟩ := List.mem_flatten.1 hv
    obtain ⟨i, hi⟩ := List.mem_iff_getElem?.1 hq
    exact (f4 i q hi).2 v hv


/-- Two islands with two particles each, one migrant, epochs of one step. -/
example : ((start (omopsoMake id (3 / 400) 2 Dist.exOpposite) 2 [[0], [1 / 2], [1], [1 / 4]]).bind fun s =>
      (budgetWorker (driver (omopsoOps [(0, 1)] id (3 / 400) 2 Dist.exOpposite
        (fun _ _ _ _ => ⟨fun _ => (1, 0), 1, 1 / 4, 2, 2, 1⟩)) Dist.exOpposite [[1], [0]] 1 1
        (fun _ _ _ _ L => L.flatten.head?)) 5 [5, 9] ⟨some (0, s), 0⟩).map
      (fun r => r.1.map fun x => (x.name, x.cost, x.pop.map List.length)))
    = some [(5, 8, some 6), (9, 12, some 9)] := by decide +kernel

/-- Who migrates loses the speed, the others keep it. -/
example : ((omopsoOps [((0 : ℚ), 1)] id (3 / 400) 2 Dist.exOpposite
      (fun _ _ _ _ => ⟨fun _ => (1, 0), 1, 1 / 4, 2, 2, 1⟩)).put
        [(⟨[1 / 2], [3], some ([1], [1, 0]), [1 / 2, 1 / 2]⟩, 1), (⟨[1 / 4], [2], some ([1], [1, 0]), [1 / 4, 3 / 4]⟩, 0)]
        ⟨⟨[], [], [], fun _ => 0, 2, 4, 0⟩, 1⟩).st.particles.map (fun p => (p.v, p.speed)) =
    [([1 / 2], [3]), ([1 / 4], [0])] := by decide +kernel

example := C103_omopso (dims := [((0 : ℚ), 1)]) (trim := id) (eta := 3 / 400) (m := 2) (fit := Dist.exOpposite)
  (n := 2) (N := 8) (fun _ h => h) (fun _ => rfl) (by decide) (by decide)
  (fun _ _ _ _ => ⟨fun _ => (1, 0), 1, 1 / 4, 2, 2, 1⟩)
  (fun _ _ _ _ n h => ⟨by simp, by simp only; omega, by simp only; omega⟩)
  [[0], [1 / 8], [1 / 4], [3 / 8], [1 / 2], [5 / 8], [3 / 4], [1]] rfl exEight (w := 4) (by decide)
  (mig := 1) (by decide) (len := 5) (by decide) (fun _ _ _ _ L => L.flatten.head?) exPick [10, 100]
  (by decide) 100 (by decide)

end

/-! ## NSGA-III -/

section
variable {K : Type*} [Field K] [LinearOrder K] [IsStrictOrderedRing K]
  {pw : K → K → K} {sq : K → K} {eps : K} {f : List K → List K} {cf : Nsgaiii.Conf K} {n N g : ℕ}

/-- NSGA-III keeps the contract of the islands, with at least two individuals on each. A step costs at most as much
as there are children; if the first pair of parents is always crossed, it costs something. -/
theorem nsgaiii_contract (hp : PowLaws pw) (he : 0 < eps) (hcf : Nsgaiii.ConfOk f cf) (h2 : 2 ≤ N / n)
    {d : NsgaiiiDraws K}
    (hd : ∀ i k j, Nsgaiii.DrawsOk (islandSize N n i) (d.ds i k j) (d.iter i k j) (d.sample i k j))
    (hg : g = 0 ∨ (g = 1 ∧ ∀ i k j, (d.ds i k j 0).first ≤ cf.rateC)) :
    Loose (nsgaiiiOps pw sq eps f cf d) n (fun i s => Nsgaiii.CSound f cf (islandSize N n i) s)
      (fun i s => Nsgaiii.CSound f cf (islandSize N n i) s)
      (fun x => InBox x.v cf.dims ∧ cf.trim x.v = x.v ∧ x.objectives = some (f x.v)) id (islandSize N n)
      (fun _ => g) (fun i => 2 * (islandSize N n i / 2))
      (fun i r => GoodResult cf.dims (islandSize N n i) r) where
  ready := fun _ _ h => h
  step := by
    rintro i - k j s h
    have h2' : 2 ≤ islandSize N n i := by unfold islandSize; omega
    obtain ⟨raw, s', r1, -, r2, r3, r4, r5⟩ := Nsgaiii.stepCosted_any (cf := { cf with refs := d.refs i })
      (sq := sq) hp he ⟨hcf.etaC, hcf.etaM, hcf.trimBox, hcf.trimIdem, hcf.objectives⟩ h2'
      (s := s) ⟨⟨h.1.size, h.1.box, h.1.trimmed, h.1.eval⟩, h.2.1, h.2.2⟩ (hd i k j)
    refine ⟨s', r2, ⟨⟨r3.1.size, r3.1.box, r3.1.trimmed, r3.1.eval⟩, r3.2.1, r3.2.2⟩, ?_, ?_⟩
    · simp only [nsgaiiiOps, r5]
      rcases hg with rfl | ⟨rfl, hfirst⟩
      · omega
      · have := Nsgaiii.makeOffspring_pos (cf := { cf with refs := d.refs i }) (hfirst i k j)
          (islandSize N n i / 2) 0 raw le_rfl (by omega) r1
        omega
    · have := Nsgaiii.evaluations_le raw
      simp only [nsgaiiiOps, r5]
      omega
  put := by
    rintro i - s l h hl hP
    refine ⟨⟨⟨?_, fun x hx => (hP x hx).1, fun x hx => (hP x hx).2.1, fun x hx => (hP x hx).2.2⟩, h.2⟩, rfl, rfl⟩
    show l.length = s.st.size
    rw [hl]
    exact h.1.size
  inds := by
    rintro i - s h
    refine ⟨by show _ ≤ s.st.inds.length; rw [h.1.size, h.2.1], ?_⟩
    exact fun x hx => ⟨h.1.box x hx, h.1.trimmed x hx, h.1.eval x hx⟩
  finish := by
    rintro i - k s h
    refine ⟨s, _, rfl, h, ⟨by rw [List.length_map, h.1.size, h.2.1], ?_⟩, le_rfl⟩
    intro v hv
    obtain ⟨x, hx, rfl⟩ := List.mem_map.1 hv
    exact h.1.box x hx

/-- **C103 for islands with NSGA-III**, with at least two individuals on each and the first pair of every generation
crossed. (A generation without a crossover or a mutation costs nothing, so there has to be some such condition.) -/
theorem C103_nsgaiii (hp : PowLaws pw) (he : 0 < eps) (hcf : Nsgaiii.ConfOk f cf) (hn : 0 < n) (h2 : 2 ≤ N / n)
    (d : NsgaiiiDraws K)
    (hd : ∀ i k j, Nsgaiii.DrawsOk (islandSize N n i) (d.ds i k j) (d.iter i k j) (d.sample i k j))
    (hfirst : ∀ i k j, (d.ds i k j 0).first ≤ cf.rateC) (population : List (List K)) (hN : population.length = N)
    (hbox : ∀ v ∈ population, InBox v cf.dims) {w : ℕ} (hw : 0 < w) {mig : ℕ} (hmig : mig * 4 ≤ N / n)
    {len : ℕ} (hlen : 0 < len) (pick : ℕ → ℕ → ℕ → ℕ → List (List (List K)) → Option (List K))
    (hpick : ∀ k a b j, PickOk (pick k a b j)) (budgets : List ℤ) (hpos : ∀ b ∈ budgets, 0 < b)
    (fuel : ℕ) (hfuel : ∀ b ∈ budgets, b ≤ fuel) :
    ∃ top s, torus w n = some top ∧
      start (fun p => some (Nsgaiii.initCosted f cf p)) n population = some s ∧
      ∃ res o', budgetWorker (driver (nsgaiiiOps pw sq eps f cf d) f top mig len pick) fuel budgets
          ⟨some (0, s), 0⟩ = some (res, o') ∧
        res.map (fun r => r.name) = budgets ∧
        ∀ r ∈ res, r.name ≤ r.cost ∧ ∃ p, r.pop = some p ∧ GoodResult cf.dims N p :=
  run_torus hn (nsgaiii_contract (g := 1) hp he hcf h2 hd (Or.inr ⟨rfl, hfirst⟩)) hN (by
    intro i _ p hp hmem
    have := Nsgaiii.initCosted_good hcf (pop := p) fun v hv => hbox v (hmem v hv)
    rw [hp] at this
    exact ⟨_, rfl, this.sound⟩) f hw hmig hlen ⟨0, hn, Nat.one_pos⟩ pick hpick budgets hpos fuel
    hfuel

end

/-- Draws for two islands with NSGA-III. -/
def exNsgaiiiIslands : NsgaiiiDraws ℚ where
  refs := fun _ => [[1, 0], [1 / 2, 1 / 2]]
  ds := fun _ _ _ _ => ⟨0, 1, 1 / 2, fun _ => ⟨1 / 4, 1 / 4, 1 / 4⟩, fun _ => ⟨1 / 2, 1 / 2⟩,
    fun _ => ⟨1 / 2, 1 / 2⟩⟩
  iter := fun _ _ _ => id
  sample := fun _ _ _ l n => l.take n

theorem exNsgaiiiIslands_ok (i k j : ℕ) : Nsgaiii.DrawsOk (islandSize 8 2 i) (exNsgaiiiIslands.ds i k j)
    (exNsgaiiiIslands.iter i k j) (exNsgaiiiIslands.sample i k j) := by
  have h : 2 ≤ islandSize 8 2 i := by unfold islandSize; omega
  refine ⟨fun _ => ?_, fun _ => List.Perm.refl _, fun l n h => Dist.exSample l n h⟩
  constructor <;> simp only [exNsgaiiiIslands]
  · omega
  · omega
  all_goals intro _; norm_num

/-- Two islands of two individuals with NSGA-III: eight evaluations after the first epoch, twelve after the
second. -/
example : ((start (fun p => some (Nsgaiii.initCosted Dist.exOpposite Dist.exNsgaiiiConf p)) 2
      [[0], [1 / 2], [1], [1 / 4]]).bind fun s =>
    (budgetWorker (driver (nsgaiiiOps exSetup.pw id (1 / 1000) Dist.exOpposite Dist.exNsgaiiiConf exNsgaiiiIslands)
      Dist.exOpposite [[1], [0]] 1 1 (fun _ _ _ _ L => L.flatten.head?)) 9 [5, 9] ⟨some (0, s), 0⟩).map
      (fun r => r.1.map fun x => (x.name, x.cost, x.pop.map List.length)))
    = some [(5, 8, some 4), (9, 12, some 4)] := by decide +kernel

/-- The theorem applies to two islands of four individuals each. -/
example := C103_nsgaiii (pw := exSetup.pw) (sq := id) (eps := 1 / 1000)
  (f := Dist.exOpposite) (cf := Dist.exNsgaiiiConf) (n := 2) (N := 8) exSetup_valid.pow (by norm_num)
  ⟨by norm_num [Dist.exNsgaiiiConf], by norm_num [Dist.exNsgaiiiConf], fun _ h => h, fun _ => rfl, fun _ => rfl⟩
  (by decide) (by decide) exNsgaiiiIslands exNsgaiiiIslands_ok
  (fun _ _ _ => by norm_num [exNsgaiiiIslands, Dist.exNsgaiiiConf])
  [[0], [1 / 8], [1 / 4], [3 / 8], [1 / 2], [5 / 8], [3 / 4], [1]] rfl exEight (w := 4) (by decide) (mig := 1)
  (by decide) (len := 5) (by decide) (fun _ _ _ _ L => L.flatten.head?) exPick [50, 100] (by decide) 100 (by decide)

/-! ## NSLS -/

section
variable {K : Type*} [Field K] [LinearOrder K] [IsStrictOrderedRing K] {dims : List (K × K)}
  {trim : List K → List K} {f : List K → List K} {m : ℕ} {vdist : List K → List K → K} {n N : ℕ}

/-- NSLS keeps the contract of the islands, with at least two individuals on each, if the local search always finds a
trial that is not dominated. The first step evaluates the population as well. -/
theorem nsls_contract (ht : Nsls.TrimOk dims trim) (hf : ∀ v, (f v).length = m) (hm : 1 ≤ m) (h2 : 2 ≤ N / n)
    {d : NslsDraws K}
    (hd : ∀ i k j, Nsls.DrawsOk (islandSize N n i) (d.ds i k j) (d.iter i k j) (d.sample i k j))
    (hprod : ∀ i k j (s : Nsls.Costed K) done, Nsls.CGood dims f (islandSize N n i) done s →
      Nsls.Productive dims trim f (d.ds i k j) s.inds) :
    Loose (nslsOps dims trim f m vdist d) n (fun i s => ∃ done, Nsls.CGood dims f (islandSize N n i) done s)
      (fun i s => Nsls.CGood dims f (islandSize N n i) true s)
      (fun x => InBox x.v dims ∧ x.objectives = some (f x.v)) id (islandSize N n)
      (fun i => islandSize N n i * (dims.length * 2))
      (fun i => islandSize N n i + islandSize N n i * (dims.length * 2))
      (fun i r => GoodResult dims (islandSize N n i) r) where
  ready := fun _ _ h => ⟨true, h⟩
  step := by
    rintro i - k j s ⟨done, h⟩
    obtain ⟨s', e, h', hc⟩ := (h.step (vdist := vdist) ht hf hm
      (show 2 ≤ islandSize N n i by unfold islandSize; omega) (hd i k j)).1 (hprod i k j s done h)
    refine ⟨s', e, h', ?_, ?_⟩
    · simp only [nslsOps, hc]
      omega
    · simp only [nslsOps, hc]
      have : (if done then 0 else islandSize N n i) ≤ islandSize N n i := by cases done <;> simp
      omega
  put := by
    rintro i - s l h hl hP
    refine ⟨⟨h.size, ?_, fun x hx => (hP x hx).1, fun x hx => ?_⟩, rfl, rfl⟩
    · show l.length = _
      rw [hl]
      exact h.length
    · simpa using (hP x hx).2
  inds := by
    rintro i - s h
    refine ⟨h.length.ge, fun x hx => ⟨h.box x hx, by simpa using h.objs x hx⟩⟩
  finish := by
    rintro i - k s h
    refine ⟨s, _, rfl, h, ⟨by rw [List.length_map, h.length], ?_⟩, le_rfl⟩
    intro v hv
    obtain ⟨x, hx, rfl⟩ := List.mem_map.1 hv
    exact h.box x hx

/-- **C103 for islands with NSLS**, with at least two individuals on each, if every local search finds a trial that
is not dominated (otherwise the step does not end, C102). -/
theorem C103_nsls (ht : Nsls.TrimOk dims trim) (hf : ∀ v, (f v).length = m) (hm : 1 ≤ m)
    (hdims : 1 ≤ dims.length) (hn : 0 < n) (h2 : 2 ≤ N / n) (d : NslsDraws K)
    (hd : ∀ i k j, Nsls.DrawsOk (islandSize N n i) (d.ds i k j) (d.iter i k j) (d.sample i k j))
    (hprod : ∀ i k j (s : Nsls.Costed K) done, Nsls.CGood dims f (islandSize N n i) done s →
      Nsls.Productive dims trim f (d.ds i k j) s.inds)
    (population : List (List K)) (hN : population.length = N)
    (hbox : ∀ v ∈ population, InBox v dims) {w : ℕ} (hw : 0 < w) {mig : ℕ} (hmig : mig * 4 ≤ N / n)
    {len : ℕ} (hlen : 0 < len) (pick : ℕ → ℕ → ℕ → ℕ → List (List (List K)) → Option (List K))
    (hpick : ∀ k a b j, PickOk (pick k a b j)) (budgets : List ℤ) (hpos : ∀ b ∈ budgets, 0 < b)
    (fuel : ℕ) (hfuel : ∀ b ∈ budgets, b ≤ fuel) :
    ∃ top s, torus w n = some top ∧ start (fun p => some (Nsls.initCosted trim p)) n population = some s ∧
      ∃ res o', budgetWorker (driver (nslsOps dims trim f m vdist d) f top mig len pick) fuel budgets
          ⟨some (0, s), 0⟩ = some (res, o') ∧
        res.map (fun r => r.name) = budgets ∧
        ∀ r ∈ res, r.name ≤ r.cost ∧ ∃ p, r.pop = some p ∧ GoodResult dims N p :=
  run_torus hn (nsls_contract ht hf hm h2 hd hprod) hN (by
    intro i _ p hp hmem
    have := Nsls.initCosted_good (f := f) ht (pop := p) fun v hv => hbox v (hmem v hv)
    rw [hp] at this
    exact ⟨_, rfl, false, this⟩) f hw hmig hlen
    ⟨0, hn, Nat.mul_pos (by unfold islandSize; omega) (by omega)⟩ pick hpick budgets hpos fuel hfuel

end

/-- Draws for two islands with NSLS. -/
def exNslsIslands : NslsDraws ℚ where
  ds := fun _ _ _ _ _ => ⟨1 / 2, 0, 1, true⟩
  iter := fun _ _ _ => id
  sample := fun _ _ _ l n => l.take n

theorem exNslsIslands_ok (i k j : ℕ) : Nsls.DrawsOk (islandSize 8 2 i) (exNslsIslands.ds i k j)
    (exNslsIslands.iter i k j) (exNslsIslands.sample i k j) := by
  have h : 2 ≤ islandSize 8 2 i := by unfold islandSize; omega
  refine ⟨fun _ _ => ?_, fun _ => List.Perm.refl _, fun l n h => Dist.exSample l n h⟩
  simp only [exNslsIslands]
  omega

/-- Two islands of two individuals with NSLS: twelve evaluations after the first epoch, eight more after the
second. -/
example : ((start (fun p => some (Nsls.initCosted id p)) 2 [[0], [1 / 2], [1], [1 / 4]]).bind fun s =>
    (budgetWorker (driver (nslsOps [(0, 1)] id Dist.exOpposite 2 (fun a b => |a.getD 0 0 - b.getD 0 0|) exNslsIslands)
      Dist.exOpposite [[1], [0]] 1 1 (fun _ _ _ _ L => L.flatten.head?)) 15 [5, 15] ⟨some (0, s), 0⟩).map
      (fun r => r.1.map fun x => (x.name, x.cost, x.pop.map List.length)))
    = some [(5, 12, some 4), (15, 20, some 4)] := by decide +kernel

/-- The theorem applies to two islands of four individuals each and two objectives that rank the vectors in opposite
orders: there every trial succeeds. -/
example := C103_nsls (dims := [(0, 1)]) (trim := id) (f := Dist.exOpposite) (m := 2)
  (vdist := fun a b => |a.getD 0 0 - b.getD 0 0|) (n := 2) (N := 8) Dist.exTrimOk (fun _ => rfl) (by decide)
  (by decide) (by decide) (by decide) exNslsIslands exNslsIslands_ok
  (fun i k j s done h => Nsls.C102_incomparable (m := 2) Dist.exTrimOk (fun _ => rfl) (by simp)
    (fun x y _ _ => Dist.exOpposite_incomparable x y) (by rw [h.length]; unfold islandSize; omega)
    (by rw [h.length]; exact (exNslsIslands_ok i k j).pairs) h.box (fun x hx o ho => by
      have h3 := h.objs x hx
      rw [ho] at h3
      cases done with
      | false => cases h3
      | true => simpa using h3))
  [[0], [1 / 8], [1 / 4], [3 / 8], [1 / 2], [5 / 8], [3 / 4], [1]] rfl exEight (w := 4) (by decide) (mig := 1)
  (by decide) (len := 5) (by decide) (fun _ _ _ _ L => L.flatten.head?) exPick [50, 100] (by decide) 100 (by decide)

/-! ## JGBL -/

section
variable {K : Type*} [Field K] [LinearOrder K] [IsStrictOrderedRing K] [FloorSemiring K]
  {A : Type*} [DecidableEq A] {S : Setup K} {key : List K → A} {fit : List K → List K} {m jumps : ℕ} {c : K}
  {n N : ℕ}

/-- JGBL keeps the contract of the islands: a step costs the children and six evaluations for each individual that
jumps. -/
theorem jgbl_contract (hS : S.Valid) (hproper : Jgbl.ProperBox S.dims) (hfit : ∀ v, (fit v).length = m)
    {d : JgblDraws K} (ho : ∀ i k j, (d.orders i k j).Valid)
    (hdm : ∀ i k j t, (d.dm i k j t).Valid (islandSize N n i)) (hdv : ∀ i k j t, (d.dv i k j t).Valid)
    (hjd : ∀ i k j, Jumping.JumpsValid S.dims.length jumps (d.jd i k j)) :
    Loose (jgblOps S key fit m d) n
      (fun i s => NInv S m c (islandSize N n i) s ∧ s.acc.archive = none)
      (fun i s => NInv S m c (islandSize N n i) s ∧ s.acc.archive = none)
      (fun x => InBox x.1 S.dims ∧ ∃ f, x.2 = some f ∧ f.length = m) id (islandSize N n)
      (fun i => ⌊c * (islandSize N n i : K)⌋₊)
      (fun i => ⌊c * (islandSize N n i : K)⌋₊ + 6 * islandSize N n i)
      (fun i r => GoodResult S.dims (islandSize N n i) r) := by
  have base := (nsgaii_contract (S := S) (key := key) (c := c) (n := n) (N := N) hS hfit
    (iter := fun i k j => (d.orders i k j).inner) (fun i k j => (ho i k j).inner) hdm hdv).loose
  refine ⟨base.ready, ?_, base.put, base.inds, base.finish⟩
  rintro i - k j s ⟨h, ha⟩
  obtain ⟨s', e1, g1, -, g3⟩ := h.jump (key := key) hS hproper hfit (ho i k j) (hdm i k j) (hdv i k j)
    (jd := d.jd i k j) (k := jumps) (hjd i k j)
  obtain ⟨b1, q, b3, b2⟩ := g3 ha
  refine ⟨s', e1, ⟨g1, b1⟩, ?_, ?_⟩
  all_goals
    simp only [jgblOps, b2]
    omega

/-- **C103 for islands with JGBL**, if the largest island has offspring. -/
theorem C103_jgbl (hS : S.Valid) (hproper : Jgbl.ProperBox S.dims) (hfit : ∀ v, (fit v).length = m) (hn : 0 < n)
    (hM : 1 ≤ ⌊c * (islandSize N n 0 : K)⌋₊) (d : JgblDraws K) (ho : ∀ i k j, (d.orders i k j).Valid)
    (hdm : ∀ i k j t, (d.dm i k j t).Valid (islandSize N n i)) (hdv : ∀ i k j t, (d.dv i k j t).Valid)
    (hjd : ∀ i k j, Jumping.JumpsValid S.dims.length jumps (d.jd i k j))
    (population : List (List K)) (hN : population.length = N)
    (hbox : ∀ v ∈ population, InBox v S.dims) {w : ℕ} (hw : 0 < w) {mig : ℕ} (hmig : mig * 4 ≤ N / n)
    {len : ℕ} (hlen : 0 < len) (pick : ℕ → ℕ → ℕ → ℕ → List (List (List K)) → Option (List K))
    (hpick : ∀ k a b j, PickOk (pick k a b j)) (budgets : List ℤ) (hpos : ∀ b ∈ budgets, 0 < b)
    (fuel : ℕ) (hfuel : ∀ b ∈ budgets, b ≤ fuel) :
    ∃ top s, torus w n = some top ∧
      start (fun p => some (nsgaiiInit S key fit none c p)) n population = some s ∧
      ∃ res o', budgetWorker (driver (jgblOps S key fit m d) fit top mig len pick) fuel
          budgets ⟨some (0, s), 0⟩ = some (res, o') ∧
        res.map (fun r => r.name) = budgets ∧
        ∀ r ∈ res, r.name ≤ r.cost ∧ ∃ p, r.pop = some p ∧ GoodResult S.dims N p :=
  run_torus hn (jgbl_contract (c := c) hS hproper hfit ho hdm hdv hjd) hN (by
    intro i _ p hp hmem
    exact ⟨_, rfl, ((nsgaiiInit_reach hp fun v hv => hbox v (hmem v hv)).inv hS hfit).1,
      (nsgaiiInit_cost p).1⟩) fit hw hmig hlen ⟨0, hn, hM⟩ pick hpick budgets hpos fuel hfuel

end

/-- Draws for two islands with JGBL; the first individual jumps in every step. -/
def exJgblIslands : JgblDraws ℚ where
  orders := fun _ _ _ => ⟨id, id, id, id, id⟩
  dm := fun i k j => Hgs.exNsgaiiDraws.dm 0 i k j
  dv := fun i k j => Hgs.exNsgaiiDraws.dv i k j
  jd := Dist.exJgblDraws.jd

/-- Two islands of two individuals with JGBL. -/
example : ((start (fun p => some (nsgaiiInit exSetup (fun v : List ℚ => v) Dist.exOpposite none 1 p)) 2
      [[0], [1 / 2], [1], [1 / 4]]).bind fun s =>
    (budgetWorker (driver (jgblOps exSetup (fun v : List ℚ => v) Dist.exOpposite 2 exJgblIslands) Dist.exOpposite
      [[1], [0]] 1 1 (fun _ _ _ _ L => L.flatten.head?)) 35 [5, 25] ⟨some (0, s), 0⟩).map
      (fun r => r.1.map fun x => (x.name, x.cost, x.pop.map List.length)))
    = some [(5, 20, some 4), (25, 36, some 4)] := by decide +kernel

/-- The theorem applies to two islands of four individuals each. -/
example := C103_jgbl (S := exSetup) (key := (id : List ℚ → List ℚ)) (fit := Dist.exOpposite) (m := 2) (c := 1)
  (jumps := 1) (n := 2) (N := 8) exSetup_valid (by simp [Jgbl.ProperBox, exSetup]) (fun _ => rfl) (by decide)
  (Nat.le_floor (by norm_num [islandSize])) exJgblIslands (fun _ _ _ => by
    constructor <;> exact fun _ => List.Perm.refl _)
  (fun i _ _ _ => by
    have h : 2 ≤ islandSize 8 2 i := by unfold islandSize; omega
    constructor <;> simp [exJgblIslands, Hgs.exNsgaiiDraws] <;> omega)
  (fun i k j n => ⟨fun _ => ⟨by simp only [exJgblIslands, Hgs.exNsgaiiDraws]; positivity, by
    simp only [exJgblIslands, Hgs.exNsgaiiDraws]
    rw [div_lt_one (by positivity)]
    have h1 : (0 : ℚ) ≤ k := Nat.cast_nonneg _
    have h2 : (0 : ℚ) ≤ j := Nat.cast_nonneg _
    linarith⟩, fun _ => by simp only [exJgblIslands, Hgs.exNsgaiiDraws]; norm_num⟩)
  (fun _ _ _ mates i d h1 h => by
    simp only [exJgblIslands, Dist.exJgblDraws] at h
    split at h
    · cases h
      simp only [Jgbl.JumpDraw.Ok, Jgbl.PasteDraw.Ok, Jgbl.IsSortedSample]
      simp [exSetup]
      omega
    · cases h)
  [[0], [1 / 8], [1 / 4], [3 / 8], [1 / 2], [5 / 8], [3 / 4], [1]] rfl exEight (w := 4) (by decide) (mig := 1)
  (by decide) (len := 5) (by decide) (fun _ _ _ _ L => L.flatten.head?) exPick [50, 100] (by decide) 100 (by decide)

end Evogil.Imga
