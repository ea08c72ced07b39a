import Verif.Props.HgsRun

/-!
# C106 for HGS with SPEA2 in its nodes
-/

set_option linter.unusedSectionVars false

namespace Evogil.Hgs

open Generations Evaluation Spec

section
variable {K : Type*} [Field K] [LinearOrder K] [IsStrictOrderedRing K] {A : Type*}
  {S : ℕ → Setup K} {dist : List K → List K → K} {key : List K → A} {m : ℕ} {d : Spea2Draws K}
  {N : ℕ → ℕ} {dims : List (K × K)} {maxLevel g : ℕ}

/-- SPEA2 keeps the contract; every step costs as much as there are individuals. -/
theorem spea2_contract (hS : ∀ l, l ≤ maxLevel → (S l).Valid)
    (hdims : ∀ l, l ≤ maxLevel → (S l).dims = dims) (hdist : ∀ a b, 0 ≤ dist a b)
    (hfit : ∀ l i k j v, (d.fit l i k j v).length = m) (hN : ∀ l, l ≤ maxLevel → 2 ≤ N l)
    (hg : ∀ l, l ≤ maxLevel → g ≤ N l)
    (hdt : ∀ l, l ≤ maxLevel → ∀ i k j n,
      PairDraw (N l) (d.dt l i k j n).1 ∧ PairDraw (N l) (d.dt l i k j n).2)
    (hdv : ∀ i k j n, (d.dv i k j n).Valid) :
    Contract (spea2Ops S dist key d) maxLevel (fun v => InBox v dims) N (fun l p => p = N l)
      (fun l s => SInv (S l) m (N l) s) (fun l s => s.archive.length = N l) (fun _ _ => True) True g := by
  have hstep : ∀ l, l ≤ maxLevel → ∀ i k j s, SInv (S l) m (N l) s →
      ∃ s', spea2Step (S l) dist key (d.fit l i k j) (some fun _ => none) (d.dt l i k j) (d.dv i k j) s
        = some s' ∧ SInv (S l) m (N l) s' ∧ s'.archive.length = N l ∧ s'.cost = s.cost + N l := by
    intro l hl i k j s hs
    obtain ⟨s', e1, g1, l1⟩ := hs.step (hS l hl) hdist (key := key) (hfit l i k j) (hN l hl)
      (fa := some fun _ => none) (by intro a ha; cases ha; simp) (hdt l hl i k j) (hdv i k j)
    have e2 : spea2Step (S l) dist key (d.fit l i k j) none (d.dt l i k j) (d.dv i k j) s = some s' := e1
    exact ⟨s', e1, g1, l1, spea2Step_cost (by have := hN l hl; omega) hs e2⟩
  constructor
  · intro l hl i pop w f hn hP _
    refine ⟨(), _, rfl, (SReach.start (key := key) (dist := dist) (fit := d.fit l i 0 0) (m := m) pop hn
      (fun v hv => by rw [hdims l hl]; exact hP v hv)).inv (hS l hl) hdist (hfit l i 0 0) (hN l hl),
      trivial⟩
  · intro l hl i k j w f s hs _
    obtain ⟨s', e1, g1, -, c1⟩ := hstep l hl i k j s hs
    refine ⟨(), s', by simp only [spea2Ops, e1, Option.map_some], g1, ?_, trivial⟩
    have := hg l hl
    simp only [spea2Ops, c1]
    omega
  · intro l hl i k j w f s w' s'' hs _ h
    obtain ⟨s', e1, -, l1, -⟩ := hstep l hl i k j s hs
    simp only [spea2Ops, e1, Option.map_some, Option.some.injEq, Prod.mk.injEq] at h
    rw [← h.2]
    exact l1
  · intro l hl i k w f s hs hs' _
    refine ⟨(), s, _, _, rfl, hs, le_rfl, fun _ => rfl, trivial, by rw [spea2Final, List.length_map, hs'],
      ?_, ?_⟩
    all_goals
      intro v hv
      obtain ⟨x, hx, rfl⟩ := List.mem_map.1 hv
      rw [← hdims l hl]
      exact (hs.abox x hx).1

/-- **C106 for SPEA2.** Whole runs of HGS with SPEA2 in its nodes, at least two individuals on every
level: however many steps are made, nothing raises; all vectors of the result are in the box; there are
at least `population_sizes[0]` of them from the first step on; and each step costs at least the smallest
population size times the smallest cost modifier, so every budget is reached. -/
theorem C106_spea2 {cfg : Conf (List K) K} (hm2 : cfg.maxLevel ≤ 2)
    (hS : ∀ l, l ≤ cfg.maxLevel → (S l).Valid) (hdims : ∀ l, l ≤ cfg.maxLevel → (S l).dims = dims)
    (hdist : ∀ a b, 0 ≤ dist a b)
    (hfit : ∀ l i k j v, (d.fit l i k j v).length = m) (hN1 : ∀ l, l ≤ cfg.maxLevel → 2 ≤ N l)
    (hg : ∀ l, l ≤ cfg.maxLevel → g ≤ N l)
    (hdt : ∀ l, l ≤ cfg.maxLevel → ∀ i k j n,
      PairDraw (N l) (d.dt l i k j n).1 ∧ PairDraw (N l) (d.dt l i k j n).2)
    (hdv : ∀ i k j n, (d.dv i k j n).Valid)
    (len : ℕ → ℕ) (hlen : ∀ l, 1 ≤ len l) (hv : List (List K) → K)
    (shuffle : ℕ → ℕ → List (List K) → List (List K)) (hsh : ∀ i k l, (shuffle i k l).Perm l)
    (ds : ℕ → ℕ → ℕ → ℕ → MutDraw K)
    (hds : ∀ l i k n, 0 ≤ (ds l i k n).rnd ∧ (ds l i k n).rnd ≤ 1) (rate eta : ℕ → K)
    (heta : ∀ l, 0 ≤ eta l) {ratio : List K} (hr : 3 ≤ ratio.length)
    (perm : List (List K) → List (List K)) (hperm : ∀ l, (perm l).Perm l)
    (population : List (List K)) (hN : N 0 ≤ population.length) (hbox : ∀ v ∈ population, InBox v dims)
    (μ : K) (hμ : 0 ≤ μ) (hmod : ∀ l, l ≤ cfg.maxLevel → μ ≤ cfg.modifier l) (n : ℕ) :
    ∃ s s', start (spea2Ops S dist key d) ratio perm (N 0) () population = some s ∧
      runSteps cfg (spea2Ops S dist key d) ⟨len, hv, shuffle, fun l i v =>
        populationFromDelegate (S l).pw (S l).eps (ds l i) v (N l) dims (rate l) (eta l)⟩ 0 n s = some s' ∧
      (∀ v ∈ result s', InBox v dims) ∧ (1 ≤ n → N 0 ≤ (result s').length) ∧
      n * (μ * g) ≤ s'.tree.cost := by
  have hc := spea2_contract (key := key) hS hdims hdist hfit hN1 hg hdt hdv
  have hseed : ∀ l, l ≤ cfg.maxLevel → ∀ (i : ℕ) (v : List K), InBox v dims → ∃ pop,
      populationFromDelegate (S l).pw (S l).eps (ds l i) v (N l) dims (rate l) (eta l) = some pop ∧
        pop.length = N l ∧ ∀ x ∈ pop, InBox x dims := by
    intro l hl i v hv
    obtain ⟨pop, hp⟩ := Option.isSome_iff_exists.1 (C90_from_delegate_total (hS l hl).pow (hS l hl).eps
      (ds l i) (hds l i) v (N l) dims (rate l) (eta l) (heta l) hv)
    obtain ⟨h1, -, h3⟩ := C90_from_delegate _ _ _ _ _ _ _ _ hv pop hp
    exact ⟨pop, hp, h1.trans (max_eq_right (by have := hN1 l hl; omega)), h3⟩
  obtain ⟨s, s', e0, e1, h1, -, h2⟩ := C106_run hc hm2 ⟨len, hv, shuffle, fun l i v =>
    populationFromDelegate (S l).pw (S l).eps (ds l i) v (N l) dims (rate l) (eta l)⟩ hlen hsh hseed hr
    perm hperm _ trivial population hN hbox n
  refine ⟨s, s', e0, e1, h1, fun hn => (h2 hn).elim fun p hp => hp.1.ge.trans hp.2, ?_⟩
  obtain ⟨t, f0, i0, ht⟩ := hc.start (cfg := cfg) rfl hr perm hperm _ trivial population hN hbox
  have : s = t := Option.some.inj (e0.symm.trans f0)
  subst this
  have key : ∀ (n k : ℕ) (s s' : Run Unit (SState K) (List K) K),
      RunInv cfg (spea2Ops S dist key d) (fun v => InBox v dims) (fun l p => p = N l) (fun l s => SInv (S l) m (N l) s)
        (fun _ _ => True) True s →
      runSteps cfg (spea2Ops S dist key d) ⟨len, hv, shuffle, fun l i v =>
        populationFromDelegate (S l).pw (S l).eps (ds l i) v (N l) dims (rate l) (eta l)⟩ k n s = some s' →
      s.tree.cost + n * (μ * g) ≤ s'.tree.cost := by
    intro n
    induction n with
    | zero =>
      intro k s s' _ h
      cases h
      simp
    | succ n ih =>
      intro k s s' hs h
      obtain ⟨u, e, hu, hle⟩ := C106_progress hc hm2 ⟨len, hv, shuffle, fun l i v =>
        populationFromDelegate (S l).pw (S l).eps (ds l i) v (N l) dims (rate l) (eta l)⟩ hlen hsh hseed
        μ hμ hmod k s hs
      rw [runSteps, e, Option.bind_some] at h
      have := ih (k + 1) u s' hu h
      push_cast
      linarith
  have := key n 0 s s' i0 e1
  rw [ht] at this
  simpa [init] using this

end

/-- The draws of the example. -/
def exSpea2Draws : Spea2Draws ℚ :=
  ⟨fun _ _ _ _ => exFit, fun _ _ _ _ _ => ((0, 1), (1, 0)), fun _ k j _ =>
    ⟨1 / 2, true, fun _ => ⟨0, 1 / (k + j + 4), 0⟩, fun _ => ⟨0, 3 / 4⟩⟩⟩

/-- After four steps: three metaepochs of the root with two evaluations each, one of its sprout, which
counts half. -/
example : (start (K := ℚ) (spea2Ops (fun _ => exSetup) (fun a b => |a.sum - b.sum|)
      (id : List ℚ → List ℚ) exSpea2Draws) [10, 10, 10] id 2 () [[0], [1 / 2], [1]]).bind (fun s =>
        (runSteps exTreeConf (spea2Ops (fun _ => exSetup) (fun a b => |a.sum - b.sum|)
          (id : List ℚ → List ℚ) exSpea2Draws) exRunConf 0 4 s).map
          fun s => (result s, s.tree.cost, s.tree.nodes.map fun n => (n.level, n.alive), s.drivers.map
            fun x => x.cost)) =
    some ([[129403 / 163216], [129403 / 163216], [129403 / 163216], [6599553 / 16484816]], 7,
      [(0, false), (1, true)], [6, 2]) := by decide +kernel

end Evogil.Hgs
