import Verif.Model.HgsRunMore
import Verif.Props.HgsRunSeeded
import Verif.Props.Layers

/-!
# C106 for HGS with IBEA in its nodes
-/

set_option linter.unusedSectionVars false

namespace Evogil.Hgs

open Generations Evaluation Spec

section
variable {K : Type*} [Field K] [LinearOrder K] [IsStrictOrderedRing K] [FloorSemiring K]

/-- An archive in which nothing is found spares nothing. -/
theorem ibeaScale_empty {eps : K} {objectives : List (List K → K)} (b : Bool) (s : IState K) :
    ibeaScale eps objectives (fun _ => false) b s = ibeaScale eps objectives (fun _ => false) false s := by
  unfold ibeaScale ibeaCharge
  simp

variable {S : ℕ → Setup K} {ex : K → K} {kappa c : K} {d : IbeaDraws K} {N : ℕ → ℕ}
  {dims : List (K × K)} {maxLevel g : ℕ}

/-- The delegates of IBEA are individuals that no individual dominates. -/
theorem ibeaDelegates_front (objectives : List (List K → K)) (inds : List (IInd K)) (hne : inds ≠ []) :
    ∃ front, ibeaDelegates objectives inds = some (front.map fun x => x.v) ∧ front ≠ [] ∧
      ∀ x, x ∈ front ↔ x ∈ inds ∧ ∀ y ∈ inds,
        ¬ LDom (objectives.map fun o => o y.v) (objectives.map fun o => o x.v) := by
  obtain ⟨L, hL⟩ := C04_terminates inds (fun x => objectives.map fun o => o x.v) inds.length le_rfl
  obtain ⟨h1, h2⟩ := C04_partition _ _ _ _ hL
  cases L with
  | nil => exact absurd (by simpa using h1.symm) hne
  | cons layer L =>
    refine ⟨layer, by simp only [ibeaDelegates, hL], h2 _ (by simp), fun x => ?_⟩
    have hr := C04_layer_rank objectives.length inds (fun x => objectives.map fun o => o x.v)
      (fun x _ => by simp) _ _ hL 0 x
    simp only [List.getElem?_cons_zero, Option.some.injEq, exists_eq_left'] at hr
    rw [hr]
    constructor
    · rintro ⟨a, b⟩
      exact ⟨a, fun y hy hd => b ⟨a, y, hd, hy⟩⟩
    · rintro ⟨a, b⟩
      exact ⟨a, fun ⟨_, y, hd, hy⟩ => b y hy hd⟩

theorem ibeaStep_empty {S : Setup K} {objectives : List (List K → K)} {dm : ℕ → MateDraw}
    {dv : ℕ → VarDraw K} (b : Bool) (s : IState K) :
    ibeaStep S ex kappa objectives (fun _ => false) b dm dv s =
      ibeaStep S ex kappa objectives (fun _ => false) false dm dv s := by
  unfold ibeaStep
  simp only [ibeaScale_empty b]

theorem ibeaFinish_empty {S : Setup K} {objectives : List (List K → K)} (b : Bool) (s : IState K) :
    ibeaFinish S ex kappa objectives (fun _ => false) b s =
      ibeaFinish S ex kappa objectives (fun _ => false) false s := by
  unfold ibeaFinish
  simp only [ibeaScale_empty b]

/-- IBEA keeps the contract; a step costs as much as there are individuals and children. -/
theorem ibea_contract (hS : ∀ l, l ≤ maxLevel → (S l).Valid)
    (hdims : ∀ l, l ≤ maxLevel → (S l).dims = dims) (hN : ∀ l, l ≤ maxLevel → 1 ≤ N l)
    (hg : ∀ l, l ≤ maxLevel → g ≤ N l + ⌊c * (N l : K)⌋₊)
    (hdm : ∀ l, l ≤ maxLevel → ∀ i k j n, (d.dm l i k j n).Valid (N l))
    (hdv : ∀ i k j n, (d.dv i k j n).Valid) :
    Contract (ibeaOps S ex kappa c d) maxLevel (fun v => InBox v dims) N (fun l p => p = N l)
      (fun l s => IInv (S l) c (N l) s) (fun _ _ => True) (fun _ _ => True) False g := by
  constructor
  · intro l hl i pop w f hn hP _
    obtain ⟨s, e, h1, -⟩ := ibeaInit_spec (objectives := d.obj l i 0 0) (c := c) (hS l hl) (hN l hl) hn
      (fun v hv => by rw [hdims l hl]; exact hP v hv)
    exact ⟨(), s, by simp only [ibeaOps, e, Option.map_some], h1, trivial⟩
  · intro l hl i k j w f s hs _
    obtain ⟨s', e1, g1, l1⟩ := hs.step (ex := ex) (kappa := kappa)
      (objectives := d.obj l i (k + 1) (j + 1)) (hS l hl) (hN l hl) (fun _ => false) true
      (hdm l hl i k j) (hdv i k j)
    refine ⟨(), s', by simp only [ibeaOps, e1, Option.map_some], g1, ?_, trivial⟩
    rw [ibeaStep_empty] at e1
    have := ibeaStep_cost e1
    have := hg l hl
    simp only [ibeaOps]
    omega
  · exact fun _ _ _ _ _ _ _ _ _ _ _ _ _ => trivial
  · intro l hl i k w f s hs _ _
    obtain ⟨s', r, e1, g1, g2, g3⟩ := hs.finish (ex := ex) (kappa := kappa)
      (objectives := d.obj l i (k + 1) 0) (hN l hl) (fun _ => false) true
    obtain ⟨front, e2, -, h2⟩ := ibeaDelegates_front (d.obj l i (k + 1) 0) s'.individuals (by
      intro e
      rw [e, List.length_nil] at g2
      have := hN l hl
      omega)
    refine ⟨(), s', r, front.map fun x => x.v, by simp only [ibeaOps, e1, e2, Option.map_some], g1, ?_,
      fun h => h.elim, trivial, ?_, ?_, ?_⟩
    · rw [ibeaFinish_empty] at e1
      have := ibeaFinish_cost e1
      simp only [ibeaOps]
      omega
    · rw [g3, List.length_map, g2]
    · intro v hv
      rw [g3] at hv
      obtain ⟨x, hx, rfl⟩ := List.mem_map.1 hv
      rw [← hdims l hl]
      exact g1.box x hx
    · intro v hv
      obtain ⟨x, hx, rfl⟩ := List.mem_map.1 hv
      rw [← hdims l hl]
      exact g1.box x ((h2 x).1 hx).1

/-- **C106 for IBEA.** Whole runs of HGS with IBEA in its nodes and at least one individual on every
level: however many steps are made, nothing raises; all vectors of the result are in the box; there are
at least `population_sizes[0]` of them from the first step on; and each step costs at least the smallest
number of individuals with their children times the smallest cost modifier, so every budget is
reached. -/
theorem C106_ibea {cfg : Conf (List K) K} (hm2 : cfg.maxLevel ≤ 2)
    (hS : ∀ l, l ≤ cfg.maxLevel → (S l).Valid) (hdims : ∀ l, l ≤ cfg.maxLevel → (S l).dims = dims)
    (hN1 : ∀ l, l ≤ cfg.maxLevel → 1 ≤ N l)
    (hg : ∀ l, l ≤ cfg.maxLevel → g ≤ N l + ⌊c * (N l : K)⌋₊)
    (hdm : ∀ l, l ≤ cfg.maxLevel → ∀ i k j n, (d.dm l i k j n).Valid (N l))
    (hdv : ∀ i k j n, (d.dv i k j n).Valid)
    (len : ℕ → ℕ) (hlen : ∀ l, 1 ≤ len l) (hv : List (List K) → K)
    (shuffle : ℕ → ℕ → List (List K) → List (List K)) (hsh : ∀ i k l, (shuffle i k l).Perm l)
    (ds : ℕ → ℕ → ℕ → ℕ → MutDraw K)
    (hds : ∀ l i k n, 0 ≤ (ds l i k n).rnd ∧ (ds l i k n).rnd ≤ 1) (rate eta : ℕ → K)
    (heta : ∀ l, 0 ≤ eta l) {ratio : List K} (hr : 3 ≤ ratio.length)
    (perm : List (List K) → List (List K)) (hperm : ∀ l, (perm l).Perm l)
    (population : List (List K)) (hN : N 0 ≤ population.length) (hbox : ∀ v ∈ population, InBox v dims)
    (μ : K) (hμ : 0 ≤ μ) (hmod : ∀ l, l ≤ cfg.maxLevel → μ ≤ cfg.modifier l) (n : ℕ) :
    ∃ s s', start (ibeaOps S ex kappa c d) ratio perm (N 0) () population = some s ∧
      runSteps cfg (ibeaOps S ex kappa c d) ⟨len, hv, shuffle, fun l i v =>
        populationFromDelegate (S l).pw (S l).eps (ds l i) v (N l) dims (rate l) (eta l)⟩ 0 n s = some s' ∧
      (∀ v ∈ result s', InBox v dims) ∧ (1 ≤ n → N 0 ≤ (result s').length) ∧
      n * (μ * g) ≤ s'.tree.cost :=
  C106_box hm2 (ibea_contract (ex := ex) (kappa := kappa) hS hdims hN1 hg hdm hdv)
    (fun _ h => h.ge) hS hN1 len hlen hv
    shuffle hsh ds hds rate eta heta hr perm hperm () trivial population hN hbox μ hμ hmod n

end

/-- The draws of the example. -/
def exIbeaDraws : IbeaDraws ℚ :=
  ⟨fun _ _ _ _ => [fun v => v.sum, fun v => -v.sum], fun _ _ _ _ _ => ⟨0, 1, true⟩, fun _ k j _ =>
    ⟨1 / 2, true, fun _ => ⟨0, 1 / (k + j + 4), 0⟩, fun _ => ⟨0, 3 / 4⟩⟩⟩

/-- After four steps: the three metaepochs of the root have been counted up to the cost 22, the one of
its sprout up to 6, which counts half. What the last finalizations have charged, 4 for each of the two
drivers, is not part of the cost. -/
example : (start (K := ℚ) (ibeaOps (fun _ => exSetup) (fun x => 1 + x) 1 1 exIbeaDraws) [10, 10, 10] id 2 ()
      [[0], [1 / 2], [1]]).bind (fun s =>
        (runSteps exTreeConf (ibeaOps (fun _ => exSetup) (fun x => 1 + x) 1 1 exIbeaDraws) exRunConf 0 4 s).map
          fun s => (result s, s.tree.cost, s.tree.nodes.map Node.cost, s.drivers.map fun x => x.cost)) =
    some ([[0], [1927951 / 2060602], [50 / 101], [0]], 25, [22, 6], [26, 10]) := by
  decide +kernel

end Evogil.Hgs
