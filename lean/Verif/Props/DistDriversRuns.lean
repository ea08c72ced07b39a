import Verif.Props.DistDrivers
import Verif.Props.GenerationsRun
import Verif.Props.HgsRunNsgaii
import Verif.Props.HgsRunSpea2
import Verif.Props.HgsRunIbea
import Verif.Props.HgsRunSms

/-!
# C113 for the distributed HGS with NSGA-II, SPEA2, IBEA and SMS-EMOA in its nodes
-/

set_option linter.unusedSectionVars false

namespace Evogil.Dist

open Spec Hgs Generations Evaluation

section
variable {K : Type*} [Field K] [LinearOrder K] [IsStrictOrderedRing K] {δ : Type*}
  {O : NodeOps Unit δ (List K)} {S : ℕ → Setup K} {N : ℕ → ℕ} {dims : List (K × K)} {g : ℕ}
  {Sz : ℕ → ℕ → Prop} {size : ℕ} {G H : ℕ → δ → Prop} {Free : Prop}

/-- **C113 for drivers of a box.** The root is created with a sample of `population` and the sprouts with
`population_from_delegate`. -/
theorem C113_box {cfg : Hgs.Conf (List K) K} (hm2 : cfg.maxLevel ≤ 2)
    (hc : Contract O cfg.maxLevel (fun v => InBox v dims) N Sz G H (fun _ _ => True) Free g)
    (hsize : ∀ p, Sz 0 p → size ≤ p) (hS : ∀ l, l ≤ cfg.maxLevel → (S l).Valid) (hN1 : ∀ l, l ≤ cfg.maxLevel → 1 ≤ N l)
    (len : ℕ → ℕ) (hlen : ∀ l, 1 ≤ len l) (hv : List (List K) → K)
    (shuffle : ℕ → ℕ → List (List K) → List (List K)) (hsh : ∀ i k l, (shuffle i k l).Perm l)
    (ds : ℕ → ℕ → ℕ → ℕ → MutDraw K)
    (hds : ∀ l i k n, 0 ≤ (ds l i k n).rnd ∧ (ds l i k n).rnd ≤ 1) (rate eta : ℕ → K)
    (heta : ∀ l, 0 ≤ eta l) (draw : ℕ → ℕ → ℕ → ℕ) {ratio : List K} (hr : cfg.maxLevel < ratio.length)
    (perm : List (List K) → List (List K)) (hperm : ∀ l, (perm l).Perm l)
    (population : List (List K)) (hN : N 0 ≤ population.length) (hbox : ∀ v ∈ population, InBox v dims)
    (μ : K) (hμ : 0 ≤ μ) (hmod : ∀ l, l ≤ cfg.maxLevel → μ ≤ cfg.modifier l) (calls : List Call) :
    Delivers O ⟨len, hv, shuffle, fun l i v =>
        populationFromDelegate (S l).pw (S l).eps (ds l i) v (N l) dims (rate l) (eta l)⟩ draw cfg ratio
      (fun v => InBox v dims) Sz size (μ * g) ((perm population).take (N 0)) calls := by
  refine C113_run hc hsize hm2 hlen hsh ?_ hr μ hμ hmod _ ?_ ?_ calls
  · intro l hl i v hv
    obtain ⟨pop, hp⟩ := Option.isSome_iff_exists.1 (C90_from_delegate_total (hS l hl).pow (hS l hl).eps
      (ds l i) (hds l i) v (N l) dims (rate l) (eta l) (heta l) hv)
    obtain ⟨h1, -, h3⟩ := C90_from_delegate _ _ _ _ _ _ _ _ hv pop hp
    exact ⟨pop, hp, h1.trans (max_eq_right (hN1 l hl)), h3⟩
  · rw [List.length_take, (hperm _).length_eq, min_eq_left hN]
  · intro v hv
    exact hbox v ((hperm _).subset (List.mem_of_mem_take hv))

end

section
variable {K : Type*} [Field K] [LinearOrder K] [IsStrictOrderedRing K] [FloorSemiring K] {A : Type*}
  [DecidableEq A]
  {S : ℕ → Setup K} {key : List K → A} {m : ℕ} {c : K} {d : NsgaiiDraws K}
  {N : ℕ → ℕ} {dims : List (K × K)} {maxLevel g : ℕ}

/-- NSGA-II without archive keeps the contract; a step costs as much as there are children. -/
theorem nsgaii_contract (hS : ∀ l, l ≤ maxLevel → (S l).Valid)
    (hdims : ∀ l, l ≤ maxLevel → (S l).dims = dims)
    (hfit : ∀ l i k j v, (d.fit l i k j v).length = m) (hiter : ∀ i k j l, (d.iter i k j l).Perm l)
    (hdm : ∀ l, l ≤ maxLevel → ∀ i k j n, (d.dm l i k j n).Valid (N l))
    (hdv : ∀ i k j n, (d.dv i k j n).Valid) (hg : ∀ l, l ≤ maxLevel → g ≤ ⌊c * (N l : K)⌋₊) :
    Contract (Dist.nsgaiiOps S key m c d) maxLevel (fun v => InBox v dims) N (fun l p => p = N l)
      (fun l s => NInv (S l) m c (N l) s ∧ s.acc.archive = none) (fun _ _ => True) (fun _ _ => True) True
      g := by
  constructor
  · intro l hl i pop w f hn hP _
    refine ⟨(), _, rfl, ⟨?_, (nsgaiiInit_cost _).1⟩, trivial⟩
    exact (NReach.inv (hS l hl) (hfit l i 0 0) (nsgaiiInit_reach (key := key) (m := m) hn
      (fun v hv => by rw [hdims l hl]; exact hP v hv))).1
  · rintro l hl i k j w f s ⟨hs, ha⟩ -
    obtain ⟨s', e1, g1, -⟩ := NInv.step (hS l hl) (key := key) (hfit l i (k + 1) (j + 1))
      (hiter i (k + 1) (j + 1)) (hdm l hl i k j) (hdv i k j) hs
    obtain ⟨b1, b2⟩ := NInv.step_cost (hS l hl) (hiter i (k + 1) (j + 1)) (hdm l hl i k j) (hdv i k j) hs
      ha e1
    refine ⟨(), s', by simp only [Dist.nsgaiiOps, e1, Option.map_some], ⟨g1, b1⟩, ?_, trivial⟩
    have := hg l hl
    simp only [Dist.nsgaiiOps, b2]
    omega
  · exact fun _ _ _ _ _ _ _ _ _ _ _ _ _ => trivial
  · rintro l hl i k w f s ⟨hs, ha⟩ - -
    obtain ⟨s', r, e1, g1, g2, g3⟩ := NInv.finish (key := key) (hfit l i (k + 1) 0) (hiter i (k + 1) 0) hs
    obtain ⟨b1, b2⟩ := NInv.finish_cost hs ha e1
    have hknown := evalAll_known key (d.fit l i (k + 1) 0) s.individuals s.acc (fun x hx => by
        obtain ⟨y, hy, -⟩ := hs.objs x hx; exact ⟨y, hy⟩)
    obtain ⟨fr, e3, e4⟩ : ∃ fr, ndSort (d.iter i (k + 1) 0)
        (nsgaiiDom fun x => (objFns m).map (fun o => o x)) s.individuals.length s.individuals = some fr ∧
        ∀ x ∈ fr.headD [], x ∈ s.individuals := by
      obtain ⟨c1, c2⟩ := C05_nsgaii_sorts_by_rank (d.iter i (k + 1) 0) (hiter i (k + 1) 0) m
        (fun x => (objFns m).map (fun o => o x)) s.individuals hs.nodup (fun x _ => by simp [objFns])
      obtain ⟨fr, e3⟩ := c1 s.individuals.length le_rfl
      refine ⟨fr, e3, ?_⟩
      intro x hx
      refine (c2 _ fr e3).1.subset ?_
      cases fr with
      | nil => cases hx
      | cons y fr => exact List.mem_append_left _ hx
    have e5 : (Dist.nsgaiiOps S key m c d).conclude l i k w s = some ((), s', r,
        (fr.headD []).map fun x => x.v) := by
      simp only [Dist.nsgaiiOps, e1, hknown, nsgaiiDelegates, e3, Option.map_some]
    refine ⟨_, _, _, _, e5, ⟨g1, b1⟩, ?_, fun _ => ?_, trivial, ?_, ?_, ?_⟩
    · simp only [Dist.nsgaiiOps, b2]; exact le_rfl
    · simp only [Dist.nsgaiiOps, b2]
    · rw [g3, List.length_map, g2]
    · intro v hv
      rw [g3] at hv
      obtain ⟨x, hx, rfl⟩ := List.mem_map.1 hv
      rw [← hdims l hl]
      exact g1.box x hx
    · intro v hv
      obtain ⟨x, hx, rfl⟩ := List.mem_map.1 hv
      rw [← hdims l hl]
      exact hs.box x (e4 x hx)

/-- **C113 for NSGA-II.** Each step costs at least the smallest number of children times the smallest cost
modifier: unlike in the sequential HGS (C106), every budget is reached. -/
theorem C113_nsgaii {cfg : Hgs.Conf (List K) K} (hm2 : cfg.maxLevel ≤ 2)
    (hS : ∀ l, l ≤ cfg.maxLevel → (S l).Valid) (hdims : ∀ l, l ≤ cfg.maxLevel → (S l).dims = dims)
    (hfit : ∀ l i k j v, (d.fit l i k j v).length = m) (hiter : ∀ i k j l, (d.iter i k j l).Perm l)
    (hdm : ∀ l, l ≤ cfg.maxLevel → ∀ i k j n, (d.dm l i k j n).Valid (N l))
    (hdv : ∀ i k j n, (d.dv i k j n).Valid) (hg : ∀ l, l ≤ cfg.maxLevel → g ≤ ⌊c * (N l : K)⌋₊)
    (hN1 : ∀ l, l ≤ cfg.maxLevel → 1 ≤ N l)
    (len : ℕ → ℕ) (hlen : ∀ l, 1 ≤ len l) (hv : List (List K) → K)
    (shuffle : ℕ → ℕ → List (List K) → List (List K)) (hsh : ∀ i k l, (shuffle i k l).Perm l)
    (ds : ℕ → ℕ → ℕ → ℕ → MutDraw K)
    (hds : ∀ l i k n, 0 ≤ (ds l i k n).rnd ∧ (ds l i k n).rnd ≤ 1) (rate eta : ℕ → K)
    (heta : ∀ l, 0 ≤ eta l) (draw : ℕ → ℕ → ℕ → ℕ) {ratio : List K} (hr : cfg.maxLevel < ratio.length)
    (perm : List (List K) → List (List K)) (hperm : ∀ l, (perm l).Perm l)
    (population : List (List K)) (hN : N 0 ≤ population.length) (hbox : ∀ v ∈ population, InBox v dims)
    (μ : K) (hμ : 0 ≤ μ) (hmod : ∀ l, l ≤ cfg.maxLevel → μ ≤ cfg.modifier l) (calls : List Call) :
    Delivers (Dist.nsgaiiOps S key m c d) ⟨len, hv, shuffle, fun l i v =>
        populationFromDelegate (S l).pw (S l).eps (ds l i) v (N l) dims (rate l) (eta l)⟩ draw cfg ratio
      (fun v => InBox v dims) (fun l p => p = N l) (N 0) (μ * g) ((perm population).take (N 0)) calls :=
  C113_box hm2 (Dist.nsgaii_contract (key := key) hS hdims hfit hiter hdm hdv hg) (fun _ h => h.ge) hS hN1 len hlen hv shuffle
    hsh ds hds rate eta heta draw hr perm hperm population hN hbox μ hμ hmod calls

end

section
variable {K : Type*} [Field K] [LinearOrder K] [IsStrictOrderedRing K] [FloorSemiring K] {A : Type*}
  {S : ℕ → Setup K} {key : List K → A} {m : ℕ} {N : ℕ → ℕ} {dims : List (K × K)} {g : ℕ}

/-- **C113 for SPEA2**, at least two individuals on every level. -/
theorem C113_spea2 {dist : List K → List K → K} {d : Spea2Draws K}
    {cfg : Hgs.Conf (List K) K} (hm2 : cfg.maxLevel ≤ 2)
    (hS : ∀ l, l ≤ cfg.maxLevel → (S l).Valid) (hdims : ∀ l, l ≤ cfg.maxLevel → (S l).dims = dims)
    (hdist : ∀ a b, 0 ≤ dist a b)
    (hfit : ∀ l i k j v, (d.fit l i k j v).length = m) (hN2 : ∀ l, l ≤ cfg.maxLevel → 2 ≤ N l)
    (hg : ∀ l, l ≤ cfg.maxLevel → g ≤ N l)
    (hdt : ∀ l, l ≤ cfg.maxLevel → ∀ i k j n,
      PairDraw (N l) (d.dt l i k j n).1 ∧ PairDraw (N l) (d.dt l i k j n).2)
    (hdv : ∀ i k j n, (d.dv i k j n).Valid)
    (len : ℕ → ℕ) (hlen : ∀ l, 1 ≤ len l) (hv : List (List K) → K)
    (shuffle : ℕ → ℕ → List (List K) → List (List K)) (hsh : ∀ i k l, (shuffle i k l).Perm l)
    (ds : ℕ → ℕ → ℕ → ℕ → MutDraw K)
    (hds : ∀ l i k n, 0 ≤ (ds l i k n).rnd ∧ (ds l i k n).rnd ≤ 1) (rate eta : ℕ → K)
    (heta : ∀ l, 0 ≤ eta l) (draw : ℕ → ℕ → ℕ → ℕ) {ratio : List K} (hr : cfg.maxLevel < ratio.length)
    (perm : List (List K) → List (List K)) (hperm : ∀ l, (perm l).Perm l)
    (population : List (List K)) (hN : N 0 ≤ population.length) (hbox : ∀ v ∈ population, InBox v dims)
    (μ : K) (hμ : 0 ≤ μ) (hmod : ∀ l, l ≤ cfg.maxLevel → μ ≤ cfg.modifier l) (calls : List Call) :
    Delivers (spea2Ops S dist key d) ⟨len, hv, shuffle, fun l i v =>
        populationFromDelegate (S l).pw (S l).eps (ds l i) v (N l) dims (rate l) (eta l)⟩ draw cfg ratio
      (fun v => InBox v dims) (fun l p => p = N l) (N 0) (μ * g) ((perm population).take (N 0)) calls :=
  C113_box hm2 (spea2_contract (key := key) hS hdims hdist hfit hN2 hg hdt hdv) (fun _ h => h.ge) hS
    (fun l hl => by have := hN2 l hl; omega) len hlen hv shuffle hsh ds hds rate eta heta draw hr perm hperm
    population hN hbox μ hμ hmod calls

/-- **C113 for IBEA.** -/
theorem C113_ibea {ex : K → K} {kappa c : K} {d : IbeaDraws K}
    {cfg : Hgs.Conf (List K) K} (hm2 : cfg.maxLevel ≤ 2)
    (hS : ∀ l, l ≤ cfg.maxLevel → (S l).Valid) (hdims : ∀ l, l ≤ cfg.maxLevel → (S l).dims = dims)
    (hN1 : ∀ l, l ≤ cfg.maxLevel → 1 ≤ N l)
    (hg : ∀ l, l ≤ cfg.maxLevel → g ≤ N l + ⌊c * (N l : K)⌋₊)
    (hdm : ∀ l, l ≤ cfg.maxLevel → ∀ i k j n, (d.dm l i k j n).Valid (N l))
    (hdv : ∀ i k j n, (d.dv i k j n).Valid)
    (len : ℕ → ℕ) (hlen : ∀ l, 1 ≤ len l) (hv : List (List K) → K)
    (shuffle : ℕ → ℕ → List (List K) → List (List K)) (hsh : ∀ i k l, (shuffle i k l).Perm l)
    (ds : ℕ → ℕ → ℕ → ℕ → MutDraw K)
    (hds : ∀ l i k n, 0 ≤ (ds l i k n).rnd ∧ (ds l i k n).rnd ≤ 1) (rate eta : ℕ → K)
    (heta : ∀ l, 0 ≤ eta l) (draw : ℕ → ℕ → ℕ → ℕ) {ratio : List K} (hr : cfg.maxLevel < ratio.length)
    (perm : List (List K) → List (List K)) (hperm : ∀ l, (perm l).Perm l)
    (population : List (List K)) (hN : N 0 ≤ population.length) (hbox : ∀ v ∈ population, InBox v dims)
    (μ : K) (hμ : 0 ≤ μ) (hmod : ∀ l, l ≤ cfg.maxLevel → μ ≤ cfg.modifier l) (calls : List Call) :
    Delivers (ibeaOps S ex kappa c d) ⟨len, hv, shuffle, fun l i v =>
        populationFromDelegate (S l).pw (S l).eps (ds l i) v (N l) dims (rate l) (eta l)⟩ draw cfg ratio
      (fun v => InBox v dims) (fun l p => p = N l) (N 0) (μ * g) ((perm population).take (N 0)) calls :=
  C113_box hm2 (ibea_contract (ex := ex) (kappa := kappa) hS hdims hN1 hg hdm hdv) (fun _ h => h.ge) hS hN1 len hlen hv shuffle
    hsh ds hds rate eta heta draw hr perm hperm population hN hbox μ hμ hmod calls

/-- **C113 for SMS-EMOA.** -/
theorem C113_smsemoa {hvol : List (List K) → K} {mult : K} {d : SmsDraws K}
    {cfg : Hgs.Conf (List K) K} (hm2 : cfg.maxLevel ≤ 2)
    (hS : ∀ l, l ≤ cfg.maxLevel → (S l).Valid) (hdims : ∀ l, l ≤ cfg.maxLevel → (S l).dims = dims)
    (hN1 : ∀ l, l ≤ cfg.maxLevel → 1 ≤ N l)
    (hfit : ∀ l i k j v, (d.fit l i k j v).length = m) (hiter : ∀ i k j l, (d.iter i k j l).Perm l)
    (hg : ∀ l, l ≤ cfg.maxLevel → g ≤ ⌊(N l : K) * mult⌋₊ * N l)
    (hdt : ∀ l, l ≤ cfg.maxLevel → ∀ i k j n, PairDraw (N l) (d.dt l i k j n))
    (hdv : ∀ i k j n, (d.dv i k j n).Valid)
    (len : ℕ → ℕ) (hlen : ∀ l, 1 ≤ len l) (hv : List (List K) → K)
    (shuffle : ℕ → ℕ → List (List K) → List (List K)) (hsh : ∀ i k l, (shuffle i k l).Perm l)
    (ds : ℕ → ℕ → ℕ → ℕ → MutDraw K)
    (hds : ∀ l i k n, 0 ≤ (ds l i k n).rnd ∧ (ds l i k n).rnd ≤ 1) (rate eta : ℕ → K)
    (heta : ∀ l, 0 ≤ eta l) (draw : ℕ → ℕ → ℕ → ℕ) {ratio : List K} (hr : cfg.maxLevel < ratio.length)
    (perm : List (List K) → List (List K)) (hperm : ∀ l, (perm l).Perm l)
    (population : List (List K)) (hN : N 0 ≤ population.length) (hbox : ∀ v ∈ population, InBox v dims)
    (μ : K) (hμ : 0 ≤ μ) (hmod : ∀ l, l ≤ cfg.maxLevel → μ ≤ cfg.modifier l) (calls : List Call) :
    Delivers (smsOps S key hvol mult d) ⟨len, hv, shuffle, fun l i v =>
        populationFromDelegate (S l).pw (S l).eps (ds l i) v (N l) dims (rate l) (eta l)⟩ draw cfg ratio
      (fun v => InBox v dims) (fun l p => p = N l) (N 0) (μ * g) ((perm population).take (N 0)) calls :=
  C113_box hm2 (sms_contract (key := key) (hvol := hvol) hS hdims hfit hiter hg hdt hdv) (fun _ h => h.ge) hS hN1 len hlen hv
    shuffle hsh ds hds rate eta heta draw hr perm hperm population hN hbox μ hμ hmod calls

end

/-- The theorem applies to a run of NSGA-II on three levels with two individuals per node and two children per
step: whatever is called, each step costs at least 2 / 4. -/
example (draw : ℕ → ℕ → ℕ → ℕ) (calls : List Call) := C113_nsgaii (cfg := exTreeConf)
  (S := fun _ => exSetup) (key := (id : List ℚ → List ℚ)) (m := 2) (c := 1)
  (d := exNsgaiiDraws) (N := fun _ => 2) (dims := [(0, 1)]) (g := 2) (by decide) (fun _ _ => exSetup_valid)
  (fun _ _ => rfl) (fun _ _ _ _ _ => rfl) (fun _ _ _ _ => List.Perm.refl _)
  (fun _ _ _ _ _ _ => by constructor <;> simp [exNsgaiiDraws])
  (fun i k j n => ⟨fun _ => ⟨by simp only [exNsgaiiDraws]; positivity, by
    simp only [exNsgaiiDraws]
    rw [div_lt_one (by positivity)]
    have h1 : (0 : ℚ) ≤ k := Nat.cast_nonneg _
    have h2 : (0 : ℚ) ≤ j := Nat.cast_nonneg _
    linarith⟩, fun _ => by simp only [exNsgaiiDraws]; norm_num⟩)
  (fun _ _ => Nat.le_floor (by norm_num)) (fun _ _ => by decide)
  (fun _ => 1) (fun _ => le_rfl) (fun p => p.flatten.sum) (fun _ _ => id) (fun _ _ _ => List.Perm.refl _)
  (fun _ _ _ _ => ⟨0, 1 / 4⟩) (fun _ _ _ _ => by norm_num) (fun _ => 1)
  (fun _ => 1) (fun _ => by norm_num) draw (ratio := [10, 10, 10]) (by decide) id (fun _ => List.Perm.refl _)
  [[0], [1 / 2], [1]] (by decide) exBox (1 / 4) (by norm_num)
  (fun l hl => by have : l ≤ 2 := hl; interval_cases l <;> decide +kernel) calls

/-- One step of the root with NSGA-II from its first population: two evaluations in the constructor
and two in the metaepoch; the population has two vectors, and no individual is dominated by another, so that
all four are delegates. -/
example : (Hgs.nodeReport (K := ℚ) (Dist.nsgaiiOps (fun _ => exSetup) (id : List ℚ → List ℚ) 2 1 exNsgaiiDraws)
      exRunConf 0 0 1 () (nsgaiiInit exSetup id exFit none 1 [[0], [1 / 2]])).map
        (fun r => (r.2.1.acc.cost, r.2.2.costs, r.2.2.pop.length, r.2.2.delegates.length)) =
    some (4, [4], 2, 4) := by decide +kernel

end Evogil.Dist
