import Verif.Props.HgsRunSpea2
import Verif.Props.HgsRunIbea
import Verif.Props.HgsRunSms
import Verif.Model.RunConfig

/-!
# C110: runs of HGS with the shipped numbers

The hypotheses of C106 about sizes, lengths, ratios, indices and modifiers hold for the entries of
`algo_base["HGS"]` (simulation/run_config.py:50-63), a population of 64 and `max_level` 2.
-/

set_option linter.unusedSectionVars false

namespace Evogil.Hgs

open Generations Evaluation Spec

section
variable {K : Type*} [Field K] [LinearOrder K] [IsStrictOrderedRing K]

/-- `population_sizes`: simulation/run_config.py:56. -/
def shipSizes (l : ℕ) : ℕ := [64, 20, 10].getD l 10
/-- `mutation_etas`: simulation/run_config.py:54. -/
def shipMutEta (l : ℕ) : K := [10, 12, 15].getD l 15
/-- `crossover_etas`: simulation/run_config.py:55. -/
def shipCrossEta (l : ℕ) : K := [15, 20, 25].getD l 25
/-- `min_progress_ratio`: simulation/run_config.py:62. -/
def shipRatio : List K := [0, 1 / 100000, 1 / 10000]

/-- `max_level` 2 (algorithms/HGS/HGS.py:31), `max_sprouts_no` 16, `sproutiveness` 3, `cost_modifiers`
all 1: simulation/run_config.py:53, 59, 60. -/
def shipConf (near : ℕ → List K → List K → Bool) (mean : List (List K) → List K) (eps : K) :
    Conf (List K) K := ⟨2, 16, 3, fun _ => 1, near, mean, eps, id⟩

/-- The setups of the levels: simulation/run_config.py:54, 55, 88, 89. -/
def shipSetup (pw : K → K → K) (eps : K) (dims : List (K × K)) (trim : ℕ → List K → List K) (l : ℕ) :
    Setup K :=
  ⟨pw, eps, dims, 9 / 10, shipCrossEta l, 1 / dims.length, shipMutEta l, trim l⟩

theorem shipSetup_valid {pw : K → K → K} {eps : K} {dims : List (K × K)} {trim : ℕ → List K → List K}
    (hpw : PowLaws pw) (heps : 0 < eps) (htrim : ∀ l v, InBox v dims → InBox (trim l v) dims) (l : ℕ) :
    (shipSetup pw eps dims trim l).Valid := by
  have h1 : ∀ l, (0 : K) ≤ shipCrossEta l := by
    intro l
    match l with
    | 0 => exact Nat.ofNat_nonneg _
    | 1 => exact Nat.ofNat_nonneg _
    | 2 => exact Nat.ofNat_nonneg _
    | n + 3 => exact Nat.ofNat_nonneg _
  have h2 : ∀ l, (0 : K) ≤ shipMutEta l := by
    intro l
    match l with
    | 0 => exact Nat.ofNat_nonneg _
    | 1 => exact Nat.ofNat_nonneg _
    | 2 => exact Nat.ofNat_nonneg _
    | n + 3 => exact Nat.ofNat_nonneg _
  exact ⟨hpw, heps, h1 l, h2 l, htrim l⟩

theorem shipMutEta_nonneg (l : ℕ) : (0 : K) ≤ shipMutEta l := by
  match l with
  | 0 => exact Nat.ofNat_nonneg _
  | 1 => exact Nat.ofNat_nonneg _
  | 2 => exact Nat.ofNat_nonneg _
  | n + 3 => exact Nat.ofNat_nonneg _

theorem shipSizes_ge (l : ℕ) : 10 ≤ shipSizes l := by
  match l with
  | 0 => decide
  | 1 => decide
  | 2 => decide
  | n + 3 => exact le_rfl

variable {pw : K → K → K} {eps : K} {dims : List (K × K)} {trim : ℕ → List K → List K}
  (hpw : PowLaws pw) (heps : 0 < eps) (htrim : ∀ l v, InBox v dims → InBox (trim l v) dims)
  (near : ℕ → List K → List K → Bool) (mean : List (List K) → List K) (eps' : K)
  (hv : List (List K) → K)
  (shuffle : ℕ → ℕ → List (List K) → List (List K)) (hsh : ∀ i k l, (shuffle i k l).Perm l)
  (ds : ℕ → ℕ → ℕ → ℕ → MutDraw K)
  (hds : ∀ l i k n, 0 ≤ (ds l i k n).rnd ∧ (ds l i k n).rnd ≤ 1)
  (perm : List (List K) → List (List K)) (hperm : ∀ l, (perm l).Perm l)
  (population : List (List K)) (hpop : population.length = 64) (hbox : ∀ v ∈ population, InBox v dims)

include hpw heps htrim hsh hds hperm hpop hbox

/-- **C110 (runs with SPEA2).** HGS with SPEA2 and the shipped numbers, on any box: however many steps
are made, nothing raises, the result is in the box and has at least 64 vectors from the first step on, and
each step costs at least 10 evaluations. -/
theorem C110_run_spea2 {A : Type*} (dist : List K → List K → K) (hdist : ∀ a b, 0 ≤ dist a b)
    (key : List K → A) {m : ℕ} (d : Spea2Draws K) (hfit : ∀ l i k j v, (d.fit l i k j v).length = m)
    (hdt : ∀ l i k j n, PairDraw (shipSizes l) (d.dt l i k j n).1 ∧ PairDraw (shipSizes l) (d.dt l i k j n).2)
    (hdv : ∀ i k j n, (d.dv i k j n).Valid) (n : ℕ) :
    ∃ s s', start (spea2Ops (shipSetup pw eps dims trim) dist key d) shipRatio perm 64 () population = some s ∧
      runSteps (shipConf near mean eps') (spea2Ops (shipSetup pw eps dims trim) dist key d)
        ⟨fun _ => 5, hv, shuffle, fun l i v => populationFromDelegate pw eps (ds l i) v (shipSizes l) dims
          (1 / dims.length) (shipMutEta l)⟩ 0 n s = some s' ∧
      (∀ v ∈ result s', InBox v dims) ∧ (1 ≤ n → 64 ≤ (result s').length) ∧
      (n * 10 : K) ≤ s'.tree.cost := by
  have := C106_spea2 (cfg := shipConf near mean eps') (S := shipSetup pw eps dims trim) (key := key)
    (N := shipSizes) (g := 10) le_rfl (fun l _ => shipSetup_valid hpw heps htrim l) (fun _ _ => rfl) hdist hfit
    (fun l _ => le_trans (by norm_num) (shipSizes_ge l)) (fun l _ => shipSizes_ge l)
    (fun l _ => hdt l) hdv (fun _ => 5) (fun _ => by norm_num) hv shuffle hsh ds hds
    (fun _ => 1 / dims.length) shipMutEta shipMutEta_nonneg (ratio := shipRatio) le_rfl perm hperm population
    hpop.ge hbox 1 zero_le_one (fun _ _ => le_rfl) n
  obtain ⟨s, s', h1, h2, h3, h4, h5⟩ := this
  exact ⟨s, s', h1, h2, h3, h4, by simpa using h5⟩

/-- **C110 (runs with IBEA).** HGS with IBEA and the shipped numbers; each step costs at least 15
evaluations. -/
theorem C110_run_ibea [FloorSemiring K] (ex : K → K) (d : IbeaDraws K)
    (hdm : ∀ l i k j n, (d.dm l i k j n).Valid (shipSizes l))
    (hdv : ∀ i k j n, (d.dv i k j n).Valid) (n : ℕ) :
    ∃ s s', start (ibeaOps (shipSetup pw eps dims trim) ex (5 / 100) (1 / 2) d) shipRatio perm 64 ()
        population = some s ∧
      runSteps (shipConf near mean eps') (ibeaOps (shipSetup pw eps dims trim) ex (5 / 100) (1 / 2) d)
        ⟨fun _ => 5, hv, shuffle, fun l i v => populationFromDelegate pw eps (ds l i) v (shipSizes l) dims
          (1 / dims.length) (shipMutEta l)⟩ 0 n s = some s' ∧
      (∀ v ∈ result s', InBox v dims) ∧ (1 ≤ n → 64 ≤ (result s').length) ∧
      (n * 15 : K) ≤ s'.tree.cost := by
  have hg : ∀ l, 15 ≤ shipSizes l + ⌊(1 / 2 : K) * (shipSizes l : K)⌋₊ := by
    intro l
    have h10 := shipSizes_ge l
    have : 5 ≤ ⌊(1 / 2 : K) * (shipSizes l : K)⌋₊ := by
      apply Nat.le_floor
      have : (10 : K) ≤ (shipSizes l : K) := by exact_mod_cast h10
      push_cast
      linarith
    omega
  have := C106_ibea (cfg := shipConf near mean eps') (S := shipSetup pw eps dims trim) (ex := ex)
    (kappa := 5 / 100) (c := 1 / 2) (d := d)
    (N := shipSizes) (g := 15) le_rfl (fun l _ => shipSetup_valid hpw heps htrim l) (fun _ _ => rfl)
    (fun l _ => le_trans (by norm_num) (shipSizes_ge l)) (fun l _ => hg l)
    (fun l _ => hdm l) hdv (fun _ => 5) (fun _ => by norm_num) hv shuffle hsh ds hds
    (fun _ => 1 / dims.length) shipMutEta shipMutEta_nonneg (ratio := shipRatio) le_rfl perm hperm population
    hpop.ge hbox 1 zero_le_one (fun _ _ => le_rfl) n
  obtain ⟨s, s', h1, h2, h3, h4, h5⟩ := this
  exact ⟨s, s', h1, h2, h3, h4, by simpa using h5⟩

/-- **C110 (runs with SMS-EMOA).** HGS with SMS-EMOA and the shipped numbers, with the default
`epoch_length_multiplier` 0.5 (algorithms/SMSEMOA/SMSEMOA.py:23); each step costs at least 50
evaluations. -/
theorem C110_run_smsemoa [FloorSemiring K] {A : Type*} (key : List K → A) (hvol : List (List K) → K) {m : ℕ}
    (d : SmsDraws K) (hfit : ∀ l i k j v, (d.fit l i k j v).length = m)
    (hiter : ∀ i k j l, (d.iter i k j l).Perm l)
    (hdt : ∀ l i k j n, PairDraw (shipSizes l) (d.dt l i k j n))
    (hdv : ∀ i k j n, (d.dv i k j n).Valid) (n : ℕ) :
    ∃ s s', start (smsOps (shipSetup pw eps dims trim) key hvol (1 / 2) d) shipRatio perm 64 ()
        population = some s ∧
      runSteps (shipConf near mean eps') (smsOps (shipSetup pw eps dims trim) key hvol (1 / 2) d)
        ⟨fun _ => 5, hv, shuffle, fun l i v => populationFromDelegate pw eps (ds l i) v (shipSizes l) dims
          (1 / dims.length) (shipMutEta l)⟩ 0 n s = some s' ∧
      (∀ v ∈ result s', InBox v dims) ∧ (1 ≤ n → 64 ≤ (result s').length) ∧
      (n * 50 : K) ≤ s'.tree.cost := by
  have hg : ∀ l, 50 ≤ ⌊(shipSizes l : K) * (1 / 2)⌋₊ * shipSizes l := by
    intro l
    have h10 := shipSizes_ge l
    have : 5 ≤ ⌊(shipSizes l : K) * (1 / 2)⌋₊ := by
      apply Nat.le_floor
      have : (10 : K) ≤ (shipSizes l : K) := by exact_mod_cast h10
      push_cast
      linarith
    exact Nat.mul_le_mul this h10
  have := C106_smsemoa (cfg := shipConf near mean eps') (S := shipSetup pw eps dims trim) (key := key)
    (hvol := hvol) (mult := 1 / 2) (d := d)
    (N := shipSizes) (g := 50) le_rfl (fun l _ => shipSetup_valid hpw heps htrim l) (fun _ _ => rfl) hfit hiter
    (fun l _ => le_trans (by norm_num) (shipSizes_ge l)) (fun l _ => hg l)
    (fun l _ => hdt l) hdv (fun _ => 5) (fun _ => by norm_num) hv shuffle hsh ds hds
    (fun _ => 1 / dims.length) shipMutEta shipMutEta_nonneg (ratio := shipRatio) le_rfl perm hperm population
    hpop.ge hbox 1 zero_le_one (fun _ _ => le_rfl) n
  obtain ⟨s, s', h1, h2, h3, h4, h5⟩ := this
  exact ⟨s, s', h1, h2, h3, h4, by simpa using h5⟩

end

/-- **C110 (numbers).** These are the numbers of the table. -/
theorem C110_numbers : ∃ cfg, Factory.get Factory.algoBase "HGS".toList = some cfg ∧
    Factory.get cfg "population_sizes".toList =
      some (Factory.nums ((List.range 3).map fun l => (shipSizes l : ℚ))) ∧
    Factory.get cfg "mutation_etas".toList = some (Factory.nums ((List.range 3).map shipMutEta)) ∧
    Factory.get cfg "crossover_etas".toList = some (Factory.nums ((List.range 3).map shipCrossEta)) ∧
    Factory.get cfg "min_progress_ratio".toList = some (Factory.nums shipRatio) ∧
    Factory.get cfg "cost_modifiers".toList = some (Factory.nums [1, 1, 1]) ∧
    Factory.get cfg "metaepoch_len".toList = some (Factory.nums [5, 5, 5]) ∧
    Factory.get cfg "max_sprouts_no".toList = some (Factory.num 16) ∧
    Factory.get cfg "sproutiveness".toList = some (Factory.num 3) ∧
    Factory.defaultPopulationSize = 64 :=
  ⟨_, rfl, rfl, rfl, rfl, rfl, rfl, rfl, rfl, rfl, rfl⟩

/-- The hypotheses can be met: a box, an initial population of 64 vectors, the sizes of the levels. -/
example : (∀ v ∈ List.replicate 64 [(1 / 2 : ℚ)], InBox v [(0, 1)]) ∧
    (List.replicate 64 [(1 / 2 : ℚ)]).length = 64 ∧ (shipSetup exSetup.pw exSetup.eps [(0, 1)] fun _ => id) 2 =
      ⟨exSetup.pw, 1 / 100, [(0, 1)], 9 / 10, 25, 1, 15, id⟩ ∧ (List.range 3).map shipSizes = [64, 20, 10] := by
  refine ⟨fun v hv => ?_, rfl, ?_, rfl⟩
  · rw [List.eq_of_mem_replicate hv]
    exact List.Forall₂.cons (by constructor <;> norm_num) List.Forall₂.nil
  · simp [shipSetup, shipCrossEta, shipMutEta, exSetup]

end Evogil.Hgs
