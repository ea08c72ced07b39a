import Verif.Props.RoundedHgsRun
import Verif.Props.HgsRunIbea
import Verif.Props.HgsRunSms

/-!
# C155 for HGS with NSGA-II, SPEA2, IBEA and SMS-EMOA in its nodes
-/

set_option linter.unusedSectionVars false

namespace Evogil.Rounded.Hgs

open Evogil.Hgs (Node Conf RunConf Run Contract start result charge charge_zero NsgaiiDraws Spea2Draws IbeaDraws SmsDraws
  nsgaiiDelegates ibeaDelegates smsDelegates ibeaDelegates_front smsDelegates_front evalAll_entries evalAll_known Entries)
open Evaluation Generations Spec Binary64 Rounded.Run

/-! ## SPEA2 -/

section
variable {K : Type*} [Field K] [LinearOrder K] [IsStrictOrderedRing K] [FloorRing K] {A : Type*}
  {S : ℕ → Setup K} {dist : List K → List K → K} {key : List K → A} {m : ℕ} {d : Spea2Draws K}
  {N : ℕ → ℕ} {dims : List (K × K)} {maxLevel g : ℕ}

/-- SPEA2 keeps the contract; every step costs as much as there are individuals. -/
theorem spea2_contract (hS : ∀ l, l ≤ maxLevel → Usable (S l))
    (hdims : ∀ l, l ≤ maxLevel → (S l).dims = dims) (hdist : ∀ a b, 0 ≤ dist a b)
    (hfit : ∀ l i k j v, (d.fit l i k j v).length = m) (hN : ∀ l, l ≤ maxLevel → 2 ≤ N l)
    (hg : ∀ l, l ≤ maxLevel → g ≤ N l)
    (hdt : ∀ l, l ≤ maxLevel → ∀ i k j n,
      PairDraw (N l) (d.dt l i k j n).1 ∧ PairDraw (N l) (d.dt l i k j n).2)
    (hdv : ∀ i k j n, Draws (d.dv i k j n)) :
    Contract (spea2Ops round64 S dist key d) maxLevel (FBox dims) N (fun l p => p = N l)
      (fun l s => Rounded.Run.SInv (S l) m (N l) s) (fun l s => s.archive.length = N l) (fun _ _ => True) True g := by
  have hstep : ∀ l, l ≤ maxLevel → ∀ i k j s, Rounded.Run.SInv (S l) m (N l) s →
      ∃ s', Rounded.Run.spea2Step round64 (S l) dist key (d.fit l i k j) (some fun _ => none) (d.dt l i k j) (d.dv i k j) s
        = some s' ∧ Rounded.Run.SInv (S l) m (N l) s' ∧ s'.archive.length = N l ∧ s'.cost = s.cost + N l := by
    intro l hl i k j s hs
    obtain ⟨s', e1, g1, l1⟩ := hs.step (hS l hl) hdist (key := key) (hfit l i k j) (hN l hl)
      (fa := some fun _ => none) (by intro a ha; cases ha; simp) (hdt l hl i k j) (hdv i k j)
    have e2 : Rounded.Run.spea2Step round64 (S l) dist key (d.fit l i k j) none (d.dt l i k j) (d.dv i k j) s = some s' := e1
    exact ⟨s', e1, g1, l1, Rounded.Run.spea2Step_cost (by have := hN l hl; omega) hs e2⟩
  constructor
  · intro l hl i pop w f hn hP _
    exact ⟨(), _, rfl, (SFull.start (hS l hl) hn (fun v hv => by rw [hdims l hl]; exact hP v hv)).1, trivial⟩
  · intro l hl i k j w f s hs _
    obtain ⟨s', e1, g1, -, c1⟩ := hstep l hl i k j s hs
    refine ⟨(), s', by simp only [spea2Ops, e1, Option.map_some], g1, ?_, trivial⟩
    have := hg l hl
    simp only [spea2Ops, c1]
    omega
  · intro l hl i k j w f s w' s'' hs _ h
    obtain ⟨s', e1, -, l1, -⟩ := hstep l hl i k j s hs
    simp only [spea2Ops, e1, Option.map_some, Option.some.injEq, Prod.mk.injEq] at h
    rw [← h.2]
    exact l1
  · intro l hl i k w f s hs hs' _
    refine ⟨(), s, _, _, rfl, hs, le_rfl, fun _ => rfl, trivial, by rw [spea2Final, List.length_map, hs'],
      ?_, ?_⟩
    all_goals
      intro v hv
      obtain ⟨x, hx, rfl⟩ := List.mem_map.1 hv
      rw [← hdims l hl]
      exact (hs.abox x hx).1

/-- C155 for SPEA2: whole runs of HGS in floating point with SPEA2 in its nodes, at least two individuals on every level:
however many steps are made, nothing raises; all vectors of the result are floats of the box; there are at least
`population_sizes[0]` of them from the first step on; each step costs at least the smallest population size times the
smallest cost modifier, so that a budget simulation stores a result for every budget. -/
theorem C155_spea2 {cfg : Conf (List K) K} (hm2 : cfg.maxLevel ≤ 2)
    (hS : ∀ l, l ≤ cfg.maxLevel → Usable (S l)) (hdims : ∀ l, l ≤ cfg.maxLevel → (S l).dims = dims)
    (hdist : ∀ a b, 0 ≤ dist a b) (hfit : ∀ l i k j v, (d.fit l i k j v).length = m)
    (hN1 : ∀ l, l ≤ cfg.maxLevel → 2 ≤ N l) (hg : ∀ l, l ≤ cfg.maxLevel → g ≤ N l)
    (hdt : ∀ l, l ≤ cfg.maxLevel → ∀ i k j n,
      PairDraw (N l) (d.dt l i k j n).1 ∧ PairDraw (N l) (d.dt l i k j n).2)
    (hdv : ∀ i k j n, Draws (d.dv i k j n))
    (len : ℕ → ℕ) (hlen : ∀ l, 1 ≤ len l) (hv : List (List K) → K)
    (shuffle : ℕ → ℕ → List (List K) → List (List K)) (hsh : ∀ i k l, (shuffle i k l).Perm l)
    (ds : ℕ → ℕ → ℕ → ℕ → MutDraw K)
    (hds : ∀ l i k n, IsDraw (1 / 2 ^ 53) (ds l i k n).rnd) (rate eta : ℕ → K)
    (heta : ∀ l, 0 ≤ eta l) {ratio : List K} (hr : 3 ≤ ratio.length)
    (perm : List (List K) → List (List K)) (hperm : ∀ l, (perm l).Perm l)
    (population : List (List K)) (hN : N 0 ≤ population.length) (hbox : ∀ v ∈ population, FBox dims v)
    (μ : K) (hμ : 0 ≤ μ) (hmod : ∀ l, l ≤ cfg.maxLevel → μ ≤ cfg.modifier l) :
    ∃ s, start (spea2Ops round64 S dist key d) ratio perm (N 0) () population = some s ∧
      (∀ n, ∃ s', runSteps round64 cfg (spea2Ops round64 S dist key d) ⟨len, hv, shuffle, fun l i v =>
          populationFromDelegate round64 (S l).pw (S l).eps (ds l i) v (N l) dims (rate l) (eta l)⟩ 0 n s = some s' ∧
        (∀ v ∈ result s', FBox dims v) ∧ (1 ≤ n → N 0 ≤ (result s').length) ∧ n * (μ * g) ≤ s'.tree.cost) ∧
      ∀ (budgets : List ℤ) (fuel : ℕ), (∀ b ∈ budgets, (b : K) ≤ fuel * (μ * g)) →
        ∃ res o', budgetWorker (hgsDriver round64 cfg (spea2Ops round64 S dist key d) ⟨len, hv, shuffle, fun l i v =>
          populationFromDelegate round64 (S l).pw (S l).eps (ds l i) v (N l) dims (rate l) (eta l)⟩) fuel budgets
            ⟨some (0, s), 0⟩ = some (res, o') ∧
        Stores round64 cfg (spea2Ops round64 S dist key d) ⟨len, hv, shuffle, fun l i v =>
          populationFromDelegate round64 (S l).pw (S l).eps (ds l i) v (N l) dims (rate l) (eta l)⟩
            (FBox dims) (N 0) s budgets res :=
  C155_box hm2 (spea2_contract (key := key) hS hdims hdist hfit hN1 hg hdt hdv) (fun _ h => h.ge) hS hdims
    (fun l hl => by have := hN1 l hl; omega) len hlen hv shuffle hsh ds hds rate eta heta hr perm hperm () trivial population
    hN hbox μ hμ hmod

end

/-! ## IBEA -/

section
variable {K : Type*} [Field K] [LinearOrder K] [IsStrictOrderedRing K] [FloorRing K]

/-- An archive in which nothing is found spares nothing. -/
theorem ibeaScale_empty {eps : K} {objectives : List (List K → K)} (b : Bool) (s : IState K) :
    Rounded.Run.ibeaScale round64 eps objectives (fun _ => false) b s =
      Rounded.Run.ibeaScale round64 eps objectives (fun _ => false) false s := by
  unfold Rounded.Run.ibeaScale ibeaCharge
  simp

variable {S : ℕ → Setup K} {ex : K → K} {kappa c : K} {d : IbeaDraws K} {N : ℕ → ℕ}
  {dims : List (K × K)} {maxLevel g : ℕ}

theorem ibeaStep_empty {S : Setup K} {objectives : List (List K → K)} {dm : ℕ → MateDraw}
    {dv : ℕ → VarDraw K} (b : Bool) (s : IState K) :
    Rounded.Run.ibeaStep round64 S ex kappa objectives (fun _ => false) b dm dv s =
      Rounded.Run.ibeaStep round64 S ex kappa objectives (fun _ => false) false dm dv s := by
  unfold Rounded.Run.ibeaStep
  simp only [ibeaScale_empty b]

theorem ibeaFinish_empty {S : Setup K} {objectives : List (List K → K)} (b : Bool) (s : IState K) :
    Rounded.Run.ibeaFinish round64 S ex kappa objectives (fun _ => false) b s =
      Rounded.Run.ibeaFinish round64 S ex kappa objectives (fun _ => false) false s := by
  unfold Rounded.Run.ibeaFinish
  simp only [ibeaScale_empty b]

/-- IBEA keeps the contract; a step costs as much as there are individuals and children. -/
theorem ibea_contract (hS : ∀ l, l ≤ maxLevel → Usable (S l))
    (hdims : ∀ l, l ≤ maxLevel → (S l).dims = dims) (hobj : ∀ l i k j, d.obj l i k j ≠ []) (hk : 1 / 32 ≤ kappa)
    (hN : ∀ l, l ≤ maxLevel → 1 ≤ N l) (hg : ∀ l, l ≤ maxLevel → g ≤ N l + portion round64 c (N l))
    (hdm : ∀ l, l ≤ maxLevel → ∀ i k j n, (d.dm l i k j n).Valid (N l))
    (hdv : ∀ i k j n, Draws (d.dv i k j n)) :
    Contract (ibeaOps round64 S ex kappa c d) maxLevel (FBox dims) N (fun l p => p = N l)
      (fun l s => Rounded.Run.IInv (S l) c (N l) s ∧ s.scaled ≠ []) (fun _ _ => True) (fun _ _ => True) False g := by
  constructor
  · intro l hl i pop w f hn hP _
    obtain ⟨s, e, h1, h2, -⟩ := ibeaInit_ok (objectives := d.obj l i 0 0) (c := c) (hS l hl) (hobj l i 0 0) (hN l hl) hn
      (fun v hv => by rw [hdims l hl]; exact hP v hv)
    exact ⟨(), s, by simp only [ibeaOps, e, Option.map_some], ⟨h1, h2.1⟩, trivial⟩
  · intro l hl i k j w f s hs _
    obtain ⟨s', e1, g1, u1, l1⟩ := hs.1.step (ex := ex) (kappa := kappa)
      (objectives := d.obj l i (k + 1) (j + 1)) (hS l hl) (hobj l i (k + 1) (j + 1)) hk (hN l hl) (fun _ => false) true
      (hdm l hl i k j) (hdv i k j) hs.2
    refine ⟨(), s', by simp only [ibeaOps, e1, Option.map_some], ⟨g1, u1.1⟩, ?_, trivial⟩
    rw [ibeaStep_empty] at e1
    have := Rounded.Run.ibeaStep_cost e1
    have := hg l hl
    simp only [ibeaOps]
    omega
  · exact fun _ _ _ _ _ _ _ _ _ _ _ _ _ => trivial
  · intro l hl i k w f s hs _ _
    obtain ⟨s', r, e1, g1, u1, g2, g3⟩ := hs.1.finish (ex := ex) (kappa := kappa)
      (objectives := d.obj l i (k + 1) 0) (hS l hl) (hobj l i (k + 1) 0) hk (hN l hl) (fun _ => false) true
    obtain ⟨front, e2, -, h2⟩ := ibeaDelegates_front (d.obj l i (k + 1) 0) s'.individuals (by
      intro e
      rw [e, List.length_nil] at g2
      have := hN l hl
      omega)
    refine ⟨(), s', r, front.map fun x => x.v, by simp only [ibeaOps, e1, e2, Option.map_some], ⟨g1, u1.1⟩, ?_,
      fun h => h.elim, trivial, ?_, ?_, ?_⟩
    · rw [ibeaFinish_empty] at e1
      have := Rounded.Run.ibeaFinish_cost e1
      simp only [ibeaOps]
      omega
    · rw [g3, List.length_map, g2]
    · intro v hv
      rw [g3] at hv
      obtain ⟨x, hx, rfl⟩ := List.mem_map.1 hv
      rw [← hdims l hl]
      exact g1.box x hx
    · intro v hv
      obtain ⟨x, hx, rfl⟩ := List.mem_map.1 hv
      rw [← hdims l hl]
      exact g1.box x ((h2 x).1 hx).1

/-- C155 for IBEA: whole runs of HGS in floating point with IBEA in its nodes, at least one individual on every level, at
least one objective, and `kappa` at least 1/32: however many steps are made, nothing raises; all vectors of the result are
floats of the box; there are at least `population_sizes[0]` of them from the first step on; each step costs at least the
smallest number of individuals with their children times the smallest cost modifier, so that a budget simulation stores a
result for every budget. -/
theorem C155_ibea {cfg : Conf (List K) K} (hm2 : cfg.maxLevel ≤ 2)
    (hS : ∀ l, l ≤ cfg.maxLevel → Usable (S l)) (hdims : ∀ l, l ≤ cfg.maxLevel → (S l).dims = dims)
    (hobj : ∀ l i k j, d.obj l i k j ≠ []) (hk : 1 / 32 ≤ kappa)
    (hN1 : ∀ l, l ≤ cfg.maxLevel → 1 ≤ N l) (hg : ∀ l, l ≤ cfg.maxLevel → g ≤ N l + ⌊round64 (c * (N l : K))⌋₊)
    (hdm : ∀ l, l ≤ cfg.maxLevel → ∀ i k j n, (d.dm l i k j n).Valid (N l))
    (hdv : ∀ i k j n, Draws (d.dv i k j n))
    (len : ℕ → ℕ) (hlen : ∀ l, 1 ≤ len l) (hv : List (List K) → K)
    (shuffle : ℕ → ℕ → List (List K) → List (List K)) (hsh : ∀ i k l, (shuffle i k l).Perm l)
    (ds : ℕ → ℕ → ℕ → ℕ → MutDraw K)
    (hds : ∀ l i k n, IsDraw (1 / 2 ^ 53) (ds l i k n).rnd) (rate eta : ℕ → K)
    (heta : ∀ l, 0 ≤ eta l) {ratio : List K} (hr : 3 ≤ ratio.length)
    (perm : List (List K) → List (List K)) (hperm : ∀ l, (perm l).Perm l)
    (population : List (List K)) (hN : N 0 ≤ population.length) (hbox : ∀ v ∈ population, FBox dims v)
    (μ : K) (hμ : 0 ≤ μ) (hmod : ∀ l, l ≤ cfg.maxLevel → μ ≤ cfg.modifier l) :
    ∃ s, start (ibeaOps round64 S ex kappa c d) ratio perm (N 0) () population = some s ∧
      (∀ n, ∃ s', runSteps round64 cfg (ibeaOps round64 S ex kappa c d) ⟨len, hv, shuffle, fun l i v =>
          populationFromDelegate round64 (S l).pw (S l).eps (ds l i) v (N l) dims (rate l) (eta l)⟩ 0 n s = some s' ∧
        (∀ v ∈ result s', FBox dims v) ∧ (1 ≤ n → N 0 ≤ (result s').length) ∧ n * (μ * g) ≤ s'.tree.cost) ∧
      ∀ (budgets : List ℤ) (fuel : ℕ), (∀ b ∈ budgets, (b : K) ≤ fuel * (μ * g)) →
        ∃ res o', budgetWorker (hgsDriver round64 cfg (ibeaOps round64 S ex kappa c d) ⟨len, hv, shuffle, fun l i v =>
          populationFromDelegate round64 (S l).pw (S l).eps (ds l i) v (N l) dims (rate l) (eta l)⟩) fuel budgets
            ⟨some (0, s), 0⟩ = some (res, o') ∧
        Stores round64 cfg (ibeaOps round64 S ex kappa c d) ⟨len, hv, shuffle, fun l i v =>
          populationFromDelegate round64 (S l).pw (S l).eps (ds l i) v (N l) dims (rate l) (eta l)⟩
            (FBox dims) (N 0) s budgets res :=
  C155_box hm2 (ibea_contract (ex := ex) (c := c) hS hdims hobj hk hN1 hg hdm hdv) (fun _ h => h.ge) hS hdims hN1 len hlen
    hv shuffle hsh ds hds rate eta heta hr perm hperm () trivial population hN hbox μ hμ hmod

end

/-! ## SMS-EMOA -/

section
variable {K : Type*} [Field K] [LinearOrder K] [IsStrictOrderedRing K] [FloorRing K] {A : Type*}

/-- An archive in which nothing is found spares nothing. -/
theorem smsTurns_empty {S : Setup K} {key : List K → A} {fit : List K → List K}
    {iter : List (Ind (List K) (List K)) → List (Ind (List K) (List K))} {hv : List (List K) → K}
    {dt : ℕ → ℕ × ℕ} {dv : ℕ → VarDraw K} (n : ℕ) : ∀ (k : ℕ) (s : MState K),
    Rounded.Run.smsTurns round64 S key fit (some fun _ => none) iter hv dt dv k n s =
      Rounded.Run.smsTurns round64 S key fit none iter hv dt dv k n s := by
  induction n with
  | zero => intro k s; rfl
  | succ n ih =>
    intro k s
    rw [Rounded.Run.smsTurns, Rounded.Run.smsTurns]
    have : Rounded.Run.smsTurn round64 S key fit (some fun _ => none) iter hv (dt k) (dv k) s =
      Rounded.Run.smsTurn round64 S key fit none iter hv (dt k) (dv k) s := rfl
    rw [this]
    cases Rounded.Run.smsTurn round64 S key fit none iter hv (dt k) (dv k) s with
    | none => rfl
    | some s' => exact ih (k + 1) s'

variable {S : ℕ → Setup K} {key : List K → A} {hvol : List (List K) → K} {mult : K} {d : SmsDraws K}
  {N : ℕ → ℕ} {dims : List (K × K)} {maxLevel g m : ℕ}

/-- SMS-EMOA keeps the contract; a step charges the population size for every turn of its loop. -/
theorem sms_contract (hS : ∀ l, l ≤ maxLevel → Usable (S l))
    (hdims : ∀ l, l ≤ maxLevel → (S l).dims = dims)
    (hfit : ∀ l i k j v, (d.fit l i k j v).length = m) (hiter : ∀ i k j l, (d.iter i k j l).Perm l)
    (hg : ∀ l, l ≤ maxLevel → g ≤ portion round64 mult (N l) * N l)
    (hdt : ∀ l, l ≤ maxLevel → ∀ i k j n, PairDraw (N l) (d.dt l i k j n))
    (hdv : ∀ i k j n, Draws (d.dv i k j n)) :
    Contract (smsOps round64 S key hvol mult d) maxLevel (FBox dims) N (fun l p => p = N l)
      (fun l s => Rounded.Run.MInv (S l) m mult (N l) s) (fun _ _ => True) (fun _ _ => True) True g := by
  constructor
  · intro l hl i pop w f hn hP _
    exact ⟨(), _, rfl, (Rounded.Run.MReach.start (key := key) (fit := d.fit l i 0 0) (m := m) (mult := mult)
      (some fun _ => none) (by intro a ha; cases ha; simp) pop hn
      (fun v hv => by rw [hdims l hl]; exact hP v hv)).inv (hS l hl) (hfit l i 0 0), trivial⟩
  · intro l hl i k j w f s hs _
    obtain ⟨s', e1, g1⟩ := Rounded.Run.MInv.turns (key := key) (hS l hl) (hfit l i (k + 1) (j + 1))
      (fa := some fun _ => none) (by intro a ha; cases ha; simp) (hiter i (k + 1) (j + 1)) hvol
      (hdt l hl i k j) (hdv i k j) s.epochLength 0 s hs
    refine ⟨(), s', ?_, g1, ?_, trivial⟩
    · have : Rounded.Run.smsStep round64 (S l) key (d.fit l i (k + 1) (j + 1)) (some fun _ => none)
        (d.iter i (k + 1) (j + 1)) hvol (d.dt l i k j) (d.dv i k j) s = some s' := e1
      simp only [smsOps, this, Option.map_some]
    · rw [smsTurns_empty] at e1
      have := Rounded.Run.smsTurns_cost (hS l hl) (hfit l i (k + 1) (j + 1)) (hiter i (k + 1) (j + 1)) hvol
        (hdt l hl i k j) (hdv i k j) _ _ _ _ hs e1
      have h2 := hg l hl
      rw [hs.epoch] at this
      simp only [smsOps]
      omega
  · exact fun _ _ _ _ _ _ _ _ _ _ _ _ _ => trivial
  · intro l hl i k w f s hs _ _
    obtain ⟨front, e1, -, h1⟩ := smsDelegates_front (m := m) (hiter i (k + 1) 0) s.individuals
      (hs.ids.1.of_map _) (fun x hx => by
        obtain ⟨y, hy, hl⟩ := hs.objs x hx
        rw [objsOf, hy]; exact hl)
    refine ⟨(), s, _, front.map fun x => x.v, by simp only [smsOps, e1, Option.map_some]; rfl, hs, le_rfl,
      fun _ => rfl, trivial, by rw [smsFinal, List.length_map, hs.size], ?_, ?_⟩
    · intro v hv
      obtain ⟨x, hx, rfl⟩ := List.mem_map.1 hv
      rw [← hdims l hl]
      exact hs.box x hx
    · intro v hv
      obtain ⟨x, hx, rfl⟩ := List.mem_map.1 hv
      rw [← hdims l hl]
      exact hs.box x ((h1 x).1 hx).1

/-- C155 for SMS-EMOA: whole runs of HGS in floating point with SMS-EMOA in its nodes: however many steps are made, nothing
raises; all vectors of the result are floats of the box; there are at least `population_sizes[0]` of them from the first step
on; each step costs at least the smallest product of the population size and the turns of an epoch, times the smallest cost
modifier, so that a budget simulation stores a result for every budget if an epoch has a turn. -/
theorem C155_smsemoa {cfg : Conf (List K) K} (hm2 : cfg.maxLevel ≤ 2)
    (hS : ∀ l, l ≤ cfg.maxLevel → Usable (S l)) (hdims : ∀ l, l ≤ cfg.maxLevel → (S l).dims = dims)
    (hfit : ∀ l i k j v, (d.fit l i k j v).length = m) (hiter : ∀ i k j l, (d.iter i k j l).Perm l)
    (hN1 : ∀ l, l ≤ cfg.maxLevel → 1 ≤ N l) (hg : ∀ l, l ≤ cfg.maxLevel → g ≤ ⌊round64 (mult * (N l : K))⌋₊ * N l)
    (hdt : ∀ l, l ≤ cfg.maxLevel → ∀ i k j n, PairDraw (N l) (d.dt l i k j n))
    (hdv : ∀ i k j n, Draws (d.dv i k j n))
    (len : ℕ → ℕ) (hlen : ∀ l, 1 ≤ len l) (hv : List (List K) → K)
    (shuffle : ℕ → ℕ → List (List K) → List (List K)) (hsh : ∀ i k l, (shuffle i k l).Perm l)
    (ds : ℕ → ℕ → ℕ → ℕ → MutDraw K)
    (hds : ∀ l i k n, IsDraw (1 / 2 ^ 53) (ds l i k n).rnd) (rate eta : ℕ → K)
    (heta : ∀ l, 0 ≤ eta l) {ratio : List K} (hr : 3 ≤ ratio.length)
    (perm : List (List K) → List (List K)) (hperm : ∀ l, (perm l).Perm l)
    (population : List (List K)) (hN : N 0 ≤ population.length) (hbox : ∀ v ∈ population, FBox dims v)
    (μ : K) (hμ : 0 ≤ μ) (hmod : ∀ l, l ≤ cfg.maxLevel → μ ≤ cfg.modifier l) :
    ∃ s, start (smsOps round64 S key hvol mult d) ratio perm (N 0) () population = some s ∧
      (∀ n, ∃ s', runSteps round64 cfg (smsOps round64 S key hvol mult d) ⟨len, hv, shuffle, fun l i v =>
          populationFromDelegate round64 (S l).pw (S l).eps (ds l i) v (N l) dims (rate l) (eta l)⟩ 0 n s = some s' ∧
        (∀ v ∈ result s', FBox dims v) ∧ (1 ≤ n → N 0 ≤ (result s').length) ∧ n * (μ * g) ≤ s'.tree.cost) ∧
      ∀ (budgets : List ℤ) (fuel : ℕ), (∀ b ∈ budgets, (b : K) ≤ fuel * (μ * g)) →
        ∃ res o', budgetWorker (hgsDriver round64 cfg (smsOps round64 S key hvol mult d) ⟨len, hv, shuffle, fun l i v =>
          populationFromDelegate round64 (S l).pw (S l).eps (ds l i) v (N l) dims (rate l) (eta l)⟩) fuel budgets
            ⟨some (0, s), 0⟩ = some (res, o') ∧
        Stores round64 cfg (smsOps round64 S key hvol mult d) ⟨len, hv, shuffle, fun l i v =>
          populationFromDelegate round64 (S l).pw (S l).eps (ds l i) v (N l) dims (rate l) (eta l)⟩
            (FBox dims) (N 0) s budgets res :=
  C155_box hm2 (sms_contract (key := key) (hvol := hvol) hS hdims hfit hiter hg hdt hdv) (fun _ h => h.ge) hS hdims hN1 len
    hlen hv shuffle hsh ds hds rate eta heta hr perm hperm () trivial population hN hbox μ hμ hmod

end

/-! ## NSGA-II -/

section
variable {K : Type*} [Field K] [LinearOrder K] [IsStrictOrderedRing K] [FloorRing K]
  {A : Type*} [DecidableEq A]

/-- The archives of the levels hold `f l` entries on level `l`, all of them with `m` values and for
trimmed floats of the box. -/
def Ledger (trim : ℕ → List K → List K) (key : List K → A) (dims : List (K × K)) (m : ℕ)
    (w : ℕ → Archive A (List K)) (f : ℕ → ℕ) : Prop :=
  ∀ l, Entries (w l) (f l) ∧ (∀ k v, w l k = some v → v.length = m) ∧
    ∀ k, (w l k).isSome → ∃ v, FBox dims v ∧ key (trim l v) = k

variable {S : ℕ → Setup K} {key : List K → A} {m : ℕ} {c : K} {d : NsgaiiDraws K} {N : ℕ → ℕ}
  {dims : List (K × K)} {maxLevel : ℕ} {trim : ℕ → List K → List K}

theorem Ledger.update {w : ℕ → Archive A (List K)} {f : ℕ → ℕ} (h : Ledger trim key dims m w f) {l : ℕ}
    {a : Archive A (List K)} {n : ℕ} (he : Entries a (f l + n))
    (hv : ∀ k v, a k = some v → v.length = m)
    (hk : ∀ k, (a k).isSome → ∃ v, FBox dims v ∧ key (trim l v) = k) :
    Ledger trim key dims m (Function.update w l a) (charge f l n) := by
  intro l'
  by_cases e : l' = l
  · subst e
    simp only [Function.update_self, charge, if_true]
    exact ⟨he, hv, hk⟩
  · rw [Function.update_of_ne e]
    simp only [charge, if_neg e]
    exact h l'

theorem Ledger.eval {w : ℕ → Archive A (List K)} {f : ℕ → ℕ} (h : Ledger trim key dims m w f) {l : ℕ}
    {fit : List K → List K} (st : Acc (List K) A (List K)) (hst : st.archive = some (w l))
    {inds : List (Ind (List K) (List K))}
    (hbox : ∀ x ∈ inds, x.objectives = none → ∃ v, FBox dims v ∧ x.v = trim l v)
    (hobj : ∀ x ∈ inds, ∀ f, x.objectives = some f → f.length = m) (hfit : ∀ v, (fit v).length = m) :
    st.cost ≤ (evalAll key fit st inds).1.cost ∧
      Ledger trim key dims m (Function.update w l ((evalAll key fit st inds).1.archive.getD (w l)))
        (charge f l ((evalAll key fit st inds).1.cost - st.cost)) := by
  obtain ⟨a', b1, b2, b3, b4⟩ := evalAll_entries (key := key) (h l).1 fit st hst inds
  obtain ⟨-, -, -, c4⟩ := evalAll_keeps key fit (fun f => f.length = m) hfit inds st
    (fun a ha k v hk => by rw [hst] at ha; cases ha; exact (h l).2.1 k v hk) hobj
  refine ⟨b2, ?_⟩
  rw [b1]
  refine h.update b3 (c4 a' b1) fun k hk => ?_
  rcases b4 k hk with hk | ⟨i, hi, hn, rfl⟩
  · exact (h l).2.2 k hk
  · obtain ⟨v, hv, e⟩ := hbox i hi hn
    exact ⟨v, hv, by rw [e]⟩

/-- NSGA-II keeps the contract; the archives are the ledger. -/
theorem nsgaii_contract (hS : ∀ l, l ≤ maxLevel → Usable (S l))
    (hdims : ∀ l, l ≤ maxLevel → (S l).dims = dims)
    (hm : m ≤ 2 ^ 51) (hfit : ∀ l i k j v, (d.fit l i k j v).length = m) (hiter : ∀ i k j l, (d.iter i k j l).Perm l)
    (hdm : ∀ l, l ≤ maxLevel → ∀ i k j n, (d.dm l i k j n).Valid (N l))
    (hdv : ∀ i k j n, Draws (d.dv i k j n)) :
    Contract (nsgaiiOps round64 S key m c d) maxLevel (FBox dims) N (fun l p => p = N l)
      (fun l s => Rounded.Run.NInv (S l) m c (N l) s) (fun _ _ => True) (Ledger (fun l => (S l).trim) key dims m) True 0 := by
  have hinv : ∀ {l : ℕ} {w : ℕ → Archive A (List K)} {f : ℕ → ℕ} {s : NState K A},
      Rounded.Run.NInv (S l) m c (N l) s → Ledger (fun l => (S l).trim) key dims m w f →
      Rounded.Run.NInv (S l) m c (N l) { s with acc := { s.acc with archive := some (w l) } } := by
    intro l w f s h hw
    exact ⟨h.size, h.mating, h.ids, h.large, h.box, h.objs, fun a ha k v hk => by
      cases ha; exact (hw l).2.1 k v hk⟩
  constructor
  · intro l hl i pop w f hn hP hw
    have hinit := (Rounded.Run.NReach.inv (hS l hl) hm (key := key) (fit := d.fit l i 0 0) (m := m) (c := c) (N := N l)
      (hfit l i 0 0) (Rounded.Run.NReach.start (some (w l)) (fun a ha k v hk => by
        cases ha; exact (hw l).2.1 k v hk) pop hn (fun v hv => by rw [hdims l hl]; exact hP v hv))).1
    refine ⟨_, _, rfl, hinit, ?_⟩
    exact (hw.eval (fit := d.fit l i 0 0) (l := l) ⟨0, some (w l), []⟩ rfl
      (fun x hx _ => by
        obtain ⟨v, hv, e⟩ := List.mem_map.1 (newInds_none _ _ _ hx).2
        exact ⟨v, hP v hv, e.symm⟩) (by
        intro x hx f hf
        rw [(newInds_none _ _ _ hx).1] at hf; cases hf) (hfit l i 0 0)).2
  · intro l hl i k j w f s hs hw
    obtain ⟨s', e1, g1, -⟩ := Rounded.Run.NInv.step (hS l hl) hm (key := key) (hfit l i (k + 1) (j + 1)) (hiter i (k + 1) (j + 1))
      (hdm l hl i k j) (hdv i k j) (hinv hs hw)
    obtain ⟨inds, hacc, hnew, hobj⟩ : ∃ inds, s'.acc = (evalAll key (d.fit l i (k + 1) (j + 1))
        { s.acc with archive := some (w l) } inds).1 ∧
        (∀ x ∈ inds, x.objectives = none → ∃ v, FBox dims v ∧ x.v = (S l).trim v) ∧
        ∀ x ∈ inds, ∀ f, x.objectives = some f → f.length = m := by
      obtain ⟨kept, fitness, h1, h2, h3⟩ := nsgaiiSelect_ok (hiter i (k + 1) (j + 1)) hm s.popSize hs.nodup
      rw [hs.size, min_eq_left hs.large] at h2
      obtain ⟨vs, h4, -, h5⟩ := Rounded.Run.offspring_trimmed (hS l hl) (nsgaiiBetter fitness) (nsgaiiBetter_or fitness)
        (fun x => x.v) (dm := d.dm l i k j) (dv := d.dv i k j) (individuals := kept)
        (by rw [h2]; exact hdm l hl i k j) (hdv i k j) (fun x hx => hs.box x (h3.subset hx)) s.matingSize
      have e2 := e1
      unfold Rounded.Run.nsgaiiStep at e2
      simp only [(hS l hl).eps, h1, h4, Option.some.injEq] at e2
      subst e2
      refine ⟨_, rfl, ?_, ?_⟩
      · intro x hx hx0
        rcases List.mem_append.1 hx with hx | hx
        · obtain ⟨f, hf, -⟩ := hs.objs x (h3.subset hx)
          rw [hx0] at hf; cases hf
        · rw [← hdims l hl]
          exact h5 _ (newInds_none _ _ _ hx).2
      · intro x hx f hf
        rcases List.mem_append.1 hx with hx | hx
        · obtain ⟨g, hg, hl⟩ := hs.objs x (h3.subset hx)
          rw [hf] at hg
          cases hg
          exact hl
        · rw [(newInds_none _ _ _ hx).1] at hf; cases hf
    have := hw.eval (fit := d.fit l i (k + 1) (j + 1)) (l := l) { s.acc with archive := some (w l) } rfl
      (inds := inds) hnew hobj (hfit l i (k + 1) (j + 1))
    rw [← hacc] at this
    exact ⟨Function.update w l (s'.acc.archive.getD (w l)), s',
      by simp only [nsgaiiOps, e1, Option.map_some], g1, this.1, this.2⟩
  · exact fun _ _ _ _ _ _ _ _ _ _ _ _ _ => trivial
  · intro l hl i k w f s hs _ hw
    have h0 := hinv hs hw
    obtain ⟨s', r, e1, g1, g2, g3⟩ := Rounded.Run.NInv.finish (key := key) (hS l hl) hm (hfit l i (k + 1) 0) (hiter i (k + 1) 0) h0
    have hknown := evalAll_known key (d.fit l i (k + 1) 0) s.individuals
      { s.acc with archive := some (w l) } (fun x hx => by
        obtain ⟨y, hy, -⟩ := hs.objs x hx; exact ⟨y, hy⟩)
    have hacc : s'.acc = { s.acc with archive := some (w l) } := by
      have e2 := e1
      unfold Rounded.Run.nsgaiiFinish at e2
      simp only [hknown] at e2
      split at e2
      · cases e2
      · cases e2
        rfl
    obtain ⟨fr, e3, e4⟩ : ∃ fr, ndSort (d.iter i (k + 1) 0)
        (nsgaiiDom fun x => (objFns m).map (fun o => o x)) s.individuals.length s.individuals = some fr ∧
        ∀ x ∈ fr.headD [], x ∈ s.individuals := by
      obtain ⟨c1, c2⟩ := C05_nsgaii_sorts_by_rank (d.iter i (k + 1) 0) (hiter i (k + 1) 0) m
        (fun x => (objFns m).map (fun o => o x)) s.individuals hs.nodup (fun x _ => by simp [objFns])
      obtain ⟨fr, e3⟩ := c1 s.individuals.length le_rfl
      refine ⟨fr, e3, ?_⟩
      intro x hx
      refine (c2 _ fr e3).1.subset ?_
      cases fr with
      | nil => cases hx
      | cons y fr => exact List.mem_append_left _ hx
    have e5 : (nsgaiiOps round64 S key m c d).conclude l i k w s = some (Function.update w l (w l), s', r,
        (fr.headD []).map fun x => x.v) := by
      simp only [nsgaiiOps, e1, hknown, nsgaiiDelegates, e3, Option.map_some, hacc, Option.getD_some]
    refine ⟨_, _, _, _, e5, g1, ?_, fun _ => ?_, ?_, ?_, ?_, ?_⟩
    · simp only [nsgaiiOps, hacc]; exact le_rfl
    · simp only [nsgaiiOps, hacc]
    · simp only [nsgaiiOps, hacc, Nat.sub_self, charge_zero, Function.update_eq_self]
      exact hw
    · rw [g3, List.length_map, g2]
    · intro v hv
      rw [g3] at hv
      obtain ⟨x, hx, rfl⟩ := List.mem_map.1 hv
      rw [← hdims l hl]
      exact g1.box x hx
    · intro v hv
      obtain ⟨x, hx, rfl⟩ := List.mem_map.1 hv
      rw [← hdims l hl]
      exact hs.box x (e4 x hx)

/-- C155 for NSGA-II: whole runs of HGS in floating point with NSGA-II in its nodes, archives that are empty at first,
objective values blurred anew in every step, and any draws and set orders: however many steps are made, nothing raises; all
vectors of the result are floats of the box; there are at least `population_sizes[0]` of them from the first step on; and the
cost, with what the drivers of the newest sprouts have already charged, is the sum over the levels of the cost modifier times
the number of entries of the archive of the level, which are all for trimmed floats of the box. So a vector is paid for once
on each level, and the cost never exceeds the number of trimmed floats of the box times the sum of the cost modifiers. -/
theorem C155_nsgaii {cfg : Conf (List K) K} (hm2 : cfg.maxLevel ≤ 2)
    (hS : ∀ l, l ≤ cfg.maxLevel → Usable (S l)) (hdims : ∀ l, l ≤ cfg.maxLevel → (S l).dims = dims)
    (hm : m ≤ 2 ^ 51) (hfit : ∀ l i k j v, (d.fit l i k j v).length = m) (hiter : ∀ i k j l, (d.iter i k j l).Perm l)
    (hdm : ∀ l, l ≤ cfg.maxLevel → ∀ i k j n, (d.dm l i k j n).Valid (N l))
    (hdv : ∀ i k j n, Draws (d.dv i k j n))
    (len : ℕ → ℕ) (hlen : ∀ l, 1 ≤ len l) (hv : List (List K) → K)
    (shuffle : ℕ → ℕ → List (List K) → List (List K)) (hsh : ∀ i k l, (shuffle i k l).Perm l)
    (hN1 : ∀ l, l ≤ cfg.maxLevel → 1 ≤ N l)
    (ds : ℕ → ℕ → ℕ → ℕ → MutDraw K)
    (hds : ∀ l i k n, IsDraw (1 / 2 ^ 53) (ds l i k n).rnd) (rate eta : ℕ → K)
    (heta : ∀ l, 0 ≤ eta l) {ratio : List K} (hr : 3 ≤ ratio.length)
    (perm : List (List K) → List (List K)) (hperm : ∀ l, (perm l).Perm l)
    (population : List (List K)) (hN : N 0 ≤ population.length) (hbox : ∀ v ∈ population, FBox dims v)
    (n : ℕ) :
    ∃ s s', start (nsgaiiOps round64 S key m c d) ratio perm (N 0) (fun _ _ => none) population = some s ∧
      runSteps round64 cfg (nsgaiiOps round64 S key m c d) ⟨len, hv, shuffle, fun l i v =>
        populationFromDelegate round64 (S l).pw (S l).eps (ds l i) v (N l) dims (rate l) (eta l)⟩ 0 n s = some s' ∧
      (∀ v ∈ result s', FBox dims v) ∧ (1 ≤ n → N 0 ≤ (result s').length) ∧
      (∀ l k, (s'.world l k).isSome → ∃ v, FBox dims v ∧ key ((S l).trim v) = k) ∧
      ∃ entries : ℕ → ℕ, (∀ l, Entries (s'.world l) (entries l)) ∧
        s'.tree.cost + ((s'.tree.nodes.zip s'.drivers).map fun p =>
          if p.1.pop.isEmpty then cfg.modifier p.1.level * (p.2.acc.cost : K) else 0).sum =
        ((List.range 3).map fun l => cfg.modifier l * (entries l : K)).sum ∧
        ((∀ l, 0 ≤ cfg.modifier l) → ∀ F : List A, (∀ l v, FBox dims v → key ((S l).trim v) ∈ F) →
          s'.tree.cost ≤ ((List.range 3).map fun l => cfg.modifier l * (F.length : K)).sum) := by
  have hc := nsgaii_contract (key := key) (c := c) hS hdims hm hfit hiter hdm hdv
  have hseed : ∀ l, l ≤ cfg.maxLevel → ∀ (i : ℕ) (v : List K), FBox dims v → ∃ pop,
      populationFromDelegate round64 (S l).pw (S l).eps (ds l i) v (N l) dims (rate l) (eta l) = some pop ∧
        pop.length = N l ∧ ∀ x ∈ pop, FBox dims x := by
    intro l hl i v hv
    have := seeds_ok (hS l hl) (hds l i) (heta l) (rate := rate l) (hN1 l hl) (v := v) (by rw [hdims l hl]; exact hv)
    rwa [hdims l hl] at this
  have hw : Ledger (fun l => (S l).trim) key dims m (fun _ _ => none : ℕ → Archive A (List K)) fun _ => 0 :=
    fun l => ⟨⟨[], List.nodup_nil, rfl, by simp⟩, by simp, by simp⟩
  obtain ⟨s, s', e0, e1, h1, -, h2⟩ := C155_run hc hm2 ⟨len, hv, shuffle, fun l i v =>
    populationFromDelegate round64 (S l).pw (S l).eps (ds l i) v (N l) dims (rate l) (eta l)⟩ hlen hsh hseed hr
    perm hperm _ hw population hN hbox n
  obtain ⟨t, f0, i0, -⟩ := hc.start (cfg := cfg) rfl hr perm hperm _ hw population hN hbox
  have : s = t := Option.some.inj (e0.symm.trans f0)
  subst this
  obtain ⟨t, f1, i1⟩ := runSteps_all hc rfl hm2 ⟨len, hv, shuffle, fun l i v =>
    populationFromDelegate round64 (S l).pw (S l).eps (ds l i) v (N l) dims (rate l) (eta l)⟩ hlen hsh hseed n 0 s i0
  have : s' = t := Option.some.inj (e1.symm.trans f1)
  subst this
  have hcost := Evogil.Hgs.C106_cost trivial hm2 (fun l hl h => by have := hN1 l hl; omega) s' i1
  refine ⟨s, s', e0, e1, h1, fun hn => (h2 hn).elim fun p hp => hp.1.ge.trans hp.2, fun l => (i1.world l).2.2, _, fun l => (i1.world l).1, hcost, ?_⟩
  intro hpos F hF
  have hle : s'.tree.cost ≤ ((List.range 3).map fun l => cfg.modifier l * (Evogil.Hgs.levelCost
      (s'.tree.nodes.map Node.level) (s'.drivers.map (nsgaiiOps round64 S key m c d).cost) l : K)).sum := by
    rw [← hcost]
    refine le_add_of_nonneg_right (List.sum_nonneg ?_)
    intro x hx
    obtain ⟨p, -, rfl⟩ := List.mem_map.1 hx
    split_ifs
    · exact mul_nonneg (hpos _) (Nat.cast_nonneg _)
    · exact le_rfl
  refine hle.trans (List.sum_le_sum ?_)
  intro l _
  refine mul_le_mul_of_nonneg_left (Nat.cast_le.2 ?_) (hpos l)
  obtain ⟨⟨ks, k1, k2, k3⟩, -, k4⟩ := i1.world l
  rw [← k2]
  refine (k1.subperm fun k hk => ?_).length_le
  obtain ⟨v, hv, rfl⟩ := k4 k ((k3 k).2 hk)
  exact hF l v hv

end

/-! ## Examples -/

/-- One step per metaepoch, two vectors around a delegate. -/
def exFloatConf : RunConf (List ℚ) ℚ :=
  ⟨fun _ => 1, fun p => p.flatten.sum, fun _ _ => id, fun _ _ v =>
    populationFromDelegate round64 Rounded.Run.exSetup.pw Rounded.Run.exSetup.eps (fun _ _ => ⟨0, 1 / 4⟩) v 2 [(0, 1)] 1 1⟩

/-- The draws of the example. -/
def exSpea2 : Spea2Draws ℚ :=
  ⟨fun _ _ _ _ => Rounded.Run.exFit, fun _ _ _ _ _ => ((0, 1), (1, 0)), fun _ _ _ _ => Rounded.Run.exDraw⟩

/-- The draws of the example. -/
def exIbea : IbeaDraws ℚ :=
  ⟨fun _ _ _ _ => [fun v => v.sum, fun v => -v.sum], fun _ _ _ _ _ => ⟨0, 1, true⟩, fun _ _ _ _ => Rounded.Run.exDraw⟩

/-- The draws of the example. -/
def exSms : SmsDraws ℚ :=
  ⟨fun _ _ _ _ => Rounded.Run.exFit, fun _ _ _ => id, fun _ _ _ _ _ => (0, 1), fun _ _ _ _ => Rounded.Run.exDraw⟩

/-- The draws of the example. -/
def exNsgaii : NsgaiiDraws ℚ :=
  ⟨fun _ _ _ _ => Rounded.Run.exFit, fun _ _ _ => id, fun _ _ _ _ _ => ⟨0, 1, true⟩, fun _ _ _ _ => Rounded.Run.exDraw⟩

/-- SPEA2, four steps: three metaepochs of the root with two evaluations each, one of its sprout, which counts half. -/
example : (start (K := ℚ) (spea2Ops round64 (fun _ => Rounded.Run.exSetup) (fun a b => |a.sum - b.sum|)
      (id : List ℚ → List ℚ) exSpea2) [10, 10, 10] id 2 () [[0], [6004799503160661 / 2 ^ 54], [1]]).bind (fun s =>
        (runSteps round64 Evogil.Hgs.exTreeConf (spea2Ops round64 (fun _ => Rounded.Run.exSetup)
          (fun a b => |a.sum - b.sum|) (id : List ℚ → List ℚ) exSpea2) exFloatConf 0 4 s).map
          fun s => (result s, s.tree.cost, s.tree.nodes.map fun n => (n.level, n.alive), s.drivers.map
            fun x => x.cost)) =
    some ([[6004799503160661 / 2 ^ 54], [1597956899034453 / 2 ^ 51], [6004799503160661 / 2 ^ 54],
      [3002399751580331 / 2 ^ 54]], 7, [(0, false), (1, true)], [6, 2]) := by
  decide +kernel

/-- IBEA, four steps. The sprout starts beside the value 1/2 of exact arithmetic. -/
example : (start (K := ℚ) (ibeaOps round64 (fun _ => Rounded.Run.exSetup) (fun x => x) 1 1 exIbea) [10, 10, 10] id 2 ()
      [[0], [6004799503160661 / 2 ^ 54], [1]]).bind (fun s =>
        (runSteps round64 Evogil.Hgs.exTreeConf (ibeaOps round64 (fun _ => Rounded.Run.exSetup) (fun x => x) 1 1 exIbea)
          exFloatConf 0 4 s).map
          fun s => (result s, s.tree.cost, s.tree.nodes.map Node.cost, s.drivers.map fun x => x.cost)) =
    some ([[0], [8256599316845909 / 2 ^ 53], [4503599627370495 / 2 ^ 53], [0]], 25, [22, 6], [26, 10]) := by
  decide +kernel

/-- SMS-EMOA, four steps with one turn per epoch. -/
example : (start (K := ℚ) (smsOps round64 (fun _ => Rounded.Run.exSetup) (id : List ℚ → List ℚ)
      (fun l => (l.map List.sum).sum) (1 / 2) exSms) [10, 10, 10] id 2 ()
      [[0], [6004799503160661 / 2 ^ 54], [1]]).bind (fun s =>
        (runSteps round64 Evogil.Hgs.exTreeConf (smsOps round64 (fun _ => Rounded.Run.exSetup) (id : List ℚ → List ℚ)
          (fun l => (l.map List.sum).sum) (1 / 2) exSms) exFloatConf 0 4 s).map
          fun s => (result s, s.tree.cost, s.tree.nodes.map Node.cost, s.drivers.map fun x => x.cost)) =
    some ([[1597956899034453 / 2 ^ 51], [7285364045643775 / 2 ^ 53], [1597956899034453 / 2 ^ 52],
      [1675197590885717 / 2 ^ 51]], 10, [8, 4], [8, 4]) := by
  decide +kernel

/-- NSGA-II, four steps: what is in the archive of a level is not paid for again. -/
example : (start (K := ℚ) (nsgaiiOps round64 (fun _ => Rounded.Run.exSetup) (id : List ℚ → List ℚ) 2 1 exNsgaii)
      [10, 10, 10] id 2 (fun _ _ => none) [[0], [6004799503160661 / 2 ^ 54], [1]]).bind (fun s =>
        (runSteps round64 Evogil.Hgs.exTreeConf (nsgaiiOps round64 (fun _ => Rounded.Run.exSetup) (id : List ℚ → List ℚ) 2 1
          exNsgaii) exFloatConf 0 4 s).map
          fun s => (result s, s.tree.cost, s.tree.nodes.map Node.cost, s.drivers.map fun x => x.acc.cost)) =
    some ([[0], [8256599316845909 / 2 ^ 53], [0], [4503599627370495 / 2 ^ 53]], 6, [5, 2], [5, 2]) := by
  decide +kernel

/-- The theorem applies to the example: all results are floats between 0 and 1, and the cost after `n` steps is at least
`n / 2`. -/
example (n : ℕ) (rnd : ℕ → ℕ → ℕ → ℕ → MutDraw ℚ) (hrnd : ∀ l i k j, IsDraw (1 / 2 ^ 53) (rnd l i k j).rnd) :
    ∃ s s', start (spea2Ops round64 (fun _ => Rounded.Run.exSetup) (fun a b => |a.sum - b.sum|) (id : List ℚ → List ℚ)
        exSpea2) [10, 10, 10] id 2 () [[0], [1 / 4], [1]] = some s ∧
      runSteps round64 Evogil.Hgs.exTreeConf (spea2Ops round64 (fun _ => Rounded.Run.exSetup) (fun a b => |a.sum - b.sum|)
        (id : List ℚ → List ℚ) exSpea2) ⟨fun _ => 1, fun p => p.flatten.sum, fun _ _ => id, fun l i v =>
          populationFromDelegate round64 Rounded.Run.exSetup.pw Rounded.Run.exSetup.eps (rnd l i) v 2 [(0, 1)] 1 1⟩ 0 n s
        = some s' ∧ (∀ v ∈ result s', FBox [(0, 1)] v) ∧ n * (1 / 4 * 2) ≤ s'.tree.cost := by
  have hf : ∀ x : ℚ, x = 0 ∨ x = 1 / 4 ∨ x = 1 → round64 x = x := by
    rintro x (rfl | rfl | rfl) <;> decide +kernel
  obtain ⟨s, h1, h2, -⟩ := C155_spea2 (K := ℚ) (A := List ℚ) (S := fun _ => Rounded.Run.exSetup)
    (dist := fun a b => |a.sum - b.sum|) (key := id) (m := 2) (d := exSpea2) (N := fun _ => 2) (dims := [(0, 1)]) (g := 2)
    (cfg := Evogil.Hgs.exTreeConf) le_rfl (fun _ _ => exSetup_usable) (fun _ _ => rfl) (fun _ _ => abs_nonneg _)
    (fun _ _ _ _ v => rfl) (fun _ _ => le_rfl) (fun _ _ => le_rfl)
    (fun _ _ _ _ _ _ => by simp [exSpea2, PairDraw]) (fun _ _ _ _ => exDraw_draws) (fun _ => 1) (fun _ => le_rfl)
    (fun p => p.flatten.sum) (fun _ _ => id) (fun _ _ _ => List.Perm.refl _) rnd hrnd (fun _ => 1) (fun _ => 1)
    (fun _ => zero_le_one) (ratio := [10, 10, 10]) le_rfl id (fun _ => List.Perm.refl _) [[0], [1 / 4], [1]] (by decide) (by
      intro v hv
      simp only [List.mem_cons, List.not_mem_nil, or_false] at hv
      rcases hv with rfl | rfl | rfl <;>
        exact ⟨by simp [InBox] <;> norm_num, by intro x hx; exact hf x (by simp at hx; simp [hx])⟩) (1 / 4) (by norm_num) (by
      intro l hl
      have : l ≤ 2 := hl
      interval_cases l <;> norm_num [Evogil.Hgs.exTreeConf])
  obtain ⟨s', h3, h4, -, h5⟩ := h2 n
  exact ⟨s, s', h1, h3, h4, by exact_mod_cast h5⟩

end Evogil.Rounded.Hgs
