import Verif.Model.Nsgaii
import Verif.Model.Spea2
import Verif.Model.Ibea
import Verif.Model.Smsemoa
import Verif.Model.Variation
import Verif.Model.Evaluation
import Mathlib.Algebra.Order.Floor.Defs

/-!
# Model of whole generations of NSGA-II, SPEA2, IBEA and SMS-EMOA

Complete `step` functions (`algorithms/NSGAII/NSGAII.py`, `algorithms/SPEA2/SPEA2.py`,
`algorithms/IBEA/IBEA.py`, `algorithms/SMSEMOA/SMSEMOA.py`), put together from the models of their
parts: selection, the mating pool, crossover, mutation, trimming, evaluation and its cost. All
random draws of a step are parameters. `none` means that the code raises.

The loops of the selections are given as many turns as there are individuals; that this is always
enough is part of what is proved about them.
-/

namespace Evogil.Generations

open Evaluation

/-- The parameters common to the four constructors: NSGAII.py:29-51, SPEA2.py:25-47,
IBEA.py:11-45, SMSEMOA.py:13-37. `pw` is the power function and `eps` is
`sys.float_info.epsilon`, as in `Verif.Model.Variation`. -/
structure Setup (K : Type*) where
  pw : K → K → K
  eps : K
  dims : List (K × K)
  crossRate : K
  crossEta : K
  mutRate : K
  mutEta : K
  trim : List K → List K

/-- The draws of one call of `crossover` (drivertools.py:63-64, 67, 77, 103, 108) followed by one
call of `mutate` (drivertools.py:13, 24). -/
structure VarDraw (K : Type*) where
  first : K
  pick : Bool
  cross : ℕ → SbxDraw K
  mutn : ℕ → MutDraw K

/-- The draws of one entry of the mating pool, NSGAII.py:183-191, IBEA.py:140-149: the positions
chosen by the two calls of `random.choice` and whether the coin shows the better one. -/
structure MateDraw where
  a : ℕ
  b : ℕ
  coin : Bool

section
variable {K : Type*} [Field K] [LinearOrder K]

/-- The list returned by `crossover(x, y, ...)`, drivertools.py:58-108. The arguments are put at
the addresses 0 and 1. When the code passes one list twice, the contents read are the same, as
`crossover` never writes to its arguments (C14). -/
def crossVec (S : Setup K) (d : VarDraw K) (x y : List K) : Option (List K) :=
  (crossover S.pw S.eps d.first d.pick d.cross (fun p => if p = 0 then x else y) 2 0 1 S.dims
    S.crossRate S.crossEta).map fun r => r.1 r.2

/-- `mutate(x, self.dims, self.mutation_rate, self.mutation_eta)`, NSGAII.py:208, SPEA2.py:76-87,
IBEA.py:165, SMSEMOA.py:87 -/
def mutVec (S : Setup K) (d : VarDraw K) (x : List K) : Option (List K) :=
  mutate S.pw S.eps d.mutn x S.dims S.mutRate S.mutEta

/-- `trim_function(mutate(crossover(x, y)))`, SPEA2.py:75-88, SMSEMOA.py:77-88 -/
def makeChild (S : Setup K) (d : VarDraw K) (x y : List K) : Option (List K) :=
  match crossVec S d x y with
  | none => none
  | some c => (mutVec S d c).map S.trim

/-- `_mating_selection`, NSGAII.py:182-192, IBEA.py:139-149: `n` entries, each the winner of two
members drawn with `random.choice`; `better coin x1 x2` is the lambda of lines 184-188
resp. 141-145. -/
def matingPool {ι : Type*} (better : Bool → ι → ι → ι) (d : ℕ → MateDraw) (individuals : List ι)
    (n : ℕ) : Option (List ι) :=
  (List.range n).mapM fun i =>
    match individuals[(d i).a]?, individuals[(d i).b]? with
    | some x1, some x2 => some (better (d i).coin x1 x2)
    | _, _ => none

/-- `_crossover`, NSGAII.py:194-204, IBEA.py:151-161 -/
def crossAll (S : Setup K) (d : ℕ → VarDraw K) (mating : List (List K)) (m : ℕ) :
    Option (List (List K)) :=
  (List.range m).mapM fun i =>
    match mating[i]?, mating[m + i]? with
    | some x, some y => crossVec S (d i) x y
    | _, _ => none

/-- `_mutation` and the trimming that follows, NSGAII.py:206-210 and 95-96, IBEA.py:163-167 and
70-71: the vectors of the new individuals. -/
def mutateAll (S : Setup K) (d : ℕ → VarDraw K) (mating : List (List K)) : Option (List (List K)) :=
  mating.zipIdx.mapM fun p => (mutVec S (d p.2) p.1).map S.trim

/-- NSGAII.py:92-96, IBEA.py:67-71: the vectors of the new individuals, `m` of them, made from the
members of `individuals` whose vectors are given by `vec`. -/
def offspring {ι : Type*} (S : Setup K) (better : Bool → ι → ι → ι) (vec : ι → List K)
    (dm : ℕ → MateDraw) (dv : ℕ → VarDraw K) (individuals : List ι) (m : ℕ) :
    Option (List (List K)) :=
  match matingPool better dm individuals (2 * m) with
  | none => none
  | some mating =>
    match crossAll S dv (mating.map vec) m with
    | none => none
    | some crossed => mutateAll S dv crossed

/-- New objects for vectors; `next` is the first unused identity. -/
def newInds (next : ℕ) (vs : List (List K)) : List (Ind (List K) (List K)) :=
  vs.zipIdx.map fun p => ⟨next + p.2, p.1, none⟩

/-- `ind.objectives` of an evaluated individual, NSGAII.py:113-116, SMSEMOA.py:68 and 71 -/
def objsOf (x : Ind (List K) (List K)) : List K := x.objectives.getD []

end

/-! ## NSGA-II -/

section nsgaii
variable {K : Type*} [Field K] [LinearOrder K] {A : Type*} [DecidableEq A]

/-- The state of the driver, NSGAII.py:53-64: the individuals, the cost with the fitness archive,
`population_size`, `mating_size`, and the first unused identity. -/
structure NState (K A : Type*) where
  individuals : List (Ind (List K) (List K))
  acc : Acc (List K) A (List K)
  popSize : ℕ
  matingSize : ℕ
  nextId : ℕ

/-- The objectives as functions of an individual, NSGAII.py:153 and 155-170:
`x.objectives[objective]`. That the value exists is part of what is proved. -/
def objFns (m : ℕ) : List (Ind (List K) (List K) → K) :=
  (List.range m).map fun i x => (objsOf x).getD i 0

/-- `__init__` with the population setter, NSGAII.py:53-66 and 75-79. `int` of the mating size,
used in `range` only; a negative number behaves like 0. -/
def nsgaiiInit [FloorSemiring K] (S : Setup K) (key : List K → A) (fit : List K → List K)
    (archive : Option (Archive A (List K))) (c : K) (population : List (List K)) : NState K A :=
  let individuals := newInds 0 (population.map S.trim)
  let r := evalAll key fit ⟨0, archive, []⟩ individuals
  ⟨r.2, r.1, individuals.length, ⌊c * (individuals.length : K)⌋₊, individuals.length⟩

/-- `_nd_sort`, `_crowding` and `_environmental_selection`, NSGAII.py:89-91: the surviving
individuals and the table `self.fitness`. -/
def nsgaiiSelect (iter : List (Ind (List K) (List K)) → List (Ind (List K) (List K))) (eps : K)
    (m size : ℕ) (pop : List (Ind (List K) (List K))) :
    Option (List (Ind (List K) (List K)) × (Ind (List K) (List K) → ℕ ×ₗ K)) :=
  match ndSort iter (nsgaiiDom fun x => (objFns m).map (fun o => o x)) pop.length pop with
  | none => none
  | some fronts =>
    let dist := Nsgaii.crowding eps (objFns m) fronts
    some (Nsgaii.environmentalSelection eps fronts dist size pop, Nsgaii.fitnessKey eps fronts dist)

/-- The lambda `better`, NSGAII.py:184-188 (individuals are truthy). -/
def nsgaiiBetter {ι κ : Type*} [LT κ] [DecidableRel (α := κ) (· < ·)] (fit : ι → κ) (coin : Bool)
    (x1 x2 : ι) : ι :=
  if coin then (if fit x1 < fit x2 then x1 else x2)
  else (if fit x2 < fit x1 then x1 else x2)

/-- `step`, NSGAII.py:88-99; `m` objectives, `fit` their values. -/
def nsgaiiStep (S : Setup K) (key : List K → A) (fit : List K → List K) (m : ℕ)
    (iter : List (Ind (List K) (List K)) → List (Ind (List K) (List K)))
    (dm : ℕ → MateDraw) (dv : ℕ → VarDraw K) (s : NState K A) : Option (NState K A) :=
  match nsgaiiSelect iter S.eps m s.popSize s.individuals with
  | none => none
  | some (kept, fitness) =>
    match offspring S (nsgaiiBetter fitness) (fun x => x.v) dm dv kept s.matingSize with
    | none => none
    | some vs =>
      let r := evalAll key fit s.acc (kept ++ newInds s.nextId vs)
      some { s with individuals := r.2, acc := r.1, nextId := s.nextId + vs.length }

/-- `finalized_population` / `finish`, NSGAII.py:72-73 and 81-86: the new state and the vectors
returned. -/
def nsgaiiFinish (S : Setup K) (key : List K → A) (fit : List K → List K) (m : ℕ)
    (iter : List (Ind (List K) (List K)) → List (Ind (List K) (List K))) (s : NState K A) :
    Option (NState K A × List (List K)) :=
  let r := evalAll key fit s.acc s.individuals
  match nsgaiiSelect iter S.eps m s.popSize r.2 with
  | none => none
  | some (kept, _) =>
    some ({ s with individuals := kept, acc := r.1 }, kept.map fun x => x.v)

end nsgaii

/-! ## SPEA2 -/

section spea2
variable {K : Type*} [Field K] [LinearOrder K] {A : Type*}

/-- The state of the driver, SPEA2.py:48-51: individuals (dictionaries, here objects with an
identity), archive, archive size, cost and the first unused identity. -/
structure SState (K : Type*) where
  individuals : List (Ind (List K) (List K))
  archive : List (Ind (List K) (List K))
  archiveSize : ℕ
  cost : ℕ
  nextId : ℕ

/-- `__init__`, SPEA2.py:48-51 and 60-62 (the cost is 0, driver.py:33). -/
def spea2Init (S : Setup K) (population : List (List K)) : SState K :=
  ⟨newInds 0 (population.map S.trim), [], population.length, 0, population.length⟩

/-- `calculate_objectives`, SPEA2.py:113-124: cost and evaluated individuals. -/
def spea2Eval (key : List K → A) (fit : List K → List K) (fa : Option (Archive A (List K)))
    (pop : List (Ind (List K) (List K))) : ℕ × List (Ind (List K) (List K)) :=
  let r := chargeAll key fit fa pop.length (pop.map fun x => x.v)
  (r.1, pop.zipWith (fun x o => { x with objectives := some o }) r.2.2)

/-- Equality of the dictionaries, used by `list.remove` at SPEA2.py:153: all their entries are
equal. -/
def sameDict [DecidableEq K] (union : List (Ind (List K) (List K))) (fitness : Ind (List K) (List K) → K)
    (x y : Ind (List K) (List K)) : Bool :=
  decide (x.v = y.v ∧ x.objectives = y.objectives ∧ fitness x = fitness y ∧
    Spea2.strength objsOf union x = Spea2.strength objsOf union y)

/-- One element of the new population, SPEA2.py:75-88: two tournaments (positions `i`, `j`, drawn by
`random.sample`), crossover, mutation, trimming. -/
def spea2Child (S : Setup K) (fitness : Ind (List K) (List K) → K)
    (archive : List (Ind (List K) (List K))) (t : (ℕ × ℕ) × (ℕ × ℕ)) (d : VarDraw K) :
    Option (List K) :=
  match Spea2.select fitness archive t.1.1 t.1.2, Spea2.select fitness archive t.2.1 t.2.2 with
  | some x, some y => makeChild S d x.v y.v
  | _, _ => none

/-- `step`, SPEA2.py:70-90. -/
def spea2Step (S : Setup K) (dist : List K → List K → K) (key : List K → A)
    (fit : List K → List K) (fa : Option (Archive A (List K))) (dt : ℕ → (ℕ × ℕ) × (ℕ × ℕ))
    (dv : ℕ → VarDraw K) (s : SState K) : Option (SState K) :=
  let e := spea2Eval key fit fa s.individuals
  let union := s.archive ++ e.2
  match union.mapM (Spea2.fitness dist objsOf union) with
  | none => none
  | some _ =>
    let fitness := fun x => (Spea2.fitness dist objsOf union x).getD 0
    match Spea2.environmentalSelection (sameDict union fitness) dist objsOf fitness s.archiveSize
        union.length e.2 s.archive with
    | none => none
    | some archive =>
      match (List.range e.2.length).mapM fun i => spea2Child S fitness archive (dt i) (dv i) with
      | none => none
      | some vs =>
        some ⟨newInds s.nextId vs, archive, s.archiveSize, s.cost + e.1, s.nextId + vs.length⟩

/-- `finalized_population`, SPEA2.py:64-65 -/
def spea2Final (s : SState K) : List (List K) := s.archive.map fun x => x.v

end spea2

/-! ## IBEA -/

section ibea
variable {K : Type*} [Field K] [LinearOrder K]

/-- `IBEA.Individual`, IBEA.py:200-203, with its identity. -/
structure IInd (K : Type*) where
  id : ℕ
  v : List K
  known : Bool
  deriving DecidableEq

/-- The state of the driver, IBEA.py:29-50: individuals, `population_size`, `mating_size`, cost,
`scaled_objectives`, and the first unused identity. -/
structure IState (K : Type*) where
  individuals : List (IInd K)
  popSize : ℕ
  matingSize : ℕ
  cost : ℕ
  scaled : List (IInd K → K)
  nextId : ℕ

/-- `_scale_objectives`, IBEA.py:76-91; `inArchive` tells whether a vector is in the fitness archive
(constantly false when there is none). -/
def ibeaScale (eps : K) (objectives : List (List K → K)) (inArchive : List K → Bool)
    (hasArchive : Bool) (s : IState K) : Option (IState K) :=
  let charge := ibeaCharge inArchive hasArchive (s.individuals.map fun x => (x.v, x.known))
  let individuals := s.individuals.map fun x => { x with known := true }
  match Ibea.scaledObjectives eps (objectives.map fun o (x : IInd K) => o x.v) individuals with
  | none => none
  | some scaled =>
    some { s with individuals := individuals, cost := s.cost + charge, scaled := scaled }

/-- New objects for vectors, IBEA.py:165 and 177. -/
def newIInds (next : ℕ) (vs : List (List K)) : List (IInd K) :=
  vs.zipIdx.map fun p => ⟨next + p.2, p.1, false⟩

/-- `__init__`, IBEA.py:29-50 and 175-179. In the first `_scale_objectives` the attribute
`fitness_archive` is not looked at, as no individual is known. -/
def ibeaInit [FloorSemiring K] (S : Setup K) (objectives : List (List K → K)) (c : K)
    (population : List (List K)) : Option (IState K) :=
  let individuals := newIInds 0 (population.map S.trim)
  ibeaScale S.eps objectives (fun _ => false) false
    ⟨individuals, individuals.length, ⌊c * (individuals.length : K)⌋₊, 0, [], individuals.length⟩

/-- `step`, IBEA.py:64-74; `ex` is `math.exp` and `kappa` is `self.k`. -/
def ibeaStep (S : Setup K) (ex : K → K) (kappa : K) (objectives : List (List K → K))
    (inArchive : List K → Bool) (hasArchive : Bool) (dm : ℕ → MateDraw) (dv : ℕ → VarDraw K)
    (s : IState K) : Option (IState K) :=
  match Ibea.select ex S.eps kappa s.scaled s.popSize s.individuals.length s.individuals with
  | none => none
  | some (kept, fitness) =>
    match offspring S (Ibea.better fitness) (fun x : IInd K => x.v) dm dv kept s.matingSize with
    | none => none
    | some vs =>
      ibeaScale S.eps objectives inArchive hasArchive
        { s with individuals := kept ++ newIInds s.nextId vs, nextId := s.nextId + vs.length }

/-- `finalized_population` / `finish`, IBEA.py:52-53 and 58-62. -/
def ibeaFinish (S : Setup K) (ex : K → K) (kappa : K) (objectives : List (List K → K))
    (inArchive : List K → Bool) (hasArchive : Bool) (s : IState K) :
    Option (IState K × List (List K)) :=
  match ibeaScale S.eps objectives inArchive hasArchive s with
  | none => none
  | some s1 =>
    match Ibea.select ex S.eps kappa s1.scaled s1.popSize s1.individuals.length s1.individuals with
    | none => none
    | some (kept, _) => some ({ s1 with individuals := kept }, kept.map fun x => x.v)

end ibea

/-! ## SMS-EMOA -/

section smsemoa
variable {K : Type*} [Field K] [LinearOrder K] {A : Type*}

/-- The state of the driver, SMSEMOA.py:38-45. -/
structure MState (K : Type*) where
  individuals : List (Ind (List K) (List K))
  epochLength : ℕ
  cost : ℕ
  nextId : ℕ

/-- `calculate_objectives`, SMSEMOA.py:64-73: cost and evaluated individuals; `size` is
`len(self.population)`. -/
def smsEval (key : List K → A) (fit : List K → List K) (fa : Option (Archive A (List K)))
    (size : ℕ) (pop : List (Ind (List K) (List K))) : ℕ × List (Ind (List K) (List K)) :=
  let r := chargeAll key fit fa size (pop.map fun x => x.v)
  (r.1, pop.zipWith (fun x o => { x with objectives := some o }) r.2.2)

/-- `__init__`, SMSEMOA.py:37-45. `int` of the epoch length, used in `range` only. -/
def smsInit [FloorSemiring K] (S : Setup K) (key : List K → A) (fit : List K → List K)
    (fa : Option (Archive A (List K))) (mult : K) (population : List (List K)) : MState K :=
  let individuals := newInds 0 (population.map S.trim)
  let e := smsEval key fit fa individuals.length individuals
  ⟨e.2, ⌊(individuals.length : K) * mult⌋₊, e.1, individuals.length⟩

/-- `generate`, SMSEMOA.py:75-89; `i` and `j` are the positions drawn by `random.sample`. -/
def smsGenerate (S : Setup K) (pop : List (Ind (List K) (List K))) (t : ℕ × ℕ) (d : VarDraw K) :
    Option (List K) :=
  if t.1 = t.2 then none
  else
    match pop[t.1]?, pop[t.2]? with
    | some x, some y => makeChild S d x.v y.v
    | _, _ => none

/-- One turn of the loop of `step`, SMSEMOA.py:60-62. -/
def smsTurn (S : Setup K) (key : List K → A) (fit : List K → List K)
    (fa : Option (Archive A (List K)))
    (iter : List (Ind (List K) (List K)) → List (Ind (List K) (List K)))
    (hv : List (List K) → K) (t : ℕ × ℕ) (d : VarDraw K) (s : MState K) : Option (MState K) :=
  match smsGenerate S s.individuals t d with
  | none => none
  | some v =>
    let e := smsEval key fit fa s.individuals.length (newInds s.nextId [v])
    match Smsemoa.reducePopulation iter (s.individuals.length + 1) hv objsOf
        (s.individuals ++ e.2) with
    | none => none
    | some pop => some { s with individuals := pop, cost := s.cost + e.1, nextId := s.nextId + 1 }

/-- `step`, SMSEMOA.py:58-62: `n` turns, starting with turn number `k`. -/
def smsTurns (S : Setup K) (key : List K → A) (fit : List K → List K)
    (fa : Option (Archive A (List K)))
    (iter : List (Ind (List K) (List K)) → List (Ind (List K) (List K)))
    (hv : List (List K) → K) (dt : ℕ → ℕ × ℕ) (dv : ℕ → VarDraw K) :
    ℕ → ℕ → MState K → Option (MState K)
  | _, 0, s => some s
  | k, n + 1, s =>
    match smsTurn S key fit fa iter hv (dt k) (dv k) s with
    | none => none
    | some s' => smsTurns S key fit fa iter hv dt dv (k + 1) n s'

/-- `step`, SMSEMOA.py:58-62 -/
def smsStep (S : Setup K) (key : List K → A) (fit : List K → List K)
    (fa : Option (Archive A (List K)))
    (iter : List (Ind (List K) (List K)) → List (Ind (List K) (List K)))
    (hv : List (List K) → K) (dt : ℕ → ℕ × ℕ) (dv : ℕ → VarDraw K) (s : MState K) :
    Option (MState K) :=
  smsTurns S key fit fa iter hv dt dv 0 s.epochLength s

/-- `finalized_population`, SMSEMOA.py:55-56 -/
def smsFinal (s : MState K) : List (List K) := s.individuals.map fun x => x.v

end smsemoa

end Evogil.Generations
