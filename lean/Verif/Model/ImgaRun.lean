import Verif.Model.Imga
import Verif.Model.GenerationsRun

/-!
# Model of whole steps of the island model (`algorithms/IMGA/IMGA.py`)

The islands run any driver (`IslandOps`); `none` means that the code raises. The islands are run in
threads (IMGA.py:67-79), but they share nothing except the source of random numbers, and the draws are
parameters here, so the order in which they run does not matter.
-/

namespace Evogil.Imga

/-- What IMGA uses of the driver of an island, IMGA.py:119-128. The first two numbers of `step` and
`finalize` are the number of the island and that of the call of IMGA, the third one of `step` is the
number of the step in the epoch; they select the draws. -/
structure IslandOps (σ ι V : Type*) where
  /-- `step`, algorithms/base/driver.py:47-48 -/
  step : ℕ → ℕ → ℕ → σ → Option σ
  /-- the attribute `cost`, driver.py:33 -/
  cost : σ → ℕ
  /-- the attribute `individuals` used by the message adapters, algorithms/IMGA/message.py:12-30 -/
  inds : σ → List ι
  /-- the effect of `emigrate` and `immigrate` of the adapter, message.py:16-30: the individuals are
  replaced -/
  put : List ι → σ → σ
  /-- the decision vector of an individual, message.py:14 -/
  vec : ι → V
  /-- `finalized_population`, driver.py:40-41 -/
  finalize : ℕ → ℕ → σ → Option (σ × List V)

/-- The attributes `islands` and `cost`, IMGA.py:47, driver.py:33. -/
structure State (σ : Type*) where
  islands : List σ
  cost : ℕ

section
variable {σ ι V α : Type*} [DecidableEq V] [LinearOrder α]

/-- `create_islands` with the constructors of the islands' drivers, IMGA.py:47, 96-112 and 119-128;
the cost is 0 (driver.py:33). -/
def start (mk : List V → Option σ) (n : ℕ) (population : List V) : Option (State σ) :=
  match createIslands n population with
  | none => none
  | some pops => (pops.mapM mk).map fun islands => ⟨islands, 0⟩

/-- `Island.epoch`, IMGA.py:132-134, with `StepsRun`, driver.py:75-80: `n` steps, the next one has
number `j`. -/
def epoch (D : IslandOps σ ι V) (i k : ℕ) : ℕ → ℕ → σ → Option σ
  | _, 0, s => some s
  | j, n + 1, s =>
    match D.step i k j s with
    | none => none
    | some s' => epoch D i k (j + 1) n s'

/-- `step`, IMGA.py:67-83. With `epoch_length` 0 `ops.last()` (line 73) raises, as nothing was
emitted. The message emitted last by an island has the cost of its driver after the epoch, so lines
80 and 83 put the sum of the costs before migration. `pick` are the draws of the emigrants. -/
def step (D : IslandOps σ ι V) (fit : V → List α) (top : List (List ℕ)) (migrants epochLength : ℕ)
    (pick : ℕ → ℕ → ℕ → ℕ → List (List V) → Option V) (k : ℕ) (s : State σ) : Option (State σ) :=
  if epochLength = 0 then none
  else
    match s.islands.zipIdx.mapM fun p => epoch D p.2 k 0 epochLength p.1 with
    | none => none
    | some islands =>
      let pops := islands.map D.inds
      match migration D.vec pops.flatten.length fit migrants (pick k) top pops with
      | none => none
      | some pops' => some ⟨List.zipWith D.put pops' islands, (islands.map D.cost).sum⟩

/-- `finalized_population`, IMGA.py:62-65. The result is the list of the elements of the iterator
returned. The cost is left as it is. -/
def finalize (D : IslandOps σ ι V) (k : ℕ) (s : State σ) : Option (State σ × List V) :=
  (s.islands.zipIdx.mapM fun p => D.finalize p.2 k p.1).map fun rs =>
    (⟨rs.map Prod.fst, s.cost⟩, rs.flatMap Prod.snd)

/-- IMGA as a driver for the runs of `Verif.Model.Driver`. -/
def driver (D : IslandOps σ ι V) (fit : V → List α) (top : List (List ℕ))
    (migrants epochLength : ℕ) (pick : ℕ → ℕ → ℕ → ℕ → List (List V) → Option V) :
    DriverSig (Option (ℕ × State σ)) (Option (List V)) :=
  Generations.optDriver (step D fit top migrants epochLength pick) (fun s => s.cost) (finalize D)

end

/-! ## Islands with the drivers of `Verif.Model.Generations` -/

section
variable {K : Type*} [Field K] [LinearOrder K] {A : Type*} [DecidableEq A]

open Generations Evaluation

/-- Individuals on an island, numbered anew. The numbers stand for the identities of the objects.
These matter only among the individuals of one island, so objects which move may be renumbered. -/
def renumber (next : ℕ) (l : List (List K × Option (List K))) : List (Ind (List K) (List K)) :=
  l.zipIdx.map fun p => ⟨next + p.2, p.1.1, p.1.2⟩

/-- An island with NSGA-II, algorithms/NSGAII/message.py:5-6 (the default adapter). -/
def nsgaiiOps (S : Setup K) (key : List K → A) (fit : List K → List K) (m : ℕ)
    (iter : ℕ → ℕ → ℕ → List (Ind (List K) (List K)) → List (Ind (List K) (List K)))
    (dm : ℕ → ℕ → ℕ → ℕ → MateDraw) (dv : ℕ → ℕ → ℕ → ℕ → VarDraw K) :
    IslandOps (NState K A) (List K × Option (List K)) (List K) where
  step := fun i k j => nsgaiiStep S key fit m (iter i k j) (dm i k j) (dv i k j)
  cost := fun s => s.acc.cost
  inds := fun s => s.individuals.map fun x => (x.v, x.objectives)
  put := fun l s => { s with individuals := renumber s.nextId l, nextId := s.nextId + l.length }
  vec := Prod.fst
  finalize := fun i k => nsgaiiFinish S key fit m (iter i k 0)

omit [DecidableEq A] in
/-- An island with SPEA2, algorithms/SPEA2/message.py:6-24: the archive does not take part. -/
def spea2Ops (S : Setup K) (dist : List K → List K → K) (key : List K → A)
    (fit : List K → List K) (dt : ℕ → ℕ → ℕ → ℕ → (ℕ × ℕ) × (ℕ × ℕ))
    (dv : ℕ → ℕ → ℕ → ℕ → VarDraw K) :
    IslandOps (SState K) (List K × Option (List K)) (List K) where
  step := fun i k j => spea2Step S dist key fit none (dt i k j) (dv i k j)
  cost := fun s => s.cost
  inds := fun s => s.individuals.map fun x => (x.v, x.objectives)
  put := fun l s => { s with individuals := renumber s.nextId l, nextId := s.nextId + l.length }
  vec := Prod.fst
  finalize := fun _ _ s => some (s, spea2Final s)

/-- An island with IBEA, algorithms/IBEA/message.py:6-7 (the default adapter): `scaled_objectives`
stay those of the population before migration. -/
def ibeaOps (S : Setup K) (ex : K → K) (kappa : K) (objectives : List (List K → K))
    (dm : ℕ → ℕ → ℕ → ℕ → MateDraw) (dv : ℕ → ℕ → ℕ → ℕ → VarDraw K) :
    IslandOps (IState K) (List K × Bool) (List K) where
  step := fun i k j => ibeaStep S ex kappa objectives (fun _ => false) false (dm i k j) (dv i k j)
  cost := fun s => s.cost
  inds := fun s => s.individuals.map fun x => (x.v, x.known)
  put := fun l s => { s with
    individuals := l.zipIdx.map fun p => ⟨s.nextId + p.2, p.1.1, p.1.2⟩
    nextId := s.nextId + l.length }
  vec := Prod.fst
  finalize := fun _ _ => ibeaFinish S ex kappa objectives (fun _ => false) false

omit [DecidableEq A] in
/-- An island with SMS-EMOA, algorithms/SMSEMOA/message.py:7-26. -/
def smsOps (S : Setup K) (key : List K → A) (fit : List K → List K)
    (iter : ℕ → ℕ → ℕ → List (Ind (List K) (List K)) → List (Ind (List K) (List K)))
    (hv : List (List K) → K) (dt : ℕ → ℕ → ℕ → ℕ → ℕ × ℕ) (dv : ℕ → ℕ → ℕ → ℕ → VarDraw K) :
    IslandOps (MState K) (List K × Option (List K)) (List K) where
  step := fun i k j => smsStep S key fit none (iter i k j) hv (dt i k j) (dv i k j)
  cost := fun s => s.cost
  inds := fun s => s.individuals.map fun x => (x.v, x.objectives)
  put := fun l s => { s with individuals := renumber s.nextId l, nextId := s.nextId + l.length }
  vec := Prod.fst
  finalize := fun _ _ s => some (s, smsFinal s)

end

end Evogil.Imga
