import Verif.Model.HgsRunMore
import Verif.Model.HgsBudget
import Verif.Model.RoundedHgs
import Verif.Model.RoundedRun

/-!
# Whole runs of the sequential HGS with rounding (`algorithms/HGS/classic/ClassicHGS.py`)

As `Verif.Model.HgsRun` and `Verif.Model.HgsRunMore`, with the drivers of `Verif.Model.RoundedRun`, the populations of
sprouts and the decisions about nodes (`Verif.Model.RoundedHgs`) in rounded arithmetic; `fl` is the rounding. Simplified as
there: the costs and the budgets are not rounded, there is no greatest float; the hypervolume of a population, the means of
populations and the tests for redundancy are parameters, as computed.
-/

namespace Evogil.Rounded.Hgs

open Evogil.Hgs (Node State Conf Report NodeOps RunConf Run gather plant result NsgaiiDraws Spea2Draws IbeaDraws SmsDraws
  nsgaiiDelegates ibeaDelegates smsDelegates)
open Evaluation Generations Rounded.Run

section
variable {W σ D K : Type*} [Field K] [LinearOrder K] [FloorRing K]

/-- `step`, ClassicHGS.py:92-125, see `Hgs.runStep`. -/
def runStep (fl : K → K) (cfg : Conf D K) (O : NodeOps W σ D) (C : RunConf D K) (k : ℕ) (s : Run W σ D K) :
    Option (Run W σ D K) :=
  match s.tree.levels[2]?, s.tree.levels[1]?, s.tree.levels[0]? with
  | some l2, some l1, some l0 =>
    match gather O C k s.tree (l2 ++ l1 ++ l0) s.world s.drivers (fun _ => ⟨[], [], [], 0⟩) with
    | none => none
    | some (w1, ds1, env) =>
      match step fl cfg (cfg.maxLevel + 1) env s.tree s.ratio with
      | none => none
      | some (tree', ratio') =>
        (plant O C s.tree.nodes.length (tree'.nodes.drop s.tree.nodes.length) w1 ds1).map
          fun r => ⟨tree', ratio', r.2, r.1⟩
  | _, _, _ => none

/-- `n` steps (ClassicHGS.py:92-125), the next one has number `k`. -/
def runSteps (fl : K → K) (cfg : Conf D K) (O : NodeOps W σ D) (C : RunConf D K) : ℕ → ℕ → Run W σ D K →
    Option (Run W σ D K)
  | _, 0, s => some s
  | k, n + 1, s => (runStep fl cfg O C k s).bind (runSteps fl cfg O C (k + 1) n)

/-- `population_from_delegate`, ClassicHGS.py:352-356, see `Evogil.populationFromDelegate`. -/
def populationFromDelegate (fl : K → K) (pw : K → K → K) (eps : K) (ds : ℕ → ℕ → MutDraw K) (delegate : List K)
    (size : ℕ) (dims : List (K × K)) (rate eta : K) : Option (List (List K)) :=
  ((List.range (size - 1)).mapM fun i => (Rounded.mutate fl pw eps rate eta (ds i) delegate dims).toOption).map
    fun rest => delegate :: rest

/-- The driver that a worker sees, algorithms/HGS/HGS.py:71-80, see `Hgs.hgsDriver`. -/
def hgsDriver (fl : K → K) (cfg : Conf D K) (O : NodeOps W σ D) (C : RunConf D K) :
    DriverSig (Option (ℕ × Run W σ D K)) (Option (List D × K)) where
  step := fun o => o.bind fun p => (runStep fl cfg O C p.1 p.2).map fun s => (p.1 + 1, s)
  cost := fun o => match o with
    | none => 0
    | some p => ⌊p.2.tree.cost⌋
  finalize := fun o => (o, o.map fun p => (result p.2, p.2.tree.cost))

end

section
variable {K : Type*} [Field K] [LinearOrder K] [IsStrictOrderedRing K] [FloorRing K] {A : Type*}

/-- The driver of a node when HGS runs with NSGA-II (ClassicHGS.py:228-283), see `Hgs.nsgaiiOps`. The delegates are decided
by comparisons alone. -/
def nsgaiiOps [DecidableEq A] (fl : K → K) (S : ℕ → Setup K) (key : List K → A) (m : ℕ) (c : K) (d : NsgaiiDraws K) :
    NodeOps (ℕ → Archive A (List K)) (NState K A) (List K) where
  make := fun l i pop w =>
    let s := Rounded.Run.nsgaiiInit fl (S l) key (d.fit l i 0 0) (some (w l)) c pop
    some (Function.update w l (s.acc.archive.getD (w l)), s)
  step := fun l i k j w s =>
    (Rounded.Run.nsgaiiStep fl (S l) key (d.fit l i (k + 1) (j + 1)) m (d.iter i (k + 1) (j + 1)) (d.dm l i k j)
      (d.dv i k j) { s with acc := { s.acc with archive := some (w l) } }).map fun s' =>
        (Function.update w l (s'.acc.archive.getD (w l)), s')
  cost := fun s => s.acc.cost
  conclude := fun l i k w s =>
    let s0 := { s with acc := { s.acc with archive := some (w l) } }
    let r := evalAll key (d.fit l i (k + 1) 0) s0.acc s0.individuals
    match Rounded.Run.nsgaiiFinish fl (S l) key (d.fit l i (k + 1) 0) m (d.iter i (k + 1) 0) s0,
      nsgaiiDelegates m (d.iter i (k + 1) 0) r.2 with
    | some (s', pop), some delegates =>
      some (Function.update w l (s'.acc.archive.getD (w l)), s', pop, delegates)
    | _, _ => none

/-- The driver of a node when HGS runs with SPEA2 (ClassicHGS.py:228-283), see `Hgs.spea2Ops`. -/
def spea2Ops (fl : K → K) (S : ℕ → Setup K) (dist : List K → List K → K) (key : List K → A) (d : Spea2Draws K) :
    NodeOps Unit (SState K) (List K) where
  make := fun l _ pop _ => some ((), spea2Init (S l) pop)
  step := fun l i k j _ s =>
    (Rounded.Run.spea2Step fl (S l) dist key (d.fit l i k j) (some fun _ => none) (d.dt l i k j) (d.dv i k j) s).map
      fun s' => ((), s')
  cost := fun s => s.cost
  conclude := fun _ _ _ _ s => some ((), s, spea2Final s, s.archive.map fun x => x.v)

/-- The driver of a node when HGS runs with IBEA (ClassicHGS.py:228-283), see `Hgs.ibeaOps`; `ex` is `math.exp` as
computed. -/
def ibeaOps (fl : K → K) (S : ℕ → Setup K) (ex : K → K) (kappa c : K) (d : IbeaDraws K) :
    NodeOps Unit (IState K) (List K) where
  make := fun l i pop _ => (Rounded.Run.ibeaInit fl (S l) (d.obj l i 0 0) c pop).map fun s => ((), s)
  step := fun l i k j _ s =>
    (Rounded.Run.ibeaStep fl (S l) ex kappa (d.obj l i (k + 1) (j + 1)) (fun _ => false) true (d.dm l i k j)
      (d.dv i k j) s).map fun s' => ((), s')
  cost := fun s => s.cost
  conclude := fun l i k _ s =>
    match Rounded.Run.ibeaFinish fl (S l) ex kappa (d.obj l i (k + 1) 0) (fun _ => false) true s with
    | none => none
    | some (s', pop) =>
      (ibeaDelegates (d.obj l i (k + 1) 0) s'.individuals).map fun delegates => ((), s', pop, delegates)

/-- The driver of a node when HGS runs with SMS-EMOA (ClassicHGS.py:228-283), see `Hgs.smsOps`; `hv` is the hypervolume as
computed. -/
def smsOps (fl : K → K) (S : ℕ → Setup K) (key : List K → A) (hv : List (List K) → K) (mult : K) (d : SmsDraws K) :
    NodeOps Unit (MState K) (List K) where
  make := fun l i pop _ =>
    some ((), Rounded.Run.smsInit fl (S l) key (d.fit l i 0 0) (some fun _ => none) mult pop)
  step := fun l i k j _ s =>
    (Rounded.Run.smsStep fl (S l) key (d.fit l i (k + 1) (j + 1)) (some fun _ => none) (d.iter i (k + 1) (j + 1)) hv
      (d.dt l i k j) (d.dv i k j) s).map fun s' => ((), s')
  cost := fun s => s.cost
  conclude := fun _ i k _ s =>
    (smsDelegates (d.iter i (k + 1) 0) s.individuals).map fun delegates =>
      ((), s, smsFinal s, delegates)

end

end Evogil.Rounded.Hgs
