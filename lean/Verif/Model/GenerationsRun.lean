import Verif.Model.Generations
import Verif.Model.Driver

/-!
# The drivers of `Verif.Model.Generations` under a budget run

`BudgetRun` and the budget worker (`Verif.Model.Driver`) applied to the complete steps of NSGA-II,
SPEA2, IBEA and SMS-EMOA. The draws of all steps are given as streams; the state `none` is a driver
that has raised.
-/

namespace Evogil.Generations

open Evaluation

/-- A driver (algorithms/base/driver.py:29-48) made of a step, a cost and a finalization which may
raise. The number counts the calls, so that every call has its own draws. -/
def optDriver {σ π : Type*} (step : ℕ → σ → Option σ) (cost : σ → ℕ)
    (finalize : ℕ → σ → Option (σ × π)) : DriverSig (Option (ℕ × σ)) (Option π) where
  step := fun o => o.bind fun p => (step p.1 p.2).map fun s => (p.1 + 1, s)
  cost := fun o => match o with
    | none => 0
    | some p => (cost p.2 : ℤ)
  finalize := fun o => match o with
    | none => (none, none)
    | some p => match finalize p.1 p.2 with
      | none => (none, none)
      | some (s, r) => (some (p.1 + 1, s), some r)

section
variable {K : Type*} [Field K] [LinearOrder K] {A : Type*} [DecidableEq A]

/-- The driver NSGA-II, NSGAII.py:72-73, 88-116 -/
def nsgaiiDriver (S : Setup K) (key : List K → A) (fit : List K → List K) (m : ℕ)
    (iter : ℕ → List (Ind (List K) (List K)) → List (Ind (List K) (List K)))
    (dm : ℕ → ℕ → MateDraw) (dv : ℕ → ℕ → VarDraw K) :
    DriverSig (Option (ℕ × NState K A)) (Option (List (List K))) :=
  optDriver (fun n => nsgaiiStep S key fit m (iter n) (dm n) (dv n)) (fun s => s.acc.cost)
    (fun n => nsgaiiFinish S key fit m (iter n))

omit [DecidableEq A] in
/-- The driver SPEA2, SPEA2.py:64-65, 70-90 -/
def spea2Driver (S : Setup K) (dist : List K → List K → K) (key : List K → A)
    (fit : List K → List K) (fa : Option (Archive A (List K))) (dt : ℕ → ℕ → (ℕ × ℕ) × (ℕ × ℕ))
    (dv : ℕ → ℕ → VarDraw K) : DriverSig (Option (ℕ × SState K)) (Option (List (List K))) :=
  optDriver (fun n => spea2Step S dist key fit fa (dt n) (dv n)) (fun s => s.cost)
    (fun _ s => some (s, spea2Final s))

/-- The driver IBEA without a fitness archive, IBEA.py:52-53, 64-91 -/
def ibeaDriver (S : Setup K) (ex : K → K) (kappa : K) (objectives : List (List K → K))
    (dm : ℕ → ℕ → MateDraw) (dv : ℕ → ℕ → VarDraw K) :
    DriverSig (Option (ℕ × IState K)) (Option (List (List K))) :=
  optDriver (fun n => ibeaStep S ex kappa objectives (fun _ => false) false (dm n) (dv n))
    (fun s => s.cost) (fun _ => ibeaFinish S ex kappa objectives (fun _ => false) false)

omit [DecidableEq A] in
/-- The driver SMS-EMOA, SMSEMOA.py:55-73 -/
def smsDriver (S : Setup K) (key : List K → A) (fit : List K → List K)
    (fa : Option (Archive A (List K)))
    (iter : ℕ → List (Ind (List K) (List K)) → List (Ind (List K) (List K)))
    (hv : List (List K) → K) (dt : ℕ → ℕ → ℕ × ℕ) (dv : ℕ → ℕ → VarDraw K) :
    DriverSig (Option (ℕ × MState K)) (Option (List (List K))) :=
  optDriver (fun n => smsStep S key fit fa (iter n) hv (dt n) (dv n)) (fun s => s.cost)
    (fun _ s => some (s, smsFinal s))

end

end Evogil.Generations
