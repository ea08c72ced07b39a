import Verif.Model.GenerationsRun
import Verif.Model.RoundedRun

/-!
# NSGA-II, SPEA2, IBEA and SMS-EMOA with rounding as drivers

The generations of `Verif.Model.RoundedRun` as the drivers of `Verif.Model.GenerationsRun`.
-/

namespace Evogil.Rounded.Run

open Evaluation Generations

section
variable {K : Type*} [Field K] [LinearOrder K] [IsStrictOrderedRing K] [FloorRing K] {A : Type*} [DecidableEq A]

/-- NSGA-II as a driver, NSGAII.py:72-99. -/
def nsgaiiDriver (fl : K → K) (S : Setup K) (key : List K → A) (fit : List K → List K) (m : ℕ)
    (iter : ℕ → List (Ind (List K) (List K)) → List (Ind (List K) (List K))) (dm : ℕ → ℕ → MateDraw)
    (dv : ℕ → ℕ → VarDraw K) : DriverSig (Option (ℕ × NState K A)) (Option (List (List K))) :=
  optDriver (fun n => nsgaiiStep fl S key fit m (iter n) (dm n) (dv n)) (fun s => s.acc.cost)
    (fun n => nsgaiiFinish fl S key fit m (iter n))

omit [DecidableEq A] in
/-- SPEA2 as a driver, SPEA2.py:64-65 and 70-90. -/
def spea2Driver (fl : K → K) (S : Setup K) (dist : List K → List K → K) (key : List K → A) (fit : List K → List K)
    (fa : Option (Archive A (List K))) (dt : ℕ → ℕ → (ℕ × ℕ) × (ℕ × ℕ)) (dv : ℕ → ℕ → VarDraw K) :
    DriverSig (Option (ℕ × SState K)) (Option (List (List K))) :=
  optDriver (fun n => spea2Step fl S dist key fit fa (dt n) (dv n)) (fun s => s.cost)
    (fun _ s => some (s, spea2Final s))

/-- IBEA without a fitness archive as a driver, IBEA.py:52-53 and 64-91. -/
def ibeaDriver (fl : K → K) (S : Setup K) (ex : K → K) (kappa : K) (objectives : List (List K → K)) (dm : ℕ → ℕ → MateDraw)
    (dv : ℕ → ℕ → VarDraw K) : DriverSig (Option (ℕ × IState K)) (Option (List (List K))) :=
  optDriver (fun n => ibeaStep fl S ex kappa objectives (fun _ => false) false (dm n) (dv n)) (fun s => s.cost)
    (fun _ => ibeaFinish fl S ex kappa objectives (fun _ => false) false)

omit [DecidableEq A] in
/-- SMS-EMOA as a driver, SMSEMOA.py:55-73. -/
def smsDriver (fl : K → K) (S : Setup K) (key : List K → A) (fit : List K → List K) (fa : Option (Archive A (List K)))
    (iter : ℕ → List (Ind (List K) (List K)) → List (Ind (List K) (List K))) (hv : List (List K) → K)
    (dt : ℕ → ℕ → ℕ × ℕ) (dv : ℕ → ℕ → VarDraw K) : DriverSig (Option (ℕ × MState K)) (Option (List (List K))) :=
  optDriver (fun n => smsStep fl S key fit fa (iter n) hv (dt n) (dv n)) (fun s => s.cost)
    (fun _ s => some (s, smsFinal s))

end

end Evogil.Rounded.Run
