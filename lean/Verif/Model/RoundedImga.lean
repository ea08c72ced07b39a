import Verif.Model.ImgaRunRest
import Verif.Model.RoundedBudget
import Verif.Model.RoundedJumping
import Verif.Model.RoundedSelection

/-!
# Islands whose drivers compute with rounding (`algorithms/IMGA/IMGA.py`)

The islands of `Verif.Model.ImgaRun` with the generations of `Verif.Model.RoundedRun` and `Verif.Model.RoundedJumping`. IMGA
itself only compares floats to choose the emigrants (IMGA.py:85-93 and 139-170, message.py:12-30); the one division of
floats, IMGA.py:98, is that of C153_size.
-/

namespace Evogil.Rounded.Islands

open Evaluation Generations Imga Rounded.Run

/-- `refugee`, IMGA.py:156-160: `rnd` is the value of `random.random()` in `weighted_choice`, `index n` the position which
`random.choice` draws in a list of `n`; `none` is the exception of `weighted_choice` or of `random.choice`. -/
def refugee {K V : Type*} [Field K] [LinearOrder K] [IsStrictOrderedRing K] [FloorRing K] (fl : K → K) (sum : List K → K)
    (rnd : K) (index : ℕ → ℕ) (layers : List (List V)) : Option V :=
  match chosenLayer fl sum rnd layers with
  | none => none
  | some layer => layer[index layer.length]?

section
variable {K : Type*} [Field K] [LinearOrder K] [IsStrictOrderedRing K] [FloorRing K] {A : Type*} [DecidableEq A]

/-- An island with NSGA-II, algorithms/NSGAII/message.py:5-6 (the default adapter); NSGAII.py:72-99. -/
def nsgaiiOps (fl : K → K) (S : Setup K) (key : List K → A) (fit : List K → List K) (m : ℕ)
    (iter : ℕ → ℕ → ℕ → List (Ind (List K) (List K)) → List (Ind (List K) (List K)))
    (dm : ℕ → ℕ → ℕ → ℕ → MateDraw) (dv : ℕ → ℕ → ℕ → ℕ → VarDraw K) :
    IslandOps (NState K A) (List K × Option (List K)) (List K) where
  step := fun i k j => nsgaiiStep fl S key fit m (iter i k j) (dm i k j) (dv i k j)
  cost := fun s => s.acc.cost
  inds := fun s => s.individuals.map fun x => (x.v, x.objectives)
  put := fun l s => { s with individuals := renumber s.nextId l, nextId := s.nextId + l.length }
  vec := Prod.fst
  finalize := fun i k => nsgaiiFinish fl S key fit m (iter i k 0)

omit [DecidableEq A] in
/-- An island with SPEA2, algorithms/SPEA2/message.py:6-24: the archive does not take part; SPEA2.py:64-65 and 70-90. -/
def spea2Ops (fl : K → K) (S : Setup K) (dist : List K → List K → K) (key : List K → A) (fit : List K → List K)
    (dt : ℕ → ℕ → ℕ → ℕ → (ℕ × ℕ) × (ℕ × ℕ)) (dv : ℕ → ℕ → ℕ → ℕ → VarDraw K) :
    IslandOps (SState K) (List K × Option (List K)) (List K) where
  step := fun i k j => spea2Step fl S dist key fit none (dt i k j) (dv i k j)
  cost := fun s => s.cost
  inds := fun s => s.individuals.map fun x => (x.v, x.objectives)
  put := fun l s => { s with individuals := renumber s.nextId l, nextId := s.nextId + l.length }
  vec := Prod.fst
  finalize := fun _ _ s => some (s, spea2Final s)

/-- An island with IBEA, algorithms/IBEA/message.py:6-7 (the default adapter): `scaled_objectives` stay those of the
population before migration, so the scaled objectives of immigrants need not lie between 0 and 1; IBEA.py:52-74. -/
def ibeaOps (fl : K → K) (S : Setup K) (ex : K → K) (kappa : K) (objectives : List (List K → K))
    (dm : ℕ → ℕ → ℕ → ℕ → MateDraw) (dv : ℕ → ℕ → ℕ → ℕ → VarDraw K) :
    IslandOps (IState K) (List K × Bool) (List K) where
  step := fun i k j => ibeaStep fl S ex kappa objectives (fun _ => false) false (dm i k j) (dv i k j)
  cost := fun s => s.cost
  inds := fun s => s.individuals.map fun x => (x.v, x.known)
  put := fun l s => { s with
    individuals := l.zipIdx.map fun p => ⟨s.nextId + p.2, p.1.1, p.1.2⟩
    nextId := s.nextId + l.length }
  vec := Prod.fst
  finalize := fun _ _ => ibeaFinish fl S ex kappa objectives (fun _ => false) false

omit [DecidableEq A] in
/-- An island with SMS-EMOA, algorithms/SMSEMOA/message.py:7-26; SMSEMOA.py:55-73. -/
def smsOps (fl : K → K) (S : Setup K) (key : List K → A) (fit : List K → List K)
    (iter : ℕ → ℕ → ℕ → List (Ind (List K) (List K)) → List (Ind (List K) (List K)))
    (hv : List (List K) → K) (dt : ℕ → ℕ → ℕ → ℕ → ℕ × ℕ) (dv : ℕ → ℕ → ℕ → ℕ → VarDraw K) :
    IslandOps (MState K) (List K × Option (List K)) (List K) where
  step := fun i k j => smsStep fl S key fit none (iter i k j) hv (dt i k j) (dv i k j)
  cost := fun s => s.cost
  inds := fun s => s.individuals.map fun x => (x.v, x.objectives)
  put := fun l s => { s with individuals := renumber s.nextId l, nextId := s.nextId + l.length }
  vec := Prod.fst
  finalize := fun _ _ s => some (s, smsFinal s)

/-- An island with JGBL, algorithms/JGBL/message.py:4-5: the adapter is that of NSGA-II; JGBL.py:42-70. -/
def jgblOps (fl : K → K) (S : Setup K) (key : List K → A) (fit : List K → List K) (m : ℕ) (d : JgblDraws K) :
    IslandOps (NState K A) (List K × Option (List K)) (List K) where
  step := fun i k j => jgblStep fl S key fit m (d.orders i k j) (d.dm i k j) (d.dv i k j) (d.jd i k j)
  cost := fun s => s.acc.cost
  inds := fun s => s.individuals.map fun x => (x.v, x.objectives)
  put := fun l s => { s with individuals := renumber s.nextId l, nextId := s.nextId + l.length }
  vec := Prod.fst
  finalize := fun i k => nsgaiiFinish fl S key fit m (d.orders i k 0).inner

end

end Evogil.Rounded.Islands
