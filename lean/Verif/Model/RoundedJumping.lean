import Verif.Model.Jumping
import Verif.Model.RoundedRun

/-!
# Model of whole generations of JGBL with rounding

`Verif.Model.Jumping` with every floating point operation followed by the rounding `fl`. `none` means that the code raises.
-/

namespace Evogil.Rounded.Run

open Evaluation Generations Jgbl Jumping

variable {K : Type*} [Field K] [LinearOrder K] [IsStrictOrderedRing K] [FloorRing K] {A : Type*} [DecidableEq A]

/-- `step`, JGBL.py:42-70. `jd n i` are the draws of the individual at position `i` when there are `n` mates to choose from;
`none` means that it does not jump (JGBL.py:75). The two calls of `_nd_sort` for the same individuals (in `nsgaiiSelect` and
`firstFront`) are one call in the code; it computes nothing with floats but compares them. -/
def jgblStep (fl : K → K) (S : Setup K) (key : List K → A) (fit : List K → List K) (m : ℕ)
    (orders : Orders (Ind (List K) (List K))) (dm : ℕ → MateDraw) (dv : ℕ → VarDraw K)
    (jd : ℕ → ℕ → Option JumpDraw) (s : NState K A) : Option (NState K A) :=
  match nsgaiiStep fl S key fit m orders.inner dm dv s with
  | none => none
  | some s1 =>
    let all := asSet orders.union (s.individuals ++ s1.individuals)
    match nsgaiiSelect fl orders.first S.eps m s.popSize all, firstFront orders.first m all with
    | some (kept, _), some front =>
      if kept.length < front.length then
        let mates := front.filter fun n => n ∉ kept
        match jumpGenes fl S.dims (mates.map fun x => x.v) (kept.map fun x => x.v)
          ((List.range kept.length).map (jd mates.length)) with
        | none => none
        | some vs =>
          let r := evalAll key fit s1.acc (asSet orders.jumped (kept ++ newInds s1.nextId (vs.map S.trim)))
          match nsgaiiSelect fl orders.second S.eps m s.popSize r.2 with
          | none => none
          | some (final, _) => some { s1 with individuals := final, acc := r.1, nextId := s1.nextId + vs.length }
      else some s1
    | _, _ => none

/-- JGBL as a driver, JGBL.py:42-70; the constructor (JGBL.py:8-40) and the result (NSGAII.py:72-73, 81-86) are those of
NSGA-II. -/
def jgblDriver (fl : K → K) (S : Setup K) (key : List K → A) (fit : List K → List K) (m : ℕ)
    (orders : ℕ → Orders (Ind (List K) (List K))) (dm : ℕ → ℕ → MateDraw) (dv : ℕ → ℕ → VarDraw K)
    (jd : ℕ → ℕ → ℕ → Option JumpDraw) : DriverSig (Option (ℕ × NState K A)) (Option (List (List K))) :=
  optDriver (fun n => jgblStep fl S key fit m (orders n) (dm n) (dv n) (jd n)) (fun s => s.acc.cost)
    (fun n => nsgaiiFinish fl S key fit m (orders n).inner)

end Evogil.Rounded.Run
