import Verif.Model.Jgbl
import Verif.Model.GenerationsRun

/-!
# Model of whole generations of JGBL

The complete `step` of `algorithms/JGBL/JGBL.py` over the complete step of NSGA-II
(`Verif.Model.Generations`). `none` means that the code raises.
-/

namespace Evogil.Jumping

open Evaluation Generations Jgbl

variable {K : Type*} [Field K] [LinearOrder K] {A : Type*} [DecidableEq A]

/-- The orders in which the sets of one step are visited: in `super().step()` (JGBL.py:44), in the
first and in the second selection (JGBL.py:49-51, 66-68), and the two sets themselves (JGBL.py:47
and 64). -/
structure Orders (ι : Type*) where
  inner : List ι → List ι
  first : List ι → List ι
  second : List ι → List ι
  union : List ι → List ι
  jumped : List ι → List ι

/-- `self.front[1]` after `_nd_sort`, NSGAII.py:118-142 -/
def firstFront (iter : List (Ind (List K) (List K)) → List (Ind (List K) (List K))) (m : ℕ)
    (pop : List (Ind (List K) (List K))) : Option (List (Ind (List K) (List K))) :=
  (ndSort iter (nsgaiiDom fun x => (objFns m).map (fun o => o x)) pop.length pop).map
    fun fronts => fronts.headD []

/-- `step`, JGBL.py:42-70. `jd n i` are the draws of the individual at position `i` when there are
`n` mates to choose from; `none` means that it does not jump (JGBL.py:75). The two calls of
`_nd_sort` for the same individuals (in `nsgaiiSelect` and `firstFront`) are one call in the code. -/
def jgblStep (S : Setup K) (key : List K → A) (fit : List K → List K) (m : ℕ)
    (orders : Orders (Ind (List K) (List K))) (dm : ℕ → MateDraw) (dv : ℕ → VarDraw K)
    (jd : ℕ → ℕ → Option JumpDraw) (s : NState K A) : Option (NState K A) :=
  match nsgaiiStep S key fit m orders.inner dm dv s with
  | none => none
  | some s1 =>
    let all := asSet orders.union (s.individuals ++ s1.individuals)
    match nsgaiiSelect orders.first S.eps m s.popSize all, firstFront orders.first m all with
    | some (kept, _), some front =>
      if kept.length < front.length then
        let mates := front.filter fun n => n ∉ kept
        match jumpGenes S.dims (mates.map fun x => x.v) (kept.map fun x => x.v)
          ((List.range kept.length).map (jd mates.length)) with
        | none => none
        | some vs =>
          let r := evalAll key fit s1.acc
            (asSet orders.jumped (kept ++ newInds s1.nextId (vs.map S.trim)))
          match nsgaiiSelect orders.second S.eps m s.popSize r.2 with
          | none => none
          | some (final, _) =>
            some { s1 with individuals := final, acc := r.1, nextId := s1.nextId + vs.length }
      else some s1
    | _, _ => none

/-- The driver JGBL, JGBL.py:42-70; the constructor (JGBL.py:8-40) and the result (NSGAII.py:72-73,
81-86) are those of NSGA-II. -/
def jgblDriver (S : Setup K) (key : List K → A) (fit : List K → List K) (m : ℕ)
    (orders : ℕ → Orders (Ind (List K) (List K))) (dm : ℕ → ℕ → MateDraw) (dv : ℕ → ℕ → VarDraw K)
    (jd : ℕ → ℕ → ℕ → Option JumpDraw) :
    DriverSig (Option (ℕ × NState K A)) (Option (List (List K))) :=
  optDriver (fun n => jgblStep S key fit m (orders n) (dm n) (dv n) (jd n)) (fun s => s.acc.cost)
    (fun n => nsgaiiFinish S key fit m (orders n).inner)

end Evogil.Jumping
