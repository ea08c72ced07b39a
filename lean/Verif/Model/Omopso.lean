import Verif.Model.PySorted
import Verif.Model.PyMinMaxBy
import Verif.Model.Dominance
import Mathlib.Algebra.Order.Field.Basic
import Mathlib.Algebra.Order.Monoid.WithTop
import Mathlib.Logic.Function.Basic

/-!
# Model of OMOPSO (`algorithms/OMOPSO/OMOPSO.py`)

Archives (lines 270-332), personal bests (102-107), speeds, moves and the mutation operators
(126-157, 177-222). Archive members are objects compared by identity (class `Individual` defines no
`__eq__`); here they are elements of a type with decidable equality. `obj x` is `x.objectives`.
-/

namespace Evogil.Omopso

/-! ## Archives -/

section archive
variable {ι : Type*}

/-- The loop of `Archive.add`, OMOPSO.py:280-289. The archive is `pre ++ post`, the list iterator
stands at index `len(pre)`. Removing the current member (line 284) shifts the later ones to the
left, so that the iterator, which moves on to the next index, passes over one member.
`dom a b` is `a.dominates(b, self.eta)`, `eqv a b` is `a.equal_obj(b)`. Returns the returned flag
and the archive. -/
def addLoop (dom eqv : ι → ι → Bool) (p : ι) : List ι → List ι → Bool × List ι
  | pre, [] => (true, pre ++ [p])
  | pre, [l] =>
    if dom l p then (false, pre ++ [l])
    else if dom p l then (true, pre ++ [p])
    else if eqv l p then (false, pre ++ [l])
    else (true, pre ++ [l] ++ [p])
  | pre, l :: r :: rest =>
    if dom l p then (false, pre ++ l :: r :: rest)
    else if dom p l then addLoop dom eqv p (pre ++ [r]) rest
    else if eqv l p then (false, pre ++ l :: r :: rest)
    else addLoop dom eqv p (pre ++ [l]) (r :: rest)

/-- `Archive.add`, OMOPSO.py:278-289 -/
def archiveAdd (dom eqv : ι → ι → Bool) (archive : List ι) (p : ι) : Bool × List ι :=
  addLoop dom eqv p [] archive

variable [DecidableEq ι] {K : Type*} [Field K] [LinearOrder K]

/-- The inner loop of `crowding`, OMOPSO.py:323-332: members with a left and a right neighbour. -/
def innerCrowd (o : ι → K) (objMin objMax : K) :
    (ι → WithTop K) → List ι → (ι → WithTop K)
  | cv, a :: b :: c :: rest =>
    innerCrowd o objMin objMax
      (Function.update cv b
        (if objMax - objMin > 0 then cv b + (((o b - o a) / (objMax - objMin) : K) : WithTop K)
          else ⊤))
      (b :: c :: rest)
  | cv, _ => cv

/-- One turn of the loop over the objectives, OMOPSO.py:316-332. -/
def crowdStep (o : ι → K) (st : List ι × (ι → WithTop K)) : List ι × (ι → WithTop K) :=
  let arch := pySorted o st.1
  match arch with
  | [] => (arch, st.2)
  | first :: rest =>
    let last := (first :: rest).getLast (by simp)
    let cv := Function.update (Function.update st.2 first ⊤) last ⊤
    (arch, innerCrowd o (o first) (o last) cv arch)

/-- `crowding`, OMOPSO.py:308-332: the archive, sorted in place, and the crowding values.
Simplified: an empty archive, for which line 312 raises, is not special-cased (the callers never
pass one). -/
def crowding (objs : List (ι → K)) (archive : List ι) : List ι × (ι → WithTop K) :=
  objs.foldl (fun st o => crowdStep o st) (archive, fun _ => 0)

/-- `prune`, OMOPSO.py:303-306 -/
def prune (objs : List (ι → K)) (archive : List ι) : List ι :=
  let (arch, cv) := crowding objs archive
  match pyMaxBy cv arch with
  | none => arch
  | some worst => arch.erase worst

/-- `LeaderArchive.add`, OMOPSO.py:297-301 -/
def leaderAdd (dom eqv : ι → ι → Bool) (objs : List (ι → K)) (size : ℕ) (archive : List ι)
    (p : ι) : Bool × List ι :=
  let (added, arch) := archiveAdd dom eqv archive p
  if added && decide (arch.length > size) then (added, prune objs arch) else (added, arch)

end archive

/-- The dominance of OMOPSO individuals, OMOPSO.py:250-258, on objective vectors of equal length
(`Verif.Model.Dominance`; an `IndexError` cannot occur then). -/
def domEta {ι K : Type*} [LinearOrder K] [Div K] [Add K] [One K] (obj : ι → List K) (eta : K)
    (x y : ι) : Bool :=
  (omopsoDominates eta (obj x) (obj y)).getD false

/-- `equal_obj`, OMOPSO.py:263-267, on objective vectors of equal length -/
def eqvObj {ι K : Type*} [LinearOrder K] (obj : ι → List K) (x y : ι) : Bool :=
  (omopsoEqualObj (obj x) (obj y)).getD false

/-! ## Personal best -/

/-- One update for one particle, OMOPSO.py:105-107: `best` is the stored copy of a former state,
`cur` the present objectives. -/
def updateBest {P : Type*} (dom : P → P → Bool) (best cur : P) : P :=
  if dom cur best then cur else best

/-! ## Movement -/

section move
variable {K : Type*} [Field K] [LinearOrder K]

/-- One coordinate of `move`, OMOPSO.py:129-136: new value and new speed. -/
def moveCoord (x speed lo hi : K) : K × K :=
  let newX := x + speed
  let bounded := min (max newX lo) hi
  (bounded, if bounded ≠ newX then speed * (-1) else speed)

/-- `move` for one particle, OMOPSO.py:128-136; `none` is an `IndexError` for a vector or speed
shorter than `dims`. Components past the dimensions are left alone. -/
def moveOne : List K → List K → List (K × K) → Option (List K × List K)
  | xs, ss, [] => some (xs, ss)
  | x :: xs, s :: ss, (lo, hi) :: dims =>
    match moveOne xs ss dims with
    | none => none
    | some (xs', ss') => some ((moveCoord x s lo hi).1 :: xs', (moveCoord x s lo hi).2 :: ss')
  | _, _, _ :: _ => none

/-- One coordinate of `compute_speed`, OMOPSO.py:153-157; the random numbers of lines 146-150 are
parameters. -/
def speedCoord (w c1 r1 c2 r2 : K) (speed x best global : K) : K :=
  w * speed + c1 * r1 * (best - x) + c2 * r2 * (global - x)

/-- One coordinate of `Mutation.__call__`, OMOPSO.py:188-193: `coin` is the outcome of line 188,
`mutation` the value returned by `do_mutation`. -/
def mutateCoord (coin : Bool) (mutation x lo hi : K) : K :=
  if coin then min (max (x + mutation) lo) hi else x

/-- `UniformMutation.do_mutation`, OMOPSO.py:200-201 -/
def uniformDelta (rand perturbation : K) : K := (rand - 1 / 2) * perturbation

/-- `NonUniformMutation.delta`, OMOPSO.py:218-222; `pw` is the power. -/
def nonUniformDelta (pw : K → K → K) (rand progress perturbation y : K) : K :=
  y * (1 - pw rand (pw (1 - progress) perturbation))

/-- `Mutation.__call__`, OMOPSO.py:186-193, for a vector with one coordinate per dimension; `do i x`
is the value of `do_mutation` for coordinate `i` holding `x`. -/
def mutateOne (coin : ℕ → Bool) (doMut : ℕ → K → K) : ℕ → List K → List (K × K) → Option (List K)
  | _, xs, [] => some xs
  | i, x :: xs, (lo, hi) :: dims =>
    match mutateOne coin doMut (i + 1) xs dims with
    | none => none
    | some xs' => some (mutateCoord (coin i) (doMut i x) x lo hi :: xs')
  | _, [], _ :: _ => none

end move

end Evogil.Omopso
