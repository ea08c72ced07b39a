import Verif.Prelude
import Verif.Model.Dominance
import Verif.Model.PyBase
import Mathlib.Logic.Function.Basic

/-!
# Model of the counting non-dominated sorts

`algorithms/NSGAII/NSGAII.py` lines 118-142, `algorithms/SMSEMOA/SMSEMOA.py` lines 113-137,
`algorithms/NSLS/NSLS.py` lines 134-160, `algorithms/NSGAIII/NSGAIII.py` lines 319-352.
The four functions have the same text up to the dominance test, which is the parameter `r`.

Individuals are compared and hashed by identity in the code; here they are elements of a
type with decidable equality and the population is a list without repetitions.
`x is 0` on small integers is read as `x == 0`.
-/

namespace Evogil

variable {ι : Type*} [DecidableEq ι]

/-- `dominated_by[x]` (a `set`): the individuals added at NSGAII.py:124-126
(SMSEMOA.py:119-121, NSLS.py:141-143, NSGAIII.py:326-328), in order of insertion. -/
def dominatedSet (r : ι → ι → Bool) (pop : List ι) (x : ι) : List ι :=
  dictKeys (pop.filter fun y => r x y)

/-- `how_many_dominates[x]` after the first double loop, NSGAII.py:124-128
(SMSEMOA.py:119-123, NSLS.py:141-145, NSGAIII.py:326-330). -/
def howManyInit (r : ι → ι → Bool) (pop : List ι) (x : ι) : ℤ :=
  ((pop.filter fun y => !r x y && r y x).length : ℤ)

/-- Body of the innermost loop, NSGAII.py:138-141 (SMSEMOA.py:132-134, NSLS.py:156-159,
NSGAIII.py:339-342): decrement the counter and append to the next front at zero. -/
def decStep (st : (ι → ℤ) × List ι) (y : ι) : (ι → ℤ) × List ι :=
  let c := st.1 y - 1
  (Function.update st.1 y c, if c = 0 then st.2 ++ [y] else st.2)

/-- The two inner loops, NSGAII.py:136-141 (SMSEMOA.py:130-134, NSLS.py:154-159,
NSGAIII.py:337-342). `iter` is the (arbitrary) iteration order of a Python set. -/
def processFront (iter : List ι → List ι) (r : ι → ι → Bool) (pop : List ι)
    (front : List ι) (hm : ι → ℤ) : (ι → ℤ) × List ι :=
  front.foldl (fun st x => (iter (dominatedSet r pop x)).foldl decStep st) (hm, [])

/-- The `while` loop over fronts, NSGAII.py:133-142 (SMSEMOA.py:127-135, NSLS.py:151-160,
NSGAIII.py:336-343); the result lists the non-empty fronts `front[1], front[2], ...`.
`fuel` bounds the number of turns (`none`: not enough). -/
def frontsLoop (iter : List ι → List ι) (r : ι → ι → Bool) (pop : List ι) :
    ℕ → List ι → (ι → ℤ) → Option (List (List ι))
  | _, [], _ => some []
  | 0, _ :: _, _ => none
  | fuel + 1, x :: xs, hm =>
    let st := processFront iter r pop (x :: xs) hm
    (frontsLoop iter r pop fuel st.2 st.1).map fun rest => (x :: xs) :: rest

/-- `_nd_sort`, NSGAII.py:118-142; `nd_sort`, SMSEMOA.py:113-137 and NSLS.py:134-160;
`theta_non_dominated_sort`, NSGAIII.py:319-345. -/
def ndSort (iter : List ι → List ι) (r : ι → ι → Bool) (fuel : ℕ) (pop : List ι) :
    Option (List (List ι)) :=
  frontsLoop iter r pop fuel (pop.filter fun x => howManyInit r pop x = 0) (howManyInit r pop)

/-- `nsga_rank[x]`, NSGAII.py:130 and 140: the number (from 1) of the front of `x`;
a missing key of the `defaultdict(int)` gives 0. -/
def nsgaRank (fronts : List (List ι)) (x : ι) : ℕ :=
  match fronts.findIdx? (fun l => decide (x ∈ l)) with
  | some k => k + 1
  | none => 0

/-- The dominance test of NSGA-II and NSLS individuals (NSGAII.py:15-25), through the
individual's objective values. -/
def nsgaiiDom {α : Type*} [LinearOrder α] (obj : ι → List α) (x y : ι) : Bool :=
  nsgaiiDominates (obj x) (obj y)

/-- The dominance test used by SMS-EMOA (SMSEMOA.py:120). -/
def smsemoaDom {α : Type*} [LinearOrder α] (obj : ι → List α) (x y : ι) : Bool :=
  dominates (obj x) (obj y)

/-- `dominates` of NSGA-III, NSGAIII.py:348-352 (theta-dominance inside a cluster). -/
def thetaDom {α : Type*} [LinearOrder α] (cluster : ι → ℕ) (theta : ι → α) (x y : ι) : Bool :=
  if cluster x = cluster y ∧ theta x < theta y then true else false

end Evogil
