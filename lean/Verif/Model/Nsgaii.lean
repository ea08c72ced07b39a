import Verif.Model.NdSort
import Verif.Model.PySorted
import Mathlib.Algebra.Order.Field.Basic
import Mathlib.Algebra.Order.Monoid.WithTop
import Mathlib.Data.Prod.Lex

/-!
# Model of the NSGA-II selection (`algorithms/NSGAII/NSGAII.py` lines 81-99 and 144-180)

Objective values are elements of an ordered field `K`; crowding distances are elements of
`WithTop K`, `⊤` being `float("inf")`. `eps` is `sys.float_info.epsilon`. Individuals are as in
`Verif.Model.NdSort`; `obj i x` is `x.objectives[objective]` for objective number `i`.
-/

namespace Evogil.Nsgaii

variable {ι K : Type*} [DecidableEq ι] [Field K] [LinearOrder K]

/-- `self.dist[x] += v`, NSGAII.py:158 and 167 -/
def addDist (dist : ι → WithTop K) (x : ι) (v : K) : ι → WithTop K :=
  Function.update dist x (dist x + (v : WithTop K))

/-- The loop over the inner members, NSGAII.py:166-170: every member with a left and a right
neighbour in the sorted front gets the normalised distance of the two. -/
def addInner (o : ι → K) (range : K) : (ι → WithTop K) → List ι → (ι → WithTop K)
  | dist, a :: b :: c :: rest =>
    addInner o range (addDist dist b ((o c - o a) / range)) (b :: c :: rest)
  | dist, _ => dist

/-- The last member of the sorted front and its left neighbour, NSGAII.py:158-165 (`inds[-1]`,
`inds[-2]`). -/
def lastTwo : List ι → Option (ι × ι)
  | [] => none
  | [_] => none
  | [a, b] => some (a, b)
  | _ :: b :: c :: rest => lastTwo (b :: c :: rest)

/-- One turn of the loop over the objectives, NSGAII.py:153-170. `inds` is the front as left by the
previous turn (`list.sort` works in place); returns the sorted front and the distances. -/
def crowdObjective (eps : K) (o : ι → K) (st : List ι × (ι → WithTop K)) :
    List ι × (ι → WithTop K) :=
  let inds := pySorted o st.1
  match inds, lastTwo inds with
  | first :: _, some (prev, last) =>
    let range := o last - o first + eps
    let dist := Function.update st.2 first ⊤
    let dist := addDist dist last (2 * (o last - o prev) / range)
    (inds, addInner o range dist inds)
  | _, _ => (inds, st.2)

/-- One turn of the loop over the fronts, NSGAII.py:146-170. -/
def crowdFront (eps : K) (objs : List (ι → K)) (dist : ι → WithTop K) (inds : List ι) :
    ι → WithTop K :=
  match inds with
  | [] => dist
  | [x] => Function.update dist x 0
  | _ => (objs.foldl (fun st o => crowdObjective eps o st) (inds, dist)).2

/-- `_crowding`, NSGAII.py:144-170. Missing keys of the `defaultdict(float)` are 0. -/
def crowding (eps : K) (objs : List (ι → K)) (fronts : List (List ι)) : ι → WithTop K :=
  fronts.foldl (crowdFront eps objs) (fun _ => 0)

/-- `1 / (dist + eps)`, NSGAII.py:175, where `1 / inf = 0` -/
def invDist (eps : K) : WithTop K → K
  | ⊤ => 0
  | (d : K) => 1 / (d + eps)

/-- the key `self.fitness[ind]`, NSGAII.py:173-177; tuples are compared lexicographically -/
def fitnessKey (eps : K) (fronts : List (List ι)) (dist : ι → WithTop K) (x : ι) : ℕ ×ₗ K :=
  toLex (nsgaRank fronts x, invDist eps (dist x))

/-- `_environmental_selection`, NSGAII.py:172-180 -/
def environmentalSelection (eps : K) (fronts : List (List ι)) (dist : ι → WithTop K)
    (size : ℕ) (pop : List ι) : List ι :=
  (pySorted (fitnessKey eps fronts dist) pop).take size

/-- The first three lines of `step` (NSGAII.py:89-91), also `finish` (NSGAII.py:83-85): sort,
crowding, selection. `none` if `fuel` does not suffice for the sort. -/
def select (iter : List ι → List ι) (fuel : ℕ) (eps : K) (objs : List (ι → K)) (size : ℕ)
    (pop : List ι) : Option (List ι) :=
  match ndSort iter (nsgaiiDom fun x => objs.map (fun o => o x)) fuel pop with
  | none => none
  | some fronts => some (environmentalSelection eps fronts (crowding eps objs fronts) size pop)

/-- `step`, NSGAII.py:88-99, as far as the composition of `self.individuals` is concerned:
`offspring` are the new `Individual` objects built in lines 92-96 (by random mating selection,
crossover and mutation; see `Verif.Model.Variation`), appended in line 97. -/
def step (iter : List ι → List ι) (fuel : ℕ) (eps : K) (objs : List (ι → K)) (size : ℕ)
    (pop offspring : List ι) : Option (List ι) :=
  match select iter fuel eps objs size pop with
  | none => none
  | some kept => some (kept ++ offspring)

/-- Successive calls of `step` (NSGAII.py:88-99) with the given batches of offspring. -/
def run (iter : List ι → List ι) (fuel : ℕ) (eps : K) (objs : List (ι → K)) (size : ℕ) :
    List ι → List (List ι) → Option (List ι)
  | pop, [] => some pop
  | pop, offspring :: rest =>
    match step iter fuel eps objs size pop offspring with
    | none => none
    | some pop' => run iter fuel eps objs size pop' rest

end Evogil.Nsgaii
