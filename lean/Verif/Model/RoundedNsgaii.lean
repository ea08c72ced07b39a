import Verif.Model.Nsgaii
import Verif.Model.RoundedSelection

/-!
# NSGA-II with rounding

Crowding distances and selection of `algorithms/NSGAII/NSGAII.py` with every result of an operation rounded by the
parameter `fl`; otherwise as `Verif.Model.Nsgaii`. Simplified: exponents are not bounded from above.
-/

namespace Evogil.Rounded

variable {ι K : Type*} [DecidableEq ι] [Field K] [LinearOrder K] [IsStrictOrderedRing K] [FloorRing K]

/-- `self.dist[x] += v`, NSGAII.py:158 and 167. -/
def addDist (fl : K → K) (dist : ι → WithTop K) (x : ι) (v : K) : ι → WithTop K :=
  Function.update dist x (match dist x with
    | ⊤ => ⊤
    | (d : K) => (fl (d + v) : K))

/-- The loop over the inner members, NSGAII.py:166-170. -/
def addInner (fl : K → K) (eps : K) (o : ι → K) (lo hi : K) : (ι → WithTop K) → List ι → (ι → WithTop K)
  | dist, a :: b :: c :: rest =>
    addInner fl eps o lo hi (addDist fl dist b (crowdTerm fl eps lo hi (.inner (o a) (o c)))) (b :: c :: rest)
  | dist, _ => dist

/-- One turn of the loop over the objectives, NSGAII.py:153-170. -/
def crowdObjective (fl : K → K) (eps : K) (o : ι → K) (st : List ι × (ι → WithTop K)) : List ι × (ι → WithTop K) :=
  let inds := pySorted o st.1
  match inds, Nsgaii.lastTwo inds with
  | first :: _, some (prev, last) =>
    let dist := Function.update st.2 first ⊤
    let dist := addDist fl dist last (crowdTerm fl eps (o first) (o last) (.last (o last) (o prev)))
    (inds, addInner fl eps o (o first) (o last) dist inds)
  | _, _ => (inds, st.2)

/-- One turn of the loop over the fronts, NSGAII.py:146-170. -/
def crowdFront (fl : K → K) (eps : K) (objs : List (ι → K)) (dist : ι → WithTop K) (inds : List ι) : ι → WithTop K :=
  match inds with
  | [] => dist
  | [x] => Function.update dist x 0
  | _ => (objs.foldl (fun st o => crowdObjective fl eps o st) (inds, dist)).2

/-- `_crowding`, NSGAII.py:144-170. -/
def crowding (fl : K → K) (eps : K) (objs : List (ι → K)) (fronts : List (List ι)) : ι → WithTop K :=
  fronts.foldl (crowdFront fl eps objs) (fun _ => 0)

/-- `1 / (dist + eps)`, NSGAII.py:175, where `1 / inf = 0`. -/
def invDist (fl : K → K) (eps : K) : WithTop K → K
  | ⊤ => 0
  | (d : K) => crowdKey fl eps d

/-- `_environmental_selection`, NSGAII.py:172-180; tuples are compared lexicographically. -/
def nsgaSelection (fl : K → K) (eps : K) (fronts : List (List ι)) (dist : ι → WithTop K) (size : ℕ) (pop : List ι) :
    List ι :=
  (pySorted (fun x => (toLex (nsgaRank fronts x, invDist fl eps (dist x)) : ℕ ×ₗ K)) pop).take size

/-- Sort, crowding and selection, NSGAII.py:83-85 and 89-91. `none` if `fuel` does not suffice for the sort. -/
def nsgaSelect (fl : K → K) (iter : List ι → List ι) (fuel : ℕ) (eps : K) (objs : List (ι → K)) (size : ℕ)
    (pop : List ι) : Option (List ι) :=
  match ndSort iter (nsgaiiDom fun x => objs.map (fun o => o x)) fuel pop with
  | none => none
  | some fronts => some (nsgaSelection fl eps fronts (crowding fl eps objs fronts) size pop)

/-- Successive calls of `step` (NSGAII.py:88-99) with the given batches of offspring. -/
def nsgaRun (fl : K → K) (iter : List ι → List ι) (fuel : ℕ) (eps : K) (objs : List (ι → K)) (size : ℕ) :
    List ι → List (List ι) → Option (List ι)
  | pop, [] => some pop
  | pop, offspring :: rest =>
    match nsgaSelect fl iter fuel eps objs size pop with
    | none => none
    | some kept => nsgaRun fl iter fuel eps objs size (kept ++ offspring) rest

end Evogil.Rounded
