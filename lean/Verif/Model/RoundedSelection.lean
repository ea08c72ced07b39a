import Verif.Model.Rounded
import Verif.Model.Spea2

/-!
# Selection with rounding

`weighted_choice` of `evotools/random_tools.py` with the weights of `algorithms/IMGA/IMGA.py`, the fitness of
`algorithms/SPEA2/SPEA2.py`, the scaled objectives and the exponents of `algorithms/IBEA/IBEA.py` and the crowding
distances of `algorithms/NSGAII/NSGAII.py`, with every result of an operation rounded by the parameter `fl`.
Simplified: exponents are not bounded from above.
-/

namespace Evogil.Rounded

variable {K : Type*} [Field K] [LinearOrder K] [IsStrictOrderedRing K] [FloorRing K]

/-! ## weighted_choice -/

/-- `sum`, random_tools.py:9, as in Python up to 3.11: one addition after the other, beginning with 0. -/
def runningSum (fl : K → K) (ws : List K) : K := ws.foldl (fun s w => fl (s + w)) 0

/-- The loop of random_tools.py:12-15; `none` is the `AssertionError` of line 17. -/
def pick {α : Type*} (fl : K → K) (r : K) : K → List (α × K) → Option α
  | _, [] => none
  | upto, (c, w) :: choices => if r < fl (upto + w) then some c else pick fl r (fl (upto + w)) choices

/-- `weighted_choice`, random_tools.py:6-17; `sum` is the built-in function of line 9 and `rnd` the value of
`random.random()` in `random.uniform` (line 10). -/
def weightedChoice {α : Type*} (fl : K → K) (sum : List K → K) (rnd : K) (choices : List (α × K)) : Option α :=
  pick fl (uniform fl rnd 0 (sum (choices.map Prod.snd))) 0 choices

/-- `weights`, IMGA.py:156. -/
def layerWeights (fl : K → K) (n : ℕ) : List K := (List.range n).map fun (i : ℕ) => fl (1 / ((i : K) + 1))

/-- `chosen_layer`, IMGA.py:158. -/
def chosenLayer {α : Type*} (fl : K → K) (sum : List K → K) (rnd : K) (layers : List α) : Option α :=
  weightedChoice fl sum rnd (layers.zip (layerWeights fl layers.length))

/-! ## SPEA2 -/

section spea2

variable {ι : Type*} [DecidableEq ι]

/-- `p["fitness"]`, SPEA2.py:97-111; `dist` is `euclid_distance` as computed. The raw fitness is a sum of integers,
exact as long as it is below 2^53. -/
def spea2Fitness (fl : K → K) (dist : List K → List K → K) (obj : ι → List K) (union : List ι) (p : ι) : Option K :=
  let distances := pySorted id (union.map fun p2 => dist (obj p) (obj p2))
  match distances[Nat.sqrt union.length]? with
  | none => none
  | some d => some (fl (Spea2.rawFitness obj union p + fl (1 / fl (d + 2))))

end spea2

/-! ## IBEA -/

/-- `scaled(x)`, IBEA.py:95-96, for `fun(x)` equal to `f`. -/
def scaled (fl : K → K) (eps lo hi f : K) : K := fl (fl (f - lo) / fl (fl (hi - lo) + eps))

/-- The scaled objectives of one individual, IBEA.py:83-91; `bounds` are smallest and largest values. -/
def scaledVec (fl : K → K) (eps : K) (bounds : List (K × K)) (fs : List K) : List K :=
  List.zipWith (fun b f => scaled fl eps b.1 b.2 f) bounds fs

/-- `indicator(x1, x2)`, IBEA.py:192-198, on the scaled objectives of the two; `none` is the `ValueError` of `max`
without objectives. -/
def ePlus (fl : K → K) (xs ys : List K) : Option K := (List.zipWith (fun x y => fl (x - y)) xs ys).max?

/-- The argument of `math.exp`, IBEA.py:110-117 and 131-137. -/
def exponent (fl : K → K) (eps c k i : K) : K := -fl (i / |fl (fl (c * k) + eps)|)

/-! ## NSGA-II -/

/-- What the loop over the objectives adds to the distance of an individual, NSGAII.py:157-170, for the objective
values `prev`, `next` of its neighbours, or twice the distance to the neighbour for the last one; `lo` and `hi` are the
smallest and the largest value of the front. -/
inductive Place (K : Type*)
  | last (value prev : K)
  | inner (prev next : K)

/-- The summand, NSGAII.py:158-170. -/
def crowdTerm (fl : K → K) (eps lo hi : K) : Place K → K
  | .last value prev => fl (fl (2 * fl (value - prev)) / fl (fl (hi - lo) + eps))
  | .inner prev next => fl (fl (next - prev) / fl (fl (hi - lo) + eps))

/-- The distance of an individual that is never the first, NSGAII.py:152-170: `terms` has the smallest and largest
value and the place for every objective. -/
def crowdDist (fl : K → K) (eps : K) (terms : List ((K × K) × Place K)) : K :=
  terms.foldl (fun s t => fl (s + crowdTerm fl eps t.1.1 t.1.2 t.2)) 0

/-- The second part of the sort key of a finite distance, NSGAII.py:172-176. -/
def crowdKey (fl : K → K) (eps d : K) : K := fl (1 / fl (d + eps))

end Evogil.Rounded
