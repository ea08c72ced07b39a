import Verif.Model.Variation
import Verif.Model.Layers

/-!
# Model of the objectives of an HGS node, of the starting populations and of `rank`

`blurred_fitnesses` (algorithms/HGS/classic/ClassicHGS.py:212-225, the same in algorithms/HGS/tools.py:36-49),
`gen_population` (evotools/ea_utils.py:7-11), `population_from_delegate` (ClassicHGS.py:352-356, the same in
HGS/tools.py:11-15) and `rank` (algorithms/base/drivertools.py:146-156).

Simplified: numbers are elements of an ordered field, the random draws are parameters.
-/

namespace Evogil

variable {K : Type*} [Field K] [LinearOrder K]

/-- `random.gauss(mu, sigma)` of the standard library is `mu + z * sigma` for a draw `z` from the
standard normal distribution. -/
def pyGauss (mu sigma z : K) : K := mu + z * sigma

/-- `blurred_f`, ClassicHGS.py:214-221 and HGS/tools.py:38-45: the value seen instead of `fVal`;
`err` is `fitness_errors[level]`. -/
def blurredValue (err z fVal : K) : K := |pyGauss fVal (err * fVal / 3) z|

/-- The objective vector computed by a node of level `level` with the functions returned by
`blurred_fitnesses`, ClassicHGS.py:212-225 and HGS/tools.py:36-49; `z i` is the draw made for the
`i`-th objective. `none` is the `IndexError` of `fitness_errors[level]`. -/
def blurredVector {X : Type*} (errors : List K) (level : ℕ) (fits : List (X → K)) (z : ℕ → K) (x : X) :
    Option (List K) :=
  fits.zipIdx.mapM fun f => errors[level]?.map fun err => blurredValue err (z f.2) (f.1 x)

/-- `random.uniform(a, b)` of the standard library, `u` the value of `random()`. -/
def pyUniform (a b u : K) : K := a + (b - a) * u

/-- `gen_population`, ea_utils.py:7-11; `u i j` is the draw for coordinate `j` of vector `i`. -/
def genPopulation (u : ℕ → ℕ → K) (count : ℕ) (dims : List (K × K)) : List (List K) :=
  (List.range count).map fun i => dims.zipIdx.map fun d => pyUniform d.1.1 d.1.2 (u i d.2)

/-- `population_from_delegate`, ClassicHGS.py:352-356 and HGS/tools.py:11-15; `ds i` are the draws of
the `i`-th call of `mutate`. `range(size - 1)` is empty for `size = 0`. -/
def populationFromDelegate (pw : K → K → K) (eps : K) (ds : ℕ → ℕ → MutDraw K) (delegate : List K)
    (size : ℕ) (dims : List (K × K)) (rate eta : K) : Option (List (List K)) :=
  ((List.range (size - 1)).mapM fun i => mutate pw eps (ds i) delegate dims rate eta).map
    fun rest => delegate :: rest

/-- `rank`, drivertools.py:146-156, as the list of what the iterator yields; `get_indivs_inorder`
(drivertools.py:159-165, IBEA.py:55-56) calls it with the vector of all objectives. -/
def rankIndivs {α ι : Type*} [LinearOrder α] (fuel : ℕ) (individuals : List ι)
    (calcObjective : ι → List α) : Option (List ι) :=
  (paretofrontLayers fuel individuals calcObjective).map List.flatten

/-- `get_indivs_inorder`, drivertools.py:159-165. -/
def getIndivsInorder {α ι : Type*} [LinearOrder α] (fuel : ℕ) (fitnesses : List (ι → α))
    (population : List ι) : Option (List ι) :=
  rankIndivs fuel population fun ind => fitnesses.map fun f => f ind

end Evogil
