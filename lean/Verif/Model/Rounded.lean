import Verif.Model.Variation
import Verif.Model.Jgbl
import Verif.Model.Binary64

/-!
# The variation operators with rounding

`mutate` and `crossover` of `algorithms/base/drivertools.py`, the gene codec and the jumps of
`algorithms/JGBL/JGBL.py` and `gen_population` of `evotools/ea_utils.py`, with every result of an operation
rounded by the parameter `fl` (for floats: `Binary64.round64`). `EPSILON` (drivertools.py:6) is a
`numpy.float64`, so the quantities computed from it are, too: undefined powers and divisions by zero give a NaN
or an infinity instead of an exception.

Simplified: exponents are not bounded from above, what happens to an infinity is not modelled, and the new
lists are built from left to right instead of being overwritten.
-/

namespace Evogil.Rounded

variable {K : Type*} [Field K] [LinearOrder K] [IsStrictOrderedRing K] [FloorRing K]

/-- What a computation gives instead of a finite number: NaN, an infinity, or the `IndexError` of
drivertools.py:16 and 69. -/
inductive Fault
  | nan
  | infinite
  | index
deriving DecidableEq

/-- `a / b` where `b` is a `numpy.float64`, drivertools.py:19-20, 80, 90, 112, 115. -/
def div (fl : K → K) (a b : K) : Except Fault K :=
  if b = 0 then .error (if a = 0 then .nan else .infinite) else .ok (fl (a / b))

/-- `pow(b, e)` where `b` is a `numpy.float64`, drivertools.py:29, 32, 36, 39, 82, 92, 113, 115: NaN if the
base is negative and the exponent is not an integer, infinite if the base is 0 and the exponent negative;
otherwise the value is the one `pw` of the library. -/
def pow (pw : K → K → K) (b e : K) : Except Fault K :=
  if b < 0 ∧ (⌊e⌋ : K) ≠ e then .error .nan
  else if b = 0 ∧ e < 0 then .error .infinite
  else .ok (pw b e)

/-- `min(ub, max(lb, y))`, drivertools.py:42, 100-101: `max(lb, nan)` is `lb`. -/
def clamp (lb ub : K) : Except Fault K → Except Fault K
  | .ok y => .ok (min ub (max lb y))
  | .error .nan => .ok (min ub lb)
  | .error e => .error e

/-- `delta_q`, drivertools.py:19-39. -/
def mutDeltaQ (fl : K → K) (pw : K → K → K) (eps eta y lb ub rnd : K) : Except Fault K := do
  let delta1 ← div fl (fl (y - lb)) (fl (fl (ub - lb) + eps))
  let delta2 ← div fl (fl (ub - y)) (fl (fl (ub - lb) + eps))
  let mutPow := fl (1 / fl (eta + 1))
  if rnd ≤ 1 / 2 then do
    let xy := fl (1 - delta1)
    let p ← pow pw xy (fl (eta + 1))
    let val := fl (fl (2 * rnd) + fl (fl (1 - fl (2 * rnd)) * p))
    let q ← pow pw val mutPow
    pure (fl (q - 1))
  else do
    let xy := fl (1 - delta2)
    let p ← pow pw xy (fl (eta + 1))
    let val := fl (fl (2 * fl (1 - rnd)) + fl (fl (2 * fl (rnd - 1 / 2)) * p))
    let q ← pow pw val mutPow
    pure (fl (1 - q))

/-- One mutated coordinate, drivertools.py:16-42. -/
def mutatedValue (fl : K → K) (pw : K → K → K) (eps eta y lb ub rnd : K) : Except Fault K :=
  clamp lb ub do
    let deltaQ ← mutDeltaQ fl pw eps eta y lb ub rnd
    pure (fl (y + fl (deltaQ * fl (ub - lb))))

/-- `mutate`, drivertools.py:10-45; `ds i` are the draws for the dimension `i`. -/
def mutate (fl : K → K) (pw : K → K → K) (eps rate eta : K) :
    (ℕ → MutDraw K) → List K → List (K × K) → Except Fault (List K)
  | _, xs, [] => .ok xs
  | ds, [], _ :: dims =>
    if rate < (ds 0).select then mutate fl pw eps rate eta (fun i => ds (i + 1)) [] dims
    else .error .index
  | ds, x :: xs, (lb, ub) :: dims => do
    let v ← if rate < (ds 0).select then pure x else mutatedValue fl pw eps eta x lb ub (ds 0).rnd
    let vs ← mutate fl pw eps rate eta (fun i => ds (i + 1)) xs dims
    pure (v :: vs)

/-- `get_beta_q`, drivertools.py:111-116. -/
def getBetaQ (fl : K → K) (pw : K → K → K) (rand alpha eta : K) : Except Fault K := do
  let inv ← div fl 1 alpha
  if rand ≤ inv then pow pw (fl (rand * alpha)) (fl (1 / fl (eta + 1)))
  else do
    let b ← div fl 1 (fl (2 - fl (rand * alpha)))
    pow pw b (fl (1 / fl (eta + 1)))

/-- The new coordinate of child a before the boundary check, drivertools.py:80-87. -/
def childA (fl : K → K) (pw : K → K → K) (eps eta y1 y2 lb rand : K) : Except Fault K := do
  let r ← div fl (fl (2 * fl (y1 - lb))) (fl (fl (y2 - y1) + eps))
  let p ← pow pw (fl (1 + r)) (-fl (eta + 1))
  let betaQ ← getBetaQ fl pw rand (fl (2 - p)) eta
  pure (fl (1 / 2 * fl (fl (y1 + y2) - fl (betaQ * fl (y2 - y1)))))

/-- The new coordinate of child b before the boundary check, drivertools.py:90-97. -/
def childB (fl : K → K) (pw : K → K → K) (eps eta y1 y2 ub rand : K) : Except Fault K := do
  let r ← div fl (fl (2 * fl (ub - y2))) (fl (fl (y2 - y1) + eps))
  let p ← pow pw (fl (1 + r)) (-fl (eta + 1))
  let betaQ ← getBetaQ fl pw rand (fl (2 - p)) eta
  pure (fl (1 / 2 * fl (fl (y1 + y2) + fl (betaQ * fl (y2 - y1)))))

/-- One recombined coordinate of the two children, drivertools.py:72-101. -/
def sbxValues (fl : K → K) (pw : K → K → K) (eps eta x y lb ub rand : K) : Except Fault (K × K) := do
  let a ← clamp lb ub (childA fl pw eps eta (min x y) (max x y) lb rand)
  let b ← clamp lb ub (childB fl pw eps eta (min x y) (max x y) ub rand)
  pure (a, b)

/-- One turn of the loop of `crossover`, drivertools.py:67-106. -/
def crossed (fl : K → K) (pw : K → K → K) (eps eta : K) (d : SbxDraw K) (x y lb ub : K) :
    Except Fault (K × K) :=
  if 1 / 2 < d.skip then .ok (x, y)
  else if |fl (x - y)| ≤ eps then .ok (x, y)
  else do
    let ab ← sbxValues fl pw eps eta x y lb ub d.rand
    pure (if 1 / 2 < d.swap then (ab.2, ab.1) else ab)

/-- The lists `new_xs` and `new_ys` at the end of the loop of `crossover`, drivertools.py:66-106. -/
def crossoverLoop (fl : K → K) (pw : K → K → K) (eps eta : K) :
    (ℕ → SbxDraw K) → List K → List K → List (K × K) → Except Fault (List K × List K)
  | _, xs, ys, [] => .ok (xs, ys)
  | ds, x :: xs, y :: ys, (lb, ub) :: dims => do
    let ab ← crossed fl pw eps eta (ds 0) x y lb ub
    let r ← crossoverLoop fl pw eps eta (fun i => ds (i + 1)) xs ys dims
    pure (ab.1 :: r.1, ab.2 :: r.2)
  | ds, xs, ys, _ :: dims =>
    if 1 / 2 < (ds 0).skip then crossoverLoop fl pw eps eta (fun i => ds (i + 1)) xs ys dims
    else .error .index

/-- `crossover`, drivertools.py:58-108; `first` is the draw of line 63, `pick` the outcome of `random.choice`
(lines 64, 108). -/
def crossover (fl : K → K) (pw : K → K → K) (eps rate eta first : K) (pick : Bool) (ds : ℕ → SbxDraw K)
    (xs ys : List K) (dims : List (K × K)) : Except Fault (List K) :=
  if rate < first then .ok (if pick then xs else ys)
  else do
    let r ← crossoverLoop fl pw eps eta ds xs ys dims
    pure (if pick then r.1 else r.2)

/-- `random.uniform(a, b)` (`a + (b - a) * random()` in the standard library) for every dimension,
`gen_population`, ea_utils.py:7-11. -/
def uniform (fl : K → K) (r lb ub : K) : K := fl (lb + fl (fl (ub - lb) * r))

/-- `gen_population`, ea_utils.py:7-11; `r j i` is the draw for the dimension `i` of the individual `j`. -/
def genPopulation (fl : K → K) (r : ℕ → ℕ → K) (count : ℕ) (dims : List (K × K)) : List (List K) :=
  (List.range count).map fun j => dims.zipIdx.map fun d => uniform fl (r j d.2) d.1.1 d.1.2

/-- `convert_to_ratio`, JGBL.py:157-161. Vectors have as many entries as there are dimensions, and no
dimension has length 0. -/
def convertToRatio (fl : K → K) (dims : List (K × K)) (x : List K) : List K :=
  List.zipWith (fun v d => fl (fl (v - d.1) / fl (d.2 - d.1))) x dims

/-- `decode_ratio`, JGBL.py:135-139 -/
def decodeRatio (fl : K → K) (dims : List (K × K)) (ratio : List K) : List K :=
  List.zipWith (fun r d => fl (d.1 + fl (r * fl (d.2 - d.1)))) ratio dims

open Jgbl (PasteDraw JumpDraw transposon multiDelete paste)

/-- `cut_and_paste`, JGBL.py:101-114 -/
def cutAndPaste (fl : K → K) (dims : List (K × K)) (d : PasteDraw) (x y : List K) : List K × List K :=
  let xr := convertToRatio fl dims x
  let yr := convertToRatio fl dims y
  let xt := transposon xr d.xSample
  let yt := transposon yr d.ySample
  let xr := multiDelete xr d.xSample
  let yr := multiDelete yr d.ySample
  (decodeRatio fl dims (xr.take d.xPos ++ yt ++ xr.drop d.xPos),
    decodeRatio fl dims (yr.take d.yPos ++ xt ++ yr.drop d.yPos))

/-- `copy_and_paste`, JGBL.py:116-126 -/
def copyAndPaste (fl : K → K) (dims : List (K × K)) (d : PasteDraw) (x y : List K) : List K × List K :=
  let xr := convertToRatio fl dims x
  let yr := convertToRatio fl dims y
  let xt := transposon xr d.xSample
  let yt := transposon yr d.ySample
  (decodeRatio fl dims (paste xr yt d.xPos), decodeRatio fl dims (paste yr xt d.yPos))

/-- The six children of one jumping individual, JGBL.py:76-98. -/
def jumpOne (fl : K → K) (dims : List (K × K)) (nondominated : List (List K)) (d : JumpDraw) (v : List K) :
    Option (List (List K)) :=
  match nondominated[d.mateCut]?, nondominated[d.mateCopy]? with
  | some m1, some m2 =>
    let c := cutAndPaste fl dims d.cut v m1
    let p := copyAndPaste fl dims d.copy v m2
    some [(cutAndPaste fl dims d.cutSelf v v).2, (copyAndPaste fl dims d.copySelf v v).2,
      c.1, c.2, p.1, p.2]
  | _, _ => none

/-- `jump_genes`, JGBL.py:72-99 -/
def jumpGenes (fl : K → K) (dims : List (K × K)) (nondominated : List (List K)) :
    List (List K) → List (Option JumpDraw) → Option (List (List K))
  | v :: pop, some d :: ds =>
    match jumpOne fl dims nondominated d v, jumpGenes fl dims nondominated pop ds with
    | some c, some cs => some (c ++ cs)
    | _, _ => none
  | _ :: pop, none :: ds => jumpGenes fl dims nondominated pop ds
  | _, _ => some []

end Evogil.Rounded
