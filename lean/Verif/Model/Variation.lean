import Verif.Prelude
import Mathlib.Algebra.Order.Field.Basic

/-!
# Model of the variation operators (`algorithms/base/drivertools.py`)

Coordinates are elements of an ordered field `K`. Powers with a non-negative base are
the parameter `pw` (for real numbers: `Real.rpow`). Every draw of `random.random()` is a
parameter. `none` means that the Python code raises.
-/

namespace Evogil

variable {K : Type*} [Field K] [LinearOrder K]

/-- Python's `pow(b, e)` on floats, as used at drivertools.py:29, 32, 36, 39, 82, 92, 113,
115. Simplification: `none` for a negative base and for `0 ** negative`; the theorems show that
neither occurs for vectors of the box. (The bases are `numpy.float64`s, as `EPSILON` is, so the code
goes on with a NaN or an infinity; this is modelled in Model/Rounded.) -/
def pyPow (pw : K → K → K) (b e : K) : Option K :=
  if b < 0 then none else if b = 0 ∧ e < 0 then none else some (pw b e)

/-- `min(ub, max(lb, y))`, drivertools.py:42, 100-101. -/
def clamp (lb ub y : K) : K := min ub (max lb y)

/-- Draws of one turn of the mutation loop: line 13 and line 24. -/
structure MutDraw (K : Type*) where
  select : K
  rnd : K

/-- The value `delta_q`, drivertools.py:19-39 (also NSGAIII.py:453-467). -/
def mutDeltaQ (pw : K → K → K) (eps eta : K) (y lb ub rnd : K) : Option K :=
  let delta1 := (y - lb) / (ub - lb + eps)
  let delta2 := (ub - y) / (ub - lb + eps)
  let mutPow := 1 / (eta + 1)
  if rnd ≤ 1 / 2 then do
    let xy := 1 - delta1
    let p ← pyPow pw xy (eta + 1)
    let val := 2 * rnd + (1 - 2 * rnd) * p
    let q ← pyPow pw val mutPow
    pure (q - 1)
  else do
    let xy := 1 - delta2
    let p ← pyPow pw xy (eta + 1)
    let val := 2 * (1 - rnd) + 2 * (rnd - 1 / 2) * p
    let q ← pyPow pw val mutPow
    pure (1 - q)

/-- The new value of one mutated coordinate, drivertools.py:16-42 (also
NSGAIII.py:450-470). -/
def mutatedValue (pw : K → K → K) (eps eta : K) (y lb ub rnd : K) : Option K :=
  (mutDeltaQ pw eps eta y lb ub rnd).map fun deltaQ => clamp lb ub (y + deltaQ * (ub - lb))

/-- The loop of `mutate`, drivertools.py:12-44: `i` is the index of the first of the remaining
dimensions, `acc` the list `new_xs`. `xs[i]` raises `IndexError` past the end. -/
def mutateLoop (pw : K → K → K) (eps rate eta : K) (ds : ℕ → MutDraw K) (xs : List K) :
    ℕ → List (K × K) → List K → Option (List K)
  | _, [], acc => some acc
  | i, (lb, ub) :: dims, acc =>
    if rate < (ds i).select then mutateLoop pw eps rate eta ds xs (i + 1) dims acc
    else
      match xs[i]? with
      | none => none
      | some y =>
        match mutatedValue pw eps eta y lb ub (ds i).rnd with
        | none => none
        | some v => mutateLoop pw eps rate eta ds xs (i + 1) dims (acc.set i v)

/-- `mutate`, drivertools.py:10-45. -/
def mutate (pw : K → K → K) (eps : K) (ds : ℕ → MutDraw K) (xs : List K)
    (dims : List (K × K)) (rate eta : K) : Option (List K) :=
  mutateLoop pw eps rate eta ds xs 0 dims xs

/-- `old_mutate`, drivertools.py:48-55; `coin i` is the toss and `gauss i` the value drawn. -/
def oldMutate (coin : ℕ → Bool) (gauss : ℕ → K) :
    ℕ → List K → List (K × K) → List K → List K
  | i, x :: xs, (a, b) :: dims, _ :: sigmas =>
    (if coin i then min (max a (gauss i)) b else x) :: oldMutate coin gauss (i + 1) xs dims sigmas
  | _, _, _, _ => []

/-- `get_beta_q`, drivertools.py:111-116 (and NSGAIII.py:437-442); division by zero raises. -/
def getBetaQ (pw : K → K → K) (rand alpha eta : K) : Option K :=
  if alpha = 0 then none
  else if rand ≤ 1 / alpha then pyPow pw (rand * alpha) (1 / (eta + 1))
  else if 2 - rand * alpha = 0 then none
  else pyPow pw (1 / (2 - rand * alpha)) (1 / (eta + 1))

/-- The two new values of a recombined coordinate, drivertools.py:72-101 (also
NSGAIII.py:404-427). -/
def sbxValues (pw : K → K → K) (eps eta : K) (x y lb ub rand : K) : Option (K × K) := do
  let y1 := min x y
  let y2 := max x y
  let beta := 1 + 2 * (y1 - lb) / (y2 - y1 + eps)
  let p ← pyPow pw beta (-(eta + 1))
  let alpha := 2 - p
  let betaQ ← getBetaQ pw rand alpha eta
  let a := 1 / 2 * ((y1 + y2) - betaQ * (y2 - y1))
  let beta' := 1 + 2 * (ub - y2) / (y2 - y1 + eps)
  let p' ← pyPow pw beta' (-(eta + 1))
  let alpha' := 2 - p'
  let betaQ' ← getBetaQ pw rand alpha' eta
  let b := 1 / 2 * ((y1 + y2) + betaQ' * (y2 - y1))
  pure (clamp lb ub a, clamp lb ub b)

/-- Draws of one turn of the crossover loop: lines 67, 77, 103. -/
structure SbxDraw (K : Type*) where
  skip : K
  rand : K
  swap : K

/-- A heap of Python lists of floats: lists are objects, addresses are numbers. -/
abbrev Heap (K : Type*) := ℕ → List K

/-- `h[a][i] = v` -/
def Heap.write (h : Heap K) (a i : ℕ) (v : K) : Heap K :=
  fun p => if p = a then (h a).set i v else h p

/-- The loop of `crossover`, drivertools.py:66-106; `xs`, `ys`, `nx`, `ny` are the addresses of
the lists of the same name. -/
def crossoverLoop (pw : K → K → K) (eps eta : K) (ds : ℕ → SbxDraw K) (xs ys nx ny : ℕ) :
    ℕ → List (K × K) → Heap K → Option (Heap K)
  | _, [], h => some h
  | i, (lb, ub) :: dims, h =>
    if 1 / 2 < (ds i).skip then crossoverLoop pw eps eta ds xs ys nx ny (i + 1) dims h
    else
      match (h xs)[i]?, (h ys)[i]? with
      | some x, some y =>
        if |x - y| ≤ eps then crossoverLoop pw eps eta ds xs ys nx ny (i + 1) dims h
        else
          match sbxValues pw eps eta x y lb ub (ds i).rand with
          | none => none
          | some (a, b) =>
            let h1 := (h.write nx i a).write ny i b
            let h2 := if 1 / 2 < (ds i).swap then (h1.write nx i b).write ny i a else h1
            crossoverLoop pw eps eta ds xs ys nx ny (i + 1) dims h2
      | _, _ => none

/-- Lines 60-61: two fresh copies at the free addresses `next` and `next + 1`. -/
def Heap.copy2 (h : Heap K) (next xs ys : ℕ) : Heap K :=
  fun p => if p = next then h xs else if p = next + 1 then h ys else h p

/-- `crossover`, drivertools.py:58-108: `first` is the draw of line 63, `pick` the outcome of
`random.choice` (lines 64, 108). Returns the heap and the address of the returned list. -/
def crossover (pw : K → K → K) (eps : K) (first : K) (pick : Bool) (ds : ℕ → SbxDraw K)
    (h : Heap K) (next xs ys : ℕ) (dims : List (K × K)) (rate eta : K) :
    Option (Heap K × ℕ) :=
  let h1 := h.copy2 next xs ys
  let out := if pick then next else next + 1
  if rate < first then some (h1, out)
  else
    match crossoverLoop pw eps eta ds xs ys next (next + 1) 0 dims h1 with
    | none => none
    | some h2 => some (h2, out)

/-- `random.uniform(a, b)` of the standard library is `a + (b - a) * u`;
`old_crossover`, drivertools.py:119-120. -/
def oldCrossover (u : ℕ → K) : ℕ → List K → List K → List K
  | i, x :: xs, y :: ys => (x + (y - x) * u i) :: oldCrossover u (i + 1) xs ys
  | _, _, _ => []

/-- `crossover_beta`, drivertools.py:127-135; `bv i` is the value drawn by
`random.betavariate`. -/
def crossoverBeta (bv : ℕ → K) : ℕ → List K → List K → List K
  | i, x :: xs, y :: ys => (bv i * |x - y| + min x y) :: crossoverBeta bv (i + 1) xs ys
  | _, _, _ => []

end Evogil
