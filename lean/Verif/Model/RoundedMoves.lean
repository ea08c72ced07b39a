import Verif.Model.Rounded

/-!
# The moves of OMOPSO, NSLS and NSGA-III with rounding

`compute_speed` and `move` of `algorithms/OMOPSO/OMOPSO.py`, the trial vectors of `algorithms/NSLS/NSLS.py`, and
the variation, the reference points and the normalization of `algorithms/NSGAIII/NSGAIII.py`, with every result
of an operation rounded by the parameter `fl`. Simplified: exponents are not bounded from above.
-/

namespace Evogil.Rounded

variable {K : Type*} [Field K] [LinearOrder K] [IsStrictOrderedRing K] [FloorRing K]

/-! ## OMOPSO -/

/-- What is drawn for a particle, OMOPSO.py:140-150: the coefficients, and which of the positions visited so
far are its personal best and its leader (both are copies of earlier positions, OMOPSO.py:53-55, 104-114). -/
structure Turn (K : Type*) where
  w : K
  c1 : K
  r1 : K
  c2 : K
  r2 : K
  best : ℕ
  leader : ℕ

/-- One coordinate of `compute_speed`, OMOPSO.py:153-157. -/
def speedCoord (fl : K → K) (t : Turn K) (speed x best leader : K) : K :=
  fl (fl (fl (t.w * speed) + fl (fl (t.c1 * t.r1) * fl (best - x))) +
    fl (fl (t.c2 * t.r2) * fl (leader - x)))

/-- One coordinate of `move`, OMOPSO.py:129-136. -/
def moveCoord (fl : K → K) (x speed lo hi : K) : K × K :=
  let newX := fl (x + speed)
  let bounded := min (max newX lo) hi
  (bounded, if bounded ≠ newX then fl (speed * (-1)) else speed)

/-- `compute_speed` and `move` for one particle, OMOPSO.py:126-157: position and speed. Doing both for one
particle after the other is no simplification, since `move` changes only positions and speeds, and the speeds
are computed from copies (lines 53-55, 104-114). Too short a vector raises an `IndexError`. -/
def fly (fl : K → K) (t : Turn K) : List K → List K → List K → List K → List (K × K) →
    Except Fault (List K × List K)
  | xs, ss, _, _, [] => .ok (xs, ss)
  | x :: xs, s :: ss, b :: bs, g :: gs, (lo, hi) :: dims => do
    let r ← fly fl t xs ss bs gs dims
    let m := moveCoord fl x (speedCoord fl t s x b g) lo hi
    pure (m.1 :: r.1, m.2 :: r.2)
  | _, _, _, _, _ :: _ => .error .index

/-- The particles (position, speed) after one step of the driver, OMOPSO.py:73-86; `visited` are all positions
so far. `mopso_mutation` changes nothing (its calls of `map` are never consumed, OMOPSO.py:165, 174). -/
def flyAll (fl : K → K) (trim : List K → List K) (dims : List (K × K)) (visited : List (List K)) :
    List (List K × List K) → List (Turn K) → Except Fault (List (List K × List K))
  | [], _ => .ok []
  | _ :: _, [] => .error .index
  | p :: ps, t :: ts =>
    match visited[t.best]?, visited[t.leader]? with
    | some b, some g => do
      let q ← fly fl t p.1 p.2 b g dims
      let qs ← flyAll fl trim dims visited ps ts
      pure ((trim q.1, q.2) :: qs)
    | _, _ => .error .index

/-- Several steps: the particles and the positions visited, one list of turns per step. -/
def flight (fl : K → K) (trim : List K → List K) (dims : List (K × K)) :
    List (List (Turn K)) → List (List K × List K) → List (List K) →
    Except Fault (List (List K × List K) × List (List K))
  | [], ps, visited => .ok (ps, visited)
  | ts :: rest, ps, visited => do
    let qs ← flyAll fl trim dims visited ps ts
    flight fl trim dims rest qs (visited ++ qs.map Prod.fst)

/-- `Individual.reset_speed`, OMOPSO.py:260-261: the initial speeds are 0. -/
def atRest (xs : List K) : List K × List K := (xs, xs.map fun _ => 0)

/-- The whole life of a swarm, OMOPSO.py:30, 73-86. -/
def swarm (fl : K → K) (trim : List K → List K) (dims : List (K × K)) (turns : List (List (Turn K)))
    (pop : List (List K)) : Except Fault (List (List K × List K) × List (List K)) :=
  flight fl trim dims turns ((pop.map trim).map atRest) (pop.map trim)

/-! ## NSLS -/

/-- The vector of a trial individual, NSLS.py:92-105; `c` is the draw of line 90, `sign` is 1 for `w_plus` and
-1 for `w_minus`. -/
def trialVector (fl : K → K) (dims : List (K × K)) (trim : List K → List K) (x u v : List K) (k : ℕ)
    (c sign : K) : Except Fault (List K) :=
  match x[k]?, dims[k]?, u[k]?, v[k]? with
  | some xk, some d, some uk, some vk =>
    let w := trim (x.set k (fl (xk + sign * fl (c * fl (uk - vk)))))
    match w[k]? with
    | some wk => if wk < d.1 ∨ d.2 < wk then .ok (w.set k xk) else .ok w
    | none => .error .index
  | _, _, _, _ => .error .index

/-! ## NSGA-III -/

/-- The vectors of the children of `simulated_binary_crossover`, NSGAIII.py:389-434: copies of those of the
parents, or the result of a loop that is the one of drivertools.py:66-106 word for word. -/
def simulatedBinaryCrossover (fl : K → K) (pw : K → K → K) (eps rate eta first : K) (ds : ℕ → SbxDraw K)
    (xs ys : List K) (dims : List (K × K)) : Except Fault (List K × List K) :=
  if rate < first then .ok (xs, ys) else crossoverLoop fl pw eps eta ds xs ys dims

/-- The vector after `polynomial_mutation`, NSGAIII.py:445-473, whose loop is the one of drivertools.py:11-44
word for word. -/
def polynomialMutation (fl : K → K) (pw : K → K → K) (eps rate eta : K) (ds : ℕ → MutDraw K) (xs : List K)
    (dims : List (K × K)) : Except Fault (List K) :=
  mutate fl pw eps rate eta ds xs dims

/-- The loop of `generate_reference_point`, NSGAIII.py:358-369, from index `i` with `rest` turns to go; `rand i`
is the first draw different from zero of lines 360-362. -/
def refLoop (fl : K → K) (pw : K → K → K) (rand : ℕ → K) (n : ℕ) : ℕ → ℕ → K → List K
  | 0, _, _ => []
  | rest + 1, i, coordSum =>
    if i < n then
      let coordinate := fl (fl (1 - coordSum) * fl (1 - pw (rand i) (fl (1 / ((n - i : ℕ) : K)))))
      coordinate :: refLoop fl pw rand n rest (i + 1) (fl (coordSum + coordinate))
    else
      fl (1 - coordSum) :: refLoop fl pw rand n rest (i + 1) coordSum

/-- `generate_reference_point(objective_no)`, NSGAIII.py:355-370. -/
def refPoint (fl : K → K) (pw : K → K → K) (rand : ℕ → K) (n : ℕ) : List K := refLoop fl pw rand n n 1 0

/-- One normalized objective, NSGAIII.py:250-251, between the best and the worst value seen. -/
def normalizeValue (fl : K → K) (eps ideal defiled obj : K) : Except Fault K :=
  div fl (fl (obj - ideal)) (fl (fl (defiled - ideal) + eps))

end Evogil.Rounded
