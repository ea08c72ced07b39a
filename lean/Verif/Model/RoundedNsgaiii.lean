import Verif.Model.Nsgaiii

/-!
# Reference points, normalization and clusters of NSGA-III with rounding (`algorithms/NSGAIII/NSGAIII.py`)

As `Verif.Model.Nsgaiii`, with `fl` applied after every operation. `pw` is `math.pow`, `dot` is `numpy.dot` and `norm` is
`numpy.linalg.norm`; the order in which these two add is left to numpy.
-/

namespace Evogil.Rounded.Nsgaiii

open Evogil.Nsgaiii (Conf clusterOf defiledPoint)

variable {K : Type*} [Field K] [LinearOrder K]

/-- The loop of `generate_reference_point`, NSGAIII.py:358-369, from index `i` with `rest` turns
to go; `rand i` is the first draw different from zero of lines 360-362. -/
def refLoop (fl : K → K) (pw : K → K → K) (rand : ℕ → K) (n : ℕ) : ℕ → ℕ → K → List K
  | 0, _, _ => []
  | rest + 1, i, coordSum =>
    if i < n then
      let coordinate := fl (fl (1 - coordSum) * fl (1 - pw (rand i) (fl (1 / ((n - i : ℕ) : K)))))
      coordinate :: refLoop fl pw rand n rest (i + 1) (fl (coordSum + coordinate))
    else
      fl (1 - coordSum) :: refLoop fl pw rand n rest (i + 1) coordSum

/-- `generate_reference_point(objective_no)`, NSGAIII.py:355-370. -/
def refPoint (fl : K → K) (pw : K → K → K) (rand : ℕ → K) (n : ℕ) : List K := refLoop fl pw rand n n 1 0

/-- Lines 250-251; the infinite bounds only occur when nobody was evaluated and are then irrelevant. -/
def normalizeValue (fl : K → K) (eps : K) (ideal : WithTop K) (defiled : WithBot K) (obj : K) : K :=
  fl (fl (obj - ideal.untopD 0) / fl (fl (defiled.unbotD 0 - ideal.untopD 0) + eps))

/-- Lines 248-254. -/
def normalizeOne (fl : K → K) (eps : K) (ideal : List (WithTop K)) (defiled : List (WithBot K)) (obj : List K) : List K :=
  List.zipWith (fun b o => normalizeValue fl eps b.1 b.2 o) (List.zip ideal defiled) obj

/-- `scalar_projection`, NSGAIII.py:373-376, with the length computed at lines 50-52. -/
def projection (fl : K → K) (dot : List K → List K → K) (norm : List K → K) (nobj ref : List K) : K :=
  fl (dot nobj ref / norm ref)

/-- `scalar_rejection`, NSGAIII.py:379-386. -/
def rejection (fl : K → K) (dot : List K → List K → K) (norm : List K → K) (nobj ref : List K) : K :=
  let t := fl (projection fl dot norm nobj ref / norm ref)
  norm (List.zipWith (fun x y => fl (x - fl (t * y))) nobj ref)

/-- `calculate_theta_fitness`, NSGAIII.py:275-280: for cluster `i` and the stored rejection. -/
def thetaFitness (fl : K → K) (dot : List K → List K → K) (norm : List K → K) (theta : K) (nobj ref : List K) (rej : K) :
    K :=
  fl (projection fl dot norm nobj ref + fl (theta * rej))

/-- Lines 135-176: cluster and theta fitness of every individual from its objectives. -/
def scores (fl : K → K) (dot : List K → List K → K) (norm : List K → K) (eps : K) (cf : Conf K)
    (ideal : List (WithTop K)) (objs : List (List K)) : List (ℕ × K) :=
  let defiled := defiledPoint cf.m objs
  objs.map fun o =>
    let nobj := normalizeOne fl eps ideal defiled o
    let c := clusterOf (cf.refs.map fun r => rejection fl dot norm nobj r)
    let i := c.2.getD 0
    (i, thetaFitness fl dot norm cf.theta nobj (cf.refs.getD i []) (c.1.untopD 0))

end Evogil.Rounded.Nsgaiii
