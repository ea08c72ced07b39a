import Verif.Model.Rounded
import Verif.Model.HyperVolume

/-!
# The hypervolume with rounding

`algorithms/base/hv.py` for one, two and three objectives, with every result of an operation rounded by the parameter
`fl`. The multi-list is replaced by the lists of its nodes, one for each dimension; `C127_exact` shows that without
rounding this is the value of the model with the multi-list (`Hv.compute`). Simplified: exponents are not bounded from
above, so that the shifted coordinates are above the initial bounds of -1.0e308 (hv.py 68).
-/

namespace Evogil.Rounded

variable {K : Type*} [Field K] [LinearOrder K]

/-- The relevant points, shifted (hv.py 54-65). -/
def relevant (fl : K → K) (ref : List K) (front : List (List K)) : List (List K) :=
  let rel := front.filter fun p => Hv.weaklyDominates p ref
  if ref.any (fun r => !(r == 0)) then rel.map fun p => List.zipWith (fun a b => fl (a - b)) p ref else rel

/-- The nodes in the order of dimension `i` (hv.py 162-164, 167-175): sorted by the coordinates `0`, …, `i` one after
the other. -/
def nodeOrder (c : ℕ → ℕ → K) (nodes : List ℕ) : ℕ → List ℕ
  | 0 => pySorted (c · 0) nodes
  | i + 1 => pySorted (c · (i + 1)) (nodeOrder c nodes i)

/-- The loop of the two dimensional case and the final addition (hv.py 92-99), for the nodes from `q` on. -/
def sweepLoop (fl : K → K) (c : ℕ → ℕ → K) : List ℕ → K → K → K
  | [], _, hvol => hvol
  | [q], h, hvol => fl (hvol + fl (h * c q 1))
  | q :: p :: rest, h, hvol =>
    sweepLoop fl c (p :: rest) (if c p 0 < h then c p 0 else h) (fl (hvol + fl (h * fl (c q 1 - c p 1))))

/-- `hvRecursive(1, …)` (hv.py 79-80, 87-99) for the nodes present, in the order of dimension 1. -/
def sweep (fl : K → K) (c : ℕ → ℕ → K) : List ℕ → K
  | [] => 0
  | q :: rest => sweepLoop fl c (q :: rest) (c q 0) 0

/-- The areas and the sum of `hvRecursive(2, …)` (hv.py 132-155) from the node `q` on: `before` are the nodes that are
back in the lists already, `byOne` are all nodes in the order of dimension 1. -/
def sliceLoop (fl : K → K) (c : ℕ → ℕ → K) (byOne before : List ℕ) : ℕ → List ℕ → K → K
  | q, [], hvol =>
    fl (hvol - fl (sweep fl c (byOne.filter fun x => decide (x ∈ before ++ [q])) * c q 2))
  | q, p :: rest, hvol =>
    sliceLoop fl c byOne (before ++ [q]) p rest
      (fl (hvol + fl (sweep fl c (byOne.filter fun x => decide (x ∈ before ++ [q])) * fl (c p 2 - c q 2))))

/-- `hvRecursive(2, …)` (hv.py 100-156) on the whole list: the removal loop (lines 112-119) takes out all nodes but the
first one. -/
def slices (fl : K → K) (c : ℕ → ℕ → K) (byOne : List ℕ) : List ℕ → K
  | [] => 0
  | q :: rest => sliceLoop fl c byOne [] q rest 0

/-- `hvRecursive(D - 1, …)` (hv.py 72-156) on fresh lists of the given nodes with coordinates `c`, for `D` at most 3;
`none` is not an exception but stands for more. -/
def value (fl : K → K) (c : ℕ → ℕ → K) (nodes : List ℕ) : ℕ → Option K
  | 1 => some (match nodeOrder c nodes 0 with
    | [] => 0
    | q :: _ => -c q 0)
  | 2 => some (sweep fl c (nodeOrder c nodes 1))
  | 3 => some (slices fl c (nodeOrder c nodes 1) (nodeOrder c nodes 2))
  | _ => none

/-- `HyperVolume.compute` (hv.py 37-70) for at most three objectives. -/
def hypervolume (fl : K → K) (ref : List K) (front : List (List K)) : Option K :=
  let pts := relevant fl ref front
  value fl (Hv.cargo pts) ((List.range pts.length).map (· + 1)) ref.length

/-- `hypervolume`, metrics.py:55-61: the reference point has as many coordinates 50 as the first point of `pareto`, and
`pareto[0]` raises an exception if there is none. The value of `hypervolume` is `none` for more than three objectives
too. -/
def metricHypervolume (fl : K → K) (_solution notDominated pareto : List (List K)) : Option K :=
  match pareto with
  | [] => none
  | p :: _ => hypervolume fl (List.replicate p.length 50) notDominated

end Evogil.Rounded
