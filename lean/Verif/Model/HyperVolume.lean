import Verif.Prelude
import Verif.Model.PySorted
import Mathlib.Algebra.Order.Ring.Defs
import Mathlib.Logic.Function.Basic

/-! # The hypervolume routine (`algorithms/base/hv.py`)

The linked multi-list is modelled at pointer level.  Node 0 is the sentinel, node `k + 1` is the
`k`-th relevant point.  `c x i` is coordinate `i` of the point of node `x` (`node.cargo[i]`); the
value for the sentinel is never used.  Attributes of the nodes are functions `dimension → node →
value`.  Python's floats are replaced by an ordered ring. -/

namespace Evogil.Hv

/-- The mutable data: the attributes `next`, `prev`, `ignore`, `area`, `volume` of all nodes
(hv.py 186-193) and the list `bounds` (hv.py 68). -/
structure St (K : Type*) where
  /-- `node.next[i]` as `next i node` (hv.py 189) -/
  next : ℕ → ℕ → ℕ
  /-- `node.prev[i]` as `prev i node` (hv.py 190) -/
  prev : ℕ → ℕ → ℕ
  /-- `node.ignore` (hv.py 191) -/
  ignore : ℕ → ℕ
  /-- `node.area[i]` as `area i node` (hv.py 192) -/
  area : ℕ → ℕ → K
  /-- `node.volume[i]` as `volume i node` (hv.py 193) -/
  volume : ℕ → ℕ → K
  /-- `bounds[i]` (hv.py 68) -/
  bounds : ℕ → K

/-- The assignment `node.attr[i] = v` (hv.py, used throughout). -/
def set2 {α : Type*} (f : ℕ → ℕ → α) (i x : ℕ) (v : α) : ℕ → ℕ → α :=
  Function.update f i (Function.update (f i) x v)

variable {K : Type*} [CommRing K] [LinearOrder K]

/-- One iteration of the loop of `MultiList.remove` (hv.py 262-268). -/
def removeAt (c : ℕ → ℕ → K) (x : ℕ) (s : St K) (i : ℕ) : St K :=
  let predecessor := s.prev i x
  let successor := s.next i x
  { s with
    next := set2 s.next i predecessor successor
    prev := set2 s.prev i successor predecessor
    bounds := if s.bounds i > c x i then Function.update s.bounds i (c x i) else s.bounds }

/-- `MultiList.remove` (hv.py 260-269). -/
def remove (c : ℕ → ℕ → K) (x index : ℕ) (s : St K) : St K :=
  (List.range index).foldl (removeAt c x) s

/-- One iteration of the loop of `MultiList.reinsert` (hv.py 278-282); the second assignment reads
`node.next[i]` after the first one. -/
def reinsertAt (c : ℕ → ℕ → K) (x : ℕ) (s : St K) (i : ℕ) : St K :=
  let next' := set2 s.next i (s.prev i x) x
  let prev' := set2 s.prev i (next' i x) x
  { s with
    next := next'
    prev := prev'
    bounds := if s.bounds i > c x i then Function.update s.bounds i (c x i) else s.bounds }

/-- `MultiList.reinsert` (hv.py 271-282). -/
def reinsert (c : ℕ → ℕ → K) (x index : ℕ) (s : St K) : St K :=
  (List.range index).foldl (reinsertAt c x) s

/-- The loop of the two dimensional case (hv.py 92-98) with the final addition (line 99). -/
def sweep (c : ℕ → ℕ → K) (s : St K) : ℕ → ℕ → ℕ → K → K → Option K
  | 0, _, _, _, _ => none
  | fuel + 1, q, p, h, hvol =>
    if p = 0 then some (hvol + h * c q 1)
    else
      let hvol' := hvol + h * (c q 1 - c p 1)
      let h' := if c p 0 < h then c p 0 else h
      sweep c s fuel p (s.next 1 p) h' hvol'

/-- The loop that clears outdated marks (hv.py 107-110). -/
def resetLoop (d : ℕ) : ℕ → ℕ → St K → Option (St K)
  | 0, _, _ => none
  | fuel + 1, q, s =>
    if q = 0 then some s
    else
      let s' : St K := if s.ignore q < d then { s with ignore := Function.update s.ignore q 0 }
        else s
      resetLoop d fuel (s'.prev d q) s'

/-- The removal loop (hv.py 112-119); gives the new `length`, `p`, `q` and state. -/
def removeLoop (c : ℕ → ℕ → K) (d : ℕ) : ℕ → ℕ → ℕ → St K → ℕ × ℕ × ℕ × St K
  | 0, p, q, s => (0, p, q, s)
  | length + 1, p, q, s =>
    if 1 < length + 1 ∧ (c q d > s.bounds d ∨ c (s.prev d q) d ≥ s.bounds d) then
      let s' := remove c q d s
      removeLoop c d length q (s'.prev d q) s'
    else (length + 1, p, q, s)

/-- The assignments made when only one point is left (hv.py 128-131). -/
def singleArea (c : ℕ → ℕ → K) (d q : ℕ) (s : St K) : St K :=
  let area0 := set2 s.area 0 q 1
  { s with
    area := fun i x =>
      if x = q ∧ 1 ≤ i ∧ i ≤ d then area0 (i - 1) q * -(c q (i - 1)) else area0 i x }

/-- Storing the volume and determining the area of node `q` (hv.py 132-138 and 147-153); `rec` is
the recursive call for the lower dimension. -/
def areaStep (rec : ℕ → St K → Option (K × St K)) (d q length : ℕ) (hvol : K) (s : St K) :
    Option (St K) :=
  let s1 : St K := { s with volume := set2 s.volume d q hvol }
  if s1.ignore q ≥ d then
    some { s1 with area := set2 s1.area d q (s1.area d (s1.prev d q)) }
  else
    match rec length s1 with
    | none => none
    | some (a, s2) =>
      let s3 : St K := { s2 with area := set2 s2.area d q a }
      some (if s3.area d q ≤ s3.area d (s3.prev d q) then
        { s3 with ignore := Function.update s3.ignore q d } else s3)

/-- The reinsertion loop (hv.py 139-153) with the final subtraction (line 154). -/
def reinsertLoop (c : ℕ → ℕ → K) (rec : ℕ → St K → Option (K × St K)) (d : ℕ) :
    ℕ → ℕ → ℕ → ℕ → K → St K → Option (K × St K)
  | 0, _, _, _, _, _ => none
  | fuel + 1, p, q, length, hvol, s =>
    if p = 0 then some (hvol - s.area d q * c q d, s)
    else
      let hvol' := hvol + s.area d q * (c p d - c q d)
      let s1 : St K := { s with bounds := Function.update s.bounds d (c p d) }
      let s2 := reinsert c p d s1
      let p' := s2.next d p
      match areaStep rec d p (length + 1) hvol' s2 with
      | none => none
      | some s3 => reinsertLoop c rec d fuel p' p (length + 1) hvol' s3

/-- The general case of `hvRecursive` (hv.py 105-155). -/
def general (c : ℕ → ℕ → K) (rec : ℕ → St K → Option (K × St K)) (fuel d length : ℕ) (s : St K) :
    Option (K × St K) :=
  match resetLoop d fuel (s.prev d 0) s with
  | none => none
  | some s1 =>
    match removeLoop c d length 0 (s1.prev d 0) s1 with
    | (length', p, q, s2) =>
      let qp := s2.prev d q
      let hvol := if length' > 1 then s2.volume d qp + s2.area d qp * (c q d - c qp d) else 0
      let s3 := if length' > 1 then s2 else singleArea c d q s2
      match areaStep rec d q length' hvol s3 with
      | none => none
      | some s4 => reinsertLoop c rec d fuel p q length' hvol s4

/-- `HyperVolume.hvRecursive` (hv.py 72-155).  `none` = a loop did not end within `fuel` steps. -/
def hvRec (c : ℕ → ℕ → K) (fuel : ℕ) : ℕ → ℕ → St K → Option (K × St K)
  | 0, length, s => if length = 0 then some (0, s) else some (-(c (s.next 0 0) 0), s)
  | 1, length, s =>
    if length = 0 then some (0, s)
    else
      let q := s.next 1 0
      match sweep c s fuel q (s.next 1 q) (c q 0) 0 with
      | none => none
      | some v => some (v, s)
  | d + 2, length, s =>
    if length = 0 then some (0, s)
    else general c (hvRec c fuel (d + 1)) fuel (d + 2) length s

/-- One iteration of the loop of `MultiList.extend` (hv.py 253-258). -/
def appendNode (i : ℕ) (s : St K) (x : ℕ) : St K :=
  let lastButOne := s.prev i 0
  let next1 := set2 s.next i x 0
  let prev1 := set2 s.prev i x lastButOne
  { s with next := set2 next1 i lastButOne x, prev := set2 prev1 i 0 x }

/-- `MultiList.extend` (hv.py 249-258). -/
def extend (nodes : List ℕ) (i : ℕ) (s : St K) : St K := nodes.foldl (appendNode i) s

/-- `HyperVolume.sortByDimension` (hv.py 167-175): the pairs are sorted by the coordinate, nodes
compare as equal (line 198), so that the sort is stable. -/
def sortByDimension (c : ℕ → ℕ → K) (nodes : List ℕ) (i : ℕ) : List ℕ := pySorted (c · i) nodes

/-- The loop of `HyperVolume.preProcess` (hv.py 162-164). -/
def preLoop (c : ℕ → ℕ → K) : List ℕ → List ℕ × St K → List ℕ × St K
  | [], r => r
  | i :: is, (nodes, s) =>
    let nodes' := sortByDimension c nodes i
    preLoop c is (nodes', extend nodes' i s)

/-- The state of a fresh multi-list (hv.py 186-193, 207-210) together with the initial `bounds`
(hv.py 68, the number -1.0e308 is the parameter `lowest`).  The `None` pointers of nodes not yet
linked are modelled by 0; they are not read. -/
def initial (lowest : K) : St K :=
  { next := fun _ _ => 0, prev := fun _ _ => 0, ignore := fun _ => 0, area := fun _ _ => 0,
    volume := fun _ _ => 0, bounds := fun _ => lowest }

/-- `HyperVolume.preProcess` (hv.py 157-165) for `n` points in `dims` dimensions. -/
def preProcess (c : ℕ → ℕ → K) (lowest : K) (dims n : ℕ) : St K :=
  (preLoop c (List.range dims) ((List.range n).map (· + 1), initial lowest)).2

/-- `weaklyDominates` (hv.py 45-49), for points with as many coordinates as the reference point. -/
def weaklyDominates (point other : List K) : Bool := (point.zip other).all fun ab => !(ab.1 > ab.2)

/-- The relevant points, shifted (hv.py 54-65); the shift by a zero reference point, which the code
skips, does nothing. -/
def relevant (ref : List K) (front : List (List K)) : List (List K) :=
  let rel := front.filter fun p => weaklyDominates p ref
  if ref.any (fun r => !(r == 0)) then rel.map fun p => List.zipWith (· - ·) p ref else rel

/-- The coordinates of the nodes (`MultiList.Node(dimensions, point)`, hv.py 161 and 188). -/
def cargo (points : List (List K)) (x i : ℕ) : K := (points.getD (x - 1) []).getD i 0

/-- `HyperVolume.compute` (hv.py 37-70).  The loops get a fuel of the number of points plus one,
which suffices (`Hv.hvRec_spec`). -/
def compute (lowest : K) (ref : List K) (front : List (List K)) : Option K :=
  let pts := relevant ref front
  let c := cargo pts
  (hvRec c (pts.length + 1) (ref.length - 1) pts.length
    (preProcess c lowest ref.length pts.length)).map Prod.fst

end Evogil.Hv
