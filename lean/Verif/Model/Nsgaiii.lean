import Verif.Model.FrontFill
import Verif.Model.NdSort
import Verif.Model.Variation
import Mathlib.Order.WithBot

/-!
# Model of NSGA-III (`algorithms/NSGAIII/NSGAIII.py`)

Numbers are elements of an ordered field `K`; powers (`pw`) and square roots (`sq`) are parameters,
every draw is a parameter. `none` means that the Python code raises (or that `fuel` was too small,
where a function has that argument).
-/

namespace Evogil.Nsgaiii

variable {K : Type*} [Field K] [LinearOrder K]

/-- NSGAIII.py:313-316. -/
structure Ind (K : Type*) where
  v : List K
  objectives : Option (List K)

/-! ## Reference points -/

/-- The loop of `generate_reference_point`, NSGAIII.py:358-369, from index `i` with `rest` turns
to go; `rand i` is the first draw different from zero of lines 360-362. -/
def refLoop (pw : K → K → K) (rand : ℕ → K) (n : ℕ) : ℕ → ℕ → K → List K
  | 0, _, _ => []
  | rest + 1, i, coordSum =>
    if i < n then
      let coordinate := (1 - coordSum) * (1 - pw (rand i) (1 / ((n - i : ℕ) : K)))
      coordinate :: refLoop pw rand n rest (i + 1) (coordSum + coordinate)
    else
      (1 - coordSum) :: refLoop pw rand n rest (i + 1) coordSum

/-- `generate_reference_point(objective_no)`, NSGAIII.py:355-370. -/
def refPoint (pw : K → K → K) (rand : ℕ → K) (n : ℕ) : List K := refLoop pw rand n n 1 0

/-! ## Ideal point and normalization -/

/-- The loop body of `update_ideal_point`, NSGAIII.py:110-112, for an individual with as many
objectives as the ideal point has coordinates. -/
def updateIdealOne (ideal : List (WithTop K)) (obj : List K) : List (WithTop K) :=
  List.zipWith (fun (i : WithTop K) (o : K) =>
    if (o : WithTop K) < i then (o : WithTop K) else i) ideal obj

/-- `update_ideal_point`, NSGAIII.py:107-112, on the objectives of the individuals. -/
def updateIdeal (ideal : List (WithTop K)) (objs : List (List K)) : List (WithTop K) :=
  objs.foldl updateIdealOne ideal

/-- Line 62. -/
def initialIdeal (m : ℕ) : List (WithTop K) := List.replicate m ⊤

/-- Lines 239-241, one individual. -/
def updateDefiledOne (defiled : List (WithBot K)) (obj : List K) : List (WithBot K) :=
  List.zipWith (fun (d : WithBot K) (o : K) =>
    if d < (o : WithBot K) then (o : WithBot K) else d) defiled obj

/-- Lines 237-241. -/
def defiledPoint (m : ℕ) (objs : List (List K)) : List (WithBot K) :=
  objs.foldl updateDefiledOne (List.replicate m ⊥)

/-- Lines 250-251; the infinite bounds only occur when nobody was evaluated and are then
irrelevant. -/
def normalizeValue (eps : K) (ideal : WithTop K) (defiled : WithBot K) (obj : K) : K :=
  (obj - ideal.untopD 0) / (defiled.unbotD 0 - ideal.untopD 0 + eps)

/-- Lines 248-254. -/
def normalizeOne (eps : K) (ideal : List (WithTop K)) (defiled : List (WithBot K))
    (obj : List K) : List K :=
  List.zipWith (fun b o => normalizeValue eps b.1 b.2 o) (List.zip ideal defiled) obj

/-! ## Clustering -/

/-- `numpy.dot` -/
def dot (a b : List K) : K := (List.zipWith (· * ·) a b).sum

/-- `numpy.linalg.norm` -/
def norm (sq : K → K) (a : List K) : K := sq (dot a a)

/-- `a - t * b` on arrays. -/
def subMul (a : List K) (t : K) (b : List K) : List K := List.zipWith (fun x y => x - t * y) a b

/-- `scalar_projection`, NSGAIII.py:373-376, with the length computed at lines 50-52. -/
def projection (sq : K → K) (nobj ref : List K) : K := dot nobj ref / norm sq ref

/-- `scalar_rejection`, NSGAIII.py:379-386. -/
def rejection (sq : K → K) (nobj ref : List K) : K :=
  norm sq (subMul nobj (projection sq nobj ref / norm sq ref) ref)

/-- Lines 261-267: one turn of the inner loop, state `(min_rejection, min_i)`; `none` is -1. -/
def clusterStep (st : WithTop K × Option ℕ) (p : K × ℕ) : WithTop K × Option ℕ :=
  if (p.1 : WithTop K) < st.1 then ((p.1 : WithTop K), some p.2) else st

/-- `clustering`, NSGAIII.py:259-270, for one individual given its rejections from the reference
points in order. -/
def clusterOf (rejections : List K) : WithTop K × Option ℕ :=
  rejections.zipIdx.foldl clusterStep (⊤, none)

/-- `calculate_theta_fitness`, NSGAIII.py:275-280: for cluster `i` and the stored rejection. -/
def thetaFitness (sq : K → K) (theta : K) (nobj ref : List K) (rej : K) : K :=
  projection sq nobj ref + theta * rej

/-! ## Variation -/

/-- The loop of `simulated_binary_crossover`, NSGAIII.py:398-432; `ca`, `cb` are the vectors of
the children. -/
def sbxLoop (pw : K → K → K) (eps eta : K) (ds : ℕ → SbxDraw K) (a b : List K) :
    ℕ → List (K × K) → List K → List K → Option (List K × List K)
  | _, [], ca, cb => some (ca, cb)
  | i, d :: dims, ca, cb =>
    if 1 / 2 < (ds i).skip then sbxLoop pw eps eta ds a b (i + 1) dims ca cb
    else
      match a[i]?, b[i]? with
      | some x, some y =>
        if |x - y| ≤ eps then sbxLoop pw eps eta ds a b (i + 1) dims ca cb
        else
          match sbxValues pw eps eta x y d.1 d.2 (ds i).rand with
          | none => none
          | some (p, q) =>
            if 1 / 2 < (ds i).swap then
              sbxLoop pw eps eta ds a b (i + 1) dims (ca.set i q) (cb.set i p)
            else sbxLoop pw eps eta ds a b (i + 1) dims (ca.set i p) (cb.set i q)
      | _, _ => none

/-- `simulated_binary_crossover`, NSGAIII.py:389-434; `first` is the draw of line 393. Copying
the objectives of a parent that has none raises (lines 394-395). -/
def sbx (pw : K → K → K) (eps eta rate first : K) (ds : ℕ → SbxDraw K) (dims : List (K × K))
    (a b : Ind K) : Option (Ind K × Ind K) :=
  if rate < first then
    match a.objectives, b.objectives with
    | some oa, some ob => some (⟨a.v, some oa⟩, ⟨b.v, some ob⟩)
    | _, _ => none
  else
    match sbxLoop pw eps eta ds a.v b.v 0 dims a.v b.v with
    | none => none
    | some (ca, cb) => some (⟨ca, none⟩, ⟨cb, none⟩)

/-- The loop of `polynomial_mutation`, NSGAIII.py:446-473. -/
def mutLoop (pw : K → K → K) (eps rate eta : K) (ds : ℕ → MutDraw K) :
    ℕ → List (K × K) → Ind K → Option (Ind K)
  | _, [], ind => some ind
  | i, d :: dims, ind =>
    if rate < (ds i).select then mutLoop pw eps rate eta ds (i + 1) dims ind
    else
      match ind.v[i]? with
      | none => none
      | some y =>
        match mutatedValue pw eps eta y d.1 d.2 (ds i).rnd with
        | none => none
        | some w => mutLoop pw eps rate eta ds (i + 1) dims ⟨ind.v.set i w, none⟩

/-- `polynomial_mutation`, NSGAIII.py:445-473. -/
def polyMutation (pw : K → K → K) (eps rate eta : K) (ds : ℕ → MutDraw K) (dims : List (K × K))
    (ind : Ind K) : Option (Ind K) :=
  mutLoop pw eps rate eta ds 0 dims ind

/-- Constructor arguments that do not change, NSGAIII.py:16-52. -/
structure Conf (K : Type*) where
  dims : List (K × K)
  etaC : K
  etaM : K
  rateC : K
  rateM : K
  theta : K
  trim : List K → List K
  refs : List (List K)
  /-- number of objectives -/
  m : ℕ

/-- The draws for one pair of children, lines 211-231. -/
structure PairDraw (K : Type*) where
  pa : ℕ
  pb : ℕ
  first : K
  cross : ℕ → SbxDraw K
  mutA : ℕ → MutDraw K
  mutB : ℕ → MutDraw K

/-- One turn of the loop of `make_offspring_individuals`, NSGAIII.py:211-233. -/
def makePair (pw : K → K → K) (eps : K) (cf : Conf K) (inds : List (Ind K)) (d : PairDraw K) :
    Option (List (Ind K)) :=
  match inds[d.pa]?, inds[d.pb]? with
  | some a, some b =>
    match sbx pw eps cf.etaC cf.rateC d.first d.cross cf.dims a b with
    | none => none
    | some (ca, cb) =>
      match polyMutation pw eps cf.rateM cf.etaM d.mutA cf.dims ca,
        polyMutation pw eps cf.rateM cf.etaM d.mutB cf.dims cb with
      | some x, some y => some [x, y]
      | _, _ => none
  | _, _ => none

/-- `make_offspring_individuals`, NSGAIII.py:208-234, from turn `j` on. -/
def makeOffspring (pw : K → K → K) (eps : K) (cf : Conf K) (ds : ℕ → PairDraw K)
    (inds : List (Ind K)) : ℕ → ℕ → Option (List (Ind K))
  | 0, _ => some []
  | rest + 1, j =>
    match makePair pw eps cf inds (ds j), makeOffspring pw eps cf ds inds rest (j + 1) with
    | some p, some q => some (p ++ q)
    | _, _ => none

/-- `_calculate_objectives`, NSGAIII.py:94-105, without a fitness archive (an archive returns what
was computed for the vector before); `f` is the list of objective functions. -/
def evaluate (f : List K → List K) (ind : Ind K) : Ind K :=
  match ind.objectives with
  | none => ⟨ind.v, some (f ind.v)⟩
  | some _ => ind

/-! ## The step -/

/-- Driver state: individuals, population size, ideal point. -/
structure State (K : Type*) where
  inds : List (Ind K)
  size : ℕ
  ideal : List (WithTop K)

/-- The population setter, NSGAIII.py:84-92. -/
def setPopulation (st : State K) (pop : List (List K)) : State K :=
  { st with inds := pop.map fun v => ⟨v, none⟩, size := pop.length }

/-- The part of the constructor that fills the state, NSGAIII.py:48-63. -/
def init (f : List K → List K) (cf : Conf K) (pop : List (List K)) : State K :=
  let inds := pop.map fun v => evaluate f ⟨cf.trim v, none⟩
  { inds := inds, size := pop.length,
    ideal := updateIdeal (initialIdeal cf.m) (inds.filterMap Ind.objectives) }

/-- All objectives, or `none` if somebody has not been evaluated (iterating over `None` raises
`TypeError`, line 239). -/
def allObjectives : List (Ind K) → Option (List (List K))
  | [] => some []
  | x :: l =>
    match x.objectives, allObjectives l with
    | some o, some os => some (o :: os)
    | _, _ => none

/-- Lines 135-176: cluster and theta fitness of every individual from its objectives. -/
def scores (sq : K → K) (eps : K) (cf : Conf K) (ideal : List (WithTop K))
    (objs : List (List K)) : List (ℕ × K) :=
  let defiled := defiledPoint cf.m objs
  objs.map fun o =>
    let nobj := normalizeOne eps ideal defiled o
    let c := clusterOf (cf.refs.map fun r => rejection sq nobj r)
    let i := c.2.getD 0
    (i, thetaFitness sq cf.theta nobj (cf.refs.getD i []) (c.1.untopD 0))

/-- Lines 177 and 283-290 on positions: sort, take whole fronts, sample from the next. -/
def selectIdx (iter : List ℕ → List ℕ) (sample : List ℕ → ℕ → List ℕ) (fuel size : ℕ)
    (sc : List (ℕ × K)) : Option (List ℕ) :=
  match ndSort iter (thetaDom (fun i => (sc.getD i (0, 0)).1) (fun i => (sc.getD i (0, 0)).2))
      fuel (List.range sc.length) with
  | none => none
  | some L =>
    match fillFronts size fuel [] L with
    | none => none
    | some (acc, last) => some (acc ++ sample last (size - acc.length))

/-- `step`, NSGAIII.py:117-206. -/
def step (pw : K → K → K) (sq : K → K) (eps : K) (f : List K → List K) (cf : Conf K)
    (ds : ℕ → PairDraw K) (iter : List ℕ → List ℕ) (sample : List ℕ → ℕ → List ℕ) (fuel : ℕ)
    (st : State K) : Option (State K) :=
  match makeOffspring pw eps cf ds st.inds (st.size / 2) 0 with
  | none => none
  | some raw =>
    let offspring := raw.map fun x => evaluate f ⟨cf.trim x.v, x.objectives⟩
    let ideal := updateIdeal st.ideal (offspring.filterMap Ind.objectives)
    let all := offspring ++ st.inds
    match allObjectives all with
    | none => none
    | some objs =>
      match selectIdx iter sample fuel st.size (scores sq eps cf ideal objs) with
      | none => none
      | some idx => some { inds := idx.filterMap fun i => all[i]?, size := st.size, ideal := ideal }

end Evogil.Nsgaiii
