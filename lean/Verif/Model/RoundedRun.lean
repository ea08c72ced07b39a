import Verif.Model.Generations
import Verif.Model.RoundedNsgaii
import Verif.Model.RoundedIbea

/-!
# Whole generations with rounding

The `step` functions of NSGA-II, SPEA2, IBEA and SMS-EMOA as in `Verif.Model.Generations`, with every result of an operation
rounded by the parameter `fl`. `none` means that the code raises or that a NaN or an infinity occurs where the model says so:
in crossover and mutation, and in every division by 0 (`ZeroDivisionError`). Simplified: exponents are not bounded from above,
numbers of individuals are exact.
-/

namespace Evogil.Rounded.Run

open Evaluation Generations

section
variable {K : Type*} [Field K] [LinearOrder K] [IsStrictOrderedRing K] [FloorRing K]

/-- `crossover(x, y, ...)`, drivertools.py:58-108. -/
def crossVec (fl : K → K) (S : Setup K) (d : VarDraw K) (x y : List K) : Option (List K) :=
  (Rounded.crossover fl S.pw S.eps S.crossRate S.crossEta d.first d.pick d.cross x y S.dims).toOption

/-- `mutate(x, ...)`, NSGAII.py:208, SPEA2.py:76-87, IBEA.py:165, SMSEMOA.py:87. -/
def mutVec (fl : K → K) (S : Setup K) (d : VarDraw K) (x : List K) : Option (List K) :=
  (Rounded.mutate fl S.pw S.eps S.mutRate S.mutEta d.mutn x S.dims).toOption

/-- `trim_function(mutate(crossover(x, y)))`, SPEA2.py:75-88, SMSEMOA.py:77-88. -/
def makeChild (fl : K → K) (S : Setup K) (d : VarDraw K) (x y : List K) : Option (List K) :=
  match crossVec fl S d x y with
  | none => none
  | some c => (mutVec fl S d c).map S.trim

/-- `_crossover`, NSGAII.py:194-204, IBEA.py:151-161. -/
def crossAll (fl : K → K) (S : Setup K) (d : ℕ → VarDraw K) (mating : List (List K)) (m : ℕ) : Option (List (List K)) :=
  (List.range m).mapM fun i =>
    match mating[i]?, mating[m + i]? with
    | some x, some y => crossVec fl S (d i) x y
    | _, _ => none

/-- `_mutation` and the trimming that follows, NSGAII.py:206-210 and 95-96, IBEA.py:163-167 and 70-71. -/
def mutateAll (fl : K → K) (S : Setup K) (d : ℕ → VarDraw K) (mating : List (List K)) : Option (List (List K)) :=
  mating.zipIdx.mapM fun p => (mutVec fl S (d p.2) p.1).map S.trim

/-- The vectors of the new individuals, NSGAII.py:92-96, IBEA.py:67-71. -/
def offspring {ι : Type*} (fl : K → K) (S : Setup K) (better : Bool → ι → ι → ι) (vec : ι → List K) (dm : ℕ → MateDraw)
    (dv : ℕ → VarDraw K) (individuals : List ι) (m : ℕ) : Option (List (List K)) :=
  match matingPool better dm individuals (2 * m) with
  | none => none
  | some mating =>
    match crossAll fl S dv (mating.map vec) m with
    | none => none
    | some crossed => mutateAll fl S dv crossed

/-- `int(c * n)` used as a number of turns (negative numbers behave like 0), NSGAII.py:79, IBEA.py:179, SMSEMOA.py:39. -/
def portion (fl : K → K) (c : K) (n : ℕ) : ℕ := ⌊fl (c * (n : K))⌋₊

end

/-! ## NSGA-II -/

section nsgaii
variable {K : Type*} [Field K] [LinearOrder K] [IsStrictOrderedRing K] [FloorRing K] {A : Type*} [DecidableEq A]

/-- The divisors of the crowding distances, NSGAII.py:158-170: the rounded width of each front of at least two members in
each objective, plus `eps`. The ends of the sorted front are its smallest and largest values, in whatever order the members
come. -/
def crowdDivisors {ι : Type*} (fl : K → K) (eps : K) (objs : List (ι → K)) (fronts : List (List ι)) : List K :=
  (fronts.filter fun f => decide (2 ≤ f.length)).flatMap fun f => objs.filterMap fun o =>
    match (pySorted o f).head?, (pySorted o f).getLast? with
    | some first, some last => some (fl (fl (o last - o first) + eps))
    | _, _ => none

/-- The divisors of the sort keys, NSGAII.py:175. -/
def keyDivisors {ι : Type*} (fl : K → K) (eps : K) (dist : ι → WithTop K) (pop : List ι) : List K :=
  pop.filterMap fun x => match dist x with
    | ⊤ => none
    | (d : K) => some (fl (d + eps))

/-- `_nd_sort`, `_crowding` and `_environmental_selection`, NSGAII.py:89-91: the survivors and `self.fitness`. -/
def nsgaiiSelect (fl : K → K) (iter : List (Ind (List K) (List K)) → List (Ind (List K) (List K))) (eps : K) (m size : ℕ)
    (pop : List (Ind (List K) (List K))) :
    Option (List (Ind (List K) (List K)) × (Ind (List K) (List K) → ℕ ×ₗ K)) :=
  match ndSort iter (nsgaiiDom fun x => (objFns m).map (fun o => o x)) pop.length pop with
  | none => none
  | some fronts =>
    let dist := crowding fl eps (objFns m) fronts
    if (0 : K) ∈ crowdDivisors fl eps (objFns m) fronts ++ keyDivisors fl eps dist pop then none
    else some (nsgaSelection fl eps fronts dist size pop,
      fun x => toLex (nsgaRank fronts x, invDist fl eps (dist x)))

/-- `__init__` with the population setter, NSGAII.py:53-66 and 75-79. -/
def nsgaiiInit (fl : K → K) (S : Setup K) (key : List K → A) (fit : List K → List K) (archive : Option (Archive A (List K)))
    (c : K) (population : List (List K)) : NState K A :=
  let individuals := newInds 0 (population.map S.trim)
  let r := evalAll key fit ⟨0, archive, []⟩ individuals
  ⟨r.2, r.1, individuals.length, portion fl c individuals.length, individuals.length⟩

/-- `step`, NSGAII.py:88-99. -/
def nsgaiiStep (fl : K → K) (S : Setup K) (key : List K → A) (fit : List K → List K) (m : ℕ)
    (iter : List (Ind (List K) (List K)) → List (Ind (List K) (List K))) (dm : ℕ → MateDraw) (dv : ℕ → VarDraw K)
    (s : NState K A) : Option (NState K A) :=
  match nsgaiiSelect fl iter S.eps m s.popSize s.individuals with
  | none => none
  | some (kept, fitness) =>
    match offspring fl S (nsgaiiBetter fitness) (fun x => x.v) dm dv kept s.matingSize with
    | none => none
    | some vs =>
      let r := evalAll key fit s.acc (kept ++ newInds s.nextId vs)
      some { s with individuals := r.2, acc := r.1, nextId := s.nextId + vs.length }

/-- `finalized_population` / `finish`, NSGAII.py:72-73 and 81-86. -/
def nsgaiiFinish (fl : K → K) (S : Setup K) (key : List K → A) (fit : List K → List K) (m : ℕ)
    (iter : List (Ind (List K) (List K)) → List (Ind (List K) (List K))) (s : NState K A) :
    Option (NState K A × List (List K)) :=
  let r := evalAll key fit s.acc s.individuals
  match nsgaiiSelect fl iter S.eps m s.popSize r.2 with
  | none => none
  | some (kept, _) => some ({ s with individuals := kept, acc := r.1 }, kept.map fun x => x.v)

end nsgaii

/-! ## SPEA2 -/

section spea2
variable {K : Type*} [Field K] [LinearOrder K] [IsStrictOrderedRing K] [FloorRing K] {A : Type*}

/-- `p["fitness"]`, SPEA2.py:97-111, with the `ZeroDivisionError` of line 110. -/
def spea2Fitness (fl : K → K) (dist : List K → List K → K) (union : List (Ind (List K) (List K)))
    (p : Ind (List K) (List K)) : Option K :=
  match (pySorted id (union.map fun p2 => dist (objsOf p) (objsOf p2)))[Nat.sqrt union.length]? with
  | none => none
  | some d => if fl (d + 2) = 0 then none else Rounded.spea2Fitness fl dist objsOf union p

/-- One element of the new population, SPEA2.py:75-88. -/
def spea2Child (fl : K → K) (S : Setup K) (fitness : Ind (List K) (List K) → K) (archive : List (Ind (List K) (List K)))
    (t : (ℕ × ℕ) × (ℕ × ℕ)) (d : VarDraw K) : Option (List K) :=
  match Spea2.select fitness archive t.1.1 t.1.2, Spea2.select fitness archive t.2.1 t.2.2 with
  | some x, some y => makeChild fl S d x.v y.v
  | _, _ => none

/-- `step`, SPEA2.py:70-90; `dist` is `euclid_distance` as computed. -/
def spea2Step (fl : K → K) (S : Setup K) (dist : List K → List K → K) (key : List K → A) (fit : List K → List K)
    (fa : Option (Archive A (List K))) (dt : ℕ → (ℕ × ℕ) × (ℕ × ℕ)) (dv : ℕ → VarDraw K) (s : SState K) :
    Option (SState K) :=
  let e := spea2Eval key fit fa s.individuals
  let union := s.archive ++ e.2
  match union.mapM (spea2Fitness fl dist union) with
  | none => none
  | some _ =>
    let fitness := fun x => (spea2Fitness fl dist union x).getD 0
    match Spea2.environmentalSelection (sameDict union fitness) dist objsOf fitness s.archiveSize union.length e.2
        s.archive with
    | none => none
    | some archive =>
      match (List.range e.2.length).mapM fun i => spea2Child fl S fitness archive (dt i) (dv i) with
      | none => none
      | some vs => some ⟨newInds s.nextId vs, archive, s.archiveSize, s.cost + e.1, s.nextId + vs.length⟩

end spea2

/-! ## IBEA -/

section ibea
variable {K : Type*} [Field K] [LinearOrder K] [IsStrictOrderedRing K] [FloorRing K]

/-- The divisors of the scaled objectives, IBEA.py:84-98. -/
def scaleDivisors (fl : K → K) (eps : K) (objectives : List (List K → K)) (individuals : List (IInd K)) : List K :=
  objectives.filterMap fun o =>
    match pyMin (individuals.map fun x => o x.v), pyMax (individuals.map fun x => o x.v) with
    | some minO, some maxO => some (fl (fl (maxO - minO) + eps))
    | _, _ => none

/-- `_scale_objectives`, IBEA.py:76-98. The divisions are carried out when the scaled objectives are called, which
`_calculate_fitness` does before anything else happens; here they count as carried out at once. -/
def ibeaScale (fl : K → K) (eps : K) (objectives : List (List K → K)) (inArchive : List K → Bool) (hasArchive : Bool)
    (s : IState K) : Option (IState K) :=
  let charge := ibeaCharge inArchive hasArchive (s.individuals.map fun x => (x.v, x.known))
  let individuals := s.individuals.map fun x => { x with known := true }
  if (0 : K) ∈ scaleDivisors fl eps objectives individuals then none
  else
    match Rounded.Ibea.scaledObjectives fl eps (objectives.map fun o (x : IInd K) => o x.v) individuals with
    | none => none
    | some scaled => some { s with individuals := individuals, cost := s.cost + charge, scaled := scaled }

/-- `__init__`, IBEA.py:29-50 and 175-179. -/
def ibeaInit (fl : K → K) (S : Setup K) (objectives : List (List K → K)) (c : K) (population : List (List K)) :
    Option (IState K) :=
  let individuals := newIInds 0 (population.map S.trim)
  ibeaScale fl S.eps objectives (fun _ => false) false
    ⟨individuals, individuals.length, portion fl c individuals.length, 0, [], individuals.length⟩

/-- `_calculate_fitness` and `_environmental_selection`, IBEA.py:100-137. `none`: `max` of nothing (no individuals, line 105,
no objectives, line 193), a division by 0, or an argument of `math.exp` above 709 (`OverflowError` from 710 on). -/
def ibeaSelect (fl ex : K → K) (eps kappa : K) (scaled : List (IInd K → K)) (size fuel : ℕ) (individuals : List (IInd K)) :
    Option (List (IInd K) × (IInd K → K)) :=
  if scaled.isEmpty then none
  else
    match Rounded.Ibea.maxIndicator fl scaled individuals with
    | none => none
    | some c =>
      if fl (fl (c * kappa) + eps) = 0 ∨ ∃ x2 ∈ individuals, ∃ x1 ∈ individuals,
          709 < exponent fl eps c kappa (Rounded.Ibea.indicator fl scaled x2 x1) then none
      else
        Rounded.Ibea.selectionLoop fl (Rounded.Ibea.loss fl ex eps c kappa scaled) size fuel individuals
          (Rounded.Ibea.fitness fl (Rounded.Ibea.loss fl ex eps c kappa scaled) individuals)

/-- `step`, IBEA.py:64-74. -/
def ibeaStep (fl : K → K) (S : Setup K) (ex : K → K) (kappa : K) (objectives : List (List K → K)) (inArchive : List K → Bool)
    (hasArchive : Bool) (dm : ℕ → MateDraw) (dv : ℕ → VarDraw K) (s : IState K) : Option (IState K) :=
  match ibeaSelect fl ex S.eps kappa s.scaled s.popSize s.individuals.length s.individuals with
  | none => none
  | some (kept, fitness) =>
    match offspring fl S (Evogil.Ibea.better fitness) (fun x : IInd K => x.v) dm dv kept s.matingSize with
    | none => none
    | some vs =>
      ibeaScale fl S.eps objectives inArchive hasArchive
        { s with individuals := kept ++ newIInds s.nextId vs, nextId := s.nextId + vs.length }

/-- `finalized_population` / `finish`, IBEA.py:52-53 and 58-62. -/
def ibeaFinish (fl : K → K) (S : Setup K) (ex : K → K) (kappa : K) (objectives : List (List K → K))
    (inArchive : List K → Bool) (hasArchive : Bool) (s : IState K) : Option (IState K × List (List K)) :=
  match ibeaScale fl S.eps objectives inArchive hasArchive s with
  | none => none
  | some s1 =>
    match ibeaSelect fl ex S.eps kappa s1.scaled s1.popSize s1.individuals.length s1.individuals with
    | none => none
    | some (kept, _) => some ({ s1 with individuals := kept }, kept.map fun x => x.v)

end ibea

/-! ## SMS-EMOA -/

section smsemoa
variable {K : Type*} [Field K] [LinearOrder K] [IsStrictOrderedRing K] [FloorRing K] {A : Type*}

/-- `calculate_hypervolume_contribution`, SMSEMOA.py:101-110, with rounded differences; `hv` is `HyperVolume.compute` as
computed. -/
def contributions {ι : Type*} (fl : K → K) (hv : List (List K) → K) (obj : ι → List K) (pop : List ι) : List (ι × K) :=
  let results := pop.map obj
  let hvGlobal := hv results
  pop.zipIdx.map fun p => (p.1, fl (hvGlobal - hv (results.take p.2 ++ results.drop (p.2 + 1))))

/-- `reduce_population`, SMSEMOA.py:91-99. -/
def reducePopulation {ι : Type*} [DecidableEq ι] (fl : K → K) (iter : List ι → List ι) (fuel : ℕ) (hv : List (List K) → K)
    (obj : ι → List K) (pop : List ι) : Option (List ι) :=
  match ndSort iter (smsemoaDom obj) fuel pop with
  | none => none
  | some fronts =>
    match fronts.getLast? with
    | none => none
    | some worstFront =>
      match pyMinBy Prod.snd (contributions fl hv obj worstFront) with
      | none => none
      | some minContributor => some (pop.erase minContributor.1)

/-- `__init__`, SMSEMOA.py:37-45. -/
def smsInit (fl : K → K) (S : Setup K) (key : List K → A) (fit : List K → List K) (fa : Option (Archive A (List K)))
    (mult : K) (population : List (List K)) : MState K :=
  let individuals := newInds 0 (population.map S.trim)
  let e := smsEval key fit fa individuals.length individuals
  ⟨e.2, portion fl mult individuals.length, e.1, individuals.length⟩

/-- `generate`, SMSEMOA.py:75-89. -/
def smsGenerate (fl : K → K) (S : Setup K) (pop : List (Ind (List K) (List K))) (t : ℕ × ℕ) (d : VarDraw K) :
    Option (List K) :=
  if t.1 = t.2 then none
  else
    match pop[t.1]?, pop[t.2]? with
    | some x, some y => makeChild fl S d x.v y.v
    | _, _ => none

/-- One turn of the loop of `step`, SMSEMOA.py:60-62. -/
def smsTurn (fl : K → K) (S : Setup K) (key : List K → A) (fit : List K → List K) (fa : Option (Archive A (List K)))
    (iter : List (Ind (List K) (List K)) → List (Ind (List K) (List K))) (hv : List (List K) → K) (t : ℕ × ℕ)
    (d : VarDraw K) (s : MState K) : Option (MState K) :=
  match smsGenerate fl S s.individuals t d with
  | none => none
  | some v =>
    let e := smsEval key fit fa s.individuals.length (newInds s.nextId [v])
    match reducePopulation fl iter (s.individuals.length + 1) hv objsOf (s.individuals ++ e.2) with
    | none => none
    | some pop => some { s with individuals := pop, cost := s.cost + e.1, nextId := s.nextId + 1 }

/-- The loop of `step`, SMSEMOA.py:59-62: `n` turns, starting with turn number `k`. -/
def smsTurns (fl : K → K) (S : Setup K) (key : List K → A) (fit : List K → List K) (fa : Option (Archive A (List K)))
    (iter : List (Ind (List K) (List K)) → List (Ind (List K) (List K))) (hv : List (List K) → K) (dt : ℕ → ℕ × ℕ)
    (dv : ℕ → VarDraw K) : ℕ → ℕ → MState K → Option (MState K)
  | _, 0, s => some s
  | k, n + 1, s =>
    match smsTurn fl S key fit fa iter hv (dt k) (dv k) s with
    | none => none
    | some s' => smsTurns fl S key fit fa iter hv dt dv (k + 1) n s'

/-- `step`, SMSEMOA.py:58-62. -/
def smsStep (fl : K → K) (S : Setup K) (key : List K → A) (fit : List K → List K) (fa : Option (Archive A (List K)))
    (iter : List (Ind (List K) (List K)) → List (Ind (List K) (List K))) (hv : List (List K) → K) (dt : ℕ → ℕ × ℕ)
    (dv : ℕ → VarDraw K) (s : MState K) : Option (MState K) :=
  smsTurns fl S key fit fa iter hv dt dv 0 s.epochLength s

end smsemoa

end Evogil.Rounded.Run
