import Verif.Model.NsgaiiiRun
import Verif.Model.RoundedMoves
import Verif.Model.RoundedNsgaiii

/-!
# Runs of NSGA-III with rounding (`algorithms/NSGAIII/NSGAIII.py`)

As `Verif.Model.NsgaiiiRun`, with every result of an operation rounded by the parameter `fl`; `dot` and `norm` are those of
numpy. `none` means that the code raises, or that a division by 0 makes a NaN or an infinity. Simplified: exponents are not
bounded from above; no fitness archive.
-/

namespace Evogil.Rounded.Nsgaiii

open Generations
open Evogil.Nsgaiii (Conf Ind PairDraw State Costed defiledPoint evaluate updateIdeal allObjectives selectIdx evaluations)

variable {K : Type*} [Field K] [LinearOrder K] [IsStrictOrderedRing K] [FloorRing K]

/-- `simulated_binary_crossover`, NSGAIII.py:389-434; `first` is the draw of line 393. Copying the objectives of a
parent that has none raises (lines 394-395). -/
def crossInd (fl : K → K) (pw : K → K → K) (eps eta rate first : K) (ds : ℕ → SbxDraw K) (dims : List (K × K))
    (a b : Ind K) : Option (Ind K × Ind K) :=
  match simulatedBinaryCrossover fl pw eps rate eta first ds a.v b.v dims with
  | .error _ => none
  | .ok (ca, cb) =>
    if rate < first then
      match a.objectives, b.objectives with
      | some oa, some ob => some (⟨ca, some oa⟩, ⟨cb, some ob⟩)
      | _, _ => none
    else some (⟨ca, none⟩, ⟨cb, none⟩)

/-- `polynomial_mutation`, NSGAIII.py:445-473: line 473 forgets the objectives whenever a coordinate is selected. -/
def mutateInd (fl : K → K) (pw : K → K → K) (eps rate eta : K) (ds : ℕ → MutDraw K) (dims : List (K × K))
    (x : Ind K) : Option (Ind K) :=
  match polynomialMutation fl pw eps rate eta ds x.v dims with
  | .error _ => none
  | .ok v => some ⟨v, if (List.range dims.length).any fun i => decide ((ds i).select ≤ rate) then none else x.objectives⟩

/-- One turn of the loop of `make_offspring_individuals`, NSGAIII.py:211-233. -/
def makePair (fl : K → K) (pw : K → K → K) (eps : K) (cf : Conf K) (inds : List (Ind K)) (d : PairDraw K) :
    Option (List (Ind K)) :=
  match inds[d.pa]?, inds[d.pb]? with
  | some a, some b =>
    match crossInd fl pw eps cf.etaC cf.rateC d.first d.cross cf.dims a b with
    | none => none
    | some (ca, cb) =>
      match mutateInd fl pw eps cf.rateM cf.etaM d.mutA cf.dims ca,
        mutateInd fl pw eps cf.rateM cf.etaM d.mutB cf.dims cb with
      | some x, some y => some [x, y]
      | _, _ => none
  | _, _ => none

/-- `make_offspring_individuals`, NSGAIII.py:208-234, from turn `j` on. -/
def makeOffspring (fl : K → K) (pw : K → K → K) (eps : K) (cf : Conf K) (ds : ℕ → PairDraw K)
    (inds : List (Ind K)) : ℕ → ℕ → Option (List (Ind K))
  | 0, _ => some []
  | rest + 1, j =>
    match makePair fl pw eps cf inds (ds j), makeOffspring fl pw eps cf ds inds rest (j + 1) with
    | some p, some q => some (p ++ q)
    | _, _ => none

/-- Whether a divisor of lines 251, 375 or 385 is 0. -/
def dividesByZero (fl : K → K) (norm : List K → K) (eps : K) (cf : Conf K) (ideal : List (WithTop K))
    (objs : List (List K)) : Bool :=
  (cf.refs.any fun r => decide (norm r = 0)) ||
    (List.zip ideal (defiledPoint cf.m objs)).any fun b =>
      decide (fl (fl (b.2.unbotD 0 - b.1.untopD 0) + eps) = 0)

/-- `step`, NSGAIII.py:117-206. -/
def step (fl : K → K) (pw : K → K → K) (dot : List K → List K → K) (norm : List K → K) (eps : K)
    (f : List K → List K) (cf : Conf K) (ds : ℕ → PairDraw K) (iter : List ℕ → List ℕ)
    (sample : List ℕ → ℕ → List ℕ) (fuel : ℕ) (st : State K) : Option (State K) :=
  match makeOffspring fl pw eps cf ds st.inds (st.size / 2) 0 with
  | none => none
  | some raw =>
    let offspring := raw.map fun x => evaluate f ⟨cf.trim x.v, x.objectives⟩
    let ideal := updateIdeal st.ideal (offspring.filterMap Ind.objectives)
    let all := offspring ++ st.inds
    match allObjectives all with
    | none => none
    | some objs =>
      if dividesByZero fl norm eps cf ideal objs then none
      else
        match selectIdx iter sample fuel st.size (scores fl dot norm eps cf ideal objs) with
        | none => none
        | some idx => some { inds := idx.filterMap fun i => all[i]?, size := st.size, ideal := ideal }

/-- `step` with the cost of line 127, NSGAIII.py:117-206. -/
def stepCosted (fl : K → K) (pw : K → K → K) (dot : List K → List K → K) (norm : List K → K) (eps : K)
    (f : List K → List K) (cf : Conf K) (ds : ℕ → PairDraw K) (iter : List ℕ → List ℕ)
    (sample : List ℕ → ℕ → List ℕ) (s : Costed K) : Option (Costed K) :=
  match makeOffspring fl pw eps cf ds s.st.inds (s.st.size / 2) 0 with
  | none => none
  | some raw =>
    (step fl pw dot norm eps f cf ds iter sample (2 * s.st.size + 1) s.st).map fun st' =>
      ⟨st', s.cost + evaluations raw⟩

/-- NSGA-III as a driver, NSGAIII.py:114-206. The constructor computes nothing with floats but the reference points,
so that it is `Evogil.Nsgaiii.initCosted`. -/
def driver (fl : K → K) (pw : K → K → K) (dot : List K → List K → K) (norm : List K → K) (eps : K)
    (f : List K → List K) (cf : Conf K) (ds : ℕ → ℕ → PairDraw K) (iter : ℕ → List ℕ → List ℕ)
    (sample : ℕ → List ℕ → ℕ → List ℕ) : DriverSig (Option (ℕ × Costed K)) (Option (List (List K))) :=
  optDriver (fun n => stepCosted fl pw dot norm eps f cf (ds n) (iter n) (sample n)) (fun s => s.cost)
    (fun _ s => some (s, s.st.inds.map Ind.v))

end Evogil.Rounded.Nsgaiii
