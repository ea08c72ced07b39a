import Verif.Model.HgsRun
import Verif.Model.Layers

/-!
# The sequential HGS with IBEA and SMS-EMOA in its nodes

The operations (`NodeOps`, `Verif.Model.HgsRun`) of further drivers. Both only look into the fitness
archive of their level (IBEA.py:80, SMSEMOA.py:67), so the archives stay empty.

Simplified: equal vectors evaluated in the same step get the same objective values although each
evaluation is blurred on its own (`blurred_fitnesses`, ClassicHGS.py:212-225).
-/

namespace Evogil.Hgs

open Generations Evaluation

section
variable {K : Type*} [Field K] [LinearOrder K] [FloorSemiring K]

/-- The draws of the IBEA drivers; `obj` are the blurred objectives. The first number is the level. -/
structure IbeaDraws (K : Type*) where
  obj : ℕ → ℕ → ℕ → ℕ → List (List K → K)
  dm : ℕ → ℕ → ℕ → ℕ → ℕ → MateDraw
  dv : ℕ → ℕ → ℕ → ℕ → VarDraw K

/-- `nominate_delegates`, IBEA/message.py:14-23: the first layer of the individuals. The objectives are
computed once for every individual (ea_utils.py:47); they cost nothing, because all individuals are
known (IBEA.py:185). Without individuals `[0]` raises. -/
def ibeaDelegates (objectives : List (List K → K)) (individuals : List (IInd K)) :
    Option (List (List K)) :=
  match paretofrontLayers individuals.length individuals fun x => objectives.map fun o => o x.v with
  | some (layer :: _) => some (layer.map fun x => x.v)
  | _ => none

/-- The driver of a node when HGS runs with IBEA; `ex` is `math.exp`, `kappa` and `c` are the
parameters of IBEA.py:16-17. `finalized_population` (IBEA.py:52-62) charges all individuals. -/
def ibeaOps (S : ℕ → Setup K) (ex : K → K) (kappa c : K) (d : IbeaDraws K) :
    NodeOps Unit (IState K) (List K) where
  make := fun l i pop _ => (ibeaInit (S l) (d.obj l i 0 0) c pop).map fun s => ((), s)
  step := fun l i k j _ s =>
    (ibeaStep (S l) ex kappa (d.obj l i (k + 1) (j + 1)) (fun _ => false) true (d.dm l i k j) (d.dv i k j)
      s).map fun s' => ((), s')
  cost := fun s => s.cost
  conclude := fun l i k _ s =>
    match ibeaFinish (S l) ex kappa (d.obj l i (k + 1) 0) (fun _ => false) true s with
    | none => none
    | some (s', pop) =>
      (ibeaDelegates (d.obj l i (k + 1) 0) s'.individuals).map fun delegates => ((), s', pop, delegates)

end

section
variable {K : Type*} [Field K] [LinearOrder K] [FloorSemiring K] {A : Type*}

/-- The draws of the SMS-EMOA drivers. -/
structure SmsDraws (K : Type*) where
  fit : ℕ → ℕ → ℕ → ℕ → List K → List K
  iter : ℕ → ℕ → ℕ → List (Ind (List K) (List K)) → List (Ind (List K) (List K))
  dt : ℕ → ℕ → ℕ → ℕ → ℕ → ℕ × ℕ
  dv : ℕ → ℕ → ℕ → ℕ → VarDraw K

/-- `nominate_delegates`, SMSEMOA/message.py:38-39: the first front of the individuals; `front` is a
`defaultdict`, so without individuals it is empty (SMSEMOA.py:116). -/
def smsDelegates (iter : List (Ind (List K) (List K)) → List (Ind (List K) (List K)))
    (pop : List (Ind (List K) (List K))) : Option (List (List K)) :=
  (ndSort iter (smsemoaDom objsOf) pop.length pop).map fun fronts => (fronts.headD []).map fun x => x.v

/-- The driver of a node when HGS runs with SMS-EMOA; `hv` is the hypervolume for the driver's reference
point, `mult` is `epoch_length_multiplier`. -/
def smsOps (S : ℕ → Setup K) (key : List K → A) (hv : List (List K) → K) (mult : K) (d : SmsDraws K) :
    NodeOps Unit (MState K) (List K) where
  make := fun l i pop _ => some ((), smsInit (S l) key (d.fit l i 0 0) (some fun _ => none) mult pop)
  step := fun l i k j _ s =>
    (smsStep (S l) key (d.fit l i (k + 1) (j + 1)) (some fun _ => none) (d.iter i (k + 1) (j + 1)) hv
      (d.dt l i k j) (d.dv i k j) s).map fun s' => ((), s')
  cost := fun s => s.cost
  conclude := fun _ i k _ s =>
    (smsDelegates (d.iter i (k + 1) 0) s.individuals).map fun delegates =>
      ((), s, smsFinal s, delegates)

end

end Evogil.Hgs
