import Verif.Prelude

/-!
# Model of the evaluation of individuals

`_calculate_objectives` of NSGA-II (`algorithms/NSGAII/NSGAII.py` lines 101-116), NSGA-III
(`algorithms/NSGAIII/NSGAIII.py` lines 94-105) and NSLS (`algorithms/NSLS/NSLS.py` lines 63-78),
which keep the objectives with the individual, and the evaluation of OMOPSO
(`algorithms/OMOPSO/OMOPSO.py` lines 115-124), SPEA2 (`algorithms/SPEA2/SPEA2.py` lines 113-124),
SMS-EMOA (`algorithms/SMSEMOA/SMSEMOA.py` lines 64-73) and IBEA
(`algorithms/IBEA/IBEA.py` lines 76-83), which do not.

Every state carries the list `calls` of all vectors passed to the objective functions so far; it is
not a field of the code but records its calls of the objective functions.
-/

namespace Evogil.Evaluation

variable {V F A : Type*} [DecidableEq A]

/-- An individual: `Individual` of NSGAII.py:213-216, NSGAIII.py:313-316, NSLS.py:224-227. The
field `id` stands for the object identity; `objectives` are the values in the order of the
objective functions. -/
structure Ind (V F : Type*) where
  id : ℕ
  v : V
  objectives : Option F
  deriving DecidableEq

/-- The fitness archive shared between drivers: a dictionary from keys to objective values;
`TransformedDict`, `algorithms/HGS/classic/ClassicHGS.py` lines 377-406, stores under a transformed
key, which is the parameter `key` of the functions below. -/
abbrev Archive (A F : Type*) := A → Option F

/-- The cost counter, the archive (`None` when there is none) and the calls made. -/
structure Acc (V A F : Type*) where
  cost : ℕ
  archive : Option (Archive A F)
  calls : List V

/-- `archive[key] = value` -/
def Archive.set (a : Archive A F) (k : A) (f : F) : Archive A F :=
  fun k' => if k' = k then some f else a k'

/-- Body of the loop for one individual: NSGAII.py:103-116, NSGAIII.py:96-105, NSLS.py:65-78.
`fit v` are the values of all objective functions at `v`. -/
def evalOne (key : V → A) (fit : V → F) (st : Acc V A F) (ind : Ind V F) : Acc V A F × Ind V F :=
  match ind.objectives with
  | some _ => (st, ind)
  | none =>
    match st.archive with
    | none =>
      (⟨st.cost + 1, none, st.calls ++ [ind.v]⟩, { ind with objectives := some (fit ind.v) })
    | some a =>
      match a (key ind.v) with
      | some f => (st, { ind with objectives := some f })
      | none =>
        (⟨st.cost + 1, some (Archive.set a (key ind.v) (fit ind.v)), st.calls ++ [ind.v]⟩,
          { ind with objectives := some (fit ind.v) })

/-- `_calculate_objectives`, NSGAII.py:101-116, NSGAIII.py:94-105; `calculate_objectives`,
NSLS.py:63-78 -/
def evalAll (key : V → A) (fit : V → F) :
    Acc V A F → List (Ind V F) → Acc V A F × List (Ind V F)
  | st, [] => (st, [])
  | st, ind :: rest =>
    let (st1, ind1) := evalOne key fit st ind
    let (st2, rest1) := evalAll key fit st1 rest
    (st2, ind1 :: rest1)

/-! ## Evaluations without a memo -/

/-- One turn of the loop of OMOPSO.py:117-123, SPEA2.py:115-123, SMSEMOA.py:66-72: `size` is
`len(self.individuals)` resp. `len(self.population)`; the state is `objectives_cost`, the calls
and the objectives given to the individuals so far. The archive is read but never written. -/
def chargeStep (key : V → A) (fit : V → F) (archive : Option (Archive A F)) (size : ℕ)
    (st : ℕ × List V × List F) (v : V) : ℕ × List V × List F :=
  match archive.bind (fun a => a (key v)) with
  | some f => (0, st.2.1, st.2.2 ++ [f])
  | none => (size, st.2.1 ++ [v], st.2.2 ++ [fit v])

/-- `calculate_objectives`, OMOPSO.py:115-124, SPEA2.py:113-124, SMSEMOA.py:64-73: the cost that is
returned (and added to `self.cost` by the callers OMOPSO.py:61 and 88, SPEA2.py:71 and 93,
SMSEMOA.py:45 and 61), the calls made and the objectives. -/
def chargeAll (key : V → A) (fit : V → F) (archive : Option (Archive A F)) (size : ℕ)
    (pop : List V) : ℕ × List V × List F :=
  pop.foldl (chargeStep key fit archive size) (0, [], [])

/-- One pass of `_scale_objectives`, IBEA.py:78-83: the cost charged for a population whose
members carry the flag `known_objectives`. -/
def ibeaCharge (inArchive : V → Bool) (hasArchive : Bool) (pop : List (V × Bool)) : ℕ :=
  (pop.filter fun p => !p.2 || !(hasArchive && inArchive p.1)).length

/-- The vectors passed to the first objective function by one `_scale_objectives`,
IBEA.py:84-87: all of them, whatever is known already. -/
def ibeaCalls (pop : List (V × Bool)) : List V := pop.map Prod.fst

end Evogil.Evaluation
