import Verif.Model.DistDrivers
import Verif.Model.HgsRunRest
import Verif.Model.RoundedHgsRest

/-!
# The drivers in the nodes of the distributed HGS, with rounding

As `Verif.Model.DistDrivers` and `Verif.Model.HgsRunRest`, with the steps that round; `fl` is the rounding. SPEA2, IBEA,
SMS-EMOA and OMOPSO are those of the sequential HGS (`Verif.Model.RoundedHgsRun`, `Verif.Model.RoundedHgsRest`), since nothing
is ever found in the archives there. The other drivers are created without `fitness_archive`
(algorithms/HGS/distributed/actors.py:254). The rounding of the actors themselves is the one of `Hgs.Conf.fl`.
Simplified as there: with NSGA-III and NSLS the objectives are functions of the vector on every level.
-/

namespace Evogil.Rounded

variable {K : Type*} [Field K] [LinearOrder K] [IsStrictOrderedRing K] [FloorRing K] {A : Type*} [DecidableEq A]

namespace Nsgaiii

open Evogil.Nsgaiii (Conf Ind PairDraw State evaluate updateIdeal allObjectives)

/-- `self.front[1]` after `step`, NSGAIII.py:117-206, 177 and 206, see `Evogil.Nsgaiii.stepFront`. Divisions by 0 are found by
`step`, which the code runs once for both. -/
def stepFront (fl : K → K) (pw : K → K → K) (dot : List K → List K → K) (norm : List K → K) (eps : K)
    (f : List K → List K) (cf : Conf K) (ds : ℕ → PairDraw K) (iter : List ℕ → List ℕ) (fuel : ℕ) (st : State K) :
    Option (List (Ind K)) :=
  match makeOffspring fl pw eps cf ds st.inds (st.size / 2) 0 with
  | none => none
  | some raw =>
    let offspring := raw.map fun x => evaluate f ⟨cf.trim x.v, x.objectives⟩
    let ideal := updateIdeal st.ideal (offspring.filterMap Ind.objectives)
    let all := offspring ++ st.inds
    match allObjectives all with
    | none => none
    | some objs =>
      let sc := scores fl dot norm eps cf ideal objs
      (ndSort iter (thetaDom (fun i => (sc.getD i (0, 0)).1) (fun i => (sc.getD i (0, 0)).2)) fuel
        (List.range sc.length)).map fun fronts => (fronts.headD []).filterMap fun i => all[i]?

end Nsgaiii

namespace Nsls

open Evogil.Nsls (Ind LsDraw evaluate allObjectives)

/-- `self.front[1]` after `step`, NSLS.py:80-84, 134-160, see `Evogil.Nsls.stepFront`. -/
def stepFront (fl : K → K) (dims : List (K × K)) (trim : List K → List K) (f : List K → List K)
    (ds : ℕ → ℕ → LsDraw K) (iter : List ℕ → List ℕ) (fuel : ℕ) (inds : List (Ind K)) : Option (List (Ind K)) :=
  match localSearch fl dims trim f ds (inds.map (evaluate f)) with
  | none => none
  | some all =>
    match allObjectives all with
    | none => none
    | some objs =>
      (ndSort iter (nsgaiiDom fun i => objs.getD i []) fuel (List.range all.length)).map
        fun fronts => (fronts.headD []).filterMap fun i => all[i]?

end Nsls

namespace Dist

open Generations Evaluation
open Evogil.Hgs (NodeOps NsgaiiDraws NsgaiiiDraws NsgaiiiNode NslsDraws JgblDraws nsgaiiDelegates)

/-- The driver of a node when the distributed HGS runs with NSGA-II (algorithms/HGS/distributed/actors.py:242-259), see
`Dist.nsgaiiOps`. -/
def nsgaiiOps (fl : K → K) (S : ℕ → Setup K) (key : List K → A) (m : ℕ) (c : K) (d : NsgaiiDraws K) :
    NodeOps Unit (NState K A) (List K) where
  make := fun l i pop _ => some ((), Run.nsgaiiInit fl (S l) key (d.fit l i 0 0) none c pop)
  step := fun l i k j _ s =>
    (Run.nsgaiiStep fl (S l) key (d.fit l i (k + 1) (j + 1)) m (d.iter i (k + 1) (j + 1)) (d.dm l i k j) (d.dv i k j)
      s).map fun s' => ((), s')
  cost := fun s => s.acc.cost
  conclude := fun l i k _ s =>
    let r := evalAll key (d.fit l i (k + 1) 0) s.acc s.individuals
    match Run.nsgaiiFinish fl (S l) key (d.fit l i (k + 1) 0) m (d.iter i (k + 1) 0) s,
      nsgaiiDelegates m (d.iter i (k + 1) 0) r.2 with
    | some (s', pop), some delegates => some ((), s', pop, delegates)
    | _, _ => none

/-- The driver of a node when the distributed HGS runs with JGBL (algorithms/HGS/distributed/actors.py:242-259, JGBL.py:8-40),
see `Hgs.jgblOps`. -/
def jgblOps (fl : K → K) (S : ℕ → Setup K) (key : List K → A) (m : ℕ) (c : K) (d : JgblDraws K) :
    NodeOps Unit (NState K A) (List K) where
  make := fun l i pop _ => some ((), Run.nsgaiiInit fl (S l) key (d.fit l i 0 0) none c pop)
  step := fun l i k j _ s =>
    (Run.jgblStep fl (S l) key (d.fit l i (k + 1) (j + 1)) m (d.orders i (k + 1) (j + 1)) (d.dm l i k j)
      (d.dv i k j) (d.jd i k j) s).map fun s' => ((), s')
  cost := fun s => s.acc.cost
  conclude := fun l i k _ s =>
    let r := evalAll key (d.fit l i (k + 1) 0) s.acc s.individuals
    match Run.nsgaiiFinish fl (S l) key (d.fit l i (k + 1) 0) m (d.orders i (k + 1) 0).inner s,
      nsgaiiDelegates m (d.orders i (k + 1) 0).inner r.2 with
    | some (s', pop), some delegates => some ((), s', pop, delegates)
    | _, _ => none

/-- The driver of a node when the distributed HGS runs with NSGA-III (algorithms/HGS/distributed/actors.py:242-259), see
`Hgs.nsgaiiiOps`. -/
def nsgaiiiOps (fl : K → K) (pw : K → K → K) (dot : List K → List K → K) (norm : List K → K) (eps : K)
    (f : ℕ → List K → List K) (cf : ℕ → ℕ → Evogil.Nsgaiii.Conf K) (d : NsgaiiiDraws K) :
    NodeOps Unit (NsgaiiiNode K) (List K) where
  make := fun l i pop _ => some ((), ⟨cf l i, Evogil.Nsgaiii.initCosted (f l) (cf l i) pop, []⟩)
  step := fun l i k j _ s =>
    match Nsgaiii.stepCosted fl pw dot norm eps (f l) s.cf (d.ds l i k j) (d.iter i k j) (d.sample i k j) s.st,
      Nsgaiii.stepFront fl pw dot norm eps (f l) s.cf (d.ds l i k j) (d.iter i k j) (2 * s.st.st.size + 1) s.st.st with
    | some st, some front => some ((), ⟨s.cf, st, front.map Evogil.Nsgaiii.Ind.v⟩)
    | _, _ => none
  cost := fun s => s.st.cost
  conclude := fun _ _ _ _ s => some ((), s, s.st.st.inds.map Evogil.Nsgaiii.Ind.v, s.front)

/-- The driver of a node when the distributed HGS runs with NSLS (algorithms/HGS/distributed/actors.py:242-259), see
`Hgs.nslsOps`. -/
def nslsOps (fl : K → K) (dims : List (K × K)) (trim : ℕ → List K → List K) (f : ℕ → List K → List K) (m : ℕ)
    (vdist : List K → List K → K) (d : NslsDraws K) :
    NodeOps Unit (Evogil.Nsls.Costed K × List (List K)) (List K) where
  make := fun l _ pop _ => some ((), Evogil.Nsls.initCosted (trim l) pop, [])
  step := fun l i k j _ s =>
    match Nsls.stepCosted fl dims (trim l) (f l) m vdist (d.ds l i k j) (d.iter i k j) (d.sample i k j) s.1,
      Nsls.stepFront fl dims (trim l) (f l) (d.ds l i k j) (d.iter i k j) (2 * s.1.size + 1) s.1.inds with
    | some st, some front => some ((), st, front.map Evogil.Nsls.Ind.v)
    | _, _ => none
  cost := fun s => s.1.cost
  conclude := fun _ _ _ _ s => some ((), s, s.1.inds.map Evogil.Nsls.Ind.v, s.2)

end Dist

end Evogil.Rounded
