import Verif.Model.HgsRun
import Verif.Model.Jumping
import Verif.Model.NsgaiiiRun
import Verif.Model.NslsRun
import Verif.Model.Swarm

/-!
# HGS with OMOPSO, JGBL, NSGA-III and NSLS in its nodes

The operations (`NodeOps`, `Verif.Model.HgsRun`) of the remaining drivers, as they are used by the nodes of the
distributed HGS, that is without fitness archive (algorithms/HGS/distributed/actors.py:242-259).

Simplified: on every level the objectives are functions of the vector, as they are with `fitness_errors` zero
(the shipped value, simulation/run_config.py:52 and 66).
-/

namespace Evogil

namespace Nsgaiii
variable {K : Type*} [Field K] [LinearOrder K]

/-- `self.front[1]` after `step`, NSGAIII.py:117-206, 177 and 206: the first front of the children and the
individuals. The computation is that of `step`, which the code makes once. -/
def stepFront (pw : K → K → K) (sq : K → K) (eps : K) (f : List K → List K) (cf : Conf K)
    (ds : ℕ → PairDraw K) (iter : List ℕ → List ℕ) (fuel : ℕ) (st : State K) : Option (List (Ind K)) :=
  match makeOffspring pw eps cf ds st.inds (st.size / 2) 0 with
  | none => none
  | some raw =>
    let offspring := raw.map fun x => evaluate f ⟨cf.trim x.v, x.objectives⟩
    let ideal := updateIdeal st.ideal (offspring.filterMap Ind.objectives)
    let all := offspring ++ st.inds
    match allObjectives all with
    | none => none
    | some objs =>
      let sc := scores sq eps cf ideal objs
      (ndSort iter (thetaDom (fun i => (sc.getD i (0, 0)).1) (fun i => (sc.getD i (0, 0)).2)) fuel
        (List.range sc.length)).map fun fronts => (fronts.headD []).filterMap fun i => all[i]?

end Nsgaiii

namespace Nsls
variable {K : Type*} [Field K] [LinearOrder K]

/-- `self.front[1]` after `step`, NSLS.py:80-84, 134-160: the first front of the individuals after the local
search. The computation is that of `step`, which the code makes once. -/
def stepFront (dims : List (K × K)) (trim : List K → List K) (f : List K → List K)
    (ds : ℕ → ℕ → LsDraw K) (iter : List ℕ → List ℕ) (fuel : ℕ) (inds : List (Ind K)) :
    Option (List (Ind K)) :=
  match localSearch dims trim f ds (inds.map (evaluate f)) with
  | none => none
  | some all =>
    match allObjectives all with
    | none => none
    | some objs =>
      (ndSort iter (nsgaiiDom fun i => objs.getD i []) fuel (List.range all.length)).map
        fun fronts => (fronts.headD []).filterMap fun i => all[i]?

end Nsls

namespace Hgs

open Generations Evaluation

section
variable {K : Type*} [Field K] [LinearOrder K]

/-- The driver of a node when the distributed HGS runs with OMOPSO: `trim l`, `fit l` are those of level `l`;
the delegates are the positions of all particles (OMOPSO/message.py:31-36), the population is the archive
(OMOPSO.py:71-72). -/
def omopsoOps (dims : List (K × K)) (trim : ℕ → List K → List K) (eta : K) (m : ℕ)
    (fit : ℕ → List K → List K) (ds : ℕ → ℕ → ℕ → ℕ → Swarm.SpeedDraw K) :
    NodeOps Unit (Swarm.OState K) (List K) where
  make := fun l _ pop _ => (Swarm.omopsoInit (trim l) eta m id (fit l) none pop).map fun s => ((), s)
  step := fun l i k j _ s =>
    (Swarm.omopsoStep dims (trim l) eta m id (fit l) none (ds i k j) s).map fun s' => ((), s')
  cost := fun s => s.cost
  conclude := fun _ _ _ _ s =>
    some ((), s, Swarm.omopsoFinal s, s.particles.map Swarm.Particle.v)

/-- The draws of the NSGA-III drivers by node, step of HGS and step of the metaepoch; those of `ds` have the
level in front. -/
structure NsgaiiiDraws (K : Type*) where
  ds : ℕ → ℕ → ℕ → ℕ → ℕ → Nsgaiii.PairDraw K
  iter : ℕ → ℕ → ℕ → List ℕ → List ℕ
  sample : ℕ → ℕ → ℕ → List ℕ → ℕ → List ℕ

/-- An NSGA-III driver: the attributes that stay the same, those that change, and the vectors of
`self.front[1]`. -/
structure NsgaiiiNode (K : Type*) where
  cf : Nsgaiii.Conf K
  st : Nsgaiii.Costed K
  front : List (List K)

/-- The driver of a node when the distributed HGS runs with NSGA-III. `cf l i` are the parameters of level `l`
with the reference points drawn by the driver of node `i` (NSGAIII.py:50, 74-78). The delegates are `front[1]` (HGS/distributed/message.py:78-79), which does not exist
before the first step (NSGAIII.py:72); a metaepoch has at least one, so the model starts with an empty one. -/
def nsgaiiiOps (pw : K → K → K) (sq : K → K) (eps : K) (f : ℕ → List K → List K)
    (cf : ℕ → ℕ → Nsgaiii.Conf K) (d : NsgaiiiDraws K) : NodeOps Unit (NsgaiiiNode K) (List K) where
  make := fun l i pop _ => some ((), ⟨cf l i, Nsgaiii.initCosted (f l) (cf l i) pop, []⟩)
  step := fun l i k j _ s =>
    match Nsgaiii.stepCosted pw sq eps (f l) s.cf (d.ds l i k j) (d.iter i k j) (d.sample i k j) s.st,
      Nsgaiii.stepFront pw sq eps (f l) s.cf (d.ds l i k j) (d.iter i k j) (2 * s.st.st.size + 1) s.st.st with
    | some st, some front => some ((), ⟨s.cf, st, front.map Nsgaiii.Ind.v⟩)
    | _, _ => none
  cost := fun s => s.st.cost
  conclude := fun _ _ _ _ s => some ((), s, s.st.st.inds.map Nsgaiii.Ind.v, s.front)

/-- The draws of the NSLS drivers; `ds` has the level in front. -/
structure NslsDraws (K : Type*) where
  ds : ℕ → ℕ → ℕ → ℕ → ℕ → ℕ → Nsls.LsDraw K
  iter : ℕ → ℕ → ℕ → List ℕ → List ℕ
  sample : ℕ → ℕ → ℕ → List ℕ → ℕ → List ℕ

/-- The driver of a node when the distributed HGS runs with NSLS, with the vectors of `self.front[1]`; the
delegates are `front[1]` (HGS/distributed/message.py:78-79), which does not exist before the first step
(NSLS.py:45). -/
def nslsOps (dims : List (K × K)) (trim : ℕ → List K → List K) (f : ℕ → List K → List K) (m : ℕ)
    (vdist : List K → List K → K) (d : NslsDraws K) :
    NodeOps Unit (Nsls.Costed K × List (List K)) (List K) where
  make := fun l _ pop _ => some ((), Nsls.initCosted (trim l) pop, [])
  step := fun l i k j _ s =>
    match Nsls.stepCosted dims (trim l) (f l) m vdist (d.ds l i k j) (d.iter i k j) (d.sample i k j) s.1,
      Nsls.stepFront dims (trim l) (f l) (d.ds l i k j) (d.iter i k j) (2 * s.1.size + 1) s.1.inds with
    | some st, some front => some ((), st, front.map Nsls.Ind.v)
    | _, _ => none
  cost := fun s => s.1.cost
  conclude := fun _ _ _ _ s => some ((), s, s.1.inds.map Nsls.Ind.v, s.2)

end

section
variable {K : Type*} [Field K] [LinearOrder K] [FloorSemiring K] {A : Type*} [DecidableEq A]

/-- The draws of the JGBL drivers. -/
structure JgblDraws (K : Type*) where
  fit : ℕ → ℕ → ℕ → ℕ → List K → List K
  orders : ℕ → ℕ → ℕ → Jumping.Orders (Ind (List K) (List K))
  dm : ℕ → ℕ → ℕ → ℕ → ℕ → MateDraw
  dv : ℕ → ℕ → ℕ → ℕ → VarDraw K
  jd : ℕ → ℕ → ℕ → ℕ → ℕ → Option Jgbl.JumpDraw

/-- The driver of a node when the distributed HGS runs with JGBL: constructor, result and delegates are those
of NSGA-II (JGBL.py:8-40, JGBL/message.py:8-11). -/
def jgblOps (S : ℕ → Setup K) (key : List K → A) (m : ℕ) (c : K) (d : JgblDraws K) :
    NodeOps Unit (NState K A) (List K) where
  make := fun l i pop _ => some ((), nsgaiiInit (S l) key (d.fit l i 0 0) none c pop)
  step := fun l i k j _ s =>
    (Jumping.jgblStep (S l) key (d.fit l i (k + 1) (j + 1)) m (d.orders i (k + 1) (j + 1)) (d.dm l i k j)
      (d.dv i k j) (d.jd i k j) s).map fun s' => ((), s')
  cost := fun s => s.acc.cost
  conclude := fun l i k _ s =>
    let r := evalAll key (d.fit l i (k + 1) 0) s.acc s.individuals
    match nsgaiiFinish (S l) key (d.fit l i (k + 1) 0) m (d.orders i (k + 1) 0).inner s,
      nsgaiiDelegates m (d.orders i (k + 1) 0).inner r.2 with
    | some (s', pop), some delegates => some ((), s', pop, delegates)
    | _, _ => none

end

end Hgs

end Evogil
