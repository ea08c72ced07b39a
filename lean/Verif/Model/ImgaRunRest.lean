import Verif.Model.ImgaRun
import Verif.Model.Jumping
import Verif.Model.NsgaiiiRun
import Verif.Model.NslsRun
import Verif.Model.Swarm

/-!
# The island model with OMOPSO, JGBL, NSGA-III and NSLS

The operations (`IslandOps`, `Verif.Model.ImgaRun`) of the remaining drivers. The islands pass no fitness archive
and no trim function, IMGA.py:119-128; the trim functions are parameters here all the same.
-/

namespace Evogil

namespace Nsgaiii
variable {K : Type*} [Field K] [LinearOrder K]

/-- The attribute `normalized_objectives` of everybody who takes part in a step, NSGAIII.py:117-136 and 236-254:
the new individuals, then the old ones. Each is given with its vector. The computation is that of `step`, which the
code makes once. -/
def stepNormalized (pw : K → K → K) (eps : K) (f : List K → List K) (cf : Conf K) (ds : ℕ → PairDraw K)
    (st : State K) : Option (List (List K × List K)) :=
  match makeOffspring pw eps cf ds st.inds (st.size / 2) 0 with
  | none => none
  | some raw =>
    let offspring := raw.map fun x => evaluate f ⟨cf.trim x.v, x.objectives⟩
    let ideal := updateIdeal st.ideal (offspring.filterMap Ind.objectives)
    let all := offspring ++ st.inds
    match allObjectives all with
    | none => none
    | some objs => some (List.zipWith (fun x o => (x.v, normalizeOne eps ideal (defiledPoint cf.m objs) o)) all objs)

end Nsgaiii

namespace Imga

open Generations Evaluation

section
variable {K : Type*} [Field K] [LinearOrder K]

/-- An island with OMOPSO, with the number of the island as soon as it has made a step. -/
structure OmopsoIsland (K : Type*) where
  st : Swarm.OState K
  home : ℕ

/-- `reset_speed`, OMOPSO.py:260-261 -/
def resetSpeed (p : Swarm.Particle K) : Swarm.Particle K := { p with speed := p.v.map fun _ => 0 }

/-- An island with OMOPSO, algorithms/OMOPSO/message.py:6-27. A particle is accompanied by the number of the island
it lives on when the exchange begins, so `put` can tell who arrives (message.py:10-13): only they lose their
speed. -/
def omopsoOps (dims : List (K × K)) (trim : List K → List K) (eta : K) (m : ℕ) (fit : List K → List K)
    (ds : ℕ → ℕ → ℕ → ℕ → Swarm.SpeedDraw K) :
    IslandOps (OmopsoIsland K) (Swarm.Particle K × ℕ) (List K) where
  step := fun i k j s =>
    (Swarm.omopsoStep dims trim eta m id fit none (ds i k j) s.st).map fun s' => ⟨s', i⟩
  cost := fun s => s.st.cost
  inds := fun s => s.st.particles.map fun p => (p, s.home)
  put := fun l s =>
    ⟨{ s.st with particles := l.map fun x => if x.2 = s.home then x.1 else resetSpeed x.1 }, s.home⟩
  vec := fun x => x.1.v
  finalize := fun _ _ s => some (s, Swarm.omopsoFinal s.st)

/-- The constructor of an island with OMOPSO, IMGA.py:119-128, OMOPSO.py:11-44. -/
def omopsoMake (trim : List K → List K) (eta : K) (m : ℕ) (fit : List K → List K)
    (population : List (List K)) : Option (OmopsoIsland K) :=
  (Swarm.omopsoInit trim eta m id fit none population).map fun s => ⟨s, 0⟩

/-- The draws of NSGA-III on the islands: by island, step of IMGA and step of the epoch. -/
structure NsgaiiiDraws (K : Type*) where
  refs : ℕ → List (List K)
  ds : ℕ → ℕ → ℕ → ℕ → Nsgaiii.PairDraw K
  iter : ℕ → ℕ → ℕ → List ℕ → List ℕ
  sample : ℕ → ℕ → ℕ → List ℕ → ℕ → List ℕ

/-- An island with NSGA-III, algorithms/NSGAIII/message.py:5-6 (the default adapter): the immigrants are not taken
into the ideal point. The reference points of island `i` are drawn by its driver, NSGAIII.py:50, and not used
before the first step. -/
def nsgaiiiOps (pw : K → K → K) (sq : K → K) (eps : K) (f : List K → List K) (cf : Nsgaiii.Conf K)
    (d : NsgaiiiDraws K) : IslandOps (Nsgaiii.Costed K) (Nsgaiii.Ind K) (List K) where
  step := fun i k j => Nsgaiii.stepCosted pw sq eps f { cf with refs := d.refs i } (d.ds i k j) (d.iter i k j)
    (d.sample i k j)
  cost := fun s => s.cost
  inds := fun s => s.st.inds
  put := fun l s => ⟨{ s.st with inds := l }, s.cost⟩
  vec := Nsgaiii.Ind.v
  finalize := fun _ _ s => some (s, s.st.inds.map Nsgaiii.Ind.v)

/-- The draws of NSLS on the islands. -/
structure NslsDraws (K : Type*) where
  ds : ℕ → ℕ → ℕ → ℕ → ℕ → Nsls.LsDraw K
  iter : ℕ → ℕ → ℕ → List ℕ → List ℕ
  sample : ℕ → ℕ → ℕ → List ℕ → ℕ → List ℕ

/-- An island with NSLS, algorithms/NSLS/message.py:5-6 (the default adapter). -/
def nslsOps (dims : List (K × K)) (trim : List K → List K) (f : List K → List K) (m : ℕ)
    (vdist : List K → List K → K) (d : NslsDraws K) :
    IslandOps (Nsls.Costed K) (Nsls.Ind K) (List K) where
  step := fun i k j => Nsls.stepCosted dims trim f m vdist (d.ds i k j) (d.iter i k j) (d.sample i k j)
  cost := fun s => s.cost
  inds := fun s => s.inds
  put := fun l s => { s with inds := l }
  vec := Nsls.Ind.v
  finalize := fun _ _ s => some (s, s.inds.map Nsls.Ind.v)

end

section
variable {K : Type*} [Field K] [LinearOrder K] {A : Type*} [DecidableEq A]

/-- The draws of JGBL on the islands. -/
structure JgblDraws (K : Type*) where
  orders : ℕ → ℕ → ℕ → Jumping.Orders (Ind (List K) (List K))
  dm : ℕ → ℕ → ℕ → ℕ → MateDraw
  dv : ℕ → ℕ → ℕ → ℕ → VarDraw K
  jd : ℕ → ℕ → ℕ → ℕ → ℕ → Option Jgbl.JumpDraw

/-- An island with JGBL, algorithms/JGBL/message.py:4-5: the adapter is that of NSGA-II. -/
def jgblOps (S : Setup K) (key : List K → A) (fit : List K → List K) (m : ℕ) (d : JgblDraws K) :
    IslandOps (NState K A) (List K × Option (List K)) (List K) where
  step := fun i k j => Jumping.jgblStep S key fit m (d.orders i k j) (d.dm i k j) (d.dv i k j) (d.jd i k j)
  cost := fun s => s.acc.cost
  inds := fun s => s.individuals.map fun x => (x.v, x.objectives)
  put := fun l s => { s with individuals := renumber s.nextId l, nextId := s.nextId + l.length }
  vec := Prod.fst
  finalize := fun i k => nsgaiiFinish S key fit m (d.orders i k 0).inner

end

end Imga

end Evogil
