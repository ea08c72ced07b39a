import Verif.Model.RoundedImga
import Verif.Model.RoundedNsgaiiiRun
import Verif.Model.RoundedNsls
import Verif.Model.RoundedSwarm

/-!
# Islands with OMOPSO, NSGA-III and NSLS that compute with rounding (`algorithms/IMGA/IMGA.py`)

The islands of `Verif.Model.ImgaRunRest` with the steps of `Verif.Model.RoundedSwarm`, `Verif.Model.RoundedNsgaiiiRun` and
`Verif.Model.RoundedNsls`.
-/

namespace Evogil.Rounded

variable {K : Type*} [Field K] [LinearOrder K] [IsStrictOrderedRing K] [FloorRing K]

/-- OMOPSO as a driver, OMOPSO.py:71-100. -/
def Swarm.driver {A : Type*} (fl : K → K) (dims : List (K × K)) (trim : List K → List K) (eta : K) (m : ℕ)
    (key : List K → A) (fit : List K → List K) (fa : Option (Evaluation.Archive A (List K)))
    (ds : ℕ → ℕ → Evogil.Swarm.SpeedDraw K) :
    DriverSig (Option (ℕ × Evogil.Swarm.OState K)) (Option (List (List K))) :=
  Generations.optDriver (fun n => Swarm.step fl dims trim eta m key fit fa (ds n)) (fun s => s.cost)
    (fun _ s => some (s, Evogil.Swarm.omopsoFinal s))

namespace Islands

open Imga

/-- An island with OMOPSO, algorithms/OMOPSO/message.py:6-27 (see `Imga.omopsoOps`); OMOPSO.py:74-100. -/
def omopsoOps (fl : K → K) (dims : List (K × K)) (trim : List K → List K) (eta : K) (m : ℕ) (fit : List K → List K)
    (ds : ℕ → ℕ → ℕ → ℕ → Evogil.Swarm.SpeedDraw K) :
    IslandOps (OmopsoIsland K) (Evogil.Swarm.Particle K × ℕ) (List K) where
  step := fun i k j s =>
    (Swarm.step fl dims trim eta m id fit none (ds i k j) s.st).map fun s' => ⟨s', i⟩
  cost := fun s => s.st.cost
  inds := fun s => s.st.particles.map fun p => (p, s.home)
  put := fun l s =>
    ⟨{ s.st with particles := l.map fun x => if x.2 = s.home then x.1 else resetSpeed x.1 }, s.home⟩
  vec := fun x => x.1.v
  finalize := fun _ _ s => some (s, Evogil.Swarm.omopsoFinal s.st)

/-- The constructor of an island with OMOPSO, IMGA.py:119-128, OMOPSO.py:11-44. -/
def omopsoMake (fl : K → K) (trim : List K → List K) (eta : K) (m : ℕ) (fit : List K → List K)
    (population : List (List K)) : Option (OmopsoIsland K) :=
  (Swarm.init fl trim eta m id fit none population).map fun s => ⟨s, 0⟩

/-- An island with NSGA-III, algorithms/NSGAIII/message.py:5-6 (the default adapter); NSGAIII.py:117-206. -/
def nsgaiiiOps (fl : K → K) (pw : K → K → K) (dot : List K → List K → K) (norm : List K → K) (eps : K)
    (f : List K → List K) (cf : Evogil.Nsgaiii.Conf K) (d : NsgaiiiDraws K) :
    IslandOps (Evogil.Nsgaiii.Costed K) (Evogil.Nsgaiii.Ind K) (List K) where
  step := fun i k j => Nsgaiii.stepCosted fl pw dot norm eps f { cf with refs := d.refs i } (d.ds i k j) (d.iter i k j)
    (d.sample i k j)
  cost := fun s => s.cost
  inds := fun s => s.st.inds
  put := fun l s => ⟨{ s.st with inds := l }, s.cost⟩
  vec := Evogil.Nsgaiii.Ind.v
  finalize := fun _ _ s => some (s, s.st.inds.map Evogil.Nsgaiii.Ind.v)

/-- An island with NSLS, algorithms/NSLS/message.py:5-6 (the default adapter); NSLS.py:80-84. -/
def nslsOps (fl : K → K) (dims : List (K × K)) (trim : List K → List K) (f : List K → List K) (m : ℕ)
    (vdist : List K → List K → K) (d : NslsDraws K) :
    IslandOps (Evogil.Nsls.Costed K) (Evogil.Nsls.Ind K) (List K) where
  step := fun i k j => Nsls.stepCosted fl dims trim f m vdist (d.ds i k j) (d.iter i k j) (d.sample i k j)
  cost := fun s => s.cost
  inds := fun s => s.inds
  put := fun l s => { s with inds := l }
  vec := Evogil.Nsls.Ind.v
  finalize := fun _ _ s => some (s, s.inds.map Evogil.Nsls.Ind.v)

end Islands

end Evogil.Rounded
