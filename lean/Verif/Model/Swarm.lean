import Verif.Model.Omopso
import Verif.Model.Evaluation
import Verif.Model.GenerationsRun

/-!
# Complete steps of OMOPSO (`algorithms/OMOPSO/OMOPSO.py`)

The parts of `Verif.Model.Omopso` put together. Archive members are deep copies of particles
(lines 68, 69, 111, 113); each copy gets its own number. Only those attributes of a copy are kept
that are read later: value, objectives and (as a separate function) the crowding value.
-/

namespace Evogil.Swarm

open Evaluation Omopso Generations

variable {K : Type*} [Field K] [LinearOrder K] {A : Type*}

/-- A deep copy of a particle, OMOPSO.py:242-248. -/
structure Snap (K : Type*) where
  id : ℕ
  v : List K
  objs : List K
  deriving DecidableEq

/-- `Individual`, OMOPSO.py:234-240, 260-261; of the attribute `best_val` the value and the objectives
are kept. -/
structure Particle (K : Type*) where
  v : List K
  speed : List K
  best : Option (List K × List K)
  objs : List K
  deriving DecidableEq

/-- The state of the driver, OMOPSO.py:28-42, 57-64; `cv` are the attributes `crowd_val` of the
leaders and `nextId` the first unused number. -/
structure OState (K : Type*) where
  particles : List (Particle K)
  archive : List (Snap K)
  leaders : List (Snap K)
  cv : Snap K → WithTop K
  leadersSize : ℕ
  cost : ℕ
  nextId : ℕ

/-- The objectives as functions of archive members, OMOPSO.py:317. -/
def snapObjs (m : ℕ) : List (Snap K → K) := (List.range m).map fun j x => x.objs.getD j 0

/-- One turn of `update_leaders` and `init_leaders`, OMOPSO.py:66-69 and 109-113; state: archive,
leaders and next number. -/
def offer (eta : K) (m size : ℕ) (st : List (Snap K) × List (Snap K) × ℕ) (p : Particle K) :
    List (Snap K) × List (Snap K) × ℕ :=
  let r := leaderAdd (domEta Snap.objs (0 : K)) (eqvObj Snap.objs) (snapObjs m) size st.2.1
    ⟨st.2.2, p.v, p.objs⟩
  if r.1 then
    ((archiveAdd (domEta Snap.objs eta) (eqvObj Snap.objs) st.1 ⟨st.2.2 + 1, p.v, p.objs⟩).2, r.2,
      st.2.2 + 2)
  else (st.1, r.2, st.2.2 + 1)

/-- `calculate_objectives`, OMOPSO.py:115-124: the cost and the evaluated particles. -/
def evalSwarm (key : List K → A) (fit : List K → List K) (fa : Option (Archive A (List K)))
    (ps : List (Particle K)) : ℕ × List (Particle K) :=
  let r := chargeAll key fit fa ps.length (ps.map Particle.v)
  (r.1, ps.zipWith (fun p o => { p with objs := o }) r.2.2)

/-- `update_personal_best`, OMOPSO.py:102-107, for one particle; `none` is the `AttributeError` for a
particle without `best_val`. -/
def bestOne (p : Particle K) : Option (Particle K) :=
  match p.best with
  | none => none
  | some b =>
    if (omopsoDominates (0 : K) p.objs b.2).getD false then some { p with best := some (p.v, p.objs) }
    else some p

/-- `__init__` and `init`, OMOPSO.py:27-44 and 53-69; raises for an empty population (line 312, called
by line 64). -/
def omopsoInit (trim : List K → List K) (eta : K) (m : ℕ) (key : List K → A)
    (fit : List K → List K) (fa : Option (Archive A (List K))) (population : List (List K)) :
    Option (OState K) :=
  let ps := population.map fun x => (⟨trim x, (trim x).map fun _ => 0, none, []⟩ : Particle K)
  let e := evalSwarm key fit fa ps
  let r := e.2.foldl (offer eta m population.length) ([], [], 0)
  let ps := e.2.map fun p => { p with best := some (p.v, p.objs) }
  if r.2.1 = [] then none
  else
    let c := crowding (snapObjs m) r.2.1
    some ⟨ps, r.1, c.1, c.2, population.length, e.1, r.2.2⟩

/-- The random numbers of `compute_speed` for one particle, OMOPSO.py:146-150 and 229; `pair n` are the
positions sampled from `n` leaders. -/
structure SpeedDraw (K : Type*) where
  pair : ℕ → ℕ × ℕ
  r1 : K
  r2 : K
  c1 : K
  c2 : K
  w : K

/-- The guide of a particle, OMOPSO.py:140-144 and 228-230. -/
def guide (cv : Snap K → WithTop K) (leaders : List (Snap K)) (pair : ℕ → ℕ × ℕ) :
    Option (Snap K) :=
  if 1 < leaders.length then
    let t := pair leaders.length
    if t.1 = t.2 then none
    else
      match leaders[t.1]?, leaders[t.2]? with
      | some a, some b => some (if cv b < cv a then b else a)
      | _, _ => none
  else leaders[0]?

/-- The loop over the coordinates in `compute_speed`, OMOPSO.py:152-157: speed, value, best value,
value of the guide. -/
def speedVec (d : SpeedDraw K) : List K → List K → List K → List K → List (K × K) → Option (List K)
  | ss, _, _, _, [] => some ss
  | s :: ss, x :: xs, b :: bs, g :: gs, _ :: dims =>
    (speedVec d ss xs bs gs dims).map fun ss' =>
      speedCoord d.w d.c1 d.r1 d.c2 d.r2 s x b g :: ss'
  | _, _, _, _, _ :: _ => none

/-- `compute_speed` for one particle, OMOPSO.py:139-157. -/
def speedOne (dims : List (K × K)) (cv : Snap K → WithTop K) (leaders : List (Snap K))
    (d : SpeedDraw K) (p : Particle K) : Option (Particle K) :=
  match guide cv leaders d.pair, p.best with
  | some g, some b => (speedVec d p.speed p.v b.1 g.v dims).map fun s => { p with speed := s }
  | _, _ => none

/-- `move` (OMOPSO.py:126-136) and the trimming of lines 85-86 for one particle. -/
def moveParticle (dims : List (K × K)) (trim : List K → List K) (p : Particle K) :
    Option (Particle K) :=
  (moveOne p.v p.speed dims).map fun r => { p with v := trim r.1, speed := r.2 }

/-- `step`, OMOPSO.py:74-100. The mutation (lines 82-83, 159-174) only builds `map` objects which are
never evaluated, so it changes nothing. -/
def omopsoStep (dims : List (K × K)) (trim : List K → List K) (eta : K) (m : ℕ) (key : List K → A)
    (fit : List K → List K) (fa : Option (Archive A (List K))) (ds : ℕ → SpeedDraw K)
    (s : OState K) : Option (OState K) :=
  match s.particles.zipIdx.mapM fun p => speedOne dims s.cv s.leaders (ds p.2) p.1 with
  | none => none
  | some ps =>
    match ps.mapM (moveParticle dims trim) with
    | none => none
    | some ps =>
      let e := evalSwarm key fit fa ps
      let r := e.2.foldl (offer eta m s.leadersSize) (s.archive, s.leaders, s.nextId)
      match e.2.mapM bestOne with
      | none => none
      | some ps =>
        if r.2.1 = [] then none
        else
          let c := crowding (snapObjs m) r.2.1
          some ⟨ps, r.1, c.1, c.2, s.leadersSize, s.cost + e.1, r.2.2⟩

/-- `finalized_population`, OMOPSO.py:71-72. -/
def omopsoFinal (s : OState K) : List (List K) := s.archive.map Snap.v

/-- OMOPSO as a driver, OMOPSO.py:71-100. -/
def omopsoDriver (dims : List (K × K)) (trim : List K → List K) (eta : K) (m : ℕ)
    (key : List K → A) (fit : List K → List K) (fa : Option (Archive A (List K)))
    (ds : ℕ → ℕ → SpeedDraw K) : DriverSig (Option (ℕ × OState K)) (Option (List (List K))) :=
  optDriver (fun n => omopsoStep dims trim eta m key fit fa (ds n)) (fun s => s.cost)
    (fun _ s => some (s, omopsoFinal s))

end Evogil.Swarm
