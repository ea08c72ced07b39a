import Verif.Model.Swarm
import Verif.Model.RoundedMoves

/-!
# Complete steps of OMOPSO with rounding (`algorithms/OMOPSO/OMOPSO.py`)

As `Verif.Model.Swarm`, with every result of an operation rounded by the parameter `fl`: in `dominates`, in the crowding
values, in the speeds and in the moves.
-/

namespace Evogil.Rounded.Swarm

open Evaluation
open Evogil.Omopso (archiveAdd eqvObj)
open Evogil.Swarm (Snap Particle OState snapObjs evalSwarm SpeedDraw guide)

variable {K : Type*} [Field K] [LinearOrder K] [IsStrictOrderedRing K] [FloorRing K]

/-- The loop of `Individual.dominates`, OMOPSO.py:250-258; `none` is an `IndexError`. -/
def dominatesLoop (fl : K → K) (eta : K) : List K → List K → Bool → Option Bool
  | [], _, atLeastOne => some atLeastOne
  | _ :: _, [], _ => none
  | s :: ss, p :: ps, atLeastOne =>
    if p < fl (s / fl (1 + eta)) then some false
    else if p > fl (s / fl (1 + eta)) then dominatesLoop fl eta ss ps true
    else dominatesLoop fl eta ss ps atLeastOne

/-- `Individual.dominates`, OMOPSO.py:250-258, on objective vectors of equal length -/
def dominates (fl : K → K) (eta : K) (self p2 : List K) : Bool := (dominatesLoop fl eta self p2 false).getD false

section archive
variable {ι : Type*} [DecidableEq ι]

/-- The inner loop of `crowding`, OMOPSO.py:323-332: members with a left and a right neighbour. -/
def innerCrowd (fl : K → K) (o : ι → K) (objMin objMax : K) : (ι → WithTop K) → List ι → (ι → WithTop K)
  | cv, a :: b :: c :: rest =>
    innerCrowd fl o objMin objMax
      (Function.update cv b
        (if fl (objMax - objMin) > 0 then
          (cv b).map fun d => fl (d + fl (fl (o b - o a) / fl (objMax - objMin)))
        else ⊤))
      (b :: c :: rest)
  | cv, _ => cv

/-- One turn of the loop over the objectives, OMOPSO.py:316-332. -/
def crowdStep (fl : K → K) (o : ι → K) (st : List ι × (ι → WithTop K)) : List ι × (ι → WithTop K) :=
  let arch := pySorted o st.1
  match arch with
  | [] => (arch, st.2)
  | first :: rest =>
    let last := (first :: rest).getLast (by simp)
    let cv := Function.update (Function.update st.2 first ⊤) last ⊤
    (arch, innerCrowd fl o (o first) (o last) cv arch)

/-- `crowding`, OMOPSO.py:308-332: the archive, sorted in place, and the crowding values. An empty archive, for which line
312 raises, is tested for by the callers. -/
def crowding (fl : K → K) (objs : List (ι → K)) (archive : List ι) : List ι × (ι → WithTop K) :=
  objs.foldl (fun st o => crowdStep fl o st) (archive, fun _ => 0)

/-- `prune`, OMOPSO.py:303-306 -/
def prune (fl : K → K) (objs : List (ι → K)) (archive : List ι) : List ι :=
  match pyMaxBy (crowding fl objs archive).2 (crowding fl objs archive).1 with
  | none => (crowding fl objs archive).1
  | some worst => (crowding fl objs archive).1.erase worst

/-- `LeaderArchive.add`, OMOPSO.py:297-301 -/
def leaderAdd (fl : K → K) (dom eqv : ι → ι → Bool) (objs : List (ι → K)) (size : ℕ) (archive : List ι) (p : ι) :
    Bool × List ι :=
  let r := archiveAdd dom eqv archive p
  if r.1 && decide (r.2.length > size) then (r.1, prune fl objs r.2) else r

end archive

/-- One turn of `update_leaders` and `init_leaders`, OMOPSO.py:66-69 and 109-113; state: archive, leaders and next
number. -/
def offer (fl : K → K) (eta : K) (m size : ℕ) (st : List (Snap K) × List (Snap K) × ℕ) (p : Particle K) :
    List (Snap K) × List (Snap K) × ℕ :=
  let r := leaderAdd fl (fun x y => dominates fl 0 x.objs y.objs) (eqvObj Snap.objs) (snapObjs m) size st.2.1
    ⟨st.2.2, p.v, p.objs⟩
  if r.1 then
    ((archiveAdd (fun x y => dominates fl eta x.objs y.objs) (eqvObj Snap.objs) st.1 ⟨st.2.2 + 1, p.v, p.objs⟩).2, r.2,
      st.2.2 + 2)
  else (st.1, r.2, st.2.2 + 1)

/-- `update_personal_best`, OMOPSO.py:102-107, for one particle; `none` is the `AttributeError` for a particle without
`best_val`. -/
def bestOne (fl : K → K) (p : Particle K) : Option (Particle K) :=
  match p.best with
  | none => none
  | some b => if dominates fl 0 p.objs b.2 then some { p with best := some (p.v, p.objs) } else some p

variable {A : Type*}

/-- `__init__` and `init`, OMOPSO.py:27-44 and 53-69; raises for an empty population (line 312, called by line 64). -/
def init (fl : K → K) (trim : List K → List K) (eta : K) (m : ℕ) (key : List K → A) (fit : List K → List K)
    (fa : Option (Archive A (List K))) (population : List (List K)) : Option (OState K) :=
  let ps := population.map fun x => (⟨trim x, (trim x).map fun _ => 0, none, []⟩ : Particle K)
  let e := evalSwarm key fit fa ps
  let r := e.2.foldl (offer fl eta m population.length) ([], [], 0)
  let ps := e.2.map fun p => { p with best := some (p.v, p.objs) }
  if r.2.1 = [] then none
  else
    let c := crowding fl (snapObjs m) r.2.1
    some ⟨ps, r.1, c.1, c.2, population.length, e.1, r.2.2⟩

/-- `compute_speed`, `move` and the trimming of lines 85-86 for one particle, OMOPSO.py:126-157. The particles do not
influence each other here, so that one may be done after the other. -/
def flyOne (fl : K → K) (dims : List (K × K)) (trim : List K → List K) (cv : Snap K → WithTop K) (leaders : List (Snap K))
    (d : SpeedDraw K) (p : Particle K) : Option (Particle K) :=
  match guide cv leaders d.pair, p.best with
  | some g, some b =>
    match fly fl ⟨d.w, d.c1, d.r1, d.c2, d.r2, 0, 0⟩ p.v p.speed b.1 g.v dims with
    | .ok q => some { p with v := trim q.1, speed := q.2 }
    | .error _ => none
  | _, _ => none

/-- `step`, OMOPSO.py:74-100. The mutation (lines 82-83, 159-174) only builds `map` objects which are never evaluated. -/
def step (fl : K → K) (dims : List (K × K)) (trim : List K → List K) (eta : K) (m : ℕ) (key : List K → A)
    (fit : List K → List K) (fa : Option (Archive A (List K))) (ds : ℕ → SpeedDraw K) (s : OState K) :
    Option (OState K) :=
  match s.particles.zipIdx.mapM fun p => flyOne fl dims trim s.cv s.leaders (ds p.2) p.1 with
  | none => none
  | some ps =>
    let e := evalSwarm key fit fa ps
    let r := e.2.foldl (offer fl eta m s.leadersSize) (s.archive, s.leaders, s.nextId)
    match e.2.mapM (bestOne fl) with
    | none => none
    | some ps =>
      if r.2.1 = [] then none
      else
        let c := crowding fl (snapObjs m) r.2.1
        some ⟨ps, r.1, c.1, c.2, s.leadersSize, s.cost + e.1, r.2.2⟩

end Evogil.Rounded.Swarm
