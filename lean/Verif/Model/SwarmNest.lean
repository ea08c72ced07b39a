import Verif.Model.SwarmHeap

/-!
# OMOPSO with the best positions nested in each other

`update_personal_best` (`algorithms/OMOPSO/OMOPSO.py:102-107`) stores a deep copy of the whole particle,
together with the best position it had so far, which is a deep copy of a whole particle again. Here a
particle carries that chain. Everything else is as in `Verif.Model.Swarm`.

Simplified: the Python stack has room for the same number of calls at every place where a copy is
made. The chains that the archive members carry are never read and are left out.
-/

namespace Evogil.Swarm

open Evaluation Omopso Generations

variable {K : Type*} [Field K] [LinearOrder K] {A : Type*}

/-- The attributes of an `Individual` except for `best_val` and `crowd_val`, OMOPSO.py:234-240. -/
structure Node (K : Type*) where
  v : List K
  speed : List K
  objs : List K
  deriving DecidableEq

/-- An `Individual`: its own attributes, followed by those of `best_val`, those of `best_val.best_val`
and so on up to the one for which `best_val` is `None`. -/
structure NParticle (K : Type*) where
  node : Node K
  chain : List (Node K)
  deriving DecidableEq

/-- `copy.deepcopy` of a list of numbers with room for so many calls on the stack. Two are in use while
the list itself is copied (`deepcopy`, `_deepcopy_list`) and two more for each number (`deepcopy`,
`_deepcopy_atomic`). `none` is the `RecursionError`. Used by OMOPSO.py:243, 245 and 247. -/
def copyList (room : ℕ) (l : List K) : Option (List K) :=
  if (if l = [] then 2 else 4) ≤ room then some l else none

/-- `copy.deepcopy` of an `Individual`, OMOPSO.py:242-248, with room for so many calls on the stack: two
are in use (`deepcopy`, `__deepcopy__`) while the attributes are copied, and two more for a `best_val`
that is `None`. -/
def deepcopy : ℕ → Node K → List (Node K) → Option (Node K × List (Node K))
  | room, n, [] =>
    match copyList (room - 2) n.v with
    | none => none
    | some v =>
      if room - 2 < 2 then none
      else
        match copyList (room - 2) n.speed, copyList (room - 2) n.objs with
        | some speed, some objs => some (⟨v, speed, objs⟩, [])
        | _, _ => none
  | room, n, b :: rest =>
    match copyList (room - 2) n.v with
    | none => none
    | some v =>
      match deepcopy (room - 2) b rest with
      | none => none
      | some best =>
        match copyList (room - 2) n.speed, copyList (room - 2) n.objs with
        | some speed, some objs => some (⟨v, speed, objs⟩, best.1 :: best.2)
        | _, _ => none

/-- What is seen of a particle. -/
def NParticle.view (p : NParticle K) : Particle K :=
  ⟨p.node.v, p.node.speed, p.chain.head?.map fun b => (b.v, b.objs), p.node.objs⟩

/-- The attributes of a particle except for `best_val` set to those of `q`. -/
def NParticle.set (p : NParticle K) (q : Particle K) : NParticle K :=
  ⟨⟨q.v, q.speed, q.objs⟩, p.chain⟩

/-- The state of the driver. -/
structure NState (K : Type*) where
  particles : List (NParticle K)
  archive : List (Snap K)
  leaders : List (Snap K)
  cv : Snap K → WithTop K
  leadersSize : ℕ
  cost : ℕ
  nextId : ℕ

/-- What is seen of the state. -/
def NState.view (s : NState K) : OState K :=
  ⟨s.particles.map NParticle.view, s.archive, s.leaders, s.cv, s.leadersSize, s.cost, s.nextId⟩

/-- One turn of `update_leaders` and `init_leaders`, OMOPSO.py:66-69 and 109-113. The second copy (lines
69 and 113) needs as many calls as the first one and is not modelled separately. -/
def offerNested (room : ℕ) (eta : K) (m size : ℕ) (st : List (Snap K) × List (Snap K) × ℕ)
    (p : NParticle K) : Option (List (Snap K) × List (Snap K) × ℕ) :=
  match deepcopy room p.node p.chain with
  | none => none
  | some c => some (offer eta m size st ⟨c.1.v, c.1.speed, none, c.1.objs⟩)

/-- `init_personal_best`, OMOPSO.py:53-55, for one particle. -/
def firstBest (room : ℕ) (p : NParticle K) : Option (NParticle K) :=
  match deepcopy room p.node p.chain with
  | none => none
  | some c => some { p with chain := c.1 :: c.2 }

/-- `update_personal_best`, OMOPSO.py:102-107, for one particle; `none` is the `AttributeError` for a
particle without `best_val`, or the `RecursionError`. -/
def bestNested (room : ℕ) (p : NParticle K) : Option (NParticle K) :=
  match p.chain with
  | [] => none
  | b :: _ =>
    if (omopsoDominates (0 : K) p.node.objs b.objs).getD false then
      match deepcopy room p.node p.chain with
      | none => none
      | some c => some { p with chain := c.1 :: c.2 }
    else some p

/-- `__init__` and `init`, OMOPSO.py:27-44 and 53-69. -/
def nestInit (room : ℕ) (trim : List K → List K) (eta : K) (m : ℕ) (key : List K → A)
    (fit : List K → List K) (fa : Option (Archive A (List K))) (population : List (List K)) :
    Option (NState K) :=
  let ps := population.map fun x => (⟨⟨trim x, (trim x).map fun _ => 0, []⟩, []⟩ : NParticle K)
  let e := evalSwarm key fit fa (ps.map NParticle.view)
  let ps := ps.zipWith NParticle.set e.2
  match ps.foldlM (offerNested room eta m population.length) ([], [], 0) with
  | none => none
  | some r =>
    match ps.mapM (firstBest room) with
    | none => none
    | some ps =>
      if r.2.1 = [] then none
      else
        let c := crowding (snapObjs m) r.2.1
        some ⟨ps, r.1, c.1, c.2, population.length, e.1, r.2.2⟩

/-- `step`, OMOPSO.py:74-100. -/
def nestStep (room : ℕ) (dims : List (K × K)) (trim : List K → List K) (eta : K) (m : ℕ)
    (key : List K → A) (fit : List K → List K) (fa : Option (Archive A (List K)))
    (ds : ℕ → SpeedDraw K) (s : NState K) : Option (NState K) :=
  match s.particles.zipIdx.mapM fun p =>
    (speedOne dims s.cv s.leaders (ds p.2) p.1.view).map p.1.set with
  | none => none
  | some ps =>
    match ps.mapM fun p => (moveParticle dims trim p.view).map p.set with
    | none => none
    | some ps =>
      let e := evalSwarm key fit fa (ps.map NParticle.view)
      let ps := ps.zipWith NParticle.set e.2
      match ps.foldlM (offerNested room eta m s.leadersSize) (s.archive, s.leaders, s.nextId) with
      | none => none
      | some r =>
        match ps.mapM (bestNested room) with
        | none => none
        | some ps =>
          if r.2.1 = [] then none
          else
            let c := crowding (snapObjs m) r.2.1
            some ⟨ps, r.1, c.1, c.2, s.leadersSize, s.cost + e.1, r.2.2⟩

end Evogil.Swarm
