import Verif.Model.Swarm

/-!
# OMOPSO with the lists it shares with its caller

`move` (`algorithms/OMOPSO/OMOPSO.py:126-136`) writes into the list `p.value`, and `Individual`
(lines 234-240) keeps the list it is given. Here positions are addresses of lists. Everything else is
as in `Verif.Model.Swarm`: best values and archive members are deep copies (lines 53-55, 68, 69, 107,
111, 113), speeds are lists of the driver's own (line 261).
-/

namespace Evogil.Swarm

open Evaluation Omopso Generations

variable {K : Type*} [Field K] [LinearOrder K] {A : Type*}

/-- The contents of all lists, and the first unused address. -/
structure Heap (K : Type*) where
  mem : ℕ → List K
  next : ℕ

/-- `p.value[i] = ..` for all `i`, OMOPSO.py:136. -/
def Heap.write (h : Heap K) (a : ℕ) (v : List K) : Heap K :=
  { h with mem := fun b => if b = a then v else h.mem b }

/-- A trim function: the default returns its argument (OMOPSO.py:22), that of HGS makes a new list
(algorithms/HGS/tools.py:26-27). -/
inductive TrimFn (K : Type*) where
  | same
  | fresh (f : List K → List K)

/-- `trim_function(x)` for the list at an address; returns the address of the result. -/
def TrimFn.call (t : TrimFn K) (h : Heap K) (a : ℕ) : Heap K × ℕ :=
  match t with
  | .same => (h, a)
  | .fresh f => (⟨fun b => if b = h.next then f (h.mem a) else h.mem b, h.next + 1⟩, h.next)

/-- The list returned. -/
def TrimFn.fn : TrimFn K → List K → List K
  | .same => id
  | .fresh f => f

/-- `Individual`, OMOPSO.py:234-240, 260-261, with the address of its value. -/
structure HParticle (K : Type*) where
  addr : ℕ
  speed : List K
  best : Option (List K × List K)
  objs : List K

/-- What is seen of a particle. -/
def HParticle.view (h : Heap K) (p : HParticle K) : Particle K :=
  ⟨h.mem p.addr, p.speed, p.best, p.objs⟩

/-- The attributes of a particle except for the value set to those of `q`. -/
def HParticle.set (p : HParticle K) (q : Particle K) : HParticle K :=
  ⟨p.addr, q.speed, q.best, q.objs⟩

/-- The state of the driver with the lists. -/
structure HState (K : Type*) where
  heap : Heap K
  particles : List (HParticle K)
  archive : List (Snap K)
  leaders : List (Snap K)
  cv : Snap K → WithTop K
  leadersSize : ℕ
  cost : ℕ
  nextId : ℕ

/-- What is seen of the state. -/
def HState.view (s : HState K) : OState K :=
  ⟨s.particles.map (HParticle.view s.heap), s.archive, s.leaders, s.cv, s.leadersSize, s.cost, s.nextId⟩

/-- The list comprehension of OMOPSO.py:30. -/
def makeParticles (t : TrimFn K) : Heap K → List ℕ → Heap K × List (HParticle K)
  | h, [] => (h, [])
  | h, a :: l =>
    let r := t.call h a
    let p : HParticle K := ⟨r.2, (r.1.mem r.2).map fun _ => 0, none, []⟩
    let q := makeParticles t r.1 l
    (q.1, p :: q.2)

/-- `__init__` and `init`, OMOPSO.py:27-44 and 53-69, for a population of lists at given addresses. -/
def heapInit (t : TrimFn K) (eta : K) (m : ℕ) (key : List K → A) (fit : List K → List K)
    (fa : Option (Archive A (List K))) (h : Heap K) (population : List ℕ) : Option (HState K) :=
  let c := makeParticles t h population
  let e := evalSwarm key fit fa (c.2.map (HParticle.view c.1))
  let r := e.2.foldl (offer eta m population.length) ([], [], 0)
  let ps := c.2.zipWith HParticle.set (e.2.map fun p => { p with best := some (p.v, p.objs) })
  if r.2.1 = [] then none
  else
    let w := crowding (snapObjs m) r.2.1
    some ⟨c.1, ps, r.1, w.1, w.2, population.length, e.1, r.2.2⟩

/-- `move`, OMOPSO.py:126-136: one particle after the other. -/
def moveAll (dims : List (K × K)) : Heap K → List (HParticle K) → Option (Heap K × List (HParticle K))
  | h, [] => some (h, [])
  | h, p :: ps =>
    match moveOne (h.mem p.addr) p.speed dims with
    | none => none
    | some r => (moveAll dims (h.write p.addr r.1) ps).map fun q => (q.1, { p with speed := r.2 } :: q.2)

/-- Lines 85-86 of OMOPSO.py. -/
def trimAll (t : TrimFn K) : Heap K → List (HParticle K) → Heap K × List (HParticle K)
  | h, [] => (h, [])
  | h, p :: ps =>
    let r := t.call h p.addr
    let q := trimAll t r.1 ps
    (q.1, { p with addr := r.2 } :: q.2)

/-- `step`, OMOPSO.py:74-100. -/
def heapStep (dims : List (K × K)) (t : TrimFn K) (eta : K) (m : ℕ) (key : List K → A)
    (fit : List K → List K) (fa : Option (Archive A (List K))) (ds : ℕ → SpeedDraw K)
    (s : HState K) : Option (HState K) :=
  match s.particles.zipIdx.mapM fun p =>
    (speedOne dims s.cv s.leaders (ds p.2) (p.1.view s.heap)).map p.1.set with
  | none => none
  | some ps =>
    match moveAll dims s.heap ps with
    | none => none
    | some q =>
      let q := trimAll t q.1 q.2
      let e := evalSwarm key fit fa (q.2.map (HParticle.view q.1))
      let r := e.2.foldl (offer eta m s.leadersSize) (s.archive, s.leaders, s.nextId)
      match e.2.mapM bestOne with
      | none => none
      | some ps =>
        if r.2.1 = [] then none
        else
          let c := crowding (snapObjs m) r.2.1
          some ⟨q.1, q.2.zipWith HParticle.set ps, r.1, c.1, c.2, s.leadersSize, s.cost + e.1, r.2.2⟩

/-- Several steps of a driver (BudgetRun and StepsRun, algorithms/base/driver.py:57-80), which all
have their own draws; the next one has number `k`. -/
def steps {σ δ : Type*} (step : δ → σ → Option σ) (d : ℕ → δ) : ℕ → ℕ → σ → Option σ
  | _, 0, s => some s
  | k, n + 1, s => (step (d k) s).bind (steps step d (k + 1) n)

end Evogil.Swarm
