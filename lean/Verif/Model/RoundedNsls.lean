import Verif.Model.NslsRun
import Verif.Model.RoundedMoves

/-!
# Complete steps of NSLS with rounding

`algorithms/NSLS/NSLS.py` with every result of an operation on coordinates rounded by the parameter `fl`. The
objectives and the distances are arbitrary functions. Simplified: exponents are not bounded from above; no fitness
archive. Selection (NSLS.py:134-221) only compares numbers and is the one of Model/Nsls.
-/

namespace Evogil.Rounded.Nsls

open Evogil.Nsls (Ind LsDraw Costed evaluate domI replacement allObjectives nextGeneration stepCost)
open Evogil.Generations (optDriver)

variable {K : Type*} [Field K] [LinearOrder K] [IsStrictOrderedRing K] [FloorRing K]

/-- NSLS.py:90-128 for individual number `i` and coordinate `k`; an entry of `cur` is an element of
`individuals_copy` and whether it has been replaced. -/
def lsTurn (fl : K → K) (dims : List (K × K)) (trim : List K → List K) (f : List K → List K) (i k : ℕ)
    (d : LsDraw K) (cur : List (Ind K × Bool)) : Option (List (Ind K × Bool)) :=
  if cur.length < 2 then none
  else
    match cur[i]?, cur[d.pu]?, cur[d.pv]? with
    | some x, some u, some v =>
      match trialVector fl dims trim x.1.v u.1.v v.1.v k d.c 1,
          trialVector fl dims trim x.1.v u.1.v v.1.v k d.c (-1) with
      | .ok p, .ok m =>
        let wPlus := evaluate f ⟨p, none⟩
        let wMinus := evaluate f ⟨m, none⟩
        match domI wPlus x.1, domI x.1 wPlus, domI wMinus x.1, domI x.1 wMinus with
        | some b1, some b2, some b3, some b4 =>
          match replacement b1 b2 b3 b4 d.plusFirst wPlus wMinus with
          | some w => some (cur.set i (w, true))
          | none => some cur
        | _, _, _, _ => none
      | _, _ => none
    | _, _, _ => none

/-- The loop over the coordinates, NSLS.py:89. -/
def lsInner (fl : K → K) (dims : List (K × K)) (trim : List K → List K) (f : List K → List K) (i : ℕ)
    (ds : ℕ → LsDraw K) : List ℕ → List (Ind K × Bool) → Option (List (Ind K × Bool))
  | [], cur => some cur
  | k :: ks, cur =>
    match lsTurn fl dims trim f i k (ds k) cur with
    | none => none
    | some cur' => lsInner fl dims trim f i ds ks cur'

/-- The loop over the individuals, NSLS.py:88. -/
def lsOuter (fl : K → K) (dims : List (K × K)) (trim : List K → List K) (f : List K → List K)
    (ds : ℕ → ℕ → LsDraw K) : List ℕ → List (Ind K × Bool) → Option (List (Ind K × Bool))
  | [], cur => some cur
  | i :: is, cur =>
    match lsInner fl dims trim f i (ds i) (List.range dims.length) cur with
    | none => none
    | some cur' => lsOuter fl dims trim f ds is cur'

/-- `local_search`, NSLS.py:86-132: the new value of `self.individuals`. Individuals are compared by identity at
line 131, so exactly the replaced entries are appended. -/
def localSearch (fl : K → K) (dims : List (K × K)) (trim : List K → List K) (f : List K → List K)
    (ds : ℕ → ℕ → LsDraw K) (inds : List (Ind K)) : Option (List (Ind K)) :=
  match lsOuter fl dims trim f ds (List.range inds.length) (inds.map fun x => (x, false)) with
  | none => none
  | some cur => some (inds ++ (cur.filter fun p => p.2).map Prod.fst)

/-- `step`, NSLS.py:80-84; `size` is `population_size`, `vdist` the distance of two vectors as computed. -/
def step (fl : K → K) (dims : List (K × K)) (trim : List K → List K) (f : List K → List K) (m : ℕ)
    (vdist : List K → List K → K) (ds : ℕ → ℕ → LsDraw K) (iter : List ℕ → List ℕ)
    (sample : List ℕ → ℕ → List ℕ) (fuel size : ℕ) (inds : List (Ind K)) : Option (List (Ind K)) :=
  match localSearch fl dims trim f ds (inds.map (evaluate f)) with
  | none => none
  | some all =>
    match allObjectives all with
    | none => none
    | some objs =>
      let vec : ℕ → List K := fun i => (all.map Ind.v).getD i []
      match nextGeneration iter sample (fun i j => vdist (vec i) (vec j)) fuel size m all.length
          (fun i => objs.getD i []) with
      | none => none
      | some idx => some (idx.filterMap fun i => all[i]?)

/-- `step` with its cost, NSLS.py:80-84. The loops of the sorting and of the selection end within `2 N + 1` turns,
or never (C149). -/
def stepCosted (fl : K → K) (dims : List (K × K)) (trim : List K → List K) (f : List K → List K) (m : ℕ)
    (vdist : List K → List K → K) (ds : ℕ → ℕ → LsDraw K) (iter : List ℕ → List ℕ)
    (sample : List ℕ → ℕ → List ℕ) (s : Costed K) : Option (Costed K) :=
  (step fl dims trim f m vdist ds iter sample (2 * s.size + 1) s.size s.inds).map fun inds' =>
    ⟨inds', s.size, s.cost + stepCost dims s.inds⟩

/-- NSLS as a driver, NSLS.py:60-61, 80-84. -/
def driver (fl : K → K) (dims : List (K × K)) (trim : List K → List K) (f : List K → List K) (m : ℕ)
    (vdist : List K → List K → K) (ds : ℕ → ℕ → ℕ → LsDraw K) (iter : ℕ → List ℕ → List ℕ)
    (sample : ℕ → List ℕ → ℕ → List ℕ) : DriverSig (Option (ℕ × Costed K)) (Option (List (List K))) :=
  optDriver (fun n => stepCosted fl dims trim f m vdist (ds n) (iter n) (sample n)) (fun s => s.cost)
    (fun _ s => some (s, s.inds.map Ind.v))

end Evogil.Rounded.Nsls
