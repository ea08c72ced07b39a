import Verif.Model.FrontFill
import Verif.Model.NdSort
import Verif.Model.PyMinMax
import Verif.Model.PyMinMaxBy
import Mathlib.Algebra.Order.Field.Basic

/-!
# Model of NSLS (`algorithms/NSLS/NSLS.py`)

Numbers are elements of an ordered field. Draws are parameters. `none` means that the code raises
(or, in functions with `fuel`, that the fuel did not suffice). `objectives`, a dictionary keyed by
the objective functions, is the list of its values.
-/

namespace Evogil.Nsls

variable {K : Type*} [Field K] [LinearOrder K]

/-- NSLS.py:224-227. -/
structure Ind (K : Type*) where
  v : List K
  objectives : Option (List K)
  deriving DecidableEq

/-- `calculate_objectives`, NSLS.py:63-78, for one individual and without a fitness archive. -/
def evaluate (f : List K → List K) (x : Ind K) : Ind K :=
  match x.objectives with
  | none => ⟨x.v, some (f x.v)⟩
  | some _ => x

/-- `NSGAII.dominates(a, b)` (NSGAII.py:15-25): raises for an individual without objectives. -/
def domI (a b : Ind K) : Option Bool :=
  match a.objectives, b.objectives with
  | some p, some q => some (nsgaiiDominates p q)
  | _, _ => none

/-! ## Local search -/

/-- NSLS.py:95-99 (with `+ diff`) and 101-105 (with `- diff`): the vector of a trial individual. -/
def trialVector (dims : List (K × K)) (trim : List K → List K) (x : List K) (k : ℕ) (diff : K) :
    Option (List K) :=
  match x[k]?, dims[k]? with
  | some xk, some d =>
    let w := trim (x.set k (xk + diff))
    match w[k]? with
    | some wk => if wk < d.1 ∨ d.2 < wk then some (w.set k xk) else some w
    | none => none
  | _, _ => none

/-- NSLS.py:108-128: who takes the place (`none`: nobody); `plusFirst` is the outcome of
`random.choice`. -/
def replacement (plusDominates plusDominated minusDominates minusDominated plusFirst : Bool)
    (wPlus wMinus : Ind K) : Option (Ind K) :=
  if plusDominates && minusDominates then some (if plusFirst then wPlus else wMinus)
  else if plusDominates then some wPlus
  else if minusDominates then some wMinus
  else if !plusDominated && !minusDominated then some (if plusFirst then wPlus else wMinus)
  else if !plusDominated then some wPlus
  else if !minusDominated then some wMinus
  else none

/-- Draws of one turn: `c` (line 91), the two positions sampled at line 92, the choice at lines 114
and 121. -/
structure LsDraw (K : Type*) where
  c : K
  pu : ℕ
  pv : ℕ
  plusFirst : Bool

/-- NSLS.py:90-128 for individual number `i` and coordinate `k`; an entry of `cur` is an element of
`individuals_copy` and whether it has been replaced. -/
def lsTurn (dims : List (K × K)) (trim : List K → List K) (f : List K → List K) (i k : ℕ)
    (d : LsDraw K) (cur : List (Ind K × Bool)) : Option (List (Ind K × Bool)) :=
  if cur.length < 2 then none
  else
    match cur[i]?, cur[d.pu]?, cur[d.pv]? with
    | some x, some u, some v =>
      match u.1.v[k]?, v.1.v[k]? with
      | some uk, some vk =>
        let diff := d.c * (uk - vk)
        match trialVector dims trim x.1.v k diff, trialVector dims trim x.1.v k (-diff) with
        | some p, some m =>
          let wPlus := evaluate f ⟨p, none⟩
          let wMinus := evaluate f ⟨m, none⟩
          match domI wPlus x.1, domI x.1 wPlus, domI wMinus x.1, domI x.1 wMinus with
          | some b1, some b2, some b3, some b4 =>
            match replacement b1 b2 b3 b4 d.plusFirst wPlus wMinus with
            | some w => some (cur.set i (w, true))
            | none => some cur
          | _, _, _, _ => none
        | _, _ => none
      | _, _ => none
    | _, _, _ => none

/-- The loop over the coordinates, NSLS.py:89. -/
def lsInner (dims : List (K × K)) (trim : List K → List K) (f : List K → List K) (i : ℕ)
    (ds : ℕ → LsDraw K) : List ℕ → List (Ind K × Bool) → Option (List (Ind K × Bool))
  | [], cur => some cur
  | k :: ks, cur =>
    match lsTurn dims trim f i k (ds k) cur with
    | none => none
    | some cur' => lsInner dims trim f i ds ks cur'

/-- The loop over the individuals, NSLS.py:88. -/
def lsOuter (dims : List (K × K)) (trim : List K → List K) (f : List K → List K)
    (ds : ℕ → ℕ → LsDraw K) : List ℕ → List (Ind K × Bool) → Option (List (Ind K × Bool))
  | [], cur => some cur
  | i :: is, cur =>
    match lsInner dims trim f i (ds i) (List.range dims.length) cur with
    | none => none
    | some cur' => lsOuter dims trim f ds is cur'

/-- `local_search`, NSLS.py:86-132: the new value of `self.individuals`. Individuals are compared
by identity at line 131, so exactly the replaced entries are appended. -/
def localSearch (dims : List (K × K)) (trim : List K → List K) (f : List K → List K)
    (ds : ℕ → ℕ → LsDraw K) (inds : List (Ind K)) : Option (List (Ind K)) :=
  match lsOuter dims trim f ds (List.range inds.length) (inds.map fun x => (x, false)) with
  | none => none
  | some cur => some (inds ++ (cur.filter fun p => p.2).map Prod.fst)

/-! ## Next generation (on positions) -/

/-- One turn of the loop NSLS.py:182-193 for one objective `o`; state: `min_ind`, `max_ind`,
`additional`. The infinite starting values are beaten by the first individual. -/
def extremeStep (o : ℕ → K) (st : Option ℕ × Option ℕ × List ℕ) (ind : ℕ) :
    Option ℕ × Option ℕ × List ℕ :=
  let mn := match st.1 with
    | none => ind
    | some m => if o ind < o m then ind else m
  let mx := match st.2.1 with
    | none => ind
    | some m => if o m < o ind then ind else m
  let add1 := if mn ∈ st.2.2 then st.2.2 else st.2.2 ++ [mn]
  let add2 := if mx ∈ add1 then add1 else add1 ++ [mx]
  (some mn, some mx, add2)

/-- NSLS.py:178-193 for one objective. -/
def extremesOne (last : List ℕ) (add : List ℕ) (o : ℕ → K) : List ℕ :=
  (last.foldl (extremeStep o) (none, none, add)).2.2

/-- NSLS.py:176-193: `additional` for the given objectives. -/
def extremes (objs : List (ℕ → K)) (last : List ℕ) : List ℕ :=
  objs.foldl (extremesOne last) []

/-- NSLS.py:205-218: `n` times the individual farthest from those chosen; `d` is `distances`.
Removing `None` raises. -/
def spread (dist : ℕ → ℕ → K) : ℕ → List ℕ → List ℕ → (ℕ → K) → Option (List ℕ)
  | 0, add, _, _ => some add
  | n + 1, add, last, d =>
    match pyMaxBy d last with
    | none => none
    | some x => spread dist n (add ++ [x]) (last.erase x) fun i => min (d i) (dist i x)

/-- NSLS.py:195-218: the final `additional`. `min` of no distances raises. -/
def fillLast (sample : List ℕ → ℕ → List ℕ) (dist : ℕ → ℕ → K) (toSelect : ℕ) (add last : List ℕ) :
    Option (List ℕ) :=
  if toSelect < add.length then some (sample add toSelect)
  else if add.length < toSelect then
    let last' := last.filter fun x => x ∉ add
    if add = [] ∧ last' ≠ [] then none
    else spread dist (toSelect - add.length) add last'
      fun i => (pyMin (add.map (dist i))).getD 0
  else some add

/-- `nd_sort` (NSLS.py:134-160) and `next_generation` (NSLS.py:162-221) on the positions
`0 .. n-1` with objective vectors `obj`; `m` is the number of objectives. -/
def nextGeneration (iter : List ℕ → List ℕ) (sample : List ℕ → ℕ → List ℕ) (dist : ℕ → ℕ → K)
    (fuel size m n : ℕ) (obj : ℕ → List K) : Option (List ℕ) :=
  match ndSort iter (nsgaiiDom obj) fuel (List.range n) with
  | none => none
  | some L =>
    match fillFronts size fuel [] L with
    | none => none
    | some (acc, last) =>
      match fillLast sample dist (size - acc.length)
          (extremes ((List.range m).map fun j i => (obj i).getD j 0) last) last with
      | none => none
      | some add => some (acc ++ add)

/-- The objectives of everybody; `none` if somebody has none (the sort raises). -/
def allObjectives : List (Ind K) → Option (List (List K))
  | [] => some []
  | x :: l =>
    match x.objectives, allObjectives l with
    | some o, some os => some (o :: os)
    | _, _ => none

/-- `step`, NSLS.py:80-84; `size` is `population_size`, `dist` the Euclidean distance of the
vectors at two positions. -/
def step (dims : List (K × K)) (trim : List K → List K) (f : List K → List K) (m : ℕ)
    (vdist : List K → List K → K) (ds : ℕ → ℕ → LsDraw K) (iter : List ℕ → List ℕ)
    (sample : List ℕ → ℕ → List ℕ) (fuel size : ℕ) (inds : List (Ind K)) : Option (List (Ind K)) :=
  match localSearch dims trim f ds (inds.map (evaluate f)) with
  | none => none
  | some all =>
    match allObjectives all with
    | none => none
    | some objs =>
      let vec : ℕ → List K := fun i => (all.map Ind.v).getD i []
      match nextGeneration iter sample (fun i j => vdist (vec i) (vec j)) fuel size m all.length
          (fun i => objs.getD i []) with
      | none => none
      | some idx => some (idx.filterMap fun i => all[i]?)

/-- The population setter, NSLS.py:55-58: new individuals and the new `population_size`. -/
def setPopulation (pop : List (List K)) : List (Ind K) × ℕ :=
  (pop.map fun v => ⟨v, none⟩, pop.length)

end Evogil.Nsls
