import Verif.Model.Hgs

/-!
# The sequential HGS with rounding (`algorithms/HGS/classic/ClassicHGS.py`)

As `Evogil.Hgs`, with the results of the operations on floats that decide about nodes rounded by the parameter `fl`: the
hypervolume of a node (line 295), its progress and the limit for it (lines 164-167), and the halved limits (line 207).
Simplified: costs are whole numbers times the modifiers, 1.0 as shipped, and are not rounded. The tests for redundancy and
the means of populations are parameters, as in `Evogil.Hgs`. There is no greatest float.
-/

namespace Evogil.Rounded.Hgs

open Evogil.Hgs (Node State Conf Report costLoop aliveAt trimRedundant release wake)

variable {D K : Type*} [Field K] [LinearOrder K]

/-- `_after_metaepoch` and `update_dominated_hypervolume`, ClassicHGS.py:279-297 -/
def afterMetaepoch (fl : K → K) (r : Report D K) (n : Node D K) : Node D K :=
  let n := { n with pop := r.pop, delegates := r.delegates, oldHv := n.hv }
  match n.rel with
  | none => { n with rel := some r.hv }
  | some rel => { n with hv := some (fl (r.hv - rel)) }

/-- `Node.run_metaepoch` (ClassicHGS.py:261-269) with its subscription (lines 139-144), see `Hgs.runNode`. -/
def runNode (fl : K → K) (cfg : Conf D K) (r : Report D K) (n : Node D K) : Node D K × K :=
  if n.alive then
    let c := costLoop (cfg.modifier n.level) n.cost r.costs
    (afterMetaepoch fl r { n with cost := c.1 }, c.2)
  else (n, 0)

/-- The loop over the jobs, ClassicHGS.py:138-146; `env i` is what node `i` reports. -/
def runNodes (fl : K → K) (cfg : Conf D K) (env : ℕ → Report D K) : List ℕ → State D K → Option (State D K)
  | [], st => some st
  | i :: is, st =>
    match st.nodes[i]? with
    | none => none
    | some n =>
      let r := runNode fl cfg (env i) n
      runNodes fl cfg env is { st with nodes := st.nodes.set i r.1, cost := st.cost + r.2 }

/-- `run_metaepoch`, ClassicHGS.py:127-146 -/
def runMetaepoch (fl : K → K) (cfg : Conf D K) (env : ℕ → Report D K) (st : State D K) : Option (State D K) :=
  match st.levels[2]?, st.levels[1]?, st.levels[0]? with
  | some l2, some l1, some l0 => runNodes fl cfg env (l2 ++ l1 ++ l0) st
  | _, _, _ => none

/-- The comparison in lines 165-167 of ClassicHGS.py: `hv` the hypervolume, `old` the one before, `eps` is `EPSILON`,
`q` is `self.min_progress_ratio[sprout.level]`. -/
def lags (fl : K → K) (eps q : K) (level : ℕ) (old hv : K) : Bool :=
  decide (fl (fl (hv / fl (old + eps)) - 1) < fl (q / 2 ^ level))

/-- The condition in lines 162-168 of ClassicHGS.py; `ratio` is `self.min_progress_ratio`. -/
def notProgressing (fl : K → K) (cfg : Conf D K) (ratio : List K) (n : Node D K) : Option Bool :=
  match n.oldHv with
  | none => some false
  | some o =>
    if 0 < o then
      match ratio[n.level]? with
      | none => none
      | some q =>
        match n.hv with
        | none => some true
        | some h => some (lags fl cfg.eps q n.level o h)
    else some false

/-- `trim_not_progressing`, ClassicHGS.py:161-174 -/
def trimNotProgressing (fl : K → K) (cfg : Conf D K) (ratio : List K) : List ℕ → State D K → Option (State D K)
  | [], st => some st
  | i :: is, st =>
    match st.nodes[i]? with
    | none => none
    | some n =>
      if n.alive then
        match notProgressing fl cfg ratio n with
        | none => none
        | some true => trimNotProgressing fl cfg ratio is
            { st with nodes := (st.nodes.set i
                { n with alive := false, ripe := true, center := some (cfg.mean n.pop) }) }
        | some false => trimNotProgressing fl cfg ratio is st
      else trimNotProgressing fl cfg ratio is st

/-- `trim_all`, ClassicHGS.py:157-159, for the level `l` -/
def trimAll (fl : K → K) (cfg : Conf D K) (ratio : List K) (l : ℕ) (st : State D K) : Option (State D K) :=
  match st.levels[l]? with
  | none => none
  | some ids =>
    match trimNotProgressing fl cfg ratio ids st with
    | none => none
    | some st' => trimRedundant cfg ids st'

/-- `trim_sprouts`, ClassicHGS.py:152-155 -/
def trimSprouts (fl : K → K) (cfg : Conf D K) (ratio : List K) (st : State D K) : Option (State D K) :=
  ((trimAll fl cfg ratio 2 st).bind (trimAll fl cfg ratio 1)).bind (trimAll fl cfg ratio 0)

/-- Lines 206-207 of ClassicHGS.py: the first three numbers are halved, in place. -/
def halve (fl : K → K) : List K → Option (List K)
  | a :: b :: c :: rest => some (fl (a / 2) :: fl (b / 2) :: fl (c / 2) :: rest)
  | _ => none

/-- `revive_root`, ClassicHGS.py:200-210 -/
def reviveRoot (fl : K → K) (ratio : List K) (st : State D K) : Option (State D K × List K) :=
  if (st.nodes.filter Node.alive).length = 0 then
    match halve fl ratio with
    | none => none
    | some ratio' => some ({ st with nodes := st.nodes.map wake }, ratio')
  else some (st, ratio)

/-- `step`, ClassicHGS.py:92-116, see `Hgs.step` -/
def step (fl : K → K) (cfg : Conf D K) (fuel : ℕ) (env : ℕ → Report D K) (st : State D K) (ratio : List K) :
    Option (State D K × List K) :=
  match (runMetaepoch fl cfg env st).bind (trimSprouts fl cfg ratio) with
  | none => none
  | some st' => (release cfg fuel 0 st').bind (reviveRoot fl ratio)

/-- Successive steps -/
def run (fl : K → K) (cfg : Conf D K) (fuel : ℕ) :
    List (ℕ → Report D K) → State D K → List K → Option (State D K × List K)
  | [], st, ratio => some (st, ratio)
  | env :: envs, st, ratio =>
    match step fl cfg fuel env st ratio with
    | none => none
    | some (st', ratio') => run fl cfg fuel envs st' ratio'

end Evogil.Rounded.Hgs
