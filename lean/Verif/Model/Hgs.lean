import Verif.Prelude
import Mathlib.Algebra.Field.Defs
import Mathlib.Order.Defs.LinearOrder

/-!
# Model of the sequential HGS (`algorithms/HGS/classic/ClassicHGS.py`)

Nodes are numbered in the order of creation (their index in `self.nodes`); `level_nodes` holds numbers.
`D` is the type of decision vectors. What the node's driver does in a metaepoch is a parameter
(`Report`), as are the mean of a population and the comparison of centres.
-/

namespace Evogil.Hgs

/-- `ClassicHGS.Node`, ClassicHGS.py:227-259, as far as the tree is concerned. `hv`, `oldHv` : `none` is
`-inf`; `rel` : `None`; `center` : `none` if the attribute does not exist yet; `seed` is the delegate
around which the first population is generated (lines 331-338; none for the root). -/
structure Node (D K : Type*) where
  level : ℕ
  alive : Bool
  ripe : Bool
  cost : K
  pop : List D
  delegates : List D
  sprouts : List ℕ
  rel : Option K
  oldHv : Option K
  hv : Option K
  center : Option D
  seed : Option D
deriving DecidableEq

/-- `self.nodes`, `self.level_nodes` and `self.cost` of `ClassicHGS` (ClassicHGS.py:78-84). -/
structure State (D K : Type*) where
  nodes : List (Node D K)
  levels : List (List ℕ)
  cost : K
deriving DecidableEq

/-- The parameters of `ClassicHGS` (ClassicHGS.py:21-77). `modifier` is `cost_modifiers`, `near l` the
test `redundant([·], [·], min_dists[l])` (lines 359-364), `mean` is `np.mean(·, axis=0)`, `eps` is
`EPSILON` (line 17). `fl` rounds the results of operations on floats in the distributed HGS (`Verif.Model.DistHgs`);
it is the identity in exact arithmetic. The sequential HGS does not read it here, see `Verif.Model.RoundedHgs`. -/
structure Conf (D K : Type*) where
  maxLevel : ℕ
  maxSprouts : ℕ
  sproutiveness : ℕ
  modifier : ℕ → K
  near : ℕ → D → D → Bool
  mean : List D → D
  eps : K
  fl : K → K

/-- What one metaepoch of a node brings: the `cost` of the message after each step
(ClassicHGS.py:263-266), `finalized_population`, the shuffled delegates and the hypervolume computed
(ClassicHGS.py:279-297). -/
structure Report (D K : Type*) where
  costs : List K
  pop : List D
  delegates : List D
  hv : K

variable {D K : Type*} [Field K] [LinearOrder K]

/-- `Node.__init__`, ClassicHGS.py:228-259 -/
def newNode (level : ℕ) (seed : Option D) : Node D K :=
  ⟨level, true, false, 0, [], [], [], none, none, none, none, seed⟩

/-- ClassicHGS.py:78-84 -/
def init : State D K := ⟨[newNode 0 none], [[0], [], []], 0⟩

/-! ## Metaepoch -/

/-- The messages of one job, ClassicHGS.py:264-266 and 139-143: `fill_node_info`, `update_current_cost`,
`_update_cost` and the sum. Returns the new `current_cost` and the sum. -/
def costLoop (modifier : K) : K → List K → K × K
  | current, [] => (current, 0)
  | current, c :: cs =>
    let r := costLoop modifier c cs
    (r.1, modifier * (c - current) + r.2)

/-- `_after_metaepoch` and `update_dominated_hypervolume`, ClassicHGS.py:279-297 -/
def afterMetaepoch (r : Report D K) (n : Node D K) : Node D K :=
  let n := { n with pop := r.pop, delegates := r.delegates, oldHv := n.hv }
  match n.rel with
  | none => { n with rel := some r.hv }
  | some rel => { n with hv := some (r.hv - rel) }

/-- `Node.run_metaepoch` (ClassicHGS.py:261-269) with its subscription (lines 139-144): the node
afterwards and the number appended to `node_costs`; a dead node's empty stream sums up to 0. -/
def runNode (cfg : Conf D K) (r : Report D K) (n : Node D K) : Node D K × K :=
  if n.alive then
    let c := costLoop (cfg.modifier n.level) n.cost r.costs
    (afterMetaepoch r { n with cost := c.1 }, c.2)
  else (n, 0)

/-- The loop over the jobs, ClassicHGS.py:138-146; `env i` is what node `i` reports. -/
def runNodes (cfg : Conf D K) (env : ℕ → Report D K) : List ℕ → State D K → Option (State D K)
  | [], st => some st
  | i :: is, st =>
    match st.nodes[i]? with
    | none => none
    | some n =>
      let r := runNode cfg (env i) n
      runNodes cfg env is { st with nodes := st.nodes.set i r.1, cost := st.cost + r.2 }

/-- `run_metaepoch`, ClassicHGS.py:127-146 -/
def runMetaepoch (cfg : Conf D K) (env : ℕ → Report D K) (st : State D K) : Option (State D K) :=
  match st.levels[2]?, st.levels[1]?, st.levels[0]? with
  | some l2, some l1, some l0 => runNodes cfg env (l2 ++ l1 ++ l0) st
  | _, _, _ => none

/-! ## Trimming -/

/-- The condition in lines 164-167 of ClassicHGS.py; `ratio` is `self.min_progress_ratio`. -/
def notProgressing (cfg : Conf D K) (ratio : List K) (n : Node D K) : Option Bool :=
  match n.oldHv with
  | none => some false
  | some o =>
    if 0 < o then
      match ratio[n.level]? with
      | none => none
      | some q =>
        match n.hv with
        | none => some true
        | some h => some (h / (o + cfg.eps) - 1 < q / 2 ^ n.level)
    else some false

/-- `trim_not_progressing`, ClassicHGS.py:161-174 -/
def trimNotProgressing (cfg : Conf D K) (ratio : List K) : List ℕ → State D K → Option (State D K)
  | [], st => some st
  | i :: is, st =>
    match st.nodes[i]? with
    | none => none
    | some n =>
      if n.alive then
        match notProgressing cfg ratio n with
        | none => none
        | some true => trimNotProgressing cfg ratio is
            { st with nodes := (st.nodes.set i
                { n with alive := false, ripe := true, center := some (cfg.mean n.pop) }) }
        | some false => trimNotProgressing cfg ratio is st
      else trimNotProgressing cfg ratio is st

/-- The inner loop of `trim_redundant`, ClassicHGS.py:184-192: is some node of `to_compare` ripe or
processed, and near? The loop ends when the sprout has been killed. `none`: a missing `center`. -/
def findRedundant (cfg : Conf D K) (st : State D K) (level : ℕ) (center : D) (processed : List ℕ) :
    List ℕ → Option Bool
  | [] => some false
  | a :: as =>
    match st.nodes[a]? with
    | none => none
    | some n =>
      if n.ripe || a ∈ processed then
        match n.center with
        | none => none
        | some c =>
          if cfg.near level c center then some true
          else findRedundant cfg st level center processed as
      else findRedundant cfg st level center processed as

/-- The outer loop of `trim_redundant`, ClassicHGS.py:180-195. -/
def redundantLoop (cfg : Conf D K) (dead : List ℕ) :
    List ℕ → List ℕ → State D K → Option (State D K)
  | _, [], st => some st
  | processed, i :: is, st =>
    match st.nodes[i]? with
    | none => none
    | some n =>
      let c := cfg.mean n.pop
      let st1 := { st with nodes := (st.nodes.set i { n with center := some c }) }
      match findRedundant cfg st1 n.level c processed (dead ++ processed) with
      | none => none
      | some b => redundantLoop cfg dead (processed ++ [i]) is
          { st1 with nodes := (st1.nodes.set i { n with center := some c, alive := n.alive && !b }) }

/-- `alive` of the node with the given number -/
def aliveAt (st : State D K) (i : ℕ) : Bool := ((st.nodes[i]?).map Node.alive).getD false

/-- `trim_redundant`, ClassicHGS.py:176-195 -/
def trimRedundant (cfg : Conf D K) (ids : List ℕ) (st : State D K) : Option (State D K) :=
  redundantLoop cfg (ids.filter fun i => !aliveAt st i) [] (ids.filter (aliveAt st)) st

/-- `trim_all`, ClassicHGS.py:157-159, for the level `l` -/
def trimAll (cfg : Conf D K) (ratio : List K) (l : ℕ) (st : State D K) : Option (State D K) :=
  match st.levels[l]? with
  | none => none
  | some ids =>
    match trimNotProgressing cfg ratio ids st with
    | none => none
    | some st' => trimRedundant cfg ids st'

/-- `trim_sprouts`, ClassicHGS.py:152-155 -/
def trimSprouts (cfg : Conf D K) (ratio : List K) (st : State D K) : Option (State D K) :=
  ((trimAll cfg ratio 2 st).bind (trimAll cfg ratio 1)).bind (trimAll cfg ratio 0)

/-! ## Sprouting -/

/-- The centres in lines 317-329 of ClassicHGS.py: those of the nodes with a population. -/
def nodeCenters (st : State D K) : List ℕ → Option (List D)
  | [] => some []
  | i :: is =>
    match st.nodes[i]? with
    | none => none
    | some n =>
      if n.pop.isEmpty then nodeCenters st is
      else
        match n.center, nodeCenters st is with
        | some c, some cs => some (c :: cs)
        | _, _ => none

/-- `len([x for x in self.sprouts if x.alive])`, ClassicHGS.py:305, 312 -/
def livingSprouts (st : State D K) (i : ℕ) : ℕ :=
  ((((st.nodes[i]?).map Node.sprouts).getD []).filter (aliveAt st)).length

/-- Lines 339-344 of ClassicHGS.py -/
def addSprout (st : State D K) (i level : ℕ) (ids : List ℕ) (d : D) : State D K :=
  { st with
    nodes := st.nodes.modify i (fun n => { n with sprouts := n.sprouts ++ [st.nodes.length] }) ++
      [newNode (level + 1) (some d)]
    levels := st.levels.set (level + 1) (ids ++ [st.nodes.length]) }

/-- The loop over the delegates, ClassicHGS.py:308-349. -/
def releaseLoop (cfg : Conf D K) (i level : ℕ) : List D → ℕ → State D K → Option (State D K)
  | [], _, st => some st
  | d :: ds, released, st =>
    if cfg.sproutiveness ≤ released ∨ cfg.maxSprouts ≤ livingSprouts st i then some st
    else
      match st.levels[level + 1]? with
      | none => none
      | some ids =>
        match nodeCenters st ids with
        | none => none
        | some cs =>
          if cs.any (fun c => cfg.near (level + 1) d c) then releaseLoop cfg i level ds released st
          else releaseLoop cfg i level ds (released + 1) (addSprout st i level ids d)

/-- `Node.release_new_sprouts`, ClassicHGS.py:299-349; the recursion is as deep as the tree, `fuel`
bounds it. The second function is the loop in lines 301-302. -/
def release (cfg : Conf D K) : ℕ → ℕ → State D K → Option (State D K)
  | 0, _, _ => none
  | fuel + 1, i, st =>
    match st.nodes[i]? with
    | none => none
    | some n =>
      if n.ripe then
        match n.sprouts.foldlM (fun s j => release cfg fuel j s) st with
        | none => none
        | some st' =>
          if n.level < cfg.maxLevel ∧ livingSprouts st' i < cfg.maxSprouts then
            releaseLoop cfg i n.level n.delegates 0 st'
          else some st'
      else some st

/-! ## Revival -/

/-- Lines 206-207 of ClassicHGS.py: the first three numbers are halved, in place; `none` is the
`IndexError` for a shorter list. -/
def halve : List K → Option (List K)
  | a :: b :: c :: rest => some (a / 2 :: b / 2 :: c / 2 :: rest)
  | _ => none

/-- Lines 202-205 of ClassicHGS.py, for one node -/
def wake (n : Node D K) : Node D K := if n.ripe then { n with alive := true, ripe := false } else n

/-- `revive_root`, ClassicHGS.py:200-210. The list `min_progress_ratio` is changed in place. -/
def reviveRoot (ratio : List K) (st : State D K) : Option (State D K × List K) :=
  if (st.nodes.filter Node.alive).length = 0 then
    match halve ratio with
    | none => none
    | some ratio' => some ({ st with nodes := st.nodes.map wake }, ratio')
  else some (st, ratio)

/-- `step`, ClassicHGS.py:92-116. The list `ratio` is the object passed in as `min_progress_ratio`
(line 65 keeps the reference), so it is part of the result. -/
def step (cfg : Conf D K) (fuel : ℕ) (env : ℕ → Report D K) (st : State D K) (ratio : List K) :
    Option (State D K × List K) :=
  match (runMetaepoch cfg env st).bind (trimSprouts cfg ratio) with
  | none => none
  | some st' => (release cfg fuel 0 st').bind (reviveRoot ratio)

/-- Successive steps -/
def run (cfg : Conf D K) (fuel : ℕ) :
    List (ℕ → Report D K) → State D K → List K → Option (State D K × List K)
  | [], st, ratio => some (st, ratio)
  | env :: envs, st, ratio =>
    match step cfg fuel env st ratio with
    | none => none
    | some (st', ratio') => run cfg fuel envs st' ratio'

end Evogil.Hgs
