import Verif.Model.RoundedHgs
import Mathlib.Logic.Function.Basic

/-!
# Model of the distributed HGS (`algorithms/HGS/distributed/`)

One supervisor actor, any number of node actors and the client (`DistributedHGS`), which exchange messages.
Between every two of them messages arrive in the order in which they were sent (the guarantee of the actor
library); nothing is assumed about the order between different pairs. A message is copied when it is sent.

Addresses of nodes are numbers in the order of creation. Task ids (`uuid.uuid4()`) are pairs of the actor
that made the id and a counter of that actor: distinct, as the code relies on. What a node's driver does in
a metaepoch (`env`) and the population made around a delegate (`spawn`) are parameters, indexed by the node
and the number of the task in which they are used. The attributes of a node are kept in the structure
`Hgs.Node` of the sequential model (its field `seed` is not used here). Logging is left out, except where it
changes the state. `none` is an exception in a message handler. The results of the operations on floats that decide about
nodes are rounded by `cfg.fl` (as in `Verif.Model.RoundedHgs`); costs are not rounded.
-/

namespace Evogil.Dist

/-- Who can send and receive: the thread that uses `DistributedHGS`, the supervisor, the nodes. -/
inductive Addr
  | client
  | sup
  | node (n : ℕ)
deriving DecidableEq

/-- The ids of tasks (`OperationTask.__init__`, hgs_tasks.py:19-23) and of the client's requests. -/
abbrev Id := Addr × ℕ

/-- `NodeState`, node_tasks.py:33-40. `center` is `None` for an empty population. -/
structure NState (D : Type*) where
  address : Addr
  level : ℕ
  alive : Bool
  ripe : Bool
  center : Option D
  popLen : ℕ
deriving DecidableEq

/-- What the client asks of the supervisor (DistributedHGS.py:91-96, 102-107, 110-125). `start` carries the
sample of the initial population that `create_root_node` draws (actors.py:155-158). -/
inductive Req (D : Type*)
  | start (pop : List D)
  | metaepoch
  | trimNotProgressing
  | trimRedundant
  | checkStatus (lvl : Option ℕ)
  | population
  | releaseSprouts
  | revive
deriving DecidableEq

/-- What the supervisor answers: the `…_END` operations and the answers to `CHECK_STATUS` and
`POPULATION`. -/
inductive Answer (D K : Type*)
  | metaepochEnd (cost : K)
  | trimNotProgressingEnd
  | trimRedundantEnd
  | status (states : List (NState D))
  | population (pop : List D)
  | releaseEnd
  | reviveEnd
deriving DecidableEq

/-- The messages, message.py:13-66, with their data. `done` is the string `"done"`. -/
inductive Msg (D K : Type*)
  | req (r : Req D) (id : Id)
  | answer (a : Answer D K) (id : Id)
  | done
  | hello
  | reset (level : ℕ) (pop : List D)
  | registerNode (id : Id) (level : ℕ) (pop : List D)
  | registerNodeEnd (id : Id) (node : ℕ)
  | metaepoch (id : Id)
  | metaepochEnd (id : Id) (data : Option (ℕ × K))
  | check (id : Id) (data : Option (NState D))
  | population (id : Id) (data : Option (List D))
  | trim (id : Id) (ratio : K)
  | trimEnd (id : Id)
  | release (id : Id) (states : List (NState D))
  | releaseEnd (id : Id) (state : NState D) (created : List (NState D))
  | revive (id : Id)
deriving DecidableEq

/-- The calls of `send` during the handling of one message, in order. -/
abbrev Out (D K : Type*) := List (Addr × Msg D K)

/-- The tasks of the supervisor with their attributes: `MetaepochHgsTask` (hgs_tasks.py:41-48),
`StatusHgsTask` (89-97), `PopulationHgsTask` (142-149), `TrimNotProgressingHgsTask` (187-193),
`TrimRedundantHgsTask` (223-229), `ReleaseSproutsHgsTask` (282-291), `ReviveHgsTask` (339-345). `from` is
`sender`, `cid` is `sender_task_id`. -/
inductive STask (D K : Type*)
  | metaepoch («from» : Addr) (cid : Id) (count finished : ℕ) (costs : List K)
  | status («from» : Addr) (cid : Id) (toCheck : List ℕ) (states : List (NState D))
  | population («from» : Addr) (cid : Id) (count finished : ℕ) (merged : List D)
  | trim («from» : Addr) (cid : Id) (count finished : ℕ)
  | redundant («from» : Addr) (cid : Id) (count : ℕ) (infos : List (NState D × Addr))
  | release («from» : Addr) (cid : Id) (lvl idx : ℕ) (cur next : List (NState D))
  | revive («from» : Addr) (cid : Id) (count finished : ℕ)

/-- `HgsNodeSupervisor`, actors.py:97-106; `ratio` is `config.min_progress_ratio`, `nextTask` the counter
for task ids and `nextNode` the number of nodes created. -/
structure Sup (D K : Type*) where
  nodes : List ℕ
  levels : List (List ℕ)
  cost : K
  ratio : List K
  states : List (NState D)
  tasks : Id → Option (STask D K)
  nextTask : ℕ
  nextNode : ℕ

/-- `ReleaseSproutsNodeTask`, node_tasks.py:196-206 -/
structure Rel (D : Type*) where
  «from» : Addr
  cid : Id
  aliveSprouts : ℕ
  next : List (NState D)
  checked : ℕ
  released : ℕ
  index : ℕ
  created : List (NState D)

/-- The tasks of a node; only the one for sprouting keeps attributes after its first message. -/
inductive NTask (D : Type*)
  | check
  | population
  | metaepoch
  | trim
  | revive
  | release (r : Rel D)

/-- A `Node` actor, actors.py:169-200. `mem` is `none` until `reset` has been called. -/
structure NodeS (D K : Type*) where
  mem : Option (Hgs.Node D K)
  supervisor : Option Addr
  tasks : Id → Option (NTask D)
  nextTask : ℕ

variable {D K : Type*} [Field K] [LinearOrder K]

/-- A node actor before its first message (actors.py:169-200). -/
def NodeS.new : NodeS D K := ⟨none, none, fun _ => none, 0⟩

/-- The supervisor before `START` (actors.py:98-106). -/
def Sup.new (ratio : List K) : Sup D K := ⟨[], [], 0, ratio, [], fun _ => none, 0, 0⟩

/-- The task id in a message; `none` for the messages that get a fresh id nobody else knows
(message.py:50-53). -/
def Msg.id? : Msg D K → Option Id
  | .req _ i | .answer _ i | .registerNode i _ _ | .registerNodeEnd i _ | .metaepoch i | .metaepochEnd i _
  | .check i _ | .population i _ | .trim i _ | .trimEnd i | .release i _ | .releaseEnd i _ _
  | .revive i => some i
  | .done | .hello | .reset _ _ => none

/-- `create_node_state`, node_tasks.py:43-45 -/
def createNodeState (cfg : Hgs.Conf D K) (address : Addr) (level : ℕ) (alive ripe : Bool) (pop : List D) :
    NState D :=
  ⟨address, level, alive, ripe, if pop.isEmpty then none else some (cfg.mean pop), pop.length⟩

/-! ## The supervisor -/

/-- `create_node`, actors.py:160-166 -/
def createNode (s : Sup D K) (level : ℕ) (pop : List D) : Sup D K × Out D K :=
  ({ s with nextNode := s.nextNode + 1 },
    [(.node s.nextNode, .hello), (.node s.nextNode, .reset level pop)])

/-- `self.tasks[task.id] = task`, actors.py:82 -/
def putS (t : STask D K) (s : Sup D K) : Sup D K :=
  { s with
    tasks := Function.update s.tasks (.sup, s.nextTask) (some t)
    nextTask := s.nextTask + 1 }

/-- Replaces the attributes of a task. -/
def setS (i : Id) (t : STask D K) (s : Sup D K) : Sup D K :=
  { s with tasks := Function.update s.tasks i (some t) }

/-- The requests of `TrimNotProgressingHgsTask.send_trim_request` for one level, hgs_tasks.py:203-212;
`none` is the `IndexError` for a short `min_progress_ratio`. -/
def trimLevel (i : Id) (ratio : List K) (lvl : ℕ) (ns : List ℕ) : Option (Out D K) :=
  ns.mapM fun n => (ratio[lvl]?).map fun q => (Addr.node n, Msg.trim i q)

/-- The two loops in hgs_tasks.py:203-212, from level `lvl` on. -/
def trimRequests (i : Id) (ratio : List K) : ℕ → List (List ℕ) → Option (Out D K)
  | _, [] => some []
  | lvl, ns :: rest =>
    match trimLevel i ratio lvl ns, trimRequests i ratio (lvl + 1) rest with
    | some a, some b => some (a ++ b)
    | _, _ => none

/-- `get_nodes_to_check`, hgs_tasks.py:115-120 -/
def nodesToCheck (cfg : Hgs.Conf D K) (s : Sup D K) : Option ℕ → Option (List ℕ)
  | none => some s.nodes
  | some l => if l ≤ cfg.maxLevel then s.levels[l]? else some []

/-- `find_leaf`, hgs_tasks.py:293-296, called with `max_level + 1`: the highest level with nodes. `none` is
the `KeyError` for a level above 2, or that no level has nodes (`None` is then used as a key in line
308). -/
def findLeaf (levels : List (List ℕ)) : ℕ → Option ℕ
  | 0 => none
  | l + 1 =>
    match levels[l]? with
    | none => none
    | some [] => findLeaf levels l
    | some (_ :: _) => some l

/-- `send_next_request`, hgs_tasks.py:307-314 -/
def sendNext (i : Id) (levels : List (List ℕ)) (lvl idx : ℕ) (next : List (NState D)) :
    Option (Out D K) :=
  ((levels[lvl]?).bind fun ns => ns[idx]?).map fun n => [(Addr.node n, Msg.release i next)]

/-- Lines 361-362 of hgs_tasks.py: the first `max_level + 1` numbers are halved in place; `none` is the
`IndexError` for a shorter list. -/
def halveUpTo (fl : K → K) (k : ℕ) (ratio : List K) : Option (List K) :=
  if k ≤ ratio.length then some ((ratio.take k).map (fun q => fl (q / 2)) ++ ratio.drop k) else none

/-- `START`, actors.py:125-128 and 144-158; the cache of actors of line 148 holds nodes before their first
message, as does a newly created actor. -/
def supStart (s : Sup D K) (pop : List D) («from» : Addr) : Sup D K × Out D K :=
  let r := createNode s 0 pop
  ({ r.1 with nodes := [s.nextNode], levels := [[s.nextNode], [], []] }, r.2 ++ [(«from», .done)])

/-- The first step of a new task of the supervisor (`execute_new_task`, actors.py:78-83):
`start_metaepoch` (hgs_tasks.py:55-65), `send_trim_request` (199-212 and 235-240), `send_check` (103-113),
`get_nodes_populations` (155-160), `send_first_request` (302-305), `send_revive_request` (351-367). -/
def supRequest (cfg : Hgs.Conf D K) (s : Sup D K) (r : Req D) (cid : Id) («from» : Addr) :
    Option (Sup D K × Out D K) :=
  let me : Id := (.sup, s.nextTask)
  match r with
  | .start pop => some (supStart s pop «from»)
  | .metaepoch =>
    some (putS (.metaepoch «from» cid s.nodes.length 0 []) { s with states := [] },
      s.nodes.map fun n => (.node n, .metaepoch me))
  | .trimNotProgressing =>
    (trimRequests me s.ratio 0 s.levels).map fun out =>
      (putS (.trim «from» cid s.nodes.length 0) s, out)
  | .trimRedundant =>
    some (putS (.redundant «from» cid s.nodes.length []) s, s.nodes.map fun n => (.node n, .check me none))
  | .checkStatus lvl =>
    (nodesToCheck cfg s lvl).map fun ns =>
      (putS (.status «from» cid ns []) s,
        if ns.isEmpty then [(«from», .answer (.status []) cid)]
        else ns.map fun n => (.node n, .check me none))
  | .population =>
    some (putS (.population «from» cid s.nodes.length 0 []) s,
      s.nodes.map fun n => (.node n, .population me none))
  | .releaseSprouts =>
    (findLeaf s.levels (cfg.maxLevel + 1)).bind fun lvl =>
      (sendNext me s.levels lvl 0 []).map fun out => (putS (.release «from» cid lvl 0 [] []) s, out)
  | .revive =>
    if (s.states.filter NState.alive).length = 0 then
      let ripe := (s.states.filter NState.ripe).map NState.address
      (halveUpTo cfg.fl (cfg.maxLevel + 1) s.ratio).map fun ratio =>
        (putS (.revive «from» cid ripe.length 0) { s with ratio := ratio }, ripe.map fun a => (a, .revive me))
    else some (putS (.revive «from» cid 0 0) s, [(«from», .answer .reviveEnd cid)])

/-- `list(it)` for an iterator `it` with the given elements still to come: the list, and what is still to
come afterwards. Used for hgs_tasks.py:251-252. -/
def drain {α : Type*} (it : List α) : List α × List α := (it, [])

/-- The inner loop of `trim_redundant`, hgs_tasks.py:265-278, over the dead nodes (`false`) and the
processed ones (`true`). `none` is the `AttributeError` of `self.hgs.min_dists` in line 273: the supervisor
has no such attribute (it is in `self.hgs.config`), so every comparison raises. -/
def redundantInner : List (NState D × Bool) → Option Unit
  | [] => some ()
  | (x, p) :: xs => if x.ripe || p then none else redundantInner xs

/-- The outer loop of `trim_redundant`, hgs_tasks.py:262-279. -/
def redundantOuter (dead : List (NState D)) : List (NState D) → List (NState D) → Option Unit
  | _, [] => some ()
  | processed, x :: xs =>
    match redundantInner (dead.map (·, false) ++ processed.map (·, true)) with
    | none => none
    | some _ => redundantOuter dead (processed ++ [x]) xs

/-- `trim_redundant`, hgs_tasks.py:258-279. No `KILL` is ever sent: see `redundantInner`. -/
def trimRedundant (infos : List (NState D × Addr)) : Option Unit :=
  redundantOuter ((infos.map Prod.fst).filter fun x => !x.alive) []
    ((infos.map Prod.fst).filter fun x => x.alive)

/-- Lines 247-252 of hgs_tasks.py: the infos sorted by level (highest first, stable), grouped by level; the
log line reads the group's iterator to its end, and what is left of it is passed on. -/
def redundantGroups (infos : List (NState D × Addr)) : Option Unit :=
  ((infos.mergeSort fun a b => b.1.level ≤ a.1.level).splitBy fun a b => a.1.level == b.1.level).forM
    fun it => trimRedundant (drain (drain it).2).1

/-- `log_hgs_state`, hgs_tasks.py:177-184: only the lookups `level_nodes[lvl]`, a `KeyError` above 2. -/
def logState (cfg : Hgs.Conf D K) (s : Sup D K) : Bool :=
  (List.range (cfg.maxLevel + 1)).all fun l => (s.levels[l]?).isSome

/-- Lines 74-77 of hgs_tasks.py: the cost of a node that ran, with the weight of its level. -/
def addCost (cfg : Hgs.Conf D K) (costs : List K) : Option (ℕ × K) → List K
  | none => costs
  | some (lvl, e) => costs ++ [cfg.modifier lvl * e]

/-- A later step of a task of the supervisor (actors.py:140-142): `finish_metaepoch` (hgs_tasks.py:72-86),
`finish_check` (122-131), `receive_population` (162-166), `receive_trim_confirmation` (214-220 and 242-256),
`receive_release_confirmation` (316-336), `receive_revive_confirmation` (369-372). `none` for an operation
the task has no step for (line 29). -/
def supTask (cfg : Hgs.Conf D K) (s : Sup D K) (i : Id) (t : STask D K) (m : Msg D K) («from» : Addr) :
    Option (Sup D K × Out D K) :=
  match t, m with
  | .metaepoch c cid count fin costs, .metaepochEnd _ data =>
    let costs := addCost cfg costs data
    let s := setS i (.metaepoch c cid count (fin + 1) costs) s
    if fin + 1 = count then
      costs.max?.map fun top =>
        ({ s with cost := s.cost + top }, [(c, .answer (.metaepochEnd (s.cost + top)) cid)])
    else some (s, [])
  | .status c cid toCheck states, .check _ (some st) =>
    let states := states ++ [st]
    let s := setS i (.status c cid toCheck states) s
    some (s, if states.length = toCheck.length then [(c, .answer (.status states) cid)] else [])
  | .population c cid count fin merged, .population _ (some pop) =>
    let merged := merged ++ pop
    let s := setS i (.population c cid count (fin + 1) merged) s
    if fin + 1 = count then
      if logState cfg s then some (s, [(c, .answer (.population merged) cid)]) else none
    else some (s, [])
  | .trim c cid count fin, .trimEnd _ =>
    some (setS i (.trim c cid count (fin + 1)) s,
      if fin + 1 = count then [(c, .answer .trimNotProgressingEnd cid)] else [])
  | .redundant c cid count infos, .check _ (some st) =>
    let infos := infos ++ [(st, «from»)]
    let s := setS i (.redundant c cid count infos) s
    if infos.length = count then
      (redundantGroups infos).map fun _ => (s, [(c, .answer .trimRedundantEnd cid)])
    else some (s, [])
  | .release c cid lvl idx cur next, .releaseEnd _ st created =>
    let cur := cur ++ [st]
    let next := next ++ created
    let s := { s with states := s.states ++ [st] ++ created }
    match s.levels[lvl]? with
    | none => none
    | some ns =>
      if ns.length ≤ idx + 1 then
        match lvl with
        | 0 => some (setS i (.release c cid 0 0 [] cur) s, [(c, .answer .releaseEnd cid)])
        | lvl' + 1 => (sendNext i s.levels lvl' 0 cur).map fun out =>
            (setS i (.release c cid lvl' 0 [] cur) s, out)
      else (sendNext i s.levels lvl (idx + 1) next).map fun out =>
          (setS i (.release c cid lvl (idx + 1) cur next) s, out)
  | .revive c cid count fin, .revive _ =>
    some (setS i (.revive c cid count (fin + 1)) s,
      if fin + 1 = count then [(c, .answer .reviveEnd cid)] else [])
  | _, _ => none

/-- `HgsNodeSupervisor.receiveMessage`, actors.py:122-142. After the release phase at level 0
`current_lvl` is -1 in the code; the task is not used again. -/
def supReceive (cfg : Hgs.Conf D K) (s : Sup D K) (m : Msg D K) («from» : Addr) :
    Option (Sup D K × Out D K) :=
  match m with
  | .req r cid => supRequest cfg s r cid «from»
  | .registerNode cid level pop =>
    let r := createNode s level pop
    match s.levels[level]? with
    | none => none
    | some ns => some
        ({ r.1 with
            nodes := s.nodes ++ [s.nextNode]
            levels := s.levels.set level (ns ++ [s.nextNode]) },
          r.2 ++ [(«from», .registerNodeEnd cid s.nextNode)])
  | .done => some (s, [])
  | .hello | .answer _ _ | .registerNodeEnd _ _ => none
  | .reset _ _ => none
  | .metaepoch i | .metaepochEnd i _ | .check i _ | .population i _ | .trim i _ | .trimEnd i
  | .release i _ | .releaseEnd i _ _ | .revive i =>
    match s.tasks i with
    | none => none
    | some t => supTask cfg s i t m «from»

/-! ## The nodes -/

/-- `self.tasks[task.id] = task`, actors.py:82 -/
def putN (n : ℕ) (t : NTask D) (x : NodeS D K) : NodeS D K :=
  { x with
    tasks := Function.update x.tasks (.node n, x.nextTask) (some t)
    nextTask := x.nextTask + 1 }

/-- Replaces the attributes of a task. -/
def setN (i : Id) (t : NTask D) (x : NodeS D K) : NodeS D K :=
  { x with tasks := Function.update x.tasks i (some t) }

/-- `run_metaepoch`, `fill_node_info`, `update_current_cost`, `_after_metaepoch` and
`update_dominated_hypervolume` (node_tasks.py:116-160; the last two are those of ClassicHGS.py:279-297), with
`last_result_data` (lines 91, 113-114): level and `epoch_cost` of the last message. -/
def nodeMetaepoch (fl : K → K) (r : Hgs.Report D K) (n : Hgs.Node D K) : Hgs.Node D K × Option (ℕ × K) :=
  if n.alive then
    (Rounded.Hgs.afterMetaepoch fl r { n with cost := r.costs.getLast?.getD n.cost },
      r.costs.getLast?.map fun c => (n.level, c - n.cost))
  else (n, none)

/-- The condition in node_tasks.py:178-182 after `alive`; `q` is the ratio in the message. -/
def stale (cfg : Hgs.Conf D K) (q : K) (n : Hgs.Node D K) : Bool :=
  match n.oldHv with
  | none => false
  | some o =>
    if 0 < o then
      match n.hv with
      | none => true
      | some h => Rounded.Hgs.lags cfg.fl cfg.eps q n.level o h
    else false

/-- `trim_not_progressing`, node_tasks.py:170-189 -/
def nodeTrim (cfg : Hgs.Conf D K) (q : K) (n : Hgs.Node D K) : Hgs.Node D K :=
  if n.alive && stale cfg q n then
    { n with alive := false, ripe := true, center := some (cfg.mean n.pop) }
  else n

/-- `revive`, node_tasks.py:69-71 -/
def nodeRevive (n : Hgs.Node D K) : Hgs.Node D K := { n with ripe := false, alive := true }

/-- The state a node reports about itself (node_tasks.py:56-58, 311-313); `a` is the address put in. -/
def stateOf (cfg : Hgs.Conf D K) (a : Addr) (n : Hgs.Node D K) : NState D :=
  createNodeState cfg a n.level n.alive n.ripe n.pop

/-- `finish`, node_tasks.py:310-321 -/
def finish (cfg : Hgs.Conf D K) (n : ℕ) (m : Hgs.Node D K) (r : Rel D) : Out D K :=
  [(r.from, .releaseEnd r.cid (stateOf cfg (.node n) m) r.created)]

/-- The list comprehension in node_tasks.py:272-282: is a state with a population near the delegate? -/
def redundantDelegate (cfg : Hgs.Conf D K) (level : ℕ) (d : D) (states : List (NState D)) : Bool :=
  states.any fun st => decide (0 < st.popLen) && st.center.any (cfg.near level d)

/-- `try_relase_next_sprout` and `release_next_sprout`, node_tasks.py:249-308, for the delegates from
`current_delegate_index` on; `k` is the number of the task. -/
def releaseNext (cfg : Hgs.Conf D K) (spawn : ℕ → ℕ → ℕ → List D) (n k : ℕ) (m : Hgs.Node D K)
    (sv : Addr) : List D → Rel D → Rel D × Out D K
  | [], r => (r, finish cfg n m r)
  | d :: ds, r =>
    if cfg.sproutiveness ≤ r.released ∨ cfg.maxSprouts ≤ r.aliveSprouts then (r, finish cfg n m r)
    else if redundantDelegate cfg (m.level + 1) d r.next then
      releaseNext cfg spawn n k m sv ds { r with index := r.index + 1 }
    else
      let pop := spawn n k r.index
      let st := createNodeState cfg (.node n) (m.level + 1) true false pop
      ({ r with
          index := r.index + 1
          created := r.created ++ [st]
          next := r.next ++ [st] },
        [(sv, .registerNode (.node n, k) (m.level + 1) pop)])

/-- `start_sprouting`, node_tasks.py:238-247 -/
def startSprouting (cfg : Hgs.Conf D K) (spawn : ℕ → ℕ → ℕ → List D) (n k : ℕ) (m : Hgs.Node D K)
    (sv : Addr) (r : Rel D) : Rel D × Out D K :=
  if m.level < cfg.maxLevel ∧ r.aliveSprouts < cfg.maxSprouts ∧ m.delegates ≠ [] then
    releaseNext cfg spawn n k m sv m.delegates r
  else (r, finish cfg n m r)

/-- The first step of a new task of a node (actors.py:78-83 and 223-224). `CHECK_STATUS` puts the address of
the sender into the state (node_tasks.py:56). A request to a node without `reset` counts as an
exception. `none` also for operations without a task (`KILL` among them, which is never sent). -/
def nodeRequest (cfg : Hgs.Conf D K) (env : ℕ → ℕ → Hgs.Report D K) (spawn : ℕ → ℕ → ℕ → List D) (n : ℕ)
    (x : NodeS D K) (m : Msg D K) («from» : Addr) : Option (NodeS D K × Out D K) :=
  match x.mem, x.supervisor with
  | some a, some sv =>
    match m with
    | .check i _ => some (putN n .check x, [(«from», .check i (some (stateOf cfg «from» a)))])
    | .population i _ => some (putN n .population x, [(«from», .population i (some a.pop))])
    | .metaepoch i =>
      let r := nodeMetaepoch cfg.fl (env n x.nextTask) a
      some ({ putN n .metaepoch x with mem := some r.1 }, [(«from», .metaepochEnd i r.2)])
    | .trim i q => some ({ putN n .trim x with mem := some (nodeTrim cfg q a) }, [(«from», .trimEnd i)])
    | .revive i => some ({ putN n .revive x with mem := some (nodeRevive a) }, [(«from», .revive i)])
    | .release i states =>
      let r : Rel D := ⟨«from», i, 0, states, 0, 0, 0, []⟩
      if a.ripe then
        if a.sprouts = [] then
          let o := startSprouting cfg spawn n x.nextTask a sv r
          some (putN n (.release o.1) x, o.2)
        else some (putN n (.release r) x,
          a.sprouts.map fun j => (.node j, .check (.node n, x.nextTask) none))
      else some (putN n (.release r) x, finish cfg n a r)
    | _ => none
  | _, _ => none

/-- A later step of a task of a node (actors.py:217-218); only sprouting has them:
`receive_sprout_state` (node_tasks.py:231-236) and `new_sprout_released` (323-328). -/
def nodeTask (cfg : Hgs.Conf D K) (spawn : ℕ → ℕ → ℕ → List D) (n : ℕ) (x : NodeS D K) (i : Id)
    (t : NTask D) (m : Msg D K) : Option (NodeS D K × Out D K) :=
  match x.mem, x.supervisor, t, m with
  | some a, some sv, .release r, .check _ (some st) =>
    let r := { r with
      checked := r.checked + 1
      aliveSprouts := r.aliveSprouts + if st.alive then 1 else 0 }
    if r.checked = a.sprouts.length then
      let o := startSprouting cfg spawn n i.2 a sv r
      some (setN i (.release o.1) x, o.2)
    else some (setN i (.release r) x, [])
  | some a, some sv, .release r, .registerNodeEnd _ j =>
    let a := { a with sprouts := a.sprouts ++ [j] }
    let o := releaseNext cfg spawn n i.2 a sv (a.delegates.drop r.index)
      { r with released := r.released + 1 }
    some ({ setN i (.release o.1) x with mem := some a }, o.2)
  | _, _, _, _ => none

/-- `Node.receiveMessage`, actors.py:215-227, and `reset`, 229-272. A `HgsMessage` other than `HELLO` for an
unknown task is ignored; `"done"` has no attribute `id`. -/
def nodeReceive (cfg : Hgs.Conf D K) (env : ℕ → ℕ → Hgs.Report D K) (spawn : ℕ → ℕ → ℕ → List D) (n : ℕ)
    (x : NodeS D K) (m : Msg D K) («from» : Addr) : Option (NodeS D K × Out D K) :=
  match m.id?.bind fun i => (x.tasks i).map (i, ·) with
  | some (i, t) => nodeTask cfg spawn n x i t m
  | none =>
    match m with
    | .done => none
    | .hello => some ({ x with supervisor := some «from» }, [])
    | .reset level _ => some ({ x with mem := some (Hgs.newNode level none) }, [(«from», .done)])
    | .req _ _ | .answer _ _ | .registerNode _ _ _ | .registerNodeEnd _ _ => some (x, [])
    | m => nodeRequest cfg env spawn n x m «from»

/-! ## The system -/

/-- Everything together: the actors, the messages under way between every two of them (oldest first), and
the client: the requests still to be asked, whether it waits for an answer (`ask` blocks), how many
requests it has sent, and what it has received. -/
structure Sys (D K : Type*) where
  sup : Sup D K
  nodes : ℕ → NodeS D K
  chan : Addr → Addr → List (Msg D K)
  todo : List (Req D)
  waiting : Bool
  sent : ℕ
  inbox : List (Msg D K)

/-- A system before `START` whose client is going to ask the given requests one after another. -/
def Sys.new (ratio : List K) (todo : List (Req D)) : Sys D K :=
  ⟨Sup.new ratio, fun _ => NodeS.new, fun _ _ => [], todo, false, 0, []⟩

/-- Appends a message to a channel. -/
def push (ch : Addr → Addr → List (Msg D K)) (a b : Addr) (m : Msg D K) : Addr → Addr → List (Msg D K) :=
  fun c d => if c = a ∧ d = b then ch c d ++ [m] else ch c d

/-- The calls of `send` of the actor `a`, in order. -/
def pushAll (ch : Addr → Addr → List (Msg D K)) (a : Addr) : Out D K → Addr → Addr → List (Msg D K)
  | [] => ch
  | (b, m) :: out => pushAll (push ch a b m) a out

/-- Takes the oldest message away from a channel. -/
def pop (ch : Addr → Addr → List (Msg D K)) (a b : Addr) : Addr → Addr → List (Msg D K) :=
  fun c d => if c = a ∧ d = b then (ch c d).tail else ch c d

/-- The message `m` from `a` reaches `b`, which handles it to the end. `none`: the handler raised. -/
def handle (cfg : Hgs.Conf D K) (env : ℕ → ℕ → Hgs.Report D K) (spawn : ℕ → ℕ → ℕ → List D) (s : Sys D K)
    (a b : Addr) (m : Msg D K) : Option (Sys D K) :=
  match b with
  | .client => some { s with
      chan := pop s.chan a b
      waiting := false
      inbox := s.inbox ++ [m] }
  | .sup => (supReceive cfg s.sup m a).map fun r =>
      { s with
        sup := r.1
        chan := pushAll (pop s.chan a b) b r.2 }
  | .node n => (nodeReceive cfg env spawn n (s.nodes n) m a).map fun r =>
      { s with
        nodes := Function.update s.nodes n r.1
        chan := pushAll (pop s.chan a b) b r.2 }

/-- The client sends its next request (`ask`, DistributedHGS.py:91-96, 102-125). -/
def ask (s : Sys D K) (r : Req D) (rest : List (Req D)) : Sys D K :=
  { s with
    chan := push s.chan .client .sup (.req r (.client, s.sent))
    todo := rest
    waiting := true
    sent := s.sent + 1 }

/-- One step of the system: some actor handles the oldest message of one of its channels, or the client,
which does not wait for an answer, sends its next request. The result `none` is an exception. -/
inductive Step (cfg : Hgs.Conf D K) (env : ℕ → ℕ → Hgs.Report D K) (spawn : ℕ → ℕ → ℕ → List D)
    (s : Sys D K) : Option (Sys D K) → Prop
  | deliver (a b : Addr) (m : Msg D K) (ms : List (Msg D K)) (h : s.chan a b = m :: ms) :
      Step cfg env spawn s (handle cfg env spawn s a b m)
  | ask (r : Req D) (rest : List (Req D)) (h : s.todo = r :: rest) (hw : s.waiting = false) :
      Step cfg env spawn s (some (ask s r rest))

/-- The requests of one `DistributedHGS.step` (DistributedHGS.py:109-125). -/
def stepRequests : List (Req D) :=
  [.metaepoch, .trimNotProgressing, .trimRedundant, .releaseSprouts, .revive]

/-- The requests of the constructor (DistributedHGS.py:91-96). -/
def startRequests (pop : List D) : List (Req D) := [.start pop, .checkStatus none]

end Evogil.Dist
