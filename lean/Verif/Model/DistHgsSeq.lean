import Verif.Model.DistHgs

/-!
# What the requests to the distributed HGS do, with the nodes taken one after another

No code of its own: these functions say in one go what the message handlers of `Verif.Model.DistHgs` do
together. `Verif.Lemmas.DistPhases` proves that every execution of the message-passing system ends as they
say.
-/

namespace Evogil.Dist

/-- The tree of nodes, the thresholds, `node_states` of the supervisor, and for every node the number of
tasks it has been given so far (which numbers its random draws). Attributes: actors.py:97-106, 169-200. -/
structure PState (D K : Type*) where
  st : Hgs.State D K
  ratio : List K
  states : List (NState D)
  ctr : ℕ → ℕ

variable {D K : Type*} [Field K] [LinearOrder K]

/-- After `START` (actors.py:144-158). -/
def PState.init (ratio : List K) : PState D K := ⟨Hgs.init, ratio, [], fun _ => 0⟩

/-- One more task for the nodes in the list. -/
def bump (ns : List ℕ) (ctr : ℕ → ℕ) : ℕ → ℕ := fun n => if n ∈ ns then ctr n + 1 else ctr n

/-- One more task for every node. -/
def bumpAll (σ : PState D K) : PState D K := { σ with ctr := bump (List.range σ.st.nodes.length) σ.ctr }

/-- `NEW_METAEPOCH` (hgs_tasks.py:55-86, node_tasks.py:96-160). -/
def seqMetaepoch (cfg : Hgs.Conf D K) (env : ℕ → ℕ → Hgs.Report D K) (σ : PState D K) :
    Option (PState D K) :=
  let rs := σ.st.nodes.mapIdx fun n a => nodeMetaepoch cfg.fl (env n (σ.ctr n)) a
  let costs := rs.filterMap fun r => r.2.map fun e => cfg.modifier e.1 * e.2
  costs.max?.map fun top =>
    { bumpAll σ with
      st := ⟨rs.map Prod.fst, σ.st.levels, σ.st.cost + top⟩
      states := [] }

/-- `TRIM_NOT_PROGRESSING` (hgs_tasks.py:199-220, node_tasks.py:170-193). -/
def seqTrim (cfg : Hgs.Conf D K) (σ : PState D K) : PState D K :=
  { bumpAll σ with
    st := { σ.st with nodes := (σ.st.nodes.map fun a => nodeTrim cfg (σ.ratio.getD a.level 0) a) } }

/-- `TRIM_REDUNDANT` (hgs_tasks.py:235-279): nothing but the exchange of `CHECK_STATUS`. -/
def seqRedundant (σ : PState D K) : PState D K := bumpAll σ

/-- A new node with the number `nodes.length` (actors.py:129-137, node_tasks.py:323-325). -/
def addSprout (st : Hgs.State D K) (i level : ℕ) : Hgs.State D K :=
  { st with
    nodes := st.nodes.modify i (fun n => { n with sprouts := n.sprouts ++ [st.nodes.length] }) ++
      [Hgs.newNode (level + 1) none]
    levels := st.levels.modify (level + 1) (· ++ [st.nodes.length]) }

/-- The loop over the delegates (node_tasks.py:249-308, 323-328): the tree afterwards and the states of the
new sprouts. -/
def sproutLoop (cfg : Hgs.Conf D K) (spawn : ℕ → ℕ → ℕ → List D) (i k level alive : ℕ) :
    List D → ℕ → ℕ → List (NState D) → List (NState D) → Hgs.State D K → Hgs.State D K × List (NState D)
  | [], _, _, _, created, st => (st, created)
  | d :: ds, idx, released, next, created, st =>
    if cfg.sproutiveness ≤ released ∨ cfg.maxSprouts ≤ alive then (st, created)
    else if redundantDelegate cfg (level + 1) d next then
      sproutLoop cfg spawn i k level alive ds (idx + 1) released next created st
    else
      let ns := createNodeState cfg (.node i) (level + 1) true false (spawn i k idx)
      sproutLoop cfg spawn i k level alive ds (idx + 1) (released + 1) (next ++ [ns]) (created ++ [ns])
        (addSprout st i level)

/-- Everything that follows from one `RELEASE_SPROUTS` to the node `i` (node_tasks.py:213-328) up to its
`RELEASE_SPROUTS_END` (hgs_tasks.py:316-321): the new state, what the node reports about itself and about
its new sprouts. -/
def releaseTurn (cfg : Hgs.Conf D K) (spawn : ℕ → ℕ → ℕ → List D) (i : ℕ) (next : List (NState D))
    (σ : PState D K) : Option (PState D K × NState D × List (NState D)) :=
  match σ.st.nodes[i]? with
  | none => none
  | some a =>
    let r :=
      if a.ripe ∧ a.level < cfg.maxLevel ∧ Hgs.livingSprouts σ.st i < cfg.maxSprouts then
        sproutLoop cfg spawn i (σ.ctr i) a.level (Hgs.livingSprouts σ.st i) a.delegates 0 0 next [] σ.st
      else (σ.st, [])
    let st := stateOf cfg (.node i) a
    some ({ σ with
        st := r.1
        states := σ.states ++ [st] ++ r.2
        ctr := bump (i :: if a.ripe then a.sprouts else []) σ.ctr }, st, r.2)

/-- The nodes of one level (hgs_tasks.py:316-325); also returns `current_lvl_states`. -/
def releaseNodes (cfg : Hgs.Conf D K) (spawn : ℕ → ℕ → ℕ → List D) :
    List ℕ → List (NState D) → List (NState D) → PState D K → Option (PState D K × List (NState D))
  | [], cur, _, σ => some (σ, cur)
  | i :: is, cur, next, σ =>
    (releaseTurn cfg spawn i next σ).bind fun r =>
      releaseNodes cfg spawn is (cur ++ [r.2.1]) (next ++ r.2.2) r.1

/-- The levels from `lvl` down to 0 (hgs_tasks.py:324-336). -/
def releaseLevels (cfg : Hgs.Conf D K) (spawn : ℕ → ℕ → ℕ → List D) :
    ℕ → List (NState D) → PState D K → Option (PState D K)
  | lvl, next, σ =>
    (σ.st.levels[lvl]?).bind fun ns =>
      (releaseNodes cfg spawn ns [] next σ).bind fun r =>
        match lvl with
        | 0 => some r.1
        | l + 1 => releaseLevels cfg spawn l r.2 r.1

/-- `RELEASE_SPROUTS` (hgs_tasks.py:282-336). -/
def seqRelease (cfg : Hgs.Conf D K) (spawn : ℕ → ℕ → ℕ → List D) (σ : PState D K) : Option (PState D K) :=
  (findLeaf σ.st.levels (cfg.maxLevel + 1)).bind fun l => releaseLevels cfg spawn l [] σ

/-- `REVIVE` (hgs_tasks.py:351-377, node_tasks.py:69-72). -/
def seqRevive (cfg : Hgs.Conf D K) (σ : PState D K) : Option (PState D K) :=
  if (σ.states.filter NState.alive).length = 0 then
    let ripe := (σ.states.filter NState.ripe).map NState.address
    (halveUpTo cfg.fl (cfg.maxLevel + 1) σ.ratio).map fun ratio =>
      { σ with
        st := { σ.st with
          nodes := (σ.st.nodes.mapIdx fun n a => if Addr.node n ∈ ripe then nodeRevive a else a) }
        ratio := ratio
        ctr := fun n => if Addr.node n ∈ ripe then σ.ctr n + 1 else σ.ctr n }
  else some σ

/-- One `DistributedHGS.step` (DistributedHGS.py:109-125). -/
def seqStep (cfg : Hgs.Conf D K) (env : ℕ → ℕ → Hgs.Report D K) (spawn : ℕ → ℕ → ℕ → List D)
    (σ : PState D K) : Option (PState D K) :=
  ((seqMetaepoch cfg env σ).bind fun σ => seqRelease cfg spawn (seqRedundant (seqTrim cfg σ))).bind
    (seqRevive cfg)

end Evogil.Dist
