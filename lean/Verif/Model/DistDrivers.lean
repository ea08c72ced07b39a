import Verif.Model.HgsRun
import Verif.Spec.DistHgs

/-!
# Model of the drivers in the nodes of the distributed HGS

`Verif.Model.DistHgs` describes the actors for given reports `env` of the nodes and given populations
`spawn` of the sprouts. Here both come from drivers: every node has its own one and nothing is shared, since
the nodes are created without `fitness_archive` (algorithms/HGS/distributed/actors.py:254). A run in which
a driver raises has no continuation.

Simplified: the constructor of the driver (actors.py:242-259) is taken to run at the end of the step in
which the node is registered instead of when the node receives `RESET`; the driver is not used before.
-/

namespace Evogil.Dist

section
variable {δ D K : Type*} [Field K] [LinearOrder K]

/-- What one step of the distributed HGS does to the drivers `ds` of the nodes; `draw i k idx` is the number
of the draws for the delegate number `idx` in task number `k` of node `i`. -/
structure Along (O : Hgs.NodeOps Unit δ D) (C : Hgs.RunConf D K) (draw : ℕ → ℕ → ℕ → ℕ)
    (env : ℕ → ℕ → Hgs.Report D K) (spawn : ℕ → ℕ → ℕ → List D) (σ : PState D K) (ds : List δ)
    (σ' : PState D K) (ds' : List δ) : Prop where
  length : ds'.length = σ'.st.nodes.length
  /-- a living node runs a metaepoch and reports what its driver gives, node_tasks.py:116-146 -/
  run : ∀ (i : ℕ) (a : Hgs.Node D K) (s : δ), σ.st.nodes[i]? = some a → ds[i]? = some s → a.alive = true →
    ∃ s', Hgs.nodeReport O C a.level i (σ.ctr i) () s = some ((), s', env i (σ.ctr i)) ∧ ds'[i]? = some s'
  /-- another node does nothing, node_tasks.py:131-132 -/
  rest : ∀ (i : ℕ) (a : Hgs.Node D K) (s : δ), σ.st.nodes[i]? = some a → ds[i]? = some s → a.alive = false →
    ds'[i]? = some s
  /-- the driver of a new node starts with the population that the parent has made from one of its
  delegates, node_tasks.py:283-303, actors.py:129-137, 160-166, 242-259 -/
  made : ∀ (j : ℕ) (b : Hgs.Node D K), σ.st.nodes.length ≤ j → σ'.st.nodes[j]? = some b →
    ∃ (i : ℕ) (a : Hgs.Node D K) (k idx : ℕ) (d : D) (s : δ), σ'.st.nodes[i]? = some a ∧ j ∈ a.sprouts ∧
      a.delegates[idx]? = some d ∧ k < σ'.ctr i ∧
      C.seedPop b.level (draw i k idx) d = some (spawn i k idx) ∧
      O.make b.level j (spawn i k idx) () = some ((), s) ∧ ds'[j]? = some s

/-- The calls of the user (DistributedHGS.py:102-125), with the drivers of the nodes; only a step uses
them. -/
inductive Drives (O : Hgs.NodeOps Unit δ D) (C : Hgs.RunConf D K) (draw : ℕ → ℕ → ℕ → ℕ) (cfg : Hgs.Conf D K)
    (env : ℕ → ℕ → Hgs.Report D K) (spawn : ℕ → ℕ → ℕ → List D) :
    PState D K → List δ → List Call → PState D K → List δ → Prop
  | nil (σ : PState D K) (ds : List δ) : Drives O C draw cfg env spawn σ ds [] σ ds
  | step {σ σ' σ'' : PState D K} {ds ds' ds'' : List δ} {calls : List Call}
      (h : seqStep cfg env spawn σ = some σ') (a : Along O C draw env spawn σ ds σ' ds')
      (t : Drives O C draw cfg env spawn σ' ds' calls σ'' ds'') :
      Drives O C draw cfg env spawn σ ds (.step :: calls) σ'' ds''
  | population {σ σ'' : PState D K} {ds ds'' : List δ} {calls : List Call}
      (t : Drives O C draw cfg env spawn (bumpAll σ) ds calls σ'' ds'') :
      Drives O C draw cfg env spawn σ ds (.finalizedPopulation :: calls) σ'' ds''
  | status {σ σ'' : PState D K} {ds ds'' : List δ} {calls : List Call} (lvl : Option ℕ)
      (t : Drives O C draw cfg env spawn { σ with ctr := bump (asked cfg σ lvl) σ.ctr } ds calls σ'' ds'') :
      Drives O C draw cfg env spawn σ ds (.status lvl :: calls) σ'' ds''

end

/-! ## NSGA-II in the nodes -/

section
open Generations Evaluation
variable {K : Type*} [Field K] [LinearOrder K] [FloorSemiring K] {A : Type*} [DecidableEq A]

/-- The driver of a node when the distributed HGS runs with NSGA-II: as `Hgs.nsgaiiOps`, but without
archive (algorithms/HGS/distributed/actors.py:242-259); the delegates are those of message.py:78-79. For
SPEA2, IBEA and SMS-EMOA the operations of the sequential HGS are used as they are, since nothing is ever found in
the archives there (`Verif.Model.HgsRun`, `Verif.Model.HgsRunMore`). -/
def nsgaiiOps (S : ℕ → Setup K) (key : List K → A) (m : ℕ) (c : K) (d : Hgs.NsgaiiDraws K) :
    Hgs.NodeOps Unit (Generations.NState K A) (List K) where
  make := fun l i pop _ => some ((), nsgaiiInit (S l) key (d.fit l i 0 0) none c pop)
  step := fun l i k j _ s =>
    (nsgaiiStep (S l) key (d.fit l i (k + 1) (j + 1)) m (d.iter i (k + 1) (j + 1)) (d.dm l i k j) (d.dv i k j)
      s).map fun s' => ((), s')
  cost := fun s => s.acc.cost
  conclude := fun l i k _ s =>
    let r := evalAll key (d.fit l i (k + 1) 0) s.acc s.individuals
    match nsgaiiFinish (S l) key (d.fit l i (k + 1) 0) m (d.iter i (k + 1) 0) s,
      Hgs.nsgaiiDelegates m (d.iter i (k + 1) 0) r.2 with
    | some (s', pop), some delegates => some ((), s', pop, delegates)
    | _, _ => none

end

end Evogil.Dist
