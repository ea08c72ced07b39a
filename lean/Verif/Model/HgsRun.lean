import Verif.Model.Hgs
import Verif.Model.HgsFitness
import Verif.Model.Generations

/-!
# Model of whole runs of the sequential HGS, with the drivers of its nodes

`Verif.Model.Hgs` describes the tree for given reports of the nodes; here the reports are produced by
the drivers (`algorithms/HGS/classic/ClassicHGS.py`). The nodes run in threads, but one after the other
(`.run()` in line 144 waits), and the drivers of a level share one fitness archive (lines 74 and
243), which is part of the `world` here. `none` means that the code raises.

Simplified: the constructor of a sprout's driver runs at the end of the step instead of in the middle of
`release_new_sprouts` (line 339); nothing that happens in between looks at drivers or archives.
-/

namespace Evogil.Hgs

/-- What HGS uses of the drivers. `W` is what the drivers share, the first two numbers are the level and
the number of the node, the third one that of the step of HGS and the fourth one that of the step in the
metaepoch; they select the parameters and the draws. -/
structure NodeOps (W σ D : Type*) where
  /-- `owner.driver(population=...)`, ClassicHGS.py:234-247 -/
  make : ℕ → ℕ → List D → W → Option (W × σ)
  /-- `step`, algorithms/base/driver.py:47-48 -/
  step : ℕ → ℕ → ℕ → ℕ → W → σ → Option (W × σ)
  /-- the attribute `cost`, driver.py:33 -/
  cost : σ → ℕ
  /-- `finalized_population` and then `nominate_delegates`, ClassicHGS.py:280-281: the population and
  the delegates -/
  conclude : ℕ → ℕ → ℕ → W → σ → Option (W × σ × List D × List D)

/-- The remaining parameters of a run: `metaepoch_len` (ClassicHGS.py:248), the hypervolume of a
population (lines 286-297), `random.shuffle` (line 282), and `population_from_delegate` (lines 331-337,
modelled in `Verif.Model.HgsFitness`) with its draws. -/
structure RunConf (D K : Type*) where
  len : ℕ → ℕ
  hv : List D → K
  shuffle : ℕ → ℕ → List D → List D
  seedPop : ℕ → ℕ → D → Option (List D)

/-- `self.nodes`, `self.level_nodes`, `self.cost`, `self.min_progress_ratio`, the drivers of the nodes
and what they share, ClassicHGS.py:65-84. -/
structure Run (W σ D K : Type*) where
  tree : State D K
  ratio : List K
  drivers : List σ
  world : W

section
variable {W σ D K : Type*} [Field K] [LinearOrder K]

/-- `StepsRun(self.metaepoch_len).create_job(self.driver)`, ClassicHGS.py:263-264 and
driver.py:75-80: `n` steps, the next one has number `j`. The costs are those in the messages. -/
def nodeSteps (O : NodeOps W σ D) (l i k : ℕ) : ℕ → ℕ → W → σ → Option (List ℕ × W × σ)
  | _, 0, w, s => some ([], w, s)
  | j, n + 1, w, s =>
    match O.step l i k j w s with
    | none => none
    | some (w1, s1) => (nodeSteps O l i k (j + 1) n w1 s1).map fun r => (O.cost s1 :: r.1, r.2)

/-- `run_metaepoch` and `_after_metaepoch` of a living node, ClassicHGS.py:261-283: what it reports. -/
def nodeReport (O : NodeOps W σ D) (C : RunConf D K) (l i k : ℕ) (w : W) (s : σ) :
    Option (W × σ × Report D K) :=
  match nodeSteps O l i k 0 (C.len l) w s with
  | none => none
  | some (costs, w1, s1) =>
    match O.conclude l i k w1 s1 with
    | none => none
    | some (w2, s2, pop, delegates) =>
      some (w2, s2, ⟨costs.map fun c : ℕ => (c : K), pop, C.shuffle i k delegates, C.hv pop⟩)

/-- The jobs of `run_metaepoch`, ClassicHGS.py:127-144, one after the other: the shared objects, the
drivers and the reports. A node that is not alive has an empty job (line 269). -/
def gather (O : NodeOps W σ D) (C : RunConf D K) (k : ℕ) (tree : State D K) :
    List ℕ → W → List σ → (ℕ → Report D K) → Option (W × List σ × (ℕ → Report D K))
  | [], w, ds, env => some (w, ds, env)
  | i :: is, w, ds, env =>
    match tree.nodes[i]?, ds[i]? with
    | some n, some s =>
      if n.alive then
        match nodeReport O C n.level i k w s with
        | none => none
        | some (w1, s1, r) => gather O C k tree is w1 (ds.set i s1) (Function.update env i r)
      else gather O C k tree is w ds env
    | _, _ => none

/-- The drivers of the sprouts, ClassicHGS.py:331-341; the first of them has number `i`. -/
def plant (O : NodeOps W σ D) (C : RunConf D K) : ℕ → List (Node D K) → W → List σ → Option (W × List σ)
  | _, [], w, ds => some (w, ds)
  | i, n :: ns, w, ds =>
    match n.seed with
    | none => none
    | some d =>
      match C.seedPop n.level i d with
      | none => none
      | some pop =>
        match O.make n.level i pop w with
        | none => none
        | some (w1, s) => plant O C (i + 1) ns w1 (ds ++ [s])

/-- `__init__`, ClassicHGS.py:76-84: `perm` are the draws of `random.sample`, which raises if there are
too few vectors; `size` is `population_sizes[0]`. -/
def start (O : NodeOps W σ D) (ratio : List K) (perm : List D → List D) (size : ℕ) (w : W)
    (population : List D) : Option (Run W σ D K) :=
  if population.length < size then none
  else (O.make 0 0 ((perm population).take size) w).map fun r => ⟨init, ratio, [r.2], r.1⟩

/-- `step`, ClassicHGS.py:92-125; the recursion of `release_new_sprouts` is at most `max_level + 1`
deep (C38). -/
def runStep (cfg : Conf D K) (O : NodeOps W σ D) (C : RunConf D K) (k : ℕ) (s : Run W σ D K) :
    Option (Run W σ D K) :=
  match s.tree.levels[2]?, s.tree.levels[1]?, s.tree.levels[0]? with
  | some l2, some l1, some l0 =>
    match gather O C k s.tree (l2 ++ l1 ++ l0) s.world s.drivers (fun _ => ⟨[], [], [], 0⟩) with
    | none => none
    | some (w1, ds1, env) =>
      match step cfg (cfg.maxLevel + 1) env s.tree s.ratio with
      | none => none
      | some (tree', ratio') =>
        (plant O C s.tree.nodes.length (tree'.nodes.drop s.tree.nodes.length) w1 ds1).map
          fun r => ⟨tree', ratio', r.2, r.1⟩
  | _, _, _ => none

/-- `n` steps, the next one has number `k`. -/
def runSteps (cfg : Conf D K) (O : NodeOps W σ D) (C : RunConf D K) : ℕ → ℕ → Run W σ D K →
    Option (Run W σ D K)
  | _, 0, s => some s
  | k, n + 1, s => (runStep cfg O C k s).bind (runSteps cfg O C (k + 1) n)

/-- `finalized_population`, ClassicHGS.py:86-90 -/
def result (s : Run W σ D K) : List D := s.tree.nodes.flatMap Node.pop

end

/-! ## NSGA-II in the nodes -/

section
open Generations Evaluation
variable {K : Type*} [Field K] [LinearOrder K] [FloorSemiring K] {A : Type*} [DecidableEq A]

/-- The draws of the NSGA-II drivers: (level,) node, step of HGS, step in the metaepoch. `fit` are the
objective values with the error of the level (`blurred_fitnesses`, ClassicHGS.py:212-225), drawn anew in
every step; within a step no vector is evaluated twice, because of the archive. -/
structure NsgaiiDraws (K : Type*) where
  fit : ℕ → ℕ → ℕ → ℕ → List K → List K
  iter : ℕ → ℕ → ℕ → List (Ind (List K) (List K)) → List (Ind (List K) (List K))
  dm : ℕ → ℕ → ℕ → ℕ → ℕ → MateDraw
  dv : ℕ → ℕ → ℕ → ℕ → VarDraw K

/-- `[x.v for x in self.driver.front[1]]`, algorithms/HGS/distributed/message.py:78-79,
after `finish`, NSGAII.py:81-86: the first front of all individuals, before the selection. `shutdown`
(NSGAII/message.py:10) does nothing (driver.py:37-38). -/
def nsgaiiDelegates (m : ℕ) (iter : List (Ind (List K) (List K)) → List (Ind (List K) (List K)))
    (pop : List (Ind (List K) (List K))) : Option (List (List K)) :=
  (ndSort iter (nsgaiiDom fun x => (objFns m).map (fun o => o x)) pop.length pop).map
    fun fronts => (fronts.headD []).map fun x => x.v

/-- The driver of a node when HGS runs with NSGA-II; `S l` are the parameters of level `l`
(ClassicHGS.py:238-246), `c` is `mating_population_size`. What is shared are the archives of the
levels (line 74). -/
def nsgaiiOps (S : ℕ → Setup K) (key : List K → A) (m : ℕ) (c : K) (d : NsgaiiDraws K) :
    NodeOps (ℕ → Archive A (List K)) (NState K A) (List K) where
  make := fun l i pop w =>
    let s := nsgaiiInit (S l) key (d.fit l i 0 0) (some (w l)) c pop
    some (Function.update w l (s.acc.archive.getD (w l)), s)
  step := fun l i k j w s =>
    (nsgaiiStep (S l) key (d.fit l i (k + 1) (j + 1)) m (d.iter i (k + 1) (j + 1)) (d.dm l i k j) (d.dv i k j)
      { s with acc := { s.acc with archive := some (w l) } }).map fun s' =>
        (Function.update w l (s'.acc.archive.getD (w l)), s')
  cost := fun s => s.acc.cost
  conclude := fun l i k w s =>
    let s0 := { s with acc := { s.acc with archive := some (w l) } }
    let r := evalAll key (d.fit l i (k + 1) 0) s0.acc s0.individuals
    match nsgaiiFinish (S l) key (d.fit l i (k + 1) 0) m (d.iter i (k + 1) 0) s0,
      nsgaiiDelegates m (d.iter i (k + 1) 0) r.2 with
    | some (s', pop), some delegates =>
      some (Function.update w l (s'.acc.archive.getD (w l)), s', pop, delegates)
    | _, _ => none

end

/-! ## SPEA2 in the nodes -/

section
open Generations Evaluation
variable {K : Type*} [Field K] [LinearOrder K] {A : Type*}

/-- The draws of the SPEA2 drivers. Simplified: equal vectors evaluated in the same step get the same
objective values although each of them is blurred on its own. -/
structure Spea2Draws (K : Type*) where
  fit : ℕ → ℕ → ℕ → ℕ → List K → List K
  dt : ℕ → ℕ → ℕ → ℕ → ℕ → (ℕ × ℕ) × (ℕ × ℕ)
  dv : ℕ → ℕ → ℕ → ℕ → VarDraw K

/-- The driver of a node when HGS runs with SPEA2. It has an archive (ClassicHGS.py:243), but only
looks into it (SPEA2.py:116-119), so the archives of all levels stay empty. The delegates are those of
algorithms/SPEA2/message.py:31-32. -/
def spea2Ops (S : ℕ → Setup K) (dist : List K → List K → K) (key : List K → A) (d : Spea2Draws K) :
    NodeOps Unit (SState K) (List K) where
  make := fun l _ pop _ => some ((), spea2Init (S l) pop)
  step := fun l i k j _ s =>
    (spea2Step (S l) dist key (d.fit l i k j) (some fun _ => none) (d.dt l i k j) (d.dv i k j) s).map
      fun s' => ((), s')
  cost := fun s => s.cost
  conclude := fun _ _ _ _ s => some ((), s, spea2Final s, s.archive.map fun x => x.v)

end

end Evogil.Hgs
