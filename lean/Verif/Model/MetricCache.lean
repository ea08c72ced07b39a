import Verif.Model.Storage

/-!
# The per-result cache of metric values: `get_metric` in `simulation/metrics_processor.py:70-123`

`F` is the type of the fitness data of a result, `P` of the metric parameters, `V` of metric values.
-/

namespace Evogil.Storage

/-- What the metric file holds, simulation/metrics_processor.py:108-115 (the module name is constant
and left out). -/
structure MetricEntry (P V : Type*) where
  value : V
  metric : Name
  params : P

/-- The content of a pickle file: a result or a cached metric. -/
inductive Pickle (R P V : Type*) where
  | result (r : R)
  | metric (e : MetricEntry P V)

/-- One call of `get_metric`: the result (directory, name, fitnesses, non-dominated fitnesses), the
metric name and its parameters, simulation/metrics_processor.py:70-72. -/
structure Request (F P : Type*) where
  dir : RPath
  name : Name
  fitnesses : F
  nonDominated : F
  metric : Name
  params : P

variable {R F P V : Type*}

/-- `result.path.parent / f"{result.name}.{metric_name}.pickle"`:
simulation/metrics_processor.py:80. -/
def Request.path (q : Request F P) : RPath :=
  (q.name ++ '.' :: q.metric ++ pickleExt) :: q.dir

/-- `get_metric`: simulation/metrics_processor.py:70-123.  `compute` stands for the function looked up
by name in `metrics.metrics` (`none`: it raises). -/
def getMetric [DecidableEq P] (compute : Name → F → F → P → Option V)
    (fs : FS (Pickle R P V)) (q : Request F P) : Except Err V × FS (Pickle R P V) :=
  match loadFile fs q.path with
  | .ok (.metric e) =>
    if e.params ≠ q.params then (.error .paramsChanged, fs) else (.ok e.value, fs)
  | .ok (.result _) => (.error .badPickle, fs)
  | .error .fileNotFound =>
    match compute q.metric q.fitnesses q.nonDominated q.params with
    | none => (.error .metricFailed, fs)
    | some v =>
      match saveFile fs q.path (.metric ⟨v, q.metric, q.params⟩) with
      | .ok fs' => (.ok v, fs')
      | .error e => (.error e, fs)
  | .error e => (.error e, fs)

/-- The file tree after a sequence of calls. -/
def afterRequests [DecidableEq P] (compute : Name → F → F → P → Option V)
    (fs : FS (Pickle R P V)) (qs : List (Request F P)) : FS (Pickle R P V) :=
  qs.foldl (fun fs q => (getMetric compute fs q).2) fs

end Evogil.Storage
