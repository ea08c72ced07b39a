import Verif.Model.MetricCache
import Verif.Model.Metrics

/-!
# The reference sets of the Pareto dominance indicator: `simulation/metrics_processor.py:162-270`

Directory listings (`Path.iterdir`, `os.walk`) are the parameter `ls` as in Model/Storage. The dictionaries
are lists of pairs in the order of insertion. Simplified: logging and printing are left out; if an
exception is raised nothing is said about the contents of `cache`; the name of the problem contains no
character that is special for `fnmatch`.
-/

namespace Evogil.Storage

variable {α : Type*} [LinearOrder α]

/-- The keys of `cache`: problem, name of the result, number of the run, metrics_processor.py:166. -/
abbrev PdiKey := Name × Name × ℕ

/-- The values of `cache`: first a list with the fitnesses of one result per algorithm
(metrics_processor.py:211-213), later the set of the non-dominated ones (243-245). -/
inductive PdiEntry (α : Type*) where
  | lists (l : List (List (List α)))
  | set (s : Finset (List α))
  deriving DecidableEq

/-- The dictionaries `cache` and `problem_nondominated`. -/
abbrev PdiDict (α : Type*) := List (PdiKey × PdiEntry α)

/-- What the pickle files under the results directory hold besides metrics: a result (its fitnesses,
the rest is not used here), or the pair stored in metrics_processor.py:247-249. -/
inductive PdiFile (α : Type*) where
  | result (fitnesses : List (List α))
  | nondominated (solutions : List (PdiEntry α)) (nd : PdiDict α)

/-- The file tree below the results directory. -/
abbrev PdiFS (α : Type*) := FS (Pickle (PdiFile α) (PdiEntry α) ℚ)

/-- Look up a key; `none` if there is none. -/
def dget {K V : Type*} [DecidableEq K] : List (K × V) → K → Option V
  | [], _ => none
  | (k', v) :: rest, k => if k' = k then some v else dget rest k

/-- `d[k] = v`. -/
def dset {K V : Type*} [DecidableEq K] : List (K × V) → K → V → List (K × V)
  | [], k, v => [(k, v)]
  | (k', v') :: rest, k, v => if k' = k then (k', v) :: rest else (k', v') :: dset rest k v

/-- `cache[key].append(fitnesses)` on the `defaultdict(list)`, metrics_processor.py:211-213. A set has no
`append`: the `AttributeError` is swallowed in line 214. -/
def pdiAppend (cache : PdiDict α) (key : PdiKey) (fitnesses : List (List α)) : PdiDict α :=
  match dget cache key with
  | none => dset cache key (.lists [fitnesses])
  | some (.lists l) => dset cache key (.lists (l ++ [fitnesses]))
  | some (.set _) => cache

/-- The body of the innermost loop, metrics_processor.py:197-215: names that do not match, directories
and files that are no results are skipped. -/
def preloadFile (fs : PdiFS α) (dir : RPath) (problem : Name) (runNo : ℕ) (cache : PdiDict α)
    (file : Name) : Except Err (PdiDict α) :=
  match matchNumber file with
  | none => .ok cache                                            -- AttributeError
  | some digits =>
    match loadFile fs (file :: dir) with
    | .ok (.result (.result fitnesses)) => .ok (pdiAppend cache (problem, digits, runNo) fitnesses)
    | .ok _ => .ok cache                                         -- AttributeError
    | .error .isADirectory => .ok cache
    | .error e => .error e

/-- The directories among the entries of a directory, metrics_processor.py:192-194. -/
def subdirs (fs : PdiFS α) (ls : RPath → List Name) (p : RPath) : Except Err (List Name) :=
  match iterdir fs ls p with
  | .ok names => .ok (names.filter fun n => isDir (fs (n :: p)))
  | .error e => .error e

/-- The loop over the files of a run, metrics_processor.py:196-215. -/
def preloadRun (fs : PdiFS α) (ls : RPath → List Name) (algoPath : RPath) (problem : Name)
    (cache : PdiDict α) (run : Name × ℕ) : Except Err (PdiDict α) :=
  match iterdir fs ls (run.1 :: algoPath) with
  | .ok files => files.foldlM (preloadFile fs (run.1 :: algoPath) problem run.2) cache
  | .error e => .error e

/-- The loop over the runs of an algorithm, metrics_processor.py:194-215: the number of a run is its
position among the directories as listed. -/
def preloadAlgo (fs : PdiFS α) (ls : RPath → List Name) (problemPath : RPath) (problem : Name)
    (cache : PdiDict α) (algo : Name) : Except Err (PdiDict α) :=
  match subdirs fs ls (algo :: problemPath) with
  | .ok runs => runs.zipIdx.foldlM (preloadRun fs ls (algo :: problemPath) problem) cache
  | .error e => .error e

/-- The loops of `preload_results_for_problem`, metrics_processor.py:188-215. -/
def preloadLoop (fs : PdiFS α) (ls : RPath → List Name) (root : RPath) (problem : Name)
    (cache : PdiDict α) : Except Err (PdiDict α) :=
  match subdirs fs ls (problem :: root) with
  | .ok algos => algos.foldlM (preloadAlgo fs ls (problem :: root) problem) cache
  | .error e => .error e

/-- Order of the keys of one problem in `sorted`, metrics_processor.py:222. -/
def keyLe (a b : PdiKey) : Prop := a.2.1 < b.2.1 ∨ a.2.1 = b.2.1 ∧ a.2.2 ≤ b.2.2

instance : DecidableRel keyLe := fun a b => by unfold keyLe; infer_instance

/-- `problem_keys`, metrics_processor.py:222. -/
def problemKeys (problem : Name) (cache : PdiDict α) : List PdiKey :=
  ((cache.map Prod.fst).filter fun k => k.1 = problem).insertionSort keyLe

/-- `problem_solutions`, metrics_processor.py:223. -/
def problemSolutions (cache : PdiDict α) (keys : List PdiKey) : List (PdiEntry α) :=
  keys.map fun k => (dget cache k).getD (.lists [])

/-- `"_nondominated"`. -/
def ndSuffix : Name := '_' :: "nondominated".toList

/-- `problem_cache_file`, metrics_processor.py:225. -/
def ndPath (problem : Name) (root : RPath) : RPath := (problem ++ ndSuffix) :: problem :: root

/-- Remove a file. -/
def FS.unset {C : Type*} (fs : FS C) (p : RPath) : FS C := fun q => if q = p then none else fs q

/-- `fnmatch` with `"*{problem}_*"` on the whole path, metrics_processor.py:258-260: the pattern occurs in
one of the components. -/
def oldCache (problem : Name) (p : RPath) : Bool := p.any fun c => decide ((problem ++ ['_']) <:+: c)

/-- The first loop of `clear_old_pdi_metrics`, metrics_processor.py:258-262; `os.remove` fails on a
directory. -/
def removeOld (problemPath : RPath) : List Name → PdiFS α → Except Err (PdiFS α)
  | [], fs => .ok fs
  | n :: rest, fs =>
    match fs (n :: problemPath) with
    | some .dir => .error .isADirectory
    | none => .error .fileNotFound
    | some (.file _) => removeOld problemPath rest (fs.unset (n :: problemPath))

/-- `".pareto_dominance_indicator.pickle"`. -/
def pdiSuffix : Name := ".pareto_dominance_indicator.pickle".toList

/-- Is this the path of a cached indicator below the directory of the problem?
metrics_processor.py:264-267. -/
def isPdiPath (problemPath : RPath) : RPath → Bool
  | [] => false
  | n :: dir => decide (pdiSuffix <:+ n) && decide (problemPath <:+ dir)

/-- The second loop of `clear_old_pdi_metrics`, metrics_processor.py:264-270. -/
def removePdi (problemPath : RPath) (fs : PdiFS α) : PdiFS α := fun p =>
  if isPdiPath problemPath p && !isDir (fs p) then none else fs p

/-- `clear_old_pdi_metrics`, metrics_processor.py:255-270. -/
def clearOld (fs : PdiFS α) (ls : RPath → List Name) (problem : Name) (root : RPath) :
    Except Err (PdiFS α) :=
  match iterdir fs ls (problem :: root) with
  | .error e => .error e
  | .ok names =>
    match removeOld (problem :: root) (names.filter fun n => oldCache problem (n :: problem :: root)) fs with
    | .ok fs' => .ok (removePdi (problem :: root) fs')
    | .error e => .error e

/-- `tuple(y) for s in solutions for y in s`, metrics_processor.py:244: if `solutions` is a set already
then `y` is a number and `tuple(y)` raises `TypeError`. -/
def entryPoints : PdiEntry α → Except Err (List (List α))
  | .lists l => .ok l.flatten
  | .set s => if ∀ v ∈ s, v = [] then .ok [] else .error .typeError

/-- The loop that computes the non-dominated solutions, metrics_processor.py:240-245. -/
def ndLoop (cache : PdiDict α) : List PdiKey → PdiDict α → Except Err (PdiDict α)
  | [], nd => .ok nd
  | k :: rest, nd =>
    match entryPoints ((dget cache k).getD (.lists [])) with
    | .error e => .error e
    | .ok pts => ndLoop cache rest (dset nd k (.set (filterNotDominated pts).toFinset))

/-- `cache.update(problem_nondominated)`, metrics_processor.py:251. -/
def dictUpdate (cache nd : PdiDict α) : PdiDict α := nd.foldl (fun c e => dset c e.1 e.2) cache

/-- What `load_file` gives in metrics_processor.py:226-230: the stored pair, or `None` and an empty
dictionary after an `IOError`; anything else cannot be unpacked. -/
def loadNd (fs : PdiFS α) (p : RPath) : Except Err (Option (List (PdiEntry α)) × PdiDict α) :=
  match loadFile fs p with
  | .ok (.result (.nondominated sols nd)) => .ok (some sols, nd)
  | .ok _ => .error .badPickle
  | .error _ => .ok (none, [])

/-- `filter_non_dominated_in_cache`, metrics_processor.py:219-252. -/
def filterCache (fs : PdiFS α) (ls : RPath → List Name) (root : RPath) (problem : Name)
    (cache : PdiDict α) : Except Err (PdiDict α) × PdiFS α :=
  let keys := problemKeys problem cache
  let solutions := problemSolutions cache keys
  match loadNd fs (ndPath problem root) with
  | .error e => (.error e, fs)
  | .ok (stored, nd) =>
    if stored = some solutions ∧ solutions ≠ [] then (.ok (dictUpdate cache nd), fs)
    else
      match clearOld fs ls problem root with
      | .error e => (.error e, fs)
      | .ok fs1 =>
        match ndLoop cache keys nd with
        | .error e => (.error e, fs1)
        | .ok nd' =>
          match saveFile fs1 (ndPath problem root) (.result (.nondominated solutions nd')) with
          | .error e => (.error e, fs1)
          | .ok fs2 => (.ok (dictUpdate cache nd'), fs2)

/-- `preload_results_for_problem`, metrics_processor.py:188-216. -/
def preload (fs : PdiFS α) (ls : RPath → List Name) (root : RPath) (problem : Name)
    (cache : PdiDict α) : Except Err (PdiDict α) × PdiFS α :=
  match preloadLoop fs ls root problem cache with
  | .error e => (.error e, fs)
  | .ok cache' => filterCache fs ls root problem cache'

/-- `pareto_dominance_indicator`, metrics_utils.py:94-98 and metrics.py:65-68, for both kinds of
`all_solutions`: no tuple is equal to a list of lists. -/
def pdiValue (nonDominated : List (List α)) : PdiEntry α → Option ℚ
  | .lists l => if l.length = 0 then none else some (0 / (l.length : ℚ))
  | .set s =>
    if s.card = 0 then none
    else some (((nonDominated.filter fun v => decide (v ∈ s)).length : ℚ) / (s.card : ℚ))

/-- `"pareto_dominance_indicator"`. -/
def pdiName : Name := "pareto_dominance_indicator".toList

/-- The call of `get_metric`, metrics_processor.py:171-175; `result.non_dominated_fitnesses` is set in
metrics_processor.py:19-20. -/
def pdiRequest (x : Found (List (List α))) (params : PdiEntry α) :
    Request (List (List α)) (PdiEntry α) :=
  ⟨x.case.path, x.name, x.value, filterNotDominated x.value, pdiName, params⟩

/-- `pareto_dominance_indicator`, metrics_processor.py:162-185: the value, the dictionary afterwards, the
file tree afterwards. A missing key of the `defaultdict` gives `[]` (and is inserted), so that the branch
for `KeyError` is never taken. -/
def pdi (fs : PdiFS α) (ls : RPath → List Name) (cache : PdiDict α) (x : Found (List (List α))) :
    Except Err ℚ × PdiDict α × PdiFS α :=
  let key : PdiKey := (x.case.problem, x.name, x.runNo)
  let loaded : Except Err (PdiDict α) × PdiFS α :=
    if (dget cache key).isNone then preload fs ls x.case.resultsDir x.case.problem cache
    else (.ok cache, fs)
  match loaded.1 with
  | .error e => (.error e, cache, loaded.2)
  | .ok cache1 =>
    let all := (dget cache1 key).getD (.lists [])
    let cache2 := if (dget cache1 key).isNone then dset cache1 key (.lists []) else cache1
    let r := getMetric (fun _ _ nd p => pdiValue nd p) loaded.2 (pdiRequest x all)
    (r.1, cache2, r.2)

end Evogil.Storage
