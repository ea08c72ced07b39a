import Mathlib.Data.List.Lex
import Mathlib.Data.List.Sort
import Mathlib.Data.Char

/-!
# Storage of results: `simulation/serializer.py`, `simulation/serialization.py`,
`simulation/model.py`, `simulation/metrics_processor.py` (`get_metric`)

File and directory names are lists of characters.  A path is the list of its components, the
*last* component first, so that `parent` is the tail of the list.  The components that the code
joins (`results_dir` split at separators, problem, algorithm, id, file name) are assumed to contain
no path separator.  The pickled content is an opaque value of type `C`; pickling is the identity.
Exceptions are values.
-/

namespace Evogil.Storage

/-- A file name (Python `str`). -/
abbrev Name := List Char

/-- A path, innermost component first (`pathlib.Path`). -/
abbrev RPath := List Name

/-- What a directory entry is. -/
inductive Node (C : Type*) where
  | dir
  | file (c : C)
  deriving DecidableEq

/-- The file tree, as what is found at each path. -/
abbrev FS (C : Type*) := RPath → Option (Node C)

/-- The exceptions that the modelled functions raise or catch. -/
inductive Err where
  | fileExists
  | fileNotFound
  | notADirectory
  | isADirectory
  | badPickle
  | paramsChanged
  | metricFailed
  | typeError
  deriving DecidableEq

variable {C : Type*}

/-- Change what is found at one path. -/
def FS.set (fs : FS C) (p : RPath) (n : Node C) : FS C :=
  fun q => if q = p then some n else fs q

/-- A file tree in which the root is a directory and every entry lies in a directory. -/
structure FS.WF (fs : FS C) : Prop where
  root : fs [] = some .dir
  parent : ∀ c p, fs (c :: p) ≠ none → fs p = some .dir

/-- `Path.is_dir()` on what is found at a path. -/
def isDir : Option (Node C) → Bool
  | some .dir => true
  | _ => false

/-- `os.mkdir`, called by `Path.mkdir` in simulation/serializer.py:47-48. -/
def osMkdir (fs : FS C) : RPath → Except Err (FS C)
  | [] => .error .fileExists
  | c :: par =>
    match fs par with
    | none => .error .fileNotFound
    | some (.file _) => .error .notADirectory
    | some .dir =>
      match fs (c :: par) with
      | some _ => .error .fileExists
      | none => .ok (fs.set (c :: par) .dir)

/-- `Path.mkdir(parents=True, exist_ok=existOk)` of the standard library, called in
simulation/serializer.py:47-48: on `FileNotFoundError` make the parent (with `exist_ok=True`) and
try again; any other error is re-raised unless `exist_ok` and the directory is there. -/
def mkdirParents (fs : FS C) (existOk : Bool) : RPath → Except Err (FS C)
  | [] => if existOk then .ok fs else .error .fileExists
  | c :: par =>
    match osMkdir fs (c :: par) with
    | .ok fs' => .ok fs'
    | .error .fileNotFound =>
      match mkdirParents fs true par with
      | .ok fs1 => osMkdir fs1 (c :: par)
      | .error e => .error e
    | .error e => if existOk && isDir (fs (c :: par)) then .ok fs else .error e

/-- Opening for writing and dumping: `save_file`, simulation/serializer.py:32-34. -/
def saveFile (fs : FS C) (p : RPath) (c : C) : Except Err (FS C) :=
  match fs p.tail with
  | none => .error .fileNotFound
  | some (.file _) => .error .notADirectory
  | some .dir =>
    match fs p with
    | some .dir => .error .isADirectory
    | _ => .ok (fs.set p (.file c))

/-- Opening for reading and unpickling: `load_file`, simulation/serializer.py:27-29. -/
def loadFile (fs : FS C) (p : RPath) : Except Err C :=
  match fs p with
  | some (.file c) => .ok c
  | some .dir => .error .isADirectory
  | none =>
    match fs p.tail with
    | some (.file _) => .error .notADirectory
    | _ => .error .fileNotFound

/-- The fields of `SimulationCase` used for storing: simulation/model.py:13-30. -/
structure Case where
  resultsDir : RPath
  problem : Name
  algorithm : Name
  id : Name
  deriving DecidableEq

/-- `".pickle"`. -/
def pickleExt : Name := ['.', 'p', 'i', 'c', 'k', 'l', 'e']

/-- `Serializer.path`: simulation/serializer.py:38-44. -/
def Case.path (s : Case) : RPath := s.id :: s.algorithm :: s.problem :: s.resultsDir

/-- `Serializer.get_result_path`: simulation/serializer.py:54-55. -/
def Case.resultPath (s : Case) (name : Name) : RPath := (name ++ pickleExt) :: s.path

/-- `Serializer.store`: simulation/serializer.py:46-52. -/
def store (fs : FS C) (s : Case) (r : C) (name : Name) : Except Err (FS C) :=
  let made : Except Err (FS C) :=
    match mkdirParents fs false s.path with
    | .ok fs' => .ok fs'
    | .error .fileExists => .ok fs          -- with suppress(FileExistsError)
    | .error e => .error e
  match made with
  | .ok fs1 => saveFile fs1 (s.resultPath name) r
  | .error e => .error e

/-- `Serializer.load`: simulation/serializer.py:57-59. -/
def load (fs : FS C) (s : Case) (name : Name) : Except Err C :=
  loadFile fs (s.resultPath name)

/-! ## Identifiers -/

/-- The run number handed to `get_simulation_id`: nothing, a number, or (when listing) a string. -/
inductive RunId where
  | none
  | int (n : ℕ)
  | str (s : Name)

/-- `str(n)` for a number. -/
def showNat (n : ℕ) : Name := Nat.toDigits 10 n

/-- The format specification `:0>7`: pad with zeros on the left up to seven characters. -/
def pad7 (s : Name) : Name := List.replicate (7 - s.length) '0' ++ s

/-- `get_simulation_id`: simulation/model.py:6-10.  `today` is the formatted current time and `rnd`
the random number drawn from 1000000..9999999. -/
def getSimulationId (run : RunId) (date : Option Name) (today : Name) (rnd : ℕ) : Name :=
  let d := match date with
    | some (c :: cs) => c :: cs
    | _ => today
  let r := match run with
    | .none => showNat rnd
    | .int 0 => showNat rnd
    | .int n => showNat n
    | .str [] => showNat rnd
    | .str s => s
  d ++ ['_', '_'] ++ pad7 r

/-- `int(s)` on a string of decimal digits. -/
def readNat (s : Name) : ℕ := Nat.ofDigitChars 10 s 0

/-! ## Listing -/

/-- One character class of the regular expressions. -/
inductive Cls where
  | digit
  | lit (c : Char)

/-- Does the character belong to the class?  (`\d` is taken to be the ASCII digits.) -/
def Cls.ok : Cls → Char → Bool
  | .digit, c => c.isDigit
  | .lit d, c => c == d

/-- `re.fullmatch` for a sequence of single-character classes. -/
def matchSeq : List Cls → Name → Bool
  | [], [] => true
  | k :: ks, c :: cs => k.ok c && matchSeq ks cs
  | _, _ => false

/-- `\d{4}-\d{2}-\d{2}\.\d{2}\d{2}\d{2}\.\d{6}`: simulation/serialization.py:28. -/
def dateCls : List Cls :=
  List.replicate 4 .digit ++ [.lit '-'] ++ List.replicate 2 .digit ++ [.lit '-'] ++
    List.replicate 2 .digit ++ [.lit '.'] ++ List.replicate 6 .digit ++ [.lit '.'] ++
    List.replicate 6 .digit

/-- The whole expression of simulation/serialization.py:27-30. -/
def runCls : List Cls :=
  dateCls ++ [.lit '_', .lit '_'] ++ List.replicate 7 .digit

/-- The match of simulation/serialization.py:27-33: `(rundate, runid)`. -/
def matchRun (name : Name) : Option (Name × Name) :=
  if matchSeq runCls name then some (name.take 24, name.drop 26) else none

/-- `sorted` on names. -/
def sortNames (l : List Name) : List Name := l.insertionSort (· ≤ ·)

/-- The loop of `_each_run`, simulation/serialization.py:24-45, over the sorted names: the cases with
their consecutive numbers. -/
def eachRunLoop (resultsDir : RPath) (problem algo : Name) (today : Name) (rnd : ℕ) :
    ℕ → List Name → List (Case × ℕ)
  | _, [] => []
  | runNo, cand :: rest =>
    match matchRun cand with
    | none => eachRunLoop resultsDir problem algo today rnd runNo rest
    | some (runDate, runId) =>
      (⟨resultsDir, problem, algo, getSimulationId (.str runId) (some runDate) today rnd⟩, runNo) ::
        eachRunLoop resultsDir problem algo today rnd (runNo + 1) rest

/-- `Path.iterdir`: the names found in a directory in the order `ls` of the operating system. -/
def iterdir (fs : FS C) (ls : RPath → List Name) (p : RPath) : Except Err (List Name) :=
  match fs p with
  | some .dir => .ok (ls p)
  | some (.file _) => .error .notADirectory
  | none => .error .fileNotFound

/-- `_each_run`: simulation/serialization.py:22-45. -/
def eachRun (fs : FS C) (ls : RPath → List Name) (resultsDir : RPath) (problem algo : Name)
    (today : Name) (rnd : ℕ) : Except Err (List (Case × ℕ)) :=
  match iterdir fs ls (algo :: problem :: resultsDir) with
  | .ok names => .ok (eachRunLoop resultsDir problem algo today rnd 0 (sortNames names))
  | .error e => .error e

/-- `re.fullmatch("[0-9]+\.pickle", name)` and the digits it captures:
simulation/serialization.py:68-70. -/
def matchNumber (name : Name) : Option Name :=
  let digits := name.takeWhile Char.isDigit
  if digits ≠ [] ∧ name.dropWhile Char.isDigit = pickleExt then some digits else none

/-- `ResultWithMetadata`, simulation/serializer.py:16-24: the loaded value, the file name without its
suffix, the number of the run, and the case. -/
structure Found (C : Type*) where
  value : C
  name : Name
  runNo : ℕ
  case : Case

/-- The loop of `load_number_measured_results`, simulation/serialization.py:65-79: a missing file ends
the loop (the `suppress` is outside of it), a directory or a name that does not match is skipped. -/
def loadLoop (fs : FS C) (s : Case) (runNo : ℕ) : List Name → Except Err (List (Found C))
  | [] => .ok []
  | cand :: rest =>
    match matchNumber cand with
    | none => loadLoop fs s runNo rest                      -- AttributeError
    | some digits =>
      match load fs s (showNat (readNat digits)) with
      | .ok v =>
        match loadLoop fs s runNo rest with
        | .ok more => .ok (⟨v, digits, runNo, s⟩ :: more)
        | .error e => .error e
      | .error .isADirectory => loadLoop fs s runNo rest
      | .error .fileNotFound => .ok []
      | .error e => .error e

/-- `load_number_measured_results`: simulation/serialization.py:62-79. -/
def loadRun (fs : FS C) (ls : RPath → List Name) (s : Case) (runNo : ℕ) :
    Except Err (List (Found C)) :=
  match iterdir fs ls s.path with
  | .ok names => loadLoop fs s runNo (sortNames names)
  | .error .fileNotFound => .ok []
  | .error e => .error e

/-- `by_number[k].append(x)` on a `defaultdict(list)` with keys in insertion order:
simulation/serialization.py:53-56. -/
def dictAppend {K V : Type*} [DecidableEq K] : List (K × List V) → K → V → List (K × List V)
  | [], k, v => [(k, [v])]
  | (k', vs) :: rest, k, v =>
    if k' = k then (k', vs ++ [v]) :: rest else (k', vs) :: dictAppend rest k v

/-- `by_number[k]`. -/
def dictGet {K V : Type*} [DecidableEq K] : List (K × List V) → K → List V
  | [], _ => []
  | (k', vs) :: rest, k => if k' = k then vs else dictGet rest k

/-- The loop over all runs, simulation/serialization.py:53-56. -/
def collectRuns (fs : FS C) (ls : RPath → List Name) :
    List (Case × ℕ) → List (ℕ × List (Found C)) → Except Err (List (ℕ × List (Found C)))
  | [], acc => .ok acc
  | (s, runNo) :: rest, acc =>
    match loadRun fs ls s runNo with
    | .error e => .error e
    | .ok found =>
      collectRuns fs ls rest (found.foldl (fun d r => dictAppend d (readNat r.name) r) acc)

/-- `load_result`: simulation/serialization.py:52-60. -/
def loadResult (fs : FS C) (ls : RPath → List Name) (runs : List (Case × ℕ)) :
    Except Err (List (ℕ × List (Found C))) :=
  match collectRuns fs ls runs [] with
  | .error e => .error e
  | .ok d => .ok (((d.map Prod.fst).insertionSort (· ≤ ·)).map fun k => (k, dictGet d k))

/-- `ResultsExtractor.load`: simulation/serialization.py:15-17. -/
def loadAll (fs : FS C) (ls : RPath → List Name) (resultsDir : RPath) (problem algo : Name)
    (today : Name) (rnd : ℕ) : Except Err (List (ℕ × List (Found C))) :=
  match eachRun fs ls resultsDir problem algo today rnd with
  | .error e => .error e
  | .ok runs => loadResult fs ls runs

end Evogil.Storage
