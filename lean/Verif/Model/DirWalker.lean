import Verif.Model.Storage

/-!
# The clean-up tool for result directories: `dir_walker.py`

The file tree is that of `Verif.Model.Storage`; the content of a file is a value of type `B` (its
bytes). `json.load` and `int` are parameters, `none` means that they raise `ValueError`;
`pickle.dump` of what `json.load` returned is a parameter that never fails. The messages on the
terminal are left out. The functions change the tree and may raise in between, so they return the
tree that they leave behind together with the exception, if any.
-/

namespace Evogil.DirWalker

open Storage

variable {B V : Type*}

/-- The exceptions of dir_walker.py: those of the file operations, and the `ValueError`s of
`json.load` (line 23) and `int` (line 34). -/
inductive WErr where
  | os (e : Err)
  | value
  deriving DecidableEq

/-- `os.remove`, dir_walker.py:29 and 39, for a path at which there is a file. -/
def remove (fs : FS B) (p : RPath) : FS B := fun q => if q = p then none else fs q

/-- `".json"`. -/
def jsonExt : Name := ['.', 'j', 's', 'o', 'n']

/-- `fname[:-4] + "pickle"`, dir_walker.py:25. -/
def target (fname : Name) : Name := fname.take (fname.length - 4) ++ ['p', 'i', 'c', 'k', 'l', 'e']

/-- `json2pickle`, dir_walker.py:19-29. The `.json` file is read before the `.pickle` file is opened
for writing. -/
def json2pickle (jsonLoad : B → Option V) (pickleDump : V → B) (fs : FS B) (dir : RPath)
    (fname : Name) : FS B × Option WErr :=
  if jsonExt.isSuffixOf fname then
    match loadFile fs (fname :: dir) with
    | .error e => (fs, some (.os e))
    | .ok b =>
      match jsonLoad b with
      | none => (fs, some .value)
      | some v =>
        match saveFile fs (target fname :: dir) (pickleDump v) with
        | .error e => (fs, some (.os e))
        | .ok fs' => (remove fs' (fname :: dir), none)
  else (fs, none)

/-- `clear_budget`, dir_walker.py:32-39. The part of the name before the first dot is
`fname.split(".")[0]`. -/
def clearBudget (toInt : Name → Option ℤ) (fs : FS B) (dir : RPath) (fname : Name) :
    FS B × Option WErr :=
  match toInt (fname.takeWhile (· ≠ '.')) with
  | none => (fs, some .value)
  | some budget => if budget > 4500 then (remove fs (fname :: dir), none) else (fs, none)

/-- `walk`, dir_walker.py:11-16. `os.walk` reads a directory before its files are handed to `fun`;
neither function makes or removes a directory or touches a file of another directory, so the files
that are visited are those that were there at the beginning. They are given here as one list of
directories and names, in the order of `os.walk`. -/
def walk (f : FS B → RPath → Name → FS B × Option WErr) (fs : FS B) :
    List (RPath × Name) → FS B × Option WErr
  | [] => (fs, none)
  | (dir, fname) :: rest =>
    match f fs dir fname with
    | (fs', none) => walk f fs' rest
    | (fs', some e) => (fs', some e)

end Evogil.DirWalker
