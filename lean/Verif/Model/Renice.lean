/-!
# Model of `--renice` (`simulation/worker.py` lines 33-37, `simulation/run_parallel.py` lines 44-50)

The workers run one after the other in the process of `run_parallel` (line 47), so that each `os.nice` changes the niceness of this
one process. Workers that end with an exception in line 37 of worker.py end the program; this is the case `none` below.
-/

namespace Evogil.Renice

/-- `os.nice(increment)` on Linux for a process with niceness `n`: the sum, limited to -20..19. Without privileges a smaller
niceness than before is refused (`PermissionError`, here `none`). -/
def osNice (privileged : Bool) (increment n : Int) : Option Int :=
  let m := max (-20) (min 19 (n + increment))
  if privileged || decide (n ≤ m) then some m else none

/-- Lines 33-37 of worker.py: `none` as increment if `--renice` is not given (or empty). -/
def renice (privileged : Bool) (increment : Option Int) (n : Int) : Option Int :=
  match increment with
  | none => some n
  | some i => osNice privileged i n

/-- Lines 44-50 of run_parallel.py: the niceness at which each of `count` simulations runs, from niceness `n` of the process. -/
def runAll (privileged : Bool) (increment : Option Int) : (count : Nat) → (n : Int) → Option (List Int)
  | 0, _ => some []
  | count + 1, n =>
    match renice privileged increment n with
    | none => none
    | some m => (runAll privileged increment count m).map (m :: ·)

end Evogil.Renice
