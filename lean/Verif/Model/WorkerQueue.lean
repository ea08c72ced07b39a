import Verif.Model.Worker
import Mathlib.Algebra.Group.Defs

/-!
# Model of the workers in the queue of `run_parallel` (`simulation/run_parallel.py` lines 36-53)

The workers of `Model/Worker` run one after the other in the process of `run_parallel` (line 47). `log_summary` (line 51) is that of
`Model/RunParallel` and does not raise here. The queue is not empty in the code (`.run()` raises otherwise, C160).
-/

namespace Evogil.Worker

section
variable {K : Type*} [AddCommGroup K] {α : Type*}

/-- What the pipeline does, run_parallel.py:40-50: how many workers were started, how often a driver was shut down, and the results
or the exception. -/
structure Queue (K α : Type*) where
  started : ℕ
  shutdowns : ℕ
  results : Except Raised (List (α × K × ℕ))
deriving DecidableEq

/-- Lines 40-50 of run_parallel.py: an exception of a worker ends the pipeline, and so does `None`, because of `subres[-1]` in
line 42 (`TypeError`). -/
def queue : List (Calls K α) → Queue K α
  | [] => ⟨0, 0, .ok []⟩
  | c :: cs =>
    let o := run c
    match o.result with
    | .error e => ⟨1, o.shutdowns, .error e⟩
    | .ok none => ⟨1, o.shutdowns, .error .error⟩
    | .ok (some r) =>
      let q := queue cs
      ⟨1 + q.started, o.shutdowns + q.shutdowns, q.results.map (r :: ·)⟩

/-- Lines 36-53 of run_parallel.py: the pipeline, and whether the pool and the actor system are shut down (lines 52 and 53), which
an exception of the pipeline prevents. -/
def program (cs : List (Calls K α)) : Queue K α × Bool :=
  let q := queue cs
  match q.results with
  | .ok _ => (q, true)
  | .error _ => (q, false)

end

end Evogil.Worker
