import Mathlib.Algebra.Order.Group.Defs

/-!
# Model of `simulation/timing.py` and of `SimulationWorker.run` (`simulation/worker.py` lines 24-81)

What the called functions do is given: their result or the exception they raise, and the readings of the clock. The lines about
logging are left out, except for the message of `log_time`.
-/

namespace Evogil.Worker

/-- What can be raised, as far as lines 63 and 74 of worker.py tell: `NotViableConfiguration`, another `Exception`, or something
else (`KeyboardInterrupt`, `SystemExit`). -/
inductive Raised
  | notViable
  | error
  | exit
deriving DecidableEq

section
variable {K : Type*} [AddCommGroup K] {α : Type*}

/-- `with process_time(lst): body` and `with system_time(lst): body`, timing.py:6-19: an exception of the body is raised again
at the `yield`, so that the last two lines are not reached. -/
def timed (start stop : K) (body : Except Raised α) (lst : List K) : List K × Except Raised α :=
  match body with
  | .ok x => (lst ++ [stop - start], .ok x)
  | .error e => (lst, .error e)

/-- `with log_time(ctx, log, msg, out): body`, timing.py:22-30: the list `out` afterwards, the times logged, and the outcome. The
message contains `out[-1]`. -/
def logTime (start stop : K) (body : Except Raised α) (out : List K) : List K × List K × Except Raised α :=
  match timed start stop body out with
  | (out', .ok x) => (out', out'.getLast?.toList, .ok x)
  | (out', .error e) => (out', [], .error e)

/-- What the calls in `run` do, worker.py:33-49, 60 and 79: renicing and seeding, `factory.prepare`, the constructor of the driver,
`run_driver`, and `driver.shutdown()`; the readings of the clock around `run_driver`; and `self.simulation_no`. -/
structure Calls (K α : Type*) where
  setup : Except Raised Unit
  prepare : Except Raised Unit
  create : Except Raised Unit
  work : Except Raised α
  shutdown : Except Raised Unit
  start : K
  stop : K
  number : ℕ

/-- What `run` does: what it returns (`none` for `None`) or raises, how often `driver.shutdown()` is called, and the times
logged. -/
structure Outcome (K α : Type*) where
  result : Except Raised (Option (α × K × ℕ))
  shutdowns : ℕ
  logged : List K
deriving DecidableEq

/-- Lines 63-75 of worker.py: exceptions are logged, and `None` is returned; others are passed on. -/
def handle {β : Type*} : Except Raised β → Except Raised (Option β)
  | .ok x => .ok (some x)
  | .error .notViable => .ok none
  | .error .error => .ok none
  | .error .exit => .error .exit

/-- The `finally` clause, worker.py:77-80, if there is a driver: an exception of `shutdown` takes the place of what was returned
or raised before. -/
def finish {β : Type*} (shutdown : Except Raised Unit) (r : Except Raised β) : Except Raised β :=
  match shutdown with
  | .ok () => r
  | .error e => .error e

/-- `SimulationWorker.run`, worker.py:24-81. Drivers are true in `if driver`. -/
def run (c : Calls K α) : Outcome K α :=
  match c.setup with
  | .error e => ⟨.error e, 0, []⟩
  | .ok () =>
    match c.prepare with
    | .error e => ⟨handle (.error e), 0, []⟩
    | .ok () =>
      match c.create with
      | .error e => ⟨handle (.error e), 0, []⟩
      | .ok () =>
        let r := logTime c.start c.stop c.work []
        let returned := match r.2.2 with
          | .error e => .error e
          | .ok x =>
            match r.1.getLast? with
            | some t => .ok (x, t, c.number)
            | none => .error .error
        ⟨finish c.shutdown (handle returned), 1, r.2.1⟩

end

end Evogil.Worker
