import Mathlib.Data.List.Basic
import Mathlib.Data.Int.Basic

/-!
# Model of `evotools/rxtools.py`

`multiprocess_observable` (lines 34-64) and `prime_number` (lines 67-85), which are not used elsewhere in the repository.
`from_process` (lines 22-31) is not modelled.

A source is what an observable emits, and whether it completes: one that fails has no handler in line 35, so that its process
ends with an exception. The processes run side by side; the queue holds an interleaving of what they put into it, which is an
argument. The queue delivers everything, each process's values in their order.
-/

namespace Evogil.RxTools

/-- An observable: the values it emits, and whether it completes afterwards. -/
structure Source (V : Type*) where
  values : List V
  completes : Bool

section
variable {V : Type*} [DecidableEq V]

/-- What `observable_worker` puts into the queue, rxtools.py:34-35; `stop` is the string "end". -/
def sent (stop : V) (s : Source V) : List V := if s.completes then s.values ++ [stop] else s.values

/-- The loop of `multiprocess_observable`, rxtools.py:54-62, for `n` providers of which `ended` have ended: the values passed to
the observer, and whether `on_completed` is called (otherwise `queue.get()` waits forever). -/
def drain (stop : V) (n : ℕ) : ℕ → List V → List V × Bool
  | ended, [] => ([], !decide (ended < n))
  | ended, msg :: queue =>
    if ended < n then
      if msg = stop then drain stop n (ended + 1) queue
      else
        let r := drain stop n ended queue
        (msg :: r.1, r.2)
    else ([], true)

/-- `multiprocess_observable(obs_providers)` when the processes fill the queue as in `queue`, rxtools.py:44-64. -/
def multiprocessObservable (stop : V) (providers : List (Source V)) (queue : List V) : List V × Bool :=
  drain stop providers.length 0 queue

end

/-- The loop of `prime_number`, rxtools.py:72-78 (and the `else` of the loop, lines 79-81). -/
def primeLoop (num : ℤ) : List ℤ → Bool
  | [] => true
  | i :: is => if num % i = 0 then false else primeLoop num is

/-- `prime_number`, rxtools.py:67-85; the numbers of `range(2, num)`. The modulus of a positive number is the same in Python and
Lean. -/
def primeNumber (num : ℤ) : Bool :=
  if 1 < num then primeLoop num ((List.range' 2 (num.toNat - 2)).map Int.ofNat) else false

end Evogil.RxTools
