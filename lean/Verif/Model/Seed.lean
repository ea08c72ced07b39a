import Verif.Model.RoundedTime

/-!
# The seed of a simulation (`simulation/worker.py`)

`random.seed` itself and the generator are not modelled.
-/

namespace Evogil.Seed

variable {K : Type*} [Field K] [LinearOrder K] [IsStrictOrderedRing K] [FloorRing K]

/-- `int.from_bytes(_, "big")`, simulation/worker.py:93: the first byte is the most significant one. -/
def fromBytes (bytes : List ℕ) : ℕ := bytes.foldl (fun n b => 256 * n + b) 0

/-- `_init_random_seed`, simulation/worker.py:87-98: the integer given to `random.seed`. `urandom` is what
`os.urandom(2500)` returns, `none` if it raises a `NotImplementedError`; `time` is `time.time()` and `pid` is
`os.getpid()`; `fl` rounds the product and the sum of floats. -/
def initSeed (fl : K → K) (urandom : Option (List ℕ)) (time : K) (pid : ℕ) : ℤ :=
  match urandom with
  | some bytes => fromBytes bytes
  | none => Rounded.Time.truncate (fl (fl (time * 256) + pid))

end Evogil.Seed
