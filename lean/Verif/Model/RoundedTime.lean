import Verif.Model.Driver
import Verif.Model.Rounded

/-!
# Time-limited runs with rounding (`algorithms/base/driver.py`)

As `Evogil.timeRun`, from the readings of the clock on and with every result of an operation on floats rounded by the
parameter `fl`. `step` and `timeout` are integers (simulation/factory.py:39-40); Python compares integers and floats
without rounding.
-/

namespace Evogil.Rounded.Time

variable {K : Type*} [Field K] [LinearOrder K] [IsStrictOrderedRing K] [FloorRing K]

/-- The quotient of two numbers without its digits after the point. -/
def truncate (x : K) : ℤ := if 0 ≤ x then ⌊x⌋ else ⌈x⌉

/-- `v // w` for a float `v`, driver.py:101, as CPython computes it (`float_floor_div`): `fmod`, which is exact, then the
quotient, corrected if the signs of remainder and divisor differ, and rounded to the nearest integer. A divisor 0 raises a
`ZeroDivisionError`. -/
def floorDiv (fl : K → K) (v w : K) : Except Fault K :=
  if w = 0 then .error .infinite
  else
    let mod := v - w * (truncate (v / w) : K)
    let div := fl (fl (v - mod) / w)
    let div := if mod ≠ 0 ∧ (w < 0 ↔ ¬ mod < 0) then fl (div - 1) else div
    if div = 0 then .ok 0
    else if fl (div - (⌊div⌋ : K)) > 1 / 2 then .ok (fl ((⌊div⌋ : K) + 1))
    else .ok (⌊div⌋ : K)

/-- One turn of the `while` loop, driver.py:96-108; `t0` and `t1` are the readings of `time.time()` in lines 96 and 98. The
remaining parameters and the result are those of `Evogil.timeTurn`. -/
def timeTurn {ρ : Type*} (fl : K → K) (step timeout : ℤ) (s : TimeState K ρ) (t0 t1 : K) (res : ρ) :
    Except Fault (TimeState K ρ × List (ℕ × ρ)) :=
  let elapsed := fl (s.elapsed + fl (t1 - t0))
  let since := fl (elapsed - fl ((step * (s.stepNo : ℤ) : ℤ) : K))
  match s.previous with
  | none => .ok ({ stepNo := s.stepNo, elapsed := elapsed, previous := some res }, [])
  | some prev =>
    match floorDiv fl since (fl (step : K)) with
    | .error e => .error e
    | .ok q =>
      let n := (truncate q).toNat
      .ok ({ stepNo := s.stepNo + n, elapsed := elapsed, previous := some res },
        emitSlots (step : K) (timeout : K) prev n s.stepNo)

/-- `TimeRun._start`, driver.py:93-110; the steps are given with the readings of the clock before and after them. The
result is as in `Evogil.timeRun`, or the exception that ends the run. -/
def timeRun {ρ : Type*} (fl : K → K) (step timeout : ℤ) :
    TimeState K ρ → List (K × K × ρ) → Except Fault (Option (List (ℕ × ρ) × ℕ))
  | s, [] => if s.elapsed < (timeout : K) then .ok none else .ok (some ([], 0))
  | s, (t0, t1, res) :: rest =>
    if s.elapsed < (timeout : K) then
      match timeTurn fl step timeout s t0 t1 res with
      | .error e => .error e
      | .ok t =>
        match timeRun fl step timeout t.1 rest with
        | .error e => .error e
        | .ok r => .ok (r.map fun r => (t.2 ++ r.1, r.2 + 1))
    else .ok (some ([], 0))

end Evogil.Rounded.Time
