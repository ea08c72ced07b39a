import Verif.Model.Driver
import Verif.Model.HgsRun
import Mathlib.Algebra.Order.Floor.Ring

/-!
# HGS as the driver of a simulation

`algorithms/HGS/HGS.py:71-80` passes everything on to the sequential or the distributed HGS; here it is the
sequential one, which is the default (line 37).
-/

namespace Evogil.Hgs

variable {W σ D K : Type*} [Field K] [LinearOrder K] [FloorRing K]

/-- The driver that a worker sees, algorithms/HGS/HGS.py:71-80, with `ClassicHGS.step` and
`ClassicHGS.finalized_population` (ClassicHGS.py:86-125). The number counts the steps; `none` means that a step
has raised.

Simplified: the cost of HGS need not be an integer. Budgets are, and so the comparison of the cost with a budget
(algorithms/base/driver.py:69-72) is that of the cost rounded down. What is stored is the true cost
(simulation/worker.py:114-119); it is given together with the population. -/
def hgsDriver (cfg : Conf D K) (O : NodeOps W σ D) (C : RunConf D K) :
    DriverSig (Option (ℕ × Run W σ D K)) (Option (List D × K)) where
  step := fun o => o.bind fun p => (runStep cfg O C p.1 p.2).map fun s => (p.1 + 1, s)
  cost := fun o => match o with
    | none => 0
    | some p => ⌊p.2.tree.cost⌋
  finalize := fun o => (o, o.map fun p => (result p.2, p.2.tree.cost))

end Evogil.Hgs
