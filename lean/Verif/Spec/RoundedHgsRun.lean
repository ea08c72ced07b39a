import Verif.Model.RoundedHgsRun

/-!
# What a budget simulation of HGS with rounding should store
-/

namespace Evogil.Rounded.Hgs

open Evogil.Hgs (Conf NodeOps RunConf Run result)

variable {W σ D K : Type*} [Field K] [LinearOrder K] [FloorRing K]

/-- What should be stored for `budgets` by a simulation that starts with `s`: one result for every budget, in
order. It is the result of HGS after some number of steps and its cost then, which is no less than the budget; for
budgets in increasing order it is the first number of steps of which that is true. All vectors stored satisfy `P`,
and there are at least `size` of them if the budget is positive. -/
def Stores (fl : K → K) (cfg : Conf D K) (O : NodeOps W σ D) (C : RunConf D K) (P : D → Prop) (size : ℕ)
    (s : Run W σ D K) (budgets : List ℤ) (res : List (Stored (Option (List D × K)))) : Prop :=
  res.map (fun r => r.name) = budgets ∧
    ∀ r ∈ res, ∃ n t, runSteps fl cfg O C 0 n s = some t ∧ r.pop = some (result t, t.tree.cost) ∧
      (r.name : K) ≤ t.tree.cost ∧ (∀ d ∈ result t, P d) ∧ (0 < r.name → size ≤ (result t).length) ∧
      (budgets.Pairwise (· ≤ ·) → ∀ m < n, ∀ u, runSteps fl cfg O C 0 m s = some u →
        u.tree.cost < (r.name : K))

end Evogil.Rounded.Hgs
