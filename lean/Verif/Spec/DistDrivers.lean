import Verif.Model.DistDrivers
import Verif.Spec.Inevitable

/-!
# What a run of the distributed HGS with drivers has to deliver
-/

namespace Evogil.Dist

open Spec Hgs

variable {δ D K : Type*} [Field K] [LinearOrder K]

/-- The root is created with `population` and the user makes the `calls`.

No driver raises: there are reports `env` and populations `spawn` that come from the drivers of the nodes.
With any such reports, in every order in which the messages may arrive, all calls are answered in the end;
all vectors of the populations answered satisfy `P`, and there are at least `size` of them if the first call is a
step; every node has no population yet or one of a size that `Sz` allows for its level; and each step has cost at least
`c`. -/
def Delivers (O : NodeOps Unit δ D) (C : RunConf D K) (draw : ℕ → ℕ → ℕ → ℕ) (cfg : Hgs.Conf D K)
    (ratio : List K) (P : D → Prop) (Sz : ℕ → ℕ → Prop) (size : ℕ) (c : K) (population : List D) (calls : List Call) : Prop :=
  ∃ s, O.make 0 0 population () = some ((), s) ∧
    (∃ env spawn σ ds, (∀ n k, (env n k).costs ≠ []) ∧
      Drives O C draw cfg env spawn (bumpAll (PState.init ratio)) [s] calls σ ds) ∧
    ∀ env spawn σ ds, (∀ n k, (env n k).costs ≠ []) →
      Drives O C draw cfg env spawn (bumpAll (PState.init ratio)) [s] calls σ ds →
      Inevitable (Step cfg env spawn) (fun sys => sys.todo = [] ∧ sys.waiting = false ∧ Shows σ sys ∧
          (∀ pop id, .answer (.population pop) id ∈ sys.inbox → (∀ d ∈ pop, P d) ∧
            (calls.head? = some .step → size ≤ pop.length)) ∧
          (∀ n ∈ σ.st.nodes, (∀ d ∈ n.pop, P d) ∧ (n.pop = [] ∨ Sz n.level n.pop.length)) ∧
          (calls.count .step : ℕ) * c ≤ sys.sup.cost)
        (Sys.new ratio (startRequests population ++ calls.flatMap Call.requests))

end Evogil.Dist
