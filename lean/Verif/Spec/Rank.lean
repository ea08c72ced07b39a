import Verif.Prelude
import Mathlib.Tactic.Common

/-!
# Specification: dominance rank

The rank of `x` inside a collection `S` is the length of the longest chain
`x_0, x_1, ..., x_k = x` of members of `S` in which every element dominates the next.
-/

namespace Evogil.Spec

variable {ι : Type*}

/-- There is a chain of `k` dominance steps inside `S` ending in the given member. -/
def HasChain (dom : ι → ι → Prop) (S : List ι) : ℕ → ι → Prop
  | 0, x => x ∈ S
  | k + 1, x => x ∈ S ∧ ∃ y, dom y x ∧ HasChain dom S k y

/-- `k` is the length of the longest chain of dominators above `x`. -/
def IsRank (dom : ι → ι → Prop) (S : List ι) (x : ι) (k : ℕ) : Prop :=
  HasChain dom S k x ∧ ¬ HasChain dom S (k + 1) x

end Evogil.Spec
