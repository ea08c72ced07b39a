import Verif.Prelude

/-!
# Vocabulary of C106
-/

namespace Evogil.Hgs

/-- What is charged on level `l` by drivers with the given levels and costs. -/
def levelCost (levels costs : List ℕ) (l : ℕ) : ℕ :=
  ((levels.zip costs).map fun p => if p.1 = l then p.2 else 0).sum

/-- `c` more on level `l`. -/
def charge (f : ℕ → ℕ) (l c : ℕ) : ℕ → ℕ := fun l' => if l' = l then f l + c else f l'

/-- The dictionary `a` has exactly `n` entries. -/
def Entries {A F : Type*} (a : A → Option F) (n : ℕ) : Prop :=
  ∃ ks : List A, ks.Nodup ∧ ks.length = n ∧ ∀ k, (a k).isSome ↔ k ∈ ks

end Evogil.Hgs
