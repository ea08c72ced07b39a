import Verif.Props.Listing

/-!
# What is stored under a results directory

Independent of how results are written and listed.
-/

namespace Evogil.Spec

open Evogil.Storage

variable {C : Type*}

/-- The run with identifier `id` of algorithm `a` on problem `p` has a result for budget `b`. -/
def Stored (fs : FS C) (dir : RPath) (p a : Name) (b : ℕ) (id : Name) : Prop :=
  IsRunName id ∧ ∃ v, fs ((showNat b ++ pickleExt) :: id :: a :: p :: dir) = some (.file v)

/-- There are exactly `n` runs of `a` on `p` with a result for budget `b`. -/
def Holds (fs : FS C) (dir : RPath) (p a : Name) (b n : ℕ) : Prop :=
  ∃ ids : List Name, ids.Nodup ∧ ids.length = n ∧ ∀ id, id ∈ ids ↔ Stored fs dir p a b id

end Evogil.Spec
