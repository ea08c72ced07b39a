import Verif.Spec.Rounded

/-! # Speeds of a swarm -/

namespace Evogil.Spec

variable {K : Type*} [Field K] [LinearOrder K]

/-- The speed in every dimension is a float of at most 16 times the (rounded) width of the dimension. -/
def Slow (fl : K → K) (dims : List (K × K)) (speeds : List K) : Prop :=
  List.Forall₂ (fun s d => fl s = s ∧ |s| ≤ 16 * fl (d.2 - d.1)) speeds dims

end Evogil.Spec
