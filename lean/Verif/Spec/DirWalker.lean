import Verif.Model.Storage

/-!
# What a user expects of the clean-up tool
-/

namespace Evogil.Spec

open Storage

variable {B : Type*}

/-- The list names every file below the directory `root` once. (A path is written with the innermost
component first.) -/
structure ListsFiles (fs : FS B) (root : RPath) (files : List (RPath × Name)) : Prop where
  nodup : files.Nodup
  mem : ∀ d n, (d, n) ∈ files ↔ root <:+ d ∧ ∃ b, fs (n :: d) = some (.file b)

/-- The path of `stem.json` in a directory. -/
def jsonFile (d : RPath) (stem : Name) : RPath := (stem ++ ".json".toList) :: d

/-- The path of `stem.pickle` in a directory. -/
def pickleFile (d : RPath) (stem : Name) : RPath := (stem ++ ".pickle".toList) :: d

end Evogil.Spec
