import Verif.Model.Dominance

/-! # Model of `paretofront_layers`, evotools/ea_utils.py lines 39-61 -/

namespace Evogil

variable {α ι : Type*} [LinearOrder α]

/-- Final value of the counter `j[2]` of the cell at position `j`
(evotools/ea_utils.py:57-59): the number of cells at *other* positions
(`itertools.permutations(lst, 2)`) whose objectives dominate those of the cell. -/
def domCount (cells : List (ι × List α)) (j : ℕ) (fj : List α) : ℕ :=
  (cells.zipIdx.filter fun c => decide (c.2 ≠ j) && dominates c.1.2 fj).length

/-- One turn of the `while` loop, evotools/ea_utils.py:57-61: the cells with counter 0
(the yielded layer) and the cells kept for the next turn. -/
def layerSplit (cells : List (ι × List α)) : List (ι × List α) × List (ι × List α) :=
  let counted := cells.zipIdx.map fun c => (c.1, domCount cells c.2 c.1.2)
  ((counted.filter fun c => c.2 = 0).map Prod.fst, (counted.filter fun c => c.2 > 0).map Prod.fst)

/-- The `while len(lst_f_doms) > 0` loop, evotools/ea_utils.py:56-61. The argument
`fuel` bounds the number of turns; `none` means that it was not enough. -/
def layersLoop : ℕ → List (ι × List α) → Option (List (List ι))
  | _, [] => some []
  | 0, _ :: _ => none
  | fuel + 1, c :: cs =>
    let s := layerSplit (c :: cs)
    (layersLoop fuel s.2).map fun rest => s.1.map Prod.fst :: rest

/-- `paretofront_layers(lst, fitfun_res)`, evotools/ea_utils.py:39-61. The
`TypeError` work-around (lines 48-54, a list instead of a function is passed) computes
the same cells and is not modelled separately. -/
def paretofrontLayers (fuel : ℕ) (lst : List ι) (fitfun : ι → List α) :
    Option (List (List ι)) :=
  layersLoop fuel (lst.map fun i => (i, fitfun i))

end Evogil
