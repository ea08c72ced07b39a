import Verif.Model.Nsgaii
import Mathlib.Data.List.Dedup

/-!
# Model of JGBL (`algorithms/JGBL/JGBL.py`)

Decision vectors are lists over an ordered field `K`; the drawn positions are parameters.
-/

namespace Evogil.Jgbl

variable {K : Type*} [Field K] [LinearOrder K]

/-- `convert_to_ratio`, JGBL.py:157-161. Vectors have as many entries as there are dimensions. -/
def convertToRatio (dims : List (K × K)) (x : List K) : List K :=
  List.zipWith (fun v d => (v - d.1) / (d.2 - d.1)) x dims

/-- `decode_ratio`, JGBL.py:135-139 -/
def decodeRatio (dims : List (K × K)) (ratio : List K) : List K :=
  List.zipWith (fun r d => d.1 + r * (d.2 - d.1)) ratio dims

/-- `multi_delete`, JGBL.py:151-155: `del` from the last position to the first one. -/
def multiDelete (l : List K) (positions : List ℕ) : List K :=
  positions.reverse.foldl (fun acc i => acc.eraseIdx i) l

/-- the list `transposon` of `prepare_transposon`, JGBL.py:147; the positions are the sorted sample
of JGBL.py:142-144 and hence valid. -/
def transposon (ratio : List K) (positions : List ℕ) : List K :=
  positions.filterMap fun i => ratio[i]?

/-- `paste`, JGBL.py:128-133 -/
def paste : List K → List K → ℕ → List K
  | x, [], _ => x
  | x, t :: ts, pos => if x.length ≤ pos + 1 then x.set pos t else paste (x.set pos t) ts (pos + 1)

/-- The random numbers of one call of `cut_and_paste` or `copy_and_paste`: the two sorted samples
(JGBL.py:142-144) and the two insertion points (JGBL.py:108-109, 120-121). -/
structure PasteDraw where
  xSample : List ℕ
  ySample : List ℕ
  xPos : ℕ
  yPos : ℕ
deriving DecidableEq

/-- `cut_and_paste`, JGBL.py:101-114 -/
def cutAndPaste (dims : List (K × K)) (d : PasteDraw) (x y : List K) : List K × List K :=
  let xr := convertToRatio dims x
  let yr := convertToRatio dims y
  let xt := transposon xr d.xSample
  let yt := transposon yr d.ySample
  let xr := multiDelete xr d.xSample
  let yr := multiDelete yr d.ySample
  (decodeRatio dims (xr.take d.xPos ++ yt ++ xr.drop d.xPos),
    decodeRatio dims (yr.take d.yPos ++ xt ++ yr.drop d.yPos))

/-- `copy_and_paste`, JGBL.py:116-126 -/
def copyAndPaste (dims : List (K × K)) (d : PasteDraw) (x y : List K) : List K × List K :=
  let xr := convertToRatio dims x
  let yr := convertToRatio dims y
  let xt := transposon xr d.xSample
  let yt := transposon yr d.ySample
  (decodeRatio dims (paste xr yt d.xPos), decodeRatio dims (paste yr xt d.yPos))

/-- The random numbers spent on one individual that jumps, JGBL.py:76-84; `mateCut` and `mateCopy`
are the positions picked by the two `random.choice(nondominated)`. -/
structure JumpDraw where
  cutSelf : PasteDraw
  copySelf : PasteDraw
  mateCut : ℕ
  cut : PasteDraw
  mateCopy : ℕ
  copy : PasteDraw
deriving DecidableEq

/-- The six children of one jumping individual, JGBL.py:76-98; `none` is the `IndexError` of
`random.choice` on an empty list. -/
def jumpOne (dims : List (K × K)) (nondominated : List (List K)) (d : JumpDraw) (v : List K) :
    Option (List (List K)) :=
  match nondominated[d.mateCut]?, nondominated[d.mateCopy]? with
  | some m1, some m2 =>
    let c := cutAndPaste dims d.cut v m1
    let p := copyAndPaste dims d.copy v m2
    some [(cutAndPaste dims d.cutSelf v v).2, (copyAndPaste dims d.copySelf v v).2,
      c.1, c.2, p.1, p.2]
  | _, _ => none

/-- `jump_genes`, JGBL.py:72-99; an individual whose draw is `none` does not jump (JGBL.py:75). -/
def jumpGenes (dims : List (K × K)) (nondominated : List (List K)) :
    List (List K) → List (Option JumpDraw) → Option (List (List K))
  | v :: pop, some d :: ds =>
    match jumpOne dims nondominated d v, jumpGenes dims nondominated pop ds with
    | some c, some cs => some (c ++ cs)
    | _, _ => none
  | _ :: pop, none :: ds => jumpGenes dims nondominated pop ds
  | _, _ => some []

variable {ι : Type*} [DecidableEq ι]

/-- `set(l)`, visited in the order `iter` (JGBL.py:47, 64) -/
def asSet (iter : List ι → List ι) (l : List ι) : List ι := iter l.dedup

/-- `step`, JGBL.py:42-70, on the level of individuals. `offspring` as in `Nsgaii.step`; `jump sel nd`
are the new individuals of lines 60-62 (`none` if `random.choice` fails, see `jumpGenes`). -/
def step (iter : List ι → List ι) (fuel : ℕ) (eps : K) (objs : List (ι → K)) (size : ℕ)
    (jump : List ι → List ι → Option (List ι)) (pop offspring : List ι) : Option (List ι) :=
  match Nsgaii.step iter fuel eps objs size pop offspring with
  | none => none
  | some newPop =>
    let union := asSet iter (pop ++ newPop)
    match ndSort iter (nsgaiiDom fun x => objs.map (fun o => o x)) fuel union with
    | none => none
    | some fronts =>
      let sel := Nsgaii.environmentalSelection eps fronts (Nsgaii.crowding eps objs fronts) size union
      let front := fronts.headD []
      if sel.length < front.length then
        match jump sel (front.filter fun n => n ∉ sel) with
        | none => none
        | some jumping => Nsgaii.select iter fuel eps objs size (asSet iter (sel ++ jumping))
      else some newPop

end Evogil.Jgbl
