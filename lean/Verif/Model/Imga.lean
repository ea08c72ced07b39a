import Verif.Model.Layers
import Mathlib.Data.List.Dedup
import Mathlib.Data.Int.Notation
import Mathlib.Data.List.Nodup

/-!
# Model of the island model IMGA (`algorithms/IMGA/IMGA.py`, `topology.py`, `message.py`)
-/

namespace Evogil.Imga

/-! ## Islands -/

/-- `create_islands`, IMGA.py:96-112: the slices of lines 100-103, then one more element for the first
`len % n` of them (lines 105-108). `n = 0` is the `ZeroDivisionError` of line 98 (`none`). -/
def createIslands {V : Type*} (n : ℕ) (pop : List V) : Option (List (List V)) :=
  if n = 0 then none
  else
    let q := pop.length / n
    some ((List.range n).map fun i =>
      (pop.drop (i * q)).take q ++ (if i < pop.length % n then (pop[n * q + i]?).toList else []))

/-! ## Migration -/

section Migration

variable {ι V α : Type*} [DecidableEq V] [LinearOrder α]

/-- The part of `Island` (IMGA.py:114-130) which migration touches: `driver.individuals`,
`visa_office`, `all_refugees`. -/
structure Island (ι V : Type*) where
  inds : List ι
  visa : List ι
  refugees : List V
deriving DecidableEq

/-- The loop of `emigrate`, IMGA.py:148-164: `cur` is `current_population`, `pick k` the result of
`weighted_choice` (`evotools/random_tools.py`:6-17, modelled in `Verif.Model.Statistics`) followed by
`random.choice` in turn `k`; `none` are their exceptions and the `ValueError` of `list.remove`. -/
def chooseRefugees (fuel : ℕ) (fit : V → List α) (pick : ℕ → List (List V) → Option V) :
    ℕ → ℕ → List V → Option (List V)
  | _, 0, _ => some []
  | k, n + 1, cur =>
    match paretofrontLayers fuel cur fit with
    | none => none
    | some layers =>
      match pick k layers with
      | none => none
      | some x =>
        if x ∈ cur then (chooseRefugees fuel fit pick (k + 1) n (cur.erase x)).map (x :: ·) else none

/-- `DefaultIMGAMessageAdapter.emigrate`, algorithms/IMGA/message.py:19-30 (and the same code in
`SMSEMOA/message.py`:15-26, `SPEA2/message.py`:13-24, `OMOPSO/message.py`:15-26): the individuals
taken (`to_remove`) and those that stay. Removing the taken objects afterwards (lines 28-29) leaves
the individuals for which the test in line 24 failed. -/
def adapterEmigrate (v : ι → V) : List ι → List V → List ι × List ι
  | [], _ => ([], [])
  | p :: ps, cp =>
    if v p ∈ cp then
      let r := adapterEmigrate v ps (cp.erase (v p))
      (p :: r.1, r.2)
    else
      let r := adapterEmigrate v ps cp
      (r.1, p :: r.2)

/-- `Island.emigrate`, IMGA.py:139-169. Returns the island and the emigrants. -/
def emigrate (v : ι → V) (fuel : ℕ) (fit : V → List α) (m : ℕ)
    (pick : ℕ → List (List V) → Option V) (isl : Island ι V) : Option (Island ι V × List ι) :=
  match chooseRefugees fuel fit pick 0 m (isl.inds.map v) with
  | none => none
  | some refugees =>
    let r := adapterEmigrate v isl.inds refugees
    some (⟨r.2, isl.visa, isl.refugees ++ refugees⟩, r.1)

/-- The body of the inner loop of `migration`, IMGA.py:90, with `immigrate` (IMGA.py:171-172). -/
def send (v : ι → V) (fuel : ℕ) (fit : V → List α) (m : ℕ)
    (pick : ℕ → List (List V) → Option V) (st : List (Island ι V)) (i n : ℕ) :
    Option (List (Island ι V)) :=
  match st[i]? with
  | none => none
  | some isl =>
    match emigrate v fuel fit m pick isl with
    | none => none
    | some (isl', migrants) =>
      match (st.set i isl')[n]? with
      | none => none
      | some t => some ((st.set i isl').set n ⟨t.inds, t.visa ++ migrants, t.refugees⟩)

/-- The pairs (island, neighbour) visited by the two nested loops IMGA.py:86-90, in order. -/
def edges (n : ℕ) (topology : List (List ℕ)) : List (ℕ × ℕ) :=
  (List.range n).flatMap fun i => ((topology[i]?).getD []).map fun j => (i, j)

/-- The nested loops IMGA.py:86-90 along the given pairs; `pick i n` are the draws of that call. -/
def sendAll (v : ι → V) (fuel : ℕ) (fit : V → List α) (m : ℕ)
    (pick : ℕ → ℕ → ℕ → List (List V) → Option V) :
    List (ℕ × ℕ) → List (Island ι V) → Option (List (Island ι V))
  | [], st => some st
  | e :: es, st =>
    match send v fuel fit m (pick e.1 e.2) st e.1 e.2 with
    | none => none
    | some st' => sendAll v fuel fit m pick es st'

/-- `Island.assimilate`, IMGA.py:174-187; `none` is the `ValueError`. -/
def assimilate (isl : Island ι V) : Option (Island ι V) :=
  if isl.visa.length ≠ isl.refugees.length then none else some ⟨isl.inds ++ isl.visa, [], []⟩

/-- `migration`, IMGA.py:85-92, for islands with the given individuals and empty offices. -/
def migration (v : ι → V) (fuel : ℕ) (fit : V → List α) (m : ℕ)
    (pick : ℕ → ℕ → ℕ → List (List V) → Option V) (topology : List (List ℕ))
    (pops : List (List ι)) : Option (List (List ι)) :=
  match sendAll v fuel fit m pick (edges pops.length topology)
      (pops.map fun p => (⟨p, [], []⟩ : Island ι V)) with
  | none => none
  | some st => (st.mapM assimilate).map fun st' => st'.map Island.inds

end Migration

/-! ## Topology -/

/-- Python's `a % b` -/
def pyMod (a b : ℤ) : ℕ := (a % b).toNat

/-- The list built in one turn of the first loop, topology.py:25-33. -/
def fullNeighbors (w N i : ℕ) : List ℕ :=
  let row := i / w
  [pyMod (i - 1) w + row * w, pyMod (i + 1) w + row * w, pyMod (i - w) N, pyMod (i + w) N]

/-- `list.remove`, `none` is the `ValueError` -/
def pyRemove (l : List ℕ) (x : ℕ) : Option (List ℕ) := if x ∈ l then some (l.erase x) else none

/-- Lines 45-58 of topology.py: link island `i` of the incomplete row to the first and the last full
row. The two lists may be the same object (if there is one full row only). Returns the table and the
set `neighbors`. -/
def linkColumn (w : ℕ) (t : List (List ℕ)) (i : ℕ) : Option (List (List ℕ) × List ℕ) :=
  let last := i - w
  let first := i % w
  match t[last]? with
  | none => none
  | some lastNeighbors =>
    match pyRemove lastNeighbors first with
    | none => none
    | some ln =>
      let t1 := t.set last (ln ++ [i])
      match t1[first]? with
      | none => none
      | some firstNeighbors =>
        match pyRemove firstNeighbors last with
        | none => none
        | some fn => some (t1.set first (fn ++ [i]), [last, first])

/-- One turn of the second loop, topology.py:38-63. -/
def lastRowStep (w N size : ℕ) (t : List (List ℕ)) (i : ℕ) : Option (List (List ℕ)) :=
  let lastWidth := size - N
  let row := i / w
  match (if w < t.length then linkColumn w t i else some (t, [])) with
  | none => none
  | some (t', neighbors) =>
    some (t' ++ [neighbors ++ [pyMod ((i : ℤ) - N - 1) lastWidth + row * w,
      pyMod ((i : ℤ) - N + 1) lastWidth + row * w]])

/-- The second loop, topology.py:38-63. -/
def lastRow (w N size : ℕ) : List (List ℕ) → List ℕ → Option (List (List ℕ))
  | t, [] => some t
  | t, i :: is =>
    match lastRowStep w N size t i with
    | none => none
    | some t' => lastRow w N size t' is

/-- Lines 65-66 of topology.py: `t[N].remove(N)` on a set, hence all occurrences in the list. -/
def dropSelf (t : List (List ℕ)) (N : ℕ) : Option (List (List ℕ)) :=
  match t[N]? with
  | none => none
  | some l => if N ∈ l then some (t.set N (l.filter (· ≠ N))) else none

/-- `TorusTopology.create`, topology.py:20-68; sets are lists without duplicates. A width of 0 is the
`ZeroDivisionError` of line 23. `int(a / b)` is the integer quotient (exact below 2^53). -/
def torus (w size : ℕ) : Option (List (List ℕ)) :=
  if w = 0 then none
  else
    let N := w * (size / w)
    let t := (List.range N).map (fullNeighbors w N)
    let full :=
      if N < size then
        match lastRow w N size t ((List.range (size - N)).map (N + ·)) with
        | none => none
        | some t' => if size - N = 1 then dropSelf t' N else some t'
      else some t
    full.map fun t => t.map List.dedup

end Evogil.Imga
