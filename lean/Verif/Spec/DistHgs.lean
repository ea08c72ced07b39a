import Verif.Model.DistHgsSeq

/-!
# What the users of the distributed HGS can observe

`Served` says, request by request, what a correct execution leads to and what it answers. `Shows` says what
it means that the actors hold a certain state and no request is being worked on.
-/

namespace Evogil.Dist

variable {D K : Type*} [Field K] [LinearOrder K]

/-- The nodes a `CHECK_STATUS` is about: those of a level, or all. -/
def asked (cfg : Hgs.Conf D K) (σ : PState D K) : Option ℕ → List ℕ
  | none => List.range σ.st.nodes.length
  | some l => if l ≤ cfg.maxLevel then σ.st.levels.getD l [] else []

/-- One request leads from a state to a state and is answered. -/
inductive Served (cfg : Hgs.Conf D K) (env : ℕ → ℕ → Hgs.Report D K) (spawn : ℕ → ℕ → ℕ → List D) :
    PState D K → Req D → Answer D K → PState D K → Prop
  | metaepoch {σ σ' : PState D K} (h : seqMetaepoch cfg env σ = some σ') :
      Served cfg env spawn σ .metaepoch (.metaepochEnd σ'.st.cost) σ'
  | trim (σ : PState D K) :
      Served cfg env spawn σ .trimNotProgressing .trimNotProgressingEnd (seqTrim cfg σ)
  | redundant (σ : PState D K) : Served cfg env spawn σ .trimRedundant .trimRedundantEnd (seqRedundant σ)
  | release {σ σ' : PState D K} (h : seqRelease cfg spawn σ = some σ') :
      Served cfg env spawn σ .releaseSprouts .releaseEnd σ'
  | revive {σ σ' : PState D K} (h : seqRevive cfg σ = some σ') :
      Served cfg env spawn σ .revive .reviveEnd σ'
  | population (σ : PState D K) (pop : List D) (h : pop.Perm (σ.st.nodes.flatMap Hgs.Node.pop)) :
      Served cfg env spawn σ .population (.population pop) (bumpAll σ)
  | status (σ : PState D K) (lvl : Option ℕ) (states : List (NState D))
      (h : states.Perm ((asked cfg σ lvl).map fun n =>
        stateOf cfg .sup ((σ.st.nodes[n]?).getD (Hgs.newNode 0 none)))) :
      Served cfg env spawn σ (.checkStatus lvl) (.status states)
        { σ with ctr := bump (asked cfg σ lvl) σ.ctr }

/-- The requests are served one after another; the answers carry the numbers of the requests, from `sent`
on. -/
inductive Run (cfg : Hgs.Conf D K) (env : ℕ → ℕ → Hgs.Report D K) (spawn : ℕ → ℕ → ℕ → List D) :
    PState D K → ℕ → List (Req D) → List (Msg D K) → PState D K → Prop
  | nil (σ : PState D K) (sent : ℕ) : Run cfg env spawn σ sent [] [] σ
  | cons {σ σ' σ'' : PState D K} {sent : ℕ} {r : Req D} {rs : List (Req D)} {a : Answer D K}
      {as : List (Msg D K)} (h : Served cfg env spawn σ r a σ') (t : Run cfg env spawn σ' (sent + 1) rs as σ'') :
      Run cfg env spawn σ sent (r :: rs) (.answer a (.client, sent) :: as) σ''

/-- What the user of `DistributedHGS` can call after the constructor. -/
inductive Call
  | step
  | finalizedPopulation
  | status (lvl : Option ℕ)
  deriving DecidableEq

/-- The requests of a call (DistributedHGS.py:102-125). -/
def Call.requests : Call → List (Req D)
  | .step => stepRequests
  | .finalizedPopulation => [.population]
  | .status lvl => [.checkStatus lvl]

/-- The states in which the calls of the user leave the actors, from the constructor on. -/
def Reachable (cfg : Hgs.Conf D K) (env : ℕ → ℕ → Hgs.Report D K) (spawn : ℕ → ℕ → ℕ → List D)
    (ratio : List K) (σ : PState D K) : Prop :=
  ∃ (calls : List Call) (as : List (Msg D K)), Run cfg env spawn (PState.init ratio) 1
    (.checkStatus none :: calls.flatMap Call.requests) as σ

/-- What is asked of the sprouts `new` that the node `i`, which is `a`, gets when the tree is `st`. -/
structure Sprouted (cfg : Hgs.Conf D K) (spawn : ℕ → ℕ → ℕ → List D) (st : Hgs.State D K) (i : ℕ)
    (a : Hgs.Node D K) (new : List ℕ) : Prop where
  limit : new.length ≤ cfg.sproutiveness
  /-- only a ripe node above the last level gets some, with fewer living sprouts than allowed -/
  who : new ≠ [] → a.ripe = true ∧ a.level < cfg.maxLevel ∧
    (a.sprouts.filter fun j => ((st.nodes[j]?).map Hgs.Node.alive).getD false).length < cfg.maxSprouts
  /-- the sprouts belong to different delegates of the node, `spawn i k j` being the population started from
  the delegate number `j`; no such delegate is near a node of the level of the sprouts, nor near a sprout
  released before -/
  far : ∃ (k : ℕ) (idxs : List ℕ), idxs.length = new.length ∧ idxs.Pairwise (· < ·) ∧
    (∀ j ∈ idxs, ∃ d, a.delegates[j]? = some d ∧ ∀ m ∈ st.nodes, m.level = a.level + 1 → m.pop ≠ [] →
      cfg.near (a.level + 1) d (cfg.mean m.pop) = false) ∧
    idxs.Pairwise fun b c => ∀ d, a.delegates[c]? = some d → spawn i k b ≠ [] →
      cfg.near (a.level + 1) d (cfg.mean (spawn i k b)) = false

/-- No living node of level `l` is near a ripe one or an earlier living one of that level. -/
def Apart (cfg : Hgs.Conf D K) (st : Hgs.State D K) (l : ℕ) : Prop :=
  ∀ (i j : ℕ) (n m : Hgs.Node D K), st.nodes[i]? = some n → st.nodes[j]? = some m → n.level = l → m.level = l →
    n.alive = true →
    (m.alive = false → m.ripe = true → ∀ d, m.center = some d → cfg.near l d (cfg.mean n.pop) = false) ∧
    (m.alive = true → j < i → cfg.near l (cfg.mean m.pop) (cfg.mean n.pop) = false)

/-- The actors hold the state `σ`, and nothing is under way any more but the creation of nodes. -/
structure Shows (σ : PState D K) (s : Sys D K) : Prop where
  nodes : s.sup.nodes = List.range σ.st.nodes.length
  levels : s.sup.levels = σ.st.levels
  cost : s.sup.cost = σ.st.cost
  ratio : s.sup.ratio = σ.ratio
  states : s.sup.states = σ.states
  /-- a node has its attributes, or is going to get them by a message under way -/
  node : ∀ n a, σ.st.nodes[n]? = some a → (s.nodes n).mem = some a ∨
    (s.nodes n).mem = none ∧ ∃ l p, .reset l p ∈ s.chan .sup (.node n) ∧ a = Hgs.newNode l none
  quiet : ∀ a b m, m ∈ s.chan a b → m = .hello ∨ m = .done ∨ ∃ l p, m = .reset l p

/-- The kind of answer a request expects. -/
def Req.wants : Req D → Msg D K → Prop
  | .start _, m => m = .done
  | .metaepoch, m => ∃ c i, m = .answer (.metaepochEnd c) i
  | .trimNotProgressing, m => ∃ i, m = .answer .trimNotProgressingEnd i
  | .trimRedundant, m => ∃ i, m = .answer .trimRedundantEnd i
  | .checkStatus _, m => ∃ x i, m = .answer (.status x) i
  | .population, m => ∃ x i, m = .answer (.population x) i
  | .releaseSprouts, m => ∃ i, m = .answer .releaseEnd i
  | .revive, m => ∃ i, m = .answer .reviveEnd i

/-- Equal up to the order in which the entries of an answer were collected. -/
def sameAnswer : Msg D K → Msg D K → Prop
  | .answer (.status x) i, .answer (.status y) j => x.Perm y ∧ i = j
  | .answer (.population x) i, .answer (.population y) j => x.Perm y ∧ i = j
  | m, m' => m = m'

end Evogil.Dist
