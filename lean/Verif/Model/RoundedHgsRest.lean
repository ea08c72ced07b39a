import Verif.Model.HgsRunArchive
import Verif.Model.RoundedHgsRun
import Verif.Model.RoundedJumping
import Verif.Model.RoundedNsgaiiiRun
import Verif.Model.RoundedNsls
import Verif.Model.RoundedSwarm

/-!
# The sequential HGS with OMOPSO, JGBL, NSGA-III and NSLS in its nodes, with rounding

As `Verif.Model.HgsRunArchive`, with the steps of `Verif.Model.RoundedSwarm`, `Verif.Model.RoundedJumping`,
`Verif.Model.RoundedNsgaiiiRun` and `Verif.Model.RoundedNsls`; `fl` is the rounding. Simplified as there: on every level the
objectives are functions of the vector (for JGBL: within one step), as they are with `fitness_errors` zero (the shipped value,
simulation/run_config.py:52 and 66). OMOPSO only looks into its archive (OMOPSO.py:117-119), so the archives stay empty.
-/

namespace Evogil.Rounded

open Evaluation (Archive)

variable {K : Type*} [Field K] [LinearOrder K] [IsStrictOrderedRing K] [FloorRing K] {A : Type*} [DecidableEq A]

namespace Nsgaiii

open Evogil.Nsgaiii (Conf Ind PairDraw Costed evaluateArch updateIdeal allObjectives selectIdx)

/-- `step` with an archive, NSGAIII.py:117-206, and `self.front[1]` after it (see `Evogil.Nsgaiii.stepArch`). -/
def stepArch (fl : K → K) (pw : K → K → K) (dot : List K → List K → K) (norm : List K → K) (eps : K) (key : List K → A)
    (f : List K → List K) (cf : Conf K) (ds : ℕ → PairDraw K) (iter : List ℕ → List ℕ)
    (sample : List ℕ → ℕ → List ℕ) (a : Archive A (List K)) (s : Costed K) :
    Option (Archive A (List K) × Costed K × List (Ind K)) :=
  match makeOffspring fl pw eps cf ds s.st.inds (s.st.size / 2) 0 with
  | none => none
  | some raw =>
    let r := evaluateArch key f a s.cost (raw.map fun x => ⟨cf.trim x.v, x.objectives⟩)
    let ideal := updateIdeal s.st.ideal (r.2.2.filterMap Ind.objectives)
    let all := r.2.2 ++ s.st.inds
    match allObjectives all with
    | none => none
    | some objs =>
      if dividesByZero fl norm eps cf ideal objs then none
      else
        let sc := scores fl dot norm eps cf ideal objs
        match selectIdx iter sample (2 * s.st.size + 1) s.st.size sc,
          ndSort iter (thetaDom (fun i => (sc.getD i (0, 0)).1) (fun i => (sc.getD i (0, 0)).2))
            (2 * s.st.size + 1) (List.range sc.length) with
        | some idx, some fronts =>
          some (r.1, ⟨⟨idx.filterMap fun i => all[i]?, s.st.size, ideal⟩, r.2.1⟩,
            (fronts.headD []).filterMap fun i => all[i]?)
        | _, _ => none

end Nsgaiii

namespace Nsls

open Evogil.Nsls (Ind LsDraw Costed LsState evaluateArch domI replacement allObjectives nextGeneration)

/-- NSLS.py:90-128 with an archive. -/
def lsTurnArch (fl : K → K) (dims : List (K × K)) (trim : List K → List K) (key : List K → A) (f : List K → List K)
    (i k : ℕ) (d : LsDraw K) (s : LsState K A) : Option (LsState K A) :=
  if s.cur.length < 2 then none
  else
    match s.cur[i]?, s.cur[d.pu]?, s.cur[d.pv]? with
    | some x, some u, some v =>
      match trialVector fl dims trim x.1.v u.1.v v.1.v k d.c 1,
          trialVector fl dims trim x.1.v u.1.v v.1.v k d.c (-1) with
      | .ok p, .ok m =>
        match evaluateArch key f s.archive s.cost [⟨p, none⟩, ⟨m, none⟩] with
        | (a, c, [wPlus, wMinus]) =>
          match domI wPlus x.1, domI x.1 wPlus, domI wMinus x.1, domI x.1 wMinus with
          | some b1, some b2, some b3, some b4 =>
            match replacement b1 b2 b3 b4 d.plusFirst wPlus wMinus with
            | some w => some ⟨a, c, s.cur.set i (w, true)⟩
            | none => some ⟨a, c, s.cur⟩
          | _, _, _, _ => none
        | _ => none
      | _, _ => none
    | _, _, _ => none

/-- The loop over the coordinates, NSLS.py:89. -/
def lsInnerArch (fl : K → K) (dims : List (K × K)) (trim : List K → List K) (key : List K → A) (f : List K → List K)
    (i : ℕ) (ds : ℕ → LsDraw K) : List ℕ → LsState K A → Option (LsState K A)
  | [], s => some s
  | k :: ks, s =>
    match lsTurnArch fl dims trim key f i k (ds k) s with
    | none => none
    | some s' => lsInnerArch fl dims trim key f i ds ks s'

/-- The loop over the individuals, NSLS.py:88. -/
def lsOuterArch (fl : K → K) (dims : List (K × K)) (trim : List K → List K) (key : List K → A) (f : List K → List K)
    (ds : ℕ → ℕ → LsDraw K) : List ℕ → LsState K A → Option (LsState K A)
  | [], s => some s
  | i :: is, s =>
    match lsInnerArch fl dims trim key f i (ds i) (List.range dims.length) s with
    | none => none
    | some s' => lsOuterArch fl dims trim key f ds is s'

/-- `step` with an archive, NSLS.py:80-84, and `self.front[1]` after it. -/
def stepArch (fl : K → K) (dims : List (K × K)) (trim : List K → List K) (key : List K → A) (f : List K → List K) (m : ℕ)
    (vdist : List K → List K → K) (ds : ℕ → ℕ → LsDraw K) (iter : List ℕ → List ℕ)
    (sample : List ℕ → ℕ → List ℕ) (a : Archive A (List K)) (s : Costed K) :
    Option (Archive A (List K) × Costed K × List (Ind K)) :=
  let r := evaluateArch key f a s.cost s.inds
  match lsOuterArch fl dims trim key f ds (List.range r.2.2.length)
      ⟨r.1, r.2.1, r.2.2.map fun x => (x, false)⟩ with
  | none => none
  | some t =>
    let all := r.2.2 ++ (t.cur.filter fun p => p.2).map Prod.fst
    match allObjectives all with
    | none => none
    | some objs =>
      let vec : ℕ → List K := fun i => (all.map Ind.v).getD i []
      match nextGeneration iter sample (fun i j => vdist (vec i) (vec j)) (2 * s.size + 1) s.size m all.length
          (fun i => objs.getD i []),
        ndSort iter (nsgaiiDom fun i => objs.getD i []) (2 * s.size + 1) (List.range all.length) with
      | some idx, some fronts =>
        some (t.archive, ⟨idx.filterMap fun i => all[i]?, s.size, t.cost⟩,
          (fronts.headD []).filterMap fun i => all[i]?)
      | _, _ => none

end Nsls

namespace Hgs

open Generations Evogil.Hgs

/-- The driver of a node when HGS runs with OMOPSO (ClassicHGS.py:228-283), see `Hgs.omopsoOps`. -/
def omopsoOps (fl : K → K) (dims : List (K × K)) (trim : ℕ → List K → List K) (eta : K) (m : ℕ)
    (fit : ℕ → List K → List K) (ds : ℕ → ℕ → ℕ → ℕ → Evogil.Swarm.SpeedDraw K) :
    NodeOps Unit (Evogil.Swarm.OState K) (List K) where
  make := fun l _ pop _ =>
    (Swarm.init fl (trim l) eta m (id : List K → List K) (fit l) none pop).map fun s => ((), s)
  step := fun l i k j _ s =>
    (Swarm.step fl dims (trim l) eta m (id : List K → List K) (fit l) none (ds i k j) s).map fun s' => ((), s')
  cost := fun s => s.cost
  conclude := fun _ _ _ _ s => some ((), s, Evogil.Swarm.omopsoFinal s, s.particles.map fun p => p.v)

/-- The driver of a node when HGS runs with NSGA-III (ClassicHGS.py:228-283), see `Hgs.nsgaiiiSeqOps`. -/
def nsgaiiiOps (fl : K → K) (pw : K → K → K) (dot : List K → List K → K) (norm : List K → K) (eps : K) (key : List K → A)
    (f : ℕ → List K → List K) (cf : ℕ → ℕ → Evogil.Nsgaiii.Conf K) (d : NsgaiiiDraws K) :
    NodeOps (ℕ → Archive A (List K)) (NsgaiiiNode K) (List K) where
  make := fun l i pop w =>
    let r := Evogil.Nsgaiii.initArch key (f l) (cf l i) (w l) pop
    some (Function.update w l r.1, ⟨cf l i, r.2, []⟩)
  step := fun l i k j w s =>
    (Nsgaiii.stepArch fl pw dot norm eps key (f l) s.cf (d.ds l i k j) (d.iter i k j) (d.sample i k j) (w l) s.st).map
      fun r => (Function.update w l r.1, ⟨s.cf, r.2.1, r.2.2.map Evogil.Nsgaiii.Ind.v⟩)
  cost := fun s => s.st.cost
  conclude := fun _ _ _ w s => some (w, s, s.st.st.inds.map Evogil.Nsgaiii.Ind.v, s.front)

/-- The driver of a node when HGS runs with NSLS (ClassicHGS.py:228-283), see `Hgs.nslsSeqOps`. -/
def nslsOps (fl : K → K) (dims : List (K × K)) (trim : ℕ → List K → List K) (key : List K → A)
    (f : ℕ → List K → List K) (m : ℕ) (vdist : List K → List K → K) (d : NslsDraws K) :
    NodeOps (ℕ → Archive A (List K)) (Evogil.Nsls.Costed K × List (List K)) (List K) where
  make := fun l _ pop w => some (w, Evogil.Nsls.initCosted (trim l) pop, [])
  step := fun l i k j w s =>
    (Nsls.stepArch fl dims (trim l) key (f l) m vdist (d.ds l i k j) (d.iter i k j) (d.sample i k j) (w l) s.1).map
      fun r => (Function.update w l r.1, r.2.1, r.2.2.map Evogil.Nsls.Ind.v)
  cost := fun s => s.1.cost
  conclude := fun _ _ _ w s => some (w, s, s.1.inds.map Evogil.Nsls.Ind.v, s.2)

/-- The driver of a node when HGS runs with JGBL: constructor, result and delegates are those of NSGA-II (JGBL.py:8-40,
JGBL/message.py:8-11), see `Hgs.jgblSeqOps`. -/
def jgblOps (fl : K → K) (S : ℕ → Setup K) (key : List K → A) (m : ℕ) (c : K) (d : JgblDraws K) :
    NodeOps (ℕ → Archive A (List K)) (NState K A) (List K) where
  make := (Rounded.Hgs.nsgaiiOps fl S key m c ⟨d.fit, fun i k j => (d.orders i k j).inner, d.dm, d.dv⟩).make
  step := fun l i k j w s =>
    (Rounded.Run.jgblStep fl (S l) key (d.fit l i (k + 1) (j + 1)) m (d.orders i (k + 1) (j + 1)) (d.dm l i k j)
      (d.dv i k j) (d.jd i k j) { s with acc := { s.acc with archive := some (w l) } }).map fun s' =>
        (Function.update w l (s'.acc.archive.getD (w l)), s')
  cost := fun s => s.acc.cost
  conclude := (Rounded.Hgs.nsgaiiOps fl S key m c ⟨d.fit, fun i k j => (d.orders i k j).inner, d.dm, d.dv⟩).conclude

end Hgs

end Evogil.Rounded
