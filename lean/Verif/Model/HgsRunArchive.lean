import Verif.Model.HgsRunRest

/-!
# The sequential HGS with JGBL, NSGA-III and NSLS in its nodes

The operations of these drivers with the fitness archives of the levels, which the drivers of a level share
(algorithms/HGS/classic/ClassicHGS.py:74 and 242). OMOPSO only looks into its archive (OMOPSO.py:117-119), so
the archives stay empty and `omopsoOps` serves the sequential HGS, too.

Simplified: on every level the objectives are functions of the vector (for JGBL: within one step), as they are
with `fitness_errors` zero (the shipped value, simulation/run_config.py:52 and 66).
-/

namespace Evogil

open Evaluation

namespace Nsgaiii
variable {K : Type*} [Field K] [LinearOrder K] {A : Type*} [DecidableEq A]

/-- `_calculate_objectives` with the archive `a`, NSGAIII.py:94-105: the archive, the cost and the individuals
afterwards. -/
def evaluateArch (key : List K → A) (f : List K → List K) (a : Archive A (List K)) (cost : ℕ)
    (inds : List (Ind K)) : Archive A (List K) × ℕ × List (Ind K) :=
  let r := evalAll key f ⟨cost, some a, []⟩ (inds.map fun x => ⟨0, x.v, x.objectives⟩)
  (r.1.archive.getD a, r.1.cost, r.2.map fun x => ⟨x.v, x.objectives⟩)

/-- The constructor with an archive, NSGAIII.py:48-63. -/
def initArch (key : List K → A) (f : List K → List K) (cf : Conf K) (a : Archive A (List K))
    (pop : List (List K)) : Archive A (List K) × Costed K :=
  let r := evaluateArch key f a 0 (pop.map fun v => ⟨cf.trim v, none⟩)
  (r.1, ⟨⟨r.2.2, pop.length, updateIdeal (initialIdeal cf.m) (r.2.2.filterMap Ind.objectives)⟩, r.2.1⟩)

/-- `step` with an archive, NSGAIII.py:117-206, and `self.front[1]` after it. The loops of the sorting and of the
selection end within `2 N + 1` turns. -/
def stepArch (pw : K → K → K) (sq : K → K) (eps : K) (key : List K → A) (f : List K → List K) (cf : Conf K)
    (ds : ℕ → PairDraw K) (iter : List ℕ → List ℕ) (sample : List ℕ → ℕ → List ℕ)
    (a : Archive A (List K)) (s : Costed K) : Option (Archive A (List K) × Costed K × List (Ind K)) :=
  match makeOffspring pw eps cf ds s.st.inds (s.st.size / 2) 0 with
  | none => none
  | some raw =>
    let r := evaluateArch key f a s.cost (raw.map fun x => ⟨cf.trim x.v, x.objectives⟩)
    let ideal := updateIdeal s.st.ideal (r.2.2.filterMap Ind.objectives)
    let all := r.2.2 ++ s.st.inds
    match allObjectives all with
    | none => none
    | some objs =>
      let sc := scores sq eps cf ideal objs
      match selectIdx iter sample (2 * s.st.size + 1) s.st.size sc,
        ndSort iter (thetaDom (fun i => (sc.getD i (0, 0)).1) (fun i => (sc.getD i (0, 0)).2))
          (2 * s.st.size + 1) (List.range sc.length) with
      | some idx, some fronts =>
        some (r.1, ⟨⟨idx.filterMap fun i => all[i]?, s.st.size, ideal⟩, r.2.1⟩,
          (fronts.headD []).filterMap fun i => all[i]?)
      | _, _ => none

end Nsgaiii

namespace Nsls
variable {K : Type*} [Field K] [LinearOrder K] {A : Type*} [DecidableEq A]

/-- `calculate_objectives` with the archive `a`, NSLS.py:63-78: the archive, the cost and the individuals
afterwards. -/
def evaluateArch (key : List K → A) (f : List K → List K) (a : Archive A (List K)) (cost : ℕ)
    (inds : List (Ind K)) : Archive A (List K) × ℕ × List (Ind K) :=
  let r := evalAll key f ⟨cost, some a, []⟩ (inds.map fun x => ⟨0, x.v, x.objectives⟩)
  (r.1.archive.getD a, r.1.cost, r.2.map fun x => ⟨x.v, x.objectives⟩)

/-- What the local search changes: the archive, the cost, and `individuals_copy` with marks. -/
structure LsState (K A : Type*) where
  archive : Archive A (List K)
  cost : ℕ
  cur : List (Ind K × Bool)

/-- NSLS.py:90-128 with an archive. -/
def lsTurnArch (dims : List (K × K)) (trim : List K → List K) (key : List K → A) (f : List K → List K)
    (i k : ℕ) (d : LsDraw K) (s : LsState K A) : Option (LsState K A) :=
  if s.cur.length < 2 then none
  else
    match s.cur[i]?, s.cur[d.pu]?, s.cur[d.pv]? with
    | some x, some u, some v =>
      match u.1.v[k]?, v.1.v[k]? with
      | some uk, some vk =>
        let diff := d.c * (uk - vk)
        match trialVector dims trim x.1.v k diff, trialVector dims trim x.1.v k (-diff) with
        | some p, some m =>
          match evaluateArch key f s.archive s.cost [⟨p, none⟩, ⟨m, none⟩] with
          | (a, c, [wPlus, wMinus]) =>
            match domI wPlus x.1, domI x.1 wPlus, domI wMinus x.1, domI x.1 wMinus with
            | some b1, some b2, some b3, some b4 =>
              match replacement b1 b2 b3 b4 d.plusFirst wPlus wMinus with
              | some w => some ⟨a, c, s.cur.set i (w, true)⟩
              | none => some ⟨a, c, s.cur⟩
            | _, _, _, _ => none
          | _ => none
        | _, _ => none
      | _, _ => none
    | _, _, _ => none

/-- The loop over the coordinates, NSLS.py:89. -/
def lsInnerArch (dims : List (K × K)) (trim : List K → List K) (key : List K → A) (f : List K → List K)
    (i : ℕ) (ds : ℕ → LsDraw K) : List ℕ → LsState K A → Option (LsState K A)
  | [], s => some s
  | k :: ks, s =>
    match lsTurnArch dims trim key f i k (ds k) s with
    | none => none
    | some s' => lsInnerArch dims trim key f i ds ks s'

/-- The loop over the individuals, NSLS.py:88. -/
def lsOuterArch (dims : List (K × K)) (trim : List K → List K) (key : List K → A) (f : List K → List K)
    (ds : ℕ → ℕ → LsDraw K) : List ℕ → LsState K A → Option (LsState K A)
  | [], s => some s
  | i :: is, s =>
    match lsInnerArch dims trim key f i (ds i) (List.range dims.length) s with
    | none => none
    | some s' => lsOuterArch dims trim key f ds is s'

/-- `step` with an archive, NSLS.py:80-84, and `self.front[1]` after it. -/
def stepArch (dims : List (K × K)) (trim : List K → List K) (key : List K → A) (f : List K → List K) (m : ℕ)
    (vdist : List K → List K → K) (ds : ℕ → ℕ → LsDraw K) (iter : List ℕ → List ℕ)
    (sample : List ℕ → ℕ → List ℕ) (a : Archive A (List K)) (s : Costed K) :
    Option (Archive A (List K) × Costed K × List (Ind K)) :=
  let r := evaluateArch key f a s.cost s.inds
  match lsOuterArch dims trim key f ds (List.range r.2.2.length)
      ⟨r.1, r.2.1, r.2.2.map fun x => (x, false)⟩ with
  | none => none
  | some t =>
    let all := r.2.2 ++ (t.cur.filter fun p => p.2).map Prod.fst
    match allObjectives all with
    | none => none
    | some objs =>
      let vec : ℕ → List K := fun i => (all.map Ind.v).getD i []
      match nextGeneration iter sample (fun i j => vdist (vec i) (vec j)) (2 * s.size + 1) s.size m all.length
          (fun i => objs.getD i []),
        ndSort iter (nsgaiiDom fun i => objs.getD i []) (2 * s.size + 1) (List.range all.length) with
      | some idx, some fronts =>
        some (t.archive, ⟨idx.filterMap fun i => all[i]?, s.size, t.cost⟩,
          (fronts.headD []).filterMap fun i => all[i]?)
      | _, _ => none

end Nsls

namespace Hgs

open Generations

section
variable {K : Type*} [Field K] [LinearOrder K] {A : Type*} [DecidableEq A]

/-- The driver of a node when the sequential HGS runs with NSGA-III; what is shared are the archives of the
levels (ClassicHGS.py:74). The other parameters are those of `nsgaiiiOps`. -/
def nsgaiiiSeqOps (pw : K → K → K) (sq : K → K) (eps : K) (key : List K → A) (f : ℕ → List K → List K)
    (cf : ℕ → ℕ → Nsgaiii.Conf K) (d : NsgaiiiDraws K) :
    NodeOps (ℕ → Archive A (List K)) (NsgaiiiNode K) (List K) where
  make := fun l i pop w =>
    let r := Nsgaiii.initArch key (f l) (cf l i) (w l) pop
    some (Function.update w l r.1, ⟨cf l i, r.2, []⟩)
  step := fun l i k j w s =>
    (Nsgaiii.stepArch pw sq eps key (f l) s.cf (d.ds l i k j) (d.iter i k j) (d.sample i k j) (w l) s.st).map
      fun r => (Function.update w l r.1, ⟨s.cf, r.2.1, r.2.2.map Nsgaiii.Ind.v⟩)
  cost := fun s => s.st.cost
  conclude := fun _ _ _ w s => some (w, s, s.st.st.inds.map Nsgaiii.Ind.v, s.front)

/-- The driver of a node when the sequential HGS runs with NSLS; the other parameters are those of `nslsOps`. -/
def nslsSeqOps (dims : List (K × K)) (trim : ℕ → List K → List K) (key : List K → A)
    (f : ℕ → List K → List K) (m : ℕ) (vdist : List K → List K → K) (d : NslsDraws K) :
    NodeOps (ℕ → Archive A (List K)) (Nsls.Costed K × List (List K)) (List K) where
  make := fun l _ pop w => some (w, Nsls.initCosted (trim l) pop, [])
  step := fun l i k j w s =>
    (Nsls.stepArch dims (trim l) key (f l) m vdist (d.ds l i k j) (d.iter i k j) (d.sample i k j) (w l) s.1).map
      fun r => (Function.update w l r.1, r.2.1, r.2.2.map Nsls.Ind.v)
  cost := fun s => s.1.cost
  conclude := fun _ _ _ w s => some (w, s, s.1.inds.map Nsls.Ind.v, s.2)

end

section
variable {K : Type*} [Field K] [LinearOrder K] [FloorSemiring K] {A : Type*} [DecidableEq A]

/-- The driver of a node when the sequential HGS runs with JGBL: constructor, result and delegates are those of
NSGA-II (JGBL.py:8-40, JGBL/message.py:8-11, `nsgaiiOps`). -/
def jgblSeqOps (S : ℕ → Setup K) (key : List K → A) (m : ℕ) (c : K) (d : JgblDraws K) :
    NodeOps (ℕ → Archive A (List K)) (NState K A) (List K) where
  make := (nsgaiiOps S key m c ⟨d.fit, fun i k j => (d.orders i k j).inner, d.dm, d.dv⟩).make
  step := fun l i k j w s =>
    (Jumping.jgblStep (S l) key (d.fit l i (k + 1) (j + 1)) m (d.orders i (k + 1) (j + 1)) (d.dm l i k j)
      (d.dv i k j) (d.jd i k j) { s with acc := { s.acc with archive := some (w l) } }).map fun s' =>
        (Function.update w l (s'.acc.archive.getD (w l)), s')
  cost := fun s => s.acc.cost
  conclude := (nsgaiiOps S key m c ⟨d.fit, fun i k j => (d.orders i k j).inner, d.dm, d.dv⟩).conclude

end

end Hgs

end Evogil
