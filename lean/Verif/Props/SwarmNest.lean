import Verif.Lemmas.SwarmNest

/-! # C141: what OMOPSO remembers of the best positions -/

set_option linter.unusedSectionVars false

namespace Evogil.Swarm

open Evaluation Omopso Generations

section
variable {K : Type*} [Field K] [LinearOrder K] [IsStrictOrderedRing K] {A : Type*}
variable {dims : List (K × K)} {trim : List K → List K} {eta : K} {m : ℕ} {key : List K → A}
  {fit : List K → List K} {fa : Option (Archive A (List K))} {room : ℕ}

/-- **C141: one step, as long as the stack is large enough.** It shows what the step of
`Verif.Model.Swarm` shows. -/
theorem C141_step_partial (ds : ℕ → SpeedDraw K) (s : NState K)
    (hroom : ∀ p ∈ s.particles, 2 * (1 + p.chain.length) + 4 ≤ room) :
    (nestStep room dims trim eta m key fit fa ds s).map NState.view
      = omopsoStep dims trim eta m key fit fa ds s.view := by
  have hroom' : ∀ ps : List (NParticle K), ps.map NParticle.chain = s.particles.map NParticle.chain →
      ∀ p ∈ ps, 2 * (1 + p.chain.length) + 4 ≤ room := by
    intro ps h p hp
    have : p.chain ∈ s.particles.map NParticle.chain := h ▸ List.mem_map_of_mem hp
    obtain ⟨q, hq, e⟩ := List.mem_map.1 this
    rw [← e]
    exact hroom q hq
  obtain ⟨a1, a2⟩ := mapM_nset (fun i p => speedOne dims s.cv s.leaders (ds i) p)
    (fun i p q h => speedOne_best h) s.particles 0
  unfold nestStep omopsoStep
  have a3 : (s.view.particles.zipIdx.mapM fun p =>
      speedOne dims s.view.cv s.view.leaders (ds p.2) p.1)
      = (s.particles.zipIdx.mapM fun p =>
        (speedOne dims s.cv s.leaders (ds p.2) p.1.view).map p.1.set).map
          fun r => r.map NParticle.view := a2.symm
  rw [a3]
  cases h1 : s.particles.zipIdx.mapM fun p =>
    (speedOne dims s.cv s.leaders (ds p.2) p.1.view).map p.1.set with
  | none => rfl
  | some ps =>
    obtain ⟨b1, b2⟩ := mapM_nset' (moveParticle dims trim) (fun p q h => moveParticle_best h) ps
    simp only [Option.map_some]
    rw [← b2]
    cases h2 : ps.mapM fun p => (moveParticle dims trim p.view).map p.set with
    | none => rfl
    | some qs =>
      simp only [Option.map_some]
      obtain ⟨c1, c2⟩ := zipWith_nset qs (evalSwarm key fit fa (qs.map NParticle.view)).2
        (by rw [evalSwarm_best, List.map_map]; rfl)
      have hr := hroom' (qs.zipWith NParticle.set (evalSwarm key fit fa (qs.map NParticle.view)).2)
        (by rw [c2, b1 qs h2, a1 ps h1])
      rw [foldlM_offerNested _ _ hr, c1]
      have hb := mapM_bestNested _ hr
      rw [c1] at hb
      rw [← hb]
      simp only
      cases h3 : (qs.zipWith NParticle.set (evalSwarm key fit fa (qs.map NParticle.view)).2).mapM
          (bestNested room) with
      | none => rfl
      | some bs =>
        simp only [Option.map_some]
        change _ = if ((evalSwarm key fit fa (qs.map NParticle.view)).2.foldl
            (offer eta m s.leadersSize) (s.archive, s.leaders, s.nextId)).2.1 = [] then _ else _
        by_cases he : ((evalSwarm key fit fa (qs.map NParticle.view)).2.foldl
            (offer eta m s.leadersSize) (s.archive, s.leaders, s.nextId)).2.1 = []
        · rw [if_pos he, if_pos he]; rfl
        · rw [if_neg he, if_neg he]; rfl

theorem forall₂_of_chain : ∀ {ps qs : List (NParticle K)} {rs : List (NParticle K)},
    qs.map NParticle.chain = ps.map NParticle.chain → List.Forall₂ Grows qs rs →
    List.Forall₂ Grows ps rs := by
  intro ps
  induction ps with
  | nil =>
    intro qs rs h hg
    have : qs = [] := by simpa using h
    rwa [this] at hg
  | cons p ps ih =>
    intro qs rs h hg
    cases qs with
    | nil => simp at h
    | cons q qs =>
      rw [List.map_cons, List.map_cons, List.cons_eq_cons] at h
      cases hg with
      | cons h1 h2 =>
        refine List.Forall₂.cons ?_ (ih h.2 h2)
        have hv : q.view.best = p.view.best := by simp only [NParticle.view]; rw [h.1]
        unfold Grows at h1 ⊢
        rwa [← hv, ← h.1]

/-- **C141, the size of what is remembered.** In a step the chain of a particle becomes longer by one
whenever its best position changes, and nothing is ever forgotten. -/
theorem C141_grows (ds : ℕ → SpeedDraw K) (s s' : NState K)
    (h : nestStep room dims trim eta m key fit fa ds s = some s') :
    List.Forall₂ Grows s.particles s'.particles := by
  obtain ⟨a1, -⟩ := mapM_nset (fun i p => speedOne dims s.cv s.leaders (ds i) p)
    (fun i p q h => speedOne_best h) s.particles 0
  unfold nestStep at h
  cases h1 : s.particles.zipIdx.mapM fun p =>
    (speedOne dims s.cv s.leaders (ds p.2) p.1.view).map p.1.set with
  | none => rw [h1] at h; simp at h
  | some ps =>
    rw [h1] at h
    simp only at h
    obtain ⟨b1, -⟩ := mapM_nset' (moveParticle dims trim) (fun p q h => moveParticle_best h) ps
    cases h2 : ps.mapM fun p => (moveParticle dims trim p.view).map p.set with
    | none => rw [h2] at h; simp at h
    | some qs =>
      rw [h2] at h
      simp only at h
      obtain ⟨c1, c2⟩ := zipWith_nset qs (evalSwarm key fit fa (qs.map NParticle.view)).2
        (by rw [evalSwarm_best, List.map_map]; rfl)
      split at h
      · simp at h
      · cases h3 : (qs.zipWith NParticle.set (evalSwarm key fit fa (qs.map NParticle.view)).2).mapM
            (bestNested room) with
        | none => rw [h3] at h; simp at h
        | some bs =>
          rw [h3] at h
          simp only at h
          split_ifs at h
          obtain rfl := Option.some.inj h
          refine forall₂_of_chain (by rw [c2, b1 qs h2, a1 ps h1])
            (List.Forall₂.imp ?_ ((mapM_option_eq_some _ _ _).1 h3))
          intro a b hab
          exact bestNested_grows hab

/-- **C141: when the stack is too small.** A step with a particle whose chain is too long raises. The
bound is that of `C141_step_partial`; it is reached with the first position, if that is not empty. -/
theorem C141_raises (ds : ℕ → SpeedDraw K) (s : NState K)
    (h : ∃ p ∈ s.particles, (∃ b, p.chain.getLast? = some b ∧ b.v ≠ []) ∧
      room < 2 * (1 + p.chain.length) + 4) :
    nestStep room dims trim eta m key fit fa ds s = none := by
  obtain ⟨a1, -⟩ := mapM_nset (fun i p => speedOne dims s.cv s.leaders (ds i) p)
    (fun i p q h => speedOne_best h) s.particles 0
  unfold nestStep
  cases h1 : s.particles.zipIdx.mapM fun p =>
    (speedOne dims s.cv s.leaders (ds p.2) p.1.view).map p.1.set with
  | none => rfl
  | some ps =>
    simp only
    obtain ⟨b1, -⟩ := mapM_nset' (moveParticle dims trim) (fun p q h => moveParticle_best h) ps
    cases h2 : ps.mapM fun p => (moveParticle dims trim p.view).map p.set with
    | none => rfl
    | some qs =>
      simp only
      obtain ⟨c1, c2⟩ := zipWith_nset qs (evalSwarm key fit fa (qs.map NParticle.view)).2
        (by rw [evalSwarm_best, List.map_map]; rfl)
      rw [foldlM_offerNested_none]
      obtain ⟨p, hp, hb, hl⟩ := h
      have : p.chain ∈ (qs.zipWith NParticle.set
          (evalSwarm key fit fa (qs.map NParticle.view)).2).map NParticle.chain := by
        rw [c2, b1 qs h2, a1 ps h1]
        exact List.mem_map_of_mem hp
      obtain ⟨q, hq, e⟩ := List.mem_map.1 this
      exact ⟨q, hq, by rw [e]; exact hb, by rw [e]; exact hl⟩

/-! ## Runs -/

theorem mapM_firstBest (h6 : 6 ≤ room) : ∀ (ps : List (NParticle K)),
    (∀ p ∈ ps, p.chain = []) →
    ps.mapM (firstBest room) = some (ps.map fun p => ⟨p.node, [p.node]⟩) := by
  intro ps
  induction ps with
  | nil => intro _; rfl
  | cons p ps ih =>
    intro h
    have hp : firstBest room p = some ⟨p.node, [p.node]⟩ := by
      unfold firstBest
      rw [h p List.mem_cons_self, deepcopy_some _ _ _ (by simpa using h6)]
    rw [List.mapM_cons, hp, ih fun q hq => h q (List.mem_cons_of_mem _ hq)]
    rfl

theorem nestInit_spec (h6 : 6 ≤ room) (population : List (List K)) :
    (nestInit room trim eta m key fit fa population).map NState.view
      = omopsoInit trim eta m key fit fa population ∧
    ∀ s, nestInit room trim eta m key fit fa population = some s →
      ∀ p ∈ s.particles, p.chain.length = 1 := by
  unfold nestInit omopsoInit
  set ps := population.map fun x => (⟨⟨trim x, (trim x).map fun _ => 0, []⟩, []⟩ : NParticle K) with hps
  have e0 : (population.map fun x => (⟨trim x, (trim x).map fun _ => 0, none, []⟩ : Particle K))
      = ps.map NParticle.view := by rw [hps, List.map_map]; rfl
  rw [e0]
  obtain ⟨c1, c2⟩ := zipWith_nset ps (evalSwarm key fit fa (ps.map NParticle.view)).2
        (by rw [evalSwarm_best, List.map_map]; rfl)
  have hn : ∀ p ∈ ps.zipWith NParticle.set (evalSwarm key fit fa (ps.map NParticle.view)).2,
      p.chain = [] := by
    intro p hp
    have : p.chain ∈ ps.map NParticle.chain := c2 ▸ List.mem_map_of_mem hp
    rw [hps, List.map_map] at this
    obtain ⟨x, -, e⟩ := List.mem_map.1 this
    exact e.symm
  simp only
  rw [foldlM_offerNested _ _ fun p hp => by rw [hn p hp]; simpa using h6, c1, mapM_firstBest h6 _ hn]
  simp only
  have e1 : ((ps.zipWith NParticle.set (evalSwarm key fit fa (ps.map NParticle.view)).2).map
      fun p => (⟨p.node, [p.node]⟩ : NParticle K)).map NParticle.view
      = (evalSwarm key fit fa (ps.map NParticle.view)).2.map fun p =>
        { p with best := some (p.v, p.objs) } := by
    conv_rhs => rw [← c1]
    generalize ps.zipWith NParticle.set (evalSwarm key fit fa (ps.map NParticle.view)).2 = l
    rw [List.map_map, List.map_map]
    rfl
  by_cases he : ((evalSwarm key fit fa (ps.map NParticle.view)).2.foldl
      (offer eta m population.length) ([], [], 0)).2.1 = []
  · rw [if_pos he, if_pos he]
    exact ⟨rfl, by simp⟩
  · rw [if_neg he, if_neg he]
    refine ⟨?_, ?_⟩
    · simp only [Option.map_some, NState.view, e1]
    · intro s hs p hp
      obtain rfl := Option.some.inj hs
      obtain ⟨q, -, rfl⟩ := List.mem_map.1 hp
      rfl

/-- A run of the driver with nested best positions: construction and `n` steps. -/
def nestRun (room : ℕ) (dims : List (K × K)) (trim : List K → List K) (eta : K) (m : ℕ)
    (key : List K → A) (fit : List K → List K) (fa : Option (Archive A (List K)))
    (ds : ℕ → ℕ → SpeedDraw K) (population : List (List K)) (n : ℕ) : Option (NState K) :=
  (nestInit room trim eta m key fit fa population).bind
    (steps (nestStep room dims trim eta m key fit fa) ds 0 n)

theorem nestSteps_spec (ds : ℕ → ℕ → SpeedDraw K) : ∀ (n k L : ℕ) (s : NState K),
    (∀ p ∈ s.particles, p.chain.length ≤ L) → 2 * (n + L) + 4 ≤ room →
    (steps (nestStep room dims trim eta m key fit fa) ds k n s).map NState.view
      = steps (omopsoStep dims trim eta m key fit fa) ds k n s.view := by
  intro n
  induction n with
  | zero => intro k L s _ _; rfl
  | succ n ih =>
    intro k L s hL hroom
    rw [steps, steps, ← C141_step_partial (room := room) (ds k) s
      (fun p hp => by have := hL p hp; omega)]
    cases h1 : nestStep room dims trim eta m key fit fa (ds k) s with
    | none => rfl
    | some s1 =>
      simp only [Option.bind_some, Option.map_some]
      refine ih (k + 1) (L + 1) s1 ?_ (by omega)
      have hg := C141_grows (ds k) s s1 h1
      intro p hp
      obtain ⟨i, hi, rfl⟩ := List.mem_iff_getElem.1 hp
      have hi' : i < s.particles.length := by rw [hg.length_eq]; exact hi
      have := hg.get hi' hi
      have hq := hL _ (List.getElem_mem hi')
      simp only [List.get_eq_getElem] at this
      rcases this with ⟨-, e⟩ | ⟨-, e⟩
      · rw [e]; omega
      · rw [e, List.length_cons]; omega

/-- **C141, the part that holds.** As long as the number of steps is less than half the room on the stack,
a run with nested best positions shows what a run with one best position per particle shows, which is
what C96 is about. -/
theorem C141_short_partial (ds : ℕ → ℕ → SpeedDraw K) (population : List (List K)) (n : ℕ)
    (hroom : 2 * n + 6 ≤ room) :
    (nestRun room dims trim eta m key fit fa ds population n).map NState.view
      = (omopsoInit trim eta m key fit fa population).bind
        (steps (omopsoStep dims trim eta m key fit fa) ds 0 n) := by
  obtain ⟨h1, h2⟩ := nestInit_spec (trim := trim) (eta := eta) (m := m) (key := key)
      (fit := fit) (fa := fa) (room := room) (by omega) population
  unfold nestRun
  rw [← h1]
  cases hs : nestInit room trim eta m key fit fa population with
  | none => rfl
  | some s =>
    simp only [Option.bind_some, Option.map_some]
    exact nestSteps_spec ds n 0 1 s (fun p hp => (h2 s hs p hp).le) (by omega)

theorem steps_succ {σ δ : Type*} (step : δ → σ → Option σ) (d : ℕ → δ) : ∀ (n k : ℕ) (s : σ),
    steps step d k (n + 1) s = (steps step d k n s).bind (step (d (k + n))) := by
  intro n
  induction n with
  | zero => intro k s; simp [steps]
  | succ n ih =>
    intro k s
    rw [steps]
    conv_rhs => rw [steps]
    rw [Option.bind_assoc]
    congr 1
    funext s'
    rw [ih (k + 1) s', show k + 1 + n = k + (n + 1) by omega]

end

/-! ## A particle that gets better in every step -/

/-- The numbers drawn are in the intervals of OMOPSO.py:146-150. -/
def SpeedDraw.InRange (d : SpeedDraw ℚ) : Prop :=
  0 ≤ d.r1 ∧ d.r1 < 1 ∧ 0 ≤ d.r2 ∧ d.r2 < 1 ∧ 3 / 2 ≤ d.c1 ∧ d.c1 ≤ 2 ∧ 3 / 2 ≤ d.c2 ∧ d.c2 ≤ 2 ∧
    1 / 10 ≤ d.w ∧ d.w ≤ 1 / 2

/-- The draws of the counterexample: the second particle moves half way to the leader. -/
def approach (k _i : ℕ) : SpeedDraw ℚ :=
  ⟨fun _ => (1, 0), 0, if k = 0 then 1 / 3 else 1 / 5, 3 / 2, 3 / 2, 1 / 5⟩

theorem approach_inRange (k i : ℕ) : (approach k i).InRange ∧ (approach k i).Valid := by
  refine ⟨?_, fun n hn => ?_⟩
  · unfold SpeedDraw.InRange approach
    dsimp only
    split_ifs <;> norm_num
  · unfold approach PairDraw
    simp only
    omega

/-- The second particle after `n` steps. -/
def nearer (n : ℕ) : Node ℚ := ⟨[1 / 2 ^ n], [if n = 0 then 0 else -(1 / 2 ^ n)], [1 / 2 ^ n]⟩

/-- Its chain. -/
def nearerChain : ℕ → List (Node ℚ)
  | 0 => [nearer 0]
  | n + 1 => nearer (n + 1) :: nearerChain n

theorem nearerChain_length (n : ℕ) : (nearerChain n).length = n + 1 := by
  induction n with
  | zero => rfl
  | succ n ih => rw [nearerChain, List.length_cons, ih]

theorem nearerChain_last (n : ℕ) : (nearerChain n).getLast? = some (nearer 0) := by
  induction n with
  | zero => rfl
  | succ n ih => rw [nearerChain, List.getLast?_cons, ih]; rfl

/-- The first particle stays where it is. -/
def still : Node ℚ := ⟨[0], [0], [0]⟩

/-- The state after `n` steps. -/
def nearerState (n : ℕ) : NState ℚ :=
  ⟨[⟨still, [still]⟩, ⟨nearer n, nearerChain n⟩], [⟨1, [0], [0]⟩], [⟨0, [0], [0]⟩],
    (crowding (snapObjs 1) [⟨0, [0], [0]⟩]).2, 2, 2 * (n + 1), 3 + 2 * n⟩

theorem nearer_move (n : ℕ) :
    1 / 5 * (if n = 0 then 0 else -(1 / 2 ^ n)) + 3 / 2 * 0 * ((1 : ℚ) / 2 ^ n - 1 / 2 ^ n) +
      3 / 2 * (if n = 0 then 1 / 3 else 1 / 5) * (0 - 1 / 2 ^ n) = -(1 / 2 ^ (n + 1)) := by
  rcases Nat.eq_zero_or_pos n with rfl | h
  · norm_num
  · rw [if_neg (by omega), if_neg (by omega), pow_succ]
    field_simp
    ring

theorem speedVec_one (d : SpeedDraw ℚ) (s x b g : ℚ) (i : ℚ × ℚ) :
    speedVec d [s] [x] [b] [g] [i] = some [speedCoord d.w d.c1 d.r1 d.c2 d.r2 s x b g] := rfl

theorem nearer_speed (n : ℕ) :
    (nearerState n).particles.zipIdx.mapM (fun p =>
      (speedOne [(0, 1)] (nearerState n).cv (nearerState n).leaders (approach n p.2) p.1.view).map
        p.1.set)
      = some [⟨still, [still]⟩, ⟨⟨[1 / 2 ^ n], [-(1 / 2 ^ (n + 1))], [1 / 2 ^ n]⟩, nearerChain n⟩] := by
  have hc : ∃ rest, nearerChain n = nearer n :: rest := by cases n <;> exact ⟨_, rfl⟩
  obtain ⟨rest, hc⟩ := hc
  have e1 : speedVec (approach n 0) [0] [0] [0] [0] [(0, 1)] = some [0] := by
    rw [speedVec_one]; simp [speedCoord]
  have e2 : speedVec (approach n 1) [if n = 0 then 0 else -(1 / 2 ^ n)] [1 / 2 ^ n] [1 / 2 ^ n] [0]
      [(0, 1)] = some [-(1 / 2 ^ (n + 1))] := by
    rw [speedVec_one, speedCoord]
    exact congrArg (fun x => some [x]) (nearer_move n)
  have hg : ∀ pair, guide (nearerState n).cv (nearerState n).leaders pair = some ⟨0, [0], [0]⟩ := by
    intro pair
    simp [guide, nearerState]
  have f1 : speedOne [(0, 1)] (nearerState n).cv (nearerState n).leaders (approach n 0)
      (⟨still, [still]⟩ : NParticle ℚ).view = some ⟨[0], [0], some ([0], [0]), [0]⟩ := by
    unfold speedOne
    rw [hg]
    change (speedVec (approach n 0) [0] [0] [0] [0] [(0, 1)]).map _ = _
    rw [e1]; rfl
  have f2 : speedOne [(0, 1)] (nearerState n).cv (nearerState n).leaders (approach n 1)
      (⟨nearer n, nearerChain n⟩ : NParticle ℚ).view
      = some ⟨[1 / 2 ^ n], [-(1 / 2 ^ (n + 1))], (⟨nearer n, nearerChain n⟩ : NParticle ℚ).view.best,
        [1 / 2 ^ n]⟩ := by
    unfold speedOne
    rw [hc, hg]
    change (speedVec (approach n 1) [if n = 0 then 0 else -(1 / 2 ^ n)] [1 / 2 ^ n] [1 / 2 ^ n] [0]
      [(0, 1)]).map _ = _
    rw [e2]; rfl
  have e0 : (nearerState n).particles.zipIdx
      = [(⟨still, [still]⟩, 0), (⟨nearer n, nearerChain n⟩, 1)] := rfl
  rw [e0, List.mapM_cons, List.mapM_cons]
  simp only
  rw [f1, f2]
  rfl

theorem nearer_moved (n : ℕ) :
    ([⟨still, [still]⟩, ⟨⟨[1 / 2 ^ n], [-(1 / 2 ^ (n + 1))], [1 / 2 ^ n]⟩, nearerChain n⟩] :
      List (NParticle ℚ)).mapM (fun p => (moveParticle [(0, 1)] id p.view).map p.set)
    = some [⟨still, [still]⟩, ⟨⟨[1 / 2 ^ (n + 1)], [-(1 / 2 ^ (n + 1))], [1 / 2 ^ n]⟩, nearerChain n⟩] := by
  have h1 : (1 : ℚ) / 2 ^ n + -(1 / 2 ^ (n + 1)) = 1 / 2 ^ (n + 1) := by
    rw [pow_succ]; field_simp; ring
  have h2 : (0 : ℚ) ≤ 1 / 2 ^ (n + 1) := by positivity
  have h3 : (1 : ℚ) / 2 ^ (n + 1) ≤ 1 := by
    rw [div_le_one (by positivity)]
    exact one_le_pow₀ (by norm_num)
  simp only [List.mapM_cons, List.mapM_nil, moveParticle, moveOne, moveCoord, NParticle.view, still, h1,
    max_eq_left h2, min_eq_left h3]
  simp [NParticle.set]

theorem nearer_eval (a b : ℚ) (o : List ℚ) (x y : Option (List ℚ × List ℚ)) :
    evalSwarm id id (none : Option (Archive (List ℚ) (List ℚ))) [⟨[0], [0], x, [0]⟩, ⟨[a], [b], y, o⟩]
      = (2, [⟨[0], [0], x, [0]⟩, ⟨[a], [b], y, [a]⟩]) := by
  simp [evalSwarm, chargeAll, chargeStep]

theorem nearer_offer {a : ℚ} (ha : 0 < a) (k : ℕ) (b : List ℚ) (x y : Option (List ℚ × List ℚ)) :
    ([⟨[0], [0], x, [0]⟩, ⟨[a], b, y, [a]⟩] : List (Particle ℚ)).foldl
      (offer (3 / 400) 1 2) ([⟨1, [0], [0]⟩], [⟨0, [0], [0]⟩], k)
      = ([⟨1, [0], [0]⟩], [⟨0, [0], [0]⟩], k + 2) := by
  simp [offer, leaderAdd, archiveAdd, addLoop, domEta, eqvObj, omopsoDominates, omopsoDominatesLoop,
    omopsoEqualObj, ha, ha.not_gt]

theorem nearer_best (room n : ℕ) (h : 2 * (n + 2) + 4 ≤ room) :
    ([⟨still, [still]⟩, ⟨nearer (n + 1), nearerChain n⟩] : List (NParticle ℚ)).mapM (bestNested room)
      = some [⟨still, [still]⟩, ⟨nearer (n + 1), nearerChain (n + 1)⟩] := by
  have hc : ∃ rest, nearerChain n = nearer n :: rest := by cases n <;> exact ⟨_, rfl⟩
  obtain ⟨rest, hc⟩ := hc
  have hl := nearerChain_length n
  have e1 : bestNested room ⟨still, [still]⟩ = some ⟨still, [still]⟩ := by
    unfold bestNested
    simp [omopsoDominates_self]
  have e2 : bestNested room ⟨nearer (n + 1), nearerChain n⟩
      = some ⟨nearer (n + 1), nearerChain (n + 1)⟩ := by
    have hd : (omopsoDominates (0 : ℚ) (nearer (n + 1)).objs (nearer n).objs).getD false = true := by
      have h4 : (1 : ℚ) / 2 ^ (n + 1) < 1 / 2 ^ n := by
        rw [pow_succ]
        have : (0 : ℚ) < 1 / 2 ^ n := by positivity
        rw [show (1 : ℚ) / (2 ^ n * 2) = 1 / 2 ^ n / 2 by field_simp]
        linarith
      simp only [omopsoDominates, omopsoDominatesLoop, nearer, add_zero, div_one]
      rw [if_neg (not_lt.2 h4.le), if_pos h4]
      rfl
    unfold bestNested
    simp only [hc, hd, if_true]
    rw [← hc, deepcopy_some _ _ _ (by omega)]
    rfl
  rw [List.mapM_cons, List.mapM_cons, e1, e2]
  rfl

theorem nearer_step (room n : ℕ) (h : 2 * (n + 2) + 4 ≤ room) :
    nestStep room [(0, 1)] id (3 / 400) 1 id id (none : Option (Archive (List ℚ) (List ℚ)))
      (approach n) (nearerState n) = some (nearerState (n + 1)) := by
  unfold nestStep
  rw [nearer_speed n]
  simp only
  rw [nearer_moved n]
  simp only
  have e := nearer_eval (1 / 2 ^ (n + 1)) (-(1 / 2 ^ (n + 1))) [1 / 2 ^ n] (some ([0], [0]))
    (NParticle.view (⟨⟨[1 / 2 ^ (n + 1)], [-(1 / 2 ^ (n + 1))], [1 / 2 ^ n]⟩, nearerChain n⟩ :
      NParticle ℚ)).best
  have e' : ([⟨still, [still]⟩, ⟨⟨[1 / 2 ^ (n + 1)], [-(1 / 2 ^ (n + 1))], [1 / 2 ^ n]⟩, nearerChain n⟩] :
      List (NParticle ℚ)).map NParticle.view
      = [⟨[0], [0], some ([0], [0]), [0]⟩, ⟨[1 / 2 ^ (n + 1)], [-(1 / 2 ^ (n + 1))],
        (NParticle.view (⟨⟨[1 / 2 ^ (n + 1)], [-(1 / 2 ^ (n + 1))], [1 / 2 ^ n]⟩, nearerChain n⟩ :
          NParticle ℚ)).best, [1 / 2 ^ n]⟩] := rfl
  rw [e', e]
  simp only [List.zipWith_cons_cons, List.zipWith_nil_left]
  have e2 : ([(⟨still, [still]⟩ : NParticle ℚ).set ⟨[0], [0], some ([0], [0]), [0]⟩,
      (⟨⟨[1 / 2 ^ (n + 1)], [-(1 / 2 ^ (n + 1))], [1 / 2 ^ n]⟩, nearerChain n⟩ : NParticle ℚ).set
        ⟨[1 / 2 ^ (n + 1)], [-(1 / 2 ^ (n + 1))],
          (NParticle.view (⟨⟨[1 / 2 ^ (n + 1)], [-(1 / 2 ^ (n + 1))], [1 / 2 ^ n]⟩, nearerChain n⟩ :
          NParticle ℚ)).best, [1 / 2 ^ (n + 1)]⟩] : List (NParticle ℚ))
      = [⟨still, [still]⟩, ⟨nearer (n + 1), nearerChain n⟩] := by
    simp [NParticle.set, nearer, still]
  rw [e2, foldlM_offerNested _ _ (by
    have hl := nearerChain_length n
    intro p hp
    simp only [List.mem_cons, List.not_mem_nil, or_false] at hp
    rcases hp with rfl | rfl
    · simp; omega
    · simp only; omega), nearer_best room n h]
  have e3 := nearer_offer (a := 1 / 2 ^ (n + 1)) (by positivity) (3 + 2 * n) (nearer (n + 1)).speed
    (some ([0], [0])) (NParticle.view (⟨nearer (n + 1), nearerChain n⟩ : NParticle ℚ)).best
  have e4 : ([⟨still, [still]⟩, ⟨nearer (n + 1), nearerChain n⟩] : List (NParticle ℚ)).map NParticle.view
      = [⟨[0], [0], some ([0], [0]), [0]⟩, ⟨[1 / 2 ^ (n + 1)], (nearer (n + 1)).speed,
        (NParticle.view (⟨nearer (n + 1), nearerChain n⟩ : NParticle ℚ)).best, [1 / 2 ^ (n + 1)]⟩] := rfl
  have e5 : ((nearerState n).archive, (nearerState n).leaders, (nearerState n).nextId)
      = (([⟨1, [0], [0]⟩], [⟨0, [0], [0]⟩], 3 + 2 * n) :
        List (Snap ℚ) × List (Snap ℚ) × ℕ) := rfl
  have e6 : (nearerState n).leadersSize = 2 := rfl
  rw [e4, e5, e6, e3]
  simp only [reduceCtorEq, if_false]
  have e7 : (crowding (snapObjs 1) ([⟨0, [0], [0]⟩] : List (Snap ℚ))).1 = [⟨0, [0], [0]⟩] := by
    decide +kernel
  rw [e7]
  simp only [nearerState, Option.some.injEq, NState.mk.injEq, true_and]
  omega

theorem nearer_init (room : ℕ) :
    nestInit room id (3 / 400) 1 id id (none : Option (Archive (List ℚ) (List ℚ))) [[0], [1]]
      = if 6 ≤ room then some (nearerState 0) else none := by
  have e : ([[0], [1]] : List (List ℚ)).map (fun x =>
      (⟨⟨id x, (id x).map fun _ => 0, []⟩, []⟩ : NParticle ℚ))
      = [⟨⟨[0], [0], []⟩, []⟩, ⟨⟨[1], [0], []⟩, []⟩] := rfl
  have e1 : evalSwarm id id (none : Option (Archive (List ℚ) (List ℚ)))
      ([⟨⟨[0], [0], []⟩, []⟩, ⟨⟨[1], [0], []⟩, []⟩].map NParticle.view)
      = (2, [⟨[0], [0], none, [0]⟩, ⟨[1], [0], none, [1]⟩]) := rfl
  have e2 : ([⟨⟨[0], [0], []⟩, []⟩, ⟨⟨[1], [0], []⟩, []⟩] : List (NParticle ℚ)).zipWith NParticle.set
      [⟨[0], [0], none, [0]⟩, ⟨[1], [0], none, [1]⟩] = [⟨still, []⟩, ⟨nearer 0, []⟩] := by
    simp [NParticle.set, still, nearer]
  unfold nestInit
  simp only
  rw [e, e1]
  simp only
  rw [e2]
  split_ifs with h
  · rw [foldlM_offerNested _ _ (by
      intro p hp
      simp only [List.mem_cons, List.not_mem_nil, or_false] at hp
      rcases hp with rfl | rfl <;> simpa using h), mapM_firstBest h _ (by
      intro p hp
      simp only [List.mem_cons, List.not_mem_nil, or_false] at hp
      rcases hp with rfl | rfl <;> rfl)]
    have e3 : ([⟨still, []⟩, ⟨nearer 0, []⟩].map NParticle.view).foldl
        (offer (3 / 400) 1 ([[0], [1]] : List (List ℚ)).length) ([], [], 0)
        = ([⟨1, [0], [0]⟩], [⟨0, [0], [0]⟩], 3) := by decide +kernel
    rw [e3]
    have e7 : (crowding (snapObjs 1) ([⟨0, [0], [0]⟩] : List (Snap ℚ))).1 = [⟨0, [0], [0]⟩] := by
      decide +kernel
    simp only [reduceCtorEq, if_false]
    rw [e7]
    rfl
  · have : offerNested room (3 / 400) 1 ([[0], [1]] : List (List ℚ)).length ([], [], 0)
        (⟨still, []⟩ : NParticle ℚ) = none := by
      unfold offerNested
      rw [deepcopy_none _ _ _ still rfl (by simp [still]) (by simpa using h)]
    rw [List.foldlM_cons, this]
    rfl

/-- The run of the counterexample: a box `[0, 1]`, the objective `x`, the population `[[0], [1]]`. -/
def nearerRun (room n : ℕ) : Option (NState ℚ) :=
  nestRun room [(0, 1)] id (3 / 400) 1 id id (none : Option (Archive (List ℚ) (List ℚ))) approach
    [[0], [1]] n

/-- The run of the counterexample for all sizes of the stack: with room for fewer than `2 n + 6` calls it
raises within `n` steps, otherwise there is a particle with a chain of `n + 1` former selves. -/
theorem C141_exact (room n : ℕ) :
    nearerRun room n = if 2 * n + 6 ≤ room then some (nearerState n) else none := by
  unfold nearerRun nestRun
  rw [nearer_init]
  induction n with
  | zero =>
    split_ifs <;> rfl
  | succ n ih =>
    split_ifs at ih ⊢ with h1 h2 h3
    · simp only [Option.bind_some] at ih ⊢
      rw [steps_succ, ih]
      simp only [Option.bind_some, Nat.zero_add]
      exact nearer_step room n (by omega)
    · omega
    · simp only [Option.bind_some] at ih ⊢
      rw [steps_succ, ih]
      simp only [Option.bind_some, Nat.zero_add]
      refine C141_raises _ _ ⟨⟨nearer n, nearerChain n⟩, by simp [nearerState], ⟨nearer 0,
        nearerChain_last n, by simp [nearer]⟩, ?_⟩
      simp only [nearerChain_length]
      omega
    · simp only [Option.bind_some] at ih ⊢
      rw [steps_succ, ih]
      rfl
    all_goals first | omega | rfl

/-- **C141 is violated.** However large the stack, there is a run with two particles in the box `[0, 1]`,
one objective and draws in their intervals, that ends with a `RecursionError`, although a run that
remembers one best position per particle goes on; and however many steps are made, all the former best
positions of the second particle are still there if the stack is large enough. -/
theorem C141_violated :
    (∀ k i, (approach k i).InRange ∧ (approach k i).Valid) ∧
    (∀ room, ∃ n, nearerRun room n = none ∧
      ∃ s, (omopsoInit id (3 / 400) 1 id id (none : Option (Archive (List ℚ) (List ℚ))) [[0], [1]]).bind
        (steps (omopsoStep [(0, 1)] id (3 / 400) 1 id id none) approach 0 n) = some s) ∧
    (∀ n, ∃ room s, nearerRun room n = some s ∧ ∃ p ∈ s.particles, p.chain.length = n + 1) := by
  refine ⟨approach_inRange, fun room => ⟨room, ?_, ?_⟩, fun n => ⟨2 * n + 6, nearerState n, ?_, ?_⟩⟩
  · rw [C141_exact, if_neg (by omega)]
  · refine ⟨(nearerState room).view, ?_⟩
    rw [← C141_short_partial (room := 2 * room + 6) approach [[0], [1]] room le_rfl]
    have := C141_exact (2 * room + 6) room
    unfold nearerRun at this
    rw [this, if_pos le_rfl]
    rfl
  · rw [C141_exact, if_pos le_rfl]
  · exact ⟨⟨nearer n, nearerChain n⟩, by simp [nearerState], nearerChain_length n⟩

/-- Three steps of the run: the best positions 1, 1/2, 1/4 and 1/8 of the second particle, the last one
first. -/
example : (nearerRun 12 3).map (fun s => s.particles.map fun p => p.chain.map Node.v)
    = some [[[0]], [[1 / 8], [1 / 4], [1 / 2], [1]]] := by decide +kernel

/-- With room for one call less it raises. -/
example : (nearerRun 11 3).isNone := by decide +kernel

/-- What is seen of the three steps is what a run with one best position shows. -/
example : (nearerRun 12 3).map (fun s => s.view.particles)
    = ((omopsoInit id (3 / 400) 1 id id (none : Option (Archive (List ℚ) (List ℚ))) [[0], [1]]).bind
        (steps (omopsoStep [(0, 1)] id (3 / 400) 1 id id none) approach 0 3)).map OState.particles := by
  decide +kernel

end Evogil.Swarm
