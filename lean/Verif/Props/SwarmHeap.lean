import Verif.Model.SwarmHeap
import Verif.Props.Swarm

/-! # C105: OMOPSO and the lists of its caller -/

set_option linter.unusedSectionVars false

namespace Evogil.Swarm

open Evaluation Omopso Generations

section
variable {K : Type*} [Field K] [LinearOrder K] {A : Type*}

theorem view_set (h : Heap K) (p : HParticle K) (q : Particle K) (hq : q.v = h.mem p.addr) :
    (p.set q).view h = q := by
  cases q
  simp only [HParticle.view, HParticle.set] at *
  rw [hq]

/-! ## Trimming -/

theorem trimAll_same : ∀ (ps : List (HParticle K)) (h : Heap K), trimAll .same h ps = (h, ps) := by
  intro ps
  induction ps with
  | nil => intro h; rfl
  | cons p ps ih => intro h; rw [trimAll]; simp only [TrimFn.call, ih]

theorem trimAll_fresh (f : List K → List K) : ∀ (ps : List (HParticle K)) (h : Heap K),
    (trimAll (.fresh f) h ps).2.map HParticle.addr = List.range' h.next ps.length ∧
    (trimAll (.fresh f) h ps).1.next = h.next + ps.length ∧
    (∀ b, b < h.next → (trimAll (.fresh f) h ps).1.mem b = h.mem b) ∧
    ((∀ p ∈ ps, p.addr < h.next) → (trimAll (.fresh f) h ps).2.map
        (HParticle.view (trimAll (.fresh f) h ps).1)
      = ps.map fun p => { p.view h with v := f (h.mem p.addr) }) := by
  intro ps
  induction ps with
  | nil => intro h; exact ⟨rfl, rfl, fun _ _ => rfl, fun _ => rfl⟩
  | cons p ps ih =>
    intro h
    obtain ⟨h1, h2, h3, h4⟩ := ih ⟨fun b => if b = h.next then f (h.mem p.addr) else h.mem b,
      h.next + 1⟩
    simp only at h1 h2 h3 h4
    rw [trimAll]
    simp only [TrimFn.call]
    refine ⟨?_, ?_, ?_, ?_⟩
    · rw [List.map_cons, h1, List.length_cons, List.range'_succ]
    · rw [h2, List.length_cons]; omega
    · intro b hb
      rw [h3 b (by omega), if_neg (by omega)]
    · intro hps
      rw [List.map_cons, h4 (fun q hq => by have := hps q (List.mem_cons_of_mem _ hq); omega),
        List.map_cons]
      congr 1
      · simp only [HParticle.view]
        rw [h3 h.next (by omega), if_pos rfl]
      · refine List.map_congr_left fun q hq => ?_
        have hq' := hps q (List.mem_cons_of_mem _ hq)
        simp only [HParticle.view]
        rw [if_neg (by omega)]

/-- The addresses of the particles are different and in use. -/
def Separate (next : ℕ) (ps : List (HParticle K)) : Prop :=
  (ps.map HParticle.addr).Nodup ∧ ∀ a ∈ ps.map HParticle.addr, a < next

theorem trimAll_spec (t : TrimFn K) (h : Heap K) (ps : List (HParticle K)) (hs : Separate h.next ps) :
    Separate (trimAll t h ps).1.next (trimAll t h ps).2 ∧ h.next ≤ (trimAll t h ps).1.next ∧
    (trimAll t h ps).2.map (HParticle.view (trimAll t h ps).1)
      = (ps.map (HParticle.view h)).map fun p => { p with v := t.fn p.v } := by
  cases t with
  | same =>
    rw [trimAll_same]
    refine ⟨hs, le_rfl, ?_⟩
    simp [TrimFn.fn]
  | fresh f =>
    obtain ⟨h1, h2, -, h4⟩ := trimAll_fresh f ps h
    refine ⟨⟨?_, ?_⟩, by omega, ?_⟩
    · rw [h1]; exact List.nodup_range'
    · rw [h1, h2]
      intro a ha
      simp only [List.mem_range'_1] at ha
      omega
    · rw [h4 fun p hp => hs.2 _ (List.mem_map_of_mem hp), List.map_map]
      rfl

/-! ## Construction -/

theorem makeParticles_same : ∀ (l : List ℕ) (h : Heap K),
    makeParticles .same h l = (h, l.map fun a => ⟨a, (h.mem a).map fun _ => 0, none, []⟩) := by
  intro l
  induction l with
  | nil => intro h; rfl
  | cons a l ih => intro h; rw [makeParticles]; simp only [TrimFn.call, ih]; rfl

theorem makeParticles_fresh (f : List K → List K) : ∀ (l : List ℕ) (h : Heap K),
    (makeParticles (.fresh f) h l).2.map HParticle.addr = List.range' h.next l.length ∧
    (makeParticles (.fresh f) h l).1.next = h.next + l.length ∧
    (∀ b, b < h.next → (makeParticles (.fresh f) h l).1.mem b = h.mem b) ∧
    ((∀ a ∈ l, a < h.next) → (makeParticles (.fresh f) h l).2.map
        (HParticle.view (makeParticles (.fresh f) h l).1)
      = l.map fun a => ⟨f (h.mem a), (f (h.mem a)).map fun _ => 0, none, []⟩) := by
  intro l
  induction l with
  | nil => intro h; exact ⟨rfl, rfl, fun _ _ => rfl, fun _ => rfl⟩
  | cons a l ih =>
    intro h
    obtain ⟨h1, h2, h3, h4⟩ := ih ⟨fun b => if b = h.next then f (h.mem a) else h.mem b, h.next + 1⟩
    simp only at h1 h2 h3 h4
    rw [makeParticles]
    simp only [TrimFn.call]
    refine ⟨?_, ?_, ?_, ?_⟩
    · rw [List.map_cons, h1, List.length_cons, List.range'_succ]
    · rw [h2, List.length_cons]; omega
    · intro b hb
      rw [h3 b (by omega), if_neg (by omega)]
    · intro hl
      rw [List.map_cons, h4 (fun q hq => by have := hl q (List.mem_cons_of_mem _ hq); omega),
        List.map_cons]
      congr 1
      · simp only [HParticle.view]
        rw [h3 h.next (by omega)]
        simp only [if_true]
      · refine List.map_congr_left fun q hq => ?_
        have hq' := hl q (List.mem_cons_of_mem _ hq)
        rw [if_neg (by omega)]

/-- The caller keeps out of the way: with the default trim function, all lists passed are different. -/
def TrimFn.Fits (t : TrimFn K) (population : List ℕ) : Prop :=
  match t with
  | .same => population.Nodup
  | .fresh _ => True

theorem makeParticles_spec (t : TrimFn K) (h : Heap K) (l : List ℕ) (hl : ∀ a ∈ l, a < h.next)
    (hfit : t.Fits l) :
    Separate (makeParticles t h l).1.next (makeParticles t h l).2 ∧
    (makeParticles t h l).2.map (HParticle.view (makeParticles t h l).1)
      = (l.map h.mem).map fun x =>
        (⟨t.fn x, (t.fn x).map fun _ => 0, none, []⟩ : Particle K) := by
  cases t with
  | same =>
    rw [makeParticles_same]
    refine ⟨⟨?_, ?_⟩, ?_⟩
    · have hfit' : l.Nodup := hfit
      simpa [List.map_map, Function.comp_def] using hfit'
    · simpa [List.map_map, Function.comp_def] using hl
    · simp [HParticle.view, TrimFn.fn]
  | fresh f =>
    obtain ⟨h1, h2, -, h4⟩ := makeParticles_fresh f l h
    refine ⟨⟨?_, ?_⟩, ?_⟩
    · rw [h1]; exact List.nodup_range'
    · rw [h1, h2]
      intro a ha
      simp only [List.mem_range'_1] at ha
      omega
    · rw [h4 hl, List.map_map]
      rfl

/-! ## Moving -/

theorem moveAll_spec (dims : List (K × K)) : ∀ (ps : List (HParticle K)) (h : Heap K),
    (∀ r, moveAll dims h ps = some r → r.2.map HParticle.addr = ps.map HParticle.addr ∧
      r.1.next = h.next ∧ ∀ b, b ∉ ps.map HParticle.addr → r.1.mem b = h.mem b) ∧
    ((ps.map HParticle.addr).Nodup → (moveAll dims h ps).map (fun r => r.2.map (HParticle.view r.1))
      = (ps.map (HParticle.view h)).mapM fun p =>
        (moveOne p.v p.speed dims).map fun r => { p with v := r.1, speed := r.2 }) := by
  intro ps
  induction ps with
  | nil =>
    intro h
    refine ⟨?_, fun _ => rfl⟩
    rintro r hr
    rw [moveAll] at hr
    obtain rfl := Option.some.inj hr
    exact ⟨rfl, rfl, fun _ _ => rfl⟩
  | cons p ps ih =>
    intro h
    constructor
    · intro r hr
      rw [moveAll] at hr
      cases hm : moveOne (h.mem p.addr) p.speed dims with
      | none => rw [hm] at hr; simp at hr
      | some o =>
        rw [hm] at hr
        simp only [Option.map_eq_some_iff] at hr
        obtain ⟨q, hq, rfl⟩ := hr
        obtain ⟨e1, e2, e3⟩ := (ih (h.write p.addr o.1)).1 q hq
        refine ⟨by simp only [List.map_cons, e1], e2, ?_⟩
        intro b hb
        rw [List.map_cons, List.mem_cons, not_or] at hb
        rw [e3 b hb.2]
        simp only [Heap.write, if_neg hb.1]
    · intro hnd
      rw [List.map_cons, List.nodup_cons] at hnd
      rw [moveAll, List.map_cons, List.mapM_cons]
      cases hm : moveOne (h.mem p.addr) p.speed dims with
      | none => simp [HParticle.view, hm]
      | some o =>
        simp only
        have e := (ih (h.write p.addr o.1)).2 hnd.2
        have e2 : ps.map (HParticle.view (h.write p.addr o.1)) = ps.map (HParticle.view h) := by
          refine List.map_congr_left fun q hq => ?_
          have : q.addr ≠ p.addr := by
            intro e; exact hnd.1 (e ▸ List.mem_map_of_mem hq)
          simp only [HParticle.view, Heap.write, if_neg this]
        rw [e2] at e
        rw [← e]
        cases hq : moveAll dims (h.write p.addr o.1) ps with
        | none => simp [HParticle.view, hm]
        | some q =>
          have e3 := ((ih (h.write p.addr o.1)).1 q hq).2.2 p.addr hnd.1
          simp [HParticle.view, hm, e3, Heap.write]

theorem moveAll_isSome (dims : List (K × K)) {ps : List (HParticle K)} {h : Heap K}
    (hs : Separate h.next ps) (t : TrimFn K) :
    ((moveAll dims h ps).map fun r => (trimAll t r.1 r.2).2.map
        (HParticle.view (trimAll t r.1 r.2).1))
      = (ps.map (HParticle.view h)).mapM (moveParticle dims t.fn) := by
  have hm : ∀ (l : List (Particle K)), l.mapM (moveParticle dims t.fn)
      = (l.mapM fun p => (moveOne p.v p.speed dims).map fun r =>
        { p with v := r.1, speed := r.2 }).map fun l => l.map fun p => { p with v := t.fn p.v } := by
    intro l
    induction l with
    | nil => rfl
    | cons p l ih =>
      rw [List.mapM_cons, List.mapM_cons, ih]
      unfold moveParticle
      cases moveOne p.v p.speed dims with
      | none => rfl
      | some r =>
        cases l.mapM fun p => (moveOne p.v p.speed dims).map fun r =>
          ({ p with v := r.1, speed := r.2 } : Particle K) with
        | none => rfl
        | some q => rfl
  obtain ⟨h1, h2⟩ := moveAll_spec dims ps h
  rw [hm, ← h2 hs.1, Option.map_map]
  cases hr : moveAll dims h ps with
  | none => rfl
  | some r =>
    obtain ⟨e1, e2, -⟩ := h1 r hr
    have hs' : Separate r.1.next r.2 := by unfold Separate; rw [e1, e2]; exact hs
    simp only [Option.map_some, Function.comp]
    rw [(trimAll_spec t r.1 r.2 hs').2.2]

/-! ## Speeds -/

theorem speedOne_v {dims : List (K × K)} {cv : Snap K → WithTop K} {leaders : List (Snap K)}
    {d : SpeedDraw K} {p q : Particle K} (h : speedOne dims cv leaders d p = some q) : q.v = p.v := by
  unfold speedOne at h
  split at h
  · obtain ⟨s, -, rfl⟩ := Option.map_eq_some_iff.1 h
    rfl
  · simp at h

theorem mapM_set (h : Heap K) (f : ℕ → Particle K → Option (Particle K))
    (hf : ∀ i p q, f i p = some q → q.v = p.v) : ∀ (ps : List (HParticle K)) (k : ℕ),
    (∀ r, ((ps.zipIdx k).mapM fun p => (f p.2 (p.1.view h)).map p.1.set) = some r →
      r.map HParticle.addr = ps.map HParticle.addr) ∧
    ((ps.zipIdx k).mapM fun p => (f p.2 (p.1.view h)).map p.1.set).map (fun r => r.map (HParticle.view h))
      = ((ps.map (HParticle.view h)).zipIdx k).mapM fun p => f p.2 p.1 := by
  intro ps
  induction ps with
  | nil =>
    intro k
    refine ⟨?_, rfl⟩
    intro r hr
    obtain rfl : [] = r := Option.some.inj hr
    rfl
  | cons p ps ih =>
    intro k
    obtain ⟨h1, h2⟩ := ih (k + 1)
    rw [List.map_cons (f := HParticle.view h), List.zipIdx_cons, List.zipIdx_cons, List.mapM_cons,
      List.mapM_cons, ← h2]
    cases hq : f k (p.view h) with
    | none => exact ⟨by simp, rfl⟩
    | some q =>
      cases hr : (ps.zipIdx (k + 1)).mapM fun p => (f p.2 (p.1.view h)).map p.1.set with
      | none => exact ⟨by simp, rfl⟩
      | some r =>
        refine ⟨?_, ?_⟩
        · intro r' h'
          obtain rfl := Option.some.inj h'
          rw [List.map_cons, h1 r hr]
          rfl
        · have := view_set h p q (hf _ _ _ hq)
          simp [this]

/-! ## Evaluation and best values -/

theorem zipWith_set (h : Heap K) : ∀ (ps : List (HParticle K)) (qs : List (Particle K)),
    qs.map Particle.v = ps.map (fun p => h.mem p.addr) →
    (ps.zipWith HParticle.set qs).map (HParticle.view h) = qs ∧
    (ps.zipWith HParticle.set qs).map HParticle.addr = ps.map HParticle.addr := by
  intro ps
  induction ps with
  | nil =>
    intro qs hq
    have : qs = [] := by simpa using hq
    rw [this]
    exact ⟨rfl, rfl⟩
  | cons p ps ih =>
    intro qs hq
    cases qs with
    | nil => simp at hq
    | cons q qs =>
      rw [List.map_cons, List.map_cons, List.cons_eq_cons] at hq
      obtain ⟨e1, e2⟩ := ih qs hq.2
      rw [List.zipWith_cons_cons, List.map_cons, List.map_cons, List.map_cons, e1, e2,
        view_set h p q hq.1]
      exact ⟨rfl, rfl⟩

theorem evalSwarm_v (key : List K → A) (fit : List K → List K) (fa : Option (Archive A (List K)))
    (ps : List (Particle K)) : (evalSwarm key fit fa ps).2.map Particle.v = ps.map Particle.v := by
  have hl : (chargeAll key fit fa ps.length (ps.map Particle.v)).2.2.length = ps.length := by
    suffices gen : ∀ (n : ℕ) (l : List (List K)), (chargeAll key fit fa n l).2.2.length = l.length by
      rw [gen, List.length_map]
    intro n l
    induction l using List.reverseRecOn with
    | nil => rfl
    | append_singleton l v ih =>
      rw [chargeAll_append, chargeStep]
      split <;> simp [ih]
  unfold evalSwarm
  simp only
  revert hl
  generalize (chargeAll key fit fa ps.length (ps.map Particle.v)).2.2 = os
  intro hl
  induction ps generalizing os with
  | nil => rfl
  | cons p ps ih =>
    cases os with
    | nil => simp at hl
    | cons o os =>
      rw [List.zipWith_cons_cons, List.map_cons, List.map_cons, ih os (by simpa using hl)]

theorem bestOne_v : ∀ (l r : List (Particle K)), l.mapM bestOne = some r →
    r.map Particle.v = l.map Particle.v := by
  intro l
  induction l with
  | nil => intro r h; obtain rfl : [] = r := Option.some.inj h; rfl
  | cons p l ih =>
    intro r h
    rw [List.mapM_cons] at h
    cases hp : bestOne p with
    | none => rw [hp] at h; simp at h
    | some q =>
      cases hl : l.mapM bestOne with
      | none => rw [hp, hl] at h; simp at h
      | some r' =>
        rw [hp, hl] at h
        obtain rfl : q :: r' = r := Option.some.inj h
        rw [List.map_cons, List.map_cons, ih r' hl]
        congr 1
        unfold bestOne at hp
        split at hp
        · simp at hp
        · split_ifs at hp <;> (obtain rfl := Option.some.inj hp; rfl)

/-! ## Refinement -/

variable {dims : List (K × K)} {t : TrimFn K} {eta : K} {m : ℕ} {key : List K → A}
  {fit : List K → List K} {fa : Option (Archive A (List K))}

theorem heapStep_spec (ds : ℕ → SpeedDraw K) (s : HState K) (hs : Separate s.heap.next s.particles) :
    (heapStep dims t eta m key fit fa ds s).map HState.view
      = omopsoStep dims t.fn eta m key fit fa ds s.view ∧
    ∀ s', heapStep dims t eta m key fit fa ds s = some s' →
      Separate s'.heap.next s'.particles ∧ s'.particles.length = s.particles.length := by
  obtain ⟨m1, m2⟩ := mapM_set s.heap (fun i p => speedOne dims s.cv s.leaders (ds i) p)
    (fun i p q h => speedOne_v h) s.particles 0
  unfold heapStep omopsoStep
  simp only [HState.view]
  rw [← m2]
  cases h1 : s.particles.zipIdx.mapM fun p =>
    (speedOne dims s.cv s.leaders (ds p.2) (p.1.view s.heap)).map p.1.set with
  | none => exact ⟨rfl, by simp⟩
  | some ps =>
    have ha := m1 ps h1
    have hps : Separate s.heap.next ps := by unfold Separate; rw [ha]; exact hs
    simp only [Option.map_some]
    rw [← moveAll_isSome dims hps t]
    cases h2 : moveAll dims s.heap ps with
    | none => exact ⟨rfl, by simp⟩
    | some q =>
      obtain ⟨e1, e2, -⟩ := (moveAll_spec dims ps s.heap).1 q h2
      have hq : Separate q.1.next q.2 := by unfold Separate; rw [e1, e2]; exact hps
      obtain ⟨f1, f2, f3⟩ := trimAll_spec t q.1 q.2 hq
      simp only [Option.map_some]
      have hlen : (trimAll t q.1 q.2).2.length = s.particles.length := by
        have := congrArg List.length f3
        simp only [List.length_map] at this
        rw [this, ← List.length_map (f := HParticle.addr), e1, ha, List.length_map]
      cases h3 : (evalSwarm key fit fa ((trimAll t q.1 q.2).2.map
          (HParticle.view (trimAll t q.1 q.2).1))).2.mapM bestOne with
      | none => exact ⟨rfl, by simp⟩
      | some bs =>
        have hv := bestOne_v _ _ h3
        rw [evalSwarm_v, List.map_map] at hv
        obtain ⟨z1, z2⟩ := zipWith_set (trimAll t q.1 q.2).1 (trimAll t q.1 q.2).2 bs hv
        simp only
        split_ifs with hc
        · exact ⟨by simp [hc], by simp⟩
        · refine ⟨?_, ?_⟩
          · simp [HState.view, z1, hc]
          · intro s' h'
            obtain rfl := Option.some.inj h'
            simp only
            refine ⟨by unfold Separate; rw [z2]; exact f1, ?_⟩
            rw [← List.length_map (f := HParticle.addr), z2, List.length_map, hlen]

theorem heapInit_spec (h : Heap K) (population : List ℕ) (hl : ∀ a ∈ population, a < h.next)
    (hfit : t.Fits population) :
    (heapInit t eta m key fit fa h population).map HState.view
      = omopsoInit t.fn eta m key fit fa (population.map h.mem) ∧
    ∀ s, heapInit t eta m key fit fa h population = some s →
      Separate s.heap.next s.particles ∧ s.heap = (makeParticles t h population).1 ∧
      s.particles.map HParticle.addr = (makeParticles t h population).2.map HParticle.addr := by
  obtain ⟨m1, m2⟩ := makeParticles_spec t h population hl hfit
  unfold heapInit omopsoInit
  simp only
  rw [← m2, List.length_map]
  have hv : ((evalSwarm key fit fa ((makeParticles t h population).2.map
      (HParticle.view (makeParticles t h population).1))).2.map fun p =>
        { p with best := some (p.v, p.objs) }).map Particle.v
      = (makeParticles t h population).2.map fun p => (makeParticles t h population).1.mem p.addr := by
    have := evalSwarm_v key fit fa ((makeParticles t h population).2.map
      (HParticle.view (makeParticles t h population).1))
    rw [List.map_map] at this ⊢
    exact this
  obtain ⟨z1, z2⟩ := zipWith_set _ _ _ hv
  split_ifs with hc
  · exact ⟨rfl, by simp⟩
  · refine ⟨?_, ?_⟩
    · simp only [Option.map_some, HState.view, z1]
    · intro s h'
      obtain rfl := Option.some.inj h'
      simp only
      exact ⟨by unfold Separate; rw [z2]; exact m1, trivial, z2⟩

/-! ## Runs -/

theorem steps_spec (ds : ℕ → ℕ → SpeedDraw K) : ∀ (n k : ℕ) (s : HState K),
    Separate s.heap.next s.particles →
    (steps (heapStep dims t eta m key fit fa) ds k n s).map HState.view
      = steps (omopsoStep dims t.fn eta m key fit fa) ds k n s.view ∧
    ∀ s', steps (heapStep dims t eta m key fit fa) ds k n s = some s' →
      Separate s'.heap.next s'.particles := by
  intro n
  induction n with
  | zero =>
    intro k s hs
    refine ⟨rfl, fun s' h' => ?_⟩
    obtain rfl : s = s' := Option.some.inj h'
    exact hs
  | succ n ih =>
    intro k s hs
    obtain ⟨h1, h2⟩ := heapStep_spec (dims := dims) (t := t) (eta := eta) (m := m) (key := key)
      (fit := fit) (fa := fa) (ds k) s hs
    rw [steps, steps, ← h1]
    cases hn : heapStep dims t eta m key fit fa (ds k) s with
    | none => exact ⟨rfl, by simp⟩
    | some s1 =>
      simp only [Option.bind_some, Option.map_some]
      exact ih (k + 1) s1 (h2 s1 hn).1

/-- A run of the driver with lists: construction and `n` steps. -/
def heapRun (dims : List (K × K)) (t : TrimFn K) (eta : K) (m : ℕ) (key : List K → A)
    (fit : List K → List K) (fa : Option (Archive A (List K))) (ds : ℕ → ℕ → SpeedDraw K)
    (h : Heap K) (population : List ℕ) (n : ℕ) : Option (HState K) :=
  (heapInit t eta m key fit fa h population).bind (steps (heapStep dims t eta m key fit fa) ds 0 n)

/-- **C105: when the vectors may be regarded as values.** If the trim function makes new lists, or the
caller passes different lists, a run with shared lists shows what the run of `Verif.Model.Swarm`
shows, which C96 is about. -/
theorem C105_refines (ds : ℕ → ℕ → SpeedDraw K) (h : Heap K) (population : List ℕ)
    (hl : ∀ a ∈ population, a < h.next) (hfit : t.Fits population) (n : ℕ) :
    (heapRun dims t eta m key fit fa ds h population n).map HState.view
      = (omopsoInit t.fn eta m key fit fa (population.map h.mem)).bind
        (steps (omopsoStep dims t.fn eta m key fit fa) ds 0 n) := by
  obtain ⟨h1, h2⟩ := heapInit_spec (t := t) (eta := eta) (m := m) (key := key)
      (fit := fit) (fa := fa) h population hl hfit
  unfold heapRun
  rw [← h1]
  cases hs : heapInit t eta m key fit fa h population with
  | none => rfl
  | some s =>
    simp only [Option.bind_some, Option.map_some]
    exact (steps_spec ds n 0 s (h2 s hs).1).1

theorem heapStep_shape {ds : ℕ → SpeedDraw K} {s s' : HState K}
    (h : heapStep dims t eta m key fit fa ds s = some s') :
    ∃ ps q, ps.map HParticle.addr = s.particles.map HParticle.addr ∧
      moveAll dims s.heap ps = some q ∧ s'.heap = (trimAll t q.1 q.2).1 ∧
      s'.particles.map HParticle.addr = (trimAll t q.1 q.2).2.map HParticle.addr := by
  obtain ⟨m1, -⟩ := mapM_set s.heap (fun i p => speedOne dims s.cv s.leaders (ds i) p)
    (fun i p q h => speedOne_v h) s.particles 0
  unfold heapStep at h
  cases h1 : s.particles.zipIdx.mapM fun p =>
    (speedOne dims s.cv s.leaders (ds p.2) (p.1.view s.heap)).map p.1.set with
  | none => rw [h1] at h; simp at h
  | some ps =>
    rw [h1] at h
    simp only at h
    cases h2 : moveAll dims s.heap ps with
    | none => rw [h2] at h; simp at h
    | some q =>
      rw [h2] at h
      simp only at h
      cases h3 : (evalSwarm key fit fa ((trimAll t q.1 q.2).2.map
          (HParticle.view (trimAll t q.1 q.2).1))).2.mapM bestOne with
      | none => rw [h3] at h; simp at h
      | some bs =>
        rw [h3] at h
        simp only at h
        split_ifs at h
        obtain rfl := Option.some.inj h
        have hv := bestOne_v _ _ h3
        rw [evalSwarm_v, List.map_map] at hv
        exact ⟨ps, q, m1 ps h1, h2, rfl, (zipWith_set _ _ bs hv).2⟩

/-- **C105, the part that holds.** If the trim function makes new lists, a run never changes a list
that existed before: not those passed as the population, nor any other. -/
theorem C105_fresh_partial (f : List K → List K) (ds : ℕ → ℕ → SpeedDraw K) (h : Heap K)
    (population : List ℕ) (n : ℕ) (s : HState K)
    (hs : heapRun dims (.fresh f) eta m key fit fa ds h population n = some s) :
    ∀ a, a < h.next → s.heap.mem a = h.mem a := by
  unfold heapRun at hs
  obtain ⟨s0, h0, h1⟩ := Option.bind_eq_some_iff.1 hs
  have init : (∀ a ∈ s0.particles.map HParticle.addr, h.next ≤ a) ∧ h.next ≤ s0.heap.next ∧
      ∀ a, a < h.next → s0.heap.mem a = h.mem a := by
    obtain ⟨m1, m2, m3, -⟩ := makeParticles_fresh f population h
    unfold heapInit at h0
    simp only at h0
    split_ifs at h0
    obtain rfl := Option.some.inj h0
    simp only
    refine ⟨?_, by omega, m3⟩
    intro a ha
    have : a ∈ (makeParticles (.fresh f) h population).2.map HParticle.addr := by
      have e := evalSwarm_v key fit fa ((makeParticles (.fresh f) h population).2.map
        (HParticle.view (makeParticles (.fresh f) h population).1))
      rw [List.map_map] at e
      rw [(zipWith_set _ _ _ (by rw [List.map_map]; exact e)).2] at ha
      exact ha
    rw [m1, List.mem_range'_1] at this
    exact this.1
  have main : ∀ (n k : ℕ) (s0 : HState K), (∀ a ∈ s0.particles.map HParticle.addr, h.next ≤ a) →
      h.next ≤ s0.heap.next → (∀ a, a < h.next → s0.heap.mem a = h.mem a) → ∀ s,
      steps (heapStep dims (.fresh f) eta m key fit fa) ds k n s0 = some s →
      ∀ a, a < h.next → s.heap.mem a = h.mem a := by
    intro n
    induction n with
    | zero =>
      intro k s0 _ _ h3 s hs
      obtain rfl : s0 = s := Option.some.inj hs
      exact h3
    | succ n ih =>
      intro k s0 g1 g2 g3 s hs
      rw [steps] at hs
      obtain ⟨s1, e1, e2⟩ := Option.bind_eq_some_iff.1 hs
      obtain ⟨ps, q, a1, a2, a3, a4⟩ := heapStep_shape e1
      obtain ⟨b1, b2, b3⟩ := (moveAll_spec dims ps s0.heap).1 q a2
      obtain ⟨c1, c2, c3, -⟩ := trimAll_fresh f q.2 q.1
      refine ih (k + 1) s1 ?_ ?_ ?_ s e2
      · rw [a4, c1]
        intro a ha
        rw [List.mem_range'_1] at ha
        omega
      · rw [a3, c2]; omega
      · intro a ha
        rw [a3, c3 a (by omega), b3 a ?_, g3 a ha]
        rw [a1]
        intro hm
        have := g1 a hm
        omega
  exact main n 0 s0 init.1 init.2.1 init.2.2 s h1

/-- **C105, what happens with the default trim function.** The lists passed as the population are the
positions of the particles: whatever moves a particle changes the list of the caller. Other lists are
left alone. -/
theorem C105_same (ds : ℕ → ℕ → SpeedDraw K) (h : Heap K) (population : List ℕ) (n : ℕ) (s : HState K)
    (hs : heapRun dims .same eta m key fit fa ds h population n = some s) :
    population.map s.heap.mem = s.view.particles.map Particle.v ∧
    ∀ a, a ∉ population → s.heap.mem a = h.mem a := by
  unfold heapRun at hs
  obtain ⟨s0, h0, h1⟩ := Option.bind_eq_some_iff.1 hs
  have init : s0.particles.map HParticle.addr = population ∧ s0.heap = h := by
    unfold heapInit at h0
    rw [makeParticles_same] at h0
    simp only at h0
    split_ifs at h0
    obtain rfl := Option.some.inj h0
    simp only
    refine ⟨?_, trivial⟩
    have e := evalSwarm_v key fit fa ((population.map fun a =>
      (⟨a, (h.mem a).map fun _ => 0, none, []⟩ : HParticle K)).map (HParticle.view h))
    rw [List.map_map (g := Particle.v)] at e
    rw [(zipWith_set h _ _ (by rw [List.map_map (g := Particle.v)]; exact e)).2, List.map_map]
    simp [Function.comp_def]
  have main : ∀ (n k : ℕ) (s0 : HState K), s0.particles.map HParticle.addr = population → ∀ s,
      steps (heapStep dims .same eta m key fit fa) ds k n s0 = some s →
      s.particles.map HParticle.addr = population ∧
      ∀ a, a ∉ population → s.heap.mem a = s0.heap.mem a := by
    intro n
    induction n with
    | zero =>
      intro k s0 g s hs
      obtain rfl : s0 = s := Option.some.inj hs
      exact ⟨g, fun _ _ => rfl⟩
    | succ n ih =>
      intro k s0 g s hs
      rw [steps] at hs
      obtain ⟨s1, e1, e2⟩ := Option.bind_eq_some_iff.1 hs
      obtain ⟨ps, q, a1, a2, a3, a4⟩ := heapStep_shape e1
      obtain ⟨b1, b2, b3⟩ := (moveAll_spec dims ps s0.heap).1 q a2
      rw [trimAll_same] at a3 a4
      obtain ⟨i1, i2⟩ := ih (k + 1) s1 (by rw [a4, b1, a1, g]) s e2
      refine ⟨i1, fun a ha => ?_⟩
      rw [i2 a ha, a3, b3 a (by rw [a1, g]; exact ha)]
  obtain ⟨e1, e2⟩ := main n 0 s0 init.1 s h1
  refine ⟨?_, fun a ha => by rw [e2 a ha, init.2]⟩
  rw [← e1]
  simp [HState.view, HParticle.view, Function.comp_def]

end

/-- Two lists of the caller, at the addresses 0 and 1. -/
def exHeap : Heap ℚ := ⟨fun a => if a = 0 then [0] else if a = 1 then [1 / 2] else [], 2⟩

/-- The draws of the examples. -/
def exSpeed : ℕ → ℕ → SpeedDraw ℚ := fun _ _ => ⟨fun _ => (1, 0), 1, 1 / 4, 2, 2, 1⟩

/-- **C105 is violated.** After one step the second list of the caller has changed from `[1/2]` to
`[1/4]`. -/
theorem C105_violated :
    (heapRun [(0, 1)] .same (3 / 400) 2 id exFit none exSpeed exHeap [0, 1] 1).map
      (fun s => (exHeap.mem 1, s.heap.mem 1)) = some ([1 / 2], [1 / 4]) := by decide +kernel

/-- The same list passed twice, with another one: in the run with lists it is moved twice per step, so
that the particles are elsewhere than those of a run with two equal lists. -/
theorem C105_aliased :
    (heapRun [(0, 1)] .same (3 / 400) 2 id exFit none exSpeed exHeap [0, 1, 1] 1).map
      (fun s => s.view.particles.map Particle.v) ≠
    ((omopsoInit id (3 / 400) 2 id exFit none [[0], [1 / 2], [1 / 2]]).bind
      (omopsoStep [(0, 1)] id (3 / 400) 2 id exFit none (exSpeed 0))).map
      (fun s => s.particles.map Particle.v) := by decide +kernel

/-- With a trim function that copies, the lists of the caller stay as they are and the particles move as
before. -/
example : (heapRun [(0, 1)] (.fresh id) (3 / 400) 2 id exFit none exSpeed exHeap [0, 1] 1).map
      (fun s => (s.heap.mem 0, s.heap.mem 1, s.view.particles.map Particle.v))
    = some ([0], [1 / 2], [[0], [1 / 4]]) := by decide +kernel

end Evogil.Swarm
