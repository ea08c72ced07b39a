import Verif.Model.SwarmNest
import Verif.Props.SwarmHeap

/-! # Lemmas on OMOPSO with nested best positions -/

set_option linter.unusedSectionVars false

namespace Evogil.Swarm

open Evaluation Omopso Generations

variable {K : Type*} [Field K] [LinearOrder K] {A : Type*}

/-! ## Copies -/

theorem copyList_some {room : ℕ} (l : List K) (h : 4 ≤ room) : copyList room l = some l := by
  unfold copyList
  rw [if_pos]
  split_ifs <;> omega

theorem copyList_eq {room : ℕ} {l r : List K} (h : copyList room l = some r) : r = l := by
  unfold copyList at h
  exact (Option.some.inj (Option.ite_none_right_eq_some.1 h).2).symm

theorem deepcopy_some : ∀ (chain : List (Node K)) (room : ℕ) (n : Node K),
    2 * (1 + chain.length) + 4 ≤ room → deepcopy room n chain = some (n, chain) := by
  intro chain
  induction chain with
  | nil =>
    intro room n h
    simp only [List.length_nil] at h
    rw [deepcopy, copyList_some _ (by omega), copyList_some _ (by omega), copyList_some _ (by omega)]
    simp only
    rw [if_neg (by omega)]
  | cons b rest ih =>
    intro room n h
    simp only [List.length_cons] at h
    rw [deepcopy, copyList_some _ (by omega), copyList_some _ (by omega), copyList_some _ (by omega),
      ih (room - 2) b (by omega)]

theorem deepcopy_none : ∀ (chain : List (Node K)) (room : ℕ) (n b : Node K),
    (n :: chain).getLast? = some b → b.v ≠ [] →
    room < 2 * (1 + chain.length) + 4 → deepcopy room n chain = none := by
  intro chain
  induction chain with
  | nil =>
    intro room n b hb hv h
    obtain rfl : n = b := by simpa using hb
    simp only [List.length_nil] at h
    have : copyList (room - 2) n.v = none := by
      unfold copyList
      rw [if_neg hv, if_neg (by omega)]
    rw [deepcopy, this]
  | cons c rest ih =>
    intro room n b hb hv h
    simp only [List.length_cons] at h
    rw [deepcopy, ih (room - 2) c b (by rw [List.getLast?_cons_cons] at hb; exact hb) hv (by omega)]
    split <;> rfl

theorem deepcopy_eq : ∀ (chain : List (Node K)) (room : ℕ) (n : Node K) (c : Node K × List (Node K)),
    deepcopy room n chain = some c → c = (n, chain) := by
  intro chain
  induction chain with
  | nil =>
    intro room n c h
    rw [deepcopy] at h
    cases h1 : copyList (room - 2) n.v with
    | none => rw [h1] at h; simp at h
    | some v =>
      rw [h1] at h
      simp only at h
      split_ifs at h
      split at h
      · next h2 h3 =>
        obtain rfl := Option.some.inj h
        rw [copyList_eq h1, copyList_eq h2, copyList_eq h3]
      · simp at h
  | cons b rest ih =>
    intro room n c h
    rw [deepcopy] at h
    cases h1 : copyList (room - 2) n.v with
    | none => rw [h1] at h; simp at h
    | some v =>
      rw [h1] at h
      simp only at h
      cases h4 : deepcopy (room - 2) b rest with
      | none => rw [h4] at h; simp at h
      | some d =>
        rw [h4] at h
        simp only at h
        split at h
        · next h2 h3 =>
          obtain rfl := Option.some.inj h
          rw [copyList_eq h1, copyList_eq h2, copyList_eq h3, ih _ _ _ h4]
        · simp at h

/-! ## Parts of a step that leave the best positions alone -/

theorem nview_set (p : NParticle K) (q : Particle K) (hq : q.best = p.view.best) :
    (p.set q).view = q := by
  cases q
  simp only [NParticle.view, NParticle.set] at *
  rw [hq]

theorem mapM_nset (f : ℕ → Particle K → Option (Particle K))
    (hf : ∀ i p q, f i p = some q → q.best = p.best) : ∀ (ps : List (NParticle K)) (k : ℕ),
    (∀ r, ((ps.zipIdx k).mapM fun p => (f p.2 p.1.view).map p.1.set) = some r →
      r.map NParticle.chain = ps.map NParticle.chain) ∧
    ((ps.zipIdx k).mapM fun p => (f p.2 p.1.view).map p.1.set).map (fun r => r.map NParticle.view)
      = ((ps.map NParticle.view).zipIdx k).mapM fun p => f p.2 p.1 := by
  intro ps
  induction ps with
  | nil =>
    intro k
    refine ⟨?_, rfl⟩
    intro r hr
    obtain rfl : [] = r := Option.some.inj hr
    rfl
  | cons p ps ih =>
    intro k
    obtain ⟨h1, h2⟩ := ih (k + 1)
    rw [List.map_cons (f := NParticle.view), List.zipIdx_cons, List.zipIdx_cons, List.mapM_cons,
      List.mapM_cons, ← h2]
    cases hq : f k p.view with
    | none => exact ⟨by simp, rfl⟩
    | some q =>
      cases hr : (ps.zipIdx (k + 1)).mapM fun p => (f p.2 p.1.view).map p.1.set with
      | none => exact ⟨by simp, rfl⟩
      | some r =>
        refine ⟨?_, ?_⟩
        · intro r' h'
          obtain rfl := Option.some.inj h'
          rw [List.map_cons, h1 r hr]
          rfl
        · have := nview_set p q (hf _ _ _ hq)
          simp [this]

theorem mapM_nset' (f : Particle K → Option (Particle K))
    (hf : ∀ p q, f p = some q → q.best = p.best) : ∀ (ps : List (NParticle K)),
    (∀ r, (ps.mapM fun p => (f p.view).map p.set) = some r →
      r.map NParticle.chain = ps.map NParticle.chain) ∧
    (ps.mapM fun p => (f p.view).map p.set).map (fun r => r.map NParticle.view)
      = (ps.map NParticle.view).mapM f := by
  intro ps
  induction ps with
  | nil =>
    refine ⟨?_, rfl⟩
    intro r hr
    obtain rfl : [] = r := Option.some.inj hr
    rfl
  | cons p ps ih =>
    obtain ⟨h1, h2⟩ := ih
    rw [List.map_cons (f := NParticle.view), List.mapM_cons, List.mapM_cons, ← h2]
    cases hq : f p.view with
    | none => exact ⟨by simp, rfl⟩
    | some q =>
      cases hr : ps.mapM fun p => (f p.view).map p.set with
      | none => exact ⟨by simp, rfl⟩
      | some r =>
        refine ⟨?_, ?_⟩
        · intro r' h'
          obtain rfl := Option.some.inj h'
          rw [List.map_cons, h1 r hr]
          rfl
        · have := nview_set p q (hf _ _ hq)
          simp [this]

theorem speedOne_best {dims : List (K × K)} {cv : Snap K → WithTop K} {leaders : List (Snap K)}
    {d : SpeedDraw K} {p q : Particle K} (h : speedOne dims cv leaders d p = some q) :
    q.best = p.best := by
  unfold speedOne at h
  split at h
  · obtain ⟨s, -, rfl⟩ := Option.map_eq_some_iff.1 h
    rfl
  · simp at h

theorem moveParticle_best {dims : List (K × K)} {trim : List K → List K} {p q : Particle K}
    (h : moveParticle dims trim p = some q) : q.best = p.best := by
  unfold moveParticle at h
  obtain ⟨s, -, rfl⟩ := Option.map_eq_some_iff.1 h
  rfl

theorem zipWith_nset : ∀ (ps : List (NParticle K)) (qs : List (Particle K)),
    qs.map Particle.best = ps.map (fun p => p.view.best) →
    (ps.zipWith NParticle.set qs).map NParticle.view = qs ∧
    (ps.zipWith NParticle.set qs).map NParticle.chain = ps.map NParticle.chain := by
  intro ps
  induction ps with
  | nil =>
    intro qs hq
    have : qs = [] := by simpa using hq
    rw [this]
    exact ⟨rfl, rfl⟩
  | cons p ps ih =>
    intro qs hq
    cases qs with
    | nil => simp at hq
    | cons q qs =>
      rw [List.map_cons, List.map_cons, List.cons_eq_cons] at hq
      obtain ⟨e1, e2⟩ := ih qs hq.2
      rw [List.zipWith_cons_cons, List.map_cons, List.map_cons, List.map_cons, e1, e2,
        nview_set p q hq.1]
      exact ⟨rfl, rfl⟩

theorem evalSwarm_best (key : List K → A) (fit : List K → List K) (fa : Option (Archive A (List K)))
    (ps : List (Particle K)) :
    (evalSwarm key fit fa ps).2.map Particle.best = ps.map Particle.best := by
  have hl : (chargeAll key fit fa ps.length (ps.map Particle.v)).2.2.length = ps.length := by
    have := congrArg List.length (evalSwarm_v key fit fa ps)
    unfold evalSwarm at this
    simp only [List.length_map, List.length_zipWith] at this
    suffices gen : ∀ (n : ℕ) (l : List (List K)), (chargeAll key fit fa n l).2.2.length = l.length by
      rw [gen, List.length_map]
    intro n l
    induction l using List.reverseRecOn with
    | nil => rfl
    | append_singleton l v ih =>
      rw [chargeAll_append, chargeStep]
      split <;> simp [ih]
  unfold evalSwarm
  simp only
  generalize (chargeAll key fit fa ps.length (ps.map Particle.v)).2.2 = os at hl
  induction ps generalizing os with
  | nil => simp
  | cons p ps ih =>
    cases os with
    | nil => simp at hl
    | cons o os =>
      simp only [List.zipWith_cons_cons, List.map_cons]
      rw [ih os (by simpa using hl)]

/-! ## Offering and remembering -/

theorem offerNested_eq {room : ℕ} {eta : K} {m size : ℕ} {st : List (Snap K) × List (Snap K) × ℕ}
    {p : NParticle K} (h : 2 * (1 + p.chain.length) + 4 ≤ room) :
    offerNested room eta m size st p = some (offer eta m size st p.view) := by
  unfold offerNested
  rw [deepcopy_some _ _ _ h]
  rfl

theorem foldlM_offerNested {room : ℕ} {eta : K} {m size : ℕ} : ∀ (ps : List (NParticle K))
    (st : List (Snap K) × List (Snap K) × ℕ),
    (∀ p ∈ ps, 2 * (1 + p.chain.length) + 4 ≤ room) →
    ps.foldlM (offerNested room eta m size) st
      = some ((ps.map NParticle.view).foldl (offer eta m size) st) := by
  intro ps
  induction ps with
  | nil => intro st _; rfl
  | cons p ps ih =>
    intro st h
    rw [List.foldlM_cons, offerNested_eq (h p List.mem_cons_self)]
    exact ih _ fun q hq => h q (List.mem_cons_of_mem _ hq)

theorem foldlM_offerNested_none {room : ℕ} {eta : K} {m size : ℕ} : ∀ (ps : List (NParticle K))
    (st : List (Snap K) × List (Snap K) × ℕ),
    (∃ p ∈ ps, (∃ b, p.chain.getLast? = some b ∧ b.v ≠ []) ∧ room < 2 * (1 + p.chain.length) + 4) →
    ps.foldlM (offerNested room eta m size) st = none := by
  intro ps
  induction ps with
  | nil => rintro st ⟨p, hp, -⟩; simp at hp
  | cons p ps ih =>
    rintro st ⟨q, hq, ⟨b, hb, hv⟩, h⟩
    rw [List.foldlM_cons]
    rcases List.mem_cons.1 hq with rfl | hq
    · unfold offerNested
      rw [deepcopy_none _ _ _ b (by rw [List.getLast?_cons, hb]; rfl) hv h]
      rfl
    · cases offerNested room eta m size st p with
      | none => rfl
      | some st' => exact ih st' ⟨q, hq, ⟨b, hb, hv⟩, h⟩

theorem bestNested_view {room : ℕ} {p : NParticle K} (h : 2 * (1 + p.chain.length) + 4 ≤ room) :
    (bestNested room p).map NParticle.view = bestOne p.view := by
  unfold bestNested bestOne
  obtain ⟨n, chain⟩ := p
  cases chain with
  | nil => rfl
  | cons b rest =>
    simp only at h ⊢
    rw [deepcopy_some _ _ _ h]
    change _ = if (omopsoDominates (0 : K) n.objs b.objs).getD false = true then _ else _
    by_cases hd : (omopsoDominates (0 : K) n.objs b.objs).getD false = true
    · rw [if_pos hd, if_pos hd]; rfl
    · rw [if_neg hd, if_neg hd]; rfl

theorem mapM_bestNested {room : ℕ} : ∀ (ps : List (NParticle K)),
    (∀ p ∈ ps, 2 * (1 + p.chain.length) + 4 ≤ room) →
    (ps.mapM (bestNested room)).map (fun r => r.map NParticle.view)
      = (ps.map NParticle.view).mapM bestOne := by
  intro ps
  induction ps with
  | nil => intro _; rfl
  | cons p ps ih =>
    intro h
    rw [List.map_cons, List.mapM_cons, List.mapM_cons, ← ih fun q hq => h q (List.mem_cons_of_mem _ hq),
      ← bestNested_view (h p List.mem_cons_self)]
    cases bestNested room p with
    | none => rfl
    | some q =>
      cases ps.mapM (bestNested room) with
      | none => rfl
      | some r => rfl

theorem omopsoDominates_self [IsStrictOrderedRing K] (l : List K) :
    omopsoDominates (0 : K) l l = some false := by
  unfold omopsoDominates
  induction l with
  | nil => rfl
  | cons a l ih =>
    rw [omopsoDominatesLoop, add_zero, div_one, if_neg (lt_irrefl _), if_neg (lt_irrefl _), ih]

/-- What happens to the chain of a particle in a step. -/
def Grows (p p' : NParticle K) : Prop :=
  (p'.view.best = p.view.best ∧ p'.chain = p.chain) ∨
    (p'.view.best ≠ p.view.best ∧ p'.chain = p'.node :: p.chain)

theorem bestNested_grows [IsStrictOrderedRing K] {room : ℕ} {p p' : NParticle K}
    (h : bestNested room p = some p') : Grows p p' := by
  unfold bestNested at h
  obtain ⟨n, chain⟩ := p
  cases chain with
  | nil => simp at h
  | cons b rest =>
    simp only at h
    split_ifs at h with hd
    · cases hc : deepcopy room n (b :: rest) with
      | none => rw [hc] at h; simp at h
      | some c =>
        rw [hc] at h
        obtain rfl := Option.some.inj h
        rw [deepcopy_eq _ _ _ _ hc]
        refine Or.inr ⟨?_, rfl⟩
        simp only [NParticle.view, List.head?_cons, Option.map_some, ne_eq, Option.some.injEq,
          Prod.mk.injEq, not_and]
        intro _ ho
        rw [ho, omopsoDominates_self] at hd
        simp at hd
    · obtain rfl := Option.some.inj h
      exact Or.inl ⟨rfl, rfl⟩

end Evogil.Swarm
