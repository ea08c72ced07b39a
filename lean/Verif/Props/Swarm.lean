import Verif.Model.Swarm
import Verif.Props.Omopso
import Verif.Props.GenerationsRun

/-!
# C96: complete runs of OMOPSO
-/

set_option linter.unusedSectionVars false

namespace Evogil.Swarm

open Evaluation Omopso Generations Spec

section
variable {K : Type*} [Field K] [LinearOrder K] [IsStrictOrderedRing K] {A : Type*}

/-- What the driver is given: the box, a trim function that stays in it, `m` objectives, and a fitness
archive that, if there is one, holds the right values. -/
structure OTask (dims : List (K × K)) (trim : List K → List K) (m : ℕ) (key : List K → A)
    (fit : List K → List K) (fa : Option (Archive A (List K))) : Prop where
  keeps : ∀ v, InBox v dims → InBox (trim v) dims
  values : ∀ v, (fit v).length = m
  right : ∀ a, fa = some a → ∀ v f, a (key v) = some f → f = fit v

/-- A valid result of `random.sample` for every number of leaders. -/
def SpeedDraw.Valid (d : SpeedDraw K) : Prop := ∀ n, 2 ≤ n → PairDraw n (d.pair n)

/-- The states of an OMOPSO driver started with `N` vectors in the box, with the populations it has had
(the last one first). -/
inductive OReach (dims : List (K × K)) (trim : List K → List K) (eta : K) (m : ℕ) (key : List K → A)
    (fit : List K → List K) (fa : Option (Archive A (List K))) (N : ℕ) :
    List (List (List K)) → OState K → Prop
  | start (population : List (List K)) (hn : population.length = N)
      (hbox : ∀ v ∈ population, InBox v dims) (s : OState K)
      (h : omopsoInit trim eta m key fit fa population = some s) :
      OReach dims trim eta m key fit fa N [s.particles.map Particle.v] s
  | step (ds : ℕ → SpeedDraw K) (hds : ∀ i, (ds i).Valid) (rounds : List (List (List K)))
      (s s' : OState K) (hs : OReach dims trim eta m key fit fa N rounds s)
      (h : omopsoStep dims trim eta m key fit fa ds s = some s') :
      OReach dims trim eta m key fit fa N (s'.particles.map Particle.v :: rounds) s'

/-! ## Archives -/

theorem archiveAdd_mem {ι : Type*} (dom eqv : ι → ι → Bool) (a : List ι) (p : ι) :
    (∀ x ∈ (archiveAdd dom eqv a p).2, x = p ∨ x ∈ a) ∧ (archiveAdd dom eqv a p).2 ≠ [] := by
  obtain ⟨h1, h2, -, -, h5⟩ := addLoop_mem (dom := dom) (eqv := eqv) p a.length [] a rfl
  constructor
  · intro x hx
    rcases h1 x hx with h | h | h
    · exact Or.inl h
    · simp at h
    · exact Or.inr h
  · intro e
    unfold archiveAdd at e
    cases hb : (addLoop dom eqv p [] a).1 with
    | true => have := h2 hb; rw [e] at this; simp at this
    | false => obtain ⟨x, hx, -⟩ := h5 hb; rw [e] at hx; simp at hx

theorem leaderAdd_mem {ι : Type*} [DecidableEq ι] (dom eqv : ι → ι → Bool) (objs : List (ι → K))
    {size : ℕ} (hsize : 1 ≤ size) (a : List ι) (ha : a.length ≤ size) (p : ι) :
    (∀ x ∈ (leaderAdd dom eqv objs size a p).2, x = p ∨ x ∈ a) ∧
      (leaderAdd dom eqv objs size a p).2 ≠ [] ∧ (leaderAdd dom eqv objs size a p).2.length ≤ size ∧
      (a = [] → (leaderAdd dom eqv objs size a p).1 = true) := by
  obtain ⟨h1, h2⟩ := archiveAdd_mem dom eqv a p
  obtain ⟨h3, h4⟩ := addLoop_length (dom := dom) (eqv := eqv) p a.length [] a rfl
  have h3' : (archiveAdd dom eqv a p).2.length ≤ a.length + 1 := by
    simpa [archiveAdd] using h3
  have hempty : a = [] → (leaderAdd dom eqv objs size a p).1 = true := by
    rintro rfl
    have e : (archiveAdd dom eqv [] p).1 = true := rfl
    unfold leaderAdd
    simp only
    rw [e]
    split_ifs <;> rfl
  unfold leaderAdd at hempty ⊢
  simp only at hempty ⊢
  split_ifs at hempty ⊢ with h
  · have h5 := prune_length objs _ h2
    simp only [Bool.and_eq_true, decide_eq_true_eq] at h
    refine ⟨fun x hx => h1 x (prune_subset objs _ x hx), ?_, by simp only; omega, hempty⟩
    intro e
    simp only at e
    rw [e, List.length_nil] at h5
    omega
  · refine ⟨h1, h2, ?_, hempty⟩
    simp only
    by_contra hc
    apply h
    have hgt : (archiveAdd dom eqv a p).2.length > size := by omega
    rw [Bool.and_eq_true, decide_eq_true_eq]
    refine ⟨?_, hgt⟩
    by_contra hf
    have hf' : (addLoop dom eqv p [] a).1 = false := by simpa [archiveAdd] using hf
    have := h4 hf'
    simp only [List.length_nil, Nat.zero_add] at this
    unfold archiveAdd at hgt
    omega

/-- Offering particles: members are old ones or copies of particles; if something was offered or there
already, nothing is empty. -/
theorem offer_all (eta : K) (m : ℕ) {size : ℕ} (hsize : 1 ≤ size) (ps : List (Particle K)) :
    ∀ (st : List (Snap K) × List (Snap K) × ℕ), st.2.1.length ≤ size →
      (st.2.1 = [] ∧ st.1 = [] ∨ st.2.1 ≠ [] ∧ st.1 ≠ []) →
      (∀ x ∈ (ps.foldl (offer eta m size) st).1, x ∈ st.1 ∨ ∃ p ∈ ps, x.v = p.v ∧ x.objs = p.objs) ∧
      (∀ x ∈ (ps.foldl (offer eta m size) st).2.1,
        x ∈ st.2.1 ∨ ∃ p ∈ ps, x.v = p.v ∧ x.objs = p.objs) ∧
      (ps.foldl (offer eta m size) st).2.1.length ≤ size ∧
      ((ps ≠ [] ∨ st.2.1 ≠ []) → (ps.foldl (offer eta m size) st).2.1 ≠ [] ∧
        (ps.foldl (offer eta m size) st).1 ≠ []) := by
  induction ps with
  | nil =>
    intro st hl hst
    refine ⟨fun x hx => Or.inl hx, fun x hx => Or.inl hx, hl, ?_⟩
    rintro (h | h)
    · exact absurd rfl h
    · rcases hst with hst | hst
      · exact absurd hst.1 h
      · exact hst
  | cons p ps ih =>
    intro st hl hst
    rw [List.foldl_cons]
    obtain ⟨l1, l2, l3, l4⟩ := leaderAdd_mem (domEta Snap.objs (0 : K)) (eqvObj Snap.objs)
      (snapObjs m) hsize st.2.1 hl ⟨st.2.2, p.v, p.objs⟩
    obtain ⟨a1, a2⟩ := archiveAdd_mem (domEta Snap.objs eta) (eqvObj Snap.objs) st.1
      ⟨st.2.2 + 1, p.v, p.objs⟩
    have key : (offer eta m size st p).2.1.length ≤ size ∧
        ((offer eta m size st p).2.1 ≠ [] ∧ (offer eta m size st p).1 ≠ []) ∧
        (∀ x ∈ (offer eta m size st p).1, x ∈ st.1 ∨ x.v = p.v ∧ x.objs = p.objs) ∧
        (∀ x ∈ (offer eta m size st p).2.1, x ∈ st.2.1 ∨ x.v = p.v ∧ x.objs = p.objs) := by
      unfold offer
      simp only
      split_ifs with h
      · refine ⟨l3, ⟨l2, a2⟩, ?_, ?_⟩
        · intro x hx
          rcases a1 x hx with rfl | hx
          · exact Or.inr ⟨rfl, rfl⟩
          · exact Or.inl hx
        · intro x hx
          rcases l1 x hx with rfl | hx
          · exact Or.inr ⟨rfl, rfl⟩
          · exact Or.inl hx
      · refine ⟨l3, ⟨l2, ?_⟩, fun x hx => Or.inl hx, ?_⟩
        · rcases hst with hst | hst
          · exact absurd (l4 hst.1) h
          · exact hst.2
        · intro x hx
          rcases l1 x hx with rfl | hx
          · exact Or.inr ⟨rfl, rfl⟩
          · exact Or.inl hx
    obtain ⟨k1, k2, k3, k4⟩ := key
    obtain ⟨i1, i2, i3, i4⟩ := ih (offer eta m size st p) k1 (Or.inr k2)
    refine ⟨?_, ?_, i3, fun _ => i4 (Or.inr k2.1)⟩
    · intro x hx
      rcases i1 x hx with h | ⟨q, hq, h⟩
      · rcases k3 x h with h | h
        · exact Or.inl h
        · exact Or.inr ⟨p, by simp, h⟩
      · exact Or.inr ⟨q, List.mem_cons_of_mem _ hq, h⟩
    · intro x hx
      rcases i2 x hx with h | ⟨q, hq, h⟩
      · rcases k4 x h with h | h
        · exact Or.inl h
        · exact Or.inr ⟨p, by simp, h⟩
      · exact Or.inr ⟨q, List.mem_cons_of_mem _ hq, h⟩

/-! ## Particles -/

theorem speedVec_length (d : SpeedDraw K) (dims : List (K × K)) : ∀ (ss xs bs gs : List K),
    ss.length = dims.length → xs.length = dims.length → bs.length = dims.length →
    gs.length = dims.length → ∃ r, speedVec d ss xs bs gs dims = some r ∧ r.length = dims.length := by
  induction dims with
  | nil =>
    intro ss xs bs gs h1 _ _ _
    exact ⟨ss, by simp [speedVec], h1⟩
  | cons d0 dims ih =>
    intro ss xs bs gs h1 h2 h3 h4
    match ss, xs, bs, gs, h1, h2, h3, h4 with
    | s :: ss, x :: xs, b :: bs, g :: gs, h1, h2, h3, h4 =>
      obtain ⟨r, hr, hl⟩ := ih ss xs bs gs (by simpa using h1) (by simpa using h2)
        (by simpa using h3) (by simpa using h4)
      exact ⟨_, by rw [speedVec, hr]; rfl, by simp [hl]⟩

theorem guide_mem {cv : Snap K → WithTop K} {leaders : List (Snap K)} (hne : leaders ≠ [])
    {d : SpeedDraw K} (hd : d.Valid) : ∃ g ∈ leaders, guide cv leaders d.pair = some g := by
  unfold guide
  by_cases h : 1 < leaders.length
  · obtain ⟨h2, h3, h4⟩ := hd _ h
    simp only [if_pos h]
    rw [if_neg h2, List.getElem?_eq_getElem h3, List.getElem?_eq_getElem h4]
    refine ⟨_, ?_, rfl⟩
    split_ifs <;> exact List.getElem_mem _
  · rw [if_neg h]
    cases leaders with
    | nil => exact absurd rfl hne
    | cons a l => exact ⟨a, by simp, rfl⟩

/-- The part of a particle that is the same after it moved. -/
theorem mapM_get {α β : Type*} {f : α → Option β} {l : List α} {r : List β} (h : l.mapM f = some r) :
    r.length = l.length ∧ ∀ (i : ℕ) (b : β), r[i]? = some b → ∃ a, l[i]? = some a ∧ f a = some b := by
  have hf := (mapM_option_eq_some f l r).1 h
  refine ⟨hf.length_eq.symm, ?_⟩
  clear h
  induction hf with
  | nil => intro i b h; simp at h
  | cons h1 _ ih =>
    intro i b hb
    cases i with
    | zero => simp only [List.getElem?_cons_zero, Option.some.injEq] at hb ⊢; subst hb; exact ⟨_, rfl, h1⟩
    | succ i => simpa using ih i b (by simpa using hb)

variable {dims : List (K × K)} {trim : List K → List K} {eta : K} {m : ℕ} {key : List K → A}
  {fit : List K → List K} {fa : Option (Archive A (List K))} {N : ℕ}

theorem evalSwarm_eq (T : OTask dims trim m key fit fa) (ps : List (Particle K)) :
    (evalSwarm key fit fa ps).2 = ps.map fun p => { p with objs := fit p.v } := by
  unfold evalSwarm
  simp only
  rw [(C54_calls key fit fa ps.length (ps.map Particle.v) T.right).2, List.map_map]
  induction ps with
  | nil => rfl
  | cons p ps ih => simp only [List.map_cons, List.zipWith_cons_cons, ih]; rfl

/-- The invariant behind C96. -/
structure OInv (dims : List (K × K)) (fit : List K → List K) (N : ℕ)
    (rounds : List (List (List K))) (s : OState K) : Prop where
  size : s.particles.length = N
  lsize : s.leadersSize = N
  box : ∀ p ∈ s.particles, InBox p.v dims ∧ p.speed.length = dims.length ∧ p.objs = fit p.v
  best : ∀ (i : ℕ) (p : Particle K), s.particles[i]? = some p → ∃ b, p.best = some (b, fit b) ∧
    (∃ r ∈ rounds, r[i]? = some b) ∧ ∀ r ∈ rounds, ∀ x, r[i]? = some x → ¬ LDom (fit x) (fit b)
  rbox : ∀ r ∈ rounds, ∀ x ∈ r, InBox x dims
  arch : s.archive ≠ [] ∧ ∀ x ∈ s.archive, x.objs = fit x.v ∧ ∃ r ∈ rounds, x.v ∈ r
  lead : s.leaders ≠ [] ∧ s.leaders.length ≤ N ∧
    ∀ x ∈ s.leaders, x.objs = fit x.v ∧ ∃ r ∈ rounds, x.v ∈ r

theorem omopsoInit_spec (T : OTask dims trim m key fit fa) (hN : 1 ≤ N) {population : List (List K)}
    (hn : population.length = N) (hbox : ∀ v ∈ population, InBox v dims) :
    ∃ s, omopsoInit trim eta m key fit fa population = some s ∧
      OInv dims fit N [s.particles.map Particle.v] s ∧
      s.particles.map Particle.v = population.map trim := by
  set ps0 := population.map fun x => (⟨trim x, (trim x).map fun _ => 0, none, []⟩ : Particle K)
    with hps0
  have hev := evalSwarm_eq T ps0
  set ps1 := ps0.map fun p => { p with objs := fit p.v } with hps1
  have hne : ps1 ≠ [] := by
    intro e
    have := congrArg List.length e
    simp [hps1, hps0, hn] at this
    omega
  obtain ⟨o1, o2, o3, o4⟩ := offer_all eta m hN ps1 ([], [], 0) (by simp) (Or.inl ⟨rfl, rfl⟩)
  obtain ⟨o5, o6⟩ := o4 (Or.inl hne)
  set r := ps1.foldl (offer eta m N) ([], [], 0) with hr
  have hperm := crowding_perm (snapObjs m) r.2.1
  have hval : (ps1.map fun p => { p with best := some (p.v, p.objs) }).map Particle.v
      = population.map trim := by
    simp only [hps1, hps0, List.map_map]
    rfl
  have hmemv : ∀ p ∈ ps1, p.v ∈ population.map trim ∧ InBox p.v dims ∧ p.objs = fit p.v ∧
      p.speed.length = dims.length := by
    intro p hp
    obtain ⟨q, hq, rfl⟩ := List.mem_map.1 hp
    obtain ⟨x, hx, rfl⟩ := List.mem_map.1 hq
    have hb := T.keeps x (hbox x hx)
    exact ⟨List.mem_map_of_mem hx, hb, rfl, by simp [hb.length_eq]⟩
  have hsnap : ∀ x : Snap K, (∃ p ∈ ps1, x.v = p.v ∧ x.objs = p.objs) →
      x.objs = fit x.v ∧ ∃ r ∈ [population.map trim], x.v ∈ r := by
    rintro x ⟨p, hp, h1, h2⟩
    obtain ⟨h3, -, h4, -⟩ := hmemv p hp
    exact ⟨by rw [h2, h4, h1], _, List.mem_singleton.2 rfl, by rw [h1]; exact h3⟩
  refine ⟨⟨ps1.map fun p => { p with best := some (p.v, p.objs) }, r.1, (crowding (snapObjs m) r.2.1).1,
    (crowding (snapObjs m) r.2.1).2, N, (evalSwarm key fit fa ps0).1, r.2.2⟩, ?_, ?_, hval⟩
  · unfold omopsoInit
    simp only [← hps0, hev, hn, ← hr]
    rw [if_neg o5]
  · simp only
    rw [hval]
    refine ⟨by simp [hps1, hps0, hn], rfl, ?_, ?_, ?_, ⟨o6, ?_⟩, ?_, ?_, ?_⟩
    · intro p hp
      obtain ⟨q, hq, rfl⟩ := List.mem_map.1 hp
      obtain ⟨-, h1, h2, h3⟩ := hmemv q hq
      exact ⟨h1, h3, h2⟩
    · intro i p hp
      simp only [List.getElem?_map, Option.map_eq_some_iff] at hp
      obtain ⟨q, hq, rfl⟩ := hp
      obtain ⟨-, -, h2, -⟩ := hmemv q (List.mem_of_getElem? hq)
      have hqi : (population.map trim)[i]? = some q.v := by
        rw [← hval]
        simp [hq]
      refine ⟨q.v, by simp [h2], ⟨_, List.mem_singleton.2 rfl, hqi⟩, ?_⟩
      intro r hr x hx
      rw [List.mem_singleton.1 hr, hqi] at hx
      obtain rfl := Option.some.inj hx
      exact LDom_irrefl _
    · intro r hr x hx
      rw [List.mem_singleton.1 hr] at hx
      obtain ⟨y, hy, rfl⟩ := List.mem_map.1 hx
      exact T.keeps y (hbox y hy)
    · intro x hx
      exact hsnap x ((o1 x hx).resolve_left (by simp))
    · intro e
      simp only at e
      rw [e] at hperm
      exact o5 hperm.symm.eq_nil
    · simp only
      rw [hperm.length_eq]
      exact o3
    · intro x hx
      exact hsnap x ((o2 x (hperm.mem_iff.1 hx)).resolve_left (by simp))

theorem OInv.step (T : OTask dims trim m key fit fa) (hN : 1 ≤ N) {ds : ℕ → SpeedDraw K}
    (hds : ∀ i, (ds i).Valid) {rounds : List (List (List K))} {s : OState K}
    (h : OInv dims fit N rounds s) :
    ∃ s', omopsoStep dims trim eta m key fit fa ds s = some s' ∧
      OInv dims fit N (s'.particles.map Particle.v :: rounds) s' := by
  have hd : ∀ p ∈ s.particles, ∀ d ∈ dims, d.1 ≤ d.2 := by
    intro p hp d hdm
    obtain ⟨i, hi, rfl⟩ := List.getElem_of_mem hdm
    have hb := (h.box p hp).1
    have := List.Forall₂.get hb (by rw [hb.length_eq]; exact hi) hi
    exact this.1.trans this.2
  -- speeds
  obtain ⟨ps1, e1, l1, q1⟩ := mapM_total (P := fun p : Particle K => p.speed.length = dims.length)
    (f := fun p : Particle K × ℕ => speedOne dims s.cv s.leaders (ds p.2) p.1) s.particles.zipIdx (by
      rintro ⟨p, i⟩ hp
      have hpi := List.mem_zipIdx_iff_getElem?.1 hp
      simp only at hpi
      have hpm := List.mem_of_getElem? hpi
      obtain ⟨hb, hsp, -⟩ := h.box p hpm
      obtain ⟨b, hbest, ⟨r, hr, hrb⟩, -⟩ := h.best i p hpi
      obtain ⟨g, hg, hge⟩ := guide_mem (cv := s.cv) h.lead.1 (hds i)
      obtain ⟨-, r', hr', hgr⟩ := h.lead.2.2 g hg
      obtain ⟨sp, hs1, hs2⟩ := speedVec_length (ds i) dims p.speed p.v b g.v hsp hb.length_eq
        (h.rbox r hr b (List.mem_of_getElem? hrb)).length_eq (h.rbox r' hr' g.v hgr).length_eq
      exact ⟨{ p with speed := sp }, by simp only [speedOne, hge, hbest, hs1, Option.map_some], hs2⟩)
  obtain ⟨-, g1⟩ := mapM_get e1
  have k1 : ∀ (i : ℕ) (p : Particle K), ps1[i]? = some p → ∃ p0 : Particle K, s.particles[i]? = some p0 ∧ p.v = p0.v ∧
      p.best = p0.best := by
    intro i p hp
    obtain ⟨⟨p0, j⟩, h0, h1⟩ := g1 i p hp
    rw [List.getElem?_zipIdx] at h0
    simp only [Option.map_eq_some_iff, Prod.mk.injEq] at h0
    obtain ⟨p0', h0, rfl, -⟩ := h0
    simp only [speedOne] at h1
    split at h1
    · rename_i g b hg hb
      rw [Option.map_eq_some_iff] at h1
      obtain ⟨sp, -, rfl⟩ := h1
      exact ⟨p0', h0, rfl, rfl⟩
    · cases h1
  rw [List.length_zipIdx, h.size] at l1
  -- moves
  obtain ⟨ps2, e2, l2, q2⟩ := mapM_total (P := fun p : Particle K => InBox p.v dims ∧
      p.speed.length = dims.length) (f := moveParticle dims trim) ps1 (by
      intro p hp
      obtain ⟨i, hi, rfl⟩ := List.getElem_of_mem hp
      obtain ⟨p0, hp0, hv, -⟩ := k1 i _ (List.getElem?_eq_getElem hi)
      have hm := List.mem_of_getElem? hp0
      obtain ⟨xs, ss, hm1, hm2, hm3, -⟩ := C29_move dims (hd p0 hm) ps1[i].v ps1[i].speed
        (by rw [hv]; exact (h.box p0 hm).1.length_eq) (q1 _ hp)
      exact ⟨_, by rw [moveParticle, hm1]; rfl, T.keeps _ hm2, hm3⟩)
  obtain ⟨-, g2⟩ := mapM_get e2
  have k2 : ∀ (i : ℕ) (p : Particle K), ps2[i]? = some p → ∃ p0 : Particle K, s.particles[i]? = some p0 ∧ p.best = p0.best := by
    intro i p hp
    obtain ⟨p1, h1, h2⟩ := g2 i p hp
    obtain ⟨p0, h3, -, h4⟩ := k1 i p1 h1
    simp only [moveParticle, Option.map_eq_some_iff] at h2
    obtain ⟨r, -, rfl⟩ := h2
    exact ⟨p0, h3, h4⟩
  rw [l1] at l2
  -- evaluation
  have hev := evalSwarm_eq T ps2
  set ps3 := ps2.map fun p => { p with objs := fit p.v } with hps3
  have hmem3 : ∀ p ∈ ps3, InBox p.v dims ∧ p.speed.length = dims.length ∧ p.objs = fit p.v := by
    intro p hp
    obtain ⟨q, hq, rfl⟩ := List.mem_map.1 hp
    exact ⟨(q2 q hq).1, (q2 q hq).2, rfl⟩
  have k3 : ∀ (i : ℕ) (p : Particle K), ps3[i]? = some p → ∃ p0 : Particle K, s.particles[i]? = some p0 ∧ p.best = p0.best := by
    intro i p hp
    simp only [hps3, List.getElem?_map, Option.map_eq_some_iff] at hp
    obtain ⟨q, hq, rfl⟩ := hp
    exact k2 i q hq
  have l3 : ps3.length = N := by simp [hps3, l2]
  -- personal bests
  obtain ⟨ps4, e4, l4, q4⟩ := mapM_total (P := fun p : Particle K => InBox p.v dims ∧
      p.speed.length = dims.length ∧ p.objs = fit p.v) (f := bestOne) ps3 (by
      intro p hp
      obtain ⟨i, hi, rfl⟩ := List.getElem_of_mem hp
      obtain ⟨p0, hp0, hb⟩ := k3 i _ (List.getElem?_eq_getElem hi)
      obtain ⟨b, hbest, -⟩ := h.best i p0 hp0
      rw [hbest] at hb
      unfold bestOne
      rw [hb]
      simp only
      have hm := hmem3 _ hp
      split_ifs
      · exact ⟨_, rfl, hm⟩
      · exact ⟨_, rfl, hm⟩)
  obtain ⟨-, g4⟩ := mapM_get e4
  have k4 : ∀ (i : ℕ) (p : Particle K), ps4[i]? = some p → ∃ p3 b, ps3[i]? = some p3 ∧ p.v = p3.v ∧
      (∃ p0 : Particle K, s.particles[i]? = some p0 ∧ p0.best = some (b, fit b)) ∧
      (LDom (fit p.v) (fit b) ∧ p.best = some (p.v, fit p.v) ∨
        ¬ LDom (fit p.v) (fit b) ∧ p.best = some (b, fit b)) := by
    intro i p hp
    obtain ⟨p3, h3, hb⟩ := g4 i p hp
    obtain ⟨p0, hp0, hbe⟩ := k3 i p3 h3
    obtain ⟨b, hbest, -⟩ := h.best i p0 hp0
    rw [hbest] at hbe
    have ho := (hmem3 p3 (List.mem_of_getElem? h3)).2.2
    have hdom : (omopsoDominates (0 : K) p3.objs (fit b)).getD false = true ↔
        LDom (fit p3.v) (fit b) := by
      rw [ho]
      have := domEta_zero (obj := fit) (fun x y => by rw [T.values, T.values]) p3.v b
      simpa [domEta] using this
    unfold bestOne at hb
    rw [hbe] at hb
    simp only at hb
    split_ifs at hb with hc
    · obtain rfl := Option.some.inj hb
      exact ⟨p3, b, h3, rfl, ⟨p0, hp0, hbest⟩, Or.inl ⟨hdom.1 hc, by simp [ho]⟩⟩
    · obtain rfl := Option.some.inj hb
      exact ⟨p3, b, h3, rfl, ⟨p0, hp0, hbest⟩, Or.inr ⟨fun h => hc (hdom.2 h), hbe⟩⟩
  have hval : ps4.map Particle.v = ps3.map Particle.v := by
    apply List.ext_getElem?
    intro i
    simp only [List.getElem?_map]
    rcases hi : ps4[i]? with _ | p
    · rw [List.getElem?_eq_none_iff] at hi
      rw [List.getElem?_eq_none (by omega)]
    · obtain ⟨p3, -, h1, h2, -⟩ := k4 i p hi
      simp [h1, h2]
  -- archives
  obtain ⟨o1, o2, o3, o4⟩ := offer_all eta m hN ps3 (s.archive, s.leaders, s.nextId) h.lead.2.1
    (Or.inr ⟨h.lead.1, h.arch.1⟩)
  obtain ⟨o5, o6⟩ := o4 (Or.inr h.lead.1)
  set r := ps3.foldl (offer eta m N) (s.archive, s.leaders, s.nextId) with hr
  have hperm := crowding_perm (snapObjs m) r.2.1
  have hsnap : ∀ x : Snap K, ((x.objs = fit x.v ∧ ∃ r ∈ rounds, x.v ∈ r) ∨
      ∃ p ∈ ps3, x.v = p.v ∧ x.objs = p.objs) →
      x.objs = fit x.v ∧ ∃ r ∈ ps4.map Particle.v :: rounds, x.v ∈ r := by
    rintro x (⟨h1, r, hr, hx⟩ | ⟨p, hp, h1, h2⟩)
    · exact ⟨h1, r, List.mem_cons_of_mem _ hr, hx⟩
    · refine ⟨by rw [h2, (hmem3 p hp).2.2, h1], _, List.mem_cons_self, ?_⟩
      rw [hval, h1]
      exact List.mem_map_of_mem hp
  refine ⟨⟨ps4, r.1, (crowding (snapObjs m) r.2.1).1, (crowding (snapObjs m) r.2.1).2, s.leadersSize,
    s.cost + (evalSwarm key fit fa ps2).1, r.2.2⟩, ?_, ?_⟩
  · unfold omopsoStep
    simp only [e1, e2, hev, e4, h.lsize, ← hr]
    rw [if_neg o5]
  · refine ⟨l4.trans l3, h.lsize, q4, ?_, ?_, ⟨o6, ?_⟩, ?_, ?_, ?_⟩
    · intro i p hp
      obtain ⟨p3, b, h3, hv, ⟨p0, hp0, hbest⟩, hcase⟩ := k4 i p hp
      obtain ⟨b', hb', ⟨r, hr, hrb⟩, hno⟩ := h.best i p0 hp0
      rw [hbest] at hb'
      obtain rfl : b = b' := by
        have := Option.some.inj hb'
        exact (Prod.mk.inj this).1
      have hpv : (ps4.map Particle.v)[i]? = some p.v := by simp [hp]
      rcases hcase with ⟨hd, hbst⟩ | ⟨hd, hbst⟩
      · refine ⟨p.v, hbst, ⟨_, List.mem_cons_self, hpv⟩, ?_⟩
        intro r' hr' x hx hdx
        rcases List.mem_cons.1 hr' with rfl | hr'
        · simp only at hx
          rw [hpv] at hx
          obtain rfl := Option.some.inj hx
          exact LDom_irrefl _ hdx
        · exact hno r' hr' x hx (LDom_trans hdx hd)
      · refine ⟨b, hbst, ⟨r, List.mem_cons_of_mem _ hr, hrb⟩, ?_⟩
        intro r' hr' x hx
        rcases List.mem_cons.1 hr' with rfl | hr'
        · simp only at hx
          rw [hpv] at hx
          obtain rfl := Option.some.inj hx
          exact hd
        · exact hno r' hr' x hx
    · intro r' hr' x hx
      rcases List.mem_cons.1 hr' with rfl | hr'
      · obtain ⟨p, hp, rfl⟩ := List.mem_map.1 hx
        exact (q4 p hp).1
      · exact h.rbox r' hr' x hx
    · intro x hx
      refine hsnap x ?_
      rcases o1 x hx with hx | hx
      · exact Or.inl (h.arch.2 x hx)
      · exact Or.inr hx
    · intro e
      simp only at e
      rw [e] at hperm
      exact o5 hperm.symm.eq_nil
    · simp only
      rw [hperm.length_eq]
      exact o3
    · intro x hx
      refine hsnap x ?_
      rcases o2 x (hperm.mem_iff.1 hx) with hx | hx
      · exact Or.inl (h.lead.2.2 x hx)
      · exact Or.inr hx

theorem OReach.inv (T : OTask dims trim m key fit fa) (hN : 1 ≤ N) {rounds : List (List (List K))}
    {s : OState K} (h : OReach dims trim eta m key fit fa N rounds s) : OInv dims fit N rounds s := by
  induction h with
  | start population hn hbox s h =>
    obtain ⟨t, ht, h1, -⟩ := omopsoInit_spec (eta := eta) T hN hn hbox
    obtain rfl : s = t := Option.some.inj (h.symm.trans ht)
    exact h1
  | step ds hds rounds s s' hs h ih =>
    obtain ⟨t, ht, h1⟩ := ih.step (eta := eta) T hN hds
    obtain rfl : s' = t := Option.some.inj (h.symm.trans ht)
    exact h1

/-- **C96.** Started with at least one vector the constructor does not raise, and no step does. All
particles are always in the box. The result is never empty; it consists of positions that particles
have had, with their true objectives. The personal best of a particle is a position it has had
and no position it has had dominates it. -/
theorem C96_omopso (T : OTask dims trim m key fit fa) (hN : 1 ≤ N) :
    (∀ population : List (List K), population.length = N → (∀ v ∈ population, InBox v dims) →
      ∃ s, omopsoInit trim eta m key fit fa population = some s ∧
        s.particles.map Particle.v = population.map trim) ∧
    ∀ rounds s, OReach dims trim eta m key fit fa N rounds s →
      (∀ r ∈ rounds, ∀ x ∈ r, InBox x dims) ∧
      s.particles.length = N ∧ s.leaders.length ≤ N ∧
      omopsoFinal s ≠ [] ∧ (∀ v ∈ omopsoFinal s, InBox v dims ∧ ∃ r ∈ rounds, v ∈ r) ∧
      (∀ x ∈ s.archive, x.objs = fit x.v) ∧
      (∀ (i : ℕ) (p : Particle K), s.particles[i]? = some p → ∃ b, p.best = some (b, fit b) ∧
        (∃ r ∈ rounds, r[i]? = some b) ∧
        ∀ r ∈ rounds, ∀ x, r[i]? = some x → ¬ LDom (fit x) (fit b)) ∧
      ∀ ds : ℕ → SpeedDraw K, (∀ i, (ds i).Valid) →
        ∃ s', omopsoStep dims trim eta m key fit fa ds s = some s' := by
  refine ⟨?_, ?_⟩
  · intro population hn hbox
    obtain ⟨s, h1, -, h2⟩ := omopsoInit_spec (eta := eta) T hN hn hbox
    exact ⟨s, h1, h2⟩
  · intro rounds s h
    have hi := h.inv T hN
    refine ⟨hi.rbox, hi.size, hi.lead.2.1, ?_, ?_, fun x hx => (hi.arch.2 x hx).1, hi.best, ?_⟩
    · intro e
      exact hi.arch.1 (List.map_eq_nil_iff.1 e)
    · intro v hv
      obtain ⟨x, hx, rfl⟩ := List.mem_map.1 hv
      obtain ⟨-, r, hr, hxr⟩ := hi.arch.2 x hx
      exact ⟨hi.rbox r hr _ hxr, r, hr, hxr⟩
    · intro ds hds
      obtain ⟨s', h1, -⟩ := hi.step (eta := eta) T hN hds
      exact ⟨s', h1⟩

/-- **C96.** An empty population makes the constructor raise. -/
theorem C96_empty (trim : List K → List K) (eta : K) (m : ℕ) (key : List K → A)
    (fit : List K → List K) (fa : Option (Archive A (List K))) :
    omopsoInit trim eta m key fit fa [] = none := by
  simp [omopsoInit, evalSwarm]

/-! ## Costs -/

theorem omopsoStep_cost {ds : ℕ → SpeedDraw K} {s s' : OState K} (hne : s.particles ≠ [])
    (h : omopsoStep dims trim eta m key fit none ds s = some s') :
    s'.cost = s.cost + s.particles.length := by
  simp only [omopsoStep] at h
  split at h
  · cases h
  rename_i ps1 h1
  split at h
  · cases h
  rename_i ps2 h2
  split at h
  · cases h
  split_ifs at h
  obtain rfl := Option.some.inj h
  have l : ps2.length = s.particles.length := by
    rw [(mapM_get h2).1, (mapM_get h1).1, List.length_zipIdx]
  simp only [evalSwarm]
  rw [chargeAll_none, l]
  intro e
  have := congrArg List.length e
  rw [List.length_map, l, List.length_nil] at this
  exact hne (List.eq_nil_of_length_eq_zero this)

theorem omopsoInit_cost {population : List (List K)} {s : OState K}
    (h : omopsoInit trim eta m key fit none population = some s) : s.cost = population.length := by
  simp only [omopsoInit] at h
  split_ifs at h with h1
  obtain rfl := Option.some.inj h
  simp only [evalSwarm]
  rw [chargeAll_none, List.length_map]
  intro e
  rw [List.map_eq_nil_iff, List.map_eq_nil_iff] at e
  apply h1
  simp [e, evalSwarm]

/-- **C96.** A budget simulation with OMOPSO stores a result for every budget: at least one vector, all of
them in the box, at no less than the cost asked for. -/
theorem C96_budget (T : OTask dims trim m key fit none) (hN : 1 ≤ N) (ds : ℕ → ℕ → SpeedDraw K)
    (hds : ∀ n i, (ds n i).Valid) (population : List (List K)) (hn : population.length = N)
    (hbox : ∀ v ∈ population, InBox v dims) (budgets : List ℤ) (fuel : ℕ)
    (hfuel : ∀ b ∈ budgets, b ≤ fuel) :
    ∃ s, omopsoInit trim eta m key fit none population = some s ∧
    ∃ res o', budgetWorker (omopsoDriver dims trim eta m key fit none ds) fuel budgets
        ⟨some (0, s), 0⟩ = some (res, o') ∧
      res.map (fun r => r.name) = budgets ∧
      ∀ r ∈ res, r.name ≤ r.cost ∧ ∃ p, r.pop = some p ∧ p ≠ [] ∧ ∀ v ∈ p, InBox v dims := by
  obtain ⟨s0, h0, hi, -⟩ := omopsoInit_spec (eta := eta) T hN hn hbox
  refine ⟨s0, h0, ?_⟩
  refine optDriver_worker (P := fun p : List (List K) => p ≠ [] ∧ ∀ v ∈ p, InBox v dims)
    (Inv := fun s => ∃ rounds, OInv dims fit N rounds s) ?_ budgets ?_ fuel hfuel 0 _ ⟨_, hi⟩ 0
  · rintro n s ⟨rounds, h⟩
    obtain ⟨s', h1, h2⟩ := h.step (eta := eta) T hN (hds n)
    refine ⟨s', h1, ⟨_, h2⟩, ?_⟩
    rw [omopsoStep_cost _ h1, h.size]
    · omega
    · intro e
      have := h.size
      rw [e, List.length_nil] at this
      omega
  · rintro n s b - ⟨rounds, h⟩ -
    refine ⟨s, _, rfl, ⟨rounds, h⟩, ⟨?_, ?_⟩, le_rfl⟩
    · intro e
      exact h.arch.1 (List.map_eq_nil_iff.1 e)
    · intro v hv
      obtain ⟨x, hx, rfl⟩ := List.mem_map.1 hv
      obtain ⟨-, r, hr, hxr⟩ := h.arch.2 x hx
      exact h.rbox r hr _ hxr

/-- **C96.** What the steps of OMOPSO cost: `N` evaluations each, and `N` at the start; so a run
exceeds its budget by less than `N`. -/
theorem C96_cost (T : OTask dims trim m key fit none) (hN : 1 ≤ N) (ds : ℕ → ℕ → SpeedDraw K)
    (hds : ∀ n i, (ds n i).Valid) (population : List (List K)) (hn : population.length = N)
    (hbox : ∀ v ∈ population, InBox v dims) (s0 : OState K)
    (h0 : omopsoInit trim eta m key fit none population = some s0) (k : ℕ) :
    (omopsoDriver dims trim eta m key fit none ds).cost
      ((omopsoDriver dims trim eta m key fit none ds).step^[k] (some (0, s0))) = N + k * N := by
  obtain ⟨t, ht, hi, -⟩ := omopsoInit_spec (eta := eta) T hN hn hbox
  obtain rfl : s0 = t := Option.some.inj (h0.symm.trans ht)
  have key' : ∃ s : OState K, (omopsoDriver dims trim eta m key fit none ds).step^[k]
      (some (0, s0)) = some (k, s) ∧ (∃ rounds, OInv dims fit N rounds s) ∧ s.cost = N + k * N := by
    induction k with
    | zero => exact ⟨_, rfl, ⟨_, hi⟩, by rw [omopsoInit_cost h0, hn]; omega⟩
    | succ k ih =>
      obtain ⟨s, h1, ⟨rounds, h2⟩, h3⟩ := ih
      obtain ⟨s', h4, h5⟩ := h2.step (eta := eta) T hN (hds k)
      refine ⟨s', ?_, ⟨_, h5⟩, ?_⟩
      · rw [Function.iterate_succ_apply', h1]
        simp [omopsoDriver, optDriver, h4]
      · rw [omopsoStep_cost _ h4, h3, h2.size, Nat.succ_mul]
        · omega
        · intro e
          have := h2.size
          rw [e, List.length_nil] at this
          omega
  obtain ⟨s, h1, -, h4⟩ := key'
  rw [h1]
  show (s.cost : ℤ) = _
  rw [h4]
  push_cast
  rfl

/-- Two particles, one step: each moves by `w * 0 + c1 * r1 * 0 + c2 * r2 * (guide - x)`. -/
example : ((omopsoInit id (3 / 400) 2 id exFit none [[0], [1 / 2]]).bind
      (omopsoStep [(0, 1)] id (3 / 400) 2 id exFit none
        (fun _ => ⟨fun _ => (1, 0), 1, 1 / 4, 2, 2, 1⟩))).map
      (fun s => (s.particles.map (fun p => p.v), omopsoFinal s, s.leaders.map Snap.v, s.cost))
    = some ([[0], [1 / 4]], [[0], [1 / 2], [1 / 4]], [[1 / 4], [0]], 4) := by decide +kernel

end

end Evogil.Swarm
