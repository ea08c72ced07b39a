import Verif.Model.RoundedSwarm
import Verif.Props.Swarm
import Verif.Props.RoundedMoves
import Verif.Lemmas.RoundedRun
import Verif.Props.Rounded

/-!
# C144: complete runs of OMOPSO in floating point
-/

set_option linter.unusedSectionVars false

namespace Evogil.Rounded.Swarm

open Evaluation Generations Spec
open Evogil.Omopso (archiveAdd eqvObj addLoop addLoop_mem addLoop_length)
open Binary64 Rounded.Run
open Evogil.Swarm (Snap Particle OState snapObjs evalSwarm SpeedDraw guide archiveAdd_mem guide_mem mapM_get
  omopsoFinal)

section archive
variable {ι K : Type*} [DecidableEq ι] [Field K] [LinearOrder K] [IsStrictOrderedRing K] [FloorRing K]

theorem crowdStep_perm (fl : K → K) (o : ι → K) (st : List ι × (ι → WithTop K)) :
    (crowdStep fl o st).1 = pySorted o st.1 := by
  unfold crowdStep
  simp only
  split
  · rename_i h; rw [h]
  · rename_i h; rw [h]

theorem crowding_perm fl (objs : List (ι → K)) (archive : List ι) :
    (crowding fl objs archive).1.Perm archive := by
  unfold crowding
  induction objs using List.reverseRecOn with
  | nil => simp
  | append_singleton objs o ih =>
    rw [List.foldl_append]
    simp only [List.foldl_cons, List.foldl_nil]
    rw [crowdStep_perm]
    exact (pySorted_perm _ _).trans ih

theorem prune_length (fl : K → K) (objs : List (ι → K)) (archive : List ι) (h : archive ≠ []) :
    (prune fl objs archive).length + 1 = archive.length := by
  have hp := crowding_perm fl objs archive
  unfold prune
  have hne : (crowding fl objs archive).1 ≠ [] := fun e => h (by simpa [e] using hp.symm)
  obtain ⟨w, hw⟩ := pyMaxBy_isSome (crowding fl objs archive).2 hne
  rw [hw]
  simp only
  have hmem := (pyMaxBy_mem hw).1
  have := List.length_erase_add_one hmem
  rw [this, hp.length_eq]

/-- The pruned archive keeps only members of the archive. -/
theorem prune_subset (fl : K → K) (objs : List (ι → K)) (archive : List ι) :
    ∀ x ∈ prune fl objs archive, x ∈ archive := by
  intro x hx
  have hp := crowding_perm fl objs archive
  unfold prune at hx
  cases hw : pyMaxBy (crowding fl objs archive).2 (crowding fl objs archive).1 with
  | none => rw [hw] at hx; exact hp.mem_iff.1 hx
  | some w => rw [hw] at hx; exact hp.mem_iff.1 (List.mem_of_mem_erase hx)

theorem innerCrowd_other (fl : K → K) (o : ι → K) (mn mx : K) : ∀ (l : List ι) (cv : ι → WithTop K) (x : ι),
    x ∉ l.tail → innerCrowd fl o mn mx cv l x = cv x := by
  intro l
  induction l with
  | nil => intros; rfl
  | cons a l ih =>
    intro cv x hx
    match l with
    | [] => rfl
    | [b] => rfl
    | b :: c :: rest =>
      rw [innerCrowd, ih]
      · rw [Function.update_of_ne]
        rintro rfl
        simp at hx
      · simp at hx ⊢
        tauto

/-- The member with the smallest value of the objective handled last has infinite crowding value
and stands first. -/
theorem crowdStep_first (fl : K → K) (o : ι → K) (st : List ι × (ι → WithTop K)) (hnd : st.1.Nodup)
    (first : ι) (rest : List ι) (h : (crowdStep fl o st).1 = first :: rest) :
    (crowdStep fl o st).2 first = ⊤ := by
  have hs := crowdStep_perm fl o st
  have hnd' : (pySorted o st.1).Nodup := (pySorted_perm o st.1).nodup_iff.2 hnd
  rw [h] at hs
  rw [← hs] at hnd'
  unfold crowdStep
  simp only
  rw [← hs]
  simp only
  rw [innerCrowd_other _ _ _ _ _ _ _ (by simpa using (List.nodup_cons.1 hnd').1)]
  by_cases hl : first = (first :: rest).getLast (by simp)
  · rw [← hl]; simp
  · rw [Function.update_of_ne hl]; simp

/-- **C144.** Whatever the rounding does, pruning removes a member with the smallest value of the last objective. -/
theorem C144_prune (fl : K → K) (objs : List (ι → K)) (o : ι → K) (archive : List ι)
    (hnd : archive.Nodup) (hne : archive ≠ []) :
    ∃ removed ∈ archive, (∀ x ∈ archive, o removed ≤ o x) ∧
      (prune fl (objs ++ [o]) archive).Perm (archive.erase removed) := by
  have hp := crowding_perm fl (objs ++ [o]) archive
  have hnd0 : (crowding fl objs archive).1.Nodup := (crowding_perm fl objs archive).nodup_iff.2 hnd
  have hstep : crowding fl (objs ++ [o]) archive = crowdStep fl o (crowding fl objs archive) := by
    unfold crowding
    rw [List.foldl_append]
    rfl
  cases hl : (crowding fl (objs ++ [o]) archive).1 with
  | nil => rw [hl] at hp; exact absurd (by simpa using hp.symm) hne
  | cons first rest =>
    have htop := crowdStep_first fl o (crowding fl objs archive) hnd0 first rest (by rw [← hstep]; exact hl)
    rw [← hstep] at htop
    have hsort : (crowding fl (objs ++ [o]) archive).1 = pySorted o (crowding fl objs archive).1 := by
      rw [hstep, crowdStep_perm]
    refine ⟨first, hp.mem_iff.1 (by rw [hl]; simp), ?_, ?_⟩
    · intro x hx
      have hx' : x ∈ first :: rest := by rw [← hl]; exact hp.mem_iff.2 hx
      have hs := pySorted_sorted o (crowding fl objs archive).1
      rw [← hsort, hl, List.pairwise_cons] at hs
      rcases List.mem_cons.1 hx' with rfl | hx'
      · exact le_rfl
      · exact hs.1 x hx'
    · unfold prune
      obtain ⟨w, hw⟩ := pyMaxBy_isSome (crowding fl (objs ++ [o]) archive).2
        (l := (crowding fl (objs ++ [o]) archive).1) (by rw [hl]; simp)
      have hwf : w = first := by
        obtain ⟨pre, post, e, h1, h2⟩ := pyMaxBy_spec hw
        cases pre with
        | nil => rw [hl] at e; exact (List.cons.inj e).1.symm
        | cons b pre =>
          rw [hl] at e
          have hb := (List.cons.inj e).1
          have := h1 b (by simp)
          rw [← hb, htop] at this
          exact absurd this (not_lt.2 le_top)
      rw [hw, hwf]
      exact hp.erase first

end archive

section
variable {K : Type*} [Field K] [LinearOrder K] [IsStrictOrderedRing K] [FloorRing K] {A : Type*}

theorem leaderAdd_mem (fl : K → K) {ι : Type*} [DecidableEq ι] (dom eqv : ι → ι → Bool) (objs : List (ι → K))
    {size : ℕ} (hsize : 1 ≤ size) (a : List ι) (ha : a.length ≤ size) (p : ι) :
    (∀ x ∈ (leaderAdd fl dom eqv objs size a p).2, x = p ∨ x ∈ a) ∧
      (leaderAdd fl dom eqv objs size a p).2 ≠ [] ∧ (leaderAdd fl dom eqv objs size a p).2.length ≤ size ∧
      (a = [] → (leaderAdd fl dom eqv objs size a p).1 = true) := by
  obtain ⟨h1, h2⟩ := archiveAdd_mem dom eqv a p
  obtain ⟨h3, h4⟩ := addLoop_length (dom := dom) (eqv := eqv) p a.length [] a rfl
  have h3' : (archiveAdd dom eqv a p).2.length ≤ a.length + 1 := by
    simpa [archiveAdd] using h3
  have hempty : a = [] → (leaderAdd fl dom eqv objs size a p).1 = true := by
    rintro rfl
    have e : (archiveAdd dom eqv [] p).1 = true := rfl
    unfold leaderAdd
    simp only
    rw [e]
    split_ifs <;> rfl
  unfold leaderAdd at hempty ⊢
  simp only at hempty ⊢
  split_ifs at hempty ⊢ with h
  · have h5 := prune_length fl objs _ h2
    simp only [Bool.and_eq_true, decide_eq_true_eq] at h
    refine ⟨fun x hx => h1 x (prune_subset fl objs _ x hx), ?_, by simp only; omega, hempty⟩
    intro e
    simp only at e
    rw [e, List.length_nil] at h5
    omega
  · refine ⟨h1, h2, ?_, hempty⟩
    by_contra hc
    apply h
    have hgt : (archiveAdd dom eqv a p).2.length > size := by omega
    rw [Bool.and_eq_true, decide_eq_true_eq]
    refine ⟨?_, hgt⟩
    by_contra hf
    have hf' : (addLoop dom eqv p [] a).1 = false := by simpa [archiveAdd] using hf
    have := h4 hf'
    simp only [List.length_nil, Nat.zero_add] at this
    unfold archiveAdd at hgt
    omega

/-- Offering particles: members are old ones or copies of particles; if something was offered or there
already, nothing is empty. -/
theorem offer_all (fl : K → K) (eta : K) (m : ℕ) {size : ℕ} (hsize : 1 ≤ size) (ps : List (Particle K)) :
    ∀ (st : List (Snap K) × List (Snap K) × ℕ), st.2.1.length ≤ size →
      (st.2.1 = [] ∧ st.1 = [] ∨ st.2.1 ≠ [] ∧ st.1 ≠ []) →
      (∀ x ∈ (ps.foldl (offer fl eta m size) st).1, x ∈ st.1 ∨ ∃ p ∈ ps, x.v = p.v ∧ x.objs = p.objs) ∧
      (∀ x ∈ (ps.foldl (offer fl eta m size) st).2.1,
        x ∈ st.2.1 ∨ ∃ p ∈ ps, x.v = p.v ∧ x.objs = p.objs) ∧
      (ps.foldl (offer fl eta m size) st).2.1.length ≤ size ∧
      ((ps ≠ [] ∨ st.2.1 ≠ []) → (ps.foldl (offer fl eta m size) st).2.1 ≠ [] ∧
        (ps.foldl (offer fl eta m size) st).1 ≠ []) := by
  induction ps with
  | nil =>
    intro st hl hst
    refine ⟨fun x hx => Or.inl hx, fun x hx => Or.inl hx, hl, ?_⟩
    rintro (h | h)
    · exact absurd rfl h
    · rcases hst with hst | hst
      · exact absurd hst.1 h
      · exact hst
  | cons p ps ih =>
    intro st hl hst
    rw [List.foldl_cons]
    obtain ⟨l1, l2, l3, l4⟩ := leaderAdd_mem fl (fun x y => dominates fl 0 x.objs y.objs) (eqvObj Snap.objs)
      (snapObjs m) hsize st.2.1 hl ⟨st.2.2, p.v, p.objs⟩
    obtain ⟨a1, a2⟩ := archiveAdd_mem (fun x y => dominates fl eta x.objs y.objs) (eqvObj Snap.objs) st.1
      ⟨st.2.2 + 1, p.v, p.objs⟩
    have key : (offer fl eta m size st p).2.1.length ≤ size ∧
        ((offer fl eta m size st p).2.1 ≠ [] ∧ (offer fl eta m size st p).1 ≠ []) ∧
        (∀ x ∈ (offer fl eta m size st p).1, x ∈ st.1 ∨ x.v = p.v ∧ x.objs = p.objs) ∧
        (∀ x ∈ (offer fl eta m size st p).2.1, x ∈ st.2.1 ∨ x.v = p.v ∧ x.objs = p.objs) := by
      unfold offer
      simp only
      split_ifs with h
      · refine ⟨l3, ⟨l2, a2⟩, ?_, ?_⟩
        · intro x hx
          rcases a1 x hx with rfl | hx
          · exact Or.inr ⟨rfl, rfl⟩
          · exact Or.inl hx
        · intro x hx
          rcases l1 x hx with rfl | hx
          · exact Or.inr ⟨rfl, rfl⟩
          · exact Or.inl hx
      · refine ⟨l3, ⟨l2, ?_⟩, fun x hx => Or.inl hx, ?_⟩
        · rcases hst with hst | hst
          · exact absurd (l4 hst.1) h
          · exact hst.2
        · intro x hx
          rcases l1 x hx with rfl | hx
          · exact Or.inr ⟨rfl, rfl⟩
          · exact Or.inl hx
    obtain ⟨k1, k2, k3, k4⟩ := key
    obtain ⟨i1, i2, i3, i4⟩ := ih (offer fl eta m size st p) k1 (Or.inr k2)
    refine ⟨?_, ?_, i3, fun _ => i4 (Or.inr k2.1)⟩
    · intro x hx
      rcases i1 x hx with h | ⟨q, hq, h⟩
      · rcases k3 x h with h | h
        · exact Or.inl h
        · exact Or.inr ⟨p, by simp, h⟩
      · exact Or.inr ⟨q, List.mem_cons_of_mem _ hq, h⟩
    · intro x hx
      rcases i2 x hx with h | ⟨q, hq, h⟩
      · rcases k4 x h with h | h
        · exact Or.inl h
        · exact Or.inr ⟨p, by simp, h⟩
      · exact Or.inr ⟨q, List.mem_cons_of_mem _ hq, h⟩

/-- What the driver is given: a box of floats, a trim function that stays in it, `m` objectives whose values are floats,
and a fitness archive that, if there is one, holds the right values. -/
structure FTask (dims : List (K × K)) (trim : List K → List K) (m : ℕ) (key : List K → A)
    (fit : List K → List K) (fa : Option (Archive A (List K))) : Prop where
  box : FloatBox round64 dims
  keeps : ∀ v, FBox dims v → FBox dims (trim v)
  values : ∀ v, (fit v).length = m
  floats : ∀ v, Floats round64 v → Floats round64 (fit v)
  right : ∀ a, fa = some a → ∀ v f, a (key v) = some f → f = fit v

/-- The coefficients of a draw. -/
def turn (d : SpeedDraw K) : Turn K := ⟨d.w, d.c1, d.r1, d.c2, d.r2, 0, 0⟩

/-- The states of an OMOPSO driver started with `N` vectors of floats in the box, with the populations it has had (the
last one first). -/
inductive FReach (dims : List (K × K)) (trim : List K → List K) (eta : K) (m : ℕ) (key : List K → A)
    (fit : List K → List K) (fa : Option (Archive A (List K))) (N : ℕ) :
    List (List (List K)) → OState K → Prop
  | start (population : List (List K)) (hn : population.length = N)
      (hbox : ∀ v ∈ population, FBox dims v) (s : OState K)
      (h : init round64 trim eta m key fit fa population = some s) :
      FReach dims trim eta m key fit fa N [s.particles.map Particle.v] s
  | step (ds : ℕ → SpeedDraw K) (hds : ∀ i, (ds i).Valid ∧ Mild (turn (ds i))) (rounds : List (List (List K)))
      (s s' : OState K) (hs : FReach dims trim eta m key fit fa N rounds s)
      (h : step round64 dims trim eta m key fit fa ds s = some s') :
      FReach dims trim eta m key fit fa N (s'.particles.map Particle.v :: rounds) s'

/-- Without relaxation the comparison is exact. -/
theorem dominatesLoop_zero : ∀ (xs ys : List K) (b : Bool), Floats round64 xs →
    dominatesLoop round64 0 xs ys b = omopsoDominatesLoop 0 xs ys b := by
  intro xs
  induction xs with
  | nil => intro ys b _; cases ys <;> rfl
  | cons x xs ih =>
    intro ys b hx
    have h1 : round64 (x / round64 (1 + 0)) = x / (1 + 0) := by
      rw [add_zero, fl_one round64_isRounding, div_one]
      exact hx x (by simp)
    cases ys with
    | nil => rfl
    | cons y ys =>
      simp only [dominatesLoop, omopsoDominatesLoop, h1, ih ys _ fun z hz => hx z (by simp [hz])]

theorem dominates_zero {xs ys : List K} (hx : Floats round64 xs) (hl : xs.length = ys.length) :
    dominates round64 0 xs ys = true ↔ LDom xs ys := by
  rw [dominates, dominatesLoop_zero _ _ _ hx]
  have := C03_omopso xs ys hl.le
  unfold omopsoDominates at this
  rw [this, ← dominates_iff_LDom hl]
  rfl

variable {dims : List (K × K)} {trim : List K → List K} {eta : K} {m : ℕ} {key : List K → A}
  {fit : List K → List K} {fa : Option (Archive A (List K))} {N : ℕ}

theorem evalSwarm_eq (hright : ∀ a, fa = some a → ∀ v f, a (key v) = some f → f = fit v) (ps : List (Particle K)) :
    (evalSwarm key fit fa ps).2 = ps.map fun p => { p with objs := fit p.v } := by
  unfold evalSwarm
  simp only
  rw [(C54_calls key fit fa ps.length (ps.map Particle.v) hright).2, List.map_map]
  induction ps with
  | nil => rfl
  | cons p ps ih => simp only [List.map_cons, List.zipWith_cons_cons, ih]; rfl

/-- The invariant behind C144. -/
structure FInv (dims : List (K × K)) (fit : List K → List K) (N : ℕ)
    (rounds : List (List (List K))) (s : OState K) : Prop where
  size : s.particles.length = N
  lsize : s.leadersSize = N
  box : ∀ p ∈ s.particles, FBox dims p.v ∧ Slow round64 dims p.speed ∧ p.objs = fit p.v
  best : ∀ (i : ℕ) (p : Particle K), s.particles[i]? = some p → ∃ b, p.best = some (b, fit b) ∧
    (∃ r ∈ rounds, r[i]? = some b) ∧ ∀ r ∈ rounds, ∀ x, r[i]? = some x → ¬ LDom (fit x) (fit b)
  rbox : ∀ r ∈ rounds, ∀ x ∈ r, FBox dims x
  arch : s.archive ≠ [] ∧ ∀ x ∈ s.archive, x.objs = fit x.v ∧ ∃ r ∈ rounds, x.v ∈ r
  lead : s.leaders ≠ [] ∧ s.leaders.length ≤ N ∧
    ∀ x ∈ s.leaders, x.objs = fit x.v ∧ ∃ r ∈ rounds, x.v ∈ r

theorem init_spec (T : FTask dims trim m key fit fa) (hN : 1 ≤ N) {population : List (List K)}
    (hn : population.length = N) (hbox : ∀ v ∈ population, FBox dims v) :
    ∃ s, init round64 trim eta m key fit fa population = some s ∧
      FInv dims fit N [s.particles.map Particle.v] s ∧
      s.particles.map Particle.v = population.map trim := by
  set ps0 := population.map fun x => (⟨trim x, (trim x).map fun _ => 0, none, []⟩ : Particle K)
    with hps0
  have hev := evalSwarm_eq T.right ps0
  set ps1 := ps0.map fun p => { p with objs := fit p.v } with hps1
  have hne : ps1 ≠ [] := by
    intro e
    have := congrArg List.length e
    simp [hps1, hps0, hn] at this
    omega
  obtain ⟨o1, o2, o3, o4⟩ := offer_all round64 eta m hN ps1 ([], [], 0) (by simp) (Or.inl ⟨rfl, rfl⟩)
  obtain ⟨o5, o6⟩ := o4 (Or.inl hne)
  set r := ps1.foldl (offer round64 eta m N) ([], [], 0) with hr
  have hperm := crowding_perm round64 (snapObjs m) r.2.1
  have hval : (ps1.map fun p => { p with best := some (p.v, p.objs) }).map Particle.v
      = population.map trim := by
    simp only [hps1, hps0, List.map_map]
    rfl
  have hmemv : ∀ p ∈ ps1, p.v ∈ population.map trim ∧ FBox dims p.v ∧ p.objs = fit p.v ∧
      Slow round64 dims p.speed := by
    intro p hp
    obtain ⟨q, hq, rfl⟩ := List.mem_map.1 hp
    obtain ⟨x, hx, rfl⟩ := List.mem_map.1 hq
    have hb := T.keeps x (hbox x hx)
    exact ⟨List.mem_map_of_mem hx, hb, rfl, slow_atRest T.box hb.1⟩
  have hsnap : ∀ x : Snap K, (∃ p ∈ ps1, x.v = p.v ∧ x.objs = p.objs) →
      x.objs = fit x.v ∧ ∃ r ∈ [population.map trim], x.v ∈ r := by
    rintro x ⟨p, hp, h1, h2⟩
    obtain ⟨h3, -, h4, -⟩ := hmemv p hp
    exact ⟨by rw [h2, h4, h1], _, List.mem_singleton.2 rfl, by rw [h1]; exact h3⟩
  refine ⟨⟨ps1.map fun p => { p with best := some (p.v, p.objs) }, r.1, (crowding round64 (snapObjs m) r.2.1).1,
    (crowding round64 (snapObjs m) r.2.1).2, N, (evalSwarm key fit fa ps0).1, r.2.2⟩, ?_, ?_, hval⟩
  · unfold init
    simp only [← hps0, hev, hn, ← hr]
    rw [if_neg o5]
  · simp only
    rw [hval]
    refine ⟨by simp [hps1, hps0, hn], rfl, ?_, ?_, ?_, ⟨o6, ?_⟩, ?_, ?_, ?_⟩
    · intro p hp
      obtain ⟨q, hq, rfl⟩ := List.mem_map.1 hp
      obtain ⟨-, h1, h2, h3⟩ := hmemv q hq
      exact ⟨h1, h3, h2⟩
    · intro i p hp
      simp only [List.getElem?_map, Option.map_eq_some_iff] at hp
      obtain ⟨q, hq, rfl⟩ := hp
      obtain ⟨-, -, h2, -⟩ := hmemv q (List.mem_of_getElem? hq)
      have hqi : (population.map trim)[i]? = some q.v := by
        rw [← hval]
        simp [hq]
      refine ⟨q.v, by simp [h2], ⟨_, List.mem_singleton.2 rfl, hqi⟩, ?_⟩
      intro r hr x hx
      rw [List.mem_singleton.1 hr, hqi] at hx
      obtain rfl := Option.some.inj hx
      exact LDom_irrefl _
    · intro r hr x hx
      rw [List.mem_singleton.1 hr] at hx
      obtain ⟨y, hy, rfl⟩ := List.mem_map.1 hx
      exact T.keeps y (hbox y hy)
    · intro x hx
      exact hsnap x ((o1 x hx).resolve_left (by simp))
    · intro e
      simp only at e
      rw [e] at hperm
      exact o5 hperm.symm.eq_nil
    · simp only
      rw [hperm.length_eq]
      exact o3
    · intro x hx
      exact hsnap x ((o2 x (hperm.mem_iff.1 hx)).resolve_left (by simp))

theorem FInv.step (T : FTask dims trim m key fit fa) (hN : 1 ≤ N) {ds : ℕ → SpeedDraw K}
    (hds : ∀ i, (ds i).Valid ∧ Mild (turn (ds i))) {rounds : List (List (List K))} {s : OState K}
    (h : FInv dims fit N rounds s) :
    ∃ s', step round64 dims trim eta m key fit fa ds s = some s' ∧
      FInv dims fit N (s'.particles.map Particle.v :: rounds) s' := by
  -- flights
  obtain ⟨ps2, e2, l2, q2⟩ := mapM_total (P := fun p : Particle K => FBox dims p.v ∧ Slow round64 dims p.speed)
    (f := fun p : Particle K × ℕ => flyOne round64 dims trim s.cv s.leaders (ds p.2) p.1) s.particles.zipIdx (by
      rintro ⟨p, i⟩ hp
      have hpi := List.mem_zipIdx_iff_getElem?.1 hp
      simp only at hpi
      obtain ⟨hb, hsp, -⟩ := h.box p (List.mem_of_getElem? hpi)
      obtain ⟨b, hbest, ⟨r, hr, hrb⟩, -⟩ := h.best i p hpi
      obtain ⟨g, hg, hge⟩ := guide_mem (cv := s.cv) h.lead.1 (hds i).1
      obtain ⟨-, r', hr', hgr⟩ := h.lead.2.2 g hg
      obtain ⟨q, hq1, hq2, hq3, hq4⟩ := fly_ok (hds i).2 dims p.v p.speed b g.v T.box hb.1 hsp
        (h.rbox r hr b (List.mem_of_getElem? hrb)).1 (h.rbox r' hr' g.v hgr).1
      simp only [turn] at hq1
      exact ⟨{ p with v := trim q.1, speed := q.2 }, by simp only [flyOne, hge, hbest, hq1], T.keeps _ ⟨hq2, hq3⟩, hq4⟩)
  obtain ⟨-, g2⟩ := mapM_get e2
  have k2 : ∀ (i : ℕ) (p : Particle K), ps2[i]? = some p → ∃ p0 : Particle K, s.particles[i]? = some p0 ∧
      p.best = p0.best := by
    intro i p hp
    obtain ⟨⟨p0, j⟩, h0, h1⟩ := g2 i p hp
    rw [List.getElem?_zipIdx] at h0
    simp only [Option.map_eq_some_iff, Prod.mk.injEq] at h0
    obtain ⟨p0', h0, rfl, -⟩ := h0
    simp only [flyOne] at h1
    split at h1
    · split at h1
      · obtain rfl := Option.some.inj h1
        exact ⟨p0', h0, rfl⟩
      · cases h1
    · cases h1
  rw [List.length_zipIdx, h.size] at l2
  -- evaluation
  have hev := evalSwarm_eq T.right ps2
  set ps3 := ps2.map fun p => { p with objs := fit p.v } with hps3
  have hmem3 : ∀ p ∈ ps3, FBox dims p.v ∧ Slow round64 dims p.speed ∧ p.objs = fit p.v := by
    intro p hp
    obtain ⟨q, hq, rfl⟩ := List.mem_map.1 hp
    exact ⟨(q2 q hq).1, (q2 q hq).2, rfl⟩
  have k3 : ∀ (i : ℕ) (p : Particle K), ps3[i]? = some p → ∃ p0 : Particle K, s.particles[i]? = some p0 ∧
      p.best = p0.best := by
    intro i p hp
    simp only [hps3, List.getElem?_map, Option.map_eq_some_iff] at hp
    obtain ⟨q, hq, rfl⟩ := hp
    exact k2 i q hq
  have l3 : ps3.length = N := by simp [hps3, l2]
  -- personal bests
  obtain ⟨ps4, e4, l4, q4⟩ := mapM_total (P := fun p : Particle K => FBox dims p.v ∧
      Slow round64 dims p.speed ∧ p.objs = fit p.v) (f := bestOne round64) ps3 (by
      intro p hp
      obtain ⟨i, hi, rfl⟩ := List.getElem_of_mem hp
      obtain ⟨p0, hp0, hb⟩ := k3 i _ (List.getElem?_eq_getElem hi)
      obtain ⟨b, hbest, -⟩ := h.best i p0 hp0
      rw [hbest] at hb
      unfold bestOne
      rw [hb]
      simp only
      have hm := hmem3 _ hp
      split_ifs
      · exact ⟨_, rfl, hm⟩
      · exact ⟨_, rfl, hm⟩)
  obtain ⟨-, g4⟩ := mapM_get e4
  have k4 : ∀ (i : ℕ) (p : Particle K), ps4[i]? = some p → ∃ p3 b, ps3[i]? = some p3 ∧ p.v = p3.v ∧
      (∃ p0 : Particle K, s.particles[i]? = some p0 ∧ p0.best = some (b, fit b)) ∧
      (LDom (fit p.v) (fit b) ∧ p.best = some (p.v, fit p.v) ∨
        ¬ LDom (fit p.v) (fit b) ∧ p.best = some (b, fit b)) := by
    intro i p hp
    obtain ⟨p3, h3, hb⟩ := g4 i p hp
    obtain ⟨p0, hp0, hbe⟩ := k3 i p3 h3
    obtain ⟨b, hbest, -⟩ := h.best i p0 hp0
    rw [hbest] at hbe
    have ho := (hmem3 p3 (List.mem_of_getElem? h3)).2.2
    have hdom : dominates round64 0 p3.objs (fit b) = true ↔ LDom (fit p3.v) (fit b) := by
      rw [ho]
      exact dominates_zero (T.floats _ ((hmem3 p3 (List.mem_of_getElem? h3)).1).2) (by rw [T.values, T.values])
    unfold bestOne at hb
    rw [hbe] at hb
    simp only at hb
    split_ifs at hb with hc
    · obtain rfl := Option.some.inj hb
      exact ⟨p3, b, h3, rfl, ⟨p0, hp0, hbest⟩, Or.inl ⟨hdom.1 hc, by simp [ho]⟩⟩
    · obtain rfl := Option.some.inj hb
      exact ⟨p3, b, h3, rfl, ⟨p0, hp0, hbest⟩, Or.inr ⟨fun h => hc (hdom.2 h), hbe⟩⟩
  have hval : ps4.map Particle.v = ps3.map Particle.v := by
    apply List.ext_getElem?
    intro i
    simp only [List.getElem?_map]
    rcases hi : ps4[i]? with _ | p
    · rw [List.getElem?_eq_none_iff] at hi
      rw [List.getElem?_eq_none (by omega)]
    · obtain ⟨p3, -, h1, h2, -⟩ := k4 i p hi
      simp [h1, h2]
  -- archives
  obtain ⟨o1, o2, o3, o4⟩ := offer_all round64 eta m hN ps3 (s.archive, s.leaders, s.nextId) h.lead.2.1
    (Or.inr ⟨h.lead.1, h.arch.1⟩)
  obtain ⟨o5, o6⟩ := o4 (Or.inr h.lead.1)
  set r := ps3.foldl (offer round64 eta m N) (s.archive, s.leaders, s.nextId) with hr
  have hperm := crowding_perm round64 (snapObjs m) r.2.1
  have hsnap : ∀ x : Snap K, ((x.objs = fit x.v ∧ ∃ r ∈ rounds, x.v ∈ r) ∨
      ∃ p ∈ ps3, x.v = p.v ∧ x.objs = p.objs) →
      x.objs = fit x.v ∧ ∃ r ∈ ps4.map Particle.v :: rounds, x.v ∈ r := by
    rintro x (⟨h1, r, hr, hx⟩ | ⟨p, hp, h1, h2⟩)
    · exact ⟨h1, r, List.mem_cons_of_mem _ hr, hx⟩
    · refine ⟨by rw [h2, (hmem3 p hp).2.2, h1], _, List.mem_cons_self, ?_⟩
      rw [hval, h1]
      exact List.mem_map_of_mem hp
  refine ⟨⟨ps4, r.1, (crowding round64 (snapObjs m) r.2.1).1, (crowding round64 (snapObjs m) r.2.1).2, s.leadersSize,
    s.cost + (evalSwarm key fit fa ps2).1, r.2.2⟩, ?_, ?_⟩
  · unfold Rounded.Swarm.step
    simp only [e2, hev, e4, h.lsize, ← hr]
    rw [if_neg o5]
  · refine ⟨l4.trans l3, h.lsize, q4, ?_, ?_, ⟨o6, ?_⟩, ?_, ?_, ?_⟩
    · intro i p hp
      obtain ⟨p3, b, h3, hv, ⟨p0, hp0, hbest⟩, hcase⟩ := k4 i p hp
      obtain ⟨b', hb', ⟨r, hr, hrb⟩, hno⟩ := h.best i p0 hp0
      rw [hbest] at hb'
      obtain rfl : b = b' := by
        have := Option.some.inj hb'
        exact (Prod.mk.inj this).1
      have hpv : (ps4.map Particle.v)[i]? = some p.v := by simp [hp]
      rcases hcase with ⟨hd, hbst⟩ | ⟨hd, hbst⟩
      · refine ⟨p.v, hbst, ⟨_, List.mem_cons_self, hpv⟩, ?_⟩
        intro r' hr' x hx hdx
        rcases List.mem_cons.1 hr' with rfl | hr'
        · simp only at hx
          rw [hpv] at hx
          obtain rfl := Option.some.inj hx
          exact LDom_irrefl _ hdx
        · exact hno r' hr' x hx (LDom_trans hdx hd)
      · refine ⟨b, hbst, ⟨r, List.mem_cons_of_mem _ hr, hrb⟩, ?_⟩
        intro r' hr' x hx
        rcases List.mem_cons.1 hr' with rfl | hr'
        · simp only at hx
          rw [hpv] at hx
          obtain rfl := Option.some.inj hx
          exact hd
        · exact hno r' hr' x hx
    · intro r' hr' x hx
      rcases List.mem_cons.1 hr' with rfl | hr'
      · obtain ⟨p, hp, rfl⟩ := List.mem_map.1 hx
        exact (q4 p hp).1
      · exact h.rbox r' hr' x hx
    · intro x hx
      refine hsnap x ?_
      rcases o1 x hx with hx | hx
      · exact Or.inl (h.arch.2 x hx)
      · exact Or.inr hx
    · intro e
      simp only at e
      rw [e] at hperm
      exact o5 hperm.symm.eq_nil
    · simp only
      rw [hperm.length_eq]
      exact o3
    · intro x hx
      refine hsnap x ?_
      rcases o2 x (hperm.mem_iff.1 hx) with hx | hx
      · exact Or.inl (h.lead.2.2 x hx)
      · exact Or.inr hx

theorem FReach.inv (T : FTask dims trim m key fit fa) (hN : 1 ≤ N) {rounds : List (List (List K))}
    {s : OState K} (h : FReach dims trim eta m key fit fa N rounds s) : FInv dims fit N rounds s := by
  induction h with
  | start population hn hbox s h =>
    obtain ⟨t, ht, h1, -⟩ := init_spec (eta := eta) T hN hn hbox
    obtain rfl : s = t := Option.some.inj (h.symm.trans ht)
    exact h1
  | step ds hds rounds s s' hs h ih =>
    obtain ⟨t, ht, h1⟩ := ih.step (eta := eta) T hN hds
    obtain rfl : s' = t := Option.some.inj (h.symm.trans ht)
    exact h1

/-- **C144.** Started with at least one vector of floats in the box, the constructor does not raise, and no step does,
although every operation is rounded. All positions ever taken are vectors of floats in the box, and the speeds stay below
16 times the width of the box. The result is never empty; it consists of positions that particles have had, with
their true objectives. The personal best of a particle is a position it has had, and no position it has had
dominates it. -/
theorem C144_omopso (T : FTask dims trim m key fit fa) (hN : 1 ≤ N) :
    (∀ population : List (List K), population.length = N → (∀ v ∈ population, FBox dims v) →
      ∃ s, init round64 trim eta m key fit fa population = some s ∧
        s.particles.map Particle.v = population.map trim) ∧
    ∀ rounds s, FReach dims trim eta m key fit fa N rounds s →
      (∀ r ∈ rounds, ∀ x ∈ r, FBox dims x) ∧
      s.particles.length = N ∧ (∀ p ∈ s.particles, Slow round64 dims p.speed) ∧ s.leaders.length ≤ N ∧
      omopsoFinal s ≠ [] ∧ (∀ v ∈ omopsoFinal s, FBox dims v ∧ ∃ r ∈ rounds, v ∈ r) ∧
      (∀ x ∈ s.archive, x.objs = fit x.v) ∧
      (∀ (i : ℕ) (p : Particle K), s.particles[i]? = some p → ∃ b, p.best = some (b, fit b) ∧
        (∃ r ∈ rounds, r[i]? = some b) ∧
        ∀ r ∈ rounds, ∀ x, r[i]? = some x → ¬ LDom (fit x) (fit b)) ∧
      ∀ ds : ℕ → SpeedDraw K, (∀ i, (ds i).Valid ∧ Mild (turn (ds i))) →
        ∃ s', step round64 dims trim eta m key fit fa ds s = some s' := by
  refine ⟨?_, ?_⟩
  · intro population hn hbox
    obtain ⟨s, h1, -, h2⟩ := init_spec (eta := eta) T hN hn hbox
    exact ⟨s, h1, h2⟩
  · intro rounds s h
    have hi := h.inv T hN
    refine ⟨hi.rbox, hi.size, fun p hp => (hi.box p hp).2.1, hi.lead.2.1, ?_, ?_, fun x hx => (hi.arch.2 x hx).1,
      hi.best, ?_⟩
    · intro e
      exact hi.arch.1 (List.map_eq_nil_iff.1 e)
    · intro v hv
      obtain ⟨x, hx, rfl⟩ := List.mem_map.1 hv
      obtain ⟨-, r, hr, hxr⟩ := hi.arch.2 x hx
      exact ⟨hi.rbox r hr _ hxr, r, hr, hxr⟩
    · intro ds hds
      obtain ⟨s', h1, -⟩ := hi.step (eta := eta) T hN hds
      exact ⟨s', h1⟩

/-- **C144.** The numbers that `random` draws for the coefficients are such as the theorem asks for. -/
theorem C144_draws (d : SpeedDraw ℚ) (h : Drawn (turn d)) : Mild (turn d) := mild_of_drawn h


/-- The objectives of the example. -/
def exFit (v : List ℚ) : List ℚ := [v.sum, round64 (1 - v.sum)]

/-- Two particles at 0 and at the float 0.7, one step: the second moves to the float below 0.56, where exact arithmetic
would have taken it. -/
example : ((init round64 id (round64 (3 / 400)) 2 id exFit none [[0], [round64 (7 / 10)]]).bind
      (Rounded.Swarm.step round64 [(0, 1)] id (round64 (3 / 400)) 2 id exFit none
        (fun _ => ⟨fun _ => (1, 0), 1, round64 (1 / 10), 2, 2, 1 / 2⟩))).map
      (fun s => (s.particles.map (fun p => p.v), omopsoFinal s, s.cost))
    = some ([[0], [round64 (14 / 25) - 1 / 2 ^ 53]], [[0], [round64 (7 / 10)], [round64 (14 / 25) - 1 / 2 ^ 53]], 4) := by
  decide +kernel

/-- Pruning: the member with the smallest last objective goes, although it is an end of the front. -/
example : prune round64 [fun x : ℚ × ℚ => x.1, fun x => x.2] [(0, 3), (1, 2), (2, 1), (3, 0)]
    = [(2, 1), (1, 2), (0, 3)] := by decide +kernel

end

end Evogil.Rounded.Swarm
