import Verif.Model.HgsRunRest
import Verif.Props.DistDriversRuns
import Verif.Props.Jumping
import Verif.Props.NsgaiiiRun
import Verif.Props.NslsRun
import Verif.Props.Swarm

/-!
# OMOPSO, JGBL, NSGA-III and NSLS keep the contract of the drivers of HGS
-/

set_option linter.unusedSectionVars false

namespace Evogil.Hgs

open Generations Evaluation Spec

/-! ## OMOPSO -/

section
variable {K : Type*} [Field K] [LinearOrder K] [IsStrictOrderedRing K]
  {dims : List (K × K)} {trim : ℕ → List K → List K} {eta : K} {m : ℕ} {fit : ℕ → List K → List K}
  {ds : ℕ → ℕ → ℕ → ℕ → Swarm.SpeedDraw K} {N : ℕ → ℕ} {maxLevel g : ℕ}

/-- OMOPSO keeps the contract. Its population, the archive, has at least one member. -/
theorem omopso_contract
    (htrim : ∀ l, l ≤ maxLevel → ∀ v, InBox v dims → InBox (trim l v) dims)
    (hfit : ∀ l, l ≤ maxLevel → ∀ v, (fit l v).length = m) (hN1 : ∀ l, l ≤ maxLevel → 1 ≤ N l)
    (hds : ∀ i k j p, (ds i k j p).Valid) (hg : ∀ l, l ≤ maxLevel → g ≤ N l) :
    Contract (omopsoOps dims trim eta m fit ds) maxLevel (fun v => InBox v dims) N (fun _ p => 1 ≤ p)
      (fun l s => ∃ rounds, Swarm.OInv dims (fit l) (N l) rounds s) (fun _ _ => True) (fun _ _ => True) True
      g := by
  have T : ∀ l, l ≤ maxLevel → Swarm.OTask dims (trim l) m (id : List K → List K) (fit l) none := fun l hl =>
    ⟨htrim l hl, hfit l hl, fun _ h => by cases h⟩
  constructor
  · intro l hl i pop w f hn hP _
    obtain ⟨s, e, h, -⟩ := Swarm.omopsoInit_spec (eta := eta) (T l hl) (hN1 l hl) hn hP
    exact ⟨(), s, by simp only [omopsoOps, e, Option.map_some], ⟨_, h⟩, trivial⟩
  · rintro l hl i k j w f s ⟨r, h⟩ -
    obtain ⟨s', e, h'⟩ := h.step (eta := eta) (T l hl) (hN1 l hl) (ds := ds i k j) (hds i k j)
    have hne : s.particles ≠ [] := by
      intro e'
      have h0 := h.size
      have h1 := hN1 l hl
      rw [e', List.length_nil] at h0
      omega
    have hc := Swarm.omopsoStep_cost hne e
    refine ⟨(), s', by simp only [omopsoOps, e, Option.map_some], ⟨_, h'⟩, ?_, trivial⟩
    have := hg l hl
    simp only [omopsoOps, hc, h.size]
    omega
  · exact fun _ _ _ _ _ _ _ _ _ _ _ _ _ => trivial
  · rintro l hl i k w f s ⟨r, h⟩ - -
    refine ⟨(), s, _, _, rfl, ⟨r, h⟩, le_rfl, fun _ => rfl, trivial, ?_, ?_, ?_⟩
    · rw [Swarm.omopsoFinal, List.length_map]
      exact List.length_pos_iff.2 h.arch.1
    · intro v hv
      obtain ⟨x, hx, rfl⟩ := List.mem_map.1 hv
      obtain ⟨-, q, hq, hxq⟩ := h.arch.2 x hx
      exact h.rbox q hq _ hxq
    · intro v hv
      obtain ⟨p, hp, rfl⟩ := List.mem_map.1 hv
      exact (h.box p hp).1

end

/-! ## NSGA-III -/

section
variable {K : Type*} [Field K] [LinearOrder K] [IsStrictOrderedRing K]
  {pw : K → K → K} {sq : K → K} {eps : K} {f : ℕ → List K → List K} {cf : ℕ → ℕ → Nsgaiii.Conf K}
  {d : NsgaiiiDraws K} {dims : List (K × K)} {N : ℕ → ℕ} {maxLevel g : ℕ}

/-- After a step there is a first front, and its vectors are in the box. -/
theorem nsgaiii_front (hp : PowLaws pw) (he : 0 < eps) {f : List K → List K} {cf : Nsgaiii.Conf K}
    (hcf : Nsgaiii.ConfOk f cf) {n : ℕ} (h2 : 2 ≤ n) {s : Nsgaiii.Costed K} (hs : Nsgaiii.CGood f cf n s)
    {ds : ℕ → Nsgaiii.PairDraw K} {iter : List ℕ → List ℕ} {sample : List ℕ → ℕ → List ℕ}
    (hd : Nsgaiii.DrawsOk n ds iter sample) :
    ∃ front, Nsgaiii.stepFront pw sq eps f cf ds iter (2 * s.st.size + 1) s.st = some front ∧
      ∀ x ∈ front, InBox x.v cf.dims := by
  obtain ⟨hg, hN⟩ := hs
  have hl : s.st.inds.length = n := by rw [hg.size, hN]
  obtain ⟨raw, r1, r2, r3⟩ := Nsgaiii.makeOffspring_spec hp he hcf hg.toSound ds (by rw [hl]; exact hd.pairs)
    (s.st.size / 2) 0
  obtain ⟨st', t1, -, -⟩ := Nsgaiii.C31_step hp sq he hcf hg (by omega) ds (by rw [hl]; exact hd.pairs)
    iter hd.iter sample hd.sample (2 * s.st.size + 1) (by omega)
  unfold Nsgaiii.step at t1
  unfold Nsgaiii.stepFront
  rw [r1] at t1 ⊢
  simp only at t1 ⊢
  set off := raw.map fun x => Nsgaiii.evaluate f ⟨cf.trim x.v, x.objectives⟩ with hoff
  have hbox : ∀ x ∈ off ++ s.st.inds, InBox x.v cf.dims := by
    intro x hx
    rcases List.mem_append.1 hx with hx | hx
    · obtain ⟨z, hz, rfl⟩ := List.mem_map.1 hx
      have hz1 := hcf.trimBox _ (r3 z hz).1
      unfold Nsgaiii.evaluate
      split <;> exact hz1
    · exact hg.box x hx
  cases ho : Nsgaiii.allObjectives (off ++ s.st.inds) with
  | none => rw [ho] at t1; cases t1
  | some objs =>
    rw [ho] at t1
    simp only at t1 ⊢
    set sc := Nsgaiii.scores sq eps cf (Nsgaiii.updateIdeal s.st.ideal (off.filterMap Nsgaiii.Ind.objectives))
      objs with hsc
    cases hL : ndSort iter (thetaDom (fun i => (sc.getD i (0, 0)).1) (fun i => (sc.getD i (0, 0)).2))
        (2 * s.st.size + 1) (List.range sc.length) with
    | none =>
      rw [Nsgaiii.selectIdx, hL] at t1
      cases t1
    | some L =>
      refine ⟨_, rfl, ?_⟩
      intro x hx
      obtain ⟨i, -, hi⟩ := List.mem_filterMap.1 hx
      exact hbox x (List.mem_of_getElem? hi)

/-- NSGA-III keeps the contract, with at least two individuals on every level. A step costs nothing if neither
crossover nor mutation does anything; if the first pair of parents is always crossed, it costs at least one
evaluation. -/
theorem nsgaiii_contract (hp : PowLaws pw) (he : 0 < eps)
    (hcf : ∀ l, l ≤ maxLevel → ∀ i, Nsgaiii.ConfOk (f l) (cf l i))
    (hdims : ∀ l, l ≤ maxLevel → ∀ i, (cf l i).dims = dims) (hN2 : ∀ l, l ≤ maxLevel → 2 ≤ N l)
    (hd : ∀ l, l ≤ maxLevel → ∀ i k j, Nsgaiii.DrawsOk (N l) (d.ds l i k j) (d.iter i k j) (d.sample i k j))
    (hg : g = 0 ∨ (g = 1 ∧ ∀ l, l ≤ maxLevel → ∀ i' i k j, (d.ds l i k j 0).first ≤ (cf l i').rateC)) :
    Contract (nsgaiiiOps pw sq eps f cf d) maxLevel (fun v => InBox v dims) N (fun l p => p = N l)
      (fun l s => (∃ i, s.cf = cf l i) ∧ Nsgaiii.CGood (f l) s.cf (N l) s.st ∧ ∀ v ∈ s.front, InBox v dims)
      (fun _ _ => True) (fun _ _ => True) True g := by
  constructor
  · intro l hl i pop w f' hn hP _
    refine ⟨(), _, rfl, ⟨⟨i, rfl⟩, ?_, by simp⟩, trivial⟩
    have := Nsgaiii.initCosted_good (hcf l hl i) (pop := pop) (by rw [hdims l hl i]; exact hP)
    rwa [hn] at this
  · rintro l hl i k j w f' s ⟨⟨i', hi'⟩, hs, -⟩ -
    obtain ⟨cf', st, front⟩ := s
    simp only at hi' hs
    subst hi'
    obtain ⟨raw, st', r1, r2, r3, r4, r5⟩ := Nsgaiii.stepCosted_spec (sq := sq) hp he (hcf l hl i') (hN2 l hl) hs
      (hd l hl i k j)
    obtain ⟨fr, e1, e2⟩ := nsgaiii_front (sq := sq) hp he (hcf l hl i') (hN2 l hl) hs (hd l hl i k j)
    refine ⟨(), ⟨cf l i', st', fr.map Nsgaiii.Ind.v⟩, by simp only [nsgaiiiOps, r2, e1], ⟨⟨i', rfl⟩, r3, ?_⟩,
      ?_, trivial⟩
    · intro v hv
      obtain ⟨x, hx, rfl⟩ := List.mem_map.1 hv
      have := e2 x hx
      rwa [hdims l hl i'] at this
    · simp only [nsgaiiiOps, r5]
      rcases hg with rfl | ⟨rfl, hfirst⟩
      · omega
      · have := Nsgaiii.makeOffspring_pos (hfirst l hl i' i k j) (N l / 2) 0 raw le_rfl (by
          have := hN2 l hl; omega) r1
        omega
  · exact fun _ _ _ _ _ _ _ _ _ _ _ _ _ => trivial
  · rintro l hl i k w f' s ⟨⟨i', hi'⟩, hs, hfr⟩ - -
    refine ⟨(), s, _, _, rfl, ⟨⟨i', hi'⟩, hs, hfr⟩, le_rfl, fun _ => rfl, trivial, ?_, ?_, hfr⟩
    · rw [List.length_map, hs.1.size, hs.2]
    · intro v hv
      obtain ⟨x, hx, rfl⟩ := List.mem_map.1 hv
      have := hs.1.box x hx
      rwa [hi', hdims l hl i'] at this

end

/-! ## NSLS -/

section
variable {K : Type*} [Field K] [LinearOrder K] [IsStrictOrderedRing K]
  {dims : List (K × K)} {trim : ℕ → List K → List K} {f : ℕ → List K → List K} {m : ℕ}
  {vdist : List K → List K → K} {d : NslsDraws K} {N : ℕ → ℕ} {maxLevel g : ℕ}

/-- After a step there is a first front, and its vectors are in the box. -/
theorem nsls_front {trim f : List K → List K} (ht : Nsls.TrimOk dims trim) (hf : ∀ v, (f v).length = m) {n : ℕ}
    (h2 : 2 ≤ n) {done : Bool} {s : Nsls.Costed K} (h : Nsls.CGood dims f n done s)
    {ds : ℕ → ℕ → Nsls.LsDraw K} {iter : List ℕ → List ℕ} {sample : List ℕ → ℕ → List ℕ}
    (hd : Nsls.DrawsOk n ds iter sample) {s' : Nsls.Costed K}
    (hs : Nsls.stepCosted dims trim f m vdist ds iter sample s = some s') :
    ∃ front, Nsls.stepFront dims trim f ds iter (2 * s.size + 1) s.inds = some front ∧
      ∀ x ∈ front, InBox x.v dims := by
  have hb' : ∀ x ∈ s.inds.map (Nsls.evaluate f), InBox x.v dims ∧ x.objectives = some (f x.v) := by
    intro x hx
    obtain ⟨y, hy, rfl⟩ := List.mem_map.1 hx
    have h1 := h.box y hy
    have h3 := h.objs y hy
    unfold Nsls.evaluate
    cases ho : y.objectives with
    | none => exact ⟨h1, rfl⟩
    | some o =>
      simp only
      rw [ho] at h3
      cases done with
      | false => cases h3
      | true =>
        rw [ho]
        exact ⟨h1, h3⟩
  obtain ⟨new, n1, -, n3⟩ := Nsls.C32_local_search ht hf ds (inds := s.inds.map (Nsls.evaluate f))
    (by rw [List.length_map, h.length]; exact h2)
    (by rw [List.length_map, h.length]; exact hd.pairs) hb'
  unfold Nsls.stepCosted Nsls.step at hs
  unfold Nsls.stepFront
  rw [n1] at hs ⊢
  simp only at hs ⊢
  cases ho : Nsls.allObjectives (s.inds.map (Nsls.evaluate f) ++ new) with
  | none => rw [ho] at hs; cases hs
  | some objs =>
    rw [ho] at hs
    simp only at hs ⊢
    cases hL : ndSort iter (nsgaiiDom fun i => objs.getD i []) (2 * s.size + 1)
        (List.range (s.inds.map (Nsls.evaluate f) ++ new).length) with
    | none =>
      rw [Nsls.nextGeneration, hL] at hs
      cases hs
    | some L =>
      refine ⟨_, rfl, ?_⟩
      intro x hx
      obtain ⟨i, -, hi⟩ := List.mem_filterMap.1 hx
      exact (n3 x (List.mem_of_getElem? hi)).1

/-- NSLS keeps the contract, with at least two individuals on every level, if the local search always finds a
trial that is not dominated: otherwise a step does not end (C102). -/
theorem nsls_contract (ht : ∀ l, l ≤ maxLevel → Nsls.TrimOk dims (trim l))
    (hf : ∀ l, l ≤ maxLevel → ∀ v, (f l v).length = m) (hm : 1 ≤ m) (hN2 : ∀ l, l ≤ maxLevel → 2 ≤ N l)
    (hd : ∀ l, l ≤ maxLevel → ∀ i k j, Nsls.DrawsOk (N l) (d.ds l i k j) (d.iter i k j) (d.sample i k j))
    (hprod : ∀ l, l ≤ maxLevel → ∀ i k j (s : Nsls.Costed K) done, Nsls.CGood dims (f l) (N l) done s →
      Nsls.Productive dims (trim l) (f l) (d.ds l i k j) s.inds)
    (hg : ∀ l, l ≤ maxLevel → g ≤ N l * (dims.length * 2)) :
    Contract (nslsOps dims trim f m vdist d) maxLevel (fun v => InBox v dims) N (fun l p => p = N l)
      (fun l s => (∃ done, Nsls.CGood dims (f l) (N l) done s.1) ∧ ∀ v ∈ s.2, InBox v dims)
      (fun _ _ => True) (fun _ _ => True) True g := by
  constructor
  · intro l hl i pop w f' hn hP _
    refine ⟨(), _, rfl, ⟨⟨false, ?_⟩, by simp⟩, trivial⟩
    have := Nsls.initCosted_good (f := f l) (ht l hl) hP
    rwa [hn] at this
  · rintro l hl i k j w f' s ⟨⟨done, hs⟩, -⟩ -
    obtain ⟨s', e, h', hc⟩ := (hs.step (vdist := vdist) (ht l hl) (hf l hl) hm (hN2 l hl) (hd l hl i k j)).1
      (hprod l hl i k j s.1 done hs)
    obtain ⟨fr, e1, e2⟩ := nsls_front (ht l hl) (hf l hl) (hN2 l hl) hs (hd l hl i k j) e
    refine ⟨(), (s', fr.map Nsls.Ind.v), by simp only [nslsOps, e, e1], ⟨⟨true, h'⟩, ?_⟩, ?_, trivial⟩
    · intro v hv
      obtain ⟨x, hx, rfl⟩ := List.mem_map.1 hv
      exact e2 x hx
    · have := hg l hl
      simp only [nslsOps, hc]
      omega
  · exact fun _ _ _ _ _ _ _ _ _ _ _ _ _ => trivial
  · rintro l hl i k w f' s ⟨⟨done, hs⟩, hfr⟩ - -
    refine ⟨(), s, _, _, rfl, ⟨⟨done, hs⟩, hfr⟩, le_rfl, fun _ => rfl, trivial, ?_, ?_, hfr⟩
    · rw [List.length_map, hs.length]
    · intro v hv
      obtain ⟨x, hx, rfl⟩ := List.mem_map.1 hv
      exact hs.box x hx

end

/-! ## JGBL -/

section
variable {K : Type*} [Field K] [LinearOrder K] [IsStrictOrderedRing K] [FloorSemiring K] {A : Type*}
  [DecidableEq A]
  {S : ℕ → Setup K} {key : List K → A} {m : ℕ} {c : K} {d : JgblDraws K} {jumps : ℕ}
  {N : ℕ → ℕ} {dims : List (K × K)} {maxLevel g : ℕ}

/-- JGBL keeps the contract; a step costs at least as much as there are children. -/
theorem jgbl_contract (hS : ∀ l, l ≤ maxLevel → (S l).Valid)
    (hdims : ∀ l, l ≤ maxLevel → (S l).dims = dims) (hproper : Jgbl.ProperBox dims)
    (hfit : ∀ l i k j v, (d.fit l i k j v).length = m) (ho : ∀ i k j, (d.orders i k j).Valid)
    (hdm : ∀ l, l ≤ maxLevel → ∀ i k j n, (d.dm l i k j n).Valid (N l))
    (hdv : ∀ i k j n, (d.dv i k j n).Valid)
    (hjd : ∀ i k j, Jumping.JumpsValid dims.length jumps (d.jd i k j))
    (hg : ∀ l, l ≤ maxLevel → g ≤ ⌊c * (N l : K)⌋₊) :
    Contract (jgblOps S key m c d) maxLevel (fun v => InBox v dims) N (fun l p => p = N l)
      (fun l s => NInv (S l) m c (N l) s ∧ s.acc.archive = none) (fun _ _ => True) (fun _ _ => True) True
      g := by
  constructor
  · intro l hl i pop w f hn hP _
    refine ⟨(), _, rfl, ⟨?_, (nsgaiiInit_cost _).1⟩, trivial⟩
    exact (NReach.inv (hS l hl) (hfit l i 0 0) (nsgaiiInit_reach (key := key) (m := m) hn
      (fun v hv => by rw [hdims l hl]; exact hP v hv))).1
  · rintro l hl i k j w f s ⟨hs, ha⟩ -
    obtain ⟨s', e1, g1, -, g3⟩ := hs.jump (key := key) (hS l hl) (by rw [hdims l hl]; exact hproper)
      (hfit l i (k + 1) (j + 1)) (ho i (k + 1) (j + 1)) (hdm l hl i k j) (hdv i k j)
      (jd := d.jd i k j) (k := jumps) (by rw [hdims l hl]; exact hjd i k j)
    obtain ⟨b1, n, -, b2⟩ := g3 ha
    refine ⟨(), s', by simp only [jgblOps, e1, Option.map_some], ⟨g1, b1⟩, ?_, trivial⟩
    have := hg l hl
    simp only [jgblOps, b2]
    omega
  · exact fun _ _ _ _ _ _ _ _ _ _ _ _ _ => trivial
  · intro l hl i k w f s hs h1 h2
    obtain ⟨w', s', pop, del, e, h⟩ := (Dist.nsgaii_contract (S := S) (key := key) (m := m) (c := c)
      (d := ⟨d.fit, fun i k j => (d.orders i k j).inner, d.dm, d.dv⟩) (N := N) (dims := dims)
      (maxLevel := maxLevel) (g := g) hS hdims hfit (fun i k j => (ho i k j).inner) hdm hdv hg).conclude
      l hl i k w f s hs h1 h2
    exact ⟨w', s', pop, del, e, h⟩

end

end Evogil.Hgs
