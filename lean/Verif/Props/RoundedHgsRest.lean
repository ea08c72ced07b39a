import Verif.Model.RoundedHgsRest
import Verif.Props.DistDriversRest
import Verif.Props.HgsArchiveRuns
import Verif.Props.HgsRunArchive
import Verif.Props.RoundedHgsNodes
import Verif.Props.RoundedImgaRest
import Verif.Props.RoundedJumping

/-!
# C156: HGS in floating point with OMOPSO, JGBL, NSGA-III and NSLS in its nodes
-/

set_option linter.unusedSectionVars false

namespace Evogil.Rounded.Hgs

open Evogil.Hgs (Node Conf RunConf Run NodeOps Contract start result charge charge_zero Entries Held held_update held_empty
  evalAll_entries nsgaiii_evaluateArch nsls_evaluateArch NsgaiiiDraws NsgaiiiNode NslsDraws JgblDraws)
open Evaluation Generations Spec Binary64 Rounded.Run

/-! ## Runs with archives -/

section
variable {K : Type*} [Field K] [LinearOrder K] [IsStrictOrderedRing K] [FloorRing K] {A σ : Type*}

/-- C156 for any driver with archives that keeps the contract: however many steps are made, nothing raises; all vectors of the
result are floats of the box, at least `population_sizes[0]` of them from the first step on; and the cost is the sum over the
levels of the cost modifier times the number of entries of the archive, so that it never exceeds the number of keys there are
times the sum of the cost modifiers. -/
theorem C156_archived {O : NodeOps (ℕ → Archive A (List K)) σ (List K)} {cfg : Conf (List K) K} {S : ℕ → Setup K}
    {dims : List (K × K)} {N : ℕ → ℕ} {G : ℕ → σ → Prop} {GW : (ℕ → Archive A (List K)) → (ℕ → ℕ) → Prop}
    {keyOf : ℕ → List K → A} (hm2 : cfg.maxLevel ≤ 2)
    (hc : Contract O cfg.maxLevel (FBox dims) N (fun l p => p = N l) G (fun _ _ => True) GW True 0)
    (hGW : ∀ w f, GW w f → ∀ l, Entries (w l) (f l) ∧ ∀ k, (w l k).isSome → ∃ v, FBox dims v ∧ keyOf l v = k)
    (h0 : GW (fun _ _ => none) fun _ => 0)
    (hS : ∀ l, l ≤ cfg.maxLevel → Usable (S l)) (hdims : ∀ l, l ≤ cfg.maxLevel → (S l).dims = dims)
    (hN1 : ∀ l, l ≤ cfg.maxLevel → 1 ≤ N l)
    (len : ℕ → ℕ) (hlen : ∀ l, 1 ≤ len l) (hv : List (List K) → K)
    (shuffle : ℕ → ℕ → List (List K) → List (List K)) (hsh : ∀ i k l, (shuffle i k l).Perm l)
    (ds : ℕ → ℕ → ℕ → ℕ → MutDraw K)
    (hds : ∀ l i k n, IsDraw (1 / 2 ^ 53) (ds l i k n).rnd) (rate eta : ℕ → K)
    (heta : ∀ l, 0 ≤ eta l) {ratio : List K} (hr : 3 ≤ ratio.length)
    (perm : List (List K) → List (List K)) (hperm : ∀ l, (perm l).Perm l)
    (population : List (List K)) (hN : N 0 ≤ population.length) (hbox : ∀ v ∈ population, FBox dims v)
    (n : ℕ) :
    ∃ s s', start O ratio perm (N 0) (fun _ _ => none) population = some s ∧
      runSteps round64 cfg O ⟨len, hv, shuffle, fun l i v =>
        populationFromDelegate round64 (S l).pw (S l).eps (ds l i) v (N l) dims (rate l) (eta l)⟩ 0 n s = some s' ∧
      (∀ v ∈ result s', FBox dims v) ∧ (1 ≤ n → N 0 ≤ (result s').length) ∧
      (∀ l k, (s'.world l k).isSome → ∃ v, FBox dims v ∧ keyOf l v = k) ∧
      ∃ entries : ℕ → ℕ, (∀ l, Entries (s'.world l) (entries l)) ∧
        s'.tree.cost + ((s'.tree.nodes.zip s'.drivers).map fun p =>
          if p.1.pop.isEmpty then cfg.modifier p.1.level * (O.cost p.2 : K) else 0).sum =
        ((List.range 3).map fun l => cfg.modifier l * (entries l : K)).sum ∧
        ((∀ l, 0 ≤ cfg.modifier l) → ∀ F : List A, (∀ l v, FBox dims v → keyOf l v ∈ F) →
          s'.tree.cost ≤ ((List.range 3).map fun l => cfg.modifier l * (F.length : K)).sum) := by
  have hseed : ∀ l, l ≤ cfg.maxLevel → ∀ (i : ℕ) (v : List K), FBox dims v → ∃ pop,
      populationFromDelegate round64 (S l).pw (S l).eps (ds l i) v (N l) dims (rate l) (eta l) = some pop ∧
        pop.length = N l ∧ ∀ x ∈ pop, FBox dims x := by
    intro l hl i v hv
    have := seeds_ok (hS l hl) (hds l i) (heta l) (rate := rate l) (hN1 l hl) (v := v) (by rw [hdims l hl]; exact hv)
    rwa [hdims l hl] at this
  obtain ⟨s, s', e0, e1, h1, -, h2⟩ := C155_run hc hm2 ⟨len, hv, shuffle, fun l i v =>
    populationFromDelegate round64 (S l).pw (S l).eps (ds l i) v (N l) dims (rate l) (eta l)⟩ hlen hsh hseed hr
    perm hperm _ h0 population hN hbox n
  obtain ⟨t, f0, i0, -⟩ := hc.start (cfg := cfg) rfl hr perm hperm _ h0 population hN hbox
  have : s = t := Option.some.inj (e0.symm.trans f0)
  subst this
  obtain ⟨t, f1, i1⟩ := runSteps_all hc rfl hm2 ⟨len, hv, shuffle, fun l i v =>
    populationFromDelegate round64 (S l).pw (S l).eps (ds l i) v (N l) dims (rate l) (eta l)⟩ hlen hsh hseed n 0 s i0
  have : s' = t := Option.some.inj (e1.symm.trans f1)
  subst this
  have hcost := Evogil.Hgs.C106_cost trivial hm2 (fun l hl h => by have := hN1 l hl; omega) s' i1
  have hworld := hGW _ _ i1.world
  refine ⟨s, s', e0, e1, h1, fun hn => (h2 hn).elim fun p hp => hp.1.ge.trans hp.2, fun l => (hworld l).2, _,
    fun l => (hworld l).1, hcost, ?_⟩
  intro hpos F hF
  have hle : s'.tree.cost ≤ ((List.range 3).map fun l => cfg.modifier l * (Evogil.Hgs.levelCost
      (s'.tree.nodes.map Node.level) (s'.drivers.map O.cost) l : K)).sum := by
    rw [← hcost]
    refine le_add_of_nonneg_right (List.sum_nonneg ?_)
    intro x hx
    obtain ⟨p, -, rfl⟩ := List.mem_map.1 hx
    split_ifs
    · exact mul_nonneg (hpos _) (Nat.cast_nonneg _)
    · exact le_rfl
  refine hle.trans (List.sum_le_sum ?_)
  intro l _
  refine mul_le_mul_of_nonneg_left (Nat.cast_le.2 ?_) (hpos l)
  obtain ⟨⟨ks, k1, k2, k3⟩, k4⟩ := hworld l
  rw [← k2]
  refine (k1.subperm fun k hk => ?_).length_le
  obtain ⟨v, hv, rfl⟩ := k4 k ((k3 k).2 hk)
  exact hF l v hv

end

/-! ## OMOPSO -/

section
variable {K : Type*} [Field K] [LinearOrder K] [IsStrictOrderedRing K] [FloorRing K]
  {dims : List (K × K)} {trim : ℕ → List K → List K} {etaV : K} {m : ℕ} {fit : ℕ → List K → List K}
  {dw : ℕ → ℕ → ℕ → ℕ → Evogil.Swarm.SpeedDraw K} {N : ℕ → ℕ} {maxLevel g : ℕ}

/-- OMOPSO keeps the contract. Its population, the archive, has at least one member. -/
theorem omopso_contract
    (T : ∀ l, l ≤ maxLevel → Swarm.FTask dims (trim l) m (id : List K → List K) (fit l) none)
    (hN1 : ∀ l, l ≤ maxLevel → 1 ≤ N l)
    (hdw : ∀ i k j p, (dw i k j p).Valid ∧ Mild (Swarm.turn (dw i k j p))) (hg : ∀ l, l ≤ maxLevel → g ≤ N l) :
    Contract (omopsoOps round64 dims trim etaV m fit dw) maxLevel (FBox dims) N (fun _ p => 1 ≤ p)
      (fun l s => ∃ rounds, Swarm.FInv dims (fit l) (N l) rounds s) (fun _ _ => True) (fun _ _ => True) True g := by
  constructor
  · intro l hl i pop w f hn hP _
    obtain ⟨s, e, h, -⟩ := Swarm.init_spec (eta := etaV) (T l hl) (hN1 l hl) hn hP
    exact ⟨(), s, by simp only [omopsoOps, e, Option.map_some], ⟨_, h⟩, trivial⟩
  · rintro l hl i k j w f s ⟨r, h⟩ -
    obtain ⟨s', e, h'⟩ := h.step (eta := etaV) (T l hl) (hN1 l hl) (ds := dw i k j) (hdw i k j)
    have hne : s.particles ≠ [] := by
      intro e'
      have h0 := h.size
      have h1 := hN1 l hl
      rw [e', List.length_nil] at h0
      omega
    have hc := Swarm.step_cost hne e
    refine ⟨(), s', by simp only [omopsoOps, e, Option.map_some], ⟨_, h'⟩, ?_, trivial⟩
    have := hg l hl
    simp only [omopsoOps, hc, h.size]
    omega
  · exact fun _ _ _ _ _ _ _ _ _ _ _ _ _ => trivial
  · rintro l hl i k w f s ⟨r, h⟩ - -
    refine ⟨(), s, _, _, rfl, ⟨r, h⟩, le_rfl, fun _ => rfl, trivial, ?_, ?_, ?_⟩
    · rw [Evogil.Swarm.omopsoFinal, List.length_map]
      exact List.length_pos_iff.2 h.arch.1
    · intro v hv
      obtain ⟨x, hx, rfl⟩ := List.mem_map.1 hv
      obtain ⟨-, q, hq, hxq⟩ := h.arch.2 x hx
      exact h.rbox q hq _ hxq
    · intro v hv
      obtain ⟨p, hp, rfl⟩ := List.mem_map.1 hv
      exact (h.box p hp).1

/-- C156 for OMOPSO: whole runs of HGS in floating point with OMOPSO in its nodes: nothing raises; the result consists of
floats of the box, at least one from the first step on; each step costs at least the smallest population size times the
smallest cost modifier, so that a budget simulation stores a result for every budget. -/
theorem C156_omopso {cfg : Conf (List K) K} (hm2 : cfg.maxLevel ≤ 2)
    (T : ∀ l, l ≤ cfg.maxLevel → Swarm.FTask dims (trim l) m (id : List K → List K) (fit l) none)
    (hN1 : ∀ l, l ≤ cfg.maxLevel → 1 ≤ N l) (hg : ∀ l, l ≤ cfg.maxLevel → g ≤ N l)
    (hdw : ∀ i k j p, (dw i k j p).Valid ∧ Mild (Swarm.turn (dw i k j p)))
    {S : ℕ → Setup K} (hS : ∀ l, l ≤ cfg.maxLevel → Usable (S l)) (hdims : ∀ l, l ≤ cfg.maxLevel → (S l).dims = dims)
    (len : ℕ → ℕ) (hlen : ∀ l, 1 ≤ len l) (hv : List (List K) → K)
    (shuffle : ℕ → ℕ → List (List K) → List (List K)) (hsh : ∀ i k l, (shuffle i k l).Perm l)
    (ds : ℕ → ℕ → ℕ → ℕ → MutDraw K)
    (hds : ∀ l i k n, IsDraw (1 / 2 ^ 53) (ds l i k n).rnd) (rate eta : ℕ → K)
    (heta : ∀ l, 0 ≤ eta l) {ratio : List K} (hr : 3 ≤ ratio.length)
    (perm : List (List K) → List (List K)) (hperm : ∀ l, (perm l).Perm l)
    (population : List (List K)) (hN : N 0 ≤ population.length) (hbox : ∀ v ∈ population, FBox dims v)
    (μ : K) (hμ : 0 ≤ μ) (hmod : ∀ l, l ≤ cfg.maxLevel → μ ≤ cfg.modifier l) :
    ∃ s, start (omopsoOps round64 dims trim etaV m fit dw) ratio perm (N 0) () population = some s ∧
      (∀ n, ∃ s', runSteps round64 cfg (omopsoOps round64 dims trim etaV m fit dw) ⟨len, hv, shuffle, fun l i v =>
          populationFromDelegate round64 (S l).pw (S l).eps (ds l i) v (N l) dims (rate l) (eta l)⟩ 0 n s = some s' ∧
        (∀ v ∈ result s', FBox dims v) ∧ (1 ≤ n → 1 ≤ (result s').length) ∧ n * (μ * g) ≤ s'.tree.cost) ∧
      ∀ (budgets : List ℤ) (fuel : ℕ), (∀ b ∈ budgets, (b : K) ≤ fuel * (μ * g)) →
        ∃ res o', budgetWorker (hgsDriver round64 cfg (omopsoOps round64 dims trim etaV m fit dw) ⟨len, hv, shuffle,
          fun l i v => populationFromDelegate round64 (S l).pw (S l).eps (ds l i) v (N l) dims (rate l) (eta l)⟩) fuel
            budgets ⟨some (0, s), 0⟩ = some (res, o') ∧
        Stores round64 cfg (omopsoOps round64 dims trim etaV m fit dw) ⟨len, hv, shuffle, fun l i v =>
          populationFromDelegate round64 (S l).pw (S l).eps (ds l i) v (N l) dims (rate l) (eta l)⟩
            (FBox dims) 1 s budgets res :=
  C155_box hm2 (omopso_contract (etaV := etaV) T hN1 hdw hg) (fun _ h => h) hS hdims hN1 len hlen hv shuffle hsh ds hds
    rate eta heta hr perm hperm () trivial population hN hbox μ hμ hmod

end

/-! ## NSGA-III -/

section
variable {K : Type*} [Field K] [LinearOrder K] [IsStrictOrderedRing K] [FloorRing K] {A : Type*} [DecidableEq A]
  {key : List K → A} {pw : K → K → K} {dot : List K → List K → K} {norm : List K → K} {f : ℕ → List K → List K}
  {cf : ℕ → ℕ → Evogil.Nsgaiii.Conf K} {trim : ℕ → List K → List K} {d : NsgaiiiDraws K} {dims : List (K × K)}
  {N : ℕ → ℕ} {maxLevel : ℕ}

/-- NSGA-III keeps the contract with the archives of the levels, at least two individuals on every level. -/
theorem nsgaiii_contract (hp : PowerLaws pw)
    (hkey : ∀ l, l ≤ maxLevel → ∀ u v, key u = key v → f l u = f l v)
    (hcf : ∀ l, l ≤ maxLevel → ∀ i, Nsgaiii.FloatConf (f l) norm (cf l i))
    (hdims : ∀ l, l ≤ maxLevel → ∀ i, (cf l i).dims = dims)
    (htrim : ∀ l, l ≤ maxLevel → ∀ i, (cf l i).trim = trim l) (hN2 : ∀ l, l ≤ maxLevel → 2 ≤ N l)
    (hd : ∀ l, l ≤ maxLevel → ∀ i k j, Nsgaiii.DrawsOk (N l) (d.ds l i k j) (d.iter i k j) (d.sample i k j)) :
    Contract (nsgaiiiOps round64 pw dot norm (1 / 2 ^ 52) key f cf d) maxLevel (FBox dims) N (fun l p => p = N l)
      (fun l s => (∃ i, s.cf = cf l i) ∧ Nsgaiii.CGood (f l) s.cf (N l) s.st ∧ ∀ v ∈ s.front, FBox dims v)
      (fun _ _ => True)
      (fun w n => ∀ l, Held key (f l) (fun k => ∃ v, FBox dims v ∧ key (trim l v) = k) (w l) (n l)) True 0 := by
  constructor
  · intro l hl i pop w n hn hP hw
    obtain ⟨a', c, e, h⟩ := nsgaiii_evaluateArch (hkey l hl) (hw l) 0
      (pop.map fun v => (⟨(cf l i).trim v, none⟩ : Evogil.Nsgaiii.Ind K)) (by
        intro x hx _
        obtain ⟨v, hv, rfl⟩ := List.mem_map.1 hx
        exact ⟨v, hP v hv, by rw [htrim l hl i]⟩)
    have e' : Evogil.Nsgaiii.initArch key (f l) (cf l i) (w l) pop =
        (a', ⟨Evogil.Nsgaiii.init (f l) (cf l i) pop, c⟩) := by
      unfold Evogil.Nsgaiii.initArch
      simp only [e, zero_add, List.map_map]
      rfl
    refine ⟨Function.update w l a', ⟨cf l i, ⟨Evogil.Nsgaiii.init (f l) (cf l i) pop, c⟩, []⟩,
      by simp only [nsgaiiiOps, e'], ⟨⟨i, rfl⟩, ?_, by simp⟩, held_update hw h⟩
    have := Nsgaiii.initCosted_good (hcf l hl i) (pop := pop) (by rw [hdims l hl i]; exact hP)
    rw [hn] at this
    exact this
  · rintro l hl i k j w n s ⟨⟨i', hi'⟩, hs, -⟩ hw
    obtain ⟨cf', st, front⟩ := s
    simp only at hi' hs
    subst hi'
    obtain ⟨raw, st', r1, r2, r3, r4, r5⟩ := Nsgaiii.stepCosted_spec (dot := dot) hp (hcf l hl i') (hN2 l hl) hs
      (hd l hl i k j)
    obtain ⟨raw', q1, -, q3, -⟩ := Nsgaiii.makeOffspring_spec hp (hcf l hl i') (inds := st.st.inds)
      (fun x hx => ⟨hs.1.box x hx, hs.2.2 x hx, hs.1.eval x hx⟩) (d.ds l i k j)
      (by rw [hs.1.size, hs.2.1]; exact (hd l hl i k j).pairs) (st.st.size / 2) 0
    obtain ⟨a', c, e3, h⟩ := nsgaiii_evaluateArch (hkey l hl) (hw l) st.cost
      (raw'.map fun x => (⟨(cf l i').trim x.v, x.objectives⟩ : Evogil.Nsgaiii.Ind K)) (by
        intro x hx _
        obtain ⟨z, hz, rfl⟩ := List.mem_map.1 hx
        refine ⟨z.v, ?_, by rw [htrim l hl i']⟩
        rw [← hdims l hl i']
        exact ⟨(q3 z hz).1, (q3 z hz).2.1⟩)
    have hall : ∀ x ∈ (raw'.map fun x => Evogil.Nsgaiii.evaluate (f l) ⟨(cf l i').trim x.v, x.objectives⟩) ++ st.st.inds,
        FBox dims x.v := by
      intro x hx
      rw [← hdims l hl i']
      rcases List.mem_append.1 hx with hx | hx
      · obtain ⟨z, hz, rfl⟩ := List.mem_map.1 hx
        have hz1 : FBox (cf l i').dims ((cf l i').trim z.v) :=
          ⟨(hcf l hl i').trimBox _ (q3 z hz).1, (hcf l hl i').trimFloats _ (q3 z hz).2.1⟩
        unfold Evogil.Nsgaiii.evaluate
        split <;> exact hz1
      · exact ⟨hs.1.box x hx, hs.2.2 x hx⟩
    obtain ⟨fr, e4, hfr⟩ : ∃ fr, Nsgaiii.stepArch round64 pw dot norm (1 / 2 ^ 52) key (f l) (cf l i') (d.ds l i k j)
        (d.iter i k j) (d.sample i k j) (w l) st = some (a', ⟨st'.st, st.cost + c⟩, fr) ∧ ∀ x ∈ fr, FBox dims x.v := by
      unfold Nsgaiii.stepCosted at r2
      rw [q1] at r2
      simp only [Option.map_eq_some_iff] at r2
      obtain ⟨t, t1, rfl⟩ := r2
      unfold Nsgaiii.step at t1
      unfold Nsgaiii.stepArch
      rw [q1] at t1 ⊢
      simp only [e3, List.map_map] at t1 ⊢
      rw [show (raw'.map (Evogil.Nsgaiii.evaluate (f l) ∘ fun x => (⟨(cf l i').trim x.v, x.objectives⟩ :
        Evogil.Nsgaiii.Ind K))) = raw'.map fun x => Evogil.Nsgaiii.evaluate (f l) ⟨(cf l i').trim x.v, x.objectives⟩ from
        rfl]
      set all := (raw'.map fun x => Evogil.Nsgaiii.evaluate (f l) ⟨(cf l i').trim x.v, x.objectives⟩) ++ st.st.inds
        with hdef
      split at t1
      · cases t1
      · rename_i objs ho
        rw [ho]
        simp only
        split_ifs at t1 ⊢
        split at t1
        · cases t1
        · rename_i idx hidx
          rw [hidx]
          cases t1
          unfold Evogil.Nsgaiii.selectIdx at hidx
          split at hidx
          · cases hidx
          · rename_i L hL
            rw [hL]
            refine ⟨_, rfl, fun x hx => ?_⟩
            obtain ⟨i, -, hi⟩ := List.mem_filterMap.1 hx
            exact hall x (List.mem_of_getElem? hi)
    refine ⟨Function.update w l a', ⟨cf l i', ⟨st'.st, st.cost + c⟩, fr.map Evogil.Nsgaiii.Ind.v⟩,
      by simp only [nsgaiiiOps, e4, Option.map_some], ⟨⟨i', rfl⟩, ⟨r3.1, r3.2.1, r3.2.2⟩, ?_⟩,
      by simp [nsgaiiiOps], ?_⟩
    · intro v hv
      obtain ⟨x, hx, rfl⟩ := List.mem_map.1 hv
      exact hfr x hx
    · simp only [nsgaiiiOps, Nat.add_sub_cancel_left]
      exact held_update hw h
  · exact fun _ _ _ _ _ _ _ _ _ _ _ _ _ => trivial
  · rintro l hl i k w n s ⟨⟨i', hi'⟩, hs, hfr⟩ - hw
    refine ⟨w, s, _, _, rfl, ⟨⟨i', hi'⟩, hs, hfr⟩, le_rfl, fun _ => rfl, ?_, ?_, ?_, hfr⟩
    · rw [Nat.sub_self, charge_zero]
      exact hw
    · rw [List.length_map, hs.1.size, hs.2.1]
    · intro v hv
      obtain ⟨x, hx, rfl⟩ := List.mem_map.1 hv
      have h1 := hs.1.box x hx
      rw [hi', hdims l hl i'] at h1
      exact ⟨h1, hs.2.2 x hx⟩

/-- C156 for NSGA-III: whole runs of HGS in floating point with NSGA-III in its nodes, at least two individuals on every
level, and archives that are empty at first. -/
theorem C156_nsgaiii {cfg : Conf (List K) K} (hm2 : cfg.maxLevel ≤ 2) (hp : PowerLaws pw)
    (hkey : ∀ l, ∀ u v, key u = key v → f l u = f l v)
    (hcf : ∀ l, l ≤ cfg.maxLevel → ∀ i, Nsgaiii.FloatConf (f l) norm (cf l i))
    (hcdims : ∀ l, l ≤ cfg.maxLevel → ∀ i, (cf l i).dims = dims)
    (htrim : ∀ l, l ≤ cfg.maxLevel → ∀ i, (cf l i).trim = trim l) (hN2 : ∀ l, l ≤ cfg.maxLevel → 2 ≤ N l)
    (hd : ∀ l, l ≤ cfg.maxLevel → ∀ i k j, Nsgaiii.DrawsOk (N l) (d.ds l i k j) (d.iter i k j) (d.sample i k j))
    {S : ℕ → Setup K} (hS : ∀ l, l ≤ cfg.maxLevel → Usable (S l)) (hdims : ∀ l, l ≤ cfg.maxLevel → (S l).dims = dims)
    (len : ℕ → ℕ) (hlen : ∀ l, 1 ≤ len l) (hv : List (List K) → K)
    (shuffle : ℕ → ℕ → List (List K) → List (List K)) (hsh : ∀ i k l, (shuffle i k l).Perm l)
    (ds : ℕ → ℕ → ℕ → ℕ → MutDraw K)
    (hds : ∀ l i k n, IsDraw (1 / 2 ^ 53) (ds l i k n).rnd) (rate eta : ℕ → K)
    (heta : ∀ l, 0 ≤ eta l) {ratio : List K} (hr : 3 ≤ ratio.length)
    (perm : List (List K) → List (List K)) (hperm : ∀ l, (perm l).Perm l)
    (population : List (List K)) (hN : N 0 ≤ population.length) (hbox : ∀ v ∈ population, FBox dims v)
    (n : ℕ) :
    ∃ s s', start (nsgaiiiOps round64 pw dot norm (1 / 2 ^ 52) key f cf d) ratio perm (N 0) (fun _ _ => none) population
        = some s ∧
      runSteps round64 cfg (nsgaiiiOps round64 pw dot norm (1 / 2 ^ 52) key f cf d) ⟨len, hv, shuffle, fun l i v =>
        populationFromDelegate round64 (S l).pw (S l).eps (ds l i) v (N l) dims (rate l) (eta l)⟩ 0 n s = some s' ∧
      (∀ v ∈ result s', FBox dims v) ∧ (1 ≤ n → N 0 ≤ (result s').length) ∧
      (∀ l k, (s'.world l k).isSome → ∃ v, FBox dims v ∧ key (trim l v) = k) ∧
      ∃ entries : ℕ → ℕ, (∀ l, Entries (s'.world l) (entries l)) ∧
        s'.tree.cost + ((s'.tree.nodes.zip s'.drivers).map fun p =>
          if p.1.pop.isEmpty then cfg.modifier p.1.level * (p.2.st.cost : K) else 0).sum =
        ((List.range 3).map fun l => cfg.modifier l * (entries l : K)).sum ∧
        ((∀ l, 0 ≤ cfg.modifier l) → ∀ F : List A, (∀ l v, FBox dims v → key (trim l v) ∈ F) →
          s'.tree.cost ≤ ((List.range 3).map fun l => cfg.modifier l * (F.length : K)).sum) :=
  C156_archived (keyOf := fun l v => key (trim l v)) hm2
    (nsgaiii_contract (dot := dot) hp (fun l _ => hkey l) hcf hcdims htrim hN2 hd)
    (fun w f h l => ⟨(h l).1, (h l).2.2⟩) (fun l => held_empty) hS hdims (fun l hl => by have := hN2 l hl; omega)
    len hlen hv shuffle hsh ds hds rate eta heta hr perm hperm population hN hbox n

end

/-! ## NSLS -/

section
variable {K : Type*} [Field K] [LinearOrder K] [IsStrictOrderedRing K] [FloorRing K] {A : Type*} [DecidableEq A]
  {key : List K → A}

section
variable {dims : List (K × K)} {trim f : List K → List K} {m : ℕ} {Q : A → Prop}

/-- What holds for the list of the local search: floats of the box with their objectives. -/
def FCur (f : List K → List K) (dims : List (K × K)) (cur : List (Evogil.Nsls.Ind K × Bool)) : Prop :=
  ∀ p ∈ cur, FBox dims p.1.v ∧ p.1.objectives = some (f p.1.v)

/-- A turn of the local search does the same as without an archive. -/
theorem lsTurnArch_spec (ht : Evogil.Nsls.TrimOk dims trim) (hf : ∀ v, Floats round64 v → Floats round64 (trim v))
    (hkey : ∀ u v, key u = key v → f u = f v)
    (hQ : ∀ v, FBox dims v → Q (key v)) {i k : ℕ} (hk : k < dims.length) {d : Evogil.Nsls.LsDraw K}
    {s : Evogil.Nsls.LsState K A} {n : ℕ} (h : Held key f Q s.archive n) (hc : FCur f dims s.cur)
    {cur' : List (Evogil.Nsls.Ind K × Bool)} (e : Nsls.lsTurn round64 dims trim f i k d s.cur = some cur') :
    ∃ a' c, Nsls.lsTurnArch round64 dims trim key f i k d s = some ⟨a', s.cost + c, cur'⟩ ∧
      Held key f Q a' (n + c) ∧ FCur f dims cur' := by
  unfold Nsls.lsTurn at e
  unfold Nsls.lsTurnArch
  split_ifs at e ⊢ with h2
  split at e
  · rename_i x u v hx hu hv
    simp only [hx, hu, hv]
    obtain ⟨hxb, -⟩ := hc x (List.mem_of_getElem? hx)
    obtain ⟨hub, -⟩ := hc u (List.mem_of_getElem? hu)
    obtain ⟨hvb, -⟩ := hc v (List.mem_of_getElem? hv)
    obtain ⟨p, hp, hpb⟩ := C124_nsls dims trim ht hf x.1.v u.1.v v.1.v hxb.1 hub.1 hvb.1 hxb.2 k hk d.c 1
    obtain ⟨q, hq, hqb⟩ := C124_nsls dims trim ht hf x.1.v u.1.v v.1.v hxb.1 hub.1 hvb.1 hxb.2 k hk d.c (-1)
    simp only [hp, hq] at e ⊢
    obtain ⟨a', c, e1, h1⟩ := nsls_evaluateArch hkey h s.cost [⟨p, none⟩, ⟨q, none⟩] (by
      intro y hy _
      simp only [List.mem_cons, List.not_mem_nil, or_false] at hy
      rcases hy with rfl | rfl
      exacts [hQ p hpb, hQ q hqb])
    refine ⟨a', c, ?_, h1, ?_⟩
    · simp only [e1, List.map_cons, List.map_nil]
      split at e
      · rename_i b1 b2 b3 b4 h3 h4 h5 h6
        simp only [h3, h4, h5, h6]
        split at e
        · rename_i w hw
          cases e
          simp only [hw]
        · rename_i hw
          cases e
          simp only [hw]
      · cases e
    · split at e
      · split at e
        · rename_i w hw
          cases e
          intro r hr
          rcases List.mem_or_eq_of_mem_set hr with hr | rfl
          · exact hc r hr
          · rcases Nsls.replacement_or hw with rfl | rfl
            exacts [⟨hpb, rfl⟩, ⟨hqb, rfl⟩]
        · cases e
          exact hc
      · cases e
  · cases e

theorem lsInnerArch_spec (ht : Evogil.Nsls.TrimOk dims trim) (hf : ∀ v, Floats round64 v → Floats round64 (trim v))
    (hkey : ∀ u v, key u = key v → f u = f v) (hQ : ∀ v, FBox dims v → Q (key v)) {i : ℕ}
    (ds : ℕ → Evogil.Nsls.LsDraw K) :
    ∀ (ks : List ℕ) (s : Evogil.Nsls.LsState K A) (n : ℕ) (cur' : List (Evogil.Nsls.Ind K × Bool)),
      (∀ k ∈ ks, k < dims.length) → FCur f dims s.cur → Held key f Q s.archive n →
      Nsls.lsInner round64 dims trim f i ds ks s.cur = some cur' →
      ∃ a' c, Nsls.lsInnerArch round64 dims trim key f i ds ks s = some ⟨a', s.cost + c, cur'⟩ ∧
        Held key f Q a' (n + c) ∧ FCur f dims cur' := by
  intro ks
  induction ks with
  | nil =>
    intro s n cur' _ hc hh e
    cases e
    exact ⟨s.archive, 0, rfl, hh, hc⟩
  | cons k ks ih =>
    intro s n cur' hks hc hh e
    rw [Nsls.lsInner] at e
    split at e
    · cases e
    · rename_i cur1 h1
      obtain ⟨a1, c1, e1, hh1, hc1⟩ := lsTurnArch_spec ht hf hkey hQ (hks k List.mem_cons_self) hh hc h1
      obtain ⟨a2, c2, g1, g2, g3⟩ := ih ⟨a1, s.cost + c1, cur1⟩ (n + c1) cur'
        (fun k' hk' => hks k' (List.mem_cons_of_mem _ hk')) hc1 hh1 e
      refine ⟨a2, c1 + c2, ?_, ?_, g3⟩
      · rw [Nsls.lsInnerArch, e1]
        simp only
        rw [g1]
        simp only [Nat.add_assoc]
      · rwa [← Nat.add_assoc]

theorem lsOuterArch_spec (ht : Evogil.Nsls.TrimOk dims trim) (hf : ∀ v, Floats round64 v → Floats round64 (trim v))
    (hkey : ∀ u v, key u = key v → f u = f v) (hQ : ∀ v, FBox dims v → Q (key v))
    (ds : ℕ → ℕ → Evogil.Nsls.LsDraw K) :
    ∀ (is : List ℕ) (s : Evogil.Nsls.LsState K A) (n : ℕ) (cur' : List (Evogil.Nsls.Ind K × Bool)),
      FCur f dims s.cur → Held key f Q s.archive n →
      Nsls.lsOuter round64 dims trim f ds is s.cur = some cur' →
      ∃ a' c, Nsls.lsOuterArch round64 dims trim key f ds is s = some ⟨a', s.cost + c, cur'⟩ ∧
        Held key f Q a' (n + c) ∧ FCur f dims cur' := by
  intro is
  induction is with
  | nil =>
    intro s n cur' hc hh e
    cases e
    exact ⟨s.archive, 0, rfl, hh, hc⟩
  | cons i is ih =>
    intro s n cur' hc hh e
    rw [Nsls.lsOuter] at e
    split at e
    · cases e
    · rename_i cur1 h1
      obtain ⟨a1, c1, e1, hh1, hc1⟩ := lsInnerArch_spec ht hf hkey hQ (ds i) (List.range dims.length) s n cur1
        (fun k hk => List.mem_range.1 hk) hc hh h1
      obtain ⟨a2, c2, g1, g2, g3⟩ := ih ⟨a1, s.cost + c1, cur1⟩ (n + c1) cur' hc1 hh1 e
      refine ⟨a2, c1 + c2, ?_, ?_, g3⟩
      · rw [Nsls.lsOuterArch, e1]
        simp only
        rw [g1]
        simp only [Nat.add_assoc]
      · rwa [← Nat.add_assoc]

end

variable {dims : List (K × K)} {trim : ℕ → List K → List K} {f : ℕ → List K → List K} {m : ℕ}
  {vdist : List K → List K → K} {d : NslsDraws K} {N : ℕ → ℕ} {maxLevel : ℕ}

/-- NSLS keeps the contract with the archives of the levels, at least two individuals on every level, if the local search
always finds a trial that is not dominated. -/
theorem nsls_contract (hb : FloatBox round64 dims) (ht : ∀ l, l ≤ maxLevel → Evogil.Nsls.TrimOk dims (trim l))
    (hft : ∀ l, l ≤ maxLevel → ∀ v, Floats round64 v → Floats round64 (trim l v))
    (hf : ∀ l, l ≤ maxLevel → ∀ v, (f l v).length = m) (hm : 1 ≤ m)
    (hkey : ∀ l, l ≤ maxLevel → ∀ u v, key u = key v → f l u = f l v) (hN2 : ∀ l, l ≤ maxLevel → 2 ≤ N l)
    (hd : ∀ l, l ≤ maxLevel → ∀ i k j, Evogil.Nsls.DrawsOk (N l) (d.ds l i k j) (d.iter i k j) (d.sample i k j))
    (hprod : ∀ l, l ≤ maxLevel → ∀ i k j inds, inds.length = N l → (∀ x ∈ inds, FBox dims x.v) →
      (∀ x ∈ inds, ∀ o, x.objectives = some o → o = f l x.v) →
      Nsls.Productive dims (trim l) (f l) (d.ds l i k j) inds) :
    Contract (nslsOps round64 dims trim key f m vdist d) maxLevel (FBox dims) N (fun l p => p = N l)
      (fun l s => (∃ done, Evogil.Nsls.CGood dims (f l) (N l) done s.1 ∧ ∀ x ∈ s.1.inds, Floats round64 x.v) ∧
        ∀ v ∈ s.2, FBox dims v)
      (fun _ _ => True)
      (fun w n => ∀ l, Held key (f l) (fun k => ∃ v, FBox dims v ∧ key v = k) (w l) (n l)) True 0 := by
  constructor
  · intro l hl i pop w n hn hP hw
    refine ⟨w, _, rfl, ⟨⟨false, ?_, Nsls.init_floats (hft l hl) fun v hv => (hP v hv).2⟩, by simp⟩, ?_⟩
    · have := Evogil.Nsls.initCosted_good (f := f l) (ht l hl) fun v hv => (hP v hv).1
      rwa [hn] at this
    · simp only [nslsOps, Evogil.Nsls.initCosted, charge_zero]
      exact hw
  · rintro l hl i k j w n s ⟨⟨done, hs, hsf⟩, -⟩ hw
    obtain ⟨s', e, h', hf', hc⟩ := (Nsls.step_good (vdist := vdist) hb (ht l hl) (hft l hl) (hf l hl) hm (hN2 l hl) hs hsf
      (hd l hl i k j)).1 (hprod l hl i k j s.1.inds hs.length (fun x hx => ⟨hs.box x hx, hsf x hx⟩) (by
        intro x hx o ho
        rw [hs.objs x hx] at ho
        split_ifs at ho
        exact (Option.some.inj ho).symm))
    obtain ⟨a1, c1, b1, hh1⟩ := nsls_evaluateArch (hkey l hl) (hw l) s.1.cost s.1.inds
      (fun x hx _ => ⟨x.v, ⟨hs.box x hx, hsf x hx⟩, rfl⟩)
    have hb' : ∀ x ∈ s.1.inds.map (Evogil.Nsls.evaluate (f l)), FBox dims x.v ∧ x.objectives = some (f l x.v) := by
      intro x hx
      obtain ⟨y, hy, rfl⟩ := List.mem_map.1 hx
      have h1 : FBox dims y.v := ⟨hs.box y hy, hsf y hy⟩
      have h3 := hs.objs y hy
      unfold Evogil.Nsls.evaluate
      cases ho : y.objectives with
      | none => exact ⟨h1, rfl⟩
      | some o =>
        simp only
        rw [ho] at h3
        cases done with
        | false => cases h3
        | true =>
          rw [ho]
          exact ⟨h1, h3⟩
    have hlen : (s.1.inds.map (Evogil.Nsls.evaluate (f l))).length = N l := by rw [List.length_map, hs.length]
    obtain ⟨a2, c2, fr, e4, hh2, hfr⟩ : ∃ a2 c2 fr, Nsls.stepArch round64 dims (trim l) key (f l) m vdist (d.ds l i k j)
        (d.iter i k j) (d.sample i k j) (w l) s.1 = some (a2, ⟨s'.inds, s'.size, s.1.cost + c1 + c2⟩, fr) ∧
        Held key (f l) (fun k => ∃ v, FBox dims v ∧ key v = k) a2 (n l + c1 + c2) ∧ ∀ x ∈ fr, FBox dims x.v := by
      unfold Nsls.stepCosted at e
      obtain ⟨t, t1, rfl⟩ := Option.map_eq_some_iff.1 e
      unfold Nsls.step Nsls.localSearch at t1
      unfold Nsls.stepArch
      simp only [b1]
      cases ho : Nsls.lsOuter round64 dims (trim l) (f l) (d.ds l i k j)
          (List.range (s.1.inds.map (Evogil.Nsls.evaluate (f l))).length)
          ((s.1.inds.map (Evogil.Nsls.evaluate (f l))).map fun x => (x, false)) with
      | none => rw [ho] at t1; cases t1
      | some cur' =>
        obtain ⟨a2, c2, b3, hh2, hcur⟩ := lsOuterArch_spec (ht l hl) (hft l hl) (hkey l hl)
          (Q := fun k => ∃ v, FBox dims v ∧ key v = k) (fun v hv => ⟨v, hv, rfl⟩) (d.ds l i k j)
          (List.range (s.1.inds.map (Evogil.Nsls.evaluate (f l))).length)
          ⟨a1, s.1.cost + c1, (s.1.inds.map (Evogil.Nsls.evaluate (f l))).map fun x => (x, false)⟩ _ cur'
          (by
            intro p hp
            obtain ⟨x, hx, rfl⟩ := List.mem_map.1 hp
            exact hb' x hx) hh1 ho
        rw [ho] at t1
        rw [b3]
        have hall : ∀ x ∈ s.1.inds.map (Evogil.Nsls.evaluate (f l)) ++ (cur'.filter fun p => p.2).map Prod.fst,
            FBox dims x.v := by
          intro x hx
          rcases List.mem_append.1 hx with hx | hx
          · exact (hb' x hx).1
          · obtain ⟨p, hp, rfl⟩ := List.mem_map.1 hx
            exact (hcur p (List.mem_of_mem_filter hp)).1
        refine ⟨a2, c2, ?_⟩
        simp only at t1 ⊢
        split at t1
        · cases t1
        · rename_i objs ho
          rw [ho]
          simp only
          split at t1
          · cases t1
          · rename_i idx hidx
            rw [hidx]
            cases t1
            unfold Evogil.Nsls.nextGeneration at hidx
            split at hidx
            · cases hidx
            · rename_i L hL
              rw [hL]
              refine ⟨_, rfl, hh2, fun x hx => ?_⟩
              obtain ⟨i, -, hi⟩ := List.mem_filterMap.1 hx
              exact hall x (List.mem_of_getElem? hi)
    refine ⟨Function.update w l a2, (⟨s'.inds, s'.size, s.1.cost + c1 + c2⟩, fr.map Evogil.Nsls.Ind.v),
      by simp only [nslsOps, e4, Option.map_some], ⟨⟨true, ⟨h'.size, h'.length, h'.box, h'.objs⟩, hf'⟩, ?_⟩, ?_, ?_⟩
    · intro v hv
      obtain ⟨x, hx, rfl⟩ := List.mem_map.1 hv
      exact hfr x hx
    · simp only [nslsOps]
      omega
    · simp only [nslsOps, Nat.add_assoc, Nat.add_sub_cancel_left]
      rw [Nat.add_assoc] at hh2
      exact held_update hw hh2
  · exact fun _ _ _ _ _ _ _ _ _ _ _ _ _ => trivial
  · rintro l hl i k w n s ⟨⟨done, hs, hsf⟩, hfr⟩ - hw
    refine ⟨w, s, _, _, rfl, ⟨⟨done, hs, hsf⟩, hfr⟩, le_rfl, fun _ => rfl, ?_, ?_, ?_, hfr⟩
    · rw [Nat.sub_self, charge_zero]
      exact hw
    · rw [List.length_map, hs.length]
    · intro v hv
      obtain ⟨x, hx, rfl⟩ := List.mem_map.1 hv
      exact ⟨hs.box x hx, hsf x hx⟩

/-- C156 for NSLS: whole runs of HGS in floating point with NSLS in its nodes, at least two individuals on every level, if the
local search always finds a trial that is not dominated (otherwise a step does not end, C149), and archives that are empty at
first. -/
theorem C156_nsls {cfg : Conf (List K) K} (hm2 : cfg.maxLevel ≤ 2) (hb : FloatBox round64 dims)
    (ht : ∀ l, l ≤ cfg.maxLevel → Evogil.Nsls.TrimOk dims (trim l))
    (hft : ∀ l, l ≤ cfg.maxLevel → ∀ v, Floats round64 v → Floats round64 (trim l v))
    (hf : ∀ l, l ≤ cfg.maxLevel → ∀ v, (f l v).length = m) (hm : 1 ≤ m)
    (hkey : ∀ l, ∀ u v, key u = key v → f l u = f l v) (hN2 : ∀ l, l ≤ cfg.maxLevel → 2 ≤ N l)
    (hd : ∀ l, l ≤ cfg.maxLevel → ∀ i k j, Evogil.Nsls.DrawsOk (N l) (d.ds l i k j) (d.iter i k j) (d.sample i k j))
    (hprod : ∀ l, l ≤ cfg.maxLevel → ∀ i k j inds, inds.length = N l → (∀ x ∈ inds, FBox dims x.v) →
      (∀ x ∈ inds, ∀ o, x.objectives = some o → o = f l x.v) →
      Nsls.Productive dims (trim l) (f l) (d.ds l i k j) inds)
    {S : ℕ → Setup K} (hS : ∀ l, l ≤ cfg.maxLevel → Usable (S l)) (hdims : ∀ l, l ≤ cfg.maxLevel → (S l).dims = dims)
    (len : ℕ → ℕ) (hlen : ∀ l, 1 ≤ len l) (hv : List (List K) → K)
    (shuffle : ℕ → ℕ → List (List K) → List (List K)) (hsh : ∀ i k l, (shuffle i k l).Perm l)
    (ds : ℕ → ℕ → ℕ → ℕ → MutDraw K)
    (hds : ∀ l i k n, IsDraw (1 / 2 ^ 53) (ds l i k n).rnd) (rate eta : ℕ → K)
    (heta : ∀ l, 0 ≤ eta l) {ratio : List K} (hr : 3 ≤ ratio.length)
    (perm : List (List K) → List (List K)) (hperm : ∀ l, (perm l).Perm l)
    (population : List (List K)) (hN : N 0 ≤ population.length) (hbox : ∀ v ∈ population, FBox dims v)
    (n : ℕ) :
    ∃ s s', start (nslsOps round64 dims trim key f m vdist d) ratio perm (N 0) (fun _ _ => none) population = some s ∧
      runSteps round64 cfg (nslsOps round64 dims trim key f m vdist d) ⟨len, hv, shuffle, fun l i v =>
        populationFromDelegate round64 (S l).pw (S l).eps (ds l i) v (N l) dims (rate l) (eta l)⟩ 0 n s = some s' ∧
      (∀ v ∈ result s', FBox dims v) ∧ (1 ≤ n → N 0 ≤ (result s').length) ∧
      (∀ l k, (s'.world l k).isSome → ∃ v, FBox dims v ∧ key v = k) ∧
      ∃ entries : ℕ → ℕ, (∀ l, Entries (s'.world l) (entries l)) ∧
        s'.tree.cost + ((s'.tree.nodes.zip s'.drivers).map fun p =>
          if p.1.pop.isEmpty then cfg.modifier p.1.level * (p.2.1.cost : K) else 0).sum =
        ((List.range 3).map fun l => cfg.modifier l * (entries l : K)).sum ∧
        ((∀ l, 0 ≤ cfg.modifier l) → ∀ F : List A, (∀ v, FBox dims v → key v ∈ F) →
          s'.tree.cost ≤ ((List.range 3).map fun l => cfg.modifier l * (F.length : K)).sum) := by
  obtain ⟨s, s', h1, h2, h3, h4, h5, en, h6, h7, h8⟩ := C156_archived (keyOf := fun _ v => key v) hm2
    (nsls_contract (vdist := vdist) hb ht hft hf hm (fun l _ => hkey l) hN2 hd hprod)
    (fun w f h l => ⟨(h l).1, (h l).2.2⟩) (fun l => held_empty) hS hdims (fun l hl => by have := hN2 l hl; omega)
    len hlen hv shuffle hsh ds hds rate eta heta hr perm hperm population hN hbox n
  exact ⟨s, s', h1, h2, h3, h4, h5, en, h6, h7, fun hp F hF => h8 hp F fun _ => hF⟩

end

/-! ## JGBL -/

section
variable {K : Type*} [Field K] [LinearOrder K] [IsStrictOrderedRing K] [FloorRing K] {A : Type*} [DecidableEq A]

/-- A step of JGBL evaluates in the step of NSGA-II, and possibly once more, trimmed floats of the box. -/
theorem jgblStep_shape {S : Setup K} {key : List K → A} {fit : List K → List K} {m jumps N : ℕ} {c : K}
    (hS : Usable S) (hp : Run.Closed S.dims) (hm : m ≤ 2 ^ 51) (hfit : ∀ v, (fit v).length = m)
    {orders : Jumping.Orders (Ind (List K) (List K))} (ho : orders.Valid)
    {dm : ℕ → MateDraw} (hdm : ∀ i, (dm i).Valid N) {dv : ℕ → VarDraw K} (hdv : ∀ i, Draws (dv i))
    {jd : ℕ → ℕ → Option Jgbl.JumpDraw} (hjd : Jumping.JumpsValid S.dims.length jumps jd) {s s1 s' : NState K A}
    (h : Rounded.Run.NInv S m c N s) (e1 : Rounded.Run.nsgaiiStep round64 S key fit m orders.inner dm dv s = some s1)
    (e : Rounded.Run.jgblStep round64 S key fit m orders dm dv jd s = some s') :
    s' = s1 ∨ ∃ inds, s'.acc = (evalAll key fit s1.acc inds).1 ∧
      (∀ x ∈ inds, x.objectives = none → ∃ v, FBox S.dims v ∧ x.v = S.trim v) ∧
      ∀ x ∈ inds, ∀ f, x.objectives = some f → f.length = m := by
  obtain ⟨t, h1, h2, -⟩ := h.step (key := key) hS hm hfit ho.inner hdm hdv
  have : t = s1 := Option.some.inj (h1.symm.trans e1)
  subst this
  have hu := Rounded.Run.union_inv hS hm hfit ho hdm hdv h h1 h2
  set all := Jgbl.asSet orders.union (s.individuals ++ t.individuals) with hall
  obtain ⟨kept, fitness, k1, k2, k3⟩ := nsgaiiSelect_ok ho.first hm s.popSize hu.nodup
  obtain ⟨front, f1, f2, f3⟩ := Jumping.firstFront_spec ho.first m hu.nodup
  simp only at k1 k2 k3 f1 f3
  unfold Rounded.Run.jgblStep at e
  rw [h1] at e
  simp only at e
  rw [← hall, hS.eps, k1, f1] at e
  simp only at e
  by_cases hlt : kept.length < front.length
  · rw [if_pos hlt] at e
    right
    set mates := front.filter fun n => n ∉ kept with hmates
    have hne : 1 ≤ mates.length := by
      by_contra hc
      have hnil : mates = [] := List.length_eq_zero_iff.1 (by omega)
      have hsub : ∀ x ∈ front, x ∈ kept := by
        intro x hx
        by_contra hxs
        have : x ∈ mates := by rw [hmates, List.mem_filter]; exact ⟨hx, by simpa using hxs⟩
        rw [hnil] at this
        simp at this
      have := (List.subperm_of_subset f2 hsub).length_le
      omega
    obtain ⟨vs, v1, v2, v3⟩ := C122_jump_partial S.dims hS.dims hp.1 hp.2 jumps (mates.map fun x => x.v)
      (by
        intro v hv
        obtain ⟨x, hx, rfl⟩ := List.mem_map.1 hv
        exact (hu.box x (f3 x (List.mem_filter.1 hx).1)).1)
      (kept.map fun x => x.v)
      (by
        intro v hv
        obtain ⟨x, hx, rfl⟩ := List.mem_map.1 hv
        exact (hu.box x (k3.subset hx)).1)
      ((List.range kept.length).map (jd mates.length)) (by simp)
      (by
        intro d hd
        obtain ⟨i, -, hi⟩ := List.mem_map.1 hd
        rw [List.length_map]
        exact hjd mates.length i d hne hi)
    rw [v1] at e
    simp only at e
    split at e
    · cases e
    · cases e
      refine ⟨_, rfl, ?_, ?_⟩
      · intro x hx hx0
        rw [Jgbl.asSet, (ho.jumped _).mem_iff, List.mem_dedup, List.mem_append] at hx
        rcases hx with hx | hx
        · obtain ⟨f, hf, -⟩ := hu.objs x (k3.subset hx)
          rw [hx0] at hf
          cases hf
        · obtain ⟨v, hv, e⟩ := List.mem_map.1 (newInds_none _ _ _ hx).2
          exact ⟨v, v3 v hv, e.symm⟩
      · intro x hx f hf
        rw [Jgbl.asSet, (ho.jumped _).mem_iff, List.mem_dedup, List.mem_append] at hx
        rcases hx with hx | hx
        · obtain ⟨g, hg, hl⟩ := hu.objs x (k3.subset hx)
          rw [hf] at hg
          cases hg
          exact hl
        · rw [(newInds_none _ _ _ hx).1] at hf
          cases hf
  · rw [if_neg hlt] at e
    cases e
    exact .inl rfl

variable {S : ℕ → Setup K} {key : List K → A} {m jumps : ℕ} {c : K} {d : JgblDraws K} {N : ℕ → ℕ}
  {dims : List (K × K)} {maxLevel : ℕ}

/-- JGBL keeps the contract in closed boxes; the archives are the ledger. -/
theorem jgbl_contract (hS : ∀ l, l ≤ maxLevel → Usable (S l))
    (hdims : ∀ l, l ≤ maxLevel → (S l).dims = dims) (hclosed : Run.Closed dims) (hm : m ≤ 2 ^ 51)
    (hfit : ∀ l i k j v, (d.fit l i k j v).length = m) (ho : ∀ i k j, (d.orders i k j).Valid)
    (hdm : ∀ l, l ≤ maxLevel → ∀ i k j n, (d.dm l i k j n).Valid (N l))
    (hdv : ∀ i k j n, Draws (d.dv i k j n))
    (hjd : ∀ i k j, Jumping.JumpsValid dims.length jumps (d.jd i k j)) :
    Contract (jgblOps round64 S key m c d) maxLevel (FBox dims) N (fun l p => p = N l)
      (fun l s => Rounded.Run.NInv (S l) m c (N l) s) (fun _ _ => True) (Ledger (fun l => (S l).trim) key dims m) True 0 := by
  have hbase := nsgaii_contract (S := S) (key := key) (m := m) (c := c)
    (d := ⟨d.fit, fun i k j => (d.orders i k j).inner, d.dm, d.dv⟩) (N := N) (dims := dims)
    (maxLevel := maxLevel) hS hdims hm hfit (fun i k j => (ho i k j).inner) hdm hdv
  constructor
  · exact hbase.make
  · intro l hl i k j w f s hs hw
    obtain ⟨w1, s1, e1, g1, c1, l1⟩ := hbase.step l hl i k j w f s hs hw
    have hinv : Rounded.Run.NInv (S l) m c (N l) { s with acc := { s.acc with archive := some (w l) } } :=
      ⟨hs.size, hs.mating, hs.ids, hs.large, hs.box, hs.objs, fun a ha k v hk => by
        cases ha; exact (hw l).2.1 k v hk⟩
    simp only [nsgaiiOps] at e1
    obtain ⟨t, e2, e3⟩ := Option.map_eq_some_iff.1 e1
    obtain ⟨e4, e5⟩ := Prod.mk.inj e3
    subst e5
    obtain ⟨s', e6, g2, -⟩ := Rounded.Run.NInv.jump (key := key) (hS l hl) (by rw [hdims l hl]; exact hclosed) hm
      (hfit l i (k + 1) (j + 1)) (ho i (k + 1) (j + 1)) (hdm l hl i k j) (hdv i k j)
      (jd := d.jd i k j) (k := jumps) (by rw [hdims l hl]; exact hjd i k j) hinv
    refine ⟨Function.update w l (s'.acc.archive.getD (w l)), s',
      by simp only [jgblOps, e6, Option.map_some], g2, ?_⟩
    rcases jgblStep_shape (hS l hl) (by rw [hdims l hl]; exact hclosed) hm (hfit l i (k + 1) (j + 1))
      (ho i (k + 1) (j + 1)) (hdm l hl i k j) (hdv i k j) (by rw [hdims l hl]; exact hjd i k j) hinv e2 e6 with
      rfl | ⟨inds, hacc, hnew, hobj⟩
    · rw [← e4] at l1
      exact ⟨c1, l1⟩
    · obtain ⟨a1, ha1⟩ : ∃ a1, t.acc.archive = some a1 := by
        unfold Rounded.Run.nsgaiiStep at e2
        split at e2
        · cases e2
        · split at e2
          · cases e2
          · cases e2
            obtain ⟨a', b, -⟩ := evalAll_entries (key := key) (hw l).1 (d.fit l i (k + 1) (j + 1))
              { s.acc with archive := some (w l) } rfl _
            exact ⟨a', b⟩
      rw [← e4] at l1
      have := l1.eval (fit := d.fit l i (k + 1) (j + 1)) (l := l) t.acc (by
        rw [Function.update_self, ha1, Option.getD_some]) (inds := inds)
        (by rw [← hdims l hl]; exact hnew) hobj (hfit l i (k + 1) (j + 1))
      rw [← hacc] at this
      obtain ⟨h1, h2⟩ := this
      obtain ⟨a2, ha2⟩ : ∃ a2, s'.acc.archive = some a2 := by
        obtain ⟨a', b, -⟩ := evalAll_entries (key := key) (l1 l).1 (d.fit l i (k + 1) (j + 1)) t.acc
          (by rw [Function.update_self, ha1, Option.getD_some]) inds
        rw [hacc]
        exact ⟨a', b⟩
      have hc1 : s.acc.cost ≤ t.acc.cost := c1
      refine ⟨hc1.trans h1, ?_⟩
      rw [ha2, Option.getD_some] at h2 ⊢
      rw [Function.update_idem] at h2
      have : charge (charge f l (t.acc.cost - s.acc.cost)) l (s'.acc.cost - t.acc.cost) =
          charge f l (s'.acc.cost - s.acc.cost) := by
        funext l'
        unfold charge
        split_ifs <;> omega
      simp only [jgblOps, ← this]
      exact h2
  · exact fun _ _ _ _ _ _ _ _ _ _ _ _ _ => trivial
  · exact hbase.conclude

/-- C156 for JGBL: whole runs of HGS in floating point with JGBL in its nodes, in closed boxes, with archives that are empty at
first. Missing: the other boxes, which a jump can leave (C151). -/
theorem C156_jgbl_partial {cfg : Conf (List K) K} (hm2 : cfg.maxLevel ≤ 2)
    (hS : ∀ l, l ≤ cfg.maxLevel → Usable (S l)) (hdims : ∀ l, l ≤ cfg.maxLevel → (S l).dims = dims)
    (hclosed : Run.Closed dims) (hm : m ≤ 2 ^ 51)
    (hfit : ∀ l i k j v, (d.fit l i k j v).length = m) (ho : ∀ i k j, (d.orders i k j).Valid)
    (hdm : ∀ l, l ≤ cfg.maxLevel → ∀ i k j n, (d.dm l i k j n).Valid (N l))
    (hdv : ∀ i k j n, Draws (d.dv i k j n))
    (hjd : ∀ i k j, Jumping.JumpsValid dims.length jumps (d.jd i k j))
    (hN1 : ∀ l, l ≤ cfg.maxLevel → 1 ≤ N l)
    (len : ℕ → ℕ) (hlen : ∀ l, 1 ≤ len l) (hv : List (List K) → K)
    (shuffle : ℕ → ℕ → List (List K) → List (List K)) (hsh : ∀ i k l, (shuffle i k l).Perm l)
    (ds : ℕ → ℕ → ℕ → ℕ → MutDraw K)
    (hds : ∀ l i k n, IsDraw (1 / 2 ^ 53) (ds l i k n).rnd) (rate eta : ℕ → K)
    (heta : ∀ l, 0 ≤ eta l) {ratio : List K} (hr : 3 ≤ ratio.length)
    (perm : List (List K) → List (List K)) (hperm : ∀ l, (perm l).Perm l)
    (population : List (List K)) (hN : N 0 ≤ population.length) (hbox : ∀ v ∈ population, FBox dims v)
    (n : ℕ) :
    ∃ s s', start (jgblOps round64 S key m c d) ratio perm (N 0) (fun _ _ => none) population = some s ∧
      runSteps round64 cfg (jgblOps round64 S key m c d) ⟨len, hv, shuffle, fun l i v =>
        populationFromDelegate round64 (S l).pw (S l).eps (ds l i) v (N l) dims (rate l) (eta l)⟩ 0 n s = some s' ∧
      (∀ v ∈ result s', FBox dims v) ∧ (1 ≤ n → N 0 ≤ (result s').length) ∧
      (∀ l k, (s'.world l k).isSome → ∃ v, FBox dims v ∧ key ((S l).trim v) = k) ∧
      ∃ entries : ℕ → ℕ, (∀ l, Entries (s'.world l) (entries l)) ∧
        s'.tree.cost + ((s'.tree.nodes.zip s'.drivers).map fun p =>
          if p.1.pop.isEmpty then cfg.modifier p.1.level * (p.2.acc.cost : K) else 0).sum =
        ((List.range 3).map fun l => cfg.modifier l * (entries l : K)).sum ∧
        ((∀ l, 0 ≤ cfg.modifier l) → ∀ F : List A, (∀ l v, FBox dims v → key ((S l).trim v) ∈ F) →
          s'.tree.cost ≤ ((List.range 3).map fun l => cfg.modifier l * (F.length : K)).sum) :=
  C156_archived (keyOf := fun l v => key ((S l).trim v)) hm2
    (jgbl_contract (c := c) hS hdims hclosed hm hfit ho hdm hdv hjd)
    (fun w f h l => ⟨(h l).1, (h l).2.2⟩) (fun l => ⟨⟨[], List.nodup_nil, rfl, by simp⟩, by simp, by simp⟩) hS hdims hN1
    len hlen hv shuffle hsh ds hds rate eta heta hr perm hperm population hN hbox n

end

/-! ## Examples -/

/-- The draws of JGBL in the example: the first individual jumps in every step. -/
def exJgbl : JgblDraws ℚ :=
  ⟨fun _ _ _ _ => Rounded.Run.exFit, fun _ _ _ => ⟨id, id, id, id, id⟩, fun _ _ _ _ _ => ⟨0, 1, true⟩,
    fun _ _ _ _ => Rounded.Run.exDraw, fun _ _ _ => exJumps⟩

/-- OMOPSO: the archive of the root after 0, 1, 2 and 4 steps; each step of the root costs two. -/
example : [0, 1, 2, 4].map (fun n => (start (K := ℚ) (omopsoOps round64 [(0, 1)] (fun _ => id) (round64 (3 / 400)) 2
      (fun _ => Islands.exHead) (fun _ _ _ _ => ⟨fun _ => (1, 0), 1, round64 (1 / 10), 2, 2, 1 / 2⟩))
      [10, 10, 10] id 2 () [[0], [6004799503160661 / 2 ^ 54], [1]]).bind (fun s =>
        (runSteps round64 Evogil.Hgs.exTreeConf (omopsoOps round64 [(0, 1)] (fun _ => id) (round64 (3 / 400)) 2
      (fun _ => Islands.exHead) (fun _ _ _ _ => ⟨fun _ => (1, 0), 1, round64 (1 / 10), 2, 2, 1 / 2⟩)) exFloatConf 0 n s).map
          fun s => (result s, s.tree.cost))) =
    [some ([], 0), some ([[0], [6004799503160661 / 2 ^ 54], [4803839602528529 / 2 ^ 54]], 4),
      some ([[0], [6004799503160661 / 2 ^ 54], [4803839602528529 / 2 ^ 54], [5644511532971021 / 2 ^ 54]], 6),
      some ([[0], [6004799503160661 / 2 ^ 54], [4803839602528529 / 2 ^ 54], [5644511532971021 / 2 ^ 54], [0]], 10)] := by
  decide +kernel

/-- NSGA-III: what has been evaluated before is found in the archive. -/
example : [0, 1, 2, 6].map (fun n => (start (K := ℚ) (nsgaiiiOps round64 Rounded.Run.exSetup.pw Evogil.Nsgaiii.dot
      (Evogil.Nsgaiii.norm id) (1 / 2 ^ 52) (id : List ℚ → List ℚ) (fun _ => Islands.exHead)
      (fun _ _ => Dist.exNsgaiiiConf) Dist.exNsgaiiiDraws)
      [10, 10, 10] id 2 (fun _ _ => none) [[0], [6004799503160661 / 2 ^ 54], [1]]).bind (fun s =>
        (runSteps round64 Evogil.Hgs.exTreeConf (nsgaiiiOps round64 Rounded.Run.exSetup.pw Evogil.Nsgaiii.dot
      (Evogil.Nsgaiii.norm id) (1 / 2 ^ 52) (id : List ℚ → List ℚ) (fun _ => Islands.exHead)
      (fun _ _ => Dist.exNsgaiiiConf) Dist.exNsgaiiiDraws) exFloatConf 0 n s).map
          fun s => (result s, s.tree.cost))) =
    [some ([], 0), some ([[0], [6004799503160661 / 2 ^ 54]], 4), some ([[0], [6004799503160661 / 2 ^ 54]], 4), some ([[0], [6004799503160661 / 2 ^ 54]], 4)] := by
  decide +kernel

/-- NSLS: the constructor evaluates nothing; the first step evaluates the two vectors and four trials, two of which are found
in the archive. -/
example : [0, 1, 2].map (fun n => (start (K := ℚ) (nslsOps round64 [(0, 1)] (fun _ => id) (id : List ℚ → List ℚ)
      (fun _ => Dist.exOpposite) 2 (fun a b => |a.getD 0 0 - b.getD 0 0|) Dist.exNslsDraws)
      [10, 10, 10] id 2 (fun _ _ => none) [[0], [6004799503160661 / 2 ^ 54], [1]]).bind (fun s =>
        (runSteps round64 Evogil.Hgs.exTreeConf (nslsOps round64 [(0, 1)] (fun _ => id) (id : List ℚ → List ℚ)
      (fun _ => Dist.exOpposite) 2 (fun a b => |a.getD 0 0 - b.getD 0 0|) Dist.exNslsDraws) exFloatConf 0 n s).map
          fun s => (result s, s.tree.cost, s.drivers.map fun x => x.1.cost))) =
    [some ([], 0, [0]), some ([[0], [6004799503160661 / 2 ^ 54]], 4, [4]), some ([[0], [6004799503160661 / 2 ^ 54]], 4, [4])] := by
  decide +kernel

/-- JGBL, six steps: four nodes, the first individual jumps in every step. -/
example : (start (K := ℚ) (jgblOps round64 (fun _ => Rounded.Run.exSetup) (id : List ℚ → List ℚ) 2 1 exJgbl)
      [10, 10, 10] id 2 (fun _ _ => none) [[0], [6004799503160661 / 2 ^ 54], [1]]).bind (fun s =>
        (runSteps round64 Evogil.Hgs.exTreeConf (jgblOps round64 (fun _ => Rounded.Run.exSetup) (id : List ℚ → List ℚ) 2 1
          exJgbl) exFloatConf 0 6 s).map
          fun s => (result s, s.tree.cost, s.tree.nodes.map fun n => (n.level, n.alive), s.drivers.map
            fun x => x.acc.cost)) =
    some ([[0], [8256599316845909 / 2 ^ 53], [0], [7881299347898367 / 2 ^ 53]], 7,
      [(0, false), (1, false), (2, true), (1, true)], [5, 4, 1, 0]) := by
  decide +kernel

theorem exThree : ∀ v ∈ ([[0], [1 / 4], [1]] : List (List ℚ)), FBox [(0, 1)] v := by
  intro v hv
  refine ⟨?_, ?_⟩
  · simp only [List.mem_cons, List.not_mem_nil, or_false] at hv
    rcases hv with rfl | rfl | rfl
    all_goals simp [InBox]
    norm_num
  · have : ∀ v ∈ ([[0], [1 / 4], [1]] : List (List ℚ)), ∀ x ∈ v, round64 x = x := by decide +kernel
    exact this v hv

theorem exQuarter : IsDraw (1 / 2 ^ 53) (1 / 4 : ℚ) := ⟨2 ^ 51, by norm_num, by norm_num⟩

theorem exHalf : IsDraw (1 / 2 ^ 53) (1 / 2 : ℚ) := ⟨2 ^ 52, by norm_num, by norm_num⟩

theorem exUnit : FloatBox round64 [((0 : ℚ), 1)] := by
  intro d hd
  simp only [List.mem_singleton] at hd
  subst hd
  decide +kernel

/-- The theorem applies to OMOPSO with two particles on each of three levels. -/
example := C156_omopso (K := ℚ) (cfg := Evogil.Hgs.exTreeConf) (dims := [(0, 1)]) (trim := fun _ => id)
  (etaV := round64 (3 / 400)) (m := 2) (fit := fun _ => Islands.exHead) (N := fun _ => 2) (g := 2)
  (dw := fun _ _ _ _ => ⟨fun _ => (1, 0), 1, 1 / 4, 2, 2, 1 / 2⟩) le_rfl
  (fun _ _ => ⟨exUnit, fun _ h => h, fun _ => rfl, by
      intro v hv x hx
      simp only [Islands.exHead, List.mem_cons, List.not_mem_nil, or_false] at hx
      rcases hx with rfl | rfl
      · cases v with
        | nil => decide +kernel
        | cons a l => exact hv a (by simp)
      · exact round64_isRounding.idem _, fun _ h => by cases h⟩) (fun _ _ => by decide) (fun _ _ => le_rfl)
  (fun _ _ _ _ => ⟨fun n h => ⟨by simp, by simp only; omega, by simp only; omega⟩,
    by constructor <;> norm_num [Swarm.turn]⟩)
  (S := fun _ => Rounded.Run.exSetup) (fun _ _ => exSetup_usable) (fun _ _ => rfl)
  (fun _ => 1) (fun _ => le_rfl) (fun p => p.flatten.sum) (fun _ _ => id) (fun _ _ _ => List.Perm.refl _)
  (fun _ _ _ _ => ⟨0, 1 / 4⟩) (fun _ _ _ _ => exQuarter) (fun _ => 1) (fun _ => 1) (fun _ => zero_le_one)
  (ratio := [10, 10, 10]) le_rfl id (fun _ => List.Perm.refl _) [[0], [1 / 4], [1]] (by decide) exThree (1 / 4)
  (by norm_num) (fun l hl => by
    have : l ≤ 2 := hl
    interval_cases l <;> norm_num [Evogil.Hgs.exTreeConf])

/-- The theorem applies to NSGA-III with two individuals on each level. -/
example (n : ℕ) := C156_nsgaiii (K := ℚ) (cfg := Evogil.Hgs.exTreeConf) (key := (id : List ℚ → List ℚ))
  (pw := Rounded.Run.exSetup.pw) (dot := Evogil.Nsgaiii.dot) (norm := Evogil.Nsgaiii.norm id)
  (f := fun _ => Islands.exHead) (cf := fun _ _ => Dist.exNsgaiiiConf) (trim := fun _ => id)
  (d := Dist.exNsgaiiiDraws) (dims := [(0, 1)]) (N := fun _ => 2) le_rfl Rounded.Run.exSetup_usable.pow
  (fun _ _ _ h => congrArg Islands.exHead h)
  (fun _ _ _ => ⟨⟨by norm_num [Dist.exNsgaiiiConf], by norm_num [Dist.exNsgaiiiConf], fun _ h => h, fun _ => rfl,
    fun _ => rfl⟩, exUnit, fun _ h => h, by
      have : ∀ r ∈ Dist.exNsgaiiiConf.refs, Evogil.Nsgaiii.norm id r ≠ 0 := by decide +kernel
      exact this⟩)
  (fun _ _ _ => rfl) (fun _ _ _ => rfl) (fun _ _ => le_rfl)
  (fun _ _ _ _ _ => ⟨fun _ => ⟨by simp [Dist.exNsgaiiiDraws], by simp [Dist.exNsgaiiiDraws], fun _ => exQuarter,
    fun _ => exHalf, fun _ => exHalf⟩, fun _ => List.Perm.refl _, fun l n h => Dist.exSample l n h⟩)
  (S := fun _ => Rounded.Run.exSetup) (fun _ _ => exSetup_usable) (fun _ _ => rfl)
  (fun _ => 1) (fun _ => le_rfl) (fun p => p.flatten.sum) (fun _ _ => id) (fun _ _ _ => List.Perm.refl _)
  (fun _ _ _ _ => ⟨0, 1 / 4⟩) (fun _ _ _ _ => exQuarter) (fun _ => 1) (fun _ => 1) (fun _ => zero_le_one)
  (ratio := [10, 10, 10]) le_rfl id (fun _ => List.Perm.refl _) [[0], [1 / 4], [1]] (by decide) exThree n

/-- The theorem applies to NSLS with two objectives that rank the vectors in opposite orders: there every trial
succeeds. -/
example (n : ℕ) := C156_nsls (K := ℚ) (cfg := Evogil.Hgs.exTreeConf) (key := (id : List ℚ → List ℚ))
  (dims := [(0, 1)]) (trim := fun _ => id) (f := fun _ => Dist.exOpposite) (m := 2)
  (vdist := fun a b => |a.getD 0 0 - b.getD 0 0|) (d := Dist.exNslsDraws) (N := fun _ => 2) le_rfl exUnit
  (fun _ _ => Dist.exTrimOk) (fun _ _ _ h => h) (fun _ _ _ => rfl) (by decide)
  (fun _ _ _ h => congrArg Dist.exOpposite h) (fun _ _ => le_rfl)
  (fun _ _ _ _ _ => ⟨fun _ _ => ⟨by simp [Dist.exNslsDraws], by simp [Dist.exNslsDraws]⟩, fun _ => List.Perm.refl _,
    fun l n h => Dist.exSample l n h⟩)
  (fun l _ i k j inds h1 h2 h3 => Nsls.C149_incomparable (m := 2) exUnit Dist.exTrimOk (fun _ h => h)
    (fun _ => rfl) (by simp) (fun x y _ _ => Dist.exOpposite_incomparable x y) (by rw [h1])
    (by rw [h1]; exact fun _ _ => ⟨by simp [Dist.exNslsDraws], by simp [Dist.exNslsDraws]⟩) h2 h3)
  (S := fun _ => Rounded.Run.exSetup) (fun _ _ => exSetup_usable) (fun _ _ => rfl)
  (fun _ => 1) (fun _ => le_rfl) (fun p => p.flatten.sum) (fun _ _ => id) (fun _ _ _ => List.Perm.refl _)
  (fun _ _ _ _ => ⟨0, 1 / 4⟩) (fun _ _ _ _ => exQuarter) (fun _ => 1) (fun _ => 1) (fun _ => zero_le_one)
  (ratio := [10, 10, 10]) le_rfl id (fun _ => List.Perm.refl _) [[0], [1 / 4], [1]] (by decide) exThree n

/-- The theorem applies to JGBL when the first individual jumps in every step. -/
example (n : ℕ) := C156_jgbl_partial (K := ℚ) (cfg := Evogil.Hgs.exTreeConf) (S := fun _ => Rounded.Run.exSetup)
  (key := (id : List ℚ → List ℚ)) (m := 2) (c := 1) (jumps := 1) (d := exJgbl) (N := fun _ => 2) (dims := [(0, 1)])
  le_rfl (fun _ _ => exSetup_usable) (fun _ _ => rfl) exSetup_closed (by norm_num) (fun _ _ _ _ _ => rfl)
  (fun _ _ _ => by constructor <;> exact fun _ => List.Perm.refl _)
  (fun _ _ _ _ _ _ => by constructor <;> simp [exJgbl]) (fun _ _ _ _ => exDraw_draws)
  (fun _ _ _ => exJumps_valid 1 le_rfl) (fun _ _ => by decide)
  (fun _ => 1) (fun _ => le_rfl) (fun p => p.flatten.sum) (fun _ _ => id) (fun _ _ _ => List.Perm.refl _)
  (fun _ _ _ _ => ⟨0, 1 / 4⟩) (fun _ _ _ _ => exQuarter) (fun _ => 1) (fun _ => 1) (fun _ => zero_le_one)
  (ratio := [10, 10, 10]) le_rfl id (fun _ => List.Perm.refl _) [[0], [1 / 4], [1]] (by decide) exThree n

end Evogil.Rounded.Hgs
