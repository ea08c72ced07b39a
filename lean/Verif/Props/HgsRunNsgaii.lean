import Verif.Props.HgsRun

/-!
# C106 for HGS with NSGA-II in its nodes
-/

set_option linter.unusedSectionVars false

namespace Evogil.Hgs

open Generations Evaluation Spec

/-! ## The ledger of an archive -/

section
variable {V F A : Type*} [DecidableEq A]

/-- Evaluation with an archive: what is charged is the number of new entries. -/
theorem evalAll_ledger (key : V → A) (fit : V → F) : ∀ (inds : List (Ind V F)) (st : Acc V A F)
    (a : Archive A F) (ks : List A), st.archive = some a → ks.Nodup →
    (∀ k, (a k).isSome ↔ k ∈ ks) →
    ∃ (a' : Archive A F) (ks' : List A), (evalAll key fit st inds).1.archive = some a' ∧ ks'.Nodup ∧
      (∀ k, (a' k).isSome ↔ k ∈ ks') ∧ st.cost ≤ (evalAll key fit st inds).1.cost ∧
      ks'.length = ks.length + ((evalAll key fit st inds).1.cost - st.cost) ∧
      ∀ k ∈ ks', k ∈ ks ∨ ∃ i ∈ inds, i.objectives = none ∧ key i.v = k := by
  intro inds
  induction inds with
  | nil => intro st a ks ha hn hk; exact ⟨a, ks, ha, hn, hk, le_rfl, by simp [evalAll], fun k h => .inl h⟩
  | cons i inds ih =>
    intro st a ks ha hn hk
    have h1 : ∃ (a1 : Archive A F) (ks1 : List A), (evalOne key fit st i).1.archive = some a1 ∧
        ks1.Nodup ∧ (∀ k, (a1 k).isSome ↔ k ∈ ks1) ∧ st.cost ≤ (evalOne key fit st i).1.cost ∧
        ks1.length = ks.length + ((evalOne key fit st i).1.cost - st.cost) ∧
        ∀ k ∈ ks1, k ∈ ks ∨ (i.objectives = none ∧ key i.v = k) := by
      unfold evalOne
      cases ho : i.objectives with
      | some f => exact ⟨a, ks, ha, hn, hk, le_rfl, by simp, fun k h => .inl h⟩
      | none =>
        simp only [ha]
        cases hf : a (key i.v) with
        | some f => simp only; exact ⟨a, ks, ha, hn, hk, le_rfl, by simp, fun k h => .inl h⟩
        | none =>
          simp only
          refine ⟨_, key i.v :: ks, rfl, List.nodup_cons.2 ⟨?_, hn⟩, ?_, Nat.le_succ _, ?_, ?_⟩
          · intro hm
            have := (hk _).2 hm
            rw [hf] at this
            cases this
          · intro k
            unfold Archive.set
            by_cases e : k = key i.v
            · simp [e]
            · rw [if_neg e, hk, List.mem_cons]
              exact ⟨Or.inr, fun h => h.resolve_left e⟩
          · rw [List.length_cons]; omega
          · intro k hk'
            rcases List.mem_cons.1 hk' with rfl | hk'
            · exact .inr ⟨trivial, rfl⟩
            · exact .inl hk'
    obtain ⟨a1, ks1, b1, b2, b3, b4, b5, b6⟩ := h1
    obtain ⟨a2, ks2, c1, c2, c3, c4, c5, c6⟩ := ih (evalOne key fit st i).1 a1 ks1 b1 b2 b3
    simp only [evalAll]
    refine ⟨a2, ks2, c1, c2, c3, b4.trans c4, by omega, ?_⟩
    intro k hk'
    rcases c6 k hk' with h | ⟨j, hj, e⟩
    · rcases b6 k h with h | e
      · exact .inl h
      · exact .inr ⟨i, by simp, e⟩
    · exact .inr ⟨j, List.mem_cons_of_mem _ hj, e⟩

/-- Evaluation of evaluated individuals changes nothing. -/
theorem evalAll_known (key : V → A) (fit : V → F) : ∀ (inds : List (Ind V F)) (st : Acc V A F),
    (∀ i ∈ inds, ∃ f, i.objectives = some f) → evalAll key fit st inds = (st, inds) := by
  intro inds
  induction inds with
  | nil => intro st _; rfl
  | cons i inds ih =>
    intro st h
    obtain ⟨f, hf⟩ := h i (by simp)
    have : evalOne key fit st i = (st, i) := by unfold evalOne; rw [hf]
    simp only [evalAll, this, ih st (fun j hj => h j (List.mem_cons_of_mem _ hj))]

end

section
variable {K : Type*} [Field K] [LinearOrder K] [IsStrictOrderedRing K] [FloorSemiring K]
  {A : Type*} [DecidableEq A]

/-- The archives of the levels hold `f l` entries on level `l`, all of them with `m` values and for
trimmed vectors of the box. -/
def Ledger (trim : ℕ → List K → List K) (key : List K → A) (dims : List (K × K)) (m : ℕ)
    (w : ℕ → Archive A (List K)) (f : ℕ → ℕ) : Prop :=
  ∀ l, Entries (w l) (f l) ∧ (∀ k v, w l k = some v → v.length = m) ∧
    ∀ k, (w l k).isSome → ∃ v, InBox v dims ∧ key (trim l v) = k

variable {S : ℕ → Setup K} {key : List K → A} {m : ℕ} {c : K} {d : NsgaiiDraws K} {N : ℕ → ℕ}
  {dims : List (K × K)} {maxLevel : ℕ} {trim : ℕ → List K → List K}

theorem Ledger.update {w : ℕ → Archive A (List K)} {f : ℕ → ℕ} (h : Ledger trim key dims m w f) {l : ℕ}
    {a : Archive A (List K)} {n : ℕ} (he : Entries a (f l + n))
    (hv : ∀ k v, a k = some v → v.length = m)
    (hk : ∀ k, (a k).isSome → ∃ v, InBox v dims ∧ key (trim l v) = k) :
    Ledger trim key dims m (Function.update w l a) (charge f l n) := by
  intro l'
  by_cases e : l' = l
  · subst e
    simp only [Function.update_self, charge, if_true]
    exact ⟨he, hv, hk⟩
  · rw [Function.update_of_ne e]
    simp only [charge, if_neg e]
    exact h l'

theorem evalAll_entries {a : Archive A (List K)} {n : ℕ} (he : Entries a n) (fit : List K → List K)
    (st : Acc (List K) A (List K)) (ha : st.archive = some a) (inds : List (Ind (List K) (List K))) :
    ∃ a', (evalAll key fit st inds).1.archive = some a' ∧ st.cost ≤ (evalAll key fit st inds).1.cost ∧
      Entries a' (n + ((evalAll key fit st inds).1.cost - st.cost)) ∧
      ∀ k, (a' k).isSome → (a k).isSome ∨ ∃ i ∈ inds, i.objectives = none ∧ key i.v = k := by
  obtain ⟨ks, h1, rfl, h2⟩ := he
  obtain ⟨a', ks', b1, b2, b3, b4, b5, b6⟩ := evalAll_ledger key fit inds st a ks ha h1 h2
  refine ⟨a', b1, b4, ⟨ks', b2, b5, b3⟩, fun k hk => ?_⟩
  rw [h2]
  exact b6 k ((b3 k).1 hk)

theorem Ledger.eval {w : ℕ → Archive A (List K)} {f : ℕ → ℕ} (h : Ledger trim key dims m w f) {l : ℕ}
    {fit : List K → List K} (st : Acc (List K) A (List K)) (hst : st.archive = some (w l))
    {inds : List (Ind (List K) (List K))}
    (hbox : ∀ x ∈ inds, x.objectives = none → ∃ v, InBox v dims ∧ x.v = trim l v)
    (hobj : ∀ x ∈ inds, ∀ f, x.objectives = some f → f.length = m) (hfit : ∀ v, (fit v).length = m) :
    st.cost ≤ (evalAll key fit st inds).1.cost ∧
      Ledger trim key dims m (Function.update w l ((evalAll key fit st inds).1.archive.getD (w l)))
        (charge f l ((evalAll key fit st inds).1.cost - st.cost)) := by
  obtain ⟨a', b1, b2, b3, b4⟩ := evalAll_entries (key := key) (h l).1 fit st hst inds
  obtain ⟨-, -, -, c4⟩ := evalAll_keeps key fit (fun f => f.length = m) hfit inds st
    (fun a ha k v hk => by rw [hst] at ha; cases ha; exact (h l).2.1 k v hk) hobj
  refine ⟨b2, ?_⟩
  rw [b1]
  refine h.update b3 (c4 a' b1) fun k hk => ?_
  rcases b4 k hk with hk | ⟨i, hi, hn, rfl⟩
  · exact (h l).2.2 k hk
  · obtain ⟨v, hv, e⟩ := hbox i hi hn
    exact ⟨v, hv, by rw [e]⟩

/-- NSGA-II keeps the contract; the archives are the ledger. -/
theorem nsgaii_contract (hS : ∀ l, l ≤ maxLevel → (S l).Valid)
    (hdims : ∀ l, l ≤ maxLevel → (S l).dims = dims)
    (hfit : ∀ l i k j v, (d.fit l i k j v).length = m) (hiter : ∀ i k j l, (d.iter i k j l).Perm l)
    (hdm : ∀ l, l ≤ maxLevel → ∀ i k j n, (d.dm l i k j n).Valid (N l))
    (hdv : ∀ i k j n, (d.dv i k j n).Valid) :
    Contract (nsgaiiOps S key m c d) maxLevel (fun v => InBox v dims) N (fun l p => p = N l)
      (fun l s => NInv (S l) m c (N l) s) (fun _ _ => True) (Ledger (fun l => (S l).trim) key dims m) True 0 := by
  have hinv : ∀ {l : ℕ} {w : ℕ → Archive A (List K)} {f : ℕ → ℕ} {s : NState K A},
      NInv (S l) m c (N l) s → Ledger (fun l => (S l).trim) key dims m w f →
      NInv (S l) m c (N l) { s with acc := { s.acc with archive := some (w l) } } := by
    intro l w f s h hw
    exact ⟨h.size, h.mating, h.ids, h.large, h.box, h.objs, fun a ha k v hk => by
      cases ha; exact (hw l).2.1 k v hk⟩
  constructor
  · intro l hl i pop w f hn hP hw
    have hinit := (NReach.inv (hS l hl) (key := key) (fit := d.fit l i 0 0) (m := m) (c := c) (N := N l)
      (hfit l i 0 0) (NReach.start (some (w l)) (fun a ha k v hk => by
        cases ha; exact (hw l).2.1 k v hk) pop hn (fun v hv => by rw [hdims l hl]; exact hP v hv))).1
    refine ⟨_, _, rfl, hinit, ?_⟩
    exact (hw.eval (fit := d.fit l i 0 0) (l := l) ⟨0, some (w l), []⟩ rfl
      (fun x hx _ => by
        obtain ⟨v, hv, e⟩ := List.mem_map.1 (newInds_none _ _ _ hx).2
        exact ⟨v, hP v hv, e.symm⟩) (by
        intro x hx f hf
        rw [(newInds_none _ _ _ hx).1] at hf; cases hf) (hfit l i 0 0)).2
  · intro l hl i k j w f s hs hw
    obtain ⟨s', e1, g1, -⟩ := NInv.step (hS l hl) (key := key) (hfit l i (k + 1) (j + 1)) (hiter i (k + 1) (j + 1))
      (hdm l hl i k j) (hdv i k j) (hinv hs hw)
    obtain ⟨inds, hacc, hnew, hobj⟩ : ∃ inds, s'.acc = (evalAll key (d.fit l i (k + 1) (j + 1))
        { s.acc with archive := some (w l) } inds).1 ∧
        (∀ x ∈ inds, x.objectives = none → ∃ v, InBox v dims ∧ x.v = (S l).trim v) ∧
        ∀ x ∈ inds, ∀ f, x.objectives = some f → f.length = m := by
      obtain ⟨kept, fitness, h1, h2, h3⟩ := nsgaiiSelect_spec (hiter i (k + 1) (j + 1)) (S l).eps m s.popSize
        hs.nodup
      rw [hs.size, min_eq_left hs.large] at h2
      obtain ⟨vs, h4, -, h5⟩ := offspring_trimmed (hS l hl) (nsgaiiBetter fitness) (nsgaiiBetter_or fitness)
        (fun x => x.v) (dm := d.dm l i k j) (dv := d.dv i k j) (individuals := kept)
        (by rw [h2]; exact hdm l hl i k j) (hdv i k j) (fun x hx => hs.box x (h3.subset hx)) s.matingSize
      have e2 := e1
      unfold nsgaiiStep at e2
      simp only [h1, h4, Option.some.injEq] at e2
      subst e2
      refine ⟨_, rfl, ?_, ?_⟩
      · intro x hx hx0
        rcases List.mem_append.1 hx with hx | hx
        · obtain ⟨f, hf, -⟩ := hs.objs x (h3.subset hx)
          rw [hx0] at hf; cases hf
        · rw [← hdims l hl]
          exact h5 _ (newInds_none _ _ _ hx).2
      · intro x hx f hf
        rcases List.mem_append.1 hx with hx | hx
        · obtain ⟨g, hg, hl⟩ := hs.objs x (h3.subset hx)
          rw [hf] at hg
          cases hg
          exact hl
        · rw [(newInds_none _ _ _ hx).1] at hf; cases hf
    have := hw.eval (fit := d.fit l i (k + 1) (j + 1)) (l := l) { s.acc with archive := some (w l) } rfl
      (inds := inds) hnew hobj (hfit l i (k + 1) (j + 1))
    rw [← hacc] at this
    exact ⟨Function.update w l (s'.acc.archive.getD (w l)), s',
      by simp only [nsgaiiOps, e1, Option.map_some], g1, this.1, this.2⟩
  · exact fun _ _ _ _ _ _ _ _ _ _ _ _ _ => trivial
  · intro l hl i k w f s hs _ hw
    have h0 := hinv hs hw
    obtain ⟨s', r, e1, g1, g2, g3⟩ := NInv.finish (key := key) (hfit l i (k + 1) 0) (hiter i (k + 1) 0) h0
    have hknown := evalAll_known key (d.fit l i (k + 1) 0) s.individuals
      { s.acc with archive := some (w l) } (fun x hx => by
        obtain ⟨y, hy, -⟩ := hs.objs x hx; exact ⟨y, hy⟩)
    have hacc : s'.acc = { s.acc with archive := some (w l) } := by
      have e2 := e1
      unfold nsgaiiFinish at e2
      simp only [hknown] at e2
      split at e2
      · cases e2
      · cases e2
        rfl
    obtain ⟨fr, e3, e4⟩ : ∃ fr, ndSort (d.iter i (k + 1) 0)
        (nsgaiiDom fun x => (objFns m).map (fun o => o x)) s.individuals.length s.individuals = some fr ∧
        ∀ x ∈ fr.headD [], x ∈ s.individuals := by
      obtain ⟨c1, c2⟩ := C05_nsgaii_sorts_by_rank (d.iter i (k + 1) 0) (hiter i (k + 1) 0) m
        (fun x => (objFns m).map (fun o => o x)) s.individuals hs.nodup (fun x _ => by simp [objFns])
      obtain ⟨fr, e3⟩ := c1 s.individuals.length le_rfl
      refine ⟨fr, e3, ?_⟩
      intro x hx
      refine (c2 _ fr e3).1.subset ?_
      cases fr with
      | nil => cases hx
      | cons y fr => exact List.mem_append_left _ hx
    have e5 : (nsgaiiOps S key m c d).conclude l i k w s = some (Function.update w l (w l), s', r,
        (fr.headD []).map fun x => x.v) := by
      simp only [nsgaiiOps, e1, hknown, nsgaiiDelegates, e3, Option.map_some, hacc, Option.getD_some]
    refine ⟨_, _, _, _, e5, g1, ?_, fun _ => ?_, ?_, ?_, ?_, ?_⟩
    · simp only [nsgaiiOps, hacc]; exact le_rfl
    · simp only [nsgaiiOps, hacc]
    · simp only [nsgaiiOps, hacc, Nat.sub_self, charge_zero, Function.update_eq_self]
      exact hw
    · rw [g3, List.length_map, g2]
    · intro v hv
      rw [g3] at hv
      obtain ⟨x, hx, rfl⟩ := List.mem_map.1 hv
      rw [← hdims l hl]
      exact g1.box x hx
    · intro v hv
      obtain ⟨x, hx, rfl⟩ := List.mem_map.1 hv
      rw [← hdims l hl]
      exact hs.box x (e4 x hx)

/-- **C106 for NSGA-II.** Whole runs of HGS with NSGA-II in its nodes, archives that are empty at
first, objective values blurred anew in every step, and any draws and set orders: however many steps are
made, nothing raises; all vectors of the result are in the box; there are at least `population_sizes[0]`
of them from the first step on; and the cost, with what the drivers of the newest sprouts have already
charged, is the sum over the levels of the cost modifier times the number of entries of the archive of
the level, which are all for trimmed vectors of the box. So a vector is paid for once on each level. If
trimming leaves only finitely many vectors, the cost never exceeds that number times the sum of the cost
modifiers, and a larger budget is never reached. -/
theorem C106_nsgaii {cfg : Conf (List K) K} (hm2 : cfg.maxLevel ≤ 2)
    (hS : ∀ l, l ≤ cfg.maxLevel → (S l).Valid) (hdims : ∀ l, l ≤ cfg.maxLevel → (S l).dims = dims)
    (hfit : ∀ l i k j v, (d.fit l i k j v).length = m) (hiter : ∀ i k j l, (d.iter i k j l).Perm l)
    (hdm : ∀ l, l ≤ cfg.maxLevel → ∀ i k j n, (d.dm l i k j n).Valid (N l))
    (hdv : ∀ i k j n, (d.dv i k j n).Valid)
    (len : ℕ → ℕ) (hlen : ∀ l, 1 ≤ len l) (hv : List (List K) → K)
    (shuffle : ℕ → ℕ → List (List K) → List (List K)) (hsh : ∀ i k l, (shuffle i k l).Perm l)
    (hN1 : ∀ l, l ≤ cfg.maxLevel → 1 ≤ N l)
    (ds : ℕ → ℕ → ℕ → ℕ → MutDraw K)
    (hds : ∀ l i k n, 0 ≤ (ds l i k n).rnd ∧ (ds l i k n).rnd ≤ 1) (rate eta : ℕ → K)
    (heta : ∀ l, 0 ≤ eta l) {ratio : List K} (hr : 3 ≤ ratio.length)
    (perm : List (List K) → List (List K)) (hperm : ∀ l, (perm l).Perm l)
    (population : List (List K)) (hN : N 0 ≤ population.length) (hbox : ∀ v ∈ population, InBox v dims)
    (n : ℕ) :
    ∃ s s', start (nsgaiiOps S key m c d) ratio perm (N 0) (fun _ _ => none) population = some s ∧
      runSteps cfg (nsgaiiOps S key m c d) ⟨len, hv, shuffle, fun l i v =>
        populationFromDelegate (S l).pw (S l).eps (ds l i) v (N l) dims (rate l) (eta l)⟩ 0 n s = some s' ∧
      (∀ v ∈ result s', InBox v dims) ∧ (1 ≤ n → N 0 ≤ (result s').length) ∧
      (∀ l k, (s'.world l k).isSome → ∃ v, InBox v dims ∧ key ((S l).trim v) = k) ∧
      ∃ entries : ℕ → ℕ, (∀ l, Entries (s'.world l) (entries l)) ∧
        s'.tree.cost + ((s'.tree.nodes.zip s'.drivers).map fun p =>
          if p.1.pop.isEmpty then cfg.modifier p.1.level * (p.2.acc.cost : K) else 0).sum =
        ((List.range 3).map fun l => cfg.modifier l * (entries l : K)).sum ∧
        ((∀ l, 0 ≤ cfg.modifier l) → ∀ F : List A, (∀ l v, InBox v dims → key ((S l).trim v) ∈ F) →
          s'.tree.cost ≤ ((List.range 3).map fun l => cfg.modifier l * (F.length : K)).sum) := by
  have hc := nsgaii_contract (key := key) (c := c) hS hdims hfit hiter hdm hdv
  have hseed : ∀ l, l ≤ cfg.maxLevel → ∀ (i : ℕ) (v : List K), InBox v dims → ∃ pop,
      populationFromDelegate (S l).pw (S l).eps (ds l i) v (N l) dims (rate l) (eta l) = some pop ∧
        pop.length = N l ∧ ∀ x ∈ pop, InBox x dims := by
    intro l hl i v hv
    obtain ⟨pop, hp⟩ := Option.isSome_iff_exists.1 (C90_from_delegate_total (hS l hl).pow (hS l hl).eps
      (ds l i) (hds l i) v (N l) dims (rate l) (eta l) (heta l) hv)
    obtain ⟨h1, -, h3⟩ := C90_from_delegate _ _ _ _ _ _ _ _ hv pop hp
    exact ⟨pop, hp, h1.trans (max_eq_right (hN1 l hl)), h3⟩
  have hw : Ledger (fun l => (S l).trim) key dims m (fun _ _ => none : ℕ → Archive A (List K)) fun _ => 0 :=
    fun l => ⟨⟨[], List.nodup_nil, rfl, by simp⟩, by simp, by simp⟩
  obtain ⟨s, s', e0, e1, h1, -, h2⟩ := C106_run hc hm2 ⟨len, hv, shuffle, fun l i v =>
    populationFromDelegate (S l).pw (S l).eps (ds l i) v (N l) dims (rate l) (eta l)⟩ hlen hsh hseed hr
    perm hperm _ hw population hN hbox n
  obtain ⟨t, f0, i0, -⟩ := hc.start (cfg := cfg) rfl hr perm hperm _ hw population hN hbox
  have : s = t := Option.some.inj (e0.symm.trans f0)
  subst this
  obtain ⟨t, f1, i1⟩ := hc.runSteps rfl hm2 ⟨len, hv, shuffle, fun l i v =>
    populationFromDelegate (S l).pw (S l).eps (ds l i) v (N l) dims (rate l) (eta l)⟩ hlen hsh hseed n 0 s i0
  have : s' = t := Option.some.inj (e1.symm.trans f1)
  subst this
  have hcost := C106_cost trivial hm2 (fun l hl h => by have := hN1 l hl; omega) s' i1
  refine ⟨s, s', e0, e1, h1, fun hn => (h2 hn).elim fun p hp => hp.1.ge.trans hp.2, fun l => (i1.world l).2.2, _, fun l => (i1.world l).1, hcost, ?_⟩
  intro hpos F hF
  have hle : s'.tree.cost ≤ ((List.range 3).map fun l => cfg.modifier l * (levelCost
      (s'.tree.nodes.map Node.level) (s'.drivers.map (nsgaiiOps S key m c d).cost) l : K)).sum := by
    rw [← hcost]
    refine le_add_of_nonneg_right (List.sum_nonneg ?_)
    intro x hx
    obtain ⟨p, -, rfl⟩ := List.mem_map.1 hx
    split_ifs
    · exact mul_nonneg (hpos _) (Nat.cast_nonneg _)
    · exact le_rfl
  refine hle.trans (List.sum_le_sum ?_)
  intro l _
  refine mul_le_mul_of_nonneg_left (Nat.cast_le.2 ?_) (hpos l)
  obtain ⟨⟨ks, k1, k2, k3⟩, -, k4⟩ := i1.world l
  rw [← k2]
  refine (k1.subperm fun k hk => ?_).length_le
  obtain ⟨v, hv, rfl⟩ := k4 k ((k3 k).2 hk)
  exact hF l v hv

end

/-- The draws of the example. -/
def exNsgaiiDraws : NsgaiiDraws ℚ :=
  ⟨fun _ _ _ _ => exFit, fun _ _ _ => id, fun _ _ _ _ _ => ⟨0, 1, true⟩, fun _ k j _ =>
    ⟨1 / 2, true, fun _ => ⟨0, 1 / (k + j + 4), 0⟩, fun _ => ⟨0, 3 / 4⟩⟩⟩

/-- After four steps the root has stopped and its sprout has run once. The archive of level 0 has five
entries, that of level 1 two: the cost is 5 + 2 / 2. -/
example : (start (K := ℚ) (nsgaiiOps (fun _ => exSetup) (id : List ℚ → List ℚ) 2 1 exNsgaiiDraws)
      [10, 10, 10] id 2 (fun _ _ => none) [[0], [1 / 2], [1]]).bind (fun s =>
        (runSteps exTreeConf (nsgaiiOps (fun _ => exSetup) id 2 1 exNsgaiiDraws) exRunConf 0 4 s).map
          fun s => (result s, s.tree.cost, s.tree.nodes.map fun n => (n.level, n.alive), s.drivers.map
            fun x => x.acc.cost)) =
    some ([[0], [1927951 / 2060602], [0], [50 / 101]], 6, [(0, false), (1, true)], [5, 2]) := by
  decide +kernel

/-- After six steps there are four nodes; the two newest have not run. The driver of one of them has
charged 1, which is not yet part of the cost 5 + 4 / 2; the other one found its vectors in the archive. -/
example : (start (K := ℚ) (nsgaiiOps (fun _ => exSetup) (id : List ℚ → List ℚ) 2 1 exNsgaiiDraws)
      [10, 10, 10] id 2 (fun _ _ => none) [[0], [1 / 2], [1]]).bind (fun s =>
        (runSteps exTreeConf (nsgaiiOps (fun _ => exSetup) id 2 1 exNsgaiiDraws) exRunConf 0 6 s).map
          fun s => (s.tree.cost, s.tree.nodes.map fun n => (n.level, n.alive, n.pop.length),
            s.drivers.map fun x => x.acc.cost)) =
    some (7, [(0, false, 2), (1, false, 2), (2, true, 0), (1, true, 0)], [5, 4, 1, 0]) := by
  decide +kernel

/-- The same, with rounding to 0 and 1. -/
def exRounded : Setup ℚ := { exSetup with trim := fun v => v.map (fun x => if x < 1 / 2 then 0 else 1) }

/-- Now there are only two vectors, and the cost stays at 2. -/
example : [1, 2, 5].map (fun n => (start (K := ℚ)
      (nsgaiiOps (fun _ => exRounded) (id : List ℚ → List ℚ) 2 1 exNsgaiiDraws)
      [10, 10, 10] id 2 (fun _ _ => none) [[0], [1 / 2], [1]]).bind (fun s =>
        (runSteps exTreeConf (nsgaiiOps (fun _ => exRounded) id 2 1 exNsgaiiDraws) exRunConf 0 n s).map
          fun s => s.tree.cost)) = [some 2, some 2, some 2] := by
  decide +kernel

theorem exBox : ∀ v ∈ [[0], [1 / 2], [(1 : ℚ)]], InBox v [((0 : ℚ), 1)] := by
  intro v hv
  simp only [List.mem_cons, List.not_mem_nil, or_false] at hv
  rcases hv with rfl | rfl | rfl <;>
    exact List.Forall₂.cons ⟨by decide +kernel, by decide +kernel⟩ List.Forall₂.nil

/-- The theorem applies to this run. -/
example (n : ℕ) := C106_nsgaii (cfg := exTreeConf) (S := fun _ => exSetup) (key := id) (m := 2) (c := 1)
  (d := exNsgaiiDraws) (N := fun _ => 2) (dims := [(0, 1)]) (by decide) (fun _ _ => exSetup_valid)
  (fun _ _ => rfl) (fun _ _ _ _ _ => rfl) (fun _ _ _ _ => List.Perm.refl _)
  (fun _ _ _ _ _ _ => by constructor <;> simp [exNsgaiiDraws])
  (fun i k j n => ⟨fun _ => ⟨by simp only [exNsgaiiDraws]; positivity, by
    simp only [exNsgaiiDraws]
    rw [div_lt_one (by positivity)]
    have h1 : (0 : ℚ) ≤ k := Nat.cast_nonneg _
    have h2 : (0 : ℚ) ≤ j := Nat.cast_nonneg _
    linarith⟩, fun _ => by simp only [exNsgaiiDraws]; norm_num⟩)
  (fun _ => 1) (fun _ => le_rfl) (fun p => p.flatten.sum) (fun _ _ => id) (fun _ _ _ => List.Perm.refl _)
  (fun _ _ => by decide) (fun _ _ _ _ => ⟨0, 1 / 4⟩) (fun _ _ _ _ => by norm_num) (fun _ => 1)
  (fun _ => 1) (fun _ => by norm_num) (ratio := [10, 10, 10]) (by decide) id (fun _ => List.Perm.refl _)
  [[0], [1 / 2], [1]] (by decide) exBox n

end Evogil.Hgs
