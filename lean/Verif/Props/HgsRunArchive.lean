import Verif.Model.HgsRunArchive
import Verif.Props.HgsRunRest
import Verif.Props.HgsBudgetRuns

/-!
# JGBL, NSGA-III and NSLS with the archives of the sequential HGS
-/

set_option linter.unusedSectionVars false

namespace Evogil.Hgs

open Generations Evaluation Spec

/-! ## What an archive holds -/

section
variable {K : Type*} [Field K] [LinearOrder K] [IsStrictOrderedRing K] {A : Type*} [DecidableEq A]
  {key : List K → A} {f : List K → List K} {Q : A → Prop}

/-- The archive has `n` entries, for keys with `Q` only, and what is found for a vector are its objectives. -/
def Held (key : List K → A) (f : List K → List K) (Q : A → Prop) (a : Archive A (List K)) (n : ℕ) : Prop :=
  Entries a n ∧ (∀ v o, a (key v) = some o → o = f v) ∧ ∀ k, (a k).isSome → Q k

theorem evalAll_coherent (hkey : ∀ u v, key u = key v → f u = f v) :
    ∀ (inds : List (Ind (List K) (List K))) (st : Acc (List K) A (List K)) (a : Archive A (List K)),
      st.archive = some a → (∀ v o, a (key v) = some o → o = f v) →
      (evalAll key f st inds).2 = inds.map (fun x => match x.objectives with
        | none => ⟨x.id, x.v, some (f x.v)⟩
        | some _ => x) ∧
      ∀ a', (evalAll key f st inds).1.archive = some a' → ∀ v o, a' (key v) = some o → o = f v := by
  intro inds
  induction inds with
  | nil =>
    intro st a ha hc
    refine ⟨rfl, fun a' ha' => ?_⟩
    rw [evalAll, ha] at ha'
    cases ha'
    exact hc
  | cons x inds ih =>
    intro st a ha hc
    obtain ⟨a1, e1, e2, e3⟩ : ∃ a1, (evalOne key f st x).1.archive = some a1 ∧
        (∀ v o, a1 (key v) = some o → o = f v) ∧
        (evalOne key f st x).2 = (match x.objectives with
          | none => ⟨x.id, x.v, some (f x.v)⟩
          | some _ => x) := by
      unfold evalOne
      cases ho : x.objectives with
      | some o => exact ⟨a, ha, hc, rfl⟩
      | none =>
        simp only [ha]
        cases hf : a (key x.v) with
        | some o => exact ⟨a, ha, hc, by rw [hc _ _ hf]⟩
        | none =>
          refine ⟨_, rfl, ?_, rfl⟩
          intro v o hv
          unfold Archive.set at hv
          split_ifs at hv with e
          · rw [← Option.some.inj hv]
            exact (hkey _ _ e).symm
          · exact hc v o hv
    obtain ⟨h1, h2⟩ := ih _ a1 e1 e2
    refine ⟨?_, h2⟩
    simp only [evalAll, List.map_cons]
    rw [h1, e3]

theorem evalAll_held (hkey : ∀ u v, key u = key v → f u = f v) {a : Archive A (List K)} {n : ℕ}
    (h : Held key f Q a n) (st : Acc (List K) A (List K)) (ha : st.archive = some a)
    (inds : List (Ind (List K) (List K))) (hQ : ∀ x ∈ inds, x.objectives = none → Q (key x.v)) :
    ∃ a', (evalAll key f st inds).1.archive = some a' ∧ st.cost ≤ (evalAll key f st inds).1.cost ∧
      Held key f Q a' (n + ((evalAll key f st inds).1.cost - st.cost)) := by
  obtain ⟨⟨ks, h1, rfl, h2⟩, h3, h4⟩ := h
  obtain ⟨a', ks', b1, b2, b3, b4, b5, b6⟩ := evalAll_ledger key f inds st a ks ha h1 h2
  refine ⟨a', b1, b4, ⟨ks', b2, b5, b3⟩, (evalAll_coherent hkey inds st a ha h3).2 a' b1, ?_⟩
  intro k hk
  rcases b6 k ((b3 k).1 hk) with hk | ⟨x, hx, hn, rfl⟩
  · exact h4 k ((h2 k).2 hk)
  · exact hQ x hx hn

theorem held_empty : Held key f Q (fun _ => none) 0 := ⟨⟨[], List.nodup_nil, rfl, by simp⟩, by simp, by simp⟩

theorem held_update {f : ℕ → List K → List K} {Q : ℕ → A → Prop} {w : ℕ → Archive A (List K)} {n : ℕ → ℕ}
    (h : ∀ l, Held key (f l) (Q l) (w l) (n l)) {l : ℕ} {a : Archive A (List K)} {c : ℕ}
    (ha : Held key (f l) (Q l) a (n l + c)) :
    ∀ l', Held key (f l') (Q l') (Function.update w l a l') (charge n l c l') := by
  intro l'
  by_cases e : l' = l
  · subst e
    simp only [Function.update_self, charge, if_true]
    exact ha
  · rw [Function.update_of_ne e]
    simp only [charge, if_neg e]
    exact h l'

end

/-! ## NSGA-III -/

section
variable {K : Type*} [Field K] [LinearOrder K] [IsStrictOrderedRing K] {A : Type*} [DecidableEq A]
  {key : List K → A}

/-- With an archive that holds objectives, the individuals come out as without one. -/
theorem nsgaiii_evaluateArch {f : List K → List K} {Q : A → Prop} (hkey : ∀ u v, key u = key v → f u = f v)
    {a : Archive A (List K)} {n : ℕ} (h : Held key f Q a n) (cost : ℕ) (inds : List (Nsgaiii.Ind K))
    (hQ : ∀ x ∈ inds, x.objectives = none → Q (key x.v)) :
    ∃ a' c, Nsgaiii.evaluateArch key f a cost inds = (a', cost + c, inds.map (Nsgaiii.evaluate f)) ∧
      Held key f Q a' (n + c) := by
  obtain ⟨a', b1, b2, b3⟩ := evalAll_held hkey h ⟨cost, some a, []⟩ rfl
    (inds.map fun x => ⟨0, x.v, x.objectives⟩) (by
      intro x hx hn
      obtain ⟨y, hy, rfl⟩ := List.mem_map.1 hx
      exact hQ y hy hn)
  obtain ⟨c1, -⟩ := evalAll_coherent hkey (inds.map fun x => ⟨0, x.v, x.objectives⟩) ⟨cost, some a, []⟩ a rfl
    h.2.1
  refine ⟨a', _, ?_, b3⟩
  unfold Nsgaiii.evaluateArch
  simp only [b1, Option.getD_some, c1, List.map_map, Prod.mk.injEq, true_and]
  refine ⟨by simp only at b2; omega, List.map_congr_left fun x _ => ?_⟩
  simp only [Function.comp, Nsgaiii.evaluate]
  cases ho : x.objectives with
  | none => rfl
  | some o => simp only; rw [← ho]

variable {pw : K → K → K} {sq : K → K} {eps : K} {f : ℕ → List K → List K} {cf : ℕ → ℕ → Nsgaiii.Conf K}
  {trim : ℕ → List K → List K} {d : NsgaiiiDraws K} {dims : List (K × K)} {N : ℕ → ℕ} {maxLevel : ℕ}

/-- NSGA-III keeps the contract with the archives of the sequential HGS, at least two individuals on every
level. -/
theorem nsgaiii_seq_contract (hp : PowLaws pw) (he : 0 < eps)
    (hkey : ∀ l, l ≤ maxLevel → ∀ u v, key u = key v → f l u = f l v)
    (hcf : ∀ l, l ≤ maxLevel → ∀ i, Nsgaiii.ConfOk (f l) (cf l i))
    (hdims : ∀ l, l ≤ maxLevel → ∀ i, (cf l i).dims = dims)
    (htrim : ∀ l, l ≤ maxLevel → ∀ i, (cf l i).trim = trim l) (hN2 : ∀ l, l ≤ maxLevel → 2 ≤ N l)
    (hd : ∀ l, l ≤ maxLevel → ∀ i k j, Nsgaiii.DrawsOk (N l) (d.ds l i k j) (d.iter i k j) (d.sample i k j)) :
    Contract (nsgaiiiSeqOps pw sq eps key f cf d) maxLevel (fun v => InBox v dims) N (fun l p => p = N l)
      (fun l s => (∃ i, s.cf = cf l i) ∧ Nsgaiii.CGood (f l) s.cf (N l) s.st ∧ ∀ v ∈ s.front, InBox v dims)
      (fun _ _ => True)
      (fun w n => ∀ l, Held key (f l) (fun k => ∃ v, InBox v dims ∧ key (trim l v) = k) (w l) (n l)) True 0 := by
  constructor
  · intro l hl i pop w n hn hP hw
    obtain ⟨a', c, e, h⟩ := nsgaiii_evaluateArch (hkey l hl) (hw l) 0
      (pop.map fun v => (⟨(cf l i).trim v, none⟩ : Nsgaiii.Ind K)) (by
        intro x hx _
        obtain ⟨v, hv, rfl⟩ := List.mem_map.1 hx
        exact ⟨v, hP v hv, by rw [htrim l hl i]⟩)
    have e' : Nsgaiii.initArch key (f l) (cf l i) (w l) pop = (a', ⟨Nsgaiii.init (f l) (cf l i) pop, c⟩) := by
      unfold Nsgaiii.initArch
      simp only [e, zero_add, List.map_map]
      rfl
    refine ⟨Function.update w l a', ⟨cf l i, ⟨Nsgaiii.init (f l) (cf l i) pop, c⟩, []⟩,
      by simp only [nsgaiiiSeqOps, e'], ⟨⟨i, rfl⟩, ?_, by simp⟩, held_update hw h⟩
    have := Nsgaiii.initCosted_good (hcf l hl i) (pop := pop) (by rw [hdims l hl i]; exact hP)
    rw [hn] at this
    exact ⟨this.1, this.2⟩
  · rintro l hl i k j w n s ⟨⟨i', hi'⟩, hs, -⟩ hw
    obtain ⟨cf', st, front⟩ := s
    simp only at hi' hs
    subst hi'
    obtain ⟨raw, st', r1, r2, r3, r4, r5⟩ := Nsgaiii.stepCosted_spec (sq := sq) hp he (hcf l hl i') (hN2 l hl) hs
      (hd l hl i k j)
    obtain ⟨fr, e1, e2⟩ := nsgaiii_front (sq := sq) hp he (hcf l hl i') (hN2 l hl) hs (hd l hl i k j)
    obtain ⟨raw', q1, -, q3⟩ := Nsgaiii.makeOffspring_spec hp he (hcf l hl i') hs.1.toSound (d.ds l i k j)
      (by rw [hs.1.size, hs.2]; exact (hd l hl i k j).pairs) (st.st.size / 2) 0
    obtain ⟨a', c, e3, h⟩ := nsgaiii_evaluateArch (hkey l hl) (hw l) st.cost
      (raw'.map fun x => (⟨(cf l i').trim x.v, x.objectives⟩ : Nsgaiii.Ind K)) (by
        intro x hx _
        obtain ⟨z, hz, rfl⟩ := List.mem_map.1 hx
        refine ⟨z.v, ?_, by rw [htrim l hl i']⟩
        rw [← hdims l hl i']
        exact (q3 z hz).1)
    have e4 : Nsgaiii.stepArch pw sq eps key (f l) (cf l i') (d.ds l i k j) (d.iter i k j) (d.sample i k j) (w l)
        st = some (a', ⟨st'.st, st.cost + c⟩, fr) := by
      unfold Nsgaiii.stepCosted at r2
      rw [q1] at r2
      simp only [Option.map_eq_some_iff] at r2
      obtain ⟨t, t1, rfl⟩ := r2
      unfold Nsgaiii.step at t1
      unfold Nsgaiii.stepFront at e1
      unfold Nsgaiii.stepArch
      rw [q1] at t1 e1 ⊢
      simp only [e3, List.map_map] at t1 e1 ⊢
      change (match Nsgaiii.allObjectives (raw'.map (fun x => Nsgaiii.evaluate (f l)
        ⟨(cf l i').trim x.v, x.objectives⟩) ++ st.st.inds) with
        | none => none
        | some objs => _) = _
      split at t1
      · cases t1
      · rename_i objs ho
        rw [ho] at e1 ⊢
        simp only at e1 ⊢
        split at t1
        · cases t1
        · rename_i idx hidx
          obtain ⟨fronts, f1, rfl⟩ := Option.map_eq_some_iff.1 e1
          have hidx' := hidx
          rw [show (raw'.map (Nsgaiii.evaluate (f l) ∘ fun x => (⟨(cf l i').trim x.v, x.objectives⟩ :
            Nsgaiii.Ind K))) = raw'.map fun x => Nsgaiii.evaluate (f l) ⟨(cf l i').trim x.v, x.objectives⟩ from
            rfl]
          rw [hidx', f1]
          cases t1
          rfl
    refine ⟨Function.update w l a', ⟨cf l i', ⟨st'.st, st.cost + c⟩, fr.map Nsgaiii.Ind.v⟩,
      by simp only [nsgaiiiSeqOps, e4, Option.map_some], ⟨⟨i', rfl⟩, ⟨r3.1, r3.2⟩, ?_⟩,
      by simp [nsgaiiiSeqOps], ?_⟩
    · intro v hv
      obtain ⟨x, hx, rfl⟩ := List.mem_map.1 hv
      have := e2 x hx
      rwa [hdims l hl i'] at this
    · simp only [nsgaiiiSeqOps, Nat.add_sub_cancel_left]
      exact held_update hw h
  · exact fun _ _ _ _ _ _ _ _ _ _ _ _ _ => trivial
  · rintro l hl i k w n s ⟨⟨i', hi'⟩, hs, hfr⟩ - hw
    refine ⟨w, s, _, _, rfl, ⟨⟨i', hi'⟩, hs, hfr⟩, le_rfl, fun _ => rfl, ?_, ?_, ?_, hfr⟩
    · rw [Nat.sub_self, charge_zero]
      exact hw
    · rw [List.length_map, hs.1.size, hs.2]
    · intro v hv
      obtain ⟨x, hx, rfl⟩ := List.mem_map.1 hv
      have := hs.1.box x hx
      rwa [hi', hdims l hl i'] at this

end

/-! ## NSLS -/

section
variable {K : Type*} [Field K] [LinearOrder K] [IsStrictOrderedRing K] {A : Type*} [DecidableEq A]
  {key : List K → A}

section
variable {dims : List (K × K)} {trim f : List K → List K} {m : ℕ} {Q : A → Prop}

/-- With an archive that holds objectives, the individuals come out as without one. -/
theorem nsls_evaluateArch (hkey : ∀ u v, key u = key v → f u = f v)
    {a : Archive A (List K)} {n : ℕ} (h : Held key f Q a n) (cost : ℕ) (inds : List (Nsls.Ind K))
    (hQ : ∀ x ∈ inds, x.objectives = none → Q (key x.v)) :
    ∃ a' c, Nsls.evaluateArch key f a cost inds = (a', cost + c, inds.map (Nsls.evaluate f)) ∧
      Held key f Q a' (n + c) := by
  obtain ⟨a', b1, b2, b3⟩ := evalAll_held hkey h ⟨cost, some a, []⟩ rfl
    (inds.map fun x => ⟨0, x.v, x.objectives⟩) (by
      intro x hx hn
      obtain ⟨y, hy, rfl⟩ := List.mem_map.1 hx
      exact hQ y hy hn)
  obtain ⟨c1, -⟩ := evalAll_coherent hkey (inds.map fun x => ⟨0, x.v, x.objectives⟩) ⟨cost, some a, []⟩ a rfl
    h.2.1
  refine ⟨a', _, ?_, b3⟩
  unfold Nsls.evaluateArch
  simp only [b1, Option.getD_some, c1, List.map_map, Prod.mk.injEq, true_and]
  refine ⟨by simp only at b2; omega, List.map_congr_left fun x _ => ?_⟩
  simp only [Function.comp, Nsls.evaluate]
  cases ho : x.objectives with
  | none => rfl
  | some o => simp only; rw [← ho]

/-- A turn of the local search does the same as without an archive. -/
theorem lsTurnArch_spec (ht : Nsls.TrimOk dims trim) (hkey : ∀ u v, key u = key v → f u = f v)
    (hQ : ∀ v, InBox v dims → Q (key v)) {i k : ℕ} (hk : k < dims.length) {d : Nsls.LsDraw K}
    {s : Nsls.LsState K A} {n : ℕ} (h : Held key f Q s.archive n) (hc : Nsls.CurOk f dims s.cur)
    {cur' : List (Nsls.Ind K × Bool)} (e : Nsls.lsTurn dims trim f i k d s.cur = some cur') :
    ∃ a' c, Nsls.lsTurnArch dims trim key f i k d s = some ⟨a', s.cost + c, cur'⟩ ∧
      Held key f Q a' (n + c) := by
  unfold Nsls.lsTurn at e
  unfold Nsls.lsTurnArch
  split_ifs at e ⊢ with h2
  split at e
  · rename_i x u v hx hu hv
    simp only [hx, hu, hv]
    split at e
    · rename_i uk vk huk hvk
      simp only [huk, hvk]
      simp only at e
      obtain ⟨hxb, -⟩ := hc x (List.mem_of_getElem? hx)
      obtain ⟨p, hp, hpb⟩ := Nsls.trialVector_spec ht hxb hk (d.c * (uk - vk))
      obtain ⟨q, hq, hqb⟩ := Nsls.trialVector_spec ht hxb hk (-(d.c * (uk - vk)))
      simp only [hp, hq] at e ⊢
      obtain ⟨a', c, e1, h1⟩ := nsls_evaluateArch hkey h s.cost [⟨p, none⟩, ⟨q, none⟩] (by
        intro y hy _
        simp only [List.mem_cons, List.not_mem_nil, or_false] at hy
        rcases hy with rfl | rfl
        exacts [hQ p hpb, hQ q hqb])
      refine ⟨a', c, ?_, h1⟩
      simp only [e1, List.map_cons, List.map_nil]
      split at e
      · rename_i b1 b2 b3 b4 h3 h4 h5 h6
        simp only [h3, h4, h5, h6]
        split at e
        · rename_i w hw
          cases e
          simp only [hw]
        · rename_i hw
          cases e
          simp only [hw]
      · cases e
    · cases e
  · cases e

theorem lsInnerArch_spec (ht : Nsls.TrimOk dims trim) (hf : ∀ v, (f v).length = m)
    (hkey : ∀ u v, key u = key v → f u = f v) (hQ : ∀ v, InBox v dims → Q (key v)) {N i : ℕ} (hi : i < N)
    (h2 : 2 ≤ N) (ds : ℕ → Nsls.LsDraw K) (hd : ∀ k, (ds k).pu < N ∧ (ds k).pv < N) :
    ∀ (ks : List ℕ) (s : Nsls.LsState K A) (n : ℕ), (∀ k ∈ ks, k < dims.length) → s.cur.length = N →
      Nsls.CurOk f dims s.cur → Held key f Q s.archive n →
      ∃ cur' a' c, Nsls.lsInner dims trim f i ds ks s.cur = some cur' ∧
        Nsls.lsInnerArch dims trim key f i ds ks s = some ⟨a', s.cost + c, cur'⟩ ∧ Held key f Q a' (n + c) ∧
        Nsls.CurOk f dims cur' ∧ cur'.length = N := by
  intro ks
  induction ks with
  | nil => intro s n _ hl hc hh; exact ⟨s.cur, s.archive, 0, rfl, rfl, hh, hc, hl⟩
  | cons k ks ih =>
    intro s n hks hl hc hh
    obtain ⟨cur', _, _, _, h1, h3, h4, -⟩ := Nsls.C32_turn ht hf hc (by omega) (i := i) (by omega)
      (hks k List.mem_cons_self) (ds k) (by rw [hl]; exact (hd k).1) (by rw [hl]; exact (hd k).2)
    obtain ⟨a1, c1, e1, hh1⟩ := lsTurnArch_spec ht hkey hQ (hks k List.mem_cons_self) hh hc h1
    obtain ⟨cur2, a2, c2, g1, g2, g3, g4, g5⟩ := ih ⟨a1, s.cost + c1, cur'⟩ (n + c1)
      (fun k' hk' => hks k' (List.mem_cons_of_mem _ hk')) (h4.trans hl) h3 hh1
    refine ⟨cur2, a2, c1 + c2, ?_, ?_, ?_, g4, g5⟩
    · rw [Nsls.lsInner, h1]
      exact g1
    · rw [Nsls.lsInnerArch, e1]
      simp only
      rw [g2]
      simp only [Nat.add_assoc]
    · rwa [← Nat.add_assoc]

theorem lsOuterArch_spec (ht : Nsls.TrimOk dims trim) (hf : ∀ v, (f v).length = m)
    (hkey : ∀ u v, key u = key v → f u = f v) (hQ : ∀ v, InBox v dims → Q (key v)) {N : ℕ}
    (h2 : 2 ≤ N) (ds : ℕ → ℕ → Nsls.LsDraw K) (hd : ∀ i k, (ds i k).pu < N ∧ (ds i k).pv < N) :
    ∀ (is : List ℕ) (s : Nsls.LsState K A) (n : ℕ), (∀ i ∈ is, i < N) → s.cur.length = N →
      Nsls.CurOk f dims s.cur → Held key f Q s.archive n →
      ∃ cur' a' c, Nsls.lsOuter dims trim f ds is s.cur = some cur' ∧
        Nsls.lsOuterArch dims trim key f ds is s = some ⟨a', s.cost + c, cur'⟩ ∧ Held key f Q a' (n + c) := by
  intro is
  induction is with
  | nil => intro s n _ hl hc hh; exact ⟨s.cur, s.archive, 0, rfl, rfl, hh⟩
  | cons i is ih =>
    intro s n his hl hc hh
    obtain ⟨cur1, a1, c1, e0, e1, hh1, hc1, hl1⟩ := lsInnerArch_spec ht hf hkey hQ (his i List.mem_cons_self) h2
      (ds i) (hd i) (List.range dims.length) s n (fun k hk => List.mem_range.1 hk) hl hc hh
    obtain ⟨cur2, a2, c2, g1, g2, g3⟩ := ih ⟨a1, s.cost + c1, cur1⟩ (n + c1)
      (fun k' hk' => his k' (List.mem_cons_of_mem _ hk')) hl1 hc1 hh1
    refine ⟨cur2, a2, c1 + c2, ?_, ?_, ?_⟩
    · rw [Nsls.lsOuter, e0]
      exact g1
    · rw [Nsls.lsOuterArch, e1]
      simp only
      rw [g2]
      simp only [Nat.add_assoc]
    · rwa [← Nat.add_assoc]

end

variable {dims : List (K × K)} {trim : ℕ → List K → List K} {f : ℕ → List K → List K} {m : ℕ}
  {vdist : List K → List K → K} {d : NslsDraws K} {N : ℕ → ℕ} {maxLevel : ℕ}

/-- NSLS keeps the contract with the archives of the sequential HGS, at least two individuals on every level, if
the local search always finds a trial that is not dominated. -/
theorem nsls_seq_contract (ht : ∀ l, l ≤ maxLevel → Nsls.TrimOk dims (trim l))
    (hf : ∀ l, l ≤ maxLevel → ∀ v, (f l v).length = m) (hm : 1 ≤ m)
    (hkey : ∀ l, l ≤ maxLevel → ∀ u v, key u = key v → f l u = f l v) (hN2 : ∀ l, l ≤ maxLevel → 2 ≤ N l)
    (hd : ∀ l, l ≤ maxLevel → ∀ i k j, Nsls.DrawsOk (N l) (d.ds l i k j) (d.iter i k j) (d.sample i k j))
    (hprod : ∀ l, l ≤ maxLevel → ∀ i k j (s : Nsls.Costed K) done, Nsls.CGood dims (f l) (N l) done s →
      Nsls.Productive dims (trim l) (f l) (d.ds l i k j) s.inds) :
    Contract (nslsSeqOps dims trim key f m vdist d) maxLevel (fun v => InBox v dims) N (fun l p => p = N l)
      (fun l s => (∃ done, Nsls.CGood dims (f l) (N l) done s.1) ∧ ∀ v ∈ s.2, InBox v dims)
      (fun _ _ => True)
      (fun w n => ∀ l, Held key (f l) (fun k => ∃ v, InBox v dims ∧ key v = k) (w l) (n l)) True 0 := by
  constructor
  · intro l hl i pop w n hn hP hw
    refine ⟨w, _, rfl, ⟨⟨false, ?_⟩, by simp⟩, ?_⟩
    · have := Nsls.initCosted_good (f := f l) (ht l hl) hP
      rwa [hn] at this
    · simp only [nslsSeqOps, Nsls.initCosted, charge_zero]
      exact hw
  · rintro l hl i k j w n s ⟨⟨done, hs⟩, -⟩ hw
    obtain ⟨s', e, h', hc⟩ := (hs.step (vdist := vdist) (ht l hl) (hf l hl) hm (hN2 l hl) (hd l hl i k j)).1
      (hprod l hl i k j s.1 done hs)
    obtain ⟨fr, e1, e2⟩ := nsls_front (ht l hl) (hf l hl) (hN2 l hl) hs (hd l hl i k j) e
    obtain ⟨a1, c1, b1, hh1⟩ := nsls_evaluateArch (hkey l hl) (hw l) s.1.cost s.1.inds
      (fun x hx _ => ⟨x.v, hs.box x hx, rfl⟩)
    have hb' : ∀ x ∈ s.1.inds.map (Nsls.evaluate (f l)), InBox x.v dims ∧ x.objectives = some (f l x.v) := by
      intro x hx
      obtain ⟨y, hy, rfl⟩ := List.mem_map.1 hx
      have h1 := hs.box y hy
      have h3 := hs.objs y hy
      unfold Nsls.evaluate
      cases ho : y.objectives with
      | none => exact ⟨h1, rfl⟩
      | some o =>
        simp only
        rw [ho] at h3
        cases done with
        | false => cases h3
        | true =>
          rw [ho]
          exact ⟨h1, h3⟩
    have hlen : (s.1.inds.map (Nsls.evaluate (f l))).length = N l := by rw [List.length_map, hs.length]
    obtain ⟨cur', a2, c2, b2, b3, hh2⟩ := lsOuterArch_spec (ht l hl) (hf l hl) (hkey l hl)
      (Q := fun k => ∃ v, InBox v dims ∧ key v = k) (fun v hv => ⟨v, hv, rfl⟩) (hN2 l hl) (d.ds l i k j)
      (hd l hl i k j).pairs (List.range (N l))
      ⟨a1, s.1.cost + c1, (s.1.inds.map (Nsls.evaluate (f l))).map fun x => (x, false)⟩ _
      (fun i hi => List.mem_range.1 hi) (by rw [List.length_map, hlen]) (by
        intro p hp
        obtain ⟨x, hx, rfl⟩ := List.mem_map.1 hp
        exact hb' x hx) hh1
    have e4 : Nsls.stepArch dims (trim l) key (f l) m vdist (d.ds l i k j) (d.iter i k j) (d.sample i k j) (w l)
        s.1 = some (a2, ⟨s'.inds, s'.size, s.1.cost + c1 + c2⟩, fr) := by
      unfold Nsls.stepCosted at e
      obtain ⟨t, t1, rfl⟩ := Option.map_eq_some_iff.1 e
      unfold Nsls.step Nsls.localSearch at t1
      unfold Nsls.stepFront Nsls.localSearch at e1
      unfold Nsls.stepArch
      simp only [b1]
      rw [hlen] at t1 e1 ⊢
      rw [b2] at t1 e1
      rw [b3]
      simp only at t1 e1 ⊢
      split at t1
      · cases t1
      · rename_i objs ho
        rw [ho] at e1 ⊢
        simp only at e1 ⊢
        split at t1
        · cases t1
        · rename_i idx hidx
          obtain ⟨fronts, f1, rfl⟩ := Option.map_eq_some_iff.1 e1
          rw [hidx, f1]
          cases t1
          rfl
    refine ⟨Function.update w l a2, (⟨s'.inds, s'.size, s.1.cost + c1 + c2⟩, fr.map Nsls.Ind.v),
      by simp only [nslsSeqOps, e4, Option.map_some], ⟨⟨true, ⟨h'.size, h'.length, h'.box, h'.objs⟩⟩, ?_⟩, ?_, ?_⟩
    · intro v hv
      obtain ⟨x, hx, rfl⟩ := List.mem_map.1 hv
      exact e2 x hx
    · simp only [nslsSeqOps]
      omega
    · simp only [nslsSeqOps, Nat.add_assoc, Nat.add_sub_cancel_left]
      rw [Nat.add_assoc] at hh2
      exact held_update hw hh2
  · exact fun _ _ _ _ _ _ _ _ _ _ _ _ _ => trivial
  · rintro l hl i k w n s ⟨⟨done, hs⟩, hfr⟩ - hw
    refine ⟨w, s, _, _, rfl, ⟨⟨done, hs⟩, hfr⟩, le_rfl, fun _ => rfl, ?_, ?_, ?_, hfr⟩
    · rw [Nat.sub_self, charge_zero]
      exact hw
    · rw [List.length_map, hs.length]
    · intro v hv
      obtain ⟨x, hx, rfl⟩ := List.mem_map.1 hv
      exact hs.box x hx

end

/-! ## JGBL -/

section
variable {K : Type*} [Field K] [LinearOrder K] [IsStrictOrderedRing K] [FloorSemiring K] {A : Type*}
  [DecidableEq A]

/-- A step of JGBL evaluates in the step of NSGA-II, and possibly once more, trimmed vectors of the box. -/
theorem jgblStep_shape {S : Setup K} {key : List K → A} {fit : List K → List K} {m jumps N : ℕ} {c : K}
    (hS : S.Valid) (hp : Jgbl.ProperBox S.dims) (hfit : ∀ v, (fit v).length = m)
    {orders : Jumping.Orders (Ind (List K) (List K))} (ho : orders.Valid)
    {dm : ℕ → MateDraw} (hdm : ∀ i, (dm i).Valid N) {dv : ℕ → VarDraw K} (hdv : ∀ i, (dv i).Valid)
    {jd : ℕ → ℕ → Option Jgbl.JumpDraw} (hjd : Jumping.JumpsValid S.dims.length jumps jd) {s s1 s' : NState K A}
    (h : NInv S m c N s) (e1 : nsgaiiStep S key fit m orders.inner dm dv s = some s1)
    (e : Jumping.jgblStep S key fit m orders dm dv jd s = some s') :
    s' = s1 ∨ ∃ inds, s'.acc = (evalAll key fit s1.acc inds).1 ∧
      (∀ x ∈ inds, x.objectives = none → ∃ v, InBox v S.dims ∧ x.v = S.trim v) ∧
      ∀ x ∈ inds, ∀ f, x.objectives = some f → f.length = m := by
  obtain ⟨t, h1, h2, -⟩ := h.step (key := key) hS hfit ho.inner hdm hdv
  have : t = s1 := Option.some.inj (h1.symm.trans e1)
  subst this
  have hu := Jumping.union_inv hS hfit ho hdm hdv h h1 h2
  set all := Jgbl.asSet orders.union (s.individuals ++ t.individuals) with hall
  obtain ⟨kept, fitness, k1, k2, k3⟩ := nsgaiiSelect_spec ho.first S.eps m s.popSize hu.nodup
  obtain ⟨front, f1, f2, f3⟩ := Jumping.firstFront_spec ho.first m hu.nodup
  simp only at k1 k2 k3 f1 f3
  unfold Jumping.jgblStep at e
  rw [h1] at e
  simp only at e
  rw [← hall, k1, f1] at e
  simp only at e
  by_cases hlt : kept.length < front.length
  · rw [if_pos hlt] at e
    right
    set mates := front.filter fun n => n ∉ kept with hmates
    have hne : 1 ≤ mates.length := by
      by_contra hc
      have hnil : mates = [] := List.length_eq_zero_iff.1 (by omega)
      have hsub : ∀ x ∈ front, x ∈ kept := by
        intro x hx
        by_contra hxs
        have : x ∈ mates := by rw [hmates, List.mem_filter]; exact ⟨hx, by simpa using hxs⟩
        rw [hnil] at this
        simp at this
      have := (List.subperm_of_subset f2 hsub).length_le
      omega
    obtain ⟨vs, v1, v2, v3⟩ := Jgbl.C34_jump_genes S.dims hp jumps (mates.map fun x => x.v)
      (by
        intro v hv
        obtain ⟨x, hx, rfl⟩ := List.mem_map.1 hv
        exact hu.box x (f3 x (List.mem_filter.1 hx).1))
      (kept.map fun x => x.v)
      (by
        intro v hv
        obtain ⟨x, hx, rfl⟩ := List.mem_map.1 hv
        exact hu.box x (k3.subset hx))
      ((List.range kept.length).map (jd mates.length)) (by simp)
      (by
        intro d hd
        obtain ⟨i, -, hi⟩ := List.mem_map.1 hd
        rw [List.length_map]
        exact hjd mates.length i d hne hi)
    rw [v1] at e
    simp only at e
    split at e
    · cases e
    · cases e
      refine ⟨_, rfl, ?_, ?_⟩
      · intro x hx hx0
        rw [Jgbl.asSet, (ho.jumped _).mem_iff, List.mem_dedup, List.mem_append] at hx
        rcases hx with hx | hx
        · obtain ⟨f, hf, -⟩ := hu.objs x (k3.subset hx)
          rw [hx0] at hf
          cases hf
        · obtain ⟨v, hv, e⟩ := List.mem_map.1 (newInds_none _ _ _ hx).2
          exact ⟨v, v3 v hv, e.symm⟩
      · intro x hx f hf
        rw [Jgbl.asSet, (ho.jumped _).mem_iff, List.mem_dedup, List.mem_append] at hx
        rcases hx with hx | hx
        · obtain ⟨g, hg, hl⟩ := hu.objs x (k3.subset hx)
          rw [hf] at hg
          cases hg
          exact hl
        · rw [(newInds_none _ _ _ hx).1] at hf
          cases hf
  · rw [if_neg hlt] at e
    cases e
    exact .inl rfl

variable {S : ℕ → Setup K} {key : List K → A} {m jumps : ℕ} {c : K} {d : JgblDraws K} {N : ℕ → ℕ}
  {dims : List (K × K)} {maxLevel : ℕ}

/-- JGBL keeps the contract; the archives are the ledger. -/
theorem jgbl_seq_contract (hS : ∀ l, l ≤ maxLevel → (S l).Valid)
    (hdims : ∀ l, l ≤ maxLevel → (S l).dims = dims) (hproper : Jgbl.ProperBox dims)
    (hfit : ∀ l i k j v, (d.fit l i k j v).length = m) (ho : ∀ i k j, (d.orders i k j).Valid)
    (hdm : ∀ l, l ≤ maxLevel → ∀ i k j n, (d.dm l i k j n).Valid (N l))
    (hdv : ∀ i k j n, (d.dv i k j n).Valid)
    (hjd : ∀ i k j, Jumping.JumpsValid dims.length jumps (d.jd i k j)) :
    Contract (jgblSeqOps S key m c d) maxLevel (fun v => InBox v dims) N (fun l p => p = N l)
      (fun l s => NInv (S l) m c (N l) s) (fun _ _ => True) (Ledger (fun l => (S l).trim) key dims m) True 0 := by
  have hbase := nsgaii_contract (S := S) (key := key) (m := m) (c := c)
    (d := ⟨d.fit, fun i k j => (d.orders i k j).inner, d.dm, d.dv⟩) (N := N) (dims := dims)
    (maxLevel := maxLevel) hS hdims hfit (fun i k j => (ho i k j).inner) hdm hdv
  constructor
  · exact hbase.make
  · intro l hl i k j w f s hs hw
    obtain ⟨w1, s1, e1, g1, c1, l1⟩ := hbase.step l hl i k j w f s hs hw
    have hinv : NInv (S l) m c (N l) { s with acc := { s.acc with archive := some (w l) } } :=
      ⟨hs.size, hs.mating, hs.ids, hs.large, hs.box, hs.objs, fun a ha k v hk => by
        cases ha; exact (hw l).2.1 k v hk⟩
    simp only [nsgaiiOps] at e1
    obtain ⟨t, e2, e3⟩ := Option.map_eq_some_iff.1 e1
    obtain ⟨e4, e5⟩ := Prod.mk.inj e3
    subst e5
    obtain ⟨s', e6, g2, -⟩ := hinv.jump (key := key) (hS l hl) (by rw [hdims l hl]; exact hproper)
      (hfit l i (k + 1) (j + 1)) (ho i (k + 1) (j + 1)) (hdm l hl i k j) (hdv i k j)
      (jd := d.jd i k j) (k := jumps) (by rw [hdims l hl]; exact hjd i k j)
    refine ⟨Function.update w l (s'.acc.archive.getD (w l)), s',
      by simp only [jgblSeqOps, e6, Option.map_some], g2, ?_⟩
    rcases jgblStep_shape (hS l hl) (by rw [hdims l hl]; exact hproper) (hfit l i (k + 1) (j + 1))
      (ho i (k + 1) (j + 1)) (hdm l hl i k j) (hdv i k j) (by rw [hdims l hl]; exact hjd i k j) hinv e2 e6 with
      rfl | ⟨inds, hacc, hnew, hobj⟩
    · rw [← e4] at l1
      exact ⟨c1, l1⟩
    · obtain ⟨a1, ha1⟩ : ∃ a1, t.acc.archive = some a1 := by
        unfold nsgaiiStep at e2
        split at e2
        · cases e2
        · split at e2
          · cases e2
          · cases e2
            obtain ⟨a', b, -⟩ := evalAll_entries (key := key) (hw l).1 (d.fit l i (k + 1) (j + 1))
              { s.acc with archive := some (w l) } rfl _
            exact ⟨a', b⟩
      rw [← e4] at l1
      have := l1.eval (fit := d.fit l i (k + 1) (j + 1)) (l := l) t.acc (by
        rw [Function.update_self, ha1, Option.getD_some]) (inds := inds)
        (by rw [← hdims l hl]; exact hnew) hobj (hfit l i (k + 1) (j + 1))
      rw [← hacc] at this
      obtain ⟨h1, h2⟩ := this
      obtain ⟨a2, ha2⟩ : ∃ a2, s'.acc.archive = some a2 := by
        obtain ⟨a', b, -⟩ := evalAll_entries (key := key) (l1 l).1 (d.fit l i (k + 1) (j + 1)) t.acc
          (by rw [Function.update_self, ha1, Option.getD_some]) inds
        rw [hacc]
        exact ⟨a', b⟩
      have hc1 : s.acc.cost ≤ t.acc.cost := c1
      refine ⟨hc1.trans h1, ?_⟩
      rw [ha2, Option.getD_some] at h2 ⊢
      rw [Function.update_idem] at h2
      have : charge (charge f l (t.acc.cost - s.acc.cost)) l (s'.acc.cost - t.acc.cost) =
          charge f l (s'.acc.cost - s.acc.cost) := by
        funext l'
        unfold charge
        split_ifs <;> omega
      simp only [jgblSeqOps, ← this]
      exact h2
  · exact fun _ _ _ _ _ _ _ _ _ _ _ _ _ => trivial
  · exact hbase.conclude

end

end Evogil.Hgs
