import Verif.Lemmas.RoundedHgsRun
import Verif.Lemmas.HgsTrim
import Verif.Props.RoundedHgs

/-!
# C159: what trimming does in floating point

As C78 (Props/Hgs), for the sequential HGS with rounding, and what it means for nodes that do not grow (C146).
-/

set_option linter.unusedSectionVars false

namespace Evogil.Rounded.Hgs

open Evogil.Hgs (Node State Conf Report aliveAt trimRedundant release Core TrimRel forall₂_get forall₂_get' forall₂_trans
  redundantLoop_spec redundantLoop_get shape init newNode release_core Grown wake)
open Binary64

section
variable {D K : Type*} [Field K] [LinearOrder K]

theorem trimNotProgressing_get (fl : K → K) (cfg : Conf D K) (ratio : List K) : ∀ (ids : List ℕ) (st st' : State D K),
    ids.Nodup → trimNotProgressing fl cfg ratio ids st = some st' → ∀ j ∈ ids, ∀ n, st.nodes[j]? = some n →
    (n.alive = true ∧ notProgressing fl cfg ratio n = some true ∧ st'.nodes[j]? =
        some { n with alive := false, ripe := true, center := some (cfg.mean n.pop) }) ∨
      (¬ (n.alive = true ∧ notProgressing fl cfg ratio n = some true) ∧ st'.nodes[j]? = some n)
  | [], _, _, _, _, j, hj, _, _ => by simp at hj
  | i :: is, st, st', hnd, h, j, hj, n, hn => by
    have hni := (List.nodup_cons.1 hnd).1
    have hnd' := (List.nodup_cons.1 hnd).2
    rw [trimNotProgressing] at h
    rcases List.mem_cons.1 hj with rfl | hj
    · simp only [hn] at h
      have skip : trimNotProgressing fl cfg ratio is st = some st' → st'.nodes[j]? = some n := fun h => by
        rw [(trimNotProgressing_spec fl cfg ratio is _ _ h).2.2.2.2 j hni, hn]
      by_cases ha : n.alive = true
      · rw [if_pos ha] at h
        split at h
        · cases h
        · rename_i hp
          left
          refine ⟨ha, hp, ?_⟩
          rw [(trimNotProgressing_spec fl cfg ratio is _ _ h).2.2.2.2 j hni]
          simp only
          rw [List.getElem?_set_self (List.getElem?_eq_some_iff.1 hn).1]
        · rename_i hp
          right
          refine ⟨?_, skip h⟩
          rintro ⟨_, h2⟩; rw [hp] at h2; cases h2
      · rw [if_neg ha] at h
        exact .inr ⟨fun h => ha h.1, skip h⟩
    · have hij : i ≠ j := fun e => hni (e ▸ hj)
      split at h
      · cases h
      · rename_i q hq
        split at h
        · split at h
          · cases h
          · exact trimNotProgressing_get fl cfg ratio is _ st' hnd' h j hj n (by
              simp only; rw [List.getElem?_set_ne hij]; exact hn)
          · exact trimNotProgressing_get fl cfg ratio is _ st' hnd' h j hj n hn
        · exact trimNotProgressing_get fl cfg ratio is _ st' hnd' h j hj n hn

/-- A node without progress, in the words of the code, with the rounding of each operation. -/
def Stalled (fl : K → K) (cfg : Conf D K) (ratio : List K) (n : Node D K) : Prop :=
  ∃ o q, n.oldHv = some o ∧ 0 < o ∧ ratio[n.level]? = some q ∧
    ∀ h, n.hv = some h → fl (fl (h / fl (o + cfg.eps)) - 1) < fl (q / 2 ^ n.level)

theorem notProgressing_iff (fl : K → K) (cfg : Conf D K) (ratio : List K) (n : Node D K) :
    notProgressing fl cfg ratio n = some true ↔ Stalled fl cfg ratio n := by
  unfold notProgressing Stalled
  cases n.oldHv with
  | none => simp
  | some o =>
    by_cases ho : 0 < o
    · cases hq : ratio[n.level]? with
      | none => simp [ho]
      | some q => cases hh : n.hv <;> simp [ho, lags]
    · simp [ho]

/-- What `trim_all` does on one level. -/
theorem trimAll_get {fl : K → K} {cfg : Conf D K} {ratio : List K} {st st' : State D K} (c : Core cfg st) {l : ℕ}
    (hl : l ≤ 2) (h : trimAll fl cfg ratio l st = some st') :
    (∀ (i : ℕ) (n : Node D K), st.nodes[i]? = some n → n.level ≠ l → st'.nodes[i]? = some n) ∧
    ∀ (i : ℕ) (n : Node D K), st.nodes[i]? = some n → n.level = l →
      ∃ n', st'.nodes[i]? = some n' ∧
        (n.alive = false → n' = n) ∧
        (n.alive = true → Stalled fl cfg ratio n →
          n' = { n with alive := false, ripe := true, center := some (cfg.mean n.pop) }) ∧
        (n.alive = true → ¬ Stalled fl cfg ratio n →
          n' = { n with alive := n'.alive, center := some (cfg.mean n.pop) } ∧
          (n'.alive = false ↔ ∃ j m m' d, st.nodes[j]? = some m ∧ st'.nodes[j]? = some m' ∧ m.level = l ∧
            (m'.ripe = true ∨ (j < i ∧ m.alive = true)) ∧ m'.center = some d ∧
            cfg.near l d (cfg.mean n.pop) = true)) := by
  unfold trimAll at h
  obtain ⟨ids, hids⟩ : ∃ ids, st.levels[l]? = some ids := ⟨_, c.tree.level_list hl⟩
  simp only [hids] at h
  split at h
  · cases h
  · rename_i s1 hs1
    have hnd := c.tree.nodup_level hl hids
    have hsort : ids.Pairwise (· < ·) := by
      have := hids
      rw [c.tree.level_list hl, Option.some.injEq] at this
      rw [← this]
      exact List.pairwise_lt_range.filter _
    obtain ⟨a1, a2, a3, a4, a5⟩ := trimNotProgressing_spec fl cfg ratio ids st s1 hs1
    have agt := trimNotProgressing_get fl cfg ratio ids st s1 hnd hs1
    have c1 : Core cfg s1 := c.of_trim a1 a2 a3 (fun n hn => by
      obtain ⟨m, hm, r⟩ := forall₂_get a4 hn
      exact r (c.root m hm))
    unfold trimRedundant at h
    obtain ⟨b1, b2, b3, b4, b5⟩ := redundantLoop_spec cfg _ _ _ s1 st' h
      (fun i hi => (List.mem_filter.1 hi).2) (hnd.filter _)
    have bgt := redundantLoop_get cfg _ _ _ s1 st' h (hnd.filter _) (by
      intro i hi
      refine ⟨fun hi' => ?_, by simp⟩
      have h1 := (List.mem_filter.1 hi).2
      have h2 := (List.mem_filter.1 hi').2
      simp [h1] at h2) (by simp)
    have hmem : ∀ {i : ℕ}, i ∈ ids ↔ ∃ n, st.nodes[i]? = some n ∧ n.level = l :=
      c.tree.mem_level hl hids
    refine ⟨fun i n hn hne => ?_, fun i n hn hnl => ?_⟩
    · have hi : i ∉ ids := fun hi => by
        obtain ⟨q, hq, e⟩ := hmem.1 hi
        rw [hn] at hq; cases hq; exact hne e
      rw [b4 i (fun h' => hi (List.mem_filter.1 h').1), a5 i hi, hn]
    · have hi : i ∈ ids := hmem.2 ⟨n, hn, hnl⟩
      -- dead nodes of the intermediate state stay as they are
      have hdead : ∀ (j : ℕ) (m : Node D K), s1.nodes[j]? = some m → m.alive = false →
          st'.nodes[j]? = some m := by
        intro j m hm ha
        rw [b4 j, hm]
        intro h'
        have := (List.mem_filter.1 h').2
        simp [aliveAt, hm, ha] at this
      rcases agt i hi n hn with ⟨ha, hp, hg⟩ | ⟨hp, hg⟩
      · rw [notProgressing_iff] at hp
        refine ⟨_, hdead i _ hg rfl, fun h' => ?_, fun _ _ => rfl, fun _ hp' => absurd hp hp'⟩
        rw [ha] at h'; cases h'
      · cases ha : n.alive with
        | false =>
          exact ⟨n, hdead i n hg ha, fun _ => rfl, fun h' => (by cases h'), fun h' => (by cases h')⟩
        | true =>
          have hns : ¬ Stalled fl cfg ratio n := fun hs => hp ⟨ha, (notProgressing_iff fl cfg ratio n).2 hs⟩
          have hif : i ∈ ids.filter (aliveAt s1) := List.mem_filter.2 ⟨hi, by simp [aliveAt, hg, ha]⟩
          obtain ⟨k, hk⟩ := List.mem_iff_getElem?.1 hif
          obtain ⟨b, e1, e2⟩ := bgt k i hk n hg
          refine ⟨_, e1, fun h' => (by cases h'), fun _ hs => absurd hs hns, fun _ _ => ⟨rfl, ?_⟩⟩
          simp only [ha, Bool.true_and, Bool.not_eq_false']
          rw [e2]
          have hpw : (ids.filter (aliveAt s1)).Pairwise (· < ·) := hsort.filter _
          have htake : ∀ j, j ∈ (ids.filter (aliveAt s1)).take k ↔
              j ∈ ids.filter (aliveAt s1) ∧ j < i := by
            intro j
            obtain ⟨hk1, hk2⟩ := List.getElem?_eq_some_iff.1 hk
            rw [List.pairwise_iff_getElem] at hpw
            constructor
            · intro hj
              obtain ⟨p, hp1, hp2⟩ := List.mem_iff_getElem.1 hj
              simp only [List.length_take, List.getElem_take] at hp1 hp2
              refine ⟨hp2 ▸ List.getElem_mem _, ?_⟩
              rw [← hp2, ← hk2]
              exact hpw p k _ hk1 (by omega)
            · rintro ⟨hj, hlt⟩
              obtain ⟨p, hp1, hp2⟩ := List.mem_iff_getElem.1 hj
              have hpk : p < k := by
                by_contra hge
                rcases Nat.lt_or_eq_of_le (Nat.le_of_not_lt hge) with h' | h'
                · have := hpw k p hk1 hp1 h'
                  rw [hp2, hk2] at this; omega
                · subst h'; rw [hp2] at hk2; omega
              rw [List.mem_iff_getElem]
              exact ⟨p, by simp; omega, by simp [hp2]⟩
          -- a node of the level in `s1` comes from one in `st`
          have hback : ∀ (j : ℕ) (m1 : Node D K), s1.nodes[j]? = some m1 → ∃ m, st.nodes[j]? = some m ∧
              m.level = m1.level ∧ (m1.alive = true → m.alive = true) := by
            intro j m1 hm1
            obtain ⟨m, hm, r⟩ := forall₂_get a3 hm1
            have hsh := r.shape
            simp only [shape, Prod.mk.injEq] at hsh
            refine ⟨m, hm, hsh.1.symm, fun h' => ?_⟩
            by_contra hma
            have := r.dead (by simpa using hma)
            subst this; exact hma h'
          constructor
          · rintro (⟨j, hj, q, d, hq, h1, h2, h3⟩ | ⟨j, hj, q, d, hq, h2, h3⟩)
            · have hjm := List.mem_filter.1 hj
              obtain ⟨m, hm, e⟩ := hmem.1 hjm.1
              have hqa : q.alive = false := by simpa [aliveAt, hq] using hjm.2
              exact ⟨j, m, q, d, hm, hdead j q hq hqa, e, .inl h1, h2, hnl ▸ h3⟩
            · rw [List.nil_append, htake] at hj
              have hjm := List.mem_filter.1 hj.1
              obtain ⟨m, hm, e⟩ := hmem.1 hjm.1
              refine ⟨j, m, q, d, hm, hq, e, .inr ⟨hj.2, ?_⟩, h2, hnl ▸ h3⟩
              obtain ⟨m1, hm1, _⟩ := forall₂_get b3 hq
              obtain ⟨m', hm', _, hal⟩ := hback j m1 hm1
              rw [hm] at hm'; cases hm'
              exact hal (by simpa [aliveAt, hm1] using hjm.2)
          · rintro ⟨j, m, m', d, hm, hm', hml, hor, h2, h3⟩
            have hjm : j ∈ ids := hmem.2 ⟨m, hm, hml⟩
            obtain ⟨m1, hm1, r⟩ := forall₂_get b3 hm'
            by_cases hja : m1.alive = true
            · have hjf : j ∈ ids.filter (aliveAt s1) :=
                List.mem_filter.2 ⟨hjm, by simp [aliveAt, hm1, hja]⟩
              have hlt : j < i := by
                rcases hor with hr | ⟨hlt, _⟩
                · exfalso
                  obtain ⟨k', hk'⟩ := List.mem_iff_getElem?.1 hjf
                  obtain ⟨b', e1', _⟩ := bgt k' j hk' m1 hm1
                  rw [hm'] at e1'; cases e1'
                  exact c1.flags m1 (List.mem_of_getElem? hm1) ⟨hja, hr⟩
                · exact hlt
              right
              exact ⟨j, by rw [List.nil_append, htake]; exact ⟨hjf, hlt⟩, m', d, hm', h2, hnl.symm ▸ h3⟩
            · have hja' : m1.alive = false := by simpa using hja
              have := hdead j m1 hm1 hja'
              rw [hm'] at this; cases this
              left
              refine ⟨j, List.mem_filter.2 ⟨hjm, by simp [aliveAt, hm1, hja']⟩, m', d, hm1, ?_, h2, hnl.symm ▸ h3⟩
              rcases hor with hr | ⟨_, hma⟩
              · exact hr
              · rcases agt j hjm m hm with ⟨_, _, hg'⟩ | ⟨_, hg'⟩
                · rw [hm1] at hg'; cases hg'; rfl
                · rw [hm1] at hg'; cases hg'
                  rw [hja'] at hma; cases hma

/-! ## Reachable states -/

/-- The states after any number of steps, whatever the drivers report. -/
def Reachable (fl : K → K) (cfg : Conf D K) (ratio₀ : List K) (st : State D K) (ratio : List K) : Prop :=
  ∃ (fuel : ℕ) (envs : List (ℕ → Report D K)), cfg.maxLevel < fuel ∧
    run fl cfg fuel envs init ratio₀ = some (st, ratio)

theorem run_core' {fl : K → K} {cfg : Conf D K} (hm : cfg.maxLevel ≤ 2) {fuel : ℕ} (hf : cfg.maxLevel < fuel) :
    ∀ (envs : List (ℕ → Report D K)) (st : State D K) (ratio : List K), 3 ≤ ratio.length → Core cfg st →
      (∃ n ∈ st.nodes, n.alive = true) → ∃ st' ratio', run fl cfg fuel envs st ratio = some (st', ratio') ∧ Core cfg st' ∧
        ratio'.length = ratio.length ∧ ∃ n ∈ st'.nodes, n.alive = true
  | [], st, ratio, _, c, ha => ⟨st, ratio, rfl, c, rfl, ha⟩
  | env :: envs, st, ratio, hr, c, ha => by
    obtain ⟨s1, r1, e1, ok, hl⟩ := step_all fl hm hf hr c env
    obtain ⟨s2, r2, e2, c2, hl2, ha2⟩ := run_core' (fl := fl) hm hf envs s1 r1 (by omega) ok.core ok.alive
    exact ⟨s2, r2, by simp only [run, e1, e2], c2, by omega, ha2⟩

theorem Reachable.core {fl : K → K} {cfg : Conf D K} (hm : cfg.maxLevel ≤ 2) {r₀ : List K} (h₀ : 3 ≤ r₀.length)
    {st : State D K} {ratio : List K} (h : Reachable fl cfg r₀ st ratio) :
    Core cfg st ∧ 3 ≤ ratio.length ∧ ∃ n ∈ st.nodes, n.alive = true := by
  obtain ⟨fuel, envs, hf, h⟩ := h
  obtain ⟨s, r, e, c, hl, ha⟩ := run_core' (fl := fl) hm hf envs init r₀ h₀ (Evogil.Hgs.init_core cfg)
    ⟨newNode 0 none, by simp [init], rfl⟩
  rw [h] at e; cases e
  exact ⟨c, hl ▸ h₀, ha⟩

/-! ## C159 -/

/-- C159: what trimming does. Finished nodes stay as they are. A living node without progress is stopped and becomes ripe. Any
other living node is stopped, without becoming ripe, exactly if its centre is near the centre of a ripe node of its level, or
of an earlier one of its level that was alive before trimming. -/
theorem C159_trim (fl : K → K) (cfg : Conf D K) (hm : cfg.maxLevel ≤ 2) {r₀ : List K} (hr : 3 ≤ r₀.length)
    {st s s' : State D K} {ratio : List K} (h : Reachable fl cfg r₀ st ratio) (env : ℕ → Report D K)
    (h1 : runMetaepoch fl cfg env st = some s) (h2 : trimSprouts fl cfg ratio s = some s') (i : ℕ) (n : Node D K)
    (hn : s.nodes[i]? = some n) :
    ∃ n', s'.nodes[i]? = some n' ∧ (n.alive = false → n' = n) ∧
      (n.alive = true → Stalled fl cfg ratio n → n'.alive = false ∧ n'.ripe = true) ∧
      (n.alive = true → ¬ Stalled fl cfg ratio n → n'.ripe = false ∧ n'.center = some (cfg.mean n.pop) ∧
        (n'.alive = false ↔ ∃ j m m' d, s.nodes[j]? = some m ∧ s'.nodes[j]? = some m' ∧ m.level = n.level ∧
          (m'.ripe = true ∨ (j < i ∧ m.alive = true)) ∧ m'.center = some d ∧
          cfg.near n.level d (cfg.mean n.pop) = true)) := by
  obtain ⟨c, hl, _⟩ := h.core hm hr
  obtain ⟨s1, e1, c1⟩ := Evogil.Hgs.run_core c (exactEnv fl env st)
  rw [← runMetaepoch_eq fl c.tree env, h1] at e1; cases e1
  obtain ⟨a2, f2, d2, r2, _⟩ := trimAll_core (fl := fl) hm hl c1 (l := 2) (by omega)
  obtain ⟨a1, f1, d1, r1, _⟩ := trimAll_core (fl := fl) hm hl d2 (l := 1) (by omega)
  obtain ⟨a0, f0, d0, r0, _⟩ := trimAll_core (fl := fl) hm hl d1 (l := 0) (by omega)
  have : s' = a0 := by
    simp only [trimSprouts, f2, f1, f0, Option.bind_some, Option.some.injEq] at h2
    exact h2.symm
  subst this
  obtain ⟨k2, g2⟩ := trimAll_get c1 (by omega) f2
  obtain ⟨k1, g1⟩ := trimAll_get d2 (by omega) f1
  obtain ⟨k0, g0⟩ := trimAll_get d1 (by omega) f0
  have hflags := c1.flags n (List.mem_of_getElem? hn)
  have hd := c1.tree.depth n (List.mem_of_getElem? hn)
  -- the same statement for a level trimmed between two states which agree with `s`, `s'` on it
  have key : ∀ (l : ℕ) (u v : State D K), n.level = l →
      (∀ (j : ℕ) (m : Node D K), m.level = l → (u.nodes[j]? = some m ↔ s.nodes[j]? = some m)) →
      (∀ (j : ℕ) (m : Node D K), m.level = l → (v.nodes[j]? = some m ↔ s'.nodes[j]? = some m)) →
      List.Forall₂ TrimRel s.nodes s'.nodes → List.Forall₂ TrimRel u.nodes v.nodes →
      (∀ (i : ℕ) (n : Node D K), u.nodes[i]? = some n → n.level = l →
      ∃ n', v.nodes[i]? = some n' ∧
        (n.alive = false → n' = n) ∧
        (n.alive = true → Stalled fl cfg ratio n →
          n' = { n with alive := false, ripe := true, center := some (cfg.mean n.pop) }) ∧
        (n.alive = true → ¬ Stalled fl cfg ratio n →
          n' = { n with alive := n'.alive, center := some (cfg.mean n.pop) } ∧
          (n'.alive = false ↔ ∃ j m m' d, u.nodes[j]? = some m ∧ v.nodes[j]? = some m' ∧ m.level = l ∧
            (m'.ripe = true ∨ (j < i ∧ m.alive = true)) ∧ m'.center = some d ∧
            cfg.near l d (cfg.mean n.pop) = true))) →
      ∃ n', s'.nodes[i]? = some n' ∧ (n.alive = false → n' = n) ∧
      (n.alive = true → Stalled fl cfg ratio n → n'.alive = false ∧ n'.ripe = true) ∧
      (n.alive = true → ¬ Stalled fl cfg ratio n → n'.ripe = false ∧ n'.center = some (cfg.mean n.pop) ∧
        (n'.alive = false ↔ ∃ j m m' d, s.nodes[j]? = some m ∧ s'.nodes[j]? = some m' ∧ m.level = n.level ∧
          (m'.ripe = true ∨ (j < i ∧ m.alive = true)) ∧ m'.center = some d ∧
          cfg.near n.level d (cfg.mean n.pop) = true)) := by
    intro l u v hnl hu hv hss huv g
    have hlev : ∀ {a b : List (Node D K)}, List.Forall₂ TrimRel a b → ∀ {j : ℕ} {m m' : Node D K},
        a[j]? = some m → b[j]? = some m' → m'.level = m.level := by
      intro a b hab j m m' hm hm'
      obtain ⟨q, hq, r⟩ := forall₂_get hab hm'
      rw [hm] at hq; cases hq
      have := r.shape
      simp only [shape, Prod.mk.injEq] at this
      exact this.1
    have hun := (hu i n hnl).2 hn
    obtain ⟨n', hn', p1, p2, p3⟩ := g i n hun hnl
    refine ⟨n', (hv i n' ((hlev huv hun hn').trans hnl)).1 hn', p1, fun ha hs => ?_, fun ha hs => ?_⟩
    · rw [p2 ha hs]; exact ⟨rfl, rfl⟩
    · obtain ⟨q1, q2⟩ := p3 ha hs
      refine ⟨?_, by rw [q1], q2.trans ?_⟩
      · rw [q1]; simp only
        by_contra hr; exact hflags ⟨ha, by simpa using hr⟩
      · rw [hnl]
        constructor
        · rintro ⟨j, m, m', d, x1, x2, x3, x4⟩
          exact ⟨j, m, m', d, (hu j m x3).1 x1, (hv j m' ((hlev huv x1 x2).trans x3)).1 x2, x3, x4⟩
        · rintro ⟨j, m, m', d, x1, x2, x3, x4⟩
          exact ⟨j, m, m', d, (hu j m x3).2 x1, (hv j m' ((hlev hss x1 x2).trans x3)).2 x2, x3, x4⟩
  have hall := forall₂_trans TrimRel.trans (forall₂_trans TrimRel.trans r2 r1) r0
  -- a level which is not trimmed stays the same
  have hkeep : ∀ {l : ℕ} {u v : State D K}, (∀ (i : ℕ) (n : Node D K), u.nodes[i]? = some n → n.level ≠ l →
      v.nodes[i]? = some n) → List.Forall₂ TrimRel u.nodes v.nodes → ∀ (j : ℕ) (m : Node D K),
      m.level ≠ l → (u.nodes[j]? = some m ↔ v.nodes[j]? = some m) := by
    intro l u v hk huv j m hml
    refine ⟨fun h => hk j m h hml, fun h => ?_⟩
    obtain ⟨q, hq, r⟩ := forall₂_get huv h
    have := r.shape
    simp only [shape, Prod.mk.injEq] at this
    have := hk j q hq (this.1 ▸ hml)
    rw [h] at this; cases this; exact hq
  have w2 := hkeep k2 r2
  have w1 := hkeep k1 r1
  have w0 := hkeep k0 r0
  have : n.level = 0 ∨ n.level = 1 ∨ n.level = 2 := by omega
  rcases this with e | e | e
  · refine key 0 a1 s' e (fun j m hml => ?_) (fun j m _ => Iff.rfl) hall r0 g0
    exact ((w2 j m (by omega)).trans (w1 j m (by omega))).symm
  · refine key 1 a2 a1 e (fun j m hml => ?_) (fun j m hml => ?_) hall r1 g1
    · exact (w2 j m (by omega)).symm
    · exact w0 j m (by omega)
  · refine key 2 s a2 e (fun j m _ => Iff.rfl) (fun j m hml => ?_) hall r2 g2
    exact (w1 j m (by omega)).trans (w0 j m (by omega))

/-- C159, consequence: the living nodes of a level are pairwise apart, and apart from the ripe ones. -/
theorem C159_apart (fl : K → K) (cfg : Conf D K) (hm : cfg.maxLevel ≤ 2) {r₀ : List K} (hr : 3 ≤ r₀.length)
    {st s s' : State D K} {ratio : List K} (h : Reachable fl cfg r₀ st ratio) (env : ℕ → Report D K)
    (h1 : runMetaepoch fl cfg env st = some s) (h2 : trimSprouts fl cfg ratio s = some s') (i j : ℕ)
    (n m : Node D K) (hn : s'.nodes[i]? = some n) (hm' : s'.nodes[j]? = some m) (hl : m.level = n.level)
    (hna : n.alive = true) (hma : m.ripe = true ∨ (m.alive = true ∧ j < i)) (c d : D)
    (hc : n.center = some c) (hd : m.center = some d) : cfg.near n.level d c = false := by
  obtain ⟨c0, hlr, _⟩ := h.core hm hr
  obtain ⟨s1, e1, c1⟩ := Evogil.Hgs.run_core c0 (exactEnv fl env st)
  rw [← runMetaepoch_eq fl c0.tree env, h1] at e1; cases e1
  obtain ⟨s2, e2, c2, t2, _⟩ := trimSprouts_core (fl := fl) hm hlr c1
  rw [h2] at e2; cases e2
  obtain ⟨n0, hn0, r⟩ := forall₂_get t2 hn
  obtain ⟨m0, hm0, r'⟩ := forall₂_get t2 hm'
  have hs1 := r.shape
  have hs2 := r'.shape
  simp only [shape, Prod.mk.injEq] at hs1 hs2
  obtain ⟨n', hn', p1, p2, p3⟩ := C159_trim fl cfg hm hr h env h1 h2 i n0 hn0
  rw [hn] at hn'; cases hn'
  have ha0 : n0.alive = true := by
    by_contra hne
    have := p1 (by simpa using hne)
    subst this; exact hne hna
  have hst : ¬ Stalled fl cfg ratio n0 := fun hs => by
    have := (p2 ha0 hs).1; rw [hna] at this; cases this
  obtain ⟨q1, q2, q3⟩ := p3 ha0 hst
  rw [hc] at q2; cases q2
  by_contra hnear
  have : n.alive = false := q3.2 ⟨j, m0, m, d, hm0, hm', by rw [← hs2.1, hl, hs1.1], by
    rcases hma with h' | ⟨h', hlt⟩
    · exact .inl h'
    · refine .inr ⟨hlt, ?_⟩
      by_contra hne
      have := r'.dead (by simpa using hne)
      subst this; exact hne h', hd, by rw [← hs1.1]; simpa using hnear⟩
  rw [hna] at this; cases this

/-- C159: a node stopped as redundant never runs again: it is the same after every further step. -/
theorem C159_redundant_final (fl : K → K) (cfg : Conf D K) (hm : cfg.maxLevel ≤ 2) {fuel : ℕ} (hf : cfg.maxLevel < fuel)
    {r₀ : List K} (hr : 3 ≤ r₀.length) {st st' : State D K} {ratio ratio' : List K}
    (h : Reachable fl cfg r₀ st ratio) (env : ℕ → Report D K)
    (hs : step fl cfg fuel env st ratio = some (st', ratio')) (i : ℕ) (n : Node D K)
    (hn : st.nodes[i]? = some n) (ha : n.alive = false) (hri : n.ripe = false) :
    st'.nodes[i]? = some n := by
  obtain ⟨c, hl, _⟩ := h.core hm hr
  have e0 := runMetaepoch_eq fl c.tree env
  obtain ⟨s1, e1, c1⟩ := Evogil.Hgs.run_core c (exactEnv fl env st)
  obtain ⟨s2, e2, c2, t2, hc2⟩ := trimSprouts_core (fl := fl) hm hl c1
  obtain ⟨q, hq, _⟩ := Option.map_eq_some_iff.1 c2.tree.root
  obtain ⟨s3, e3, c3, d3, x3⟩ := release_core hm fuel 0 s2 c2 (fun n hn _ => hc2 n hn) q hq (by omega)
  simp only [step, e0, e1, Option.bind_some, e2, e3] at hs
  have g1 := Evogil.Hgs.runMetaepoch_get c (exactEnv fl env st) hm e1 hn
  have : (Evogil.Hgs.runNode cfg (exactEnv fl env st i) n).1 = n :=
    (Evogil.Hgs.runNode_rel cfg (exactEnv fl env st i) n).dead ha
  rw [this] at g1
  obtain ⟨m2, g2, r2⟩ := forall₂_get' t2 g1
  have := r2.dead ha
  subst this
  obtain ⟨g, _⟩ := Grown.release hm fuel 0 s2 s3 (Grown.refl c2 (fun n hn _ => hc2 n hn)) e3
  obtain ⟨sp, g3⟩ := x3 i m2 g2
  have hsp : m2.sprouts ++ sp = m2.sprouts := by
    by_contra hne
    have := (g.limit i m2 _ g2 g3 hne).1
    rw [hri] at this; cases this
  have g3' : s3.nodes[i]? = some m2 := by rw [g3, hsp]
  unfold reviveRoot at hs
  split at hs
  · split at hs
    · cases hs
    · cases hs
      simp [g3', wake, hri]
  · cases hs; exact g3'

end

section
variable {D K : Type*} [Field K] [LinearOrder K] [IsStrictOrderedRing K] [FloorRing K]

/-- C159: a living node of a level with a positive limit is stopped and becomes ripe if its hypervolume has not grown. -/
theorem C159_stagnant (cfg : Conf D K) (heps : cfg.eps = epsilon) (hm : cfg.maxLevel ≤ 2) {r₀ : List K} (hr : 3 ≤ r₀.length)
    {st s s' : State D K} {ratio : List K} (h : Reachable round64 cfg r₀ st ratio) (env : ℕ → Report D K)
    (h1 : runMetaepoch round64 cfg env st = some s) (h2 : trimSprouts round64 cfg ratio s = some s') (i : ℕ) (n : Node D K)
    (hn : s.nodes[i]? = some n) (ha : n.alive = true) {o v q : K} (ho : n.oldHv = some o) (hv : n.hv = some v)
    (hfl : round64 o = o) (h0 : 0 < o) (hle : v ≤ o) (hq : ratio[n.level]? = some q)
    (hlim : 0 < round64 (q / 2 ^ n.level)) :
    ∃ n', s'.nodes[i]? = some n' ∧ n'.alive = false ∧ n'.ripe = true := by
  obtain ⟨n', e, -, p, -⟩ := C159_trim round64 cfg hm hr h env h1 h2 i n hn
  refine ⟨n', e, p ha ⟨o, q, ho, h0, hq, fun w hw => ?_⟩⟩
  rw [hv] at hw; cases hw
  have := C146_positive_partial n.level hfl h0 hle hlim
  rwa [lags, decide_eq_true_iff, ← heps] at this

/-- C159: on level 0, with the shipped limit 0.0, a living node is stopped and becomes ripe exactly if its hypervolume is below
the rounded sum of the one before and `EPSILON`; C146 says what that means for hypervolumes below 2 and from 4 on. -/
theorem C159_root (cfg : Conf D K) (heps : cfg.eps = epsilon) (hm : cfg.maxLevel ≤ 2) {r₀ : List K} (hr : 3 ≤ r₀.length)
    {st s s' : State D K} {ratio : List K} (h : Reachable round64 cfg r₀ st ratio) (env : ℕ → Report D K)
    (h1 : runMetaepoch round64 cfg env st = some s) (h2 : trimSprouts round64 cfg ratio s = some s') (i : ℕ) (n : Node D K)
    (hn : s.nodes[i]? = some n) (hl : n.level = 0) (ha : n.alive = true) {o v : K} (ho : n.oldHv = some o)
    (hv : n.hv = some v) (hfv : round64 v = v) (h0 : 0 < o) (hq : ratio[0]? = some 0) :
    ∃ n', s'.nodes[i]? = some n' ∧ (n'.ripe = true ↔ v < round64 (o + epsilon)) ∧
      (n'.ripe = true → n'.alive = false) := by
  obtain ⟨n', e, -, p1, p2⟩ := C159_trim round64 cfg hm hr h env h1 h2 i n hn
  have hst : Stalled round64 cfg ratio n ↔ v < round64 (o + epsilon) := by
    rw [← C146_root hfv h0, lags, decide_eq_true_iff]
    constructor
    · rintro ⟨o', q, e1, -, e2, e3⟩
      rw [ho] at e1; cases e1
      rw [hl, hq] at e2; cases e2
      have := e3 v hv
      rwa [hl, heps] at this
    · intro hlt
      refine ⟨o, 0, ho, h0, by rw [hl, hq], fun w hw => ?_⟩
      rw [hv] at hw; cases hw
      rwa [hl, heps]
  by_cases hs : Stalled round64 cfg ratio n
  · exact ⟨n', e, ⟨fun _ => hst.1 hs, fun _ => (p1 ha hs).2⟩, fun _ => (p1 ha hs).1⟩
  · have := (p2 ha hs).1
    refine ⟨n', e, ⟨fun hc => ?_, fun hc => absurd (hst.2 hc) hs⟩, fun hc => ?_⟩ <;> rw [this] at hc <;> cases hc

end

/-! ## Examples -/

/-- Vectors are numbers, those less than 1 apart are near. -/
def exTrimConf : Conf ℚ ℚ := { exConf with near := fun _ a b => decide (-1 < a - b ∧ a - b < 1) }

/-- Two sprouts of the root, the second of which ends up beside the first one (`pop`). -/
def exTrimEnv (hv pop : ℚ) : ℕ → Report ℚ ℚ := fun i => ⟨[64], [if i = 1 then 1 / 10 else pop], [0, 10], hv⟩

/-- The root has ended. The second sprout comes beside the first one and is stopped as redundant. -/
example : ((run round64 exTrimConf 3 [exTrimEnv 0 0, exTrimEnv 1 0, exTrimEnv 1 0, exTrimEnv 1 10] Evogil.Hgs.init
      [0, round64 (1 / 100000), round64 (1 / 10000)]).bind fun r =>
      (runMetaepoch round64 exTrimConf (exTrimEnv 2 (1 / 2)) r.1).bind fun s => (trimSprouts round64 exTrimConf r.2 s).map fun s' =>
        (s.nodes.map fun n => (n.level, n.alive, n.ripe), s'.nodes.map fun n => (n.level, n.alive, n.ripe))) =
    some ([(0, false, true), (1, true, false), (1, true, false)], [(0, false, true), (1, true, false), (1, false, false)]) := by
  decide +kernel

/-- Both sprouts stagnate, are stopped and may sprout. -/
example : ((run round64 exTrimConf 3 [exTrimEnv 0 0, exTrimEnv 1 0, exTrimEnv 1 0, exTrimEnv 1 10, exTrimEnv 2 10] Evogil.Hgs.init
      [0, round64 (1 / 100000), round64 (1 / 10000)]).bind fun r =>
      (runMetaepoch round64 exTrimConf (exTrimEnv 2 10) r.1).bind fun s => (trimSprouts round64 exTrimConf r.2 s).map fun s' =>
        (s.nodes.map fun n => (n.level, n.alive, n.ripe), s'.nodes.map fun n => (n.level, n.alive, n.ripe))) =
    some ([(0, false, true), (1, true, false), (1, true, false)], [(0, false, true), (1, false, true), (1, false, true)]) := by
  decide +kernel

/-- The theorems apply to these runs with any further metaepoch. -/
example (env : ℕ → Report ℚ ℚ) {st s s' : State ℚ ℚ} {ratio : List ℚ}
    (h0 : run round64 exTrimConf 3 [exTrimEnv 0 0, exTrimEnv 1 0, exTrimEnv 1 0] Evogil.Hgs.init [0, 1 / 8, 1 / 8] =
      some (st, ratio))
    (h1 : runMetaepoch round64 exTrimConf env st = some s) (h2 : trimSprouts round64 exTrimConf ratio s = some s') :=
  C159_trim round64 exTrimConf le_rfl (r₀ := [0, 1 / 8, 1 / 8]) le_rfl
    ⟨3, [exTrimEnv 0 0, exTrimEnv 1 0, exTrimEnv 1 0], by decide, h0⟩ env h1 h2

end Evogil.Rounded.Hgs
