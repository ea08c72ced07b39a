import Verif.Lemmas.HgsStep
import Mathlib.Algebra.Order.Field.Basic
import Mathlib.Algebra.Order.BigOperators.Group.List

/-! # Which nodes are trimmed, and how the cost grows -/

set_option linter.unusedSectionVars false

namespace Evogil.Hgs

variable {D K : Type*} [Field K] [LinearOrder K]

theorem trimNotProgressing_get (cfg : Conf D K) (ratio : List K) : ∀ (ids : List ℕ) (st st' : State D K),
    ids.Nodup → trimNotProgressing cfg ratio ids st = some st' → ∀ j ∈ ids, ∀ n, st.nodes[j]? = some n →
    (n.alive = true ∧ notProgressing cfg ratio n = some true ∧ st'.nodes[j]? =
        some { n with alive := false, ripe := true, center := some (cfg.mean n.pop) }) ∨
      (¬ (n.alive = true ∧ notProgressing cfg ratio n = some true) ∧ st'.nodes[j]? = some n)
  | [], _, _, _, _, j, hj, _, _ => by simp at hj
  | i :: is, st, st', hnd, h, j, hj, n, hn => by
    have hni := (List.nodup_cons.1 hnd).1
    have hnd' := (List.nodup_cons.1 hnd).2
    rw [trimNotProgressing] at h
    rcases List.mem_cons.1 hj with rfl | hj
    · simp only [hn] at h
      have skip : trimNotProgressing cfg ratio is st = some st' → st'.nodes[j]? = some n := fun h => by
        rw [(trimNotProgressing_spec cfg ratio is _ _ h).2.2.2.2 j hni, hn]
      by_cases ha : n.alive = true
      · rw [if_pos ha] at h
        split at h
        · cases h
        · rename_i hp
          left
          refine ⟨ha, hp, ?_⟩
          rw [(trimNotProgressing_spec cfg ratio is _ _ h).2.2.2.2 j hni]
          simp only
          rw [List.getElem?_set_self (List.getElem?_eq_some_iff.1 hn).1]
        · rename_i hp
          right
          refine ⟨?_, skip h⟩
          rintro ⟨_, h2⟩; rw [hp] at h2; cases h2
      · rw [if_neg ha] at h
        exact .inr ⟨fun h => ha h.1, skip h⟩
    · have hij : i ≠ j := fun e => hni (e ▸ hj)
      split at h
      · cases h
      · rename_i q hq
        split at h
        · split at h
          · cases h
          · exact trimNotProgressing_get cfg ratio is _ st' hnd' h j hj n (by
              simp only; rw [List.getElem?_set_ne hij]; exact hn)
          · exact trimNotProgressing_get cfg ratio is _ st' hnd' h j hj n hn
        · exact trimNotProgressing_get cfg ratio is _ st' hnd' h j hj n hn

theorem findRedundant_iff (cfg : Conf D K) (st : State D K) (l : ℕ) (c : D) (pr : List ℕ) :
    ∀ (as : List ℕ) (b : Bool), findRedundant cfg st l c pr as = some b →
    (b = true ↔ ∃ a ∈ as, ∃ n d, st.nodes[a]? = some n ∧ (n.ripe = true ∨ a ∈ pr) ∧
      n.center = some d ∧ cfg.near l d c = true)
  | [], b, h => by
    simp only [findRedundant, Option.some.injEq] at h; subst h; simp
  | a :: as, b, h => by
    rw [findRedundant] at h
    split at h
    · cases h
    · rename_i n hn
      have skip : findRedundant cfg st l c pr as = some b →
          (∀ d, n.center = some d → (n.ripe = true ∨ a ∈ pr) → cfg.near l d c = true → False) →
          (b = true ↔ ∃ a' ∈ a :: as, ∃ n d, st.nodes[a']? = some n ∧ (n.ripe = true ∨ a' ∈ pr) ∧
            n.center = some d ∧ cfg.near l d c = true) := fun h hno => by
        rw [findRedundant_iff cfg st l c pr as b h]
        constructor
        · rintro ⟨a', ha', r⟩; exact ⟨a', List.mem_cons_of_mem _ ha', r⟩
        · rintro ⟨a', ha', m, d, hm, h1, h2, h3⟩
          rcases List.mem_cons.1 ha' with rfl | ha'
          · rw [hn] at hm; cases hm
            exact (hno d h2 h1 h3).elim
          · exact ⟨a', ha', m, d, hm, h1, h2, h3⟩
      split at h
      · rename_i hor
        split at h
        · cases h
        · rename_i d hd
          split at h
          · rename_i hnear
            cases h
            refine ⟨fun _ => ⟨a, List.mem_cons_self .., n, d, hn, ?_, hd, hnear⟩, fun _ => rfl⟩
            simpa using hor
          · rename_i hnear
            refine skip h (fun d' hd' _ h3 => ?_)
            rw [hd] at hd'; cases hd'; exact hnear h3
      · rename_i hor
        refine skip h (fun _ _ h1 _ => hor ?_)
        simpa using h1

/-- The nodes after `redundantLoop`: the centre is set, and a node stays alive unless it is near a ripe
dead node or an earlier one. -/
theorem redundantLoop_get (cfg : Conf D K) (dead : List ℕ) : ∀ (is pr : List ℕ) (st st' : State D K),
    redundantLoop cfg dead pr is st = some st' → is.Nodup → (∀ i ∈ is, i ∉ dead ∧ i ∉ pr) →
    (∀ i ∈ dead, i ∉ pr) →
    ∀ (k : ℕ) (i : ℕ), is[k]? = some i → ∀ n, st.nodes[i]? = some n →
    ∃ b : Bool, st'.nodes[i]? = some { n with center := some (cfg.mean n.pop), alive := n.alive && !b } ∧
      (b = true ↔ (∃ a ∈ dead, ∃ q d, st.nodes[a]? = some q ∧ q.ripe = true ∧ q.center = some d ∧
          cfg.near n.level d (cfg.mean n.pop) = true) ∨
        ∃ a ∈ pr ++ is.take k, ∃ q d, st'.nodes[a]? = some q ∧ q.center = some d ∧
          cfg.near n.level d (cfg.mean n.pop) = true)
  | [], _, _, _, _, _, _, _, k, i, hk, _, _ => by simp at hk
  | x :: is, pr, st, st', h, hnd, hdis, hdp, k, i, hk, n, hn => by
    have hni := (List.nodup_cons.1 hnd).1
    have hnd' := (List.nodup_cons.1 hnd).2
    have h0 := h
    rw [redundantLoop] at h
    split at h
    · cases h
    · rename_i m hm
      have hxlt := (List.getElem?_eq_some_iff.1 hm).1
      simp only at h
      split at h
      · cases h
      · rename_i b hb
        simp only [set_set_center] at h
        -- what the rest of the loop leaves alone
        have hkeep : ∀ j, j ∉ is → st'.nodes[j]? =
            (st.nodes.set x { m with center := some (cfg.mean m.pop), alive := m.alive && !b })[j]? := by
          have aux : ∀ (js pr : List ℕ) (s s' : State D K), redundantLoop cfg dead pr js s = some s' →
              ∀ j, j ∉ js → s'.nodes[j]? = s.nodes[j]? := by
            intro js
            induction js with
            | nil => intro pr s s' h j _; cases h; rfl
            | cons y js ih =>
              intro pr s s' h j hj
              rw [redundantLoop] at h
              split at h
              · cases h
              · simp only at h
                split at h
                · cases h
                · simp only [set_set_center] at h
                  rw [ih _ _ _ h j (fun h' => hj (List.mem_cons_of_mem _ h'))]
                  simp only
                  rw [List.getElem?_set_ne]
                  rintro rfl; exact hj (List.mem_cons_self ..)
          exact aux is _ _ _ h
        cases k with
        | zero =>
          simp only [List.getElem?_cons_zero, Option.some.injEq] at hk
          subst hk
          rw [hm] at hn; cases hn
          refine ⟨b, ?_, ?_⟩
          · rw [hkeep x hni, List.getElem?_set_self hxlt]
          · rw [findRedundant_iff cfg _ _ _ _ _ _ hb]
            have hx := hdis x (List.mem_cons_self ..)
            simp only [List.take_zero, List.append_nil]
            constructor
            · rintro ⟨a, ha, q, d, hq, h1, h2, h3⟩
              have hax : x ≠ a := by
                rintro rfl
                rcases List.mem_append.1 ha with ha | ha
                · exact hx.1 ha
                · exact hx.2 ha
              rw [List.getElem?_set_ne hax] at hq
              by_cases hap : a ∈ pr
              · right
                refine ⟨a, hap, q, d, ?_, h2, h3⟩
                rw [hkeep a (fun h' => (hdis a (List.mem_cons_of_mem _ h')).2 hap),
                  List.getElem?_set_ne hax]
                exact hq
              · left
                rcases List.mem_append.1 ha with ha | ha
                · exact ⟨a, ha, q, d, hq, h1.resolve_right hap, h2, h3⟩
                · exact absurd ha hap
            · rintro (⟨a, ha, q, d, hq, h1, h2, h3⟩ | ⟨a, ha, q, d, hq, h2, h3⟩)
              · have hax : x ≠ a := by rintro rfl; exact hx.1 ha
                exact ⟨a, List.mem_append_left _ ha, q, d, by rw [List.getElem?_set_ne hax]; exact hq,
                  .inl h1, h2, h3⟩
              · have hax : x ≠ a := by rintro rfl; exact hx.2 ha
                rw [hkeep a (fun h' => (hdis a (List.mem_cons_of_mem _ h')).2 ha),
                  List.getElem?_set_ne hax] at hq
                exact ⟨a, List.mem_append_right _ ha, q, d, by rw [List.getElem?_set_ne hax]; exact hq,
                  .inr ha, h2, h3⟩
        | succ k =>
          simp only [List.getElem?_cons_succ] at hk
          have hi : i ∈ is := List.mem_of_getElem? hk
          have hxi : x ≠ i := fun e => hni (e ▸ hi)
          obtain ⟨b', e1, e2⟩ := redundantLoop_get cfg dead is (pr ++ [x]) _ st' h hnd' (by
            intro j hj
            have := hdis j (List.mem_cons_of_mem _ hj)
            refine ⟨this.1, fun hj' => ?_⟩
            rcases List.mem_append.1 hj' with h' | h'
            · exact this.2 h'
            · exact hni ((List.mem_singleton.1 h') ▸ hj)) (by
            intro j hj hj'
            rcases List.mem_append.1 hj' with h' | h'
            · exact hdp j hj h'
            · exact (hdis x (List.mem_cons_self ..)).1 ((List.mem_singleton.1 h') ▸ hj)) k i hk n (by
              simp only; rw [List.getElem?_set_ne hxi]; exact hn)
          refine ⟨b', e1, e2.trans ?_⟩
          simp only [List.take_succ_cons, List.append_assoc, List.singleton_append]
          refine or_congr ?_ Iff.rfl
          constructor
          · rintro ⟨a, ha, q, d, hq, r⟩
            have hax : x ≠ a := by rintro rfl; exact (hdis x (List.mem_cons_self ..)).1 ha
            rw [List.getElem?_set_ne hax] at hq
            exact ⟨a, ha, q, d, hq, r⟩
          · rintro ⟨a, ha, q, d, hq, r⟩
            have hax : x ≠ a := by rintro rfl; exact (hdis x (List.mem_cons_self ..)).1 ha
            exact ⟨a, ha, q, d, by rw [List.getElem?_set_ne hax]; exact hq, r⟩

/-- A node without progress, in the words of the code. -/
def Stalled (cfg : Conf D K) (ratio : List K) (n : Node D K) : Prop :=
  ∃ o q, n.oldHv = some o ∧ 0 < o ∧ ratio[n.level]? = some q ∧
    ∀ h, n.hv = some h → h / (o + cfg.eps) - 1 < q / 2 ^ n.level

theorem notProgressing_iff (cfg : Conf D K) (ratio : List K) (n : Node D K) :
    notProgressing cfg ratio n = some true ↔ Stalled cfg ratio n := by
  unfold notProgressing Stalled
  cases n.oldHv with
  | none => simp
  | some o =>
    by_cases ho : 0 < o
    · cases hq : ratio[n.level]? with
      | none => simp [ho]
      | some q => cases hh : n.hv <;> simp [ho]
    · simp [ho]

/-- What `trim_all` does on one level. -/
theorem trimAll_get {cfg : Conf D K} {ratio : List K} {st st' : State D K} (c : Core cfg st) {l : ℕ}
    (hl : l ≤ 2) (h : trimAll cfg ratio l st = some st') :
    (∀ (i : ℕ) (n : Node D K), st.nodes[i]? = some n → n.level ≠ l → st'.nodes[i]? = some n) ∧
    ∀ (i : ℕ) (n : Node D K), st.nodes[i]? = some n → n.level = l →
      ∃ n', st'.nodes[i]? = some n' ∧
        (n.alive = false → n' = n) ∧
        (n.alive = true → Stalled cfg ratio n →
          n' = { n with alive := false, ripe := true, center := some (cfg.mean n.pop) }) ∧
        (n.alive = true → ¬ Stalled cfg ratio n →
          n' = { n with alive := n'.alive, center := some (cfg.mean n.pop) } ∧
          (n'.alive = false ↔ ∃ j m m' d, st.nodes[j]? = some m ∧ st'.nodes[j]? = some m' ∧ m.level = l ∧
            (m'.ripe = true ∨ (j < i ∧ m.alive = true)) ∧ m'.center = some d ∧
            cfg.near l d (cfg.mean n.pop) = true)) := by
  unfold trimAll at h
  obtain ⟨ids, hids⟩ : ∃ ids, st.levels[l]? = some ids := ⟨_, c.tree.level_list hl⟩
  simp only [hids] at h
  split at h
  · cases h
  · rename_i s1 hs1
    have hnd := c.tree.nodup_level hl hids
    have hsort : ids.Pairwise (· < ·) := by
      have := hids
      rw [c.tree.level_list hl, Option.some.injEq] at this
      rw [← this]
      exact List.pairwise_lt_range.filter _
    obtain ⟨a1, a2, a3, a4, a5⟩ := trimNotProgressing_spec cfg ratio ids st s1 hs1
    have agt := trimNotProgressing_get cfg ratio ids st s1 hnd hs1
    have c1 : Core cfg s1 := c.of_trim a1 a2 a3 (fun n hn => by
      obtain ⟨m, hm, r⟩ := forall₂_get a4 hn
      exact r (c.root m hm))
    unfold trimRedundant at h
    obtain ⟨b1, b2, b3, b4, b5⟩ := redundantLoop_spec cfg _ _ _ s1 st' h
      (fun i hi => (List.mem_filter.1 hi).2) (hnd.filter _)
    have bgt := redundantLoop_get cfg _ _ _ s1 st' h (hnd.filter _) (by
      intro i hi
      refine ⟨fun hi' => ?_, by simp⟩
      have h1 := (List.mem_filter.1 hi).2
      have h2 := (List.mem_filter.1 hi').2
      simp [h1] at h2) (by simp)
    have hmem : ∀ {i : ℕ}, i ∈ ids ↔ ∃ n, st.nodes[i]? = some n ∧ n.level = l :=
      c.tree.mem_level hl hids
    refine ⟨fun i n hn hne => ?_, fun i n hn hnl => ?_⟩
    · have hi : i ∉ ids := fun hi => by
        obtain ⟨q, hq, e⟩ := hmem.1 hi
        rw [hn] at hq; cases hq; exact hne e
      rw [b4 i (fun h' => hi (List.mem_filter.1 h').1), a5 i hi, hn]
    · have hi : i ∈ ids := hmem.2 ⟨n, hn, hnl⟩
      -- dead nodes of the intermediate state stay as they are
      have hdead : ∀ (j : ℕ) (m : Node D K), s1.nodes[j]? = some m → m.alive = false →
          st'.nodes[j]? = some m := by
        intro j m hm ha
        rw [b4 j, hm]
        intro h'
        have := (List.mem_filter.1 h').2
        simp [aliveAt, hm, ha] at this
      rcases agt i hi n hn with ⟨ha, hp, hg⟩ | ⟨hp, hg⟩
      · rw [notProgressing_iff] at hp
        refine ⟨_, hdead i _ hg rfl, fun h' => ?_, fun _ _ => rfl, fun _ hp' => absurd hp hp'⟩
        rw [ha] at h'; cases h'
      · cases ha : n.alive with
        | false =>
          exact ⟨n, hdead i n hg ha, fun _ => rfl, fun h' => (by cases h'), fun h' => (by cases h')⟩
        | true =>
          have hns : ¬ Stalled cfg ratio n := fun hs => hp ⟨ha, (notProgressing_iff cfg ratio n).2 hs⟩
          have hif : i ∈ ids.filter (aliveAt s1) := List.mem_filter.2 ⟨hi, by simp [aliveAt, hg, ha]⟩
          obtain ⟨k, hk⟩ := List.mem_iff_getElem?.1 hif
          obtain ⟨b, e1, e2⟩ := bgt k i hk n hg
          refine ⟨_, e1, fun h' => (by cases h'), fun _ hs => absurd hs hns, fun _ _ => ⟨rfl, ?_⟩⟩
          simp only [ha, Bool.true_and, Bool.not_eq_false']
          rw [e2]
          have hpw : (ids.filter (aliveAt s1)).Pairwise (· < ·) := hsort.filter _
          have htake : ∀ j, j ∈ (ids.filter (aliveAt s1)).take k ↔
              j ∈ ids.filter (aliveAt s1) ∧ j < i := by
            intro j
            obtain ⟨hk1, hk2⟩ := List.getElem?_eq_some_iff.1 hk
            rw [List.pairwise_iff_getElem] at hpw
            constructor
            · intro hj
              obtain ⟨p, hp1, hp2⟩ := List.mem_iff_getElem.1 hj
              simp only [List.length_take, List.getElem_take] at hp1 hp2
              refine ⟨hp2 ▸ List.getElem_mem _, ?_⟩
              rw [← hp2, ← hk2]
              exact hpw p k _ hk1 (by omega)
            · rintro ⟨hj, hlt⟩
              obtain ⟨p, hp1, hp2⟩ := List.mem_iff_getElem.1 hj
              have hpk : p < k := by
                by_contra hge
                rcases Nat.lt_or_eq_of_le (Nat.le_of_not_lt hge) with h' | h'
                · have := hpw k p hk1 hp1 h'
                  rw [hp2, hk2] at this; omega
                · subst h'; rw [hp2] at hk2; omega
              rw [List.mem_iff_getElem]
              exact ⟨p, by simp; omega, by simp [hp2]⟩
          -- a node of the level in `s1` comes from one in `st`
          have hback : ∀ (j : ℕ) (m1 : Node D K), s1.nodes[j]? = some m1 → ∃ m, st.nodes[j]? = some m ∧
              m.level = m1.level ∧ (m1.alive = true → m.alive = true) := by
            intro j m1 hm1
            obtain ⟨m, hm, r⟩ := forall₂_get a3 hm1
            have hsh := r.shape
            simp only [shape, Prod.mk.injEq] at hsh
            refine ⟨m, hm, hsh.1.symm, fun h' => ?_⟩
            by_contra hma
            have := r.dead (by simpa using hma)
            subst this; exact hma h'
          constructor
          · rintro (⟨j, hj, q, d, hq, h1, h2, h3⟩ | ⟨j, hj, q, d, hq, h2, h3⟩)
            · have hjm := List.mem_filter.1 hj
              obtain ⟨m, hm, e⟩ := hmem.1 hjm.1
              have hqa : q.alive = false := by simpa [aliveAt, hq] using hjm.2
              exact ⟨j, m, q, d, hm, hdead j q hq hqa, e, .inl h1, h2, hnl ▸ h3⟩
            · rw [List.nil_append, htake] at hj
              have hjm := List.mem_filter.1 hj.1
              obtain ⟨m, hm, e⟩ := hmem.1 hjm.1
              refine ⟨j, m, q, d, hm, hq, e, .inr ⟨hj.2, ?_⟩, h2, hnl ▸ h3⟩
              obtain ⟨m1, hm1, _⟩ := forall₂_get b3 hq
              obtain ⟨m', hm', _, hal⟩ := hback j m1 hm1
              rw [hm] at hm'; cases hm'
              exact hal (by simpa [aliveAt, hm1] using hjm.2)
          · rintro ⟨j, m, m', d, hm, hm', hml, hor, h2, h3⟩
            have hjm : j ∈ ids := hmem.2 ⟨m, hm, hml⟩
            obtain ⟨m1, hm1, r⟩ := forall₂_get b3 hm'
            by_cases hja : m1.alive = true
            · have hjf : j ∈ ids.filter (aliveAt s1) :=
                List.mem_filter.2 ⟨hjm, by simp [aliveAt, hm1, hja]⟩
              have hlt : j < i := by
                rcases hor with hr | ⟨hlt, _⟩
                · exfalso
                  obtain ⟨k', hk'⟩ := List.mem_iff_getElem?.1 hjf
                  obtain ⟨b', e1', _⟩ := bgt k' j hk' m1 hm1
                  rw [hm'] at e1'; cases e1'
                  exact c1.flags m1 (List.mem_of_getElem? hm1) ⟨hja, hr⟩
                · exact hlt
              right
              exact ⟨j, by rw [List.nil_append, htake]; exact ⟨hjf, hlt⟩, m', d, hm', h2, hnl.symm ▸ h3⟩
            · have hja' : m1.alive = false := by simpa using hja
              have := hdead j m1 hm1 hja'
              rw [hm'] at this; cases this
              left
              refine ⟨j, List.mem_filter.2 ⟨hjm, by simp [aliveAt, hm1, hja']⟩, m', d, hm1, ?_, h2, hnl.symm ▸ h3⟩
              rcases hor with hr | ⟨_, hma⟩
              · exact hr
              · rcases agt j hjm m hm with ⟨_, _, hg'⟩ | ⟨_, hg'⟩
                · rw [hm1] at hg'; cases hg'; rfl
                · rw [hm1] at hg'; cases hg'
                  rw [hja'] at hma; cases hma

/-! ## Cost -/

theorem runNodes_get (cfg : Conf D K) (env : ℕ → Report D K) : ∀ (ids : List ℕ) (st st' : State D K),
    ids.Nodup → runNodes cfg env ids st = some st' → ∀ (j : ℕ) (n : Node D K), st.nodes[j]? = some n →
    st'.nodes[j]? = some (if j ∈ ids then (runNode cfg (env j) n).1 else n)
  | [], st, st', _, h, j, n, hn => by
    cases h; simpa using hn
  | i :: is, st, st', hnd, h, j, n, hn => by
    have hni := (List.nodup_cons.1 hnd).1
    rw [runNodes] at h
    split at h
    · cases h
    · rename_i q hq
      by_cases e : i = j
      · subst e
        rw [hn] at hq; cases hq
        rw [runNodes_get cfg env is _ st' (List.nodup_cons.1 hnd).2 h i (runNode cfg (env i) n).1 (by
          simp only; rw [List.getElem?_set_self (List.getElem?_eq_some_iff.1 hn).1])]
        simp [hni]
      · rw [runNodes_get cfg env is _ st' (List.nodup_cons.1 hnd).2 h j n (by
          simp only; rw [List.getElem?_set_ne e]; exact hn)]
        have : (j ∈ i :: is) ↔ j ∈ is := by
          rw [List.mem_cons]; exact ⟨fun h => h.resolve_left (Ne.symm e), .inr⟩
        simp only [this]

end Evogil.Hgs
