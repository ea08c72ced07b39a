import Verif.Lemmas.HgsRelease

/-! # A node is visited once while sprouts are released -/

set_option linter.unusedSectionVars false

namespace Evogil.Hgs

variable {D K : Type*} [Field K] [LinearOrder K]

/-- `j` is the node `i` or below it. -/
inductive Under (st : State D K) : ℕ → ℕ → Prop
  | refl (i : ℕ) : Under st i i
  | step {i c j : ℕ} {n : Node D K} : st.nodes[i]? = some n → c ∈ n.sprouts → Under st c j → Under st i j

theorem Under.le {m : ℕ} {st : State D K} (t : Tree m st) {i j : ℕ} (h : Under st i j) : i ≤ j := by
  induction h with
  | refl => exact le_rfl
  | step hn hc _ ih => have := (t.child _ _ _ hn hc).1; omega

theorem unique_parent {m : ℕ} {st : State D K} (t : Tree m st) {p q x : ℕ} {n k : Node D K}
    (hp : st.nodes[p]? = some n) (hq : st.nodes[q]? = some k) (hn : x ∈ n.sprouts) (hk : x ∈ k.sprouts) :
    p = q := by
  have hnd : (st.nodes.flatMap Node.sprouts).Nodup := t.once.nodup_iff.2 List.nodup_range'
  rw [List.nodup_flatMap] at hnd
  have hpw := List.pairwise_iff_getElem.1 hnd.2
  obtain ⟨hp1, hp2⟩ := List.getElem?_eq_some_iff.1 hp
  obtain ⟨hq1, hq2⟩ := List.getElem?_eq_some_iff.1 hq
  rcases Nat.lt_trichotomy p q with h | h | h
  · have := hpw p q hp1 hq1 h
    rw [hp2, hq2] at this
    exact absurd hk (this hn)
  · exact h
  · have := hpw q p hq1 hp1 h
    rw [hp2, hq2] at this
    exact absurd hn (this hk)

theorem Ext.old_sprout {m : ℕ} {a b : State D K} (ta : Tree m a) (tb : Tree m b) (h : Ext a b) {i x : ℕ}
    {n n' : Node D K} (hn : a.nodes[i]? = some n) (hn' : b.nodes[i]? = some n') (hx : x ∈ n'.sprouts)
    (hlt : x < a.nodes.length) : x ∈ n.sprouts := by
  have h1 := (tb.child i n' x hn' hx).1
  have : x ∈ List.range' 1 (a.nodes.length - 1) := by rw [List.mem_range'_1]; omega
  rw [← ta.once.mem_iff, List.mem_flatMap] at this
  obtain ⟨q, hq, hs⟩ := this
  obtain ⟨p, hp⟩ := List.mem_iff_getElem?.1 hq
  obtain ⟨s, hs'⟩ := h p q hp
  have := unique_parent tb hn' hs' hx (List.mem_append_left _ hs)
  subst this
  rw [hn] at hp; cases hp; exact hs

theorem Under.of_ext {m : ℕ} {a b : State D K} (ta : Tree m a) (tb : Tree m b) (h : Ext a b) {i j : ℕ}
    (hu : Under b i j) (hj : j < a.nodes.length) : Under a i j := by
  induction hu with
  | refl => exact .refl _
  | @step i c j n hn hc hu ih =>
    have h1 := (tb.child _ _ _ hn hc).1
    have h2 := hu.le tb
    have hi : i < a.nodes.length := by omega
    have hg := List.getElem?_eq_getElem hi
    exact .step hg (h.old_sprout ta tb hg hn hc (by omega)) (ih hj)

theorem Under.last {st : State D K} {i j : ℕ} (h : Under st i j) :
    i = j ∨ ∃ p n, st.nodes[p]? = some n ∧ j ∈ n.sprouts ∧ Under st i p := by
  induction h with
  | refl => exact .inl rfl
  | @step i c j n hn hc hu ih =>
    right
    rcases ih with rfl | ⟨p, k, hp, hj, hu'⟩
    · exact ⟨i, n, hn, hc, .refl i⟩
    · exact ⟨p, k, hp, hj, .step hn hc hu'⟩

theorem Under.level {m : ℕ} {st : State D K} (t : Tree m st) {i j : ℕ} (h : Under st i j)
    {n k : Node D K} (hn : st.nodes[i]? = some n) (hk : st.nodes[j]? = some k) :
    n.level ≤ k.level ∧ (i ≠ j → n.level < k.level) := by
  induction h generalizing n with
  | refl => rw [hn] at hk; cases hk; exact ⟨le_rfl, fun h => absurd rfl h⟩
  | @step i c j q hq hc hu ih =>
    rw [hn] at hq; cases hq
    obtain ⟨w, hw, hwl⟩ := Option.map_eq_some_iff.1 (t.child _ _ _ hn hc).2
    have := (ih hw hk).1
    exact ⟨by omega, fun _ => by omega⟩

theorem Under.unique {m : ℕ} {st : State D K} (t : Tree m st) : ∀ (j c₁ c₂ : ℕ) (n₁ n₂ k : Node D K),
    st.nodes[j]? = some k → st.nodes[c₁]? = some n₁ → st.nodes[c₂]? = some n₂ → n₁.level = n₂.level →
    Under st c₁ j → Under st c₂ j → c₁ = c₂ := by
  intro j
  induction j using Nat.strong_induction_on with
  | _ j ih =>
    intro c₁ c₂ n₁ n₂ k hk h1 h2 hl u1 u2
    rcases u1.last with rfl | ⟨p, q, hp, hj, u1'⟩
    · by_contra hne
      have := (u2.level t h2 h1).2 (fun e => hne e.symm)
      omega
    · rcases u2.last with rfl | ⟨p', q', hp', hj', u2'⟩
      · by_contra hne
        have := (u1.level t h1 h2).2 hne
        omega
      · have := unique_parent t hp hp' hj hj'
        subst this
        exact ih p (t.child p q j hp hj).1 c₁ c₂ n₁ n₂ q hp h1 h2 hl u1' u2'

/-! ## At most `sproutiveness` new sprouts -/

theorem releaseLoop_limit {cfg : Conf D K} (hm : cfg.maxLevel ≤ 2) {i level : ℕ}
    (hlm : level < cfg.maxLevel) : ∀ (ds : List D) (k : ℕ) (s s' : State D K), Core cfg s → Centred s →
    (∃ n, s.nodes[i]? = some n ∧ n.level = level) → releaseLoop cfg i level ds k s = some s' →
    (∀ j, j < s.nodes.length → j ≠ i → s'.nodes[j]? = s.nodes[j]?) ∧
    ∀ (n n' : Node D K), s.nodes[i]? = some n → s'.nodes[i]? = some n' →
      n'.sprouts.length ≤ n.sprouts.length + (cfg.sproutiveness - k)
  | [], k, s, s', _, _, _, h => by
    simp only [releaseLoop, Option.some.injEq] at h; subst h
    refine ⟨fun _ _ _ => rfl, fun n n' h h' => ?_⟩
    rw [h] at h'; cases h'; omega
  | d :: ds, k, s, s', c, hc, hn, h => by
    rw [releaseLoop] at h
    split at h
    · cases h
      refine ⟨fun _ _ _ => rfl, fun n n' h h' => ?_⟩
      rw [h] at h'; cases h'; omega
    · rename_i hcond
      split at h
      · cases h
      · rename_i ids hids
        split at h
        · cases h
        · rename_i cs hcs
          split at h
          · exact releaseLoop_limit hm hlm ds k s s' c hc hn h
          · obtain ⟨n, hn, hl⟩ := hn
            obtain ⟨c', hc'⟩ := c.addSprout hm hc (d := d) hn hl hlm hids
            have hi := (List.getElem?_eq_some_iff.1 hn).1
            have hg : (addSprout s i level ids d).nodes[i]? =
                some { n with sprouts := n.sprouts ++ [s.nodes.length] } := by
              rw [addSprout_get, if_pos hi, hn]; simp
            obtain ⟨r1, r2⟩ := releaseLoop_limit hm hlm ds (k + 1) _ s' c' hc' ⟨_, hg, hl⟩ h
            refine ⟨fun j hj hne => ?_, fun q q' hq hq' => ?_⟩
            · rw [r1 j (by rw [addSprout_length]; omega) hne, addSprout_get, if_pos hj]
              simp only [if_neg (Ne.symm hne), Option.map_id']
            · rw [hn] at hq; cases hq
              have := r2 _ _ hg hq'
              simp only [List.length_append, List.length_cons, List.length_nil] at this
              omega

theorem release_limit {cfg : Conf D K} (hm : cfg.maxLevel ≤ 2) : ∀ (fuel i : ℕ) (s s' : State D K),
    Core cfg s → Centred s → ∀ r, s.nodes[i]? = some r → cfg.maxLevel < r.level + fuel →
    release cfg fuel i s = some s' →
    ∀ (j : ℕ) (n n' : Node D K), s.nodes[j]? = some n → s'.nodes[j]? = some n' →
      n'.sprouts.length ≤ n.sprouts.length + cfg.sproutiveness ∧ (n' ≠ n → Under s i j)
  | 0, i, s, s', _, _, _, _, _, h => by cases h
  | fuel + 1, i, s, s', c, hc, r, hr, hf, h => by
    rw [release] at h
    simp only [hr] at h
    split at h
    · -- the fold over the sprouts
      have hfold : ∀ (js : List ℕ) (a b : State D K), Core cfg a → Centred a → Ext s a → js.Nodup →
          (∀ j ∈ js, ∃ q, s.nodes[j]? = some q ∧ q.level = r.level + 1) →
          (∀ j ∈ js, ∀ x, x < s.nodes.length → Under s j x → a.nodes[x]? = s.nodes[x]?) →
          (∀ x, s.nodes[x]? ≠ a.nodes[x]? → x < s.nodes.length → ∃ c ∈ r.sprouts, Under s c x) →
          (∀ j ∈ js, j ∈ r.sprouts) →
          (∀ (x : ℕ) (n n' : Node D K), s.nodes[x]? = some n → a.nodes[x]? = some n' →
            n'.sprouts.length ≤ n.sprouts.length + cfg.sproutiveness) →
          js.foldlM (fun s j => release cfg fuel j s) a = some b →
          Core cfg b ∧ Centred b ∧ Ext s b ∧
          (∀ x, s.nodes[x]? ≠ b.nodes[x]? → x < s.nodes.length → ∃ c ∈ r.sprouts, Under s c x) ∧
          (∀ (x : ℕ) (n n' : Node D K), s.nodes[x]? = some n → b.nodes[x]? = some n' →
            n'.sprouts.length ≤ n.sprouts.length + cfg.sproutiveness) := by
        intro js
        induction js with
        | nil =>
          intro a b ca da xa _ _ _ hch _ hlim h
          cases h; exact ⟨ca, da, xa, hch, hlim⟩
        | cons j js ih =>
          intro a b ca da xa hnd hq hun hch hsub hlim h
          rw [List.foldlM_cons] at h
          obtain ⟨a1, h1, h2⟩ := Option.bind_eq_some_iff.1 h
          obtain ⟨q, hjq, hql⟩ := hq j (List.mem_cons_self ..)
          obtain ⟨sp, hsp⟩ := xa j q hjq
          obtain ⟨a1', e1, c1, d1, x1⟩ := release_core hm fuel j a ca da _ hsp (by simp only; omega)
          rw [h1] at e1; cases e1
          have hrec := release_limit hm fuel j a a1 ca da _ hsp (by simp only; omega) h1
          have hund : ∀ (x : ℕ) (n n' : Node D K), x < s.nodes.length → a.nodes[x]? = some n →
              a1.nodes[x]? = some n' → n' ≠ n → Under s j x := fun x n n' hx hn hn' hne =>
            ((hrec x n n' hn hn').2 hne).of_ext c.tree ca.tree xa hx
          have hget : ∀ x, x < s.nodes.length → ∃ n n', a.nodes[x]? = some n ∧ a1.nodes[x]? = some n' := by
            intro x hx
            have hg := List.getElem?_eq_getElem hx
            obtain ⟨t, ht⟩ := xa x _ hg
            obtain ⟨t', ht'⟩ := x1 x _ ht
            exact ⟨_, _, ht, ht'⟩
          refine ih a1 b c1 d1 (xa.trans x1) (List.nodup_cons.1 hnd).2
            (fun j' hj' => hq j' (List.mem_cons_of_mem _ hj')) ?_ ?_
            (fun j' hj' => hsub j' (List.mem_cons_of_mem _ hj')) ?_ h2
          · intro j' hj' x hx hu
            have h0 := hun j' (List.mem_cons_of_mem _ hj') x hx hu
            obtain ⟨n, n', hn, hn'⟩ := hget x hx
            by_cases hne : n' = n
            · rw [hn', hne, ← hn, h0]
            · exfalso
              have hu2 := hund x n n' hx hn hn' hne
              obtain ⟨q', hjq', hql'⟩ := hq j' (List.mem_cons_of_mem _ hj')
              have := Under.unique c.tree x j j' q q' _ (List.getElem?_eq_getElem hx) hjq hjq'
                (by omega) hu2 hu
              subst this
              exact (List.nodup_cons.1 hnd).1 hj'
          · intro x hne hx
            obtain ⟨n, n', hn, hn'⟩ := hget x hx
            by_cases hne' : n' = n
            · refine hch x (fun e => hne ?_) hx
              rw [e, hn, hn', hne']
            · exact ⟨j, hsub j (List.mem_cons_self ..), hund x n n' hx hn hn' hne'⟩
          · intro x n n'' hn hn''
            have hx := (List.getElem?_eq_some_iff.1 hn).1
            obtain ⟨k, k', hk, hk'⟩ := hget x hx
            rw [hn''] at hk'; cases hk'
            by_cases hne' : n'' = k
            · subst hne'; exact hlim x n n'' hn hk
            · have hu2 := hund x k n'' hx hk hn'' hne'
              have := hun j (List.mem_cons_self ..) x hx hu2
              rw [hn, hk] at this; cases this
              exact (hrec x _ n'' hk hn'').1
      split at h
      · cases h
      · rename_i s1 hs1
        have hrn : r.sprouts.Nodup := by
          have hnd : (s.nodes.flatMap Node.sprouts).Nodup := c.tree.once.nodup_iff.2 List.nodup_range'
          rw [List.nodup_flatMap] at hnd
          exact hnd.1 r (List.mem_of_getElem? hr)
        obtain ⟨c1, d1, x1, hch, hlim⟩ := hfold r.sprouts s s1 c hc (Ext.refl s) hrn
          (fun j hj => Option.map_eq_some_iff.1 (c.tree.child i r j hr hj).2)
          (fun _ _ _ _ _ => rfl) (fun x h => absurd rfl h) (fun _ h => h)
          (fun x n n' h h' => by rw [h] at h'; cases h'; omega) hs1
        have hself : s1.nodes[i]? = s.nodes[i]? := by
          by_contra hne
          obtain ⟨q, hq, hu⟩ := hch i (Ne.symm hne) (List.getElem?_eq_some_iff.1 hr).1
          have := hu.le c.tree
          have := (c.tree.child i r q hr hq).1
          omega
        split at h
        · rename_i hcond
          obtain ⟨r1, r2⟩ := releaseLoop_limit hm hcond.1 r.delegates 0 s1 s' c1 d1
            ⟨r, hself.trans hr, rfl⟩ h
          intro j n n' hn hn'
          by_cases e : j = i
          · subst e
            rw [hr] at hn; cases hn
            exact ⟨by have := r2 r n' (hself.trans hr) hn'; omega, fun _ => .refl j⟩
          · have hj := (List.getElem?_eq_some_iff.1 hn).1
            rw [r1 j (Nat.lt_of_lt_of_le hj x1.length_le) e] at hn'
            refine ⟨hlim j n n' hn hn', fun hne => ?_⟩
            obtain ⟨q, hq, hu⟩ := hch j (by rw [hn, hn']; intro h; cases h; exact hne rfl) hj
            exact .step hr hq hu
        · cases h
          intro j n n' hn hn'
          have hj := (List.getElem?_eq_some_iff.1 hn).1
          refine ⟨hlim j n n' hn hn', fun hne => ?_⟩
          obtain ⟨q, hq, hu⟩ := hch j (by rw [hn, hn']; intro h; cases h; exact hne rfl) hj
          exact .step hr hq hu
    · cases h
      intro j n n' hn hn'
      rw [hn] at hn'; cases hn'
      exact ⟨by omega, fun h => absurd rfl h⟩

end Evogil.Hgs
