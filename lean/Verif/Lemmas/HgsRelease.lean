import Verif.Lemmas.HgsStep

/-! # Where and how often HGS sprouts -/

set_option linter.unusedSectionVars false

namespace Evogil.Hgs

variable {D K : Type*} [Field K] [LinearOrder K]

/-- What holds of the state `s` while sprouts are being released, `st0` being the state before. -/
structure Grown (cfg : Conf D K) (st0 s : State D K) : Prop where
  core : Core cfg s
  centred : Centred s
  ext : Ext st0 s
  fresh : ∀ (j : ℕ) (n : Node D K), s.nodes[j]? = some n → st0.nodes.length ≤ j →
    n.alive = true ∧ n.pop = [] ∧ ∃ d, n.seed = some d ∧ ∀ m ∈ st0.nodes, m.level = n.level →
      m.pop ≠ [] → ∀ c, m.center = some c → cfg.near n.level d c = false
  limit : ∀ (i : ℕ) (n n' : Node D K), st0.nodes[i]? = some n → s.nodes[i]? = some n' →
    n'.sprouts ≠ n.sprouts → n.ripe = true ∧ n.level < cfg.maxLevel ∧
      livingSprouts s i ≤ cfg.maxSprouts

theorem Grown.refl {cfg : Conf D K} {st : State D K} (c : Core cfg st) (hc : Centred st) :
    Grown cfg st st := by
  refine ⟨c, hc, Ext.refl st, fun j n hn hj => ?_, fun i n n' h h' hne => ?_⟩
  · have := (List.getElem?_eq_some_iff.1 hn).1; omega
  · rw [h] at h'; cases h'; exact absurd rfl hne

theorem aliveAt_ext {a b : State D K} (h : Ext a b) {i : ℕ} (hi : i < a.nodes.length) :
    aliveAt b i = aliveAt a i := by
  have hg := List.getElem?_eq_getElem hi
  obtain ⟨s, hs⟩ := h i _ hg
  simp [aliveAt, hs, hg]

/-- Every sprout is a node. -/
theorem Tree.sprout_lt {m : ℕ} {st : State D K} (t : Tree m st) {i s : ℕ} {n : Node D K}
    (hn : st.nodes[i]? = some n) (hs : s ∈ n.sprouts) : s < st.nodes.length := by
  obtain ⟨q, hq, _⟩ := Option.map_eq_some_iff.1 (t.child i n s hn hs).2
  exact (List.getElem?_eq_some_iff.1 hq).1

theorem livingSprouts_eq (st : State D K) {i : ℕ} {n : Node D K} (hn : st.nodes[i]? = some n) :
    livingSprouts st i = (n.sprouts.filter (aliveAt st)).length := by
  simp [livingSprouts, hn]

theorem living_addSprout_other {m : ℕ} {st : State D K} (t : Tree m st) {i j level : ℕ} {ids : List ℕ}
    {d : D} (hij : i ≠ j) (hj : j < st.nodes.length) :
    livingSprouts (addSprout st i level ids d) j = livingSprouts st j := by
  have hg := List.getElem?_eq_getElem hj
  have hg' : (addSprout st i level ids d).nodes[j]? = some st.nodes[j] := by
    rw [addSprout_get, if_pos hj, hg]; simp [hij]
  rw [livingSprouts_eq _ hg, livingSprouts_eq _ hg']
  congr 1
  refine List.filter_congr fun s hs => ?_
  exact aliveAt_ext (addSprout_ext st i level ids d) (t.sprout_lt hg hs)

theorem living_addSprout_self {m : ℕ} {st : State D K} (t : Tree m st) {i level : ℕ} {ids : List ℕ}
    {d : D} {n : Node D K} (hn : st.nodes[i]? = some n) :
    livingSprouts (addSprout st i level ids d) i = livingSprouts st i + 1 := by
  have hi := (List.getElem?_eq_some_iff.1 hn).1
  have hg' : (addSprout st i level ids d).nodes[i]? =
      some { n with sprouts := n.sprouts ++ [st.nodes.length] } := by
    rw [addSprout_get, if_pos hi, hn]; simp
  rw [livingSprouts_eq _ hn, livingSprouts_eq _ hg']
  simp only [List.filter_append, List.length_append]
  congr 1
  · congr 1
    refine List.filter_congr fun s hs => ?_
    exact aliveAt_ext (addSprout_ext st i level ids d) (t.sprout_lt hn hs)
  · have : aliveAt (addSprout st i level ids d) st.nodes.length = true := by
      simp [aliveAt, addSprout_get, newNode]
    simp [this]

theorem nodeCenters_mem {st : State D K} : ∀ {ids : List ℕ} {cs : List D}, nodeCenters st ids = some cs →
    ∀ {i : ℕ} {n : Node D K} {c : D}, i ∈ ids → st.nodes[i]? = some n → n.pop ≠ [] →
    n.center = some c → c ∈ cs
  | [], cs, h, i, n, c, hi, _, _, _ => by simp at hi
  | j :: js, cs, h, i, n, c, hi, hn, hp, hc => by
    rw [nodeCenters] at h
    split at h
    · cases h
    · rename_i q hq
      split at h
      · rename_i he
        rcases List.mem_cons.1 hi with rfl | hi
        · rw [hn] at hq; cases hq
          exact absurd (List.isEmpty_iff.1 he) hp
        · exact nodeCenters_mem h hi hn hp hc
      · split at h
        · rename_i c' cs' h1 h2
          cases h
          rcases List.mem_cons.1 hi with rfl | hi
          · rw [hn] at hq; cases hq
            rw [hc] at h1; cases h1
            exact List.mem_cons_self ..
          · exact List.mem_cons_of_mem _ (nodeCenters_mem h2 hi hn hp hc)
        · cases h

theorem Ext.length_le {a b : State D K} (h : Ext a b) : a.nodes.length ≤ b.nodes.length := by
  by_contra hlt
  push Not at hlt
  have hg := List.getElem?_eq_getElem hlt
  obtain ⟨s, hs⟩ := h _ _ hg
  have := (List.getElem?_eq_some_iff.1 hs).1
  omega

theorem Grown.add {cfg : Conf D K} (hm : cfg.maxLevel ≤ 2) {st0 s : State D K} (g : Grown cfg st0 s)
    {i level : ℕ} {ids : List ℕ} {cs : List D} {d : D} {n : Node D K} (hn : s.nodes[i]? = some n)
    (hl : n.level = level) (hripe : n.ripe = true) (hlm : level < cfg.maxLevel)
    (hids : s.levels[level + 1]? = some ids) (hcs : nodeCenters s ids = some cs)
    (hfar : cs.any (fun c => cfg.near (level + 1) d c) = false)
    (hlim : livingSprouts s i < cfg.maxSprouts) : Grown cfg st0 (addSprout s i level ids d) := by
  have hx := addSprout_ext s i level ids d
  obtain ⟨c', d'⟩ := g.core.addSprout hm g.centred (d := d) hn hl hlm hids
  refine ⟨c', d', g.ext.trans hx, ?_, ?_⟩
  · intro j q hq hj
    rcases addSprout_mem s i level ids d hq with ⟨rfl, rfl⟩ | ⟨m, sp, hm', rfl⟩
    · refine ⟨rfl, rfl, d, rfl, fun m hm' hml hp c hc => ?_⟩
      obtain ⟨k, hk⟩ := List.mem_iff_getElem?.1 hm'
      obtain ⟨t, ht⟩ := g.ext k m hk
      have hk' : k ∈ ids := (g.core.tree.mem_level (by omega) hids).2 ⟨_, ht, hml⟩
      have := nodeCenters_mem hcs hk' ht hp hc
      rw [List.any_eq_false] at hfar
      simpa [newNode] using hfar c this
    · exact g.fresh j m hm' hj
  · intro j q q' hq hq' hne
    have hjlt : j < s.nodes.length :=
      Nat.lt_of_lt_of_le (List.getElem?_eq_some_iff.1 hq).1 g.ext.length_le
    by_cases e : i = j
    · subst e
      obtain ⟨t, ht⟩ := g.ext i q hq
      rw [hn] at ht
      cases ht
      refine ⟨hripe, ?_, ?_⟩
      · exact hl ▸ hlm
      · rw [living_addSprout_self g.core.tree hn]; omega
    · rw [living_addSprout_other g.core.tree e hjlt]
      rw [addSprout_get, if_pos hjlt] at hq'
      simp only [if_neg e, Option.map_id'] at hq'
      exact g.limit j q q' hq hq' hne

theorem Grown.releaseLoop {cfg : Conf D K} (hm : cfg.maxLevel ≤ 2) {st0 : State D K} {i level : ℕ}
    (hlm : level < cfg.maxLevel) : ∀ (ds : List D) (k : ℕ) (s s' : State D K), Grown cfg st0 s →
    (∃ n, s.nodes[i]? = some n ∧ n.level = level ∧ n.ripe = true) →
    releaseLoop cfg i level ds k s = some s' → Grown cfg st0 s'
  | [], k, s, s', g, _, h => by
    simp only [Hgs.releaseLoop, Option.some.injEq] at h; exact h ▸ g
  | d :: ds, k, s, s', g, hn, h => by
    rw [Hgs.releaseLoop] at h
    split at h
    · cases h; exact g
    · rename_i hcond
      split at h
      · cases h
      · rename_i ids hids
        split at h
        · cases h
        · rename_i cs hcs
          split at h
          · exact Grown.releaseLoop hm hlm ds k s s' g hn h
          · rename_i hany
            obtain ⟨n, hn, hl, hr⟩ := hn
            have g' := g.add hm (d := d) hn hl hr hlm hids hcs (by simpa using hany) (by omega)
            obtain ⟨t, ht⟩ := addSprout_ext s i level ids d i n hn
            exact Grown.releaseLoop hm hlm ds (k + 1) _ s' g' ⟨_, ht, hl, hr⟩ h

theorem Grown.release {cfg : Conf D K} (hm : cfg.maxLevel ≤ 2) {st0 : State D K} :
    ∀ (fuel i : ℕ) (s s' : State D K), Grown cfg st0 s → release cfg fuel i s = some s' →
    Grown cfg st0 s' ∧ Ext s s'
  | 0, i, s, s', g, h => by cases h
  | fuel + 1, i, s, s', g, h => by
    rw [Hgs.release] at h
    split at h
    · cases h
    · rename_i n hn
      split at h
      · rename_i hr
        have hfold : ∀ (js : List ℕ) (a b : State D K), Grown cfg st0 a →
            js.foldlM (fun s j => Hgs.release cfg fuel j s) a = some b → Grown cfg st0 b ∧ Ext a b := by
          intro js
          induction js with
          | nil => intro a b g h; cases h; exact ⟨g, Ext.refl a⟩
          | cons j js ih =>
            intro a b g h
            rw [List.foldlM_cons] at h
            obtain ⟨a1, h1, h2⟩ := Option.bind_eq_some_iff.1 h
            obtain ⟨g1, x1⟩ := Grown.release hm fuel j a a1 g h1
            obtain ⟨g2, x2⟩ := ih a1 b g1 h2
            exact ⟨g2, x1.trans x2⟩
        split at h
        · cases h
        · rename_i s1 hs1
          obtain ⟨g1, x1⟩ := hfold _ _ _ g hs1
          split at h
          · rename_i hcond
            obtain ⟨t, ht⟩ := x1 i n hn
            have g2 := Grown.releaseLoop hm hcond.1 _ _ _ _ g1 ⟨_, ht, rfl, hr⟩ h
            obtain ⟨s2, e2, _, _, x2⟩ := releaseLoop_core hm hcond.1 n.delegates 0 s1 g1.core g1.centred
              ⟨_, ht, rfl⟩
            rw [h] at e2; cases e2
            exact ⟨g2, x1.trans x2⟩
          · cases h; exact ⟨g1, x1⟩
      · cases h; exact ⟨g, Ext.refl _⟩

end Evogil.Hgs
