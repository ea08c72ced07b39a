import Verif.Model.RoundedHgs
import Verif.Lemmas.HgsRun

/-!
# Lemmas for C155: the tree of HGS with rounding
-/

set_option linter.unusedSectionVars false

namespace Evogil.Rounded.Hgs

open Evogil.Hgs (Node State Conf Report costLoop aliveAt trimRedundant release wake Core Centred TreeOk NodeOk TrimRel
  forall₂_set forall₂_trans forall₂_get forall₂_get' forall₂_mem forall_set sameTree_of_trim redundantLoop redundantLoop_some
  redundantLoop_spec redundantLoop_single redundantLoop_ok shape init newNode runNode_shape runNode_fields
  release_core release_ok revive_core reviveRoot_get Grown runMetaepoch_ok wake_fields)

variable {D K : Type*} [Field K] [LinearOrder K]

/-! ## Trimming, as in `Verif.Lemmas.Hgs`, `Verif.Lemmas.HgsStep` and `Verif.Lemmas.HgsRun` -/

theorem trimNotProgressing_spec (fl : K → K) (cfg : Conf D K) (ratio : List K) : ∀ (ids : List ℕ) (st st' : State D K),
    trimNotProgressing fl cfg ratio ids st = some st' →
    st'.levels = st.levels ∧ st'.cost = st.cost ∧ List.Forall₂ TrimRel st.nodes st'.nodes ∧
      List.Forall₂ (fun n n' : Node D K => (n.alive || n.ripe) = true → (n'.alive || n'.ripe) = true)
        st.nodes st'.nodes ∧ ∀ j, j ∉ ids → st'.nodes[j]? = st.nodes[j]?
  | [], st, st', h => by
    simp only [trimNotProgressing, Option.some.injEq] at h; subst h
    exact ⟨rfl, rfl, List.forall₂_same.2 fun x _ => TrimRel.refl x,
      List.forall₂_same.2 fun x _ h => h, fun _ _ => rfl⟩
  | i :: is, st, st', h => by
    rw [trimNotProgressing] at h
    cases hn : st.nodes[i]? with
    | none => simp [hn] at h
    | some n =>
      simp only [hn] at h
      have skip : trimNotProgressing fl cfg ratio is st = some st' → _ := fun h => by
        obtain ⟨h1, h2, h3, h4, h5⟩ := trimNotProgressing_spec fl cfg ratio is _ _ h
        exact (⟨h1, h2, h3, h4, fun j hj => h5 j (fun hj' => hj (List.mem_cons_of_mem _ hj'))⟩ :
          st'.levels = st.levels ∧ st'.cost = st.cost ∧ List.Forall₂ TrimRel st.nodes st'.nodes ∧
          List.Forall₂ (fun n n' : Node D K => (n.alive || n.ripe) = true → (n'.alive || n'.ripe) = true)
          st.nodes st'.nodes ∧ ∀ j, j ∉ i :: is → st'.nodes[j]? = st.nodes[j]?)
      by_cases ha : n.alive = true
      · rw [if_pos ha] at h
        cases hp : notProgressing fl cfg ratio n with
        | none => simp [hp] at h
        | some b =>
          cases b with
          | false => simp only [hp] at h; exact skip h
          | true =>
            simp only [hp] at h
            obtain ⟨h1, h2, h3, h4, h5⟩ := trimNotProgressing_spec fl cfg ratio is _ _ h
            refine ⟨h1, h2, forall₂_trans TrimRel.trans (forall₂_set TrimRel.refl _ _ _ _ hn ?_) h3,
              forall₂_trans (fun a b c hab hbc h => hbc (hab h))
                (forall₂_set (fun a h => h) _ _ _ _ hn ?_) h4, fun j hj => ?_⟩
            · refine ⟨rfl, rfl, rfl, rfl, fun h => ?_, fun h => ?_, fun _ => .inl rfl,
                fun _ => rfl⟩
              · rw [ha] at h; exact absurd h (by decide)
              · exact absurd h (by simp)
            · intro _; rfl
            · rw [h5 j (fun hj' => hj (List.mem_cons_of_mem _ hj'))]
              simp only
              rw [List.getElem?_set_ne]
              rintro rfl; exact hj (List.mem_cons_self ..)
      · rw [if_neg ha] at h; exact skip h

theorem notProgressing_some (fl : K → K) (cfg : Conf D K) {ratio : List K} {n : Node D K} (h : n.level < ratio.length) :
    ∃ b, notProgressing fl cfg ratio n = some b := by
  unfold notProgressing
  split
  · exact ⟨_, rfl⟩
  · split
    · rw [List.getElem?_eq_getElem h]; simp only; split <;> exact ⟨_, rfl⟩
    · exact ⟨_, rfl⟩

theorem trimNotProgressing_some (fl : K → K) (cfg : Conf D K) (ratio : List K) : ∀ (ids : List ℕ) (st : State D K),
    (∀ i ∈ ids, i < st.nodes.length) → (∀ n ∈ st.nodes, n.level < ratio.length) →
    ∃ st', trimNotProgressing fl cfg ratio ids st = some st'
  | [], st, _, _ => ⟨st, rfl⟩
  | i :: is, st, h, hl => by
    rw [trimNotProgressing]
    have hi := h i (List.mem_cons_self ..)
    rw [List.getElem?_eq_getElem hi]
    simp only
    have hm := List.getElem_mem hi
    have rest := fun j hj => h j (List.mem_cons_of_mem i hj)
    obtain ⟨b, hb⟩ := notProgressing_some fl cfg (hl _ hm)
    rw [hb]
    split
    · cases b with
      | false => exact trimNotProgressing_some fl cfg ratio is st rest hl
      | true =>
        refine trimNotProgressing_some fl cfg ratio is _ (fun j hj => by simpa using rest j hj) ?_
        exact forall_set (P := fun n : Node D K => n.level < ratio.length) hl (hl (st.nodes[i]) hm)
    · exact trimNotProgressing_some fl cfg ratio is st rest hl

theorem trimAll_core {fl : K → K} {cfg : Conf D K} (hm : cfg.maxLevel ≤ 2) {ratio : List K} (hr : 3 ≤ ratio.length)
    {st : State D K} (c : Core cfg st) {l : ℕ} (hl : l ≤ 2) :
    ∃ st', trimAll fl cfg ratio l st = some st' ∧ Core cfg st' ∧
      List.Forall₂ TrimRel st.nodes st'.nodes ∧
      ∀ n ∈ st'.nodes, n.level = l → n.center.isSome := by
  unfold trimAll
  obtain ⟨ids, hids⟩ : ∃ ids, st.levels[l]? = some ids := ⟨_, c.tree.level_list hl⟩
  have hlt : ∀ i ∈ ids, i < st.nodes.length := fun i hi => by
    obtain ⟨n, hn, _⟩ := (c.tree.mem_level hl hids).1 hi
    exact (List.getElem?_eq_some_iff.1 hn).1
  obtain ⟨s1, hs1⟩ := trimNotProgressing_some fl cfg ratio ids st hlt
    (fun n hn => by have := c.tree.depth n hn; omega)
  obtain ⟨a1, a2, a3, a4, a5⟩ := trimNotProgressing_spec fl cfg ratio ids st s1 hs1
  have c1 : Core cfg s1 := c.of_trim a1 a2 a3 (fun n hn => by
    obtain ⟨m, hm, r⟩ := forall₂_get a4 hn
    exact r (c.root m hm))
  have hids1 : s1.levels[l]? = some ids := by rw [a1]; exact hids
  have hlt1 : ∀ i ∈ ids, i < s1.nodes.length := fun i hi => by
    rw [(sameTree_of_trim a1 a3).length]; exact hlt i hi
  simp only [hids, hs1]
  unfold trimRedundant
  obtain ⟨s2, hs2⟩ := redundantLoop_some cfg (ids.filter fun i => !aliveAt s1 i)
    (ids.filter (aliveAt s1)) [] s1 (fun i hi => hlt1 i (List.mem_filter.1 hi).1) (by
      intro a ha
      rw [List.append_nil, List.mem_filter] at ha
      have hal := hlt1 a ha.1
      have hg := List.getElem?_eq_getElem hal
      refine ⟨_, hg, c1.dead _ (List.getElem_mem hal) ?_⟩
      have := ha.2
      simpa [aliveAt, hg] using this)
  obtain ⟨b1, b2, b3, b4, b5⟩ := redundantLoop_spec cfg _ _ _ s1 s2 hs2
    (fun i hi => (List.mem_filter.1 hi).2) ((c.tree.nodup_level hl hids).filter _)
  refine ⟨s2, hs2, c1.of_trim b1 b2 b3 ?_, forall₂_trans TrimRel.trans a3 b3, ?_⟩
  · intro n hn
    by_cases h0 : 0 ∈ ids.filter (aliveAt s1)
    · have h0' := (List.mem_filter.1 h0).1
      have hl0 : l = 0 := by
        obtain ⟨q, hq, e⟩ := (c.tree.mem_level hl hids).1 h0'
        have := c.tree.root
        rw [hq] at this
        simpa [e] using this
      subst hl0
      rw [c.tree.level_zero, Option.some.injEq] at hids
      subst hids
      have ha := (List.mem_filter.1 h0).2
      have e1 : [0].filter (aliveAt s1) = [0] := by simp [ha]
      have e2 : [0].filter (fun i => !aliveAt s1 i) = [] := by simp [ha]
      rw [e1, e2] at hs2
      obtain ⟨q, hq⟩ : ∃ q, s1.nodes[0]? = some q := by
        obtain ⟨q, hq, _⟩ := Option.map_eq_some_iff.1 c1.tree.root
        exact ⟨q, hq⟩
      obtain ⟨k, hk, e3, e4⟩ := redundantLoop_single cfg hq hs2
      rw [hk] at hn; cases hn
      rw [e3, e4]; exact c1.root q hq
    · rw [b4 0 h0] at hn
      exact c1.root n hn
  · intro n hn hnl
    obtain ⟨i, hi⟩ := List.mem_iff_getElem?.1 hn
    have t2 := sameTree_of_trim b1 b3
    obtain ⟨q, hq, e1, e2⟩ := t2.get hi
    have hmem : i ∈ ids := (c1.tree.mem_level hl hids1).2 ⟨q, hq, e1.trans hnl⟩
    by_cases ha : aliveAt s1 i = true
    · obtain ⟨k, hk, hc⟩ := b5 i (List.mem_filter.2 ⟨hmem, ha⟩)
      rw [hi] at hk; cases hk; exact hc
    · have : i ∉ ids.filter (aliveAt s1) := fun h => ha (List.mem_filter.1 h).2
      rw [b4 i this] at hi
      refine c1.dead n (List.mem_of_getElem? hi) ?_
      simpa [aliveAt, hi] using ha

theorem trimSprouts_core {fl : K → K} {cfg : Conf D K} (hm : cfg.maxLevel ≤ 2) {ratio : List K} (hr : 3 ≤ ratio.length)
    {st : State D K} (c : Core cfg st) :
    ∃ st', trimSprouts fl cfg ratio st = some st' ∧ Core cfg st' ∧ List.Forall₂ TrimRel st.nodes st'.nodes ∧
      ∀ n ∈ st'.nodes, n.center.isSome := by
  obtain ⟨s2, h2, c2, r2, e2⟩ := trimAll_core (fl := fl) hm hr c (l := 2) (by omega)
  obtain ⟨s1, h1, c1, r1, e1⟩ := trimAll_core (fl := fl) hm hr c2 (l := 1) (by omega)
  obtain ⟨s0, h0, c0, r0, e0⟩ := trimAll_core (fl := fl) hm hr c1 (l := 0) (by omega)
  refine ⟨s0, by simp [trimSprouts, h2, h1, h0], c0,
    forall₂_trans TrimRel.trans (forall₂_trans TrimRel.trans r2 r1) r0, fun n hn => ?_⟩
  have hd := c0.tree.depth n hn
  obtain ⟨m1, hm1, q1⟩ := forall₂_mem r0 hn
  obtain ⟨m2, hm2, q2⟩ := forall₂_mem r1 hm1
  have s1' := q1.shape
  have s2' := q2.shape
  simp only [shape, Prod.mk.injEq] at s1' s2'
  have : n.level = 0 ∨ n.level = 1 ∨ n.level = 2 := by omega
  rcases this with h | h | h
  · exact e0 n hn h
  · exact q1.center (e1 m1 hm1 (by rw [← s1'.1, h]))
  · exact q1.center (q2.center (e2 m2 hm2 (by rw [← s2'.1, ← s1'.1, h])))

theorem trimNotProgressing_ok {fl : K → K} {cfg : Conf D K} {P : D → Prop} {ratio : List K} : ∀ (is : List ℕ)
    (st st' : State D K), TreeOk P st → trimNotProgressing fl cfg ratio is st = some st' → TreeOk P st' := by
  intro is
  induction is with
  | nil => intro st st' h e; cases e; exact h
  | cons i is ih =>
    intro st st' h e
    rw [trimNotProgressing] at e
    split at e
    · cases e
    · rename_i n hn
      split at e
      · split at e
        · cases e
        · refine ih _ _ ?_ e
          exact h.set (c := st.cost) (h n (List.mem_of_getElem? hn))
        · exact ih _ _ h e
      · exact ih _ _ h e

theorem trimAll_ok {fl : K → K} {cfg : Conf D K} {P : D → Prop} {ratio : List K} {l : ℕ} {st st' : State D K}
    (h : TreeOk P st) (e : trimAll fl cfg ratio l st = some st') : TreeOk P st' := by
  unfold trimAll at e
  split at e
  · cases e
  · split at e
    · cases e
    · rename_i s hs
      exact redundantLoop_ok _ _ _ _ (trimNotProgressing_ok _ _ _ h hs) e

theorem trimSprouts_ok {fl : K → K} {cfg : Conf D K} {P : D → Prop} {ratio : List K} {st st' : State D K}
    (h : TreeOk P st) (e : trimSprouts fl cfg ratio st = some st') : TreeOk P st' := by
  unfold trimSprouts at e
  obtain ⟨s1, e1, e⟩ := Option.bind_eq_some_iff.1 e
  obtain ⟨s2, e2, e1⟩ := Option.bind_eq_some_iff.1 e1
  exact trimAll_ok (trimAll_ok (trimAll_ok h e2) e1) e

/-! ## Metaepochs: as without rounding, with other hypervolumes -/

/-- The report that gives without rounding what `r` gives with it. -/
def unrounded (fl : K → K) (r : Report D K) (n : Node D K) : Report D K :=
  { r with hv := match n.rel with
    | none => r.hv
    | some rel => fl (r.hv - rel) + rel }

theorem runNode_eq (fl : K → K) (cfg : Conf D K) (r : Report D K) (n : Node D K) :
    runNode fl cfg r n = Evogil.Hgs.runNode cfg (unrounded fl r n) n := by
  unfold runNode Evogil.Hgs.runNode
  split
  · simp only [afterMetaepoch, Evogil.Hgs.afterMetaepoch, unrounded]
    cases n.rel with
    | none => rfl
    | some rel => simp
  · rfl

theorem runNodes_eq (fl : K → K) (cfg : Conf D K) (env env' : ℕ → Report D K) : ∀ (ids : List ℕ) (st : State D K),
    ids.Nodup → (∀ i ∈ ids, ∀ n, st.nodes[i]? = some n → env' i = unrounded fl (env i) n) →
    runNodes fl cfg env ids st = Evogil.Hgs.runNodes cfg env' ids st
  | [], st, _, _ => rfl
  | i :: is, st, hnd, h => by
    rw [runNodes, Evogil.Hgs.runNodes]
    cases hn : st.nodes[i]? with
    | none => rfl
    | some n =>
      simp only
      rw [runNode_eq, ← h i (by simp) n hn]
      refine runNodes_eq fl cfg env env' is _ (List.nodup_cons.1 hnd).2 fun j hj m hm => ?_
      have hij : i ≠ j := fun e => (List.nodup_cons.1 hnd).1 (e ▸ hj)
      simp only [List.getElem?_set_ne hij] at hm
      exact h j (List.mem_cons_of_mem _ hj) m hm

/-- The reports that give without rounding what `env` gives with it. -/
def exactEnv (fl : K → K) (env : ℕ → Report D K) (st : State D K) (i : ℕ) : Report D K :=
  match st.nodes[i]? with
  | none => env i
  | some n => unrounded fl (env i) n

theorem exactEnv_pop (fl : K → K) (env : ℕ → Report D K) (st : State D K) (i : ℕ) :
    (exactEnv fl env st i).pop = (env i).pop ∧ (exactEnv fl env st i).delegates = (env i).delegates ∧
      (exactEnv fl env st i).costs = (env i).costs := by
  unfold exactEnv
  split <;> exact ⟨rfl, rfl, rfl⟩

theorem runMetaepoch_eq (fl : K → K) {cfg : Conf D K} {st : State D K} (t : Evogil.Hgs.Tree cfg.maxLevel st)
    (env : ℕ → Report D K) :
    runMetaepoch fl cfg env st = Evogil.Hgs.runMetaepoch cfg (exactEnv fl env st) st := by
  unfold runMetaepoch Evogil.Hgs.runMetaepoch
  obtain ⟨l2, h2⟩ : ∃ ids, st.levels[2]? = some ids := ⟨_, t.level_list (by omega)⟩
  obtain ⟨l1, h1⟩ : ∃ ids, st.levels[1]? = some ids := ⟨_, t.level_list (by omega)⟩
  obtain ⟨l0, h0⟩ : ∃ ids, st.levels[0]? = some ids := ⟨_, t.level_list (by omega)⟩
  simp only [h2, h1, h0]
  have dis : ∀ {l l' : ℕ} {a b : List ℕ}, l ≤ 2 → l' ≤ 2 → l ≠ l' → st.levels[l]? = some a →
      st.levels[l']? = some b → List.Disjoint a b := by
    intro l l' a b hl hl' hne ha hb x hx hx'
    obtain ⟨q, hq, e⟩ := (t.mem_level hl ha).1 hx
    obtain ⟨q', hq', e'⟩ := (t.mem_level hl' hb).1 hx'
    rw [hq] at hq'; cases hq'; exact hne (e.symm.trans e')
  have hnd : (l2 ++ l1 ++ l0).Nodup := by
    rw [List.nodup_append', List.nodup_append']
    refine ⟨⟨t.nodup_level (by omega) h2, t.nodup_level (by omega) h1,
      dis (by omega) (by omega) (by omega) h2 h1⟩, t.nodup_level (by omega) h0, ?_⟩
    intro x hx hx'
    rcases List.mem_append.1 hx with hx | hx
    · exact dis (by omega) (by omega) (by omega) h2 h0 hx hx'
    · exact dis (by omega) (by omega) (by omega) h1 h0 hx hx'
  refine runNodes_eq fl cfg env _ _ _ hnd fun i _ n hn => ?_
  simp only [exactEnv, hn]

/-! ## Revival -/

theorem halve_some (fl : K → K) : ∀ {ratio : List K}, 3 ≤ ratio.length → ∃ r, halve fl ratio = some r ∧
    r.length = ratio.length
  | a :: b :: c :: rest, _ => ⟨_, rfl, by simp⟩
  | [], h => by simp at h
  | [_], h => by simp at h
  | [_, _], h => by simp at h

/-- The nodes are revived as without rounding. -/
theorem reviveRoot_eq (fl : K → K) {ratio : List K} (hr : 3 ≤ ratio.length) {st st' : State D K} {ratio' : List K}
    (h : Evogil.Hgs.reviveRoot ratio st = some (st', ratio')) :
    ∃ r, reviveRoot fl ratio st = some (st', r) ∧ r.length = ratio.length := by
  unfold Evogil.Hgs.reviveRoot at h
  unfold reviveRoot
  split at h
  · rename_i h0
    rw [if_pos h0]
    obtain ⟨r, e, hl⟩ := halve_some fl hr
    rw [e]
    split at h
    · cases h
    · cases h
      exact ⟨r, rfl, hl⟩
  · rename_i h0
    rw [if_neg h0]
    cases h
    exact ⟨ratio, rfl, rfl⟩

/-! ## After the trimming -/

end Evogil.Rounded.Hgs

namespace Evogil.Hgs

variable {D K : Type*} [Field K] [LinearOrder K]

theorem finish_nodes {cfg : Conf D K} (hm : cfg.maxLevel ≤ 2) {fuel : ℕ} {ratio ratio' : List K}
    {st s1 s2 s3 st' : State D K} (c : Core cfg st) (env : ℕ → Report D K)
    (e1 : runMetaepoch cfg env st = some s1) (c2 : Core cfg s2) (t2 : List.Forall₂ TrimRel s1.nodes s2.nodes)
    (h2 : ∀ n ∈ s2.nodes, n.center.isSome) (ok2 : ∀ P, TreeOk P s1 → TreeOk P s2) (e3 : release cfg fuel 0 s2 = some s3) (x3 : Ext s2 s3)
    (h : reviveRoot ratio s3 = some (st', ratio')) :
    (∀ (i : ℕ) (n : Node D K), st.nodes[i]? = some n → ∃ n', st'.nodes[i]? = some n' ∧
      n'.level = n.level ∧ n'.pop = if n.alive then (env i).pop else n.pop) ∧
    (∀ (i : ℕ) (n' : Node D K), st'.nodes[i]? = some n' → st.nodes.length ≤ i →
      n'.alive = true ∧ n'.pop = [] ∧ ∃ d, n'.seed = some d) ∧ st.nodes.length ≤ st'.nodes.length ∧
    ∀ (P : D → Prop), TreeOk P st → (∀ (i : ℕ) (n : Node D K), st.nodes[i]? = some n →
      n.alive = true → (∀ d ∈ (env i).pop, P d) ∧ ∀ d ∈ (env i).delegates, P d) → TreeOk P st' := by
  obtain ⟨hl4, h4⟩ := reviveRoot_get h
  have hl2 : s2.nodes.length = st.nodes.length := by
    have a1 := t2.length_eq
    have a2 : s1.nodes.length = st.nodes.length := by
      unfold runMetaepoch at e1
      split at e1
      · exact (runNodes_spec cfg env _ _ _ e1).1.length
      · cases e1
    omega
  have hg := (Grown.release hm fuel 0 s2 s3 (Grown.refl c2 (fun n hn _ => h2 n hn)) e3).1
  have hl3 : s2.nodes.length ≤ s3.nodes.length := by
    by_contra hlt
    obtain ⟨sp, g⟩ := x3 s3.nodes.length _ (List.getElem?_eq_getElem (Nat.lt_of_not_le hlt))
    simp at g
  refine ⟨?_, ?_, by omega, ?_⟩
  · intro i n hn
    have g1 := runMetaepoch_get c env hm e1 hn
    obtain ⟨m2, g2, r2⟩ := forall₂_get' t2 g1
    obtain ⟨sp, g3⟩ := x3 i m2 g2
    obtain ⟨m4, g4, p4, -, -, l4, -⟩ := h4 i _ g3
    have hs1 := runNode_shape cfg (env i) n
    have hs2 := r2.shape
    simp only [shape, Prod.mk.injEq] at hs1 hs2
    exact ⟨m4, g4, by rw [l4]; exact hs2.1.trans hs1.1, by
      rw [p4]; simp only; rw [r2.pop]; exact (runNode_fields cfg (env i) n).1⟩
  · intro i n' hn' hi
    have hlt : i < s3.nodes.length := by rw [← hl4]; exact (List.getElem?_eq_some_iff.1 hn').1
    have g3 := List.getElem?_eq_getElem hlt
    obtain ⟨m4, g4, p4, -, q4, -, a4⟩ := h4 i _ g3
    rw [hn', Option.some.injEq] at g4
    subst g4
    obtain ⟨f1, f2, d, f3, -⟩ := hg.fresh i _ g3 (by omega)
    exact ⟨a4 f1, p4.trans f2, d, q4.trans f3⟩
  · intro P hok henv
    have k3 := release_ok (P := P) _ _ _ _ (ok2 P (runMetaepoch_ok hm c env e1 hok henv)) e3
    intro n' hn'
    obtain ⟨i, hi⟩ := List.mem_iff_getElem?.1 hn'
    have hlt : i < s3.nodes.length := by rw [← hl4]; exact (List.getElem?_eq_some_iff.1 hi).1
    have g3 := List.getElem?_eq_getElem hlt
    obtain ⟨m4, g4, p4, d4, q4, -⟩ := h4 i _ g3
    rw [hi, Option.some.injEq] at g4
    subst g4
    obtain ⟨a1, a2, a3⟩ := k3 _ (List.mem_of_getElem? g3)
    exact ⟨by rw [p4]; exact a1, by rw [d4]; exact a2, by rw [q4]; exact a3⟩

theorem finish_cost {cfg : Conf D K} (hm : cfg.maxLevel ≤ 2) {fuel : ℕ} {ratio ratio' : List K}
    {st s1 s2 s3 st' : State D K} (c : Core cfg st) (env : ℕ → Report D K)
    (e1 : runMetaepoch cfg env st = some s1) (c2 : Core cfg s2) (t2 : List.Forall₂ TrimRel s1.nodes s2.nodes)
    (h2 : ∀ n ∈ s2.nodes, n.center.isSome) (e3 : release cfg fuel 0 s2 = some s3) (x3 : Ext s2 s3)
    (h : reviveRoot ratio s3 = some (st', ratio')) :
    (∀ (i : ℕ) (n : Node D K), st.nodes[i]? = some n → ∃ n', st'.nodes[i]? = some n' ∧ n'.level = n.level ∧
      n'.cost = if n.alive then (n.cost :: (env i).costs).getLast (by simp) else n.cost) ∧
    ∀ (i : ℕ) (n' : Node D K), st'.nodes[i]? = some n' → st.nodes.length ≤ i → n'.cost = 0 := by
  have hw : ∀ (i : ℕ) (n : Node D K), s3.nodes[i]? = some n → ∃ n', st'.nodes[i]? = some n' ∧
      n'.level = n.level ∧ n'.cost = n.cost := by
    intro i n hn
    unfold reviveRoot at h
    split at h
    · split at h
      · cases h
      · cases h
        refine ⟨wake n, by simp [hn], ?_, ?_⟩ <;> (unfold wake; split <;> rfl)
    · cases h; exact ⟨n, hn, rfl, rfl⟩
  have hw' : ∀ (i : ℕ) (n' : Node D K), st'.nodes[i]? = some n' → ∃ n, s3.nodes[i]? = some n ∧
      n'.cost = n.cost := by
    intro i n' hn'
    unfold reviveRoot at h
    split at h
    · split at h
      · cases h
      · cases h
        simp only [List.getElem?_map] at hn'
        obtain ⟨m, hm', rfl⟩ := Option.map_eq_some_iff.1 hn'
        exact ⟨m, hm', by unfold wake; split <;> rfl⟩
    · cases h; exact ⟨n', hn', rfl⟩
  constructor
  · intro i n hn
    have g1 := runMetaepoch_get c env hm e1 hn
    obtain ⟨m2, g2, r2⟩ := forall₂_get' t2 g1
    obtain ⟨sp, g3⟩ := x3 i m2 g2
    obtain ⟨m4, g4, l4, k4⟩ := hw i _ g3
    have hs1 := runNode_shape cfg (env i) n
    have hs2 := r2.shape
    simp only [shape, Prod.mk.injEq] at hs1 hs2
    refine ⟨m4, g4, by rw [l4]; exact hs2.1.trans hs1.1, ?_⟩
    rw [k4]; simp only
    rw [r2.cost]
    unfold runNode
    split
    · simp only [(afterMetaepoch_flags _ _).2.2.1]
      exact costLoop_last _ _ _
    · rfl
  · intro i n' hn' hi
    obtain ⟨m3, g3, k3⟩ := hw' i n' hn'
    rw [k3]
    have hlen : s2.nodes.length ≤ i := by
      have a1 := t2.length_eq
      have a2 : s1.nodes.length = st.nodes.length := by
        unfold runMetaepoch at e1
        split at e1
        · exact (runNodes_spec cfg env _ _ _ e1).1.length
        · cases e1
      omega
    have e3' := e3
    have hg := (Grown.release hm fuel 0 s2 s3 (Grown.refl c2 (fun n hn _ => h2 n hn)) e3).1
    -- fresh nodes have never run
    have hz : ∀ (fuel i : ℕ) (s s' : State D K), (∀ (j : ℕ) (n : Node D K), s.nodes[j]? = some n →
        s2.nodes.length ≤ j → n.cost = 0) → release cfg fuel i s = some s' →
        ∀ (j : ℕ) (n : Node D K), s'.nodes[j]? = some n → s2.nodes.length ≤ j → n.cost = 0 := by
      have hloop : ∀ (i level : ℕ) (ds : List D) (k : ℕ) (s s' : State D K),
          (∀ (j : ℕ) (n : Node D K), s.nodes[j]? = some n → s2.nodes.length ≤ j → n.cost = 0) →
          releaseLoop cfg i level ds k s = some s' →
          ∀ (j : ℕ) (n : Node D K), s'.nodes[j]? = some n → s2.nodes.length ≤ j → n.cost = 0 := by
        intro i level ds
        induction ds with
        | nil => intro k s s' hs h; cases h; exact hs
        | cons d ds ih =>
          intro k s s' hs h
          rw [releaseLoop] at h
          split at h
          · cases h; exact hs
          · split at h
            · cases h
            · split at h
              · cases h
              · split at h
                · exact ih k s s' hs h
                · refine ih (k + 1) _ s' (fun j n hn hj => ?_) h
                  rcases addSprout_mem s i level _ d hn with ⟨rfl, _⟩ | ⟨m, sp, hm', rfl⟩
                  · rfl
                  · exact hs j m hm' hj
      intro fuel
      induction fuel with
      | zero => intro i s s' _ h; cases h
      | succ fuel ih =>
        intro i s s' hs h
        rw [release] at h
        split at h
        · cases h
        · rename_i n hn
          split at h
          · have hfold : ∀ (js : List ℕ) (a b : State D K), (∀ (j : ℕ) (n : Node D K),
                a.nodes[j]? = some n → s2.nodes.length ≤ j → n.cost = 0) →
                js.foldlM (fun s j => release cfg fuel j s) a = some b →
                ∀ (j : ℕ) (n : Node D K), b.nodes[j]? = some n → s2.nodes.length ≤ j → n.cost = 0 := by
              intro js
              induction js with
              | nil => intro a b ha h; cases h; exact ha
              | cons x js ihj =>
                intro a b ha h
                rw [List.foldlM_cons] at h
                obtain ⟨a1, h1, h2⟩ := Option.bind_eq_some_iff.1 h
                exact ihj a1 b (ih x a a1 ha h1) h2
            split at h
            · cases h
            · rename_i sx hsx
              have := hfold _ _ _ hs hsx
              split at h
              · exact hloop _ _ _ _ _ _ this h
              · cases h; exact this
          · cases h; exact hs
    exact hz fuel 0 s2 s3 (fun j n hn hj => by
      have := (List.getElem?_eq_some_iff.1 hn).1; omega) e3 i m3 g3 hlen

/-- What follows the trimming, for the reports `env` and a trimming `s1` to `s2` of any kind. -/
theorem finish_ok {cfg : Conf D K} (hm : cfg.maxLevel ≤ 2) {fuel : ℕ} (hf : cfg.maxLevel < fuel) {ratio : List K}
    (hr : 3 ≤ ratio.length) {st s1 s2 : State D K} (c : Core cfg st) (env : ℕ → Report D K)
    (e1 : runMetaepoch cfg env st = some s1) (c2 : Core cfg s2) (t2 : List.Forall₂ TrimRel s1.nodes s2.nodes)
    (h2 : ∀ n ∈ s2.nodes, n.center.isSome) (ok2 : ∀ P, TreeOk P s1 → TreeOk P s2) :
    ∃ s3 st' ratio', release cfg fuel 0 s2 = some s3 ∧ reviveRoot ratio s3 = some (st', ratio') ∧
      StepOk cfg env st st' := by
  obtain ⟨q, hq, _⟩ := Option.map_eq_some_iff.1 c2.tree.root
  obtain ⟨s3, e3, c3, d3, x3⟩ := release_core hm fuel 0 s2 c2 (fun n hn _ => h2 n hn) q hq (by omega)
  obtain ⟨st', ratio', h, c4, -, -, a4⟩ := revive_core hr c3 d3
  refine ⟨s3, st', ratio', e3, h, ?_⟩
  have A := finish_nodes hm c env e1 c2 t2 h2 ok2 e3 x3 h
  have B := finish_cost hm c env e1 c2 t2 h2 e3 x3 h
  exact ⟨c4, a4, A.1, A.2.1, A.2.2.1, A.2.2.2, B.1, B.2⟩

end Evogil.Hgs

namespace Evogil.Rounded.Hgs

open Evogil.Hgs (Node State Conf Report Core TreeOk)

variable {D K : Type*} [Field K] [LinearOrder K]

/-! ## A step -/

/-- A step of HGS, with rounding. -/
theorem step_all (fl : K → K) {cfg : Conf D K} (hm : cfg.maxLevel ≤ 2) {fuel : ℕ} (hf : cfg.maxLevel < fuel)
    {ratio : List K} (hr : 3 ≤ ratio.length) {st : State D K} (c : Core cfg st) (env : ℕ → Report D K) :
    ∃ st' ratio', step fl cfg fuel env st ratio = some (st', ratio') ∧ Evogil.Hgs.StepOk cfg env st st' ∧
      ratio'.length = ratio.length := by
  have e0 := runMetaepoch_eq fl c.tree env
  obtain ⟨s1, e1, c1⟩ := Evogil.Hgs.run_core c (exactEnv fl env st)
  obtain ⟨s2, e2, c2, t2, h2⟩ := trimSprouts_core (fl := fl) hm hr c1
  obtain ⟨s3, st', r, e3, e4, ok⟩ := Evogil.Hgs.finish_ok hm hf hr c (exactEnv fl env st) e1 c2 t2 h2
    (fun P h => trimSprouts_ok h e2)
  obtain ⟨r', e5, hl⟩ := reviveRoot_eq fl hr e4
  refine ⟨st', r', by simp [step, e0, e1, e2, e3, e5], ?_, hl⟩
  have hp := exactEnv_pop fl env st
  refine ⟨ok.core, ok.alive, fun i n hn => ?_, ok.new, ok.length, fun P h1 h2 => ok.ok P h1 fun i n hn ha => ?_,
    fun i n hn => ?_, ok.free⟩
  · rw [← (hp i).1]; exact ok.old i n hn
  · rw [(hp i).1, (hp i).2.1]; exact h2 i n hn ha
  · obtain ⟨n', h1, h2, h3⟩ := ok.cost i n hn
    refine ⟨n', h1, h2, h3.trans ?_⟩
    simp only [(hp i).2.2]

end Evogil.Rounded.Hgs
