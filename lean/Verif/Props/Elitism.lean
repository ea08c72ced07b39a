import Verif.Props.Jumping

/-!
# C98: NSGA-II and JGBL never lose the best value of an objective
-/

set_option linter.unusedSectionVars false

namespace Evogil.Jumping

open Evaluation Generations Jgbl Spec

section
variable {K : Type*} [Field K] [LinearOrder K] [IsStrictOrderedRing K] [FloorSemiring K]
  {A : Type*} [DecidableEq A]

/-- What an object of the class NSGAII or JGBL may be told to do: a step, or the result is asked
for. -/
inductive Move (S : Setup K) (key : List K → A) (fit : List K → List K) (m k N : ℕ) :
    NState K A → NState K A → Prop
  | nsgaii (iter : List (Ind (List K) (List K)) → List (Ind (List K) (List K)))
      (hiter : ∀ l, (iter l).Perm l) (dm : ℕ → MateDraw) (hdm : ∀ i, (dm i).Valid N)
      (dv : ℕ → VarDraw K) (hdv : ∀ i, (dv i).Valid) (s s' : NState K A)
      (h : nsgaiiStep S key fit m iter dm dv s = some s') : Move S key fit m k N s s'
  | jgbl (orders : Orders (Ind (List K) (List K))) (ho : orders.Valid)
      (dm : ℕ → MateDraw) (hdm : ∀ i, (dm i).Valid N) (dv : ℕ → VarDraw K) (hdv : ∀ i, (dv i).Valid)
      (jd : ℕ → ℕ → Option JumpDraw) (hjd : JumpsValid S.dims.length k jd) (s s' : NState K A)
      (h : jgblStep S key fit m orders dm dv jd s = some s') : Move S key fit m k N s s'
  | finish (iter : List (Ind (List K) (List K)) → List (Ind (List K) (List K)))
      (hiter : ∀ l, (iter l).Perm l) (s s' : NState K A) (r : List (List K))
      (h : nsgaiiFinish S key fit m iter s = some (s', r)) : Move S key fit m k N s s'

/-- For each objective and each vector of `l` there is a vector of `l'` that is no worse in it. -/
def Covers (fit : List K → List K) (l l' : List (List K)) : Prop :=
  ∀ v ∈ l, ∀ (i : ℕ) (a : K), (fit v)[i]? = some a → ∃ w ∈ l', ∃ b, (fit w)[i]? = some b ∧ b ≤ a

theorem Covers.of_subset {fit : List K → List K} {l l' : List (List K)} (h : ∀ v ∈ l, v ∈ l') :
    Covers fit l l' := fun v hv _ a ha => ⟨v, h v hv, a, ha, le_rfl⟩

theorem Covers.trans {fit : List K → List K} {l l' l'' : List (List K)} (h1 : Covers fit l l')
    (h2 : Covers fit l' l'') : Covers fit l l'' := by
  intro v hv i a ha
  obtain ⟨w, hw, b, hb, hle⟩ := h1 v hv i a ha
  obtain ⟨x, hx, d, hd, hle'⟩ := h2 w hw i b hb
  exact ⟨x, hx, d, hd, hle'.trans hle⟩

theorem Covers.append {fit : List K → List K} {l l' l'' : List (List K)} (h1 : Covers fit l l'')
    (h2 : Covers fit l' l'') : Covers fit (l ++ l') l'' := by
  intro v hv
  rcases List.mem_append.1 hv with hv | hv
  exacts [h1 v hv, h2 v hv]

/-- The vectors of a list of individuals. -/
abbrev vecs (l : List (Ind (List K) (List K))) : List (List K) := l.map fun x => x.v

variable {S : Setup K} {key : List K → A} {fit : List K → List K} {m k : ℕ} {c : K} {N : ℕ}

/-- Selection keeps the best value of each objective. -/
theorem select_covers (hS : S.Valid) (hfit : ∀ v, (fit v).length = m)
    {iter : List (Ind (List K) (List K)) → List (Ind (List K) (List K))}
    (hiter : ∀ l, (iter l).Perm l) {size : ℕ} (h1 : 1 ≤ size) (hm : m ≤ size)
    {pop kept : List (Ind (List K) (List K))} {f : Ind (List K) (List K) → ℕ ×ₗ K} (hp : pop.Nodup)
    (hr : ∀ x ∈ pop, x.objectives = some (fit x.v))
    (h : nsgaiiSelect iter S.eps m size pop = some (kept, f)) :
    (∀ x ∈ kept, x ∈ pop) ∧ Covers fit (vecs pop) (vecs kept) := by
  obtain ⟨kept', f', e, -, hsub⟩ := nsgaiiSelect_spec hiter S.eps m size hp
  rw [h] at e
  simp only [Option.some.injEq, Prod.mk.injEq] at e
  obtain ⟨rfl, rfl⟩ := e
  have hsub' : ∀ x ∈ kept, x ∈ pop := fun x hx => hsub.subset hx
  refine ⟨hsub', ?_⟩
  obtain ⟨kept', e1, e2⟩ := Nsgaii.C62_best_value_kept iter hiter hS.eps (objFns m) size h1
    (by simpa [objFns] using hm) pop hp pop.length le_rfl
  have hk : kept' = kept := by
    unfold Nsgaii.select at e1
    unfold nsgaiiSelect at h
    cases hf : ndSort iter (nsgaiiDom fun x => (objFns m).map (fun o => o x)) pop.length pop with
    | none => rw [hf] at h; simp at h
    | some fronts =>
      rw [hf] at h e1
      simp only [Option.some.injEq, Prod.mk.injEq] at h e1
      rw [← h.1, ← e1]
  subst hk
  intro v hv i a ha
  obtain ⟨x, hx, rfl⟩ := List.mem_map.1 hv
  have hi : i < m := by
    rw [← hfit x.v]
    exact (List.getElem?_eq_some_iff.1 ha).1
  obtain ⟨y, hy, hyx⟩ := e2 x hx (fun x => (objsOf x).getD i 0)
    (List.mem_map.2 ⟨i, List.mem_range.2 hi, rfl⟩)
  have hy' : i < (fit y.v).length := by rw [hfit]; exact hi
  refine ⟨y.v, List.mem_map_of_mem hy, (fit y.v)[i], List.getElem?_eq_getElem hy', ?_⟩
  have ex : objsOf x = fit x.v := by simp [objsOf, hr x hx]
  have ey : objsOf y = fit y.v := by simp [objsOf, hr y (hsub' y hy)]
  simp only [ex, ey, List.getD_eq_getElem?_getD, ha, List.getElem?_eq_getElem hy',
    Option.getD_some] at hyx
  exact hyx

/-- All vectors evaluated belong to the list. -/
theorem evalAll_calls {V F : Type*} (key : V → A) (fit : V → F) :
    ∀ (inds : List (Ind V F)) (st : Acc V A F), ∀ v ∈ (evalAll key fit st inds).1.calls,
      v ∈ st.calls ∨ v ∈ inds.map fun x => x.v := by
  intro inds
  induction inds with
  | nil => intro st v hv; exact Or.inl hv
  | cons i inds ih =>
    intro st v hv
    simp only [evalAll] at hv
    rcases ih _ v hv with hv | hv
    · have : v ∈ st.calls ∨ v = i.v := by
        unfold evalOne at hv
        split at hv
        · exact Or.inl hv
        · split at hv
          · simpa using hv
          · split at hv
            · exact Or.inl hv
            · simpa using hv
      rcases this with h | h
      · exact Or.inl h
      · exact Or.inr (by simp [h])
    · exact Or.inr (by simp only [List.map_cons, List.mem_cons]; exact Or.inr hv)

/-- The invariant behind C98: all objective values are right, and no best value has been lost. -/
structure EInv (S : Setup K) (key : List K → A) (fit : List K → List K) (m : ℕ) (c : K) (N : ℕ)
    (s : NState K A) : Prop where
  good : NInv S m c N s
  right : ∀ x ∈ s.individuals, x.objectives = some (fit x.v)
  sound : Sound key fit s.acc
  best : Covers fit s.acc.calls (vecs s.individuals)

/-- What evaluation does when everything stored is right. -/
theorem eval_right (hkey : ∀ v w, key v = key w → fit v = fit w) {acc : Acc (List K) A (List K)}
    (hs : Sound key fit acc) {inds : List (Ind (List K) (List K))}
    (hr : ∀ x ∈ inds, SoundInd fit x) :
    Sound key fit (evalAll key fit acc inds).1 ∧
    (∀ x ∈ (evalAll key fit acc inds).2, x.objectives = some (fit x.v)) ∧
    vecs (evalAll key fit acc inds).2 = vecs inds := by
  obtain ⟨h1, h2⟩ := C22_objectives key fit hkey acc inds hs hr
  refine ⟨h2, ?_, ?_⟩
  · rw [h1]
    intro x hx
    obtain ⟨y, -, rfl⟩ := List.mem_map.1 hx
    rfl
  · rw [h1, vecs, vecs, List.map_map]
    rfl

theorem soundInd_of_right {x : Ind (List K) (List K)} (h : x.objectives = some (fit x.v)) :
    SoundInd fit x := by
  intro f hf
  exact Option.some.inj (hf.symm.trans h)

theorem soundInd_new {next : ℕ} {vs : List (List K)} {x : Ind (List K) (List K)}
    (h : x ∈ newInds next vs) : SoundInd fit x := by
  intro f hf
  rw [(newInds_none _ _ _ h).1] at hf
  simp at hf

theorem EInv.nsgaii (hS : S.Valid) (hfit : ∀ v, (fit v).length = m)
    (hkey : ∀ v w, key v = key w → fit v = fit w) (hN : 1 ≤ N) (hm : m ≤ N)
    {iter : List (Ind (List K) (List K)) → List (Ind (List K) (List K))}
    (hiter : ∀ l, (iter l).Perm l) {dm : ℕ → MateDraw} (hdm : ∀ i, (dm i).Valid N)
    {dv : ℕ → VarDraw K} (hdv : ∀ i, (dv i).Valid) {s s' : NState K A}
    (h : EInv S key fit m c N s) (hs : nsgaiiStep S key fit m iter dm dv s = some s') :
    EInv S key fit m c N s' ∧ Covers fit (vecs s.individuals) (vecs s'.individuals) := by
  obtain ⟨t, ht, hg, -⟩ := h.good.step (key := key) hS hfit hiter hdm hdv
  obtain rfl : s' = t := Option.some.inj (hs.symm.trans ht)
  unfold nsgaiiStep at hs
  split at hs
  · cases hs
  rename_i kept fitness hsel
  split at hs
  · cases hs
  rename_i vs hvs
  simp only [Option.some.injEq] at hs
  rw [h.good.size] at hsel
  obtain ⟨hsub, hcov⟩ := select_covers hS hfit hiter hN hm h.good.nodup h.right hsel
  obtain ⟨e1, e2, e3⟩ := eval_right hkey h.sound (inds := kept ++ newInds s.nextId vs) (by
    intro x hx
    rcases List.mem_append.1 hx with hx | hx
    · exact soundInd_of_right (h.right x (hsub x hx))
    · exact soundInd_new hx)
  have hkc : Covers fit (vecs s.individuals) (vecs s'.individuals) := by
    refine hcov.trans (Covers.of_subset ?_)
    rw [← hs]
    simp only
    rw [e3]
    intro v hv
    rw [vecs, List.map_append]
    exact List.mem_append_left _ hv
  refine ⟨⟨hg, ?_, ?_, ?_⟩, hkc⟩
  · rw [← hs]; exact e2
  · rw [← hs]; exact e1
  · have : Covers fit (s.acc.calls ++ vecs (kept ++ newInds s.nextId vs)) (vecs s'.individuals) := by
      refine (h.best.trans hkc).append (Covers.of_subset ?_)
      rw [← hs]
      simp only
      rw [e3]
      exact fun _ h => h
    refine (Covers.of_subset ?_).trans this
    intro v hv
    rw [← hs] at hv
    exact List.mem_append.2 (evalAll_calls key fit _ _ v hv)

theorem EInv.jgbl (hS : S.Valid) (hp : ProperBox S.dims) (hfit : ∀ v, (fit v).length = m)
    (hkey : ∀ v w, key v = key w → fit v = fit w) (hN : 1 ≤ N) (hm : m ≤ N)
    {orders : Orders (Ind (List K) (List K))} (ho : orders.Valid)
    {dm : ℕ → MateDraw} (hdm : ∀ i, (dm i).Valid N) {dv : ℕ → VarDraw K} (hdv : ∀ i, (dv i).Valid)
    {jd : ℕ → ℕ → Option JumpDraw} (hjd : JumpsValid S.dims.length k jd) {s s' : NState K A}
    (h : EInv S key fit m c N s) (hs : jgblStep S key fit m orders dm dv jd s = some s') :
    EInv S key fit m c N s' ∧ Covers fit (vecs s.individuals) (vecs s'.individuals) := by
  obtain ⟨t, ht, hg, -⟩ := h.good.jump (key := key) hS hp hfit ho hdm hdv hjd
  obtain rfl : s' = t := Option.some.inj (hs.symm.trans ht)
  unfold jgblStep at hs
  split at hs
  · cases hs
  rename_i s1 h1
  obtain ⟨i1, c1⟩ := h.nsgaii hS hfit hkey hN hm ho.inner hdm hdv h1
  have hu := union_inv hS hfit ho hdm hdv h.good h1 i1.good
  simp only at hs
  set all := asSet orders.union (s.individuals ++ s1.individuals) with hall
  have hmem : ∀ x, x ∈ all ↔ x ∈ s.individuals ∨ x ∈ s1.individuals := by
    intro x
    rw [hall, asSet, (ho.union _).mem_iff, List.mem_dedup, List.mem_append]
  have hright : ∀ x ∈ all, x.objectives = some (fit x.v) := by
    intro x hx
    rcases (hmem x).1 hx with hx | hx
    exacts [h.right x hx, i1.right x hx]
  have hcall : Covers fit (vecs s1.individuals) (vecs all) := by
    refine Covers.of_subset fun v hv => ?_
    obtain ⟨x, hx, rfl⟩ := List.mem_map.1 hv
    exact List.mem_map_of_mem ((hmem x).2 (Or.inr hx))
  split at hs
  · rename_i kept f front hsel hfront
    rw [h.good.size] at hsel
    obtain ⟨hsub, hcov⟩ := select_covers hS hfit ho.first hN hm hu.nodup hright hsel
    by_cases hlt : kept.length < front.length
    · rw [if_pos hlt] at hs
      split at hs
      · cases hs
      rename_i vs hvs
      set inds := asSet orders.jumped (kept ++ newInds s1.nextId (vs.map S.trim)) with hinds
      have hmem2 : ∀ x, x ∈ inds ↔ x ∈ kept ∨ x ∈ newInds s1.nextId (vs.map S.trim) := by
        intro x
        rw [hinds, asSet, (ho.jumped _).mem_iff, List.mem_dedup, List.mem_append]
      obtain ⟨e1, e2, e3⟩ := eval_right hkey i1.sound (inds := inds) (by
        intro x hx
        rcases (hmem2 x).1 hx with hx | hx
        · exact soundInd_of_right (hright x (hsub x hx))
        · exact soundInd_new hx)
      split at hs
      · cases hs
      rename_i final f' hfin
      simp only [Option.some.injEq] at hs
      rw [h.good.size] at hfin
      have hnd : (evalAll key fit s1.acc inds).2.Nodup := by
        have hk : (evalAll key fit s1.acc inds).2.map (fun x => x.id) = inds.map fun x => x.id := by
          rw [(C22_objectives key fit hkey s1.acc inds i1.sound (by
            intro x hx
            rcases (hmem2 x).1 hx with hx | hx
            · exact soundInd_of_right (hright x (hsub x hx))
            · exact soundInd_new hx)).1, List.map_map]
          rfl
        refine List.Nodup.of_map (fun x => x.id) ?_
        rw [hk]
        obtain ⟨kept', f'', k1, -, k3⟩ := nsgaiiSelect_spec ho.first S.eps m N hu.nodup
        simp only at k1 k3
        rw [hsel] at k1
        simp only [Option.some.injEq, Prod.mk.injEq] at k1
        obtain ⟨rfl, -⟩ := k1
        have hids : Ids (s1.nextId + vs.length)
            ((kept ++ newInds s1.nextId (vs.map S.trim)).map fun x => x.id) := by
          rw [List.map_append, newInds_id, List.length_map]
          exact (hu.ids.of_subperm (subperm_map _ k3)).append_range'
        have hn : (kept ++ newInds s1.nextId (vs.map S.trim)).Nodup := hids.1.of_map _
        have hperm : inds.Perm (kept ++ newInds s1.nextId (vs.map S.trim)) := by
          rw [hinds]
          unfold asSet
          rw [hn.dedup]
          exact ho.jumped _
        exact (hperm.map _).nodup_iff.2 hids.1
      obtain ⟨hsub2, hcov2⟩ := select_covers hS hfit ho.second hN hm hnd e2 hfin
      have hpart : Covers fit (vecs kept) (vecs (evalAll key fit s1.acc inds).2) := by
        rw [e3]
        refine Covers.of_subset fun v hv => ?_
        obtain ⟨x, hx, rfl⟩ := List.mem_map.1 hv
        exact List.mem_map_of_mem ((hmem2 x).2 (Or.inl hx))
      have hs1 : Covers fit (vecs s1.individuals) (vecs s'.individuals) := by
        rw [← hs]
        exact ((hcall.trans hcov).trans hpart).trans hcov2
      refine ⟨⟨hg, ?_, ?_, ?_⟩, c1.trans hs1⟩
      · rw [← hs]; exact fun x hx => e2 x (hsub2 x hx)
      · rw [← hs]; exact e1
      · have : Covers fit (s1.acc.calls ++ vecs inds) (vecs s'.individuals) := by
          refine (i1.best.trans hs1).append ?_
          rw [← hs, ← e3]
          exact hcov2
        refine (Covers.of_subset ?_).trans this
        intro v hv
        rw [← hs] at hv
        exact List.mem_append.2 (evalAll_calls key fit _ _ v hv)
    · rw [if_neg hlt] at hs
      obtain rfl := Option.some.inj hs
      exact ⟨i1, c1⟩
  · cases hs

theorem EInv.finish (hS : S.Valid) (hfit : ∀ v, (fit v).length = m) (hN : 1 ≤ N) (hm : m ≤ N)
    {iter : List (Ind (List K) (List K)) → List (Ind (List K) (List K))}
    (hiter : ∀ l, (iter l).Perm l) {s s' : NState K A} {r : List (List K)}
    (h : EInv S key fit m c N s) (hs : nsgaiiFinish S key fit m iter s = some (s', r)) :
    EInv S key fit m c N s' ∧ Covers fit (vecs s.individuals) (vecs s'.individuals) ∧
      r = vecs s'.individuals := by
  obtain ⟨t, r', ht, hg, -, hr⟩ := h.good.finish (key := key) hfit hiter
  obtain ⟨rfl, rfl⟩ : s' = t ∧ r = r' := by simpa using hs.symm.trans ht
  have hall : evalAll key fit s.acc s.individuals = (s.acc, s.individuals) := by
    have := evalAll_append key fit s.individuals [] s.acc h.good.known
    simpa [evalAll] using this
  simp only [nsgaiiFinish, hall] at hs
  split at hs
  · cases hs
  rename_i kept f hsel
  simp only [Option.some.injEq, Prod.mk.injEq] at hs
  obtain ⟨hs, -⟩ := hs
  rw [h.good.size] at hsel
  obtain ⟨hsub, hcov⟩ := select_covers hS hfit hiter hN hm h.good.nodup h.right hsel
  have hc : Covers fit (vecs s.individuals) (vecs s'.individuals) := by rw [← hs]; exact hcov
  refine ⟨⟨hg, ?_, ?_, ?_⟩, hc, hr⟩
  · rw [← hs]; exact fun x hx => h.right x (hsub x hx)
  · rw [← hs]; exact h.sound
  · have : Covers fit s.acc.calls (vecs s'.individuals) := h.best.trans hc
    rw [← hs] at this ⊢
    exact this

/-- **C98.** NSGA-II and JGBL with a population of at least as many vectors as there are objectives:
whatever happens between the constructor and the call of `finalized_population`, the result contains,
for each objective, a vector that is no worse in it than any vector evaluated since the constructor,
and than any (trimmed) vector of the initial population. -/
theorem C98_best_values (hS : S.Valid) (hp : ProperBox S.dims) (hfit : ∀ v, (fit v).length = m)
    (hkey : ∀ v w, key v = key w → fit v = fit w) (hN : 1 ≤ N) (hm : m ≤ N)
    (archive : Option (Archive A (List K)))
    (ha : ∀ a, archive = some a → ∀ k f, a k = some f → f.length = m)
    (hr : ∀ a, archive = some a → ∀ v f, a (key v) = some f → f = fit v)
    (population : List (List K)) (hn : population.length = N)
    (hbox : ∀ v ∈ population, InBox v S.dims) (s : NState K A)
    (hrun : Relation.ReflTransGen (Move S key fit m k N)
      (nsgaiiInit S key fit archive c population) s)
    (iter : List (Ind (List K) (List K)) → List (Ind (List K) (List K)))
    (hiter : ∀ l, (iter l).Perm l) :
    ∃ s' r, nsgaiiFinish S key fit m iter s = some (s', r) ∧
      ∀ v, v ∈ s.acc.calls ∨ v ∈ population.map S.trim → ∀ (i : ℕ) (a : K), (fit v)[i]? = some a →
        ∃ w ∈ r, ∃ b, (fit w)[i]? = some b ∧ b ≤ a := by
  have hmain : EInv S key fit m c N s ∧ Covers fit (population.map S.trim) (vecs s.individuals) := by
    induction hrun with
    | refl =>
      obtain ⟨e1, e2, e3⟩ := eval_right (acc := ⟨0, archive, []⟩)
        (inds := newInds 0 (population.map S.trim)) hkey hr fun x hx => soundInd_new hx
      have hv : vecs (nsgaiiInit S key fit archive c population).individuals
          = population.map S.trim := by
        show vecs (evalAll key fit ⟨0, archive, []⟩ (newInds 0 (population.map S.trim))).2 = _
        rw [e3]
        exact newInds_v 0 _
      refine ⟨⟨((NReach.start archive ha population hn hbox).inv hS hfit).1, e2, e1, ?_⟩, ?_⟩
      · rw [hv]
        refine Covers.of_subset fun v h => ?_
        rcases evalAll_calls key fit _ _ v h with h | h
        · simp at h
        · rwa [newInds_v] at h
      · rw [hv]
        exact Covers.of_subset fun _ h => h
    | tail _ hmove ih =>
      cases hmove with
      | nsgaii iter hiter dm hdm dv hdv _ _ h =>
        obtain ⟨h1, h2⟩ := ih.1.nsgaii hS hfit hkey hN hm hiter hdm hdv h
        exact ⟨h1, ih.2.trans h2⟩
      | jgbl orders ho dm hdm dv hdv jd hjd _ _ h =>
        obtain ⟨h1, h2⟩ := ih.1.jgbl hS hp hfit hkey hN hm ho hdm hdv hjd h
        exact ⟨h1, ih.2.trans h2⟩
      | finish iter hiter _ _ r h =>
        obtain ⟨h1, h2, -⟩ := ih.1.finish hS hfit hN hm hiter h
        exact ⟨h1, ih.2.trans h2⟩
  obtain ⟨hi, hc⟩ := hmain
  obtain ⟨s', r, h1, -⟩ := hi.good.finish (key := key) hfit hiter
  obtain ⟨h2, h3, h4⟩ := hi.finish hS hfit hN hm hiter h1
  refine ⟨s', r, h1, ?_⟩
  rintro v (hv | hv)
  · rw [h4]
    exact (hi.best.trans h3) v hv
  · rw [h4]
    exact (hc.trans h3) v hv

/-- Two vectors and a step with two children: the best values 1/4 (of `x`) and 51/202 (of `1 - x`) are
in the result. -/
example : ((nsgaiiStep exSetup (fun v : List ℚ => v) exFit 2 id (fun _ => ⟨0, 0, true⟩)
      (fun _ => exDraw) (nsgaiiInit exSetup id exFit none 1 [[1 / 2], [1 / 4]])).map
      fun s => (s.acc.calls, (nsgaiiFinish exSetup id exFit 2 id s).map fun r => r.2))
    = some ([[1 / 2], [1 / 4], [151 / 202], [151 / 202]], some [[1 / 4], [151 / 202]]) := by
  decide +kernel

/-- With fewer individuals than objectives a best value can be lost: of the two vectors evaluated,
1/2 and 151/202, only the first one is in the result, and the second one has the smaller `1 - x`. -/
example : ((nsgaiiStep exSetup (fun v : List ℚ => v) exFit 2 id (fun _ => ⟨0, 0, true⟩)
      (fun _ => exDraw) (nsgaiiInit exSetup id exFit none 1 [[1 / 2]])).map
      fun s => (s.acc.calls, (nsgaiiFinish exSetup id exFit 2 id s).map fun r => r.2))
    = some ([[1 / 2], [151 / 202]], some [[1 / 2]]) := by decide +kernel

end

end Evogil.Jumping
