import Verif.Lemmas.Nsls
import Mathlib.Algebra.Order.Ring.Rat

/-!
# Properties C32, C71, C74, C75: NSLS
-/

set_option linter.unusedSectionVars false

namespace Evogil.Nsls

open Spec

variable {K : Type*} [Field K] [LinearOrder K] [IsStrictOrderedRing K]

/-! ## C32: local search -/

/-- Everybody is in the box and carries the objectives of their own vector. -/
def CurOk (f : List K → List K) (dims : List (K × K)) (cur : List (Ind K × Bool)) : Prop :=
  ∀ p ∈ cur, InBox p.1.v dims ∧ p.1.objectives = some (f p.1.v)

theorem domI_eq {f : List K → List K} {a b : Ind K} (ha : a.objectives = some (f a.v))
    (hb : b.objectives = some (f b.v)) :
    domI a b = some (nsgaiiDominates (f a.v) (f b.v)) := by
  unfold domI; rw [ha, hb]

/-- C32: one turn of the local search never raises; the individual stays if both trials are
dominated by it, otherwise a trial takes its place which it does not dominate, and which dominates
it if one of the trials does. -/
theorem C32_turn {dims : List (K × K)} {trim : List K → List K} (ht : TrimOk dims trim)
    {f : List K → List K} {m : ℕ} (hf : ∀ v, (f v).length = m) {cur : List (Ind K × Bool)}
    (hc : CurOk f dims cur) (h2 : 2 ≤ cur.length) {i k : ℕ} (hi : i < cur.length)
    (hk : k < dims.length) (d : LsDraw K) (hpu : d.pu < cur.length) (hpv : d.pv < cur.length) :
    ∃ cur' x p q, lsTurn dims trim f i k d cur = some cur' ∧ CurOk f dims cur' ∧
      cur'.length = cur.length ∧ cur[i]? = some x ∧ InBox p dims ∧ InBox q dims ∧
      ((cur' = cur ∧ LDom (f x.1.v) (f p) ∧ LDom (f x.1.v) (f q)) ∨
        ∃ w, (w = p ∨ w = q) ∧ cur' = cur.set i (⟨w, some (f w)⟩, true) ∧
          ¬ LDom (f x.1.v) (f w) ∧
          (LDom (f p) (f x.1.v) ∨ LDom (f q) (f x.1.v) → LDom (f w) (f x.1.v))) := by
  have hxi : cur[i]? = some (cur[i]'hi) := List.getElem?_eq_getElem hi
  have hxm := List.getElem_mem hi
  have hum := List.getElem_mem hpu
  have hvm := List.getElem_mem hpv
  have hui : cur[d.pu]? = some (cur[d.pu]'hpu) := List.getElem?_eq_getElem hpu
  have hvi : cur[d.pv]? = some (cur[d.pv]'hpv) := List.getElem?_eq_getElem hpv
  generalize cur[i]'hi = x at hxi hxm
  generalize cur[d.pu]'hpu = u at hui hum
  generalize cur[d.pv]'hpv = v at hvi hvm
  obtain ⟨hxb, hxo⟩ := hc x hxm
  obtain ⟨hub, -⟩ := hc u hum
  obtain ⟨hvb, -⟩ := hc v hvm
  have huk : u.1.v[k]? = some (u.1.v[k]'(by rw [hub.length_eq]; exact hk)) :=
    List.getElem?_eq_getElem _
  have hvk : v.1.v[k]? = some (v.1.v[k]'(by rw [hvb.length_eq]; exact hk)) :=
    List.getElem?_eq_getElem _
  generalize u.1.v[k]'_ = uk at huk
  generalize v.1.v[k]'_ = vk at hvk
  obtain ⟨p, hp, hpb⟩ := trialVector_spec ht hxb hk (d.c * (uk - vk))
  obtain ⟨q, hq, hqb⟩ := trialVector_spec ht hxb hk (-(d.c * (uk - vk)))
  have hturn : lsTurn dims trim f i k d cur =
      match replacement (nsgaiiDominates (f p) (f x.1.v)) (nsgaiiDominates (f x.1.v) (f p))
        (nsgaiiDominates (f q) (f x.1.v)) (nsgaiiDominates (f x.1.v) (f q)) d.plusFirst
        ⟨p, some (f p)⟩ ⟨q, some (f q)⟩ with
      | some w => some (cur.set i (w, true))
      | none => some cur := by
    unfold lsTurn
    rw [if_neg (by omega), hxi, hui, hvi]
    simp only
    rw [huk, hvk]
    simp only
    rw [hp, hq]
    simp only [evaluate]
    rw [domI_eq (f := f) rfl hxo, domI_eq (f := f) hxo rfl, domI_eq (f := f) rfl hxo,
      domI_eq (f := f) hxo rfl]
    rfl
  have key : ∀ a b, nsgaiiDominates (f a) (f b) = true ↔ LDom (f a) (f b) := fun a b =>
    nsgaiiDominates_iff_LDom ((hf a).trans (hf b).symm)
  have hset : ∀ w, InBox w dims → CurOk f dims (cur.set i (⟨w, some (f w)⟩, true)) := by
    intro w hw y hy
    rcases List.mem_or_eq_of_mem_set hy with hy | rfl
    · exact hc y hy
    · exact ⟨hw, rfl⟩
  have fin : ∀ w, (w = p ∨ w = q) → ¬ LDom (f x.1.v) (f w) →
      (LDom (f p) (f x.1.v) ∨ LDom (f q) (f x.1.v) → LDom (f w) (f x.1.v)) →
      lsTurn dims trim f i k d cur = some (cur.set i (⟨w, some (f w)⟩, true)) → 
      ∃ cur' x p q, lsTurn dims trim f i k d cur = some cur' ∧ CurOk f dims cur' ∧
      cur'.length = cur.length ∧ cur[i]? = some x ∧ InBox p dims ∧ InBox q dims ∧
      ((cur' = cur ∧ LDom (f x.1.v) (f p) ∧ LDom (f x.1.v) (f q)) ∨
        ∃ w, (w = p ∨ w = q) ∧ cur' = cur.set i (⟨w, some (f w)⟩, true) ∧
          ¬ LDom (f x.1.v) (f w) ∧
          (LDom (f p) (f x.1.v) ∨ LDom (f q) (f x.1.v) → LDom (f w) (f x.1.v))) := by
    intro w hw h1 h2 h3
    refine ⟨_, x, p, q, h3, hset w ?_, List.length_set .., hxi, hpb, hqb,
      Or.inr ⟨w, hw, rfl, h1, h2⟩⟩
    rcases hw with rfl | rfl
    · exact hpb
    · exact hqb
  rw [hturn] at fin ⊢
  unfold replacement at fin ⊢
  generalize d.plusFirst = pf at fin ⊢
  by_cases b1 : LDom (f p) (f x.1.v) <;> by_cases b3 : LDom (f q) (f x.1.v)
  · rw [(key _ _).2 b1, (key _ _).2 b3] at fin ⊢
    cases pf
    · exact fin q (Or.inr rfl) (LDom_asymm b3) (fun _ => b3) rfl
    · exact fin p (Or.inl rfl) (LDom_asymm b1) (fun _ => b1) rfl
  · rw [(key _ _).2 b1, Bool.eq_false_iff.2 fun h => b3 ((key _ _).1 h)] at fin ⊢
    exact fin p (Or.inl rfl) (LDom_asymm b1) (fun _ => b1) rfl
  · rw [(key _ _).2 b3, Bool.eq_false_iff.2 fun h => b1 ((key _ _).1 h)] at fin ⊢
    exact fin q (Or.inr rfl) (LDom_asymm b3) (fun _ => b3) rfl
  · rw [Bool.eq_false_iff.2 fun h => b1 ((key _ _).1 h),
      Bool.eq_false_iff.2 fun h => b3 ((key _ _).1 h)] at fin ⊢
    have hno : ∀ w, LDom (f p) (f x.1.v) ∨ LDom (f q) (f x.1.v) → LDom (f w) (f x.1.v) :=
      fun w h => absurd h (by rintro (h | h); exacts [b1 h, b3 h])
    by_cases b2 : LDom (f x.1.v) (f p) <;> by_cases b4 : LDom (f x.1.v) (f q)
    · rw [(key _ _).2 b2, (key _ _).2 b4]
      exact ⟨cur, x, p, q, rfl, hc, rfl, hxi, hpb, hqb, Or.inl ⟨rfl, b2, b4⟩⟩
    · rw [(key _ _).2 b2, Bool.eq_false_iff.2 fun h => b4 ((key _ _).1 h)] at fin ⊢
      exact fin q (Or.inr rfl) b4 (hno q) rfl
    · rw [(key _ _).2 b4, Bool.eq_false_iff.2 fun h => b2 ((key _ _).1 h)] at fin ⊢
      exact fin p (Or.inl rfl) b2 (hno p) rfl
    · rw [Bool.eq_false_iff.2 fun h => b2 ((key _ _).1 h),
        Bool.eq_false_iff.2 fun h => b4 ((key _ _).1 h)] at fin ⊢
      cases pf
      · exact fin q (Or.inr rfl) b4 (hno q) rfl
      · exact fin p (Or.inl rfl) b2 (hno p) rfl

theorem lsInner_spec {dims : List (K × K)} {trim : List K → List K} (ht : TrimOk dims trim)
    {f : List K → List K} {m : ℕ} (hf : ∀ v, (f v).length = m) {n i : ℕ} (hi : i < n)
    (h2 : 2 ≤ n) (ds : ℕ → LsDraw K) (hd : ∀ k, (ds k).pu < n ∧ (ds k).pv < n) :
    ∀ (ks : List ℕ) (cur : List (Ind K × Bool)), (∀ k ∈ ks, k < dims.length) → cur.length = n →
      CurOk f dims cur → ∃ cur', lsInner dims trim f i ds ks cur = some cur' ∧
        CurOk f dims cur' ∧ cur'.length = n := by
  intro ks
  induction ks with
  | nil => intro cur _ hl hc; exact ⟨cur, rfl, hc, hl⟩
  | cons k ks ih =>
    intro cur hks hl hc
    obtain ⟨cur', _, _, _, h1, h3, h4, -⟩ := C32_turn ht hf hc (by omega) (i := i) (by omega)
      (hks k List.mem_cons_self) (ds k) (by rw [hl]; exact (hd k).1) (by rw [hl]; exact (hd k).2)
    rw [lsInner, h1]
    exact ih cur' (fun k' hk' => hks k' (List.mem_cons_of_mem _ hk')) (h4.trans hl) h3

theorem lsOuter_spec {dims : List (K × K)} {trim : List K → List K} (ht : TrimOk dims trim)
    {f : List K → List K} {m : ℕ} (hf : ∀ v, (f v).length = m) {n : ℕ}
    (h2 : 2 ≤ n) (ds : ℕ → ℕ → LsDraw K) (hd : ∀ i k, (ds i k).pu < n ∧ (ds i k).pv < n) :
    ∀ (is : List ℕ) (cur : List (Ind K × Bool)), (∀ i ∈ is, i < n) → cur.length = n →
      CurOk f dims cur → ∃ cur', lsOuter dims trim f ds is cur = some cur' ∧
        CurOk f dims cur' ∧ cur'.length = n := by
  intro is
  induction is with
  | nil => intro cur _ hl hc; exact ⟨cur, rfl, hc, hl⟩
  | cons i is ih =>
    intro cur his hl hc
    obtain ⟨cur', h1, h3, h4⟩ := lsInner_spec ht hf (his i List.mem_cons_self) h2 (ds i) (hd i)
      (List.range dims.length) cur (fun k hk => List.mem_range.1 hk) hl hc
    rw [lsOuter, h1]
    exact ih cur' (fun j hj => his j (List.mem_cons_of_mem _ hj)) h4 h3

/-- C32: for at least two individuals in the box the local search never raises. The old individuals
stay, at most one new one per old one is appended, and everybody is in the box with their own
objective values. -/
theorem C32_local_search {dims : List (K × K)} {trim : List K → List K} (ht : TrimOk dims trim)
    {f : List K → List K} {m : ℕ} (hf : ∀ v, (f v).length = m) (ds : ℕ → ℕ → LsDraw K)
    {inds : List (Ind K)} (h2 : 2 ≤ inds.length)
    (hd : ∀ i k, (ds i k).pu < inds.length ∧ (ds i k).pv < inds.length)
    (hb : ∀ x ∈ inds, InBox x.v dims ∧ x.objectives = some (f x.v)) :
    ∃ new, localSearch dims trim f ds inds = some (inds ++ new) ∧ new.length ≤ inds.length ∧
      ∀ x ∈ inds ++ new, InBox x.v dims ∧ x.objectives = some (f x.v) := by
  obtain ⟨cur', h1, h3, h4⟩ := lsOuter_spec ht hf h2 ds hd (List.range inds.length)
    (inds.map fun x => (x, false)) (fun i hi => List.mem_range.1 hi) (by simp) (by
      intro p hp
      obtain ⟨x, hx, rfl⟩ := List.mem_map.1 hp
      exact hb x hx)
  refine ⟨(cur'.filter fun p => p.2).map Prod.fst, ?_, ?_, ?_⟩
  · unfold localSearch; rw [h1]
  · rw [List.length_map, ← h4]; exact List.length_filter_le _ _
  · intro x hx
    rcases List.mem_append.1 hx with hx | hx
    · exact hb x hx
    · obtain ⟨p, hp, rfl⟩ := List.mem_map.1 hx
      exact h3 p (List.mem_filter.1 hp).1

/-! ## C32: next generation -/

theorem length_le_flatten : ∀ l : List (List ℕ), (∀ a ∈ l, a ≠ []) → l.length ≤ l.flatten.length := by
  intro l
  induction l with
  | nil => intro _; simp
  | cons a l ih =>
    intro h
    have h1 := ih fun b hb => h b (List.mem_cons_of_mem _ hb)
    have h2 := List.length_pos_iff.2 (h a List.mem_cons_self)
    simp only [List.length_cons, List.flatten_cons, List.length_append]
    omega

/-- C32: with more candidates than places and at least one objective, the selection ends with
exactly `size` different candidates and nobody left out has a better dominance rank than somebody
taken; for all samples, distances and set orders. -/
theorem C32_next_generation (iter : List ℕ → List ℕ) (hiter : ∀ l, (iter l).Perm l)
    (sample : List ℕ → ℕ → List ℕ) (hsample : ∀ l n, n ≤ l.length → IsSample l n (sample l n))
    (dist : ℕ → ℕ → K) (size m n fuel : ℕ) (obj : ℕ → List K) (hm : 1 ≤ m)
    (hobj : ∀ i < n, (obj i).length = m) (hsize : size < n) (hfuel : n < fuel) :
    ∃ idx, nextGeneration iter sample dist fuel size m n obj = some idx ∧ idx.length = size ∧
      ∃ lost, (idx ++ lost).Perm (List.range n) ∧
        ∀ x ∈ idx, ∀ y ∈ lost, ∀ i j,
          IsRank (fun a b => LDom (obj a) (obj b)) (List.range n) x i →
          IsRank (fun a b => LDom (obj a) (obj b)) (List.range n) y j → i ≤ j := by
  obtain ⟨hrun, hres⟩ := C05_nsgaii_sorts_by_rank iter hiter m obj (List.range n) List.nodup_range
    fun x hx => hobj x (List.mem_range.1 hx)
  obtain ⟨L, hL⟩ := hrun fuel (by rw [List.length_range]; omega)
  obtain ⟨hperm, hne, hrank⟩ := hres fuel L hL
  simp only at hL
  have hLlen : L.length ≤ n := by
    refine (length_le_flatten L hne).trans ?_
    rw [hperm.length_eq, List.length_range]
  obtain ⟨acc, last, hfill, h1, h2, h0, h3⟩ := fill_elitist List.nodup_range hperm hrank size fuel
    (by rw [List.length_range]; exact hsize) (by omega)
  have hlastnd : last.Nodup := by
    have : L.flatten.Nodup := hperm.nodup_iff.2 List.nodup_range
    exact (List.nodup_flatten.1 this).1 last h0
  set objs := (List.range m).map fun j i => (obj i).getD j 0 with hobjs
  have hlne : last ≠ [] := hne last h0
  obtain ⟨e1, e2, e3⟩ := extremes_spec objs last hlne
  have hene : extremes objs last ≠ [] := by
    have hmem : (fun i => (obj i).getD 0 0) ∈ objs :=
      List.mem_map.2 ⟨0, List.mem_range.2 hm, rfl⟩
    obtain ⟨⟨x, hx, -⟩, -⟩ := e3 _ hmem
    exact List.ne_nil_of_mem hx
  obtain ⟨r, r1, r2, -⟩ := fillLast_spec sample hsample dist (size - acc.length)
    (extremes objs last) last hlastnd e1 hene e2 (by omega)
  obtain ⟨g1, lost, g2, g3⟩ := h3 r r2
  refine ⟨acc ++ r, ?_, g1, lost, g2, g3⟩
  unfold nextGeneration
  rw [hL]
  simp only
  rw [hfill]
  simp only
  rw [r1]

/-- C32: with no more candidates than places the selection never ends. -/
theorem C32_next_generation_diverges (iter : List ℕ → List ℕ) (hiter : ∀ l, (iter l).Perm l)
    (sample : List ℕ → ℕ → List ℕ) (dist : ℕ → ℕ → K) (size m n : ℕ) (obj : ℕ → List K)
    (hobj : ∀ i < n, (obj i).length = m) (hsize : n ≤ size) :
    ∀ fuel, nextGeneration iter sample dist fuel size m n obj = none := by
  intro fuel
  unfold nextGeneration
  cases hL : ndSort iter (nsgaiiDom obj) fuel (List.range n) with
  | none => rfl
  | some L =>
    have hperm := ((C05_nsgaii_sorts_by_rank iter hiter m obj (List.range n) List.nodup_range
      fun x hx => hobj x (List.mem_range.1 hx)).2 fuel L hL).1
    have : L.flatten.length = n := by rw [hperm.length_eq, List.length_range]
    simp only
    rw [fillFronts_none size fuel L [] (by simpa using this.trans_le hsize)]

theorem allObjectives_of (f : List K → List K) : ∀ (l : List (Ind K)),
    (∀ x ∈ l, x.objectives = some (f x.v)) → allObjectives l = some (l.map fun x => f x.v) := by
  intro l
  induction l with
  | nil => intro _; rfl
  | cons a l ih =>
    intro h
    rw [allObjectives, h a List.mem_cons_self,
      ih fun x hx => h x (List.mem_cons_of_mem _ hx)]
    rfl

/-- C32: one step of NSLS on at least two individuals in the box (evaluated or not). If the local
search replaced somebody, the step ends with a population of the same size, in the box and
evaluated; if it replaced nobody, the step never ends. -/
theorem C32_step {dims : List (K × K)} {trim : List K → List K} (ht : TrimOk dims trim)
    {f : List K → List K} {m : ℕ} (hf : ∀ v, (f v).length = m) (hm : 1 ≤ m)
    (vdist : List K → List K → K) (ds : ℕ → ℕ → LsDraw K)
    (iter : List ℕ → List ℕ) (hiter : ∀ l, (iter l).Perm l)
    (sample : List ℕ → ℕ → List ℕ) (hsample : ∀ l n, n ≤ l.length → IsSample l n (sample l n))
    {inds : List (Ind K)} (h2 : 2 ≤ inds.length)
    (hd : ∀ i k, (ds i k).pu < inds.length ∧ (ds i k).pv < inds.length)
    (hb : ∀ x ∈ inds, InBox x.v dims ∧ ∀ o, x.objectives = some o → o = f x.v) :
    ∃ new, localSearch dims trim f ds (inds.map (evaluate f)) =
        some (inds.map (evaluate f) ++ new) ∧
      (new ≠ [] → ∀ fuel, 2 * inds.length < fuel →
        ∃ r, step dims trim f m vdist ds iter sample fuel inds.length inds = some r ∧
          r.length = inds.length ∧ ∀ x ∈ r, InBox x.v dims ∧ x.objectives = some (f x.v)) ∧
      (new = [] → ∀ fuel,
        step dims trim f m vdist ds iter sample fuel inds.length inds = none) := by
  have hb' : ∀ x ∈ inds.map (evaluate f), InBox x.v dims ∧ x.objectives = some (f x.v) := by
    intro x hx
    obtain ⟨y, hy, rfl⟩ := List.mem_map.1 hx
    obtain ⟨h1, h3⟩ := hb y hy
    unfold evaluate
    cases ho : y.objectives with
    | none => exact ⟨h1, rfl⟩
    | some o =>
      simp only
      rw [ho, h3 o ho]
      exact ⟨h1, rfl⟩
  obtain ⟨new, n1, n2, n3⟩ := C32_local_search ht hf ds (inds := inds.map (evaluate f))
    (by simpa using h2) (by simpa using hd) hb'
  rw [List.length_map] at n2
  refine ⟨new, n1, ?_, ?_⟩
  · intro hne fuel hfuel
    have hpos := List.length_pos_iff.2 hne
    unfold step
    rw [n1]
    simp only
    rw [allObjectives_of f _ fun x hx => (n3 x hx).2]
    simp only
    set all := inds.map (evaluate f) ++ new with hall
    have hlen : all.length = inds.length + new.length := by simp [hall]
    obtain ⟨idx, i1, i2, lost, i3, -⟩ := C32_next_generation iter hiter sample hsample
      (fun i j => vdist ((all.map Ind.v).getD i []) ((all.map Ind.v).getD j []))
      inds.length m all.length fuel (fun i => (all.map fun x => f x.v).getD i []) hm
      (by
        intro i hi
        rw [List.getD_eq_getElem?_getD, List.getElem?_map, List.getElem?_eq_getElem hi]
        exact hf _)
      (by omega) (by omega)
    rw [i1]
    refine ⟨_, rfl, ?_, ?_⟩
    · have hidx : ∀ i ∈ idx, i < all.length := fun i hi =>
        List.mem_range.1 (i3.mem_iff.1 (List.mem_append_left _ hi))
      have : ∀ l : List ℕ, (∀ i ∈ l, i < all.length) →
          (l.filterMap fun i => all[i]?).length = l.length := by
        intro l
        induction l with
        | nil => intro _; rfl
        | cons a l ih =>
          intro h
          rw [List.filterMap_cons, List.getElem?_eq_getElem (h a List.mem_cons_self)]
          simp only [List.length_cons]
          rw [ih fun i hi => h i (List.mem_cons_of_mem _ hi)]
      rw [this idx hidx, i2]
    · intro x hx
      obtain ⟨i, -, hi⟩ := List.mem_filterMap.1 hx
      exact n3 x (List.mem_of_getElem? hi)
  · rintro rfl fuel
    unfold step
    rw [n1]
    simp only [List.append_nil]
    rw [allObjectives_of f _ fun x hx => (hb' x hx).2]
    simp only
    rw [C32_next_generation_diverges iter hiter _ _ inds.length m _ _ (by
      intro i hi
      rw [List.getD_eq_getElem?_getD, List.getElem?_map, List.getElem?_eq_getElem hi]
      exact hf _) (by simp)]

/-- C32: the non-terminating case happens. Minimising `x^2` on `[-10, 10]` from the points 0 and 1:
if the normally distributed factor is 5/2 in every turn, every trial is worse, nobody is replaced
and the step never ends. -/
theorem C32_can_diverge (vdist : List ℚ → List ℚ → ℚ) (iter : List ℕ → List ℕ)
    (hiter : ∀ l, (iter l).Perm l) (sample : List ℕ → ℕ → List ℕ) (fuel : ℕ) :
    step [(-10, 10)] id (fun v => [(v.getD 0 0) ^ 2]) 1 vdist (fun _ _ => ⟨5 / 2, 0, 1, true⟩)
      iter sample fuel 2 [⟨[0], none⟩, ⟨[1], none⟩] = none := by
  have h : localSearch [(-10, (10 : ℚ))] id (fun v => [(v.getD 0 0) ^ 2])
      (fun _ _ => ⟨5 / 2, 0, 1, true⟩)
      ([⟨[0], none⟩, ⟨[1], none⟩].map (evaluate fun v => [(v.getD 0 0) ^ 2])) =
      some [⟨[0], some [0 ^ 2]⟩, ⟨[1], some [1 ^ 2]⟩] := by decide +kernel
  unfold step
  rw [h]
  simp only [allObjectives]
  rw [C32_next_generation_diverges iter hiter _ _ 2 1 _ _ (by
    intro i hi
    have : i = 0 ∨ i = 1 := by simp at hi; omega
    rcases this with rfl | rfl <;> rfl) (by simp)]

/-- A turn that improves: from 4 towards 1 (factor 1/2 and the members 4 and 2). -/
example : (localSearch [(-10, (10 : ℚ))] id (fun v => [(v.getD 0 0) ^ 2])
      (fun _ _ => ⟨1 / 2, 0, 1, true⟩)
      [⟨[4], some [16]⟩, ⟨[2], some [4]⟩]).map (List.map Ind.v) =
      some [[4], [2], [3], [3 / 2]] := by decide +kernel

/-! ## C71: extremes of the front that is cut -/

/-- C71 (violated): six mutually non-dominated individuals, two objectives, four places. Both
extremes of the first objective are lost for some outcome of the sampling, because the running minima
and maxima are collected too. -/
theorem C71_violated : ∃ (obj : ℕ → List ℚ) (sample : List ℕ → ℕ → List ℕ),
    (∀ l n, n ≤ l.length → IsSample l n (sample l n)) ∧
    (∀ i < 6, ∀ j < 6, ¬ LDom (obj i) (obj j)) ∧
    nextGeneration id sample (fun _ _ => 0) 7 4 2 6 obj = some [1, 2, 3, 4] ∧
    (∀ i < 6, i ≠ 0 → (obj i).getD 0 0 < (obj 0).getD 0 0) ∧
    (∀ i < 6, i ≠ 5 → (obj 5).getD 0 0 < (obj i).getD 0 0) := by
  refine ⟨fun i => if i < 6 then [5 - (i : ℚ), i] else [0, 0],
    fun l n => if l = [0, 1, 2, 3, 4, 5] ∧ n = 4 then [1, 2, 3, 4] else l.take n, ?_, ?_, ?_, ?_, ?_⟩
  · intro l n h
    simp only
    by_cases hl : l = [0, 1, 2, 3, 4, 5] ∧ n = 4
    · rw [if_pos hl]
      obtain ⟨rfl, rfl⟩ := hl
      exact ⟨rfl, List.subperm_of_subset (by decide) (by decide)⟩
    · rw [if_neg hl]
      exact ⟨by rw [List.length_take]; omega, (List.take_sublist n l).subperm⟩
  · intro i hi j hj hdom
    rw [← nsgaiiDominates_iff_LDom (by simp [hi, hj])] at hdom
    revert hdom
    have : i = 0 ∨ i = 1 ∨ i = 2 ∨ i = 3 ∨ i = 4 ∨ i = 5 := by omega
    have : j = 0 ∨ j = 1 ∨ j = 2 ∨ j = 3 ∨ j = 4 ∨ j = 5 := by omega
    rcases ‹i = 0 ∨ _› with rfl | rfl | rfl | rfl | rfl | rfl <;>
      rcases ‹j = 0 ∨ _› with rfl | rfl | rfl | rfl | rfl | rfl <;> decide +kernel
  · decide +kernel
  · intro i hi h0
    have : i = 1 ∨ i = 2 ∨ i = 3 ∨ i = 4 ∨ i = 5 := by omega
    rcases this with rfl | rfl | rfl | rfl | rfl <;> decide +kernel
  · intro i hi h0
    have : i = 0 ∨ i = 1 ∨ i = 2 ∨ i = 3 ∨ i = 4 := by omega
    rcases this with rfl | rfl | rfl | rfl | rfl <;> decide +kernel

/-- C71, the part that holds: if the collected individuals fit into the remaining places, the
selection contains, for every objective, an individual with the smallest and one with the largest
value of the front that is cut. Missing: the case in which more were collected than fit. -/
theorem C71_partial (sample : List ℕ → ℕ → List ℕ)
    (hsample : ∀ l n, n ≤ l.length → IsSample l n (sample l n)) (dist : ℕ → ℕ → K)
    (objs : List (ℕ → K)) (hobjs : objs ≠ []) (toSelect : ℕ) (last : List ℕ) (hlast : last.Nodup)
    (hlt : toSelect < last.length) (hfit : (extremes objs last).length ≤ toSelect) :
    ∃ r, fillLast sample dist toSelect (extremes objs last) last = some r ∧
      ∀ o ∈ objs, (∃ a ∈ r, ∀ x ∈ last, o a ≤ o x) ∧ ∃ b ∈ r, ∀ x ∈ last, o x ≤ o b := by
  have hlne : last ≠ [] := by rintro rfl; simp at hlt
  obtain ⟨e1, e2, e3⟩ := extremes_spec objs last hlne
  obtain ⟨o0, ho0⟩ := List.exists_mem_of_ne_nil _ hobjs
  have hene : extremes objs last ≠ [] := by
    obtain ⟨⟨x, hx, -⟩, -⟩ := e3 o0 ho0
    exact List.ne_nil_of_mem hx
  obtain ⟨r, r1, -, r3⟩ := fillLast_spec sample hsample dist toSelect _ last hlast e1 hene e2 hlt.le
  obtain ⟨ch, rfl, -⟩ := r3 hfit
  refine ⟨_, r1, fun o ho => ?_⟩
  obtain ⟨⟨a, ha, ha'⟩, b, hb, hb'⟩ := e3 o ho
  exact ⟨⟨a, List.mem_append_left _ ha, ha'⟩, b, List.mem_append_left _ hb, hb'⟩

/-! ## C75: the remaining places -/

/-- C75: the places left after the extremes are filled one after the other with an individual of
the front whose smallest distance to everybody chosen so far is largest. -/
theorem C75_farthest (sample : List ℕ → ℕ → List ℕ)
    (hsample : ∀ l n, n ≤ l.length → IsSample l n (sample l n)) (dist : ℕ → ℕ → K)
    (toSelect : ℕ) (add last : List ℕ) (hlast : last.Nodup) (hadd : add.Nodup) (hne : add ≠ [])
    (hsub : ∀ x ∈ add, x ∈ last) (hle : toSelect ≤ last.length) (hfit : add.length ≤ toSelect) :
    ∃ ch, fillLast sample dist toSelect add last = some (add ++ ch) ∧
      (add ++ ch).length = toSelect ∧ (add ++ ch).Nodup ∧
      ∀ pre x post, ch = pre ++ x :: post → x ∈ last ∧ ∀ y ∈ last, y ∉ add ++ pre →
        ∃ p ∈ add ++ pre, ∀ q ∈ add ++ pre, dist y p ≤ dist x q := by
  obtain ⟨r, r1, r2, r3⟩ := fillLast_spec sample hsample dist toSelect add last hlast hadd hne
    hsub hle
  obtain ⟨ch, rfl, r4⟩ := r3 hfit
  refine ⟨ch, r1, r2.1, ?_, ?_⟩
  · obtain ⟨l, hl, hs⟩ := r2.2
    exact hl.nodup_iff.1 (hs.nodup hlast)
  · intro pre x post h
    refine ⟨r2.2.subset (List.mem_append_right _ (by rw [h]; simp)), fun y hy hy' =>
      r4 pre x post h y hy hy'⟩

/-- Points 0, 1, 5, 6, 10 on a line with 0 and 10 chosen: 5 is next, then 6 or 1. -/
example : fillLast (fun l n => l.take n) (fun i j => |(([0, 1, 5, 6, 10] : List ℚ).getD i 0) -
    ([0, 1, 5, 6, 10] : List ℚ).getD j 0|) 4 [0, 4] [0, 1, 2, 3, 4] = some [0, 4, 2, 1] := by
  decide +kernel

/-! ## C74 for NSLS -/

/-- C74, the part that holds: NSLS can continue after a population of at least two individuals in the
box was assigned; the local search succeeds, and the step completes whenever it replaced somebody
(see C32 for the other case). Missing: NSGA-III, see `C74_nsgaiii_violated`. -/
theorem C74_nsls_partial {dims : List (K × K)} {trim : List K → List K} (ht : TrimOk dims trim)
    {f : List K → List K} {m : ℕ} (hf : ∀ v, (f v).length = m) (hm : 1 ≤ m)
    (vdist : List K → List K → K) (ds : ℕ → ℕ → LsDraw K)
    (iter : List ℕ → List ℕ) (hiter : ∀ l, (iter l).Perm l)
    (sample : List ℕ → ℕ → List ℕ) (hsample : ∀ l n, n ≤ l.length → IsSample l n (sample l n))
    (pop : List (List K)) (h2 : 2 ≤ pop.length)
    (hd : ∀ i k, (ds i k).pu < pop.length ∧ (ds i k).pv < pop.length)
    (hb : ∀ v ∈ pop, InBox v dims) :
    ∃ new, localSearch dims trim f ds ((setPopulation pop).1.map (evaluate f)) =
        some ((setPopulation pop).1.map (evaluate f) ++ new) ∧
      (new ≠ [] → ∀ fuel, 2 * pop.length < fuel →
        ∃ r, step dims trim f m vdist ds iter sample fuel (setPopulation pop).2
          (setPopulation pop).1 = some r ∧ r.length = pop.length) := by
  have hl : (setPopulation pop).1.length = pop.length := by simp [setPopulation]
  obtain ⟨new, h1, h3, -⟩ := C32_step ht hf hm vdist ds iter hiter sample hsample
    (inds := (setPopulation pop).1) (by rw [hl]; exact h2) (by rw [hl]; exact hd) (by
      intro x hx
      obtain ⟨v, hv, rfl⟩ := List.mem_map.1 hx
      exact ⟨hb v hv, fun o ho => by simp at ho⟩)
  refine ⟨new, h1, fun hne fuel hfuel => ?_⟩
  obtain ⟨r, r1, r2, -⟩ := h3 hne fuel (by rw [hl]; exact hfuel)
  rw [hl] at r1 r2
  exact ⟨r, r1, r2⟩

end Evogil.Nsls
