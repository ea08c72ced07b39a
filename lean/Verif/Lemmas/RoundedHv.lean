import Verif.Model.RoundedHv
import Verif.Lemmas.RoundedError
import Verif.Lemmas.HvCompute

/-! # The hypervolume with rounding: exactness without, relative errors with it -/

set_option linter.unusedSectionVars false

namespace Evogil.Rounded

open Spec Hv

/-! ## Without rounding -/

section exact

variable {K : Type*} [Field K] [LinearOrder K] [IsStrictOrderedRing K] {c : ℕ → ℕ → K} {N : Finset ℕ}
  {V : ℕ → Finset ℕ → K}

theorem sweepLoop_exact (hV : Vol c N V) : ∀ (B A : List ℕ) (q : ℕ), (∀ x ∈ A ++ [q] ++ B, x ∈ N) →
    (A ++ [q] ++ B).Pairwise (fun a b => c a 1 ≤ c b 1) →
    sweepLoop id c (q :: B) (-(V 1 (A ++ [q]).toFinset)) (wf c V 1 (A ++ [q])) = V 2 (A ++ [q] ++ B).toFinset
  | [], A, q, hN, hs => by
    simp only [List.append_nil] at hN hs ⊢
    rw [sweepLoop, hV.slice 1 A q le_rfl (fun x hx => hN x (List.mem_toFinset.1 hx)) hs]
    simp only [id]
    ring
  | p :: B, A, q, hN, hs => by
    have ih := sweepLoop_exact hV B (A ++ [q]) p (by simpa using hN) (by simpa using hs)
    rw [wf_concat] at ih
    rw [sweepLoop]
    have hsub : ∀ x ∈ A ++ [q] ++ [p], x ∈ N := fun x hx => hN x (by simp at hx ⊢; tauto)
    obtain ⟨m, hm, hmin⟩ : ∃ m ∈ A ++ [q], ∀ y ∈ A ++ [q], c m 0 ≤ c y 0 := by
      obtain ⟨m, hm, hmin⟩ := Finset.exists_min_image (A ++ [q]).toFinset (fun y => c y 0) ⟨q, by simp⟩
      exact ⟨m, List.mem_toFinset.1 hm, fun y hy => hmin y (List.mem_toFinset.2 hy)⟩
    have e1 : V 1 (A ++ [q]).toFinset = -(c m 0) :=
      hV.one _ m (List.mem_toFinset.2 hm) (fun x hx => hsub x (by
        rw [List.mem_toFinset] at hx; exact List.mem_append_left _ hx))
        (fun y hy => hmin y (List.mem_toFinset.1 hy))
    have e2 : V 1 (A ++ [q] ++ [p]).toFinset = -(if c p 0 < c m 0 then c p 0 else c m 0) := by
      by_cases hlt : c p 0 < c m 0
      · rw [if_pos hlt]
        refine hV.one _ p (by simp) (fun x hx => hsub x (List.mem_toFinset.1 hx)) ?_
        intro y hy
        rw [List.mem_toFinset, List.mem_append, List.mem_singleton] at hy
        rcases hy with hy | rfl
        · exact hlt.le.trans (hmin y hy)
        · exact le_rfl
      · rw [if_neg hlt]
        refine hV.one _ m (by rw [List.mem_toFinset]; exact List.mem_append_left _ hm)
          (fun x hx => hsub x (List.mem_toFinset.1 hx)) ?_
        intro y hy
        rw [List.mem_toFinset, List.mem_append, List.mem_singleton] at hy
        rcases hy with hy | rfl
        · exact hmin y hy
        · exact not_lt.1 hlt
    rw [e2, e1] at ih
    rw [e1]
    simp only [neg_neg, id] at ih ⊢
    have e3 : A ++ [q] ++ p :: B = A ++ [q] ++ [p] ++ B := by simp
    rw [e3, ← ih]
    congr 1
    ring

theorem sweep_exact (hV : Vol c N V) {L : List ℕ} (hN : ∀ x ∈ L, x ∈ N)
    (hs : L.Pairwise (fun a b => c a 1 ≤ c b 1)) : sweep id c L = V 2 L.toFinset := by
  cases L with
  | nil => simp [sweep, hV.empty 2 (by norm_num)]
  | cons q B =>
    have := sweepLoop_exact hV B [] q (by simpa using hN) (by simpa using hs)
    have e1 : V 1 ([] ++ [q]).toFinset = -(c q 0) :=
      hV.one _ q (by simp) (fun x hx => hN x (by simp at hx; simp [hx])) (fun y hy => by simp at hy; rw [hy])
    rw [e1, neg_neg] at this
    simpa [sweep, wf_single] using this

theorem sliceLoop_exact (hV : Vol c N V) {byOne : List ℕ} (h1 : ∀ x, x ∈ byOne ↔ x ∈ N)
    (hs1 : byOne.Pairwise (fun a b => c a 1 ≤ c b 1)) : ∀ (B A : List ℕ) (q : ℕ), (∀ x ∈ A ++ [q] ++ B, x ∈ N) →
    (A ++ [q] ++ B).Pairwise (fun a b => c a 2 ≤ c b 2) →
    sliceLoop id c byOne A q B (wf c V 2 (A ++ [q])) = V 3 (A ++ [q] ++ B).toFinset := by
  have harea : ∀ A : List ℕ, (∀ x ∈ A, x ∈ N) →
      sweep id c (byOne.filter fun x => decide (x ∈ A)) = V 2 A.toFinset := by
    intro A hA
    rw [sweep_exact hV (fun x hx => (h1 x).1 (List.mem_filter.1 hx).1) (hs1.filter _)]
    congr 1
    ext x
    simp only [List.mem_toFinset, List.mem_filter, decide_eq_true_eq]
    exact ⟨fun h => h.2, fun h => ⟨(h1 x).2 (hA x h), h⟩⟩
  intro B
  induction B with
  | nil =>
    intro A q hN hs
    simp only [List.append_nil] at hN hs ⊢
    rw [sliceLoop, harea _ hN, hV.slice 2 A q (by norm_num) (fun x hx => hN x (List.mem_toFinset.1 hx)) hs]
    simp only [id]
  | cons p B ih =>
    intro A q hN hs
    have := ih (A ++ [q]) p (by simpa using hN) (by simpa using hs)
    rw [wf_concat] at this
    rw [sliceLoop, harea _ (fun x hx => hN x (List.mem_append_left _ hx))]
    simp only [id]
    rw [this]
    simp

theorem nodeOrder_eq (c : ℕ → ℕ → K) (nodes : List ℕ) : ∀ i, nodeOrder c nodes i = order c nodes i
  | 0 => rfl
  | i + 1 => by rw [nodeOrder, order, nodeOrder_eq c nodes i]

theorem nodeOrder_mem {nodes : List ℕ} {i x : ℕ} : x ∈ nodeOrder c nodes i ↔ x ∈ nodes := by
  rw [nodeOrder_eq]; exact (order_perm c nodes i).mem_iff

theorem nodeOrder_sorted (nodes : List ℕ) (i : ℕ) :
    (nodeOrder c nodes i).Pairwise (fun a b => c a i ≤ c b i) := by
  cases i <;> exact pySorted_sorted _ _

theorem nodeOrder_length (nodes : List ℕ) (i : ℕ) : (nodeOrder c nodes i).length = nodes.length := by
  rw [nodeOrder_eq]; exact (order_perm c nodes i).length_eq

theorem nodeOrder_toFinset (nodes : List ℕ) (i : ℕ) : (nodeOrder c nodes i).toFinset = nodes.toFinset := by
  ext x
  rw [List.mem_toFinset, List.mem_toFinset, nodeOrder_mem]

theorem value_exact {nodes : List ℕ} (hV : Vol c nodes.toFinset V) {D : ℕ} (h1 : 1 ≤ D) (h3 : D ≤ 3) :
    value id c nodes D = some (V D nodes.toFinset) := by
  have hmem : ∀ i, ∀ x ∈ nodeOrder c nodes i, x ∈ nodes.toFinset := fun i x hx =>
    List.mem_toFinset.2 (nodeOrder_mem.1 hx)
  interval_cases D
  · rw [value]
    congr 1
    rcases hL : nodeOrder c nodes 0 with _ | ⟨q, B⟩
    · have := nodeOrder_toFinset (c := c) nodes 0
      rw [hL] at this
      rw [← this]
      exact (hV.empty 1 le_rfl).symm
    · have hs := nodeOrder_sorted (c := c) nodes 0
      have hq := hmem 0 q (by rw [hL]; simp)
      refine (hV.one _ q hq (Finset.Subset.refl _) ?_).symm
      intro y hy
      rw [← nodeOrder_toFinset (c := c) nodes 0, List.mem_toFinset, hL] at hy
      rw [hL] at hs
      rcases List.mem_cons.1 hy with rfl | hy
      · exact le_rfl
      · exact List.rel_of_pairwise_cons hs hy
  · rw [value, sweep_exact hV (hmem 1) (nodeOrder_sorted nodes 1), nodeOrder_toFinset]
  · rw [value]
    congr 1
    rcases hL : nodeOrder c nodes 2 with _ | ⟨q, B⟩
    · have := nodeOrder_toFinset (c := c) nodes 2
      rw [hL] at this
      rw [← this]
      exact (hV.empty 3 (by norm_num)).symm
    · have := sliceLoop_exact hV (byOne := nodeOrder c nodes 1)
        (fun x => by rw [nodeOrder_mem, List.mem_toFinset]) (nodeOrder_sorted nodes 1) B [] q
        (by have := hmem 2; rw [hL] at this; simpa using this)
        (by have := nodeOrder_sorted (c := c) nodes 2; rw [hL] at this; simpa using this)
      rw [List.nil_append, wf_single] at this
      have e := nodeOrder_toFinset (c := c) nodes 2
      rw [hL] at e
      rw [slices, this, ← e]
      simp

end exact

/-! ## With rounding -/

section near

variable {K : Type*} [Field K] [LinearOrder K] [IsStrictOrderedRing K] {fl : K → K} {u : K}

theorem product_near (R : IsAccurate fl u) (h0 : 0 ≤ u) (h1 : u ≤ 1) {e f j k : ℕ} (hef : e + f ≤ 1022) {a a' b b' : K}
    (ha : Near u j a a') (hb : Near u k b b') (hba : Big e a') (hbb : Big f b') :
    Near u (j + k + 1) (a * b) (fl (a' * b')) ∧ Big (e + f) (fl (a' * b')) :=
  ⟨(ha.mul h1 hb).trans h1 (near_fl R h0 h1 (hba.mul hbb) hef), (hba.mul hbb).round R hef⟩

theorem sum_near (R : IsAccurate fl u) (h0 : 0 ≤ u) (h1 : u ≤ 1) {e k : ℕ} (he : e ≤ 1022) {a a' b b' : K}
    (ha : Near u k a a') (hb : Near u k b b') (hba : Big e a') (hbb : Big e b') :
    Near u (k + 1) (a + b) (fl (a' + b')) ∧ Big e (fl (a' + b')) :=
  ⟨(ha.add hb).trans h1 (near_fl R h0 h1 (hba.add hbb) he), (hba.add hbb).round R he⟩

variable {c : ℕ → ℕ → K}

/-- The coordinates are multiples of 2⁻⁵³ and not positive. -/
def GridNode (c : ℕ → ℕ → K) (x : ℕ) : Prop := ∀ i ≤ 2, c x i ≤ 0 ∧ OnGrid 53 (c x i)

theorem diff_near (R : IsAccurate fl u) (h0 : 0 ≤ u) (h1 : u ≤ 1) {p q i : ℕ} (hi : i ≤ 2) (hp : GridNode c p)
    (hq : GridNode c q) (h : c q i ≤ c p i) :
    Near u 1 (c p i - c q i) (fl (c p i - c q i)) ∧ Big 53 (fl (c p i - c q i)) := by
  have hb : Big 53 (c p i - c q i) := ((hp i hi).2.sub (hq i hi).2).big (by linarith)
  exact ⟨near_fl R h0 h1 hb (by norm_num), hb.round R (by norm_num)⟩

theorem sweepLoop_near (R : IsAccurate fl u) (h0 : 0 ≤ u) (h1 : u ≤ 1) : ∀ (L : List ℕ) (h s s' : K) (k : ℕ),
    (∀ x ∈ L, GridNode c x) → L.Pairwise (fun a b => c a 1 ≤ c b 1) → h ≤ 0 → OnGrid 53 h → 2 ≤ k →
    Near u k s s' → Big 106 s' →
    Near u (k + L.length) (sweepLoop id c L h s) (sweepLoop fl c L h s') ∧ Big 106 (sweepLoop fl c L h s')
  | [], _, _, _, _, _, _, _, _, _, hn, hb => ⟨hn, hb⟩
  | [q], h, s, s', k, hg, _, hh, hgh, hk, hn, hb => by
    have hq := hg q (by simp)
    have bh : Big 53 (-h) := hgh.neg.big (by linarith)
    have bq : Big 53 (-c q 1) := (hq 1 (by norm_num)).2.neg.big (by linarith [(hq 1 (by norm_num)).1])
    have t := product_near R h0 h1 (by norm_num) (Near.refl h0 h1 bh.nonneg 0) (Near.refl h0 h1 bq.nonneg 0) bh bq
    rw [neg_mul_neg] at t
    have r := sum_near R h0 h1 (by norm_num) hn (t.1.mono h0 h1 (by omega : _ ≤ k)) hb t.2
    exact r
  | q :: p :: rest, h, s, s', k, hg, hs, hh, hgh, hk, hn, hb => by
    have hq := hg q (by simp)
    have hp := hg p (by simp)
    have bh : Big 53 (-h) := hgh.neg.big (by linarith)
    have hqp : c q 1 ≤ c p 1 := List.rel_of_pairwise_cons hs (by simp)
    obtain ⟨d1, d2⟩ := diff_near R h0 h1 (by norm_num) hp hq hqp
    have t := product_near R h0 h1 (by norm_num) (Near.refl h0 h1 bh.nonneg 0) d1 bh d2
    have e1 : -h * (c p 1 - c q 1) = h * (c q 1 - c p 1) := by ring
    have e2 : -h * fl (c p 1 - c q 1) = h * fl (c q 1 - c p 1) := by
      rw [← neg_sub (c q 1) (c p 1), R.neg]; ring
    rw [e1, e2] at t
    have r := sum_near R h0 h1 (by norm_num) hn (t.1.mono h0 h1 (by omega : _ ≤ k)) hb t.2
    have := sweepLoop_near R h0 h1 (p :: rest) (if c p 0 < h then c p 0 else h) _ _ (k + 1)
      (fun x hx => hg x (List.mem_cons_of_mem _ hx)) (List.Pairwise.of_cons hs)
      (by split_ifs; exacts [(hp 0 (by norm_num)).1, hh])
      (by split_ifs; exacts [(hp 0 (by norm_num)).2, hgh]) (by omega) r.1 r.2
    rw [show k + 1 + (p :: rest).length = k + (q :: p :: rest).length by simp; omega] at this
    exact this

theorem sweep_near (R : IsAccurate fl u) (h0 : 0 ≤ u) (h1 : u ≤ 1) {L : List ℕ} (hg : ∀ x ∈ L, GridNode c x)
    (hs : L.Pairwise (fun a b => c a 1 ≤ c b 1)) :
    Near u (2 + L.length) (sweep id c L) (sweep fl c L) ∧ Big 106 (sweep fl c L) := by
  cases L with
  | nil => exact ⟨Near.refl h0 h1 le_rfl _, Or.inl rfl⟩
  | cons q B =>
    have hq := hg q (by simp) 0 (by norm_num)
    exact sweepLoop_near R h0 h1 (q :: B) (c q 0) 0 0 2 hg hs hq.1 hq.2 le_rfl (Near.refl h0 h1 le_rfl _) (Or.inl rfl)

theorem sliceLoop_near (R : IsAccurate fl u) (h0 : 0 ≤ u) (h1 : u ≤ 1) {byOne : List ℕ}
    (hg1 : ∀ x ∈ byOne, GridNode c x) (hs1 : byOne.Pairwise (fun a b => c a 1 ≤ c b 1)) :
    ∀ (B A : List ℕ) (q : ℕ) (s s' : K) (k : ℕ), (∀ x ∈ q :: B, GridNode c x) →
    (q :: B).Pairwise (fun a b => c a 2 ≤ c b 2) → byOne.length + 4 ≤ k → Near u k s s' → Big 159 s' →
    Near u (k + B.length + 1) (sliceLoop id c byOne A q B s) (sliceLoop fl c byOne A q B s') := by
  have harea : ∀ A : List ℕ, Near u (2 + byOne.length) (sweep id c (byOne.filter fun x => decide (x ∈ A)))
      (sweep fl c (byOne.filter fun x => decide (x ∈ A))) ∧
      Big 106 (sweep fl c (byOne.filter fun x => decide (x ∈ A))) := by
    intro A
    have := sweep_near R h0 h1 (L := byOne.filter fun x => decide (x ∈ A))
      (fun x hx => hg1 x (List.mem_filter.1 hx).1) (hs1.filter _)
    exact ⟨this.1.mono h0 h1 (by have := List.length_filter_le (fun x => decide (x ∈ A)) byOne; omega), this.2⟩
  intro B
  induction B with
  | nil =>
    intro A q s s' k hg hs hk hn hb
    rw [sliceLoop, sliceLoop]
    have hq := hg q (by simp) 2 (by norm_num)
    have bq : Big 53 (-c q 2) := hq.2.neg.big (by linarith)
    obtain ⟨a1, a2⟩ := harea (A ++ [q])
    have t := product_near R h0 h1 (by norm_num) a1 (Near.refl h0 h1 bq.nonneg 0) a2 bq
    have r := sum_near R h0 h1 (by norm_num) hn (t.1.mono h0 h1 (by omega : _ ≤ k)) hb t.2
    rw [mul_neg, mul_neg, R.neg, ← sub_eq_add_neg, ← sub_eq_add_neg] at r
    exact r.1
  | cons p B ih =>
    intro A q s s' k hg hs hk hn hb
    rw [sliceLoop, sliceLoop]
    have hq := hg q (by simp)
    have hp := hg p (by simp)
    obtain ⟨a1, a2⟩ := harea (A ++ [q])
    obtain ⟨d1, d2⟩ := diff_near R h0 h1 (i := 2) le_rfl hp hq (List.rel_of_pairwise_cons hs (by simp))
    have t := product_near R h0 h1 (by norm_num) a1 d1 a2 d2
    have r := sum_near R h0 h1 (by norm_num) hn (t.1.mono h0 h1 (by omega : _ ≤ k)) hb t.2
    have := ih (A ++ [q]) p _ _ (k + 1) (fun x hx => hg x (List.mem_cons_of_mem _ hx)) (List.Pairwise.of_cons hs)
      (by omega) r.1 r.2
    rw [show k + 1 + B.length + 1 = k + (p :: B).length + 1 by simp; omega] at this
    exact this

/-- The value with rounding, on given coordinates. -/
theorem value_near (R : IsAccurate fl u) (h0 : 0 ≤ u) (h1 : u ≤ 1) {nodes : List ℕ}
    (hg : ∀ x ∈ nodes, GridNode c x) {D : ℕ} (hD : 1 ≤ D) (h3 : D ≤ 3) {w : K} (hw : value id c nodes D = some w) :
    ∃ v, value fl c nodes D = some v ∧ Near u (2 * nodes.length + 4) w v := by
  have hgo : ∀ i, ∀ x ∈ nodeOrder c nodes i, GridNode c x := fun i x hx => hg x (nodeOrder_mem.1 hx)
  interval_cases D
  · refine ⟨w, hw, ?_⟩
    refine Near.refl h0 h1 ?_ _
    rw [value, Option.some.injEq] at hw
    rw [← hw]
    rcases hL : nodeOrder c nodes 0 with _ | ⟨q, B⟩
    · exact le_rfl
    · have := (hgo 0 q (by rw [hL]; simp) 0 (by norm_num)).1
      show 0 ≤ -c q 0
      linarith
  · rw [value, Option.some.injEq] at hw
    refine ⟨_, rfl, ?_⟩
    rw [← hw]
    have := (sweep_near R h0 h1 (hgo 1) (nodeOrder_sorted nodes 1)).1
    rw [nodeOrder_length] at this
    exact this.mono h0 h1 (by omega)
  · rw [value, Option.some.injEq] at hw
    refine ⟨_, rfl, ?_⟩
    rw [← hw]
    have hl := nodeOrder_length (c := c) nodes 2
    have hl1 := nodeOrder_length (c := c) nodes 1
    rcases hL : nodeOrder c nodes 2 with _ | ⟨q, B⟩
    · exact Near.refl h0 h1 le_rfl _
    · have := sliceLoop_near R h0 h1 (hgo 1) (nodeOrder_sorted nodes 1) B [] q 0 0 (nodes.length + 4)
        (by rw [← hL]; exact hgo 2) (by rw [← hL]; exact nodeOrder_sorted nodes 2) (by rw [hl1])
        (Near.refl h0 h1 le_rfl _) (Or.inl rfl)
      rw [hL, List.length_cons] at hl
      exact this.mono h0 h1 (by omega)

end near

end Evogil.Rounded
