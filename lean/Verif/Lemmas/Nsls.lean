import Verif.Model.Nsls
import Verif.Lemmas.FrontFill
import Verif.Lemmas.Nsgaiii
import Verif.Spec.Box

set_option linter.unusedSectionVars false

namespace Evogil.Nsls

open Spec

variable {K : Type*} [Field K] [LinearOrder K] [IsStrictOrderedRing K]

theorem nsgaiiDominates_iff_LDom {x y : List K} (h : x.length = y.length) :
    nsgaiiDominates x y = true ↔ LDom x y := by
  rw [nsgaiiDominates_iff_zip, ← dominates_iff_zip, dominates_iff_LDom h]

/-! ## trial vectors -/

/-- A trim function that works coordinate by coordinate and does not leave an interval. -/
structure TrimOk (dims : List (K × K)) (trim : List K → List K) : Prop where
  length : ∀ v, (trim v).length = v.length
  coord : ∀ (v : List K) (k : ℕ) (x y : K) (d : K × K), v[k]? = some x → (trim v)[k]? = some y →
    dims[k]? = some d → d.1 ≤ x → x ≤ d.2 → d.1 ≤ y ∧ y ≤ d.2

theorem trialVector_spec {dims : List (K × K)} {trim : List K → List K} (ht : TrimOk dims trim)
    {x : List K} (hx : InBox x dims) {k : ℕ} (hk : k < dims.length) (diff : K) :
    ∃ w, trialVector dims trim x k diff = some w ∧ InBox w dims := by
  have hkx : k < x.length := by rw [hx.length_eq]; exact hk
  have hxk : x[k]? = some (x[k]'hkx) := List.getElem?_eq_getElem hkx
  have hd : dims[k]? = some (dims[k]'hk) := List.getElem?_eq_getElem hk
  generalize x[k]'hkx = xk at hxk
  generalize dims[k]'hk = d at hd
  unfold trialVector
  rw [hxk, hd]
  simp only
  have hlen : (trim (x.set k (xk + diff))).length = dims.length := by
    rw [ht.length, List.length_set, hx.length_eq]
  have hwk : (trim (x.set k (xk + diff)))[k]? =
      some ((trim (x.set k (xk + diff)))[k]'(by omega)) := List.getElem?_eq_getElem (by omega)
  generalize (trim (x.set k (xk + diff)))[k]'(by omega) = wk at hwk
  rw [hwk]
  simp only
  have hother : ∀ (j : ℕ) (y : K) (e : K × K), j ≠ k → (trim (x.set k (xk + diff)))[j]? = some y →
      dims[j]? = some e → e.1 ≤ y ∧ y ≤ e.2 := by
    intro j y e hj hy he
    obtain ⟨z, hz, hz1, hz2⟩ := Nsgaiii.box_get_le hx he
    refine ht.coord _ j z y e ?_ hy he hz1 hz2
    rw [List.getElem?_set_ne (Ne.symm hj)]
    exact hz
  by_cases hout : wk < d.1 ∨ d.2 < wk
  · rw [if_pos hout]
    refine ⟨_, rfl, inBox_of_get (by rw [List.length_set, hlen]) ?_⟩
    intro j y e hy he
    by_cases hj : j = k
    · subst hj
      rw [List.getElem?_set_self (by omega)] at hy
      obtain rfl := Option.some.inj hy
      exact hx.get hxk he
    · rw [List.getElem?_set_ne (Ne.symm hj)] at hy
      exact hother j y e hj hy he
  · rw [if_neg hout]
    push Not at hout
    refine ⟨_, rfl, inBox_of_get hlen ?_⟩
    intro j y e hy he
    by_cases hj : j = k
    · subst hj
      rw [hwk] at hy
      rw [hd] at he
      obtain rfl := Option.some.inj hy
      obtain rfl := Option.some.inj he
      exact hout
    · exact hother j y e hj hy he

/-! ## extremes -/

/-- What the inner loop maintains after the individuals `P`. -/
structure ExtInv (o : ℕ → K) (add0 P : List ℕ) (st : Option ℕ × Option ℕ × List ℕ) : Prop where
  mn : (st.1 = none ∧ P = []) ∨ ∃ m ∈ P, st.1 = some m ∧ m ∈ st.2.2 ∧ ∀ x ∈ P, o m ≤ o x
  mx : (st.2.1 = none ∧ P = []) ∨ ∃ m ∈ P, st.2.1 = some m ∧ m ∈ st.2.2 ∧ ∀ x ∈ P, o x ≤ o m
  sub0 : ∀ x ∈ add0, x ∈ st.2.2
  sub : ∀ x ∈ st.2.2, x ∈ add0 ∨ x ∈ P
  nodup : st.2.2.Nodup

theorem mem_addIf (m : ℕ) (l : List ℕ) (x : ℕ) :
    x ∈ (if m ∈ l then l else l ++ [m]) ↔ x = m ∨ x ∈ l := by
  by_cases h : m ∈ l
  · rw [if_pos h]
    constructor
    · exact Or.inr
    · rintro (rfl | h')
      · exact h
      · exact h'
  · rw [if_neg h, List.mem_append, List.mem_singleton, or_comm]

theorem nodup_addIf (m : ℕ) (l : List ℕ) (hl : l.Nodup) :
    (if m ∈ l then l else l ++ [m]).Nodup := by
  by_cases h : m ∈ l
  · rw [if_pos h]; exact hl
  · rw [if_neg h, List.nodup_append]
    refine ⟨hl, by simp, ?_⟩
    intro a ha b hb
    rw [List.mem_singleton] at hb
    subst hb
    rintro rfl
    exact h ha

theorem extremeStep_inv {o : ℕ → K} {add0 P : List ℕ} {st : Option ℕ × Option ℕ × List ℕ}
    (h : ExtInv o add0 P st) (a : ℕ) : ExtInv o add0 (P ++ [a]) (extremeStep o st a) := by
  obtain ⟨mn, hmn1, hmn2, hmn3⟩ : ∃ mn, (extremeStep o st a).1 = some mn ∧ mn ∈ P ++ [a] ∧
      ∀ x ∈ P ++ [a], o mn ≤ o x := by
    refine ⟨_, rfl, ?_⟩
    rcases h.mn with ⟨h1, h2⟩ | ⟨m, hm, h1, -, h3⟩
    · rw [h1, h2]; simp
    · rw [h1]
      simp only
      by_cases hlt : o a < o m
      · rw [if_pos hlt]
        refine ⟨by simp, fun x hx => ?_⟩
        rcases List.mem_append.1 hx with hx | hx
        · exact hlt.le.trans (h3 x hx)
        · rw [List.mem_singleton] at hx; subst hx; exact le_rfl
      · rw [if_neg hlt]
        refine ⟨List.mem_append_left _ hm, fun x hx => ?_⟩
        rcases List.mem_append.1 hx with hx | hx
        · exact h3 x hx
        · rw [List.mem_singleton] at hx; subst hx; exact not_lt.1 hlt
  obtain ⟨mx, hmx1, hmx2, hmx3⟩ : ∃ mx, (extremeStep o st a).2.1 = some mx ∧ mx ∈ P ++ [a] ∧
      ∀ x ∈ P ++ [a], o x ≤ o mx := by
    refine ⟨_, rfl, ?_⟩
    rcases h.mx with ⟨h1, h2⟩ | ⟨m, hm, h1, -, h3⟩
    · rw [h1, h2]; simp
    · rw [h1]
      simp only
      by_cases hlt : o m < o a
      · rw [if_pos hlt]
        refine ⟨by simp, fun x hx => ?_⟩
        rcases List.mem_append.1 hx with hx | hx
        · exact (h3 x hx).trans hlt.le
        · rw [List.mem_singleton] at hx; subst hx; exact le_rfl
      · rw [if_neg hlt]
        refine ⟨List.mem_append_left _ hm, fun x hx => ?_⟩
        rcases List.mem_append.1 hx with hx | hx
        · exact h3 x hx
        · rw [List.mem_singleton] at hx; subst hx; exact not_lt.1 hlt
  have hadd : (extremeStep o st a).2.2 =
      (if mx ∈ (if mn ∈ st.2.2 then st.2.2 else st.2.2 ++ [mn]) then
        (if mn ∈ st.2.2 then st.2.2 else st.2.2 ++ [mn])
      else (if mn ∈ st.2.2 then st.2.2 else st.2.2 ++ [mn]) ++ [mx]) := by
    rw [← Option.some.inj hmn1, ← Option.some.inj hmx1]
    rfl
  have hmem : ∀ x, x ∈ (extremeStep o st a).2.2 ↔ x = mx ∨ x = mn ∨ x ∈ st.2.2 := by
    intro x
    rw [hadd, mem_addIf, mem_addIf]
  refine ⟨Or.inr ⟨mn, hmn2, hmn1, (hmem _).2 (Or.inr (Or.inl rfl)), hmn3⟩,
    Or.inr ⟨mx, hmx2, hmx1, (hmem _).2 (Or.inl rfl), hmx3⟩, ?_, ?_, ?_⟩
  · intro x hx
    exact (hmem x).2 (Or.inr (Or.inr (h.sub0 x hx)))
  · intro x hx
    rcases (hmem x).1 hx with rfl | rfl | hx
    · exact Or.inr hmx2
    · exact Or.inr hmn2
    · rcases h.sub x hx with hx | hx
      · exact Or.inl hx
      · exact Or.inr (List.mem_append_left _ hx)
  · rw [hadd]
    exact nodup_addIf _ _ (nodup_addIf _ _ h.nodup)

theorem extremeFold_inv {o : ℕ → K} {add0 : List ℕ} : ∀ (l P : List ℕ)
    (st : Option ℕ × Option ℕ × List ℕ), ExtInv o add0 P st →
    ExtInv o add0 (P ++ l) (l.foldl (extremeStep o) st) := by
  intro l
  induction l with
  | nil => intro P st h; simpa using h
  | cons a l ih =>
    intro P st h
    have := ih (P ++ [a]) _ (extremeStep_inv h a)
    simpa using this

theorem extremesOne_spec (last add : List ℕ) (o : ℕ → K) (hadd : add.Nodup) (hl : last ≠ []) :
    (extremesOne last add o).Nodup ∧ (∀ x ∈ add, x ∈ extremesOne last add o) ∧
    (∀ x ∈ extremesOne last add o, x ∈ add ∨ x ∈ last) ∧
    (∃ m ∈ extremesOne last add o, m ∈ last ∧ ∀ x ∈ last, o m ≤ o x) ∧
    (∃ m ∈ extremesOne last add o, m ∈ last ∧ ∀ x ∈ last, o x ≤ o m) := by
  have h0 : ExtInv o add [] (none, none, add) :=
    ⟨Or.inl ⟨rfl, rfl⟩, Or.inl ⟨rfl, rfl⟩, fun _ h => h, fun _ h => Or.inl h, hadd⟩
  have h := extremeFold_inv last [] _ h0
  rw [List.nil_append] at h
  refine ⟨h.nodup, h.sub0, h.sub, ?_, ?_⟩
  · rcases h.mn with ⟨-, h1⟩ | ⟨m, h1, -, h3, h4⟩
    · exact absurd h1 hl
    · exact ⟨m, h3, h1, h4⟩
  · rcases h.mx with ⟨-, h1⟩ | ⟨m, h1, -, h3, h4⟩
    · exact absurd h1 hl
    · exact ⟨m, h3, h1, h4⟩

theorem extremes_fold_spec (last : List ℕ) (hl : last ≠ []) : ∀ (objs : List (ℕ → K))
    (add : List ℕ), add.Nodup → (∀ x ∈ add, x ∈ last) →
    (objs.foldl (extremesOne last) add).Nodup ∧
    (∀ x ∈ add, x ∈ objs.foldl (extremesOne last) add) ∧
    (∀ x ∈ objs.foldl (extremesOne last) add, x ∈ last) ∧
    ∀ o ∈ objs, (∃ m ∈ objs.foldl (extremesOne last) add, ∀ x ∈ last, o m ≤ o x) ∧
      ∃ m ∈ objs.foldl (extremesOne last) add, ∀ x ∈ last, o x ≤ o m := by
  intro objs
  induction objs with
  | nil => intro add h1 h2; exact ⟨h1, fun _ h => h, h2, by simp⟩
  | cons o objs ih =>
    intro add h1 h2
    obtain ⟨g1, g2, g3, ⟨a, ga, -, ga'⟩, b, gb, -, gb'⟩ := extremesOne_spec last add o h1 hl
    obtain ⟨i1, i2, i3, i4⟩ := ih (extremesOne last add o) g1 fun x hx =>
      (g3 x hx).elim (h2 x) id
    rw [List.foldl_cons]
    refine ⟨i1, fun x hx => i2 x (g2 x hx), i3, ?_⟩
    intro o' ho'
    rcases List.mem_cons.1 ho' with rfl | ho'
    · exact ⟨⟨a, i2 a ga, ga'⟩, b, i2 b gb, gb'⟩
    · exact i4 o' ho'

theorem extremes_spec (objs : List (ℕ → K)) (last : List ℕ) (hl : last ≠ []) :
    (extremes objs last).Nodup ∧ (∀ x ∈ extremes objs last, x ∈ last) ∧
    ∀ o ∈ objs, (∃ m ∈ extremes objs last, ∀ x ∈ last, o m ≤ o x) ∧
      ∃ m ∈ extremes objs last, ∀ x ∈ last, o x ≤ o m := by
  obtain ⟨h1, -, h3, h4⟩ := extremes_fold_spec last hl objs [] (by simp) (by simp)
  exact ⟨h1, h3, h4⟩

/-! ## spreading -/

/-- `d i` is the smallest distance of `i` to a member of `add`. -/
def MinDist (dist : ℕ → ℕ → K) (add : List ℕ) (d : ℕ → K) (i : ℕ) : Prop :=
  (∃ p ∈ add, d i = dist i p) ∧ ∀ q ∈ add, d i ≤ dist i q

theorem spread_spec (dist : ℕ → ℕ → K) : ∀ (n : ℕ) (add last : List ℕ) (d : ℕ → K),
    add.Nodup → last.Nodup → (∀ x ∈ last, x ∉ add) → (∀ i ∈ last, MinDist dist add d i) →
    n ≤ last.length →
    ∃ ch, spread dist n add last d = some (add ++ ch) ∧ ch.length = n ∧ (add ++ ch).Nodup ∧
      (∀ x ∈ ch, x ∈ last) ∧
      ∀ pre x post, ch = pre ++ x :: post → ∀ y ∈ last, y ∉ pre →
        ∃ p ∈ add ++ pre, ∀ q ∈ add ++ pre, dist y p ≤ dist x q := by
  intro n
  induction n with
  | zero =>
    intro add last d h1 _ _ _ _
    exact ⟨[], by simp [spread], rfl, by simpa using h1, by simp, by
      intro pre x post h; simp at h⟩
  | succ n ih =>
    intro add last d h1 h2 h3 h4 h5
    have hne : last ≠ [] := by rintro rfl; simp at h5
    obtain ⟨x, hx⟩ := pyMaxBy_isSome d hne
    obtain ⟨hxm, hxmax⟩ := pyMaxBy_mem hx
    have hxadd : x ∉ add := h3 x hxm
    have g1 : (add ++ [x]).Nodup := by
      rw [List.nodup_append]
      refine ⟨h1, by simp, ?_⟩
      intro a ha b hb
      rw [List.mem_singleton] at hb
      subst hb
      rintro rfl
      exact hxadd ha
    have herase : ∀ y, y ∈ last.erase x ↔ y ≠ x ∧ y ∈ last := fun y => h2.mem_erase_iff
    obtain ⟨ch, c1, c2, c3, c4, c5⟩ := ih (add ++ [x]) (last.erase x)
      (fun i => min (d i) (dist i x)) g1 (h2.erase x)
      (by
        intro y hy hy'
        obtain ⟨hyx, hyl⟩ := (herase y).1 hy
        rcases List.mem_append.1 hy' with h | h
        · exact h3 y hyl h
        · exact hyx (List.mem_singleton.1 h))
      (by
        intro i hi
        obtain ⟨⟨p, hp, ep⟩, hq⟩ := h4 i ((herase i).1 hi).2
        constructor
        · rcases le_total (d i) (dist i x) with h | h
          · exact ⟨p, List.mem_append_left _ hp, by simp only; rw [min_eq_left h, ep]⟩
          · exact ⟨x, by simp, by simp only; rw [min_eq_right h]⟩
        · intro q hq'
          rcases List.mem_append.1 hq' with h | h
          · exact (min_le_left _ _).trans (hq q h)
          · rw [List.mem_singleton] at h; subst h; exact min_le_right _ _)
      (by rw [List.length_erase_of_mem hxm]; omega)
    refine ⟨x :: ch, ?_, by rw [List.length_cons, c2], ?_, ?_, ?_⟩
    · rw [spread, hx]
      simp only
      rw [c1]
      simp
    · simpa using c3
    · intro y hy
      rcases List.mem_cons.1 hy with rfl | hy
      · exact hxm
      · exact ((herase y).1 (c4 y hy)).2
    · intro pre z post hsplit y hy hypre
      cases pre with
      | nil =>
        rw [List.nil_append, List.cons.injEq] at hsplit
        obtain ⟨rfl, -⟩ := hsplit
        obtain ⟨⟨p, hp, ep⟩, -⟩ := h4 y hy
        obtain ⟨-, hqx⟩ := h4 x hxm
        rw [List.append_nil]
        exact ⟨p, hp, fun q hq => by rw [← ep]; exact (hxmax y hy).trans (hqx q hq)⟩
      | cons a pre =>
        rw [List.cons_append, List.cons.injEq] at hsplit
        obtain ⟨rfl, hsplit⟩ := hsplit
        have hyx : y ≠ x := fun h => hypre (h ▸ List.mem_cons_self)
        obtain ⟨p, hp, hq⟩ := c5 pre z post hsplit y ((herase y).2 ⟨hyx, hy⟩)
          fun h => hypre (List.mem_cons_of_mem _ h)
        refine ⟨p, by simpa using hp, fun q hq' => hq q (by simpa using hq')⟩

/-- The final selection from the last front is a choice of `toSelect` different members. -/
theorem fillLast_spec (sample : List ℕ → ℕ → List ℕ)
    (hsample : ∀ l n, n ≤ l.length → IsSample l n (sample l n)) (dist : ℕ → ℕ → K)
    (toSelect : ℕ) (add last : List ℕ) (hlast : last.Nodup) (hadd : add.Nodup) (hne : add ≠ [])
    (hsub : ∀ x ∈ add, x ∈ last) (hle : toSelect ≤ last.length) :
    ∃ r, fillLast sample dist toSelect add last = some r ∧ IsSample last toSelect r ∧
      (add.length ≤ toSelect → ∃ ch, r = add ++ ch ∧
        ∀ pre x post, ch = pre ++ x :: post → ∀ y ∈ last, y ∉ add ++ pre →
          ∃ p ∈ add ++ pre, ∀ q ∈ add ++ pre, dist y p ≤ dist x q) := by
  have hsp : add.Subperm last := List.subperm_of_subset hadd hsub
  unfold fillLast
  by_cases h1 : toSelect < add.length
  · rw [if_pos h1]
    obtain ⟨g1, g2⟩ := hsample add toSelect h1.le
    exact ⟨_, rfl, ⟨g1, g2.trans hsp⟩, fun h => absurd h1 (by omega)⟩
  rw [if_neg h1]
  by_cases h2 : add.length < toSelect
  · rw [if_pos h2]
    simp only
    rw [if_neg (fun h => hne h.1)]
    have hfl : (last.filter fun x => x ∉ add).length + add.length = last.length := by
      have e1 : ((last.filter fun x => x ∈ add)).Perm add := by
        rw [List.perm_ext_iff_of_nodup (hlast.filter _) hadd]
        intro x
        simp only [List.mem_filter, decide_eq_true_eq]
        exact ⟨fun h => h.2, fun h => ⟨hsub x h, h⟩⟩
      have e2 := List.length_eq_length_filter_add (l := last) (fun x => decide (x ∈ add))
      rw [e1.length_eq] at e2
      rw [e2, Nat.add_comm]
      congr 2
      apply List.filter_congr
      intro x _
      simp
    obtain ⟨ch, c1, c2, c3, c4, c5⟩ := spread_spec dist (toSelect - add.length) add
      (last.filter fun x => x ∉ add) (fun i => (pyMin (add.map (dist i))).getD 0) hadd
      (hlast.filter _) (by intro x hx; simpa using (List.mem_filter.1 hx).2)
      (by
        intro i _
        have : (pyMin (add.map (dist i))).isSome := by
          rw [pyMin_isSome]; simpa using hne
        obtain ⟨m, hm⟩ := Option.isSome_iff_exists.1 this
        obtain ⟨hm1, hm2⟩ := pyMin_eq_some.1 hm
        obtain ⟨p, hp, ep⟩ := List.mem_map.1 hm1
        constructor
        · exact ⟨p, hp, by simp only; rw [hm, ep]; rfl⟩
        · intro q hq
          simp only
          rw [hm]
          exact hm2 _ (List.mem_map.2 ⟨q, hq, rfl⟩))
      (by omega)
    refine ⟨add ++ ch, c1, ⟨by rw [List.length_append, c2]; omega, ?_⟩, fun _ => ⟨ch, rfl, ?_⟩⟩
    · refine List.subperm_of_subset c3 ?_
      intro x hx
      rcases List.mem_append.1 hx with hx | hx
      · exact hsub x hx
      · exact (List.mem_filter.1 (c4 x hx)).1
    · intro pre x post hsplit y hy hy'
      rw [List.mem_append, not_or] at hy'
      exact c5 pre x post hsplit y (List.mem_filter.2 ⟨hy, by simpa using hy'.1⟩) hy'.2
  · rw [if_neg h2]
    have he : add.length = toSelect := by omega
    refine ⟨add, rfl, ⟨he, hsp⟩, fun _ => ⟨[], by simp, ?_⟩⟩
    intro pre x post h
    simp at h

end Evogil.Nsls
