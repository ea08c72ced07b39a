import Verif.Model.Nsgaiii
import Verif.Lemmas.Variation
import Verif.Lemmas.FrontFill
import Verif.Spec.Box
import Mathlib.Algebra.Order.BigOperators.Group.List
import Mathlib.Tactic.Linarith

set_option linter.unusedSectionVars false

namespace Evogil.Nsgaiii

open Spec

variable {K : Type*} [Field K] [LinearOrder K] [IsStrictOrderedRing K]

/-! ## reference points -/

theorem refLoop_spec (pw : K → K → K) (hpw : ∀ b e, 0 < b → b < 1 → 0 < e → 0 ≤ pw b e ∧ pw b e ≤ 1)
    (rand : ℕ → K) (n : ℕ) (hr : ∀ i, 0 < rand i ∧ rand i < 1) :
    ∀ rest i (s : K), i + rest = n → s ≤ 1 →
      (refLoop pw rand n (rest + 1) i s).length = rest + 1 ∧
      (∀ x ∈ refLoop pw rand n (rest + 1) i s, 0 ≤ x) ∧
      (refLoop pw rand n (rest + 1) i s).sum = 1 - s := by
  intro rest
  induction rest with
  | zero =>
    intro i s hi hs
    have : ¬ i < n := by omega
    simp only [refLoop, if_neg this]
    refine ⟨rfl, ?_, by simp⟩
    intro x hx
    rw [List.mem_singleton] at hx
    subst hx
    linarith
  | succ rest ih =>
    intro i s hi hs
    have hlt : i < n := by omega
    rw [refLoop, if_pos hlt]
    have he : (0 : K) < 1 / ((n - i : ℕ) : K) := by
      apply one_div_pos.2
      exact_mod_cast (by omega : 0 < n - i)
    obtain ⟨p0, p1⟩ := hpw (rand i) _ (hr i).1 (hr i).2 he
    generalize pw (rand i) (1 / ((n - i : ℕ) : K)) = q at p0 p1 ⊢
    have hs' : s + (1 - s) * (1 - q) ≤ 1 := by nlinarith
    obtain ⟨g1, g2, g3⟩ := ih (i + 1) (s + (1 - s) * (1 - q)) (by omega) hs'
    simp only
    refine ⟨by rw [List.length_cons, g1], ?_, ?_⟩
    · intro x hx
      rcases List.mem_cons.1 hx with rfl | hx
      · exact mul_nonneg (by linarith) (by linarith)
      · exact g2 x hx
    · rw [List.sum_cons, g3]; ring

/-! ## ideal point -/

theorem updateIdealOne_get (ideal : List (WithTop K)) (obj : List K) (i : ℕ) :
    (updateIdealOne ideal obj)[i]? =
      match ideal[i]?, obj[i]? with
      | some a, some b => some (if (b : WithTop K) < a then (b : WithTop K) else a)
      | _, _ => none := by
  unfold updateIdealOne
  rw [List.getElem?_zipWith]
  cases ideal[i]? <;> cases obj[i]? <;> rfl

theorem updateIdeal_length (m : ℕ) : ∀ (objs : List (List K)) (ideal : List (WithTop K)),
    ideal.length = m → (∀ o ∈ objs, o.length = m) → (updateIdeal ideal objs).length = m := by
  intro objs
  induction objs with
  | nil => intro ideal h _; exact h
  | cons o os ih =>
    intro ideal h ho
    rw [updateIdeal, List.foldl_cons]
    refine ih _ ?_ fun o' h' => ho o' (List.mem_cons_of_mem _ h')
    unfold updateIdealOne
    rw [List.length_zipWith, h, ho o List.mem_cons_self, Nat.min_self]

theorem updateIdeal_get (m : ℕ) : ∀ (objs : List (List K)) (ideal : List (WithTop K)),
    (∀ o ∈ objs, o.length = m) → ∀ (i : ℕ) (a : WithTop K), i < m → ideal[i]? = some a →
    ∃ x, (updateIdeal ideal objs)[i]? = some x ∧ x ≤ a ∧
      (∀ o ∈ objs, ∀ y, o[i]? = some y → x ≤ (y : WithTop K)) ∧
      (x = a ∨ ∃ o ∈ objs, ∃ y, o[i]? = some y ∧ x = (y : WithTop K)) := by
  intro objs
  induction objs with
  | nil => intro ideal _ i a _ ha; exact ⟨a, ha, le_rfl, by simp, Or.inl rfl⟩
  | cons o os ih =>
    intro ideal ho i a hi ha
    have hol := ho o List.mem_cons_self
    have hoi : o[i]? = some (o[i]'(by omega)) := List.getElem?_eq_getElem (by omega)
    generalize o[i]'(by omega) = b at hoi
    have h1 : (updateIdealOne ideal o)[i]? =
        some (if (b : WithTop K) < a then (b : WithTop K) else a) := by
      rw [updateIdealOne_get, ha, hoi]
    obtain ⟨x, g1, g2, g3, g4⟩ := ih _ (fun o' h' => ho o' (List.mem_cons_of_mem _ h')) i _ hi h1
    refine ⟨x, g1, ?_, ?_, ?_⟩
    · refine g2.trans ?_
      split_ifs with h
      · exact h.le
      · exact le_rfl
    · intro o' ho' y hy
      rcases List.mem_cons.1 ho' with rfl | ho'
      · rw [hoi] at hy
        obtain rfl := Option.some.inj hy
        refine g2.trans ?_
        split_ifs with h
        · exact le_rfl
        · exact not_lt.1 h
      · exact g3 o' ho' y hy
    · rcases g4 with g4 | ⟨o', ho', y, hy, e⟩
      · by_cases h : (b : WithTop K) < a
        · rw [if_pos h] at g4
          exact Or.inr ⟨o, List.mem_cons_self, b, hoi, g4⟩
        · rw [if_neg h] at g4
          exact Or.inl g4
      · exact Or.inr ⟨o', List.mem_cons_of_mem _ ho', y, hy, e⟩

theorem updateDefiledOne_get (defiled : List (WithBot K)) (obj : List K) (i : ℕ) :
    (updateDefiledOne defiled obj)[i]? =
      match defiled[i]?, obj[i]? with
      | some a, some b => some (if a < (b : WithBot K) then (b : WithBot K) else a)
      | _, _ => none := by
  unfold updateDefiledOne
  rw [List.getElem?_zipWith]
  cases defiled[i]? <;> cases obj[i]? <;> rfl

theorem defiled_get (m : ℕ) : ∀ (objs : List (List K)) (defiled : List (WithBot K)),
    (∀ o ∈ objs, o.length = m) → ∀ (i : ℕ) (a : WithBot K), i < m → defiled[i]? = some a →
    ∃ x, (objs.foldl updateDefiledOne defiled)[i]? = some x ∧ a ≤ x ∧
      (∀ o ∈ objs, ∀ y, o[i]? = some y → (y : WithBot K) ≤ x) ∧
      (x = a ∨ ∃ o ∈ objs, ∃ y, o[i]? = some y ∧ x = (y : WithBot K)) := by
  intro objs
  induction objs with
  | nil => intro ideal _ i a _ ha; exact ⟨a, ha, le_rfl, by simp, Or.inl rfl⟩
  | cons o os ih =>
    intro ideal ho i a hi ha
    have hol := ho o List.mem_cons_self
    have hoi : o[i]? = some (o[i]'(by omega)) := List.getElem?_eq_getElem (by omega)
    generalize o[i]'(by omega) = b at hoi
    have h1 : (updateDefiledOne ideal o)[i]? =
        some (if a < (b : WithBot K) then (b : WithBot K) else a) := by
      rw [updateDefiledOne_get, ha, hoi]
    obtain ⟨x, g1, g2, g3, g4⟩ := ih _ (fun o' h' => ho o' (List.mem_cons_of_mem _ h')) i _ hi h1
    refine ⟨x, g1, ?_, ?_, ?_⟩
    · refine le_trans ?_ g2
      split_ifs with h
      · exact h.le
      · exact le_rfl
    · intro o' ho' y hy
      rcases List.mem_cons.1 ho' with rfl | ho'
      · rw [hoi] at hy
        obtain rfl := Option.some.inj hy
        refine le_trans ?_ g2
        split_ifs with h
        · exact le_rfl
        · exact not_lt.1 h
      · exact g3 o' ho' y hy
    · rcases g4 with g4 | ⟨o', ho', y, hy, e⟩
      · by_cases h : a < (b : WithBot K)
        · rw [if_pos h] at g4
          exact Or.inr ⟨o, List.mem_cons_self, b, hoi, g4⟩
        · rw [if_neg h] at g4
          exact Or.inl g4
      · exact Or.inr ⟨o', List.mem_cons_of_mem _ ho', y, hy, e⟩

/-! ## clustering -/

theorem clusterStep_fold (l : List K) : ∀ (k : ℕ) (st : WithTop K × Option ℕ),
    (l = [] ∧ (l.zipIdx k).foldl clusterStep st = st) ∨
    ((l.zipIdx k).foldl clusterStep st = st ∧ ∀ x ∈ l, st.1 ≤ (x : WithTop K)) ∨
    ∃ (i : ℕ) (x : K), l[i]? = some x ∧ (l.zipIdx k).foldl clusterStep st = ((x : WithTop K), some (k + i)) ∧
      (x : WithTop K) < st.1 ∧ (∀ y ∈ l, x ≤ y) ∧ ∀ j y, j < i → l[j]? = some y → x < y := by
  induction l with
  | nil => intro k st; exact Or.inl ⟨rfl, rfl⟩
  | cons a l ih =>
    intro k st
    right
    rw [List.zipIdx_cons, List.foldl_cons]
    by_cases h : (a : WithTop K) < st.1
    · have e : clusterStep st (a, k) = ((a : WithTop K), some k) := by
        unfold clusterStep; exact if_pos h
      rw [e]
      right
      rcases ih (k + 1) ((a : WithTop K), some k) with ⟨rfl, g⟩ | ⟨g, g2⟩ | ⟨i, x, g1, g2, g3, g4, g5⟩
      · exact ⟨0, a, rfl, by rw [g]; rfl, h, by simp, by simp⟩
      · refine ⟨0, a, rfl, by rw [g]; rfl, h, ?_, by simp⟩
        intro y hy
        rcases List.mem_cons.1 hy with rfl | hy
        · exact le_rfl
        · exact WithTop.coe_le_coe.1 (g2 y hy)
      · have hxa : x < a := WithTop.coe_lt_coe.1 g3
        refine ⟨i + 1, x, g1, by rw [g2]; congr 2; omega, g3.trans h, ?_, ?_⟩
        · intro y hy
          rcases List.mem_cons.1 hy with rfl | hy
          · exact hxa.le
          · exact g4 y hy
        · intro j y hj hy
          cases j with
          | zero => simp only [List.getElem?_cons_zero, Option.some.injEq] at hy; exact hy ▸ hxa
          | succ j => exact g5 j y (by omega) hy
    · have e : clusterStep st (a, k) = st := by
        unfold clusterStep; exact if_neg h
      rw [e]
      rcases ih (k + 1) st with ⟨rfl, g⟩ | ⟨g, g2⟩ | ⟨i, x, g1, g2, g3, g4, g5⟩
      · left
        refine ⟨g, ?_⟩
        intro x hx
        rw [List.mem_singleton] at hx
        subst hx
        exact not_lt.1 h
      · left
        refine ⟨g, ?_⟩
        intro x hx
        rcases List.mem_cons.1 hx with rfl | hx
        · exact not_lt.1 h
        · exact g2 x hx
      · right
        have hxa : x < a := WithTop.coe_lt_coe.1 (lt_of_lt_of_le g3 (not_lt.1 h))
        refine ⟨i + 1, x, g1, by rw [g2]; congr 2; omega, g3, ?_, ?_⟩
        · intro y hy
          rcases List.mem_cons.1 hy with rfl | hy
          · exact hxa.le
          · exact g4 y hy
        · intro j y hj hy
          cases j with
          | zero => simp only [List.getElem?_cons_zero, Option.some.injEq] at hy; exact hy ▸ hxa
          | succ j => exact g5 j y (by omega) hy

/-! ## variation -/

/-- Coordinates inside their intervals as far as present. -/
theorem inBox_set {v : List K} {dims : List (K × K)} (h : InBox v dims) (i : ℕ) (w : K)
    (hw : ∀ d, dims[i]? = some d → d.1 ≤ w ∧ w ≤ d.2) : InBox (v.set i w) dims := by
  refine inBox_of_get (by rw [List.length_set, h.length_eq]) ?_
  intro j x d hx hd
  by_cases e : i = j
  · subst e
    have hl : i < v.length := by
      by_contra hc
      rw [List.getElem?_eq_none (by rw [List.length_set]; omega)] at hx
      simp at hx
    rw [List.getElem?_set_self hl] at hx
    obtain rfl := Option.some.inj hx
    exact hw d hd
  · rw [List.getElem?_set_ne e] at hx
    exact h.get hx hd

theorem box_get_le {dims : List (K × K)} {v : List K} (h : InBox v dims) {i : ℕ} {d : K × K}
    (hd : dims[i]? = some d) : ∃ x, v[i]? = some x ∧ d.1 ≤ x ∧ x ≤ d.2 := by
  have hl : i < dims.length := by
    by_contra hc
    rw [List.getElem?_eq_none (by omega)] at hd
    simp at hd
  have hv : i < v.length := by rw [h.length_eq]; exact hl
  exact ⟨v[i], List.getElem?_eq_getElem hv, h.get (List.getElem?_eq_getElem hv) hd⟩

theorem sbxLoop_spec {pw : K → K → K} (hp : PowLaws pw) {eps eta : K} (he : 0 < eps)
    (heta : 0 ≤ eta) (ds : ℕ → SbxDraw K) (hds : ∀ i, 0 ≤ (ds i).rand ∧ (ds i).rand < 1)
    {D : List (K × K)} {a b : List K} (ha : InBox a D) (hb : InBox b D) :
    ∀ (dims : List (K × K)) (i : ℕ) (ca cb : List K), D.drop i = dims → InBox ca D → InBox cb D →
      ∃ ca' cb', sbxLoop pw eps eta ds a b i dims ca cb = some (ca', cb') ∧
        InBox ca' D ∧ InBox cb' D := by
  intro dims
  induction dims with
  | nil => intro i ca cb _ h1 h2; exact ⟨ca, cb, rfl, h1, h2⟩
  | cons d dims ih =>
    intro i ca cb hi h1 h2
    have hd : D[i]? = some d := by
      rw [← Nat.add_zero i, ← List.getElem?_drop, hi]; rfl
    have hdrop : D.drop (i + 1) = dims := by
      rw [← List.drop_drop, hi]; rfl
    rw [sbxLoop]
    by_cases hskip : 1 / 2 < (ds i).skip
    · rw [if_pos hskip]; exact ih _ _ _ hdrop h1 h2
    rw [if_neg hskip]
    obtain ⟨x, hx, hx1, hx2⟩ := box_get_le ha hd
    obtain ⟨y, hy, hy1, hy2⟩ := box_get_le hb hd
    rw [hx, hy]
    simp only
    by_cases heq : |x - y| ≤ eps
    · rw [if_pos heq]; exact ih _ _ _ hdrop h1 h2
    rw [if_neg heq]
    have hsome := sbxValues_isSome hp he heta hx1 hx2 hy1 hy2 (hds i).1 (hds i).2
    obtain ⟨⟨p, q⟩, hpq⟩ := Option.isSome_iff_exists.1 hsome
    rw [hpq]
    simp only
    obtain ⟨⟨w1, e1⟩, w2, e2⟩ := sbxValues_eq_clamp _ _ _ _ _ _ _ _ _ _ hpq
    have hle : d.1 ≤ d.2 := hx1.trans hx2
    have hpb : ∀ d', D[i]? = some d' → d'.1 ≤ p ∧ p ≤ d'.2 := by
      intro d' h'
      rw [hd] at h'
      obtain rfl := Option.some.inj h'
      rw [e1]; exact clamp_mem _ _ _ hle
    have hqb : ∀ d', D[i]? = some d' → d'.1 ≤ q ∧ q ≤ d'.2 := by
      intro d' h'
      rw [hd] at h'
      obtain rfl := Option.some.inj h'
      rw [e2]; exact clamp_mem _ _ _ hle
    by_cases hsw : 1 / 2 < (ds i).swap
    · rw [if_pos hsw]
      exact ih _ _ _ hdrop (inBox_set h1 i q hqb) (inBox_set h2 i p hpb)
    · rw [if_neg hsw]
      exact ih _ _ _ hdrop (inBox_set h1 i p hpb) (inBox_set h2 i q hqb)

/-- The cached objectives, if any, are those of the vector. -/
def Coherent (f : List K → List K) (x : Ind K) : Prop :=
  ∀ o, x.objectives = some o → o = f x.v

theorem mutLoop_spec {pw : K → K → K} (hp : PowLaws pw) {eps eta rate : K} (he : 0 < eps)
    (heta : 0 ≤ eta) (ds : ℕ → MutDraw K) (hds : ∀ i, 0 ≤ (ds i).rnd ∧ (ds i).rnd ≤ 1)
    {D : List (K × K)} :
    ∀ (dims : List (K × K)) (i : ℕ) (x : Ind K), D.drop i = dims → InBox x.v D →
      ∃ x', mutLoop pw eps rate eta ds i dims x = some x' ∧ InBox x'.v D ∧
        (x' = x ∨ x'.objectives = none) := by
  intro dims
  induction dims with
  | nil => intro i x _ h; exact ⟨x, rfl, h, Or.inl rfl⟩
  | cons d dims ih =>
    intro i x hi h
    have hd : D[i]? = some d := by
      rw [← Nat.add_zero i, ← List.getElem?_drop, hi]; rfl
    have hdrop : D.drop (i + 1) = dims := by
      rw [← List.drop_drop, hi]; rfl
    rw [mutLoop]
    by_cases hsel : rate < (ds i).select
    · rw [if_pos hsel]; exact ih _ _ hdrop h
    rw [if_neg hsel]
    obtain ⟨y, hy, hy1, hy2⟩ := box_get_le h hd
    rw [hy]
    simp only
    obtain ⟨w, hw⟩ := Option.isSome_iff_exists.1
      (mutatedValue_isSome hp he heta hy1 hy2 (hds i).1 (hds i).2)
    rw [hw]
    simp only
    obtain ⟨u, rfl⟩ := mutatedValue_eq_clamp _ _ _ _ _ _ _ _ hw
    obtain ⟨x', g1, g2, g3⟩ := ih (i + 1) ⟨x.v.set i (clamp d.1 d.2 u), none⟩ hdrop (by
      refine inBox_set h i _ ?_
      intro d' h'
      rw [hd] at h'
      obtain rfl := Option.some.inj h'
      exact clamp_mem _ _ _ (hy1.trans hy2))
    refine ⟨x', g1, g2, Or.inr ?_⟩
    rcases g3 with rfl | g3
    · rfl
    · exact g3

/-! ## objectives of a list of individuals -/

theorem allObjectives_of (f : List K → List K) : ∀ (l : List (Ind K)),
    (∀ x ∈ l, x.objectives = some (f x.v)) → allObjectives l = some (l.map fun x => f x.v) := by
  intro l
  induction l with
  | nil => intro _; rfl
  | cons a l ih =>
    intro h
    rw [allObjectives, h a List.mem_cons_self,
      ih fun x hx => h x (List.mem_cons_of_mem _ hx)]
    rfl

theorem allObjectives_none : ∀ (l : List (Ind K)) (x : Ind K), x ∈ l → x.objectives = none →
    allObjectives l = none := by
  intro l
  induction l with
  | nil => intro x hx; simp at hx
  | cons a l ih =>
    intro x hx h
    rw [allObjectives]
    rcases List.mem_cons.1 hx with rfl | hx
    · rw [h]
    · rw [ih x hx h]
      cases a.objectives <;> rfl

theorem filterMap_objectives (f : List K → List K) (l : List (Ind K))
    (h : ∀ x ∈ l, x.objectives = some (f x.v)) :
    l.filterMap Ind.objectives = l.map fun x => f x.v := by
  induction l with
  | nil => rfl
  | cons a l ih =>
    rw [List.filterMap_cons, h a List.mem_cons_self, List.map_cons,
      ih fun x hx => h x (List.mem_cons_of_mem _ hx)]

end Evogil.Nsgaiii
