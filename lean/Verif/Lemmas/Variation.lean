import Verif.Model.Variation
import Verif.Spec.Box
import Mathlib.Tactic.Linarith
import Mathlib.Tactic.Positivity
import Mathlib.Tactic.FieldSimp
import Mathlib.Tactic.Ring

namespace Evogil

variable {K : Type*} [Field K] [LinearOrder K]

set_option linter.unusedSectionVars false

theorem clamp_mem (lb ub y : K) (h : lb ≤ ub) : lb ≤ clamp lb ub y ∧ clamp lb ub y ≤ ub :=
  ⟨le_min h (le_max_left _ _), min_le_left _ _⟩

theorem clamp_of_mem {lb ub y : K} (h1 : lb ≤ y) (h2 : y ≤ ub) : clamp lb ub y = y := by
  unfold clamp; rw [max_eq_right h1, min_eq_right h2]

theorem mutatedValue_eq_clamp (pw : K → K → K) (eps eta y lb ub rnd v : K)
    (h : mutatedValue pw eps eta y lb ub rnd = some v) : ∃ w, v = clamp lb ub w := by
  unfold mutatedValue at h
  obtain ⟨q, -, hq⟩ := Option.map_eq_some_iff.mp h
  exact ⟨_, hq.symm⟩

theorem sbxValues_eq_clamp (pw : K → K → K) (eps eta x y lb ub rand : K) (a b : K)
    (h : sbxValues pw eps eta x y lb ub rand = some (a, b)) :
    (∃ w, a = clamp lb ub w) ∧ ∃ w, b = clamp lb ub w := by
  unfold sbxValues at h
  simp only [Option.bind_eq_bind] at h
  obtain ⟨p, -, h⟩ := Option.bind_eq_some_iff.mp h
  obtain ⟨bq, -, h⟩ := Option.bind_eq_some_iff.mp h
  obtain ⟨p', -, h⟩ := Option.bind_eq_some_iff.mp h
  obtain ⟨bq', -, h⟩ := Option.bind_eq_some_iff.mp h
  simp only [Option.pure_def, Option.some.injEq, Prod.mk.injEq] at h
  exact ⟨⟨_, h.1.symm⟩, _, h.2.symm⟩

theorem mutateLoop_spec (pw : K → K → K) (eps rate eta : K) (ds : ℕ → MutDraw K) (xs : List K) :
    ∀ (dims : List (K × K)) (i : ℕ) (acc ys : List K), acc.length = xs.length →
      mutateLoop pw eps rate eta ds xs i dims acc = some ys →
      ys.length = xs.length ∧
      (∀ j, ¬ (i ≤ j ∧ j < i + dims.length ∧ (ds j).select ≤ rate) → ys[j]? = acc[j]?) ∧
      (∀ j d, i ≤ j → dims[j - i]? = some d → (ds j).select ≤ rate →
        ∃ x, xs[j]? = some x ∧ ∃ v, mutatedValue pw eps eta x d.1 d.2 (ds j).rnd = some v ∧
          ys[j]? = some v) := by
  intro dims
  induction dims with
  | nil =>
    intro i acc ys hl h
    simp only [mutateLoop, Option.some.injEq] at h
    subst h
    exact ⟨hl, fun _ _ => rfl, fun j d _ hd => by simp at hd⟩
  | cons d dims ih =>
    obtain ⟨lb, ub⟩ := d
    intro i acc ys hl h
    rw [mutateLoop] at h
    by_cases hsel : rate < (ds i).select
    · rw [if_pos hsel] at h
      obtain ⟨h1, h2, h3⟩ := ih (i + 1) acc ys hl h
      refine ⟨h1, ?_, ?_⟩
      · intro j hj
        apply h2
        rintro ⟨ha, hb, hc⟩
        exact hj ⟨by omega, by simp; omega, hc⟩
      · intro j d hij hd hs
        by_cases hji : j = i
        · subst hji; exact absurd hs (not_le.mpr hsel)
        · apply h3 j d (by omega) _ hs
          have : j - i = (j - (i + 1)) + 1 := by omega
          rw [this, List.getElem?_cons_succ] at hd
          exact hd
    · rw [if_neg hsel] at h
      cases hx : xs[i]? with
      | none => rw [hx] at h; cases h
      | some x =>
        rw [hx] at h
        simp only at h
        cases hv : mutatedValue pw eps eta x lb ub (ds i).rnd with
        | none => rw [hv] at h; cases h
        | some v =>
          rw [hv] at h
          simp only at h
          obtain ⟨h1, h2, h3⟩ := ih (i + 1) (acc.set i v) ys (by simpa using hl) h
          have hil : i < acc.length := by
            rw [hl]; exact (List.getElem?_eq_some_iff.mp hx).1
          refine ⟨h1, ?_, ?_⟩
          · intro j hj
            have hji : j ≠ i := by
              rintro rfl
              exact hj ⟨le_refl _, by simp, not_lt.mp hsel⟩
            rw [h2 j (by rintro ⟨ha, hb, hc⟩; exact hj ⟨by omega, by simp; omega, hc⟩)]
            rw [List.getElem?_set_ne (Ne.symm hji)]
          · intro j d hij hd hs
            by_cases hji : j = i
            · subst hji
              simp only [Nat.sub_self, List.getElem?_cons_zero, Option.some.injEq] at hd
              subst hd
              refine ⟨x, hx, v, hv, ?_⟩
              rw [h2 j (by rintro ⟨ha, -⟩; omega), List.getElem?_set_self hil]
            · apply h3 j d (by omega) _ hs
              have : j - i = (j - (i + 1)) + 1 := by omega
              rw [this, List.getElem?_cons_succ] at hd
              exact hd

theorem mutateLoop_isSome (pw : K → K → K) (eps rate eta : K) (ds : ℕ → MutDraw K)
    (xs : List K) : ∀ (dims : List (K × K)) (i : ℕ) (acc : List K),
      (∀ j d, dims[j]? = some d → ∃ x, xs[i + j]? = some x ∧
        (mutatedValue pw eps eta x d.1 d.2 (ds (i + j)).rnd).isSome) →
      (mutateLoop pw eps rate eta ds xs i dims acc).isSome := by
  intro dims
  induction dims with
  | nil => intro i acc _; rfl
  | cons d dims ih =>
    obtain ⟨lb, ub⟩ := d
    intro i acc h
    have hrec : ∀ acc', (mutateLoop pw eps rate eta ds xs (i + 1) dims acc').isSome := by
      intro acc'
      apply ih
      intro j d hd
      have := h (j + 1) d (by simpa using hd)
      rwa [show i + (j + 1) = i + 1 + j by omega] at this
    rw [mutateLoop]
    split_ifs
    · exact hrec _
    · obtain ⟨x, hx, hv⟩ := h 0 (lb, ub) (by simp)
      rw [Nat.add_zero] at hx hv
      obtain ⟨v, hv⟩ := Option.isSome_iff_exists.mp hv
      rw [hx]; simp only
      rw [hv]; simp only
      exact hrec _

/-- What is used of the power function; real powers satisfy it. -/
structure PowLaws (pw : K → K → K) : Prop where
  nonneg : ∀ b e, 0 ≤ b → 0 ≤ pw b e
  le_one : ∀ b e, 1 ≤ b → e ≤ 0 → pw b e ≤ 1

theorem pyPow_some (pw : K → K → K) {b e : K} (hb : 0 ≤ b) (he : 0 ≤ e) :
    pyPow pw b e = some (pw b e) := by
  unfold pyPow
  rw [if_neg (not_lt.mpr hb), if_neg (fun h => absurd h.2 (not_lt.mpr he))]

theorem pyPow_some' (pw : K → K → K) {b e : K} (hb : 0 < b) :
    pyPow pw b e = some (pw b e) := by
  unfold pyPow
  rw [if_neg (not_lt.mpr hb.le), if_neg (fun h => absurd h.1 hb.ne')]

variable [IsStrictOrderedRing K]

theorem mutatedValue_isSome {pw : K → K → K} (hp : PowLaws pw) {eps eta y lb ub rnd : K}
    (he : 0 < eps) (heta : 0 ≤ eta) (h1 : lb ≤ y) (h2 : y ≤ ub) (hr0 : 0 ≤ rnd) (hr1 : rnd ≤ 1) :
    (mutatedValue pw eps eta y lb ub rnd).isSome := by
  have hden : 0 < ub - lb + eps := by linarith
  have hd1 : (y - lb) / (ub - lb + eps) ≤ 1 := by rw [div_le_one hden]; linarith
  have hd2 : (ub - y) / (ub - lb + eps) ≤ 1 := by rw [div_le_one hden]; linarith
  have hmp : (0 : K) ≤ 1 / (eta + 1) := by positivity
  have heta1 : (0 : K) ≤ eta + 1 := by linarith
  unfold mutatedValue
  rw [Option.isSome_map]
  unfold mutDeltaQ
  simp only [Option.bind_eq_bind, Option.pure_def]
  by_cases hr : rnd ≤ 1 / 2
  · rw [if_pos hr, pyPow_some pw (by linarith) heta1]
    simp only [Option.bind_some]
    rw [pyPow_some pw _ hmp]
    · rfl
    · have := hp.nonneg (1 - (y - lb) / (ub - lb + eps)) (eta + 1) (by linarith)
      have h3 : 0 ≤ 1 - 2 * rnd := by linarith
      positivity
  · rw [if_neg hr, pyPow_some pw (by linarith) heta1]
    simp only [Option.bind_some]
    rw [pyPow_some pw _ hmp]
    · rfl
    · have := hp.nonneg (1 - (ub - y) / (ub - lb + eps)) (eta + 1) (by linarith)
      have h3 : 0 ≤ rnd - 1 / 2 := by linarith
      have h4 : 0 ≤ 1 - rnd := by linarith
      positivity

theorem mutatedValue_direction {pw : K → K → K} (hp : PowLaws pw)
    (hp1 : ∀ b e, 0 ≤ b → b ≤ 1 → 0 ≤ e → pw b e ≤ 1) {eps eta y lb ub rnd v : K}
    (he : 0 < eps) (heta : 0 ≤ eta) (h1 : lb ≤ y) (h2 : y ≤ ub) (hr0 : 0 ≤ rnd) (hr1 : rnd ≤ 1)
    (hv : mutatedValue pw eps eta y lb ub rnd = some v) :
    (rnd ≤ 1 / 2 → v ≤ y) ∧ (1 / 2 < rnd → y ≤ v) := by
  have hden : 0 < ub - lb + eps := by linarith
  have hd1 : (y - lb) / (ub - lb + eps) ≤ 1 := by rw [div_le_one hden]; linarith
  have hd2 : (ub - y) / (ub - lb + eps) ≤ 1 := by rw [div_le_one hden]; linarith
  have hd1' : 0 ≤ (y - lb) / (ub - lb + eps) := div_nonneg (by linarith) hden.le
  have hd2' : 0 ≤ (ub - y) / (ub - lb + eps) := div_nonneg (by linarith) hden.le
  have hmp : (0 : K) ≤ 1 / (eta + 1) := by positivity
  have heta1 : (0 : K) ≤ eta + 1 := by linarith
  have hub : 0 ≤ ub - lb := by linarith
  unfold mutatedValue mutDeltaQ at hv
  simp only [Option.bind_eq_bind, Option.pure_def] at hv
  by_cases hr : rnd ≤ 1 / 2
  · refine ⟨fun _ => ?_, fun h => absurd hr (not_le.mpr h)⟩
    have a0 := hp.nonneg (1 - (y - lb) / (ub - lb + eps)) (eta + 1) (by linarith)
    have a1 := hp1 (1 - (y - lb) / (ub - lb + eps)) (eta + 1) (by linarith) (by linarith) heta1
    rw [if_pos hr, pyPow_some pw (by linarith) heta1] at hv
    simp only [Option.bind_some] at hv
    have h3 : 0 ≤ 1 - 2 * rnd := by linarith
    have b0 : 0 ≤ 2 * rnd + (1 - 2 * rnd) * pw (1 - (y - lb) / (ub - lb + eps)) (eta + 1) := by
      positivity
    have b1 : 2 * rnd + (1 - 2 * rnd) * pw (1 - (y - lb) / (ub - lb + eps)) (eta + 1) ≤ 1 := by
      nlinarith
    rw [pyPow_some pw b0 hmp] at hv
    have c1 := hp1 _ (1 / (eta + 1)) b0 b1 hmp
    simp only [Option.bind_some, Option.map_some, Option.some.injEq] at hv
    rw [← hv]
    unfold clamp
    refine (min_le_right _ _).trans (max_le h1 ?_)
    nlinarith
  · refine ⟨fun h => absurd h hr, fun _ => ?_⟩
    have hr' := not_le.mp hr
    have a0 := hp.nonneg (1 - (ub - y) / (ub - lb + eps)) (eta + 1) (by linarith)
    have a1 := hp1 (1 - (ub - y) / (ub - lb + eps)) (eta + 1) (by linarith) (by linarith) heta1
    rw [if_neg hr, pyPow_some pw (by linarith) heta1] at hv
    simp only [Option.bind_some] at hv
    have h3 : 0 ≤ rnd - 1 / 2 := by linarith
    have h4 : 0 ≤ 1 - rnd := by linarith
    have b0 : 0 ≤ 2 * (1 - rnd) +
        2 * (rnd - 1 / 2) * pw (1 - (ub - y) / (ub - lb + eps)) (eta + 1) := by positivity
    have b1 : 2 * (1 - rnd) +
        2 * (rnd - 1 / 2) * pw (1 - (ub - y) / (ub - lb + eps)) (eta + 1) ≤ 1 := by nlinarith
    rw [pyPow_some pw b0 hmp] at hv
    have c1 := hp1 _ (1 / (eta + 1)) b0 b1 hmp
    simp only [Option.bind_some, Option.map_some, Option.some.injEq] at hv
    rw [← hv]
    unfold clamp
    refine le_min h2 (le_max_of_le_right ?_)
    nlinarith

theorem getBetaQ_isSome {pw : K → K → K} {rand alpha eta : K}
    (heta : 0 ≤ eta) (ha0 : 0 < alpha) (ha : alpha ≤ 2) (hr0 : 0 ≤ rand) (hr1 : rand < 1) :
    (getBetaQ pw rand alpha eta).isSome := by
  have hmp : (0 : K) ≤ 1 / (eta + 1) := by positivity
  have hlt : 0 < 2 - rand * alpha := by nlinarith
  unfold getBetaQ
  rw [if_neg ha0.ne']
  split_ifs with h1 h2
  · rw [pyPow_some pw (by positivity) hmp]; rfl
  · exact absurd h2 hlt.ne'
  · rw [pyPow_some pw (by positivity) hmp]; rfl

theorem sbxValues_isSome {pw : K → K → K} (hp : PowLaws pw) {eps eta x y lb ub rand : K}
    (he : 0 < eps) (heta : 0 ≤ eta) (hx1 : lb ≤ x) (hx2 : x ≤ ub) (hy1 : lb ≤ y) (hy2 : y ≤ ub)
    (hr0 : 0 ≤ rand) (hr1 : rand < 1) :
    (sbxValues pw eps eta x y lb ub rand).isSome := by
  have hmm : min x y ≤ max x y := min_le_max
  have hden : 0 < max x y - min x y + eps := by linarith
  have hlow : lb ≤ min x y := le_min hx1 hy1
  have hup : max x y ≤ ub := max_le hx2 hy2
  have hb : ∀ t, 0 ≤ t → 1 ≤ 1 + 2 * t / (max x y - min x y + eps) := by
    intro t ht
    have : 0 ≤ 2 * t / (max x y - min x y + eps) := by positivity
    linarith
  have key : ∀ t, 0 ≤ t → ∃ p, pyPow pw (1 + 2 * t / (max x y - min x y + eps)) (-(eta + 1)) =
      some p ∧ 0 ≤ p ∧ p ≤ 1 := by
    intro t ht
    have := hb t ht
    exact ⟨_, pyPow_some' pw (by linarith), hp.nonneg _ _ (by linarith),
      hp.le_one _ _ this (by linarith)⟩
  obtain ⟨p, hpe, hp0, hp1⟩ := key (min x y - lb) (by linarith)
  obtain ⟨p', hpe', hp0', hp1'⟩ := key (ub - max x y) (by linarith)
  obtain ⟨q, hq⟩ := Option.isSome_iff_exists.mp (getBetaQ_isSome (pw := pw) (alpha := 2 - p) heta
    (by linarith) (by linarith) hr0 hr1)
  obtain ⟨q', hq'⟩ := Option.isSome_iff_exists.mp (getBetaQ_isSome (pw := pw) (alpha := 2 - p')
    heta (by linarith) (by linarith) hr0 hr1)
  unfold sbxValues
  simp only [Option.bind_eq_bind, Option.pure_def, hpe, hpe', hq, hq', Option.bind_some]
  rfl

end Evogil

namespace Evogil

set_option linter.unusedSectionVars false

variable {K : Type*} [Field K] [LinearOrder K]

theorem write_same (h : Heap K) (a i : ℕ) (v : K) : h.write a i v a = (h a).set i v := by
  simp [Heap.write]

theorem write_ne (h : Heap K) {a p : ℕ} (i : ℕ) (v : K) (hp : p ≠ a) :
    h.write a i v p = h p := by simp [Heap.write, hp]

theorem crossoverLoop_spec (pw : K → K → K) (eps eta : K) (ds : ℕ → SbxDraw K)
    {xs ys nx ny : ℕ} (h1 : xs ≠ nx) (h2 : xs ≠ ny) (h3 : ys ≠ nx) (h4 : ys ≠ ny)
    (h5 : nx ≠ ny) :
    ∀ (dims : List (K × K)) (i : ℕ) (h h' : Heap K),
      crossoverLoop pw eps eta ds xs ys nx ny i dims h = some h' →
      (∀ p, p ≠ nx → p ≠ ny → h' p = h p) ∧
      (∀ r, (h' r).length = (h r).length) ∧
      ∀ r, ∀ j, (h' r)[j]? = (h r)[j]? ∨
        (i ≤ j ∧ (ds j).skip ≤ 1 / 2 ∧ j < (h r).length ∧ ∃ d, dims[j - i]? = some d ∧
          ∃ w, (h' r)[j]? = some (clamp d.1 d.2 w)) := by
  intro dims
  induction dims with
  | nil =>
    intro i h h' he
    simp only [crossoverLoop, Option.some.injEq] at he
    subst he
    exact ⟨fun _ _ _ => rfl, fun _ => rfl, fun _ _ => Or.inl rfl⟩
  | cons d dims ih =>
    obtain ⟨lb, ub⟩ := d
    intro i h h' he
    rw [crossoverLoop] at he
    have lift : ∀ r j, ((h' r)[j]? = (h r)[j]? ∨
        (i + 1 ≤ j ∧ (ds j).skip ≤ 1 / 2 ∧ j < (h r).length ∧ ∃ d, dims[j - (i + 1)]? = some d ∧
          ∃ w, (h' r)[j]? = some (clamp d.1 d.2 w))) → ((h' r)[j]? = (h r)[j]? ∨
        (i ≤ j ∧ (ds j).skip ≤ 1 / 2 ∧ j < (h r).length ∧ ∃ d, ((lb, ub) :: dims)[j - i]? = some d ∧
          ∃ w, (h' r)[j]? = some (clamp d.1 d.2 w))) := by
      rintro r j (hh | ⟨ha, hsk, hb, d, hd, hw⟩)
      · exact Or.inl hh
      · refine Or.inr ⟨by omega, hsk, hb, d, ?_, hw⟩
        rw [show j - i = (j - (i + 1)) + 1 by omega, List.getElem?_cons_succ]; exact hd
    by_cases hsk : 1 / 2 < (ds i).skip
    · rw [if_pos hsk] at he
      obtain ⟨g1, g2, g3⟩ := ih _ _ _ he
      exact ⟨g1, g2, fun r j => lift r j (g3 r j)⟩
    · rw [if_neg hsk] at he
      cases hx : (h xs)[i]? with
      | none => rw [hx] at he; cases he
      | some x =>
        cases hy : (h ys)[i]? with
        | none => rw [hx, hy] at he; cases he
        | some y =>
          rw [hx, hy] at he
          simp only at he
          by_cases habs : |x - y| ≤ eps
          · rw [if_pos habs] at he
            obtain ⟨g1, g2, g3⟩ := ih _ _ _ he
            exact ⟨g1, g2, fun r j => lift r j (g3 r j)⟩
          · rw [if_neg habs] at he
            cases hv : sbxValues pw eps eta x y lb ub (ds i).rand with
            | none => rw [hv] at he; cases he
            | some ab =>
              obtain ⟨a, b⟩ := ab
              rw [hv] at he
              simp only at he
              obtain ⟨⟨wa, hwa⟩, ⟨wb, hwb⟩⟩ := sbxValues_eq_clamp _ _ _ _ _ _ _ _ _ _ hv
              -- the heap after this turn
              have key : ∃ (u v : K) (h2 : Heap K), (∃ w, u = clamp lb ub w) ∧
                  (∃ w, v = clamp lb ub w) ∧
                  crossoverLoop pw eps eta ds xs ys nx ny (i + 1) dims h2 = some h' ∧
                  (∀ p, p ≠ nx → p ≠ ny → h2 p = h p) ∧ h2 nx = (h nx).set i u ∧
                  h2 ny = (h ny).set i v := by
                by_cases hsw : 1 / 2 < (ds i).swap
                · rw [if_pos hsw] at he
                  refine ⟨b, a, _, ⟨wb, hwb⟩, ⟨wa, hwa⟩, he, ?_, ?_, ?_⟩
                  · intro p hp1 hp2
                    simp [write_ne, hp1, hp2]
                  · rw [write_ne _ _ _ h5, write_same, write_ne _ _ _ h5, write_same]
                    simp
                  · rw [write_same, write_ne _ _ _ h5.symm, write_same, write_ne _ _ _ h5.symm]
                    simp
                · rw [if_neg hsw] at he
                  refine ⟨a, b, _, ⟨wa, hwa⟩, ⟨wb, hwb⟩, he, ?_, ?_, ?_⟩
                  · intro p hp1 hp2
                    simp [write_ne, hp1, hp2]
                  · rw [write_ne _ _ _ h5, write_same]
                  · rw [write_same, write_ne _ _ _ h5.symm]
              obtain ⟨u, v, hh, hu, hv', hrec, hf, hnx, hny⟩ := key
              obtain ⟨g1, g2, g3⟩ := ih _ _ _ hrec
              have hlen : ∀ r, (hh r).length = (h r).length := by
                intro r
                by_cases hr1 : r = nx
                · rw [hr1, hnx]; simp
                · by_cases hr2 : r = ny
                  · rw [hr2, hny]; simp
                  · rw [hf r hr1 hr2]
              have hset : ∀ r j, (hh r)[j]? = (h r)[j]? ∨
                  (j = i ∧ j < (h r).length ∧ ∃ w, (hh r)[j]? = some (clamp lb ub w)) := by
                intro r j
                by_cases hr1 : r = nx
                · subst hr1
                  rw [hnx]
                  by_cases hj : j = i
                  · subst hj
                    by_cases hjl : j < (h r).length
                    · right
                      obtain ⟨w, hw⟩ := hu
                      exact ⟨rfl, hjl, w, by rw [List.getElem?_set_self hjl, hw]⟩
                    · left
                      rw [List.set_eq_of_length_le (by omega)]
                  · left; rw [List.getElem?_set_ne (Ne.symm hj)]
                · by_cases hr2 : r = ny
                  · subst hr2
                    rw [hny]
                    by_cases hj : j = i
                    · subst hj
                      by_cases hjl : j < (h r).length
                      · right
                        obtain ⟨w, hw⟩ := hv'
                        exact ⟨rfl, hjl, w, by rw [List.getElem?_set_self hjl, hw]⟩
                      · left
                        rw [List.set_eq_of_length_le (by omega)]
                    · left; rw [List.getElem?_set_ne (Ne.symm hj)]
                  · left; rw [hf r hr1 hr2]
              refine ⟨fun p hp1 hp2 => (g1 p hp1 hp2).trans (hf p hp1 hp2),
                fun r => (g2 r).trans (hlen r), ?_⟩
              intro r j
              rcases g3 r j with hg | ⟨ha, hsk', hb, d, hd, hw⟩
              · rcases hset r j with hs | ⟨rfl, hjl, w, hw⟩
                · exact Or.inl (hg.trans hs)
                · right
                  exact ⟨le_refl _, not_lt.mp hsk, hjl, (lb, ub), by simp, w, hg.trans hw⟩
              · rw [hlen] at hb
                apply lift
                exact Or.inr ⟨ha, hsk', hb, d, hd, hw⟩

theorem crossoverLoop_isSome (pw : K → K → K) (eps eta : K) (ds : ℕ → SbxDraw K)
    {xs ys nx ny : ℕ} (h1 : xs ≠ nx) (h2 : xs ≠ ny) (h3 : ys ≠ nx) (h4 : ys ≠ ny) :
    ∀ (dims : List (K × K)) (i : ℕ) (h : Heap K),
      (∀ j d, dims[j]? = some d → ∃ x y, (h xs)[i + j]? = some x ∧ (h ys)[i + j]? = some y ∧
        (sbxValues pw eps eta x y d.1 d.2 (ds (i + j)).rand).isSome) →
      (crossoverLoop pw eps eta ds xs ys nx ny i dims h).isSome := by
  intro dims
  induction dims with
  | nil => intro i h _; rfl
  | cons d dims ih =>
    obtain ⟨lb, ub⟩ := d
    intro i h hyp
    have hrec : ∀ hh : Heap K, hh xs = h xs → hh ys = h ys →
        (crossoverLoop pw eps eta ds xs ys nx ny (i + 1) dims hh).isSome := by
      intro hh e1 e2
      apply ih
      intro j d hd
      have := hyp (j + 1) d (by simpa using hd)
      rw [e1, e2]
      rwa [show i + (j + 1) = i + 1 + j by omega] at this
    rw [crossoverLoop]
    by_cases hsk : 1 / 2 < (ds i).skip
    · rw [if_pos hsk]; exact hrec _ rfl rfl
    · rw [if_neg hsk]
      obtain ⟨x, y, hx, hy, hv⟩ := hyp 0 (lb, ub) (by simp)
      rw [Nat.add_zero] at hx hy hv
      obtain ⟨⟨a, b⟩, hv⟩ := Option.isSome_iff_exists.mp hv
      rw [hx, hy]; simp only
      rw [hv]; simp only
      split_ifs
      · exact hrec _ rfl rfl
      · exact hrec _ (by simp [write_ne, h1, h2]) (by simp [write_ne, h3, h4])
      · exact hrec _ (by simp [write_ne, h1, h2]) (by simp [write_ne, h3, h4])

end Evogil
