import Verif.Props.Omopso
import Mathlib.Algebra.Order.Archimedean.Basic
import Mathlib.Tactic.Positivity

/-! # C28, C64: the reported archive of OMOPSO, with a tolerance -/

set_option linter.unusedSectionVars false

namespace Evogil.Omopso

open Spec

variable {ι K : Type*} [Field K] [LinearOrder K]

/-- `x` dominates `y` within the tolerance: `x` divided by `1 + eta` dominates `y`. -/
def EtaDom (eta : K) (x y : List K) : Prop := LDom (x.map (· / (1 + eta))) y

theorem loop_eta (eta : K) : ∀ (x y : List K) (b : Bool),
    omopsoDominatesLoop eta x y b = omopsoDominatesLoop 0 (x.map (· / (1 + eta))) y b := by
  intro x
  induction x with
  | nil => intro y b; simp [omopsoDominatesLoop]
  | cons s ss ih =>
    intro y b
    cases y with
    | nil => simp [omopsoDominatesLoop]
    | cons p ps =>
      simp only [List.map_cons, omopsoDominatesLoop, add_zero, div_one]
      rw [ih, ih]

theorem domEta_iff {obj : ι → List K} (h : SameLength obj) (eta : K) (x y : ι) :
    domEta obj eta x y = true ↔ EtaDom eta (obj x) (obj y) := by
  have hl : ((obj x).map (· / (1 + eta))).length = (obj y).length := by rw [List.length_map, h x y]
  have e : omopsoDominates eta (obj x) (obj y) = some (dominates ((obj x).map (· / (1 + eta))) (obj y)) := by
    rw [← C03_omopso _ _ hl.le, omopsoDominates, omopsoDominates, loop_eta]
  rw [domEta, e, EtaDom, ← dominates_iff_LDom hl]
  rfl

/-! ## C28 with a tolerance -/

section generic

variable {dom eqv : ι → ι → Bool}

/-- Nobody who stands directly behind a member that has to leave is comparable with the newcomer. -/
def NoSkip (dom eqv : ι → ι → Bool) (p : ι) : List ι → Prop
  | a :: b :: rest =>
    (dom p a = true → dom p b = false ∧ dom b p = false ∧ eqv b p = false) ∧ NoSkip dom eqv p (b :: rest)
  | _ => True

theorem NoSkip.tail {p a : ι} {l : List ι} (h : NoSkip dom eqv p (a :: l)) : NoSkip dom eqv p l := by
  cases l with
  | nil => trivial
  | cons b l => exact h.2

/-- A newcomer is refused exactly if some member dominates or equals it, and then only members which it dominates
are gone; otherwise exactly these are gone. -/
theorem addLoop_noSkip (p : ι) : ∀ (n : ℕ) (pre post : List ι), post.length = n → NoSkip dom eqv p post →
    ((addLoop dom eqv p pre post).1 = false ↔
      ∃ x ∈ post, dom x p = true ∨ (eqv x p = true ∧ dom p x = false)) ∧
    ((addLoop dom eqv p pre post).1 = false → ∃ kept, (addLoop dom eqv p pre post).2 = pre ++ kept ∧ kept.Sublist post) ∧
    ((addLoop dom eqv p pre post).1 = true →
      (addLoop dom eqv p pre post).2 = pre ++ post.filter (fun x => !dom p x) ++ [p]) := by
  intro n
  induction n using Nat.strong_induction_on with
  | _ n ih =>
    intro pre post hn hadj
    match post, hn with
    | [], _ => simp [addLoop]
    | [l], _ =>
      clear ih
      simp only [addLoop]
      by_cases h1 : dom l p = true
      · simp [h1]
      · by_cases h2 : dom p l = true
        · simp [h1, h2]
        · by_cases h3 : eqv l p = true
          · simp [h1, h2, h3]
          · simp [h1, h2, h3]
    | l :: r :: rest, hn =>
      simp only [addLoop]
      by_cases h1 : dom l p = true
      · rw [if_pos h1]
        exact ⟨⟨fun _ => ⟨l, by simp, Or.inl h1⟩, fun _ => rfl⟩, fun _ => ⟨_, rfl, List.Sublist.refl _⟩, by simp⟩
      · rw [if_neg h1]
        by_cases h2 : dom p l = true
        · rw [if_pos h2]
          obtain ⟨r1, r2, r3⟩ := hadj.1 h2
          obtain ⟨g1, g2, g3⟩ := ih rest.length (by simp at hn; omega) (pre ++ [r]) rest rfl hadj.tail.tail
          refine ⟨?_, ?_, ?_⟩
          · rw [g1]
            simp [h1, h2, r2, r3]
          · intro e
            obtain ⟨kept, k1, k2⟩ := g2 e
            exact ⟨r :: kept, by simp [k1], ((k2.cons_cons r).cons l)⟩
          · intro e
            rw [g3 e]
            simp [h2, r1]
        · rw [if_neg h2]
          by_cases h3 : eqv l p = true
          · rw [if_pos h3]
            exact ⟨⟨fun _ => ⟨l, by simp, Or.inr ⟨h3, by simpa using h2⟩⟩, fun _ => rfl⟩,
              fun _ => ⟨_, rfl, List.Sublist.refl _⟩, by simp⟩
          · rw [if_neg h3]
            obtain ⟨g1, g2, g3⟩ := ih (r :: rest).length (by simp at hn; simp; omega) (pre ++ [l]) (r :: rest) rfl
              hadj.tail
            refine ⟨?_, ?_, ?_⟩
            · rw [g1]
              simp [h1, h3]
            · intro e
              obtain ⟨kept, k1, k2⟩ := g2 e
              exact ⟨l :: kept, by simp [k1], k2.cons_cons l⟩
            · intro e
              rw [g3 e]
              simp [h2]

end generic

/-- Members do not dominate each other within the tolerance and have different objective vectors. -/
def EtaApart (eta : K) (obj : ι → List K) (l : List ι) : Prop :=
  l.Pairwise fun x y => ¬ EtaDom eta (obj x) (obj y) ∧ ¬ EtaDom eta (obj y) (obj x) ∧ obj x ≠ obj y

/-- C28, partial, for every tolerance. If nobody directly behind a member that has to leave is comparable with the
newcomer, then the newcomer is refused exactly if a member dominates it within the tolerance (or equals it and is not
dominated by it within the tolerance), and the archive stays free of members that dominate each other within the
tolerance.

Missing: the other archives, as the loop passes over the member behind a removed one (`C28_violated`). -/
theorem C28_eta_partial {obj : ι → List K} (hobj : SameLength obj) (eta : K) (archive : List ι) (p : ι)
    (hnd : EtaApart eta obj archive) (hadj : NoSkip (domEta obj eta) (eqvObj obj) p archive) :
    ((archiveAdd (domEta obj eta) (eqvObj obj) archive p).1 = false ↔
        ∃ x ∈ archive, EtaDom eta (obj x) (obj p) ∨ (obj x = obj p ∧ ¬ EtaDom eta (obj p) (obj x))) ∧
      EtaApart eta obj (archiveAdd (domEta obj eta) (eqvObj obj) archive p).2 ∧
      ((archiveAdd (domEta obj eta) (eqvObj obj) archive p).1 = true →
        ∀ x ∈ archive, x ∈ (archiveAdd (domEta obj eta) (eqvObj obj) archive p).2 ∨ EtaDom eta (obj p) (obj x)) := by
  obtain ⟨g1, g2, g3⟩ := addLoop_noSkip (dom := domEta obj eta) (eqv := eqvObj obj) p archive.length [] archive rfl hadj
  have hf : ∀ x y, domEta obj eta x y = false ↔ ¬ EtaDom eta (obj x) (obj y) := fun x y => by
    rw [← domEta_iff hobj, Bool.not_eq_true]
  unfold archiveAdd
  refine ⟨?_, ?_, ?_⟩
  · rw [g1]
    simp only [domEta_iff hobj, eqvObj_iff hobj, hf]
  · by_cases h : (addLoop (domEta obj eta) (eqvObj obj) p [] archive).1 = false
    · obtain ⟨kept, k1, k2⟩ := g2 h
      rw [k1]
      exact List.Pairwise.sublist k2 hnd
    · have ht : (addLoop (domEta obj eta) (eqvObj obj) p [] archive).1 = true := by simpa using h
      rw [g3 ht, List.nil_append]
      unfold EtaApart
      rw [List.pairwise_append]
      refine ⟨List.Pairwise.sublist List.filter_sublist hnd, by simp, ?_⟩
      intro x hx y hy
      rw [List.mem_singleton] at hy
      subst hy
      obtain ⟨hx1, hx2⟩ := List.mem_filter.1 hx
      have hx3 : ¬ EtaDom eta (obj y) (obj x) := (hf y x).1 (by simpa using hx2)
      have hno := fun hc => h (g1.2 hc)
      refine ⟨fun hc => hno ⟨x, hx1, Or.inl ((domEta_iff hobj eta x y).2 hc)⟩, hx3, fun hc => ?_⟩
      exact hno ⟨x, hx1, Or.inr ⟨(eqvObj_iff hobj x y).2 hc, (hf y x).2 hx3⟩⟩
  · intro ht x hx
    rw [g3 ht]
    by_cases hd : EtaDom eta (obj p) (obj x)
    · exact Or.inr hd
    · refine Or.inl (List.mem_append_left _ (List.mem_filter.2 ⟨hx, ?_⟩))
      rw [(hf p x).2 hd]
      rfl

/-- A newcomer within the tolerance is refused, a better one replaces the member in the middle. -/
example : archiveAdd (domEta id (75 / 10000 : ℚ)) (eqvObj id) [[100, 300], [200, 200], [300, 100]] [199, 201] =
      (false, [[100, 300], [200, 200], [300, 100]]) ∧
    archiveAdd (domEta id (75 / 10000 : ℚ)) (eqvObj id) [[100, 300], [200, 200], [300, 100]] [190, 201] =
      (true, [[100, 300], [300, 100], [190, 201]]) := by decide +kernel

/-- A newcomer may remove a member and then be refused by the next one: nothing comes in its place. -/
example : archiveAdd (domEta id (75 / 10000 : ℚ)) (eqvObj id) [[40, 1000], [5000, 1], [20, 1010]] [20, 1007] =
    (false, [[5000, 1], [20, 1010]]) := by decide +kernel

/-! ## C64 with a tolerance -/

variable [IsStrictOrderedRing K]

/-- `x` is at most `c` times `y` in every objective. -/
def Within (c : K) (x y : List K) : Prop := List.Forall₂ (fun a b => a ≤ c * b) x y

theorem EtaDom.within {eta : K} (he : 0 ≤ eta) {x y : List K} (h : EtaDom eta x y) : Within (1 + eta) x y := by
  obtain ⟨h1, h2, -⟩ := h
  rw [List.length_map] at h1
  refine List.forall₂_iff_get.2 ⟨h1, fun i hx hy => ?_⟩
  have := h2 i (by rw [List.length_map]; exact hx) hy
  rw [List.getElem_map, div_le_iff₀ (by linarith)] at this
  rw [List.get_eq_getElem, List.get_eq_getElem, mul_comm]
  exact this

theorem Within.trans {b c : K} (hb : 0 ≤ b) {x y z : List K} (h : Within b x y) (h' : Within c y z) :
    Within (b * c) x z := by
  induction h generalizing z with
  | nil => cases h'; exact .nil
  | cons hxy _ ih =>
    cases h' with
    | cons hyz hr =>
      refine .cons ?_ (ih hr)
      rw [mul_assoc]
      exact hxy.trans (mul_le_mul_of_nonneg_left hyz hb)

theorem Within.refl_of_one_le {c : K} (hc : 1 ≤ c) {x : List K} (hx : ∀ a ∈ x, 0 ≤ a) : Within c x x := by
  induction x with
  | nil => exact .nil
  | cons a x ih =>
    exact .cons (le_mul_of_one_le_left (hx a (by simp)) hc) (ih fun b hb => hx b (by simp [hb]))

/-- One insertion: the newcomer is covered within the tolerance, and what was covered before is still covered up to
two more tolerances. -/
theorem add_within {eta : K} (he : 0 ≤ eta) {obj : ι → List K} (hobj : SameLength obj)
    (hpos : ∀ x, ∀ a ∈ obj x, 0 ≤ a) (archive : List ι) (p : ι) :
    (∃ x ∈ (archiveAdd (domEta obj eta) (eqvObj obj) archive p).2, Within (1 + eta) (obj x) (obj p)) ∧
    ∀ (c : K) (z : List K), 0 ≤ c → (∃ x ∈ archive, Within c (obj x) z) →
      ∃ x ∈ (archiveAdd (domEta obj eta) (eqvObj obj) archive p).2, Within ((1 + eta) ^ 2 * c) (obj x) z := by
  obtain ⟨-, h2, -, h4, h5⟩ := addLoop_mem (dom := domEta obj eta) (eqv := eqvObj obj) p archive.length [] archive rfl
  have h1e : 1 ≤ 1 + eta := by linarith
  have hp : ∃ x ∈ (archiveAdd (domEta obj eta) (eqvObj obj) archive p).2, Within (1 + eta) (obj x) (obj p) := by
    by_cases h : (archiveAdd (domEta obj eta) (eqvObj obj) archive p).1 = true
    · exact ⟨p, h2 h, Within.refl_of_one_le h1e (hpos p)⟩
    · obtain ⟨x, hx, -, hx2⟩ := h5 (by simpa [archiveAdd] using h)
      refine ⟨x, hx, ?_⟩
      rcases hx2 with hx2 | hx2
      · exact ((domEta_iff hobj eta x p).1 hx2).within he
      · rw [(eqvObj_iff hobj x p).1 hx2]
        exact Within.refl_of_one_le h1e (hpos p)
  refine ⟨hp, ?_⟩
  rintro c z hc ⟨x, hx, hz⟩
  have h2e : 1 ≤ (1 + eta) ^ 2 := one_le_pow₀ h1e
  by_cases hin : x ∈ (archiveAdd (domEta obj eta) (eqvObj obj) archive p).2
  · exact ⟨x, hin, (Within.refl_of_one_le h2e (hpos x)).trans (by linarith) hz⟩
  · obtain ⟨y, hy, hy2⟩ := hp
    have hpx := ((domEta_iff hobj eta p x).1 (h4 x hx hin)).within he
    refine ⟨y, hy, ?_⟩
    have := (hy2.trans (by linarith) hpx).trans (by positivity) hz
    rwa [show (1 + eta) * (1 + eta) * c = (1 + eta) ^ 2 * c by ring] at this

/-- C64, partial, for every tolerance and objectives that are not negative: for every individual offered, some member
is at most (1 + eta)^(2n + 1) times as large in every objective, where n is the number of later offers; and every member
was offered. Missing, and false (`C64_eta_unbounded`): that the factor is 1 + eta however many offers follow. -/
theorem C64_eta_partial {eta : K} (he : 0 ≤ eta) {obj : ι → List K} (hobj : SameLength obj)
    (hpos : ∀ x, ∀ a ∈ obj x, 0 ≤ a) (pre post : List ι) (p : ι) :
    (∃ x ∈ (pre ++ p :: post).foldl (fun a q => (archiveAdd (domEta obj eta) (eqvObj obj) a q).2) [],
      ∀ (i : ℕ) (a b : K), (obj x)[i]? = some a → (obj p)[i]? = some b → a ≤ (1 + eta) ^ (2 * post.length + 1) * b) ∧
    ∀ x ∈ (pre ++ p :: post).foldl (fun a q => (archiveAdd (domEta obj eta) (eqvObj obj) a q).2) [],
      x ∈ pre ++ p :: post := by
  constructor
  · have key : ∃ x ∈ (pre ++ p :: post).foldl (fun a q => (archiveAdd (domEta obj eta) (eqvObj obj) a q).2) [],
        Within ((1 + eta) ^ (2 * post.length + 1)) (obj x) (obj p) := by
      induction post using List.reverseRecOn with
      | nil =>
        rw [List.foldl_append, List.foldl_cons, List.foldl_nil]
        simpa using (add_within he hobj hpos _ p).1
      | append_singleton post q ih =>
        rw [← List.cons_append, ← List.append_assoc, List.foldl_append, List.foldl_cons, List.foldl_nil]
        obtain ⟨x, hx, hx2⟩ := (add_within he hobj hpos _ q).2 _ _ (by positivity) ih
        refine ⟨x, hx, ?_⟩
        rw [List.length_append, List.length_singleton]
        have e : (1 + eta) ^ 2 * (1 + eta) ^ (2 * post.length + 1) = (1 + eta) ^ (2 * (post.length + 1) + 1) := by ring
        rwa [e] at hx2
    obtain ⟨x, hx, hw⟩ := key
    refine ⟨x, hx, fun i a b ha hb => ?_⟩
    obtain ⟨hi, rfl⟩ := List.getElem?_eq_some_iff.1 ha
    obtain ⟨hj, rfl⟩ := List.getElem?_eq_some_iff.1 hb
    exact (List.forall₂_iff_get.1 hw).2 i hi hj
  · generalize pre ++ p :: post = ps
    induction ps using List.reverseRecOn with
    | nil => simp
    | append_singleton ps q ih =>
      rw [List.foldl_append, List.foldl_cons, List.foldl_nil]
      intro x hx
      rcases (addLoop_mem (dom := domEta obj eta) (eqv := eqvObj obj) q _ [] _ rfl).1 x hx with h | h | h
      · simp [h]
      · simp at h
      · exact List.mem_append_left _ (ih x h)

/-- The `k`-th offer: one more tolerance worse in the first objective, two better in the second. -/
def drift (eta : K) (k : ℕ) : List K := [(1 + eta) ^ k, (1 / (1 + eta) ^ 2) ^ k]

theorem drift_archive {eta : K} (he : 0 < eta) (k : ℕ) :
    ((List.range (k + 1)).map (drift eta)).foldl (fun a q => (archiveAdd (domEta id eta) (eqvObj id) a q).2) [] =
      [drift eta k] := by
  have h1 : 0 < 1 + eta := by linarith
  induction k with
  | zero => simp [archiveAdd, addLoop]
  | succ k ih =>
    rw [List.range_succ, List.map_append, List.foldl_append, ih]
    have hp : 0 < (1 / (1 + eta) ^ 2) ^ k := by positivity
    have hsm : (1 / (1 + eta) ^ 2) ^ (k + 1) * (1 + eta) < (1 / (1 + eta) ^ 2) ^ k := by
      have e : (1 / (1 + eta) ^ 2) ^ (k + 1) * (1 + eta) = (1 / (1 + eta) ^ 2) ^ k * (1 / (1 + eta)) := by
        rw [pow_succ]; field_simp
      rw [e]
      refine mul_lt_of_lt_one_right hp ?_
      rw [div_lt_one h1]
      linarith
    have hgrow : (1 + eta) ^ k ≤ (1 + eta) ^ (k + 1) := pow_le_pow_right₀ (by linarith) (by omega)
    have d1 : domEta id eta (drift eta k) (drift eta (k + 1)) = false := by
      unfold domEta omopsoDominates drift
      simp only [id, omopsoDominatesLoop]
      have a1 : ¬ (1 + eta) ^ (k + 1) < (1 + eta) ^ k / (1 + eta) := by
        rw [not_lt]
        exact (div_le_self (by positivity) (by linarith)).trans hgrow
      have a2 : (1 / (1 + eta) ^ 2) ^ (k + 1) < (1 / (1 + eta) ^ 2) ^ k / (1 + eta) := (lt_div_iff₀ h1).2 hsm
      rw [if_neg a1]
      split_ifs <;> rfl
    have d2 : domEta id eta (drift eta (k + 1)) (drift eta k) = true := by
      unfold domEta omopsoDominates drift
      simp only [id, omopsoDominatesLoop]
      have b0 : (1 + eta) ^ (k + 1) / (1 + eta) = (1 + eta) ^ k := by
        rw [pow_succ]; field_simp
      have b1 : (1 / (1 + eta) ^ 2) ^ (k + 1) / (1 + eta) < (1 / (1 + eta) ^ 2) ^ k := by
        refine lt_of_le_of_lt ?_ hsm
        have : (0 : K) ≤ (1 / (1 + eta) ^ 2) ^ (k + 1) := by positivity
        exact (div_le_self this (by linarith)).trans (le_mul_of_one_le_right this (by linarith))
      rw [b0, if_neg (lt_irrefl _), if_neg (lt_irrefl _), if_neg (not_lt.2 b1.le), if_pos b1]
      rfl
    simp [archiveAdd, addLoop, d1, d2]

/-- C64 for the reported archive, however large a loss is allowed: for every tolerance above 0 and every bound `M` there
are offers, (1, 1) the first, after which every member is more than `M` in the first objective. -/
theorem C64_eta_unbounded [Archimedean K] {eta : K} (he : 0 < eta) (M : K) :
    ∃ ps : List (List K), [1, 1] ∈ ps ∧ (∀ x ∈ ps, x.length = 2 ∧ ∀ a ∈ x, 0 < a) ∧
      (∃ x, x ∈ ps.foldl (fun a q => (archiveAdd (domEta id eta) (eqvObj id) a q).2) []) ∧
      ∀ x ∈ ps.foldl (fun a q => (archiveAdd (domEta id eta) (eqvObj id) a q).2) [], ∀ a, x[0]? = some a → M < a := by
  obtain ⟨k, hk⟩ := pow_unbounded_of_one_lt M (show 1 < 1 + eta by linarith)
  have h1 : 0 < 1 + eta := by linarith
  refine ⟨(List.range (k + 1)).map (drift eta), List.mem_map.2 ⟨0, by simp, by simp [drift]⟩, ?_, ?_, ?_⟩
  · intro x hx
    obtain ⟨j, -, rfl⟩ := List.mem_map.1 hx
    refine ⟨rfl, fun a ha => ?_⟩
    simp only [drift, List.mem_cons, List.not_mem_nil, or_false] at ha
    rcases ha with rfl | rfl <;> positivity
  · rw [drift_archive he]
    exact ⟨_, List.mem_singleton_self _⟩
  · rw [drift_archive he]
    intro x hx a ha
    rw [List.mem_singleton] at hx
    subst hx
    simp only [drift, List.getElem?_cons_zero, Option.some.injEq] at ha
    exact ha ▸ hk

/-- With the tolerance of the code, 0.0075, the archive is worse by two per cent in the first objective after three
offers. -/
example : ([[100, 1000], [(201 / 2 : ℚ), 985], [101, 970], [(203 / 2), 955]].foldl
    (fun a q => (archiveAdd (domEta id (75 / 10000)) (eqvObj id) a q).2) []) = [[203 / 2, 955]] := by decide +kernel

end Evogil.Omopso
