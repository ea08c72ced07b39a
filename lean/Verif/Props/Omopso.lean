import Verif.Model.Omopso
import Verif.Spec.Box
import Verif.Props.Dominance
import Mathlib.Tactic.Linarith
import Mathlib.Tactic.NormNum
import Mathlib.Algebra.Order.Ring.Rat

/-! # C28, C29, C63-C65: OMOPSO archives, particles, personal bests -/

namespace Evogil.Omopso

open Spec

/-! ## Archive insertion -/

section generic
variable {ι : Type*} {dom eqv : ι → ι → Bool}

theorem addLoop_length (p : ι) : ∀ (n : ℕ) (pre post : List ι), post.length = n →
    (addLoop dom eqv p pre post).2.length ≤ pre.length + post.length + 1 ∧
      ((addLoop dom eqv p pre post).1 = false →
        (addLoop dom eqv p pre post).2.length ≤ pre.length + post.length) := by
  intro n
  induction n using Nat.strong_induction_on with
  | _ n ih =>
    intro pre post hn
    match post, hn with
    | [], _ => simp [addLoop]
    | [l], _ =>
      simp only [addLoop]
      split_ifs <;> simp
    | l :: r :: rest, hn =>
      simp only [addLoop]
      split_ifs
      · simp
      · have h := ih rest.length (by simp at hn; omega) (pre ++ [r]) rest rfl
        simp only [List.length_append, List.length_cons, List.length_nil] at h ⊢
        exact ⟨by omega, fun e => by have := h.2 e; omega⟩
      · simp
      · have h := ih (r :: rest).length (by simp at hn; simp; omega) (pre ++ [l]) (r :: rest) rfl
        simp only [List.length_append, List.length_cons, List.length_nil] at h ⊢
        exact ⟨by omega, fun e => by have := h.2 e; omega⟩

/-- The archive after `add` holds only earlier members and the newcomer; an accepted newcomer
is a member. -/
theorem addLoop_mem (p : ι) : ∀ (n : ℕ) (pre post : List ι), post.length = n →
    (∀ x ∈ (addLoop dom eqv p pre post).2, x = p ∨ x ∈ pre ∨ x ∈ post) ∧
      ((addLoop dom eqv p pre post).1 = true → p ∈ (addLoop dom eqv p pre post).2) ∧
      (∀ x ∈ pre, x ∈ (addLoop dom eqv p pre post).2) ∧
      (∀ x ∈ post, x ∉ (addLoop dom eqv p pre post).2 → dom p x = true) ∧
      ((addLoop dom eqv p pre post).1 = false →
        ∃ x ∈ (addLoop dom eqv p pre post).2, x ∈ post ∧ (dom x p = true ∨ eqv x p = true)) := by
  intro n
  induction n using Nat.strong_induction_on with
  | _ n ih =>
    intro pre post hn
    match post, hn with
    | [], _ => simp [addLoop]; tauto
    | [l], _ =>
      clear ih
      simp only [addLoop]
      split_ifs with h1 h2 h3
      all_goals simp_all
      all_goals tauto
    | l :: r :: rest, hn =>
      simp only [addLoop]
      split_ifs with h1 h2 h3
      · clear ih
        refine ⟨fun x hx => ?_, by simp, fun x hx => by simp [hx], fun x hx hn => ?_,
          fun _ => ⟨l, by simp, by simp, Or.inl h1⟩⟩
        · rcases List.mem_append.1 hx with h | h <;> tauto
        · exact absurd (List.mem_append_right _ hx) hn
      · have h := ih rest.length (by simp at hn; omega) (pre ++ [r]) rest rfl
        obtain ⟨g1, g2, g3, g4, g5⟩ := h
        refine ⟨?_, g2, ?_, ?_, ?_⟩
        · intro x hx
          have := g1 x hx
          simp at this ⊢
          tauto
        · intro x hx
          exact g3 x (by simp [hx])
        · intro x hx hne
          rcases List.mem_cons.1 hx with rfl | hx
          · exact h2
          · rcases List.mem_cons.1 hx with rfl | hx
            · exact absurd (g3 x (by simp)) hne
            · exact g4 x hx hne
        · intro e
          obtain ⟨x, hx, hx2, hx3⟩ := g5 e
          exact ⟨x, hx, by simp [hx2], hx3⟩
      · clear ih
        refine ⟨fun x hx => ?_, by simp, fun x hx => by simp [hx], fun x hx hn => ?_,
          fun _ => ⟨l, by simp, by simp, Or.inr h3⟩⟩
        · rcases List.mem_append.1 hx with h | h <;> tauto
        · exact absurd (List.mem_append_right _ hx) hn
      · have h := ih (r :: rest).length (by simp at hn; simp; omega) (pre ++ [l]) (r :: rest) rfl
        obtain ⟨g1, g2, g3, g4, g5⟩ := h
        refine ⟨?_, g2, ?_, ?_, ?_⟩
        · intro x hx
          have := g1 x hx
          simp at this ⊢
          tauto
        · intro x hx
          exact g3 x (by simp [hx])
        · intro x hx hne
          rcases List.mem_cons.1 hx with rfl | hx
          · exact absurd (g3 x (by simp)) hne
          · exact g4 x hx hne
        · intro e
          obtain ⟨x, hx, hx2, hx3⟩ := g5 e
          exact ⟨x, hx, List.mem_cons_of_mem _ hx2, hx3⟩

/-- No two neighbouring members are both dominated by `p`. -/
def NoAdjacent (dom : ι → ι → Bool) (p : ι) : List ι → Prop
  | a :: b :: rest => ¬ (dom p a = true ∧ dom p b = true) ∧ NoAdjacent dom p (b :: rest)
  | _ => True

theorem NoAdjacent.tail {p a : ι} {l : List ι} (h : NoAdjacent dom p (a :: l)) :
    NoAdjacent dom p l := by
  cases l with
  | nil => trivial
  | cons b l => exact h.2

theorem addLoop_accept (p : ι) : ∀ (n : ℕ) (pre post : List ι), post.length = n →
    NoAdjacent dom p post → (∀ x ∈ post, dom x p = false ∧ eqv x p = false) →
    addLoop dom eqv p pre post = (true, pre ++ post.filter (fun x => !dom p x) ++ [p]) := by
  intro n
  induction n using Nat.strong_induction_on with
  | _ n ih =>
    intro pre post hn hadj hno
    match post, hn with
    | [], _ => simp [addLoop]
    | [l], _ =>
      have := hno l (by simp)
      simp only [addLoop, this.1, this.2]
      by_cases h : dom p l = true
      · simp [h]
      · simp [h]
    | l :: r :: rest, hn =>
      have h1 := hno l (by simp)
      have h2 := hno r (by simp)
      simp only [addLoop, h1.1, h1.2]
      by_cases h : dom p l = true
      · have hr : dom p r = false := by
          by_contra hc
          exact hadj.1 ⟨h, by simpa using hc⟩
        have := ih rest.length (by simp at hn; omega) (pre ++ [r]) rest rfl hadj.tail.tail
          (fun x hx => hno x (by simp [hx]))
        simp [h, this, hr]
      · have := ih (r :: rest).length (by simp at hn; simp; omega) (pre ++ [l]) (r :: rest) rfl
          hadj.tail (fun x hx => hno x (by simp at hx ⊢; tauto))
        simp only [h]
        simp only [Bool.false_eq_true, if_false]
        rw [this]
        simp [h]

theorem addLoop_refuse (p : ι) : ∀ (n : ℕ) (pre post : List ι), post.length = n →
    (∀ x ∈ post, dom p x = false) → (∃ x ∈ post, dom x p = true ∨ eqv x p = true) →
    addLoop dom eqv p pre post = (false, pre ++ post) := by
  intro n
  induction n using Nat.strong_induction_on with
  | _ n ih =>
    intro pre post hn hd hex
    match post, hn with
    | [], _ => simp at hex
    | [l], _ =>
      have h0 := hd l (by simp)
      simp only [addLoop, h0]
      simp only [List.mem_singleton, exists_eq_left] at hex
      rcases hex with h | h
      · simp [h]
      · simp [h]
    | l :: r :: rest, hn =>
      have h0 := hd l (by simp)
      simp only [addLoop, h0]
      by_cases h1 : dom l p = true
      · simp [h1]
      · by_cases h2 : eqv l p = true
        · simp [h2]
        · have := ih (r :: rest).length (by simp at hn; simp; omega) (pre ++ [l]) (r :: rest) rfl
            (fun x hx => hd x (by simp at hx ⊢; tauto))
            (by
              obtain ⟨x, hx, hx2⟩ := hex
              rcases List.mem_cons.1 hx with rfl | hx
              · tauto
              · exact ⟨x, hx, hx2⟩)
          simp [h1, h2, this]

end generic

/-! ## C28 -/

section C28
variable {ι K : Type*} [Field K] [LinearOrder K]

/-- Objective vectors all have the same length. -/
def SameLength (obj : ι → List K) : Prop := ∀ x y, (obj x).length = (obj y).length

theorem domEta_zero {obj : ι → List K} (h : SameLength obj) (x y : ι) :
    domEta obj 0 x y = true ↔ LDom (obj x) (obj y) := by
  rw [domEta, C03_omopso _ _ (h x y).le, ← dominates_iff_LDom (h x y)]
  rfl

omit [Field K] in
theorem eqvObj_iff {obj : ι → List K} (h : SameLength obj) (x y : ι) :
    eqvObj obj x y = true ↔ obj x = obj y := by
  rw [eqvObj, C03_equal_obj _ _ (h x y)]
  simp

/-- Members are mutually non-dominated and have different objective vectors. -/
def MutuallyNonDominated (obj : ι → List K) (l : List ι) : Prop :=
  l.Pairwise fun x y => ¬ LDom (obj x) (obj y) ∧ ¬ LDom (obj y) (obj x) ∧ obj x ≠ obj y

omit [Field K] in
theorem MutuallyNonDominated.not_dom {obj : ι → List K} {l : List ι}
    (h : MutuallyNonDominated obj l) {x y : ι} (hx : x ∈ l) (hy : y ∈ l) :
    ¬ LDom (obj x) (obj y) := by
  induction l with
  | nil => simp at hx
  | cons a l ih =>
    unfold MutuallyNonDominated at h
    rw [List.pairwise_cons] at h
    rcases List.mem_cons.1 hx with rfl | hx'
    · rcases List.mem_cons.1 hy with rfl | hy'
      · exact LDom_irrefl _
      · exact (h.1 y hy').1
    · rcases List.mem_cons.1 hy with rfl | hy'
      · exact (h.1 x hx').2.1
      · exact ih h.2 hx' hy'

/-- C28 is violated: inserting (2, 1), (1, 2), (0, 0) leaves the dominated (1, 2) in the archive. -/
theorem C28_violated :
    ∃ (l : List (List ℚ)) (p : List ℚ),
      (∀ x ∈ p :: l, x.length = 2) ∧
      l = ([[2, 1], [1, 2]].foldl (fun a x => (archiveAdd (domEta id 0) (eqvObj id) a x).2) []) ∧
      l.Pairwise (fun x y => ¬ LDom x y ∧ ¬ LDom y x ∧ x ≠ y) ∧
      (archiveAdd (domEta id 0) (eqvObj id) l p) = (true, [[1, 2], [0, 0]]) ∧
      LDom ([0, 0] : List ℚ) [1, 2] := by
  refine ⟨[[2, 1], [1, 2]], [0, 0], by simp, by decide +kernel, ?_, by decide +kernel, ?_⟩
  · simp only [List.pairwise_cons, List.mem_cons, List.not_mem_nil, or_false, forall_eq]
    refine ⟨⟨?_, ?_, by decide +kernel⟩, by simp⟩
    · rw [← dominates_iff_LDom (by simp)]; decide +kernel
    · rw [← dominates_iff_LDom (by simp)]; decide +kernel
  · rw [← dominates_iff_LDom (by simp)]; decide +kernel

/-- C28, partial. For a mutually non-dominated archive in which no two neighbouring members are both
dominated by the newcomer: the newcomer is refused, with the archive untouched, exactly if a member
dominates or equals it; otherwise the dominated members leave and it is appended, and the archive is
again mutually non-dominated.

Missing: archives with two neighbouring members dominated by the newcomer (`C28_violated`), and a
positive tolerance `eta`. -/
theorem C28_add_partial {obj : ι → List K} (hobj : SameLength obj) (archive : List ι) (p : ι)
    (hnd : MutuallyNonDominated obj archive)
    (hadj : NoAdjacent (domEta obj 0) p archive) :
    ((archiveAdd (domEta obj 0) (eqvObj obj) archive p).1 = false ↔
        ∃ x ∈ archive, LDom (obj x) (obj p) ∨ obj x = obj p) ∧
      ((∃ x ∈ archive, LDom (obj x) (obj p) ∨ obj x = obj p) →
        (archiveAdd (domEta obj 0) (eqvObj obj) archive p).2 = archive) ∧
      (¬ (∃ x ∈ archive, LDom (obj x) (obj p) ∨ obj x = obj p) →
        ∃ kept, (archiveAdd (domEta obj 0) (eqvObj obj) archive p).2 = kept ++ [p] ∧
          kept.Sublist archive ∧ ∀ x ∈ archive, x ∈ kept ↔ ¬ LDom (obj p) (obj x)) ∧
      MutuallyNonDominated obj (archiveAdd (domEta obj 0) (eqvObj obj) archive p).2 := by
  by_cases hex : ∃ x ∈ archive, LDom (obj x) (obj p) ∨ obj x = obj p
  · have hr := addLoop_refuse (dom := domEta obj 0) (eqv := eqvObj obj) p archive.length [] archive
      rfl
      (by
        intro x hx
        by_contra hc
        have hc' : LDom (obj p) (obj x) := (domEta_zero hobj p x).1 (by simpa using hc)
        obtain ⟨y, hy, hy2⟩ := hex
        rcases hy2 with hy2 | hy2
        · exact hnd.not_dom hy hx (LDom_trans hy2 hc')
        · rw [← hy2] at hc'
          exact hnd.not_dom hy hx hc')
      (by
        obtain ⟨y, hy, hy2⟩ := hex
        refine ⟨y, hy, ?_⟩
        rw [domEta_zero hobj, eqvObj_iff hobj]
        exact hy2)
    unfold archiveAdd
    rw [hr]
    exact ⟨⟨fun _ => hex, fun _ => rfl⟩, fun _ => rfl, fun h => absurd hex h, hnd⟩
  · have hno : ∀ x ∈ archive, domEta obj 0 x p = false ∧ eqvObj obj x p = false := by
      intro x hx
      constructor
      · by_contra hc
        exact hex ⟨x, hx, Or.inl ((domEta_zero hobj x p).1 (by simpa using hc))⟩
      · by_contra hc
        exact hex ⟨x, hx, Or.inr ((eqvObj_iff hobj x p).1 (by simpa using hc))⟩
    have hr := addLoop_accept (dom := domEta obj 0) (eqv := eqvObj obj) p archive.length [] archive
      rfl hadj hno
    unfold archiveAdd
    rw [hr]
    have hmem : ∀ x ∈ archive, x ∈ archive.filter (fun x => !domEta obj 0 p x) ↔
        ¬ LDom (obj p) (obj x) := by
      intro x hx
      rw [List.mem_filter, ← domEta_zero hobj]
      simp [hx]
    refine ⟨⟨by simp, fun h => absurd h hex⟩, fun h => absurd h hex, fun _ =>
      ⟨archive.filter (fun x => !domEta obj 0 p x), by simp, List.filter_sublist, hmem⟩, ?_⟩
    unfold MutuallyNonDominated
    rw [List.nil_append, List.pairwise_append]
    refine ⟨List.Pairwise.sublist List.filter_sublist hnd, by simp, ?_⟩
    intro x hx y hy
    rw [List.mem_singleton] at hy
    subst hy
    have hx' := (List.mem_filter.1 hx).1
    exact ⟨fun h => hex ⟨x, hx', Or.inl h⟩, (hmem x hx').1 hx, fun h => hex ⟨x, hx', Or.inr h⟩⟩

example : archiveAdd (domEta id (0 : ℚ)) (eqvObj id) [[0, 3], [2, 2], [3, 0]] [1, 1]
    = (true, [[0, 3], [3, 0], [1, 1]]) := by decide +kernel

/-! ## C64: nothing offered is lost -/

/-- C64, one insertion: whatever the archive looks like, everything that was covered before the
insertion, and the newcomer itself, is covered after it. -/
theorem C64_add {obj : ι → List K} (hobj : SameLength obj) (archive : List ι) (p : ι) :
    (∀ z, (∃ x ∈ archive, LDom (obj x) z ∨ obj x = z) →
      ∃ x ∈ (archiveAdd (domEta obj 0) (eqvObj obj) archive p).2, LDom (obj x) z ∨ obj x = z) ∧
      ∃ x ∈ (archiveAdd (domEta obj 0) (eqvObj obj) archive p).2,
        LDom (obj x) (obj p) ∨ obj x = obj p := by
  obtain ⟨-, h2, -, h4, h5⟩ := addLoop_mem (dom := domEta obj 0) (eqv := eqvObj obj) p
    archive.length [] archive rfl
  have hp : ∃ x ∈ (archiveAdd (domEta obj 0) (eqvObj obj) archive p).2,
      LDom (obj x) (obj p) ∨ obj x = obj p := by
    by_cases h : (archiveAdd (domEta obj 0) (eqvObj obj) archive p).1 = true
    · exact ⟨p, h2 h, Or.inr rfl⟩
    · obtain ⟨x, hx, -, hx2⟩ := h5 (by simpa [archiveAdd] using h)
      refine ⟨x, hx, ?_⟩
      rw [domEta_zero hobj, eqvObj_iff hobj] at hx2
      exact hx2
  refine ⟨?_, hp⟩
  rintro z ⟨x, hx, hz⟩
  by_cases hin : x ∈ (archiveAdd (domEta obj 0) (eqvObj obj) archive p).2
  · exact ⟨x, hin, hz⟩
  · have hpx := (domEta_zero hobj p x).1 (h4 x hx hin)
    have hpz : LDom (obj p) z := by
      rcases hz with hz | hz
      · exact LDom_trans hpx hz
      · exact hz ▸ hpx
    obtain ⟨y, hy, hy2⟩ := hp
    refine ⟨y, hy, Or.inl ?_⟩
    rcases hy2 with hy2 | hy2
    · exact LDom_trans hy2 hpz
    · exact hy2 ▸ hpz

/-- C64: after any sequence of insertions into an archive with tolerance zero, for every individual
ever offered the archive has a member that dominates or equals it, and every member was offered. -/
theorem C64_sequence {obj : ι → List K} (hobj : SameLength obj) (ps : List ι) :
    (∀ p ∈ ps, ∃ x ∈ ps.foldl (fun a q => (archiveAdd (domEta obj 0) (eqvObj obj) a q).2) [],
        LDom (obj x) (obj p) ∨ obj x = obj p) ∧
      ∀ x ∈ ps.foldl (fun a q => (archiveAdd (domEta obj 0) (eqvObj obj) a q).2) [], x ∈ ps := by
  induction ps using List.reverseRecOn with
  | nil => simp
  | append_singleton ps q ih =>
    rw [List.foldl_append]
    simp only [List.foldl_cons, List.foldl_nil]
    have h := C64_add hobj (ps.foldl (fun a q => (archiveAdd (domEta obj 0) (eqvObj obj) a q).2) []) q
    constructor
    · intro p hp
      rcases List.mem_append.1 hp with hp | hp
      · exact h.1 _ (ih.1 p hp)
      · rw [List.mem_singleton] at hp
        subst hp
        exact h.2
    · intro x hx
      rcases (addLoop_mem (dom := domEta obj 0) (eqv := eqvObj obj) q _ [] _ rfl).1 x hx with
        h | h | h
      · simp [h]
      · simp at h
      · exact List.mem_append_left _ (ih.2 x h)

/-- C64 for the reported archive (tolerance `ETA > 0`) is violated: a sequence of offers makes the
archive forget a solution without keeping one that is as good within the tolerance. -/
theorem C64_eta_violated :
    ∃ (ps : List (List ℚ)) (p : List ℚ), p ∈ ps ∧ (∀ x ∈ ps, x.length = 2) ∧
      ∀ x ∈ ps.foldl (fun a q => (archiveAdd (domEta id (75 / 10000)) (eqvObj id) a q).2) [],
        domEta id (75 / 10000 : ℚ) x p = false ∧ x ≠ p := by
  refine ⟨[[100, 1000], [50, 1005], [25, 1010]], [100, 1000], by simp, by decide +kernel,
    by decide +kernel⟩

end C28

/-! ## C28/C63: the leader archive -/

section leaders
variable {ι K : Type*} [DecidableEq ι] [Field K] [LinearOrder K]

theorem crowdStep_perm (o : ι → K) (st : List ι × (ι → WithTop K)) :
    (crowdStep o st).1 = pySorted o st.1 := by
  unfold crowdStep
  simp only
  split
  · rename_i h; rw [h]
  · rename_i h; rw [h]

theorem crowding_perm (objs : List (ι → K)) (archive : List ι) :
    (crowding objs archive).1.Perm archive := by
  unfold crowding
  induction objs using List.reverseRecOn with
  | nil => simp
  | append_singleton objs o ih =>
    rw [List.foldl_append]
    simp only [List.foldl_cons, List.foldl_nil]
    rw [crowdStep_perm]
    exact (pySorted_perm _ _).trans ih

theorem prune_length (objs : List (ι → K)) (archive : List ι) (h : archive ≠ []) :
    (prune objs archive).length + 1 = archive.length := by
  have hp := crowding_perm objs archive
  unfold prune
  simp only
  have hne : (crowding objs archive).1 ≠ [] := fun e => h (by simpa [e] using hp.symm)
  obtain ⟨w, hw⟩ := pyMaxBy_isSome (crowding objs archive).2 hne
  rw [hw]
  simp only
  have hmem := (pyMaxBy_mem hw).1
  have := List.length_erase_add_one hmem
  rw [this, hp.length_eq]

/-- C65: from an empty leader archive, and whatever is offered, its size never exceeds the
configured one. -/
theorem C65_leader_size (dom eqv : ι → ι → Bool) (objs : List (ι → K)) (size : ℕ) (ps : List ι) :
    (ps.foldl (fun a p => (leaderAdd dom eqv objs size a p).2) []).length ≤ size := by
  induction ps using List.reverseRecOn with
  | nil => simp
  | append_singleton ps q ih =>
    rw [List.foldl_append]
    simp only [List.foldl_cons, List.foldl_nil]
    generalize ps.foldl (fun a p => (leaderAdd dom eqv objs size a p).2) [] = a at ih ⊢
    have h := addLoop_length (dom := dom) (eqv := eqv) q a.length [] a rfl
    simp only [List.length_nil, Nat.zero_add] at h
    unfold leaderAdd
    simp only
    by_cases h1 : (archiveAdd dom eqv a q).1 = true
    · by_cases h2 : (archiveAdd dom eqv a q).2.length > size
      · simp only [h1, h2, decide_true, Bool.and_self, if_true]
        have hne : (archiveAdd dom eqv a q).2 ≠ [] := by
          intro e; rw [e] at h2; simp at h2
        have := prune_length objs _ hne
        have h3 : (archiveAdd dom eqv a q).2.length ≤ a.length + 1 := h.1
        omega
      · simp only [h1, h2, decide_false, Bool.and_false]
        simpa using h2
    · have h1' : (archiveAdd dom eqv a q).1 = false := by simpa using h1
      simp only [h1', Bool.false_and]
      have h3 : (archiveAdd dom eqv a q).2.length ≤ a.length := h.2 h1'
      exact h3.trans ih

/-- The pruned archive keeps only members of the archive. -/
theorem prune_subset (objs : List (ι → K)) (archive : List ι) :
    ∀ x ∈ prune objs archive, x ∈ archive := by
  intro x hx
  have hp := crowding_perm objs archive
  unfold prune at hx
  simp only at hx
  cases hw : pyMaxBy (crowding objs archive).2 (crowding objs archive).1 with
  | none => rw [hw] at hx; exact hp.mem_iff.1 hx
  | some w => rw [hw] at hx; exact hp.mem_iff.1 (List.mem_of_mem_erase hx)

theorem innerCrowd_other (o : ι → K) (mn mx : K) : ∀ (l : List ι) (cv : ι → WithTop K) (x : ι),
    x ∉ l.tail → innerCrowd o mn mx cv l x = cv x := by
  intro l
  induction l with
  | nil => intros; rfl
  | cons a l ih =>
    intro cv x hx
    match l with
    | [] => rfl
    | [b] => rfl
    | b :: c :: rest =>
      rw [innerCrowd, ih]
      · rw [Function.update_of_ne]
        rintro rfl
        simp at hx
      · simp at hx ⊢
        tauto

/-- The member with the smallest value of the objective handled last has infinite crowding value
and stands first. -/
theorem crowdStep_first (o : ι → K) (st : List ι × (ι → WithTop K)) (hnd : st.1.Nodup)
    (first : ι) (rest : List ι) (h : (crowdStep o st).1 = first :: rest) :
    (crowdStep o st).2 first = ⊤ := by
  have hs := crowdStep_perm o st
  have hnd' : (pySorted o st.1).Nodup := (pySorted_perm o st.1).nodup_iff.2 hnd
  rw [h] at hs
  rw [← hs] at hnd'
  unfold crowdStep
  simp only
  rw [← hs]
  simp only
  rw [innerCrowd_other _ _ _ _ _ _ (by simpa using (List.nodup_cons.1 hnd').1)]
  by_cases hl : first = (first :: rest).getLast (by simp)
  · rw [← hl]; simp
  · rw [Function.update_of_ne hl]; simp

/-- C63 is violated in the strongest way: pruning always removes the member that stands first in
the order of the last objective, so one with the smallest value of that objective. -/
theorem C63_prune_removes_minimum (objs : List (ι → K)) (o : ι → K) (archive : List ι)
    (hnd : archive.Nodup) (hne : archive ≠ []) :
    ∃ removed ∈ archive, (∀ x ∈ archive, o removed ≤ o x) ∧
      (prune (objs ++ [o]) archive).Perm (archive.erase removed) := by
  have hp := crowding_perm (objs ++ [o]) archive
  have hnd0 : (crowding objs archive).1.Nodup := (crowding_perm objs archive).nodup_iff.2 hnd
  have hstep : crowding (objs ++ [o]) archive = crowdStep o (crowding objs archive) := by
    unfold crowding
    rw [List.foldl_append]
    rfl
  cases hl : (crowding (objs ++ [o]) archive).1 with
  | nil => rw [hl] at hp; exact absurd (by simpa using hp.symm) hne
  | cons first rest =>
    have htop := crowdStep_first o (crowding objs archive) hnd0 first rest (by rw [← hstep]; exact hl)
    rw [← hstep] at htop
    have hsort : (crowding (objs ++ [o]) archive).1 = pySorted o (crowding objs archive).1 := by
      rw [hstep, crowdStep_perm]
    refine ⟨first, hp.mem_iff.1 (by rw [hl]; simp), ?_, ?_⟩
    · intro x hx
      have hx' : x ∈ first :: rest := by rw [← hl]; exact hp.mem_iff.2 hx
      have hs := pySorted_sorted o (crowding objs archive).1
      rw [← hsort, hl, List.pairwise_cons] at hs
      rcases List.mem_cons.1 hx' with rfl | hx'
      · exact le_rfl
      · exact hs.1 x hx'
    · unfold prune
      simp only
      obtain ⟨w, hw⟩ := pyMaxBy_isSome (crowding (objs ++ [o]) archive).2
        (l := (crowding (objs ++ [o]) archive).1) (by rw [hl]; simp)
      have hwf : w = first := by
        obtain ⟨pre, post, e, h1, h2⟩ := pyMaxBy_spec hw
        cases pre with
        | nil => rw [hl] at e; exact (List.cons.inj e).1.symm
        | cons b pre =>
          rw [hl] at e
          have hb := (List.cons.inj e).1
          have := h1 b (by simp)
          rw [← hb, htop] at this
          exact absurd this (not_lt.2 le_top)
      rw [hw, hwf]
      exact hp.erase first

/-- C63, negated: an archive in which the member that is best in the last objective is removed. -/
theorem C63_violated : prune [fun x : ℚ × ℚ => x.1, fun x => x.2] [(0, 3), (1, 2), (2, 1), (3, 0)]
    = [(2, 1), (1, 2), (0, 3)] := by decide +kernel

end leaders

/-! ## C29: particles stay in the box -/

section move
variable {K : Type*} [Field K] [LinearOrder K] [IsStrictOrderedRing K]

omit [IsStrictOrderedRing K] in
theorem moveCoord_box (x s lo hi : K) (h : lo ≤ hi) :
    lo ≤ (moveCoord x s lo hi).1 ∧ (moveCoord x s lo hi).1 ≤ hi :=
  ⟨le_min (le_max_right _ _) h, min_le_right _ _⟩

omit [IsStrictOrderedRing K] in
/-- C29, one coordinate: if the moved coordinate is in the interval, it is taken and the speed is
kept; otherwise the violated bound is taken and the speed reversed. -/
theorem C29_coord (x s lo hi : K) (h : lo ≤ hi) :
    ((lo ≤ x + s ∧ x + s ≤ hi) → moveCoord x s lo hi = (x + s, s)) ∧
      (x + s < lo → moveCoord x s lo hi = (lo, -s)) ∧
      (hi < x + s → moveCoord x s lo hi = (hi, -s)) := by
  refine ⟨fun ⟨h1, h2⟩ => ?_, fun h1 => ?_, fun h1 => ?_⟩
  · simp [moveCoord, max_eq_left h1, min_eq_left h2]
  · simp [moveCoord, max_eq_right h1.le, min_eq_left h, h1.ne']
  · simp [moveCoord, max_eq_left (h.trans h1.le), min_eq_right h1.le, h1.ne]

omit [IsStrictOrderedRing K] in
/-- C29: after a move a particle lies in the box, whatever its position and speed; it keeps one
speed component per dimension. -/
theorem C29_move (dims : List (K × K)) (hd : ∀ d ∈ dims, d.1 ≤ d.2) : ∀ (xs ss : List K),
    xs.length = dims.length → ss.length = dims.length →
    ∃ xs' ss', moveOne xs ss dims = some (xs', ss') ∧ InBox xs' dims ∧
      ss'.length = dims.length ∧
      ∀ (i : ℕ) (x s : K) (d : K × K), xs[i]? = some x → ss[i]? = some s → dims[i]? = some d →
        xs'[i]? = some (moveCoord x s d.1 d.2).1 ∧ ss'[i]? = some (moveCoord x s d.1 d.2).2 := by
  induction dims with
  | nil =>
    intro xs ss h1 h2
    simp only [List.length_nil, List.length_eq_zero_iff] at h1 h2
    subst h1 h2
    exact ⟨[], [], by simp [moveOne], List.Forall₂.nil, rfl, by simp⟩
  | cons d dims ih =>
    intro xs ss h1 h2
    match xs, ss, h1, h2 with
    | x :: xs, s :: ss, h1, h2 =>
      obtain ⟨xs', ss', g1, g2, g3, g4⟩ := ih (fun e he => hd e (by simp [he])) xs ss
        (by simpa using h1) (by simpa using h2)
      refine ⟨(moveCoord x s d.1 d.2).1 :: xs', (moveCoord x s d.1 d.2).2 :: ss', ?_, ?_, ?_, ?_⟩
      · simp [moveOne, g1]
      · exact List.Forall₂.cons (moveCoord_box x s d.1 d.2 (hd d (by simp))) g2
      · simp [g3]
      · intro i x' s' d' hx hs hd'
        cases i with
        | zero =>
          simp only [List.getElem?_cons_zero, Option.some.injEq] at hx hs hd' ⊢
          subst hx hs hd'
          exact ⟨rfl, rfl⟩
        | succ i =>
          simp only [List.getElem?_cons_succ] at hx hs hd' ⊢
          exact g4 i x' s' d' hx hs hd'

omit [IsStrictOrderedRing K] in
/-- C29: the mutation operators, if they were applied, keep a particle of the box in the box. -/
theorem C29_mutation (coin : ℕ → Bool) (doMut : ℕ → K → K) (dims : List (K × K))
    (hd : ∀ d ∈ dims, d.1 ≤ d.2) : ∀ (i : ℕ) (xs : List K), InBox xs dims →
    ∃ ys, mutateOne coin doMut i xs dims = some ys ∧ InBox ys dims := by
  induction dims with
  | nil =>
    intro i xs h
    cases h
    exact ⟨[], by simp [mutateOne], List.Forall₂.nil⟩
  | cons d dims ih =>
    intro i xs h
    cases h with
    | cons h1 h2 =>
      rename_i x xs
      obtain ⟨ys, g1, g2⟩ := ih (fun e he => hd e (by simp [he])) (i + 1) xs h2
      refine ⟨mutateCoord (coin i) (doMut i x) x d.1 d.2 :: ys, by simp [mutateOne, g1], ?_⟩
      refine List.Forall₂.cons ?_ g2
      unfold mutateCoord
      split
      · exact ⟨le_min (le_max_right _ _) (hd d (by simp)), min_le_right _ _⟩
      · exact h1

example : moveOne [(1 : ℚ) / 2, 1 / 2] [1, -1 / 4] [(0, 1), (0, 1)]
    = some ([1, 1 / 4], [-1, -1 / 4]) := by decide +kernel

end move

/-! ## C66: personal bests -/

section best
variable {K : Type*} [Field K] [LinearOrder K]

/-- The personal best after the positions with objectives `zs` were visited, starting from `z0`:
lines 53-55 and, per step, 102-107. -/
def personalBest (z0 : List K) (zs : List (List K)) : List K :=
  zs.foldl (fun b z => updateBest (domEta id 0) b z) z0

/-- C66: the personal best is one of the visited positions; it dominates or equals every earlier
personal best; and no position visited since it was set dominates it — indeed no visited position
ever dominates it. -/
theorem C66_personal_best (n : ℕ) (z0 : List K) (zs : List (List K)) (h0 : z0.length = n)
    (hz : ∀ z ∈ zs, z.length = n) :
    personalBest z0 zs ∈ z0 :: zs ∧
      (∀ k, LDom (personalBest z0 zs) (personalBest z0 (zs.take k)) ∨
        personalBest z0 zs = personalBest z0 (zs.take k)) ∧
      ∀ z ∈ z0 :: zs, ¬ LDom z (personalBest z0 zs) := by
  have key : ∀ b z : List K, b.length = n → z.length = n →
      (domEta id 0 z b = true ↔ LDom z b) := by
    intro b z hb hz
    rw [domEta]
    simp only [id]
    rw [C03_omopso _ _ (by omega), ← dominates_iff_LDom (by omega)]
    rfl
  induction zs using List.reverseRecOn with
  | nil =>
    refine ⟨by simp [personalBest], fun k => Or.inr (by simp [personalBest]), ?_⟩
    intro z hz
    simp only [List.mem_cons, List.not_mem_nil, or_false] at hz
    subst hz
    exact LDom_irrefl _
  | append_singleton zs z ih =>
    obtain ⟨i1, i2, i3⟩ := ih (fun w hw => hz w (by simp [hw]))
    have hlen : (personalBest z0 zs).length = n := by
      rcases List.mem_cons.1 i1 with h | h
      · rw [h, h0]
      · exact hz _ (by simp [h])
    have hzl : z.length = n := hz z (by simp)
    have hstep : personalBest z0 (zs ++ [z]) = updateBest (domEta id 0) (personalBest z0 zs) z := by
      simp [personalBest, List.foldl_append]
    have hcase : (personalBest z0 (zs ++ [z]) = z ∧ LDom z (personalBest z0 zs)) ∨
        (personalBest z0 (zs ++ [z]) = personalBest z0 zs ∧ ¬ LDom z (personalBest z0 zs)) := by
      rw [hstep]
      unfold updateBest
      by_cases h : domEta id 0 z (personalBest z0 zs) = true
      · rw [if_pos h]; exact Or.inl ⟨rfl, (key _ _ hlen hzl).1 h⟩
      · rw [if_neg h]; exact Or.inr ⟨rfl, fun hc => h ((key _ _ hlen hzl).2 hc)⟩
    refine ⟨?_, ?_, ?_⟩
    · rcases hcase with ⟨h, -⟩ | ⟨h, -⟩
      · rw [h]; simp
      · rw [h]
        rcases List.mem_cons.1 i1 with h | h
        · rw [h]; simp
        · simp [h]
    · intro k
      by_cases hk : k ≤ zs.length
      · rw [List.take_append_of_le_length hk]
        rcases hcase with ⟨h, hd⟩ | ⟨h, -⟩
        · rw [h]
          rcases i2 k with h2 | h2
          · exact Or.inl (LDom_trans hd h2)
          · rw [← h2]; exact Or.inl hd
        · rw [h]; exact i2 k
      · right
        rw [List.take_of_length_le (by simp; omega)]
    · intro w hw
      have hw' : w ∈ z0 :: zs ∨ w = z := by
        simp only [List.mem_cons, List.mem_append, List.not_mem_nil, or_false] at hw ⊢
        tauto
      rcases hcase with ⟨h, hd⟩ | ⟨h, hd⟩
      · rw [h]
        rcases hw' with hw' | rfl
        · intro hc
          exact i3 w hw' (LDom_trans hc hd)
        · exact LDom_irrefl _
      · rw [h]
        rcases hw' with hw' | rfl
        · exact i3 w hw'
        · exact hd

example : personalBest ([3, 3] : List ℚ) [[2, 4], [2, 2], [1, 5], [1, 1]] = [1, 1] := by
  decide +kernel

end best

end Evogil.Omopso
