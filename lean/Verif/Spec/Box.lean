import Verif.Prelude

namespace Evogil

/-- A vector lies in a box: same length, every coordinate in its interval. -/
def InBox {K : Type*} [LE K] (xs : List K) (dims : List (K × K)) : Prop :=
  List.Forall₂ (fun x d => d.1 ≤ x ∧ x ≤ d.2) xs dims

theorem InBox.length_eq {K : Type*} [LE K] {xs : List K} {dims : List (K × K)}
    (h : InBox xs dims) : xs.length = dims.length := List.Forall₂.length_eq h

theorem InBox.get {K : Type*} [LE K] {xs : List K} {dims : List (K × K)} (h : InBox xs dims)
    {i : ℕ} {x : K} {d : K × K} (hx : xs[i]? = some x) (hd : dims[i]? = some d) :
    d.1 ≤ x ∧ x ≤ d.2 := by
  induction h generalizing i with
  | nil => simp at hx
  | cons h1 _ ih =>
    cases i with
    | zero => simp only [List.getElem?_cons_zero, Option.some.injEq] at hx hd; subst hx hd; exact h1
    | succ i => simp only [List.getElem?_cons_succ] at hx hd; exact ih hx hd

theorem inBox_of_get {K : Type*} [LE K] {xs : List K} {dims : List (K × K)}
    (hl : xs.length = dims.length)
    (h : ∀ (i : ℕ) (x : K) (d : K × K), xs[i]? = some x → dims[i]? = some d →
      d.1 ≤ x ∧ x ≤ d.2) : InBox xs dims := by
  unfold InBox
  rw [List.forall₂_iff_get]
  refine ⟨hl, fun i h1 h2 => h i _ _ ?_ ?_⟩ <;> simp

end Evogil
