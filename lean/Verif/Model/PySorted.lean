import Verif.Prelude

/-! # Python's `sorted` with a key -/

namespace Evogil

/-- Python's `sorted(l, key=key)`: stable, by increasing key. -/
def pySorted {α κ : Type*} [LinearOrder κ] (key : α → κ) (l : List α) : List α :=
  l.insertionSort (fun a b => key a ≤ key b)

variable {α κ : Type*} [LinearOrder κ] (key : α → κ)

theorem pySorted_perm (l : List α) : (pySorted key l).Perm l := List.perm_insertionSort _ _

theorem pySorted_length (l : List α) : (pySorted key l).length = l.length :=
  (pySorted_perm key l).length_eq

theorem mem_pySorted {l : List α} {x : α} : x ∈ pySorted key l ↔ x ∈ l :=
  (pySorted_perm key l).mem_iff

theorem pySorted_sorted (l : List α) : (pySorted key l).Pairwise (fun a b => key a ≤ key b) := by
  haveI : Std.Total (fun a b : α => key a ≤ key b) := ⟨fun a b => le_total _ _⟩
  haveI : IsTrans α (fun a b => key a ≤ key b) := ⟨fun a b c h1 h2 => le_trans h1 h2⟩
  exact List.pairwise_insertionSort (fun a b => key a ≤ key b) l

/-- What is cut off by `sorted(l, key=key)[:n]` has no smaller key than what is kept. -/
theorem pySorted_take_le {l : List α} {n : ℕ} {x y : α} (hx : x ∈ (pySorted key l).take n)
    (hy : y ∈ (pySorted key l).drop n) : key x ≤ key y := by
  have h := pySorted_sorted key l
  rw [← List.take_append_drop n (pySorted key l), List.pairwise_append] at h
  exact h.2.2 x hx y hy

theorem pySorted_take_drop (l : List α) (n : ℕ) :
    ((pySorted key l).take n ++ (pySorted key l).drop n).Perm l := by
  rw [List.take_append_drop]; exact pySorted_perm key l

end Evogil
