import Mathlib.Data.List.Basic
import Mathlib.Data.List.Induction

/-! # Small pieces of Python semantics shared by several models -/

namespace Evogil

/-- Keys of a Python `dict` after inserting the given keys one after the other: a key
already present keeps its place, a new one goes to the end (language semantics used e.g.
by the comprehension at metrics/metrics_utils.py:102-105). -/
def dictKeys {β : Type*} [DecidableEq β] (l : List β) : List β :=
  l.foldl (fun acc x => if x ∈ acc then acc else acc ++ [x]) []

theorem dictKeys_append_singleton {β : Type*} [DecidableEq β] (l : List β) (a : β) :
    dictKeys (l ++ [a]) = if a ∈ dictKeys l then dictKeys l else dictKeys l ++ [a] := by
  unfold dictKeys
  rw [List.foldl_append]
  rfl

theorem mem_dictKeys {β : Type*} [DecidableEq β] (l : List β) (x : β) :
    x ∈ dictKeys l ↔ x ∈ l := by
  induction l using List.reverseRecOn with
  | nil => simp [dictKeys]
  | append_singleton l a ih =>
    rw [dictKeys_append_singleton]
    split_ifs with h
    · simp only [ih, List.mem_append, List.mem_singleton]
      constructor
      · exact Or.inl
      · rintro (h' | rfl)
        · exact h'
        · exact ih.1 h
    · simp [ih]

theorem nodup_dictKeys {β : Type*} [DecidableEq β] (l : List β) : (dictKeys l).Nodup := by
  induction l using List.reverseRecOn with
  | nil => simp [dictKeys]
  | append_singleton l a ih =>
    rw [dictKeys_append_singleton]
    split_ifs with h
    · exact ih
    · rw [List.nodup_append]
      refine ⟨ih, by simp, ?_⟩
      intro x hx y hy
      rw [List.mem_singleton.1 hy]
      rintro rfl
      exact h hx

theorem dictKeys_of_nodup {β : Type*} [DecidableEq β] (l : List β) (h : l.Nodup) :
    dictKeys l = l := by
  induction l using List.reverseRecOn with
  | nil => simp [dictKeys]
  | append_singleton l a ih =>
    rw [List.nodup_append] at h
    rw [dictKeys_append_singleton, ih h.1, if_neg]
    intro ha
    exact h.2.2 a ha a (by simp) rfl

end Evogil
