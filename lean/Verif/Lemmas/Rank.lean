import Verif.Spec.Rank

namespace Evogil
open Spec

variable {ι : Type*} {dom : ι → ι → Prop} {S : List ι}

theorem HasChain.mem {k : ℕ} {x : ι} (h : HasChain dom S k x) : x ∈ S := by
  cases k with
  | zero => exact h
  | succ k => exact h.1

theorem HasChain.pred {k : ℕ} {x : ι} (h : HasChain dom S (k + 1) x) : HasChain dom S k x := by
  induction k generalizing x with
  | zero => exact h.1
  | succ k ih =>
    obtain ⟨hx, y, hy, hc⟩ := h
    exact ⟨hx, y, hy, ih hc⟩

theorem HasChain.mono {k j : ℕ} {x : ι} (h : HasChain dom S k x) (hj : j ≤ k) :
    HasChain dom S j x := by
  induction hj with
  | refl => exact h
  | step _ ih => exact ih (HasChain.pred h)

theorem IsRank.unique {x : ι} {j k : ℕ} (hj : IsRank dom S x j) (hk : IsRank dom S x k) :
    j = k := by
  rcases lt_trichotomy j k with h | h | h
  · exact absurd (HasChain.mono hk.1 h) hj.2
  · exact h
  · exact absurd (HasChain.mono hj.1 h) hk.2

/-- A member without a chain of length `k + 1` has a rank at most `k`. -/
theorem exists_rank {x : ι} (hx : x ∈ S) {k : ℕ} (h : ¬ HasChain dom S (k + 1) x) :
    ∃ j ≤ k, IsRank dom S x j := by
  induction k with
  | zero => exact ⟨0, le_rfl, hx, h⟩
  | succ k ih =>
    by_cases hc : HasChain dom S (k + 1) x
    · exact ⟨k + 1, le_rfl, hc, h⟩
    · obtain ⟨j, hj, hr⟩ := ih hc
      exact ⟨j, hj.trans (Nat.le_succ k), hr⟩

/-- Any family of fronts obeying the two peeling equations is the rank partition. -/
theorem fronts_eq_rank (F : ℕ → ι → Prop)
    (h0 : ∀ x, F 0 x ↔ x ∈ S ∧ ∀ y ∈ S, ¬ dom y x)
    (hs : ∀ k x, F (k + 1) x ↔ x ∈ S ∧ (∀ y ∈ S, dom y x → ∃ j ≤ k, F j y) ∧
      ∃ y, F k y ∧ dom y x) (k : ℕ) (x : ι) :
    F k x ↔ IsRank dom S x k := by
  induction k using Nat.strong_induction_on generalizing x with
  | _ k ih =>
    cases k with
    | zero =>
      rw [h0]
      constructor
      · rintro ⟨hx, hn⟩
        exact ⟨hx, fun ⟨_, y, hy, hc⟩ => hn y (HasChain.mem (k := 0) hc) hy⟩
      · rintro ⟨hx, hn⟩
        exact ⟨hx, fun y hy hd => hn ⟨hx, y, hd, hy⟩⟩
    | succ k =>
      rw [hs]
      constructor
      · rintro ⟨hx, hall, y, hFy, hd⟩
        have hy := (ih k (Nat.lt_succ_self k) y).1 hFy
        refine ⟨⟨hx, y, hd, hy.1⟩, ?_⟩
        rintro ⟨-, z, hz, hc⟩
        obtain ⟨j, hj, hFz⟩ := hall z (HasChain.mem (k := k + 1) hc) hz
        have := (ih j (Nat.lt_succ_of_le hj) z).1 hFz
        exact this.2 (HasChain.mono (k := k + 1) hc (by omega))
      · rintro ⟨⟨hx, y, hd, hc⟩, hn⟩
        refine ⟨hx, ?_, y, ?_, hd⟩
        · intro z hz hdz
          have hnz : ¬ HasChain dom S (k + 1) z := fun hcz => hn ⟨hx, z, hdz, hcz⟩
          obtain ⟨j, hj, hr⟩ := exists_rank hz hnz
          exact ⟨j, hj, (ih j (Nat.lt_succ_of_le hj) z).2 hr⟩
        · exact (ih k (Nat.lt_succ_self k) y).2 ⟨hc, fun hcy => hn ⟨hx, y, hd, hcy⟩⟩

end Evogil
