import Verif.Prelude

/-! # What it means that all executions of a system reach something -/

namespace Evogil.Spec

variable {S : Type*}

/-- In the system with the steps `R` (where `none` stands for a failure), every execution from a state,
whichever steps it takes, reaches a state with `Q` after finitely many steps, and until then never fails
and never gets stuck. -/
inductive Inevitable (R : S → Option S → Prop) (Q : S → Prop) : S → Prop
  | done {s : S} (h : Q s) : Inevitable R Q s
  | step {s : S} (can : ∃ r, R s r) (safe : ∀ r, R s r → ∃ t, r = some t)
      (next : ∀ t, R s (some t) → Inevitable R Q t) : Inevitable R Q s

variable {R : S → Option S → Prop}

theorem Inevitable.mono {P Q : S → Prop} (h : ∀ s, P s → Q s) {s : S} (hs : Inevitable R P s) :
    Inevitable R Q s := by
  induction hs with
  | done hp => exact .done (h _ hp)
  | step c sf _ ih => exact .step c sf ih

theorem Inevitable.bind {P Q : S → Prop} (h : ∀ s, P s → Inevitable R Q s) {s : S}
    (hs : Inevitable R P s) : Inevitable R Q s := by
  induction hs with
  | done hp => exact h _ hp
  | step c sf _ ih => exact .step c sf ih

/-- The definition says what it should: an infinite execution meets `Q` … -/
theorem Inevitable.infinite {Q : S → Prop} {s : S} (hs : Inevitable R Q s) (f : ℕ → S) (h0 : f 0 = s)
    (hf : ∀ n, R (f n) (some (f (n + 1)))) : ∃ n, Q (f n) := by
  induction hs generalizing f with
  | done h => exact ⟨0, h0 ▸ h⟩
  | step _ _ _ ih =>
    obtain ⟨n, hn⟩ := ih (f 1) (h0 ▸ hf 0) (fun n => f (n + 1)) rfl (fun n => hf (n + 1))
    exact ⟨n + 1, hn⟩

/-- … and a finite one that has not met `Q` yet can go on, and not by a failure. -/
theorem Inevitable.finite {Q : S → Prop} {s : S} (hs : Inevitable R Q s) (f : ℕ → S) (h0 : f 0 = s)
    (k : ℕ) (hf : ∀ n < k, R (f n) (some (f (n + 1)))) (hq : ∀ n ≤ k, ¬ Q (f n)) :
    (∃ t, R (f k) (some t)) ∧ ¬ R (f k) none := by
  induction hs generalizing f k with
  | done h => exact absurd (h0 ▸ h) (hq 0 (Nat.zero_le _))
  | step c sf _ ih =>
    cases k with
    | zero =>
      subst h0
      refine ⟨?_, fun h => ?_⟩
      · obtain ⟨r, hr⟩ := c
        obtain ⟨t, rfl⟩ := sf r hr
        exact ⟨t, hr⟩
      · obtain ⟨t, ht⟩ := sf none h
        cases ht
    | succ k =>
      exact ih (f 1) (h0 ▸ hf 0 (by omega)) (fun n => f (n + 1)) rfl k
        (fun n hn => hf (n + 1) (by omega)) (fun n hn => hq (n + 1) (by omega))

end Evogil.Spec
