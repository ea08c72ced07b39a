import Verif.Model.Renice
import Mathlib.Data.List.GetD
import Mathlib.Tactic.Linarith
import Mathlib.Tactic.Ring

/-!
# C164: `--renice` lowers the priority of every simulation by the increment
-/

namespace Evogil.Renice

/-- What the option promises: the niceness of the process and the increment, limited to -20..19. -/
def Promised (n increment m : Int) : Prop :=
  -20 ≤ m ∧ m ≤ 19 ∧ (m = n + increment ∨ (19 < n + increment ∧ m = 19) ∨ (n + increment < -20 ∧ m = -20))

/-- C164: without `--renice` every simulation runs at the niceness of the program. -/
theorem C164_none (pr : Bool) (count : Nat) (n : Int) : runAll pr none count n = some (List.replicate count n) := by
  induction count with
  | zero => rfl
  | succ k ih => simp [runAll, renice, ih, List.replicate_succ]

/-- C164: with an increment of at least 0, no privileges are needed, all simulations run, and number `i` (from 0) runs as if the
increment had been `i + 1` times as large. -/
theorem C164_accumulates (pr : Bool) (inc : Int) (hi : 0 ≤ inc) (count : Nat) (n : Int) (h1 : -20 ≤ n) (h2 : n ≤ 19) :
    ∃ l, runAll pr (some inc) count n = some l ∧ l.length = count ∧
      ∀ i m, l[i]? = some m → Promised n ((i + 1 : Nat) * inc) m := by
  induction count generalizing n with
  | zero => exact ⟨[], rfl, rfl, by simp⟩
  | succ k ih =>
    obtain ⟨m, hm⟩ : ∃ m, max (-20) (min 19 (n + inc)) = m := ⟨_, rfl⟩
    have hn : n ≤ m := by omega
    have hs : renice pr (some inc) n = some m := by simp [renice, osNice, hm, hn]
    obtain ⟨l, hl, hlen, hp⟩ := ih m (by omega) (by omega)
    refine ⟨m :: l, by simp [runAll, hs, hl], by simp [hlen], ?_⟩
    intro i x hx
    cases i with
    | zero =>
      simp only [List.getElem?_cons_zero, Option.some.injEq] at hx
      subst hx
      simp only [Promised, Nat.zero_add, Nat.cast_one, one_mul]
      omega
    | succ j =>
      simp only [List.getElem?_cons_succ] at hx
      have := hp j x hx
      have e : ((j + 1 + 1 : Nat) : Int) * inc = ((j + 1 : Nat) : Int) * inc + inc := by push_cast; ring
      have e0 : 0 ≤ ((j + 1 : Nat) : Int) * inc := mul_nonneg (by omega) hi
      simp only [Promised] at this ⊢
      rw [e]
      generalize ((j + 1 : Nat) : Int) * inc = z at *
      omega

/-- C164 (partial): the first simulation runs at the promised niceness. Missing: the others, see `C164_violated`. -/
theorem C164_first_partial (pr : Bool) (inc : Int) (count : Nat) (n : Int) (l : List Int)
    (h : runAll pr (some inc) count n = some l) (m : Int) (hm : l.head? = some m) : Promised n inc m := by
  cases count with
  | zero => simp only [runAll, Option.some.injEq] at h; subst h; simp at hm
  | succ k =>
    unfold runAll at h
    simp only [renice, osNice] at h
    split at h
    · cases h
    · next x hx =>
      split at hx
      · simp only [Option.some.injEq] at hx
        cases hr : runAll pr (some inc) k x with
        | none => simp [hr] at h
        | some l' =>
          simp only [hr, Option.map_some, Option.some.injEq] at h
          subst h
          simp only [List.head?_cons, Option.some.injEq] at hm
          unfold Promised
          omega
      · cases hx

/-- C164: whatever the increment above 0, the second simulation does not run at the promised niceness, unless the first one is at
the limit already. -/
theorem C164_violated (pr : Bool) (inc : Int) (hi : 0 < inc) (n : Int) (h1 : -20 ≤ n) (h2 : n + inc < 19) (k : Nat) :
    ∃ l m, runAll pr (some inc) (k + 2) n = some l ∧ l[1]? = some m ∧ n + inc < m ∧ ¬ Promised n inc m := by
  obtain ⟨l, hl, hlen, hp⟩ := C164_accumulates pr inc (by omega) (k + 2) n h1 (by omega)
  obtain ⟨m, hm⟩ : ∃ m, l[1]? = some m := ⟨l[1]'(by omega), List.getElem?_eq_getElem _⟩
  have := hp 1 m hm
  refine ⟨l, m, hl, hm, ?_, ?_⟩
  · simp only [Promised] at this
    push_cast at this
    omega
  · simp only [Promised] at this ⊢
    push_cast at this
    omega

/-- C164: without privileges an increment below 0 ends the program at the first simulation. -/
theorem C164_negative_violated (inc : Int) (hi : inc < 0) (n : Int) (h1 : -20 < n) (h2 : n ≤ 19) (k : Nat) :
    runAll false (some inc) (k + 1) n = none := by
  have : ¬ n ≤ max (-20) (min 19 (n + inc)) := by omega
  simp only [runAll, renice, osNice, Bool.false_or, this, decide_false, Bool.false_eq_true, if_false]

example : runAll false (some 5) 6 0 = some [5, 10, 15, 19, 19, 19] := by decide

example : runAll true (some (-3)) 2 0 = some [-3, -6] := by decide

end Evogil.Renice
