import Verif.Model.Worker
import Mathlib.Algebra.Order.Group.Int
import Mathlib.Algebra.Order.Group.Unbundled.Basic

/-!
# C163: what a worker returns, and what happens when something fails
-/

set_option linter.unusedSectionVars false

namespace Evogil.Worker

variable {K : Type*} [AddCommGroup K] [LinearOrder K] [IsOrderedAddMonoid K] {α : Type*}

/-- C163, `process_time`, `system_time` and `log_time`: the block has the same outcome as without them. If it ends normally, its
duration is added to the list and logged, whatever the list held before; it is not negative if the clock does not run backwards.
If it raises, nothing is added or logged. -/
theorem C163_log_time (start stop : K) (body : Except Raised α) (out : List K) :
    (logTime start stop body out).2.2 = body ∧
    (∀ x, body = .ok x → (logTime start stop body out).1 = out ++ [stop - start] ∧
      (logTime start stop body out).2.1 = [stop - start] ∧ (start ≤ stop → 0 ≤ stop - start)) ∧
    (∀ e, body = .error e → (logTime start stop body out).1 = out ∧ (logTime start stop body out).2.1 = []) := by
  cases body with
  | ok x => exact ⟨rfl, fun _ _ => ⟨rfl, by simp [logTime, timed], sub_nonneg.2⟩, fun _ h => by cases h⟩
  | error e => exact ⟨rfl, fun _ h => by (cases h), fun _ _ => ⟨rfl, rfl⟩⟩

/-- C163, success: if nothing raises, `run` returns the results, the time taken by `run_driver` and the number, having shut the
driver down once and logged the time once. -/
theorem C163_success (c : Calls K α) (x : α) (h1 : c.setup = .ok ()) (h2 : c.prepare = .ok ()) (h3 : c.create = .ok ())
    (h4 : c.work = .ok x) (h5 : c.shutdown = .ok ()) :
    run c = ⟨.ok (some (x, c.stop - c.start, c.number)), 1, [c.stop - c.start]⟩ := by
  simp [run, h1, h2, h3, h4, h5, logTime, timed, handle, finish]

/-- C163: conversely, a triple is returned only if everything succeeded. -/
theorem C163_success_only (c : Calls K α) (x : α) (t : K) (n : ℕ) (h : (run c).result = .ok (some (x, t, n))) :
    c.setup = .ok () ∧ c.prepare = .ok () ∧ c.create = .ok () ∧ c.work = .ok x ∧ c.shutdown = .ok () ∧
    t = c.stop - c.start ∧ n = c.number := by
  unfold run at h
  cases h1 : c.setup with
  | error e => rw [h1] at h; cases h
  | ok u =>
    rw [h1] at h
    cases h2 : c.prepare with
    | error e => rw [h2] at h; cases e <;> simp [handle] at h
    | ok u =>
      rw [h2] at h
      cases h3 : c.create with
      | error e => rw [h3] at h; cases e <;> simp [handle] at h
      | ok u =>
        rw [h3] at h
        cases h5 : c.shutdown with
        | error e => rw [h5] at h; simp [finish] at h
        | ok u =>
          rw [h5] at h
          cases h4 : c.work with
          | error e => rw [h4] at h; cases e <;> simp [logTime, timed, handle, finish] at h
          | ok y =>
            rw [h4] at h
            simp only [logTime, timed, handle, finish, List.nil_append, List.getLast?_singleton, Except.ok.injEq,
              Option.some.injEq, Prod.mk.injEq] at h
            exact ⟨rfl, rfl, rfl, by rw [h.1], rfl, h.2.1.symm, h.2.2.symm⟩

/-- C163: the driver is shut down exactly once if it was created, whatever happens afterwards, and never otherwise. -/
theorem C163_shutdown (c : Calls K α) :
    (run c).shutdowns = if c.setup = .ok () ∧ c.prepare = .ok () ∧ c.create = .ok () then 1 else 0 := by
  unfold run
  rcases h1 : c.setup with e | u
  · simp
  · rcases h2 : c.prepare with e | u
    · simp
    · rcases h3 : c.create with e | u <;> simp

/-- C163 (partial): a disabled configuration and every other `Exception` while preparing, creating or running end in `None`
without a time, provided that `shutdown` does not raise. -/
theorem C163_failure_partial (c : Calls K α) (h1 : c.setup = .ok ()) (h5 : c.shutdown = .ok ()) (e : Raised) (he : e ≠ .exit)
    (h : c.prepare = .error e ∨ (c.prepare = .ok () ∧ (c.create = .error e ∨ (c.create = .ok () ∧ c.work = .error e)))) :
    (run c).result = .ok none ∧ (run c).logged = [] := by
  have hh : handle (.error e : Except Raised (α × K × ℕ)) = .ok none := by
    cases e with
    | notViable => rfl
    | error => rfl
    | exit => exact absurd rfl he
  rcases h with h | ⟨h2, h | ⟨h3, h⟩⟩
  · simp [run, h1, h, hh]
  · simp [run, h1, h2, h, hh]
  · simp [run, h1, h2, h3, h, h5, hh, logTime, timed, finish]

/-- C163: an exception of `shutdown` is raised by `run`, and the results are lost even though the run succeeded. -/
theorem C163_shutdown_violated (c : Calls K α) (e : Raised) (h1 : c.setup = .ok ()) (h2 : c.prepare = .ok ())
    (h3 : c.create = .ok ()) (h5 : c.shutdown = .error e) : (run c).result = .error e := by
  simp [run, h1, h2, h3, h5, finish]

/-- C163: an exception of `os.nice` or of seeding comes before the `try` and is raised by `run`. -/
theorem C163_setup_violated (c : Calls K α) (e : Raised) (h1 : c.setup = .error e) : (run c).result = .error e := by
  simp [run, h1]

example : run (⟨.ok (), .ok (), .ok (), .ok "front", .ok (), 3, 10, 4⟩ : Calls ℤ String) =
    ⟨.ok (some ("front", 7, 4)), 1, [7]⟩ := by decide

example : run (⟨.ok (), .ok (), .ok (), .error .error, .ok (), 3, 10, 4⟩ : Calls ℤ String) = ⟨.ok none, 1, []⟩ := by decide

example : run (⟨.ok (), .ok (), .ok (), .ok "front", .error .error, 3, 10, 4⟩ : Calls ℤ String) = ⟨.error .error, 1, [7]⟩ := by
  decide

example : logTime (2 : ℤ) 5 (.ok ()) [1, 1] = ([1, 1, 3], [3], .ok ()) := by decide

end Evogil.Worker
