import Verif.Model.WorkerQueue
import Verif.Props.Worker
import Mathlib.Data.List.Forall2

/-!
# C165: the workers of a whole program
-/

set_option linter.unusedSectionVars false

namespace Evogil.Worker

variable {K : Type*} [AddCommGroup K] [LinearOrder K] [IsOrderedAddMonoid K] {α : Type*}

/-- Nothing raises in this worker, and the driver's results are `x`. -/
def Succeeds (c : Calls K α) (x : α) : Prop :=
  c.setup = .ok () ∧ c.prepare = .ok () ∧ c.create = .ok () ∧ c.work = .ok x ∧ c.shutdown = .ok ()

/-- The constructor of the driver of this worker is reached and returns. -/
def Created (c : Calls K α) : Prop := c.setup = .ok () ∧ c.prepare = .ok () ∧ c.create = .ok ()

instance (c : Calls K α) [DecidableEq (Except Raised Unit)] : Decidable (Created c) := by unfold Created; infer_instance

/-- C165: if nothing raises in any worker, all of them are started, in their order, every driver is shut down, each result comes
with its time and its number, and the pool and the actor system are shut down at the end. -/
theorem C165_all (cs : List (Calls K α)) (xs : List α) (h : List.Forall₂ Succeeds cs xs) :
    program cs = (⟨cs.length, cs.length, .ok (List.zipWith (fun c x => (x, c.stop - c.start, c.number)) cs xs)⟩, true) := by
  have hq : queue cs = ⟨cs.length, cs.length, .ok (List.zipWith (fun c x => (x, c.stop - c.start, c.number)) cs xs)⟩ := by
    induction h with
    | nil => rfl
    | cons h _ ih =>
      obtain ⟨h1, h2, h3, h4, h5⟩ := h
      simp only [queue, C163_success _ _ h1 h2 h3 h4 h5, ih, Except.map, List.length_cons, List.zipWith_cons_cons,
        Nat.add_comm 1]
  simp only [program, hq]

theorem result_some (c : Calls K α) {r : α × K × ℕ} (h : (run c).result = .ok (some r)) : Succeeds c r.1 := by
  obtain ⟨x, t, n⟩ := r
  obtain ⟨h1, h2, h3, h4, h5, -, -⟩ := C163_success_only c x t n h
  exact ⟨h1, h2, h3, h4, h5⟩

/-- C165: every driver that was created is shut down exactly once, also if the program ends early: among the workers that were
started there are as many with a driver as calls of `shutdown`. -/
theorem C165_shutdowns (cs : List (Calls K α)) :
    (queue cs).shutdowns = ((cs.take (queue cs).started).filter fun c => decide (Created c)).length := by
  induction cs with
  | nil => rfl
  | cons c cs ih =>
    have hc : (run c).shutdowns = if Created c then 1 else 0 := C163_shutdown c
    have h1 : (([c] : List (Calls K α)).filter fun c => decide (Created c)).length = if Created c then 1 else 0 := by
      by_cases h : Created c <;> simp [h]
    unfold queue
    simp only
    split
    · simp only [List.take_succ_cons, List.take_zero, h1, hc]
    · simp only [List.take_succ_cons, List.take_zero, h1, hc]
    · simp only [Nat.add_comm 1, List.take_succ_cons, hc, ih]
      by_cases h : Created c
      · simp [h, Nat.add_comm]
      · simp [h]

/-- C165 (violated): the first worker in which anything raises is the last one to be started; whatever comes after it is not run,
the results so far are not summed up, and neither the pool nor the actor system is shut down. -/
theorem C165_failure_violated (before : List (Calls K α)) (xs : List α) (h : List.Forall₂ Succeeds before xs) (c : Calls K α)
    (hc : ∀ x, ¬ Succeeds c x) (after : List (Calls K α)) :
    (program (before ++ c :: after)).2 = false ∧ (program (before ++ c :: after)).1.started = before.length + 1 ∧
    ∃ e, (program (before ++ c :: after)).1.results = .error e := by
  have hq : (queue (before ++ c :: after)).started = before.length + 1 ∧ ∃ e, (queue (before ++ c :: after)).results = .error e := by
    induction h with
    | nil =>
      simp only [List.nil_append, queue]
      cases hr : (run c).result with
      | error e => exact ⟨rfl, e, rfl⟩
      | ok o =>
        cases o with
        | none => exact ⟨rfl, .error, rfl⟩
        | some r => exact absurd (result_some c hr) (hc r.1)
    | cons h _ ih =>
      obtain ⟨h1, h2, h3, h4, h5⟩ := h
      obtain ⟨ih1, e, ih2⟩ := ih
      simp only [List.cons_append, queue, C163_success _ _ h1 h2 h3 h4 h5, ih1, ih2, List.length_cons, Except.map]
      exact ⟨Nat.add_comm 1 _, e, rfl⟩
  obtain ⟨h1, e, h2⟩ := hq
  refine ⟨?_, ?_, e, ?_⟩ <;> simp only [program, h2, h1]

/-- Three simulations: the first succeeds, the second fails after its driver was created, the third would succeed. -/
example : program [(⟨.ok (), .ok (), .ok (), .ok "front", .ok (), 3, 10, 0⟩ : Calls ℤ String),
    ⟨.ok (), .ok (), .ok (), .error .error, .ok (), 10, 11, 1⟩, ⟨.ok (), .ok (), .ok (), .ok "front", .ok (), 11, 15, 2⟩] =
    (⟨2, 2, .error .error⟩, false) := by decide

example : program [(⟨.ok (), .ok (), .ok (), .ok "a", .ok (), 3, 10, 0⟩ : Calls ℤ String),
    ⟨.ok (), .ok (), .ok (), .ok "b", .ok (), 11, 15, 1⟩] = (⟨2, 2, .ok [("a", 7, 0), ("b", 4, 1)]⟩, true) := by decide

end Evogil.Worker
