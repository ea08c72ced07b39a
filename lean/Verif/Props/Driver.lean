import Verif.Lemmas.Driver
import Mathlib.Algebra.Order.Ring.Rat
import Mathlib.Data.Rat.Floor
import Mathlib.Tactic.NormNum

/-!
# Runs and workers: C15, C16, C17, C51, C52
-/

namespace Evogil

variable {σ π : Type*}

/-- **C15** A budget run that ends made `n` steps, where `n` is the *first* number of steps
after which the cost has reached the budget; it emitted exactly the messages of those steps
in order, then completed once, and left the driver in the state after these `n` steps. -/
theorem C15_budget_run (D : DriverSig σ π) (b : ℤ) (fuel : ℕ) (o o' : DriverObj σ)
    (evs : List (Event ProgressMessage)) (h : budgetRun D b fuel o = some (evs, o')) :
    ∃ n, evs = ((List.range n).map fun i =>
          Event.next ⟨o.stepNo + i, D.cost (D.step^[i + 1] o.st)⟩) ++ [.completed] ∧
      o' = ⟨D.step^[n] o.st, o.stepNo + n⟩ ∧
      (∀ i < n, D.cost (D.step^[i] o.st) < b) ∧ b ≤ D.cost o'.st := by
  obtain ⟨n, -, h1, h2, h3, h4⟩ := budgetRun_spec D b fuel o o' evs h
  refine ⟨n, ?_, h2, h3, by rw [h2]; exact h4⟩
  rw [h1, stepMessages, List.map_map]; rfl

/-- **C15** All messages but the last report a cost below the budget, the last one reports at
least the budget. -/
theorem C15_messages_below (D : DriverSig σ π) (b : ℤ) (fuel : ℕ) (o o' : DriverObj σ)
    (evs : List (Event ProgressMessage)) (h : budgetRun D b fuel o = some (evs, o'))
    (pre : List (Event ProgressMessage)) (m : ProgressMessage)
    (post : List (Event ProgressMessage)) (hs : evs = pre ++ .next m :: post) :
    (m.cost < b ↔ ∃ m' post', post = .next m' :: post') := by
  obtain ⟨n, -, h2, h5⟩ := budgetRun_spec D b fuel o o' evs h
  have hlen : pre.length < n := by
    by_contra hc
    have hpl : ((stepMessages D o n).map Event.next).length ≤ pre.length := by
      simp [stepMessages]; omega
    have hg : (pre ++ .next m :: post)[pre.length]? = some (.next m) := by simp
    rw [h2] at hs
    rw [← hs, List.getElem?_append_right hpl] at hg
    rw [List.getElem?_singleton] at hg
    split_ifs at hg
    cases hg
  rw [h2] at hs
  have hg : (pre ++ .next m :: post)[pre.length]? = some (.next m) := by simp
  rw [← hs, List.getElem?_append_left (by simp [stepMessages]; omega)] at hg
  simp only [stepMessages, List.map_map, List.getElem?_map, List.getElem?_range hlen,
    Option.map_some, Function.comp, Option.some.injEq, Event.next.injEq] at hg
  have hg2 : (pre ++ .next m :: post)[pre.length + 1]? = post[0]? := by
    rw [List.getElem?_append_right (by omega)]
    simp
  by_cases hl : pre.length + 1 < n
  · rw [← hs, List.getElem?_append_left (by simp [stepMessages]; omega)] at hg2
    simp only [stepMessages, List.map_map, List.getElem?_map, List.getElem?_range hl,
      Option.map_some, Function.comp] at hg2
    constructor
    · intro _
      cases post with
      | nil => simp at hg2
      | cons a t =>
        simp only [List.getElem?_cons_zero, Option.some.injEq] at hg2
        exact ⟨_, t, by rw [← hg2]⟩
    · intro _
      rw [← hg]
      exact h5.2.1 _ hl
  · have hn : n = pre.length + 1 := by omega
    constructor
    · intro hm
      rw [← hg] at hm
      have := h5.2.2
      rw [hn] at this
      exact absurd hm (not_lt.mpr this)
    · rintro ⟨m', post', hp⟩
      rw [← hs, List.getElem?_append_right (by simp [stepMessages]; omega), hp] at hg2
      rw [List.getElem?_singleton] at hg2
      split_ifs at hg2 <;> simp at hg2

/-- **C15** With a budget already reached (in particular a non-positive one at the start) no
step is made. -/
theorem C15_no_step (D : DriverSig σ π) (b : ℤ) (fuel : ℕ) (o : DriverObj σ)
    (h : b ≤ D.cost o.st) : budgetRun D b fuel o = some ([.completed], o) :=
  budgetRun_of_ge D fuel h

/-- **C15** The run ends exactly when some number of steps reaches the budget. -/
theorem C15_ends_iff (D : DriverSig σ π) (b : ℤ) (o : DriverObj σ) :
    (∃ fuel res, budgetRun D b fuel o = some res) ↔ ∃ n, b ≤ D.cost (D.step^[n] o.st) := by
  constructor
  · rintro ⟨fuel, ⟨evs, o'⟩, h⟩
    obtain ⟨n, -, -, -, -, h4⟩ := budgetRun_spec D b fuel o o' evs h
    exact ⟨n, h4⟩
  · rintro ⟨n, hn⟩
    obtain ⟨r, hr⟩ := Option.isSome_iff_exists.mp (budgetRun_some_of_reach D b n o hn)
    exact ⟨n, r, hr⟩

/-- **C15** If every step costs at least one evaluation the run ends, after at most
`budget - cost` steps. -/
theorem C15_terminates (D : DriverSig σ π) (b : ℤ) (o : DriverObj σ)
    (h : ∀ s, D.cost s + 1 ≤ D.cost (D.step s)) :
    (budgetRun D b (b - D.cost o.st).toNat o).isSome := by
  apply budgetRun_some_of_reach
  have := cost_iterate_ge D h (b - D.cost o.st).toNat o.st
  omega

/-- A driver counting its steps in threes. -/
def demoDriver : DriverSig ℕ ℕ := ⟨fun s => s + 1, fun s => 3 * s, fun s => (s, s)⟩

example : budgetRun demoDriver 7 10 ⟨0, 0⟩ =
    some ([.next ⟨0, 3⟩, .next ⟨1, 6⟩, .next ⟨2, 9⟩, .completed], ⟨3, 3⟩) := by decide +kernel

example : (budgetRun demoDriver 7 (7 - demoDriver.cost 0).toNat ⟨0, 0⟩).isSome :=
  C15_terminates demoDriver 7 ⟨0, 0⟩ (by intro s; simp [demoDriver]; omega)

/-- **C17** A run of `n` steps emits exactly `n` messages, numbered consecutively from the
driver's current number, each with the cost after its step, and completes. -/
theorem C17_steps_run (D : DriverSig σ π) (n : ℕ) (o : DriverObj σ) :
    stepsRun D n o = (((List.range n).map fun i =>
        Event.next ⟨o.stepNo + i, D.cost (D.step^[i + 1] o.st)⟩) ++ [.completed],
      ⟨D.step^[n] o.st, o.stepNo + n⟩) := by
  rw [stepsRun_spec, stepMessages, List.map_map]; rfl

example : stepsRun demoDriver 2 ⟨5, 4⟩ =
    ([.next ⟨4, 18⟩, .next ⟨5, 21⟩, .completed], ⟨7, 6⟩) := by decide +kernel

/-! ### C51 -/

/-- **C51** The worker stores, in this order, exactly one result per requested budget, named
after the budget. -/
theorem C51_names (D : DriverSig σ π) (fuel : ℕ) : ∀ (bs : List ℤ) (o o' : DriverObj σ)
    (res : List (Stored π)), budgetWorker D fuel bs o = some (res, o') →
    res.map Stored.name = bs := by
  intro bs
  induction bs with
  | nil => intro o o' res h; simp only [budgetWorker] at h; injection h with h; injection h with h; subst h; rfl
  | cons b bs ih =>
    intro o o' res h
    simp only [budgetWorker] at h
    split at h
    · cases h
    · obtain ⟨⟨r, o2⟩, hr, he⟩ := Option.map_eq_some_iff.mp h
      injection he with h1 h2
      subst h1
      rw [List.map_cons, ih _ _ _ hr]

/-- **C51** The step numbers run on from one budget to the next: if `count` counts the steps
performed on the driver's state, then the driver's step number grows by exactly the number of steps
performed for all budgets together. -/
theorem C51_step_numbers (D : DriverSig σ π) (count : σ → ℕ)
    (hstep : ∀ s, count (D.step s) = count s + 1) (hfin : ∀ s, count (D.finalize s).1 = count s)
    (fuel : ℕ) : ∀ (bs : List ℤ) (o o' : DriverObj σ) (res : List (Stored π)),
    budgetWorker D fuel bs o = some (res, o') →
    o'.stepNo + count o.st = o.stepNo + count o'.st := by
  have hrun : ∀ (b : ℤ) (f : ℕ) (o o' : DriverObj σ) (ev : List (Event ProgressMessage)),
      budgetRun D b f o = some (ev, o') → o'.stepNo + count o.st = o.stepNo + count o'.st := by
    intro b f
    induction f with
    | zero =>
      intro o o' ev h
      rw [budgetRun] at h
      split at h
      · cases h
      · injection h with h; injection h with _ h; subst h; rfl
    | succ f ih =>
      intro o o' ev h
      rw [budgetRun] at h
      split at h
      · obtain ⟨⟨e, o2⟩, hr, he⟩ := Option.map_eq_some_iff.mp h
        injection he with _ he
        simp only at he
        subst he
        have := ih _ _ _ hr
        have h1 := hstep o.st
        simp only [nextStep] at this
        omega
      · injection h with h; injection h with _ h; subst h; rfl
  intro bs
  induction bs with
  | nil =>
    intro o o' res h
    simp only [budgetWorker] at h
    injection h with h; injection h with _ h; subst h; rfl
  | cons b bs ih =>
    intro o o' res h
    simp only [budgetWorker] at h
    split at h
    · cases h
    · rename_i ev o1 hb
      obtain ⟨⟨r, o2⟩, hr, he⟩ := Option.map_eq_some_iff.mp h
      injection he with _ he
      simp only at he
      subst he
      have a1 := hrun _ _ _ _ _ hb
      have a2 := ih _ _ _ hr
      simp only [hfin] at a2
      omega

/-- **C51** Every stored cost is at least its budget, and every stored population is the
finalized one of a state with that cost, provided finalizing does not lower the cost. -/
theorem C51_cost_reached (D : DriverSig σ π) (hf : ∀ s, D.cost s ≤ D.cost (D.finalize s).1)
    (fuel : ℕ) : ∀ (bs : List ℤ) (o o' : DriverObj σ)
    (res : List (Stored π)), budgetWorker D fuel bs o = some (res, o') →
    ∀ r ∈ res, r.name ≤ r.cost ∧
      ∃ s, r.pop = (D.finalize s).2 ∧ r.cost = D.cost (D.finalize s).1 := by
  intro bs
  induction bs with
  | nil =>
    intro o o' res h
    simp only [budgetWorker] at h
    injection h with h; injection h with h
    subst h; simp
  | cons b bs ih =>
    intro o o' res h
    simp only [budgetWorker] at h
    split at h
    · cases h
    next evs o1 hrun =>
      obtain ⟨⟨r, o2⟩, hr, he⟩ := Option.map_eq_some_iff.mp h
      injection he with h1 h2
      subst h1
      obtain ⟨n, -, -, ho, -, hge⟩ := budgetRun_spec D b fuel o o1 evs hrun
      intro x hx
      rcases List.mem_cons.mp hx with rfl | hx
      · refine ⟨?_, o1.st, rfl, rfl⟩
        refine le_trans ?_ (hf _)
        rw [ho]; exact hge
      · exact ih _ _ _ hr x hx

/-- **C51** The stored costs never decrease, if neither stepping nor finalizing lowers the
cost. -/
theorem C51_costs_sorted (D : DriverSig σ π) (hs : ∀ s, D.cost s ≤ D.cost (D.step s))
    (hf : ∀ s, D.cost s ≤ D.cost (D.finalize s).1)
    (fuel : ℕ) : ∀ (bs : List ℤ) (o o' : DriverObj σ)
    (res : List (Stored π)), budgetWorker D fuel bs o = some (res, o') →
    (D.cost o.st :: res.map Stored.cost).Pairwise (· ≤ ·) := by
  intro bs
  induction bs with
  | nil =>
    intro o o' res h
    simp only [budgetWorker] at h
    injection h with h; injection h with h
    subst h; simp
  | cons b bs ih =>
    intro o o' res h
    simp only [budgetWorker] at h
    split at h
    · cases h
    next evs o1 hrun =>
      obtain ⟨⟨r, o2⟩, hr, he⟩ := Option.map_eq_some_iff.mp h
      injection he with h1 h2
      subst h1
      obtain ⟨n, -, -, ho, -, hge⟩ := budgetRun_spec D b fuel o o1 evs hrun
      have hrest := ih _ _ _ hr
      simp only at hrest
      have hle : D.cost o.st ≤ D.cost (D.finalize o1.st).1 := by
        refine le_trans ?_ (hf _)
        rw [ho]; exact cost_iterate_mono D hs n _
      rw [List.map_cons, List.pairwise_cons]
      refine ⟨?_, hrest⟩
      intro x hx
      rcases List.mem_cons.mp hx with rfl | hx
      · exact hle
      · exact hle.trans ((List.pairwise_cons.mp hrest).1 x hx)

/-- **C51** If every step costs at least one evaluation the worker finishes. -/
theorem C51_terminates (D : DriverSig σ π) (hs : ∀ s, D.cost s + 1 ≤ D.cost (D.step s))
    (hf : ∀ s, D.cost s ≤ D.cost (D.finalize s).1) :
    ∀ (bs : List ℤ) (o : DriverObj σ) (fuel : ℕ), (∀ b ∈ bs, b - D.cost o.st ≤ fuel) →
      (budgetWorker D fuel bs o).isSome := by
  intro bs
  induction bs with
  | nil => intro o fuel _; rfl
  | cons b bs ih =>
    intro o fuel hb
    have hsome : (budgetRun D b fuel o).isSome := by
      apply budgetRun_some_of_reach
      have := cost_iterate_ge D hs fuel o.st
      have := hb b (by simp)
      omega
    obtain ⟨⟨evs, o1⟩, hrun⟩ := Option.isSome_iff_exists.mp hsome
    simp only [budgetWorker, hrun, Option.isSome_map]
    obtain ⟨n, -, -, ho, -, hge⟩ := budgetRun_spec D b fuel o o1 evs hrun
    apply ih
    intro b' hb'
    have h1 := hb b' (by simp [hb'])
    have h2 := cost_iterate_mono D (fun s => by have := hs s; omega) n o.st
    have h3 := hf o1.st
    rw [ho] at h3 ⊢
    simp only at h3 ⊢
    omega

example : (budgetWorker demoDriver 10 [4, 5, 12] ⟨0, 0⟩).map Prod.fst =
    some [⟨4, 6, 2⟩, ⟨5, 6, 2⟩, ⟨12, 12, 4⟩] := by decide +kernel

/-! ### C16 -/

section time
variable {K : Type*} [Field K] [LinearOrder K] [IsStrictOrderedRing K] [FloorRing K]
  {ρ : Type*}

/-- Time elapsed after the first `j` steps. -/
def timeAfter (evs : List (K × ρ)) (j : ℕ) : K := ((evs.take j).map Prod.fst).sum

/-- Initial state of a `TimeRun` (driver.py:84-88, 94). -/
def timeInit : TimeState K ρ := ⟨0, 0, none⟩

/-- What a user expects of the message of slot `k`: it carries the result of the last step
that was finished before the slot's time. -/
def SlotFaithful (step : K) (evs : List (K × ρ)) (k : ℕ) (r : ρ) : Prop :=
  ∃ j, (evs.map Prod.snd)[j]? = some r ∧ timeAfter evs (j + 1) ≤ (k : K) * step ∧
    (k : K) * step ≤ timeAfter evs (j + 2)

/-- **C16 (partial)** For positive step and non-negative durations: the run stops after the
first `n` steps reaching the timeout; if it made at least two steps it emits exactly the slots
`1, ..., ⌊timeout/step⌋` once each and in order (with fewer steps it emits nothing); and the
message of slot `k` is the result of the `j`-th step (0-based), where step `j+1` is the one
during which the slot passed, and step `j` was finished before the slot — unless it is the
very first step. Missing (and false, see `C16_first_slot_false`): the slots that pass during
the first step should not report a result that did not exist yet. -/
theorem C16_time_run_partial {step timeout : K} (hs : 0 < step) (ht : 0 < timeout)
    (evs : List (K × ρ)) (hd : ∀ e ∈ evs, 0 ≤ e.1) (msgs : List (ℕ × ρ)) (n : ℕ)
    (h : timeRun step timeout timeInit evs = some (msgs, n)) :
    n ≤ evs.length ∧ timeout ≤ timeAfter evs n ∧ (∀ j < n, timeAfter evs j < timeout) ∧
    msgs.map Prod.fst = List.range' 1 (if n ≤ 1 then 0 else (⌊timeout / step⌋).toNat) ∧
    ∀ m ∈ msgs, (m.1 : K) * step ≤ timeout ∧ ∃ j, j + 1 < n ∧
      (evs.map Prod.snd)[j]? = some m.2 ∧
      (m.1 : K) * step ≤ timeAfter evs (j + 2) ∧
      (j = 0 ∨ timeAfter evs (j + 1) < (m.1 : K) * step) := by
  cases evs with
  | nil => rw [timeRun_nil _ _ _ (by simpa [timeInit] using ht)] at h; cases h
  | cons e rest =>
    obtain ⟨dt, res⟩ := e
    rw [timeRun_cons _ _ _ _ _ _ (by simpa [timeInit] using ht)] at h
    obtain ⟨⟨m1, n1⟩, hr, heq⟩ := Option.map_eq_some_iff.mp h
    injection heq with hm hn
    have hdt : 0 ≤ dt := hd (dt, res) (by simp)
    have hturn : timeTurn step timeout timeInit dt res =
        (⟨0, dt, some res⟩, ([] : List (ℕ × ρ))) := by simp [timeTurn, timeInit]
    rw [hturn] at hr hm
    simp only [List.nil_append] at hr hm
    simp only at hn
    obtain ⟨hlen, hend, hbef, hfst, hmsg⟩ := timeRun_spec_aux hs rest _ res m1 n1
      (fun e he => hd e (by simp [he])) hdt rfl (by simpa using hdt) hr
    simp only [Nat.zero_add, Nat.sub_zero] at hend hbef hfst hmsg
    have hta : ∀ j, timeAfter ((dt, res) :: rest) (j + 1) =
        dt + ((rest.take j).map Prod.fst).sum := by
      intro j; simp [timeAfter]
    have hmap : msgs.map Prod.fst =
        List.range' 1 (if n ≤ 1 then 0 else (⌊timeout / step⌋).toNat) := by
      rw [← hm, hfst]
      congr 1
      by_cases h0 : n1 = 0
      · rw [if_pos h0, if_pos (by omega)]
      · rw [if_neg h0, if_neg (by omega)]
    refine ⟨by simp; omega, ?_, ?_, hmap, ?_⟩
    · rw [← hn, hta]; exact hend
    · intro j hj
      cases j with
      | zero => simpa [timeAfter] using ht
      | succ j => rw [hta]; exact hbef j (by omega)
    · intro m hmem
      refine ⟨?_, ?_⟩
      · have h1 : m.1 ∈ msgs.map Prod.fst := List.mem_map_of_mem hmem
        rw [hmap, List.mem_range'_1] at h1
        apply (le_slots_iff hs ht.le _).mp
        split_ifs at h1 <;> omega
      · obtain ⟨_, j, hj, hget, hle, hlt⟩ := hmsg m (by rw [hm]; exact hmem)
        refine ⟨j, by omega, by simpa using hget, ?_, ?_⟩
        · rw [hta]; exact hle
        · rcases hlt with h0 | hlt
          · exact Or.inl h0
          · right; rw [hta]; exact hlt

/-- **C16** From the second step on the expectation is met: the message of every slot that
passes after the first step is the last result finished before the slot. -/
theorem C16_slot_faithful_after_first_step {step timeout : K} (hs : 0 < step) (ht : 0 < timeout)
    (evs : List (K × ρ)) (hd : ∀ e ∈ evs, 0 ≤ e.1) (msgs : List (ℕ × ρ)) (n : ℕ)
    (h : timeRun step timeout timeInit evs = some (msgs, n)) (m) (hm : m ∈ msgs)
    (hfirst : timeAfter evs 1 ≤ (m.1 : K) * step) : SlotFaithful step evs m.1 m.2 := by
  obtain ⟨-, -, -, -, hmsg⟩ := C16_time_run_partial hs ht evs hd msgs n h
  obtain ⟨-, j, -, hget, hle, hlt⟩ := hmsg m hm
  refine ⟨j, hget, ?_, hle⟩
  rcases hlt with rfl | hlt
  · exact hfirst
  · exact hlt.le

/-- **C16** The run ends as soon as the durations add up to the timeout. -/
theorem C16_ends {step timeout : K} (evs : List (K × ρ))
    (h : timeout ≤ timeAfter evs evs.length) :
    (timeRun step timeout timeInit evs).isSome := by
  suffices H : ∀ (evs : List (K × ρ)) (s : TimeState K ρ),
      timeout ≤ s.elapsed + (evs.map Prod.fst).sum → (timeRun step timeout s evs).isSome by
    apply H
    simpa [timeAfter, timeInit] using h
  clear h evs
  intro evs
  induction evs with
  | nil =>
    intro s h
    rw [timeRun_done _ _ _ _ (by simpa using h)]; rfl
  | cons e rest ih =>
    obtain ⟨dt, res⟩ := e
    intro s h
    by_cases hc : s.elapsed < timeout
    · rw [timeRun_cons _ _ _ _ _ _ hc, Option.isSome_map]
      apply ih
      have : (timeTurn step timeout s dt res).1.elapsed = s.elapsed + dt := by
        unfold timeTurn; cases s.previous <;> rfl
      rw [this]
      simp only [List.map_cons, List.sum_cons] at h
      linarith
    · rw [timeRun_done _ _ _ _ (not_lt.mp hc)]; rfl

end time

/-- Two steps of three seconds, a slot each second, five seconds in total: slots 1 to 5 report
the first step's result. -/
theorem C16_witness_run :
    timeRun (1 : ℚ) 5 timeInit [(3, 10), (3, 20)] =
      some ([(1, 10), (2, 10), (3, 10), (4, 10), (5, 10)], 2) := by
  have h1 : ⌊(6 : ℚ)⌋ = 6 := by norm_num
  have h2 : Int.toNat 6 = 6 := rfl
  norm_num [timeRun, timeTurn, timeInit, emitSlots, h1, h2]

/-- **C16, negation** It is false that every slot reports a result that existed at the slot's
time: slot 1 (time 1) reports the result finished at time 3. -/
theorem C16_first_slot_false :
    ¬ ∀ (step timeout : ℚ) (evs : List (ℚ × ℕ)) (msgs : List (ℕ × ℕ)) (n : ℕ),
      0 < step → 0 < timeout → (∀ e ∈ evs, 0 ≤ e.1) →
      timeRun step timeout timeInit evs = some (msgs, n) →
      ∀ m ∈ msgs, SlotFaithful step evs m.1 m.2 := by
  intro H
  obtain ⟨j, hj, hle, -⟩ := H 1 5 _ _ _ (by norm_num) (by norm_num) (by simp) C16_witness_run
    (1, 10) (by simp)
  match j, hj with
  | 0, _ => norm_num [timeAfter] at hle
  | 1, hj => simp at hj
  | _ + 2, hj => simp at hj

/-! ### C52 -/

section time
variable {K : Type*} [Field K] [LinearOrder K] [FloorRing K]

theorem timeWorkerStore_pure (D : DriverSig σ π) (hp : ∀ s, (D.finalize s).1 = s)
    (s : σ) : ∀ ms, timeWorkerStore D ms s =
      (ms.map fun km => (km.2, km.1, D.cost s, (D.finalize s).2), s) := by
  intro ms
  induction ms with
  | nil => rfl
  | cons a t ih =>
    obtain ⟨k, m⟩ := a
    simp only [timeWorkerStore, hp, ih, List.map_cons]

omit [FloorRing K] in
theorem emitSlots_snd {ρ : Type*} (step timeout : K) (prev : ρ) (n : ℕ) : ∀ s,
    ∀ x ∈ emitSlots step timeout prev n s, x.2 = prev := by
  induction n with
  | zero => intro s x hx; simp [emitSlots] at hx
  | succ n ih =>
    intro s x hx
    simp only [emitSlots] at hx
    split_ifs at hx
    · rcases List.mem_cons.mp hx with rfl | hx
      · rfl
      · exact ih _ x hx
    · exact ih _ x hx

/-- The message of the `i`-th step (0-based) of a driver. -/
def messageOf (D : DriverSig σ π) (o : DriverObj σ) (i : ℕ) : ProgressMessage :=
  ⟨o.stepNo + i, D.cost (D.step^[i + 1] o.st)⟩

theorem timeWorker_aux (D : DriverSig σ π) (hp : ∀ s, (D.finalize s).1 = s)
    (step timeout : K) (o : DriverObj σ) :
    ∀ (dts : List K) (i : ℕ) (s : TimeState K ProgressMessage) (out),
      (∀ m, s.previous = some m → 0 < i ∧ m = messageOf D o (i - 1)) →
      timeWorker D step timeout s dts ⟨D.step^[i] o.st, o.stepNo + i⟩ = some out →
      (∃ n, timeRun step timeout s
          (dts.zip ((List.range dts.length).map fun j => messageOf D o (i + j))) =
        some (out.map fun x => (x.2.1, x.1), n)) ∧
      ∀ x ∈ out, ∃ j, x.1 = messageOf D o j ∧ x.2.2.1 = D.cost (D.step^[j + 2] o.st) ∧
        x.2.2.2 = (D.finalize (D.step^[j + 2] o.st)).2 := by
  intro dts
  induction dts with
  | nil =>
    intro i s out hprev h
    rw [timeWorker.eq_def] at h
    by_cases hc : s.elapsed < timeout
    · simp [hc] at h
    · simp only [hc, if_false] at h
      injection h with h
      subst h
      refine ⟨⟨0, ?_⟩, by simp⟩
      rw [timeRun_done _ _ _ _ (not_lt.mp hc)]; rfl
  | cons dt rest ih =>
    intro i s out hprev h
    rw [timeWorker.eq_def] at h
    by_cases hc : s.elapsed < timeout
    · simp only [hc, if_true] at h
      obtain ⟨out1, hr, he⟩ := Option.map_eq_some_iff.mp h
      have hn1 : (nextStep D ⟨D.step^[i] o.st, o.stepNo + i⟩).2 = messageOf D o i := by
        simp only [nextStep, messageOf, Function.iterate_succ_apply']
      have hn2 : (nextStep D ⟨D.step^[i] o.st, o.stepNo + i⟩).1 =
          ⟨D.step^[i + 1] o.st, o.stepNo + (i + 1)⟩ := by
        simp only [nextStep, Function.iterate_succ_apply']; rfl
      rw [hn1, hn2, timeWorkerStore_pure D hp] at hr he
      simp only at hr he
      have hprev' : ∀ m, (timeTurn step timeout s dt (messageOf D o i)).1.previous = some m →
          0 < i + 1 ∧ m = messageOf D o (i + 1 - 1) := by
        intro m hm
        refine ⟨by omega, ?_⟩
        unfold timeTurn at hm
        cases hsp : s.previous <;> rw [hsp] at hm <;> simp only [Option.some.injEq] at hm <;>
          rw [← hm] <;> rfl
      obtain ⟨⟨n, hrun⟩, hall⟩ := ih (i + 1) _ out1 hprev' hr
      refine ⟨⟨n + 1, ?_⟩, ?_⟩
      · have hz : (dt :: rest).zip ((List.range (dt :: rest).length).map
            fun j => messageOf D o (i + j)) = (dt, messageOf D o i) ::
            rest.zip ((List.range rest.length).map fun j => messageOf D o (i + 1 + j)) := by
          rw [List.length_cons, List.range_succ_eq_map, List.map_cons, List.map_map,
            List.zip_cons_cons]
          congr 2
          apply List.map_congr_left
          intro j _
          simp only [Function.comp, Nat.succ_eq_add_one]
          congr 1; omega
        rw [hz, timeRun_cons _ _ _ _ _ _ hc, hrun, ← he]
        simp [List.map_append, Function.comp_def]
      · intro x hx
        rw [← he] at hx
        rcases List.mem_append.mp hx with hx | hx
        · obtain ⟨⟨k, m⟩, hkm, rfl⟩ := List.mem_map.mp hx
          have : ∃ j, m = messageOf D o j ∧ i = j + 1 := by
            unfold timeTurn at hkm
            cases hsp : s.previous with
            | none => rw [hsp] at hkm; simp at hkm
            | some prev =>
              rw [hsp] at hkm
              simp only at hkm
              have h1 := emitSlots_snd _ _ _ _ _ _ hkm
              obtain ⟨h2, h3⟩ := hprev prev hsp
              simp only at h1
              exact ⟨i - 1, by rw [h1, h3], by omega⟩
          obtain ⟨j, hj, rfl⟩ := this
          exact ⟨j, hj, rfl, rfl⟩
        · exact hall x hx
    · simp only [hc, if_false] at h
      injection h with h
      subst h
      refine ⟨⟨0, ?_⟩, by simp⟩
      rw [timeRun_done _ _ _ _ (not_lt.mp hc)]; rfl

/-- **C52 (partial)** For a driver whose `finalized_population` does not change it, the worker
stores one result for each message of the time run, under the message's slot, but the stored
cost and population are those *one step later* than the step the message reports. The full
claim, that they belong to the reported step, is false: `C52_false`. -/
theorem C52_stored_one_step_late_partial (D : DriverSig σ π) (hp : ∀ s, (D.finalize s).1 = s)
    (step timeout : K) (o : DriverObj σ) (dts : List K) (out)
    (h : timeWorker D step timeout ⟨0, 0, none⟩ dts o = some out) :
    (∃ n, timeRun step timeout ⟨0, 0, none⟩
        (dts.zip ((List.range dts.length).map fun j => messageOf D o j)) =
      some (out.map fun x => (x.2.1, x.1), n)) ∧
    ∀ x ∈ out, ∃ j, x.1 = messageOf D o j ∧ x.2.2.1 = D.cost (D.step^[j + 2] o.st) ∧
      x.2.2.2 = (D.finalize (D.step^[j + 2] o.st)).2 := by
  have := timeWorker_aux D hp step timeout o dts 0 ⟨0, 0, none⟩ out (by simp) h
  simpa using this

end time

theorem C52_witness_run : timeWorker demoDriver (2 : ℚ) 5 ⟨0, 0, none⟩ [3, 3] ⟨0, 0⟩ =
    some [(⟨0, 3⟩, 1, 6, 2), (⟨0, 3⟩, 2, 6, 2)] := by
  have h1 : ⌊(3 : ℚ)⌋ = 3 := by norm_num
  have h2 : Int.toNat 3 = 3 := rfl
  norm_num [timeWorker, timeWorkerStore, timeTurn, emitSlots, nextStep, demoDriver, h1, h2]

/-- **C52, negation** The stored cost need not be the cost of the reported message, and the
stored population need not be the one after the reported step. -/
theorem C52_false :
    ¬ ∀ (dts : List ℚ) (step timeout : ℚ) (out),
      timeWorker demoDriver step timeout ⟨0, 0, none⟩ dts ⟨0, 0⟩ = some out →
      ∀ x ∈ out, x.2.2.1 = x.1.cost ∧
        x.2.2.2 = (demoDriver.finalize (demoDriver.step^[x.1.stepNo + 1] 0)).2 := by
  intro H
  have := (H _ _ _ _ C52_witness_run (⟨0, 3⟩, 1, 6, 2) (by simp)).1
  simp at this

end Evogil
