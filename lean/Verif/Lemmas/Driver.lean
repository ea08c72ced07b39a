import Verif.Model.Driver
import Mathlib.Algebra.Order.Floor.Ring
import Mathlib.Tactic.Linarith
import Mathlib.Tactic.Positivity
import Mathlib.Tactic.FieldSimp
import Mathlib.Logic.Function.Iterate
import Mathlib.Algebra.BigOperators.Group.List.Basic

namespace Evogil

variable {σ π : Type*}

theorem budgetRun_of_ge (D : DriverSig σ π) {b : ℤ} {o : DriverObj σ} (fuel : ℕ)
    (h : b ≤ D.cost o.st) : budgetRun D b fuel o = some ([.completed], o) := by
  unfold budgetRun; rw [if_neg (not_lt.mpr h)]

theorem budgetRun_succ_of_lt (D : DriverSig σ π) {b : ℤ} {o : DriverObj σ} (fuel : ℕ)
    (h : D.cost o.st < b) : budgetRun D b (fuel + 1) o =
      (budgetRun D b fuel (nextStep D o).1).map
        fun res => (.next (nextStep D o).2 :: res.1, res.2) := by
  rw [budgetRun]; rw [if_pos h]

theorem budgetRun_zero_of_lt (D : DriverSig σ π) {b : ℤ} {o : DriverObj σ}
    (h : D.cost o.st < b) : budgetRun D b 0 o = none := by
  rw [budgetRun]; rw [if_pos h]

/-- The messages a driver emits in its next `n` steps. -/
def stepMessages (D : DriverSig σ π) (o : DriverObj σ) (n : ℕ) : List ProgressMessage :=
  (List.range n).map fun i => ⟨o.stepNo + i, D.cost (D.step^[i + 1] o.st)⟩

theorem stepMessages_succ (D : DriverSig σ π) (o : DriverObj σ) (n : ℕ) :
    stepMessages D o (n + 1) = (nextStep D o).2 :: stepMessages D (nextStep D o).1 n := by
  unfold stepMessages
  rw [List.range_succ_eq_map, List.map_cons, List.map_map]
  congr 1
  apply List.map_congr_left
  intro i _
  simp only [Function.comp, nextStep, Nat.succ_eq_add_one]
  congr 1
  omega

theorem budgetRun_spec (D : DriverSig σ π) (b : ℤ) :
    ∀ (fuel : ℕ) (o o' : DriverObj σ) (evs : List (Event ProgressMessage)),
      budgetRun D b fuel o = some (evs, o') →
      ∃ n ≤ fuel, evs = (stepMessages D o n).map .next ++ [.completed] ∧
        o' = ⟨D.step^[n] o.st, o.stepNo + n⟩ ∧
        (∀ i < n, D.cost (D.step^[i] o.st) < b) ∧ b ≤ D.cost (D.step^[n] o.st) := by
  intro fuel
  induction fuel with
  | zero =>
    intro o o' evs h
    by_cases hc : D.cost o.st < b
    · rw [budgetRun_zero_of_lt D hc] at h; cases h
    · rw [budgetRun_of_ge D 0 (not_lt.mp hc)] at h
      injection h with h; injection h with h1 h2
      subst h1 h2
      exact ⟨0, le_refl _, rfl, rfl, by intro i hi; omega, not_lt.mp hc⟩
  | succ fuel ih =>
    intro o o' evs h
    by_cases hc : D.cost o.st < b
    · rw [budgetRun_succ_of_lt D fuel hc] at h
      obtain ⟨⟨e1, o1⟩, hr, he⟩ := Option.map_eq_some_iff.mp h
      injection he with h1 h2
      obtain ⟨n, hn, hev, ho, hlt, hge⟩ := ih _ _ _ hr
      refine ⟨n + 1, by omega, ?_, ?_, ?_, ?_⟩
      · rw [← h1, stepMessages_succ, hev]; rfl
      · rw [← h2]; simp only; rw [ho]; simp only [nextStep, Function.iterate_succ_apply]
        congr 1; omega
      · intro i hi
        cases i with
        | zero => exact hc
        | succ i => rw [Function.iterate_succ_apply]; exact hlt i (by omega)
      · rw [Function.iterate_succ_apply]; exact hge
    · rw [budgetRun_of_ge D _ (not_lt.mp hc)] at h
      injection h with h; injection h with h1 h2
      subst h1 h2
      exact ⟨0, by omega, rfl, rfl, by intro i hi; omega, not_lt.mp hc⟩

theorem budgetRun_some_of_reach (D : DriverSig σ π) (b : ℤ) :
    ∀ (n : ℕ) (o : DriverObj σ), b ≤ D.cost (D.step^[n] o.st) →
      (budgetRun D b n o).isSome := by
  intro n
  induction n with
  | zero => intro o h; rw [budgetRun_of_ge D 0 h]; rfl
  | succ n ih =>
    intro o h
    by_cases hc : D.cost o.st < b
    · rw [budgetRun_succ_of_lt D n hc, Option.isSome_map]
      exact ih _ (by rw [Function.iterate_succ_apply] at h; exact h)
    · rw [budgetRun_of_ge D _ (not_lt.mp hc)]; rfl

theorem cost_iterate_ge (D : DriverSig σ π) (h : ∀ s, D.cost s + 1 ≤ D.cost (D.step s))
    (n : ℕ) : ∀ s, D.cost s + n ≤ D.cost (D.step^[n] s) := by
  induction n with
  | zero => intro s; simp
  | succ n ih =>
    intro s
    rw [Function.iterate_succ_apply]
    have := ih (D.step s)
    have := h s
    push_cast
    omega

theorem cost_iterate_mono (D : DriverSig σ π) (h : ∀ s, D.cost s ≤ D.cost (D.step s))
    (n : ℕ) : ∀ s, D.cost s ≤ D.cost (D.step^[n] s) := by
  induction n with
  | zero => intro s; simp
  | succ n ih => intro s; rw [Function.iterate_succ_apply]; exact (h s).trans (ih _)

theorem stepsRun_spec (D : DriverSig σ π) (n : ℕ) : ∀ o : DriverObj σ,
    stepsRun D n o = ((stepMessages D o n).map .next ++ [.completed],
      ⟨D.step^[n] o.st, o.stepNo + n⟩) := by
  induction n with
  | zero => intro o; rfl
  | succ n ih =>
    intro o
    simp only [stepsRun]
    rw [ih, stepMessages_succ]
    simp only [nextStep, List.map_cons, List.cons_append, Function.iterate_succ_apply]
    congr 2; omega

/-! ### time-limited runs -/

section time
variable {K : Type*} [Field K] [LinearOrder K] [IsStrictOrderedRing K] [FloorRing K]

/-- Number of slots that fit into a duration. -/
theorem le_slots_iff {step t : K} (hs : 0 < step) (ht : 0 ≤ t) (k : ℕ) :
    k ≤ (⌊t / step⌋).toNat ↔ (k : K) * step ≤ t := by
  have h0 : 0 ≤ ⌊t / step⌋ := Int.floor_nonneg.mpr (by positivity)
  rw [← le_div_iff₀ hs]
  constructor
  · intro h
    have h1 : (k : ℤ) ≤ ⌊t / step⌋ := by omega
    have := Int.le_floor.mp h1
    simpa using this
  · intro h
    have : (k : ℤ) ≤ ⌊t / step⌋ := Int.le_floor.mpr (by simpa using h)
    omega

theorem emitSlots_eq {ρ : Type*} {step timeout : K} (hs : 0 < step) (ht : 0 ≤ timeout)
    (prev : ρ) (n : ℕ) : ∀ s : ℕ, emitSlots step timeout prev n s =
      (List.range' (s + 1) (min n ((⌊timeout / step⌋).toNat - s))).map (·, prev) := by
  induction n with
  | zero => intro s; simp [emitSlots]
  | succ n ih =>
    intro s
    simp only [emitSlots]
    rw [ih]
    by_cases h : ((s + 1 : ℕ) : K) * step ≤ timeout
    · rw [if_pos h]
      have h1 := (le_slots_iff hs ht (s + 1)).mpr h
      have h2 : min (n + 1) ((⌊timeout / step⌋).toNat - s) =
          min n ((⌊timeout / step⌋).toNat - (s + 1)) + 1 := by omega
      rw [h2, List.range'_succ, List.map_cons]
    · rw [if_neg h]
      have h1 : ¬ s + 1 ≤ (⌊timeout / step⌋).toNat := fun hc =>
        h ((le_slots_iff hs ht (s + 1)).mp hc)
      have h2 : min (n + 1) ((⌊timeout / step⌋).toNat - s) = 0 := by omega
      have h3 : min n ((⌊timeout / step⌋).toNat - (s + 1)) = 0 := by omega
      rw [h2, h3]
      rfl

/-- After a turn with a previous result the slot counter is the number of slots that have
passed. -/
theorem turn_slots {step e : K} (hs : 0 < step) (s : ℕ) (hse : (s : K) * step ≤ e) :
    s + (⌊(e - step * (s : K)) / step⌋).toNat = (⌊e / step⌋).toNat := by
  have h1 : (e - step * (s : K)) / step = e / step - ((s : ℕ) : K) := by
    field_simp
  rw [h1, Int.floor_sub_natCast]
  have h2 : ((s : ℕ) : ℤ) ≤ ⌊e / step⌋ := Int.le_floor.mpr (by
    rw [le_div_iff₀ hs]; simpa using hse)
  omega

variable {ρ : Type*}

omit [IsStrictOrderedRing K] in
theorem timeRun_nil (step timeout : K) (s : TimeState K ρ) (h : s.elapsed < timeout) :
    timeRun step timeout s [] = none := by
  rw [timeRun, if_pos h]

omit [IsStrictOrderedRing K] in
theorem timeRun_done (step timeout : K) (s : TimeState K ρ) (evs) (h : timeout ≤ s.elapsed) :
    timeRun step timeout s evs = some ([], 0) := by
  rw [timeRun.eq_def]; exact if_neg (not_lt.mpr h)

omit [IsStrictOrderedRing K] in
theorem timeRun_cons (step timeout : K) (s : TimeState K ρ) (dt : K) (res : ρ) (rest)
    (h : s.elapsed < timeout) : timeRun step timeout s ((dt, res) :: rest) =
      (timeRun step timeout (timeTurn step timeout s dt res).1 rest).map
        fun r => ((timeTurn step timeout s dt res).2 ++ r.1, r.2 + 1) := by
  rw [timeRun, if_pos h]

/-- Invariant lemma for a run that already has a previous result. -/
theorem timeRun_spec_aux {step timeout : K} (hs : 0 < step) :
    ∀ (evs : List (K × ρ)) (s : TimeState K ρ) (prev : ρ) (msgs : List (ℕ × ρ)) (n : ℕ),
      (∀ e ∈ evs, 0 ≤ e.1) → 0 ≤ s.elapsed → s.previous = some prev →
      (s.stepNo : K) * step ≤ s.elapsed →
      timeRun step timeout s evs = some (msgs, n) →
      n ≤ evs.length ∧ timeout ≤ s.elapsed + ((evs.take n).map Prod.fst).sum ∧
      (∀ j < n, s.elapsed + ((evs.take j).map Prod.fst).sum < timeout) ∧
      msgs.map Prod.fst = List.range' (s.stepNo + 1)
        (if n = 0 then 0 else (⌊timeout / step⌋).toNat - s.stepNo) ∧
      ∀ m ∈ msgs, s.stepNo < m.1 ∧ ∃ j < n, ((prev :: evs.map Prod.snd)[j]? = some m.2) ∧
        (m.1 : K) * step ≤ s.elapsed + ((evs.take (j + 1)).map Prod.fst).sum ∧
        (j = 0 ∨ s.elapsed + ((evs.take j).map Prod.fst).sum < (m.1 : K) * step) := by
  intro evs
  induction evs with
  | nil =>
    intro s prev msgs n _ _ _ _ h
    by_cases hc : s.elapsed < timeout
    · rw [timeRun_nil _ _ _ hc] at h; cases h
    · rw [timeRun_done _ _ _ _ (not_lt.mp hc)] at h
      injection h with h; injection h with h1 h2
      subst h1 h2
      refine ⟨by simp, by simpa using not_lt.mp hc, by intro j hj; omega, by simp, by simp⟩
  | cons e rest ih =>
    obtain ⟨dt, res⟩ := e
    intro s prev msgs n hnn he hp hsl h
    by_cases hc : s.elapsed < timeout
    · rw [timeRun_cons _ _ _ _ _ _ hc] at h
      obtain ⟨⟨m1, n1⟩, hr, heq⟩ := Option.map_eq_some_iff.mp h
      injection heq with hm hn
      simp only at hn
      have hdt : 0 ≤ dt := hnn (dt, res) (by simp)
      have hto : 0 ≤ timeout := he.trans hc.le
      set e' := s.elapsed + dt with he'
      have hse' : (s.stepNo : K) * step ≤ e' := by rw [he']; linarith
      have he0 : 0 ≤ e' := by rw [he']; linarith
      have hturn : timeTurn step timeout s dt res =
          ({ stepNo := (⌊e' / step⌋).toNat, elapsed := e', previous := some res },
            (List.range' (s.stepNo + 1)
              (min ((⌊e' / step⌋).toNat - s.stepNo) ((⌊timeout / step⌋).toNat - s.stepNo))).map
                (·, prev)) := by
        unfold timeTurn
        rw [hp]
        simp only [← he']
        rw [emitSlots_eq hs hto, turn_slots hs _ hse']
        have := turn_slots hs _ hse'
        congr 4
        omega
      rw [hturn] at hr hm
      simp only at hr hm
      have hsl' : (((⌊e' / step⌋).toNat : ℕ) : K) * step ≤ e' :=
        (le_slots_iff hs he0 _).mp (le_refl _)
      obtain ⟨hlen, hend, hbef, hfst, hmsg⟩ :=
        ih _ _ _ _ (fun e he => hnn e (by simp [he])) he0 rfl hsl' hr
      simp only at hend hbef hfst hmsg
      have hle : s.stepNo ≤ (⌊e' / step⌋).toNat := (le_slots_iff hs he0 _).mpr hse'
      refine ⟨by simp; omega, ?_, ?_, ?_, ?_⟩
      · rw [← hn]; simp only [List.take_succ_cons, List.map_cons, List.sum_cons]
        rw [he'] at hend; linarith
      · intro j hj
        cases j with
        | zero => simpa using hc
        | succ j =>
          have := hbef j (by omega)
          simp only [List.take_succ_cons, List.map_cons, List.sum_cons]
          rw [he'] at this; linarith
      · rw [← hm, ← hn, List.map_append, hfst, List.map_map]
        have hid : (Prod.fst ∘ fun x : ℕ => (x, prev)) = id := rfl
        rw [hid, List.map_id, if_neg (c := n1 + 1 = 0) (by omega)]
        by_cases hn1 : n1 = 0
        · rw [if_pos hn1]
          subst hn1
          have hge : timeout ≤ e' := by simpa using hend
          have hMe : (⌊timeout / step⌋).toNat ≤ (⌊e' / step⌋).toNat :=
            (le_slots_iff hs he0 _).mpr (((le_slots_iff hs hto _).mp (le_refl _)).trans hge)
          rw [min_eq_right (by omega)]; simp
        · rw [if_neg hn1]
          have hlt : e' < timeout := by
            have := hbef 0 (by omega)
            simpa using this
          have hMe : (⌊e' / step⌋).toNat ≤ (⌊timeout / step⌋).toNat :=
            (le_slots_iff hs hto _).mpr (hsl'.trans hlt.le)
          rw [min_eq_left (by omega)]
          have h3 : (⌊e' / step⌋).toNat + 1 =
              (s.stepNo + 1) + 1 * ((⌊e' / step⌋).toNat - s.stepNo) := by omega
          rw [h3, List.range'_append]
          congr 1
          omega
      · intro m hmem
        rw [← hm] at hmem
        rcases List.mem_append.mp hmem with hmem | hmem
        · obtain ⟨k, hk, rfl⟩ := List.mem_map.mp hmem
          rw [List.mem_range'_1] at hk
          refine ⟨by simp only; omega, 0, by omega, rfl, ?_, Or.inl rfl⟩
          have : (k : K) * step ≤ e' := (le_slots_iff hs he0 _).mp (by omega)
          simpa [he'] using this
        · obtain ⟨hk, j, hj, hget, hle1, hlt1⟩ := hmsg m hmem
          refine ⟨by omega, j + 1, by omega, by simpa using hget, ?_, Or.inr ?_⟩
          · rw [List.take_succ_cons, List.map_cons, List.sum_cons]
            rw [he'] at hle1; simp only; linarith
          · rw [List.take_succ_cons, List.map_cons, List.sum_cons]
            rcases hlt1 with rfl | hlt1
            · have : ¬ (m.1 : K) * step ≤ e' := fun hc =>
                absurd ((le_slots_iff hs he0 _).mpr hc) (by omega)
              simp only [List.take_zero, List.map_nil, List.sum_nil, add_zero]
              rw [he'] at this; linarith [not_le.mp this]
            · rw [he'] at hlt1; simp only; linarith
    · rw [timeRun_done _ _ _ _ (not_lt.mp hc)] at h
      injection h with h; injection h with h1 h2
      subst h1 h2
      refine ⟨by simp, by simpa using not_lt.mp hc, by intro j hj; omega, by simp, by simp⟩

end time

end Evogil
