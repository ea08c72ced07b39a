import Verif.Model.RunParallel

/-! # C49: a failing simulation and the others -/

namespace Evogil.RunParallel

variable {C T : Type*} [DecidableEq C]

/-- **C49, as stated:** all jobs are started and a summary is produced, whichever workers fail. -/
def FailureIsolated (C T : Type*) [DecidableEq C] [AddMonoid T] : Prop :=
  ∀ cases : List (Job C T), (runParallel cases).1 = cases ∧ (runParallel cases).2.isSome

omit [DecidableEq C] in
theorem pipeline_ok (cases : List (Job C T)) (h : ∀ j ∈ cases, j.outcome.isSome) :
    pipeline cases = (cases, some (cases.map Job.outcome)) := by
  induction cases with
  | nil => rfl
  | cons j rest ih =>
    have hj := h j (by simp)
    cases ho : j.outcome with
    | none => rw [ho] at hj; simp at hj
    | some t =>
      rw [pipeline.eq_def]
      simp only [ho, ih (fun x hx => h x (by simp [hx]))]
      simp [ho]

omit [DecidableEq C] in
theorem pipeline_fail (pre post : List (Job C T)) (j : Job C T)
    (h : ∀ x ∈ pre, x.outcome.isSome) (hj : j.outcome = none) :
    pipeline (pre ++ j :: post) = (pre ++ [j], none) := by
  induction pre with
  | nil => rw [List.nil_append, pipeline.eq_def]; simp [hj]
  | cons x rest ih =>
    have hx := h x (by simp)
    cases ho : x.outcome with
    | none => rw [ho] at hx; simp at hx
    | some t =>
      rw [List.cons_append, pipeline.eq_def]
      simp only [ho, ih (fun y hy => h y (by simp [hy]))]
      simp

/-- **C49 fails.** The first failing worker ends the whole run: the jobs queued behind it are never
started and no summary is produced. -/
theorem runParallel_stops_at_failure [AddMonoid T] (pre post : List (Job C T)) (j : Job C T)
    (h : ∀ x ∈ pre, x.outcome.isSome) (hj : j.outcome = none) :
    runParallel (pre ++ j :: post) = (pre ++ [j], none) := by
  unfold runParallel; rw [pipeline_fail pre post j h hj]; rfl

/-- **C49 fails**, with a witness: one failing worker in front of a good one. -/
theorem not_failureIsolated : ¬ FailureIsolated ℕ ℕ := by
  intro h
  have := (h [⟨0, none⟩, ⟨1, some 5⟩]).2
  rw [show [(⟨0, none⟩ : Job ℕ ℕ), ⟨1, some 5⟩] = [] ++ ⟨0, none⟩ :: [⟨1, some 5⟩] from rfl,
    runParallel_stops_at_failure [] _ _ (by simp) rfl] at this
  simp at this

theorem sum_addTime [AddCommMonoid T] (s : List (C × T)) (c : C) (t : T) :
    ((addTime s c t).map Prod.snd).sum = (s.map Prod.snd).sum + t := by
  induction s with
  | nil => simp [addTime]
  | cons e s ih =>
    obtain ⟨c', t'⟩ := e
    rw [addTime]
    by_cases h : c' = c
    · rw [if_pos h]; simp only [List.map_cons, List.sum_cons]; abel
    · rw [if_neg h]; simp only [List.map_cons, List.sum_cons, ih]; abel

/-- the time attributed to one configuration -/
def timeOf [AddCommMonoid T] (s : List (C × T)) (c : C) : T :=
  ((s.filter (fun e => e.1 = c)).map Prod.snd).sum

theorem timeOf_addTime [AddCommMonoid T] (s : List (C × T)) (c d : C) (t : T) :
    timeOf (addTime s c t) d = timeOf s d + if c = d then t else 0 := by
  induction s with
  | nil => by_cases h : c = d <;> simp [addTime, timeOf, h]
  | cons e s ih =>
    obtain ⟨c', t'⟩ := e
    rw [addTime]
    unfold timeOf at ih ⊢
    by_cases h : c' = c
    · rw [if_pos h]
      subst h
      by_cases hd : c' = d
      · simp [hd]; abel
      · simp [hd]
    · rw [if_neg h]
      by_cases hd : c' = d
      · simp only [hd, decide_true, List.filter_cons_of_pos, List.map_cons, List.sum_cons]
        rw [ih]; abel
      · simp only [hd, decide_false, Bool.false_eq_true, not_false_eq_true,
          List.filter_cons_of_neg]
        exact ih

theorem keys_addTime [AddCommMonoid T] (s : List (C × T)) (c d : C) (t : T) :
    d ∈ (addTime s c t).map Prod.fst ↔ d ∈ s.map Prod.fst ∨ d = c := by
  induction s with
  | nil => simp [addTime]
  | cons e s ih =>
    obtain ⟨c', t'⟩ := e
    rw [addTime]
    by_cases h : c' = c
    · rw [if_pos h]; subst h; simp; tauto
    · rw [if_neg h]
      simp only [List.map_cons, List.mem_cons, ih]; tauto

theorem nodup_addTime [AddCommMonoid T] (s : List (C × T)) (c : C) (t : T)
    (h : (s.map Prod.fst).Nodup) : ((addTime s c t).map Prod.fst).Nodup := by
  induction s with
  | nil => simp [addTime]
  | cons e s ih =>
    obtain ⟨c', t'⟩ := e
    rw [addTime]
    simp only [List.map_cons, List.nodup_cons] at h
    by_cases hc : c' = c
    · rw [if_pos hc]; simpa using h
    · rw [if_neg hc]
      simp only [List.map_cons, List.nodup_cons]
      refine ⟨?_, ih h.2⟩
      rw [keys_addTime]
      rintro (g | g)
      · exact h.1 g
      · exact hc g

/-- **C49, the part that holds.** If every worker succeeds, every job is started, in queue order, a
summary is produced, its total is the sum of all process times, no error is listed, and the table
has one entry per configuration holding the time spent on the jobs of that configuration. -/
theorem runParallel_all_ok_partial [AddCommMonoid T] (cases : List (C × T)) :
    ∃ s, runParallel (cases.map fun p => (⟨p.1, some p.2⟩ : Job C T))
        = (cases.map fun p => ⟨p.1, some p.2⟩, some s) ∧
      s.procTimes = (cases.map Prod.snd).sum ∧ s.errors = [] ∧
      (s.times.map Prod.fst).Nodup ∧ (∀ c, c ∈ s.times.map Prod.fst ↔ c ∈ cases.map Prod.fst) ∧
      ∀ c, timeOf s.times c = ((cases.filter (fun p => p.1 = c)).map Prod.snd).sum := by
  have hp := pipeline_ok (cases.map fun p => (⟨p.1, some p.2⟩ : Job C T)) (by
    intro j hj
    obtain ⟨p, -, rfl⟩ := List.mem_map.1 hj
    rfl)
  refine ⟨_, by unfold runParallel; rw [hp]; rfl, ?_, ?_, ?_⟩
  · simp [logSummary, List.filterMap_map, Function.comp_def]
  · simp only [logSummary, List.map_eq_nil_iff, List.filter_eq_nil_iff]
    rintro ⟨a, b⟩ hab
    have := (List.of_mem_zip hab).1
    simp only [List.map_map, List.mem_map, Function.comp] at this
    obtain ⟨q, -, e⟩ := this
    simp [← e]
  · have key : ∀ acc : List (C × T), (acc.map Prod.fst).Nodup →
        let r := ((cases.map fun p => (⟨p.1, some p.2⟩ : Job C T)).zip
            ((cases.map fun p => (⟨p.1, some p.2⟩ : Job C T)).map Job.outcome)).foldl
          (fun s p => match p.2 with
            | none => s
            | some t => addTime s p.1.config t) acc
        (r.map Prod.fst).Nodup ∧
        (∀ c, c ∈ r.map Prod.fst ↔ c ∈ acc.map Prod.fst ∨ c ∈ cases.map Prod.fst) ∧
        ∀ c, timeOf r c
          = timeOf acc c + ((cases.filter (fun p => p.1 = c)).map Prod.snd).sum := by
      clear hp
      induction cases with
      | nil => intro acc h; simp [h]
      | cons p cases ih =>
        intro acc h
        obtain ⟨h1, h2, h3⟩ := ih (addTime acc p.1 p.2) (nodup_addTime _ _ _ h)
        simp only [List.map_cons, List.zip_cons_cons, List.foldl_cons]
        refine ⟨h1, ?_, ?_⟩
        · intro c
          rw [h2 c, keys_addTime]; simp only [List.mem_cons]; tauto
        · intro c
          rw [h3 c, timeOf_addTime]
          by_cases hc : p.1 = c
          · simp [hc]; abel
          · simp [hc]
    obtain ⟨h1, h2, h3⟩ := key [] (by simp)
    refine ⟨h1, ?_, ?_⟩
    · intro c
      refine (h2 c).trans ?_
      simp
    · intro c
      refine (h3 c).trans ?_
      simp [timeOf]

example : (runParallel [⟨"a", some 2⟩, ⟨"b", some 3⟩, (⟨"a", some 4⟩ : Job String ℕ)]).2.map
    (fun s => (s.procTimes, s.errors, s.times)) = some (9, [], [("a", 6), ("b", 3)]) := by decide

end Evogil.RunParallel
