import Verif.Lemmas.Summary
import Verif.Props.Factory

/-!
# C109: what `run budget` stores, `summary` counts
-/

set_option linter.unusedSectionVars false

namespace Evogil.Storage

open Spec Factory

variable {C : Type*}

/-- **C109 (the rows).** In a results directory that can be listed, `summary` prints one row for every
problem, algorithm and budget of which there is a result, and no other row. The number in it is the number of
runs with a result for this budget. -/
theorem C109_rows {fs : FS C} {ls : RPath → List Name} {dir : RPath} (h : Listable fs dir)
    (hls : Lists ls fs) (today : Name) (rnd : ℕ) :
    ∃ rows, summary fs ls dir today rnd = .ok rows ∧ (rows.map fun r => (r.1, r.2.1, r.2.2.1)).Nodup ∧
      ∀ p a b n, (p, a, b, n) ∈ rows ↔ 0 < n ∧ Holds fs dir p a b n := by
  rcases hd : fs dir with _ | _ | v
  · refine ⟨[], by simp [summary, iterdir, hd], by simp, fun p a b n => ?_⟩
    simp only [List.not_mem_nil, false_iff, not_and]
    intro hn hh
    obtain ⟨id, hst⟩ := holds_stored hn hh
    rw [(stored_dirs h.wf hst).2.2.2] at hd
    cases hd
  · obtain ⟨hnd, hmem⟩ := hls _ hd
    obtain ⟨rows, hr, hrn, hrm⟩ := problemRows_spec h hls today rnd (ls dir) hnd
      fun p hp => (hmem p).1 hp
    refine ⟨rows, by simp only [summary, iterdir, hd, hr], hrn, fun p a b n => ?_⟩
    rw [hrm]
    constructor
    · exact fun h => h.2
    · rintro ⟨hn, hh⟩
      refine ⟨?_, hn, hh⟩
      obtain ⟨id, hst⟩ := holds_stored hn hh
      rw [hmem, (stored_dirs h.wf hst).2.2.1]
      simp
  · exact absurd hd (h.top v)

/-- **C109 (a run of the command).** In a tidy results directory a command none of whose drivers fails
stores exactly one result for each case and each of its budgets, keeps what was there, and leaves the
directory tidy. -/
theorem C109_run {dir : RPath} (tasks : List (Task C)) {fs : FS C} (h : Tidy fs dir)
    (hdir : ∀ t ∈ tasks, t.case.resultsDir = dir) (hp : ∀ t ∈ tasks, t.case.problem ∈ problemModules)
    (hid : ∀ t ∈ tasks, IsRunName t.case.id) (hf : ∀ t ∈ tasks, t.fails = false) :
    ∃ fs', runTasks fs tasks = (fs', true) ∧ Tidy fs' dir ∧
      ∀ p a b id, Stored fs' dir p a b id ↔
        Stored fs dir p a b id ∨
          ∃ t ∈ tasks, t.case = ⟨dir, p, a, id⟩ ∧ b ∈ t.results.map Prod.fst :=
  runTasks_tidy tasks h hdir hp hid hf

theorem runTasks_append (fs : FS C) (pre post : List (Task C)) (fs' : FS C)
    (h : runTasks fs pre = (fs', true)) : runTasks fs (pre ++ post) = runTasks fs' post := by
  induction pre generalizing fs with
  | nil => rw [runTasks] at h; cases h; rfl
  | cons t pre ih =>
    rw [runTasks] at h
    rw [List.cons_append, runTasks]
    split at h
    · rename_i fs1 _
      exact ih fs1 h
    · cases h

/-- **C109 (an interrupted command).** If the driver of a case fails, the command stops there. Everything
stored until then can be listed, nothing of the later cases is stored. -/
theorem C109_interrupted {dir : RPath} (pre post : List (Task C)) (t : Task C) {fs : FS C}
    (h : Tidy fs dir) (hdir : ∀ x ∈ pre ++ [t], x.case.resultsDir = dir)
    (hp : ∀ x ∈ pre ++ [t], x.case.problem ∈ problemModules)
    (hid : ∀ x ∈ pre ++ [t], IsRunName x.case.id) (hf : ∀ x ∈ pre, x.fails = false)
    (ht : t.fails = true) :
    ∃ fs', runTasks fs (pre ++ t :: post) = (fs', false) ∧ Tidy fs' dir ∧
      ∀ p a b id, Stored fs' dir p a b id ↔
        Stored fs dir p a b id ∨
          ∃ x ∈ pre ++ [t], x.case = ⟨dir, p, a, id⟩ ∧ b ∈ x.results.map Prod.fst := by
  have hpre : ∀ x ∈ pre, x ∈ pre ++ [t] := fun x hx => List.mem_append_left _ hx
  have htm : t ∈ pre ++ [t] := by simp
  obtain ⟨fs1, h1, ht1, hst1⟩ := runTasks_tidy pre h (fun x hx => hdir x (hpre x hx))
    (fun x hx => hp x (hpre x hx)) (fun x hx => hid x (hpre x hx)) hf
  have e := hdir t htm
  subst e
  obtain ⟨fs2, h2, ht2, hst2⟩ := work_tidy ht1 (hp t htm) (hid t htm) t.fails t.results
  refine ⟨fs2, ?_, ht2, fun p a b id => ?_⟩
  · rw [runTasks_append fs pre _ fs1 h1, runTasks, h2, ht]
    rfl
  · rw [hst2, hst1]
    simp only [List.mem_append, List.mem_singleton, or_and_right, exists_or, exists_eq_left,
      or_assoc]

/-- **C109 (counting).** If moreover the cases are different from one another and none of their
identifiers has been used before, the number of results for a budget grows by the number of cases with this
budget. -/
theorem C109_counts {dir : RPath} (tasks : List (Task C)) {fs : FS C} (h : Tidy fs dir)
    (hdir : ∀ t ∈ tasks, t.case.resultsDir = dir) (hp : ∀ t ∈ tasks, t.case.problem ∈ problemModules)
    (hid : ∀ t ∈ tasks, IsRunName t.case.id) (hf : ∀ t ∈ tasks, t.fails = false)
    (hne : (tasks.map Task.case).Nodup)
    (hnew : ∀ t ∈ tasks, ∀ b, ¬ Stored fs dir t.case.problem t.case.algorithm b t.case.id) :
    ∃ fs', runTasks fs tasks = (fs', true) ∧ Tidy fs' dir ∧
      ∀ p a b n, Holds fs dir p a b n → Holds fs' dir p a b
        (n + (tasks.filter fun t => t.case.problem = p ∧ t.case.algorithm = a ∧
          b ∈ t.results.map Prod.fst).length) := by
  obtain ⟨fs', h1, h2, h3⟩ := runTasks_tidy tasks h hdir hp hid hf
  refine ⟨fs', h1, h2, ?_⟩
  rintro p a b n ⟨ids, hn, rfl, hids⟩
  refine ⟨ids ++ (tasks.filter fun t => t.case.problem = p ∧ t.case.algorithm = a ∧
    b ∈ t.results.map Prod.fst).map fun t => t.case.id, ?_, by simp, fun id => ?_⟩
  · rw [List.nodup_append]
    refine ⟨hn, ?_, ?_⟩
    · rw [List.Nodup, List.pairwise_map]
      rw [List.Nodup, List.pairwise_map] at hne
      refine (hne.filter _).imp_of_mem fun {x y} hx hy hxy e => hxy ?_
      rw [List.mem_filter, decide_eq_true_eq] at hx hy
      have dx := hdir x hx.1
      have dy := hdir y hy.1
      obtain ⟨-, px, ax, -⟩ := hx
      obtain ⟨-, py, ay, -⟩ := hy
      rcases hx : x.case with ⟨d1, p1, a1, i1⟩
      rcases hy : y.case with ⟨d2, p2, a2, i2⟩
      rw [hx] at dx px ax e
      rw [hy] at dy py ay e
      simp only at dx px ax dy py ay e
      rw [dx, px, ax, dy, py, ay, e]
    · rintro id hid1 y hy rfl
      obtain ⟨t, ht, e⟩ := List.mem_map.1 hy
      rw [List.mem_filter, decide_eq_true_eq] at ht
      obtain ⟨ht, hpt, hat, -⟩ := ht
      have := hnew t ht b
      rw [hpt, hat, e] at this
      exact this ((hids _).1 hid1)
  · rw [List.mem_append, hids, h3, List.mem_map]
    refine or_congr Iff.rfl ⟨?_, ?_⟩
    · rintro ⟨t, ht, rfl⟩
      rw [List.mem_filter, decide_eq_true_eq] at ht
      obtain ⟨ht, rfl, rfl, hb⟩ := ht
      refine ⟨t, ht, ?_, hb⟩
      rw [← hdir t ht]
    · rintro ⟨t, ht, e, hb⟩
      refine ⟨t, ?_, by rw [e]⟩
      rw [List.mem_filter, decide_eq_true_eq]
      exact ⟨ht, by rw [e], by rw [e], hb⟩

/-! ### The whole command -/

theorem getSimulationId_int (r : ℕ) (today : Name) (rnd : ℕ) :
    getSimulationId (.int r) none today rnd =
      today ++ ['_', '_'] ++ pad7 (showNat (if r = 0 then rnd else r)) := by
  cases r <;> rfl

theorem isRunName_makeCase (dir : RPath) (c : Name × Name × ℕ) {today : Name}
    (ht : matchSeq dateCls today = true) {rnd : ℕ} (h1 : rnd ≤ 9999999) (h2 : c.2.2 ≤ 9999999) :
    IsRunName (makeCase dir c today rnd).id := by
  refine ⟨today, pad7 (showNat (if c.2.2 = 0 then rnd else c.2.2)), getSimulationId_int _ _ _, ht, ?_,
    pad7_digit fun c hc => showNat_digit hc⟩
  rw [length_pad7]
  have := (length_showNat_le (n := if c.2.2 = 0 then rnd else c.2.2) (k := 7) (by omega)).2 (by
    split <;> omega)
  omega

theorem makeCase_inj {dir : RPath} {c c' : Name × Name × ℕ} {today today' : Name}
    (ht : matchSeq dateCls today = true) (ht' : matchSeq dateCls today' = true) {rnd rnd' : ℕ}
    (hr : 1000000 ≤ rnd) (hr' : 1000000 ≤ rnd') (hc : c.2.2 < 1000000) (hc' : c'.2.2 < 1000000)
    (h : makeCase dir c today rnd = makeCase dir c' today' rnd') : c = c' := by
  obtain ⟨p, a, r⟩ := c
  obtain ⟨p', a', r'⟩ := c'
  simp only [makeCase, Case.mk.injEq, true_and, getSimulationId_int] at h hc hc'
  obtain ⟨rfl, rfl, h⟩ := h
  have l1 := matchSeq_length ht
  have l2 := matchSeq_length ht'
  rw [List.append_assoc, List.append_assoc] at h
  obtain ⟨-, e⟩ := List.append_inj h (by omega)
  have e2 := congrArg readNat (List.append_cancel_left e)
  rw [readNat_pad7, readNat_pad7, readNat_showNat, readNat_showNat] at e2
  have : r = r' := by
    split at e2 <;> split at e2 <;> omega
  rw [this]

theorem mem_plan (problemOpt algoOpt : Option Name) (n : ℕ) (p a : Name) (r : ℕ) :
    (p, a, r) ∈ createSimulation problemOpt algoOpt n ↔
      p ∈ parseProblems problems problemOpt ∧ a ∈ parseAlgorithms algorithms algoOpt ∧ r < n := by
  simp only [createSimulation, List.mem_flatMap, List.mem_map, List.mem_range, Prod.exists,
    Prod.mk.injEq]
  constructor
  · rintro ⟨p', a', ⟨p'', h1, a'', h2, rfl, rfl⟩, r', hr, rfl, rfl, rfl⟩
    exact ⟨h1, h2, hr⟩
  · rintro ⟨h1, h2, hr⟩
    exact ⟨p, a, ⟨p, h1, a, h2, rfl, rfl⟩, r, hr, rfl, rfl, rfl⟩

theorem nodup_parseProblems (opt : Option Name) : (parseProblems problems opt).Nodup := by
  have h : problems.Nodup := by decide +kernel
  unfold parseProblems
  split
  · exact h.filter _
  · exact h

theorem nodup_parseAlgorithms (opt : Option Name) : (parseAlgorithms algorithms opt).Nodup := by
  have h : algorithms.Nodup := by decide +kernel
  unfold parseAlgorithms
  split
  · exact h.filter _
  · exact List.nodup_nil

theorem nodup_plan (problemOpt algoOpt : Option Name) (n : ℕ) :
    (createSimulation problemOpt algoOpt n).Nodup := by
  rw [createSimulation, List.nodup_flatMap]
  constructor
  · intro c _
    exact List.nodup_range.map fun x y e => by simpa using e
  · have hnd : ((parseProblems problems problemOpt).flatMap fun p =>
        (parseAlgorithms algorithms algoOpt).map fun a => (p, a)).Nodup := by
      rw [List.nodup_flatMap]
      constructor
      · intro p _
        exact (nodup_parseAlgorithms algoOpt).map fun x y e => by simpa using e
      · refine (nodup_parseProblems problemOpt).imp fun {x y} hxy => ?_
        simp only [Function.onFun, List.disjoint_left, List.mem_map]
        rintro _ ⟨a, -, rfl⟩ ⟨a', -, e⟩
        simp only [Prod.mk.injEq] at e
        exact hxy e.1.symm
    refine hnd.imp fun {x y} hxy => ?_
    simp only [Function.onFun, List.disjoint_left, List.mem_map]
    rintro _ ⟨a, -, rfl⟩ ⟨a', -, e⟩
    simp only [Prod.mk.injEq] at e
    exact hxy (Prod.ext e.1.symm e.2.1.symm)

/-- Nothing is under the results directory, and nothing is in the way of it. -/
theorem tidy_of_empty {fs : FS C} (hwf : fs.WF) {dir : RPath} (hno : ∀ q v, q <:+ dir → fs q ≠ some (.file v))
    (hempty : ∀ x, fs (x :: dir) = none) :
    Tidy fs dir ∧ ∀ p a b id, ¬ Stored fs dir p a b id := by
  have h2 : ∀ a p, fs (a :: p :: dir) = none := by
    intro a p
    by_contra hx
    have := hwf.parent _ _ hx
    rw [hempty] at this; cases this
  have h3 : ∀ i a p, fs (i :: a :: p :: dir) = none := by
    intro i a p
    by_contra hx
    have := hwf.parent _ _ hx
    rw [h2] at this; cases this
  have h4 : ∀ c i a p, fs (c :: i :: a :: p :: dir) = none := by
    intro c i a p
    by_contra hx
    have := hwf.parent _ _ hx
    rw [h3] at this; cases this
  refine ⟨⟨⟨hwf, fun v => hno dir v List.suffix_rfl, ?_, ?_, ?_⟩, hno, ?_, ?_⟩, ?_⟩
  · intro p hx; exact absurd (hempty p) hx
  · intro p a id _ hx; exact absurd (h3 _ _ _) hx
  · intro p a id _ c d _ hx; exact absurd (h4 _ _ _ _) hx
  · intro p a v; rw [h2]; simp
  · intro p a id b _; rw [h4]; simp
  · rintro p a b id ⟨-, v, hv⟩; rw [h4] at hv; cases hv

/-- **C109 (the command and then `summary`).** `run budget` with any selection of problems and
algorithms, `-N n` (at most a million) and any budgets, in an empty results directory, in whatever order the
queue is shuffled: if every driver delivers a result for each budget, then `summary` prints exactly one row
for each selected problem, algorithm and budget, with the number `n`. -/
theorem C109_command (problemOpt algoOpt : Option Name) (n : ℕ) (hn : n ≤ 1000000) (budgets : List ℕ)
    {fs : FS C} (hwf : fs.WF) {dir : RPath} (hno : ∀ q v, q <:+ dir → fs q ≠ some (.file v))
    (hempty : ∀ x, fs (x :: dir) = none) (today : ℕ → Name)
    (htoday : ∀ i, matchSeq dateCls (today i) = true) (rnd : ℕ → ℕ)
    (hrnd : ∀ i, 1000000 ≤ rnd i ∧ rnd i ≤ 9999999) (tasks : List (Task C))
    (hq : (tasks.map Task.case).Perm
      (makeCases dir (createSimulation problemOpt algoOpt n) today rnd))
    (hok : ∀ t ∈ tasks, t.fails = false ∧ ∀ b, b ∈ t.results.map Prod.fst ↔ b ∈ budgets) :
    ∃ fs', runTasks fs tasks = (fs', true) ∧
      ∀ ls, Lists ls fs' → ∀ today' rnd', ∃ rows, summary fs' ls dir today' rnd' = .ok rows ∧
        (rows.map fun r => (r.1, r.2.1, r.2.2.1)).Nodup ∧
        ∀ p a b k, (p, a, b, k) ∈ rows ↔
          (∃ r, (p, a, r) ∈ createSimulation problemOpt algoOpt n) ∧ b ∈ budgets ∧ k = n := by
  obtain ⟨htidy, hnone⟩ := tidy_of_empty hwf hno hempty
  set plan := createSimulation problemOpt algoOpt n with hplan
  have hmem : ∀ t ∈ tasks, ∃ x ∈ plan.zipIdx, t.case = makeCase dir x.1 (today x.2) (rnd x.2) := by
    intro t ht
    have := (hq.mem_iff).1 (List.mem_map_of_mem (f := Task.case) ht)
    obtain ⟨x, hx, e⟩ := List.mem_map.1 this
    exact ⟨x, hx, e.symm⟩
  have hplanmem : ∀ x ∈ plan.zipIdx, x.1 ∈ plan := by
    intro x hx
    have := List.mem_map_of_mem (f := Prod.fst) hx
    rwa [List.zipIdx_map_fst] at this
  have hrun : ∀ c ∈ plan, c.1 ∈ problems ∧ c.2.2 < n := by
    rintro ⟨p, a, r⟩ hc
    exact ⟨(C43_parsable problemOpt algoOpt n p a r hc).1, ((mem_plan problemOpt algoOpt n p a r).1 hc).2.2⟩
  have hmods : ∀ p ∈ problems, p ∈ problemModules := by decide +kernel
  have hcases : (makeCases dir plan today rnd).Nodup := by
    have hnd : plan.zipIdx.Pairwise fun x y => x.1 ≠ y.1 := by
      have := nodup_plan problemOpt algoOpt n
      rw [← hplan, ← List.zipIdx_map_fst 0 plan, List.Nodup, List.pairwise_map] at this
      exact this
    rw [makeCases, List.Nodup, List.pairwise_map]
    refine hnd.imp_of_mem fun {x y} hx hy hxy e => hxy ?_
    refine makeCase_inj (htoday _) (htoday _) (hrnd _).1 (hrnd _).1 ?_ ?_ e
    · exact lt_of_lt_of_le (hrun _ (hplanmem x hx)).2 hn
    · exact lt_of_lt_of_le (hrun _ (hplanmem y hy)).2 hn
  obtain ⟨fs', h1, h2, h3⟩ := C109_counts tasks htidy
    (fun t ht => by obtain ⟨x, -, e⟩ := hmem t ht; rw [e]; rfl)
    (fun t ht => by
      obtain ⟨x, hx, e⟩ := hmem t ht
      rw [e]; exact hmods _ (hrun _ (hplanmem x hx)).1)
    (fun t ht => by
      obtain ⟨x, hx, e⟩ := hmem t ht
      rw [e]
      refine isRunName_makeCase dir x.1 (htoday _) (hrnd _).2 ?_
      have := (hrun _ (hplanmem x hx)).2
      omega)
    (fun t ht => (hok t ht).1) (hq.nodup_iff.2 hcases) (fun t _ b => hnone _ _ _ _)
  refine ⟨fs', h1, fun ls hls today' rnd' => ?_⟩
  obtain ⟨rows, hr, hrn, hrm⟩ := C109_rows h2.toListable hls today' rnd'
  refine ⟨rows, hr, hrn, fun p a b k => ?_⟩
  rw [hrm]
  have h0 : Holds fs dir p a b 0 := ⟨[], by simp, rfl, fun id => by
    simp only [List.not_mem_nil, false_iff]; exact hnone _ _ _ _⟩
  have hh := h3 p a b 0 h0
  -- the number of cases of one problem and algorithm
  have hlen : b ∈ budgets → (tasks.filter fun t => t.case.problem = p ∧ t.case.algorithm = a ∧
      b ∈ t.results.map Prod.fst).length = (plan.filter fun c => c.1 = p ∧ c.2.1 = a).length := by
    intro hb
    have e1 : (tasks.filter fun t => t.case.problem = p ∧ t.case.algorithm = a ∧
        b ∈ t.results.map Prod.fst) = tasks.filter fun t => t.case.problem = p ∧ t.case.algorithm = a := by
      refine List.filter_congr fun t ht => ?_
      have := ((hok t ht).2 b).2 hb
      simp only [this, and_true]
    have e2 : (tasks.filter fun t => t.case.problem = p ∧ t.case.algorithm = a).length =
        ((tasks.map Task.case).filter fun c => c.problem = p ∧ c.algorithm = a).length := by
      rw [List.filter_map, List.length_map]
      rfl
    rw [e1, e2, (hq.filter _).length_eq, makeCases, List.filter_map, List.length_map]
    have e3 : (plan.filter fun c => c.1 = p ∧ c.2.1 = a) =
        (plan.zipIdx.filter ((fun c => decide (c.1 = p ∧ c.2.1 = a)) ∘ Prod.fst)).map Prod.fst := by
      rw [← List.filter_map, List.zipIdx_map_fst]
    rw [e3, List.length_map]
    rfl
  have hplanlen : (∃ r, (p, a, r) ∈ plan) →
      (plan.filter fun c => c.1 = p ∧ c.2.1 = a).length = n := by
    rintro ⟨r, hr⟩
    have hpa := (mem_plan problemOpt algoOpt n p a r).1 hr
    have : (plan.filter fun c => c.1 = p ∧ c.2.1 = a).Perm ((List.range n).map fun r => (p, a, r)) := by
      refine (List.perm_ext_iff_of_nodup ((nodup_plan problemOpt algoOpt n).filter _)
        (List.nodup_range.map fun x y e => by simpa using e)).2 ?_
      rintro ⟨p', a', r'⟩
      rw [List.mem_filter, decide_eq_true_eq, List.mem_map]
      constructor
      · rintro ⟨h, rfl, rfl⟩
        exact ⟨r', List.mem_range.2 (hrun _ h).2, rfl⟩
      · rintro ⟨r'', hr'', e⟩
        simp only [Prod.mk.injEq] at e
        obtain ⟨rfl, rfl, rfl⟩ := e
        exact ⟨(mem_plan problemOpt algoOpt n _ _ _).2 ⟨hpa.1, hpa.2.1, List.mem_range.1 hr''⟩, rfl, rfl⟩
    rw [this.length_eq]
    simp
  constructor
  · rintro ⟨hk, hhold⟩
    have ek := holds_unique hhold hh
    rw [zero_add] at ek
    have hpos : 0 < (tasks.filter fun t => t.case.problem = p ∧ t.case.algorithm = a ∧
        b ∈ t.results.map Prod.fst).length := by omega
    obtain ⟨t, ht⟩ := List.exists_mem_of_length_pos hpos
    rw [List.mem_filter, decide_eq_true_eq] at ht
    obtain ⟨ht, ep, ea, hb⟩ := ht
    have hb' := ((hok t ht).2 b).1 hb
    obtain ⟨x, hx, e⟩ := hmem t ht
    have hex : ∃ r, (p, a, r) ∈ plan := by
      refine ⟨x.1.2.2, ?_⟩
      have := hplanmem x hx
      rw [e] at ep ea
      simp only [makeCase] at ep ea
      rw [← ep, ← ea]
      exact this
    exact ⟨hex, hb', by rw [ek, hlen hb', hplanlen hex]⟩
  · rintro ⟨hex, hb, rfl⟩
    rw [zero_add, hlen hb, hplanlen hex] at hh
    obtain ⟨r, hr⟩ := hex
    have := (hrun _ hr).2
    exact ⟨by simp only at this; omega, hh⟩

/-- **C109 (anything else in the directory).** A single entry of the results directory that is not named
after a problem, for example a file left by an operating system, makes `summary` fail. -/
theorem C109_stray {fs : FS C} {ls : RPath → List Name} {dir : RPath} (hd : fs dir = some .dir)
    (hls : Lists ls fs) {x : Name} (hx : fs (x :: dir) ≠ none) (hmod : x ∉ problemModules) (today : Name)
    (rnd : ℕ) : ∃ e, summary fs ls dir today rnd = .error e := by
  have key : ∀ names : List Name, x ∈ names → ∃ e, problemRows fs ls dir today rnd names = .error e := by
    intro names
    induction names with
    | nil => simp
    | cons p rest ih =>
      intro hm
      rw [problemRows]
      split
      · rename_i hp
        have hxr : x ∈ rest := by
          rcases List.mem_cons.1 hm with rfl | h
          · exact absurd hp hmod
          · exact h
        obtain ⟨e, he⟩ := ih hxr
        rw [he]
        split
        · exact ⟨_, rfl⟩
        · split
          · exact ⟨_, rfl⟩
          · exact ⟨_, rfl⟩
      · exact ⟨_, rfl⟩
  obtain ⟨e, he⟩ := key (ls dir) (((hls _ hd).2 x).2 hx)
  exact ⟨e, by simp only [summary, iterdir, hd, he]⟩

/-! ### Examples -/

/-- The clock of the example. -/
def exToday (i : ℕ) : Name := "2017-05-06.101112.00012".toList ++ showNat (i % 10)

theorem exToday_ok (i : ℕ) : matchSeq dateCls (exToday i) = true := by
  have h : ∀ j < 10, matchSeq dateCls ("2017-05-06.101112.00012".toList ++ showNat j) = true := by
    decide +kernel
  exact h (i % 10) (Nat.mod_lt _ (by omega))

/-- The plan of the example: two runs of IBEA on ZDT1. -/
def exCases : List Case :=
  makeCases ["r".toList] (createSimulation (some "zdt1".toList) (some "ibea".toList) 2) exToday
    fun _ => 7654321

/-- The queue: the second run comes first; both have the budgets 10 and 200. -/
def exTasks : List (Task ℕ) :=
  exCases.reverse.map fun s => ⟨s, [(10, 1), (200, 2)], false⟩

/-- The directories after the command. -/
def exLs (p : RPath) : List Name :=
  if p = [] then ["r".toList]
  else if p = ["r".toList] then ["ZDT1".toList]
  else if p = ["ZDT1".toList, "r".toList] then ["IBEA".toList]
  else if p = ["IBEA".toList, "ZDT1".toList, "r".toList] then exCases.map Case.id
  else ["200.pickle".toList, "10.pickle".toList]

example : (summary (runTasks (emptyFS : FS ℕ) exTasks).1 exLs ["r".toList] [] 0).toOption =
    some [("ZDT1".toList, "IBEA".toList, 10, 2), ("ZDT1".toList, "IBEA".toList, 200, 2)] := by
  decide +kernel

/-- The theorem applies to it. -/
example : ∃ fs', runTasks (emptyFS : FS ℕ) exTasks = (fs', true) ∧
    ∀ ls, Lists ls fs' → ∀ today rnd, ∃ rows, summary fs' ls ["r".toList] today rnd = .ok rows ∧
      ("ZDT1".toList, "IBEA".toList, 200, 2) ∈ rows := by
  obtain ⟨fs', h1, h2⟩ := C109_command (some "zdt1".toList) (some "ibea".toList) 2 (by omega) [10, 200]
    (fs := (emptyFS : FS ℕ)) (dir := ["r".toList]) ⟨rfl, fun c p h => by simp [emptyFS] at h⟩
    (fun q v _ => by cases q <;> simp [emptyFS]) (fun x => rfl) exToday exToday_ok
    (fun _ => 7654321) (fun _ => by omega) exTasks
    (by
      have : exTasks.map Task.case = exCases.reverse := by decide +kernel
      rw [this]
      exact List.reverse_perm _)
    (by
      intro t ht
      obtain ⟨s, -, rfl⟩ := List.mem_map.1 ht
      exact ⟨rfl, fun b => by simp⟩)
  refine ⟨fs', h1, fun ls hls today rnd => ?_⟩
  obtain ⟨rows, hr, -, hm⟩ := h2 ls hls today rnd
  exact ⟨rows, hr, (hm _ _ _ _).2 ⟨⟨0, by decide +kernel⟩, by simp, rfl⟩⟩

/-- A stray file. -/
example : (summary ((runTasks (emptyFS : FS ℕ) exTasks).1.set [".DS_Store".toList, "r".toList] (.file 0))
    (fun p => if p = ["r".toList] then [".DS_Store".toList, "ZDT1".toList] else exLs p) ["r".toList]
    [] 0) = .error .moduleNotFound := by
  decide +kernel

end Evogil.Storage
