import Verif.Props.PlotsSummary

/-! # C119: the figures of `best_fronts` -/

set_option linter.unusedSectionVars false

namespace Evogil.Plots

open RankingRun Spec

theorem algos_perm : algos.Perm fronted := by decide +kernel

variable {K : Type*} [Field K] [LinearOrder K] [IsStrictOrderedRing K]

theorem findResult_budget (l : List (Res K)) (hl : l ≠ []) (hv : ∀ r ∈ l, r.2 "cost" ≠ []) :
    (findResult (l.map fun r => ⟨r.1, yieldMetrics r⟩) = some none ∧ countedBudget l = none) ∨
      ∃ r ∈ l, countedBudget l = some r.1 ∧
        findResult (l.map fun r => ⟨r.1, yieldMetrics r⟩) = some (some ⟨r.1, afterCost r⟩) := by
  unfold findResult countedBudget
  rw [List.getLast?_map]
  obtain ⟨last, hlast⟩ := (⟨_, List.getLast?_eq_some_getLast hl⟩ : ∃ x, l.getLast? = some x)
  rw [hlast]
  simp only [Option.map_some]
  rw [← List.map_reverse, findItem_eq (last.1 + 500) l.reverse (fun r hr => hv r (by simpa using hr)) _ _ rfl,
    getLast?_filter']
  cases h : l.reverse.find? (fun r => decide (meanOf (r.2 "cost") ≤ last.1 + 500)) with
  | none => left; simp
  | some r => right; exact ⟨r, by simpa using List.mem_of_find?_eq_some h, by simp, by simp⟩

theorem coordinates_eq {n : ℕ} (hn : 2 ≤ n) {first v : List K} (hf : first.length = n) (hv : v.length = n) :
    coordinates first v = some (v.take (if n ≤ 2 then 2 else 3)) := by
  match v, hv with
  | x :: y :: rest, hv =>
    unfold coordinates
    simp only [hf]
    by_cases h : n ≤ 2
    · rw [if_neg (by omega), if_pos h]; rfl
    · rw [if_pos (by omega), if_neg h]
      match rest, hv with
      | z :: rest, _ => rfl
      | [], hv => simp at hv; omega
  | [_], hv => simp at hv; omega
  | [], hv => simp at hv; omega

/-- What is shown of an algorithm: its first run for the budget that counts. -/
def shownSeries (objectives : ℕ) (algo : String × Stored K) : List (String × List (List K)) :=
  if algo.1 ∈ fronted then
    match countedBudget algo.2.1 with
    | none => []
    | some b => ((algo.2.2 b).head?.map fun front => (algo.1, seen objectives front)).toList
  else []

theorem frontAlgo_eq {n : ℕ} (a : String × Stored K) (h : Runs n a.2.1 a.2.2) :
    frontAlgo a = some (shownSeries n a) := by
  unfold frontAlgo shownSeries
  have hm : (a.1 ∈ algos) = (a.1 ∈ fronted) := propext algos_perm.mem_iff
  rcases findResult_budget a.2.1 h.some h.costs with ⟨h1, h2⟩ | ⟨r, hr, h2, h1⟩
  · rw [h1, h2]; simp
  · rw [h1, h2]
    simp only [hm]
    by_cases hf : a.1 ∈ fronted
    · rw [if_pos hf, if_pos hf]
      match hb : a.2.2 r.1, h.stored r hr, h.fronts r hr with
      | [], hne, _ => exact absurd rfl hne
      | best :: others, _, hfr =>
        obtain ⟨hne, hlen⟩ := hfr best (by simp)
        unfold plotFront
        simp only []
        rw [if_pos (hm ▸ hf)]
        match best, hne, hlen with
        | [], hne, _ => exact absurd rfl hne
        | first :: rest, _, hlen =>
          simp only
          rw [mapM_some _ (fun v => v.take (if n ≤ 2 then 2 else 3)) _
            fun v hv => coordinates_eq h.two (hlen first (by simp)) (hlen v hv)]
          rfl
    · rw [if_neg hf, if_neg hf]

/-- **C119.** If every algorithm has results and every run a front, there is one figure for every problem; it
shows for every algorithm of the 28 known ones with a result that counts the first two or three objectives of
exactly one of its runs, the first one. Missing: that it is the best one. -/
theorem C119_fronts_partial (objectives : String → ℕ) (dirs : List (String × List (String × Stored K)))
    (h : ∀ p ∈ dirs, ∀ a ∈ p.2, Runs (objectives p.1) a.2.1 a.2.2) :
    ∃ figs, bestFronts dirs = some figs ∧
      List.Forall₂ (fun p f => f.1 = p.1 ∧ ∀ name pts, (name, pts) ∈ f.2 ↔
        name ∈ fronted ∧ ∃ a ∈ p.2, a.1 = name ∧ ∃ b, countedBudget a.2.1 = some b ∧
          ∃ front, (a.2.2 b)[0]? = some front ∧ pts = seen (objectives p.1) front) dirs figs := by
  have hres : bestFronts dirs =
      some (dirs.map fun p => (p.1, (p.2.map (shownSeries (objectives p.1))).flatten)) := by
    unfold bestFronts
    refine mapM_some _ _ _ fun p hp => ?_
    rw [mapM_some _ (shownSeries (objectives p.1)) _ fun a ha => frontAlgo_eq a (h p hp a ha)]
    rfl
  refine ⟨_, hres, ?_⟩
  rw [List.forall₂_map_right_iff, List.forall₂_same]
  intro p _
  refine ⟨rfl, fun name pts => ?_⟩
  rw [← List.flatMap_def, List.mem_flatMap]
  constructor
  · rintro ⟨a, ha, hm⟩
    unfold shownSeries at hm
    split_ifs at hm with hf
    · cases hb : countedBudget a.2.1 with
      | none => simp [hb] at hm
      | some b =>
        simp only [hb, Option.mem_toList, Option.map_eq_some_iff, Prod.mk.injEq] at hm
        obtain ⟨front, h1, rfl, rfl⟩ := hm
        exact ⟨hf, a, ha, rfl, b, hb, front, by rw [← List.head?_eq_getElem?]; exact h1, rfl⟩
    · simp at hm
  · rintro ⟨hf, a, ha, rfl, b, hb, front, h1, rfl⟩
    refine ⟨a, ha, ?_⟩
    unfold shownSeries
    rw [if_pos hf, hb]
    simp only [Option.mem_toList, Option.map_eq_some_iff, Prod.mk.injEq]
    exact ⟨front, by rw [List.head?_eq_getElem?]; exact h1, trivial, rfl⟩

/-- Of the 32 algorithms the four with SMS-EMOA are not shown. -/
theorem C119_unshown :
    ((drivers ++ metaalgorithms.flatMap fun m => drivers.map fun d => m ++ "+" ++ d).filter
      fun a => decide (a ∉ fronted)) = ["SMSEMOA", "IMGA+SMSEMOA", "HGS+SMSEMOA", "DHGS+SMSEMOA"] := by
  decide +kernel

/-- An algorithm directory without results makes the command fail. -/
theorem C119_empty_violated (dirs : List (String × List (String × Stored K))) {p : String × List (String × Stored K)}
    (hp : p ∈ dirs) {a : String × Stored K} (ha : a ∈ p.2) (he : a.2.1 = []) : bestFronts dirs = none := by
  have hnone : ∀ {α β : Type _} (f : α → Option β) (l : List α) (x : α), x ∈ l → f x = none → l.mapM f = none := by
    intro α β f l x hx hf
    induction l with
    | nil => simp at hx
    | cons y l ih =>
      rw [List.mapM_cons]
      rcases List.mem_cons.1 hx with rfl | hx
      · rw [hf]; rfl
      · cases f y with
        | none => rfl
        | some z => rw [ih hx]; rfl
  unfold bestFronts
  refine hnone _ _ p hp ?_
  rw [hnone frontAlgo p.2 a ha]
  · rfl
  · unfold frontAlgo; rw [he]; rfl

set_option synthInstance.maxSize 1000
set_option synthInstance.maxHeartbeats 100000

/-- The first run of NSGA-II for ZDT1 is surpassed by the second one. -/
def exFronts : List (String × List (String × Stored ℚ)) :=
  [("ZDT1", [("NSGAII", [(100, fun _ => [90, 110]), (200, fun _ => [190, 1900])],
      fun b => if b = 100 then [[[2, 2], [1, 3]], [[1, 2]]] else [[[0, 0]]]),
    ("SMSEMOA", [(100, fun _ => [100])], fun _ => [[[0, 0]]])])]

/-- **C119, violated.** The front shown need not be that of the best run: every one of its points can be
dominated by the points of another run for the same budget. -/
theorem C119_best_violated : ∃ dirs : List (String × List (String × Stored ℚ)),
    (∀ p ∈ dirs, ∀ a ∈ p.2, Runs 2 a.2.1 a.2.2) ∧ ∃ figs, bestFronts dirs = some figs ∧
      ∃ p ∈ dirs, ∃ a ∈ p.2, ∃ b, countedBudget a.2.1 = some b ∧ ∃ other ∈ a.2.2 b,
        ∃ f ∈ figs, ∃ s ∈ f.2, f.1 = p.1 ∧ s.1 = a.1 ∧ Surpassed s.2 other := by
  refine ⟨exFronts, ?_, [("ZDT1", [("NSGAII", [[2, 2], [1, 3]])])], by decide +kernel, _, List.mem_singleton.2 rfl,
    _, List.mem_cons_self, 100, by decide +kernel, [[1, 2]], by decide +kernel, _, List.mem_singleton.2 rfl, _,
    List.mem_singleton.2 rfl, rfl, rfl, ?_⟩
  · intro p hp a ha
    simp only [exFronts, List.mem_singleton] at hp
    subst hp
    simp only [List.mem_cons, List.not_mem_nil, or_false] at ha
    rcases ha with rfl | rfl
    · refine ⟨le_refl _, by simp, by simp, ?_, ?_⟩
      · simp only [List.mem_cons, List.not_mem_nil, or_false]
        rintro g (rfl | rfl) <;> simp
      · simp only [List.mem_cons, List.not_mem_nil, or_false]
        rintro g (rfl | rfl) <;> simp
    · exact ⟨le_refl _, by simp, by simp, by simp, by simp⟩
  · unfold Surpassed
    intro v hv
    refine ⟨[1, 2], by simp, ?_⟩
    simp only [List.mem_cons, List.not_mem_nil, or_false] at hv
    rcases hv with rfl | rfl <;> decide +kernel

example : bestFronts exFronts = some [("ZDT1", [("NSGAII", [[2, 2], [1, 3]])])] := by decide +kernel

example : bestFronts (K := ℚ) [("UF8", [("SPEA2", [(100, fun _ => [90])], fun _ => [[[1, 2, 3, 4]], []])])] =
    some [("UF8", [("SPEA2", [[1, 2, 3]])])] := by decide +kernel

end Evogil.Plots
