import Verif.Model.Progress
import Verif.Spec.Progress
import Mathlib.Tactic.FieldSimp
import Mathlib.Tactic.Linarith
import Mathlib.Tactic.Positivity
import Mathlib.Data.Rat.Floor

/-! # C120: the reports during a run -/

set_option linter.unusedSectionVars false

namespace Evogil.Progress

open Spec

variable {K : Type*} [Field K] [LinearOrder K] [IsStrictOrderedRing K] [FloorRing K]

theorem fields_clock (t : K) (h0 : 0 ≤ t) :
    IsClock ⌊t⌋ (fields t).1 (fields t).2.1 (fields t).2.2 ↔ ⌊t⌋ % 86400 < 3600 := by
  have : 0 ≤ ⌊t⌋ := Int.floor_nonneg.2 h0
  unfold IsClock fields
  simp only
  omega

theorem fields_rest (t : K) (h0 : 0 ≤ t) :
    ∃ m, IsClock ⌊t⌋ (fields t).1 m (fields t).2.2 := by
  have : 0 ≤ ⌊t⌋ := Int.floor_nonneg.2 h0
  refine ⟨⌊t⌋ / 60 % 60, ?_⟩
  unfold IsClock fields
  simp only
  omega

/-- **C120.** There is one report after every job. The first one says that the time left is unknown. Every
later one gives the share of the jobs that had finished one job before and, for the time that would be left
if so many had finished, the right hours and seconds, and the right minutes exactly if the time left is (up to
whole days) less than an hour. Missing: that the shares and times are those of the jobs that have finished. -/
theorem C120_reports_partial (durations : List K) (hd : ∀ d ∈ durations, 0 ≤ d) :
    (reports durations).length = durations.length ∧
    ((reports durations)[0]?.map Report.left = if durations = [] then none else some none) ∧
    ∀ i, 0 < i → i < durations.length → ∃ r, (reports durations)[i]? = some r ∧
      r.percent = percentDone i durations.length ∧
      ∃ h m s, r.left = some (h, m, s) ∧
        (∃ m', IsClock ⌊timeLeft (durations.take (i + 1)).sum i durations.length⌋ h m' s) ∧
        (IsClock ⌊timeLeft (durations.take (i + 1)).sum i durations.length⌋ h m s ↔
          ⌊timeLeft (durations.take (i + 1)).sum i durations.length⌋ % 86400 < 3600) := by
  refine ⟨by simp [reports], ?_, ?_⟩
  · cases durations with
    | nil => simp [reports]
    | cons d l => simp [reports, logStats]
  · intro i hi hlt
    have hres : (reports durations)[i]? =
        some (logStats (durations.take (i + 1)).sum i durations.length) := by
      unfold reports
      rw [List.getElem?_map, List.getElem?_range hlt]
      rfl
    have hn : (0 : K) < (durations.length : K) := by exact_mod_cast lt_trans hi hlt
    have hi' : (0 : K) < (i : K) := by exact_mod_cast hi
    have hle : (i : K) ≤ (durations.length : K) := by exact_mod_cast hlt.le
    have hr : ((i : K) * 1 / (durations.length : K)) ≠ 0 := by positivity
    have ht : (durations.take (i + 1)).sum / ((i : K) * 1 / (durations.length : K)) - (durations.take (i + 1)).sum =
        timeLeft (durations.take (i + 1)).sum i durations.length := by
      unfold timeLeft; field_simp
    have h0 : 0 ≤ timeLeft (durations.take (i + 1)).sum i durations.length := by
      unfold timeLeft
      have : 0 ≤ (durations.take (i + 1)).sum :=
        List.sum_nonneg fun d h => hd d (List.mem_of_mem_take h)
      exact mul_nonneg (div_nonneg this hi'.le) (by linarith)
    refine ⟨_, hres, ?_⟩
    unfold logStats
    simp only
    rw [if_neg hr, ht]
    refine ⟨?_, _, _, _, rfl, fields_rest _ h0, fields_clock _ h0⟩
    unfold percentDone
    field_simp

/-- **C120, violated.** The report after the last job never says that all jobs have finished; for every number
of jobs the share reported is one job behind. -/
theorem C120_percent_violated (durations : List K) {i : ℕ} (hi : i < durations.length) :
    ∃ r, (reports durations)[i]? = some r ∧ r.percent < percentDone (i + 1) durations.length := by
  have hres : (reports durations)[i]? =
      some (logStats (durations.take (i + 1)).sum i durations.length) := by
    unfold reports
    rw [List.getElem?_map, List.getElem?_range hi]
    rfl
  have hn : (0 : K) < (durations.length : K) := by exact_mod_cast lt_of_le_of_lt (Nat.zero_le _) hi
  refine ⟨_, hres, ?_⟩
  unfold logStats percentDone
  simp only
  split_ifs with h
  · rw [h]; positivity
  · rw [mul_one, div_mul_eq_mul_div]
    apply div_lt_div_of_pos_right _ hn
    push_cast
    linarith

/-- Three jobs of an hour each. -/
def exHours : List ℚ := [3600, 3600, 3600]

/-- **C120, violated.** Of three jobs of an hour each two have finished; the report says "04:240:00" instead of
"01:00:00". -/
theorem C120_minutes_violated : ∃ durations : List ℚ, ∃ i r, (reports durations)[i]? = some r ∧
    r.left = some (4, 240, 0) ∧
    IsClock ⌊timeLeft (durations.take (i + 1)).sum (i + 1) durations.length⌋ 1 0 0 := by
  have hres : (reports exHours)[1]? = some (logStats (exHours.take 2).sum 1 3) := rfl
  refine ⟨exHours, 1, _, hres, by decide +kernel, ?_⟩
  have : ⌊timeLeft (exHours.take (1 + 1)).sum (1 + 1) exHours.length⌋ = 3600 := by decide +kernel
  rw [this]
  unfold IsClock
  omega

example : (reports ([50, 70, 60] : List ℚ)).map (fun r => (r.percent, r.left)) =
    [(0, none), (100 / 3, some (0, 4, 0)), (200 / 3, some (0, 1, 30))] := by decide +kernel

end Evogil.Progress
