import Verif.Model.RoundedTime
import Verif.Props.Driver
import Verif.Props.Rounded
import Verif.Lemmas.Binary64

/-!
# C145: time-limited runs in floating point
-/

set_option linter.unusedSectionVars false

namespace Evogil.Rounded.Time

open Binary64 Spec

section
variable {K : Type*} [Field K] [LinearOrder K] [IsStrictOrderedRing K] [FloorRing K]

/-! ## Multiples of `2⁻²²` -/

/-- A multiple of `2⁻²²`. -/
def Tick (x : K) : Prop := ∃ n : ℤ, x = n / 2 ^ 22

theorem Tick.add {x y : K} (hx : Tick x) (hy : Tick y) : Tick (x + y) := by
  obtain ⟨n, rfl⟩ := hx
  obtain ⟨k, rfl⟩ := hy
  exact ⟨n + k, by push_cast; ring⟩

theorem Tick.sub {x y : K} (hx : Tick x) (hy : Tick y) : Tick (x - y) := by
  obtain ⟨n, rfl⟩ := hx
  obtain ⟨k, rfl⟩ := hy
  exact ⟨n - k, by push_cast; ring⟩

theorem tick_int (n : ℤ) : Tick (n : K) := ⟨n * 2 ^ 22, by push_cast; field_simp; norm_num⟩

/-- Multiples of `2⁻²²` below `2³¹` are floats. -/
theorem Tick.float {x : K} (hx : Tick x) (h : |x| < 2 ^ 31) : round64 x = x := by
  obtain ⟨n, rfl⟩ := hx
  refine round64_float ⟨n, -22, ?_, by norm_num, ?_⟩
  · rw [abs_div, abs_of_pos (show (0 : K) < 2 ^ 22 by positivity), div_lt_iff₀ (by positivity)] at h
    have h2 : ((|n| : ℤ) : K) < ((2 ^ 53 : ℤ) : K) := by
      push_cast
      norm_num at h ⊢
      exact h
    exact_mod_cast h2
  · rw [zpow_neg, div_eq_mul_inv]
    norm_num

/-- Floats from `2³⁰` on are multiples of `2⁻²²`. -/
theorem tick_of_float {x : K} (hx : round64 x = x) (h : 2 ^ 30 ≤ x) : Tick x := by
  obtain ⟨m, e, hm, -, hx'⟩ : IsFloat x := hx ▸ isFloat_round64 x
  have hmK : (m : K) < 2 ^ 53 := by
    have h2 : (m : K) < ((2 ^ 53 : ℤ) : K) := Int.cast_lt.2 (lt_of_le_of_lt (le_abs_self m) hm)
    push_cast at h2
    norm_num at h2 ⊢
    exact h2
  have hp := two_zpow_pos (K := K) e
  have he : -22 ≤ e := by
    by_contra hc
    have h1 : (2 : K) ^ e ≤ 2 ^ (-23 : ℤ) := zpow_le_zpow_right₀ (by norm_num) (by omega)
    have h2 : (m : K) * 2 ^ e < 2 ^ 53 * 2 ^ (-23 : ℤ) := by
      calc (m : K) * 2 ^ e < 2 ^ 53 * 2 ^ e := mul_lt_mul_of_pos_right hmK hp
        _ ≤ 2 ^ 53 * 2 ^ (-23 : ℤ) := mul_le_mul_of_nonneg_left h1 (by positivity)
    rw [← hx', show (2 : K) ^ 53 * 2 ^ (-23 : ℤ) = 2 ^ 30 by norm_num] at h2
    exact absurd h (not_le.2 h2)
  obtain ⟨j, hj⟩ : ∃ j : ℕ, e = (j : ℤ) + -22 := ⟨(e + 22).toNat, by omega⟩
  refine ⟨m * 2 ^ j, ?_⟩
  rw [hx', hj, zpow_add₀ (by norm_num), zpow_natCast, zpow_neg]
  push_cast
  field_simp

/-! ## The run -/

theorem int_float {n : ℤ} (h : |(n : K)| < 2 ^ 31) : round64 (n : K) = n := (tick_int n).float h

/-- The floor division of a multiple of `2⁻²²` below `2³¹` by a positive integer is exact. -/
theorem floorDiv_exact {v : K} (h0 : 0 ≤ v) (h1 : v < 2 ^ 31) {w : ℤ} (hw : 1 ≤ w) :
    floorDiv round64 v (w : K) = .ok ((⌊v / w⌋ : ℤ) : K) := by
  have hw' : (1 : K) ≤ w := by exact_mod_cast hw
  have hw0 : (0 : K) < w := by linarith
  have hq : 0 ≤ v / w := div_nonneg h0 hw0.le
  have hqv : v / w ≤ v := div_le_self h0 hw'
  have hf0 : (0 : K) ≤ (⌊v / w⌋ : ℤ) := by exact_mod_cast Int.floor_nonneg.2 hq
  have hf1 : ((⌊v / w⌋ : ℤ) : K) ≤ v / w := Int.floor_le _
  have hmul : (w : K) * (⌊v / w⌋ : ℤ) ≤ v := by
    have := mul_le_mul_of_nonneg_left hf1 hw0.le
    rwa [mul_div_cancel₀ _ hw0.ne'] at this
  have hfv : ((⌊v / w⌋ : ℤ) : K) < 2 ^ 31 := by linarith
  have hq2 : round64 ((⌊v / w⌋ : ℤ) : K) = (⌊v / w⌋ : ℤ) := int_float (by rw [abs_of_nonneg hf0]; exact hfv)
  have hm : round64 ((w : K) * (⌊v / w⌋ : ℤ)) = w * (⌊v / w⌋ : ℤ) := by
    have h3 : (0 : K) ≤ w * (⌊v / w⌋ : ℤ) := mul_nonneg hw0.le hf0
    have := int_float (K := K) (n := w * ⌊v / w⌋) (by
      push_cast
      rw [abs_of_nonneg h3]
      linarith)
    push_cast at this
    exact this
  have hmod : ¬ v - (w : K) * (⌊v / w⌋ : ℤ) < 0 := by linarith
  unfold floorDiv truncate
  rw [if_neg hw0.ne']
  simp only [if_pos hq, sub_sub_cancel]
  have hsign : ¬ (v - (w : K) * (⌊v / w⌋ : ℤ) ≠ 0 ∧ ((w : K) < 0 ↔ ¬ v - (w : K) * (⌊v / w⌋ : ℤ) < 0)) := by
    rintro ⟨-, h⟩
    exact absurd (h.2 hmod) (not_lt.2 hw0.le)
  rw [hm, mul_div_cancel_left₀ _ hw0.ne', hq2]
  simp only [if_neg hsign]
  split_ifs with h2 h3
  · rw [h2]
  · rw [Int.floor_intCast, sub_self, fl_zero round64_isRounding] at h3
    exact absurd h3 (by norm_num)
  · rw [Int.floor_intCast]

variable {ρ : Type*}

/-- What is known about the clock: its readings are floats, taken after January 2004, it is not set back during a step,
and no step takes 34 years. -/
structure Clock (e : K × K × ρ) : Prop where
  f0 : round64 e.1 = e.1
  f1 : round64 e.2.1 = e.2.1
  late : 2 ^ 30 ≤ e.1
  ordered : e.1 ≤ e.2.1
  short : e.2.1 - e.1 ≤ 2 ^ 30

/-- A step with its duration in seconds. -/
def lasting (e : K × K × ρ) : K × ρ := (e.2.1 - e.1, e.2.2)

theorem run_exact {step timeout : ℤ} (hs : 1 ≤ step) (hs2 : step ≤ 2 ^ 30) (ht : timeout ≤ 2 ^ 30) :
    ∀ (evs : List (K × K × ρ)), (∀ e ∈ evs, Clock e) → ∀ s : TimeState K ρ, Tick s.elapsed → 0 ≤ s.elapsed →
      (step : K) * s.stepNo ≤ s.elapsed →
      timeRun round64 step timeout s evs = .ok (Evogil.timeRun (step : K) timeout s (evs.map lasting)) := by
  have hs' : (1 : K) ≤ step := by exact_mod_cast hs
  have hs0 : (0 : K) < step := by linarith
  intro evs
  induction evs with
  | nil =>
    intro _ s _ _ _
    rw [timeRun, List.map_nil, Evogil.timeRun]
    split_ifs <;> rfl
  | cons e evs ih =>
    obtain ⟨t0, t1, res⟩ := e
    intro hc s h1 h2 h3
    have C := hc (t0, t1, res) (by simp)
    have hlast : lasting (t0, t1, res) = (t1 - t0, res) := rfl
    rw [timeRun, List.map_cons, hlast]
    by_cases hlt : s.elapsed < (timeout : K)
    · have hto : (timeout : K) ≤ 2 ^ 30 := by
        have : (timeout : K) ≤ ((2 ^ 30 : ℤ) : K) := Int.cast_le.2 ht
        push_cast at this
        norm_num at this ⊢
        exact this
      have hst : (step : K) < 2 ^ 31 := by
        have : (step : K) ≤ ((2 ^ 30 : ℤ) : K) := Int.cast_le.2 hs2
        push_cast at this
        norm_num at this ⊢
        linarith
      have hdt : Tick (t1 - t0) := (tick_of_float C.f1 (C.late.trans C.ordered)).sub (tick_of_float C.f0 C.late)
      have hd0 : 0 ≤ t1 - t0 := sub_nonneg.2 C.ordered
      have hd1 : t1 - t0 ≤ 2 ^ 30 := C.short
      have e1 : round64 (t1 - t0) = t1 - t0 := hdt.float (by rw [abs_of_nonneg hd0]; linarith)
      have hel : Tick (s.elapsed + (t1 - t0)) := h1.add hdt
      have hl1 : s.elapsed + (t1 - t0) < 2 ^ 31 := by linarith
      have e2 : round64 (s.elapsed + (t1 - t0)) = s.elapsed + (t1 - t0) :=
        hel.float (by rw [abs_of_nonneg (by linarith)]; exact hl1)
      have hn0 : (0 : K) ≤ step * s.stepNo := mul_nonneg hs0.le (Nat.cast_nonneg _)
      have ec : (((step * (s.stepNo : ℤ) : ℤ)) : K) = step * s.stepNo := by push_cast; rfl
      have e3 : round64 (((step * (s.stepNo : ℤ) : ℤ)) : K) = step * s.stepNo := by
        rw [int_float, ec]
        rw [ec, abs_of_nonneg hn0]
        linarith
      have hsi : Tick (s.elapsed + (t1 - t0) - step * s.stepNo) := by
        rw [← ec]
        exact hel.sub (tick_int _)
      have e4 : round64 (s.elapsed + (t1 - t0) - step * s.stepNo) = s.elapsed + (t1 - t0) - step * s.stepNo :=
        hsi.float (by rw [abs_of_nonneg (by linarith)]; linarith)
      have turn : timeTurn round64 step timeout s t0 t1 res = .ok (Evogil.timeTurn (step : K) timeout s (t1 - t0) res) := by
        unfold timeTurn Evogil.timeTurn
        simp only [e1, e2, e3, e4]
        cases s.previous with
        | none => rfl
        | some prev =>
          simp only
          rw [int_float (by rw [abs_of_pos hs0]; exact hst), floorDiv_exact (by linarith) (by linarith) hs]
          simp only [truncate]
          rw [if_pos (by exact_mod_cast Int.floor_nonneg.2 (div_nonneg (by linarith) hs0.le)), Int.floor_intCast]
      rw [if_pos hlt, turn, Evogil.timeRun_cons _ _ _ _ _ _ hlt]
      simp only
      rw [ih (fun e he => hc e (by simp [he]))]
      · unfold Evogil.timeTurn
        cases s.previous <;> exact hel
      · unfold Evogil.timeTurn
        cases s.previous <;> exact add_nonneg h2 hd0
      · unfold Evogil.timeTurn
        cases s.previous with
        | none => simp only; linarith
        | some prev =>
          simp only
          have hq : 0 ≤ (s.elapsed + (t1 - t0) - step * s.stepNo) / (step : K) := div_nonneg (by linarith) hs0.le
          have hfl := Int.floor_le ((s.elapsed + (t1 - t0) - step * s.stepNo) / (step : K))
          have hcast : (((⌊(s.elapsed + (t1 - t0) - step * s.stepNo) / (step : K)⌋).toNat : ℕ) : K)
              = (⌊(s.elapsed + (t1 - t0) - step * s.stepNo) / (step : K)⌋ : ℤ) := by
            have := Int.toNat_of_nonneg (Int.floor_nonneg.2 hq)
            exact_mod_cast congrArg (Int.cast (R := K)) this
          rw [le_div_iff₀ hs0] at hfl
          push_cast
          rw [hcast]
          linarith
    · rw [if_neg hlt, Evogil.timeRun_done _ _ _ _ (not_lt.1 hlt)]

/-- **C145.** A time-limited run in floating point is the one of exact arithmetic: the same slots with the same results, and
the same number of steps. No operation of the loop rounds anything. -/
theorem C145_exact {step timeout : ℤ} (hs : 1 ≤ step) (hs2 : step ≤ 2 ^ 30) (ht : timeout ≤ 2 ^ 30)
    (evs : List (K × K × ρ)) (hc : ∀ e ∈ evs, Clock e) :
    timeRun round64 step timeout timeInit evs = .ok (Evogil.timeRun (step : K) timeout timeInit (evs.map lasting)) := by
  refine run_exact hs hs2 ht evs hc _ ⟨0, by simp [timeInit]⟩ le_rfl ?_
  simp [timeInit]

/-- **C145.** So the claim of C16 about slots holds for the durations that the clock shows: the slots come in order and
once each, none after the timeout, and every message that belongs to a slot after the first step is the last result before
it (slots that pass during the first step: `C16_first_slot_false`). -/
theorem C145_slots {step timeout : ℤ} (hs : 1 ≤ step) (hs2 : step ≤ 2 ^ 30) (ht0 : 0 < timeout)
    (ht : timeout ≤ 2 ^ 30) (evs : List (K × K × ρ)) (hc : ∀ e ∈ evs, Clock e) (msgs : List (ℕ × ρ)) (n : ℕ)
    (h : timeRun round64 step timeout timeInit evs = .ok (some (msgs, n))) :
    n ≤ evs.length ∧ (timeout : K) ≤ timeAfter (evs.map lasting) n ∧
    (∀ j < n, timeAfter (evs.map lasting) j < (timeout : K)) ∧
    msgs.map Prod.fst = List.range' 1 (if n ≤ 1 then 0 else (timeout / step).toNat) ∧
    ∀ m ∈ msgs, (m.1 : ℤ) * step ≤ timeout ∧
      (timeAfter (evs.map lasting) 1 ≤ (m.1 : K) * (step : K) → SlotFaithful (step : K) (evs.map lasting) m.1 m.2) := by
  rw [C145_exact hs hs2 ht evs hc] at h
  have h' : Evogil.timeRun (step : K) timeout timeInit (evs.map lasting) = some (msgs, n) := by injection h
  have hs' : (0 : K) < step := by exact_mod_cast (by omega : 0 < step)
  have ht' : (0 : K) < timeout := by exact_mod_cast ht0
  have hd : ∀ e ∈ evs.map lasting, 0 ≤ e.1 := by
    intro e he
    obtain ⟨a, ha, rfl⟩ := List.mem_map.1 he
    exact sub_nonneg.2 (hc a ha).ordered
  obtain ⟨h1, h2, h3, h4, h5⟩ := C16_time_run_partial hs' ht' _ hd msgs n h'
  refine ⟨by simpa using h1, h2, h3, ?_, ?_⟩
  · rw [h4]
    have : ⌊(timeout : K) / (step : K)⌋ = timeout / step := by
      obtain ⟨k, hk⟩ : ∃ k : ℕ, step = k := ⟨step.toNat, by omega⟩
      rw [hk]
      have := Int.floor_div_natCast (timeout : K) k
      rw [Int.floor_intCast] at this
      exact_mod_cast this
    rw [this]
  · intro m hm
    refine ⟨?_, C16_slot_faithful_after_first_step hs' ht' _ hd msgs n h' m hm⟩
    have := (h5 m hm).1
    exact_mod_cast this

/-- **C145.** The run ends as soon as the durations shown by the clock add up to the timeout. -/
theorem C145_ends {step timeout : ℤ} (hs : 1 ≤ step) (hs2 : step ≤ 2 ^ 30) (ht : timeout ≤ 2 ^ 30)
    (evs : List (K × K × ρ)) (hc : ∀ e ∈ evs, Clock e) (h : (timeout : K) ≤ timeAfter (evs.map lasting) evs.length) :
    ∃ msgs n, timeRun round64 step timeout timeInit evs = .ok (some (msgs, n)) := by
  rw [C145_exact hs hs2 ht evs hc]
  have := C16_ends (step := (step : K)) (timeout := (timeout : K)) (evs.map lasting) (by rwa [List.length_map])
  obtain ⟨⟨msgs, n⟩, h⟩ := Option.isSome_iff_exists.1 this
  exact ⟨msgs, n, by rw [h]⟩

/-- **C145, the reason for the hypothesis about the clock.** With a clock that shows small numbers (as `time.perf_counter`
does) ten steps of a tenth of a second would not fill a second: the run makes an eleventh step. -/
theorem C145_small_clock :
    timeRun (K := ℚ) round64 1 1 timeInit (List.replicate 11 (0, round64 (1 / 10), ())) = .ok (some ([(1, ())], 11)) ∧
    1 ≤ timeAfter (List.replicate 11 (round64 (1 / 10 : ℚ), ())) 10 := by
  decide +kernel

/-- **C145.** A slot length of 0 raises in the second step. -/
theorem C145_zero {timeout : ℤ} (evs : List (K × K × ρ)) (s : TimeState K ρ) (hp : s.previous ≠ none)
    (he : s.elapsed < (timeout : K)) (hne : evs ≠ []) : ∃ f, timeRun round64 0 timeout s evs = .error f := by
  obtain ⟨⟨t0, t1, r⟩, rest, rfl⟩ := List.exists_cons_of_ne_nil hne
  obtain ⟨prev, hprev⟩ := Option.ne_none_iff_exists'.1 hp
  refine ⟨.infinite, ?_⟩
  have hz : round64 (0 : K) = 0 := fl_zero round64_isRounding
  simp [timeRun, he, timeTurn, hprev, floorDiv, hz]

/-- Readings of 2017 with a resolution of a quarter of a microsecond: steps of 1.5, 1 and 1.25 seconds, slots of one second.
The first slot passes during the first step. -/
example : timeRun (K := ℚ) round64 1 3 timeInit
    [(1500000000, 1500000001 + 1 / 2, 10), (1500000002 + 1 / 2 ^ 22, 1500000003 + 1 / 2 ^ 22, 20),
      (1500000004, 1500000005 + 1 / 4, 30)] = .ok (some ([(1, 10), (2, 10), (3, 20)], 3)) := by
  decide +kernel

end

end Evogil.Rounded.Time
