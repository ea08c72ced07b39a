import Verif.Lemmas.Binary64
import Verif.Model.Seed
import Mathlib.Data.Rat.Floor
import Mathlib.Tactic.Linarith
import Mathlib.Tactic.NormNum
import Mathlib.Tactic.Ring

/-!
# C157: the seeds of simulations
-/

set_option linter.unusedSectionVars false

namespace Evogil.Seed

open Binary64

theorem fromBytes_append (l : List ℕ) (b : ℕ) : fromBytes (l ++ [b]) = 256 * fromBytes l + b := by
  simp [fromBytes]

/-- C157: of the seeds below `256 ^ n`, each is given by exactly one string of `n` bytes: what `os.urandom` returns decides
the seed, and no two strings share a seed. -/
theorem C157_bytes (n : ℕ) : (∀ bytes : List ℕ, bytes.length = n → (∀ b ∈ bytes, b < 256) → fromBytes bytes < 256 ^ n) ∧
    ∀ seed < 256 ^ n, ∃! bytes : List ℕ, bytes.length = n ∧ (∀ b ∈ bytes, b < 256) ∧ fromBytes bytes = seed := by
  induction n with
  | zero =>
    refine ⟨fun bytes h _ => ?_, fun seed h => ⟨[], ⟨rfl, by simp, ?_⟩, fun bytes h' => List.length_eq_zero_iff.1 h'.1⟩⟩
    · rw [List.length_eq_zero_iff.1 h]
      simp [fromBytes]
    · rw [pow_zero] at h
      simp only [fromBytes, List.foldl_nil]
      omega
  | succ n ih =>
    obtain ⟨h1, h2⟩ := ih
    have split : ∀ bytes : List ℕ, bytes.length = n + 1 → ∃ l b, bytes = l ++ [b] ∧ l.length = n := by
      intro bytes h
      rcases List.eq_nil_or_concat bytes with rfl | ⟨l, b, rfl⟩
      · simp at h
      · exact ⟨l, b, by simp, by simpa using h⟩
    constructor
    · intro bytes h hb
      obtain ⟨l, b, rfl, hl⟩ := split bytes h
      have e1 := h1 l hl fun x hx => hb x (List.mem_append_left _ hx)
      have e2 := hb b (by simp)
      rw [fromBytes_append, pow_succ]
      omega
    · intro seed hs
      rw [pow_succ] at hs
      obtain ⟨l, ⟨l1, l2, l3⟩, l4⟩ := h2 (seed / 256) (by omega)
      refine ⟨l ++ [seed % 256], ⟨by simp [l1], ?_, ?_⟩, ?_⟩
      · intro b hb
        rcases List.mem_append.1 hb with hb | hb
        · exact l2 b hb
        · rw [List.mem_singleton.1 hb]
          exact Nat.mod_lt _ (by norm_num)
      · rw [fromBytes_append, l3]
        omega
      · rintro bytes ⟨b1, b2, b3⟩
        obtain ⟨l', b, rfl, hl'⟩ := split bytes b1
        have e2 := b2 b (by simp)
        rw [fromBytes_append] at b3
        rw [l4 l' ⟨hl', fun x hx => b2 x (List.mem_append_left _ hx), by omega⟩]
        congr 2
        omega

variable {K : Type*} [Field K] [LinearOrder K] [IsStrictOrderedRing K] [FloorRing K]

/-- C157: the same for the seed itself: whatever the clock and the process id, each number below `256 ^ 2500` is the seed for
exactly one result of `os.urandom(2500)`. -/
theorem C157_seed (fl : K → K) (t : K) (pid : ℕ) (seed : ℕ) (h : seed < 256 ^ 2500) :
    ∃! bytes : List ℕ, bytes.length = 2500 ∧ (∀ b ∈ bytes, b < 256) ∧ initSeed fl (some bytes) t pid = seed := by
  obtain ⟨bytes, ⟨h1, h2, h3⟩, h4⟩ := (C157_bytes 2500).2 seed h
  refine ⟨bytes, ⟨h1, h2, by simp only [initSeed, h3]⟩, fun b hb => h4 b ⟨hb.1, hb.2.1, ?_⟩⟩
  have := hb.2.2
  simp only [initSeed] at this
  exact_mod_cast this

/-- Without `os.urandom`, from January 2004 to January 2038 the seed is not spoilt by rounding. -/
theorem C157_fallback {t : K} (ht : round64 t = t) (pid : ℕ) (h0 : 2 ^ 30 ≤ t) (h1 : t * 256 + pid < 2 ^ 39) :
    initSeed round64 none t pid = ⌊t * 256⌋ + pid := by
  obtain ⟨m, e, hm, -, he⟩ : IsFloat t := ht ▸ isFloat_round64 t
  have hmK : |(m : K)| < 2 ^ 53 := by
    have : ((|m| : ℤ) : K) < ((2 ^ 53 : ℤ) : K) := Int.cast_lt.2 hm
    rw [Int.cast_abs] at this
    push_cast at this
    norm_num
    exact this
  have he22 : -22 ≤ e := by
    by_contra hlt
    have h2 : (2 : K) ^ e ≤ 2 ^ (-23 : ℤ) := zpow_le_zpow_right₀ (by norm_num) (by omega)
    have h3 : t < 2 ^ 53 * 2 ^ (-23 : ℤ) := by
      rw [he]
      have h4 : (0 : K) < 2 ^ e := zpow_pos (by norm_num) _
      calc (m : K) * 2 ^ e ≤ |(m : K)| * 2 ^ e := mul_le_mul_of_nonneg_right (le_abs_self _) h4.le
        _ < 2 ^ 53 * 2 ^ e := mul_lt_mul_of_pos_right hmK h4
        _ ≤ _ := mul_le_mul_of_nonneg_left h2 (by positivity)
    norm_num at h3 h0
    linarith
  obtain ⟨j, rfl⟩ : ∃ j : ℕ, e = -22 + j := ⟨(e + 22).toNat, by omega⟩
  have hk : t * 256 = ((m * 2 ^ j : ℤ) : K) * 2 ^ (-14 : ℤ) := by
    rw [he, zpow_add₀ (by norm_num), zpow_natCast]
    push_cast
    norm_num
    ring
  have hp0 : (0 : K) ≤ pid := Nat.cast_nonneg _
  have small : ∀ n : ℤ, 0 ≤ (n : K) * 2 ^ (-14 : ℤ) → (n : K) * 2 ^ (-14 : ℤ) < 2 ^ 39 →
      round64 ((n : K) * 2 ^ (-14 : ℤ)) = (n : K) * 2 ^ (-14 : ℤ) := by
    intro n g0 g1
    refine round64_float ⟨n, -14, ?_, by norm_num, rfl⟩
    have g2 : (0 : K) ≤ n := by
      by_contra hneg
      have : (n : K) * 2 ^ (-14 : ℤ) < 0 := mul_neg_of_neg_of_pos (not_le.1 hneg) (by positivity)
      linarith
    have g3 : (n : K) < 2 ^ 53 := by
      norm_num at g1 ⊢
      linarith
    rw [abs_of_nonneg (by exact_mod_cast g2)]
    exact_mod_cast g3
  have hsum : t * 256 + pid = ((m * 2 ^ j + pid * 2 ^ 14 : ℤ) : K) * 2 ^ (-14 : ℤ) := by
    rw [hk]
    push_cast
    norm_num
    ring
  have hpos : 0 ≤ t * 256 := by
    norm_num at h0
    linarith
  unfold initSeed Rounded.Time.truncate
  simp only
  have e1 : round64 (t * 256) = t * 256 := by
    rw [hk]
    rw [hk] at hpos h1
    exact small _ hpos (by linarith)
  have e2 : round64 (t * 256 + pid) = t * 256 + pid := by
    have hpos' : 0 ≤ t * 256 + pid := by linarith
    rw [hsum] at hpos' h1 ⊢
    exact small _ hpos' h1
  rw [e1, e2, if_pos (by linarith), Int.floor_add_natCast]

/-- C157 without `os.urandom`: two simulations get different seeds if they start at the same moment in different processes, if
the later one has the larger process id, or if they start in the same process at least 1/256 of a second apart. Missing: the
other cases, see `C157_processes_violated` and `C157_moment_violated`. -/
theorem C157_distinct_partial {t t' : K} (ht : round64 t = t) (ht' : round64 t' = t') (pid pid' : ℕ) (h0 : 2 ^ 30 ≤ t)
    (hle : t ≤ t') (h1 : t * 256 + pid < 2 ^ 39) (h1' : t' * 256 + pid' < 2 ^ 39)
    (h : (t = t' ∧ pid ≠ pid') ∨ pid < pid' ∨ (pid = pid' ∧ t + 1 / 256 ≤ t')) :
    initSeed round64 none t pid ≠ initSeed round64 none t' pid' := by
  rw [C157_fallback ht pid h0 h1, C157_fallback ht' pid' (h0.trans hle) h1']
  have hmono : ⌊t * 256⌋ ≤ ⌊t' * 256⌋ := Int.floor_mono (by linarith)
  rcases h with ⟨rfl, h⟩ | h | ⟨rfl, h⟩
  · omega
  · omega
  · have : ⌊t * 256 + 1⌋ ≤ ⌊t' * 256⌋ := Int.floor_mono (by linarith)
    rw [Int.floor_add_one] at this
    omega

/-- C157 is violated without `os.urandom`: of two processes with neighbouring ids, the one with the smaller id starts 1/256 of
a second later, and both get the same seed. -/
theorem C157_processes_violated : ∃ t t' : ℚ, round64 t = t ∧ round64 t' = t' ∧ 2 ^ 30 ≤ t ∧ t' = t + 1 / 256 ∧
    initSeed round64 none t 4321 = initSeed round64 none t' 4320 :=
  ⟨1700000000, 1700000000 + 1 / 256, by decide +kernel, by decide +kernel, by norm_num, rfl, by decide +kernel⟩

/-- C157 is violated without `os.urandom`: two simulations in one process that start 1/1024 of a second apart get the same
seed. -/
theorem C157_moment_violated : ∃ t t' : ℚ, round64 t = t ∧ round64 t' = t' ∧ 2 ^ 30 ≤ t ∧ t' = t + 1 / 1024 ∧
    initSeed round64 none t 4321 = initSeed round64 none t' 4321 :=
  ⟨1700000000, 1700000000 + 1 / 1024, by decide +kernel, by decide +kernel, by norm_num, rfl, by decide +kernel⟩

/-- The bytes 1, 0 and 2 are the number 65538. -/
example : initSeed (K := ℚ) round64 (some [1, 0, 2]) 0 0 = 65538 := by decide +kernel

/-- A quarter past a full second. -/
example : initSeed (K := ℚ) round64 none (1700000000 + 1 / 4) 4321 = 1700000000 * 256 + 64 + 4321 := by decide +kernel

/-- Processes 17 and 18 at the same moment. -/
example : initSeed (K := ℚ) round64 none 1700000000 17 ≠ initSeed (K := ℚ) round64 none 1700000000 18 :=
  C157_distinct_partial (by decide +kernel) (by decide +kernel) 17 18 (by norm_num) le_rfl (by norm_num) (by norm_num)
    (.inl ⟨rfl, by decide⟩)

/-- Exactly one string of two bytes gives the seed 513. -/
example : ∃! bytes : List ℕ, bytes.length = 2 ∧ (∀ b ∈ bytes, b < 256) ∧ fromBytes bytes = 513 :=
  (C157_bytes 2).2 513 (by norm_num)

end Evogil.Seed
