import Verif.Model.RoundedMetrics
import Verif.Props.Metrics
import Verif.Props.RoundedHv

/-! # C129: the quality indicators in floating point -/

set_option linter.unusedSectionVars false

namespace Evogil.Rounded

open Spec Binary64

section calculus

variable {K : Type*} [Field K] [LinearOrder K] [IsStrictOrderedRing K] {fl : K → K} {u : K}

theorem sumUp_near (R : IsAccurate fl u) (h0 : 0 ≤ u) (h1 : u ≤ 1) {e k : ℕ} (he : e ≤ 1022) {as bs : List K}
    (h : List.Forall₂ (fun a b => Near u k a b ∧ Big e b) as bs) :
    Near u (k + as.length) as.sum (sumUp fl bs) ∧ Big e (sumUp fl bs) := by
  have key : ∀ (j : ℕ) (s s' : K), Near u (k + j) s s' → Big e s' →
      Near u (k + j + as.length) (s + as.sum) (bs.foldl (fun s x => fl (s + x)) s') ∧
        Big e (bs.foldl (fun s x => fl (s + x)) s') := by
    induction h with
    | nil => intro j s s' hn hb; exact ⟨by simpa using hn, hb⟩
    | @cons a b as bs hab _ ih =>
      intro j s s' hn hb
      have r := sum_near R h0 h1 he hn (hab.1.mono h0 h1 (Nat.le_add_right k j)) hb hab.2
      have := ih (j + 1) _ _ r.1 r.2
      rw [List.foldl_cons, List.sum_cons, List.length_cons, ← add_assoc s a]
      rwa [show k + (j + 1) + as.length = k + j + (as.length + 1) by omega] at this
  have := key 0 0 0 (Near.refl h0 h1 le_rfl _) (Or.inl rfl)
  rwa [zero_add, add_zero] at this

theorem min_near (h1 : u ≤ 1) {α : Type*} {k e : ℕ} {T : List α} (hT : T ≠ []) {f g : α → K}
    (h : ∀ t ∈ T, Near u k (f t) (g t) ∧ Big e (g t)) :
    ∃ a b, pyMin (T.map f) = some a ∧ pyMin (T.map g) = some b ∧ Near u k a b ∧ Big e b := by
  obtain ⟨a, ha⟩ := Option.isSome_iff_exists.1 (pyMin_isSome.2 (show T.map f ≠ [] by simpa using hT))
  obtain ⟨b, hb⟩ := Option.isSome_iff_exists.1 (pyMin_isSome.2 (show T.map g ≠ [] by simpa using hT))
  obtain ⟨ha1, ha2⟩ := pyMin_eq_some.1 ha
  obtain ⟨hb1, hb2⟩ := pyMin_eq_some.1 hb
  obtain ⟨t, ht, rfl⟩ := List.mem_map.1 ha1
  obtain ⟨t', ht', rfl⟩ := List.mem_map.1 hb1
  have hs : (0 : K) ≤ (1 - u) ^ k := pow_nonneg (by linarith) k
  refine ⟨_, _, ha, hb, ⟨(h t ht).1.nonneg, (h t' ht').1.nonneg', ?_, ?_⟩, (h t' ht').2⟩
  · exact (mul_le_mul_of_nonneg_left (ha2 _ (List.mem_map_of_mem ht')) hs).trans (h t' ht').1.le
  · exact (mul_le_mul_of_nonneg_left (hb2 _ (List.mem_map_of_mem ht)) hs).trans (h t ht).1.le'

theorem max_near' {α : Type*} {k e : ℕ} {T : List α} (hT : T ≠ []) {f g : α → K}
    (h : ∀ t ∈ T, Near u k (f t) (g t) ∧ Big e (g t)) :
    ∃ a b, pyMax (T.map f) = some a ∧ pyMax (T.map g) = some b ∧ Near u k a b ∧ Big e b := by
  obtain ⟨a, ha⟩ := Option.isSome_iff_exists.1 (pyMax_isSome.2 (show T.map f ≠ [] by simpa using hT))
  obtain ⟨b, hb⟩ := Option.isSome_iff_exists.1 (pyMax_isSome.2 (show T.map g ≠ [] by simpa using hT))
  obtain ⟨ha1, ha2⟩ := pyMax_eq_some.1 ha
  obtain ⟨hb1, hb2⟩ := pyMax_eq_some.1 hb
  obtain ⟨t, ht, rfl⟩ := List.mem_map.1 ha1
  obtain ⟨t', ht', rfl⟩ := List.mem_map.1 hb1
  refine ⟨_, _, ha, hb, ⟨(h t ht).1.nonneg, (h t' ht').1.nonneg', ?_, ?_⟩, (h t' ht').2⟩
  · exact (h t ht).1.le.trans (hb2 _ (List.mem_map_of_mem ht))
  · exact (h t' ht').1.le'.trans (ha2 _ (List.mem_map_of_mem ht'))

theorem max_near (h1 : u ≤ 1) {k : ℕ} {a b a' b' : K} (h : Near u k a a') (h' : Near u k b b') :
    Near u k (max a b) (max a' b') := by
  have hs : (0 : K) ≤ (1 - u) ^ k := pow_nonneg (by linarith) k
  refine ⟨le_max_of_le_left h.nonneg, le_max_of_le_left h.nonneg', ?_, ?_⟩
  · rw [mul_max_of_nonneg _ _ hs]
    exact max_le_max h.le h'.le
  · rw [mul_max_of_nonneg _ _ hs]
    exact max_le_max h.le' h'.le'

theorem mapM_two {α β γ : Type*} {f : α → Option β} {g : α → Option γ} {P : β → γ → Prop} : ∀ l : List α,
    (∀ a ∈ l, ∃ b c, f a = some b ∧ g a = some c ∧ P b c) →
    ∃ bs cs, l.mapM f = some bs ∧ l.mapM g = some cs ∧ List.Forall₂ P bs cs ∧ bs.length = l.length
  | [], _ => ⟨[], [], rfl, rfl, .nil, rfl⟩
  | a :: l, h => by
    obtain ⟨b, c, hb, hc, hp⟩ := h a (by simp)
    obtain ⟨bs, cs, hbs, hcs, hP, hl⟩ := mapM_two l fun x hx => h x (List.mem_cons_of_mem _ hx)
    exact ⟨b :: bs, c :: cs, by simp [List.mapM_cons, hb, hbs], by simp [List.mapM_cons, hc, hcs], .cons hp hP, by simp [hl]⟩

end calculus

/-! ## The coordinates -/

/-- A coordinate that the theorems below admit: a float that is 0 or not smaller than 2⁻⁴⁰⁰. -/
def Moderate (x : ℝ) : Prop := round64 x = x ∧ (x = 0 ∨ (1 / 2) ^ 400 ≤ |x|)

theorem grid_of_moderate {x : ℝ} (h : Moderate x) : OnGrid 452 x := by
  obtain ⟨hx, rfl | hb⟩ := h
  · exact ⟨0, by simp⟩
  · obtain ⟨m, e, hm, -, he⟩ : IsFloat x := hx ▸ isFloat_round64 x
    have h2 : (0 : ℝ) < 2 := by norm_num
    have hlo : -452 ≤ e := by
      by_contra hlt
      have h1 : (2 : ℝ) ^ e ≤ 2 ^ (-453 : ℤ) := zpow_le_zpow_right₀ (by norm_num) (by omega)
      have h3 : |(m : ℝ)| < 2 ^ (53 : ℤ) := by
        have : ((|m| : ℤ) : ℝ) < ((2 ^ 53 : ℤ) : ℝ) := Int.cast_lt.2 hm
        rw [Int.cast_abs] at this
        push_cast at this
        norm_num
        exact this
      rw [he, abs_mul, abs_of_pos (zpow_pos h2 e)] at hb
      have h4 : |(m : ℝ)| * 2 ^ e ≤ |(m : ℝ)| * 2 ^ (-453 : ℤ) := mul_le_mul_of_nonneg_left h1 (abs_nonneg _)
      have h5 : |(m : ℝ)| * 2 ^ (-453 : ℤ) < 2 ^ (53 : ℤ) * 2 ^ (-453 : ℤ) := mul_lt_mul_of_pos_right h3 (zpow_pos h2 _)
      have h6 : (2 : ℝ) ^ (53 : ℤ) * 2 ^ (-453 : ℤ) = (1 / 2) ^ 400 := by
        rw [← zpow_add₀ h2.ne', one_div, inv_pow, ← zpow_natCast, ← zpow_neg]
        norm_num
      exact absurd hb (not_le.2 ((h4.trans_lt h5).trans_eq h6))
    obtain ⟨k, rfl⟩ : ∃ k : ℕ, e = (k : ℤ) - 452 := ⟨(e + 452).toNat, by omega⟩
    refine ⟨m * 2 ^ k, ?_⟩
    rw [he, zpow_sub₀ h2.ne', one_div, inv_pow]
    push_cast
    rw [zpow_natCast, div_eq_mul_inv, mul_assoc]
    rfl

/-- `… ** 2` with an error of at most one unit in the last place, where nothing underflows. -/
def SquareOk (sqr : ℝ → ℝ) : Prop := ∀ x, x = 0 ∨ (1 / 2) ^ 511 ≤ |x| → |sqr x - x ^ 2| ≤ 1 / 2 ^ 52 * x ^ 2

theorem square_near {sqr : ℝ → ℝ} (hq : SquareOk sqr) {x : ℝ} (h : x = 0 ∨ (1 / 2) ^ 511 ≤ |x|) :
    Near (1 / 2 ^ 53) 3 (x ^ 2) (sqr x) := by
  have h1 := abs_le.1 (hq x h)
  have h0 : 0 ≤ x ^ 2 := sq_nonneg x
  have e1 : (1 - 1 / 2 ^ 53 : ℝ) ^ 3 ≤ 1 - 1 / 2 ^ 52 := by norm_num
  have e2 : (1 - 1 / 2 ^ 53 : ℝ) ^ 3 * (1 + 1 / 2 ^ 52) ≤ 1 := by norm_num
  have e3 : (0 : ℝ) ≤ 1 - 1 / 2 ^ 52 := by norm_num
  have e4 : (0 : ℝ) ≤ (1 - 1 / 2 ^ 53 : ℝ) ^ 3 := by norm_num
  have lo : (1 - 1 / 2 ^ 52) * x ^ 2 ≤ sqr x := by linarith [h1.1]
  have hi : sqr x ≤ (1 + 1 / 2 ^ 52) * x ^ 2 := by linarith [h1.2]
  refine ⟨h0, le_trans (mul_nonneg e3 h0) lo, (mul_le_mul_of_nonneg_right e1 h0).trans lo, ?_⟩
  calc _ ≤ (1 - 1 / 2 ^ 53 : ℝ) ^ 3 * ((1 + 1 / 2 ^ 52) * x ^ 2) := mul_le_mul_of_nonneg_left hi e4
    _ = (1 - 1 / 2 ^ 53 : ℝ) ^ 3 * (1 + 1 / 2 ^ 52) * x ^ 2 := by ring
    _ ≤ 1 * x ^ 2 := mul_le_mul_of_nonneg_right e2 h0
    _ = x ^ 2 := one_mul _

section unit

/-- The unit of the relative errors. -/
noncomputable abbrev unit : ℝ := 1 / 2 ^ 53

theorem unit_nonneg : (0 : ℝ) ≤ unit := by unfold unit; positivity

theorem unit_le : unit ≤ 1 := by unfold unit; norm_num

theorem unit_lt : unit < 1 := by unfold unit; norm_num

theorem abs_diff_near {x y : ℝ} (hx : OnGrid 452 x) (hy : OnGrid 452 y) :
    Near unit 1 |x - y| |round64 (x - y)| ∧ Big 452 |round64 (x - y)| := by
  have R := round64_accurate (K := ℝ)
  have hb : Big 452 |x - y| := by
    rcases abs_choice (x - y) with h | h
    · rw [h]; exact (hx.sub hy).big (h ▸ abs_nonneg _)
    · rw [h]; exact (hx.sub hy).neg.big (h ▸ abs_nonneg _)
  have he : |round64 (x - y)| = round64 |x - y| := by
    rcases le_total 0 (x - y) with h | h
    · rw [abs_of_nonneg h, abs_of_nonneg (R.nonneg h)]
    · rw [abs_of_nonpos h, round64_neg, abs_of_nonpos]
      have := R.nonneg (x := -(x - y)) (by linarith)
      rw [round64_neg] at this
      linarith
  rw [he]
  exact ⟨near_fl R unit_nonneg unit_le hb (by norm_num), hb.round R (by norm_num)⟩

theorem term_near {sqr : ℝ → ℝ} (hq : SquareOk sqr) {x y : ℝ} (hx : OnGrid 452 x) (hy : OnGrid 452 y) :
    Near unit 5 ((x - y) ^ 2) (sqr (round64 (x - y))) ∧ Big 905 (sqr (round64 (x - y))) := by
  obtain ⟨h1, h2⟩ := abs_diff_near hx hy
  have hd : round64 (x - y) = 0 ∨ (1 / 2 : ℝ) ^ 511 ≤ |round64 (x - y)| := by
    rcases h2 with h | h
    · exact Or.inl (abs_eq_zero.1 h)
    · exact Or.inr (le_trans (pow_le_pow_of_le_one (by norm_num) (by norm_num) (by norm_num)) h)
  have hs := square_near hq hd
  have h3 := h1.mul unit_le h1
  rw [← pow_two, ← pow_two, sq_abs, sq_abs] at h3
  refine ⟨h3.trans unit_le hs, ?_⟩
  rcases h2 with h | h
  · left
    rw [abs_eq_zero] at h
    rw [h] at hs ⊢
    have := hs.le'
    have h5 := hs.nonneg'
    have h6 : (0 : ℝ) < (1 - 1 / 2 ^ 53) ^ 3 := by norm_num
    nlinarith
  · right
    have h4 := hs.le
    have h5 : (1 / 2 : ℝ) ^ 904 ≤ round64 (x - y) ^ 2 := by
      rw [← sq_abs (round64 (x - y))]
      calc (1 / 2 : ℝ) ^ 904 = ((1 / 2) ^ 452) ^ 2 := by rw [show (904 : ℕ) = 452 * 2 by norm_num, pow_mul]
        _ ≤ _ := pow_le_pow_left₀ (by positivity) h 2
    have h6 : (1 / 2 : ℝ) ≤ (1 - 1 / 2 ^ 53) ^ 3 := by norm_num
    calc (1 / 2 : ℝ) ^ 905 = 1 / 2 * (1 / 2) ^ 904 := by rw [pow_succ, mul_comm]
      _ ≤ (1 - 1 / 2 ^ 53) ^ 3 * round64 (x - y) ^ 2 := mul_le_mul h6 h5 (by positivity) (by positivity)
      _ ≤ _ := h4

theorem forall₂_map {α : Type*} {f g : α → ℝ} {P : ℝ → ℝ → Prop} : ∀ l : List α, (∀ a ∈ l, P (f a) (g a)) →
    List.Forall₂ P (l.map f) (l.map g)
  | [], _ => .nil
  | a :: l, h => .cons (h a (by simp)) (forall₂_map l fun x hx => h x (List.mem_cons_of_mem _ hx))

theorem sqrDistance_near {sqr : ℝ → ℝ} (hq : SquareOk sqr) {d : ℕ} {xs ys : List ℝ} (hl : xs.length = d)
    (hx : ∀ x ∈ xs, Moderate x) (hy : ∀ y ∈ ys, Moderate y) :
    Near unit (d + 5) (Evogil.sqrDistance xs ys) (sqrDistance round64 sqr xs ys) ∧
      Big 905 (sqrDistance round64 sqr xs ys) := by
  have h := sumUp_near round64_accurate unit_nonneg unit_le (e := 905) (k := 5) (by norm_num)
    (forall₂_map (f := fun p : ℝ × ℝ => (p.1 - p.2) ^ 2) (g := fun p : ℝ × ℝ => sqr (round64 (p.1 - p.2))) (xs.zip ys)
      fun p hp => term_near hq (grid_of_moderate (hx _ (List.of_mem_zip hp).1))
        (grid_of_moderate (hy _ (List.of_mem_zip hp).2)))
  refine ⟨h.1.mono unit_nonneg unit_le ?_, h.2⟩
  rw [List.length_map, List.length_zip, hl]
  omega

theorem Near.sqrt {k : ℕ} {a b : ℝ} (h : Near unit (2 * k) a b) : Near unit k (Real.sqrt a) (Real.sqrt b) := by
  have hs : (0 : ℝ) ≤ 1 - unit := by linarith [unit_le]
  have e : ∀ c : ℝ, Real.sqrt ((1 - unit) ^ (2 * k) * c) = (1 - unit) ^ k * Real.sqrt c := by
    intro c
    rw [mul_comm 2 k, pow_mul, Real.sqrt_mul (sq_nonneg _), Real.sqrt_sq (pow_nonneg hs k)]
  refine ⟨Real.sqrt_nonneg _, Real.sqrt_nonneg _, ?_, ?_⟩
  · rw [← e]; exact Real.sqrt_le_sqrt h.le
  · rw [← e]; exact Real.sqrt_le_sqrt h.le'

theorem Big.sqrt {e : ℕ} {x : ℝ} (h : Big (2 * e) x) : Big e (Real.sqrt x) := by
  rcases h with rfl | h
  · exact Or.inl Real.sqrt_zero
  · refine Or.inr ?_
    rw [mul_comm, pow_mul] at h
    exact Real.le_sqrt_of_sq_le h

theorem root_near {k e : ℕ} (he : e ≤ 1022) {a b : ℝ} (h : Near unit (2 * k) a b) (hb : Big (2 * e) b) :
    Near unit (k + 1) (Real.sqrt a) (round64 (Real.sqrt b)) :=
  (Near.sqrt h).trans unit_le (near_fl round64_accurate unit_nonneg unit_le (Big.sqrt hb) he)

/-! ## GD, IGD, AHD -/

/-- C129, GD: for non-empty sets of points of moderate floats, the generational distance computed with Python's rounding
after every operation differs from the exact one by at most `(n + d + 9) / 2` relative errors of 2⁻⁵³, where `n` is the
number of solutions and `d` the number of objectives. -/
theorem C129_gd {sqr : ℝ → ℝ} (hq : SquareOk sqr) {d : ℕ} {S T : List (List ℝ)} (hS : S ≠ []) (hT : T ≠ [])
    (hn : S.length < 2 ^ 53) (hSd : ∀ x ∈ S, x.length = d) (hSm : ∀ x ∈ S, ∀ a ∈ x, Moderate a)
    (hTm : ∀ x ∈ T, ∀ a ∈ x, Moderate a) :
    ∃ w v, generationalDistance S T = some w ∧ distance round64 sqr (fun x => round64 (Real.sqrt x)) S T = some v ∧
      Near (1 / 2 ^ 53) ((S.length + d + 9) / 2) w v := by
  obtain ⟨ms, ms', h1, h2, hP, hl⟩ := mapM_two (f := fun f => pyMin (T.map fun t => Evogil.sqrDistance f t))
    (g := fun f => pyMin (T.map fun t => sqrDistance round64 sqr f t))
    (P := fun a b => Near unit (d + 5) a b ∧ Big 905 b) S
    (fun f hf => min_near unit_le hT fun t ht => sqrDistance_near hq (hSd f hf) (hSm f hf) (hTm t ht))
  have hl' : ms'.length = S.length := by rw [← hP.length_eq, hl]
  have hpos : S.length ≠ 0 := fun h => hS (List.eq_nil_of_length_eq_zero h)
  have hn0 : (0 : ℝ) < S.length := by exact_mod_cast Nat.pos_of_ne_zero hpos
  obtain ⟨s1, s2⟩ := sumUp_near round64_accurate unit_nonneg unit_le (by norm_num) hP
  rw [hl] at s1
  -- the mean
  have q1 : Near unit (d + 5 + S.length) (ms.sum / S.length) (sumUp round64 ms' / S.length) := by
    refine ⟨div_nonneg s1.nonneg hn0.le, div_nonneg s1.nonneg' hn0.le, ?_, ?_⟩
    · rw [← mul_div_assoc]; exact div_le_div_of_nonneg_right s1.le hn0.le
    · rw [← mul_div_assoc]; exact div_le_div_of_nonneg_right s1.le' hn0.le
  have q2 : Big 958 (sumUp round64 ms' / S.length) := by
    rcases s2 with h | h
    · left; rw [h, zero_div]
    · right
      rw [le_div_iff₀ hn0]
      have : (S.length : ℝ) ≤ 2 ^ 53 := by exact_mod_cast hn.le
      calc (1 / 2 : ℝ) ^ 958 * S.length ≤ (1 / 2) ^ 958 * 2 ^ 53 := mul_le_mul_of_nonneg_left this (by positivity)
        _ = (1 / 2) ^ 905 := by
          rw [show (958 : ℕ) = 905 + 53 by norm_num, pow_add, mul_assoc, ← mul_pow]
          norm_num
        _ ≤ _ := h
  have q3 := q1.trans unit_le (near_fl round64_accurate unit_nonneg unit_le q2 (by norm_num))
  have q4 := root_near (k := (S.length + d + 7) / 2) (e := 479) (by norm_num)
    (q3.mono unit_nonneg unit_le (by omega)) (q2.round round64_accurate (by norm_num))
  refine ⟨Real.sqrt (ms.sum / S.length), round64 (Real.sqrt (round64 (sumUp round64 ms' / S.length))), ?_, ?_, ?_⟩
  · unfold generationalDistance Evogil.distance Evogil.minDistances
    rw [h1]
    simp only [Option.bind_eq_bind, Option.bind_some]
    rw [if_neg (by rw [hl]; exact hpos), hl]
  · unfold distance minDistances
    rw [h2]
    simp only [Option.bind_eq_bind, Option.bind_some]
    rw [if_neg (by rw [hl']; exact hpos), hl']
  · rw [show (S.length + d + 9) / 2 = (S.length + d + 7) / 2 + 1 by omega]
    exact q4

theorem near_zero_iff {k : ℕ} {a b : ℝ} (h : Near unit k a b) : b = 0 ↔ a = 0 := by
  have hs : (0 : ℝ) < (1 - unit) ^ k := pow_pos (by linarith [unit_lt]) k
  have h1 := h.le
  have h2 := h.le'
  have h3 := h.nonneg
  have h4 := h.nonneg'
  constructor
  · rintro rfl; nlinarith
  · rintro rfl; nlinarith

/-- C129: the computed distance is 0 exactly if every solution is a point of the front. -/
theorem C129_zero {sqr : ℝ → ℝ} (hq : SquareOk sqr) {d : ℕ} {S T : List (List ℝ)} (hS : S ≠ []) (hT : T ≠ [])
    (hn : S.length < 2 ^ 53) (hSd : ∀ x ∈ S, x.length = d) (hTd : ∀ x ∈ T, x.length = d)
    (hSm : ∀ x ∈ S, ∀ a ∈ x, Moderate a) (hTm : ∀ x ∈ T, ∀ a ∈ x, Moderate a) {v : ℝ}
    (hv : distance round64 sqr (fun x => round64 (Real.sqrt x)) S T = some v) : v = 0 ↔ ∀ x ∈ S, x ∈ T := by
  obtain ⟨w, v', hw, hv', hnear⟩ := C129_gd hq hS hT hn hSd hSm hTm
  obtain rfl : v' = v := by rw [hv'] at hv; exact Option.some.inj hv
  rw [near_zero_iff hnear]
  exact C07_zero_iff d S T hSd hTd w hw

/-- C129, AHD. -/
theorem C129_ahd {sqr : ℝ → ℝ} (hq : SquareOk sqr) {d n : ℕ} {sol nd T : List (List ℝ)} (hs0 : sol ≠ []) (hS : nd ≠ [])
    (hT : T ≠ []) (hn : n < 2 ^ 53) (h1 : nd.length ≤ n) (h2 : T.length ≤ n) (hSd : ∀ x ∈ nd, x.length = d)
    (hTd : ∀ x ∈ T, x.length = d) (hs : ∀ x ∈ sol, ∀ a ∈ x, Moderate a) (hSm : ∀ x ∈ nd, ∀ a ∈ x, Moderate a)
    (hTm : ∀ x ∈ T, ∀ a ∈ x, Moderate a) :
    ∃ w v, Evogil.metricAHD sol nd T = some w ∧
      metricAHD round64 sqr (fun x => round64 (Real.sqrt x)) sol nd T = some v ∧
      Near (1 / 2 ^ 53) ((n + d + 9) / 2) w v := by
  obtain ⟨a, a', e1, e2, na⟩ := C129_gd hq hS hT (by omega) hSd hSm hTm
  obtain ⟨b, b', e3, e4, nb⟩ := C129_gd hq hT hs0 (by omega) hTd hTm hs
  refine ⟨max a b, max a' b', ?_, ?_, max_near unit_le (na.mono unit_nonneg unit_le ?_) (nb.mono unit_nonneg unit_le ?_)⟩
  · unfold Evogil.metricAHD Evogil.metricIGD inverseGenerationalDistance Evogil.metricGD
    unfold generationalDistance at e1 e3 ⊢
    simp [e1, e3]
  · unfold metricAHD metricGD metricIGD
    simp [e2, e4]
  · omega
  · omega

/-- C129, comparisons: of two results the one whose distance is smaller by more than the relative errors gets the smaller
value, and a value smaller by more than the relative errors means a smaller distance. -/
theorem C129_rank {sqr : ℝ → ℝ} (hq : SquareOk sqr) {d n : ℕ} {S S' T : List (List ℝ)} (hS : S ≠ []) (hS' : S' ≠ [])
    (hT : T ≠ []) (hn : n < 2 ^ 53) (h1 : S.length ≤ n) (h2 : S'.length ≤ n) (hSd : ∀ x ∈ S, x.length = d)
    (hSd' : ∀ x ∈ S', x.length = d) (hSm : ∀ x ∈ S, ∀ a ∈ x, Moderate a) (hSm' : ∀ x ∈ S', ∀ a ∈ x, Moderate a)
    (hTm : ∀ x ∈ T, ∀ a ∈ x, Moderate a) :
    ∃ w w' v v', generationalDistance S T = some w ∧ generationalDistance S' T = some w' ∧
      distance round64 sqr (fun x => round64 (Real.sqrt x)) S T = some v ∧
      distance round64 sqr (fun x => round64 (Real.sqrt x)) S' T = some v' ∧
      (w < (1 - 1 / 2 ^ 53) ^ (n + d + 9) * w' → v < v') ∧ (v < (1 - 1 / 2 ^ 53) ^ (n + d + 9) * v' → w < w') := by
  obtain ⟨w, v, e1, e2, hw⟩ := C129_gd hq hS hT (by omega) hSd hSm hTm
  obtain ⟨w', v', e3, e4, hw'⟩ := C129_gd hq hS' hT (by omega) hSd' hSm' hTm
  have hp : ∀ a : ℝ, 0 ≤ a → (1 - 1 / 2 ^ 53 : ℝ) ^ (n + d + 9) * a ≤
      (1 - 1 / 2 ^ 53) ^ ((S.length + d + 9) / 2 + (S'.length + d + 9) / 2) * a := fun a ha =>
    mul_le_mul_of_nonneg_right (pow_le_pow_of_le_one (by norm_num) (by norm_num) (by omega)) ha
  exact ⟨w, w', v, v', e1, e3, e2, e4, fun h => near_lt unit_lt hw hw' (h.trans_le (hp _ hw'.nonneg)),
    fun h => near_lt unit_lt hw.symm hw'.symm (h.trans_le (hp _ hw'.nonneg'))⟩

/-- C129, extent. -/
theorem C129_extent {d : ℕ} {S : List (Fin d → ℝ)} (hS : S ≠ []) (hm : ∀ x ∈ S, ∀ i, Moderate (x i)) :
    ∃ w v, Evogil.extent S = some w ∧ extent round64 (fun x => round64 (Real.sqrt x)) S = some v ∧
      Near (1 / 2 ^ 53) ((d + 4) / 2) w v := by
  have hp : ∀ F : (Fin d → ℝ) → (Fin d → ℝ) → ℝ, (S.flatMap fun x => S.map fun y => F x y) =
      (S.flatMap fun x => S.map fun y => (x, y)).map fun p => F p.1 p.2 := by
    intro F
    rw [List.map_flatMap]
    simp only [List.map_map, Function.comp_def]
  have hne : (S.flatMap fun x => S.map fun y => (x, y)) ≠ [] := by
    obtain ⟨x, hx⟩ := List.exists_mem_of_ne_nil S hS
    intro h
    have : (x, x) ∈ (S.flatMap fun x => S.map fun y => (x, y)) :=
      List.mem_flatMap.2 ⟨x, hx, List.mem_map.2 ⟨x, hx, rfl⟩⟩
    rw [h] at this
    simp at this
  obtain ⟨ms, ms', h1, h2, hP, hl⟩ := mapM_two (f := fun i => Evogil.spreadIn S i) (g := fun i => spreadIn round64 S i)
    (P := fun a b => Near unit 1 a b ∧ Big 452 b) (List.finRange d) (by
      intro i _
      unfold Evogil.spreadIn spreadIn
      rw [hp fun x y => |x i - y i|, hp fun x y => |round64 (x i - y i)|]
      refine max_near' hne ?_
      rintro ⟨x, y⟩ hxy
      obtain ⟨x', hx, hxy'⟩ := List.mem_flatMap.1 hxy
      obtain ⟨y', hy, he⟩ := List.mem_map.1 hxy'
      injection he with he1 he2
      subst he1 he2
      exact abs_diff_near (grid_of_moderate (hm _ hx i)) (grid_of_moderate (hm _ hy i)))
  rw [List.length_finRange] at hl
  obtain ⟨s1, s2⟩ := sumUp_near round64_accurate unit_nonneg unit_le (by norm_num) hP
  rw [hl] at s1
  refine ⟨Real.sqrt ms.sum, round64 (Real.sqrt (sumUp round64 ms')), ?_, ?_, ?_⟩
  · unfold Evogil.extent
    rw [if_neg hS, h1]
    rfl
  · unfold extent
    rw [if_neg hS, h2]
    rfl
  · rw [show (d + 4) / 2 = (d + 2) / 2 + 1 by omega]
    exact root_near (e := 226) (by norm_num) (s1.mono unit_nonneg unit_le (by omega)) s2

end unit

/-! ## The additive epsilon indicator -/

section epsilon

variable {K : Type*} [Field K] [LinearOrder K] [IsStrictOrderedRing K] {fl : K → K} {d : ℕ}

theorem ite_lt_fl (hm : Monotone fl) (a b : K) : (if fl a < fl b then fl b else fl a) = fl (if a < b then b else a) := by
  by_cases h : a < b
  · rw [if_pos h]
    split_ifs with h'
    · rfl
    · exact le_antisymm (hm h.le) (not_lt.1 h')
  · rw [if_neg h, if_neg (not_lt.2 (hm (not_lt.1 h)))]

theorem ite_gt_fl (hm : Monotone fl) (a b : K) : (if fl a < fl b then fl a else fl b) = fl (if a < b then a else b) := by
  by_cases h : a < b
  · rw [if_pos h]
    split_ifs with h'
    · rfl
    · exact le_antisymm (not_lt.1 h') (hm h.le)
  · rw [if_neg h, if_neg (not_lt.2 (hm (not_lt.1 h)))]

theorem epsLoopK_fl (hm : Monotone fl) (p s : Fin d → K) (e : K) :
    epsLoopK fl p s (fl e) = fl (Evogil.epsLoopK p s e) := by
  unfold epsLoopK Evogil.epsLoopK
  refine (List.foldl_hom fl fun acc k => ?_)
  simp only
  by_cases h : (k : ℕ) = 0
  · rw [if_pos h, if_pos h]
  · rw [if_neg h, if_neg h]
    exact ite_lt_fl hm _ _

theorem epsLoopJ_fl (hm : Monotone fl) (R : List (Fin d → K)) (s : Fin d → K) (st : K × K) :
    epsLoopJ fl R s (Prod.map fl fl st) = Prod.map fl fl (Evogil.epsLoopJ R s st) := by
  unfold epsLoopJ Evogil.epsLoopJ
  refine (List.foldl_hom (Prod.map fl fl) fun st pj => ?_)
  simp only [Prod.map_snd, Prod.map_fst, epsLoopK_fl hm, Prod.map_apply]
  congr 1
  by_cases h : pj.2 = 0
  · rw [if_pos h, if_pos h]
  · rw [if_neg h, if_neg h]
    exact ite_gt_fl hm _ _

theorem epsStepI_fl (hm : Monotone fl) (R : List (Fin d → K)) (st : WithBot K × K × K) (si : (Fin d → K) × ℕ) :
    epsStepI fl R (Prod.map (WithBot.map fl) (Prod.map fl fl) st) si =
      Prod.map (WithBot.map fl) (Prod.map fl fl) (Evogil.epsStepI R st si) := by
  unfold epsStepI Evogil.epsStepI
  simp only [Prod.map_snd, Prod.map_fst, epsLoopJ_fl hm, Prod.map_apply]
  congr 1
  by_cases h : si.2 = 0
  · rw [if_pos h, if_pos h]
    rfl
  · rw [if_neg h, if_neg h]
    cases hst : st.1 with
    | bot => simp
    | coe a =>
      simp only [WithBot.map_coe, WithBot.coe_lt_coe]
      have := ite_lt_fl hm a (Evogil.epsLoopJ R si.1 st.2).1
      split_ifs at this ⊢ with h1 h2 h2
      · rfl
      · rw [WithBot.map_coe, this]
      · rw [WithBot.map_coe, this]
      · rfl

theorem epsilon_fl (hm : Monotone fl) (h0 : fl 0 = 0) (A R : List (Fin d → K)) :
    epsilonIndicator fl A R = (Evogil.epsilonIndicator A R).map (WithBot.map fl) := by
  unfold epsilonIndicator Evogil.epsilonIndicator Evogil.epsLoopI
  split_ifs with h
  · rfl
  · have := List.foldl_hom (l := A.zipIdx) (init := ((⊥ : WithBot K), (0 : K), (0 : K)))
      (Prod.map (WithBot.map fl) (Prod.map fl fl)) (g₁ := Evogil.epsStepI R) (g₂ := epsStepI fl R)
      fun st si => epsStepI_fl hm R st si
    simp only [Prod.map_apply, WithBot.map_bot, h0] at this
    rw [this]
    rfl

variable [FloorRing K]

/-- C129, epsilon: the computed indicator is the exact one, rounded once. -/
theorem C129_epsilon (hd : 0 < d) {A R : List (Fin d → K)} (hA : A ≠ []) (hR : R ≠ []) :
    ∃ e : K, IsLeast {e | ShiftCovers A R e} e ∧ epsilonIndicator round64 A R = some ((round64 e : K) : WithBot K) := by
  obtain ⟨e, he, hl⟩ := C08_least_shift hd A R hA hR
  refine ⟨e, hl, ?_⟩
  rw [epsilon_fl (fun _ _ h => round64_mono h) round64_accurate.zero, he]
  rfl

/-- C129, epsilon: for points of floats it is positive exactly if some solution is not weakly dominated by a point of the
front. -/
theorem C129_epsilon_sign (hd : 0 < d) {A R : List (Fin d → K)} (hA : A ≠ []) (hR : R ≠ [])
    (hfA : ∀ a ∈ A, ∀ i, round64 (a i) = a i) (hfR : ∀ r ∈ R, ∀ i, round64 (r i) = r i) {v : K}
    (hv : epsilonIndicator round64 A R = some (v : WithBot K)) : v ≤ 0 ↔ ∀ a ∈ A, ∃ r ∈ R, ∀ k, r k ≤ a k := by
  obtain ⟨e, he, hl⟩ := C08_least_shift hd A R hA hR
  rw [epsilon_fl (fun _ _ h => round64_mono h) round64_accurate.zero, he] at hv
  have hv' : round64 e = v := WithBot.coe_injective (Option.some.inj hv)
  have hsign : (∀ a ∈ A, ∃ r ∈ R, ∀ k, r k ≤ a k) ↔ e ≤ 0 := by
    constructor
    · intro h
      exact hl.2 fun a ha => by obtain ⟨r, hr, hk⟩ := h a ha; exact ⟨r, hr, fun k => by rw [sub_zero]; exact hk k⟩
    · intro h a ha
      obtain ⟨r, hr, hk⟩ := hl.1 a ha
      exact ⟨r, hr, fun k => by linarith [hk k]⟩
  rw [hsign, ← hv']
  constructor
  · intro h
    by_contra hpos
    rw [not_le] at hpos
    -- some solution is left uncovered, and the difference is a multiple of the smallest float
    have hun : ∃ a ∈ A, ∀ r ∈ R, ∃ k, a k < r k := by
      by_contra hno
      push Not at hno
      exact absurd (hsign.1 hno) (not_le.2 hpos)
    obtain ⟨a, ha, hun⟩ := hun
    have hg : ∀ x : K, round64 x = x → OnGrid 1074 x := by
      intro x hx
      obtain ⟨m, e', -, he', hx'⟩ : IsFloat x := hx ▸ isFloat_round64 x
      obtain ⟨k, rfl⟩ : ∃ k : ℕ, e' = (k : ℤ) - 1074 := ⟨(e' + 1074).toNat, by omega⟩
      refine ⟨m * 2 ^ k, ?_⟩
      rw [hx', zpow_sub₀ (by norm_num), one_div, inv_pow]
      push_cast
      rw [zpow_natCast, div_eq_mul_inv, mul_assoc, show (1074 : ℤ) = ((1074 : ℕ) : ℤ) from rfl, zpow_natCast]
    obtain ⟨r, hr, hk⟩ := hl.1 a ha
    obtain ⟨k, hlt⟩ := hun r hr
    have h1 : (1 / 2 : K) ^ 1074 ≤ r k - a k := by
      rcases ((hg _ (hfR r hr k)).sub (hg _ (hfA a ha k))).big (by linarith) with h | h
      · linarith
      · exact h
    have h2 : (1 / 2 : K) ^ 1074 ≤ e := h1.trans (sub_le_comm.1 (hk k))
    have h3 := round64_mono h2
    have h4 : round64 ((1 / 2 : K) ^ 1074) = (1 / 2) ^ 1074 := by
      apply round64_float
      refine ⟨1, -1074, by norm_num, le_rfl, ?_⟩
      rw [one_div, inv_pow, zpow_neg, Int.cast_one, one_mul, show (1074 : ℤ) = ((1074 : ℕ) : ℤ) from rfl,
        zpow_natCast]
    rw [h4] at h3
    have : (0 : K) < (1 / 2) ^ 1074 := half_pos' 1074
    exact absurd (h3.trans h) (not_le.2 this)
  · intro h
    have := round64_mono h
    rwa [round64_accurate.zero] at this

end epsilon

/-- Squares rounded once, as an example of `pow`. -/
theorem square_rounded : SquareOk fun x => round64 (x ^ 2) := by
  intro x hx
  have R := round64_accurate (K := ℝ)
  have h0 : 0 ≤ x ^ 2 := sq_nonneg x
  rcases hx with rfl | hx
  · simp [R.zero]
  · have h1 : (1 / 2 : ℝ) ^ 1022 ≤ |x ^ 2| := by
      rw [abs_of_nonneg h0, ← sq_abs, show (1022 : ℕ) = 511 * 2 by norm_num, pow_mul]
      exact pow_le_pow_left₀ (by positivity) hx 2
    have h2 := R.error _ h1
    rw [abs_of_nonneg h0] at h2
    refine h2.trans (mul_le_mul_of_nonneg_right ?_ h0)
    norm_num

theorem moderate_nat {n : ℕ} (h : n < 2 ^ 53) : Moderate (n : ℝ) := by
  refine ⟨round64_float ⟨n, 0, ?_, by norm_num, by simp⟩, ?_⟩
  · simpa using h
  · rcases Nat.eq_zero_or_pos n with rfl | h0
    · left; simp
    · right
      have : (1 : ℝ) ≤ n := by exact_mod_cast h0
      rw [abs_of_nonneg (by positivity)]
      exact (pow_le_one₀ (by norm_num) (by norm_num)).trans this

/-- Three solutions and a front of two points: the computed GD differs from the exact one, the root of 1/3, by at most seven
errors, and is not 0. -/
example : ∃ v, distance round64 (fun x => round64 (x ^ 2)) (fun x => round64 (Real.sqrt x))
      [[1, 0], [(2 : ℝ), 0], [0, 1]] [[1, 0], [0, 1]] = some v ∧ v ≠ 0 := by
  have hm : ∀ x ∈ [[1, 0], [(2 : ℝ), 0], [0, 1]], ∀ a ∈ x, Moderate a := by
    have h0 := moderate_nat (n := 0) (by norm_num)
    have h1 := moderate_nat (n := 1) (by norm_num)
    have h2 := moderate_nat (n := 2) (by norm_num)
    norm_num at h0 h1 h2
    simp [h0, h1, h2]
  have hm' : ∀ x ∈ [[1, 0], [(0 : ℝ), 1]], ∀ a ∈ x, Moderate a := fun x hx => hm x (by simp at hx ⊢; tauto)
  obtain ⟨w, v, -, hv, -⟩ := C129_gd square_rounded (d := 2) (by simp) (by simp) (by simp) (by simp) hm hm'
  refine ⟨v, hv, fun h => ?_⟩
  have := (C129_zero square_rounded (d := 2) (by simp) (by simp) (by simp) (by simp) (by simp) hm hm' hv).1 h [2, 0] (by simp)
  norm_num at this

/-- Without the lower bound on the coordinates it fails: the square of a small difference is 0, and with it the computed
distance of a solution off the front. -/
theorem C129_tiny : (∀ sqrt : ℚ → ℚ, sqrt 0 = 0 →
    distance round64 (fun x => round64 (x ^ 2)) sqrt [[(1 / 2) ^ 600]] [[0]] = some 0) ∧
    round64 ((1 / 2 : ℚ) ^ 600) = (1 / 2) ^ 600 ∧ [(1 / 2 : ℚ) ^ 600] ∉ [[(0 : ℚ)]] := by
  refine ⟨fun sqrt h => ?_, by decide +kernel, by decide +kernel⟩
  have h1 : minDistances round64 (fun x => round64 (x ^ 2)) [[(1 / 2 : ℚ) ^ 600]] [[0]] = some [0] := by decide +kernel
  unfold distance
  rw [h1]
  have h2 : round64 (sumUp round64 [(0 : ℚ)]) = 0 := by decide +kernel
  simp [h2, h]

/-- Two solutions, one of them on a front of two points, with a rounded quotient; the root is left out. -/
example : distance round64 (fun x => round64 (x ^ 2)) id [[1, 0], [(4 : ℚ), 4]] [[1, 0], [0, 1]] = some (25 / 2) ∧
    distance round64 (fun x => round64 (x ^ 2)) id [[1, 0], [(2 : ℚ), 0], [0, 1]] [[1, 0], [0, 1]] =
      some (round64 (1 / 3)) := by decide +kernel

example : epsilonIndicator round64 [![round64 (1 / 10), (0 : ℚ)]] [![round64 (3 / 10), 0]] =
    some (round64 (round64 (3 / 10) - round64 (1 / 10)) : ℚ) := by decide +kernel

example : extent round64 id [![round64 (1 / 10), (0 : ℚ)], ![0, 3], ![2, 2]] = some 5 := by decide +kernel

end Evogil.Rounded
