import Verif.Props.RoundedProblemsError
import Verif.Props.RotatedPenalty
import Verif.Lemmas.Prune

/-!
# C139 for UF11 and UF12: the rounding errors of the rotated problems
-/

set_option linter.unusedSectionVars false
set_option linter.unusedSimpArgs false
set_option exponentiation.threshold 1100

namespace Evogil.RoundedProblems

open Spec FloatExpr Binary64 Problems

/-! ## The rotated vector -/

/-- How far a computed coordinate is away from the exact one. -/
def dotErr : ℚ := 1 / ((10 ^ 12 : ℕ) : ℚ)

theorem dotErr_cast : (dotErr : ℝ) = 1 / 10 ^ 12 := by rw [dotErr]; norm_num

theorem sum_select (x : List ℝ) (s i : ℕ) :
    (List.zipWith (fun a b => a * b) ((List.range' s x.length).map fun j => if j = i then (1 : ℝ) else 0) x).sum =
      if s ≤ i then x.getD (i - s) 0 else 0 := by
  induction x generalizing s with
  | nil => simp
  | cons t x ih =>
    simp only [List.length_cons, List.range'_succ, List.map_cons, List.zipWith_cons_cons, List.sum_cons, ih]
    by_cases h : s = i
    · subst h
      simp
    · by_cases h' : s ≤ i
      · have e : i - s = (i - (s + 1)) + 1 := by omega
        rw [if_neg h, if_pos (by omega), if_pos h', e, List.getD_cons_succ]
        ring
      · rw [if_neg h, if_neg (by omega), if_neg h']
        ring

theorem sum_diff {row : List ℚ} {x : List ℝ} (hr : ∀ q ∈ row, |q| ≤ 1) (hx : ∀ t ∈ x, |t| ≤ 3) :
    |(List.zipWith (fun s t => s * t) (row.map fun q : ℚ => round64 (q : ℝ)) x).sum -
      (List.zipWith (fun s t => s * t) (toReals row) x).sum| ≤ row.length * (3 / 2 ^ 52) := by
  induction row generalizing x with
  | nil => simp [toReals]
  | cons q row ih =>
    cases x with
    | nil =>
      simp only [List.zipWith_nil_right, List.sum_nil, sub_self, abs_zero]
      positivity
    | cons t x =>
      have i1 := ih (fun q hq => hr q (List.mem_cons_of_mem _ hq)) (x := x) fun t ht => hx t (List.mem_cons_of_mem _ ht)
      have h1 : |(q : ℝ)| ≤ 1 := by exact_mod_cast hr q (List.mem_cons_self ..)
      have h2 := hx t (List.mem_cons_self ..)
      have h3 := round64_error (q : ℝ)
      have h4 : |round64 (q : ℝ) - q| ≤ 1 / 2 ^ 52 := by
        have := mul_le_mul_of_nonneg_left h1 (by norm_num : (0 : ℝ) ≤ 1 / 2 ^ 53)
        have h5 := tiny_le
        refine h3.trans ((add_le_add this h5).trans ?_)
        norm_num
      simp only [toReals, List.map_cons, List.zipWith_cons_cons, List.sum_cons, List.length_cons] at i1 ⊢
      push_cast
      generalize (List.zipWith (fun s t => s * t) (row.map fun q : ℚ => round64 (q : ℝ)) x).sum = A at i1 ⊢
      generalize (List.zipWith (fun s t => s * t) (row.map fun q : ℚ => (q : ℝ)) x).sum = B at i1 ⊢
      have h6 : |(round64 (q : ℝ) - q) * t| ≤ 1 / 2 ^ 52 * 3 := by
        rw [abs_mul]
        exact mul_le_mul h4 h2 (abs_nonneg t) (by norm_num)
      have h7 := abs_add_le ((round64 (q : ℝ) - q) * t) (A - B)
      have e : round64 (q : ℝ) * t + A - (q * t + B) = (round64 (q : ℝ) - q) * t + (A - B) := by ring
      rw [e]
      linarith

/-- What the data files say about the rows. -/
def rowsOk (block : List (List ℤ)) : Bool :=
  (rotM block).length == 30 && (rotM block).all (fun row => row.length == 30 && row.all fun q => decide (|q| ≤ 1)) &&
    (List.range 30).all fun i => decide (15 ≤ i →
      (rotM block).getD i [] = (List.range' 0 30).map fun j => if j = i then 1 else 0)

/-- Floats. -/
def Floats (x : List ℝ) : Prop := ∀ v ∈ x, round64 v = v

section

variable {dot : List ℝ → List ℝ → ℝ} (hdot : IsDot dot) {block : List (List ℤ)} (hb : rotOk block = true)
  (hM : rowsOk block = true) {x : List ℝ} (hx : InBox x rotBox) (hfl : Floats x)

include hM in
theorem rotZ_get {i : ℕ} (hi : i < 30) :
    (rotZ dot block x)[i]? = some (dot (((rotM block).getD i []).map fun q : ℚ => round64 (q : ℝ)) x) := by
  simp only [rowsOk, Bool.and_eq_true, beq_iff_eq] at hM
  have hl := hM.1.1
  rw [rotZ, List.getElem?_map, List.getD_eq_getElem?_getD, List.getElem?_eq_getElem (by omega)]
  rfl

include hb in
theorem image_get {i : ℕ} (hi : i < 30) :
    (image block x)[i]? = some ((List.zipWith (fun a b => a * b) (toReals ((rotM block).getD i [])) x).sum) := by
  have hl := image_length hb x
  rw [← rotRow_getD, ← image, List.getD_eq_getElem?_getD, List.getElem?_eq_getElem (by omega), Option.getD_some]

include hdot hb hM hx hfl in
/-- The computed rotated vector. -/
theorem rotZ_near {i : ℕ} (hi : i < 30) : ∃ z w, (image block x)[i]? = some z ∧ (rotZ dot block x)[i]? = some w ∧
    |w - z| ≤ 1 / 10 ^ 12 ∧ (15 ≤ i → w = z) := by
  refine ⟨_, _, image_get hb hi, rotZ_get hM hi, ?_⟩
  obtain ⟨hl, hb3⟩ := rot_box x hx
  simp only [rowsOk, Bool.and_eq_true, beq_iff_eq, List.all_eq_true, decide_eq_true_eq, List.mem_range] at hM
  obtain ⟨⟨h30, hrows⟩, hunit⟩ := hM
  have hmem : (rotM block).getD i [] ∈ rotM block := by
    rw [List.getD_eq_getElem?_getD, List.getElem?_eq_getElem (by omega), Option.getD_some]
    exact List.getElem_mem _
  obtain ⟨hrl, hrq⟩ := hrows _ hmem
  have hu := hunit i hi
  generalize (rotM block).getD i [] = row at hrl hrq hu ⊢
  constructor
  · have ha : ∀ s ∈ row.map fun q : ℚ => round64 (q : ℝ), |s| ≤ 1 := by
      intro s hs
      obtain ⟨q, hq, rfl⟩ := List.mem_map.1 hs
      exact round64_unit (by exact_mod_cast hrq q hq)
    have s2 := (sum_products ha hb3).2
    have hd := hdot.near (row.map fun q : ℚ => round64 (q : ℝ)) x (by rw [List.length_map]; exact hrl) hl
    have hs := sum_diff hrq hb3
    rw [List.length_map, hrl] at s2
    rw [hrl] at hs
    generalize dot (row.map fun q : ℚ => round64 (q : ℝ)) x = d at hd ⊢
    generalize (List.zipWith (fun s t => s * t) (row.map fun q : ℚ => round64 (q : ℝ)) x).sum = p at hs hd
    generalize (List.zipWith (fun s t => |s * t|) (row.map fun q : ℚ => round64 (q : ℝ)) x).sum = q at s2 hd
    generalize (List.zipWith (fun a b => a * b) (toReals row) x).sum = r at hs ⊢
    have h1 : (1 / 2 ^ 47 : ℝ) * q ≤ 1 / 2 ^ 47 * (3 * (30 : ℕ)) := mul_le_mul_of_nonneg_left s2 (by norm_num)
    have h2 := abs_sub_le d p r
    have h3 := tiny_le
    have h4 : (1 / 2 ^ 47 * (3 * (30 : ℕ)) + 1 / 2 ^ 100 + ((30 : ℕ) : ℝ) * (3 / 2 ^ 52) : ℝ) ≤ 1 / 10 ^ 12 := by norm_num
    linarith
  · intro h15
    have hr := hu h15
    obtain ⟨v, hv⟩ : ∃ v, x[i]? = some v := ⟨x[i]'(by omega), List.getElem?_eq_getElem _⟩
    have hvf : round64 v = v := hfl v (List.mem_of_getElem? hv)
    have e1 : (row.map fun q : ℚ => round64 (q : ℝ)) = (List.range' 0 30).map fun j => if j = i then (1 : ℝ) else 0 := by
      rw [hr, List.map_map]
      refine List.map_congr_left fun j _ => ?_
      simp only [Function.comp]
      split_ifs
      · have := round64_int 1 (by norm_num)
        push_cast at this ⊢
        exact this
      · have := round64_int 0 (by norm_num)
        push_cast at this ⊢
        exact this
    have e2 : toReals row = (List.range' 0 x.length).map fun j => if j = i then (1 : ℝ) else 0 := by
      rw [hr, toReals, List.map_map, hl]
      refine List.map_congr_left fun j _ => ?_
      simp only [Function.comp]
      split_ifs <;> simp
    rw [e2, sum_select, if_pos (Nat.zero_le _), Nat.sub_zero, List.getD_eq_getElem?_getD, hv, Option.getD_some]
    refine hdot.select _ _ i v (by simp [hrl]) hl (fun j => ?_) hv hvf
    rw [e1, List.getElem?_map]
    by_cases hj : j < 30
    · rw [List.getElem?_eq_getElem (by simpa using hj)]
      simp only [List.getElem_range', Option.map_some]
      have : 0 + 1 * j = j := by omega
      rw [this]
      split_ifs <;> rfl
    · rw [List.getElem?_eq_none (by simpa using hj), if_neg (by omega), if_neg hj]
      rfl

/-- The bounds of the rotated vector. -/
def rotBounds : List (ℤ × ℤ) := List.replicate 15 (-7, 7) ++ List.replicate 15 (0, 1)

theorem rotBounds_get {i : ℕ} {b : ℤ × ℤ} (h : rotBounds[i]? = some b) :
    i < 30 ∧ (i < 15 → b = (-7, 7)) ∧ (15 ≤ i → b = (0, 1)) := by
  have hi : i < 30 := by
    by_contra hc
    rw [List.getElem?_eq_none (by simpa [rotBounds] using hc)] at h
    cases h
  refine ⟨hi, fun h1 => ?_, fun h1 => ?_⟩
  · rw [rotBounds, List.getElem?_append_left (by simpa using h1), List.getElem?_replicate, if_pos h1] at h
    exact (Option.some.inj h).symm
  · rw [rotBounds, List.getElem?_append_right (by simpa using h1), List.getElem?_replicate, if_pos (by simp; omega)] at h
    exact (Option.some.inj h).symm

include hb hx in
theorem image_coord {i : ℕ} {z : ℝ} (hz : (image block x)[i]? = some z) : i < 30 ∧
    0 ≤ (toReals rotLambdas).getD i 0 ∧ (toReals rotLambdas).getD i 0 ≤ 1 ∧ (i < 15 → |z| ≤ 13 / 2 ∧
      |(toReals rotLambdas).getD i 0 * z| ≤ 7 / 10) ∧ (15 ≤ i → 0 ≤ z ∧ z ≤ 1) := by
  have hi : i < 30 := by
    have := (List.getElem?_eq_some_iff.1 hz).1
    rwa [image_length hb] at this
  have e : (Problems.rotZ ((rotM block).map toReals) x).getD i 0 = z := by
    rw [← image, List.getD_eq_getElem?_getD, hz, Option.getD_some]
  have := rot_coord hb hx hi
  rw [e] at this
  exact ⟨hi, this.1, this.2.1, this.2.2.2⟩

include hb hx in
theorem image_within : Within (image block x) rotBounds := by
  intro i b hi
  obtain ⟨h30, h1, h2⟩ := rotBounds_get hi
  have hg := image_get hb (x := x) h30
  refine ⟨_, hg, ?_⟩
  obtain ⟨-, -, -, c1, c2⟩ := image_coord hb hx hg
  by_cases h : i < 15
  · obtain rfl := h1 h
    have := abs_le.1 (c1 h).1
    push_cast
    constructor <;> linarith
  · obtain rfl := h2 (by omega)
    have := c2 (by omega)
    push_cast
    exact this

include hdot hb hM hx hfl in
theorem rotZ_within : Within (rotZ dot block x) rotBounds := by
  intro i b hi
  obtain ⟨h30, h1, h2⟩ := rotBounds_get hi
  obtain ⟨z, w, hz, hw, hd, he⟩ := rotZ_near hdot hb hM hx hfl h30
  refine ⟨_, hw, ?_⟩
  obtain ⟨-, -, -, c1, c2⟩ := image_coord hb hx hz
  by_cases h : i < 15
  · obtain rfl := h1 h
    have a1 := abs_le.1 (c1 h).1
    have a2 := abs_le.1 hd
    norm_num at a2 ⊢
    constructor <;> linarith
  · obtain rfl := h2 (by omega)
    have := c2 (by omega)
    rw [he (by omega)]
    push_cast
    exact this

end

/-! ## The comparisons -/

/-- The comparisons of the mirrored values: they are never true. -/
def mirroredConds : List (Expr × Expr) := (List.range 30).flatMap fun i => [(zBis i, 0), (1, zBis i)]

/-- The comparisons of the rotated values. -/
def imageConds : List (Expr × Expr) := (List.range 30).flatMap fun i => [(.var i, 0), (1, .var i)]

theorem eval_zero {L : Lib} (h : Bounded L) (y : List ℝ) : eval L y 0 = some 0 := by
  obtain ⟨v, hv, h1, h2⟩ := range_sound (box := []) h (x := y) (by intro i b hb; simp at hb) 0 (0, 0) (by decide +kernel)
  rw [hv]
  push_cast at h1 h2
  rw [le_antisymm h2 h1]

theorem eval_one {L : Lib} (h : Bounded L) (y : List ℝ) : eval L y 1 = some 1 := by
  obtain ⟨v, hv, h1, h2⟩ := range_sound (box := []) h (x := y) (by intro i b hb; simp at hb) 1 (1, 1) (by decide +kernel)
  rw [hv]
  push_cast at h1 h2
  rw [le_antisymm h2 h1]

theorem ok_small {v : ℝ} (h : |v| ≤ 1) : ok v = some v := by
  rw [ok, if_pos]
  exact lt_of_le_of_lt h (one_lt_pow₀ (by norm_num) (by norm_num))

/-- The mirrored values are between 0 and 1. -/
theorem eval_zBis {L : Lib} (hB : Bounded L) (h0 : L.fl 0 = 0) (h1 : L.fl 1 = 1) (hm : ∀ a b, a ≤ b → L.fl a ≤ L.fl b)
    {y : List ℝ} {i : ℕ} {w l : ℝ} (hw : y[i]? = some w) (hl : L.fl ((rotLambdas.getD i 0 : ℚ) : ℝ) = l) (l0 : 0 ≤ l) (l1 : l ≤ 1)
    (h : |l * w| ≤ 1) :
    ∃ v, eval L y (zBis i) = some v ∧ 0 ≤ v ∧ v ≤ 1 := by
  have hlit : eval L y (.lit (rotLambdas.getD i 0)) = some l := by
    rw [eval, hl, ok_small (by rw [abs_of_nonneg l0]; exact l1)]
  have hv : eval L y (.var i) = some w := by rw [eval, hw]
  have hneg : eval L y (.neg (.lit (rotLambdas.getD i 0))) = some (-l) := by rw [eval, hlit]; rfl
  obtain ⟨a1, a2⟩ := abs_le.1 h
  have hz := eval_zero hB y
  have ho := eval_one hB y
  unfold zBis
  rw [eval, hv, hz, Option.bind_some, Option.bind_some]
  split_ifs with hc
  · have e : eval L y (.neg (.lit (rotLambdas.getD i 0)) * .var i) = ok (L.fl (-l * w)) := by
      show (eval L y _).bind _ = _
      rw [hneg, Option.bind_some, hv, Option.bind_some]
    have b1 : 0 ≤ L.fl (-l * w) := by
      rw [← h0]; exact hm _ _ (by nlinarith)
    have b2 : L.fl (-l * w) ≤ 1 := by
      rw [← h1]; exact hm _ _ (by linarith)
    exact ⟨_, e.trans (ok_small (by rw [abs_of_nonneg b1]; exact b2)), b1, b2⟩
  · rw [eval, ho, hv, Option.bind_some, Option.bind_some]
    split_ifs with hc'
    · have e : eval L y (.lit (rotLambdas.getD i 0) * .var i) = ok (L.fl (l * w)) := by
        show (eval L y _).bind _ = _
        rw [hlit, Option.bind_some, hv, Option.bind_some]
      have b1 : 0 ≤ L.fl (l * w) := by
        rw [← h0]; exact hm _ _ (by nlinarith)
      have b2 : L.fl (l * w) ≤ 1 := by
        rw [← h1]; exact hm _ _ (by linarith)
      exact ⟨_, e.trans (ok_small (by rw [abs_of_nonneg b1]; exact b2)), b1, b2⟩
    · exact ⟨w, rfl, not_lt.1 hc, not_lt.1 hc'⟩

theorem never_mirrored {L : Lib} (hB : Bounded L) {y : List ℝ}
    (h : ∀ i < 30, ∃ v, eval L y (zBis i) = some v ∧ 0 ≤ v ∧ v ≤ 1) : ∀ c ∈ mirroredConds, Never L y c := by
  intro c hc
  obtain ⟨i, hi, hc⟩ := List.mem_flatMap.1 hc
  obtain ⟨v, hv, h0, h1⟩ := h i (List.mem_range.1 hi)
  simp only [List.mem_cons, List.not_mem_nil, or_false] at hc
  rcases hc with rfl | rfl
  · exact ⟨v, 0, hv, eval_zero hB y, not_lt.2 h0⟩
  · exact ⟨1, v, eval_one hB y, hv, not_lt.2 h1⟩

/-- No coordinate of the rotated vector is so close to 0 or 1 that rounding could move it across. -/
def Clear (z : List ℝ) : Prop := ∀ t ∈ z.take 15, 1 / 10 ^ 12 < |t| ∧ 1 / 10 ^ 12 < |t - 1|

section

variable {L : Lib} (h : IsMathLib L) {dot : List ℝ → List ℝ → ℝ} (hdot : IsDot dot) {block : List (List ℤ)}
  (hb : rotOk block = true) (hM : rowsOk block = true) {x : List ℝ} (hx : InBox x rotBox) (hfl : Floats x)

include hb hx in
theorem never_exact : ∀ c ∈ mirroredConds, Never exact (image block x) c := by
  refine never_mirrored exact_bounded fun i hi => ?_
  have hg := image_get hb (x := x) hi
  obtain ⟨-, l0, l1, c1, c2⟩ := image_coord hb hx hg
  rw [getD_toReals] at l0 l1 c1
  refine eval_zBis exact_bounded rfl rfl (fun a b h => h) hg rfl l0 l1 ?_
  show |((rotLambdas.getD i 0 : ℚ) : ℝ) * _| ≤ 1
  by_cases h15 : i < 15
  · exact (c1 h15).2.trans (by norm_num)
  · obtain ⟨z0, z1⟩ := c2 (by omega)
    rw [abs_of_nonneg (mul_nonneg l0 z0)]
    exact mul_le_one₀ l1 z0 z1

include h hdot hb hM hx hfl in
theorem never_rounded : ∀ c ∈ mirroredConds, Never L (rotZ dot block x) c := by
  refine never_mirrored h.bounded fun i hi => ?_
  obtain ⟨z, w, hz, hw, hd, he⟩ := rotZ_near hdot hb hM hx hfl hi
  obtain ⟨-, l0, l1, c1, c2⟩ := image_coord hb hx hz
  rw [getD_toReals] at l0 l1 c1
  have f0 : round64 (0 : ℝ) = 0 := by simpa using round64_int 0 (by norm_num)
  have f1 : round64 (1 : ℝ) = 1 := by simpa using round64_int 1 (by norm_num)
  have m0 : 0 ≤ round64 ((rotLambdas.getD i 0 : ℚ) : ℝ) := by
    have := round64_mono l0
    rwa [f0] at this
  have m1 : round64 ((rotLambdas.getD i 0 : ℚ) : ℝ) ≤ 1 := by
    have := round64_mono l1
    rwa [f1] at this
  refine eval_zBis h.bounded (by rw [h.fl, f0]) (by rw [h.fl, f1]) (fun a b hab => by rw [h.fl, h.fl]; exact round64_mono hab)
    hw (h.fl _) m0 m1 ?_
  have e1 := unit_error (x := ((rotLambdas.getD i 0 : ℚ) : ℝ)) (by rw [abs_of_nonneg l0]; exact l1)
  generalize ((rotLambdas.getD i 0 : ℚ) : ℝ) = l at *
  by_cases h15 : i < 15
  · obtain ⟨d1, d2⟩ := c1 h15
    have e : round64 l * w = l * z + (round64 l - l) * z + round64 l * (w - z) := by ring
    rw [e]
    have e2 : |(round64 l - l) * z| ≤ 1 / 2 ^ 50 * (13 / 2) := by
      rw [abs_mul]
      exact mul_le_mul e1 d1 (abs_nonneg z) (by norm_num)
    have e3 : |round64 l * (w - z)| ≤ 1 * (1 / 10 ^ 12) := by
      rw [abs_mul]
      exact mul_le_mul (by rw [abs_of_nonneg m0]; exact m1) hd (abs_nonneg _) (by norm_num)
    have e4 := abs_add_le (l * z + (round64 l - l) * z) (round64 l * (w - z))
    have e5 := abs_add_le (l * z) ((round64 l - l) * z)
    have e6 : (1 / 2 ^ 50 * (13 / 2) + 1 * (1 / 10 ^ 12) : ℝ) ≤ 3 / 10 := by norm_num
    linarith
  · obtain ⟨z0, z1⟩ := c2 (by omega)
    rw [he (by omega), abs_of_nonneg (mul_nonneg m0 z0)]
    exact mul_le_one₀ m1 z0 z1

include h hdot hb hM hx hfl in
theorem same_image (hc : Clear (image block x)) : ∀ c ∈ imageConds, Same L (image block x) (rotZ dot block x) c := by
  intro c hm
  obtain ⟨i, hi, hm⟩ := List.mem_flatMap.1 hm
  have hi := List.mem_range.1 hi
  obtain ⟨z, w, hz, hw, hd, he⟩ := rotZ_near hdot hb hM hx hfl hi
  have key : (z < 0 ↔ w < 0) ∧ (1 < z ↔ 1 < w) := by
    by_cases h15 : i < 15
    · have hl := image_length hb x
      obtain ⟨k1, k2⟩ := hc z (List.mem_take_iff_getElem.2 ⟨i, by omega, (List.getElem?_eq_some_iff.1 hz).2⟩)
      obtain ⟨a1, a2⟩ := abs_le.1 hd
      constructor
      · constructor
        · intro hn
          rw [abs_of_neg hn] at k1
          linarith
        · intro hn
          by_contra hp
          rw [abs_of_nonneg (not_lt.1 hp)] at k1
          linarith
      · constructor
        · intro hn
          rw [abs_of_pos (by linarith)] at k2
          linarith
        · intro hn
          by_contra hp
          rw [abs_of_nonpos (by linarith [not_lt.1 hp])] at k2
          linarith
    · rw [he (by omega)]
      exact ⟨Iff.rfl, Iff.rfl⟩
  simp only [List.mem_cons, List.not_mem_nil, or_false] at hm
  intro u v u' v' hu hv hu' hv'
  rcases hm with rfl | rfl
  · rw [eval, hz] at hu
    rw [eval, hw] at hu'
    rw [eval_zero exact_bounded] at hv
    rw [eval_zero h.bounded] at hv'
    cases hu; cases hv; cases hu'; cases hv'
    exact key.1
  · rw [eval, hz] at hv
    rw [eval, hw] at hv'
    rw [eval_one exact_bounded] at hu
    rw [eval_one h.bounded] at hu'
    cases hu; cases hv; cases hu'; cases hv'
    exact key.2

end

/-! ## The exact values -/

section

variable (z : List ℝ)

theorem den_zBis {i : ℕ} (hi : i < z.length) :
    den z (zBis i) = (rotZBis (toReals rotLambdas) z).getD i 0 := by
  have he : (rotZBis (toReals rotLambdas) z).getD i 0 =
      if z.getD i 0 < 0 then -(toReals rotLambdas).getD i 0 * z.getD i 0
      else if 1 < z.getD i 0 then (toReals rotLambdas).getD i 0 * z.getD i 0
      else z.getD i 0 := by
    rw [List.getD_eq_getElem?_getD, List.getElem?_eq_getElem (by simpa [rotZBis] using hi), Option.getD_some]
    simp [rotZBis]
  rw [he, zBis]
  simp only [den, den_mul, den_zero, den_one, getD_toReals]
  norm_num

theorem den_rotP (a : Expr) : den z (rotP a) = Problems.rotP (den z a) := by
  simp only [rotP, Problems.rotP, den, den_sub, den_zero, den_one]
  norm_num

theorem den_rotS {m : ℕ} (hm : m ≤ z.length) :
    den z (rotS m) = Problems.rotS (rotZBis (toReals rotLambdas) z) m := by
  have e : (List.range m).map (den z ∘ fun i => Expr.ipow (rotP (zBis i)) 2) =
      (List.range m).map fun i => Problems.rotP ((rotZBis (toReals rotLambdas) z).getD i 0) ^ 2 := by
    refine List.map_congr_left fun i hi => ?_
    have := List.mem_range.1 hi
    simp only [Function.comp, den, den_rotP, den_zBis z (by omega : i < z.length)]
  simp only [rotS, Problems.rotS, rotPsum, den_div, den_add, den_two, den_one, den, den_sumE, List.map_map, e]
  norm_num

theorem den_rotCos {m : ℕ} (hm : m ≤ z.length) :
    den z (rotCos m) = Problems.rotCos (rotZBis (toReals rotLambdas) z) m := by
  have e : (List.range m).map (den z ∘ fun i => Expr.cos (zBis i * Expr.pi / 2)) =
      (List.range m).map fun i => Real.cos ((rotZBis (toReals rotLambdas) z).getD i 0 * Real.pi / 2.0) := by
    refine List.map_congr_left fun i hi => ?_
    have := List.mem_range.1 hi
    simp only [Function.comp, den, den_div, den_mul, den_two, den_zBis z (by omega : i < z.length)]
    norm_num
  unfold rotCos Problems.rotCos
  split_ifs with h1 h2
  · rw [den_prodE, List.map_map, e]
  · simp only [den, den_div, den_mul, den_two, den_zBis z (by omega : 0 < z.length)]
    norm_num
  · exact den_one z

theorem den_rotUp {m : ℕ} (hm : m ≤ z.length) (h0 : 0 < z.length) (g : Expr) :
    den z (rotUp g m) = Problems.rotUp (den z g) (rotZBis (toReals rotLambdas) z) m := by
  have e : den z (if m < 5 then Expr.sin (zBis (m - 1)) else 1) = rotSin (rotZBis (toReals rotLambdas) z) m := by
    unfold rotSin
    split_ifs
    · simp only [den, den_zBis z (by omega : m - 1 < z.length)]
    · exact den_one z
  simp only [rotUp, Problems.rotUp, den_add, den_mul, den_one, e, den_rotCos z (by omega : m - 1 ≤ z.length)]

theorem den_ifNonNegative (hz : z.length = 30) (a b : Expr) :
    den z (ifNonNegative a b) = if z.all (fun zi => decide (0 ≤ zi)) then den z a else den z b := by
  have key : ∀ (l : List ℕ), den z (l.foldr (fun i c => Expr.ifLt (.var i) 0 b c) a) =
      if ∀ i ∈ l, 0 ≤ z.getD i 0 then den z a else den z b := by
    intro l
    induction l with
    | nil => simp
    | cons i l ih =>
      rw [List.foldr_cons, den, den_zero, ih, den]
      simp only [List.forall_mem_cons]
      by_cases hi : z.getD i 0 < 0
      · rw [if_pos hi, if_neg (fun hc => absurd hc.1 (not_le.2 hi))]
      · rw [if_neg hi]
        exact if_congr ⟨fun hl => ⟨not_lt.1 hi, hl⟩, fun hl => hl.2⟩ rfl rfl
  rw [ifNonNegative, key]
  refine if_congr ?_ rfl rfl
  simp only [List.all_eq_true, decide_eq_true_eq, List.mem_range]
  constructor
  · intro hc t ht
    obtain ⟨i, hi, rfl⟩ := List.mem_iff_getElem.1 ht
    have := hc i (by omega)
    rwa [List.getD_eq_getElem?_getD, List.getElem?_eq_getElem hi, Option.getD_some] at this
  · intro hc i hi
    rw [List.getD_eq_getElem?_getD, List.getElem?_eq_getElem (by omega), Option.getD_some]
    exact hc _ (List.getElem_mem _)

theorem map_getD_range (l : List ℝ) (f : ℝ → ℝ) (hl : l.length = 30) : ((List.range 30).map fun i => f (l.getD i 0)) = l.map f := by
  refine List.ext_getElem (by simp [hl]) fun i h1 h2 => ?_
  have hi : i < l.length := by simpa using h2
  simp [List.getD_eq_getElem?_getD, List.getElem?_eq_getElem hi]

theorem den_uf11G (hz : z.length = 30) : den z uf11G = Problems.uf11G (rotZBis (toReals rotLambdas) z) := by
  have e : (List.range 30).map (den z ∘ fun i => Expr.ipow (zBis i - .lit (1 / 2)) 2) =
      (List.range 30).map fun i => ((rotZBis (toReals rotLambdas) z).getD i 0 - 0.5) ^ 2 := by
    refine List.map_congr_left fun i hi => ?_
    have := List.mem_range.1 hi
    simp only [Function.comp, den, den_sub, den_zBis z (by omega : i < z.length)]
    norm_num
  rw [uf11G, Problems.uf11G, den_sumE, List.map_map, e,
    map_getD_range _ (fun t => (t - 0.5) ^ 2) (by simp [rotZBis, hz])]

theorem den_uf12G (hz : z.length = 30) : den z uf12G = Problems.uf12G z := by
  have e : (List.range 30).map (den z ∘ fun i =>
      Expr.ipow (.var i - .lit (1 / 2)) 2 - Expr.cos (20 * Expr.pi * (.var i - .lit (1 / 2)))) =
      (List.range 30).map fun i => (z.getD i 0 - 0.5) ^ 2 - Real.cos (20 * Real.pi * (z.getD i 0 - 0.5)) := by
    refine List.map_congr_left fun i hi => ?_
    simp only [Function.comp, den, den_sub, den_mul]
    norm_num
  rw [uf12G, Problems.uf12G, den_mul, den_add, den_sumE, List.map_map, e,
    map_getD_range _ (fun t => (t - 0.5) ^ 2 - Real.cos (20 * Real.pi * (t - 0.5))) hz, hz]
  simp only [den]
  norm_num

end

theorem den_uf11 (x : List ℝ) {m : ℕ} (hm : m ≤ 5) : den (image uf11Block x) (rotFit uf11G m) =
    uf11Fit (toReals rotLambdas) ((rotM uf11Block).map toReals) m x := by
  have hl := image_length rotOk_uf11 x
  rw [rotFit, den_ifNonNegative _ hl, den_mul, den_rotUp _ (by omega) (by omega), den_rotS _ (by omega), den_uf11G _ hl]
  rfl

theorem den_uf12 (x : List ℝ) {m : ℕ} (hm : m ≤ 5) : den (image uf12Block x) (rotFit uf12G m) =
    uf12Fit (toReals rotLambdas) ((rotM uf12Block).map toReals) m x := by
  have hl := image_length rotOk_uf12 x
  rw [rotFit, den_ifNonNegative _ hl, den_mul, den_rotUp _ (by omega) (by omega), den_rotS _ (by omega), den_uf12G _ hl]
  rfl

/-! ## The theorem -/

/-- The errors found by the analysis are small enough, and only comparisons of the rotated values matter. -/
def rotErrOk (t : Expr) (B : ℚ) : Bool :=
  match totalErr dotErr rotBounds (prune mirroredConds t) with
  | some e => decide (e ≤ B) && (conds (prune mirroredConds t)).all fun c => decide (c ∈ imageConds)
  | none => false

/-- Every objective function computes for every vector of floats in the box a number within `B` of the exact value, unless the
rotated vector is at a jump. -/
def AccurateOff (L : Lib) (dot : List ℝ → List ℝ → ℝ) (block : List (List ℤ)) (es : List Expr) (p : Problem) (B : ℝ) : Prop :=
  List.Forall₂ (fun t f => ∀ x, InBox x p.dims → Floats x → Clear (image block x) →
    ∃ v, eval L (rotZ dot block x) t = some v ∧ |v - f x| ≤ B) es p.fits

section

variable {L : Lib} (h : IsMathLib L) {dot : List ℝ → List ℝ → ℝ} (hdot : IsDot dot)

include h hdot in
theorem rot_accurate {block : List (List ℤ)} (hb : rotOk block = true) (hM : rowsOk block = true) {t : Expr} {B : ℚ}
    (ht : rotErrOk t B = true) {x : List ℝ} (hx : InBox x rotBox) (hfl : Floats x) (hc : Clear (image block x)) :
    ∃ v, eval L (rotZ dot block x) t = some v ∧ |v - den (image block x) t| ≤ B := by
  have nE := eval_prune (never_exact hb hx) t
  have nF := eval_prune (never_rounded h hdot hb hM hx hfl) t
  have wE := image_within hb hx
  have wF := rotZ_within hdot hb hM hx hfl
  unfold rotErrOk at ht
  split at ht
  · rename_i e he
    rw [Bool.and_eq_true, List.all_eq_true] at ht
    simp only [totalErr, Option.bind_eq_some_iff] at he
    obtain ⟨r, hr, q, hq, he⟩ := he
    obtain rfl := Option.some.inj he
    obtain ⟨a, ha, la, ua⟩ := range_sound exact_bounded wE _ r hr
    obtain ⟨b, hb', -⟩ := range_sound h.bounded wF _ r hr
    have hs : ∀ c ∈ conds (prune mirroredConds t), Same L (image block x) (rotZ dot block x) c := fun c hm =>
      same_image h hdot hb hM hx hfl hc c (of_decide_eq_true (ht.2 c hm))
    have hδ : ∀ (i : ℕ) (c d : ℝ), (image block x)[i]? = some c → (rotZ dot block x)[i]? = some d → |d - c| ≤ (dotErr : ℝ) := by
      intro i c d h1 h2
      have hi := (image_coord hb hx h1).1
      obtain ⟨z, w, hz, hw, hd, -⟩ := rotZ_near hdot hb hM hx hfl hi
      rw [hz] at h1
      rw [hw] at h2
      cases h1; cases h2
      rw [dotErr_cast]
      exact hd
    have h0 : (0 : ℚ) ≤ dotErr := by unfold dotErr; positivity
    have ho := ok_abs (err_sound h wE wF h0 hδ _ r q a b hs hr hq ha hb') (abs_le_mag la ua)
    refine ⟨b, nF ▸ hb', ?_⟩
    rw [nE] at ha
    rw [← eval_den _ t a ha]
    exact ho.2.trans (by exact_mod_cast of_decide_eq_true ht.1)
  · simp at ht

include h hdot in
theorem rot_accurate' {block : List (List ℤ)} (hb : rotOk block = true) (hM : rowsOk block = true) {t : Expr} (n : ℕ)
    (ht : rotErrOk t (1 / ((10 ^ n : ℕ) : ℚ)) = true) {x : List ℝ} (hx : InBox x rotBox) (hfl : Floats x)
    (hc : Clear (image block x)) : ∃ v, eval L (rotZ dot block x) t = some v ∧ |v - den (image block x) t| ≤ 1 / 10 ^ n := by
  have := rot_accurate h hdot hb hM ht hx hfl hc
  push_cast at this
  exact this

theorem rowsOk_uf11 : rowsOk uf11Block = true := by decide +kernel

theorem rowsOk_uf12 : rowsOk uf12Block = true := by decide +kernel

theorem rotErrOk_uf11 : ∀ m ∈ [1, 2, 3, 4, 5], rotErrOk (rotFit uf11G m) (1 / ((10 ^ 7 : ℕ) : ℚ)) = true := by decide +kernel

theorem rotErrOk_uf12 : ∀ m ∈ [1, 2, 3, 4, 5], rotErrOk (rotFit uf12G m) (1 / ((10 ^ 5 : ℕ) : ℚ)) = true := by decide +kernel

include h hdot in
/-- **C139 (the rotated problems).** -/
theorem C139_rotated (front : List (List ℝ)) :
    AccurateOff L dot uf11Block uf11 (Problems.uf11 front) (1 / 10 ^ 7) ∧
    AccurateOff L dot uf12Block uf12 (Problems.uf12 front) (1 / 10 ^ 5) := by
  constructor
  · refine List.forall₂_map_left_iff.2 (List.forall₂_map_right_iff.2 (List.forall₂_same.2 fun m hm x hx hfl hc => ?_))
    have h5 : m ≤ 5 := by simp at hm; omega
    rw [← den_uf11 x h5]
    exact rot_accurate' h hdot rotOk_uf11 rowsOk_uf11 7 (rotErrOk_uf11 m hm) hx hfl hc
  · refine List.forall₂_map_left_iff.2 (List.forall₂_map_right_iff.2 (List.forall₂_same.2 fun m hm x hx hfl hc => ?_))
    have h5 : m ≤ 5 := by simp at hm; omega
    rw [← den_uf12 x h5]
    exact rot_accurate' h hdot rotOk_uf12 rowsOk_uf12 5 (rotErrOk_uf12 m hm) hx hfl hc

end

/-! ## Examples -/

/-- The laws of `np.dot` hold for the exact scalar product. -/
theorem exactDot_isDot : IsDot fun a b => (List.zipWith (fun s t => s * t) a b).sum where
  near a b _ _ := by
    rw [sub_self, abs_zero]
    have : 0 ≤ (List.zipWith (fun s t => |s * t|) a b).sum := by
      refine List.sum_nonneg fun v hv => ?_
      obtain ⟨i, hi, rfl⟩ := List.mem_iff_getElem.1 hv
      rw [List.getElem_zipWith]
      exact abs_nonneg _
    positivity
  select a b i v ha hb hs hv _ := by
    have e : a = (List.range' 0 b.length).map fun j => if j = i then (1 : ℝ) else 0 := by
      refine List.ext_getElem? fun j => ?_
      have hi : i < 30 := by
        have := (List.getElem?_eq_some_iff.1 hv).1
        omega
      rw [hs, List.getElem?_map]
      by_cases hj : j < 30
      · rw [List.getElem?_eq_getElem (by simpa [hb] using hj)]
        simp only [List.getElem_range', Option.map_some]
        have : 0 + 1 * j = j := by omega
        rw [this, if_pos hj]
        split_ifs <;> rfl
      · rw [List.getElem?_eq_none (by simpa [hb] using hj), if_neg (by omega), if_neg hj]
        rfl
    rw [e, sum_select, if_pos (Nat.zero_le _), Nat.sub_zero, List.getD_eq_getElem?_getD, hv, Option.getD_some]

theorem farX_floats : Floats (toReals farX) := by
  intro v hv
  obtain ⟨q, hq, rfl⟩ := List.mem_map.1 hv
  have : ∀ q ∈ farX, q = 0 ∨ q = -1 := by decide +kernel
  rcases this q hq with rfl | rfl
  · simpa using round64_int 0 (by norm_num)
  · simpa using round64_int (-1) (by norm_num)

theorem clear_of {block : List (List ℤ)} (hb : rotOk block = true)
    (h : ∀ i < 15, rowLo ((rotM block).getD i []) (farX.map fun q => (q, q)) = rowHi ((rotM block).getD i []) (farX.map fun q => (q, q)) ∧
      1 / ((10 ^ 12 : ℕ) : ℚ) < |rowLo ((rotM block).getD i []) (farX.map fun q => (q, q))| ∧
      1 / ((10 ^ 12 : ℕ) : ℚ) < |rowLo ((rotM block).getD i []) (farX.map fun q => (q, q)) - 1|) :
    Clear (image block (toReals farX)) := by
  intro t ht
  obtain ⟨i, hi, rfl⟩ := List.mem_take_iff_getElem.1 ht
  have hl := image_length hb (toReals farX)
  have hi' : i < 15 := by omega
  have hg := image_get hb (x := toReals farX) (by omega : i < 30)
  rw [List.getElem?_eq_getElem (by omega)] at hg
  rw [Option.some.inj hg]
  have hbox : InBox (toReals farX) ((farX.map fun q => (q, q)).map fun b : ℚ × ℚ => ((b.1 : ℝ), (b.2 : ℝ))) := by
    refine List.forall₂_map_left_iff.2 ?_
    rw [List.map_map]
    exact List.forall₂_map_right_iff.2 (List.forall₂_same.2 fun q _ => ⟨le_rfl, le_rfl⟩)
  obtain ⟨r1, r2⟩ := row_bounds ((rotM block).getD i []) hbox
  obtain ⟨h1, h2, h3⟩ := h i hi'
  rw [← h1] at r2
  rw [le_antisymm r2 r1]
  have h2' := (Rat.cast_lt (K := ℝ)).2 h2
  have h3' := (Rat.cast_lt (K := ℝ)).2 h3
  push_cast at h2' h3'
  norm_num at h2' h3' ⊢
  exact ⟨h2', h3'⟩

/-- A vector of floats that is not at a jump, and whose image leaves the cube. -/
example : InBox (toReals farX) rotBox ∧ Floats (toReals farX) ∧ Clear (image uf11Block (toReals farX)) ∧
    Clear (image uf12Block (toReals farX)) :=
  ⟨farX_box, farX_floats, clear_of rotOk_uf11 (by decide +kernel), clear_of rotOk_uf12 (by decide +kernel)⟩

/-- What the theorem says about it. -/
example : ∃ v, eval correctlyRounded (rotZ (fun a b => (List.zipWith (fun s t => s * t) a b).sum) uf11Block (toReals farX))
      (rotFit uf11G 1) = some v ∧
    |v - uf11Fit (toReals rotLambdas) ((rotM uf11Block).map toReals) 1 (toReals farX)| ≤ 1 / 10 ^ 7 := by
  have h := (C139_rotated correctlyRounded_isMathLib exactDot_isDot []).1
  cases h with
  | cons h _ => exact h _ farX_box farX_floats (clear_of rotOk_uf11 (by decide +kernel))

end Evogil.RoundedProblems
