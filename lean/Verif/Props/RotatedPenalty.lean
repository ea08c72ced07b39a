import Verif.Props.ProblemsData
import Verif.Lemmas.Rotation
import Verif.Spec.Penalty

/-!
# C140: the penalty of UF11 and UF12 for leaving the unit cube
-/

set_option linter.unusedSectionVars false

namespace Evogil.Problems

open Spec

/-! ## The penalty function of the code -/

theorem rotP_excess (t : ℝ) : rotP t = excess t := by
  unfold rotP excess
  split_ifs with h1 h2
  · rw [max_eq_left (by linarith : t - 1 ≤ -t), max_eq_right (by linarith)]
  · rw [max_eq_right (by linarith : -t ≤ t - 1), max_eq_right (by linarith)]
  · rw [max_eq_left]
    exact max_le (by linarith) (by linarith)

theorem map_take {z : List ℝ} (f : ℝ → ℝ) {m : ℕ} (hm : m ≤ z.length) :
    ((List.range m).map fun i => f (z.getD i 0)) = (z.take m).map f := by
  refine List.ext_getElem (by simp [hm]) fun i h1 h2 => ?_
  have hi : i < z.length := by simp at h1; omega
  simp [List.getD_eq_getElem?_getD, List.getElem?_eq_getElem hi]

/-- `S` itself is the right function: applied to the rotated vector it would be the penalty. -/
theorem rotS_penalty {z : List ℝ} {m : ℕ} (hm : m ≤ z.length) : rotS z m = penalty z m := by
  rw [rotS, rotPsum, penalty, ← map_take (fun t => excess t ^ 2) hm]
  simp only [rotP_excess]

theorem one_le_penalty {z : List ℝ} {m : ℕ} (hm : m ≤ z.length) : 1 ≤ penalty z m := by
  rw [← rotS_penalty hm]; exact (rotS_one z m).1

theorem one_lt_penalty {z : List ℝ} {m : ℕ} (hm : m ≤ z.length) (h : Leaves z m) : 1 < penalty z m := by
  obtain ⟨t, ht, hc⟩ := h
  rw [← rotS_penalty hm]
  obtain ⟨h1, -, h2⟩ := rotS_one z m
  refine lt_of_le_of_ne h1 fun he => ?_
  obtain ⟨i, hi, rfl⟩ := List.mem_iff_getElem.1 ht
  rw [List.length_take] at hi
  have := h2.1 he.symm i (by omega)
  rw [List.getD_eq_getElem?_getD, List.getElem?_eq_getElem (by omega), Option.getD_some] at this
  rw [List.getElem_take] at hc
  rcases hc with hc | hc <;> linarith [this.1, this.2]

theorem penalty_inside {z : List ℝ} {m : ℕ} (hm : m ≤ z.length) (h : ¬ Leaves z m) : penalty z m = 1 := by
  rw [← rotS_penalty hm]
  refine (rotS_one z m).2.2.2 fun i hi => ?_
  have hz : i < z.length := by omega
  rw [List.getD_eq_getElem?_getD, List.getElem?_eq_getElem hz, Option.getD_some]
  by_contra hc
  refine h ⟨z[i], List.mem_take_iff_getElem.2 ⟨i, by omega, rfl⟩, ?_⟩
  by_contra hn
  exact hc ⟨by linarith [not_or.1 hn |>.1], by linarith [not_or.1 hn |>.2]⟩

/-! ## The objective functions on the box -/

/-- The bounds of UF11 and UF12. -/
noncomputable def rotBox : List (ℝ × ℝ) := rotDims.map fun b : ℚ × ℚ => ((b.1 : ℝ), (b.2 : ℝ))

/-- The rotated vector. -/
noncomputable def image (block : List (List ℤ)) (x : List ℝ) : List ℝ := rotZ ((rotM block).map toReals) x

/-- The mirrored vector. -/
noncomputable def mirrored (block : List (List ℤ)) (x : List ℝ) : List ℝ := rotZBis (toReals rotLambdas) (image block x)

/-- The value without a penalty. -/
noncomputable def plain (g : List ℝ → ℝ) (block : List (List ℤ)) (m : ℕ) (x : List ℝ) : ℝ :=
  rotUp (g x) (mirrored block x) m

theorem image_length {block : List (List ℤ)} (hb : rotOk block = true) (x : List ℝ) : (image block x).length = 30 :=
  rot_length hb x

theorem factor_one {block : List (List ℤ)} (hb : rotOk block = true) {x : List ℝ} (hx : InBox x rotBox) (m : ℕ) :
    rotS (mirrored block x) m = 1 := by
  refine uf11_penalty_void _ _ (fun i hi => ?_) rotLambdas_nonneg m
  rw [image_length hb] at hi
  exact (rot_coord hb hx hi).2.2.1

theorem mirrored_unit {block : List (List ℤ)} (hb : rotOk block = true) {x : List ℝ} (hx : InBox x rotBox) (i : ℕ) :
    0 ≤ (mirrored block x).getD i 0 ∧ (mirrored block x).getD i 0 ≤ 1 :=
  (rotS_one _ (i + 1)).2.2.1 (factor_one hb hx (i + 1)) i (Nat.lt_succ_self i)

theorem rotCos_nonneg {zb : List ℝ} (h : ∀ i, 0 ≤ zb.getD i 0 ∧ zb.getD i 0 ≤ 1) (m : ℕ) : 0 ≤ rotCos zb m := by
  have hc : ∀ i, 0 ≤ Real.cos (zb.getD i 0 * Real.pi / 2.0) := by
    intro i
    have hp := Real.pi_pos
    refine Real.cos_nonneg_of_mem_Icc ⟨?_, ?_⟩
    · have : 0 ≤ zb.getD i 0 * Real.pi / 2.0 := div_nonneg (mul_nonneg (h i).1 hp.le) (by norm_num)
      linarith
    · have := mul_le_mul_of_nonneg_right (h i).2 hp.le
      norm_num at this ⊢
      linarith
  unfold rotCos
  split_ifs
  · refine List.prod_nonneg fun c hcc => ?_
    obtain ⟨i, -, rfl⟩ := List.mem_map.1 hcc
    exact hc i
  · exact hc 0
  · norm_num

theorem rotSin_nonneg {zb : List ℝ} (h : ∀ i, 0 ≤ zb.getD i 0 ∧ zb.getD i 0 ≤ 1) (m : ℕ) : 0 ≤ rotSin zb m := by
  unfold rotSin
  split_ifs
  · exact Real.sin_nonneg_of_nonneg_of_le_pi (h _).1 ((h _).2.trans (by linarith [Real.pi_gt_three]))
  · norm_num

theorem one_le_rotUp {zb : List ℝ} (h : ∀ i, 0 ≤ zb.getD i 0 ∧ zb.getD i 0 ≤ 1) {g : ℝ} (hg : 0 ≤ g) (m : ℕ) :
    1 ≤ rotUp g zb m := by
  unfold rotUp
  have := mul_nonneg (mul_nonneg (by linarith : (0 : ℝ) ≤ 1 + g) (rotCos_nonneg h (m - 1))) (rotSin_nonneg h m)
  linarith

theorem uf11G_nonneg (zb : List ℝ) : 0 ≤ uf11G zb := by
  refine List.sum_nonneg fun v hv => ?_
  obtain ⟨t, -, rfl⟩ := List.mem_map.1 hv
  positivity

theorem uf12G_nonneg (z : List ℝ) : 0 ≤ uf12G z := by
  unfold uf12G
  have : (-(z.length : ℝ)) ≤ (z.map fun zi => (zi - 0.5) ^ 2 - Real.cos (20 * Real.pi * (zi - 0.5))).sum := by
    induction z with
    | nil => simp
    | cons t z ih =>
      simp only [List.length_cons, List.map_cons, List.sum_cons]
      push_cast
      have h1 := Real.cos_le_one (20 * Real.pi * (t - 0.5))
      have h2 := sq_nonneg (t - 0.5)
      linarith
  linarith

/-- `g` of UF11. -/
noncomputable def g11 (x : List ℝ) : ℝ := uf11G (mirrored uf11Block x)

/-- `g` of UF12. -/
noncomputable def g12 (x : List ℝ) : ℝ := uf12G (image uf12Block x)

/-- Every objective function of a problem is at every point of the box the value `val` of that objective. -/
def Computes (fits : List (List ℝ → ℝ)) (val : ℕ → List ℝ → ℝ) : Prop :=
  fits.length = 5 ∧ ∀ i < 5, ∀ f, fits[i]? = some f → ∀ x, InBox x rotBox → f x = val (i + 1) x

theorem uf11_fit {x : List ℝ} (hx : InBox x rotBox) (m : ℕ) :
    uf11Fit (toReals rotLambdas) ((rotM uf11Block).map toReals) m x = plain g11 uf11Block m x := by
  show (if _ then _ else rotS (mirrored uf11Block x) (m - 1) * _) = _
  rw [factor_one rotOk_uf11 hx, one_mul, ite_self]
  rfl

theorem uf12_fit {x : List ℝ} (hx : InBox x rotBox) (m : ℕ) :
    uf12Fit (toReals rotLambdas) ((rotM uf12Block).map toReals) m x = plain g12 uf12Block m x := by
  show (if _ then _ else rotS (mirrored uf12Block x) (m - 1) * _) = _
  rw [factor_one rotOk_uf12 hx, one_mul, ite_self]
  rfl

/-- **C140 (what the code does).** Inside of the bounds no vector of UF11 or UF12 is ever penalised: every objective is the
value without the factor. -/
theorem C140_never (front : List (List ℝ)) : Computes (uf11 front).fits (plain g11 uf11Block) ∧
    Computes (uf12 front).fits (plain g12 uf12Block) := by
  constructor
  · refine ⟨rfl, fun i hi f hf x hx => ?_⟩
    match i, hi with
    | 0, _ | 1, _ | 2, _ | 3, _ | 4, _ => cases hf; exact uf11_fit hx _
  · refine ⟨rfl, fun i hi f hf x hx => ?_⟩
    match i, hi with
    | 0, _ | 1, _ | 2, _ | 3, _ | 4, _ => cases hf; exact uf12_fit hx _

/-- **C140 (what holds).** A vector whose image stays in the cube has the value that it should have. -/
theorem C140_inside_partial {x : List ℝ} (hx : InBox x rotBox) {m : ℕ} (hm : m ≤ 5) :
    (¬ Leaves (image uf11Block x) (m - 1) →
      uf11Fit (toReals rotLambdas) ((rotM uf11Block).map toReals) m x =
        penalty (image uf11Block x) (m - 1) * plain g11 uf11Block m x) ∧
    (¬ Leaves (image uf12Block x) (m - 1) →
      uf12Fit (toReals rotLambdas) ((rotM uf12Block).map toReals) m x =
        penalty (image uf12Block x) (m - 1) * plain g12 uf12Block m x) := by
  constructor
  · intro h
    rw [uf11_fit hx, penalty_inside (by rw [image_length rotOk_uf11]; omega) h, one_mul]
  · intro h
    rw [uf12_fit hx, penalty_inside (by rw [image_length rotOk_uf12]; omega) h, one_mul]

/-- **C140 (violated everywhere else).** Every vector of the box that leaves the cube has a value below the one with the
penalty. -/
theorem C140_outside {x : List ℝ} (hx : InBox x rotBox) {m : ℕ} (hm : m ≤ 5) :
    (Leaves (image uf11Block x) (m - 1) →
      uf11Fit (toReals rotLambdas) ((rotM uf11Block).map toReals) m x <
        penalty (image uf11Block x) (m - 1) * plain g11 uf11Block m x) ∧
    (Leaves (image uf12Block x) (m - 1) →
      uf12Fit (toReals rotLambdas) ((rotM uf12Block).map toReals) m x <
        penalty (image uf12Block x) (m - 1) * plain g12 uf12Block m x) := by
  constructor
  · intro h
    have h1 := one_lt_penalty (by rw [image_length rotOk_uf11]; omega) h
    have h2 : 1 ≤ plain g11 uf11Block m x := one_le_rotUp (mirrored_unit rotOk_uf11 hx) (uf11G_nonneg _) m
    rw [uf11_fit hx]
    nlinarith
  · intro h
    have h1 := one_lt_penalty (by rw [image_length rotOk_uf12]; omega) h
    have h2 : 1 ≤ plain g12 uf12Block m x := one_le_rotUp (mirrored_unit rotOk_uf12 hx) (uf12G_nonneg _) m
    rw [uf12_fit hx]
    nlinarith

/-! ## The witness -/

/-- The vector with -1 in the second coordinate. -/
def farX : List ℚ := [0, -1] ++ List.replicate 28 0

theorem farX_box : InBox (toReals farX) rotBox := by
  refine List.forall₂_map_left_iff.2 (List.forall₂_map_right_iff.2 ?_)
  have : List.Forall₂ (fun (v : ℚ) (b : ℚ × ℚ) => b.1 ≤ v ∧ v ≤ b.2) farX rotDims := by decide +kernel
  exact this.imp fun v b h => ⟨Rat.cast_le.2 h.1, Rat.cast_le.2 h.2⟩

theorem far_leaves {block : List (List ℤ)} (h :
    ∃ i < 4, rowHi ((rotM block).getD i []) (farX.map fun q => (q, q)) < 0) (hb : rotOk block = true) :
    Leaves (image block (toReals farX)) 4 := by
  obtain ⟨i, hi, hneg⟩ := h
  have hl := image_length hb (toReals farX)
  refine ⟨(image block (toReals farX)).getD i 0, ?_, .inl ?_⟩
  · rw [List.getD_eq_getElem?_getD, List.getElem?_eq_getElem (by omega), Option.getD_some]
    exact List.mem_take_iff_getElem.2 ⟨i, by omega, rfl⟩
  · rw [image, rotRow_getD]
    refine lt_of_le_of_lt (row_bounds _ ?_).2 (Rat.cast_lt_zero.2 hneg)
    refine List.forall₂_map_left_iff.2 ?_
    rw [List.map_map]
    refine List.forall₂_map_right_iff.2 (List.forall₂_same.2 fun q _ => ⟨le_rfl, le_rfl⟩)

/-- **C140 (violated).** There is a vector in the box whose image leaves the cube: the fifth objective of UF11 and of UF12
is smaller than it should be. -/
theorem C140_violated : InBox (toReals farX) rotBox ∧
    uf11Fit (toReals rotLambdas) ((rotM uf11Block).map toReals) 5 (toReals farX) <
      penalty (image uf11Block (toReals farX)) 4 * plain g11 uf11Block 5 (toReals farX) ∧
    uf12Fit (toReals rotLambdas) ((rotM uf12Block).map toReals) 5 (toReals farX) <
      penalty (image uf12Block (toReals farX)) 4 * plain g12 uf12Block 5 (toReals farX) :=
  ⟨farX_box, (C140_outside farX_box le_rfl).1 (far_leaves (by decide +kernel) rotOk_uf11),
    (C140_outside farX_box le_rfl).2 (far_leaves (by decide +kernel) rotOk_uf12)⟩

/-- The penalty of a vector that leaves the cube by 1 is 2 / (1 + 1 / e). -/
example : penalty [-1, 1 / 2] 2 = 2 / (1 + Real.exp (-1)) := by
  have : excess (-1) = 1 ∧ excess (1 / 2) = 0 := by
    constructor <;> unfold excess <;> norm_num
  simp only [penalty, List.take, List.map, List.sum_cons, List.sum_nil, this]
  norm_num

end Evogil.Problems
