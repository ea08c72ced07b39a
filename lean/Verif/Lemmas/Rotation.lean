import Verif.Model.ProblemsData
import Verif.Spec.Box
import Mathlib.Tactic.Linarith
import Mathlib.Data.Real.Basic

/-!
# Bounds of the rotated vectors of UF11 and UF12
-/

set_option linter.unusedSectionVars false

namespace Evogil.Problems

/-- The smallest scalar product of a row and a vector of a box. -/
def rowLo : List ℚ → List (ℚ × ℚ) → ℚ
  | q :: row, b :: box => min (q * b.1) (q * b.2) + rowLo row box
  | _, _ => 0

/-- The largest scalar product of a row and a vector of a box. -/
def rowHi : List ℚ → List (ℚ × ℚ) → ℚ
  | q :: row, b :: box => max (q * b.1) (q * b.2) + rowHi row box
  | _, _ => 0

theorem mul_between {q lo hi t : ℝ} (h1 : lo ≤ t) (h2 : t ≤ hi) : min (q * lo) (q * hi) ≤ q * t ∧ q * t ≤ max (q * lo) (q * hi) := by
  rcases le_total 0 q with hq | hq
  · exact ⟨(min_le_left _ _).trans (mul_le_mul_of_nonneg_left h1 hq), (mul_le_mul_of_nonneg_left h2 hq).trans (le_max_right _ _)⟩
  · exact ⟨(min_le_right _ _).trans (mul_le_mul_of_nonpos_left h2 hq), (mul_le_mul_of_nonpos_left h1 hq).trans (le_max_left _ _)⟩

theorem row_bounds (row : List ℚ) {x : List ℝ} {box : List (ℚ × ℚ)}
    (h : InBox x (box.map fun b : ℚ × ℚ => ((b.1 : ℝ), (b.2 : ℝ)))) :
    (rowLo row box : ℝ) ≤ (List.zipWith (fun a b => a * b) (toReals row) x).sum ∧
    (List.zipWith (fun a b => a * b) (toReals row) x).sum ≤ rowHi row box := by
  have h' := List.forall₂_map_right_iff.1 h
  clear h
  induction h' generalizing row with
  | nil => cases row <;> simp [rowLo, rowHi]
  | @cons t b x box ht _ ih =>
    cases row with
    | nil => simp [rowLo, rowHi, toReals]
    | cons q row =>
      obtain ⟨i1, i2⟩ := ih row
      obtain ⟨m1, m2⟩ := mul_between (q := (q : ℝ)) ht.1 ht.2
      simp only [toReals, List.map_cons, List.zipWith_cons_cons, List.sum_cons, rowLo, rowHi]
      simp only [toReals] at i1 i2
      push_cast
      exact ⟨add_le_add m1 i1, add_le_add m2 i2⟩

/-- The bounds of the coordinates of a rotated vector, as computed from the data files. -/
def rotOk (block : List (List ℤ)) : Bool :=
  (rotM block).length == 30 && rotLambdas.length == 30 && (List.range 30).all fun i =>
    let lo := rowLo ((rotM block).getD i []) rotDims
    let hi := rowHi ((rotM block).getD i []) rotDims
    let l := rotLambdas.getD i 0
    decide (0 ≤ l ∧ l ≤ 1 ∧ -1 ≤ l * lo ∧ l * hi ≤ 1 ∧ (i < 15 → -13 / 2 ≤ lo ∧ hi ≤ 13 / 2 ∧ -7 / 10 ≤ l * lo ∧ l * hi ≤ 7 / 10) ∧
      (15 ≤ i → lo = 0 ∧ hi = 1))

theorem rotOk_uf11 : rotOk uf11Block = true := by decide +kernel

theorem rotOk_uf12 : rotOk uf12Block = true := by decide +kernel

theorem getD_toReals (l : List ℚ) (i : ℕ) : (toReals l).getD i 0 = ((l.getD i 0 : ℚ) : ℝ) := by
  simp only [toReals, List.getD_eq_getElem?_getD, List.getElem?_map]
  cases l[i]? <;> simp

theorem rotRow_getD {block : List (List ℤ)} (x : List ℝ) (i : ℕ) :
    (rotZ ((rotM block).map toReals) x).getD i 0 =
      (List.zipWith (fun a b => a * b) (toReals ((rotM block).getD i [])) x).sum := by
  simp only [rotZ, List.map_map, List.getD_eq_getElem?_getD, List.getElem?_map]
  cases (rotM block)[i]? <;> simp [toReals]

/-- What the data files say about the rotated vectors. -/
theorem rot_coord {block : List (List ℤ)} (hb : rotOk block = true) {x : List ℝ}
    (hx : InBox x (rotDims.map fun b : ℚ × ℚ => ((b.1 : ℝ), (b.2 : ℝ)))) {i : ℕ} (hi : i < 30) :
    0 ≤ (toReals rotLambdas).getD i 0 ∧ (toReals rotLambdas).getD i 0 ≤ 1 ∧
    |(toReals rotLambdas).getD i 0 * (rotZ ((rotM block).map toReals) x).getD i 0| ≤ 1 ∧
    (i < 15 → |(rotZ ((rotM block).map toReals) x).getD i 0| ≤ 13 / 2 ∧
      |(toReals rotLambdas).getD i 0 * (rotZ ((rotM block).map toReals) x).getD i 0| ≤ 7 / 10) ∧
    (15 ≤ i → 0 ≤ (rotZ ((rotM block).map toReals) x).getD i 0 ∧ (rotZ ((rotM block).map toReals) x).getD i 0 ≤ 1) := by
  simp only [rotOk, Bool.and_eq_true, List.all_eq_true, List.mem_range, decide_eq_true_eq] at hb
  obtain ⟨l0, l1, b1, b2, b3, b4⟩ := hb.2 i hi
  rw [getD_toReals, rotRow_getD]
  obtain ⟨r1, r2⟩ := row_bounds ((rotM block).getD i []) hx
  generalize (List.zipWith (fun a b => a * b) (toReals ((rotM block).getD i [])) x).sum = z at r1 r2 ⊢
  generalize rowLo ((rotM block).getD i []) rotDims = lo at *
  generalize rowHi ((rotM block).getD i []) rotDims = hi at *
  generalize rotLambdas.getD i 0 = l at *
  have l0' : (0 : ℝ) ≤ l := by exact_mod_cast l0
  have l1' : (l : ℝ) ≤ 1 := by exact_mod_cast l1
  have b1' : (-1 : ℝ) ≤ l * lo := by exact_mod_cast b1
  have b2' : (l * hi : ℝ) ≤ 1 := by exact_mod_cast b2
  have c1 := mul_le_mul_of_nonneg_left r1 l0'
  have c2 := mul_le_mul_of_nonneg_left r2 l0'
  refine ⟨l0', l1', abs_le.2 ⟨by linarith, by linarith⟩, fun h => ?_, fun h => ?_⟩
  · obtain ⟨d1, d2, d3, d4⟩ := b3 h
    have d1' := (Rat.cast_le (K := ℝ)).2 d1
    have d2' := (Rat.cast_le (K := ℝ)).2 d2
    have d3' := (Rat.cast_le (K := ℝ)).2 d3
    have d4' := (Rat.cast_le (K := ℝ)).2 d4
    push_cast at d1' d2' d3' d4'
    exact ⟨abs_le.2 ⟨by linarith, by linarith⟩, abs_le.2 ⟨by linarith, by linarith⟩⟩
  · obtain ⟨rfl, rfl⟩ := b4 h
    push_cast at r1 r2
    exact ⟨r1, r2⟩

theorem rot_length {block : List (List ℤ)} (hb : rotOk block = true) (x : List ℝ) :
    (rotZ ((rotM block).map toReals) x).length = 30 := by
  simp only [rotOk, Bool.and_eq_true, beq_iff_eq] at hb
  simp [rotZ, hb.1.1]

theorem rotLambdas_nonneg : ∀ l ∈ toReals rotLambdas, 0 ≤ l := by
  intro l hl
  obtain ⟨q, hq, rfl⟩ := List.mem_map.1 hl
  have : ∀ q ∈ rotLambdas, 0 ≤ q := by decide +kernel
  exact_mod_cast this q hq

end Evogil.Problems
