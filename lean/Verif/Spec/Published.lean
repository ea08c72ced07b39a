import Verif.Spec.Box
import Mathlib.Analysis.SpecialFunctions.Pow.Real
import Mathlib.Analysis.SpecialFunctions.Trigonometric.Basic

/-!
# Specification: the published definitions of the benchmark problems

* ZDT1-4 and ZDT6: Zitzler, Deb, Thiele, "Comparison of multiobjective evolutionary algorithms", 2000.
* UF1-10: Zhang, Zhou, Zhao, Suganthan, Liu, Tiwari, "Multiobjective optimization test instances for the
  CEC 2009 special session and competition", 2008. All of them have 30 variables there; `N = 10` for UF5,
  `N = 2` for UF6 and `ε = 0.1`.
* Kursawe, "A variant of evolution strategies for vector optimization", 1991, with 3 variables.
* Ackley's function of two variables.

As in the papers, the variables are `x 1, ..., x n`, sums and products run over sets of indices, and the
number of variables is a parameter. Nothing here refers to the model of the code.
-/

namespace Evogil.Spec.Published

open Real Finset

/-- The value of `g` of ZDT1, ZDT2 and ZDT3. -/
noncomputable def zdtG (n : ℕ) (x : ℕ → ℝ) : ℝ := 1 + 9 / ((n : ℝ) - 1) * ∑ i ∈ Icc 2 n, x i

noncomputable def zdt1 (n : ℕ) (x : ℕ → ℝ) : List ℝ :=
  [x 1, zdtG n x * (1 - √(x 1 / zdtG n x))]

noncomputable def zdt2 (n : ℕ) (x : ℕ → ℝ) : List ℝ :=
  [x 1, zdtG n x * (1 - (x 1 / zdtG n x) ^ 2)]

noncomputable def zdt3 (n : ℕ) (x : ℕ → ℝ) : List ℝ :=
  [x 1, zdtG n x * (1 - √(x 1 / zdtG n x) - x 1 / zdtG n x * sin (10 * π * x 1))]

/-- The value of `g` of ZDT4. -/
noncomputable def zdt4G (n : ℕ) (x : ℕ → ℝ) : ℝ :=
  1 + 10 * ((n : ℝ) - 1) + ∑ i ∈ Icc 2 n, (x i ^ 2 - 10 * cos (4 * π * x i))

noncomputable def zdt4 (n : ℕ) (x : ℕ → ℝ) : List ℝ :=
  [x 1, zdt4G n x * (1 - √(x 1 / zdt4G n x))]

/-- The first objective of ZDT6. -/
noncomputable def zdt6F (x : ℕ → ℝ) : ℝ := 1 - exp (-4 * x 1) * sin (6 * π * x 1) ^ 6

/-- The value of `g` of ZDT6. -/
noncomputable def zdt6G (n : ℕ) (x : ℕ → ℝ) : ℝ :=
  1 + 9 * ((∑ i ∈ Icc 2 n, x i) / ((n : ℝ) - 1)) ^ (1 / 4 : ℝ)

noncomputable def zdt6 (n : ℕ) (x : ℕ → ℝ) : List ℝ :=
  [zdt6F x, zdt6G n x * (1 - (zdt6F x / zdt6G n x) ^ 2)]

/-- The odd indices from 2 to `n`. -/
def oddJ (n : ℕ) : Finset ℕ := {j ∈ Icc 2 n | Odd j}

/-- The even indices from 2 to `n`. -/
def evenJ (n : ℕ) : Finset ℕ := {j ∈ Icc 2 n | Even j}

/-- The indices `j` from 3 to `n` for which `j - r` is a multiple of 3. -/
def thirdJ (n r : ℕ) : Finset ℕ := {j ∈ Icc 3 n | (3 : ℤ) ∣ j - r}

/-- The mean of `t` over `J`, twice. -/
noncomputable def twiceMean (J : Finset ℕ) (t : ℕ → ℝ) : ℝ := 2 / (#J : ℝ) * ∑ j ∈ J, t j

/-- `y_j` of UF1 and UF4 to UF7. -/
noncomputable def sineY (n : ℕ) (x : ℕ → ℝ) (j : ℕ) : ℝ := x j - sin (6 * π * x 1 + j * π / n)

noncomputable def uf1 (n : ℕ) (x : ℕ → ℝ) : List ℝ :=
  [x 1 + twiceMean (oddJ n) fun j => sineY n x j ^ 2,
   1 - √(x 1) + twiceMean (evenJ n) fun j => sineY n x j ^ 2]

/-- `y_j` of UF2. -/
noncomputable def uf2Y (n : ℕ) (x : ℕ → ℝ) (j : ℕ) : ℝ :=
  let amp := 0.3 * x 1 ^ 2 * cos (24 * π * x 1 + 4 * j * π / n) + 0.6 * x 1
  if Odd j then x j - amp * cos (6 * π * x 1 + j * π / n) else x j - amp * sin (6 * π * x 1 + j * π / n)

noncomputable def uf2 (n : ℕ) (x : ℕ → ℝ) : List ℝ :=
  [x 1 + twiceMean (oddJ n) fun j => uf2Y n x j ^ 2,
   1 - √(x 1) + twiceMean (evenJ n) fun j => uf2Y n x j ^ 2]

/-- The term of UF3 and UF6 with the product of cosines. -/
noncomputable def wavy (J : Finset ℕ) (y : ℕ → ℝ) : ℝ :=
  2 / (#J : ℝ) * (4 * ∑ j ∈ J, y j ^ 2 - 2 * ∏ j ∈ J, cos (20 * y j * π / √j) + 2)

/-- `y_j` of UF3. -/
noncomputable def uf3Y (n : ℕ) (x : ℕ → ℝ) (j : ℕ) : ℝ :=
  x j - x 1 ^ (0.5 * (1 + 3 * ((j : ℝ) - 2) / ((n : ℝ) - 2)))

noncomputable def uf3 (n : ℕ) (x : ℕ → ℝ) : List ℝ :=
  [x 1 + wavy (oddJ n) (uf3Y n x), 1 - √(x 1) + wavy (evenJ n) (uf3Y n x)]

noncomputable def uf4 (n : ℕ) (x : ℕ → ℝ) : List ℝ :=
  let h := fun t : ℝ => |t| / (1 + exp (2 * |t|))
  [x 1 + twiceMean (oddJ n) fun j => h (sineY n x j),
   1 - x 1 ^ 2 + twiceMean (evenJ n) fun j => h (sineY n x j)]

noncomputable def uf5 (n N : ℕ) (ε : ℝ) (x : ℕ → ℝ) : List ℝ :=
  let h := fun t : ℝ => 2 * t ^ 2 - cos (4 * π * t) + 1
  let bump := (1 / (2 * (N : ℝ)) + ε) * |sin (2 * N * π * x 1)|
  [x 1 + bump + twiceMean (oddJ n) fun j => h (sineY n x j),
   1 - x 1 + bump + twiceMean (evenJ n) fun j => h (sineY n x j)]

noncomputable def uf6 (n N : ℕ) (ε : ℝ) (x : ℕ → ℝ) : List ℝ :=
  let bump := max 0 (2 * (1 / (2 * (N : ℝ)) + ε) * sin (2 * N * π * x 1))
  [x 1 + bump + wavy (oddJ n) (sineY n x), 1 - x 1 + bump + wavy (evenJ n) (sineY n x)]

noncomputable def uf7 (n : ℕ) (x : ℕ → ℝ) : List ℝ :=
  [x 1 ^ (1 / 5 : ℝ) + twiceMean (oddJ n) fun j => sineY n x j ^ 2,
   1 - x 1 ^ (1 / 5 : ℝ) + twiceMean (evenJ n) fun j => sineY n x j ^ 2]

/-- `y_j` of UF8 to UF10. -/
noncomputable def sine2Y (n : ℕ) (x : ℕ → ℝ) (j : ℕ) : ℝ :=
  x j - 2 * x 2 * sin (2 * π * x 1 + j * π / n)

/-- UF8 to UF10 with the sets `J 1`, `J 2`, `J 0` of indices of their three objectives, which are the sets `thirdJ` in the
papers. -/
noncomputable def uf8On (J : ℕ → Finset ℕ) (n : ℕ) (x : ℕ → ℝ) : List ℝ :=
  [cos (0.5 * x 1 * π) * cos (0.5 * x 2 * π) + twiceMean (J 1) fun j => sine2Y n x j ^ 2,
   cos (0.5 * x 1 * π) * sin (0.5 * x 2 * π) + twiceMean (J 2) fun j => sine2Y n x j ^ 2,
   sin (0.5 * x 1 * π) + twiceMean (J 0) fun j => sine2Y n x j ^ 2]

noncomputable def uf8 (n : ℕ) (x : ℕ → ℝ) : List ℝ := uf8On (thirdJ n) n x

noncomputable def uf9On (J : ℕ → Finset ℕ) (n : ℕ) (ε : ℝ) (x : ℕ → ℝ) : List ℝ :=
  let hump := max 0 ((1 + ε) * (1 - 4 * (2 * x 1 - 1) ^ 2))
  [0.5 * (hump + 2 * x 1) * x 2 + twiceMean (J 1) fun j => sine2Y n x j ^ 2,
   0.5 * (hump - 2 * x 1 + 2) * x 2 + twiceMean (J 2) fun j => sine2Y n x j ^ 2,
   1 - x 2 + twiceMean (J 0) fun j => sine2Y n x j ^ 2]

noncomputable def uf9 (n : ℕ) (ε : ℝ) (x : ℕ → ℝ) : List ℝ := uf9On (thirdJ n) n ε x

noncomputable def uf10On (J : ℕ → Finset ℕ) (n : ℕ) (x : ℕ → ℝ) : List ℝ :=
  let h := fun t : ℝ => 4 * t ^ 2 - cos (8 * π * t) + 1
  [cos (0.5 * x 1 * π) * cos (0.5 * x 2 * π) + twiceMean (J 1) fun j => h (sine2Y n x j),
   cos (0.5 * x 1 * π) * sin (0.5 * x 2 * π) + twiceMean (J 2) fun j => h (sine2Y n x j),
   sin (0.5 * x 1 * π) + twiceMean (J 0) fun j => h (sine2Y n x j)]

noncomputable def uf10 (n : ℕ) (x : ℕ → ℝ) : List ℝ := uf10On (thirdJ n) n x

noncomputable def kursawe (n : ℕ) (x : ℕ → ℝ) : List ℝ :=
  [∑ i ∈ Icc 1 (n - 1), -10 * exp (-0.2 * √(x i ^ 2 + x (i + 1) ^ 2)),
   ∑ i ∈ Icc 1 n, (|x i| ^ (0.8 : ℝ) + 5 * sin (x i ^ 3))]

noncomputable def ackley (x : ℕ → ℝ) : ℝ :=
  -20 * exp (-0.2 * √(1 / 2 * ∑ i ∈ Icc 1 2, x i ^ 2)) - exp (1 / 2 * ∑ i ∈ Icc 1 2, cos (2 * π * x i)) +
    20 + exp 1

/-- The boxes: the interval of the `i`-th variable. -/
def unitBox (_ : ℕ) : ℝ × ℝ := (0, 1)

/-- The first `k` variables in `[0, 1]`, the others in `[-b, b]`. -/
def mixedBox (k : ℕ) (b : ℝ) (i : ℕ) : ℝ × ℝ := if i ≤ k then (0, 1) else (-b, b)

/-- The vector given to the program as the variables of the papers. -/
def vars (x : List ℝ) (i : ℕ) : ℝ := x.getD (i - 1) 0

/-- The program searches the published box in `n` variables. -/
def SameBox (dims : List (ℝ × ℝ)) (n : ℕ) (box : ℕ → ℝ × ℝ) : Prop :=
  dims.length = n ∧ ∀ i, 1 ≤ i → i ≤ n → dims[i - 1]? = some (box i)

/-- The objective functions of the program have the published values in the whole box. -/
def SameValues (fits : List (List ℝ → ℝ)) (dims : List (ℝ × ℝ)) (obj : (ℕ → ℝ) → List ℝ) : Prop :=
  ∀ x, InBox x dims → fits.map (fun f => f x) = obj (vars x)

/-- The objective functions of the program have the published values up to `tol` in the whole box. -/
def NearValues (tol : ℝ) (fits : List (List ℝ → ℝ)) (dims : List (ℝ × ℝ)) (obj : (ℕ → ℝ) → List ℝ) :
    Prop :=
  ∀ x, InBox x dims → List.Forall₂ (fun a b => |a - b| ≤ tol) (fits.map fun f => f x) (obj (vars x))

end Evogil.Spec.Published
