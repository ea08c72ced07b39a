import Verif.Model.FloatExpr
import Verif.Model.ProblemsData
import Mathlib.Data.Rat.Floor

/-!
# The objective functions of the benchmark problems as python evaluates them

As `Verif.Model.ProblemsChecked`, but as expressions (`Verif.Model.FloatExpr`), so that every operation is rounded and the order
of the operations matters. A decision vector has the length of the box, `x[1:]` are the variables from 1 on.
-/

namespace Evogil.RoundedProblems

open FloatExpr Binary64 Problems
open Expr (lit var pi)

/-- `x[1:]`, ZDT1/problem.py:12, for a vector of length `n`. -/
def tailVars (n : ℕ) : List Expr := (List.range' 1 (n - 1)).map var

/-- `emoa_fitness_2`, ZDT1/problem.py:11-13, and the list `fitnesses` of `emoa_fitnesses`, lines 24-33 (and the copies cited
in `Problems.emoaFitness2`). -/
def emoaFitnesses (n : ℕ) (f1 : Expr → Expr) (g : List Expr → Expr) (h : Expr → Expr → Expr) : List Expr :=
  [f1 (var 0), g (tailVars n) * h (f1 (var 0)) (g (tailVars n))]

/-- `ga`, ZDT1/problem.py:49-50; `gb`, ZDT2:48-49; `gc`, ZDT3:50-51. -/
def gSum (xs : List Expr) : Expr := 1 + lit (3103448275862069 / 10000000000000000) * sumE xs

/-- `ha`, ZDT1/problem.py:53-54, and `hd`, ZDT4/problem.py:62-63. -/
def hSqrt (f1 g : Expr) : Expr := 1 - .sqrt (.abs (f1 / g))

/-- `hb`, ZDT2/problem.py:52-53, and `he`, ZDT6/problem.py:59-60. -/
def hSq (f1 g : Expr) : Expr := 1 - .ipow (f1 / g) 2

/-- `hc`, ZDT3/problem.py:54-56. -/
def hSin (f1 g : Expr) : Expr := 1 - .sqrt (.abs (f1 / g)) - f1 / g * .sin (10 * pi * f1)

/-- ZDT1/problem.py:45-62. -/
def zdt1 : List Expr := emoaFitnesses 30 id gSum hSqrt

/-- ZDT2/problem.py:44-61. -/
def zdt2 : List Expr := emoaFitnesses 30 id gSum hSq

/-- ZDT3/problem.py:46-56 and 81-83. -/
def zdt3 : List Expr := emoaFitnesses 30 id gSum hSin

/-- `gd`, ZDT4/problem.py:58-59 with line 51. -/
def gCos (xs : List Expr) : Expr := 91 + sumE (xs.map fun x => .ipow x 2 - 10 * .cos (4 * pi * x))

/-- ZDT4/problem.py:51-68. -/
def zdt4 : List Expr := emoaFitnesses 10 id gCos hSqrt

/-- `f1e`, ZDT6/problem.py:51-52 with line 48. -/
def f1e (x : Expr) : Expr := 1 - .exp (lit (-4) * x) * .ipow (.sin (6 * pi * x)) 6

/-- `ge`, ZDT6/problem.py:55-56. -/
def gPow (xs : List Expr) : Expr := 1 + lit (519615 / 100000) * .pow (sumE xs) (1 / 4) (1 / 4)

/-- ZDT6/problem.py:51-69. -/
def zdt6 : List Expr := emoaFitnesses 10 f1e gPow hSq

/-- `len(J)` and other integers, for instance UF1/problem.py:17. -/
def num (n : ℕ) : Expr := lit n

/-- `base_fit`, UF1/problem.py:14-21. -/
def uf1Base (J : List ℕ) : Expr :=
  2 / num J.length * sumE (J.map fun j => .ipow (var (j - 1) - .sin (6 * pi * var 0 + num j * pi / 30)) 2)

/-- UF1/problem.py:24-33. -/
def uf1 : List Expr := [var 0 + uf1Base (odds 30), 1 - .sqrt (var 0) + uf1Base (evens 30)]

/-- `base_fit`, UF2/problem.py:14-32; `4 * j` is an integer. -/
def uf2Base (J : List ℕ) (trig : Expr → Expr) : Expr :=
  2 / num J.length * sumE (J.map fun j =>
    .ipow (var (j - 1) - (lit (3 / 10) * .ipow (var 0) 2 * .cos (24 * pi * var 0 + num (4 * j) * pi / 30) +
      lit (6 / 10) * var 0) * trig (6 * pi * var 0 + num j * pi / 30)) 2)

/-- UF2/problem.py:35-44. -/
def uf2 : List Expr := [var 0 + uf2Base (odds 30) .cos, 1 - .sqrt (var 0) + uf2Base (evens 30) .sin]

/-- Lines 22-37 of UF3/problem.py and 28-43 of UF6/problem.py. -/
def cosProd (J : List ℕ) (y : ℕ → Expr) : Expr :=
  2 * (4 * sumE (J.map fun j => .ipow (y j) 2) -
    2 * prodE (J.map fun j => .cos (20 * y j * pi / .sqrt (num j))) + 2) / num J.length

/-- The exponent of UF3/problem.py:17. -/
def uf3Exponent (j : ℕ) : ℚ := 1 / 2 * (1 + 3 * ((j : ℚ) - 2) / 28)

/-- The same with rounding; `3 * (j - 2)` and `n - 2` are integers. -/
def uf3ExponentFl (j : ℕ) : ℚ := round64 (1 / 2 * round64 (1 + round64 (3 * ((j : ℚ) - 2) / 28)))

/-- `yj`, UF3/problem.py:16-17. -/
def uf3Y (j : ℕ) : Expr := var (j - 1) - .pow (var 0) (uf3Exponent j) (uf3ExponentFl j)

/-- UF3/problem.py:40-49. -/
def uf3 : List Expr := [var 0 + cosProd (odds 30) uf3Y, 1 - .sqrt (var 0) + cosProd (evens 30) uf3Y]

/-- `yj` of UF4/problem.py:16-17, UF5:13-14, UF6:22-23 and UF7:14-15. -/
def ufY (n : ℕ) (j : ℕ) : Expr := var (j - 1) - .sin (6 * pi * var 0 + num j * pi / num n)

/-- `h`, UF4/problem.py:20-21. -/
def uf4H (t : Expr) : Expr := .abs t / (1 + .exp (2 * .abs t))

/-- `base_fit`, UF4/problem.py:24-25. -/
def uf4Base (J : List ℕ) : Expr := 2 * sumE (J.map fun j => uf4H (ufY 30 j)) / num J.length

/-- UF4/problem.py:28-37. -/
def uf4 : List Expr := [var 0 + uf4Base (odds 30), 1 - .ipow (var 0) 2 + uf4Base (evens 30)]

/-- `h`, UF5/problem.py:17-18. -/
def uf5H (t : Expr) : Expr := 2 * .ipow t 2 - .cos (4 * pi * t) + 1

/-- `base_fit`, UF5/problem.py:21-24; `2 * n` is an integer. -/
def uf5Base (J : List ℕ) : Expr :=
  (1 / 20 + lit (1 / 10)) * .abs (.sin (20 * pi * var 0)) + 2 * sumE (J.map fun j => uf5H (ufY 10 j)) / num J.length

/-- UF5/problem.py:27-36. -/
def uf5 : List Expr := [var 0 + uf5Base (odds 10), 1 - var 0 + uf5Base (evens 10)]

/-- `base_fit`, UF6/problem.py:46-49. -/
def uf6Base (J : List ℕ) : Expr :=
  .max0 (2 * (1 / 60 + lit (1 / 10)) * .sin (60 * pi * var 0)) + cosProd J (ufY 30)

/-- UF6/problem.py:52-61. -/
def uf6 : List Expr := [var 0 + uf6Base (odds 30), 1 - var 0 + uf6Base (evens 30)]

/-- `base_fit`, UF7/problem.py:18-19. -/
def uf7Base (J : List ℕ) : Expr := 2 * sumE (J.map fun j => .ipow (ufY 30 j) 2) / num J.length

/-- UF7/problem.py:22-31. -/
def uf7 : List Expr :=
  [.pow (var 0) (1 / 5) (round64 (1 / 5)) + uf7Base (odds 30), 1 - .pow (var 0) (1 / 5) (round64 (1 / 5)) + uf7Base (evens 30)]

/-- `yj`, UF10/problem.py:25-26, and the bracket in UF8:27 and UF9:27. -/
def uf8Y (j : ℕ) : Expr := var (j - 1) - 2 * var 1 * .sin (2 * pi * var 0 + num j * pi / 30)

/-- `base_fit`, UF8/problem.py:23-31 and UF9:23-31. -/
def uf8Base (J : List ℕ) : Expr := 2 * sumE (J.map fun j => .ipow (uf8Y j) 2) / num J.length

/-- The angle `0.5 * x[i] * math.pi`, UF8/problem.py:35. -/
def half (i : ℕ) : Expr := lit (1 / 2) * var i * pi

/-- UF8/problem.py:34-51. -/
def uf8 : List Expr :=
  [.cos (half 0) * .cos (half 1) + uf8Base (mod1 30), .cos (half 0) * .sin (half 1) + uf8Base (mod2 30),
   .sin (half 0) + uf8Base (mod3 30)]

/-- The hump `max(0, (1 + eps) * (1 - 4 * (2 * x[0] - 1) ** 2))`, UF9/problem.py:35 and 41. -/
def uf9Hump : Expr := .max0 ((1 + lit (1 / 10)) * (1 - 4 * .ipow (2 * var 0 - 1) 2))

/-- UF9/problem.py:34-51. -/
def uf9 : List Expr :=
  [lit (1 / 2) * (uf9Hump + 2 * var 0) * var 1 + uf8Base (mod1 30),
   lit (1 / 2) * (uf9Hump - 2 * var 0 + 2) * var 1 + uf8Base (mod2 30),
   1 - var 1 + uf8Base (mod3 30)]

/-- `base_fit`, UF10/problem.py:29-31. -/
def uf10Base (J : List ℕ) : Expr :=
  2 * sumE (J.map fun j => 4 * .ipow (uf8Y j) 2 - .cos (8 * pi * uf8Y j) + 1) / num J.length

/-- UF10/problem.py:34-51. -/
def uf10 : List Expr :=
  [.cos (half 0) * .cos (half 1) + uf10Base (mod1 30), .cos (half 0) * .sin (half 1) + uf10Base (mod2 30),
   .sin (half 0) + uf10Base (mod3 30)]

/-- `fit`, ackley/problem.py:5-12. -/
def ackleyFit : Expr :=
  lit (-20) * .exp (lit (-2 / 10) * .sqrt (lit (1 / 2) * (.ipow (var 0) 2 + .ipow (var 1) 2))) -
    .exp (lit (1 / 2) * (.cos (2 * pi * var 0) + .cos (2 * pi * var 1))) + 20 + .e

/-- ackley/problem.py:18. -/
def ackley : List Expr := [ackleyFit, ackleyFit]

/-- EWA1/problem.py:6-16. -/
def ewa1 : List Expr :=
  [.sin (50 * var 0) * .cos (50 * var 1) + 1, .ipow (var 0 - lit (1 / 2)) 2 * .ipow (var 1 - lit (1 / 2)) 2]

/-- EWA2/problem.py:7-17. -/
def ewa2 : List Expr := [.sin (50 * var 0) * .cos (30 * var 1) + 1, .sin (30 * var 0) * .cos (50 * var 1) + 1]

/-- `fit_a` and `fit_b`, kursawe/problem.py:14-22, for three dimensions. -/
def kursawe : List Expr :=
  [sumE ([(0, 1), (1, 2)].map fun p : ℕ × ℕ =>
     lit (-10) * .exp (lit (-2 / 10) * .sqrt (.ipow (var p.1) 2 + .ipow (var p.2) 2))),
   sumE ([0, 1, 2].map fun i => .pow (.abs (var i)) (8 / 10) (round64 (8 / 10)) + 5 * .sin (.ipow (var i) 3))]

/-! ## UF11 and UF12: the variables are the results of `np.dot(M, x)`, lines 38-39 -/

/-- `z`, UF11/problem.py:38-39; `dot` is `np.dot` of a row and the vector, the numbers of the file are rounded when they are
read, line 30. -/
noncomputable def rotZ (dot : List ℝ → List ℝ → ℝ) (block : List (List ℤ)) (x : List ℝ) : List ℝ :=
  (rotM block).map fun row => dot (row.map fun q : ℚ => round64 (q : ℝ)) x

/-- `z_bis(z)[i]`, UF11/problem.py:42-46; a literal of the data file is rounded when it is read. -/
def zBis (i : ℕ) : Expr :=
  .ifLt (var i) 0 (.neg (lit (rotLambdas.getD i 0)) * var i) (.ifLt 1 (var i) (lit (rotLambdas.getD i 0) * var i) (var i))

/-- `p`, UF11/problem.py:57-58. -/
def rotP (a : Expr) : Expr := .ifLt a 0 (.neg a) (.ifLt 1 a (a - 1) 0)

/-- `S` with `psum`, UF11/problem.py:49-54. -/
def rotS (m : ℕ) : Expr :=
  2 / (1 + .exp (.neg (.sqrt (sumE ((List.range m).map fun i => .ipow (rotP (zBis i)) 2)))))

/-- `base_fit_cos`, UF11/problem.py:65-74. -/
def rotCos (m : ℕ) : Expr :=
  if 1 < m then prodE ((List.range m).map fun i => .cos (zBis i * pi / 2))
  else if m = 1 then .cos (zBis 0 * pi / 2)
  else 1

/-- `base_fit_up`, UF11/problem.py:77-80 and UF12:79-82. -/
def rotUp (g : Expr) (m : ℕ) : Expr := (1 + g) * rotCos (m - 1) * (if m < 5 then .sin (zBis (m - 1)) else 1) + 1

/-- `all_non_negative`, UF11/problem.py:87-91, with the choice of line 97. -/
def ifNonNegative (a b : Expr) : Expr := (List.range 30).foldr (fun i c => .ifLt (var i) 0 b c) a

/-- `g`, UF11/problem.py:61-62. -/
def uf11G : Expr := sumE ((List.range 30).map fun i => .ipow (zBis i - lit (1 / 2)) 2)

/-- `g`, UF12/problem.py:61-64. -/
def uf12G : Expr :=
  100 * (30 + sumE ((List.range 30).map fun i => .ipow (var i - lit (1 / 2)) 2 - .cos (20 * pi * (var i - lit (1 / 2)))))

/-- `base_fit`, UF11/problem.py:94-97 with 83-84, and UF12/problem.py:96-99 with 85-86. -/
def rotFit (g : Expr) (m : ℕ) : Expr := ifNonNegative (rotUp g m) (rotS (m - 1) * rotUp g m)

/-- UF11/problem.py:100-104. -/
def uf11 : List Expr := [1, 2, 3, 4, 5].map (rotFit uf11G)

/-- UF12/problem.py:102-106. -/
def uf12 : List Expr := [1, 2, 3, 4, 5].map (rotFit uf12G)

end Evogil.RoundedProblems
