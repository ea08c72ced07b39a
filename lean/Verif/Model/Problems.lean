import Verif.Model.Dominance
import Mathlib.Analysis.SpecialFunctions.Pow.Real
import Mathlib.Analysis.SpecialFunctions.Trigonometric.Basic

/-!
# Model of the benchmark problems with an analytic reference front

`problems/{ZDT1,ZDT2,ZDT3,ZDT4,ZDT6,UF1,...,UF10,ackley,EWA1,EWA2}/problem.py`.

Simplified: floating-point numbers are real numbers and the functions of `math` are the exact ones,
so the theorems are about the formulas, not about rounding. `x[i]` is `x.getD i 0`; every decision
vector of the box is long enough, so the default is never used for them (C108). `UF11`, `UF12` and
`kursawe` are in `Verif.Model.ProblemsData`.
-/

namespace Evogil.Problems

/-- What the simulation takes from a problem module: `fitnesses`, `dims` and `pareto_front`
(e.g. problems/UF1/problem.py:7, 33-34). -/
structure Problem where
  fits : List (List ℝ → ℝ)
  dims : List (ℝ × ℝ)
  front : List (List ℝ)

/-- `[i / (p_no - 1) for i in range(p_no)]`, e.g. ZDT1/problem.py:5. -/
noncomputable def emoaPoints (pNo : ℕ) : List ℝ :=
  (List.range pNo).map fun (i : ℕ) => (i : ℝ) / ((pNo : ℝ) - 1)

/-- `emoa_fitness_2`, the same in ZDT1/problem.py:11-13, ZDT2:10-12, ZDT3:12-14, ZDT4:14-16 and
ZDT6:14-16. -/
def emoaFitness2 (f1 : ℝ → ℝ) (g : List ℝ → ℝ) (h : ℝ → ℝ → ℝ) (x : List ℝ) : ℝ :=
  let y := g x.tail
  y * h (f1 (x.getD 0 0)) y

/-- `emoa_fitnesses`, the same in ZDT1/problem.py:24-33, ZDT2:23-32, ZDT3:25-34 and ZDT6:27-36; with
`subfit1` and `subfit2` (ZDT1:16-21) bound by `functools.partial`. The front is given as the two lists
`known_front` and zipped by the last line of each module (e.g. ZDT1:64). -/
def emoaFitnesses (f1 : ℝ → ℝ) (g : List ℝ → ℝ) (h : ℝ → ℝ → ℝ) (dimensions : ℕ)
    (known : List ℝ × List ℝ) : Problem where
  fits := [fun x => f1 (x.getD 0 0), emoaFitness2 f1 g h]
  dims := (List.range dimensions).map fun _ => (0, 1)
  front := List.zipWith (fun x y => [x, y]) known.1 known.2

/-- `emoa_fitnesses2`, ZDT4/problem.py:39-48 (the copies in the other modules are not used). -/
def emoaFitnesses2 (f1 : ℝ → ℝ) (g : List ℝ → ℝ) (h : ℝ → ℝ → ℝ) (dimensions : ℕ)
    (known : List ℝ × List ℝ) : Problem where
  fits := [fun x => f1 (x.getD 0 0), emoaFitness2 f1 g h]
  dims := [(0, 1)] ++ (List.range (dimensions - 1)).map fun _ => (-5, 5)
  front := List.zipWith (fun x y => [x, y]) known.1 known.2

/-- ZDT1/problem.py:45-64. -/
noncomputable def zdt1 : Problem :=
  emoaFitnesses (fun x => x) (fun xs => 1 + 0.3103448275862069 * xs.sum)
    (fun f1 g => 1 - Real.sqrt |f1 / g|) 30
    ((emoaPoints 150).map fun x => x, (emoaPoints 150).map fun x => 1 - Real.sqrt x)

/-- ZDT2/problem.py:44-63. -/
noncomputable def zdt2 : Problem :=
  emoaFitnesses (fun x => x) (fun xs => 1 + 0.3103448275862069 * xs.sum)
    (fun f1 g => 1 - (f1 / g) ^ 2) 30
    ((emoaPoints 150).map fun x => x, (emoaPoints 150).map fun x => 1 - x * x)

/-- The curve of ZDT3/problem.py:74. -/
noncomputable def zdt3Curve (x : ℝ) : ℝ := 1 - Real.sqrt x - x * Real.sin (10 * Real.pi * x)

/-- `to_remove[i]`, ZDT3/problem.py:76. -/
noncomputable def zdt3Remove (c : List ℝ) (i : ℕ) : Bool :=
  decide (0 < i) && decide (c.getD i 0 ≥ c.getD (i - 1) 0)

/-- `[c[i] for i in range(len(c_pre[1])) if not to_remove[i]]`, ZDT3/problem.py:78-79. -/
noncomputable def zdt3Keep (c1 c : List ℝ) : List ℝ :=
  ((List.range c1.length).filter fun i => !zdt3Remove c1 i).map fun i => c.getD i 0

/-- `is_non_dominated`, ZDT3/problem.py:59-63. -/
noncomputable def isNonDominated (y : List ℝ) (front : List (List ℝ)) : Bool :=
  front.all fun y1 => !dominates y1 y

/-- `trim_dominated`, ZDT3/problem.py:66-67. -/
noncomputable def trimDominated (front : List (List ℝ)) : List (List ℝ) :=
  front.filter fun y => isNonDominated y front

/-- `emoa_c_analytical`, ZDT3/problem.py:72-80. -/
noncomputable def zdt3Known : List ℝ × List ℝ :=
  (zdt3Keep ((emoaPoints 300).map zdt3Curve) (emoaPoints 300),
   zdt3Keep ((emoaPoints 300).map zdt3Curve) ((emoaPoints 300).map zdt3Curve))

/-- ZDT3/problem.py:46-56 and 81-87. -/
noncomputable def zdt3 : Problem :=
  let p := emoaFitnesses (fun x => x) (fun xs => 1 + 0.3103448275862069 * xs.sum)
    (fun f1 g => 1 - Real.sqrt |f1 / g| - f1 / g * Real.sin (10 * Real.pi * f1)) 30 zdt3Known
  { p with front := trimDominated p.front }

/-- ZDT4/problem.py:51-70. -/
noncomputable def zdt4 : Problem :=
  emoaFitnesses2 (fun x => x)
    (fun xs => 91 + (xs.map fun x => x ^ 2 - 10 * Real.cos (4 * Real.pi * x)).sum)
    (fun f1 g => 1 - Real.sqrt |f1 / g|) 10
    ((emoaPoints 150).map fun x => x, (emoaPoints 150).map fun x => 1 - Real.sqrt x)

/-- `f1e`, ZDT6/problem.py:51-52. -/
noncomputable def f1e (x : ℝ) : ℝ :=
  1 - Real.exp (-4 * x) * Real.sin (6 * Real.pi * x) ^ 6

/-- ZDT6/problem.py:55-70. -/
noncomputable def zdt6 : Problem :=
  emoaFitnesses f1e (fun xs => 1 + 5.19615 * xs.sum ^ (0.25 : ℝ)) (fun f1 g => 1 - (f1 / g) ^ 2) 10
    ((emoaPoints 150).map f1e, (emoaPoints 150).map fun x => 1 - f1e x * f1e x)

/-- `J1`, e.g. UF1/problem.py:10. -/
def odds (n : ℕ) : List ℕ := (List.range' 2 (n - 1)).filter fun j => j % 2 != 0

/-- `J2`, e.g. UF1/problem.py:11. -/
def evens (n : ℕ) : List ℕ := (List.range' 2 (n - 1)).filter fun j => j % 2 == 0

/-- `base_fit`, UF1/problem.py:14-21. -/
noncomputable def uf1Base (x : List ℝ) (J : List ℕ) : ℝ :=
  2 / (J.length : ℝ) * (J.map fun j =>
    (x.getD (j - 1) 0 - Real.sin (6 * Real.pi * x.getD 0 0 + j * Real.pi / 30)) ^ 2).sum

/-- UF1/problem.py:7 and 24-34. -/
noncomputable def uf1 : Problem where
  fits := [fun x => x.getD 0 0 + uf1Base x (odds 30),
    fun x => 1 - Real.sqrt (x.getD 0 0) + uf1Base x (evens 30)]
  dims := [(0, 1)] ++ List.replicate (30 - 1) (-1, 1)
  front := (emoaPoints 150).map fun f1 => [f1, 1 - Real.sqrt f1]

/-- `base_fit`, UF2/problem.py:14-32. -/
noncomputable def uf2Base (x : List ℝ) (J : List ℕ) (trig : ℝ → ℝ) : ℝ :=
  2 / (J.length : ℝ) * (J.map fun j =>
    (x.getD (j - 1) 0 - (0.3 * x.getD 0 0 ^ 2 *
        Real.cos (24 * Real.pi * x.getD 0 0 + 4 * j * Real.pi / 30) + 0.6 * x.getD 0 0) *
      trig (6 * Real.pi * x.getD 0 0 + j * Real.pi / 30)) ^ 2).sum

/-- UF2/problem.py:7 and 35-45. -/
noncomputable def uf2 : Problem where
  fits := [fun x => x.getD 0 0 + uf2Base x (odds 30) Real.cos,
    fun x => 1 - Real.sqrt (x.getD 0 0) + uf2Base x (evens 30) Real.sin]
  dims := [(0, 1)] ++ List.replicate (30 - 1) (-1, 1)
  front := (emoaPoints 150).map fun f1 => [f1, 1 - Real.sqrt f1]

/-- The expression shared by `base_fit`, UF3/problem.py:22-37, and `inner_base_fit`,
UF6/problem.py:28-43. `functools.reduce(operator.mul, ...)` is `List.prod`: `J` is not empty. -/
noncomputable def cosProd (J : List ℕ) (Y : List ℝ) : ℝ :=
  2 * (4 * (Y.map fun y => y ^ 2).sum - 2 * ((List.range J.length).map fun j =>
    Real.cos (20 * Y.getD j 0 * Real.pi / Real.sqrt (J.getD j 0 : ℕ))).prod + 2) / (J.length : ℝ)

/-- `yj`, UF3/problem.py:16-17. -/
noncomputable def uf3Y (x : List ℝ) (j : ℕ) : ℝ :=
  x.getD (j - 1) 0 - x.getD 0 0 ^ (0.5 * (1.0 + (3 * ((j : ℝ) - 2)) / (30 - 2)) : ℝ)

/-- UF3/problem.py:9, 20-21 and 40-50. -/
noncomputable def uf3 : Problem where
  fits := [fun x => x.getD 0 0 + cosProd (odds 30) ((odds 30).map (uf3Y x)),
    fun x => 1 - Real.sqrt (x.getD 0 0) + cosProd (evens 30) ((evens 30).map (uf3Y x))]
  dims := List.replicate 30 (0, 1)
  front := (emoaPoints 150).map fun f1 => [f1, 1 - Real.sqrt f1]

/-- `yj` of UF4/problem.py:16-17, UF5:13-14, UF6:22-23 and UF7:14-15. -/
noncomputable def ufY (n : ℕ) (x : List ℝ) (j : ℕ) : ℝ :=
  x.getD (j - 1) 0 - Real.sin (6 * Real.pi * x.getD 0 0 + j * Real.pi / n)

/-- `h`, UF4/problem.py:20-21. -/
noncomputable def uf4H (t : ℝ) : ℝ := |t| / (1 + Real.exp (2 * |t|))

/-- `base_fit`, UF4/problem.py:24-25. -/
noncomputable def uf4Base (x : List ℝ) (J : List ℕ) : ℝ :=
  2 * (J.map fun j => uf4H (ufY 30 x j)).sum / (J.length : ℝ)

/-- UF4/problem.py:9 and 28-38. -/
noncomputable def uf4 : Problem where
  fits := [fun x => x.getD 0 0 + uf4Base x (odds 30),
    fun x => 1 - x.getD 0 0 ^ 2 + uf4Base x (evens 30)]
  dims := [(0, 1)] ++ List.replicate (30 - 1) (-2, 2)
  front := (emoaPoints 150).map fun f1 => [f1, 1 - f1 ^ 2]

/-- `h`, UF5/problem.py:17-18. -/
noncomputable def uf5H (t : ℝ) : ℝ := 2 * t ^ 2 - Real.cos (4 * Real.pi * t) + 1

/-- `base_fit`, UF5/problem.py:21-24. -/
noncomputable def uf5Base (x : List ℝ) (J : List ℕ) : ℝ :=
  (1 / (2 * 10) + 0.1) * |Real.sin (2 * 10 * Real.pi * x.getD 0 0)| +
    2 * (J.map fun j => uf5H (ufY 10 x j)).sum / (J.length : ℝ)

/-- UF5/problem.py:6 and 27-37. -/
noncomputable def uf5 : Problem where
  fits := [fun x => x.getD 0 0 + uf5Base x (odds 10),
    fun x => 1 - x.getD 0 0 + uf5Base x (evens 10)]
  dims := [(0, 1)] ++ List.replicate (10 - 1) (-1, 1)
  front := (List.range (2 * 10 + 1)).map fun (i : ℕ) => [(i : ℝ) / (2 * 10), 1 - (i : ℝ) / (2 * 10)]

/-- `numpy.arange(start, stop, step)`, called in UF6/problem.py:13: `ceil((stop - start) / step)`
values, the `k`-th is `start + k * step`. -/
noncomputable def arange (start stop step : ℝ) : List ℝ :=
  (List.range ⌈(stop - start) / step⌉₊).map fun (k : ℕ) => start + (k : ℝ) * step

/-- `p_step`, UF6/problem.py:8. -/
noncomputable def uf6Step : ℝ := (1 - 1 / (2 * 30)) / 150

/-- `emoa_points`, UF6/problem.py:10-14. -/
noncomputable def uf6Points : List ℝ :=
  (List.range' 1 30).flatMap fun (i : ℕ) =>
    arange ((2 * (i : ℝ) - 1) / (2 * 30)) (2 * (i : ℝ) / (2 * 30) + uf6Step) uf6Step

/-- `base_fit`, UF6/problem.py:46-49. -/
noncomputable def uf6Base (x : List ℝ) (J : List ℕ) : ℝ :=
  max 0 (2 * (1 / (2 * 30) + 0.1) * Real.sin (2 * 30 * Real.pi * x.getD 0 0)) +
    cosProd J (J.map (ufY 30 x))

/-- UF6/problem.py:15 and 52-62. -/
noncomputable def uf6 : Problem where
  fits := [fun x => x.getD 0 0 + uf6Base x (odds 30),
    fun x => 1 - x.getD 0 0 + uf6Base x (evens 30)]
  dims := [(0, 1)] ++ List.replicate (30 - 1) (-1, 1)
  front := [[0, 1]] ++ uf6Points.map fun x => [x, 1 - x]

/-- `base_fit`, UF7/problem.py:18-19. -/
noncomputable def uf7Base (x : List ℝ) (J : List ℕ) : ℝ :=
  2 * (J.map fun j => ufY 30 x j ^ 2).sum / (J.length : ℝ)

/-- UF7/problem.py:7 and 22-32. -/
noncomputable def uf7 : Problem where
  fits := [fun x => x.getD 0 0 ^ (0.2 : ℝ) + uf7Base x (odds 30),
    fun x => 1 - x.getD 0 0 ^ (0.2 : ℝ) + uf7Base x (evens 30)]
  dims := [(0, 1)] ++ List.replicate (30 - 1) (-1, 1)
  front := (emoaPoints 150).map fun f1 => [f1, 1 - f1]

/-- `itertools.product(xs, ys)`, called in UF8/problem.py:13 (the second factor varies fastest). -/
def product (xs ys : List ℝ) : List (ℝ × ℝ) := xs.flatMap fun x => ys.map fun y => (x, y)

/-- `J1`, UF8/problem.py:18 (the same in UF9:18 and UF10:20). -/
def mod1 (n : ℕ) : List ℕ := (List.range' 3 (n - 2)).filter fun j => (j - 1) % 3 != 0

/-- `J2`, UF8/problem.py:19. -/
def mod2 (n : ℕ) : List ℕ := (List.range' 3 (n - 2)).filter fun j => (j - 2) % 3 != 0

/-- `J3`, UF8/problem.py:20. -/
def mod3 (n : ℕ) : List ℕ := (List.range' 3 (n - 2)).filter fun j => j % 3 != 0

/-- `yj`, UF10/problem.py:25-26, and the bracket in UF8:27 and UF9:27. -/
noncomputable def uf8Y (x : List ℝ) (j : ℕ) : ℝ :=
  x.getD (j - 1) 0 - 2 * x.getD 1 0 * Real.sin (2 * Real.pi * x.getD 0 0 + j * Real.pi / 30)

/-- `base_fit`, UF8/problem.py:23-31 and UF9:23-31. -/
noncomputable def uf8Base (x : List ℝ) (J : List ℕ) : ℝ :=
  2 * (J.map fun j => uf8Y x j ^ 2).sum / (J.length : ℝ)

/-- `pareto_front`, UF8/problem.py:7-15 and UF10:8-16; `int(math.sqrt(150))` is 12. -/
noncomputable def uf8Front : List (List ℝ) :=
  ((product (emoaPoints 12) (emoaPoints 12)).filter fun p => decide (p.1 ^ 2 + p.2 ^ 2 ≤ 1)).map
    fun p => [p.1, p.2, (-p.1 ^ 2 - p.2 ^ 2 + 1) ^ ((1 : ℝ) / 3)]

/-- UF8/problem.py:34-52. -/
noncomputable def uf8 : Problem where
  fits := [
    fun x => Real.cos (0.5 * x.getD 0 0 * Real.pi) * Real.cos (0.5 * x.getD 1 0 * Real.pi) +
      uf8Base x (mod1 30),
    fun x => Real.cos (0.5 * x.getD 0 0 * Real.pi) * Real.sin (0.5 * x.getD 1 0 * Real.pi) +
      uf8Base x (mod2 30),
    fun x => Real.sin (0.5 * x.getD 0 0 * Real.pi) + uf8Base x (mod3 30)]
  dims := List.replicate 2 (0, 1) ++ List.replicate (30 - 2) (-2, 2)
  front := uf8Front

/-- The hump `max(0, (1 + eps) * (1 - 4 * (2 * x[0] - 1) ** 2))`, UF9/problem.py:35 and 41. -/
noncomputable def uf9Hump (x0 : ℝ) : ℝ := max 0 ((1 + 0.1) * (1 - 4 * (2 * x0 - 1) ^ 2))

/-- UF9/problem.py:8-16 and 34-52. -/
noncomputable def uf9 : Problem where
  fits := [
    fun x => 0.5 * (uf9Hump (x.getD 0 0) + 2 * x.getD 0 0) * x.getD 1 0 + uf8Base x (mod1 30),
    fun x => 0.5 * (uf9Hump (x.getD 0 0) - 2 * x.getD 0 0 + 2) * x.getD 1 0 + uf8Base x (mod2 30),
    fun x => 1 - x.getD 1 0 + uf8Base x (mod3 30)]
  dims := List.replicate 2 (0, 1) ++ List.replicate (30 - 2) (-2, 2)
  front := ((product (emoaPoints 12) (emoaPoints 12)).filter fun p =>
    decide (p.1 ≤ 0.25 * (1 - p.2) ∨ p.1 ≥ 0.75 * (1 - p.2))).map
      fun p => [p.1, 1 - p.1 - p.2, p.2]

/-- `base_fit`, UF10/problem.py:29-31. -/
noncomputable def uf10Base (x : List ℝ) (J : List ℕ) : ℝ :=
  2 * (J.map fun j => 4 * uf8Y x j ^ 2 - Real.cos (8 * Real.pi * uf8Y x j) + 1).sum / (J.length : ℝ)

/-- UF10/problem.py:34-52. -/
noncomputable def uf10 : Problem where
  fits := [
    fun x => Real.cos (0.5 * x.getD 0 0 * Real.pi) * Real.cos (0.5 * x.getD 1 0 * Real.pi) +
      uf10Base x (mod1 30),
    fun x => Real.cos (0.5 * x.getD 0 0 * Real.pi) * Real.sin (0.5 * x.getD 1 0 * Real.pi) +
      uf10Base x (mod2 30),
    fun x => Real.sin (0.5 * x.getD 0 0 * Real.pi) + uf10Base x (mod3 30)]
  dims := List.replicate 2 (0, 1) ++ List.replicate (30 - 2) (-2, 2)
  front := uf8Front

/-- `fit`, ackley/problem.py:5-12. -/
noncomputable def ackleyFit (x : List ℝ) : ℝ :=
  -20 * Real.exp (-0.2 * Real.sqrt (0.5 * (x.getD 0 0 ^ 2 + x.getD 1 0 ^ 2))) -
    Real.exp (0.5 * (Real.cos (2.0 * Real.pi * x.getD 0 0) + Real.cos (2.0 * Real.pi * x.getD 1 0))) +
    20 + Real.exp 1

/-- ackley/problem.py:15-19. -/
noncomputable def ackley : Problem where
  fits := [ackleyFit, ackleyFit]
  dims := [(-1.5, 1.5), (-1.5, 1.5)]
  front := [[0, 0]]

/-- EWA1/problem.py:3-18. -/
noncomputable def ewa1 : Problem where
  fits := [fun x => Real.sin (50 * x.getD 0 0) * Real.cos (50 * x.getD 1 0) + 1,
    fun x => (x.getD 0 0 - 0.5) ^ 2 * (x.getD 1 0 - 0.5) ^ 2]
  dims := [(0, 1), (0, 1)]
  front := [[0, 0]]

/-- EWA2/problem.py:3-19. -/
noncomputable def ewa2 : Problem where
  fits := [fun x => Real.sin (50 * x.getD 0 0) * Real.cos (30 * x.getD 1 0) + 1,
    fun x => Real.sin (30 * x.getD 0 0) * Real.cos (50 * x.getD 1 0) + 1]
  dims := [(0, 1), (0, 1)]
  front := [[0, 0]]

end Evogil.Problems
