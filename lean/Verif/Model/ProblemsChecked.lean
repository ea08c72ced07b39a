import Verif.Model.ProblemsData

/-!
# The objective functions of the benchmark problems with their exceptions

`Verif.Model.Problems` and `Verif.Model.ProblemsData` give the values of the objective functions;
there a list has a value at every index and every operation has a result. Here every operation of
`problems/*/problem.py` that can raise is checked, `none` means that it raises. As there,
numbers are real numbers. Sines and cosines never raise.
-/

namespace Evogil.Problems.Checked

/-- `x[i]`, for example UF1/problem.py:25. -/
def item (x : List ℝ) (i : ℕ) : Option ℝ := x[i]?

/-- `a / b`, for example UF1/problem.py:16-17. -/
noncomputable def div (a b : ℝ) : Option ℝ := if b = 0 then none else some (a / b)

/-- `math.sqrt(v)`, for example UF1/problem.py:29. -/
noncomputable def sqrt (v : ℝ) : Option ℝ := if v < 0 then none else some (Real.sqrt v)

/-- `math.exp(v)`, for example UF4/problem.py:21. It raises `OverflowError` from about 709.78 on. -/
noncomputable def exp (v : ℝ) : Option ℝ := if 709 < v then none else some (Real.exp v)

/-- `math.pow(b, e)`, for example UF3/problem.py:17, and `b ** e`, ZDT6/problem.py:56 and
kursawe/problem.py:22, for an `e` that is no whole number. (For a negative number `**` does not raise
but has a complex result, with which no driver can work.) -/
noncomputable def pow (b e : ℝ) : Option ℝ := if b < 0 ∨ (b = 0 ∧ e < 0) then none else some (b ^ e)

/-- `functools.reduce(operator.mul, l)`, UF3/problem.py:27-33. -/
noncomputable def reduceMul (l : List ℝ) : Option ℝ := if l = [] then none else some l.prod

/-- `emoa_fitness_2`, ZDT1/problem.py:11-13 (and the copies cited in `Problems.emoaFitness2`). -/
def emoaFitness2 (f1 : ℝ → Option ℝ) (g : List ℝ → Option ℝ) (h : ℝ → ℝ → Option ℝ) (x : List ℝ) :
    Option ℝ := do
  let y ← g x.tail
  let f ← f1 (← item x 0)
  return y * (← h f y)

/-- The list `fitnesses` of `emoa_fitnesses`, ZDT1/problem.py:24-33, and `emoa_fitnesses2`,
ZDT4/problem.py:39-48. -/
def emoaFitnesses (f1 : ℝ → Option ℝ) (g : List ℝ → Option ℝ) (h : ℝ → ℝ → Option ℝ) :
    List (List ℝ → Option ℝ) :=
  [fun x => do f1 (← item x 0), emoaFitness2 f1 g h]

/-- `ha`, ZDT1/problem.py:53-54, and `hd`, ZDT4/problem.py:62-63. -/
noncomputable def hSqrt (f1 g : ℝ) : Option ℝ := do
  let q ← div f1 g
  return 1 - (← sqrt |q|)

/-- `hb`, ZDT2/problem.py:52-53, and `he`, ZDT6/problem.py:59-60. -/
noncomputable def hSq (f1 g : ℝ) : Option ℝ := do
  let q ← div f1 g
  return 1 - q ^ 2

/-- `hc`, ZDT3/problem.py:54-56. -/
noncomputable def hSin (f1 g : ℝ) : Option ℝ := do
  let q ← div f1 g
  return 1 - (← sqrt |q|) - q * Real.sin (10 * Real.pi * f1)

/-- ZDT1/problem.py:45-62. -/
noncomputable def zdt1 : List (List ℝ → Option ℝ) :=
  emoaFitnesses some (fun xs => some (1 + 0.3103448275862069 * xs.sum)) hSqrt

/-- ZDT2/problem.py:44-61. -/
noncomputable def zdt2 : List (List ℝ → Option ℝ) :=
  emoaFitnesses some (fun xs => some (1 + 0.3103448275862069 * xs.sum)) hSq

/-- ZDT3/problem.py:46-56 and 81-83. -/
noncomputable def zdt3 : List (List ℝ → Option ℝ) :=
  emoaFitnesses some (fun xs => some (1 + 0.3103448275862069 * xs.sum)) hSin

/-- ZDT4/problem.py:51-68. -/
noncomputable def zdt4 : List (List ℝ → Option ℝ) :=
  emoaFitnesses some (fun xs => some (91 + (xs.map fun x => x ^ 2 - 10 * Real.cos (4 * Real.pi * x)).sum))
    hSqrt

/-- `f1e`, ZDT6/problem.py:51-52. -/
noncomputable def f1e (x : ℝ) : Option ℝ := do
  return 1 - (← exp (-4 * x)) * Real.sin (6 * Real.pi * x) ^ 6

/-- ZDT6/problem.py:55-69. -/
noncomputable def zdt6 : List (List ℝ → Option ℝ) :=
  emoaFitnesses f1e (fun xs => do return 1 + 5.19615 * (← pow xs.sum 0.25)) hSq

/-- `base_fit`, UF1/problem.py:14-21. -/
noncomputable def uf1Base (x : List ℝ) (J : List ℕ) : Option ℝ := do
  let c ← div 2 J.length
  let l ← J.mapM fun j => do
    return ((← item x (j - 1)) - Real.sin (6 * Real.pi * (← item x 0) + j * Real.pi / 30)) ^ 2
  return c * l.sum

/-- UF1/problem.py:24-33. -/
noncomputable def uf1 : List (List ℝ → Option ℝ) :=
  [fun x => do return (← item x 0) + (← uf1Base x (odds 30)),
   fun x => do return 1 - (← sqrt (← item x 0)) + (← uf1Base x (evens 30))]

/-- `base_fit`, UF2/problem.py:14-32. -/
noncomputable def uf2Base (x : List ℝ) (J : List ℕ) (trig : ℝ → ℝ) : Option ℝ := do
  let c ← div 2 J.length
  let l ← J.mapM fun j => do
    let xj ← item x (j - 1)
    let x0 ← item x 0
    return (xj - (0.3 * x0 ^ 2 * Real.cos (24 * Real.pi * x0 + 4 * j * Real.pi / 30) + 0.6 * x0) *
      trig (6 * Real.pi * x0 + j * Real.pi / 30)) ^ 2
  return c * l.sum

/-- UF2/problem.py:35-44. -/
noncomputable def uf2 : List (List ℝ → Option ℝ) :=
  [fun x => do return (← item x 0) + (← uf2Base x (odds 30) Real.cos),
   fun x => do return 1 - (← sqrt (← item x 0)) + (← uf2Base x (evens 30) Real.sin)]

/-- Lines 22-37 of UF3/problem.py and 28-43 of UF6/problem.py. -/
noncomputable def cosProd (J : List ℕ) (Y : List ℝ) : Option ℝ := do
  let cs ← (List.range J.length).mapM fun k => do
    let y ← item Y k
    let j ← J[k]?
    return Real.cos (← div (20 * y * Real.pi) (← sqrt j))
  div (2 * (4 * (Y.map fun y => y ^ 2).sum - 2 * (← reduceMul cs) + 2)) J.length

/-- `yj`, UF3/problem.py:16-17. -/
noncomputable def uf3Y (x : List ℝ) (j : ℕ) : Option ℝ := do
  let xj ← item x (j - 1)
  return xj - (← pow (← item x 0) (0.5 * (1.0 + (3 * ((j : ℝ) - 2)) / (30 - 2))))

/-- `base_fit`, UF3/problem.py:20-37. -/
noncomputable def uf3Base (x : List ℝ) (J : List ℕ) : Option ℝ := do
  cosProd J (← J.mapM (uf3Y x))

/-- UF3/problem.py:40-49. -/
noncomputable def uf3 : List (List ℝ → Option ℝ) :=
  [fun x => do return (← item x 0) + (← uf3Base x (odds 30)),
   fun x => do return 1 - (← sqrt (← item x 0)) + (← uf3Base x (evens 30))]

/-- `yj` of UF4/problem.py:16-17, UF5:13-14, UF6:22-23 and UF7:14-15. -/
noncomputable def ufY (n : ℕ) (x : List ℝ) (j : ℕ) : Option ℝ := do
  let xj ← item x (j - 1)
  let x0 ← item x 0
  return xj - Real.sin (6 * Real.pi * x0 + (← div (j * Real.pi) n))

/-- `h`, UF4/problem.py:20-21. -/
noncomputable def uf4H (t : ℝ) : Option ℝ := do
  div |t| (1 + (← exp (2 * |t|)))

/-- `base_fit`, UF4/problem.py:24-25. -/
noncomputable def uf4Base (x : List ℝ) (J : List ℕ) : Option ℝ := do
  let l ← J.mapM fun j => do uf4H (← ufY 30 x j)
  div (2 * l.sum) J.length

/-- UF4/problem.py:28-37. -/
noncomputable def uf4 : List (List ℝ → Option ℝ) :=
  [fun x => do return (← item x 0) + (← uf4Base x (odds 30)),
   fun x => do return 1 - (← item x 0) ^ 2 + (← uf4Base x (evens 30))]

/-- `base_fit`, UF5/problem.py:17-24. -/
noncomputable def uf5Base (x : List ℝ) (J : List ℕ) : Option ℝ := do
  let c ← div 1 (2 * 10)
  let x0 ← item x 0
  let l ← J.mapM (ufY 10 x)
  return (c + 0.1) * |Real.sin (2 * 10 * Real.pi * x0)| + (← div (2 * (l.map uf5H).sum) J.length)

/-- UF5/problem.py:27-36. -/
noncomputable def uf5 : List (List ℝ → Option ℝ) :=
  [fun x => do return (← item x 0) + (← uf5Base x (odds 10)),
   fun x => do return 1 - (← item x 0) + (← uf5Base x (evens 10))]

/-- `base_fit`, UF6/problem.py:26-49. -/
noncomputable def uf6Base (x : List ℝ) (J : List ℕ) : Option ℝ := do
  let c ← div 1 (2 * 30)
  let x0 ← item x 0
  return max 0 (2 * (c + 0.1) * Real.sin (2 * 30 * Real.pi * x0)) + (← cosProd J (← J.mapM (ufY 30 x)))

/-- UF6/problem.py:52-61. -/
noncomputable def uf6 : List (List ℝ → Option ℝ) :=
  [fun x => do return (← item x 0) + (← uf6Base x (odds 30)),
   fun x => do return 1 - (← item x 0) + (← uf6Base x (evens 30))]

/-- `base_fit`, UF7/problem.py:18-19. -/
noncomputable def uf7Base (x : List ℝ) (J : List ℕ) : Option ℝ := do
  let l ← J.mapM (ufY 30 x)
  div (2 * (l.map fun y => y ^ 2).sum) J.length

/-- UF7/problem.py:22-31. -/
noncomputable def uf7 : List (List ℝ → Option ℝ) :=
  [fun x => do return (← pow (← item x 0) 0.2) + (← uf7Base x (odds 30)),
   fun x => do return 1 - (← pow (← item x 0) 0.2) + (← uf7Base x (evens 30))]

/-- `yj`, UF10/problem.py:25-26, and the bracket in UF8:27 and UF9:27. -/
noncomputable def uf8Y (x : List ℝ) (j : ℕ) : Option ℝ := do
  let xj ← item x (j - 1)
  let x1 ← item x 1
  let x0 ← item x 0
  return xj - 2 * x1 * Real.sin (2 * Real.pi * x0 + (← div (j * Real.pi) 30))

/-- `base_fit`, UF8/problem.py:23-31 and UF9:23-31. -/
noncomputable def uf8Base (x : List ℝ) (J : List ℕ) : Option ℝ := do
  let l ← J.mapM (uf8Y x)
  div (2 * (l.map fun y => y ^ 2).sum) J.length

/-- UF8/problem.py:34-51. -/
noncomputable def uf8 : List (List ℝ → Option ℝ) :=
  [fun x => do
     return Real.cos (0.5 * (← item x 0) * Real.pi) * Real.cos (0.5 * (← item x 1) * Real.pi) +
       (← uf8Base x (mod1 30)),
   fun x => do
     return Real.cos (0.5 * (← item x 0) * Real.pi) * Real.sin (0.5 * (← item x 1) * Real.pi) +
       (← uf8Base x (mod2 30)),
   fun x => do return Real.sin (0.5 * (← item x 0) * Real.pi) + (← uf8Base x (mod3 30))]

/-- UF9/problem.py:34-51. -/
noncomputable def uf9 : List (List ℝ → Option ℝ) :=
  [fun x => do
     let x0 ← item x 0
     return 0.5 * (uf9Hump x0 + 2 * x0) * (← item x 1) + (← uf8Base x (mod1 30)),
   fun x => do
     let x0 ← item x 0
     return 0.5 * (uf9Hump x0 - 2 * x0 + 2) * (← item x 1) + (← uf8Base x (mod2 30)),
   fun x => do return 1 - (← item x 1) + (← uf8Base x (mod3 30))]

/-- `base_fit`, UF10/problem.py:29-31. -/
noncomputable def uf10Base (x : List ℝ) (J : List ℕ) : Option ℝ := do
  let l ← J.mapM (uf8Y x)
  div (2 * (l.map fun y => 4 * y ^ 2 - Real.cos (8 * Real.pi * y) + 1).sum) J.length

/-- UF10/problem.py:34-51. -/
noncomputable def uf10 : List (List ℝ → Option ℝ) :=
  [fun x => do
     return Real.cos (0.5 * (← item x 0) * Real.pi) * Real.cos (0.5 * (← item x 1) * Real.pi) +
       (← uf10Base x (mod1 30)),
   fun x => do
     return Real.cos (0.5 * (← item x 0) * Real.pi) * Real.sin (0.5 * (← item x 1) * Real.pi) +
       (← uf10Base x (mod2 30)),
   fun x => do return Real.sin (0.5 * (← item x 0) * Real.pi) + (← uf10Base x (mod3 30))]

/-- `fit`, ackley/problem.py:5-12. -/
noncomputable def ackleyFit (x : List ℝ) : Option ℝ := do
  let x0 ← item x 0
  let x1 ← item x 1
  let a ← exp (-0.2 * (← sqrt (0.5 * (x0 ^ 2 + x1 ^ 2))))
  let b ← exp (0.5 * (Real.cos (2.0 * Real.pi * x0) + Real.cos (2.0 * Real.pi * x1)))
  return -20 * a - b + 20 + Real.exp 1

/-- ackley/problem.py:18. -/
noncomputable def ackley : List (List ℝ → Option ℝ) := [ackleyFit, ackleyFit]

/-- EWA1/problem.py:6-16. -/
noncomputable def ewa1 : List (List ℝ → Option ℝ) :=
  [fun x => do return Real.sin (50 * (← item x 0)) * Real.cos (50 * (← item x 1)) + 1,
   fun x => do return ((← item x 0) - 0.5) ^ 2 * ((← item x 1) - 0.5) ^ 2]

/-- EWA2/problem.py:7-17. -/
noncomputable def ewa2 : List (List ℝ → Option ℝ) :=
  [fun x => do return Real.sin (50 * (← item x 0)) * Real.cos (30 * (← item x 1)) + 1,
   fun x => do return Real.sin (30 * (← item x 0)) * Real.cos (50 * (← item x 1)) + 1]

/-- kursawe/problem.py:14-22 and 26. -/
noncomputable def kursawe : List (List ℝ → Option ℝ) :=
  [fun xs => do
     let l ← (List.zip xs xs.tail).mapM fun p => do
       return -10.0 * (← exp (-0.2 * (← sqrt (p.1 ^ 2 + p.2 ^ 2))))
     return l.sum,
   fun xs => do
     let l ← xs.mapM fun x => do return (← pow |x| 0.8) + 5.0 * Real.sin (x ^ 3)
     return l.sum]

/-- `np.dot(M, x)`, UF11/problem.py:38-39; it raises unless the lengths agree. -/
def rotZ (M : List (List ℝ)) (x : List ℝ) : Option (List ℝ) :=
  if M.all (fun row => row.length == x.length) then some (Problems.rotZ M x) else none

/-- `z_bis`, UF11/problem.py:42-46. -/
noncomputable def rotZBis (lambdas z : List ℝ) : Option (List ℝ) :=
  (List.range z.length).mapM fun i => do
    let zi ← item z i
    if zi < 0 then return -(← item lambdas i) * zi
    else if 1 < zi then return (← item lambdas i) * zi
    else return zi

/-- `S` with `psum`, UF11/problem.py:49-54. -/
noncomputable def rotS (z : List ℝ) (m : ℕ) : Option ℝ := do
  let l ← (List.range m).mapM fun i => do return rotP (← item z i) ^ 2
  let e ← exp (-(← sqrt l.sum))
  div 2 (1 + e)

/-- `base_fit_cos`, UF11/problem.py:65-74. -/
noncomputable def rotCos (zb : List ℝ) (m : ℕ) : Option ℝ :=
  if 1 < m then do
    reduceMul (← (List.range m).mapM fun i => do return Real.cos ((← item zb i) * Real.pi / 2.0))
  else if m = 1 then do return Real.cos ((← item zb 0) * Real.pi / 2.0)
  else return 1

/-- `base_fit_up`, UF11/problem.py:77-80 and UF12:79-82. -/
noncomputable def rotUp (g : ℝ) (zb : List ℝ) (m : ℕ) : Option ℝ := do
  let c ← rotCos zb (m - 1)
  let s ← (if m < 5 then (item zb (m - 1)).map Real.sin else some 1)
  return (1 + g) * c * s + 1

/-- `base_fit`, UF11/problem.py:94-97 with 83-84. -/
noncomputable def uf11Fit (lambdas : List ℝ) (M : List (List ℝ)) (m : ℕ) (x : List ℝ) : Option ℝ := do
  let z ← rotZ M x
  let zb ← rotZBis lambdas z
  if z.all fun zi => decide (0 ≤ zi) then rotUp (uf11G zb) zb m
  else return (← rotS zb (m - 1)) * (← rotUp (uf11G zb) zb m)

/-- `base_fit`, UF12/problem.py:96-99 with 85-86. -/
noncomputable def uf12Fit (lambdas : List ℝ) (M : List (List ℝ)) (m : ℕ) (x : List ℝ) : Option ℝ := do
  let z ← rotZ M x
  let zb ← rotZBis lambdas z
  if z.all fun zi => decide (0 ≤ zi) then rotUp (uf12G z) zb m
  else return (← rotS zb (m - 1)) * (← rotUp (uf12G z) zb m)

/-- UF11/problem.py:100-104. -/
noncomputable def uf11 : List (List ℝ → Option ℝ) :=
  [1, 2, 3, 4, 5].map fun m => uf11Fit (toReals rotLambdas) ((rotM uf11Block).map toReals) m

/-- UF12/problem.py:102-106. -/
noncomputable def uf12 : List (List ℝ → Option ℝ) :=
  [1, 2, 3, 4, 5].map fun m => uf12Fit (toReals rotLambdas) ((rotM uf12Block).map toReals) m

/-- All problems of /repo/problems, with the checked versions of their objective functions; `t11`,
`t12` and `tk` are the tables read at UF11/problem.py:32, UF12/problem.py:32 and
kursawe/problem.py:10. -/
noncomputable def catalogue (t11 t12 tk : List (List ℝ)) :
    List (List (List ℝ → Option ℝ) × Problem) :=
  [(zdt1, Problems.zdt1), (zdt2, Problems.zdt2), (zdt3, Problems.zdt3), (zdt4, Problems.zdt4),
   (zdt6, Problems.zdt6), (uf1, Problems.uf1), (uf2, Problems.uf2), (uf3, Problems.uf3),
   (uf4, Problems.uf4), (uf5, Problems.uf5), (uf6, Problems.uf6), (uf7, Problems.uf7),
   (uf8, Problems.uf8), (uf9, Problems.uf9), (uf10, Problems.uf10), (uf11, Problems.uf11 t11),
   (uf12, Problems.uf12 t12), (kursawe, Problems.kursawe tk), (ackley, Problems.ackley),
   (ewa1, Problems.ewa1), (ewa2, Problems.ewa2)]

end Evogil.Problems.Checked
