import Verif.Model.Problems

/-!
# Model of the benchmark problems that read their data from files

`problems/{UF11,UF12,kursawe}/problem.py`. The simplifications are those of `Verif.Model.Problems`. The
contents of the small files (rotation, scaling, bounds) are part of the model; the tabulated reference
fronts (`R2_DTLZ2_M5.dat` and `R3_DTLZ3_M5.dat` with 5000 rows each, `kursawe.dat`) are parameters.
-/

namespace Evogil.Problems

/-- The left upper 15 x 15 block of `problems/UF11/R2_DTLZ2_M_30D.dat:1-15`, times 10000. -/
def uf11Block : List (List ℤ) := [
    [128, 2165, 4374, -800, 886, -2015, 1071, 2886, 2354, 2785, -1748, 2147, 1649, -3043, 5316],
    [4813, 2420, -3663, -420, -88, -4945, -3073, 1990, 441, -627, 191, 3880, -618, -319, -1833],
    [4816, -2254, 663, 4801, 2009, -8, -1501, 269, -2037, 4334, -2157, -3175, -923, 1451, 1118],
    [-876, -2667, -63, 2114, 4506, 823, -125, 2313, 840, -2376, 1938, -30, 3391, 863, 1231],
    [-1025, 4011, -117, 2076, 2585, 1124, -288, 3095, -6146, -2376, 1938, -30, 3391, 863, 1231],
    [4543, -2761, -2985, -2837, 634, 1070, 2996, -2690, -1634, -1452, 1799, -14, 2394, -2745, 3969],
    [-1422, -4364, 751, -2235, 3966, -252, 908, 477, -2254, 1801, -552, 5770, -396, 3765, -522],
    [3542, -2245, 3497, -1609, -1107, 79, 2241, 4517, 1309, -3355, -1123, -1831, 3000, 2045, -3191],
    [5, 377, -2808, -641, 1316, 2191, 207, 3308, 4117, 3839, 5775, -1219, 1192, 2435, 414],
    [-1177, -1, -1992, -4533, 4234, -191, -3740, 1325, 972, -2042, -3493, -4018, -1087, 918, 2217],
    [1818, 3022, -1388, -2380, -773, 6463, 450, 1030, -958, 2837, -3969, 1779, -251, -1543, -2452],
    [-1889, -4397, -2206, 981, -5203, 1325, -3427, 4242, -1271, -291, -795, 1213, 565, -1092, 2720],
    [-1808, -624, -2689, 2289, 1128, -844, -549, -2202, 2450, 825, -3319, 513, 7523, 43, -1472],
    [-983, 611, -4145, 3017, 410, -703, 6250, 2449, 1307, -1714, -3045, 218, -2837, 1408, 1633],
    [2026, 324, 1496, 3129, 1437, 4331, -2629, -1498, 3746, -4366, 163, 3316, -697, 1833, 2412]]

/-- The left upper 15 x 15 block of `problems/UF12/R2_DTLZ3_M_30D.dat:1-15`, times 10000. -/
def uf12Block : List (List ℤ) := [
    [-1565, -2418, 5427, -2191, 2522, -563, 1991, 1166, 2140, -973, -755, 4073, 4279, -1876, -968],
    [1477, -2396, -22, 4180, 2675, -1365, -729, 4761, -685, 2105, 1388, 1465, -256, 292, 5767],
    [322, 3727, -467, 1651, -672, 638, -1168, 4055, 6714, -1948, -1451, 1734, -2788, -769, -1433],
    [-3688, 1935, 3691, 4298, 2340, 2593, -3081, -2013, -2779, -932, 3, 149, -2303, -3261, -517],
    [580, -609, 4, -1831, 3, 4742, -2530, -750, 839, 1606, 6020, 4103, -857, 2954, -819],
    [-2145, -56, -251, 2288, -4870, -5486, 1253, -1512, -390, 722, 3074, 4160, -1304, -1610, -848],
    [2557, -1087, 679, -3120, 3567, -4644, -3535, 1060, -2158, -1330, -154, 911, -4154, 356, -3085],
    [2303, 4996, 1883, 1870, 1850, -216, 4409, -573, -2396, 1471, -1540, 2731, -398, 4505, -1131],
    [-1576, -23, 2588, 2105, 2250, -2978, 175, -1157, 3717, 562, 4068, -5081, 718, 3443, -1488],
    [1047, -568, -2771, 3803, 46, 188, -1500, 2053, -2290, -4582, 1191, 639, 4946, 1121, -4018],
    [3943, -374, 3004, 1472, -2988, 443, -2483, 1350, -160, 5834, -1095, -1398, 1711, -1867, -3518],
    [1244, -6134, 1823, 3012, -1968, 1616, 1025, -1972, 1162, -2079, -3062, 585, -3286, 3187, -812],
    [1832, -1559, -4327, 2059, 4677, 317, 2233, -3589, 2393, 2468, 148, 1193, -279, -3600, -2261],
    [5027, 1935, 1571, 503, -503, -1443, -3080, -4939, 1847, -2762, 42, 960, 2239, -579, 3840],
    [3948, -2, 2172, -293, -835, 1614, 4559, 1626, -1155, -3087, 4331, -2223, -2213, -3658, -188]]

/-- `M`, UF11/problem.py:30 and UF12/problem.py:30: the rest of both files is that of the unit matrix. -/
def rotM (block : List (List ℤ)) : List (List ℚ) :=
  (block.map fun r => r.map (fun v : ℤ => (v : ℚ) / 10000) ++ List.replicate 15 0) ++
    (List.range 15).map fun i => (List.range 30).map fun j => if j = 15 + i then 1 else 0

/-- `lambdas`, UF11/problem.py:29; `R2_DTLZ2_lamda_30D.dat:1` and `R2_DTLZ3_lamda_30D.dat:1` agree. -/
def rotLambdas : List ℚ :=
  ([113, 105, 117, 119, 108, 110, 101, 107, 111, 109, 120, 108, 101, 105, 116].map
    fun v : ℤ => (v : ℚ) / 1000) ++ List.replicate 15 1

/-- `dims`, UF11/problem.py:106-111; `R2_DTLZ2_bound_30D.dat:1-2` and `R2_DTLZ3_bound_30D.dat:1-2` agree. -/
def rotDims : List (ℚ × ℚ) :=
  (List.zip
    [-1773, -1846, -1053, -2370, -1603, -1878, -1677, -935, -1891, -964, -885, -1690, -2235, -1541, -720]
    [1403, 1562, 2009, 976, 1490, 1334, 1074, 2354, 1462, 2372, 2267, 1309, 842, 1665, 2476]).map
    (fun b : ℤ × ℤ => ((b.1 : ℚ) / 1000, (b.2 : ℚ) / 1000)) ++ List.replicate 15 (0, 1)

/-- `z`, UF11/problem.py:38-39. -/
def rotZ {K : Type*} [Semiring K] (M : List (List K)) (x : List K) : List K :=
  M.map fun row => (List.zipWith (fun a b => a * b) row x).sum

/-- `z_bis`, UF11/problem.py:42-46. -/
def rotZBis {K : Type*} [Ring K] [LinearOrder K] (lambdas z : List K) : List K :=
  (List.range z.length).map fun i =>
    if z.getD i 0 < 0 then -lambdas.getD i 0 * z.getD i 0
    else if 1 < z.getD i 0 then lambdas.getD i 0 * z.getD i 0
    else z.getD i 0

/-- `p`, UF11/problem.py:57-58. -/
noncomputable def rotP (zi : ℝ) : ℝ := if zi < 0 then -zi else if 1 < zi then zi - 1 else 0

/-- `psum`, UF11/problem.py:49-50. -/
noncomputable def rotPsum (z : List ℝ) (m : ℕ) : ℝ :=
  Real.sqrt ((List.range m).map fun i => rotP (z.getD i 0) ^ 2).sum

/-- `S`, UF11/problem.py:53-54. -/
noncomputable def rotS (z : List ℝ) (m : ℕ) : ℝ := 2 / (1 + Real.exp (-rotPsum z m))

/-- `base_fit_cos`, UF11/problem.py:65-74 and UF12:67-76. -/
noncomputable def rotCos (zb : List ℝ) (m : ℕ) : ℝ :=
  if 1 < m then ((List.range m).map fun i => Real.cos (zb.getD i 0 * Real.pi / 2.0)).prod
  else if m = 1 then Real.cos (zb.getD 0 0 * Real.pi / 2.0)
  else 1

/-- The last factor of `base_fit_up`, UF11/problem.py:79 and UF12:81. -/
noncomputable def rotSin (zb : List ℝ) (m : ℕ) : ℝ :=
  if m < 5 then Real.sin (zb.getD (m - 1) 0) else 1

/-- `g`, UF11/problem.py:61-62. -/
noncomputable def uf11G (zb : List ℝ) : ℝ := (zb.map fun zi => (zi - 0.5) ^ 2).sum

/-- `g`, UF12/problem.py:61-64. -/
noncomputable def uf12G (z : List ℝ) : ℝ :=
  100 * ((z.length : ℝ) + (z.map fun zi =>
    (zi - 0.5) ^ 2 - Real.cos (20 * Real.pi * (zi - 0.5))).sum)

/-- `base_fit_up`, UF11/problem.py:77-80 and UF12:79-82; `g` is the value of the function `g`. -/
noncomputable def rotUp (g : ℝ) (zb : List ℝ) (m : ℕ) : ℝ :=
  (1 + g) * rotCos zb (m - 1) * rotSin zb m + 1

/-- `base_fit`, UF11/problem.py:83-97. -/
noncomputable def uf11Fit (lambdas : List ℝ) (M : List (List ℝ)) (m : ℕ) (x : List ℝ) : ℝ :=
  let z := rotZ M x
  let zb := rotZBis lambdas z
  if z.all fun zi => decide (0 ≤ zi) then rotUp (uf11G zb) zb m
  else rotS zb (m - 1) * rotUp (uf11G zb) zb m

/-- `base_fit`, UF12/problem.py:85-99. -/
noncomputable def uf12Fit (lambdas : List ℝ) (M : List (List ℝ)) (m : ℕ) (x : List ℝ) : ℝ :=
  let z := rotZ M x
  let zb := rotZBis lambdas z
  if z.all fun zi => decide (0 ≤ zi) then rotUp (uf12G z) zb m
  else rotS zb (m - 1) * rotUp (uf12G z) zb m

/-- The numbers of a file as real numbers. -/
noncomputable def toReals (l : List ℚ) : List ℝ := l.map fun q : ℚ => (q : ℝ)

/-- UF11/problem.py:32 and 100-111. -/
noncomputable def uf11 (front : List (List ℝ)) : Problem where
  fits := [1, 2, 3, 4, 5].map fun m => uf11Fit (toReals rotLambdas) ((rotM uf11Block).map toReals) m
  dims := rotDims.map fun b : ℚ × ℚ => ((b.1 : ℝ), (b.2 : ℝ))
  front := front

/-- UF12/problem.py:32 and 102-113. -/
noncomputable def uf12 (front : List (List ℝ)) : Problem where
  fits := [1, 2, 3, 4, 5].map fun m => uf12Fit (toReals rotLambdas) ((rotM uf12Block).map toReals) m
  dims := rotDims.map fun b : ℚ × ℚ => ((b.1 : ℝ), (b.2 : ℝ))
  front := front

/-- kursawe/problem.py:10, 14-22 and 26-27. -/
noncomputable def kursawe (front : List (List ℝ)) : Problem where
  fits := [
    fun xs => (List.zipWith (fun x xn : ℝ => -10.0 * Real.exp (-0.2 * Real.sqrt (x ^ 2 + xn ^ 2))) xs xs.tail).sum,
    fun xs => (xs.map fun x : ℝ => |x| ^ (0.8 : ℝ) + 5.0 * Real.sin (x ^ 3)).sum]
  dims := [(-5, 5), (-5, 5), (-5, 5)]
  front := front

end Evogil.Problems
