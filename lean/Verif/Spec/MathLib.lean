import Verif.Model.FloatExpr

/-!
# What is assumed of the processor and of the module `math`
-/

namespace Evogil.Spec

open FloatExpr Binary64

/-- The basic operations and the square root are rounded correctly, as IEEE 754 demands. The elementary functions are
accurate up to a few units in the last place and do not leave the range of the function. The constants are the floats next to
the real numbers, and so are the exponents. -/
structure IsMathLib (L : Lib) : Prop where
  fl : ∀ x, L.fl x = round64 x
  sqrt : ∀ x, 0 ≤ x → L.sqrt x = round64 (Real.sqrt x)
  exp_nonneg : ∀ x, 0 ≤ L.exp x
  exp : ∀ x, x ≤ 709 → |L.exp x - Real.exp x| ≤ 1 / 2 ^ 50 * Real.exp x + 1 / 2 ^ 1000
  sin_le : ∀ x, |L.sin x| ≤ 1
  sin : ∀ x, |L.sin x - Real.sin x| ≤ 1 / 2 ^ 50
  cos_le : ∀ x, |L.cos x| ≤ 1
  cos : ∀ x, |L.cos x - Real.cos x| ≤ 1 / 2 ^ 50
  pow_nonneg : ∀ x e, 0 ≤ x → 0 ≤ L.pow x e
  pow : ∀ x e, 0 ≤ x → 0 ≤ e → |L.pow x e - x ^ e| ≤ 1 / 2 ^ 50 * x ^ e + 1 / 2 ^ 1000
  ipow_nonneg : ∀ x n, n % 2 = 0 → 0 ≤ L.ipow x n
  ipow : ∀ x n, |L.ipow x n - x ^ n| ≤ 1 / 2 ^ 50 * |x ^ n| + 1 / 2 ^ 1000
  pi : L.pi = round64 Real.pi
  e : L.e = round64 (Real.exp 1)
  exponent : ∀ q q', L.exponent q q' = q'

/-- `np.dot` of two vectors of length 30 is accurate, in whatever order it adds. A row of the unit matrix selects a coordinate:
the other products are 0, and adding 0 changes nothing. -/
structure IsDot (dot : List ℝ → List ℝ → ℝ) : Prop where
  near : ∀ a b : List ℝ, a.length = 30 → b.length = 30 →
    |dot a b - (List.zipWith (fun s t => s * t) a b).sum| ≤
      1 / 2 ^ 47 * (List.zipWith (fun s t => |s * t|) a b).sum + 1 / 2 ^ 1000
  select : ∀ (a b : List ℝ) (i : ℕ) (v : ℝ), a.length = 30 → b.length = 30 → (∀ j, a[j]? = if j = i then some 1 else
    if j < 30 then some 0 else none) → b[i]? = some v → round64 v = v → dot a b = v

end Evogil.Spec
