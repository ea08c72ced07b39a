import Verif.Lemmas.FloatRange

/-!
# An analysis of the rounding errors of expressions

The analysis finds a relative error `ρ` and an absolute error `τ`: the computed value is within `ρ * |v| + τ` of the exact
value `v`.
-/

namespace Evogil.FloatExpr

/-- The absolute error of an operation near 0. -/
def tiny : ℚ := 1 / ((2 ^ 1000 : ℕ) : ℚ)

/-- The relative error of a basic operation. -/
def unit : ℚ := 1 / ((2 ^ 53 : ℕ) : ℚ)

/-- The error of an elementary function. -/
def unit' : ℚ := 1 / ((2 ^ 50 : ℕ) : ℚ)

/-- The largest magnitude within bounds. -/
def mag (r : ℤ × ℤ) : ℤ := max (-r.1) r.2

/-- The error after one more operation. -/
def rndE (u : ℚ) (p : ℚ × ℚ) : ℚ × ℚ := (p.1 + u * (1 + p.1), p.2 * (1 + u) + tiny)

/-- The error as an absolute error. -/
def absE (A : ℤ) (p : ℚ × ℚ) : ℚ := p.1 * A + p.2

/-- The error of a product. -/
def mulE (A B : ℤ) (p s : ℚ × ℚ) : ℚ × ℚ :=
  (p.1 * (1 + s.1) + s.1, A * (s.2 * (1 + p.1)) + B * (p.2 * (1 + s.1)) + p.2 * s.2)

/-- The error of a quotient. -/
def divE (p s : ℚ × ℚ) : ℚ × ℚ := ((p.1 + (s.1 + s.2)) * (1 + 2 * (s.1 + s.2)), p.2)

/-- The error of a power. -/
def ipowE (A : ℤ) (p : ℚ × ℚ) : ℕ → ℚ × ℚ
  | 0 => (0, 0)
  | n + 1 => mulE (A ^ n) A (ipowE A p n) p

/-- The comparisons of an expression. -/
def conds : Expr → List (Expr × Expr)
  | .lit _ | .pi | .e | .var _ => []
  | .add a b | .sub a b | .mul a b | .div a b => conds a ++ conds b
  | .neg a | .abs a | .sqrt a | .exp a | .sin a | .cos a | .pow a _ _ | .ipow a _ | .max0 a => conds a
  | .ifLt a b c d => (a, b) :: (conds c ++ conds d)

/-- The error of an expression whose variables have the absolute error `δ`, provided that all comparisons have the right
results. -/
def err (δ : ℚ) (box : List (ℤ × ℤ)) : Expr → Option (ℚ × ℚ)
  | .lit q => if q.den = 1 ∧ |q.num| ≤ 2 ^ 53 then some (0, 0) else some (rndE unit (0, 0))
  | .pi => some (rndE unit (0, 0))
  | .e => some (rndE unit (0, 0))
  | .var _ => some (0, δ)
  | .add a b => (err δ box a).bind fun p => (err δ box b).bind fun s => (range box a).bind fun u => (range box b).bind fun v =>
      if 0 ≤ u.1 ∧ 0 ≤ v.1 then some (rndE unit (max p.1 s.1, p.2 + s.2))
      else some (rndE unit (0, absE (mag u) p + absE (mag v) s))
  | .sub a b => (err δ box a).bind fun p => (err δ box b).bind fun s => (range box a).bind fun u => (range box b).bind fun v =>
      some (rndE unit (0, absE (mag u) p + absE (mag v) s))
  | .mul a b => (err δ box a).bind fun p => (err δ box b).bind fun s => (range box a).bind fun u => (range box b).bind fun v =>
      some (rndE unit (mulE (mag u) (mag v) p s))
  | .div a b => (err δ box a).bind fun p => (err δ box b).bind fun s =>
      if s.1 + s.2 ≤ 1 / 2 then some (rndE unit (divE p s)) else none
  | .neg a => err δ box a
  | .abs a => err δ box a
  | .sqrt a => (err δ box a).bind fun p =>
      if p.1 ≤ 1 ∧ p.2 ≤ (1 / ((2 ^ 100 : ℕ) : ℚ)) ^ 2 then some (rndE unit (p.1, 1 / ((2 ^ 100 : ℕ) : ℚ))) else none
  | .exp a => (err δ box a).bind fun p => (range box a).bind fun u =>
      some (rndE unit' (0, 3 ^ u.2.toNat * absE (mag u) p))
  | .sin a => (err δ box a).bind fun p => (range box a).bind fun u => some (0, absE (mag u) p + unit')
  | .cos a => (err δ box a).bind fun p => (range box a).bind fun u => some (0, absE (mag u) p + unit')
  | .pow a q q' => (err δ box a).bind fun p => (range box a).bind fun u =>
      if p = (0, 0) ∧ 0 < q ∧ 0 < q' then
        some (rndE unit' (0, (1 / min q q' + (max 1 u.2 : ℤ) ^ 2) * |q - q'|))
      else if q = q' ∧ 1 / 5 ≤ q ∧ q ≤ 1 ∧ p.1 ≤ 1 ∧ p.2 ≤ (1 / ((2 ^ 100 : ℕ) : ℚ)) ^ 5 then
        some (rndE unit' (p.1, 1 / ((2 ^ 100 : ℕ) : ℚ)))
      else none
  | .ipow a n => (err δ box a).bind fun p => (range box a).bind fun u => some (rndE unit' (ipowE (max 1 (mag u)) p n))
  | .max0 a => (err δ box a).bind fun p => (range box a).bind fun u => some (0, absE (mag u) p)
  | .ifLt _ _ c d => (err δ box c).bind fun p => (err δ box d).bind fun s => some (max p.1 s.1, max p.2 s.2)

/-- The total error, as an absolute one. -/
def totalErr (δ : ℚ) (box : List (ℤ × ℤ)) (t : Expr) : Option ℚ :=
  (range box t).bind fun r => (err δ box t).bind fun p => some (absE (mag r) p)

end Evogil.FloatExpr
