import Verif.Model.Binary64
import Mathlib.Analysis.SpecialFunctions.Pow.Real
import Mathlib.Analysis.SpecialFunctions.Trigonometric.Basic

/-!
# Evaluation of arithmetic expressions in python

An expression of the objective functions in `problems/*/problem.py` is a tree of operations; it is evaluated from the leaves
to the root, and every operation can raise. What `math` and the processor compute is a parameter.
-/

namespace Evogil.FloatExpr

/-- The operations that occur in `problems/*/problem.py`. -/
inductive Expr
  /-- a literal of the source, for instance ZDT1/problem.py:50 -/
  | lit (q : ℚ)
  /-- `math.pi`, UF1/problem.py:19 -/
  | pi
  /-- `e`, ackley/problem.py:11 -/
  | e
  /-- `x[i]`, UF1/problem.py:25 -/
  | var (i : ℕ)
  /-- `a + b`, UF1/problem.py:25 -/
  | add (a b : Expr)
  /-- `a - b`, UF1/problem.py:29 -/
  | sub (a b : Expr)
  /-- `a * b`, UF1/problem.py:17 -/
  | mul (a b : Expr)
  /-- `a / b`, UF1/problem.py:16 -/
  | div (a b : Expr)
  /-- `-a`, UF11/problem.py:54 -/
  | neg (a : Expr)
  /-- `abs(a)`, ZDT1/problem.py:54, and `math.fabs(a)`, UF4/problem.py:21 -/
  | abs (a : Expr)
  /-- `math.sqrt(a)`, UF1/problem.py:29 -/
  | sqrt (a : Expr)
  /-- `math.exp(a)`, UF4/problem.py:21 -/
  | exp (a : Expr)
  /-- `math.sin(a)`, UF1/problem.py:19 -/
  | sin (a : Expr)
  /-- `math.cos(a)`, UF2/problem.py:24 -/
  | cos (a : Expr)
  /-- `math.pow(a, q)` and `a ** q` for a constant `q` that is no whole number, UF7/problem.py:23; `q'` is the float that
  the constant expression `q` evaluates to. -/
  | pow (a : Expr) (q q' : ℚ)
  /-- `a ** n`, UF1/problem.py:19 -/
  | ipow (a : Expr) (n : ℕ)
  /-- `max(0, a)`, UF6/problem.py:47 -/
  | max0 (a : Expr)
  /-- `c if a < b else d`, UF11/problem.py:44 -/
  | ifLt (a b c d : Expr)
  deriving DecidableEq

instance : Add Expr := ⟨.add⟩
instance : Sub Expr := ⟨.sub⟩
instance : Mul Expr := ⟨.mul⟩
instance : Div Expr := ⟨.div⟩
instance : Neg Expr := ⟨.neg⟩
instance (n : ℕ) : OfNat Expr n := ⟨.lit n⟩

/-- `sum(l)`, UF1/problem.py:18-20: from the left, beginning with 0. -/
def sumE (l : List Expr) : Expr := l.foldl (fun s a => s + a) 0

/-- `functools.reduce(operator.mul, l)`, UF3/problem.py:27-33, for a list that is not empty. -/
def prodE : List Expr → Expr
  | [] => 1
  | a :: l => l.foldl (fun s a => s * a) a

/-- What the processor and the module `math` compute. -/
structure Lib where
  /-- rounding of the result of an operation -/
  fl : ℝ → ℝ
  sqrt : ℝ → ℝ
  exp : ℝ → ℝ
  sin : ℝ → ℝ
  cos : ℝ → ℝ
  pow : ℝ → ℝ → ℝ
  ipow : ℝ → ℕ → ℝ
  pi : ℝ
  e : ℝ
  /-- which of the two values of a constant exponent is meant -/
  exponent : ℚ → ℚ → ℚ

/-- Exact arithmetic. -/
noncomputable def exact : Lib where
  fl x := x
  sqrt := Real.sqrt
  exp := Real.exp
  sin := Real.sin
  cos := Real.cos
  pow b e := b ^ e
  ipow x n := x ^ n
  pi := Real.pi
  e := Real.exp 1
  exponent q _ := q

/-- The result of an operation, unless it is too large for a float. -/
noncomputable def ok (v : ℝ) : Option ℝ := if |v| < 2 ^ 1023 then some v else none

/-- The value of an expression for the decision vector `x`; `none` for an exception. (For a negative `a`, `a ** q` does not
raise but has a complex result, with which no driver can work; a result that is too large is an infinite float, except for `**`,
`math.exp` and `math.pow`, which raise.) -/
noncomputable def eval (L : Lib) (x : List ℝ) : Expr → Option ℝ
  | .lit q => ok (L.fl q)
  | .pi => some L.pi
  | .e => some L.e
  | .var i => x[i]?
  | .add a b => (eval L x a).bind fun u => (eval L x b).bind fun v => ok (L.fl (u + v))
  | .sub a b => (eval L x a).bind fun u => (eval L x b).bind fun v => ok (L.fl (u - v))
  | .mul a b => (eval L x a).bind fun u => (eval L x b).bind fun v => ok (L.fl (u * v))
  | .div a b => (eval L x a).bind fun u => (eval L x b).bind fun v => if v = 0 then none else ok (L.fl (u / v))
  | .neg a => (eval L x a).bind fun u => some (-u)
  | .abs a => (eval L x a).bind fun u => some |u|
  | .sqrt a => (eval L x a).bind fun u => if u < 0 then none else ok (L.sqrt u)
  | .exp a => (eval L x a).bind fun u => if 709 < u then none else ok (L.exp u)
  | .sin a => (eval L x a).bind fun u => ok (L.sin u)
  | .cos a => (eval L x a).bind fun u => ok (L.cos u)
  | .pow a q q' => (eval L x a).bind fun u => if u < 0 then none else ok (L.pow u (L.exponent q q'))
  | .ipow a n => (eval L x a).bind fun u => ok (L.ipow u n)
  | .max0 a => (eval L x a).bind fun u => some (max 0 u)
  | .ifLt a b c d => (eval L x a).bind fun u => (eval L x b).bind fun v => if u < v then eval L x c else eval L x d

end Evogil.FloatExpr
