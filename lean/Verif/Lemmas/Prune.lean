import Verif.Lemmas.FloatErrorDef

/-!
# Expressions without comparisons whose results are known
-/

set_option linter.unusedSectionVars false

namespace Evogil.FloatExpr

/-- The expression without the branches of the comparisons `F`, which are never true. -/
def prune (F : List (Expr × Expr)) : Expr → Expr
  | .lit q => .lit q
  | .pi => .pi
  | .e => .e
  | .var i => .var i
  | .add a b => .add (prune F a) (prune F b)
  | .sub a b => .sub (prune F a) (prune F b)
  | .mul a b => .mul (prune F a) (prune F b)
  | .div a b => .div (prune F a) (prune F b)
  | .neg a => .neg (prune F a)
  | .abs a => .abs (prune F a)
  | .sqrt a => .sqrt (prune F a)
  | .exp a => .exp (prune F a)
  | .sin a => .sin (prune F a)
  | .cos a => .cos (prune F a)
  | .pow a q q' => .pow (prune F a) q q'
  | .ipow a n => .ipow (prune F a) n
  | .max0 a => .max0 (prune F a)
  | .ifLt a b c d => if (a, b) ∈ F then prune F d else .ifLt a b (prune F c) (prune F d)

/-- A comparison is false. -/
def Never (L : Lib) (x : List ℝ) (c : Expr × Expr) : Prop :=
  ∃ u v, eval L x c.1 = some u ∧ eval L x c.2 = some v ∧ ¬ u < v

theorem eval_prune {L : Lib} {x : List ℝ} {F : List (Expr × Expr)} (hF : ∀ c ∈ F, Never L x c) :
    ∀ t, eval L x (prune F t) = eval L x t := by
  intro t
  induction t with
  | ifLt a b c d _ _ ihc ihd =>
    rw [prune]
    split_ifs with hm
    · obtain ⟨u, v, hu, hv, hn⟩ := hF _ hm
      rw [eval, show eval L x a = some u from hu, show eval L x b = some v from hv, Option.bind_some, Option.bind_some,
        if_neg hn, ihd]
    · rw [eval, eval, ihc, ihd]
  | _ => simp_all only [prune, eval]

end Evogil.FloatExpr
