import Verif.Props.RoundedProblems
import Verif.Lemmas.FloatError

/-!
# C139: the rounding errors of the objective functions
-/

set_option linter.unusedSectionVars false
set_option linter.unusedSimpArgs false

namespace Evogil.RoundedProblems

open Spec FloatExpr Binary64 Problems

/-! ## The exact value of an expression -/

/-- The value of an expression in exact arithmetic, without exceptions. -/
noncomputable def den (x : List ℝ) : Expr → ℝ
  | .lit q => q
  | .pi => Real.pi
  | .e => Real.exp 1
  | .var i => x.getD i 0
  | .add a b => den x a + den x b
  | .sub a b => den x a - den x b
  | .mul a b => den x a * den x b
  | .div a b => den x a / den x b
  | .neg a => -den x a
  | .abs a => |den x a|
  | .sqrt a => Real.sqrt (den x a)
  | .exp a => Real.exp (den x a)
  | .sin a => Real.sin (den x a)
  | .cos a => Real.cos (den x a)
  | .pow a q _ => den x a ^ (q : ℝ)
  | .ipow a n => den x a ^ n
  | .max0 a => max 0 (den x a)
  | .ifLt a b c d => if den x a < den x b then den x c else den x d

theorem eval_den (x : List ℝ) : ∀ (t : Expr) (v : ℝ), eval exact x t = some v → v = den x t := by
  intro t
  induction t with
  | lit q => intro v h; exact ok_some h
  | pi => intro v h; exact (Option.some.inj h).symm
  | e => intro v h; exact (Option.some.inj h).symm
  | var i =>
    intro v h
    rw [eval] at h
    rw [den, List.getD_eq_getElem?_getD, h, Option.getD_some]
  | add a b iha ihb =>
    intro v h
    simp only [eval, Option.bind_eq_some_iff] at h
    obtain ⟨s, hs, t, ht, h⟩ := h
    rw [ok_some h, iha s hs, ihb t ht]; rfl
  | sub a b iha ihb =>
    intro v h
    simp only [eval, Option.bind_eq_some_iff] at h
    obtain ⟨s, hs, t, ht, h⟩ := h
    rw [ok_some h, iha s hs, ihb t ht]; rfl
  | mul a b iha ihb =>
    intro v h
    simp only [eval, Option.bind_eq_some_iff] at h
    obtain ⟨s, hs, t, ht, h⟩ := h
    rw [ok_some h, iha s hs, ihb t ht]; rfl
  | div a b iha ihb =>
    intro v h
    simp only [eval, Option.bind_eq_some_iff] at h
    obtain ⟨s, hs, t, ht, h⟩ := h
    split_ifs at h
    rw [ok_some h, iha s hs, ihb t ht]; rfl
  | neg a iha =>
    intro v h
    simp only [eval, Option.bind_eq_some_iff] at h
    obtain ⟨s, hs, h⟩ := h
    rw [← Option.some.inj h, iha s hs]; rfl
  | abs a iha =>
    intro v h
    simp only [eval, Option.bind_eq_some_iff] at h
    obtain ⟨s, hs, h⟩ := h
    rw [← Option.some.inj h, iha s hs]; rfl
  | sqrt a iha =>
    intro v h
    simp only [eval, Option.bind_eq_some_iff] at h
    obtain ⟨s, hs, h⟩ := h
    split_ifs at h
    rw [ok_some h, iha s hs]; rfl
  | exp a iha =>
    intro v h
    simp only [eval, Option.bind_eq_some_iff] at h
    obtain ⟨s, hs, h⟩ := h
    split_ifs at h
    rw [ok_some h, iha s hs]; rfl
  | sin a iha =>
    intro v h
    simp only [eval, Option.bind_eq_some_iff] at h
    obtain ⟨s, hs, h⟩ := h
    rw [ok_some h, iha s hs]; rfl
  | cos a iha =>
    intro v h
    simp only [eval, Option.bind_eq_some_iff] at h
    obtain ⟨s, hs, h⟩ := h
    rw [ok_some h, iha s hs]; rfl
  | pow a q q' iha =>
    intro v h
    simp only [eval, Option.bind_eq_some_iff] at h
    obtain ⟨s, hs, h⟩ := h
    split_ifs at h
    rw [ok_some h, iha s hs]; rfl
  | ipow a n iha =>
    intro v h
    simp only [eval, Option.bind_eq_some_iff] at h
    obtain ⟨s, hs, h⟩ := h
    rw [ok_some h, iha s hs]; rfl
  | max0 a iha =>
    intro v h
    simp only [eval, Option.bind_eq_some_iff] at h
    obtain ⟨s, hs, h⟩ := h
    rw [← Option.some.inj h, iha s hs]; rfl
  | ifLt a b c d iha ihb ihc ihd =>
    intro v h
    simp only [eval, Option.bind_eq_some_iff] at h
    obtain ⟨s, hs, t, ht, h⟩ := h
    rw [den, ← iha s hs, ← ihb t ht]
    split_ifs at h ⊢ with hc
    · exact ihc v h
    · exact ihd v h

section den

variable (x : List ℝ)

theorem den_add (a b : Expr) : den x (a + b) = den x a + den x b := rfl
theorem den_sub (a b : Expr) : den x (a - b) = den x a - den x b := rfl
theorem den_mul (a b : Expr) : den x (a * b) = den x a * den x b := rfl
theorem den_div (a b : Expr) : den x (a / b) = den x a / den x b := rfl
theorem den_two : den x (2 : Expr) = 2 := by
  show (((2 : ℕ) : ℚ) : ℝ) = 2
  norm_num
theorem den_four : den x (4 : Expr) = 4 := by
  show (((4 : ℕ) : ℚ) : ℝ) = 4
  norm_num
theorem den_zero : den x (0 : Expr) = 0 := by
  show (((0 : ℕ) : ℚ) : ℝ) = 0
  simp
theorem den_one : den x (1 : Expr) = 1 := by
  show (((1 : ℕ) : ℚ) : ℝ) = 1
  simp
theorem den_num (n : ℕ) : den x (num n) = n := by
  show (((n : ℕ) : ℚ) : ℝ) = n
  simp

theorem den_sumE (l : List Expr) : den x (sumE l) = (l.map (den x)).sum := by
  have : ∀ (l : List Expr) (s : Expr), den x (l.foldl (fun s a => s + a) s) = den x s + (l.map (den x)).sum := by
    intro l
    induction l with
    | nil => intro s; simp
    | cons a l ih => intro s; rw [List.foldl_cons, ih, den_add, List.map_cons, List.sum_cons, add_assoc]
  rw [sumE, this, den_zero, zero_add]

theorem den_prodE (l : List Expr) : den x (prodE l) = (l.map (den x)).prod := by
  have : ∀ (l : List Expr) (s : Expr), den x (l.foldl (fun s a => s * a) s) = den x s * (l.map (den x)).prod := by
    intro l
    induction l with
    | nil => intro s; simp
    | cons a l ih => intro s; rw [List.foldl_cons, ih, den_mul, List.map_cons, List.prod_cons, mul_assoc]
  cases l with
  | nil => rw [prodE, den_one]; rfl
  | cons a l => rw [prodE, this, List.map_cons, List.prod_cons]

end den

theorem den_tailVars {x : List ℝ} {n : ℕ} (h : x.length = n) : (tailVars n).map (den x) = x.tail := by
  refine List.ext_getElem (by simp [tailVars, h]) fun i h1 h2 => ?_
  simp only [tailVars, List.map_map, List.getElem_map, List.getElem_range', Function.comp, List.getElem_tail]
  have hi : 1 + 1 * i < x.length := by
    simp only [List.length_tail] at h2
    omega
  rw [den, List.getD_eq_getElem?_getD, List.getElem?_eq_getElem hi, Option.getD_some]
  congr 1
  omega

/-! ## The statement -/

/-- Every objective function computes for every vector of the box a number within `B` of the exact value. -/
def Accurate (L : Lib) (es : List Expr) (p : Problem) (B : ℝ) : Prop :=
  List.Forall₂ (fun t f => ∀ x, InBox x p.dims → ∃ v, eval L x t = some v ∧ |v - f x| ≤ B) es p.fits

/-- The errors found by the analysis are small enough. -/
def errOk (box : List (ℤ × ℤ)) (es : List Expr) (B : ℚ) : Bool :=
  es.all fun t => match totalErr 0 box t with
    | some e => decide (e ≤ B) && (conds t).isEmpty
    | none => false

theorem accurate {L : Lib} (hL : IsMathLib L) {es : List Expr} {p : Problem} {box : List (ℤ × ℤ)} {B : ℚ}
    (hp : ∀ x, InBox x p.dims → Within (id x) box)
    (hf : List.Forall₂ (fun t f => ∀ x, InBox x p.dims → den x t = f x) es p.fits)
    (h : errOk box es B = true) : Accurate L es p B := by
  have h' : ∀ t ∈ es, _ := List.all_eq_true.1 h
  clear h
  unfold Accurate
  generalize p.fits = fs at hf
  induction hf with
  | nil => exact .nil
  | @cons t f es fs htf _ ih =>
    refine .cons (fun x hx => ?_) (ih fun t ht => h' t (List.mem_cons_of_mem _ ht))
    have := h' t (List.mem_cons_self ..)
    split at this
    · rename_i e he
      simp only [totalErr, Option.bind_eq_some_iff] at he
      obtain ⟨r, hr, q, hq, he⟩ := he
      obtain rfl := Option.some.inj he
      obtain ⟨a, ha, la, ua⟩ := range_sound exact_bounded (hp x hx) t r hr
      obtain ⟨b, hb, -⟩ := range_sound hL.bounded (hp x hx) t r hr
      rw [Bool.and_eq_true] at this
      have hn : conds t = [] := List.isEmpty_iff.1 this.2
      have ho := ok_abs (err_sound hL (hp x hx) (hp x hx) le_rfl (fun i c d hc hd => by rw [Option.some.inj (hc.symm.trans hd)]; simp)
        t r q a b (by simp [hn]) hr hq ha hb) (abs_le_mag la ua)
      refine ⟨b, hb, ?_⟩
      rw [← htf x hx, ← eval_den x t a ha]
      exact ho.2.trans (by exact_mod_cast of_decide_eq_true this.1)
    · simp at this

/-! ## The problems -/

theorem emoa_fits {x : List ℝ} {n : ℕ} (hx : x.length = n) {f1 : Expr → Expr} {f1' : ℝ → ℝ} {g : List Expr → Expr}
    {g' : List ℝ → ℝ} {h : Expr → Expr → Expr} {h' : ℝ → ℝ → ℝ} (hf : ∀ a, den x (f1 a) = f1' (den x a))
    (hg : ∀ l, den x (g l) = g' (l.map (den x))) (hh : ∀ a b, den x (h a b) = h' (den x a) (den x b)) :
    den x (f1 (.var 0)) = f1' (x.getD 0 0) ∧
    den x (g (tailVars n) * h (f1 (.var 0)) (g (tailVars n))) = Problems.emoaFitness2 f1' g' h' x := by
  refine ⟨hf _, ?_⟩
  rw [den_mul, hh, hg, hf, den_tailVars hx]
  rfl

theorem den_gSum (x : List ℝ) (l : List Expr) : den x (gSum l) = 1 + 0.3103448275862069 * (l.map (den x)).sum := by
  rw [gSum, den_add, den_one, den_mul, den_sumE, den]
  norm_num

theorem den_hSqrt (x : List ℝ) (a b : Expr) : den x (hSqrt a b) = 1 - Real.sqrt |den x a / den x b| := by
  rw [hSqrt, den_sub, den_one, den, den, den_div]

theorem den_hSq (x : List ℝ) (a b : Expr) : den x (hSq a b) = 1 - (den x a / den x b) ^ 2 := by
  rw [hSq, den_sub, den_one, den, den_div]

theorem den_hSin (x : List ℝ) (a b : Expr) : den x (hSin a b) =
    1 - Real.sqrt |den x a / den x b| - den x a / den x b * Real.sin (10 * Real.pi * den x a) := by
  simp only [hSin, den_sub, den, den_div]
  norm_num

theorem den_gCos (x : List ℝ) (l : List Expr) :
    den x (gCos l) = 91 + ((l.map (den x)).map fun v => v ^ 2 - 10 * Real.cos (4 * Real.pi * v)).sum := by
  have e : (l.map (den x ∘ fun x => Expr.ipow x 2 - 10 * Expr.cos (4 * Expr.pi * x))) =
      l.map ((fun v => v ^ 2 - 10 * Real.cos (4 * Real.pi * v)) ∘ den x) := by
    refine List.map_congr_left fun a _ => ?_
    simp only [Function.comp, den_sub, den]
    norm_num
  simp only [gCos, den_add, den_sumE, List.map_map, e]
  simp only [den]
  norm_num

theorem den_f1e (x : List ℝ) (a : Expr) : den x (f1e a) = Problems.f1e (den x a) := by
  simp only [f1e, Problems.f1e, den_sub, den]
  norm_num

theorem den_gPow (x : List ℝ) (l : List Expr) : den x (gPow l) = 1 + 5.19615 * (l.map (den x)).sum ^ (0.25 : ℝ) := by
  simp only [gPow, den_add, den, den_sumE]
  norm_num

/-- The expressions of a problem have the values of its objective functions. -/
def Fits (es : List Expr) (p : Problem) : Prop :=
  List.Forall₂ (fun t f => ∀ x, InBox x p.dims → den x t = f x) es p.fits

theorem zdt1_fits : Fits zdt1 Problems.zdt1 :=
  have h (x : List ℝ) (hx : InBox x Problems.zdt1.dims) :=
    emoa_fits (hx.length_eq.trans (by simp [Problems.zdt1, Problems.emoaFitnesses])) (f1 := id) (f1' := fun v => v)
      (fun _ => rfl) (den_gSum x) (den_hSqrt x)
  .cons (fun x hx => (h x hx).1) (.cons (fun x hx => (h x hx).2) .nil)

theorem zdt2_fits : Fits zdt2 Problems.zdt2 :=
  have h (x : List ℝ) (hx : InBox x Problems.zdt2.dims) :=
    emoa_fits (hx.length_eq.trans (by simp [Problems.zdt2, Problems.emoaFitnesses])) (f1 := id) (f1' := fun v => v)
      (fun _ => rfl) (den_gSum x) (den_hSq x)
  .cons (fun x hx => (h x hx).1) (.cons (fun x hx => (h x hx).2) .nil)

theorem zdt3_fits : Fits zdt3 Problems.zdt3 :=
  have h (x : List ℝ) (hx : InBox x Problems.zdt3.dims) :=
    emoa_fits (hx.length_eq.trans (by simp [Problems.zdt3, Problems.emoaFitnesses])) (f1 := id) (f1' := fun v => v)
      (fun _ => rfl) (den_gSum x) (den_hSin x)
  .cons (fun x hx => (h x hx).1) (.cons (fun x hx => (h x hx).2) .nil)

theorem zdt4_fits : Fits zdt4 Problems.zdt4 :=
  have h (x : List ℝ) (hx : InBox x Problems.zdt4.dims) :=
    emoa_fits (hx.length_eq.trans (by simp [Problems.zdt4, Problems.emoaFitnesses2])) (f1 := id) (f1' := fun v => v)
      (fun _ => rfl) (den_gCos x) (den_hSqrt x)
  .cons (fun x hx => (h x hx).1) (.cons (fun x hx => (h x hx).2) .nil)

theorem zdt6_fits : Fits zdt6 Problems.zdt6 :=
  have h (x : List ℝ) (hx : InBox x Problems.zdt6.dims) :=
    emoa_fits (hx.length_eq.trans (by simp [Problems.zdt6, Problems.emoaFitnesses])) (den_f1e x) (den_gPow x) (den_hSq x)
  .cons (fun x hx => (h x hx).1) (.cons (fun x hx => (h x hx).2) .nil)

theorem den_uf1Base (x : List ℝ) (J : List ℕ) : den x (uf1Base J) = Problems.uf1Base x J := by
  simp only [uf1Base, Problems.uf1Base, den_mul, den_div, den_num, den_sumE, List.map_map, den_two, den_four]
  refine congrArg₂ _ (by norm_num) (congrArg List.sum (List.map_congr_left fun a _ => ?_))
  simp only [Function.comp, den_sub, den_add, den_mul, den_div, den_num, den]
  norm_num

theorem uf1_fits : Fits uf1 Problems.uf1 :=
  .cons (fun x _ => by rw [den_add, den_uf1Base]; rfl)
    (.cons (fun x _ => by rw [den_add, den_sub, den_uf1Base, den_one]; rfl) .nil)

theorem den_uf2Base (x : List ℝ) (J : List ℕ) {trig : Expr → Expr} {trig' : ℝ → ℝ} (ht : ∀ a, den x (trig a) = trig' (den x a)) :
    den x (uf2Base J trig) = Problems.uf2Base x J trig' := by
  simp only [uf2Base, Problems.uf2Base, den_mul, den_div, den_num, den_sumE, List.map_map, den_two, den_four]
  refine congrArg₂ _ (by norm_num) (congrArg List.sum (List.map_congr_left fun a _ => ?_))
  simp only [Function.comp, den_sub, den_add, den_mul, den_div, den_num, ht, den]
  norm_num

theorem uf2_fits : Fits uf2 Problems.uf2 :=
  .cons (fun x _ => by rw [den_add, den_uf2Base x _ (trig' := Real.cos) fun _ => rfl]; rfl)
    (.cons (fun x _ => by rw [den_add, den_sub, den_uf2Base x _ (trig' := Real.sin) fun _ => rfl, den_one]; rfl) .nil)

theorem den_cosProd (x : List ℝ) (J : List ℕ) {y : ℕ → Expr} {y' : ℕ → ℝ} (hy : ∀ j, den x (y j) = y' j) :
    den x (cosProd J y) = Problems.cosProd J (J.map y') := by
  have e : (List.range J.length).map (fun j => Real.cos (20 * (J.map y').getD j 0 * Real.pi / Real.sqrt (J.getD j 0 : ℕ))) =
      J.map fun j => Real.cos (20 * y' j * Real.pi / Real.sqrt (j : ℕ)) := by
    refine List.ext_getElem (by simp) fun i h1 h2 => ?_
    simp only [List.length_map, List.length_range] at h1
    simp [List.getD_eq_getElem?_getD, List.getElem?_eq_getElem h1]
  have e1 : (J.map (den x ∘ fun j => Expr.ipow (y j) 2)) = (J.map y').map fun v => v ^ 2 := by
    rw [List.map_map]
    exact List.map_congr_left fun j _ => by simp only [Function.comp, den, hy]
  have e2 : (J.map (den x ∘ fun j => Expr.cos (20 * y j * Expr.pi / Expr.sqrt (num j)))) =
      J.map fun j => Real.cos (20 * y' j * Real.pi / Real.sqrt (j : ℕ)) :=
    List.map_congr_left fun j _ => by simp only [Function.comp, den, hy, den_div, den_mul, den_num, den_two, den_four]; norm_num
  simp only [cosProd, Problems.cosProd, den_div, den_mul, den_add, den_sub, den_num, den_sumE, den_prodE, List.map_map, den_two, den_four, e, e1, e2]

theorem den_uf3Y (x : List ℝ) (j : ℕ) : den x (uf3Y j) = Problems.uf3Y x j := by
  simp only [uf3Y, Problems.uf3Y, den_sub, den, uf3Exponent]
  norm_num

theorem uf3_fits : Fits uf3 Problems.uf3 :=
  .cons (fun x _ => by rw [den_add, den_cosProd x _ (den_uf3Y x)]; rfl)
    (.cons (fun x _ => by rw [den_add, den_sub, den_cosProd x _ (den_uf3Y x), den_one]; rfl) .nil)

theorem den_ufY (x : List ℝ) (n j : ℕ) : den x (ufY n j) = Problems.ufY n x j := by
  simp only [ufY, Problems.ufY, den_sub, den_add, den_mul, den_div, den_num, den, den_two, den_four]
  norm_num

theorem den_uf4Base (x : List ℝ) (J : List ℕ) : den x (uf4Base J) = Problems.uf4Base x J := by
  simp only [uf4Base, Problems.uf4Base, den_mul, den_div, den_num, den_sumE, List.map_map, den_two, den_four]
  refine congrArg₂ _ (congrArg₂ _ (by norm_num) (congrArg List.sum (List.map_congr_left fun j _ => ?_))) rfl
  simp only [Function.comp, uf4H, Problems.uf4H, den_div, den_add, den_one, den_mul, den, den_ufY, den_two, den_four]
  norm_num

theorem uf4_fits : Fits uf4 Problems.uf4 :=
  .cons (fun x _ => by rw [den_add, den_uf4Base]; rfl)
    (.cons (fun x _ => by rw [den_add, den_sub, den_uf4Base, den_one]; rfl) .nil)

theorem den_uf5Base (x : List ℝ) (J : List ℕ) : den x (uf5Base J) = Problems.uf5Base x J := by
  simp only [uf5Base, Problems.uf5Base, den_add, den_mul, den_div, den_num, den_sumE, List.map_map, den_two, den_four, den_one]
  congr 1
  · simp only [den, den_mul, den_two, den_four]
    norm_num
  · refine congrArg₂ _ (congrArg₂ _ (by norm_num) (congrArg List.sum (List.map_congr_left fun j _ => ?_))) rfl
    simp only [Function.comp, uf5H, Problems.uf5H, den_add, den_sub, den_one, den_mul, den, den_ufY, den_two, den_four]
    norm_num

theorem uf5_fits : Fits uf5 Problems.uf5 :=
  .cons (fun x _ => by rw [den_add, den_uf5Base]; rfl)
    (.cons (fun x _ => by rw [den_add, den_sub, den_uf5Base, den_one]; rfl) .nil)

theorem den_uf6Base (x : List ℝ) (J : List ℕ) : den x (uf6Base J) = Problems.uf6Base x J := by
  rw [uf6Base, Problems.uf6Base, den_add, den_cosProd x J (den_ufY x 30)]
  congr 1
  simp only [den, den_add, den_div, den_mul, den_two, den_four, den_one]
  norm_num

theorem uf6_fits : Fits uf6 Problems.uf6 :=
  .cons (fun x _ => by rw [den_add, den_uf6Base]; rfl)
    (.cons (fun x _ => by rw [den_add, den_sub, den_uf6Base, den_one]; rfl) .nil)

theorem den_uf7Base (x : List ℝ) (J : List ℕ) : den x (uf7Base J) = Problems.uf7Base x J := by
  simp only [uf7Base, Problems.uf7Base, den_mul, den_div, den_num, den_sumE, List.map_map, den_two, den_four]
  refine congrArg₂ _ (congrArg₂ _ (by norm_num) (congrArg List.sum (List.map_congr_left fun j _ => ?_))) rfl
  simp only [Function.comp, den, den_ufY]

theorem uf7_fits : Fits uf7 Problems.uf7 :=
  .cons (fun x _ => by
      simp only [den_add, den_uf7Base, den]
      norm_num)
    (.cons (fun x _ => by
      simp only [den_add, den_sub, den_one, den_uf7Base, den]
      norm_num) .nil)

theorem den_uf8Y (x : List ℝ) (j : ℕ) : den x (uf8Y j) = Problems.uf8Y x j := by
  simp only [uf8Y, Problems.uf8Y, den_sub, den_add, den_mul, den_div, den_num, den, den_two, den_four]
  norm_num

theorem den_uf8Base (x : List ℝ) (J : List ℕ) : den x (uf8Base J) = Problems.uf8Base x J := by
  simp only [uf8Base, Problems.uf8Base, den_mul, den_div, den_num, den_sumE, List.map_map, den_two, den_four]
  refine congrArg₂ _ (congrArg₂ _ (by norm_num) (congrArg List.sum (List.map_congr_left fun j _ => ?_))) rfl
  simp only [Function.comp, den, den_uf8Y]

theorem den_half (x : List ℝ) (i : ℕ) : den x (half i) = 0.5 * x.getD i 0 * Real.pi := by
  simp only [half, den_mul, den]
  norm_num

theorem uf8_fits : Fits uf8 Problems.uf8 :=
  .cons (fun x _ => by simp only [den_add, den_mul, den, den_uf8Base, den_half])
    (.cons (fun x _ => by simp only [den_add, den_mul, den, den_uf8Base, den_half])
      (.cons (fun x _ => by simp only [den_add, den, den_uf8Base, den_half]) .nil))

theorem den_uf9Hump (x : List ℝ) : den x uf9Hump = Problems.uf9Hump (x.getD 0 0) := by
  simp only [uf9Hump, Problems.uf9Hump, den_sub, den_add, den_mul, den_one, den, den_two, den_four]
  norm_num

theorem uf9_fits : Fits uf9 Problems.uf9 :=
  .cons (fun x _ => by
      simp only [den_add, den_mul, den, den_uf8Base, den_uf9Hump, den_two, den_four]
      norm_num)
    (.cons (fun x _ => by
      simp only [den_add, den_sub, den_mul, den, den_uf8Base, den_uf9Hump, den_two, den_four]
      norm_num)
      (.cons (fun x _ => by rw [den_add, den_sub, den_uf8Base, den_one]; rfl) .nil))

theorem den_uf10Base (x : List ℝ) (J : List ℕ) : den x (uf10Base J) = Problems.uf10Base x J := by
  simp only [uf10Base, Problems.uf10Base, den_mul, den_div, den_num, den_sumE, List.map_map, den_two, den_four]
  refine congrArg₂ _ (congrArg₂ _ (by norm_num) (congrArg List.sum (List.map_congr_left fun j _ => ?_))) rfl
  simp only [Function.comp, den_add, den_sub, den_mul, den, den_uf8Y, den_two, den_four, den_one]
  norm_num

theorem uf10_fits : Fits uf10 Problems.uf10 :=
  .cons (fun x _ => by simp only [den_add, den_mul, den, den_uf10Base, den_half])
    (.cons (fun x _ => by simp only [den_add, den_mul, den, den_uf10Base, den_half])
      (.cons (fun x _ => by simp only [den_add, den, den_uf10Base, den_half]) .nil))

theorem den_ackley (x : List ℝ) : den x ackleyFit = Problems.ackleyFit x := by
  simp only [ackleyFit, Problems.ackleyFit, den_sub, den_add, den_mul, den, den_two, den_four]
  norm_num

theorem ackley_fits : Fits ackley Problems.ackley :=
  .cons (fun x _ => den_ackley x) (.cons (fun x _ => den_ackley x) .nil)

theorem ewa1_fits : Fits ewa1 Problems.ewa1 :=
  .cons (fun x _ => by simp only [den_add, den_mul, den, den_two, den_four, den_one]; norm_num)
    (.cons (fun x _ => by
      simp only [den_mul, den_sub, den]
      norm_num) .nil)

theorem ewa2_fits : Fits ewa2 Problems.ewa2 :=
  .cons (fun x _ => by simp only [den_add, den_mul, den, den_two, den_four, den_one]; norm_num)
    (.cons (fun x _ => by simp only [den_add, den_mul, den, den_two, den_four, den_one]; norm_num) .nil)

theorem kursawe_fits (front : List (List ℝ)) : Fits kursawe (Problems.kursawe front) := by
  have h3 : ∀ x : List ℝ, InBox x (Problems.kursawe front).dims → ∃ a b c, x = [a, b, c] := by
    intro x hx
    have : x.length = 3 := hx.length_eq
    match x, this with
    | [a, b, c], _ => exact ⟨a, b, c, rfl⟩
  refine .cons (fun x hx => ?_) (.cons (fun x hx => ?_) .nil)
  · obtain ⟨a, b, c, rfl⟩ := h3 x hx
    simp only [den_sumE, List.map_cons, List.map_nil, List.sum_cons, List.sum_nil, den_mul, den, den_add, List.tail_cons,
      List.zipWith_cons_cons, List.zipWith_nil_right, List.getD_cons_zero, List.getD_cons_succ]
    norm_num
  · obtain ⟨a, b, c, rfl⟩ := h3 x hx
    simp only [den_sumE, List.map_cons, List.map_nil, List.sum_cons, List.sum_nil, den_mul, den, den_add, den_two, den_four,
      List.getD_cons_zero, List.getD_cons_succ]
    norm_num

section

variable {L : Lib} (h : IsMathLib L)

include h in
theorem accurate' {es : List Expr} {p : Problem} {box : List (ℤ × ℤ)} (n : ℕ) (hp : ∀ x, InBox x p.dims → Within (id x) box)
    (hf : Fits es p) (he : errOk box es (1 / ((10 ^ n : ℕ) : ℚ)) = true) : Accurate L es p (1 / 10 ^ n) := by
  have := accurate h hp hf he
  push_cast at this
  exact this

include h in
/-- **C139 (ZDT problems).** The computed values differ little from the exact ones. -/
theorem C139_zdt : Accurate L zdt1 Problems.zdt1 (1 / 10 ^ 12) ∧ Accurate L zdt2 Problems.zdt2 (1 / 10 ^ 12) ∧
    Accurate L zdt3 Problems.zdt3 (1 / 10 ^ 12) ∧ Accurate L zdt4 Problems.zdt4 (1 / 10 ^ 8) ∧
    Accurate L zdt6 Problems.zdt6 (1 / 10 ^ 9) :=
  ⟨accurate' h 12 (within_box (unit_dims 30)) zdt1_fits (by decide +kernel),
   accurate' h 12 (within_box (unit_dims 30)) zdt2_fits (by decide +kernel),
   accurate' h 12 (within_box (unit_dims 30)) zdt3_fits (by decide +kernel),
   accurate' h 8 (within_box zdt4_dims) zdt4_fits (by decide +kernel),
   accurate' h 9 (within_box (unit_dims 10)) zdt6_fits (by decide +kernel)⟩

include h in
/-- **C139 (UF problems with two objectives).** -/
theorem C139_uf2 : Accurate L uf1 Problems.uf1 (1 / 10 ^ 11) ∧ Accurate L uf2 Problems.uf2 (1 / 10 ^ 9) ∧
    Accurate L uf3 Problems.uf3 (1 / 10 ^ 10) ∧ Accurate L uf4 Problems.uf4 (1 / 10 ^ 8) ∧
    Accurate L uf5 Problems.uf5 (1 / 10 ^ 11) ∧ Accurate L uf6 Problems.uf6 (1 / 10 ^ 9) ∧
    Accurate L uf7 Problems.uf7 (1 / 10 ^ 11) :=
  ⟨accurate' h 11 (within_box (uf_dims (b := 1) (by norm_num))) uf1_fits (by decide +kernel),
   accurate' h 9 (within_box (uf_dims (b := 1) (by norm_num))) uf2_fits (by decide +kernel),
   accurate' h 10 (within_box (box := List.replicate 30 (0, 1)) (by simp [Problems.uf3])) uf3_fits (by decide +kernel),
   accurate' h 8 (within_box (uf_dims (b := 2) (by norm_num))) uf4_fits (by decide +kernel),
   accurate' h 11 (within_box (uf_dims (b := 1) (by norm_num))) uf5_fits (by decide +kernel),
   accurate' h 9 (within_box (uf_dims (b := 1) (by norm_num))) uf6_fits (by decide +kernel),
   accurate' h 11 (within_box (uf_dims (b := 1) (by norm_num))) uf7_fits (by decide +kernel)⟩

include h in
/-- **C139 (UF problems with three objectives).** -/
theorem C139_uf3 : Accurate L uf8 Problems.uf8 (1 / 10 ^ 10) ∧ Accurate L uf9 Problems.uf9 (1 / 10 ^ 10) ∧
    Accurate L uf10 Problems.uf10 (1 / 10 ^ 9) :=
  ⟨accurate' h 10 (within_box uf8_dims) uf8_fits (by decide +kernel),
   accurate' h 10 (within_box uf8_dims) uf9_fits (by decide +kernel),
   accurate' h 9 (within_box uf8_dims) uf10_fits (by decide +kernel)⟩

include h in
/-- **C139 (the small problems).** -/
theorem C139_small (front : List (List ℝ)) : Accurate L ackley Problems.ackley (1 / 10 ^ 12) ∧
    Accurate L ewa1 Problems.ewa1 (1 / 10 ^ 13) ∧ Accurate L ewa2 Problems.ewa2 (1 / 10 ^ 13) ∧
    Accurate L kursawe (Problems.kursawe front) (1 / 10 ^ 11) :=
  ⟨accurate' h 12 ackley_within ackley_fits (by decide +kernel),
   accurate' h 13 (within_box (box := [(0, 1), (0, 1)]) (by simp [Problems.ewa1])) ewa1_fits (by decide +kernel),
   accurate' h 13 (within_box (box := [(0, 1), (0, 1)]) (by simp [Problems.ewa2])) ewa2_fits (by decide +kernel),
   accurate' h 11 (within_box (box := [(-5, 5), (-5, 5), (-5, 5)]) (by simp [Problems.kursawe])) (kursawe_fits front)
     (by decide +kernel)⟩

end

/-! ## Examples -/

/-- A library that rounds correctly computes the first objective of EWA1 at a corner of the box. -/
example : ∃ v, eval correctlyRounded [1, 0] (.sin (50 * .var 0) * .cos (50 * .var 1) + 1) = some v ∧
    |v - (Real.sin 50 + 1)| ≤ 1 / 10 ^ 13 := by
  have h1 := (C139_small correctlyRounded_isMathLib []).2.1
  cases h1 with
  | cons h _ =>
    obtain ⟨v, hv, hb⟩ := h [1, 0] (.cons (by norm_num) (.cons (by norm_num) .nil))
    exact ⟨v, hv, by simpa using hb⟩

/-- The analysis of a single product: one rounding. -/
example : err 0 [(0, 1), (0, 1)] (.var 0 * .var 1) = some (unit, tiny) := by decide +kernel

/-- Without a bound on the divisor nothing is known. -/
example : range [(0, 1), (0, 1)] (.var 0 / .var 1) = none := by decide +kernel

end Evogil.RoundedProblems
