import Verif.Model.RoundedProblems
import Verif.Lemmas.MathLib
import Verif.Spec.Box

/-!
# C138: every decision vector of the box can be evaluated in floating point
-/

set_option linter.unusedSectionVars false

namespace Evogil.RoundedProblems

open Spec FloatExpr Binary64 Problems

/-- For every vector of the box every objective function returns a finite number of magnitude at most `B`; `prep` prepares the
variables of the expressions. -/
def Evaluates (L : Lib) (prep : List ℝ → List ℝ) (es : List Expr) (dims : List (ℝ × ℝ)) (B : ℤ) : Prop :=
  ∀ x, InBox x dims → ∀ t ∈ es, ∃ v, eval L (prep x) t = some v ∧ |v| ≤ B

/-- The bounds found by the analysis are small enough. -/
def rangeOk (box : List (ℤ × ℤ)) (es : List Expr) (B : ℤ) : Bool :=
  es.all fun t => match range box t with
    | some r => decide (-B ≤ r.1 ∧ r.2 ≤ B)
    | none => false

theorem evaluates {L : Lib} (hL : Bounded L) {prep : List ℝ → List ℝ} {es : List Expr} {dims : List (ℝ × ℝ)} {box : List (ℤ × ℤ)}
    {B : ℤ} (hp : ∀ x, InBox x dims → Within (prep x) box) (h : rangeOk box es B = true) : Evaluates L prep es dims B := by
  intro x hx t ht
  have := List.all_eq_true.1 h t ht
  split at this
  · rename_i r hr
    obtain ⟨v, h1, h2, h3⟩ := range_sound hL (hp x hx) t r hr
    have hB := of_decide_eq_true this
    have b1 : (-B : ℝ) ≤ r.1 := by exact_mod_cast hB.1
    have b2 : (r.2 : ℝ) ≤ B := by exact_mod_cast hB.2
    exact ⟨v, h1, abs_le.2 ⟨by linarith, by linarith⟩⟩
  · simp at this

theorem within_forall₂ {x : List ℝ} {box : List (ℤ × ℤ)} (h : List.Forall₂ (fun v b => (b.1 : ℝ) ≤ v ∧ v ≤ b.2) x box) :
    Within x box := by
  intro i b hb
  induction h generalizing i with
  | nil => simp at hb
  | @cons v b' x box hv _ ih =>
    cases i with
    | zero =>
      simp only [List.getElem?_cons_zero, Option.some.injEq] at hb ⊢
      subst hb
      exact ⟨v, rfl, hv⟩
    | succ i => simpa using ih i (by simpa using hb)

theorem within_box {dims : List (ℝ × ℝ)} {box : List (ℤ × ℤ)} (hd : dims = box.map fun b => ((b.1 : ℝ), (b.2 : ℝ)))
    (x : List ℝ) (hx : InBox x dims) : Within (id x) box := by
  subst hd
  refine within_forall₂ ?_
  exact List.forall₂_map_right_iff.1 hx

/-- The box of most problems. -/
def box (h : List (ℤ × ℤ)) (n : ℕ) (b : ℤ) : List (ℤ × ℤ) := h ++ List.replicate n (-b, b)

theorem unit_dims (n : ℕ) : ((List.range n).map fun _ => ((0 : ℝ), (1 : ℝ))) =
    (List.replicate n ((0, 1) : ℤ × ℤ)).map fun b => ((b.1 : ℝ), (b.2 : ℝ)) := by
  simp [List.map_replicate]

theorem box_dims (l : List (ℤ × ℤ)) (n : ℕ) (b : ℤ) :
    (l.map fun b => ((b.1 : ℝ), (b.2 : ℝ))) ++ List.replicate n (-(b : ℝ), (b : ℝ)) =
      (box l n b).map fun b => ((b.1 : ℝ), (b.2 : ℝ)) := by
  simp [box, List.map_replicate]

theorem zdt4_dims : Problems.zdt4.dims = (box [(0, 1)] 9 5).map fun b => ((b.1 : ℝ), (b.2 : ℝ)) := by
  rw [← box_dims]
  show [((0 : ℝ), (1 : ℝ))] ++ ((List.range (10 - 1)).map fun _ => ((-5 : ℝ), (5 : ℝ))) = _
  simp

theorem uf_dims {n : ℕ} {b : ℤ} {b' : ℝ} (hb : b' = b) : [((0 : ℝ), (1 : ℝ))] ++ List.replicate n (-b', b') =
    (box [(0, 1)] n b).map fun b => ((b.1 : ℝ), (b.2 : ℝ)) := by
  rw [← box_dims, hb]; simp

theorem uf8_dims : List.replicate 2 ((0 : ℝ), (1 : ℝ)) ++ List.replicate (30 - 2) (-2, 2) =
    (box [(0, 1), (0, 1)] 28 2).map fun b => ((b.1 : ℝ), (b.2 : ℝ)) := by
  rw [← box_dims]; simp [List.replicate]

section

variable {L : Lib} (h : IsMathLib L)

include h in
/-- **C138 (ZDT problems).** No vector of the box makes an objective function raise, and the values are bounded. -/
theorem C138_zdt : Evaluates L id zdt1 Problems.zdt1.dims 100 ∧ Evaluates L id zdt2 Problems.zdt2.dims 100 ∧
    Evaluates L id zdt3 Problems.zdt3.dims 100 ∧ Evaluates L id zdt4 Problems.zdt4.dims 1000 ∧
    Evaluates L id zdt6 Problems.zdt6.dims 2000 :=
  ⟨evaluates h.bounded (within_box (unit_dims 30)) (by decide +kernel),
   evaluates h.bounded (within_box (unit_dims 30)) (by decide +kernel),
   evaluates h.bounded (within_box (unit_dims 30)) (by decide +kernel),
   evaluates h.bounded (within_box zdt4_dims) (by decide +kernel),
   evaluates h.bounded (within_box (unit_dims 10)) (by decide +kernel)⟩

include h in
/-- **C138 (UF problems with two objectives).** -/
theorem C138_uf2 : Evaluates L id uf1 Problems.uf1.dims 1000 ∧ Evaluates L id uf2 Problems.uf2.dims 1000 ∧
    Evaluates L id uf3 Problems.uf3.dims 1000 ∧ Evaluates L id uf4 Problems.uf4.dims 100 ∧
    Evaluates L id uf5 Problems.uf5.dims 1000 ∧ Evaluates L id uf6 Problems.uf6.dims 1000 ∧
    Evaluates L id uf7 Problems.uf7.dims 1000 :=
  ⟨evaluates h.bounded (within_box (uf_dims (b := 1) (by norm_num))) (by decide +kernel),
   evaluates h.bounded (within_box (uf_dims (b := 1) (by norm_num))) (by decide +kernel),
   evaluates h.bounded (within_box (box := List.replicate 30 (0, 1)) (by simp [Problems.uf3]))
     (by decide +kernel),
   evaluates h.bounded (within_box (uf_dims (b := 2) (by norm_num))) (by decide +kernel),
   evaluates h.bounded (within_box (uf_dims (b := 1) (by norm_num))) (by decide +kernel),
   evaluates h.bounded (within_box (uf_dims (b := 1) (by norm_num))) (by decide +kernel),
   evaluates h.bounded (within_box (uf_dims (b := 1) (by norm_num))) (by decide +kernel)⟩

include h in
/-- **C138 (UF problems with three objectives).** -/
theorem C138_uf3 : Evaluates L id uf8 Problems.uf8.dims 5000 ∧ Evaluates L id uf9 Problems.uf9.dims 5000 ∧
    Evaluates L id uf10 Problems.uf10.dims 5000 :=
  ⟨evaluates h.bounded (within_box uf8_dims) (by decide +kernel),
   evaluates h.bounded (within_box uf8_dims) (by decide +kernel),
   evaluates h.bounded (within_box uf8_dims) (by decide +kernel)⟩

theorem ackley_within (x : List ℝ) (hx : InBox x Problems.ackley.dims) : Within (id x) [(-2, 2), (-2, 2)] := by
  refine within_forall₂ ?_
  change List.Forall₂ _ x [(-1.5, 1.5), (-1.5, 1.5)] at hx
  match x, hx with
  | [a, b], .cons ha (.cons hb .nil) =>
    refine .cons ⟨?_, ?_⟩ (.cons ⟨?_, ?_⟩ .nil) <;> norm_num at ha hb ⊢ <;> linarith

include h in
/-- **C138 (the small problems).** -/
theorem C138_small (front : List (List ℝ)) : Evaluates L id ackley Problems.ackley.dims 100 ∧
    Evaluates L id ewa1 Problems.ewa1.dims 100 ∧ Evaluates L id ewa2 Problems.ewa2.dims 100 ∧
    Evaluates L id kursawe (Problems.kursawe front).dims 100 :=
  ⟨evaluates h.bounded ackley_within (by decide +kernel),
   evaluates h.bounded (within_box (box := [(0, 1), (0, 1)]) (by simp [Problems.ewa1])) (by decide +kernel),
   evaluates h.bounded (within_box (box := [(0, 1), (0, 1)]) (by simp [Problems.ewa2])) (by decide +kernel),
   evaluates h.bounded (within_box (box := [(-5, 5), (-5, 5), (-5, 5)]) (by simp [Problems.kursawe])) (by decide +kernel)⟩

/-! ## UF11 and UF12 -/

theorem sum_products {a b : List ℝ} (ha : ∀ s ∈ a, |s| ≤ 1) (hb : ∀ t ∈ b, |t| ≤ 3) :
    |(List.zipWith (fun s t => s * t) a b).sum| ≤ 3 * a.length ∧
    (List.zipWith (fun s t => |s * t|) a b).sum ≤ 3 * a.length := by
  induction a generalizing b with
  | nil => simp
  | cons s a ih =>
    cases b with
    | nil =>
      simp only [List.zipWith_nil_right, List.sum_nil, abs_zero, List.length_cons]
      constructor <;> positivity
    | cons t b =>
      obtain ⟨i1, i2⟩ := ih (fun s hs => ha s (List.mem_cons_of_mem _ hs)) (b := b) fun t ht => hb t (List.mem_cons_of_mem _ ht)
      have h1 := ha s (List.mem_cons_self ..)
      have h2 := hb t (List.mem_cons_self ..)
      have h3 : |s * t| ≤ 3 := by
        rw [abs_mul]
        calc |s| * |t| ≤ 1 * 3 := mul_le_mul h1 h2 (abs_nonneg t) (by norm_num)
          _ = 3 := by norm_num
      simp only [List.zipWith_cons_cons, List.sum_cons, List.length_cons]
      push_cast
      exact ⟨(abs_add_le _ _).trans (by linarith), by linarith⟩

theorem rot_box (x : List ℝ) (hx : InBox x (rotDims.map fun b : ℚ × ℚ => ((b.1 : ℝ), (b.2 : ℝ)))) :
    x.length = 30 ∧ ∀ t ∈ x, |t| ≤ 3 := by
  refine ⟨hx.length_eq.trans (by rw [List.length_map]; decide +kernel), fun t ht => ?_⟩
  have hx' := List.forall₂_map_right_iff.1 hx
  have hd : ∀ d ∈ rotDims, -3 ≤ d.1 ∧ d.2 ≤ 3 := by decide +kernel
  clear hx
  generalize rotDims = D at hx' hd
  induction hx' with
  | nil => simp at ht
  | cons h _ ih =>
    rcases List.mem_cons.1 ht with rfl | ht
    · have := hd _ (List.mem_cons_self ..)
      refine abs_le.2 ⟨le_trans ?_ h.1, h.2.trans ?_⟩
      · have h1 := (Rat.cast_le (K := ℝ)).2 this.1
        push_cast at h1
        exact h1
      · have h2 := (Rat.cast_le (K := ℝ)).2 this.2
        push_cast at h2
        exact h2
    · exact ih ht fun d hd' => hd d (List.mem_cons_of_mem _ hd')

theorem rot_within {dot : List ℝ → List ℝ → ℝ} (hdot : IsDot dot) {block : List (List ℤ)}
    (hM : (rotM block).length = 30 ∧ ∀ row ∈ rotM block, row.length = 30 ∧ ∀ q ∈ row, |q| ≤ 1) (x : List ℝ)
    (hx : InBox x (rotDims.map fun b : ℚ × ℚ => ((b.1 : ℝ), (b.2 : ℝ)))) :
    Within (rotZ dot block x) (List.replicate 30 (-100, 100)) := by
  obtain ⟨hl, hb⟩ := rot_box x hx
  intro i b hb'
  rw [List.getElem?_replicate] at hb'
  split_ifs at hb' with hi
  obtain rfl := Option.some.inj hb'
  have hi' : i < (rotM block).length := by omega
  refine ⟨dot (((rotM block)[i]).map fun q : ℚ => round64 (q : ℝ)) x, ?_, ?_⟩
  · rw [rotZ, List.getElem?_map, List.getElem?_eq_getElem hi']; rfl
  obtain ⟨r1, r2⟩ := hM.2 _ (List.getElem_mem hi')
  generalize (rotM block)[i] = row at r1 r2 ⊢
  have ha : ∀ s ∈ row.map fun q : ℚ => round64 (q : ℝ), |s| ≤ 1 := by
    intro s hs
    obtain ⟨q, hq, rfl⟩ := List.mem_map.1 hs
    exact round64_unit (by exact_mod_cast r2 q hq)
  obtain ⟨s1, s2⟩ := sum_products ha hb
  have hd := hdot.near (row.map fun q : ℚ => round64 (q : ℝ)) x (by rw [List.length_map]; exact r1) hl
  rw [List.length_map, r1] at s1 s2
  generalize dot (row.map fun q : ℚ => round64 (q : ℝ)) x = d at hd ⊢
  generalize (List.zipWith (fun s t => s * t) (row.map fun q : ℚ => round64 (q : ℝ)) x).sum = p at s1 hd
  generalize (List.zipWith (fun s t => |s * t|) (row.map fun q : ℚ => round64 (q : ℝ)) x).sum = q at s2 hd
  have h1 : (1 / 2 ^ 47 : ℝ) * q ≤ 1 / 2 ^ 47 * (3 * (30 : ℕ)) := mul_le_mul_of_nonneg_left s2 (by norm_num)
  have h2 : (1 / 2 ^ 47 * (3 * (30 : ℕ)) + 1 / 2 ^ 1000 : ℝ) ≤ 1 :=
    (add_le_add_right tiny_le _).trans (by norm_num)
  have h3 := abs_le.1 (hd.trans (by linarith : _ ≤ (1 : ℝ)))
  have h4 := abs_le.1 s1
  push_cast at h4 ⊢
  constructor <;> linarith

include h in
/-- **C138 (the rotated problems).** -/
theorem C138_rotated {dot : List ℝ → List ℝ → ℝ} (hdot : IsDot dot) (front : List (List ℝ)) :
    Evaluates L (rotZ dot uf11Block) uf11 (Problems.uf11 front).dims (2 * 10 ^ 6) ∧
    Evaluates L (rotZ dot uf12Block) uf12 (Problems.uf12 front).dims (2 * 10 ^ 8) :=
  ⟨evaluates h.bounded (rot_within hdot (by decide +kernel)) (by decide +kernel),
   evaluates h.bounded (rot_within hdot (by decide +kernel)) (by decide +kernel)⟩

end

/-! ## Examples -/

/-- The laws of the library are those of a library that rounds correctly. -/
example : Evaluates correctlyRounded id zdt4 Problems.zdt4.dims 1000 := (C138_zdt correctlyRounded_isMathLib).2.2.2.1

/-- In a box with negative numbers a square root raises. -/
example (L : Lib) : ¬ Evaluates L id [.sqrt (.var 0)] [(-1, 1)] 1000 := by
  intro hc
  obtain ⟨v, hv, -⟩ := hc [-1] (.cons ⟨le_rfl, by norm_num⟩ .nil) _ (List.mem_singleton_self _)
  simp [eval] at hv

/-- The value of EWA1 in the middle of the box. -/
example {L : Lib} (h : IsMathLib L) (h0 : L.ipow 0 2 = 0) : eval L [1 / 2, 1 / 2] (ewa1.getD 1 0) = some 0 := by
  have e : L.fl (1 / 2) = 1 / 2 := by
    rw [h.fl]
    exact round64_float ⟨1, -1, by norm_num, by norm_num, by norm_num⟩
  have z : L.fl 0 = 0 := by rw [h.fl]; simpa using round64_int 0 (by norm_num)
  have o : ok (1 / 2 : ℝ) = some (1 / 2) := by
    unfold ok
    rw [if_pos]
    rw [abs_of_pos (by norm_num : (0 : ℝ) < 1 / 2)]
    exact lt_of_lt_of_le (by norm_num) (one_le_pow₀ (by norm_num))
  have o0 : ok (0 : ℝ) = some 0 := by simp [ok]
  have l : ((1 / 2 : ℚ) : ℝ) = 1 / 2 := by norm_num
  show eval L _ (.mul (.ipow (.sub (.var 0) (.lit (1 / 2))) 2) (.ipow (.sub (.var 1) (.lit (1 / 2))) 2)) = _
  simp only [eval, l, e, o, List.getElem?_cons_zero, List.getElem?_cons_succ, Option.bind_some, sub_self, z, o0, h0, mul_zero]

end Evogil.RoundedProblems
