import Verif.Props.Problems
import Mathlib.Topology.Order.IntermediateValue

/-!
# C55: the fronts of UF8 and UF10 are attainable

Their points lie above the unit sphere (the exponent is 1/3 instead of 1/2, see `C56_uf8_violated`), but
the distance terms can make up for the difference.
-/

set_option linter.unusedSectionVars false

namespace Evogil.Problems
open Spec

/-- From a point of the unit cube outside the sphere one gets to the sphere by subtracting `r`, `r` and
`r * 19 / 18`, where coordinates stop at zero; two of the three are not stopped. -/
theorem to_sphere {x y z : ℝ} (hx : 0 ≤ x) (hx1 : x ≤ 1) (hy : 0 ≤ y) (hy1 : y ≤ 1) (hz : 0 ≤ z) (hz1 : z ≤ 1)
    (h : 1 ≤ x ^ 2 + y ^ 2 + z ^ 2) :
    ∃ p q r : ℝ, 0 ≤ p ∧ p ≤ x ∧ 0 ≤ q ∧ q ≤ y ∧ 0 ≤ r ∧ r ≤ 18 / 19 * z ∧ p ≤ q + r ∧ q ≤ p + r ∧ r ≤ p + q ∧
      (x - p) ^ 2 + (y - q) ^ 2 + (z - 19 / 18 * r) ^ 2 = 1 := by
  set w := 18 / 19 * z with hw
  set m := max (min x y) (min (max x y) w) with hm
  have hw0 : 0 ≤ w := by positivity
  have hm0 : 0 ≤ m := le_max_of_le_left (le_min hx hy)
  let f : ℝ → ℝ := fun t => (x - min t x) ^ 2 + (y - min t y) ^ 2 + (z - 19 / 18 * min t w) ^ 2
  have hf : Continuous f := by fun_prop
  have f0 : 1 ≤ f 0 := by
    simp only [f, min_eq_left hx, min_eq_left hy, min_eq_left hw0]
    simpa using h
  have fm : f m ≤ 1 := by
    have two : (x ≤ m ∧ y ≤ m) ∨ (x ≤ m ∧ w ≤ m) ∨ (y ≤ m ∧ w ≤ m) := by
      rw [hm]
      rcases le_total x y with h1 | h1 <;> rcases le_total w y with h2 | h2 <;> rcases le_total w x with h3 | h3 <;>
        simp [h1, h2, h3]
    have sq : ∀ a b : ℝ, 0 ≤ a → a ≤ 1 → 0 ≤ b → b ≤ a → (a - b) ^ 2 ≤ 1 := by
      intro a b _ _ _ _
      nlinarith
    have ez : z - 19 / 18 * w = 0 := by rw [hw]; ring
    rcases two with ⟨h1, h2⟩ | ⟨h1, h2⟩ | ⟨h1, h2⟩
    · simp only [f, min_eq_right h1, min_eq_right h2, sub_self]
      have := sq z (19 / 18 * min m w) hz hz1 (by positivity) (by
        have : min m w ≤ w := min_le_right _ _
        linarith)
      linarith
    · simp only [f, min_eq_right h1, min_eq_right h2, sub_self, ez]
      have := sq y (min m y) hy hy1 (le_min hm0 hy) (min_le_right _ _)
      linarith
    · simp only [f, min_eq_right h1, min_eq_right h2, sub_self, ez]
      have := sq x (min m x) hx hx1 (le_min hm0 hx) (min_le_right _ _)
      linarith
  obtain ⟨t, ⟨t0, tm⟩, ht⟩ := intermediate_value_Icc' hm0 hf.continuousOn ⟨fm, f0⟩
  refine ⟨min t x, min t y, min t w, le_min t0 hx, min_le_right _ _, le_min t0 hy, min_le_right _ _,
    le_min t0 hw0, min_le_right _ _, ?_, ?_, ?_, ht⟩
  all_goals
    rw [hm] at tm
    rcases le_total x y with h1 | h1 <;> rcases le_total w y with h2 | h2 <;> rcases le_total w x with h3 | h3 <;>
      simp only [h1, h2, h3, min_eq_left, min_eq_right, max_eq_left, max_eq_right] at tm <;>
      rcases le_total t x with h4 | h4 <;> rcases le_total t y with h5 | h5 <;> rcases le_total t w with h6 | h6 <;>
      simp only [h4, h5, h6, min_eq_left, min_eq_right] <;> linarith

/-- The points of the sphere with nonnegative coordinates are the images of the parameters. -/
theorem sphere_point {a b c : ℝ} (ha : 0 ≤ a) (hb : 0 ≤ b) (hc : 0 ≤ c) (h : a ^ 2 + b ^ 2 + c ^ 2 = 1) :
    ∃ s t, (0 ≤ s ∧ s ≤ 1) ∧ (0 ≤ t ∧ t ≤ 1) ∧
      Real.cos (0.5 * s * Real.pi) * Real.cos (0.5 * t * Real.pi) = a ∧
      Real.cos (0.5 * s * Real.pi) * Real.sin (0.5 * t * Real.pi) = b ∧ Real.sin (0.5 * s * Real.pi) = c := by
  have hu : 0 ≤ a ^ 2 + b ^ 2 := by positivity
  have hsq := Real.sq_sqrt hu
  obtain ⟨s, s0, s1, hcos, hsin⟩ := sphere_param (c := Real.sqrt (a ^ 2 + b ^ 2)) (Real.sqrt_nonneg _)
    (Real.sqrt_le_one.2 (by nlinarith))
  rw [hsq, show 1 - (a ^ 2 + b ^ 2) = c ^ 2 by linarith, Real.sqrt_sq hc] at hsin
  rcases eq_or_lt_of_le (Real.sqrt_nonneg (a ^ 2 + b ^ 2)) with hz | hp
  · have e : a ^ 2 + b ^ 2 = 0 := by rw [← hsq, ← hz]; ring
    refine ⟨s, 0, ⟨s0, s1⟩, ⟨le_rfl, zero_le_one⟩, ?_, ?_, hsin⟩
    · rw [hcos, ← hz, zero_mul]
      nlinarith [sq_nonneg a, sq_nonneg b]
    · rw [hcos, ← hz, zero_mul]
      nlinarith [sq_nonneg a, sq_nonneg b]
  · set u := Real.sqrt (a ^ 2 + b ^ 2)
    have hau : a ≤ u := by
      apply Real.le_sqrt_of_sq_le
      nlinarith [sq_nonneg b]
    obtain ⟨t, t0, t1, tc, ts⟩ := sphere_param (c := a / u) (by positivity) ((div_le_one hp).2 hau)
    refine ⟨s, t, ⟨s0, s1⟩, ⟨t0, t1⟩, ?_, ?_, hsin⟩
    · rw [hcos, tc]; field_simp
    · rw [hcos, ts, show 1 - (a / u) ^ 2 = (b / u) ^ 2 by field_simp; linarith, Real.sqrt_sq (by positivity)]
      field_simp

/-- The decision vector with first entries `s`, `t`, where entry `j` differs by `v j` from the optimal one. -/
noncomputable def off (s t : ℝ) (v : ℕ → ℝ) : List ℝ :=
  sol 30 fun j => if j = 1 then s else if j = 2 then t else
    2 * t * Real.sin (2 * Real.pi * s + j * Real.pi / 30) + v j

theorem off_zero (s t : ℝ) (v) : (off s t v).getD 0 0 = s := by
  unfold off
  rw [show (0 : ℕ) = 1 - 1 from rfl, sol_getD _ _ 1 le_rfl (by omega), if_pos rfl]

theorem off_one (s t : ℝ) (v) : (off s t v).getD 1 0 = t := by
  unfold off
  rw [show (1 : ℕ) = 2 - 1 from rfl, sol_getD _ _ 2 (by omega) (by omega), if_neg (by omega),
    if_pos rfl]

theorem off_y (s t : ℝ) (v) {j : ℕ} (h : 3 ≤ j ∧ j ≤ 30) : uf8Y (off s t v) j = v j := by
  unfold uf8Y
  rw [off_zero, off_one]
  unfold off
  rw [sol_getD _ _ j (by omega) h.2, if_neg (by omega), if_neg (by omega), add_sub_cancel_left]

/-- A difference `y` with the sign that keeps entry `j` in its interval. -/
noncomputable def signed (s : ℝ) (y : ℕ → ℝ) (j : ℕ) : ℝ :=
  if 0 ≤ Real.sin (2 * Real.pi * s + j * Real.pi / 30) then -y (j % 3) else y (j % 3)

theorem off_inBox {s t : ℝ} (hs : 0 ≤ s ∧ s ≤ 1) (ht : 0 ≤ t ∧ t ≤ 1) {y : ℕ → ℝ}
    (hy : ∀ k, 0 ≤ y k ∧ y k ≤ 2) :
    InBox (off s t (signed s y)) (List.replicate 2 (0, 1) ++ List.replicate (30 - 2) (-2, 2)) := by
  refine sol_inBox _ _ _ (by simp) fun i d hd => ?_
  match i, hd with
  | 0, hd =>
    obtain rfl : ((0 : ℝ), (1 : ℝ)) = d := by simpa using hd
    simpa using hs
  | 1, hd =>
    obtain rfl : ((0 : ℝ), (1 : ℝ)) = d := by simpa using hd
    simpa using ht
  | i + 2, hd =>
    rw [List.getElem?_append_right (by simp), List.getElem?_replicate] at hd
    split_ifs at hd
    obtain rfl := Option.some.inj hd
    rw [if_neg (by omega), if_neg (by omega)]
    unfold signed
    have h1 := Real.sin_le_one (2 * Real.pi * s + (i + 2 + 1 : ℕ) * Real.pi / 30)
    have h2 := Real.neg_one_le_sin (2 * Real.pi * s + (i + 2 + 1 : ℕ) * Real.pi / 30)
    obtain ⟨h3, h4⟩ := hy ((i + 2 + 1) % 3)
    obtain ⟨h5, h6⟩ := ht
    split_ifs with h7
    · constructor <;> nlinarith
    · constructor <;> nlinarith

theorem sum_mod1 (f : ℕ → ℝ) (g : ℕ → ℝ) (h : ∀ j, 3 ≤ j ∧ j ≤ 30 → f j = g (j % 3)) :
    ((mod1 30).map f).sum = 10 * g 0 + 9 * g 2 := by
  rw [List.map_congr_left fun j hj => h j (mod1_mem hj)]
  rw [show mod1 30 = [3, 5, 6, 8, 9, 11, 12, 14, 15, 17, 18, 20, 21, 23, 24, 26, 27, 29, 30] by decide]
  simp only [List.map_cons, List.map_nil, List.sum_cons, List.sum_nil, Nat.reduceMod]
  ring

theorem sum_mod2 (f : ℕ → ℝ) (g : ℕ → ℝ) (h : ∀ j, 3 ≤ j ∧ j ≤ 30 → f j = g (j % 3)) :
    ((mod2 30).map f).sum = 10 * g 0 + 9 * g 1 := by
  rw [List.map_congr_left fun j hj => h j (mod2_mem hj)]
  rw [show mod2 30 = [3, 4, 6, 7, 9, 10, 12, 13, 15, 16, 18, 19, 21, 22, 24, 25, 27, 28, 30] by decide]
  simp only [List.map_cons, List.map_nil, List.sum_cons, List.sum_nil, Nat.reduceMod]
  ring

theorem sum_mod3 (f : ℕ → ℝ) (g : ℕ → ℝ) (h : ∀ j, 3 ≤ j ∧ j ≤ 30 → f j = g (j % 3)) :
    ((mod3 30).map f).sum = 9 * g 1 + 9 * g 2 := by
  rw [List.map_congr_left fun j hj => h j (mod3_mem hj)]
  rw [show mod3 30 = [4, 5, 7, 8, 10, 11, 13, 14, 16, 17, 19, 20, 22, 23, 25, 26, 28, 29] by decide]
  simp only [List.map_cons, List.map_nil, List.sum_cons, List.sum_nil, Nat.reduceMod]
  ring

/-- For any continuous, even distance function `h` that is zero at 0 and at least 4 at 2, every point of the
unit cube outside the sphere is attained. -/
theorem attain_above (h : ℝ → ℝ) (hc : Continuous h) (he : ∀ y, h (-y) = h y) (h0 : h 0 = 0) (h2 : 4 ≤ h 2)
    {x y z : ℝ} (hx : 0 ≤ x) (hx1 : x ≤ 1) (hy : 0 ≤ y) (hy1 : y ≤ 1) (hz : 0 ≤ z) (hz1 : z ≤ 1)
    (hn : 1 ≤ x ^ 2 + y ^ 2 + z ^ 2) :
    ∃ v, InBox v (List.replicate 2 (0, 1) ++ List.replicate (30 - 2) (-2, 2)) ∧
      Real.cos (0.5 * v.getD 0 0 * Real.pi) * Real.cos (0.5 * v.getD 1 0 * Real.pi) +
        2 * ((mod1 30).map fun j => h (uf8Y v j)).sum / ((mod1 30).length : ℝ) = x ∧
      Real.cos (0.5 * v.getD 0 0 * Real.pi) * Real.sin (0.5 * v.getD 1 0 * Real.pi) +
        2 * ((mod2 30).map fun j => h (uf8Y v j)).sum / ((mod2 30).length : ℝ) = y ∧
      Real.sin (0.5 * v.getD 0 0 * Real.pi) +
        2 * ((mod3 30).map fun j => h (uf8Y v j)).sum / ((mod3 30).length : ℝ) = z := by
  obtain ⟨p, q, r, p0, px, q0, qy, r0, rz, t1, t2, t3, hs⟩ := to_sphere hx hx1 hy hy1 hz hz1 hn
  obtain ⟨s, t, hs', ht', e1, e2, e3⟩ := sphere_point (a := x - p) (b := y - q) (c := z - 19 / 18 * r)
    (by linarith) (by linarith) (by linarith) hs
  have iv : ∀ a : ℝ, 0 ≤ a → a ≤ 4 → ∃ u, (0 ≤ u ∧ u ≤ 2) ∧ h u = a := by
    intro a a0 a4
    obtain ⟨u, hu, e⟩ := intermediate_value_Icc (show (0 : ℝ) ≤ 2 by norm_num) hc.continuousOn
      ⟨h0.trans_le a0, a4.trans h2⟩
    exact ⟨u, hu, e⟩
  obtain ⟨u0, b0, d0⟩ := iv (19 / 40 * (p + q - r)) (by linarith) (by linarith)
  obtain ⟨u1, b1, d1⟩ := iv (19 / 36 * (q + r - p)) (by linarith) (by linarith)
  obtain ⟨u2, b2, d2⟩ := iv (19 / 36 * (p + r - q)) (by linarith) (by linarith)
  let Y : ℕ → ℝ := fun k => if k = 0 then u0 else if k = 1 then u1 else u2
  have hY : ∀ k, 0 ≤ Y k ∧ Y k ≤ 2 := by
    intro k
    simp only [Y]
    split_ifs
    exacts [b0, b1, b2]
  have key : ∀ j, 3 ≤ j ∧ j ≤ 30 → h (uf8Y (off s t (signed s Y)) j) = h (Y (j % 3)) := by
    intro j hj
    rw [off_y s t _ hj]
    unfold signed
    split_ifs
    · exact he _
    · rfl
  refine ⟨off s t (signed s Y), off_inBox hs' ht' hY, ?_, ?_, ?_⟩
  · rw [sum_mod1 _ (fun k => h (Y k)) key, off_zero, off_one, e1, show (mod1 30).length = 19 by decide]
    simp only [Y, if_true, OfNat.ofNat_ne_zero, if_false, d0, d2, Nat.cast_ofNat, OfNat.ofNat_ne_one]
    ring
  · rw [sum_mod2 _ (fun k => h (Y k)) key, off_zero, off_one, e2, show (mod2 30).length = 19 by decide]
    simp only [Y, if_true, one_ne_zero, if_false, d0, d1, Nat.cast_ofNat]
    ring
  · rw [sum_mod3 _ (fun k => h (Y k)) key, off_zero, e3, show (mod3 30).length = 18 by decide]
    simp only [Y, if_true, one_ne_zero, OfNat.ofNat_ne_zero, if_false, d1, d2, Nat.cast_ofNat,
      OfNat.ofNat_ne_one]
    ring

theorem uf8Front_mem {y : List ℝ} (hy : y ∈ uf8Front) : ∃ a b c : ℝ, y = [a, b, c] ∧ 0 ≤ a ∧ a ≤ 1 ∧ 0 ≤ b ∧
    b ≤ 1 ∧ 0 ≤ c ∧ c ≤ 1 ∧ 1 ≤ a ^ 2 + b ^ 2 + c ^ 2 := by
  unfold uf8Front at hy
  obtain ⟨⟨a, b⟩, hp, rfl⟩ := List.mem_map.1 hy
  obtain ⟨hp, hc⟩ := List.mem_filter.1 hp
  simp only [decide_eq_true_eq] at hc
  have hab : a ∈ emoaPoints 12 ∧ b ∈ emoaPoints 12 := by
    unfold product at hp
    obtain ⟨a', ha, hb'⟩ := List.mem_flatMap.1 hp
    obtain ⟨b', hb, e⟩ := List.mem_map.1 hb'
    obtain ⟨rfl, rfl⟩ := Prod.mk.inj e
    exact ⟨ha, hb⟩
  have unit : ∀ a ∈ emoaPoints 12, 0 ≤ a ∧ a ≤ 1 := by
    intro a ha
    unfold emoaPoints at ha
    obtain ⟨i, hi, rfl⟩ := List.mem_map.1 ha
    have : i ≤ 11 := by simp at hi; omega
    have : (i : ℝ) ≤ 11 := by exact_mod_cast this
    constructor
    · norm_num; positivity
    · norm_num; linarith
  obtain ⟨a0, a1⟩ := unit a hab.1
  obtain ⟨b0, b1⟩ := unit b hab.2
  set e := -a ^ 2 - b ^ 2 + 1 with he
  have e0 : 0 ≤ e := by rw [he]; linarith
  have e1 : e ≤ 1 := by rw [he]; nlinarith [sq_nonneg a, sq_nonneg b]
  refine ⟨a, b, _, rfl, a0, a1, b0, b1, Real.rpow_nonneg e0 _, Real.rpow_le_one e0 e1 (by norm_num), ?_⟩
  have : e ≤ (e ^ ((1 : ℝ) / 3)) ^ 2 := by
    rw [← Real.rpow_natCast (e ^ ((1 : ℝ) / 3)) 2, ← Real.rpow_mul e0]
    calc e = e ^ (1 : ℝ) := (Real.rpow_one e).symm
      _ ≤ _ := Real.rpow_le_rpow_of_exponent_ge' e0 e1 (by norm_num) (by norm_num)
  linarith

/-- C55 for UF8. -/
theorem C55_uf8 : ∀ y ∈ uf8.front, Attainable uf8.fits uf8.dims y := by
  intro y hy
  obtain ⟨a, b, c, rfl, a0, a1, b0, b1, c0, c1, hn⟩ := uf8Front_mem hy
  obtain ⟨v, hv, e1, e2, e3⟩ := attain_above (fun y => y ^ 2) (by fun_prop) (fun y => by ring) (by norm_num)
    (by norm_num) a0 a1 b0 b1 c0 c1 hn
  refine ⟨v, hv, ?_⟩
  simp only [uf8, List.map_cons, List.map_nil, uf8Base]
  rw [e1, e2, e3]

/-- C55 for UF10. -/
theorem C55_uf10 : ∀ y ∈ uf10.front, Attainable uf10.fits uf10.dims y := by
  intro y hy
  obtain ⟨a, b, c, rfl, a0, a1, b0, b1, c0, c1, hn⟩ := uf8Front_mem hy
  obtain ⟨v, hv, e1, e2, e3⟩ := attain_above (fun y => 4 * y ^ 2 - Real.cos (8 * Real.pi * y) + 1)
    (by fun_prop) (fun y => by rw [mul_neg, Real.cos_neg]; ring) (by norm_num)
    (by have := Real.cos_le_one (8 * Real.pi * 2); linarith) a0 a1 b0 b1 c0 c1 hn
  refine ⟨v, hv, ?_⟩
  simp only [uf10, List.map_cons, List.map_nil, uf10Base]
  rw [e1, e2, e3]

/-- C55, the problems whose front is attainable. Missing: UF6, UF9, EWA1, EWA2, which violate it, see
`C55_uf6_violated`, `C55_uf9_violated`, `C55_ewa1_violated`, `C55_ewa2_violated`. -/
theorem C55_attainable_partial (p : Problem)
    (hp : p ∈ [zdt1, zdt2, zdt3, zdt4, zdt6, uf1, uf2, uf3, uf4, uf5, uf7, uf8, uf10, ackley]) :
    ∀ y ∈ p.front, Attainable p.fits p.dims y := by
  simp only [List.mem_cons, List.not_mem_nil, or_false] at hp
  rcases hp with rfl | rfl | rfl | rfl | rfl | rfl | rfl | rfl | rfl | rfl | rfl | rfl | rfl | rfl
  exacts [C55_zdt1, C55_zdt2, C55_zdt3, C55_zdt4, C55_zdt6, C55_uf1, C55_uf2, C55_uf3, C55_uf4, C55_uf5,
    C55_uf7, C55_uf8, C55_uf10, C55_ackley]

/-- The point of UF8 that lies strictly above the sphere is attained all the same. -/
example : Attainable uf8.fits uf8.dims [1 / 11, 0, (120 / 121 : ℝ) ^ ((1 : ℝ) / 3)] :=
  C55_uf8 _ uf8Front_point

end Evogil.Problems
