import Verif.Model.RoundedSmsemoa
import Verif.Props.RoundedHv
import Verif.Props.RoundedMetrics
import Verif.Props.HyperVolumeUse

/-! # C130: SMS-EMOA in floating point -/

set_option linter.unusedSectionVars false

namespace Evogil.Rounded

open Spec Binary64 MeasureTheory

/-! ## Differences of floats -/

section difference

variable {K : Type*} [Field K] [LinearOrder K] [IsStrictOrderedRing K] [FloorRing K]

theorem half_pow (e : ℕ) : (1 / 2 : K) ^ e = 2 ^ (-(e : ℤ)) := by
  rw [one_div, inv_pow, zpow_neg, zpow_natCast]

/-- Every float is a multiple of the smallest one. -/
theorem grid_smallest {x : K} (hx : round64 x = x) : OnGrid 1074 x := by
  obtain ⟨m, e', -, he', hx'⟩ : IsFloat x := hx ▸ isFloat_round64 x
  obtain ⟨k, rfl⟩ : ∃ k : ℕ, e' = (k : ℤ) - 1074 := ⟨(e' + 1074).toNat, by omega⟩
  refine ⟨m * 2 ^ k, ?_⟩
  rw [hx', zpow_sub₀ (by norm_num), half_pow, zpow_neg]
  push_cast
  rw [zpow_natCast, div_eq_mul_inv, mul_assoc]

/-- The difference of two floats is rounded with a relative error, however small it is. -/
theorem diff_error {x y : K} (hx : round64 x = x) (hy : round64 y = y) :
    |round64 (x - y) - (x - y)| ≤ 1 / 2 ^ 53 * |x - y| := by
  by_cases h : (1 / 2) ^ 1022 ≤ |x - y|
  · exact round64_accurate.error _ h
  · rw [not_le] at h
    obtain ⟨m, hm⟩ := (grid_smallest hx).sub (grid_smallest hy)
    have hp : (0 : K) < (1 / 2) ^ 1074 := half_pos' 1074
    have hlt : |(m : K)| < 2 ^ 52 := by
      rw [hm, abs_mul, abs_of_pos hp] at h
      have e : (1 / 2 : K) ^ 1022 = 2 ^ 52 * (1 / 2) ^ 1074 := by
        rw [show (1074 : ℕ) = 52 + 1022 by norm_num, pow_add, ← mul_assoc, ← mul_pow]
        norm_num
      rw [e] at h
      exact lt_of_mul_lt_mul_right h hp.le
    have : round64 (x - y) = x - y := by
      apply round64_float
      refine ⟨m, -1074, ?_, le_rfl, ?_⟩
      · have h2 : |m| < 2 ^ 52 := by exact_mod_cast hlt
        exact h2.trans (by norm_num)
      · rw [hm, half_pow]; rfl
    rw [this, sub_self, abs_zero]
    positivity

theorem round_round (x : K) : round64 (round64 x) = round64 x := round64_float (isFloat_round64 x)

theorem sweepLoop_float (c : ℕ → ℕ → K) : ∀ (l : List ℕ) (h hvol : K), round64 hvol = hvol →
    round64 (sweepLoop round64 c l h hvol) = sweepLoop round64 c l h hvol
  | [], _, _, hv => hv
  | [_], _, _, _ => round_round _
  | _ :: p :: rest, _, _, _ => sweepLoop_float c (p :: rest) _ _ (round_round _)

theorem sliceLoop_float (c : ℕ → ℕ → K) (byOne : List ℕ) : ∀ (l : List ℕ) (before : List ℕ) (q : ℕ) (hvol : K),
    round64 (sliceLoop round64 c byOne before q l hvol) = sliceLoop round64 c byOne before q l hvol
  | [], _, _, _ => round_round _
  | p :: rest, _, _, _ => sliceLoop_float c byOne rest _ p _

end difference

/-- The computed hypervolume is a float. -/
theorem hypervolume_float {ref : List ℝ} {front : List (List ℝ)} (hne : ∃ r ∈ ref, r ≠ 0) {v : ℝ}
    (hv : hypervolume round64 ref front = some v) : round64 v = v := by
  have R := round64_accurate (K := ℝ)
  have hc : ∀ x i, round64 (Hv.cargo (relevant round64 ref front) x i) = Hv.cargo (relevant round64 ref front) x i := by
    intro x i
    rw [relevant_rounded ref front hne]
    have : Hv.cargo ((Hv.relevant ref front).map (List.map round64)) x i = round64 (Hv.cargo (Hv.relevant ref front) x i) := by
      unfold Hv.cargo
      simp only [List.getD_eq_getElem?_getD, List.getElem?_map]
      cases (Hv.relevant ref front)[x - 1]? with
      | none => simp [R.zero]
      | some l =>
        simp only [Option.map_some, Option.getD_some, List.getElem?_map]
        cases l[i]? <;> simp [R.zero]
    rw [this, round_round]
  unfold hypervolume value at hv
  simp only at hv
  split at hv
  · obtain rfl := Option.some.inj hv
    split
    · exact R.zero
    · rw [R.neg, hc]
  · obtain rfl := Option.some.inj hv
    unfold sweep
    split
    · exact R.zero
    · exact sweepLoop_float _ _ _ _ R.zero
  · obtain rfl := Option.some.inj hv
    unfold slices
    split
    · exact R.zero
    · exact sliceLoop_float _ _ _ _ _ _
  · cases hv

/-! ## The reduction -/

section reduce

variable {ι : Type*} [DecidableEq ι] {K : Type*} [Field K] [LinearOrder K]

theorem smsContributions_eq (fl : K → K) (ref : List K) (obj : ι → List K) (pop : List ι) :
    smsContributions fl ref obj pop = (Smsemoa.contributions (fun l => (hypervolume fl ref l).getD 0) obj pop).map
      fun c => (c.1, fl c.2) := by
  unfold smsContributions Smsemoa.contributions
  simp only [List.map_map, Function.comp_def]

/-- C130: the reduction removes one individual of the last front, one with the smallest computed contribution. -/
theorem C130_reduce (fl : K → K) (ref : List K) (iter : List ι → List ι) (hiter : ∀ l, (iter l).Perm l) (d : ℕ)
    (obj : ι → List K) (pop : List ι) (hp : pop.Nodup) (hd : ∀ x ∈ pop, (obj x).length = d) (hne : pop ≠ []) (fuel : ℕ)
    (hf : pop.length ≤ fuel) :
    ∃ m ∈ pop, ∃ front : List ι, ∃ k, smsReduce fl ref iter fuel obj pop = some (pop.erase m) ∧
      front.Nodup ∧ m ∈ front ∧ (∀ x, x ∈ front ↔ IsRank (Smsemoa.Dom obj) pop x k) ∧
      (∀ x ∈ pop, ∃ j ≤ k, IsRank (Smsemoa.Dom obj) pop x j) ∧
      ∀ x ∈ front, fl ((hypervolume fl ref (front.map obj)).getD 0 - (hypervolume fl ref ((front.erase m).map obj)).getD 0)
        ≤ fl ((hypervolume fl ref (front.map obj)).getD 0 - (hypervolume fl ref ((front.erase x).map obj)).getD 0) := by
  obtain ⟨h1, h2⟩ := C05_smsemoa_sorts_by_rank iter hiter d obj pop hp hd
  obtain ⟨L, hL⟩ := h1 fuel hf
  obtain ⟨hperm, hnonempty, hrank⟩ := h2 fuel L hL
  have hLne : L ≠ [] := by
    rintro rfl
    exact hne (by simpa using hperm.symm)
  obtain ⟨worst, hw⟩ : ∃ w, L.getLast? = some w := by
    rw [← Option.isSome_iff_exists]; simpa using hLne
  have hwmem : worst ∈ L := List.mem_of_mem_getLast? (by rw [hw]; rfl)
  have hwk : L[L.length - 1]? = some worst := by rw [← List.getLast?_eq_getElem?, hw]
  have hwnd : worst.Nodup := by
    have h := hperm.nodup_iff.2 hp
    rw [List.nodup_flatten] at h
    exact h.1 _ hwmem
  have hcne : smsContributions fl ref obj worst ≠ [] := by
    unfold smsContributions
    simp only [ne_eq, List.map_eq_nil_iff, List.zipIdx_eq_nil_iff]
    exact hnonempty worst hwmem
  obtain ⟨c, hc⟩ := pyMinBy_isSome Prod.snd hcne
  obtain ⟨hc1, hc2⟩ := pyMinBy_mem hc
  rw [smsContributions_eq] at hc1 hc2
  obtain ⟨c', hc', rfl⟩ := List.mem_map.1 hc1
  obtain ⟨hcm, hcv⟩ := (Smsemoa.mem_contributions _ obj hwnd c').1 hc'
  have hfront : ∀ x, x ∈ worst ↔ IsRank (Smsemoa.Dom obj) pop x (L.length - 1) := by
    intro x
    rw [← hrank (L.length - 1) x]
    constructor
    · intro hx; exact ⟨worst, hwk, hx⟩
    · rintro ⟨l, hl, hx⟩
      rw [hwk] at hl
      exact (Option.some.inj hl) ▸ hx
  refine ⟨c'.1, ?_, worst, L.length - 1, ?_, hwnd, hcm, hfront, ?_, ?_⟩
  · exact hperm.mem_iff.1 (List.mem_flatten.2 ⟨worst, hwmem, hcm⟩)
  · unfold smsReduce
    simp only at hL
    rw [hL]
    simp only [hw, hc]
  · intro x hx
    obtain ⟨l, hl, hxl⟩ := List.mem_flatten.1 (hperm.mem_iff.2 hx)
    obtain ⟨j, hj⟩ := List.getElem?_of_mem hl
    refine ⟨j, ?_, (hrank j x).1 ⟨l, hj, hxl⟩⟩
    have : j < L.length := by
      by_contra hc
      rw [List.getElem?_eq_none (by omega)] at hj
      simp at hj
    omega
  · intro x hx
    have := hc2 _ (List.mem_map.2 ⟨_, (Smsemoa.mem_contributions (fun l => (hypervolume fl ref l).getD 0) obj hwnd
      (x, (hypervolume fl ref (worst.map obj)).getD 0 - (hypervolume fl ref ((worst.erase x).map obj)).getD 0)).2
        ⟨hx, rfl⟩, rfl⟩)
    simp only [hcv] at this
    exact this

end reduce

/-- The volume of a union is at most the sum of the volumes. -/
theorem dominatedVolume_cons_le (ref : List ℝ) (p : List ℝ) (F : List (List ℝ)) :
    dominatedVolume ref (p :: F) ≤ dominatedVolume ref [p] + dominatedVolume ref F := by
  unfold dominatedVolume
  rw [← ENNReal.toReal_add (Hv.dominated_finite ref [p]) (Hv.dominated_finite ref F)]
  refine ENNReal.toReal_mono (ENNReal.add_ne_top.2 ⟨Hv.dominated_finite ref [p], Hv.dominated_finite ref F⟩) ?_
  refine (measure_mono ?_).trans (measure_union_le _ _)
  rintro z ⟨q, hq, hz⟩
  rcases List.mem_cons.1 hq with rfl | hq
  · exact Or.inl ⟨q, by simp, hz⟩
  · exact Or.inr ⟨q, hq, hz⟩

/-- The arithmetic of the loss: `V`, `a`, `b` are the volumes of all, without the removed one, without the child, and `V'`,
`a'`, `b'` the computed ones. -/
theorem loss_bound {V a b V' a' b' ε : ℝ} (hε : 0 ≤ ε) (hε1 : ε ≤ 1) (ha : 0 ≤ a) (hb : 0 ≤ b) (haV : a ≤ V) (hbV : b ≤ V)
    (eV : |V' - V| ≤ ε * V) (ea : |a' - a| ≤ ε * a) (eb : |b' - b| ≤ ε * b) (fV : round64 V' = V') (fa : round64 a' = a')
    (fb : round64 b' = b') (h : round64 (V' - a') ≤ round64 (V' - b')) : b - (2 * ε + 2 / 2 ^ 52) * V ≤ a := by
  have hV : 0 ≤ V := ha.trans haV
  have e1 := abs_le.1 (diff_error fV fa)
  have e2 := abs_le.1 (diff_error fV fb)
  have i1 := abs_le.1 eV
  have i2 := abs_le.1 ea
  have i3 := abs_le.1 eb
  have m1 : ε * a ≤ ε * V := mul_le_mul_of_nonneg_left haV hε
  have m2 : ε * b ≤ ε * V := mul_le_mul_of_nonneg_left hbV hε
  have m3 : ε * V ≤ V := by nlinarith
  have m4 : ε * a ≤ a := by nlinarith
  have m5 : ε * b ≤ b := by nlinarith
  have d1 : |V' - a'| ≤ 2 * V := abs_le.2 ⟨by linarith [i1.1, i2.2], by linarith [i1.2, i2.1]⟩
  have d2 : |V' - b'| ≤ 2 * V := abs_le.2 ⟨by linarith [i1.1, i3.2], by linarith [i1.2, i3.1]⟩
  have u1 : 1 / 2 ^ 53 * |V' - a'| ≤ 1 / 2 ^ 52 * V := by
    calc 1 / 2 ^ 53 * |V' - a'| ≤ 1 / 2 ^ 53 * (2 * V) := mul_le_mul_of_nonneg_left d1 (by norm_num)
      _ = 1 / 2 ^ 52 * V := by ring
  have u2 : 1 / 2 ^ 53 * |V' - b'| ≤ 1 / 2 ^ 52 * V := by
    calc 1 / 2 ^ 53 * |V' - b'| ≤ 1 / 2 ^ 53 * (2 * V) := mul_le_mul_of_nonneg_left d2 (by norm_num)
      _ = 1 / 2 ^ 52 * V := by ring
  have : (2 * ε + 2 / 2 ^ 52) * V = 2 * (ε * V) + 2 * (1 / 2 ^ 52 * V) := by ring
  rw [this]
  linarith [e1.1, e1.2, e2.1, e2.2, i2.1, i2.2, i3.1, i3.2]

section steps

variable {ι : Type*} [DecidableEq ι]

/-- C130, one child: a population of `n` individuals loses at most the fraction `(n + 5) / 2⁴⁹` of the volume it dominates
when a child is added and one individual removed. -/
theorem C130_child {ref : List ℝ} (h1 : 1 ≤ ref.length) (h3 : ref.length ≤ 3) (href : ∀ r ∈ ref, 1 ≤ r ∧ round64 r = r)
    (iter : List ι → List ι) (hiter : ∀ l, (iter l).Perm l) (obj : ι → List ℝ) (hd : ∀ x, (obj x).length = ref.length)
    (hfl : ∀ x, ∀ a ∈ obj x, round64 a = a) (pop : List ι) (child : ι) (hp : (pop ++ [child]).Nodup)
    (hn : pop.length < 2 ^ 50) (fuel : ℕ) (hf : pop.length + 1 ≤ fuel) {pop' : List ι}
    (h : smsReduce round64 ref iter fuel obj (pop ++ [child]) = some pop') :
    (1 - (pop.length + 5) / 2 ^ 49) * dominatedVolume ref (pop.map obj) ≤ dominatedVolume ref (pop'.map obj) := by
  have hvl := Hv.hvLike_dominatedVolume ref
  have hV0 : ∀ F, 0 ≤ dominatedVolume ref F := fun F => ENNReal.toReal_nonneg
  have hnonneg : (0 : ℝ) ≤ (pop.length + 5) / 2 ^ 49 := by positivity
  have hle1 : (1 - (pop.length + 5) / 2 ^ 49) * dominatedVolume ref (pop.map obj) ≤ dominatedVolume ref (pop.map obj) := by
    nlinarith [hV0 (pop.map obj)]
  obtain ⟨m, hm, front, k, g1, hfnd, hmf, hfront, hmax, hmin⟩ :=
    C130_reduce round64 ref iter hiter ref.length obj (pop ++ [child]) hp (fun x _ => hd x) (by simp) fuel (by simpa using hf)
  obtain rfl : pop' = (pop ++ [child]).erase m := Option.some.inj (h.symm.trans g1)
  have hall : dominatedVolume ref (pop.map obj) ≤ dominatedVolume ref ((pop ++ [child]).map obj) := by
    rw [hvl.perm ((pop ++ [child]).map obj) (obj child :: pop.map obj)
      (by rw [List.map_append]; exact List.perm_append_comm)]
    exact hvl.mono _ _
  have hcons : dominatedVolume ref ((pop ++ [child]).map obj) =
      dominatedVolume ref (obj m :: ((pop ++ [child]).erase m).map obj) :=
    hvl.perm _ _ ((List.perm_cons_erase hm).map obj)
  cases k with
  | succ k =>
    obtain ⟨-, y, hy, hyk⟩ := ((hfront m).1 hmf).1
    have hyp : y ∈ pop ++ [child] := by
      cases k with
      | zero => exact hyk
      | succ k => exact hyk.1
    have hne : y ≠ m := by rintro rfl; exact LDom_irrefl _ hy
    have hmem : obj y ∈ ((pop ++ [child]).erase m).map obj :=
      List.mem_map.2 ⟨y, (hp.mem_erase_iff).2 ⟨hne, hyp⟩, rfl⟩
    rw [hcons, hvl.dom _ _ _ hmem hy] at hall
    exact hle1.trans hall
  | zero =>
    have hperm : front.Perm (pop ++ [child]) := by
      refine (List.perm_ext_iff_of_nodup hfnd hp).2 fun x => ⟨fun hx => ?_, fun hx => ?_⟩
      · exact ((hfront x).1 hx).1
      · obtain ⟨j, hj, hr⟩ := hmax x hx
        obtain rfl : j = 0 := by omega
        exact (hfront x).2 hr
    have hc : child ∈ front := hperm.mem_iff.2 (by simp)
    have hcp : child ∉ pop := by
      intro hcp
      exact (List.nodup_append.1 hp).2.2 child hcp child (by simp) rfl
    have hlen : front.length = pop.length + 1 := by rw [hperm.length_eq]; simp
    by_cases hmc : m = child
    · subst hmc
      rw [List.erase_append_right _ hcp]
      simpa using hle1
    · -- the child stays
      have hstay : dominatedVolume ref [obj child] ≤ dominatedVolume ref (((pop ++ [child]).erase m).map obj) := by
        refine Hv.dominatedVolume_mono fun p hp' => ?_
        rw [List.mem_singleton] at hp'
        subst hp'
        exact ⟨_, List.mem_map.2 ⟨child, hp.mem_erase_iff.2 ⟨Ne.symm hmc, by simp⟩, rfl⟩, fun _ _ => le_rfl⟩
      have hsub : dominatedVolume ref ((pop ++ [child]).map obj) ≤
          dominatedVolume ref [obj child] + dominatedVolume ref (pop.map obj) := by
        rw [hvl.perm ((pop ++ [child]).map obj) (obj child :: pop.map obj)
          (by rw [List.map_append]; exact List.perm_append_comm)]
        exact dominatedVolume_cons_le _ _ _
      by_cases hbig : 2 * dominatedVolume ref (pop.map obj) ≤ dominatedVolume ref ((pop ++ [child]).map obj)
      · linarith
      · rw [not_le] at hbig
        have hne : ∃ r ∈ ref, r ≠ 0 := by
          obtain ⟨r, hr⟩ := List.exists_mem_of_length_pos (l := ref) (by omega)
          exact ⟨r, hr, by have := (href r hr).1; intro h; rw [h] at this; norm_num at this⟩
        have err : ∀ l : List ι, l.length ≤ pop.length + 1 → ∃ v, hypervolume round64 ref (l.map obj) = some v ∧
            round64 v = v ∧ |v - dominatedVolume ref (l.map obj)| ≤
              (2 * pop.length + 9) / 2 ^ 52 * dominatedVolume ref (l.map obj) := by
          intro l hl
          have e1 : ∀ p ∈ l.map obj, p.length = ref.length := by
            intro p hp'
            obtain ⟨x, -, rfl⟩ := List.mem_map.1 hp'
            exact hd x
          have e2 : ∀ p ∈ l.map obj, ∀ a ∈ p, round64 a = a := by
            intro p hp'
            obtain ⟨x, -, rfl⟩ := List.mem_map.1 hp'
            exact hfl x
          obtain ⟨v, hv, -⟩ := C127_error h1 h3 e1 href e2
          refine ⟨v, hv, hypervolume_float hne hv, (C127_distance h1 h3 e1 href e2 (by
            rw [List.length_map]
            have : (2 : ℕ) ^ 51 - 4 = 2251799813685244 := by norm_num
            have : (2 : ℕ) ^ 50 = 1125899906842624 := by norm_num
            omega) hv).trans (mul_le_mul_of_nonneg_right ?_ (hV0 _))⟩
          rw [List.length_map]
          have : (l.length : ℝ) ≤ pop.length + 1 := by exact_mod_cast hl
          exact div_le_div_of_nonneg_right (by linarith) (by norm_num)
        obtain ⟨v, hv, fv, ev⟩ := err front hlen.le
        obtain ⟨a, ha, fa, ea⟩ := err (front.erase m) (by rw [List.length_erase_of_mem hmf]; omega)
        obtain ⟨b, hb, fb, eb⟩ := err (front.erase child) (by rw [List.length_erase_of_mem hc]; omega)
        have key := hmin child hc
        rw [hv, ha, hb] at key
        simp only [Option.getD_some] at key
        have p1 : dominatedVolume ref (front.map obj) = dominatedVolume ref ((pop ++ [child]).map obj) :=
          hvl.perm _ _ (hperm.map obj)
        have p2 : dominatedVolume ref ((front.erase m).map obj) = dominatedVolume ref (((pop ++ [child]).erase m).map obj) :=
          hvl.perm _ _ ((hperm.erase m).map obj)
        have p3 : dominatedVolume ref ((front.erase child).map obj) = dominatedVolume ref (pop.map obj) := by
          refine hvl.perm _ _ (List.Perm.map obj ((hperm.erase child).trans ?_))
          rw [List.erase_append_right _ hcp]
          simp
        rw [p1] at ev
        rw [p2] at ea
        rw [p3] at eb
        have hε1 : (2 * pop.length + 9 : ℝ) / 2 ^ 52 ≤ 1 := by
          rw [div_le_one (by norm_num)]
          have : (pop.length : ℝ) ≤ 2 ^ 50 := by exact_mod_cast hn.le
          linarith
        have haV : dominatedVolume ref (((pop ++ [child]).erase m).map obj) ≤
            dominatedVolume ref ((pop ++ [child]).map obj) := by rw [hcons]; exact hvl.mono _ _
        have := loss_bound (by positivity) hε1 (hV0 _) (hV0 _) haV hall ev ea eb fv fa fb key
        have e : (2 * ((2 * pop.length + 9 : ℝ) / 2 ^ 52) + 2 / 2 ^ 52) *
            dominatedVolume ref ((pop ++ [child]).map obj) ≤
            (2 * ((2 * pop.length + 9 : ℝ) / 2 ^ 52) + 2 / 2 ^ 52) * (2 * dominatedVolume ref (pop.map obj)) :=
          mul_le_mul_of_nonneg_left hbig.le (by positivity)
        have e' : (2 * ((2 * pop.length + 9 : ℝ) / 2 ^ 52) + 2 / 2 ^ 52) * (2 * dominatedVolume ref (pop.map obj)) =
            (pop.length + 5) / 2 ^ 49 * dominatedVolume ref (pop.map obj) := by ring
        linarith

/-- C130: whatever children are generated, after `k` of them the population dominates at least `(1 - (n + 5) / 2⁴⁹)ᵏ` of the
volume it dominated before. -/
theorem C130_step {ref : List ℝ} (h1 : 1 ≤ ref.length) (h3 : ref.length ≤ 3) (href : ∀ r ∈ ref, 1 ≤ r ∧ round64 r = r)
    (iter : List ι → List ι) (hiter : ∀ l, (iter l).Perm l) (obj : ι → List ℝ) (hd : ∀ x, (obj x).length = ref.length)
    (hfl : ∀ x, ∀ a ∈ obj x, round64 a = a) (children : List ι) :
    ∀ pop : List ι, (pop ++ children).Nodup → pop.length < 2 ^ 48 → ∀ fuel, pop.length + 1 ≤ fuel →
      ∃ pop', smsStep round64 ref iter fuel obj pop children = some pop' ∧ pop'.length = pop.length ∧
        (1 - (pop.length + 5) / 2 ^ 49) ^ children.length * dominatedVolume ref (pop.map obj) ≤
          dominatedVolume ref (pop'.map obj) := by
  induction children with
  | nil => exact fun pop _ _ _ _ => ⟨pop, rfl, rfl, by simp⟩
  | cons c cs ih =>
    intro pop hp hn fuel hf
    have hpc : (pop ++ [c]).Nodup := hp.sublist (List.Sublist.append_left (by simp) pop)
    obtain ⟨m, hm, -, -, g1, -⟩ := C130_reduce round64 ref iter hiter ref.length obj (pop ++ [c]) hpc (fun x _ => hd x)
      (by simp) fuel (by simpa using hf)
    have hlen : ((pop ++ [c]).erase m).length = pop.length := by
      rw [List.length_erase_of_mem hm]; simp
    obtain ⟨pop', i1, i2, i3⟩ := ih ((pop ++ [c]).erase m) (by
      refine hp.sublist ?_
      have : pop ++ c :: cs = (pop ++ [c]) ++ cs := by simp
      rw [this]
      exact List.Sublist.append_right List.erase_sublist cs) (by omega) fuel (by omega)
    rw [hlen] at i2 i3
    refine ⟨pop', ?_, i2, ?_⟩
    · rw [smsStep, g1]; exact i1
    · have hs := C130_child h1 h3 href iter hiter obj hd hfl pop c hpc (hn.trans (by norm_num)) fuel hf g1
      have h0 : (0 : ℝ) ≤ 1 - (pop.length + 5) / 2 ^ 49 := by
        have : (pop.length : ℝ) + 5 ≤ 2 ^ 49 := by
          have : (pop.length : ℝ) ≤ 2 ^ 48 := by exact_mod_cast hn.le
          linarith
        rw [sub_nonneg, div_le_one (by norm_num)]
        exact this
      rw [List.length_cons, pow_succ, mul_assoc]
      exact (mul_le_mul_of_nonneg_left hs (pow_nonneg h0 _)).trans i3

end steps

/-- C130: without rounding nothing is lost (C68), with rounding something can be: the individual 0 goes, although the child 2
contributes less. -/
theorem C130_loss : ∃ (obj : Fin 3 → List ℚ) (ref : List ℚ), (∀ i, (obj i).length = 2 ∧ ∀ a ∈ obj i, round64 a = a) ∧
    ref = [10, 10] ∧ smsStep round64 ref id 3 obj [0, 1] [2] = some [1, 2] ∧
    ∃ v w, hypervolume id ref ([0, 1].map obj) = some v ∧ hypervolume id ref ([1, 2].map obj) = some w ∧ w < v := by
  refine ⟨fun i => ([[round64 (6 / 7), round64 (8 / 7)], [round64 (1 / 7), round64 (15 / 7)], [2, 1]][i.1]?).getD [],
    [10, 10], by decide +kernel, rfl, by decide +kernel, _, _, rfl, rfl, by decide +kernel⟩

/-- Without rounding the child goes. -/
example : smsStep id [10, 10] id 3 (fun i : Fin 3 =>
    ([[round64 (6 / 7), round64 (8 / 7)], [round64 (1 / 7), round64 (15 / 7)], [(2 : ℚ), 1]][i.1]?).getD []) [0, 1] [2] =
      some [0, 1] := by decide +kernel

end Evogil.Rounded
