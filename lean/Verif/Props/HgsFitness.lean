import Verif.Model.HgsFitness
import Verif.Props.Variation
import Verif.Props.Layers
import Verif.Props.Problems

/-!
# C89, C90, C91: the objectives of an HGS node, the starting populations, the order of `rank`

C89: without errors (`fitness_errors` 0) a node of HGS sees the objectives of the problem, with errors it
sees them up to the relative error. C90: the starting populations have the right size and lie in the box.
C91: `rank` gives back the individuals from the best to the worst.
-/

set_option linter.unusedSectionVars false

namespace Evogil
open Spec

section field
variable {K : Type*} [Field K] [LinearOrder K] [IsStrictOrderedRing K]

/-! ## C89 -/

private theorem mapM_some {β γ : Type*} (g : β → Option γ) (k : β → γ) (l : List β)
    (h : ∀ b ∈ l, g b = some (k b)) : l.mapM g = some (l.map k) := by
  induction l with
  | nil => rfl
  | cons b l ih =>
    rw [List.mapM_cons, h b (by simp), ih fun b hb => h b (List.mem_cons_of_mem _ hb)]
    rfl

private theorem map_zipIdx {β γ : Type*} (k : β → γ) (l : List β) (n : ℕ) :
    (l.zipIdx n).map (fun b => k b.1) = l.map k := by
  induction l generalizing n with
  | nil => rfl
  | cons b l ih => simp [List.zipIdx_cons, ih]

/-- **C89** Whatever is drawn, without an error the absolute values of the objectives are seen. -/
theorem C89_absolute {X : Type*} (errors : List K) (level : ℕ) (h : errors[level]? = some 0)
    (fits : List (X → K)) (z : ℕ → K) (x : X) :
    blurredVector errors level fits z x = some (fits.map fun f => |f x|) := by
  unfold blurredVector
  rw [mapM_some _ (fun f : (X → K) × ℕ => |f.1 x|)]
  · rw [map_zipIdx (fun f : X → K => |f x|)]
  · intro f _
    simp [h, blurredValue, pyGauss]

/-- **C89** (partial: only for objectives that are not negative, see `C89_violated`) Without an error
the vector seen is the vector of objectives, so that dominance is seen as it is. -/
theorem C89_exact_partial {X : Type*} (errors : List K) (level : ℕ) (h : errors[level]? = some 0)
    (fits : List (X → K)) (z z' : ℕ → K) (x y : X) (hx : ∀ f ∈ fits, 0 ≤ f x) (hy : ∀ f ∈ fits, 0 ≤ f y) :
    ∃ a b, blurredVector errors level fits z x = some a ∧ blurredVector errors level fits z' y = some b ∧
      a = fits.map (fun f => f x) ∧ b = fits.map (fun f => f y) ∧
      (LDom a b ↔ LDom (fits.map fun f => f x) (fits.map fun f => f y)) := by
  refine ⟨_, _, C89_absolute errors level h fits z x, C89_absolute errors level h fits z' y, ?_⟩
  have e : ∀ w, (∀ f ∈ fits, 0 ≤ f w) → (fits.map fun f => |f w|) = fits.map fun f => f w :=
    fun w hw => List.map_congr_left fun f hf => abs_of_nonneg (hw f hf)
  rw [e x hx, e y hy]
  exact ⟨rfl, rfl, Iff.rfl⟩

/-- **C89** (partial: only for objectives that are not negative) With an error `e` every objective seen
deviates from the real one by at most `e * |z| / 3` of it, i.e. by less than the share `e` as long as the
draw is within three standard deviations. -/
theorem C89_error_partial {X : Type*} (errors : List K) (level : ℕ) (e : K) (he : 0 ≤ e)
    (h : errors[level]? = some e) (fits : List (X → K)) (z : ℕ → K) (x : X) (hx : ∀ f ∈ fits, 0 ≤ f x) :
    ∃ a, blurredVector errors level fits z x = some a ∧ a.length = fits.length ∧
      ∀ (i : ℕ) (v : K) (f : X → K), a[i]? = some v → fits[i]? = some f →
        0 ≤ v ∧ |v - f x| ≤ |z i| / 3 * (e * f x) ∧ (|z i| ≤ 3 → |v - f x| ≤ e * f x) := by
  refine ⟨fits.zipIdx.map fun f => blurredValue e (z f.2) (f.1 x), ?_, by simp, ?_⟩
  · exact mapM_some _ _ _ fun f _ => by simp [h]
  · intro i v f hv hf
    have hf0 : 0 ≤ f x := hx f (List.mem_of_getElem? hf)
    simp only [List.getElem?_map, List.getElem?_zipIdx, hf, Option.map_some, Option.some.injEq,
      Nat.zero_add] at hv
    subst hv
    have key : |blurredValue e (z i) (f x) - f x| ≤ |z i| / 3 * (e * f x) := by
      unfold blurredValue pyGauss
      have h1 := abs_abs_sub_abs_le (f x + z i * (e * f x / 3)) (f x)
      rw [abs_of_nonneg hf0, add_sub_cancel_left, abs_mul,
        abs_of_nonneg (div_nonneg (mul_nonneg he hf0) (by norm_num : (0 : K) ≤ 3))] at h1
      refine h1.trans_eq ?_
      ring
    refine ⟨abs_nonneg _, key, fun h3 => key.trans ?_⟩
    have h1 : |z i| / 3 ≤ 1 := by rw [div_le_one (by norm_num)]; exact h3
    calc |z i| / 3 * (e * f x) ≤ 1 * (e * f x) := mul_le_mul_of_nonneg_right h1 (mul_nonneg he hf0)
      _ = e * f x := one_mul _

/-- A node of the second level with the error 0.3: two objectives, one draw of two and one of minus four
standard deviations. -/
example : blurredVector [0, (3 / 10 : ℚ)] 1 [fun x : ℚ => x, fun x => x + 5] (fun i => if i = 0 then 2 else -4) 5
    = some [6, 6] := by
  norm_num [blurredVector, blurredValue, pyGauss, List.zipIdx, List.mapM_cons]

/-- `fitness_errors` is shorter than the tree is deep: the evaluation raises. -/
example : blurredVector [(0 : ℚ)] 1 [fun x : ℚ => x] (fun _ => 0) 5 = none := by
  simp [blurredVector, List.mapM_cons]

/-! ## C90 -/

/-- **C90** A generated population has `count` vectors, all of them in the box. -/
theorem C90_gen_population (u : ℕ → ℕ → K) (hu : ∀ i j, 0 ≤ u i j ∧ u i j ≤ 1) (count : ℕ)
    (dims : List (K × K)) (hd : ∀ d ∈ dims, d.1 ≤ d.2) :
    (genPopulation u count dims).length = count ∧ ∀ v ∈ genPopulation u count dims, InBox v dims := by
  refine ⟨by simp [genPopulation], fun v hv => ?_⟩
  obtain ⟨i, -, rfl⟩ := List.mem_map.1 hv
  refine inBox_of_get (by simp) fun j x d hx hdj => ?_
  simp only [List.getElem?_map, List.getElem?_zipIdx, hdj, Option.map_some, Option.some.injEq,
    Nat.zero_add] at hx
  subst hx
  have h1 := hd d (List.mem_of_getElem? hdj)
  obtain ⟨h2, h3⟩ := hu i j
  have h4 : 0 ≤ d.2 - d.1 := sub_nonneg.2 h1
  unfold pyUniform
  constructor
  · exact le_add_of_nonneg_right (mul_nonneg h4 h2)
  · calc d.1 + (d.2 - d.1) * u i j ≤ d.1 + (d.2 - d.1) * 1 := by
          gcongr
      _ = d.2 := by ring

/-- **C90** Nothing of the box is left out: every population of vectors of the box is generated by
some draws. -/
theorem C90_covers_box (dims : List (K × K)) (pop : List (List K)) (hp : ∀ v ∈ pop, InBox v dims) :
    ∃ u : ℕ → ℕ → K, (∀ i j, 0 ≤ u i j ∧ u i j ≤ 1) ∧ genPopulation u pop.length dims = pop := by
  classical
  let coord : ℕ → ℕ → K := fun i j => ((pop[i]?.getD [])[j]?).getD 0
  let lo : ℕ → K := fun j => (dims[j]?.getD (0, 0)).1
  let hi : ℕ → K := fun j => (dims[j]?.getD (0, 0)).2
  let u : ℕ → ℕ → K := fun i j =>
    if lo j < hi j ∧ lo j ≤ coord i j ∧ coord i j ≤ hi j then (coord i j - lo j) / (hi j - lo j) else 0
  refine ⟨u, fun i j => ?_, ?_⟩
  · by_cases h : lo j < hi j ∧ lo j ≤ coord i j ∧ coord i j ≤ hi j
    · simp only [u, h, and_self, if_true]
      have h0 : 0 < hi j - lo j := sub_pos.2 h.1
      exact ⟨div_nonneg (sub_nonneg.2 h.2.1) h0.le,
        (div_le_one h0).2 (sub_le_sub_right h.2.2 _)⟩
    · simp only [u, h, if_false]
      exact ⟨le_rfl, zero_le_one⟩
  · unfold genPopulation
    refine List.ext_getElem (by simp) fun i h1 h2 => ?_
    have hb : InBox pop[i] dims := hp _ (List.getElem_mem h2)
    have hl := hb.length_eq
    simp only [List.getElem_map, List.getElem_range]
    refine List.ext_getElem (by simp [hl]) fun j h3 h4 => ?_
    have h5 : j < dims.length := by rw [← hl]; exact h4
    have hbj := hb.get (List.getElem?_eq_getElem h4) (List.getElem?_eq_getElem h5)
    simp only [List.getElem_map, List.getElem_zipIdx, Nat.zero_add]
    have e1 : coord i j = pop[i][j] := by simp [coord, List.getElem?_eq_getElem h2, List.getElem?_eq_getElem h4]
    have e2 : lo j = dims[j].1 := by simp [lo, List.getElem?_eq_getElem h5]
    have e3 : hi j = dims[j].2 := by simp [hi, List.getElem?_eq_getElem h5]
    unfold pyUniform
    by_cases h : lo j < hi j
    · have hc : lo j < hi j ∧ lo j ≤ coord i j ∧ coord i j ≤ hi j := by
        rw [e1]; refine ⟨h, ?_, ?_⟩
        · rw [e2]; exact hbj.1
        · rw [e3]; exact hbj.2
      have h0 : dims[j].2 - dims[j].1 ≠ 0 := by rw [← e2, ← e3]; exact (sub_pos.2 h).ne'
      simp only [u, hc, and_self, if_true]
      rw [e1, e2, e3]
      field_simp
      ring
    · have hc : ¬ (lo j < hi j ∧ lo j ≤ coord i j ∧ coord i j ≤ hi j) := fun hc => h hc.1
      simp only [u, hc, if_false]
      rw [e2, e3] at h
      have := le_antisymm (hbj.1.trans hbj.2) (not_lt.1 h)
      have h6 := le_antisymm hbj.1 (by rw [this]; exact hbj.2)
      rw [mul_zero, add_zero, h6]

private theorem mapM_spec {β γ : Type*} (g : β → Option γ) : ∀ (l : List β) (r : List γ),
    l.mapM g = some r → r.length = l.length ∧ ∀ v ∈ r, ∃ b ∈ l, g b = some v
  | [], r, h => by
    simp only [List.mapM_nil] at h
    obtain rfl : [] = r := Option.some.inj h
    simp
  | b :: l, r, h => by
    rw [List.mapM_cons] at h
    cases hb : g b with
    | none => rw [hb] at h; exact absurd h (by simp)
    | some v =>
      cases hl : l.mapM g with
      | none => rw [hb, hl] at h; exact absurd h (by simp)
      | some r' =>
        rw [hb, hl] at h
        obtain rfl : v :: r' = r := Option.some.inj h
        obtain ⟨h1, h2⟩ := mapM_spec g l r' hl
        refine ⟨by simp [h1], fun w hw => ?_⟩
        rcases List.mem_cons.1 hw with rfl | hw
        · exact ⟨b, by simp, hb⟩
        · obtain ⟨b', h3, h4⟩ := h2 w hw
          exact ⟨b', List.mem_cons_of_mem _ h3, h4⟩

/-- **C90** A population around a delegate of the box starts with the delegate, has as many vectors as
asked for (one if none is asked for), and lies in the box. -/
theorem C90_from_delegate (pw : K → K → K) (eps : K) (ds : ℕ → ℕ → MutDraw K) (delegate : List K)
    (size : ℕ) (dims : List (K × K)) (rate eta : K) (hb : InBox delegate dims) (pop : List (List K))
    (h : populationFromDelegate pw eps ds delegate size dims rate eta = some pop) :
    pop.length = max 1 size ∧ pop[0]? = some delegate ∧ ∀ v ∈ pop, InBox v dims := by
  unfold populationFromDelegate at h
  obtain ⟨r, hr, rfl⟩ := Option.map_eq_some_iff.1 h
  obtain ⟨h1, h2⟩ := mapM_spec _ _ _ hr
  refine ⟨?_, rfl, fun v hv => ?_⟩
  · rw [List.length_cons, h1, List.length_range]
    omega
  · rcases List.mem_cons.1 hv with rfl | hv
    · exact hb
    · obtain ⟨i, -, hi⟩ := h2 v hv
      exact C13_in_box pw eps (ds i) delegate dims rate eta hb v hi

/-- **C90** The population around a delegate of the box can always be made. -/
theorem C90_from_delegate_total {pw : K → K → K} (hp : PowLaws pw) {eps : K} (he : 0 < eps)
    (ds : ℕ → ℕ → MutDraw K) (hds : ∀ k i, 0 ≤ (ds k i).rnd ∧ (ds k i).rnd ≤ 1) (delegate : List K)
    (size : ℕ) (dims : List (K × K)) (rate eta : K) (heta : 0 ≤ eta) (hb : InBox delegate dims) :
    (populationFromDelegate pw eps ds delegate size dims rate eta).isSome := by
  unfold populationFromDelegate
  rw [Option.isSome_map]
  rw [mapM_some _ (fun i => (mutate pw eps (ds i) delegate dims rate eta).getD [])]
  · rfl
  · intro i _
    obtain ⟨y, hy⟩ := Option.isSome_iff_exists.1 (C13_total hp he (ds i) (hds i) delegate dims rate eta heta hb)
    rw [hy]; rfl

/-- Two vectors in a box of two dimensions. -/
example : genPopulation (fun i j => if i = 0 then 1 / 2 else (j : ℚ)) 2 [(0, 1), (-5, 5)] =
    [[1 / 2, 0], [0, 5]] := by
  norm_num [genPopulation, pyUniform, List.range_succ, List.zipIdx]

/-- Three vectors around a delegate; the second one is not selected for mutation, the third one moves
its first coordinate to the lower end. -/
example : populationFromDelegate (fun b _ => b * b) (1 / 1000 : ℚ)
    (fun k i => if k = 1 ∧ i = 0 then ⟨0, 0⟩ else ⟨1, 0⟩) [1 / 2, 1] 3 [(0, 1), (0, 4)] (1 / 2) 20 =
    some [[1 / 2, 1], [1 / 2, 1], [0, 1]] := by
  norm_num [populationFromDelegate, List.range_succ, List.mapM_cons, mutate, mutateLoop, mutatedValue, mutDeltaQ, pyPow,
    clamp]

end field

/-! ## C91 -/

section order
variable {α ι : Type*} [LinearOrder α]

theorem chain_pred {dom : ι → ι → Prop} {S : List ι} : ∀ {k : ℕ} {x : ι},
    HasChain dom S (k + 1) x → HasChain dom S k x
  | 0, _, h => h.1
  | _ + 1, _, ⟨hx, y, hy, hc⟩ => ⟨hx, y, hy, chain_pred hc⟩

theorem chain_le {dom : ι → ι → Prop} {S : List ι} {k m : ℕ} {x : ι} (h : k ≤ m)
    (hc : HasChain dom S m x) : HasChain dom S k x := by
  induction h with
  | refl => exact hc
  | step _ ih => exact ih (chain_pred hc)

/-- **C91** `rank` yields every individual as often as given, and nobody comes before an individual
that dominates them. -/
theorem C91_order (fits : List (ι → α)) (pop : List ι) (fuel : ℕ) (hf : pop.length ≤ fuel) :
    ∃ out, getIndivsInorder fuel fits pop = some out ∧ out.Perm pop ∧
      out.Pairwise fun x y => ¬ LDom (fits.map fun f => f y) (fits.map fun f => f x) := by
  obtain ⟨L, hL⟩ := C04_terminates pop (fun i => fits.map fun f => f i) fuel hf
  refine ⟨L.flatten, by unfold getIndivsInorder rankIndivs; rw [hL]; rfl, (C04_partition _ _ _ _ hL).1, ?_⟩
  have hd : ∀ x ∈ pop, (fits.map fun f => f x).length = fits.length := fun _ _ => by simp
  have hrank := C04_layer_rank fits.length pop _ hd fuel L hL
  rw [List.pairwise_flatten]
  refine ⟨fun l hl => ?_, ?_⟩
  · exact List.pairwise_of_forall_mem_list fun x hx y hy =>
      C04_layer_antichain fits.length pop _ hd fuel L hL l hl y hy x hx
  · rw [List.pairwise_iff_getElem]
    intro i j hi hj hij x hx y hy hdom
    have rx := (hrank i x).1 ⟨L[i], List.getElem?_eq_getElem hi, hx⟩
    have ry := (hrank j y).1 ⟨L[j], List.getElem?_eq_getElem hj, hy⟩
    exact rx.2 (chain_le (Nat.succ_le_succ hij.le) ⟨chain_le (Nat.zero_le _) rx.1, y, hdom, ry.1⟩)

/-- Duplicates, and an individual given before one that dominates it. -/
example : getIndivsInorder 4 [fun p : ℕ × ℕ => p.1, fun p => p.2] [(2, 2), (1, 1), (0, 3), (1, 1)] =
    some [(1, 1), (0, 3), (1, 1), (2, 2)] := by decide

end order

/-! ## C89 is violated -/

namespace Problems

/-- **C89** does not hold: for ZDT3, one of the benchmark problems, a vector of the box that is better
in the second objective and the same in the first one is seen as the worse one, in both objectives'
absolute values, by every node without an error. -/
theorem C89_violated : ∃ x y, InBox x zdt3.dims ∧ InBox y zdt3.dims ∧
    LDom (zdt3.fits.map fun f => f x) (zdt3.fits.map fun f => f y) ∧
    ∀ (errors : List ℝ) (level : ℕ), errors[level]? = some 0 → ∀ z z' : ℕ → ℝ,
      ∃ a b, blurredVector errors level zdt3.fits z x = some a ∧
        blurredVector errors level zdt3.fits z' y = some b ∧ LDom b a := by
  have hb : ∀ t : ℝ, 0 ≤ t → t ≤ 1 → InBox ((0.85 : ℝ) :: t :: List.replicate 28 0) zdt3.dims := by
    intro t h0 h1
    show InBox _ ((List.range 30).map fun _ => ((0 : ℝ), (1 : ℝ)))
    rw [unit_dims]
    exact List.Forall₂.cons (by norm_num) (List.Forall₂.cons ⟨h0, h1⟩
      (replicate_inBox 28 0 (0, 1) ⟨le_rfl, zero_le_one⟩))
  have hs : Real.sin (10 * Real.pi * 0.85) = 1 := by
    rw [show 10 * Real.pi * 0.85 = Real.pi / 2 + (4 : ℕ) * (2 * Real.pi) by push_cast; ring,
      Real.sin_add_nat_mul_two_pi, Real.sin_pi_div_two]
  have ev : ∀ t : ℝ, zdt3.fits.map (fun f => f ((0.85 : ℝ) :: t :: List.replicate 28 0)) =
      [0.85, (1 + 0.3103448275862069 * t) * (1 - Real.sqrt |0.85 / (1 + 0.3103448275862069 * t)| -
        0.85 / (1 + 0.3103448275862069 * t) * 1)] := by
    intro t
    simp only [zdt3, emoaFitnesses, emoaFitness2, List.map_cons, List.map_nil, List.getD_cons_zero,
      List.tail_cons, List.sum_cons, List.sum_replicate, smul_zero, add_zero, hs]
  have ea : ∀ w, (zdt3.fits.map fun f => |f w|) = (zdt3.fits.map fun f => f w).map fun v => |v| := by
    intro w; rw [List.map_map]; rfl
  have s1 : (0.9219 : ℝ) < Real.sqrt |0.85 / (1 + 0.3103448275862069 * 0)| := by
    rw [Real.lt_sqrt (by norm_num), abs_of_nonneg (by norm_num)]; norm_num
  have s2 : (0.8054 : ℝ) < Real.sqrt |0.85 / (1 + 0.3103448275862069 * 1)| := by
    rw [Real.lt_sqrt (by norm_num), abs_of_nonneg (by norm_num)]; norm_num
  have s3 : Real.sqrt |0.85 / (1 + 0.3103448275862069 * 1)| < (0.8055 : ℝ) := by
    rw [Real.sqrt_lt' (by norm_num), abs_of_nonneg (by norm_num)]; norm_num
  obtain ⟨u, hu, hu1⟩ : ∃ u, (1 + 0.3103448275862069 * 0) * (1 - Real.sqrt |0.85 / (1 + 0.3103448275862069 * 0)| -
      0.85 / (1 + 0.3103448275862069 * 0) * 1) = u ∧ u < (-0.77 : ℝ) :=
    ⟨_, rfl, by norm_num at s1 ⊢; linarith⟩
  obtain ⟨v, hv, hv1, hv2⟩ : ∃ v, (1 + 0.3103448275862069 * 1) * (1 - Real.sqrt |0.85 / (1 + 0.3103448275862069 * 1)| -
      0.85 / (1 + 0.3103448275862069 * 1) * 1) = v ∧ (-0.6 : ℝ) < v ∧ v < 0 :=
    ⟨_, rfl, by norm_num at s2 s3 ⊢; linarith, by norm_num at s2 s3 ⊢; linarith⟩
  have two : ∀ a b c : ℝ, b < c → LDom [a, b] [a, c] := by
    intro a b c h
    refine ⟨rfl, ?_, 1, by simp, by simp, by simpa using h⟩
    intro i hi _
    have : i = 0 ∨ i = 1 := by simp at hi; omega
    rcases this with rfl | rfl
    · simp
    · exact h.le
  refine ⟨_, _, hb 0 le_rfl zero_le_one, hb 1 zero_le_one le_rfl, ?_, ?_⟩
  · rw [ev, ev, hu, hv]
    exact two _ _ _ (by linarith)
  · intro errors level h z z'
    refine ⟨_, _, C89_absolute errors level h _ z _, C89_absolute errors level h _ z' _, ?_⟩
    rw [ea, ea, ev, ev, hu, hv]
    refine two _ _ _ ?_
    show |v| < |u|
    rw [abs_of_neg hv2, abs_of_neg (by linarith)]
    linarith

end Problems

end Evogil
