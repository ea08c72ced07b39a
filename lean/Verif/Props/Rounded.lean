import Verif.Lemmas.Rounded
import Verif.Lemmas.Binary64Real
import Verif.Model.Problems
import Verif.Model.ProblemsData
import Mathlib.Analysis.SpecialFunctions.Pow.Real

/-! # Property C121: variation and starting populations in floating point -/

set_option linter.unusedSectionVars false

namespace Evogil.Rounded

open Spec Binary64

variable {K : Type*} [Field K] [LinearOrder K] [IsStrictOrderedRing K] [FloorRing K]

/-- Rounding of floats has the properties used. -/
theorem round64_isRounding : IsRounding (round64 : K → K) (1 / 2 ^ 53) where
  mono _ _ h := round64_mono h
  idem := round64_round64
  unit := by norm_num
  grid n hn := by
    rcases hn.eq_or_lt with rfl | hn
    · refine round64_float ⟨1, 0, by norm_num, by norm_num, ?_⟩
      norm_num
    · refine round64_float ⟨n, -53, ?_, by norm_num, ?_⟩
      · rw [abs_of_nonneg (by positivity)]; exact_mod_cast hn
      · rw [Int.cast_natCast, zpow_neg, one_div]
        norm_num
  double x hx := by
    have : IsFloat x := hx ▸ isFloat_round64 x
    obtain ⟨m, e, h1, h2, h3⟩ := this
    refine round64_float ⟨m, e + 1, h1, by omega, ?_⟩
    rw [h3, zpow_add_one₀ two_ne_zero]
    ring

/-- Rounded real powers have the properties assumed of the library. -/
theorem rpow_laws : PowerLaws (fun b e : ℝ => round64 (b ^ e)) where
  nonneg _ e hb := fl_nonneg round64_isRounding (Real.rpow_nonneg hb e)
  small _ _ h0 h1 he := fl_le_one round64_isRounding (Real.rpow_le_one h0 h1 he)
  large _ _ h1 he := fl_le_one round64_isRounding (Real.rpow_le_one_of_one_le_of_nonpos h1 he)

theorem mutate_ok {fl : K → K} {u : K} {pw : K → K → K} {eps eta : K} (h : IsRounding fl u)
    (hp : PowerLaws pw) (he : 0 < eps) (hfe : fl eps = eps) (heta : 0 ≤ eta) (rate : K) :
    ∀ (dims : List (K × K)) (xs : List K) (ds : ℕ → MutDraw K), (∀ i, IsDraw u (ds i).rnd) →
      FloatBox fl dims → InBox xs dims → Floats fl xs →
      ∃ zs, mutate fl pw eps rate eta ds xs dims = .ok zs ∧ InBox zs dims ∧ Floats fl zs ∧
        ∀ (i : ℕ) (x z : K), xs[i]? = some x → zs[i]? = some z →
          (rate < (ds i).select → z = x) ∧ ((ds i).rnd ≤ 1 / 2 → z ≤ x) ∧ (1 / 2 < (ds i).rnd → x ≤ z) := by
  intro dims
  induction dims with
  | nil =>
    intro xs ds _ _ hx _
    cases hx
    exact ⟨[], by rw [mutate], .nil, by simp [Floats], by simp⟩
  | cons d dims ih =>
    intro xs ds hds hd hx hf
    cases hx with
    | @cons x _ xs _ hx1 hx =>
    obtain ⟨lb, ub⟩ := d
    obtain ⟨f1, f2, -⟩ := hd (lb, ub) List.mem_cons_self
    obtain ⟨zs, e, zb, zf, zi⟩ := ih xs (fun i => ds (i + 1)) (fun i => hds (i + 1))
      (fun d hd' => hd d (List.mem_cons_of_mem _ hd')) hx (fun y hy => hf y (List.mem_cons_of_mem _ hy))
    have hfx := hf x List.mem_cons_self
    obtain ⟨v, ev, v1, v2, v3, v4, v5, v6⟩ : ∃ v, (if rate < (ds 0).select then pure x
        else mutatedValue fl pw eps eta x lb ub (ds 0).rnd) = .ok v ∧ lb ≤ v ∧ v ≤ ub ∧ fl v = v ∧
        (rate < (ds 0).select → v = x) ∧ ((ds 0).rnd ≤ 1 / 2 → v ≤ x) ∧ (1 / 2 < (ds 0).rnd → x ≤ v) := by
      by_cases hc : rate < (ds 0).select
      · rw [if_pos hc]
        exact ⟨x, rfl, hx1.1, hx1.2, hfx, fun _ => rfl, fun _ => le_rfl, fun _ => le_rfl⟩
      · rw [if_neg hc]
        obtain ⟨v, ev, a1, a2, a3, a4, a5⟩ := mutatedValue_ok h hp he hfe heta f1 f2 hfx hx1.1 hx1.2 (hds 0)
        exact ⟨v, ev, a1, a2, a3, fun hh => absurd hh hc, a4, a5⟩
    refine ⟨v :: zs, ?_, .cons ⟨v1, v2⟩ zb, ?_, ?_⟩
    · rw [mutate]
      by_cases hc : rate < (ds 0).select
      · rw [if_pos hc] at ev ⊢
        rw [ev, e]
        rfl
      · rw [if_neg hc] at ev ⊢
        rw [ev, e]
        rfl
    · intro y hy
      rcases List.mem_cons.1 hy with rfl | hy
      · exact v3
      · exact zf y hy
    · intro i y z hy hz
      cases i with
      | zero =>
        simp only [List.getElem?_cons_zero, Option.some.injEq] at hy hz
        subst hy hz
        exact ⟨v4, v5, v6⟩
      | succ i => exact zi i y z hy hz

/-- C121: in floating point, `mutate` on a vector of floats of the box gives a vector of floats of the box: no
NaN and no infinity occurs. Coordinates that are not selected stay as they are, small draws do not increase a
coordinate and large ones do not decrease it. -/
theorem C121_mutate (pw : K → K → K) (hp : PowerLaws pw) (rate eta : K) (heta : 0 ≤ eta)
    (ds : ℕ → MutDraw K) (hds : ∀ i, IsDraw (1 / 2 ^ 53) (ds i).rnd) (dims : List (K × K))
    (hd : FloatBox round64 dims) (xs : List K) (hx : InBox xs dims) (hf : Floats round64 xs) :
    ∃ zs, mutate round64 pw (1 / 2 ^ 52) rate eta ds xs dims = .ok zs ∧ InBox zs dims ∧
      Floats round64 zs ∧ ∀ (i : ℕ) (x z : K), xs[i]? = some x → zs[i]? = some z →
        (rate < (ds i).select → z = x) ∧ ((ds i).rnd ≤ 1 / 2 → z ≤ x) ∧ (1 / 2 < (ds i).rnd → x ≤ z) := by
  refine mutate_ok round64_isRounding hp (by positivity) ?_ heta rate dims xs ds hds hd hx hf
  exact round64_float ⟨1, -52, by norm_num, by norm_num, by norm_num⟩

theorem crossoverLoop_ok {fl : K → K} {u : K} {pw : K → K → K} {eps eta : K} (h : IsRounding fl u)
    (hp : PowerLaws pw) (he : 0 < eps) (hfe : fl eps = eps) (heta : 0 ≤ eta) :
    ∀ (dims : List (K × K)) (xs ys : List K) (ds : ℕ → SbxDraw K), (∀ i, IsDraw u (ds i).rand) →
      FloatBox fl dims → InBox xs dims → InBox ys dims → Floats fl xs → Floats fl ys →
      ∃ as bs, crossoverLoop fl pw eps eta ds xs ys dims = .ok (as, bs) ∧
        (InBox as dims ∧ Floats fl as) ∧ (InBox bs dims ∧ Floats fl bs) ∧
        ∀ (i : ℕ) (x y a b : K), xs[i]? = some x → ys[i]? = some y → as[i]? = some a → bs[i]? = some b →
          min a b ≤ mid fl (min x y) (max x y) ∧ mid fl (min x y) (max x y) ≤ max a b ∧
          (1 / 2 < (ds i).skip ∨ |fl (x - y)| ≤ eps → a = x ∧ b = y) := by
  intro dims
  induction dims with
  | nil =>
    intro xs ys ds _ _ hx hy _ _
    cases hx
    cases hy
    exact ⟨[], [], by rw [crossoverLoop], ⟨.nil, by simp [Floats]⟩, ⟨.nil, by simp [Floats]⟩, by simp⟩
  | cons d dims ih =>
    intro xs ys ds hds hd hx hy fx fy
    cases hx with
    | @cons x _ xs _ hx1 hx =>
    cases hy with
    | @cons y _ ys _ hy1 hy =>
    obtain ⟨lb, ub⟩ := d
    obtain ⟨f1, f2, -⟩ := hd (lb, ub) List.mem_cons_self
    obtain ⟨as, bs, e, ⟨ab, af⟩, ⟨bb, bf⟩, hi⟩ := ih xs ys (fun i => ds (i + 1)) (fun i => hds (i + 1))
      (fun d hd' => hd d (List.mem_cons_of_mem _ hd')) hx hy (fun y hy => fx y (List.mem_cons_of_mem _ hy))
      (fun z hz => fy z (List.mem_cons_of_mem _ hz))
    obtain ⟨a, b, ec, ⟨a1, a2, a3⟩, ⟨b1, b2, b3⟩, m⟩ := crossed_ok h hp he hfe heta (d := ds 0) f1 f2
      (fx x List.mem_cons_self) (fy y List.mem_cons_self) hx1.1 hx1.2 hy1.1 hy1.2 (hds 0)
    refine ⟨a :: as, b :: bs, ?_, ⟨.cons ⟨a1, a2⟩ ab, ?_⟩, ⟨.cons ⟨b1, b2⟩ bb, ?_⟩, ?_⟩
    · rw [crossoverLoop]
      simp only [ec, e, bind, Except.bind, pure, Except.pure]
    · intro z hz
      rcases List.mem_cons.1 hz with rfl | hz
      · exact a3
      · exact af z hz
    · intro z hz
      rcases List.mem_cons.1 hz with rfl | hz
      · exact b3
      · exact bf z hz
    · intro i p q r s hp' hq hr hs
      cases i with
      | zero =>
        simp only [List.getElem?_cons_zero, Option.some.injEq] at hp' hq hr hs
        subst hp' hq hr hs
        exact m
      | succ i => exact hi i p q r s hp' hq hr hs

/-- C121: in floating point, the two lists `crossover` chooses from are vectors of floats of the box if the
parents are: no NaN and no infinity occurs. In every coordinate one of the two values lies below and the other
one above the (rounded) midpoint of the parents, and coordinates that are skipped stay as they are. -/
theorem C121_crossover (pw : K → K → K) (hp : PowerLaws pw) (rate eta first : K) (heta : 0 ≤ eta)
    (ds : ℕ → SbxDraw K) (hds : ∀ i, IsDraw (1 / 2 ^ 53) (ds i).rand) (dims : List (K × K))
    (hd : FloatBox round64 dims) (xs ys : List K) (hx : InBox xs dims) (hy : InBox ys dims)
    (fx : Floats round64 xs) (fy : Floats round64 ys) :
    ∃ as bs, crossover round64 pw (1 / 2 ^ 52) rate eta first true ds xs ys dims = .ok as ∧
      crossover round64 pw (1 / 2 ^ 52) rate eta first false ds xs ys dims = .ok bs ∧
      (InBox as dims ∧ Floats round64 as) ∧ (InBox bs dims ∧ Floats round64 bs) ∧
      (rate < first → as = xs ∧ bs = ys) ∧
      ∀ (i : ℕ) (x y a b : K), xs[i]? = some x → ys[i]? = some y → as[i]? = some a → bs[i]? = some b →
        min a b ≤ round64 (1 / 2 * round64 (x + y)) ∧ round64 (1 / 2 * round64 (x + y)) ≤ max a b ∧
        (1 / 2 < (ds i).skip → a = x ∧ b = y) := by
  have he : round64 (1 / 2 ^ 52 : K) = 1 / 2 ^ 52 :=
    round64_float ⟨1, -52, by norm_num, by norm_num, by norm_num⟩
  have hm : ∀ x y : K, mid round64 (min x y) (max x y) = round64 (1 / 2 * round64 (x + y)) := by
    intro x y
    rw [mid, min_add_max]
  by_cases hc : rate < first
  · refine ⟨xs, ys, by rw [crossover, if_pos hc]; rfl, by rw [crossover, if_pos hc]; rfl, ⟨hx, fx⟩, ⟨hy, fy⟩,
      fun _ => ⟨rfl, rfl⟩, ?_⟩
    intro i x y a b h1 h2 h3 h4
    rw [h1] at h3
    rw [h2] at h4
    cases h3
    cases h4
    have fx' := fx x (List.mem_of_getElem? h1)
    have fy' := fy y (List.mem_of_getElem? h2)
    rw [← hm]
    have := mid_mem (round64_isRounding (K := K)) (x := min x y) (y := max x y)
      (by rcases min_choice x y with e | e <;> rw [e] <;> assumption)
      (by rcases max_choice x y with e | e <;> rw [e] <;> assumption) min_le_max
    exact ⟨this.1, this.2, fun _ => ⟨rfl, rfl⟩⟩
  · obtain ⟨as, bs, e, h1, h2, h3⟩ := crossoverLoop_ok round64_isRounding hp (by positivity) he heta dims xs ys ds
      hds hd hx hy fx fy
    refine ⟨as, bs, ?_, ?_, h1, h2, fun hh => absurd hh hc, ?_⟩
    · rw [crossover, if_neg hc, e]; rfl
    · rw [crossover, if_neg hc, e]; rfl
    · intro i x y a b i1 i2 i3 i4
      obtain ⟨k1, k2, k3⟩ := h3 i x y a b i1 i2 i3 i4
      rw [hm] at k1 k2
      exact ⟨k1, k2, fun hh => k3 (Or.inl hh)⟩

/-! ## Starting populations -/

/-- An interval of which `random.uniform` gives floats. -/
def UniformOk (fl : K → K) (u : K) (d : K × K) : Prop := uniform fl (1 - u) d.1 d.2 ≤ d.2

theorem uniform_mem {fl : K → K} {u : K} (h : IsRounding fl u) {d : K × K} (hd : fl d.1 = d.1)
    (hle : d.1 ≤ d.2) (hu : UniformOk fl u d) {r : K} (hr : IsDraw u r) :
    d.1 ≤ uniform fl r d.1 d.2 ∧ uniform fl r d.1 d.2 ≤ d.2 ∧
      fl (uniform fl r d.1 d.2) = uniform fl r d.1 d.2 := by
  obtain ⟨r0, r1⟩ := draw_bounds h hr
  have hw : 0 ≤ fl (d.2 - d.1) := fl_nonneg h (by linarith)
  refine ⟨le_fl h hd ?_, le_trans (h.mono _ _ ?_) hu, h.idem _⟩
  · linarith [fl_nonneg h (mul_nonneg hw r0)]
  · linarith [h.mono _ _ (mul_le_mul_of_nonneg_left r1 hw)]

theorem genPopulation_ok {fl : K → K} {u : K} (h : IsRounding fl u) (dims : List (K × K))
    (hd : FloatBox fl dims) (hu : ∀ d ∈ dims, UniformOk fl u d) (r : ℕ → ℕ → K) (hr : ∀ j i, IsDraw u (r j i))
    (count : ℕ) : (genPopulation fl r count dims).length = count ∧
      ∀ x ∈ genPopulation fl r count dims, InBox x dims ∧ Floats fl x := by
  refine ⟨by simp [genPopulation], fun x hx => ?_⟩
  obtain ⟨j, -, rfl⟩ := List.mem_map.1 hx
  have one : ∀ d ∈ dims, ∀ i, d.1 ≤ uniform fl (r j i) d.1 d.2 ∧ uniform fl (r j i) d.1 d.2 ≤ d.2 ∧
      fl (uniform fl (r j i) d.1 d.2) = uniform fl (r j i) d.1 d.2 :=
    fun d hd' i => uniform_mem h (hd d hd').1 (hd d hd').2.2 (hu d hd') (hr j i)
  constructor
  · refine inBox_of_get (by simp) fun i v d hv hd' => ?_
    rw [List.getElem?_map, List.getElem?_zipIdx, hd'] at hv
    simp only [Option.map_some, Option.some.injEq] at hv
    subst hv
    obtain ⟨a, b, -⟩ := one d (List.mem_of_getElem? hd') (0 + i)
    exact ⟨a, b⟩
  · intro v hv
    obtain ⟨⟨d, i⟩, hm, rfl⟩ := List.mem_map.1 hv
    exact (one d (List.fst_mem_of_mem_zipIdx hm) i).2.2

/-- The intervals of all dimensions of all problems other than UF11 and UF12. -/
def plainIntervals : List (ℚ × ℚ) := [(0, 1), (-1, 1), (-2, 2), (-5, 5), (-3 / 2, 3 / 2)]

/-- The intervals of all dimensions of all problems, as written in the sources. -/
def intervals : List (ℚ × ℚ) := plainIntervals ++ Problems.rotDims

theorem intervals_ok : ∀ q ∈ intervals, round64 q.1 < round64 q.2 ∧
    uniform round64 (1 - 1 / 2 ^ 53) (round64 q.1) (round64 q.2) ≤ round64 q.2 := by
  decide +kernel

theorem uniform_cast (r lb ub : ℚ) :
    uniform round64 (r : ℝ) (lb : ℝ) (ub : ℝ) = ((uniform round64 r lb ub : ℚ) : ℝ) := by
  unfold uniform
  rw [← Rat.cast_sub, round64_cast, ← Rat.cast_mul, round64_cast, ← Rat.cast_add, round64_cast]

open Problems in
/-- The problems of /repo/problems other than UF11 and UF12; the reference front `f3` does not matter here. -/
noncomputable def plainProblems (f3 : List (List ℝ)) : List Problem :=
  [zdt1, zdt2, zdt3, zdt4, zdt6, uf1, uf2, uf3, uf4, uf5, uf6, uf7, uf8, uf9, uf10, ackley, ewa1, ewa2, kursawe f3]

open Problems in
/-- The problems of /repo/problems -/
noncomputable def allProblems (f1 f2 f3 : List (List ℝ)) : List Problem :=
  plainProblems f3 ++ [uf11 f1, uf12 f2]

theorem plain_dims (f3 : List (List ℝ)) : ∀ p ∈ plainProblems f3, ∀ d ∈ p.dims,
    ∃ q ∈ plainIntervals, d = ((q.1 : ℝ), (q.2 : ℝ)) := by
  have c1 : ∃ q ∈ plainIntervals, ((0 : ℝ), (1 : ℝ)) = ((q.1 : ℝ), (q.2 : ℝ)) :=
    ⟨(0, 1), by simp [plainIntervals], by norm_num⟩
  have c2 : ∃ q ∈ plainIntervals, ((-1 : ℝ), (1 : ℝ)) = ((q.1 : ℝ), (q.2 : ℝ)) :=
    ⟨(-1, 1), by simp [plainIntervals], by norm_num⟩
  have c3 : ∃ q ∈ plainIntervals, ((-2 : ℝ), (2 : ℝ)) = ((q.1 : ℝ), (q.2 : ℝ)) :=
    ⟨(-2, 2), by simp [plainIntervals], by norm_num⟩
  have c4 : ∃ q ∈ plainIntervals, ((-5 : ℝ), (5 : ℝ)) = ((q.1 : ℝ), (q.2 : ℝ)) :=
    ⟨(-5, 5), by simp [plainIntervals], by norm_num⟩
  have c5 : ∃ q ∈ plainIntervals, ((-1.5 : ℝ), (1.5 : ℝ)) = ((q.1 : ℝ), (q.2 : ℝ)) :=
    ⟨(-3 / 2, 3 / 2), by simp [plainIntervals], by norm_num⟩
  have m0 : ∀ n d, d ∈ (List.range n).map (fun _ => ((0 : ℝ), (1 : ℝ))) → d = (0, 1) := by
    intro n d hd
    obtain ⟨_, -, rfl⟩ := List.mem_map.1 hd
    rfl
  have m5 : ∀ n d, d ∈ (List.range n).map (fun _ => ((-5 : ℝ), (5 : ℝ))) → d = (-5, 5) := by
    intro n d hd
    obtain ⟨_, -, rfl⟩ := List.mem_map.1 hd
    rfl
  have two : ∀ (n m : ℕ) (a b d : ℝ × ℝ), d ∈ List.replicate n a ++ List.replicate m b → d = a ∨ d = b := by
    intro n m a b d hd
    rcases List.mem_append.1 hd with hd | hd
    · exact Or.inl (List.eq_of_mem_replicate hd)
    · exact Or.inr (List.eq_of_mem_replicate hd)
  intro p hp d hd
  simp only [plainProblems, List.mem_cons, List.not_mem_nil, or_false] at hp
  rcases hp with rfl | rfl | rfl | rfl | rfl | rfl | rfl | rfl | rfl | rfl | rfl | rfl | rfl | rfl | rfl | rfl |
    rfl | rfl | rfl
  · rw [m0 30 d hd]; exact c1
  · rw [m0 30 d hd]; exact c1
  · rw [m0 30 d hd]; exact c1
  · rcases List.mem_append.1 hd with hd | hd
    · rw [List.mem_singleton.1 hd]; exact c1
    · rw [m5 _ d hd]; exact c4
  · rw [m0 _ d hd]; exact c1
  · rcases two 1 29 _ _ d hd with rfl | rfl <;> assumption
  · rcases two 1 29 _ _ d hd with rfl | rfl <;> assumption
  · rw [List.eq_of_mem_replicate hd]; exact c1
  · rcases two 1 29 _ _ d hd with rfl | rfl <;> assumption
  · rcases two 1 9 _ _ d hd with rfl | rfl <;> assumption
  · rcases two 1 29 _ _ d hd with rfl | rfl <;> assumption
  · rcases two 1 29 _ _ d hd with rfl | rfl <;> assumption
  · rcases two 2 28 _ _ d hd with rfl | rfl <;> assumption
  · rcases two 2 28 _ _ d hd with rfl | rfl <;> assumption
  · rcases two 2 28 _ _ d hd with rfl | rfl <;> assumption
  · rcases two 1 1 _ _ d hd with rfl | rfl <;> assumption
  · rcases two 1 1 _ _ d hd with rfl | rfl <;> assumption
  · rcases two 1 1 _ _ d hd with rfl | rfl <;> assumption
  · rcases two 1 2 _ _ d hd with rfl | rfl <;> assumption

theorem dims_intervals (f1 f2 f3 : List (List ℝ)) : ∀ p ∈ allProblems f1 f2 f3, ∀ d ∈ p.dims,
    ∃ q ∈ intervals, d = ((q.1 : ℝ), (q.2 : ℝ)) := by
  intro p hp d hd
  rcases List.mem_append.1 hp with hp | hp
  · obtain ⟨q, hq, e⟩ := plain_dims f3 p hp d hd
    exact ⟨q, List.mem_append_left _ hq, e⟩
  · have : d ∈ Problems.rotDims.map (fun b : ℚ × ℚ => ((b.1 : ℝ), (b.2 : ℝ))) := by
      simp only [List.mem_cons, List.not_mem_nil, or_false] at hp
      rcases hp with rfl | rfl <;> exact hd
    obtain ⟨q, hq, rfl⟩ := List.mem_map.1 this
    exact ⟨q, List.mem_append_right _ hq, rfl⟩

/-- The box of a problem as floats -/
noncomputable def floatDims (p : Problems.Problem) : List (ℝ × ℝ) :=
  p.dims.map fun d => (round64 d.1, round64 d.2)

theorem floatDims_ok (f1 f2 f3 : List (List ℝ)) (p : Problems.Problem) (hp : p ∈ allProblems f1 f2 f3) :
    FloatBox round64 (floatDims p) ∧ (∀ d ∈ floatDims p, d.1 < d.2) ∧
      ∀ d ∈ floatDims p, UniformOk round64 (1 / 2 ^ 53) d := by
  have key : ∀ d ∈ floatDims p, ∃ q ∈ intervals, d = (((round64 q.1 : ℚ) : ℝ), ((round64 q.2 : ℚ) : ℝ)) := by
    intro d hd
    obtain ⟨d', hd', rfl⟩ := List.mem_map.1 hd
    obtain ⟨q, hq, rfl⟩ := dims_intervals f1 f2 f3 p hp d' hd'
    exact ⟨q, hq, by simp only [round64_cast]⟩
  refine ⟨fun d hd => ?_, fun d hd => ?_, fun d hd => ?_⟩
  · obtain ⟨q, hq, rfl⟩ := key d hd
    simp only [round64_cast, round64_round64, true_and]
    exact_mod_cast (intervals_ok q hq).1.le
  · obtain ⟨q, hq, rfl⟩ := key d hd
    simp only
    exact_mod_cast (intervals_ok q hq).1
  · obtain ⟨q, hq, rfl⟩ := key d hd
    unfold UniformOk
    simp only
    rw [show (1 - 1 / 2 ^ 53 : ℝ) = ((1 - 1 / 2 ^ 53 : ℚ) : ℝ) by push_cast; rfl, uniform_cast]
    exact_mod_cast (intervals_ok q hq).2

/-- C121: for every problem of the repository, the individuals that `gen_population` draws in floating point
are vectors of floats of the box, whatever `random` gives. -/
theorem C121_population (f1 f2 f3 : List (List ℝ)) (p : Problems.Problem) (hp : p ∈ allProblems f1 f2 f3)
    (r : ℕ → ℕ → ℝ) (hr : ∀ j i, IsDraw (1 / 2 ^ 53) (r j i)) (count : ℕ) :
    (genPopulation round64 r count (floatDims p)).length = count ∧
      ∀ x ∈ genPopulation round64 r count (floatDims p), InBox x (floatDims p) ∧ Floats round64 x :=
  let h := floatDims_ok f1 f2 f3 p hp
  genPopulation_ok round64_isRounding (floatDims p) h.1 h.2.2 r hr count

/-- C121: all boxes of the repository are boxes as required by `C121_mutate` and `C121_crossover`. -/
theorem C121_boxes (f1 f2 f3 : List (List ℝ)) (p : Problems.Problem) (hp : p ∈ allProblems f1 f2 f3) :
    FloatBox round64 (floatDims p) ∧ ∀ d ∈ floatDims p, d.1 < d.2 :=
  let h := floatDims_ok f1 f2 f3 p hp
  ⟨h.1, h.2.1⟩

/-! ## Without rounding -/

/-- Without rounding the value of a mutated coordinate is the one of `Evogil.mutatedValue` (C13). -/
theorem mutatedValue_exact (pw : K → K → K) (eps eta y lb ub rnd v : K) (he : 0 < eps) (hlu : lb ≤ ub)
    (h : Evogil.mutatedValue pw eps eta y lb ub rnd = some v) :
    mutatedValue id pw eps eta y lb ub rnd = .ok v := by
  have hpow : ∀ b e p, pyPow pw b e = some p → pow pw b e = .ok p := by
    intro b e p hp
    unfold pyPow at hp
    unfold pow
    split_ifs at hp with c1 c2
    rw [if_neg (fun hh => c1 hh.1), if_neg c2]
    cases hp; rfl
  have hd : (0 : K) < ub - lb + eps := by linarith
  unfold Evogil.mutatedValue at h
  obtain ⟨q, hq, rfl⟩ := Option.map_eq_some_iff.1 h
  have : mutDeltaQ id pw eps eta y lb ub rnd = .ok q := by
    unfold Evogil.mutDeltaQ at hq
    unfold mutDeltaQ
    simp only [id_eq, div_ok hd, bind, Except.bind, pure, Except.pure] at hq ⊢
    by_cases hc : rnd ≤ 1 / 2
    · rw [if_pos hc] at hq ⊢
      obtain ⟨p, hp, hq⟩ := Option.bind_eq_some_iff.1 hq
      obtain ⟨p2, hp2, hq⟩ := Option.bind_eq_some_iff.1 hq
      cases hq
      rw [hpow _ _ _ hp]
      simp only
      rw [hpow _ _ _ hp2]
    · rw [if_neg hc] at hq ⊢
      obtain ⟨p, hp, hq⟩ := Option.bind_eq_some_iff.1 hq
      obtain ⟨p2, hp2, hq⟩ := Option.bind_eq_some_iff.1 hq
      cases hq
      rw [hpow _ _ _ hp]
      simp only
      rw [hpow _ _ _ hp2]
  unfold mutatedValue
  rw [this]
  rfl

/-- Without rounding the values of a recombined coordinate are the ones of `Evogil.sbxValues` (C14). -/
theorem sbxValues_exact (pw : K → K → K) (eps eta x y lb ub rand a b : K) (he : 0 < eps)
    (h : Evogil.sbxValues pw eps eta x y lb ub rand = some (a, b)) :
    sbxValues id pw eps eta x y lb ub rand = .ok (a, b) := by
  have hpow : ∀ b e p, pyPow pw b e = some p → pow pw b e = .ok p := by
    intro b e p hp
    unfold pyPow at hp
    unfold pow
    split_ifs at hp with c1 c2
    rw [if_neg (fun hh => c1 hh.1), if_neg c2]
    cases hp; rfl
  have hq : ∀ alpha q, Evogil.getBetaQ pw rand alpha eta = some q → getBetaQ id pw rand alpha eta = .ok q := by
    intro alpha q hq
    unfold Evogil.getBetaQ at hq
    unfold getBetaQ
    split_ifs at hq with c1 c2 c3
    · simp only [div, if_neg c1, bind, Except.bind, id_eq, if_pos c2]
      exact hpow _ _ _ hq
    · simp only [div, if_neg c1, bind, Except.bind, id_eq, if_neg c2, if_neg c3]
      exact hpow _ _ _ hq
  have hd : (0 : K) < max x y - min x y + eps := by linarith [min_le_max (a := x) (b := y)]
  unfold Evogil.sbxValues at h
  simp only [Option.bind_eq_bind] at h
  obtain ⟨p, hp, h⟩ := Option.bind_eq_some_iff.mp h
  obtain ⟨bq, hb, h⟩ := Option.bind_eq_some_iff.mp h
  obtain ⟨p', hp', h⟩ := Option.bind_eq_some_iff.mp h
  obtain ⟨bq', hb', h⟩ := Option.bind_eq_some_iff.mp h
  simp only [Option.pure_def, Option.some.injEq, Prod.mk.injEq] at h
  obtain ⟨rfl, rfl⟩ := h
  have h1 := hpow _ _ _ hp
  have h2 := hpow _ _ _ hp'
  have h3 := hq _ _ hb
  have h4 := hq _ _ hb'
  unfold sbxValues childA childB
  simp only [id_eq, div_ok hd, bind, Except.bind, h1, h2, h3, h4, pure, Except.pure, clamp, Evogil.clamp]

/-! ## Examples -/

/-- A stand-in for powers that can be computed -/
def pwEx (b e : ℚ) : ℚ := if e = 0 then 1 else if e < 0 then 1 / b else b

theorem pwEx_laws : PowerLaws pwEx where
  nonneg b e hb := by unfold pwEx; split_ifs <;> positivity
  small b e h0 h1 he := by
    unfold pwEx
    split_ifs with c1 c2
    · exact le_rfl
    · linarith
    · exact h1
  large b e h1 he := by
    unfold pwEx
    split_ifs with c1 c2
    · exact le_rfl
    · rw [div_le_one (by linarith)]; exact h1
    · exact absurd (lt_of_le_of_ne he c1) c2

/-- 1/10 is mutated downwards and 3/10 upwards. -/
example : mutate round64 pwEx (1 / 2 ^ 52) 1 20 (fun i => if i = 0 then ⟨0, 1 / 4⟩ else ⟨0, 3 / 4⟩)
    [round64 (1 / 10), round64 (3 / 10)] [(0, 1), (-1, 1)] =
      .ok [1801439850948197 / 2 ^ 55, 2927339757790823 / 2 ^ 52] := by
  decide +kernel

/-- The children of 1/10 and 7/10 lie on both sides of 4/10. -/
example : crossover round64 pwEx (1 / 2 ^ 52) 1 30 0 true (fun _ => ⟨0, 3 / 4, 0⟩) [round64 (1 / 10)]
      [round64 (7 / 10)] [(0, 1)] = .ok [2139209823000985 / 2 ^ 54] ∧
    crossover round64 pwEx (1 / 2 ^ 52) 1 30 0 false (fun _ => ⟨0, 3 / 4, 0⟩) [round64 (1 / 10)]
      [round64 (7 / 10)] [(0, 1)] = .ok [6691062303521879 / 2 ^ 53] := by
  decide +kernel

/-- The hypotheses can be met. -/
example : FloatBox round64 [((0 : ℚ), 1), (-1, 1)] ∧ Floats round64 [round64 (1 / 10 : ℚ), round64 (3 / 10)] ∧
    InBox [round64 (1 / 10 : ℚ), round64 (3 / 10)] [(0, 1), (-1, 1)] := by
  refine ⟨?_, ?_, ?_⟩
  · unfold FloatBox; decide +kernel
  · unfold Floats; decide +kernel
  · unfold InBox; decide +kernel

example : IsDraw (1 / 2 ^ 53 : ℚ) (3 / 4) := ⟨3 * 2 ^ 51, by norm_num, by norm_num⟩

/-- The largest draw in (-0.885, 2.267) gives a number below the upper end. -/
example : uniform round64 (1 - 1 / 2 ^ 53) (round64 (-885 / 1000 : ℚ)) (round64 (2267 / 1000)) =
    5104830177624456 / 2 ^ 51 ∧ round64 (2267 / 1000 : ℚ) = 5104830177624457 / 2 ^ 51 := by
  decide +kernel

end Evogil.Rounded
