import Verif.Lemmas.InteriorRun
import Verif.Props.Interior
import Verif.Props.Trim
import Verif.Props.Rounded

/-!
# C161: whole runs do not pile up on the bounds

Real numbers and real powers. Vectors in which no coordinate is on a bound have only such descendants.
-/

set_option linter.unusedSectionVars false

namespace Evogil.Generations

open Evaluation Interior

/-- The operators with real powers and indices that are not negative; trimming keeps vectors away from the bounds. Without
trimming (`trim_function=lambda x: x`, the default of the four drivers) the last two are clear. -/
structure RealSetup (S : Setup ℝ) : Prop where
  pow : S.pw = rp
  eps : 0 < S.eps
  crossEta : 0 ≤ S.crossEta
  mutEta : 0 ≤ S.mutEta
  trim : ∀ v, InBox v S.dims → InBox (S.trim v) S.dims
  trimInside : ∀ v, Inside v S.dims → Inside (S.trim v) S.dims

theorem RealSetup.valid {S : Setup ℝ} (h : RealSetup S) : S.Valid :=
  ⟨h.pow ▸ powLaws_rpow, h.eps, h.crossEta, h.mutEta, h.trim⟩

theorem RealSetup.kept {S : Setup ℝ} (h : RealSetup S) : Kept S fun v => Inside v S.dims where
  box _ hv := hv.inBox
  cross d hd x y c hx hy hc := by
    unfold crossVec at hc
    obtain ⟨⟨h', r⟩, h1, rfl⟩ := Option.map_eq_some_iff.1 hc
    obtain ⟨h'', r'', h2, h3⟩ := C147_crossover S.eps h.eps d.first d.pick d.cross hd.1 (fun p => if p = 0 then x else y) 2 0 1
      (by omega) (by omega) S.dims S.crossRate S.crossEta h.crossEta (by simpa using hx) (by simpa using hy)
    rw [h.pow, h2, Option.some.injEq, Prod.mk.injEq] at h1
    obtain ⟨rfl, rfl⟩ := h1
    exact h3
  mutn d hd x c hx hc := by
    unfold mutVec at hc
    obtain ⟨ys, h2, h3⟩ := C147_mutate S.eps h.eps d.mutn hd.2 x S.dims S.mutRate S.mutEta h.mutEta hx
    rw [h.pow, h2, Option.some.injEq] at hc
    exact hc ▸ h3
  trim _ hv := h.trimInside _ hv

section
variable {A : Type*} [DecidableEq A] {S : Setup ℝ}

/-- C161 for NSGA-II: when no coordinate of the starting vectors is on a bound, none ever is, in the population and in what
`finalized_population` returns; and neither raises. -/
theorem C161_nsgaii (hS : RealSetup S) (key : List ℝ → A) (fit : List ℝ → List ℝ) (m : ℕ) (c : ℝ) (N : ℕ)
    (hfit : ∀ v, (fit v).length = m) (s : NState ℝ A) (h : NFrom S (fun v => Inside v S.dims) key fit m c N s) :
    (∀ x ∈ s.individuals, Inside x.v S.dims) ∧
    ∀ iter : List (Ind (List ℝ) (List ℝ)) → List (Ind (List ℝ) (List ℝ)), (∀ l, (iter l).Perm l) →
      (∀ dm dv, (∀ i, MateDraw.Valid N (dm i)) → (∀ i, VarDraw.Valid (dv i)) →
        ∃ s', nsgaiiStep S key fit m iter dm dv s = some s' ∧ ∀ x ∈ s'.individuals, Inside x.v S.dims) ∧
      ∃ s' r, nsgaiiFinish S key fit m iter s = some (s', r) ∧ r.length = N ∧ ∀ v ∈ r, Inside v S.dims := by
  refine ⟨h.keeps hS.valid hfit hS.kept, fun iter hiter => ⟨fun dm dv hdm hdv => ?_, ?_⟩⟩
  · obtain ⟨s', h1, -⟩ := ((h.reach hS.kept).inv hS.valid hfit).1.step hS.valid (key := key) hfit hiter hdm hdv
    exact ⟨s', h1, (NFrom.step iter hiter dm hdm dv hdv s s' h h1).keeps hS.valid hfit hS.kept⟩
  · obtain ⟨s', r, h1, -, h2, rfl⟩ := ((h.reach hS.kept).inv hS.valid hfit).1.finish (key := key) hfit hiter
    refine ⟨s', _, h1, by rw [List.length_map, h2], ?_⟩
    intro v hv
    obtain ⟨x, hx, rfl⟩ := List.mem_map.1 hv
    exact (NFrom.finish iter hiter s s' _ h h1).keeps hS.valid hfit hS.kept x hx

/-- C161 for SPEA2 with at least two individuals. -/
theorem C161_spea2 (hS : RealSetup S) (dist : List ℝ → List ℝ → ℝ) (hdist : ∀ a b, 0 ≤ dist a b) (key : List ℝ → A)
    (fit : List ℝ → List ℝ) (m N : ℕ) (hfit : ∀ v, (fit v).length = m) (hN : 2 ≤ N) (s : SState ℝ)
    (h : SFrom S (fun v => Inside v S.dims) dist key fit m N s) :
    (∀ x ∈ s.individuals, Inside x.v S.dims) ∧ (∀ v ∈ spea2Final s, Inside v S.dims) ∧
    ∀ fa : Option (Archive A (List ℝ)), (∀ a, fa = some a → ∀ k f, a k = some f → f.length = m) →
      ∀ dt dv, (∀ i, PairDraw N (dt i).1 ∧ PairDraw N (dt i).2) → (∀ i, VarDraw.Valid (dv i)) →
        ∃ s', spea2Step S dist key fit fa dt dv s = some s' ∧ (spea2Final s').length = N ∧
          ∀ v ∈ spea2Final s', Inside v S.dims := by
  obtain ⟨h1, h2⟩ := h.keeps hS.valid hdist hfit hN hS.kept
  refine ⟨h1, fun v hv => ?_, fun fa ha dt dv hdt hdv => ?_⟩
  · obtain ⟨x, hx, rfl⟩ := List.mem_map.1 hv
    exact h2 x hx
  · obtain ⟨s', g1, -, g2⟩ :=
      ((h.reach hS.kept).inv hS.valid hdist hfit hN).step hS.valid hdist hfit hN ha hdt hdv (key := key)
    refine ⟨s', g1, by rw [spea2Final, List.length_map, g2], fun v hv => ?_⟩
    obtain ⟨x, hx, rfl⟩ := List.mem_map.1 hv
    exact ((SFrom.step fa ha dt hdt dv hdv s s' h g1).keeps hS.valid hdist hfit hN hS.kept).2 x hx

/-- C161 for IBEA with at least one individual. -/
theorem C161_ibea (hS : RealSetup S) (ex : ℝ → ℝ) (kappa : ℝ) (objectives : List (List ℝ → ℝ)) (c : ℝ) (N : ℕ) (hN : 1 ≤ N)
    (s : IState ℝ) (h : IFrom S (fun v => Inside v S.dims) ex kappa objectives c N s) :
    (∀ x ∈ s.individuals, Inside x.v S.dims) ∧
    ∀ (inArchive : List ℝ → Bool) (hasArchive : Bool),
      (∀ dm dv, (∀ i, MateDraw.Valid N (dm i)) → (∀ i, VarDraw.Valid (dv i)) →
        ∃ s', ibeaStep S ex kappa objectives inArchive hasArchive dm dv s = some s' ∧
          ∀ x ∈ s'.individuals, Inside x.v S.dims) ∧
      ∃ s' r, ibeaFinish S ex kappa objectives inArchive hasArchive s = some (s', r) ∧ r.length = N ∧
        ∀ v ∈ r, Inside v S.dims := by
  refine ⟨h.keeps hS.valid hN hS.kept, fun ia hA => ⟨fun dm dv hdm hdv => ?_, ?_⟩⟩
  · obtain ⟨s', h1, -⟩ := ((h.reach hS.kept).inv hS.valid hN).1.step hS.valid hN ia hA hdm hdv (ex := ex) (kappa := kappa)
      (objectives := objectives)
    exact ⟨s', h1, (IFrom.step ia hA dm hdm dv hdv s s' h h1).keeps hS.valid hN hS.kept⟩
  · obtain ⟨s', r, h1, -, h2, rfl⟩ := ((h.reach hS.kept).inv hS.valid hN).1.finish hN ia hA (ex := ex) (kappa := kappa)
      (objectives := objectives)
    refine ⟨s', _, h1, by rw [List.length_map, h2], ?_⟩
    intro v hv
    obtain ⟨x, hx, rfl⟩ := List.mem_map.1 hv
    exact (IFrom.finish ia hA s s' _ h h1).keeps hS.valid hN hS.kept x hx

/-- C161 for SMS-EMOA. -/
theorem C161_smsemoa (hS : RealSetup S) (key : List ℝ → A) (fit : List ℝ → List ℝ) (m : ℕ) (mult : ℝ) (N : ℕ)
    (hfit : ∀ v, (fit v).length = m) (s : MState ℝ) (h : MFrom S (fun v => Inside v S.dims) key fit m mult N s) :
    (smsFinal s).length = N ∧ (∀ v ∈ smsFinal s, Inside v S.dims) ∧
    ∀ fa : Option (Archive A (List ℝ)), (∀ a, fa = some a → ∀ k f, a k = some f → f.length = m) →
      ∀ iter : List (Ind (List ℝ) (List ℝ)) → List (Ind (List ℝ) (List ℝ)), (∀ l, (iter l).Perm l) →
      ∀ hv dt dv, (∀ i, PairDraw N (dt i)) → (∀ i, VarDraw.Valid (dv i)) →
        ∃ s', smsStep S key fit fa iter hv dt dv s = some s' ∧ ∀ v ∈ smsFinal s', Inside v S.dims := by
  have hfin : ∀ s : MState ℝ, MFrom S (fun v => Inside v S.dims) key fit m mult N s → ∀ v ∈ smsFinal s, Inside v S.dims := by
    intro s h v hv
    obtain ⟨x, hx, rfl⟩ := List.mem_map.1 hv
    exact h.keeps hS.valid hfit hS.kept x hx
  have hi := (h.reach hS.kept).inv hS.valid hfit
  refine ⟨by rw [smsFinal, List.length_map, hi.size], hfin s h, fun fa ha iter hiter hv dt dv hdt hdv => ?_⟩
  obtain ⟨s', h1, -⟩ := MInv.turns (key := key) hS.valid hfit ha hiter hv hdt hdv s.epochLength 0 s hi
  exact ⟨s', h1, hfin s' (.step fa ha iter hiter hv dt hdt dv hdv s s' h h1)⟩

end

/-! ## Trimming -/

open Spec Trim

/-- C161, the truncation that HGS asks for: as long as a digit is kept and zero lies in every interval (as for all problems
shipped), it does not move a coordinate onto a bound. -/
theorem C161_trim_partial {v : List ℚ} {dims : List (ℚ × ℚ)} (hv : ∀ x ∈ v, IsFloat x) (h : Inside v dims)
    (hd : ∀ d ∈ dims, d.1 ≤ 0 ∧ 0 ≤ d.2) {b : ℕ} (hb : 1 ≤ b) : Inside (trimVector v b) dims := by
  unfold trimVector
  induction h with
  | nil => exact List.Forall₂.nil
  | @cons x d v dims hxd _ ih =>
    refine List.Forall₂.cons ?_ (ih (fun y hy => hv y (by simp [hy])) fun e he => hd e (by simp [he]))
    have hx := hv x (by simp)
    have h := C50_rounding hx b
    have h0 := hd d (by simp)
    have hle := abs_le.1 h.le
    have hne : x ≠ 0 → trimMantissa x b ≠ 0 := by
      intro hx0 ht
      have he := C50_error hx hx0 hb
      rw [ht, sub_zero] at he
      have h2 : (2 : ℚ) ≤ 2 ^ b := by
        calc (2 : ℚ) = 2 ^ 1 := (pow_one 2).symm
          _ ≤ 2 ^ b := pow_le_pow_right₀ (by norm_num) hb
      have h3 : |x| * 2 / 2 ^ b ≤ |x| := by
        rw [div_le_iff₀ (by positivity)]
        exact mul_le_mul_of_nonneg_left h2 (abs_nonneg x)
      linarith
    rcases lt_trichotomy x 0 with hx0 | hx0 | hx0
    · rw [abs_of_neg hx0] at hle
      have ht : trimMantissa x b < 0 := by
        refine lt_of_le_of_ne ?_ (hne hx0.ne)
        by_contra hc
        have := mul_neg_of_neg_of_pos hx0 (not_le.1 hc)
        linarith [h.sign]
      exact ⟨by linarith [hle.1, hxd.1], by linarith [h0.2]⟩
    · subst hx0
      have ht : trimMantissa 0 b = 0 := by
        rw [abs_zero, neg_zero] at hle
        exact le_antisymm hle.2 hle.1
      simpa only [ht] using hxd
    · rw [abs_of_pos hx0] at hle
      have ht : 0 < trimMantissa x b := by
        refine lt_of_le_of_ne ?_ (hne hx0.ne').symm
        by_contra hc
        have := mul_neg_of_pos_of_neg hx0 (not_le.1 hc)
        linarith [h.sign]
      exact ⟨by linarith [h0.1], by linarith [hle.2, hxd.2]⟩

/-- C161, truncation in general: with two digits 13/8 becomes the lower bound of the interval [3/2, 2]. -/
theorem C161_trim_violated : ∃ (v : List ℚ) (dims : List (ℚ × ℚ)) (b : ℕ), 1 ≤ b ∧
    (∀ x ∈ v, IsFloat x) ∧ Inside v dims ∧ InBox (trimVector v b) dims ∧ ¬ Inside (trimVector v b) dims := by
  have h : IsFloat (13 / 8) := ⟨13, -3, by norm_num, by rw [abs_of_pos (by norm_num)]; norm_num⟩
  have e : trimMantissa (13 / 8) 2 = 3 / 2 := by decide +kernel
  refine ⟨[13 / 8], [(3 / 2, 2)], 2, by norm_num, by simpa using h, ?_, ?_, ?_⟩
  · exact .cons (by norm_num) .nil
  · exact .cons (by simp only [e]; norm_num) .nil
  · intro hi
    cases hi with
    | cons hi _ => simp only [e] at hi; norm_num at hi

/-! ## Floating point -/

open Binary64 in
/-- C161 in floating point: with the greatest draw, mutation moves the greatest float below 1 to the upper bound 1
(distribution index 0, so that all powers are first powers, which every library computes exactly). -/
theorem C161_rounded_violated (pw : ℚ → ℚ → ℚ) (h : ∀ b, round64 b = b → pw b 1 = b) :
    Inside [(1 - 1 / 2 ^ 53 : ℚ)] [(0, 1)] ∧ IsDraw (1 / 2 ^ 53 : ℚ) (1 - 1 / 2 ^ 53) ∧
    Rounded.mutate round64 pw (1 / 2 ^ 52) 1 0 (fun _ => ⟨0, 1 - 1 / 2 ^ 53⟩) [1 - 1 / 2 ^ 53] [(0, 1)] = .ok [1] := by
  refine ⟨.cons (by norm_num) .nil, ⟨2 ^ 53 - 1, by norm_num, by norm_num⟩, ?_⟩
  have hp : ∀ b : ℚ, 0 ≤ b → round64 b = b → Rounded.pow pw b 1 = .ok b := by
    intro b hb hf
    unfold Rounded.pow
    rw [if_neg (fun hc => not_lt.2 hb hc.1), if_neg (fun hc => by linarith [hc.2]), h b hf]
  have h1 : round64 ((0 : ℚ) + 1) = 1 := by decide +kernel
  have h2 : round64 (1 / (1 : ℚ)) = 1 := by decide +kernel
  have d1 : Rounded.div round64 (round64 (1 - 1 / 2 ^ 53 - 0)) (round64 (round64 (1 - 0) + 1 / 2 ^ 52)) =
      .ok (round64 ((1 - 1 / 2 ^ 53) / (1 + 1 / 2 ^ 52) : ℚ)) := by decide +kernel
  have d2 : Rounded.div round64 (round64 (1 - (1 - 1 / 2 ^ 53))) (round64 (round64 (1 - 0) + 1 / 2 ^ 52)) =
      .ok (round64 (1 / 2 ^ 53 / (1 + 1 / 2 ^ 52) : ℚ)) := by decide +kernel
  have x : round64 (1 - round64 (1 / 2 ^ 53 / (1 + 1 / 2 ^ 52) : ℚ)) = 1 - 1 / 2 ^ 53 := by decide +kernel
  have v : round64 (round64 (2 * round64 (1 - (1 - 1 / 2 ^ 53))) +
      round64 (round64 (2 * round64 (1 - 1 / 2 ^ 53 - 1 / 2)) * (1 - 1 / 2 ^ 53)) : ℚ) = 1 - 1 / 2 ^ 53 := by decide +kernel
  have p := hp (1 - 1 / 2 ^ 53) (by norm_num) (by decide +kernel)
  have q : Rounded.mutDeltaQ round64 pw (1 / 2 ^ 52) 0 (1 - 1 / 2 ^ 53) 0 1 (1 - 1 / 2 ^ 53) =
      .ok (round64 (1 - (1 - 1 / 2 ^ 53))) := by
    unfold Rounded.mutDeltaQ
    rw [d1, d2, h1, h2]
    simp only [bind, Except.bind, pure, Except.pure]
    rw [if_neg (by norm_num), x, p]
    simp only
    rw [v, p]
  have r : round64 (1 - 1 / 2 ^ 53 + round64 (round64 (1 - (1 - 1 / 2 ^ 53)) * round64 (1 - 0)) : ℚ) = 1 := by decide +kernel
  simp only [Rounded.mutate, Rounded.mutatedValue, q, bind, Except.bind, pure, Except.pure, r]
  rw [if_neg (by norm_num)]
  simp [Rounded.clamp]

/-! ## A concrete case -/

/-- One coordinate between 0 and 1, no trimming. -/
noncomputable def exReal : Setup ℝ := ⟨rp, 1 / 100, [(0, 1)], 1, 20, 1, 20, id⟩

theorem exReal_setup : RealSetup exReal :=
  ⟨rfl, by norm_num [exReal], by norm_num [exReal], by norm_num [exReal], fun _ h => h, fun _ h => h⟩

/-- A driver with the two vectors 1/4 and 1/2 can make a step, and what it returns then lies strictly between 0 and 1. -/
example (dm : ℕ → MateDraw) (hdm : ∀ i, (dm i).Valid 2) (dv : ℕ → VarDraw ℝ) (hdv : ∀ i, (dv i).Valid) :
    ∃ s s' r, nsgaiiStep exReal (A := List ℝ) (fun v => v) (fun v => [v.sum, -v.sum]) 2 id dm dv
        (nsgaiiInit exReal (fun v => v) (fun v => [v.sum, -v.sum]) none 1 [[1 / 4], [1 / 2]]) = some s ∧
      nsgaiiFinish exReal (fun v => v) (fun v => [v.sum, -v.sum]) 2 id s = some (s', r) ∧ r.length = 2 ∧
      ∀ v ∈ r, ∃ x, v = [x] ∧ 0 < x ∧ x < 1 := by
  classical
  have h0 : NFrom exReal (fun v => Inside v exReal.dims) (A := List ℝ) (fun v => v) (fun v => [v.sum, -v.sum]) 2 1 2
      (nsgaiiInit exReal (fun v => v) (fun v => [v.sum, -v.sum]) none 1 [[1 / 4], [1 / 2]]) :=
    .start none (by simp) _ rfl (by
      intro v hv
      simp only [List.mem_cons, List.not_mem_nil, or_false] at hv
      rcases hv with rfl | rfl <;> exact .cons (by norm_num) .nil)
  obtain ⟨s, h1, -⟩ := ((C161_nsgaii exReal_setup _ _ 2 1 2 (fun _ => rfl) _ h0).2 id fun _ => .refl _).1 dm dv hdm hdv
  obtain ⟨s', r, h2, h3, h4⟩ := ((C161_nsgaii exReal_setup _ _ 2 1 2 (fun _ => rfl) _
    (.step id (fun _ => .refl _) dm hdm dv hdv _ s h0 h1)).2 id fun _ => .refl _).2
  refine ⟨s, s', r, h1, h2, h3, fun v hv => ?_⟩
  obtain ⟨x, t, hx, ht, rfl⟩ := List.forall₂_cons_right_iff.1 (h4 v hv)
  cases ht
  exact ⟨x, rfl, hx⟩

end Evogil.Generations
