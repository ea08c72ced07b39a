import Verif.Props.Rounded
import Verif.Props.Jgbl

/-! # Property C122: the jumps of JGBL in floating point -/

set_option linter.unusedSectionVars false

namespace Evogil.Rounded

open Spec Binary64
open Jgbl (InUnit IsSortedSample PasteDraw JumpDraw transposon multiDelete paste)

variable {K : Type*} [Field K] [LinearOrder K] [IsStrictOrderedRing K] [FloorRing K]

/-- The upper end of an interval is not exceeded by the sum of the lower end and the length. -/
def Closed (fl : K → K) (d : K × K) : Prop := fl (d.1 + fl (d.2 - d.1)) ≤ d.2

/-- A box of floats whose dimensions have a positive length -/
def JumpBox (fl : K → K) (dims : List (K × K)) : Prop :=
  FloatBox fl dims ∧ ∀ d ∈ dims, 0 < fl (d.2 - d.1)

theorem convert_length (fl : K → K) (dims : List (K × K)) (x : List K) (h : x.length = dims.length) :
    (convertToRatio fl dims x).length = dims.length := by
  simp [convertToRatio, h]

theorem convert_inUnit {fl : K → K} {u : K} (h : IsRounding fl u) (dims : List (K × K))
    (hd : JumpBox fl dims) (x : List K) (hx : InBox x dims) : InUnit (convertToRatio fl dims x) := by
  obtain ⟨hb, hw⟩ := hd
  induction hx with
  | nil => simp [convertToRatio, InUnit]
  | @cons v d x dims h1 _ ih =>
    have hd := hw d List.mem_cons_self
    intro w hw'
    simp only [convertToRatio, List.zipWith_cons_cons, List.mem_cons] at hw'
    rcases hw' with rfl | hw'
    · refine ⟨fl_nonneg h (div_nonneg (fl_nonneg h (by linarith [h1.1])) hd.le), fl_le_one h ?_⟩
      rw [div_le_one hd]
      exact h.mono _ _ (by linarith [h1.2])
    · exact ih (fun e he => hb e (List.mem_cons_of_mem _ he)) (fun e he => hw e (List.mem_cons_of_mem _ he)) w hw'

theorem decode_inBox {fl : K → K} {u : K} (h : IsRounding fl u) (dims : List (K × K)) (hd : JumpBox fl dims)
    (hc : ∀ d ∈ dims, Closed fl d) (r : List K) (hl : r.length = dims.length) (hr : InUnit r) :
    InBox (decodeRatio fl dims r) dims ∧ Floats fl (decodeRatio fl dims r) := by
  obtain ⟨hb, hw⟩ := hd
  induction r generalizing dims with
  | nil =>
    cases dims with
    | nil => exact ⟨.nil, by simp [decodeRatio, Floats]⟩
    | cons => simp at hl
  | cons v r ih =>
    cases dims with
    | nil => simp at hl
    | cons d dims =>
      obtain ⟨i1, i2⟩ := ih dims (fun e he => hc e (List.mem_cons_of_mem _ he)) (by simpa using hl)
        (fun w hw => hr w (List.mem_cons_of_mem _ hw)) (fun e he => hb e (List.mem_cons_of_mem _ he))
        (fun e he => hw e (List.mem_cons_of_mem _ he))
      have hd := hw d List.mem_cons_self
      obtain ⟨h0, h1⟩ := hr v List.mem_cons_self
      simp only [decodeRatio, List.zipWith_cons_cons] at i1 i2 ⊢
      refine ⟨.cons ⟨le_fl h (hb d List.mem_cons_self).1 ?_, ?_⟩ i1, ?_⟩
      · linarith [fl_nonneg h (mul_nonneg h0 hd.le)]
      · refine le_trans (h.mono _ _ ?_) (hc d List.mem_cons_self)
        have : fl (v * fl (d.2 - d.1)) ≤ fl (d.2 - d.1) := fl_le h (h.idem _) (by nlinarith)
        linarith
      · intro w hw'
        rcases List.mem_cons.1 hw' with rfl | hw'
        · exact h.idem _
        · exact i2 w hw'

/-- The ratios of both results of `cut_and_paste` are ratios of the arguments, and as many as dimensions. -/
theorem cut_all (P : K → Prop) (n k : ℕ) (xr yr : List K) (lx : xr.length = n) (ly : yr.length = n)
    (ux : ∀ v ∈ xr, P v) (uy : ∀ v ∈ yr, P v) (s t : List ℕ) (hs : IsSortedSample n k s)
    (ht : IsSortedSample n k t) (pos : ℕ) :
    ((multiDelete xr s).take pos ++ transposon yr t ++ (multiDelete xr s).drop pos).length = n ∧
      ∀ v ∈ (multiDelete xr s).take pos ++ transposon yr t ++ (multiDelete xr s).drop pos, P v := by
  have px := Jgbl.delete_transposon_perm s xr hs.1 (by rw [lx]; exact hs.2.2)
  have tx := Jgbl.transposon_length xr s (by rw [lx]; exact hs.2.2)
  have ty := Jgbl.transposon_length yr t (by rw [ly]; exact ht.2.2)
  have q1 := Jgbl.insert_perm (multiDelete xr s) (transposon yr t) pos
  have l1 := q1.length_eq
  have l3 := px.length_eq
  simp only [List.length_append] at l3
  rw [hs.2.1] at tx
  rw [ht.2.1] at ty
  refine ⟨by rw [l1, List.length_append]; omega, fun v hv => ?_⟩
  rcases List.mem_append.1 (q1.mem_iff.1 hv) with hv | hv
  · exact ux v (px.mem_iff.1 (List.mem_append_left _ hv))
  · exact uy v (Jgbl.transposon_subset _ _ v hv)

/-- The same for `copy_and_paste`. -/
theorem copy_all (P : K → Prop) (n : ℕ) (r r' : List K) (s : List ℕ) (pos : ℕ) (lr : r.length = n)
    (ur : ∀ v ∈ r, P v) (ur' : ∀ v ∈ r', P v) :
    (paste r (transposon r' s) pos).length = n ∧ ∀ v ∈ paste r (transposon r' s) pos, P v := by
  refine ⟨by rw [Jgbl.paste_length, lr], fun v hv => ?_⟩
  rcases Jgbl.paste_mem _ _ _ v hv with h | h
  · exact ur v h
  · exact ur' v (Jgbl.transposon_subset _ _ v h)

theorem cutAndPaste_ok {fl : K → K} {u : K} (h : IsRounding fl u) (dims : List (K × K)) (hd : JumpBox fl dims)
    (hc : ∀ d ∈ dims, Closed fl d) (x y : List K) (hx : InBox x dims) (hy : InBox y dims) (k : ℕ)
    (d : PasteDraw) (ho : d.Ok dims.length k) :
    (InBox (cutAndPaste fl dims d x y).1 dims ∧ Floats fl (cutAndPaste fl dims d x y).1) ∧
      (InBox (cutAndPaste fl dims d x y).2 dims ∧ Floats fl (cutAndPaste fl dims d x y).2) := by
  have lx := convert_length fl dims x hx.length_eq
  have ly := convert_length fl dims y hy.length_eq
  have ux := convert_inUnit h dims hd x hx
  have uy := convert_inUnit h dims hd y hy
  obtain ⟨a1, a2⟩ := cut_all _ dims.length k _ _ lx ly ux uy _ _ ho.1 ho.2 d.xPos
  obtain ⟨b1, b2⟩ := cut_all _ dims.length k _ _ ly lx uy ux _ _ ho.2 ho.1 d.yPos
  exact ⟨decode_inBox h dims hd hc _ a1 a2, decode_inBox h dims hd hc _ b1 b2⟩

theorem copyAndPaste_ok {fl : K → K} {u : K} (h : IsRounding fl u) (dims : List (K × K)) (hd : JumpBox fl dims)
    (hc : ∀ d ∈ dims, Closed fl d) (x y : List K) (hx : InBox x dims) (hy : InBox y dims) (d : PasteDraw) :
    (InBox (copyAndPaste fl dims d x y).1 dims ∧ Floats fl (copyAndPaste fl dims d x y).1) ∧
      (InBox (copyAndPaste fl dims d x y).2 dims ∧ Floats fl (copyAndPaste fl dims d x y).2) := by
  have lx := convert_length fl dims x hx.length_eq
  have ly := convert_length fl dims y hy.length_eq
  have ux := convert_inUnit h dims hd x hx
  have uy := convert_inUnit h dims hd y hy
  obtain ⟨a1, a2⟩ := copy_all _ dims.length _ _ d.ySample d.xPos lx ux uy
  obtain ⟨b1, b2⟩ := copy_all _ dims.length _ _ d.xSample d.yPos ly uy ux
  exact ⟨decode_inBox h dims hd hc _ a1 a2, decode_inBox h dims hd hc _ b1 b2⟩

theorem jumpGenes_ok {fl : K → K} {u : K} (h : IsRounding fl u) (dims : List (K × K)) (hd : JumpBox fl dims)
    (hc : ∀ d ∈ dims, Closed fl d) (k : ℕ) (nondominated : List (List K))
    (hnd : ∀ v ∈ nondominated, InBox v dims) (pop : List (List K)) (hpop : ∀ v ∈ pop, InBox v dims)
    (draws : List (Option JumpDraw)) (hlen : draws.length = pop.length)
    (ho : ∀ d, some d ∈ draws → d.Ok dims.length k nondominated.length) :
    ∃ children, jumpGenes fl dims nondominated pop draws = some children ∧
      children.length = 6 * (draws.countP fun d => d.isSome) ∧
      ∀ v ∈ children, InBox v dims ∧ Floats fl v := by
  induction pop generalizing draws with
  | nil =>
    obtain rfl : draws = [] := by simpa using hlen
    exact ⟨[], by simp [jumpGenes], by simp, by simp⟩
  | cons v pop ih =>
    cases draws with
    | nil => simp at hlen
    | cons d draws =>
      obtain ⟨cs, e, l, b⟩ := ih (fun w hw => hpop w (List.mem_cons_of_mem _ hw)) draws
        (by simpa using hlen) fun d hd' => ho d (List.mem_cons_of_mem _ hd')
      cases d with
      | none => exact ⟨cs, by simpa [jumpGenes] using e, by simpa using l, b⟩
      | some d =>
        obtain ⟨o1, o2, o3, o4, m1, m2⟩ := ho d List.mem_cons_self
        have hv := hpop v List.mem_cons_self
        have hm1 := hnd _ (List.getElem_mem m1)
        have hm2 := hnd _ (List.getElem_mem m2)
        obtain ⟨-, a1⟩ := cutAndPaste_ok h dims hd hc v v hv hv k d.cutSelf o1
        obtain ⟨-, a2⟩ := copyAndPaste_ok h dims hd hc v v hv hv d.copySelf
        obtain ⟨a3, a4⟩ := cutAndPaste_ok h dims hd hc v _ hv hm1 k d.cut o3
        obtain ⟨a5, a6⟩ := copyAndPaste_ok h dims hd hc v _ hv hm2 d.copy
        obtain ⟨c, ec, lc, bc⟩ : ∃ c, jumpOne fl dims nondominated d v = some c ∧ c.length = 6 ∧
            ∀ w ∈ c, InBox w dims ∧ Floats fl w := by
          rw [jumpOne, List.getElem?_eq_getElem m1, List.getElem?_eq_getElem m2]
          refine ⟨_, rfl, rfl, ?_⟩
          intro w hw
          simp only [List.mem_cons, List.not_mem_nil, or_false] at hw
          rcases hw with rfl | rfl | rfl | rfl | rfl | rfl <;> assumption
        refine ⟨c ++ cs, ?_, ?_, ?_⟩
        · rw [jumpGenes, e, ec]
        · simp [l, lc]; omega
        · intro w hw
          rcases List.mem_append.1 hw with hw | hw
          · exact bc w hw
          · exact b w hw

/-- The upper end is not exceeded in exactly 25 of the 30 intervals of UF11 and UF12. -/
theorem rot_closed : ∀ i < 30, (i ∉ [0, 1, 6, 10, 12] ↔
    let q := Problems.rotDims.getD i (0, 0)
    round64 (round64 q.1 + round64 (round64 q.2 - round64 q.1)) ≤ round64 q.2) := by
  decide +kernel

/-- C122, for boxes in which no upper end is exceeded: the children of `jump_genes` are vectors of floats of
the box, six for every individual that jumps. Missing: the other boxes, see `C122_box_violated`. -/
theorem C122_jump_partial (dims : List (K × K)) (hd : FloatBox round64 dims)
    (hw : ∀ d ∈ dims, 0 < round64 (d.2 - d.1)) (hc : ∀ d ∈ dims, round64 (d.1 + round64 (d.2 - d.1)) ≤ d.2)
    (k : ℕ) (nondominated : List (List K)) (hnd : ∀ v ∈ nondominated, InBox v dims) (pop : List (List K))
    (hpop : ∀ v ∈ pop, InBox v dims) (draws : List (Option JumpDraw)) (hlen : draws.length = pop.length)
    (ho : ∀ d, some d ∈ draws → d.Ok dims.length k nondominated.length) :
    ∃ children, jumpGenes round64 dims nondominated pop draws = some children ∧
      children.length = 6 * (draws.countP fun d => d.isSome) ∧
      ∀ v ∈ children, InBox v dims ∧ Floats round64 v :=
  jumpGenes_ok round64_isRounding dims ⟨hd, hw⟩ hc k nondominated hnd pop hpop draws hlen ho

theorem plain_closed : ∀ q ∈ plainIntervals, 0 < round64 (round64 q.2 - round64 q.1) ∧
    round64 (round64 q.1 + round64 (round64 q.2 - round64 q.1)) ≤ round64 q.2 := by
  decide +kernel

/-- C122: the boxes of all problems other than UF11 and UF12 meet the conditions of `C122_jump_partial`. -/
theorem C122_problems (f : List (List ℝ)) (p : Problems.Problem) (hp : p ∈ plainProblems f) :
    FloatBox round64 (floatDims p) ∧ (∀ d ∈ floatDims p, 0 < round64 (d.2 - d.1)) ∧
      ∀ d ∈ floatDims p, round64 (d.1 + round64 (d.2 - d.1)) ≤ d.2 := by
  have key : ∀ d ∈ floatDims p, ∃ q ∈ plainIntervals,
      d = (((round64 q.1 : ℚ) : ℝ), ((round64 q.2 : ℚ) : ℝ)) := by
    intro d hd
    obtain ⟨d', hd', rfl⟩ := List.mem_map.1 hd
    obtain ⟨q, hq, rfl⟩ := plain_dims f p hp d' hd'
    exact ⟨q, hq, by simp only [round64_cast]⟩
  refine ⟨(floatDims_ok [] [] f p (List.mem_append_left _ hp)).1, fun d hd => ?_, fun d hd => ?_⟩
  · obtain ⟨q, hq, rfl⟩ := key d hd
    simp only
    rw [← Rat.cast_sub, round64_cast]
    exact_mod_cast (plain_closed q hq).1
  · obtain ⟨q, hq, rfl⟩ := key d hd
    simp only
    rw [← Rat.cast_sub, round64_cast, ← Rat.cast_add, round64_cast]
    exact_mod_cast (plain_closed q hq).2

/-- The box of UF11 and UF12 as floats -/
def rotFloat : List (ℚ × ℚ) := Problems.rotDims.map fun d => (round64 d.1, round64 d.2)

/-- The corner of all upper ends -/
def rotTop : List ℚ := rotFloat.map Prod.snd

theorem rotTop_ratio : convertToRatio round64 rotFloat rotTop = List.replicate 30 1 := by decide +kernel

theorem rotTop_decode : ¬ InBox (decodeRatio round64 rotFloat (List.replicate 30 1)) rotFloat := by
  unfold InBox
  decide +kernel

theorem rotTop_inBox : InBox rotTop rotFloat := by
  unfold InBox
  decide +kernel

/-- C122 fails for UF11 and UF12: the corner of all upper ends is a vector of floats of the box, but if it jumps
with itself as the mate, all six children lie outside of the box, whatever `random` gives. -/
theorem C122_box_violated : FloatBox round64 rotFloat ∧ Floats round64 rotTop ∧ InBox rotTop rotFloat ∧
    ∀ (k : ℕ) (d : JumpDraw), d.Ok 30 k 1 → ∃ children, jumpOne round64 rotFloat [rotTop] d rotTop = some children ∧
      children.length = 6 ∧ ∀ v ∈ children, ¬ InBox v rotFloat := by
  refine ⟨by unfold FloatBox; decide +kernel, by unfold Floats; decide +kernel, rotTop_inBox, ?_⟩
  rintro k d ⟨o1, o2, o3, o4, m1, m2⟩
  have one : ∀ v ∈ List.replicate 30 (1 : ℚ), v = 1 := fun v hv => List.eq_of_mem_replicate hv
  have len : (List.replicate 30 (1 : ℚ)).length = 30 := by simp
  have bad : ∀ r : List ℚ, r.length = 30 ∧ (∀ v ∈ r, v = 1) → ¬ InBox (decodeRatio round64 rotFloat r) rotFloat := by
    rintro r ⟨h1, h2⟩
    rw [List.eq_replicate_iff.2 ⟨h1, h2⟩]
    exact rotTop_decode
  have cut : ∀ e : PasteDraw, e.Ok 30 k → ¬ InBox (cutAndPaste round64 rotFloat e rotTop rotTop).1 rotFloat ∧
      ¬ InBox (cutAndPaste round64 rotFloat e rotTop rotTop).2 rotFloat := by
    intro e he
    simp only [cutAndPaste, rotTop_ratio]
    exact ⟨bad _ (cut_all _ 30 k _ _ len len one one _ _ he.1 he.2 _),
      bad _ (cut_all _ 30 k _ _ len len one one _ _ he.2 he.1 _)⟩
  have copy : ∀ e : PasteDraw, ¬ InBox (copyAndPaste round64 rotFloat e rotTop rotTop).1 rotFloat ∧
      ¬ InBox (copyAndPaste round64 rotFloat e rotTop rotTop).2 rotFloat := by
    intro e
    simp only [copyAndPaste, rotTop_ratio]
    exact ⟨bad _ (copy_all _ 30 _ _ _ _ len one one), bad _ (copy_all _ 30 _ _ _ _ len one one)⟩
  have e1 : d.mateCut = 0 := by omega
  have e2 : d.mateCopy = 0 := by omega
  rw [jumpOne, e1, e2]
  refine ⟨_, rfl, rfl, ?_⟩
  intro w hw
  simp only [List.mem_cons, List.not_mem_nil, or_false] at hw
  rcases hw with rfl | rfl | rfl | rfl | rfl | rfl
  · exact (cut _ o1).2
  · exact (copy _).2
  · exact (cut _ o3).1
  · exact (cut _ o3).2
  · exact (copy _).1
  · exact (copy _).2

/-- `beta` of drivertools.py:90 for a parent at the upper end 2.267 and one that jumped, about -1/3 -/
def oddBeta : ℚ := -1501199875790165 / 2 ^ 52

/-- C122 fails for UF11 and UF12 also in what follows: in the dimension 10, with the interval (-0.885, 2.267), a
gene at the upper end jumps to a number above it. If it is recombined with a gene at the upper end, child b gets
the lower end, for every draw from 1/100 on and every library of powers with an error of at most a half: a NaN
is replaced by the lower end. -/
theorem C122_nan_violated (pw : ℚ → ℚ → ℚ) (hp : PowerLaws pw)
    (acc : |pw oddBeta (-31) - oddBeta ^ (-31 : ℤ)| ≤ |oddBeta ^ (-31 : ℤ)| / 2) (rand : ℚ)
    (hr : IsDraw (1 / 2 ^ 53) rand) (h1 : 1 / 100 ≤ rand) :
    let lb : ℚ := round64 (-885 / 1000)
    let ub : ℚ := round64 (2267 / 1000)
    decodeRatio round64 [(lb, ub)] (convertToRatio round64 [(lb, ub)] [ub]) = [ub + 1 / 2 ^ 51] ∧
      crossover round64 pw (1 / 2 ^ 52) 1 30 0 false (fun _ => ⟨0, rand, 0⟩) [ub] [ub + 1 / 2 ^ 51] [(lb, ub)] =
        .ok [lb] := by
  intro lb ub
  have rr := round64_isRounding (K := ℚ)
  refine ⟨by decide +kernel, ?_⟩
  have hmin : min ub (ub + 1 / 2 ^ 51) = ub := min_eq_left (by norm_num)
  have hmax : max ub (ub + 1 / 2 ^ 51) = ub + 1 / 2 ^ 51 := max_eq_right (by norm_num)
  have hA : ∃ a, childA round64 pw (1 / 2 ^ 52) 30 ub (ub + 1 / 2 ^ 51) lb rand = .ok a := by
    obtain ⟨v, e, -⟩ := childA_ok rr hp (eps := 1 / 2 ^ 52) (eta := 30) (by norm_num) (by decide +kernel)
      (by norm_num) (y1 := ub) (y2 := ub + 1 / 2 ^ 51) (lb := lb) (by norm_num) (by decide +kernel) hr
    exact ⟨v, e⟩
  have b1 : div round64 (round64 (2 * round64 (ub - (ub + 1 / 2 ^ 51))))
      (round64 (round64 (ub + 1 / 2 ^ 51 - ub) + 1 / 2 ^ 52)) = .ok (oddBeta - 1) := by decide +kernel
  have b2 : round64 (1 + (oddBeta - 1)) = oddBeta := by decide +kernel
  have b3 : -round64 ((30 : ℚ) + 1) = -31 := by decide +kernel
  have b4 : pow pw oddBeta (-31) = .ok (pw oddBeta (-31)) := by
    rw [pow, if_neg (by decide +kernel), if_neg (by decide +kernel)]
  obtain ⟨P, hP⟩ : ∃ P, P = pw oddBeta (-31) := ⟨_, rfl⟩
  rw [← hP] at acc b4
  obtain ⟨X, hX⟩ : ∃ X, X = oddBeta ^ (-31 : ℤ) := ⟨_, rfl⟩
  have x1 : X ≤ -(2 ^ 40) := by rw [hX]; decide +kernel
  have x2 : -(2 ^ 50) ≤ X := by rw [hX]; decide +kernel
  rw [← hX, abs_of_nonpos (a := X) (by norm_num at x1 ⊢; linarith), abs_le] at acc
  have p1 : 2 ^ 39 ≤ 2 - P := by norm_num at *; linarith [acc.2]
  have p2 : 2 - P ≤ 2 ^ 51 := by norm_num at *; linarith [acc.1]
  have a1 : 2 ^ 39 ≤ round64 (2 - P) := le_fl rr (by decide +kernel) p1
  have a2 : round64 (2 - P) ≤ 2 ^ 51 := fl_le rr (by decide +kernel) p2
  obtain ⟨A, hA'⟩ : ∃ A, A = round64 (2 - P) := ⟨_, rfl⟩
  rw [← hA'] at a1 a2
  have a0 : 0 < A := lt_of_lt_of_le (by norm_num) a1
  obtain ⟨-, r1⟩ := draw_bounds rr hr
  have inv : round64 (1 / A) ≤ 1 / 1024 := by
    refine fl_le rr (by decide +kernel) ?_
    rw [div_le_div_iff₀ a0 (by norm_num)]
    norm_num at a1 ⊢; linarith
  have t1 : 2 ^ 20 ≤ round64 (rand * A) := le_fl rr (by decide +kernel) (by norm_num at *; nlinarith)
  have t2 : round64 (rand * A) ≤ 2 ^ 51 := fl_le rr (by decide +kernel) (by norm_num at *; nlinarith)
  have s1 : round64 (2 - round64 (rand * A)) ≤ -1024 :=
    fl_le rr (by decide +kernel) (by norm_num at t1; linarith)
  have s2 : -(2 ^ 52) ≤ round64 (2 - round64 (rand * A)) :=
    le_fl rr (by decide +kernel) (by norm_num at t2 ⊢; linarith)
  obtain ⟨S, hS⟩ : ∃ S, S = round64 (2 - round64 (rand * A)) := ⟨_, rfl⟩
  rw [← hS] at s1 s2
  have s3 : round64 (1 / S) < 0 := by
    refine lt_of_le_of_lt (b := -1 / 2 ^ 52) (fl_le rr (by decide +kernel) ?_) (by norm_num)
    have : (1 : ℚ) / 2 ^ 52 ≤ 1 / -S := by
      rw [div_le_div_iff₀ (by norm_num) (by linarith)]
      linarith
    rw [div_neg] at this
    rw [neg_div]
    linarith
  have q : getBetaQ round64 pw rand A 30 = .error .nan := by
    unfold getBetaQ
    simp only [div_ok a0, bind, Except.bind]
    rw [if_neg (by linarith), ← hS, div, if_neg (by linarith)]
    simp only
    rw [pow, if_pos ⟨s3, by decide +kernel⟩]
  have hB : childB round64 pw (1 / 2 ^ 52) 30 ub (ub + 1 / 2 ^ 51) ub rand = .error .nan := by
    unfold childB
    simp only [b1, b2, b3, b4, ← hA', q, bind, Except.bind]
  obtain ⟨a, hA⟩ := hA
  have hmm : min ub lb = lb := by decide +kernel
  have hs : sbxValues round64 pw (1 / 2 ^ 52) 30 ub (ub + 1 / 2 ^ 51) lb ub rand = .ok (min ub (max lb a), lb) := by
    unfold sbxValues
    rw [hmin, hmax, hA, hB]
    simp only [clamp, bind, Except.bind, pure, Except.pure, hmm]
  have hd : ¬ |round64 (ub - (ub + 1 / 2 ^ 51))| ≤ 1 / 2 ^ 52 := by decide +kernel
  have hc : crossed round64 pw (1 / 2 ^ 52) 30 ⟨0, rand, 0⟩ ub (ub + 1 / 2 ^ 51) lb ub =
      .ok (min ub (max lb a), lb) := by
    unfold crossed
    rw [if_neg (by norm_num), if_neg hd, hs]
    simp only [bind, Except.bind, pure, Except.pure]
    rw [if_neg (by norm_num)]
  unfold crossover
  rw [if_neg (by norm_num), crossoverLoop, hc, crossoverLoop]
  rfl

/-! ## Examples -/

/-- Two individuals exchange genes: the first has a tenth and three tenths. The gene of three tenths that stays
where it was comes back one unit in the last place larger. -/
example : cutAndPaste round64 [(0, 1), (-1, 1)] ⟨[0], [1], 0, 1⟩ [round64 (1 / 10 : ℚ), round64 (3 / 10)] [1, 1] =
    ([1, round64 (3 / 10) + 1 / 2 ^ 54], [1, -3602879701896397 / 2 ^ 52]) := by
  decide +kernel

/-- Power functions as in `C122_nan_violated` exist: the integral power if the exponent is -31. -/
example : ∃ pw : ℚ → ℚ → ℚ, PowerLaws pw ∧
    |pw oddBeta (-31) - oddBeta ^ (-31 : ℤ)| ≤ |oddBeta ^ (-31 : ℤ)| / 2 := by
  refine ⟨fun b e => if b < 0 then b ^ (-31 : ℤ) else pwEx b e, ⟨fun b e hb => ?_, fun b e h0 h1 he => ?_,
    fun b e h1 he => ?_⟩, ?_⟩
  · simp only [if_neg (not_lt.2 hb)]; exact pwEx_laws.nonneg b e hb
  · simp only [if_neg (not_lt.2 h0)]; exact pwEx_laws.small b e h0 h1 he
  · simp only [if_neg (not_lt.2 (zero_le_one.trans h1))]; exact pwEx_laws.large b e h1 he
  · decide +kernel

example : IsDraw (1 / 2 ^ 53 : ℚ) (1 / 2) ∧ (1 : ℚ) / 100 ≤ 1 / 2 := ⟨⟨2 ^ 52, by norm_num, by norm_num⟩, by norm_num⟩

/-- Valid draws for `C122_box_violated` exist. -/
example : JumpDraw.Ok 30 2 1 ⟨⟨[0, 5], [3, 4], 7, 8⟩, ⟨[0, 5], [3, 4], 7, 8⟩, 0, ⟨[1, 2], [3, 4], 0, 28⟩, 0,
    ⟨[0, 29], [1, 4], 29, 0⟩⟩ := by
  simp [JumpDraw.Ok, PasteDraw.Ok, IsSortedSample]

end Evogil.Rounded
