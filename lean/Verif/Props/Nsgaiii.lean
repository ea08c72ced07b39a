import Verif.Lemmas.Nsgaiii
import Verif.Props.Variation
import Mathlib.Analysis.SpecialFunctions.Pow.Real
import Mathlib.Analysis.Real.Sqrt

/-!
# Properties C30, C31, C72, C73, C74: NSGA-III
-/

set_option linter.unusedSectionVars false

namespace Evogil.Nsgaiii

open Spec

variable {K : Type*} [Field K] [LinearOrder K] [IsStrictOrderedRing K]

/-! ## C30 -/

/-- C30: for every number of objectives and all draws, a reference point has one coordinate per
objective, the coordinates lie in the unit interval and their sum is one. -/
theorem C30_simplex (pw : K → K → K)
    (hpw : ∀ b e, 0 < b → b < 1 → 0 < e → 0 ≤ pw b e ∧ pw b e ≤ 1)
    (rand : ℕ → K) (hr : ∀ i, 0 < rand i ∧ rand i < 1) (n : ℕ) (hn : 1 ≤ n) :
    (refPoint pw rand n).length = n ∧ (∀ x ∈ refPoint pw rand n, 0 ≤ x ∧ x ≤ 1) ∧
      (refPoint pw rand n).sum = 1 := by
  obtain ⟨m, rfl⟩ : ∃ m, n = m + 1 := ⟨n - 1, by omega⟩
  obtain ⟨h1, h2, h3⟩ := refLoop_spec pw hpw rand (m + 1) hr m 1 0 (by omega) zero_le_one
  rw [sub_zero] at h3
  refine ⟨h1, fun x hx => ⟨h2 x hx, ?_⟩, h3⟩
  rw [← h3]
  exact List.single_le_sum h2 x hx

/-- The hypothesis on powers holds for real numbers. -/
theorem rpow_unit (b e : ℝ) (h0 : 0 < b) (h1 : b < 1) (he : 0 < e) :
    0 ≤ b ^ e ∧ b ^ e ≤ 1 :=
  ⟨Real.rpow_nonneg h0.le e, Real.rpow_le_one h0.le h1.le he.le⟩

theorem C30_simplex_real (rand : ℕ → ℝ) (hr : ∀ i, 0 < rand i ∧ rand i < 1) (n : ℕ)
    (hn : 1 ≤ n) : (refPoint (fun b e : ℝ => b ^ e) rand n).length = n ∧
      (∀ x ∈ refPoint (fun b e : ℝ => b ^ e) rand n, 0 ≤ x ∧ x ≤ 1) ∧
      (refPoint (fun b e : ℝ => b ^ e) rand n).sum = 1 :=
  C30_simplex _ rpow_unit rand hr n hn

theorem dot_self_nonneg (r : List K) : 0 ≤ dot r r := by
  induction r with
  | nil => exact le_rfl
  | cons a r ih =>
    have : dot (a :: r) (a :: r) = a * a + dot r r := by simp [dot]
    rw [this]
    have := mul_self_nonneg a
    linarith

theorem dot_self_pos (r : List K) (h : r.sum ≠ 0) : 0 < dot r r := by
  induction r with
  | nil => exact absurd rfl h
  | cons a r ih =>
    have e : dot (a :: r) (a :: r) = a * a + dot r r := by simp [dot]
    rw [e]
    by_cases ha : a = 0
    · subst ha
      rw [List.sum_cons, zero_add] at h
      simpa using ih h
    · have := mul_self_pos.2 ha
      have := dot_self_nonneg r
      linarith

/-- C30: hence the length of a reference point, by which projections are divided, is positive. -/
theorem C30_length_pos (rand : ℕ → ℝ) (hr : ∀ i, 0 < rand i ∧ rand i < 1) (n : ℕ) (hn : 1 ≤ n) :
    0 < norm Real.sqrt (refPoint (fun b e : ℝ => b ^ e) rand n) := by
  obtain ⟨-, -, h⟩ := C30_simplex_real rand hr n hn
  exact Real.sqrt_pos.2 (dot_self_pos _ (by rw [h]; exact one_ne_zero))

/-- Three objectives, draws 1/4 and 1/2, and `pw b e = b` (a curve with the assumed property). -/
example : refPoint (fun b _ : ℚ => b) (fun i => if i = 1 then 1 / 4 else 1 / 2) 3 =
    [3 / 4, 1 / 8, 1 / 8] := by decide +kernel

/-! ## C31: ideal point -/

/-- C31: after the evaluation of any sequence of individuals every coordinate of the ideal point is
at most every value seen, and is one of them unless nothing was evaluated. -/
theorem C31_ideal (m : ℕ) (objs : List (List K)) (ho : ∀ o ∈ objs, o.length = m) :
    (updateIdeal (initialIdeal m) objs).length = m ∧
    ∀ i, i < m → ∃ x, (updateIdeal (initialIdeal m) objs)[i]? = some x ∧
      (∀ o ∈ objs, ∀ y, o[i]? = some y → x ≤ (y : WithTop K)) ∧
      ((objs = [] ∧ x = ⊤) ∨ ∃ o ∈ objs, ∃ y : K, o[i]? = some y ∧ x = (y : WithTop K)) := by
  refine ⟨updateIdeal_length m objs _ (by simp [initialIdeal]) ho, fun i hi => ?_⟩
  obtain ⟨x, h1, -, h3, h4⟩ := updateIdeal_get m objs (initialIdeal m) ho i ⊤ hi
    (by simp [initialIdeal, hi])
  refine ⟨x, h1, h3, ?_⟩
  rcases h4 with rfl | h4
  · cases objs with
    | nil => exact Or.inl ⟨rfl, rfl⟩
    | cons o os =>
      exfalso
      have hol := ho o List.mem_cons_self
      have := h3 o List.mem_cons_self (o[i]'(by omega)) (List.getElem?_eq_getElem (by omega))
      exact absurd this (not_le.2 (WithTop.coe_lt_top _))
  · exact Or.inr h4

/-- Updates compose, so the previous theorem covers the whole history of a run. -/
theorem C31_ideal_history (ideal : List (WithTop K)) (l1 l2 : List (List K)) :
    updateIdeal (updateIdeal ideal l1) l2 = updateIdeal ideal (l1 ++ l2) := by
  unfold updateIdeal
  rw [List.foldl_append]

example : updateIdeal (initialIdeal 2) [[3, 1], [2, 5], [4, (0 : ℚ)]] = [(2 : ℚ), (0 : ℚ)] := by
  decide +kernel

/-! ## C31: selection -/

/-- theta dominance on positions -/
def ThetaDom (sc : List (ℕ × K)) (i j : ℕ) : Prop :=
  (sc.getD i (0, 0)).1 = (sc.getD j (0, 0)).1 ∧ (sc.getD i (0, 0)).2 < (sc.getD j (0, 0)).2

/-- C31: with more candidates than places the selection ends; it takes exactly `size` different
candidates, and nobody left out has a smaller theta rank than somebody taken. For every iteration
order of sets and every outcome of the sampling. -/
theorem C31_selection (iter : List ℕ → List ℕ) (hiter : ∀ l, (iter l).Perm l)
    (sample : List ℕ → ℕ → List ℕ) (hsample : ∀ l n, n ≤ l.length → IsSample l n (sample l n))
    (sc : List (ℕ × K)) (size fuel : ℕ) (hsize : size < sc.length) (hfuel : sc.length < fuel) :
    ∃ idx, selectIdx iter sample fuel size sc = some idx ∧ idx.length = size ∧
      ∃ lost, (idx ++ lost).Perm (List.range sc.length) ∧
        ∀ x ∈ idx, ∀ y ∈ lost, ∀ i j, IsRank (ThetaDom sc) (List.range sc.length) x i →
          IsRank (ThetaDom sc) (List.range sc.length) y j → i ≤ j := by
  obtain ⟨hrun, hres⟩ := C05_nsgaiii_sorts_by_rank iter hiter
    (fun i => (sc.getD i (0, 0)).1) (fun i => (sc.getD i (0, 0)).2)
    (List.range sc.length) List.nodup_range
  obtain ⟨L, hL⟩ := hrun fuel (by rw [List.length_range]; omega)
  obtain ⟨hperm, hne, hrank⟩ := hres fuel L hL
  simp only at hL
  have hLlen : L.length ≤ sc.length := by
    have h1 : L.flatten.length = sc.length := by rw [hperm.length_eq, List.length_range]
    rw [← h1, List.length_flatten]
    have : ∀ l : List (List ℕ), (∀ a ∈ l, a ≠ []) → l.length ≤ (l.map List.length).sum := by
      intro l
      induction l with
      | nil => intro _; simp
      | cons a l ih =>
        intro h
        have h1 := ih fun b hb => h b (List.mem_cons_of_mem _ hb)
        have h2 := List.length_pos_iff.2 (h a List.mem_cons_self)
        simp only [List.length_cons, List.map_cons, List.sum_cons]
        omega
    exact this L hne
  obtain ⟨acc, last, hfill, h1, h2, -, h3⟩ := fill_elitist List.nodup_range hperm hrank size fuel
    (by rw [List.length_range]; exact hsize) (by omega)
  obtain ⟨g1, lost, g2, g3⟩ := h3 (sample last (size - acc.length)) (hsample _ _ (by omega))
  refine ⟨acc ++ sample last (size - acc.length), ?_, g1, lost, g2, g3⟩
  unfold selectIdx
  rw [hL]
  simp only
  rw [hfill]

/-- C31: with no more candidates than places the loop of the selection never ends. -/
theorem C31_selection_diverges (iter : List ℕ → List ℕ) (hiter : ∀ l, (iter l).Perm l)
    (sample : List ℕ → ℕ → List ℕ) (sc : List (ℕ × K)) (size : ℕ) (hsize : sc.length ≤ size) :
    ∀ fuel, selectIdx iter sample fuel size sc = none := by
  intro fuel
  unfold selectIdx
  cases hL : ndSort iter (thetaDom (fun i => (sc.getD i (0, 0)).1)
      (fun i => (sc.getD i (0, 0)).2)) fuel (List.range sc.length) with
  | none => rfl
  | some L =>
    have hperm := ((C05_nsgaiii_sorts_by_rank iter hiter _ _ _ List.nodup_range).2 fuel L hL).1
    have : L.flatten.length = sc.length := by rw [hperm.length_eq, List.length_range]
    simp only
    rw [fillFronts_none size fuel L [] (by simpa using this.trans_le hsize)]

/-- Five candidates in two clusters, three places. -/
example : selectIdx id (fun l n => l.take n) 6 3
    [(0, 1), (0, 2), (1, 5), (1, 4), (0, (3 : ℚ))] = some [0, 3, 1] := by decide +kernel

/-! ## C72: variation -/

/-- C72: simulated binary crossover of NSGA-III never raises for evaluated parents in the box,
keeps the children in the box, and keeps objectives only together with the vector they belong
to. -/
theorem C72_crossover {pw : K → K → K} (hp : PowLaws pw) {eps eta : K} (rate first : K)
    (he : 0 < eps) (heta : 0 ≤ eta) (ds : ℕ → SbxDraw K)
    (hds : ∀ i, 0 ≤ (ds i).rand ∧ (ds i).rand < 1) (f : List K → List K) {dims : List (K × K)}
    {a b : Ind K} (ha : InBox a.v dims) (hb : InBox b.v dims)
    (hoa : a.objectives = some (f a.v)) (hob : b.objectives = some (f b.v)) :
    ∃ ca cb, sbx pw eps eta rate first ds dims a b = some (ca, cb) ∧
      InBox ca.v dims ∧ InBox cb.v dims ∧ Coherent f ca ∧ Coherent f cb ∧
      ((ca.v = a.v ∨ ca.objectives = none) ∧ (cb.v = b.v ∨ cb.objectives = none)) := by
  unfold sbx
  by_cases h : rate < first
  · rw [if_pos h, hoa, hob]
    refine ⟨_, _, rfl, ha, hb, ?_, ?_, Or.inl rfl, Or.inl rfl⟩
    · intro o ho; exact (Option.some.inj ho).symm
    · intro o ho; exact (Option.some.inj ho).symm
  · rw [if_neg h]
    obtain ⟨ca, cb, g1, g2, g3⟩ := sbxLoop_spec hp he heta ds hds ha hb dims 0 a.v b.v rfl ha hb
    rw [g1]
    refine ⟨_, _, rfl, g2, g3, ?_, ?_, Or.inr rfl, Or.inr rfl⟩
    · intro o ho; simp at ho
    · intro o ho; simp at ho

/-- C72: polynomial mutation of NSGA-III never raises inside the box, keeps the box, and forgets the
objectives whenever the vector changes. -/
theorem C72_mutation {pw : K → K → K} (hp : PowLaws pw) {eps eta : K} (rate : K)
    (he : 0 < eps) (heta : 0 ≤ eta) (ds : ℕ → MutDraw K)
    (hds : ∀ i, 0 ≤ (ds i).rnd ∧ (ds i).rnd ≤ 1) (f : List K → List K) {dims : List (K × K)}
    {x : Ind K} (hx : InBox x.v dims) (hc : Coherent f x) :
    ∃ x', polyMutation pw eps rate eta ds dims x = some x' ∧ InBox x'.v dims ∧ Coherent f x' ∧
      (x'.v ≠ x.v → x'.objectives = none) := by
  obtain ⟨x', h1, h2, h3⟩ := mutLoop_spec (rate := rate) hp he heta ds hds dims 0 x rfl hx
  refine ⟨x', h1, h2, ?_, ?_⟩
  · rcases h3 with rfl | h3
    · exact hc
    · intro o ho; rw [h3] at ho; simp at ho
  · intro hne
    rcases h3 with rfl | h3
    · exact absurd rfl hne
    · exact h3

/-! ## C31: the whole step -/

/-- What a step needs: right size, everybody in the box, trimmed and evaluated. -/
structure Sound (f : List K → List K) (cf : Conf K) (st : State K) : Prop where
  size : st.inds.length = st.size
  box : ∀ x ∈ st.inds, InBox x.v cf.dims
  trimmed : ∀ x ∈ st.inds, cf.trim x.v = x.v
  eval : ∀ x ∈ st.inds, x.objectives = some (f x.v)

/-- What holds between steps: moreover the ideal point is the one of a history containing all
individuals. -/
structure Good (f : List K → List K) (cf : Conf K) (st : State K) : Prop extends Sound f cf st where
  ideal : ∃ hist, st.ideal = updateIdeal (initialIdeal cf.m) hist ∧ (∀ o ∈ hist, o.length = cf.m) ∧
    ∀ x ∈ st.inds, f x.v ∈ hist

/-- Requirements on the fixed arguments; the default trim function is the identity. -/
structure ConfOk (f : List K → List K) (cf : Conf K) : Prop where
  etaC : 0 ≤ cf.etaC
  etaM : 0 ≤ cf.etaM
  trimBox : ∀ v, InBox v cf.dims → InBox (cf.trim v) cf.dims
  trimIdem : ∀ v, cf.trim (cf.trim v) = cf.trim v
  objectives : ∀ v, (f v).length = cf.m

/-- Draws are in the ranges of `random.random()` and `random.choice`. -/
structure DrawOk (n : ℕ) (d : PairDraw K) : Prop where
  pa : d.pa < n
  pb : d.pb < n
  cross : ∀ i, 0 ≤ (d.cross i).rand ∧ (d.cross i).rand < 1
  mutA : ∀ i, 0 ≤ (d.mutA i).rnd ∧ (d.mutA i).rnd ≤ 1
  mutB : ∀ i, 0 ≤ (d.mutB i).rnd ∧ (d.mutB i).rnd ≤ 1

theorem makePair_spec {pw : K → K → K} (hp : PowLaws pw) {eps : K} (he : 0 < eps)
    {f : List K → List K} {cf : Conf K} (hcf : ConfOk f cf) {st : State K} (hg : Sound f cf st)
    {d : PairDraw K} (hd : DrawOk st.inds.length d) :
    ∃ x y, makePair pw eps cf st.inds d = some [x, y] ∧ ∀ z ∈ [x, y], InBox z.v cf.dims ∧
      Coherent f z ∧ (z.objectives = none ∨ cf.trim z.v = z.v) := by
  unfold makePair
  rw [List.getElem?_eq_getElem hd.pa, List.getElem?_eq_getElem hd.pb]
  simp only
  have ha := List.getElem_mem hd.pa
  have hb := List.getElem_mem hd.pb
  generalize st.inds[d.pa]'hd.pa = a at ha
  generalize st.inds[d.pb]'hd.pb = b at hb
  obtain ⟨ca, cb, g1, g2, g3, g4, g5, g6, g7⟩ := C72_crossover hp cf.rateC d.first he hcf.etaC d.cross
    hd.cross f (hg.box a ha) (hg.box b hb) (hg.eval a ha) (hg.eval b hb)
  rw [g1]
  simp only
  obtain ⟨x, x1, x2, x3, x4⟩ := C72_mutation hp cf.rateM he hcf.etaM d.mutA hd.mutA f g2 g4
  obtain ⟨y, y1, y2, y3, y4⟩ := C72_mutation hp cf.rateM he hcf.etaM d.mutB hd.mutB f g3 g5
  rw [x1, y1]
  refine ⟨x, y, rfl, ?_⟩
  obtain ⟨x', m1, m2, m3⟩ := mutLoop_spec (rate := cf.rateM) hp he hcf.etaM d.mutA hd.mutA cf.dims 0
    ca rfl g2
  obtain ⟨y', n1, n2, n3⟩ := mutLoop_spec (rate := cf.rateM) hp he hcf.etaM d.mutB hd.mutB cf.dims 0
    cb rfl g3
  have hx' : x' = x := by
    unfold polyMutation at x1
    rw [m1] at x1
    exact Option.some.inj x1
  have hy' : y' = y := by
    unfold polyMutation at y1
    rw [n1] at y1
    exact Option.some.inj y1
  subst hx' hy'
  intro z hz
  rw [List.mem_cons, List.mem_singleton] at hz
  rcases hz with rfl | rfl
  · refine ⟨x2, x3, ?_⟩
    rcases m3 with rfl | m3
    · rcases g6 with g6 | g6
      · exact Or.inr (by rw [g6]; exact hg.trimmed a ha)
      · exact Or.inl g6
    · exact Or.inl m3
  · refine ⟨y2, y3, ?_⟩
    rcases n3 with rfl | n3
    · rcases g7 with g7 | g7
      · exact Or.inr (by rw [g7]; exact hg.trimmed b hb)
      · exact Or.inl g7
    · exact Or.inl n3

theorem makeOffspring_spec {pw : K → K → K} (hp : PowLaws pw) {eps : K} (he : 0 < eps)
    {f : List K → List K} {cf : Conf K} (hcf : ConfOk f cf) {st : State K} (hg : Sound f cf st)
    (ds : ℕ → PairDraw K) (hd : ∀ j, DrawOk st.inds.length (ds j)) :
    ∀ n j, ∃ l, makeOffspring pw eps cf ds st.inds n j = some l ∧ l.length = 2 * n ∧
      ∀ z ∈ l, InBox z.v cf.dims ∧ Coherent f z ∧ (z.objectives = none ∨ cf.trim z.v = z.v) := by
  intro n
  induction n with
  | zero => intro j; exact ⟨[], rfl, rfl, by simp⟩
  | succ n ih =>
    intro j
    obtain ⟨l, h1, h2, h3⟩ := ih (j + 1)
    obtain ⟨x, y, g1, g2⟩ := makePair_spec hp he hcf hg (hd j)
    rw [makeOffspring, g1, h1]
    refine ⟨[x, y] ++ l, rfl, by simp [h2]; omega, ?_⟩
    intro z hz
    rcases List.mem_append.1 hz with hz | hz
    · exact g2 z hz
    · exact h3 z hz

/-- C31: for at least two individuals, one step of NSGA-III neither raises nor loops forever; the
population keeps its size, and its members stay in the box with their own objective values. The new
individuals `off`, at least one, are taken into the ideal point. Nothing is assumed about the ideal
point before, which may ignore immigrants. -/
theorem C31_step_any {pw : K → K → K} (hp : PowLaws pw) (sq : K → K) {eps : K} (he : 0 < eps)
    {f : List K → List K} {cf : Conf K} (hcf : ConfOk f cf) {st : State K} (hg : Sound f cf st)
    (h2 : 2 ≤ st.size) (ds : ℕ → PairDraw K) (hd : ∀ j, DrawOk st.inds.length (ds j))
    (iter : List ℕ → List ℕ) (hiter : ∀ l, (iter l).Perm l)
    (sample : List ℕ → ℕ → List ℕ) (hsample : ∀ l n, n ≤ l.length → IsSample l n (sample l n))
    (fuel : ℕ) (hfuel : 2 * st.size < fuel) :
    ∃ st' off, step pw sq eps f cf ds iter sample fuel st = some st' ∧ Sound f cf st' ∧
      st'.size = st.size ∧ off ≠ [] ∧ st'.ideal = updateIdeal st.ideal (off.map fun x : Ind K => f x.v) ∧
      ∀ x ∈ st'.inds, x ∈ off ∨ x ∈ st.inds := by
  obtain ⟨raw, r1, r2, r3⟩ := makeOffspring_spec hp he hcf hg ds hd (st.size / 2) 0
  unfold step
  rw [r1]
  simp only
  set off := raw.map fun x => evaluate f ⟨cf.trim x.v, x.objectives⟩ with hoff
  have hoffEval : ∀ x ∈ off, x.objectives = some (f x.v) ∧ InBox x.v cf.dims ∧
      cf.trim x.v = x.v := by
    intro x hx
    obtain ⟨z, hz, rfl⟩ := List.mem_map.1 hx
    obtain ⟨z1, z2, z3⟩ := r3 z hz
    unfold evaluate
    cases ho : z.objectives with
    | none => exact ⟨rfl, hcf.trimBox _ z1, hcf.trimIdem _⟩
    | some o =>
      simp only
      have ht : cf.trim z.v = z.v := by
        rcases z3 with z3 | z3
        · rw [ho] at z3; simp at z3
        · exact z3
      rw [ht]
      exact ⟨by rw [z2 o ho], z1, ht⟩
  have hall : ∀ x ∈ off ++ st.inds, x.objectives = some (f x.v) ∧ InBox x.v cf.dims ∧
      cf.trim x.v = x.v := by
    intro x hx
    rcases List.mem_append.1 hx with hx | hx
    · exact hoffEval x hx
    · exact ⟨hg.eval x hx, hg.box x hx, hg.trimmed x hx⟩
  rw [allObjectives_of f _ fun x hx => (hall x hx).1]
  simp only
  set ideal := updateIdeal st.ideal (off.filterMap Ind.objectives) with hideal
  set sc := scores sq eps cf ideal ((off ++ st.inds).map fun x => f x.v) with hsc
  have hoffLen : off.length = 2 * (st.size / 2) := by rw [hoff, List.length_map, r2]
  have hscLen : sc.length = 2 * (st.size / 2) + st.size := by
    rw [hsc]
    unfold scores
    simp only [List.length_map, List.length_append]
    rw [hoffLen, hg.size]
  obtain ⟨idx, i1, i2, lost, i3, -⟩ := C31_selection iter hiter sample hsample sc st.size fuel
    (by omega) (by omega)
  rw [i1]
  refine ⟨_, off, rfl, ⟨?_, ?_, ?_, ?_⟩, rfl, ?_, ?_, ?_⟩
  · have hidx : ∀ i ∈ idx, i < (off ++ st.inds).length := by
      intro i hi
      have := List.mem_range.1 (i3.mem_iff.1 (List.mem_append_left _ hi))
      rw [List.length_append, hoffLen, hg.size]
      omega
    have : ∀ l : List ℕ, (∀ i ∈ l, i < (off ++ st.inds).length) →
        (l.filterMap fun i => (off ++ st.inds)[i]?).length = l.length := by
      intro l
      induction l with
      | nil => intro _; rfl
      | cons a l ih =>
        intro h
        rw [List.filterMap_cons, List.getElem?_eq_getElem (h a List.mem_cons_self)]
        simp only [List.length_cons]
        rw [ih fun i hi => h i (List.mem_cons_of_mem _ hi)]
    simp only
    rw [this idx hidx, i2]
  · intro x hx
    obtain ⟨i, -, hi⟩ := List.mem_filterMap.1 hx
    exact (hall x (List.mem_of_getElem? hi)).2.1
  · intro x hx
    obtain ⟨i, -, hi⟩ := List.mem_filterMap.1 hx
    exact (hall x (List.mem_of_getElem? hi)).2.2
  · intro x hx
    obtain ⟨i, -, hi⟩ := List.mem_filterMap.1 hx
    exact (hall x (List.mem_of_getElem? hi)).1
  · intro e
    have := congrArg List.length e
    rw [hoffLen, List.length_nil] at this
    omega
  · simp only
    rw [hideal, filterMap_objectives f off fun x hx => (hoffEval x hx).1]
  · intro x hx
    obtain ⟨i, -, hi⟩ := List.mem_filterMap.1 hx
    exact List.mem_append.1 (List.mem_of_getElem? hi)

/-- C31: for at least two individuals, one step of NSGA-III neither raises nor loops forever; the
population keeps its size, its members stay in the box with their own objective values, and the
ideal point stays the component-wise minimum of everything evaluated. For all draws, iteration
orders and samples. -/
theorem C31_step {pw : K → K → K} (hp : PowLaws pw) (sq : K → K) {eps : K} (he : 0 < eps)
    {f : List K → List K} {cf : Conf K} (hcf : ConfOk f cf) {st : State K} (hg : Good f cf st)
    (h2 : 2 ≤ st.size) (ds : ℕ → PairDraw K) (hd : ∀ j, DrawOk st.inds.length (ds j))
    (iter : List ℕ → List ℕ) (hiter : ∀ l, (iter l).Perm l)
    (sample : List ℕ → ℕ → List ℕ) (hsample : ∀ l n, n ≤ l.length → IsSample l n (sample l n))
    (fuel : ℕ) (hfuel : 2 * st.size < fuel) :
    ∃ st', step pw sq eps f cf ds iter sample fuel st = some st' ∧ Good f cf st' ∧
      st'.size = st.size := by
  obtain ⟨st', off, h1, h3, h4, -, h5, h6⟩ := C31_step_any hp sq he hcf hg.toSound h2 ds hd iter hiter
    sample hsample fuel hfuel
  obtain ⟨hist, e1, e2, e3⟩ := hg.ideal
  refine ⟨st', h1, ⟨h3, hist ++ off.map fun x => f x.v, ?_, ?_, ?_⟩, h4⟩
  · rw [h5, e1, C31_ideal_history]
  · intro o ho
    rcases List.mem_append.1 ho with ho | ho
    · exact e2 o ho
    · obtain ⟨x, -, rfl⟩ := List.mem_map.1 ho
      exact hcf.objectives _
  · intro x hx
    rcases h6 x hx with h | h
    · exact List.mem_append_right _ (List.mem_map.2 ⟨x, h, rfl⟩)
    · exact List.mem_append_left _ (e3 x h)

/-- C31: the constructor establishes what the step preserves. -/
theorem C31_init {f : List K → List K} {cf : Conf K} (hcf : ConfOk f cf) (pop : List (List K))
    (hpop : ∀ v ∈ pop, InBox v cf.dims) : Good f cf (init f cf pop) ∧
      (init f cf pop).size = pop.length := by
  have heval : ∀ x ∈ pop.map (fun v => evaluate f ⟨cf.trim v, none⟩),
      x.objectives = some (f x.v) := by
    intro x hx
    obtain ⟨v, -, rfl⟩ := List.mem_map.1 hx
    rfl
  refine ⟨⟨⟨?_, ?_, ?_, heval⟩, ?_⟩, rfl⟩
  · simp [init]
  · intro x hx
    obtain ⟨v, hv, rfl⟩ := List.mem_map.1 hx
    exact hcf.trimBox _ (hpop v hv)
  · intro x hx
    obtain ⟨v, hv, rfl⟩ := List.mem_map.1 hx
    exact hcf.trimIdem _
  · refine ⟨(pop.map fun v => evaluate f ⟨cf.trim v, none⟩).map fun x => f x.v, ?_, ?_, ?_⟩
    · unfold init
      simp only
      rw [filterMap_objectives f _ heval]
    · intro o ho
      obtain ⟨x, -, rfl⟩ := List.mem_map.1 ho
      exact hcf.objectives _
    · intro x hx
      exact List.mem_map.2 ⟨x, hx, rfl⟩

/-- C31: a driver with a single individual (or none) never finishes a step. -/
theorem C31_single_diverges {pw : K → K → K} (sq : K → K) {eps : K}
    {f : List K → List K} {cf : Conf K} {st : State K} (hg : Good f cf st)
    (h1 : st.size ≤ 1) (ds : ℕ → PairDraw K)
    (iter : List ℕ → List ℕ) (hiter : ∀ l, (iter l).Perm l) (sample : List ℕ → ℕ → List ℕ) :
    ∀ fuel, step pw sq eps f cf ds iter sample fuel st = none := by
  intro fuel
  have h0 : st.size / 2 = 0 := by omega
  unfold step
  rw [h0, makeOffspring]
  simp only [List.map_nil, List.nil_append]
  rw [allObjectives_of f _ hg.eval]
  simp only
  rw [C31_selection_diverges iter hiter]
  unfold scores
  simp [hg.size]

/-! ## C74: assigning a population -/

/-- C74 (violated by NSGA-III): after assigning a population, no step of NSGA-III succeeds, for any
draws: the new individuals have no objectives and nothing computes them. -/
theorem C74_nsgaiii_violated (pw : K → K → K) (sq : K → K) (eps : K) (f : List K → List K)
    (cf : Conf K) (st : State K) (pop : List (List K)) (hpop : pop ≠ []) (ds : ℕ → PairDraw K)
    (iter : List ℕ → List ℕ) (sample : List ℕ → ℕ → List ℕ) (fuel : ℕ) :
    step pw sq eps f cf ds iter sample fuel (setPopulation st pop) = none := by
  unfold step
  cases makeOffspring pw eps cf ds (setPopulation st pop).inds ((setPopulation st pop).size / 2) 0 with
  | none => rfl
  | some raw =>
    simp only
    obtain ⟨v, hv⟩ := List.exists_mem_of_ne_nil pop hpop
    have hmem : (⟨v, none⟩ : Ind K) ∈ (setPopulation st pop).inds :=
      List.mem_map.2 ⟨v, hv, rfl⟩
    rw [allObjectives_none _ ⟨v, none⟩ (List.mem_append_right _ hmem) rfl]

/-! ## C73: the geometry of the clusters -/

/-- C73: if the ideal point is a lower bound and finite, normalized objectives lie in `[0, 1)`. -/
theorem C73_normalized {eps : K} (he : 0 < eps) (m : ℕ) (hist objs : List (List K))
    (hh : ∀ o ∈ hist, o.length = m) (hsub : ∀ o ∈ objs, o ∈ hist) (o : List K) (ho : o ∈ objs) :
    let n := normalizeOne eps (updateIdeal (initialIdeal m) hist) (defiledPoint m objs) o
    n.length = m ∧ ∀ x ∈ n, 0 ≤ x ∧ x < 1 := by
  intro n
  have hobjs : ∀ o ∈ objs, o.length = m := fun o h => hh o (hsub o h)
  obtain ⟨hil, hi⟩ := C31_ideal m hist hh
  have hdl : (defiledPoint m objs).length = m := by
    unfold defiledPoint
    have : ∀ (l : List (List K)) (d : List (WithBot K)), d.length = m → (∀ o ∈ l, o.length = m) →
        (l.foldl updateDefiledOne d).length = m := by
      intro l
      induction l with
      | nil => intro d h _; exact h
      | cons a l ih =>
        intro d h hl
        rw [List.foldl_cons]
        refine ih _ ?_ fun o h => hl o (List.mem_cons_of_mem _ h)
        unfold updateDefiledOne
        rw [List.length_zipWith, h, hl a List.mem_cons_self, Nat.min_self]
    exact this objs _ (by simp) hobjs
  have hol := hobjs o ho
  have hlen : n.length = m := by
    show (List.zipWith _ _ _).length = m
    rw [List.length_zipWith, List.length_zip, hil, hdl, hol, Nat.min_self, Nat.min_self]
  refine ⟨hlen, fun x hx => ?_⟩
  obtain ⟨i, hin, rfl⟩ := List.getElem_of_mem hx
  have him : i < m := by omega
  obtain ⟨a, a1, a2, a3⟩ := hi i him
  obtain ⟨b, b1, -, b3, b4⟩ := defiled_get m objs (List.replicate m ⊥) hobjs i ⊥ him
    (by simp [him])
  have hoi : o[i]? = some (o[i]'(by omega)) := List.getElem?_eq_getElem (by omega)
  generalize o[i]'(by omega) = y at hoi
  have ha : ∃ a' : K, a = (a' : WithTop K) := by
    rcases a3 with ⟨h, -⟩ | ⟨_, _, y', _, e⟩
    · rw [h] at hsub; exact absurd (hsub o ho) (by simp)
    · exact ⟨y', e⟩
  have hb : ∃ b' : K, b = (b' : WithBot K) := by
    rcases b4 with h | ⟨_, _, y', _, e⟩
    · have := b3 o ho y hoi
      rw [h] at this
      exact absurd this (not_le.2 (WithBot.bot_lt_coe y))
    · exact ⟨y', e⟩
  obtain ⟨a', rfl⟩ := ha
  obtain ⟨b', rfl⟩ := hb
  have hay : a' ≤ y := WithTop.coe_le_coe.1 (a2 o (hsub o ho) y hoi)
  have hyb : y ≤ b' := WithBot.coe_le_coe.1 (b3 o ho y hoi)
  have hval : n[i]'hin = (y - a') / (b' - a' + eps) := by
    have : n[i]? = some ((y - a') / (b' - a' + eps)) := by
      show (List.zipWith _ _ _)[i]? = _
      have hz : (List.zip (updateIdeal (initialIdeal m) hist) (defiledPoint m objs))[i]? =
          some ((a' : WithTop K), (b' : WithBot K)) := by
        rw [List.getElem?_zip_eq_some]
        exact ⟨a1, b1⟩
      rw [List.getElem?_zipWith, hz, hoi]
      rfl
    rw [List.getElem?_eq_getElem hin] at this
    exact Option.some.inj this
  rw [hval]
  have hden : 0 < b' - a' + eps := by linarith
  refine ⟨div_nonneg (by linarith) hden.le, ?_⟩
  rw [div_lt_one hden]
  linarith

/-- C73: with at least one reference point the cluster of an individual is the first reference point
of minimal rejection, and the stored rejection is that minimum. -/
theorem C73_cluster (rejections : List K) (hne : rejections ≠ []) :
    ∃ (i : ℕ) (x : K), clusterOf rejections = ((x : WithTop K), some i) ∧
      rejections[i]? = some x ∧ (∀ y ∈ rejections, x ≤ y) ∧
      ∀ j y, j < i → rejections[j]? = some y → x < y := by
  rcases clusterStep_fold rejections 0 (⊤, none) with ⟨h, -⟩ | ⟨-, h⟩ | ⟨i, x, h1, h2, -, h4, h5⟩
  · exact absurd h hne
  · obtain ⟨x, hx⟩ := List.exists_mem_of_ne_nil _ hne
    exact absurd (h x hx) (not_le.2 (WithTop.coe_lt_top x))
  · exact ⟨i, x, by unfold clusterOf; rw [h2, Nat.zero_add], h1, h4, h5⟩

theorem dot_subMul (t : K) : ∀ (v r : List K), v.length = r.length →
    dot (subMul v t r) (subMul v t r) = dot v v - 2 * t * dot v r + t * t * dot r r := by
  intro v
  induction v with
  | nil =>
    intro r h
    have : r = [] := List.length_eq_zero_iff.1 h.symm
    subst this
    simp [dot, subMul]
  | cons a v ih =>
    intro r h
    cases r with
    | nil => simp at h
    | cons b r =>
      have e := ih r (by simpa using h)
      simp only [dot, subMul, List.zipWith_cons_cons, List.sum_cons] at e ⊢
      rw [e]; ring

/-- C73: over the reals, projection and rejection are the two legs of a right triangle whose
hypotenuse is the objective vector, and the rejection is the distance to the line through the
reference point. -/
theorem C73_geometry (v r : List ℝ) (hl : v.length = r.length) (hr : r.sum ≠ 0) :
    projection Real.sqrt v r ^ 2 + rejection Real.sqrt v r ^ 2 = dot v v ∧
    (∃ t, rejection Real.sqrt v r = norm Real.sqrt (subMul v t r)) ∧
    ∀ t, rejection Real.sqrt v r ≤ norm Real.sqrt (subMul v t r) := by
  have hrr := dot_self_pos r hr
  have hn : norm Real.sqrt r ^ 2 = dot r r := Real.sq_sqrt hrr.le
  have hnp : 0 < norm Real.sqrt r := Real.sqrt_pos.2 hrr
  have hrej : rejection Real.sqrt v r ^ 2 =
      dot (subMul v (dot v r / dot r r) r) (subMul v (dot v r / dot r r) r) := by
    unfold rejection projection
    rw [div_div, ← pow_two, hn]
    exact Real.sq_sqrt (dot_self_nonneg _)
  refine ⟨?_, ⟨_, rfl⟩, ?_⟩
  · rw [hrej, dot_subMul _ _ _ hl]
    unfold projection
    rw [div_pow, hn]
    field_simp
    ring
  · intro t
    have h0 : 0 ≤ rejection Real.sqrt v r := Real.sqrt_nonneg _
    unfold norm
    refine Real.le_sqrt_of_sq_le ?_
    rw [hrej, dot_subMul _ _ _ hl, dot_subMul _ _ _ hl]
    have : dot v v - 2 * t * dot v r + t * t * dot r r -
        (dot v v - 2 * (dot v r / dot r r) * dot v r +
          dot v r / dot r r * (dot v r / dot r r) * dot r r) =
        dot r r * (t - dot v r / dot r r) ^ 2 := by
      field_simp
      ring
    have h2 : 0 ≤ dot r r * (t - dot v r / dot r r) ^ 2 := mul_nonneg hrr.le (sq_nonneg _)
    linarith

/-- C73: the score of every individual is the penalty-based value of its nearest reference line:
the cluster is an index of a reference point `r` with the least distance of the normalised objectives
from the line through `r`, and the fitness is the length along that line *plus* `theta` times the
distance from it. -/
theorem C73_score (sq : K → K) (eps : K) (cf : Conf K) (ideal : List (WithTop K))
    (objs : List (List K)) (hrefs : cf.refs ≠ []) (k : ℕ) (o : List K) (ho : objs[k]? = some o) :
    let nobj := normalizeOne eps ideal (defiledPoint cf.m objs) o
    ∃ (i : ℕ) (r : List K), cf.refs[i]? = some r ∧
      (∀ r' ∈ cf.refs, rejection sq nobj r ≤ rejection sq nobj r') ∧
      (scores sq eps cf ideal objs)[k]? = some (i, dot nobj r / norm sq r +
        cf.theta * rejection sq nobj r) := by
  intro nobj
  obtain ⟨i, x, h1, h2, h3, -⟩ := C73_cluster (cf.refs.map fun r => rejection sq nobj r)
    (by simpa using hrefs)
  rw [List.getElem?_map, Option.map_eq_some_iff] at h2
  obtain ⟨r, hr, rfl⟩ := h2
  refine ⟨i, r, hr, fun r' hr' => h3 _ (List.mem_map_of_mem hr'), ?_⟩
  unfold scores
  simp only [List.getElem?_map, ho, Option.map_some]
  change some ((clusterOf (cf.refs.map fun r => rejection sq nobj r)).2.getD 0, _) = _
  rw [h1]
  simp only [Option.getD_some, WithTop.untopD_coe, List.getD_eq_getElem?_getD, hr]
  rfl

example : clusterOf [3, 1, 2, (1 : ℚ)] = (((1 : ℚ) : WithTop ℚ), some 1) := by decide +kernel

/-- The point (3, 4) and the direction (1, 0): projection 3, rejection 4 (with an exact square
root for the squares that occur). -/
example : let sq : ℚ → ℚ := fun x => if x = 16 then 4 else if x = 25 then 5 else x
    (projection sq [3, 4] [1, 0], rejection sq [3, 4] [1, 0]) = (3, 4) := by decide +kernel

end Evogil.Nsgaiii
