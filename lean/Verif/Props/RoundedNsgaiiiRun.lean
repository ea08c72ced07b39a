import Verif.Model.RoundedNsgaiiiRun
import Verif.Props.NsgaiiiRun
import Verif.Props.RoundedMoves
import Verif.Props.RoundedNsgaiii

/-!
# C150: runs of NSGA-III in floating point
-/

set_option linter.unusedSectionVars false

namespace Evogil.Rounded.Nsgaiii

open Spec Binary64 Generations
open Evogil.Nsgaiii (Conf Ind PairDraw State Costed defiledPoint evaluate updateIdeal initialIdeal allObjectives selectIdx
  evaluations initCosted Good Sound ConfOk Coherent C31_selection C31_ideal C31_ideal_history C31_init
  allObjectives_of filterMap_objectives evaluations_le evaluations_all evaluations_zero initCosted_cost)

variable {K : Type*} [Field K] [LinearOrder K] [IsStrictOrderedRing K] [FloorRing K]
variable {pw : K → K → K} {dot : List K → List K → K} {norm : List K → K} {f : List K → List K} {cf : Conf K}

/-- Requirements on the fixed arguments in floating point: the bounds are floats, the trim function (by default the
identity) makes floats from floats, and no reference point has the length 0. -/
structure FloatConf (f : List K → List K) (norm : List K → K) (cf : Conf K) : Prop extends ConfOk f cf where
  box : FloatBox round64 cf.dims
  trimFloats : ∀ v, Floats round64 v → Floats round64 (cf.trim v)
  refs : ∀ r ∈ cf.refs, norm r ≠ 0

/-- The draws for one pair of children are those of `random.choice` and `random.random()`. -/
structure DrawOk (n : ℕ) (d : PairDraw K) : Prop where
  pa : d.pa < n
  pb : d.pb < n
  cross : ∀ i, IsDraw (1 / 2 ^ 53) (d.cross i).rand
  mutA : ∀ i, IsDraw (1 / 2 ^ 53) (d.mutA i).rnd
  mutB : ∀ i, IsDraw (1 / 2 ^ 53) (d.mutB i).rnd

/-- The draws of one step are valid. -/
structure DrawsOk (N : ℕ) (ds : ℕ → PairDraw K) (iter : List ℕ → List ℕ)
    (sample : List ℕ → ℕ → List ℕ) : Prop where
  pairs : ∀ j, DrawOk N (ds j)
  iter : ∀ l, (iter l).Perm l
  sample : ∀ l n, n ≤ l.length → IsSample l n (sample l n)

/-- What holds between the steps of a run with `N` individuals. -/
def CGood (f : List K → List K) (cf : Conf K) (N : ℕ) (s : Costed K) : Prop :=
  Good f cf s.st ∧ s.st.size = N ∧ ∀ x ∈ s.st.inds, Floats round64 x.v

/-- The same when individuals may have arrived which are not part of the history of the ideal point. -/
def CSound (f : List K → List K) (cf : Conf K) (N : ℕ) (s : Costed K) : Prop :=
  Sound f cf s.st ∧ s.st.size = N ∧
    (∃ hist, s.st.ideal = updateIdeal (initialIdeal cf.m) hist ∧ ∀ o ∈ hist, o.length = cf.m) ∧
    ∀ x ∈ s.st.inds, Floats round64 x.v

theorem CGood.sound {N : ℕ} {s : Costed K} (h : CGood f cf N s) : CSound f cf N s := by
  obtain ⟨hist, e1, e2, -⟩ := h.1.ideal
  exact ⟨h.1.toSound, h.2.1, ⟨hist, e1, e2⟩, h.2.2⟩

/-! ## Children -/

theorem mutateInd_spec (hp : PowerLaws pw) {rate eta : K} (heta : 0 ≤ eta) {ds : ℕ → MutDraw K}
    (hds : ∀ i, IsDraw (1 / 2 ^ 53) (ds i).rnd) {dims : List (K × K)} (hb : FloatBox round64 dims) {x : Ind K}
    (hx : InBox x.v dims) (fx : Floats round64 x.v) :
    ∃ y, mutateInd round64 pw (1 / 2 ^ 52) rate eta ds dims x = some y ∧ InBox y.v dims ∧ Floats round64 y.v ∧
      (y = x ∨ y.objectives = none) ∧ (x.objectives = none → y.objectives = none) ∧
      ((∀ i, rate < (ds i).select) → y = x) := by
  obtain ⟨v, e, h1, h2, h3⟩ := C121_mutate pw hp rate eta heta ds hds dims hb x.v hx fx
  unfold mutateInd polynomialMutation
  rw [e]
  refine ⟨_, rfl, h1, h2, ?_⟩
  have heq : (∀ i, i < dims.length → rate < (ds i).select) → v = x.v := by
    intro h
    refine List.ext_getElem? fun i => ?_
    by_cases hi : i < dims.length
    · have hi1 : i < v.length := by rw [h1.length_eq]; exact hi
      have hi2 : i < x.v.length := by rw [hx.length_eq]; exact hi
      rw [List.getElem?_eq_getElem hi1, List.getElem?_eq_getElem hi2]
      rw [(h3 i _ _ (List.getElem?_eq_getElem hi2) (List.getElem?_eq_getElem hi1)).1 (h i hi)]
    · rw [List.getElem?_eq_none (by rw [h1.length_eq]; omega), List.getElem?_eq_none (by rw [hx.length_eq]; omega)]
  have hany : ∀ h : (List.range dims.length).any (fun i => decide ((ds i).select ≤ rate)) = false,
      ∀ i, i < dims.length → rate < (ds i).select := by
    intro h i hi
    rw [List.any_eq_false] at h
    have := h i (List.mem_range.2 hi)
    simpa using this
  simp only
  cases hs : (List.range dims.length).any fun i => decide ((ds i).select ≤ rate) with
  | true =>
    refine ⟨Or.inr rfl, fun _ => rfl, fun h => ?_⟩
    obtain ⟨i, -, hi⟩ := List.any_eq_true.1 hs
    exact absurd (h i) (not_lt.2 (by simpa using hi))
  | false =>
    have hv := heq (hany hs)
    subst hv
    exact ⟨Or.inl rfl, fun h => h, fun _ => rfl⟩

theorem crossInd_spec (hp : PowerLaws pw) {rate eta first : K} (heta : 0 ≤ eta) {ds : ℕ → SbxDraw K}
    (hds : ∀ i, IsDraw (1 / 2 ^ 53) (ds i).rand) {dims : List (K × K)} (hb : FloatBox round64 dims) {a b : Ind K}
    (ha : InBox a.v dims) (fa : Floats round64 a.v) (ha' : a.objectives.isSome) (hb1 : InBox b.v dims)
    (fb : Floats round64 b.v) (hb' : b.objectives.isSome) :
    ∃ x y, crossInd round64 pw (1 / 2 ^ 52) eta rate first ds dims a b = some (x, y) ∧
      (InBox x.v dims ∧ Floats round64 x.v) ∧ (InBox y.v dims ∧ Floats round64 y.v) ∧
      (rate < first → x = a ∧ y = b) ∧ (¬ rate < first → x.objectives = none ∧ y.objectives = none) := by
  obtain ⟨va, oa⟩ := a
  obtain ⟨vb, ob⟩ := b
  have he : round64 (1 / 2 ^ 52 : K) = 1 / 2 ^ 52 :=
    round64_float ⟨1, -52, by norm_num, by norm_num, by norm_num⟩
  unfold crossInd simulatedBinaryCrossover
  by_cases hc : rate < first
  · obtain ⟨o1, rfl⟩ := Option.isSome_iff_exists.1 ha'
    obtain ⟨o2, rfl⟩ := Option.isSome_iff_exists.1 hb'
    refine ⟨⟨va, some o1⟩, ⟨vb, some o2⟩, ?_, ⟨ha, fa⟩, ⟨hb1, fb⟩, fun _ => ⟨rfl, rfl⟩, fun h => absurd hc h⟩
    simp only [if_pos hc]
  · obtain ⟨as, bs, e, h1, h2, -⟩ := crossoverLoop_ok round64_isRounding hp (by positivity) he heta dims va vb ds
      hds hb ha hb1 fa fb
    refine ⟨⟨as, none⟩, ⟨bs, none⟩, ?_, h1, h2, fun h => absurd h hc, fun _ => ⟨rfl, rfl⟩⟩
    simp only [if_neg hc, e]

/-- The children of one turn: two vectors of floats of the box, each without objectives or a copy of an individual. -/
theorem makePair_spec (hp : PowerLaws pw) (hcf : FloatConf f norm cf) {inds : List (Ind K)}
    (hbox : ∀ x ∈ inds, InBox x.v cf.dims ∧ Floats round64 x.v ∧ x.objectives = some (f x.v))
    {d : PairDraw K} (hd : DrawOk inds.length d) :
    ∃ x y, makePair round64 pw (1 / 2 ^ 52) cf inds d = some [x, y] ∧
      (∀ z ∈ [x, y], InBox z.v cf.dims ∧ Floats round64 z.v ∧ (z.objectives = none ∨ z ∈ inds)) ∧
      (d.first ≤ cf.rateC → ∀ z ∈ [x, y], z.objectives = none) ∧
      (cf.rateC < d.first → (∀ i, cf.rateM < (d.mutA i).select) → (∀ i, cf.rateM < (d.mutB i).select) →
        ∀ z ∈ [x, y], z.objectives.isSome = true) := by
  unfold makePair
  rw [List.getElem?_eq_getElem hd.pa, List.getElem?_eq_getElem hd.pb]
  simp only
  have ha := List.getElem_mem hd.pa
  have hb := List.getElem_mem hd.pb
  generalize inds[d.pa]'hd.pa = a at ha
  generalize inds[d.pb]'hd.pb = b at hb
  obtain ⟨a1, a2, a3⟩ := hbox a ha
  obtain ⟨b1, b2, b3⟩ := hbox b hb
  obtain ⟨ca, cb, e, c1, c2, c3, c4⟩ := crossInd_spec (rate := cf.rateC) (first := d.first) hp hcf.etaC hd.cross hcf.box
    a1 a2 (by rw [a3]; rfl) b1 b2 (by rw [b3]; rfl)
  rw [e]
  simp only
  obtain ⟨x, x1, x2, x3, x4, x5, x6⟩ := mutateInd_spec (rate := cf.rateM) hp hcf.etaM hd.mutA hcf.box c1.1 c1.2
  obtain ⟨y, y1, y2, y3, y4, y5, y6⟩ := mutateInd_spec (rate := cf.rateM) hp hcf.etaM hd.mutB hcf.box c2.1 c2.2
  rw [x1, y1]
  refine ⟨x, y, rfl, ?_, ?_, ?_⟩
  · intro z hz
    rw [List.mem_cons, List.mem_singleton] at hz
    by_cases hc : cf.rateC < d.first
    · obtain ⟨rfl, rfl⟩ := c3 hc
      rcases hz with rfl | rfl
      · refine ⟨x2, x3, ?_⟩
        rcases x4 with rfl | h
        · exact Or.inr ha
        · exact Or.inl h
      · refine ⟨y2, y3, ?_⟩
        rcases y4 with rfl | h
        · exact Or.inr hb
        · exact Or.inl h
    · obtain ⟨n1, n2⟩ := c4 hc
      rcases hz with rfl | rfl
      · exact ⟨x2, x3, Or.inl (x5 n1)⟩
      · exact ⟨y2, y3, Or.inl (y5 n2)⟩
  · intro hc z hz
    obtain ⟨n1, n2⟩ := c4 (not_lt.2 hc)
    rw [List.mem_cons, List.mem_singleton] at hz
    rcases hz with rfl | rfl
    · exact x5 n1
    · exact y5 n2
  · intro hc hA hB z hz
    obtain ⟨rfl, rfl⟩ := c3 hc
    rw [List.mem_cons, List.mem_singleton] at hz
    rcases hz with rfl | rfl
    · rw [x6 hA, a3]; rfl
    · rw [y6 hB, b3]; rfl

theorem evaluations_append (l₁ l₂ : List (Ind K)) : evaluations (l₁ ++ l₂) = evaluations l₁ + evaluations l₂ := by
  simp [evaluations, List.filter_append]

/-- All children of a step. -/
theorem makeOffspring_spec (hp : PowerLaws pw) (hcf : FloatConf f norm cf) {inds : List (Ind K)}
    (hbox : ∀ x ∈ inds, InBox x.v cf.dims ∧ Floats round64 x.v ∧ x.objectives = some (f x.v))
    (ds : ℕ → PairDraw K) (hd : ∀ j, DrawOk inds.length (ds j)) :
    ∀ n j, ∃ l, makeOffspring round64 pw (1 / 2 ^ 52) cf ds inds n j = some l ∧ l.length = 2 * n ∧
      (∀ z ∈ l, InBox z.v cf.dims ∧ Floats round64 z.v ∧ (z.objectives = none ∨ z ∈ inds)) ∧
      ((∀ i, (ds i).first ≤ cf.rateC) → evaluations l = 2 * n) ∧
      (∀ i, j ≤ i → i < j + n → (ds i).first ≤ cf.rateC → 0 < evaluations l) ∧
      ((∀ i, cf.rateC < (ds i).first) → (∀ j i, cf.rateM < ((ds j).mutA i).select) →
        (∀ j i, cf.rateM < ((ds j).mutB i).select) → evaluations l = 0) := by
  intro n
  induction n with
  | zero => intro j; exact ⟨[], rfl, rfl, by simp, fun _ => rfl, fun i h1 h2 => by omega, fun _ _ _ => rfl⟩
  | succ n ih =>
    intro j
    obtain ⟨l, h1, h2, h3, h4, h5, h6⟩ := ih (j + 1)
    obtain ⟨x, y, g1, g2, g3, g4⟩ := makePair_spec hp hcf hbox (hd j)
    rw [makeOffspring, g1, h1]
    refine ⟨[x, y] ++ l, rfl, by simp [h2]; omega, ?_, ?_, ?_, ?_⟩
    · intro z hz
      rcases List.mem_append.1 hz with hz | hz
      · exact g2 z hz
      · exact h3 z hz
    · intro h
      rw [evaluations_append, evaluations_all (g3 (h j)), h4 h]
      simp
      omega
    · intro i hi1 hi2 hc
      rw [evaluations_append]
      by_cases hij : i = j
      · subst hij
        rw [evaluations_all (g3 hc)]
        simp
      · have := h5 i (by omega) (by omega) hc
        omega
    · intro ha hb hc
      rw [evaluations_append, evaluations_zero (g4 (ha j) (hb j) (hc j)), h6 ha hb hc]

/-! ## Divisors -/

/-- No divisor is 0 if the ideal point is the one of a history with one of the individuals. -/
theorem divisors_ok (hcf : FloatConf f norm cf) (hist objs : List (List K)) (hh : ∀ o ∈ hist, o.length = cf.m)
    (hobjs : ∀ o ∈ objs, o.length = cf.m) (hne : ∃ o ∈ objs, o ∈ hist) :
    dividesByZero round64 norm (1 / 2 ^ 52) cf (updateIdeal (initialIdeal cf.m) hist) objs = false := by
  unfold dividesByZero
  rw [Bool.or_eq_false_iff]
  constructor
  · rw [List.any_eq_false]
    intro r hr
    simpa using hcf.refs r hr
  · rw [List.any_eq_false]
    rintro ⟨a, b⟩ hab
    obtain ⟨i, hi⟩ := List.mem_iff_getElem?.1 hab
    obtain ⟨ha, hb⟩ := List.getElem?_zip_eq_some.1 hi
    obtain ⟨hl, hid⟩ := C31_ideal cf.m hist hh
    have him : i < cf.m := by
      rw [← hl]
      exact (List.getElem?_eq_some_iff.1 ha).1
    obtain ⟨a', a1, a2, -⟩ := hid i him
    rw [ha] at a1
    cases a1
    obtain ⟨b', b1, -, b3, -⟩ := Evogil.Nsgaiii.defiled_get cf.m objs (List.replicate cf.m ⊥)
      hobjs i ⊥ him (by simp [him])
    have hb0 : (defiledPoint cf.m objs)[i]? = some b := hb
    rw [defiledPoint, b1] at hb0
    cases hb0
    obtain ⟨o, ho, ho'⟩ := hne
    have hol := hh o ho'
    have hoi : o[i]? = some (o[i]'(by omega)) := List.getElem?_eq_getElem (by omega)
    have l1 := a2 o ho' _ hoi
    have l2 := b3 o ho _ hoi
    generalize o[i]'(by omega) = y at l1 l2
    have hle : a.untopD 0 ≤ b.unbotD 0 := by
      induction a using WithTop.recTopCoe with
      | top => exact absurd l1 (by simp)
      | coe a =>
        induction b using WithBot.recBotCoe with
        | bot => exact absurd l2 (by simp)
        | coe b => exact (WithTop.coe_le_coe.1 l1).trans (WithBot.coe_le_coe.1 l2)
    have he : round64 (1 / 2 ^ 52 : K) = 1 / 2 ^ 52 :=
      round64_float ⟨1, -52, by norm_num, by norm_num, by norm_num⟩
    have h0 : 0 ≤ round64 (b.unbotD 0 - a.untopD 0) := by
      have := round64_mono (sub_nonneg.2 hle)
      rwa [fl_zero round64_isRounding] at this
    have h1 : (1 / 2 ^ 52 : K) ≤ round64 (round64 (b.unbotD 0 - a.untopD 0) + 1 / 2 ^ 52) := by
      have := round64_mono (le_add_of_nonneg_left h0 : (1 / 2 ^ 52 : K) ≤ _)
      rwa [he] at this
    have : (0 : K) < 1 / 2 ^ 52 := by positivity
    simpa using ((this.trans_le h1).ne')

/-! ## Steps -/

/-- A step when the ideal point is the one of a history that need not contain the individuals. -/
theorem stepCosted_any (hp : PowerLaws pw) (hcf : FloatConf f norm cf) {N : ℕ} (h2 : 2 ≤ N) {s : Costed K}
    (hs : CSound f cf N s) {ds : ℕ → PairDraw K} {iter : List ℕ → List ℕ} {sample : List ℕ → ℕ → List ℕ}
    (hd : DrawsOk N ds iter sample) :
    ∃ raw s', makeOffspring round64 pw (1 / 2 ^ 52) cf ds s.st.inds (N / 2) 0 = some raw ∧
      stepCosted round64 pw dot norm (1 / 2 ^ 52) f cf ds iter sample s = some s' ∧ CSound f cf N s' ∧
      (Good f cf s.st → Good f cf s'.st) ∧
      raw.length = 2 * (N / 2) ∧ s'.cost = s.cost + evaluations raw := by
  obtain ⟨hg, rfl, ⟨hist0, i01, i02⟩, hfl⟩ := hs
  have hl : s.st.inds.length = s.st.size := hg.size
  have hold : ∀ x ∈ s.st.inds, InBox x.v cf.dims ∧ Floats round64 x.v ∧ x.objectives = some (f x.v) :=
    fun x hx => ⟨hg.box x hx, hfl x hx, hg.eval x hx⟩
  obtain ⟨raw, r1, r2, r3, -⟩ := makeOffspring_spec hp hcf hold ds (by rw [hl]; exact hd.pairs) (s.st.size / 2) 0
  unfold stepCosted step
  rw [r1]
  simp only
  set off := raw.map fun x => evaluate f ⟨cf.trim x.v, x.objectives⟩ with hoff
  have hoffEval : ∀ x ∈ off, x.objectives = some (f x.v) ∧ InBox x.v cf.dims ∧ cf.trim x.v = x.v ∧
      Floats round64 x.v := by
    intro x hx
    obtain ⟨z, hz, rfl⟩ := List.mem_map.1 hx
    obtain ⟨z1, z2, z3⟩ := r3 z hz
    unfold evaluate
    rcases z3 with z3 | z3
    · rw [z3]
      exact ⟨rfl, hcf.trimBox _ z1, hcf.trimIdem _, hcf.trimFloats _ z2⟩
    · have ho := hg.eval z z3
      have ht := hg.trimmed z z3
      rw [ho, ht]
      exact ⟨rfl, z1, ht, z2⟩
  have hall : ∀ x ∈ off ++ s.st.inds, x.objectives = some (f x.v) ∧ InBox x.v cf.dims ∧ cf.trim x.v = x.v ∧
      Floats round64 x.v := by
    intro x hx
    rcases List.mem_append.1 hx with hx | hx
    · exact hoffEval x hx
    · exact ⟨hg.eval x hx, hg.box x hx, hg.trimmed x hx, hfl x hx⟩
  rw [allObjectives_of f _ fun x hx => (hall x hx).1]
  simp only
  have hideal : ∀ hist, s.st.ideal = updateIdeal (initialIdeal cf.m) hist →
      updateIdeal s.st.ideal (off.filterMap Ind.objectives) =
      updateIdeal (initialIdeal cf.m) (hist ++ off.map fun x => f x.v) := by
    intro hist i1
    rw [filterMap_objectives f off fun x hx => (hoffEval x hx).1, i1, C31_ideal_history]
  have hhist : ∀ hist : List (List K), (∀ o ∈ hist, o.length = cf.m) →
      ∀ o ∈ hist ++ off.map (fun x => f x.v), o.length = cf.m := by
    intro hist i2 o ho
    rcases List.mem_append.1 ho with ho | ho
    · exact i2 o ho
    · obtain ⟨x, -, rfl⟩ := List.mem_map.1 ho
      exact hcf.objectives _
  have hoffLen : off.length = 2 * (s.st.size / 2) := by rw [hoff, List.length_map, r2]
  have hdiv : dividesByZero round64 norm (1 / 2 ^ 52) cf (updateIdeal s.st.ideal (off.filterMap Ind.objectives))
      ((off ++ s.st.inds).map fun x => f x.v) = false := by
    rw [hideal hist0 i01]
    refine divisors_ok hcf _ _ (hhist hist0 i02) ?_ ?_
    · intro o ho
      obtain ⟨x, -, rfl⟩ := List.mem_map.1 ho
      exact hcf.objectives _
    · obtain ⟨x, hx⟩ := List.exists_mem_of_ne_nil off (by
        intro e
        rw [e, List.length_nil] at hoffLen
        omega)
      exact ⟨f x.v, List.mem_map.2 ⟨x, List.mem_append_left _ hx, rfl⟩,
        List.mem_append_right _ (List.mem_map.2 ⟨x, hx, rfl⟩)⟩
  rw [hdiv]
  simp only [Bool.false_eq_true, if_false]
  set ideal := updateIdeal s.st.ideal (off.filterMap Ind.objectives) with hidl
  set sc := scores round64 dot norm (1 / 2 ^ 52) cf ideal ((off ++ s.st.inds).map fun x => f x.v) with hsc
  have hscLen : sc.length = 2 * (s.st.size / 2) + s.st.size := by
    rw [hsc]
    unfold scores
    simp only [List.length_map, List.length_append]
    rw [hoffLen, hl]
  obtain ⟨idx, j1, j2, lost, j3, -⟩ := C31_selection iter hd.iter sample hd.sample sc s.st.size (2 * s.st.size + 1)
    (by omega) (by omega)
  rw [j1]
  simp only [Option.map_some]
  have hsound : Sound f cf ⟨idx.filterMap fun i => (off ++ s.st.inds)[i]?, s.st.size, ideal⟩ := by
    refine ⟨?_, ?_, ?_, ?_⟩
    · have hidx : ∀ i ∈ idx, i < (off ++ s.st.inds).length := by
        intro i hi
        have := List.mem_range.1 (j3.mem_iff.1 (List.mem_append_left _ hi))
        rw [List.length_append, hoffLen, hl]
        omega
      have : ∀ l : List ℕ, (∀ i ∈ l, i < (off ++ s.st.inds).length) →
          (l.filterMap fun i => (off ++ s.st.inds)[i]?).length = l.length := by
        intro l
        induction l with
        | nil => intro _; rfl
        | cons a l ih =>
          intro h
          rw [List.filterMap_cons, List.getElem?_eq_getElem (h a List.mem_cons_self)]
          simp only [List.length_cons]
          rw [ih fun i hi => h i (List.mem_cons_of_mem _ hi)]
      simp only
      rw [this idx hidx, j2]
    · intro x hx
      obtain ⟨i, -, hi⟩ := List.mem_filterMap.1 hx
      exact (hall x (List.mem_of_getElem? hi)).2.1
    · intro x hx
      obtain ⟨i, -, hi⟩ := List.mem_filterMap.1 hx
      exact (hall x (List.mem_of_getElem? hi)).2.2.1
    · intro x hx
      obtain ⟨i, -, hi⟩ := List.mem_filterMap.1 hx
      exact (hall x (List.mem_of_getElem? hi)).1
  refine ⟨raw, _, rfl, rfl, ⟨hsound, rfl, ⟨_, hideal hist0 i01, hhist hist0 i02⟩, ?_⟩, ?_, r2, rfl⟩
  · intro x hx
    obtain ⟨i, -, hi⟩ := List.mem_filterMap.1 hx
    exact (hall x (List.mem_of_getElem? hi)).2.2.2
  · intro hgood
    obtain ⟨hist, i1, i2, i3⟩ := hgood.ideal
    refine ⟨hsound, hist ++ off.map fun x => f x.v, hideal hist i1, hhist hist i2, ?_⟩
    intro x hx
    obtain ⟨i, -, hi⟩ := List.mem_filterMap.1 hx
    rcases List.mem_append.1 (List.mem_of_getElem? hi) with hx | hx
    · exact List.mem_append_right _ (List.mem_map.2 ⟨x, hx, rfl⟩)
    · exact List.mem_append_left _ (i3 x hx)

theorem stepCosted_spec (hp : PowerLaws pw) (hcf : FloatConf f norm cf) {N : ℕ} (h2 : 2 ≤ N) {s : Costed K}
    (hs : CGood f cf N s) {ds : ℕ → PairDraw K} {iter : List ℕ → List ℕ} {sample : List ℕ → ℕ → List ℕ}
    (hd : DrawsOk N ds iter sample) :
    ∃ raw s', makeOffspring round64 pw (1 / 2 ^ 52) cf ds s.st.inds (N / 2) 0 = some raw ∧
      stepCosted round64 pw dot norm (1 / 2 ^ 52) f cf ds iter sample s = some s' ∧ CGood f cf N s' ∧
      raw.length = 2 * (N / 2) ∧ s'.cost = s.cost + evaluations raw := by
  obtain ⟨raw, s', r1, r2, r3, r4, r5, r6⟩ := stepCosted_any (dot := dot) hp hcf h2 hs.sound hd
  exact ⟨raw, s', r1, r2, ⟨r4 hs.1, r3.2.1, r3.2.2.2⟩, r5, r6⟩

theorem initCosted_good (hcf : FloatConf f norm cf) {pop : List (List K)}
    (hbox : ∀ v ∈ pop, InBox v cf.dims ∧ Floats round64 v) : CGood f cf pop.length (initCosted f cf pop) := by
  obtain ⟨h1, h2⟩ := C31_init hcf.toConfOk pop fun v hv => (hbox v hv).1
  refine ⟨h1, h2, ?_⟩
  intro x hx
  obtain ⟨v, hv, rfl⟩ := List.mem_map.1 hx
  exact hcf.trimFloats _ (hbox v hv).2

/-- A driver reached in floating point from a constructor call with `N` vectors of floats of the box by `k` steps with
valid draws. -/
inductive Reach (pw : K → K → K) (dot : List K → List K → K) (norm : List K → K) (f : List K → List K) (cf : Conf K)
    (N : ℕ) : ℕ → Costed K → Prop
  | start (pop : List (List K)) (hn : pop.length = N) (hbox : ∀ v ∈ pop, InBox v cf.dims ∧ Floats round64 v) :
      Reach pw dot norm f cf N 0 (initCosted f cf pop)
  | step {k s s'} (h : Reach pw dot norm f cf N k s) (ds : ℕ → PairDraw K) (iter : List ℕ → List ℕ)
      (sample : List ℕ → ℕ → List ℕ) (hd : DrawsOk N ds iter sample)
      (hs : stepCosted round64 pw dot norm (1 / 2 ^ 52) f cf ds iter sample s = some s') :
      Reach pw dot norm f cf N (k + 1) s'

/-- **C150.** Runs of NSGA-III in floating point, with at least two individuals and whatever `numpy.dot` and
`numpy.linalg.norm` return: no step raises, diverges, divides by 0 or makes a NaN; there are always `N` individuals,
vectors of floats of the box with their true objectives, none of which is below the ideal point; and a run of `k` steps
costs at least `N` and at most `N + 2 k ⌊N / 2⌋` evaluations. -/
theorem C150_run (hp : PowerLaws pw) (hcf : FloatConf f norm cf) {N : ℕ} (h2 : 2 ≤ N) (k : ℕ) (s : Costed K)
    (h : Reach pw dot norm f cf N k s) :
    s.st.inds.length = N ∧
      (∀ x ∈ s.st.inds, InBox x.v cf.dims ∧ Floats round64 x.v ∧ x.objectives = some (f x.v)) ∧
      (∀ x ∈ s.st.inds, ∀ (i : ℕ) (y : K), (f x.v)[i]? = some y → ∃ a : K, s.st.ideal[i]? = some (a : WithTop K) ∧ a ≤ y) ∧
      N ≤ s.cost ∧ s.cost ≤ N + k * (2 * (N / 2)) ∧
      ∀ ds iter sample, DrawsOk N ds iter sample →
        ∃ s', stepCosted round64 pw dot norm (1 / 2 ^ 52) f cf ds iter sample s = some s' := by
  have key : CGood f cf N s ∧ N ≤ s.cost ∧ s.cost ≤ N + k * (2 * (N / 2)) := by
    induction h with
    | start pop hn hbox =>
      subst hn
      exact ⟨initCosted_good hcf hbox, by rw [initCosted_cost], by rw [initCosted_cost]; omega⟩
    | @step k s s' _ ds iter sample hd hs ih =>
      obtain ⟨g, c1, c2⟩ := ih
      obtain ⟨raw, t, -, t2, t3, t4, t5⟩ := stepCosted_spec (dot := dot) hp hcf h2 g hd
      obtain rfl : s' = t := Option.some.inj (hs.symm.trans t2)
      have := evaluations_le raw
      refine ⟨t3, by omega, ?_⟩
      rw [Nat.succ_mul k]
      omega
  obtain ⟨g, c1, c2⟩ := key
  refine ⟨by rw [g.1.size, g.2.1], fun x hx => ⟨g.1.box x hx, g.2.2 x hx, g.1.eval x hx⟩, ?_, c1, c2, ?_⟩
  · intro x hx i y hy
    obtain ⟨hist, e1, e2, e3⟩ := g.1.ideal
    obtain ⟨-, hid⟩ := C31_ideal cf.m hist e2
    have hi : i < cf.m := by
      rw [← hcf.objectives x.v]
      exact (List.getElem?_eq_some_iff.1 hy).1
    obtain ⟨a, a1, a2, a3⟩ := hid i hi
    rcases a3 with ⟨h, -⟩ | ⟨o, -, b, -, rfl⟩
    · rw [h] at e3
      exact absurd (e3 x hx) (by simp)
    · rw [e1]
      exact ⟨b, a1, WithTop.coe_le_coe.1 (a2 _ (e3 x hx) y hy)⟩
  · intro ds iter sample hd
    obtain ⟨-, t, -, t2, -⟩ := stepCosted_spec (dot := dot) hp hcf h2 g hd
    exact ⟨t, t2⟩

/-- **C150.** If every step crosses over at least one pair, a budget simulation with NSGA-III in floating point stores a
result of `N` vectors of floats of the box for every budget, at no less than the cost asked for. -/
theorem C150_budget (hp : PowerLaws pw) (hcf : FloatConf f norm cf) {N : ℕ} (h2 : 2 ≤ N)
    (ds : ℕ → ℕ → PairDraw K) (iter : ℕ → List ℕ → List ℕ) (sample : ℕ → List ℕ → ℕ → List ℕ)
    (hd : ∀ n, DrawsOk N (ds n) (iter n) (sample n))
    (hfirst : ∀ n, ∃ j, j < N / 2 ∧ (ds n j).first ≤ cf.rateC) (pop : List (List K))
    (hn : pop.length = N) (hbox : ∀ v ∈ pop, InBox v cf.dims ∧ Floats round64 v) (budgets : List ℤ) (fuel : ℕ)
    (hfuel : ∀ b ∈ budgets, b ≤ fuel) :
    ∃ res o', budgetWorker (driver round64 pw dot norm (1 / 2 ^ 52) f cf ds iter sample) fuel budgets
        ⟨some (0, initCosted f cf pop), 0⟩ = some (res, o') ∧
      res.map (fun r => r.name) = budgets ∧
      ∀ r ∈ res, r.name ≤ r.cost ∧ ∃ p, r.pop = some p ∧ p.length = N ∧
        ∀ v ∈ p, InBox v cf.dims ∧ Floats round64 v := by
  subst hn
  refine optDriver_worker
    (P := fun p : List (List K) => p.length = pop.length ∧ ∀ v ∈ p, InBox v cf.dims ∧ Floats round64 v)
    (Inv := CGood f cf pop.length) ?_ budgets ?_ fuel hfuel 0 _ (initCosted_good hcf hbox) 0
  · intro n s g
    obtain ⟨raw, t, t1, t2, t3, t4, t5⟩ := stepCosted_spec (dot := dot) hp hcf h2 g (hd n)
    refine ⟨t, t2, t3, ?_⟩
    obtain ⟨j, hj, hf⟩ := hfirst n
    obtain ⟨raw', r1, -, -, -, r5, -⟩ := makeOffspring_spec hp hcf
      (fun x hx => ⟨g.1.box x hx, g.2.2 x hx, g.1.eval x hx⟩) (ds n) (by
        rw [g.1.size, g.2.1]; exact (hd n).pairs) (pop.length / 2) 0
    obtain rfl : raw' = raw := Option.some.inj (r1.symm.trans t1)
    have := r5 j (by omega) (by omega) hf
    omega
  · intro n s b _ g _
    refine ⟨s, _, rfl, g, ⟨by rw [List.length_map, g.1.size, g.2.1], ?_⟩, le_rfl⟩
    intro v hv
    obtain ⟨x, hx, rfl⟩ := List.mem_map.1 hv
    exact ⟨g.1.box x hx, g.2.2 x hx⟩

/-- **C150.** If every pair is crossed over (`crossover_rate` is at least 1), a run of `k` steps in floating point costs
exactly `N + 2 k ⌊N / 2⌋` evaluations. -/
theorem C150_cost (hp : PowerLaws pw) (hcf : FloatConf f norm cf) {N : ℕ} (h2 : 2 ≤ N)
    (ds : ℕ → ℕ → PairDraw K) (iter : ℕ → List ℕ → List ℕ) (sample : ℕ → List ℕ → ℕ → List ℕ)
    (hd : ∀ n, DrawsOk N (ds n) (iter n) (sample n)) (hc : 1 ≤ cf.rateC)
    (hfirst : ∀ n j, (ds n j).first < 1) (pop : List (List K)) (hn : pop.length = N)
    (hbox : ∀ v ∈ pop, InBox v cf.dims ∧ Floats round64 v) (k : ℕ) :
    (driver round64 pw dot norm (1 / 2 ^ 52) f cf ds iter sample).cost
      ((driver round64 pw dot norm (1 / 2 ^ 52) f cf ds iter sample).step^[k] (some (0, initCosted f cf pop))) =
      ((N + k * (2 * (N / 2)) : ℕ) : ℤ) := by
  have key' : ∃ s : Costed K, (driver round64 pw dot norm (1 / 2 ^ 52) f cf ds iter sample).step^[k]
      (some (0, initCosted f cf pop)) = some (k, s) ∧ CGood f cf N s ∧ s.cost = N + k * (2 * (N / 2)) := by
    induction k with
    | zero =>
      subst hn
      exact ⟨_, rfl, initCosted_good hcf hbox, by rw [initCosted_cost]; omega⟩
    | succ k ih =>
      obtain ⟨s, h1, g, h3⟩ := ih
      obtain ⟨raw, t, t1, t2, t3, t4, t5⟩ := stepCosted_spec (dot := dot) hp hcf h2 g (hd k)
      obtain ⟨raw', r1, -, -, r4, -⟩ := makeOffspring_spec hp hcf
        (fun x hx => ⟨g.1.box x hx, g.2.2 x hx, g.1.eval x hx⟩) (ds k) (by
          rw [g.1.size, g.2.1]; exact (hd k).pairs) (N / 2) 0
      obtain rfl : raw' = raw := Option.some.inj (r1.symm.trans t1)
      refine ⟨t, ?_, t3, ?_⟩
      · rw [Function.iterate_succ_apply', h1]
        show (stepCosted round64 pw dot norm (1 / 2 ^ 52) f cf (ds k) (iter k) (sample k) s).map (fun t => (k + 1, t)) = _
        rw [t2]
        rfl
      · rw [t5, r4 fun j => (hfirst k j).le.trans hc, h3, Nat.succ_mul k]
        omega
  obtain ⟨s, h1, -, h3⟩ := key'
  rw [h1]
  show (s.cost : ℤ) = _
  rw [h3]

/-- **C150.** The reference points which NSGA-III generates itself have positive lengths in floating point, so that
`FloatConf` asks nothing of them but that numpy is accurate. -/
theorem C150_references {δ : ℝ} {dot : List ℝ → List ℝ → ℝ} {norm : List ℝ → ℝ} {pw : ℝ → ℝ → ℝ} (hp : PowerLaws pw)
    {f : List ℝ → List ℝ} (cf : Conf ℝ) (hcf : ConfOk f cf) (hb : FloatBox round64 cf.dims)
    (ht : ∀ v, Floats round64 v → Floats round64 (cf.trim v)) (hn : IsNumpy cf.m δ dot norm) (hδ : 1 / 2 ^ 53 ≤ δ)
    (hm : 1 ≤ cf.m) (hs : 100 * (cf.m : ℝ) ^ 2 * δ ≤ 1) (rands : List (ℕ → ℝ))
    (hr : ∀ rand ∈ rands, ∀ i, 0 < rand i ∧ rand i < 1)
    (hrefs : cf.refs = rands.map fun rand => refPoint round64 pw rand cf.m) : FloatConf f norm cf := by
  refine ⟨hcf, hb, ht, ?_⟩
  intro r hr'
  rw [hrefs] at hr'
  obtain ⟨rand, hrand, rfl⟩ := List.mem_map.1 hr'
  obtain ⟨h1, h2, h3⟩ := C137_references hp (hr rand hrand) cf.m hm
  have hm' : (1 : ℝ) ≤ cf.m := by exact_mod_cast hm
  have h4 : (cf.m : ℝ) * (1 / 2 ^ 54) ≤ (cf.m : ℝ) ^ 2 * δ :=
    mul_le_mul (by nlinarith) (by norm_num at hδ ⊢; linarith) (by positivity) (by positivity)
  refine (norm_ok hn hm hs (y := refPoint round64 pw rand cf.m) ⟨h1, h1, fun x hx => ⟨(h2 x hx).1, (h2 x hx).2.1⟩,
    fun x hx => ⟨(h2 x hx).1, (h2 x hx).2.1⟩, h3.trans ?_⟩).2.ne'
  linarith

/-- A step with four individuals, the first pair of children by crossover and the second without: two of the four
children are evaluated. The new vectors are floats, the last one 17/26 up to rounding. -/
example :
    let cf : Conf ℚ := ⟨[(0, 4)], 1, 1, 9 / 10, 0, 5, id, [[1, 0], [0, 1], [1 / 2, 1 / 2], [1, 1]], 2⟩
    let dr : ℚ → PairDraw ℚ := fun first => ⟨0, 1, first, fun _ => ⟨1 / 4, 1 / 4, 1 / 4⟩,
      fun _ => ⟨1 / 2, 1 / 2⟩, fun _ => ⟨1 / 2, 1 / 2⟩⟩
    let f : List ℚ → List ℚ := fun v => [v.getD 0 0, 4 - v.getD 0 0]
    let s0 := initCosted f cf [[0], [1], [2], [4]]
    (stepCosted round64 (fun b _ => b) Evogil.Nsgaiii.dot (Evogil.Nsgaiii.norm id) (1 / 2 ^ 52) f cf
      (fun j => dr (if j = 0 then 1 / 2 else 95 / 100)) id (fun l n => l.take n) s0).map
      (fun s => (s.cost, s.st.inds.map Ind.v)) = some (6, [[3 / 8], [2], [4], [5889322589638341 / 2 ^ 53]]) := by
  decide +kernel

/-- Without `EPSILON` two objectives of the same value everywhere would make the step divide by 0. -/
example : dividesByZero round64 (fun _ => 1) 0 ⟨[(0, (4 : ℚ))], 1, 1, 1, 0, 5, id, [[1]], 1⟩ [(3 : ℚ)] [[3], [3]] = true ∧
    dividesByZero round64 (fun _ => 1) (1 / 2 ^ 52) ⟨[(0, (4 : ℚ))], 1, 1, 1, 0, 5, id, [[1]], 1⟩ [(3 : ℚ)] [[3], [3]] = false := by
  decide +kernel

end Evogil.Rounded.Nsgaiii
