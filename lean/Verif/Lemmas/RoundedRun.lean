import Verif.Model.RoundedRun
import Verif.Props.Generations
import Verif.Props.RoundedNsgaii
import Verif.Props.RoundedIbea

/-! # Lemmas about whole generations with rounding -/

set_option linter.unusedSectionVars false

namespace Evogil.Rounded.Run

open Evaluation Generations Spec Binary64

section
variable {K : Type*} [Field K] [LinearOrder K] [IsStrictOrderedRing K] [FloorRing K]

/-- A vector of floats in the box. -/
def FBox (dims : List (K × K)) (v : List K) : Prop := InBox v dims ∧ Floats round64 v

/-- The values of `random.random()` used in a crossover and a mutation. -/
def Draws (d : VarDraw K) : Prop :=
  (∀ i, IsDraw (1 / 2 ^ 53) (d.cross i).rand) ∧ ∀ i, IsDraw (1 / 2 ^ 53) (d.mutn i).rnd

/-- A usable setup: the power function satisfies the laws of powers, `eps` is `sys.float_info.epsilon`, the indices are not
negative, the bounds are floats in order, and trimming gives floats in the box. -/
structure Usable (S : Setup K) : Prop where
  pow : PowerLaws S.pw
  eps : S.eps = 1 / 2 ^ 52
  crossEta : 0 ≤ S.crossEta
  mutEta : 0 ≤ S.mutEta
  dims : FloatBox round64 S.dims
  trim : ∀ v, FBox S.dims v → FBox S.dims (S.trim v)

variable {S : Setup K}

theorem crossVec_ok (hS : Usable S) {d : VarDraw K} (hd : Draws d) {x y : List K} (hx : FBox S.dims x)
    (hy : FBox S.dims y) : ∃ c, crossVec round64 S d x y = some c ∧ FBox S.dims c := by
  obtain ⟨as, bs, h1, h2, h3, h4, -⟩ := C121_crossover S.pw hS.pow S.crossRate S.crossEta d.first hS.crossEta d.cross hd.1
    S.dims hS.dims x y hx.1 hy.1 hx.2 hy.2
  unfold crossVec
  rw [hS.eps]
  cases d.pick with
  | true => exact ⟨as, by rw [h1]; rfl, h3⟩
  | false => exact ⟨bs, by rw [h2]; rfl, h4⟩

theorem mutVec_ok (hS : Usable S) {d : VarDraw K} (hd : Draws d) {x : List K} (hx : FBox S.dims x) :
    ∃ c, mutVec round64 S d x = some c ∧ FBox S.dims c := by
  obtain ⟨zs, h1, h2, h3, -⟩ := C121_mutate S.pw hS.pow S.mutRate S.mutEta hS.mutEta d.mutn hd.2 S.dims hS.dims x hx.1 hx.2
  unfold mutVec
  rw [hS.eps]
  exact ⟨zs, by rw [h1]; rfl, h2, h3⟩

theorem makeChild_ok (hS : Usable S) {d : VarDraw K} (hd : Draws d) {x y : List K} (hx : FBox S.dims x)
    (hy : FBox S.dims y) : ∃ c, makeChild round64 S d x y = some c ∧ FBox S.dims c := by
  obtain ⟨c, hc, hcb⟩ := crossVec_ok hS hd hx hy
  obtain ⟨m, hm, hmb⟩ := mutVec_ok hS hd hcb
  exact ⟨S.trim m, by simp [makeChild, hc, hm], hS.trim m hmb⟩

theorem offspring_trimmed {ι : Type*} (hS : Usable S) (better : Bool → ι → ι → ι)
    (hbetter : ∀ c x y, better c x y = x ∨ better c x y = y) (vec : ι → List K) {dm : ℕ → MateDraw} {dv : ℕ → VarDraw K}
    {individuals : List ι} (hdm : ∀ i, (dm i).Valid individuals.length) (hdv : ∀ i, Draws (dv i))
    (hbox : ∀ x ∈ individuals, FBox S.dims (vec x)) (m : ℕ) :
    ∃ vs, offspring round64 S better vec dm dv individuals m = some vs ∧ vs.length = m ∧
      ∀ v ∈ vs, ∃ u, FBox S.dims u ∧ v = S.trim u := by
  obtain ⟨mating, h1, h1l, h1b⟩ := mapM_total (P := fun x => x ∈ individuals)
    (f := fun i => match individuals[(dm i).a]?, individuals[(dm i).b]? with
      | some x1, some x2 => some (better (dm i).coin x1 x2)
      | _, _ => none) (List.range (2 * m)) (by
    intro i _
    obtain ⟨ha, hb⟩ := hdm i
    refine ⟨better (dm i).coin individuals[(dm i).a] individuals[(dm i).b], ?_, ?_⟩
    · simp [List.getElem?_eq_getElem ha, List.getElem?_eq_getElem hb]
    · rcases hbetter (dm i).coin individuals[(dm i).a] individuals[(dm i).b] with h | h <;>
        rw [h] <;> exact List.getElem_mem _)
  rw [List.length_range] at h1l
  obtain ⟨crossed, h2, h2l, h2b⟩ := mapM_total (P := fun x => FBox S.dims x)
    (f := fun i => match (mating.map vec)[i]?, (mating.map vec)[m + i]? with
      | some x, some y => crossVec round64 S (dv i) x y
      | _, _ => none) (List.range m) (by
    intro i hi
    rw [List.mem_range] at hi
    have hi1 : i < (mating.map vec).length := by rw [List.length_map]; omega
    have hi2 : m + i < (mating.map vec).length := by rw [List.length_map]; omega
    have hb : ∀ x ∈ mating.map vec, FBox S.dims x := by
      intro x hx
      obtain ⟨y, hy, rfl⟩ := List.mem_map.1 hx
      exact hbox y (h1b y hy)
    obtain ⟨c, hc, hcb⟩ := crossVec_ok hS (hdv i) (hb _ (List.getElem_mem hi1)) (hb _ (List.getElem_mem hi2))
    exact ⟨c, by simp only [List.getElem?_eq_getElem hi1, List.getElem?_eq_getElem hi2, hc], hcb⟩)
  rw [List.length_range] at h2l
  obtain ⟨vs, h3, h3l, h3b⟩ := mapM_total (P := fun x => ∃ u, FBox S.dims u ∧ x = S.trim u)
    (f := fun p : List K × ℕ => (mutVec round64 S (dv p.2) p.1).map S.trim) crossed.zipIdx (by
    intro p hp
    obtain ⟨c, hc, hcb⟩ := mutVec_ok hS (hdv p.2) (h2b p.1 (by
      have := List.mem_zipIdx_iff_getElem?.1 hp
      exact List.mem_of_getElem? this))
    exact ⟨S.trim c, by simp [hc], c, hcb, rfl⟩)
  rw [List.length_zipIdx] at h3l
  refine ⟨vs, ?_, h3l.trans h2l, h3b⟩
  have h1' : matingPool better dm individuals (2 * m) = some mating := h1
  have h2' : crossAll round64 S dv (mating.map vec) m = some crossed := h2
  have h3' : mutateAll round64 S dv crossed = some vs := h3
  simp only [offspring, h1', h2', h3']

theorem offspring_ok {ι : Type*} (hS : Usable S) (better : Bool → ι → ι → ι)
    (hbetter : ∀ c x y, better c x y = x ∨ better c x y = y) (vec : ι → List K) {dm : ℕ → MateDraw} {dv : ℕ → VarDraw K}
    {individuals : List ι} (hdm : ∀ i, (dm i).Valid individuals.length) (hdv : ∀ i, Draws (dv i))
    (hbox : ∀ x ∈ individuals, FBox S.dims (vec x)) (m : ℕ) :
    ∃ vs, offspring round64 S better vec dm dv individuals m = some vs ∧ vs.length = m ∧ ∀ v ∈ vs, FBox S.dims v := by
  obtain ⟨vs, h1, h2, h3⟩ := offspring_trimmed hS better hbetter vec hdm hdv hbox m
  refine ⟨vs, h1, h2, fun v hv => ?_⟩
  obtain ⟨u, hu, rfl⟩ := h3 v hv
  exact hS.trim u hu

/-- A rounded sum with `eps` is positive. -/
theorem divisor_pos {x : K} (hx : 0 ≤ x) : 0 < round64 (x + 1 / 2 ^ 52) := by
  have R := round64_isRounding (K := K)
  have e52 : round64 (1 / 2 ^ 52 : K) = 1 / 2 ^ 52 :=
    round64_float ⟨1, -52, by norm_num, by norm_num, by norm_num⟩
  exact lt_of_lt_of_le (by positivity) (le_fl R e52 (by linarith : (1 / 2 ^ 52 : K) ≤ x + 1 / 2 ^ 52))

/-- The rounded difference of ordered numbers is not negative. -/
theorem diff_nonneg {x y : K} (h : x ≤ y) : 0 ≤ round64 (y - x) :=
  fl_nonneg round64_isRounding (sub_nonneg.2 h)

end

/-! ## Selections -/

section
variable {K : Type*} [Field K] [LinearOrder K] [IsStrictOrderedRing K] [FloorRing K]

theorem crowdDivisors_pos {ι : Type*} (objs : List (ι → K)) (fronts : List (List ι)) (d : K)
    (hd : d ∈ crowdDivisors round64 (1 / 2 ^ 52) objs fronts) : 0 < d := by
  unfold crowdDivisors at hd
  rw [List.mem_flatMap] at hd
  obtain ⟨f, -, hd⟩ := hd
  rw [List.mem_filterMap] at hd
  obtain ⟨o, -, hd⟩ := hd
  have hs := pySorted_sorted o f
  revert hd hs
  generalize pySorted o f = l
  intro hd hs
  cases l with
  | nil => simp at hd
  | cons a l =>
    rw [List.head?_cons, List.getLast?_cons] at hd
    simp only [Option.some.injEq] at hd
    rw [← hd]
    refine divisor_pos (diff_nonneg ?_)
    cases hl : l.getLast? with
    | none => simp
    | some b =>
      rw [Option.getD_some]
      exact List.rel_of_pairwise_cons hs (List.mem_of_mem_getLast? (by rw [hl]; rfl))

theorem keyDivisors_pos {ι : Type*} {dist : ι → WithTop K} (h : ∀ x, ∀ r : K, dist x = r → 0 ≤ r) (pop : List ι) (d : K)
    (hd : d ∈ keyDivisors round64 (1 / 2 ^ 52) dist pop) : 0 < d := by
  unfold keyDivisors at hd
  rw [List.mem_filterMap] at hd
  obtain ⟨x, -, hd⟩ := hd
  cases hx : dist x with
  | top => rw [hx] at hd; simp at hd
  | coe r =>
    rw [hx] at hd
    simp only [Option.some.injEq] at hd
    rw [← hd]
    exact divisor_pos (h x r hx)

/-- The environmental selection of SPEA2 terminates with the right number of candidates, whatever the fitness. -/
theorem spea2_sizes {ι : Type*} [DecidableEq ι] {same : ι → ι → Bool} (hsame : ∀ x, same x x = true)
    (dist : List K → List K → K) (obj : ι → List K) (fit : ι → K) (size fuel : ℕ) (pop archive : List ι)
    (hfuel : (archive ++ pop).length ≤ fuel) :
    ∃ kept, Spea2.environmentalSelection same dist obj fit size fuel pop archive = some kept ∧
      kept.length = min size (archive ++ pop).length ∧ ∀ x ∈ kept, x ∈ archive ++ pop := by
  set union := archive ++ pop with hunion
  set su := pySorted fit union with hsu
  have hperm : su.Perm union := pySorted_perm fit union
  have hlen : su.length = union.length := hperm.length_eq
  obtain ⟨hi1, -, -⟩ := Spea2.dominationIndex_spec (fit := fit) (pySorted_sorted fit union)
  rw [← hsu] at hi1
  set index := Spea2.dominationIndex fit su with hindex
  have htl : (su.take index).length = index := by rw [List.length_take]; omega
  have hmemU : ∀ x ∈ su, x ∈ union := fun x hx => hperm.mem_iff.1 hx
  by_cases h1 : (su.take index).length < size
  · refine ⟨su.take index ++ (su.drop index).take (size - (su.take index).length), ?_, ?_, ?_⟩
    · unfold Spea2.environmentalSelection
      simp only
      rw [← hunion, ← hsu, ← hindex, if_pos h1]
    · simp only [List.length_append, List.length_take, List.length_drop, htl]
      rw [hlen] at hi1 ⊢
      omega
    · intro x hx
      rcases List.mem_append.1 hx with hx | hx
      · exact hmemU x (List.mem_of_mem_take hx)
      · exact hmemU x (List.mem_of_mem_drop (List.mem_of_mem_take hx))
  · by_cases h2 : (su.take index).length > size
    · obtain ⟨res, hr1, hr2, hr3⟩ := Spea2.truncLoop_spec hsame dist obj size fuel (su.take index)
        (by omega) (by rw [htl]; omega)
      refine ⟨res, ?_, by rw [hr2]; omega, fun x hx => hmemU x (List.mem_of_mem_take (hr3.subset hx))⟩
      unfold Spea2.environmentalSelection
      simp only
      rw [← hunion, ← hsu, ← hindex, if_neg h1, if_pos h2, hr1]
    · refine ⟨su.take index, ?_, by omega, fun x hx => hmemU x (List.mem_of_mem_take hx)⟩
      unfold Spea2.environmentalSelection
      simp only
      rw [← hunion, ← hsu, ← hindex, if_neg h1, if_neg h2]

/-- The loop of IBEA terminates with the right number of individuals, whatever the losses. -/
theorem selectionLoop_sizes {ι : Type*} [DecidableEq ι] (fl : K → K) (e : ι → ι → K) (size : ℕ) :
    ∀ (fuel : ℕ) (l : List ι) (fit : ι → K), l.length ≤ size + fuel →
      ∃ l' fit', Rounded.Ibea.selectionLoop fl e size fuel l fit = some (l', fit') ∧
        l'.length = min size l.length ∧ l'.Subperm l := by
  intro fuel
  induction fuel with
  | zero =>
    intro l fit hlen
    refine ⟨l, fit, ?_, by omega, List.Subperm.refl _⟩
    rw [Rounded.Ibea.selectionLoop, if_neg (by omega)]
  | succ fuel ih =>
    intro l fit hlen
    rw [Rounded.Ibea.selectionLoop]
    by_cases h : l.length > size
    · rw [if_pos h]
      simp only
      set s := pySorted (fun y => OrderDual.toDual (fit y)) l with hs
      have hsp : s.Perm l := pySorted_perm _ _
      have hsne : s ≠ [] := by
        intro e0
        have := hsp.length_eq
        rw [e0] at this
        simp at this
        omega
      rw [List.getLast?_eq_getLast_of_ne_nil hsne]
      simp only
      have hdl : s.dropLast.length = l.length - 1 := by rw [List.length_dropLast, hsp.length_eq]
      obtain ⟨l', fit', h1, h2, h3⟩ := ih s.dropLast _ (by omega)
      refine ⟨l', fit', h1, by rw [h2, hdl]; omega, h3.trans ?_⟩
      exact (List.dropLast_sublist s).subperm.trans hsp.subperm
    · rw [if_neg h]
      exact ⟨l, fit, rfl, by omega, List.Subperm.refl _⟩

/-- The reduction of SMS-EMOA removes one individual, whatever the contributions. -/
theorem reduce_one {ι : Type*} [DecidableEq ι] (fl : K → K) (iter : List ι → List ι) (hiter : ∀ l, (iter l).Perm l)
    (hv : List (List K) → K) (d : ℕ) (obj : ι → List K) (pop : List ι) (hp : pop.Nodup)
    (hd : ∀ x ∈ pop, (obj x).length = d) (hne : pop ≠ []) (fuel : ℕ) (hf : pop.length ≤ fuel) :
    ∃ m ∈ pop, reducePopulation fl iter fuel hv obj pop = some (pop.erase m) := by
  obtain ⟨h1, h2⟩ := C05_smsemoa_sorts_by_rank iter hiter d obj pop hp hd
  obtain ⟨L, hL⟩ := h1 fuel hf
  obtain ⟨hperm, hnonempty, -⟩ := h2 fuel L hL
  have hLne : L ≠ [] := by
    rintro rfl
    exact hne (by simpa using hperm.symm)
  obtain ⟨worst, hw⟩ : ∃ w, L.getLast? = some w := by
    rw [← Option.isSome_iff_exists]; simpa using hLne
  have hwmem : worst ∈ L := List.mem_of_mem_getLast? (by rw [hw]; rfl)
  have hcne : contributions fl hv obj worst ≠ [] := by
    unfold contributions
    simp only [ne_eq, List.map_eq_nil_iff, List.zipIdx_eq_nil_iff]
    exact hnonempty worst hwmem
  obtain ⟨c, hc⟩ := pyMinBy_isSome Prod.snd hcne
  obtain ⟨hc1, -⟩ := pyMinBy_mem hc
  obtain ⟨p, hp', rfl⟩ := List.mem_map.1 hc1
  have hcm : p.1 ∈ worst := List.mem_of_getElem? (List.mem_zipIdx_iff_getElem?.1 hp')
  refine ⟨p.1, hperm.mem_iff.1 (List.mem_flatten.2 ⟨worst, hwmem, hcm⟩), ?_⟩
  unfold reducePopulation
  simp only at hL
  rw [hL]
  simp only [hw, hc]

end

end Evogil.Rounded.Run
