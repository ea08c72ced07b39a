import Verif.Lemmas.HvRec
import Verif.Spec.Volume
import Mathlib.MeasureTheory.Constructions.Pi
import Mathlib.MeasureTheory.Measure.Prod
import Mathlib.MeasureTheory.Measure.Real
import Mathlib.MeasureTheory.Measure.Lebesgue.EqHaar

/-! # Lebesgue measure has the properties of volumes used by the recursion -/

namespace Evogil.Hv

open MeasureTheory Set

/-- The region dominated by the nodes `S` in the first `d` coordinates. -/
def reg (c : ℕ → ℕ → ℝ) (d : ℕ) (S : Finset ℕ) : Set (Fin d → ℝ) :=
  {z | ∃ x ∈ S, ∀ i : Fin d, c x i ≤ z i ∧ z i ≤ 0}

/-- Its volume. -/
noncomputable def vol (c : ℕ → ℕ → ℝ) (d : ℕ) (S : Finset ℕ) : ℝ := volume.real (reg c d S)

variable {c : ℕ → ℕ → ℝ} {N : Finset ℕ}

theorem reg_eq (d : ℕ) (S : Finset ℕ) :
    reg c d S = ⋃ x ∈ S, Icc (fun i : Fin d => c x i) (fun _ => 0) := by
  ext z
  simp only [reg, mem_ofPred_eq, mem_iUnion, mem_Icc, Pi.le_def, exists_prop]
  constructor
  · rintro ⟨x, hx, h⟩
    exact ⟨x, hx, fun i => (h i).1, fun i => (h i).2⟩
  · rintro ⟨x, hx, h1, h2⟩
    exact ⟨x, hx, fun i => ⟨h1 i, h2 i⟩⟩

theorem reg_measurable (d : ℕ) (S : Finset ℕ) : MeasurableSet (reg c d S) := by
  rw [reg_eq]
  exact Finset.measurableSet_biUnion S fun x _ => measurableSet_Icc

theorem reg_finite (d : ℕ) (S : Finset ℕ) : volume (reg c d S) ≠ ⊤ := by
  rw [reg_eq]
  refine ne_of_lt (lt_of_le_of_lt (measure_biUnion_finset_le S _) ?_)
  apply ENNReal.sum_lt_top.2
  intro x _
  exact isCompact_Icc.measure_lt_top

theorem vol_empty (d : ℕ) : vol c d ∅ = 0 := by
  have : reg c d ∅ = ∅ := by ext; simp [reg]
  rw [vol, this]; simp

theorem vol_one {S : Finset ℕ} {x : ℕ} (hx : x ∈ S) (h0 : c x 0 ≤ 0)
    (hmin : ∀ y ∈ S, c x 0 ≤ c y 0) : vol c 1 S = -(c x 0) := by
  have : reg c 1 S = Icc (fun _ => c x 0) (fun _ => 0) := by
    ext z
    simp only [reg, mem_ofPred_eq, mem_Icc, Pi.le_def]
    constructor
    · rintro ⟨y, hy, h⟩
      have h0 := h 0
      refine ⟨fun i => ?_, fun i => (h i).2⟩
      have : i = 0 := Subsingleton.elim _ _
      subst this
      exact (hmin y hy).trans (h 0).1
    · rintro ⟨h1, h2⟩
      refine ⟨x, hx, fun i => ⟨?_, h2 i⟩⟩
      have : i = 0 := Subsingleton.elim _ _
      subst this
      exact h1 0
  rw [vol, this, Measure.real, Real.volume_Icc_pi_toReal (fun _ => h0)]
  simp

theorem vol_dom {d : ℕ} {S : Finset ℕ} {q r : ℕ} (hr : r ∈ S) (h : ∀ i < d, c r i ≤ c q i) :
    vol c d (insert q S) = vol c d S := by
  have : reg c d (insert q S) = reg c d S := by
    ext z
    simp only [reg, mem_ofPred_eq]
    constructor
    · rintro ⟨x, hx, h'⟩
      rcases Finset.mem_insert.1 hx with rfl | hx
      · exact ⟨r, hr, fun i => ⟨(h i i.2).trans (h' i).1, (h' i).2⟩⟩
      · exact ⟨x, hx, h'⟩
    · rintro ⟨x, hx, h'⟩
      exact ⟨x, Finset.mem_insert_of_mem hx, h'⟩
  rw [vol, this, vol]

/-- The dominated region cut at the last coordinate. -/
def slab (c : ℕ → ℕ → ℝ) (d : ℕ) (S : Finset ℕ) (I : Set ℝ) : Set (ℝ × (Fin d → ℝ)) :=
  {p | p.1 ∈ I ∧ ∃ w ∈ S, c w d ≤ p.1 ∧ ∀ j : Fin d, c w j ≤ p.2 j ∧ p.2 j ≤ 0}

theorem slab_top {d : ℕ} {S : Finset ℕ} {I : Set ℝ} (h : ∀ w ∈ S, ∀ s ∈ I, c w d ≤ s) :
    slab c d S I = I ×ˢ reg c d S := by
  ext ⟨s, z⟩
  simp only [slab, reg, mem_ofPred_eq, mem_prod]
  constructor
  · rintro ⟨hs, w, hw, _, h'⟩
    exact ⟨hs, w, hw, h'⟩
  · rintro ⟨hs, w, hw, h'⟩
    exact ⟨hs, w, hw, h w hw s hs, h'⟩

theorem real_prod {d : ℕ} (I : Set ℝ) (U : Set (Fin d → ℝ)) :
    (volume : Measure (ℝ × (Fin d → ℝ))).real (I ×ˢ U) = volume.real I * volume.real U := by
  rw [Measure.volume_eq_prod, measureReal_prod_prod]

/-- Volume of a slab by slicing along the sorted nodes. -/
theorem slab_vol (d : ℕ) : ∀ (A : List ℕ) (q : ℕ) (I : Set ℝ),
    (A ++ [q]).Pairwise (fun a b => c a d ≤ c b d) → (∀ s, s < c q d → s ∈ I) →
    MeasurableSet (I ∩ Ici (c q d)) → volume (I ∩ Ici (c q d)) ≠ ⊤ →
    volume (slab c d (A ++ [q]).toFinset I) ≠ ⊤ ∧
    volume.real (slab c d (A ++ [q]).toFinset I) =
      wf c (vol c) d (A ++ [q]) +
        vol c d (A ++ [q]).toFinset * volume.real (I ∩ Ici (c q d)) := by
  intro A
  induction A using List.reverseRecOn with
  | nil =>
    intro q I _ hlow hm hf
    have e : slab c d ([] ++ [q]).toFinset I = (I ∩ Ici (c q d)) ×ˢ reg c d ([] ++ [q]).toFinset := by
      rw [← slab_top]
      · ext ⟨s, z⟩
        simp only [slab, mem_ofPred_eq, mem_inter_iff, mem_Ici, List.nil_append, List.toFinset_cons,
          List.toFinset_nil, insert_empty_eq, Finset.mem_singleton, exists_eq_left]
        tauto
      · intro w hw s hs
        simp only [List.nil_append, List.toFinset_cons, List.toFinset_nil, insert_empty_eq,
          Finset.mem_singleton] at hw
        subst hw
        exact hs.2
    rw [e]
    refine ⟨?_, ?_⟩
    · rw [Measure.volume_eq_prod, Measure.prod_prod]
      exact ENNReal.mul_ne_top hf (reg_finite _ _)
    · rw [real_prod, List.nil_append, wf_single, vol]
      ring
  | append_singleton A y ih =>
    intro q I hs hlow hm hf
    have hyq : c y d ≤ c q d := (List.pairwise_append.1 hs).2.2 y (by simp) q (by simp)
    have hall : ∀ w ∈ A ++ [y] ++ [q], c w d ≤ c q d := by
      intro w hw
      rcases List.mem_append.1 hw with h | h
      · exact (List.pairwise_append.1 hs).2.2 w h q (by simp)
      · rw [List.mem_singleton.1 h]
    have e : slab c d (A ++ [y] ++ [q]).toFinset I =
        slab c d (A ++ [y]).toFinset (Iio (c q d)) ∪
          (I ∩ Ici (c q d)) ×ˢ reg c d (A ++ [y] ++ [q]).toFinset := by
      rw [← slab_top (fun w hw s hs => (hall w (List.mem_toFinset.1 hw)).trans hs.2)]
      ext ⟨s, z⟩
      simp only [slab, mem_ofPred_eq, mem_inter_iff, mem_Ici, mem_union, mem_Iio, List.mem_toFinset]
      constructor
      · rintro ⟨hsI, w, hw, hws, h'⟩
        by_cases hlt : s < c q d
        · left
          refine ⟨hlt, w, ?_, hws, h'⟩
          rcases List.mem_append.1 hw with h | h
          · exact h
          · rw [List.mem_singleton.1 h] at hws
            exact absurd hws (not_le.2 hlt)
        · right
          exact ⟨⟨hsI, not_lt.1 hlt⟩, w, hw, hws, h'⟩
      · rintro (⟨hlt, w, hw, h'⟩ | ⟨⟨hsI, _⟩, h'⟩)
        · exact ⟨hlow s hlt, w, List.mem_append_left _ hw, h'⟩
        · exact ⟨hsI, h'⟩
    have hIco : Iio (c q d) ∩ Ici (c y d) = Ico (c y d) (c q d) := by
      ext s; simp [and_comm]
    obtain ⟨i1, i2⟩ := ih y (Iio (c q d)) (List.pairwise_append.1 hs).1
      (fun s hs => lt_of_lt_of_le hs hyq) (by rw [hIco]; exact measurableSet_Ico)
      (by rw [hIco]; simp)
    have hf2 : volume ((I ∩ Ici (c q d)) ×ˢ reg c d (A ++ [y] ++ [q]).toFinset) ≠ ⊤ := by
      rw [Measure.volume_eq_prod, Measure.prod_prod]
      exact ENNReal.mul_ne_top hf (reg_finite _ _)
    rw [e]
    refine ⟨?_, ?_⟩
    · exact (lt_of_le_of_lt (measure_union_le _ _)
        (ENNReal.add_lt_top.2 ⟨i1.lt_top, hf2.lt_top⟩)).ne
    · rw [measureReal_union _ (hm.prod (reg_measurable _ _)) i1 hf2, i2, real_prod, wf_concat, hIco]
      · rw [Real.volume_real_Ico_of_le hyq, vol, vol]
        ring
      · rw [Set.disjoint_left]
        rintro ⟨s, z⟩ h1 h2
        have h3 : c q d ≤ s := h2.1.2
        have h4 : s < c q d := h1.1
        exact absurd h3 (not_le.2 h4)

theorem vol_succ (d : ℕ) (S : Finset ℕ) :
    vol c (d + 1) S = volume.real (slab c d S (Iic 0)) := by
  have h := volume_preserving_piFinSuccAbove (fun _ : Fin (d + 1) => ℝ) (Fin.last d)
  rw [vol, Measure.real, Measure.real, ← h.measure_preimage_equiv]
  congr 2
  ext z
  simp only [reg, slab, mem_ofPred_eq, mem_preimage, MeasurableEquiv.piFinSuccAbove_apply, mem_Iic,
    Fin.insertNthEquiv_symm_apply, Fin.removeNth, Fin.succAbove_last]
  constructor
  · rintro ⟨x, hx, h'⟩
    exact ⟨(h' (Fin.last d)).2, x, hx, by simpa using (h' (Fin.last d)).1,
      fun j => by simpa using h' j.castSucc⟩
  · rintro ⟨h0, x, hx, h1, h'⟩
    refine ⟨x, hx, fun i => ?_⟩
    refine Fin.lastCases ?_ (fun j => ?_) i
    · exact ⟨by simpa using h1, h0⟩
    · simpa using h' j

theorem vol_slice {d : ℕ} {A : List ℕ} {q : ℕ} (h0 : c q d ≤ 0)
    (hs : (A ++ [q]).Pairwise (fun a b => c a d ≤ c b d)) :
    vol c (d + 1) (A ++ [q]).toFinset =
      wf c (vol c) d (A ++ [q]) - vol c d (A ++ [q]).toFinset * c q d := by
  have e : Iic (0 : ℝ) ∩ Ici (c q d) = Icc (c q d) 0 := by ext s; simp [and_comm]
  rw [vol_succ, (slab_vol d A q (Iic 0) hs (fun s hs => hs.le.trans h0)
    (by rw [e]; exact measurableSet_Icc) (by rw [e]; simp)).2, e, Real.volume_real_Icc_of_le h0]
  ring

/-- Lebesgue measure is a volume in the sense of `Vol`. -/
theorem vol_Vol (h0 : ∀ x ∈ N, ∀ i, c x i ≤ 0) : Vol c N (vol c) where
  empty d _ := vol_empty d
  one _ x hx hS hmin := vol_one hx (h0 x (hS hx) 0) hmin
  slice d A q _ hN hs := vol_slice (h0 q (hN (by simp)) d) hs
  dom d S q r hr h := vol_dom hr h

/-- A node strictly below the reference point that does not enlarge the region is dominated. -/
theorem vol_null {d : ℕ} {S : Finset ℕ} {q : ℕ} (hq : ∀ i < d, c q i < 0)
    (h : vol c d (insert q S) ≤ vol c d S) : ∃ r ∈ S, ∀ i < d, c r i ≤ c q i := by
  by_contra hcon
  push Not at hcon
  -- a box above q that no other node reaches
  have hm : ∀ i : Fin d, ∃ m, c q i < m ∧ m ≤ 0 ∧ ∀ r ∈ S, c q i < c r i → m ≤ c r i := by
    intro i
    by_cases hne : (S.filter (fun r => c q i < c r i)).Nonempty
    · obtain ⟨r, hr, hmin⟩ := Finset.exists_min_image _ (fun r => c r i) hne
      rw [Finset.mem_filter] at hr
      refine ⟨min (c r i) 0, lt_min hr.2 (hq i i.2), min_le_right _ _, ?_⟩
      intro r' hr' hlt
      exact (min_le_left _ _).trans (hmin r' (Finset.mem_filter.2 ⟨hr', hlt⟩))
    · refine ⟨0, hq i i.2, le_rfl, ?_⟩
      intro r hr hlt
      exact absurd ⟨r, Finset.mem_filter.2 ⟨hr, hlt⟩⟩ hne
  choose m hm1 hm2 hm3 using hm
  have hsub : reg c d S ∪ (univ.pi fun i : Fin d => Ico (c q i) (m i)) ⊆ reg c d (insert q S) := by
    rintro z (⟨x, hx, hz⟩ | hz)
    · exact ⟨x, Finset.mem_insert_of_mem hx, hz⟩
    · refine ⟨q, Finset.mem_insert_self _ _, fun i => ?_⟩
      have := hz i (mem_univ i)
      exact ⟨this.1, this.2.le.trans (hm2 i)⟩
  have hdis : Disjoint (reg c d S) (univ.pi fun i : Fin d => Ico (c q i) (m i)) := by
    rw [Set.disjoint_left]
    rintro z ⟨x, hx, hz⟩ hz'
    obtain ⟨i, hi, hlt⟩ := hcon x hx
    have h1 := hm3 ⟨i, hi⟩ x hx hlt
    have h2 := (hz' ⟨i, hi⟩ (mem_univ _)).2
    have h3 := (hz ⟨i, hi⟩).1
    simp only at h1 h2 h3
    linarith
  have hfin : volume (univ.pi fun i : Fin d => Ico (c q i) (m i)) ≠ ⊤ := by
    rw [Real.volume_pi_Ico]
    exact (ENNReal.prod_lt_top fun i _ => ENNReal.ofReal_lt_top).ne
  have hpos : 0 < volume.real (univ.pi fun i : Fin d => Ico (c q i) (m i)) := by
    rw [Measure.real, Real.volume_pi_Ico_toReal (fun i => (hm1 i).le)]
    exact Finset.prod_pos fun i _ => sub_pos.2 (hm1 i)
  have hle : volume.real (reg c d S ∪ (univ.pi fun i : Fin d => Ico (c q i) (m i))) ≤
      volume.real (reg c d (insert q S)) := measureReal_mono hsub (reg_finite _ _)
  rw [measureReal_union hdis (MeasurableSet.univ_pi fun i => measurableSet_Ico) (reg_finite _ _)
    hfin] at hle
  unfold vol at h
  linarith

end Evogil.Hv
