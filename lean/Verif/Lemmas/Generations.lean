import Verif.Model.Generations
import Verif.Lemmas.Metrics
import Verif.Props.Variation

/-! # Lemmas about whole generations: offspring, new individuals, evaluation -/

set_option linter.unusedSectionVars false

namespace Evogil.Generations

open Evaluation

/-- A loop that succeeds for every element, element by element. -/
theorem mapM_total {α β : Type*} {f : α → Option β} {P : β → Prop} (l : List α)
    (h : ∀ a ∈ l, ∃ b, f a = some b ∧ P b) :
    ∃ r, l.mapM f = some r ∧ r.length = l.length ∧ ∀ b ∈ r, P b := by
  obtain ⟨r, hr⟩ := mapM_option_isSome f l fun a ha => by
    obtain ⟨b, hb, -⟩ := h a ha; simp [hb]
  have hf := (mapM_option_eq_some f l r).1 hr
  refine ⟨r, hr, hf.length_eq.symm, ?_⟩
  clear hr
  induction hf with
  | nil => simp
  | @cons a b l r hab _ ih =>
    intro x hx
    rcases List.mem_cons.1 hx with rfl | hx
    · obtain ⟨b', hb', hP⟩ := h a (by simp)
      obtain rfl : x = b' := Option.some.inj (hab.symm.trans hb')
      exact hP
    · exact ih (fun a ha => h a (List.mem_cons_of_mem _ ha)) x hx

section
variable {K : Type*} [Field K] [LinearOrder K]

/-- The values of `random.random()` used in a crossover and a mutation. -/
def VarDraw.Valid (d : VarDraw K) : Prop :=
  (∀ i, 0 ≤ (d.cross i).rand ∧ (d.cross i).rand < 1) ∧
    ∀ i, 0 ≤ (d.mutn i).rnd ∧ (d.mutn i).rnd ≤ 1

/-- A usable setup: the power function satisfies the laws of powers, the indices are not negative
and trimming does not leave the box. -/
structure Setup.Valid (S : Setup K) : Prop where
  pow : PowLaws S.pw
  eps : 0 < S.eps
  crossEta : 0 ≤ S.crossEta
  mutEta : 0 ≤ S.mutEta
  trim : ∀ v, InBox v S.dims → InBox (S.trim v) S.dims

variable [IsStrictOrderedRing K] {S : Setup K}

theorem crossVec_box (hS : S.Valid) {d : VarDraw K} (hd : d.Valid) {x y : List K}
    (hx : InBox x S.dims) (hy : InBox y S.dims) :
    ∃ c, crossVec S d x y = some c ∧ InBox c S.dims := by
  unfold crossVec
  obtain ⟨⟨h', r⟩, hc⟩ := Option.isSome_iff_exists.mp
    (C14_total hS.pow hS.eps d.first d.pick d.cross hd.1 (fun p => if p = 0 then x else y) 2 0 1
      (by omega) (by omega) S.dims S.crossRate S.crossEta hS.crossEta (by simpa using hx)
      (by simpa using hy))
  refine ⟨h' r, by rw [hc]; rfl, ?_⟩
  exact C14_in_box _ _ _ _ _ _ _ _ _ (by omega) (by omega) _ _ _ (by simpa using hx)
    (by simpa using hy) _ _ hc

theorem mutVec_box (hS : S.Valid) {d : VarDraw K} (hd : d.Valid) {x : List K}
    (hx : InBox x S.dims) : ∃ c, mutVec S d x = some c ∧ InBox c S.dims := by
  unfold mutVec
  obtain ⟨c, hc⟩ := Option.isSome_iff_exists.mp
    (C13_total hS.pow hS.eps d.mutn hd.2 x S.dims S.mutRate S.mutEta hS.mutEta hx)
  exact ⟨c, hc, C13_in_box _ _ _ _ _ _ _ hx _ hc⟩

theorem makeChild_box (hS : S.Valid) {d : VarDraw K} (hd : d.Valid) {x y : List K}
    (hx : InBox x S.dims) (hy : InBox y S.dims) :
    ∃ c, makeChild S d x y = some c ∧ InBox c S.dims := by
  obtain ⟨c, hc, hcb⟩ := crossVec_box hS hd hx hy
  obtain ⟨m, hm, hmb⟩ := mutVec_box hS hd hcb
  exact ⟨S.trim m, by simp [makeChild, hc, hm], hS.trim m hmb⟩

/-- Draws of `random.choice` from a list of `n` elements. -/
def MateDraw.Valid (n : ℕ) (d : MateDraw) : Prop := d.a < n ∧ d.b < n

/-- The new vectors are trimmed vectors of the box. -/
theorem offspring_trimmed {ι : Type*} (hS : S.Valid) (better : Bool → ι → ι → ι)
    (hbetter : ∀ c x y, better c x y = x ∨ better c x y = y) (vec : ι → List K)
    {dm : ℕ → MateDraw} {dv : ℕ → VarDraw K} {individuals : List ι}
    (hdm : ∀ i, (dm i).Valid individuals.length) (hdv : ∀ i, (dv i).Valid)
    (hbox : ∀ x ∈ individuals, InBox (vec x) S.dims) (m : ℕ) :
    ∃ vs, offspring S better vec dm dv individuals m = some vs ∧ vs.length = m ∧
      ∀ v ∈ vs, ∃ u, InBox u S.dims ∧ v = S.trim u := by
  obtain ⟨mating, h1, h1l, h1b⟩ := mapM_total (P := fun x => x ∈ individuals)
    (f := fun i => match individuals[(dm i).a]?, individuals[(dm i).b]? with
      | some x1, some x2 => some (better (dm i).coin x1 x2)
      | _, _ => none) (List.range (2 * m)) (by
    intro i _
    obtain ⟨ha, hb⟩ := hdm i
    refine ⟨better (dm i).coin individuals[(dm i).a] individuals[(dm i).b], ?_, ?_⟩
    · simp [List.getElem?_eq_getElem ha, List.getElem?_eq_getElem hb]
    · rcases hbetter (dm i).coin individuals[(dm i).a] individuals[(dm i).b] with h | h <;>
        rw [h] <;> exact List.getElem_mem _)
  rw [List.length_range] at h1l
  obtain ⟨crossed, h2, h2l, h2b⟩ := mapM_total (P := fun x => InBox x S.dims)
    (f := fun i => match (mating.map vec)[i]?, (mating.map vec)[m + i]? with
      | some x, some y => crossVec S (dv i) x y
      | _, _ => none) (List.range m) (by
    intro i hi
    rw [List.mem_range] at hi
    have hi1 : i < (mating.map vec).length := by rw [List.length_map]; omega
    have hi2 : m + i < (mating.map vec).length := by rw [List.length_map]; omega
    have hb : ∀ x ∈ mating.map vec, InBox x S.dims := by
      intro x hx
      obtain ⟨y, hy, rfl⟩ := List.mem_map.1 hx
      exact hbox y (h1b y hy)
    obtain ⟨c, hc, hcb⟩ := crossVec_box hS (hdv i) (hb _ (List.getElem_mem hi1))
      (hb _ (List.getElem_mem hi2))
    exact ⟨c, by simp only [List.getElem?_eq_getElem hi1, List.getElem?_eq_getElem hi2, hc], hcb⟩)
  rw [List.length_range] at h2l
  obtain ⟨vs, h3, h3l, h3b⟩ := mapM_total (P := fun x => ∃ u, InBox u S.dims ∧ x = S.trim u)
    (f := fun p : List K × ℕ => (mutVec S (dv p.2) p.1).map S.trim) crossed.zipIdx (by
    intro p hp
    obtain ⟨c, hc, hcb⟩ := mutVec_box hS (hdv p.2) (h2b p.1 (by
      have := List.mem_zipIdx_iff_getElem?.1 hp
      exact List.mem_of_getElem? this))
    exact ⟨S.trim c, by simp [hc], c, hcb, rfl⟩)
  rw [List.length_zipIdx] at h3l
  refine ⟨vs, ?_, h3l.trans h2l, h3b⟩
  have h1' : matingPool better dm individuals (2 * m) = some mating := h1
  have h2' : crossAll S dv (mating.map vec) m = some crossed := h2
  have h3' : mutateAll S dv crossed = some vs := h3
  simp only [offspring, h1', h2', h3']

theorem offspring_box {ι : Type*} (hS : S.Valid) (better : Bool → ι → ι → ι)
    (hbetter : ∀ c x y, better c x y = x ∨ better c x y = y) (vec : ι → List K)
    {dm : ℕ → MateDraw} {dv : ℕ → VarDraw K} {individuals : List ι}
    (hdm : ∀ i, (dm i).Valid individuals.length) (hdv : ∀ i, (dv i).Valid)
    (hbox : ∀ x ∈ individuals, InBox (vec x) S.dims) (m : ℕ) :
    ∃ vs, offspring S better vec dm dv individuals m = some vs ∧ vs.length = m ∧
      ∀ v ∈ vs, InBox v S.dims := by
  obtain ⟨vs, h1, h2, h3⟩ := offspring_trimmed hS better hbetter vec hdm hdv hbox m
  refine ⟨vs, h1, h2, fun v hv => ?_⟩
  obtain ⟨u, hu, rfl⟩ := h3 v hv
  exact hS.trim u hu

end

/-! ## New individuals -/

theorem subperm_map {α β : Type*} (f : α → β) {l l' : List α} (h : l.Subperm l') :
    (l.map f).Subperm (l'.map f) := by
  obtain ⟨m, hm, hs⟩ := h
  exact ⟨m.map f, hm.map f, hs.map f⟩

section
variable {K : Type*}

theorem newInds_length (next : ℕ) (vs : List (List K)) : (newInds next vs).length = vs.length := by
  simp [newInds]

theorem newInds_v (next : ℕ) (vs : List (List K)) : (newInds next vs).map (fun x => x.v) = vs := by
  unfold newInds
  rw [List.map_map]
  exact List.zipIdx_map_fst 0 vs

theorem newInds_id (next : ℕ) (vs : List (List K)) :
    (newInds next vs).map (fun x => x.id) = List.range' next vs.length := by
  unfold newInds
  rw [List.map_map, show ((fun x : Ind (List K) (List K) => x.id) ∘
    fun p : List K × ℕ => (⟨next + p.2, p.1, none⟩ : Ind (List K) (List K)))
      = (fun n => next + n) ∘ Prod.snd from rfl, ← List.map_map, List.zipIdx_map_snd,
    List.range'_eq_map_range, List.map_map, List.range'_eq_map_range]
  simp

theorem newInds_none (next : ℕ) (vs : List (List K)) (x : Ind (List K) (List K))
    (hx : x ∈ newInds next vs) : x.objectives = none ∧ x.v ∈ vs := by
  have hv : x.v ∈ (newInds next vs).map (fun x => x.v) := List.mem_map_of_mem hx
  rw [newInds_v] at hv
  refine ⟨?_, hv⟩
  obtain ⟨p, -, rfl⟩ := List.mem_map.1 hx
  rfl

/-- Identities in use are distinct and below the next one. -/
def Ids (next : ℕ) (l : List ℕ) : Prop := l.Nodup ∧ ∀ i ∈ l, i < next

theorem Ids.append_range' {next n : ℕ} {l : List ℕ} (h : Ids next l) :
    Ids (next + n) (l ++ List.range' next n) := by
  refine ⟨List.nodup_append.2 ⟨h.1, List.nodup_range', ?_⟩, ?_⟩
  · intro a ha b hb
    have := h.2 a ha
    have := List.mem_range'_1.1 hb
    omega
  · intro i hi
    rcases List.mem_append.1 hi with hi | hi
    · have := h.2 i hi; omega
    · have := List.mem_range'_1.1 hi; omega

theorem Ids.of_subperm {next : ℕ} {l l' : List ℕ} (h : Ids next l) (hs : l'.Subperm l) :
    Ids next l' := by
  obtain ⟨m, hm, hms⟩ := hs
  exact ⟨hm.nodup_iff.1 (h.1.sublist hms), fun i hi => h.2 i (hms.subset (hm.mem_iff.2 hi))⟩

end

/-! ## Evaluation with any archive -/

section
variable {V F A : Type*} [DecidableEq A]

/-- Whatever the archive contains, evaluation keeps the individuals and their order, and every
individual gets objectives which satisfy any relation that holds for the computed values and for
those in the archive. -/
theorem evalAll_keeps (key : V → A) (fit : V → F) (P : F → Prop) (hfit : ∀ v, P (fit v)) :
    ∀ (inds : List (Ind V F)) (st : Acc V A F),
      (∀ a, st.archive = some a → ∀ k f, a k = some f → P f) →
      (∀ i ∈ inds, ∀ f, i.objectives = some f → P f) →
      (evalAll key fit st inds).2.map (fun i => i.id) = inds.map (fun i => i.id) ∧
      (evalAll key fit st inds).2.map (fun i => i.v) = inds.map (fun i => i.v) ∧
      (∀ i ∈ (evalAll key fit st inds).2, ∃ f, i.objectives = some f ∧ P f) ∧
      (∀ a, (evalAll key fit st inds).1.archive = some a → ∀ k f, a k = some f → P f) := by
  intro inds
  induction inds with
  | nil => intro st ha _; exact ⟨rfl, rfl, by simp [evalAll], ha⟩
  | cons i inds ih =>
    intro st ha hi
    have h1 : (evalOne key fit st i).2.id = i.id ∧ (evalOne key fit st i).2.v = i.v ∧
        (∃ f, (evalOne key fit st i).2.objectives = some f ∧ P f) ∧
        (∀ a, (evalOne key fit st i).1.archive = some a → ∀ k f, a k = some f → P f) := by
      unfold evalOne
      cases ho : i.objectives with
      | some f => exact ⟨rfl, rfl, ⟨f, ho, hi i (by simp) f ho⟩, ha⟩
      | none =>
        cases hs : st.archive with
        | none => exact ⟨rfl, rfl, ⟨_, rfl, hfit _⟩, by simp⟩
        | some a =>
          cases hk : a (key i.v) with
          | some f => simp only [hk]; exact ⟨trivial, trivial, ⟨f, rfl, ha a hs _ _ hk⟩, ha⟩
          | none =>
            simp only [hk]
            refine ⟨trivial, trivial, ⟨_, rfl, hfit _⟩, ?_⟩
            intro a' ha' k f hf
            injection ha' with ha'
            subst ha'
            unfold Archive.set at hf
            split_ifs at hf
            · injection hf with hf; subst hf; exact hfit _
            · exact ha a hs k f hf
    obtain ⟨a1, a2, a3, a4⟩ := h1
    obtain ⟨b1, b2, b3, b4⟩ := ih (evalOne key fit st i).1 a4
      (fun j hj f hf => hi j (List.mem_cons_of_mem _ hj) f hf)
    simp only [evalAll, List.map_cons]
    refine ⟨by rw [a1, b1], by rw [a2, b2], ?_, b4⟩
    intro j hj
    rcases List.mem_cons.1 hj with rfl | hj
    · exact a3
    · exact b3 j hj

end

end Evogil.Generations
