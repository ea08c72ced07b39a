import Verif.Model.Evaluation
import Mathlib.Data.List.Dedup

/-! # C22, C54: evaluation of individuals and its cost -/

namespace Evogil.Evaluation

variable {V F A : Type*} [DecidableEq A]

/-! ## C22: NSGA-II, NSGA-III and NSLS -/

/-- Everything stored agrees with the problem: the archive under each key, and each individual. -/
def Sound (key : V → A) (fit : V → F) (st : Acc V A F) : Prop :=
  ∀ a, st.archive = some a → ∀ v f, a (key v) = some f → f = fit v

/-- An individual that carries objectives carries those of its vector. -/
def SoundInd (fit : V → F) (ind : Ind V F) : Prop := ∀ f, ind.objectives = some f → f = fit ind.v

theorem evalOne_spec (key : V → A) (fit : V → F) (hkey : ∀ v w, key v = key w → fit v = fit w)
    (st : Acc V A F) (ind : Ind V F) (hst : Sound key fit st) (hind : SoundInd fit ind) :
    let r := evalOne key fit st ind
    Sound key fit r.1 ∧ r.2 = { ind with objectives := some (fit ind.v) } ∧
      ∃ new, r.1.calls = st.calls ++ new ∧ r.1.cost = st.cost + new.length ∧
        (st.archive = none → r.1.archive = none) ∧
        (new = if ind.objectives.isNone ∧
            (st.archive.bind fun a => a (key ind.v)).isNone then [ind.v] else []) ∧
        ∀ a, st.archive = some a → ∃ a', r.1.archive = some a' ∧
          ∀ k, (a' k).isSome ↔ (a k).isSome ∨ k ∈ new.map key := by
  unfold evalOne
  cases ho : ind.objectives with
  | some f =>
    have := hind f ho
    subst this
    refine ⟨hst, ?_, [], by simp, by simp, fun h => h, by simp, ?_⟩
    · obtain ⟨a, b, c⟩ := ind; simp_all
    · intro a ha; exact ⟨a, ha, by simp⟩
  | none =>
    cases ha : st.archive with
    | none =>
      refine ⟨?_, rfl, [ind.v], rfl, rfl, fun _ => rfl, by simp, by simp⟩
      intro a h; simp at h
    | some a =>
      cases hk : a (key ind.v) with
      | some f =>
        have := hst a ha _ _ hk
        subst this
        simp only [hk]
        refine ⟨hst, trivial, [], by simp, by simp, by simp, by simp [hk], ?_⟩
        rintro a' h
        obtain rfl := Option.some.inj h
        exact ⟨a, ha, by simp⟩
      | none =>
        simp only [hk]
        refine ⟨?_, trivial, [ind.v], rfl, rfl, by simp, by simp [hk], ?_⟩
        · intro a' h v f hf
          obtain rfl := Option.some.inj h
          unfold Archive.set at hf
          by_cases hkv : key v = key ind.v
          · rw [if_pos hkv] at hf
            rw [← Option.some.inj hf]; exact (hkey _ _ hkv).symm
          · rw [if_neg hkv] at hf
            exact hst a ha v f hf
        · rintro a' h
          obtain rfl := Option.some.inj h
          refine ⟨_, rfl, ?_⟩
          intro k
          unfold Archive.set
          by_cases hkv : k = key ind.v
          · simp [hkv]
          · simp [hkv]

theorem evalAll_spec (key : V → A) (fit : V → F) (hkey : ∀ v w, key v = key w → fit v = fit w)
    (inds : List (Ind V F)) : ∀ st : Acc V A F, Sound key fit st →
    (∀ i ∈ inds, SoundInd fit i) →
    let r := evalAll key fit st inds
    Sound key fit r.1 ∧
      r.2 = inds.map (fun i => { i with objectives := some (fit i.v) }) ∧
      ∃ new, r.1.calls = st.calls ++ new ∧ r.1.cost = st.cost + new.length ∧
        (st.archive = none → r.1.archive = none ∧
          new = (inds.filter fun i => i.objectives.isNone).map Ind.v) ∧
        ∀ a, st.archive = some a → ∃ a', r.1.archive = some a' ∧
          (∀ k, (a' k).isSome ↔ (a k).isSome ∨ k ∈ new.map key) ∧ (new.map key).Nodup ∧
          ∀ k, k ∈ new.map key ↔
            (a k).isNone ∧ ∃ i ∈ inds, i.objectives.isNone ∧ key i.v = k := by
  induction inds with
  | nil =>
    intro st hst _
    refine ⟨hst, rfl, [], by simp [evalAll], by simp [evalAll], fun h => ⟨h, rfl⟩, ?_⟩
    intro a ha
    exact ⟨a, ha, by simp⟩
  | cons ind rest ih =>
    intro st hst hall
    obtain ⟨h1, h2, new1, hc1, hk1, hn1, hnew1, ha1⟩ :=
      evalOne_spec key fit hkey st ind hst (hall ind (by simp))
    obtain ⟨g1, g2, new2, gc, gk, gn, ga⟩ := ih (evalOne key fit st ind).1 h1
      (fun i hi => hall i (by simp [hi]))
    have e : evalAll key fit st (ind :: rest)
        = ((evalAll key fit (evalOne key fit st ind).1 rest).1,
          (evalOne key fit st ind).2 :: (evalAll key fit (evalOne key fit st ind).1 rest).2) := rfl
    rw [e]
    refine ⟨g1, by simp only [g2, h2, List.map_cons], new1 ++ new2, ?_, ?_, ?_, ?_⟩
    · simp only [gc, hc1, List.append_assoc]
    · simp only [gk, hk1, List.length_append]; omega
    · intro hn
      obtain ⟨k1, k2⟩ := gn (hn1 hn)
      refine ⟨k1, ?_⟩
      rw [hn] at hnew1
      cases ho : ind.objectives <;> simp [ho] at hnew1 <;> simp [hnew1, k2, ho]
    · intro a ha
      obtain ⟨a1, ea1, m1⟩ := ha1 a ha
      obtain ⟨a2, ea2, m2, nd2, mm2⟩ := ga a1 ea1
      rw [ha] at hnew1
      simp only [Option.bind_some] at hnew1
      refine ⟨a2, ea2, ?_, ?_, ?_⟩
      · intro k; rw [m2, m1]; simp only [List.map_append, List.mem_append]; tauto
      · rw [List.map_append, List.nodup_append]
        refine ⟨?_, nd2, ?_⟩
        · by_cases hc : ind.objectives.isNone ∧ (a (key ind.v)).isNone
          · rw [if_pos hc] at hnew1; simp [hnew1]
          · rw [if_neg hc] at hnew1; simp [hnew1]
        · intro k hk k' hk' hkk
          subst hkk
          have h := ((mm2 k).1 hk').1
          have h' := (m1 k).2 (.inr hk)
          cases hq : a1 k <;> simp [hq] at h h'
      · intro k
        have h1k : k ∈ new1.map key ↔
            ind.objectives.isNone ∧ (a (key ind.v)).isNone ∧ key ind.v = k := by
          by_cases hc : ind.objectives.isNone ∧ (a (key ind.v)).isNone
          · rw [if_pos hc] at hnew1; simp [hnew1, hc.1, hc.2, eq_comm]
          · rw [if_neg hc] at hnew1
            simp only [hnew1, List.map_nil, List.not_mem_nil, false_iff]
            rintro ⟨q1, q2, -⟩; exact hc ⟨q1, q2⟩
        have hm : (a1 k).isNone ↔ (a k).isNone ∧ k ∉ new1.map key := by
          have := m1 k
          cases q1 : a1 k <;> cases q2 : a k <;> simp [q1, q2] at this ⊢ <;> simpa using this
        simp only [List.map_append, List.mem_append, mm2 k, hm, List.mem_cons]
        constructor
        · rintro (h | ⟨⟨h, -⟩, i, hi, q⟩)
          · obtain ⟨q1, q2, q3⟩ := h1k.1 h
            exact ⟨q3 ▸ q2, ind, .inl rfl, q1, q3⟩
          · exact ⟨h, i, .inr hi, q⟩
        · rintro ⟨h, i, hi | hi, q1, q2⟩
          · left; subst hi; exact h1k.2 ⟨q1, by rw [q2]; exact h, q2⟩
          · by_cases hk : k ∈ new1.map key
            · exact .inl hk
            · exact .inr ⟨⟨h, hk⟩, i, hi, q1, q2⟩

/-- **C22.** After the evaluation every individual carries the objective values of its vector (the
individuals themselves, their order and their vectors are unchanged). -/
theorem C22_objectives (key : V → A) (fit : V → F) (hkey : ∀ v w, key v = key w → fit v = fit w)
    (st : Acc V A F) (inds : List (Ind V F)) (hst : Sound key fit st)
    (hinds : ∀ i ∈ inds, SoundInd fit i) :
    (evalAll key fit st inds).2 = inds.map (fun i => { i with objectives := some (fit i.v) }) ∧
      Sound key fit (evalAll key fit st inds).1 :=
  let h := evalAll_spec key fit hkey inds st hst hinds
  ⟨h.2.1, h.1⟩

/-- **C22.** The cost grows by exactly the number of evaluations made (every further call of the
objective functions on a vector is charged once). -/
theorem C22_cost_is_calls (key : V → A) (fit : V → F)
    (hkey : ∀ v w, key v = key w → fit v = fit w) (st : Acc V A F) (inds : List (Ind V F))
    (hst : Sound key fit st) (hinds : ∀ i ∈ inds, SoundInd fit i) :
    ∃ new, (evalAll key fit st inds).1.calls = st.calls ++ new ∧
      (evalAll key fit st inds).1.cost = st.cost + new.length := by
  obtain ⟨-, -, new, h1, h2, -⟩ := evalAll_spec key fit hkey inds st hst hinds
  exact ⟨new, h1, h2⟩

/-- **C22.** Without an archive the individuals evaluated are exactly those without objectives. -/
theorem C22_cost_no_archive (key : V → A) (fit : V → F)
    (hkey : ∀ v w, key v = key w → fit v = fit w) (st : Acc V A F) (inds : List (Ind V F))
    (hinds : ∀ i ∈ inds, SoundInd fit i) (hno : st.archive = none) :
    (evalAll key fit st inds).1.cost
      = st.cost + (inds.filter fun i => i.objectives.isNone).length := by
  have hst : Sound key fit st := by intro a h; rw [hno] at h; simp at h
  obtain ⟨-, -, new, h1, h2, h3, -⟩ := evalAll_spec key fit hkey inds st hst hinds
  rw [h2, (h3 hno).2, List.length_map]

/-- **C22.** With an archive a vector is evaluated exactly once for each key that is neither in the
archive nor seen earlier, and afterwards all of them are in the archive. -/
theorem C22_cost_archive [DecidableEq V] (key : V → A) (fit : V → F)
    (hkey : ∀ v w, key v = key w → fit v = fit w) (st : Acc V A F) (inds : List (Ind V F))
    (hst : Sound key fit st) (hinds : ∀ i ∈ inds, SoundInd fit i) (a : Archive A F)
    (ha : st.archive = some a) :
    (evalAll key fit st inds).1.cost = st.cost +
        (((inds.filter fun i => i.objectives.isNone).map fun i => key i.v).filter
          fun k => (a k).isNone).dedup.length ∧
      ∃ a', (evalAll key fit st inds).1.archive = some a' ∧
        ∀ k, (a' k).isSome ↔
          (a k).isSome ∨ ∃ i ∈ inds, i.objectives.isNone ∧ key i.v = k := by
  obtain ⟨-, -, new, h1, h2, -, h3⟩ := evalAll_spec key fit hkey inds st hst hinds
  obtain ⟨a', ea, hm, hnd, hk⟩ := h3 a ha
  constructor
  · rw [h2]
    congr 1
    have : (new.map key).Perm ((((inds.filter fun i => i.objectives.isNone).map
        fun i => key i.v).filter fun k => (a k).isNone).dedup) := by
      rw [List.perm_ext_iff_of_nodup hnd (List.nodup_dedup _)]
      intro k
      rw [hk k, List.mem_dedup, List.mem_filter, List.mem_map]
      constructor
      · rintro ⟨q, i, hi, q1, q2⟩
        exact ⟨⟨i, by simp [hi, q1], q2⟩, by simpa using q⟩
      · rintro ⟨⟨i, hi, q2⟩, q⟩
        rw [List.mem_filter] at hi
        exact ⟨by simpa using q, i, hi.1, hi.2, q2⟩
    rw [← this.length_eq, List.length_map]
  · refine ⟨a', ea, ?_⟩
    intro k
    rw [hm, hk]
    cases hq : a k <;> simp

/-- Five individuals, two of which are known and two share a vector. -/
example : (evalAll (A := ℕ) (fun v : ℕ => v) (fun v => v * v) ⟨7, some fun _ => none, []⟩
    [⟨0, 3, none⟩, ⟨1, 4, some 16⟩, ⟨2, 3, none⟩, ⟨3, 5, none⟩, ⟨4, 1, some 1⟩]).1.cost = 9 := by
  decide

/-! ## C54: OMOPSO, SPEA2, SMS-EMOA and IBEA -/

/-- **C54, as stated**, for the evaluation routine shared by OMOPSO, SPEA2 and SMS-EMOA: what is
charged for a population (of a driver of population size `size`) is the number of evaluations. -/
def ChargesCalls (key : V → A) (fit : V → F) (archive : Option (Archive A F)) (size : ℕ)
    (pop : List V) : Prop :=
  (chargeAll key fit archive size pop).1 = (chargeAll key fit archive size pop).2.1.length

omit [DecidableEq A] in
theorem chargeAll_append (key : V → A) (fit : V → F) (archive : Option (Archive A F)) (size : ℕ)
    (pop : List V) (v : V) : chargeAll key fit archive size (pop ++ [v])
      = chargeStep key fit archive size (chargeAll key fit archive size pop) v := by
  simp [chargeAll, List.foldl_append]

omit [DecidableEq A] in
/-- What the three drivers really charge: nothing if the last vector is in the archive, otherwise
the size of the population, however many evaluations were made. -/
theorem C54_charge (key : V → A) (fit : V → F) (archive : Option (Archive A F)) (size : ℕ)
    (pop : List V) (v : V) : (chargeAll key fit archive size (pop ++ [v])).1
      = if (archive.bind fun a => a (key v)).isSome then 0 else size := by
  rw [chargeAll_append, chargeStep]
  cases archive.bind fun a => a (key v) <;> simp

omit [DecidableEq A] in
/-- The evaluations made: one for each vector that is not in the archive; every vector gets its
objective values, provided the archive holds the right ones. -/
theorem C54_calls (key : V → A) (fit : V → F) (archive : Option (Archive A F)) (size : ℕ)
    (pop : List V) (hs : ∀ a, archive = some a → ∀ v f, a (key v) = some f → f = fit v) :
    (chargeAll key fit archive size pop).2.1
        = pop.filter (fun v => (archive.bind fun a => a (key v)).isNone) ∧
      (chargeAll key fit archive size pop).2.2 = pop.map fit := by
  induction pop using List.reverseRecOn with
  | nil => simp [chargeAll]
  | append_singleton pop v ih =>
    rw [chargeAll_append, chargeStep]
    cases hq : archive.bind fun a => a (key v) with
    | none => simp [ih.1, ih.2, hq]
    | some f =>
      have : f = fit v := by
        cases ha : archive with
        | none => rw [ha] at hq; simp at hq
        | some a => rw [ha] at hq; exact hs a ha v f hq
      simp [ih.1, ih.2, hq, this]

omit [DecidableEq A] in
/-- **C54** holds for OMOPSO and SPEA2 as long as no fitness archive is used: both evaluate their
whole population and charge its size. -/
theorem C54_no_archive_partial (key : V → A) (fit : V → F) (pop : List V) :
    ChargesCalls key fit none pop.length pop := by
  unfold ChargesCalls
  rw [(C54_calls key fit none pop.length pop (by simp)).1]
  rcases List.eq_nil_or_concat pop with rfl | ⟨l, v, rfl⟩
  · rfl
  · rw [List.concat_eq_append, C54_charge]; simp

omit [DecidableEq A] in
/-- **C54 fails** for SMS-EMOA: one new child is charged as a whole population of `n`. -/
theorem C54_smsemoa_overcharges (key : V → A) (fit : V → F) (n : ℕ) (child : V) (h : n ≠ 1) :
    (chargeAll key fit none n [child]).1 = n ∧ ¬ ChargesCalls key fit none n [child] := by
  have h1 : (chargeAll key fit none n [child]).1 = n := C54_charge key fit none n [] child
  refine ⟨h1, ?_⟩
  unfold ChargesCalls
  rw [h1, (C54_calls key fit none n [child] (by simp)).1]
  simpa using h

/-- **C54 fails** for OMOPSO and SPEA2 with a fitness archive, in both directions: with one fresh
and one archived vector the charge is 0 or 2, depending on their order, for one evaluation. -/
theorem C54_archive_miscounts :
    (chargeAll (fun v : ℕ => v) (fun v => v) (some fun k => if k = 1 then some 1 else none) 2
      [0, 1]).1 = 0 ∧
    (chargeAll (fun v : ℕ => v) (fun v => v) (some fun k => if k = 1 then some 1 else none) 2
      [1, 0]).1 = 2 ∧
    (chargeAll (fun v : ℕ => v) (fun v => v) (some fun k => if k = 1 then some 1 else none) 2
      [0, 1]).2.1 = [0] ∧
    (chargeAll (fun v : ℕ => v) (fun v => v) (some fun k => if k = 1 then some 1 else none) 2
      [1, 0]).2.1 = [0] := by decide

/-- **C54 fails** for IBEA without an archive: every pass charges the whole population again,
although only the individuals not marked as known are new. -/
theorem C54_ibea_recharges (inArchive : V → Bool) (pop : List (V × Bool)) :
    ibeaCharge inArchive false pop = pop.length := by
  simp [ibeaCharge]

/-- **C54** for IBEA holds on the first pass, when no individual is marked as known. -/
theorem C54_ibea_first_partial (inArchive : V → Bool) (b : Bool) (pop : List (V × Bool))
    (h : ∀ p ∈ pop, p.2 = false) : ibeaCharge inArchive b pop = pop.length := by
  unfold ibeaCharge
  congr 1
  rw [List.filter_eq_self]
  intro p hp
  simp [h p hp]

/-- Two of three individuals were evaluated before, three are charged. -/
example : ibeaCharge (fun _ : ℕ => false) false [(0, true), (1, true), (2, false)] = 3 := by decide

end Evogil.Evaluation
