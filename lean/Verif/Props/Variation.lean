import Verif.Lemmas.Variation
import Mathlib.Analysis.SpecialFunctions.Pow.Real
import Mathlib.Algebra.Order.Ring.Rat

/-!
# Variation operators: C13, C14, C61
-/

namespace Evogil

section general
variable {K : Type*} [Field K] [LinearOrder K]

/-- **C13** Mutation keeps the length; a coordinate that is not selected is returned
unchanged; a selected one ends in its interval. -/
theorem C13_coordinates (pw : K → K → K) (eps : K) (ds : ℕ → MutDraw K) (xs : List K)
    (dims : List (K × K)) (rate eta : K) (hd : ∀ d ∈ dims, d.1 ≤ d.2) (ys : List K)
    (h : mutate pw eps ds xs dims rate eta = some ys) :
    ys.length = xs.length ∧
    (∀ j, rate < (ds j).select → ys[j]? = xs[j]?) ∧
    (∀ j, dims.length ≤ j → ys[j]? = xs[j]?) ∧
    ∀ (j : ℕ) (d : K × K), dims[j]? = some d → (ds j).select ≤ rate →
      ∃ v, ys[j]? = some v ∧ d.1 ≤ v ∧ v ≤ d.2 := by
  obtain ⟨h1, h2, h3⟩ := mutateLoop_spec pw eps rate eta ds xs dims 0 xs ys rfl h
  refine ⟨h1, ?_, ?_, ?_⟩
  · intro j hj
    exact h2 j (fun hc => absurd hc.2.2 (not_le.mpr hj))
  · intro j hj
    exact h2 j (fun hc => by omega)
  · intro j d hj hs
    obtain ⟨x, -, v, hv, hy⟩ := h3 j d (Nat.zero_le _) (by simpa using hj) hs
    obtain ⟨w, rfl⟩ := mutatedValue_eq_clamp _ _ _ _ _ _ _ _ hv
    exact ⟨_, hy, clamp_mem _ _ _ (hd d (List.mem_of_getElem? hj))⟩

/-- **C13** A vector of the box stays in the box, whatever is drawn. -/
theorem C13_in_box (pw : K → K → K) (eps : K) (ds : ℕ → MutDraw K) (xs : List K)
    (dims : List (K × K)) (rate eta : K) (hb : InBox xs dims) (ys : List K)
    (h : mutate pw eps ds xs dims rate eta = some ys) : InBox ys dims := by
  have hd : ∀ d ∈ dims, d.1 ≤ d.2 := by
    intro d hd
    obtain ⟨i, hi⟩ := List.getElem?_of_mem hd
    have hl : i < xs.length := by
      rw [hb.length_eq]; exact (List.getElem?_eq_some_iff.mp hi).1
    have := hb.get (List.getElem?_eq_getElem hl) hi
    exact this.1.trans this.2
  obtain ⟨h1, h2, -, h4⟩ := C13_coordinates pw eps ds xs dims rate eta hd ys h
  refine inBox_of_get (h1.trans hb.length_eq) ?_
  intro i x d hx hdi
  by_cases hs : (ds i).select ≤ rate
  · obtain ⟨v, hv, hv1, hv2⟩ := h4 i d hdi hs
    rw [hx] at hv; injection hv with hv; subst hv
    exact ⟨hv1, hv2⟩
  · rw [h2 i (not_le.mp hs)] at hx
    exact hb.get hx hdi

variable [IsStrictOrderedRing K]

/-- **C13** On a vector of the box the mutation does not fail. -/
theorem C13_total {pw : K → K → K} (hp : PowLaws pw) {eps : K} (he : 0 < eps)
    (ds : ℕ → MutDraw K) (hds : ∀ i, 0 ≤ (ds i).rnd ∧ (ds i).rnd ≤ 1) (xs : List K)
    (dims : List (K × K)) (rate eta : K) (heta : 0 ≤ eta) (hb : InBox xs dims) :
    (mutate pw eps ds xs dims rate eta).isSome := by
  apply mutateLoop_isSome
  intro j d hd
  have hl : j < xs.length := by
    rw [hb.length_eq]; exact (List.getElem?_eq_some_iff.mp hd).1
  refine ⟨xs[j], by rw [Nat.zero_add, List.getElem?_eq_getElem hl], ?_⟩
  obtain ⟨h1, h2⟩ := hb.get (List.getElem?_eq_getElem hl) hd
  exact mutatedValue_isSome hp he heta h1 h2 (hds _).1 (hds _).2

/-- **C13** A draw up to one half moves the coordinate down (or leaves it), a larger one moves it
up; so each half of the draws explores one side of the old value. -/
theorem C13_direction {pw : K → K → K} (hp : PowLaws pw)
    (hp1 : ∀ b e, 0 ≤ b → b ≤ 1 → 0 ≤ e → pw b e ≤ 1) {eps : K} (he : 0 < eps)
    (ds : ℕ → MutDraw K) (hds : ∀ i, 0 ≤ (ds i).rnd ∧ (ds i).rnd ≤ 1) (xs : List K)
    (dims : List (K × K)) (rate eta : K) (heta : 0 ≤ eta) (hb : InBox xs dims) (ys : List K)
    (h : mutate pw eps ds xs dims rate eta = some ys) (j : ℕ) (x y : K)
    (hx : xs[j]? = some x) (hy : ys[j]? = some y) :
    ((ds j).rnd ≤ 1 / 2 → y ≤ x) ∧ (1 / 2 < (ds j).rnd → x ≤ y) := by
  obtain ⟨h1, h2, h3⟩ := mutateLoop_spec pw eps rate eta ds xs dims 0 xs ys rfl h
  by_cases hs : (ds j).select ≤ rate
  · have hjl : j < dims.length := by
      rw [← hb.length_eq]; exact (List.getElem?_eq_some_iff.mp hx).1
    obtain ⟨⟨lb, ub⟩, hdj⟩ : ∃ d, dims[j]? = some d := ⟨_, List.getElem?_eq_getElem hjl⟩
    obtain ⟨x', hx', v, hv, hy'⟩ := h3 j (lb, ub) (Nat.zero_le _) (by simpa using hdj) hs
    rw [hx] at hx'; injection hx' with hx'; subst hx'
    rw [hy] at hy'; injection hy' with hy'; subst hy'
    obtain ⟨b1, b2⟩ := hb.get hx hdj
    exact mutatedValue_direction hp hp1 he heta b1 b2 (hds j).1 (hds j).2 hv
  · have := h2 j (fun hc => hs hc.2.2)
    rw [hx, hy] at this
    injection this with this
    subst this
    exact ⟨fun _ => le_rfl, fun _ => le_rfl⟩

end general

/-- **C13** the direction claim holds for real powers. -/
theorem C13_direction_real (eps : ℝ) (he : 0 < eps) (ds : ℕ → MutDraw ℝ)
    (hds : ∀ i, 0 ≤ (ds i).rnd ∧ (ds i).rnd ≤ 1) (xs : List ℝ) (dims : List (ℝ × ℝ))
    (rate eta : ℝ) (heta : 0 ≤ eta) (hb : InBox xs dims) (ys : List ℝ)
    (h : mutate (fun b e : ℝ => b ^ e) eps ds xs dims rate eta = some ys) (j : ℕ) (x y : ℝ)
    (hx : xs[j]? = some x) (hy : ys[j]? = some y) :
    ((ds j).rnd ≤ 1 / 2 → y ≤ x) ∧ (1 / 2 < (ds j).rnd → x ≤ y) :=
  C13_direction ⟨fun _ _ hb => Real.rpow_nonneg hb _,
    fun _ _ hb he => Real.rpow_le_one_of_one_le_of_nonpos hb he⟩
    (fun _ _ h0 h1 h2 => Real.rpow_le_one h0 h1 h2) he ds hds xs dims rate eta heta hb ys h j x y
    hx hy

/-- Real powers satisfy the laws used. -/
theorem powLaws_rpow : PowLaws (fun b e : ℝ => b ^ e) where
  nonneg := fun _ _ hb => Real.rpow_nonneg hb _
  le_one := fun _ _ hb he => Real.rpow_le_one_of_one_le_of_nonpos hb he

/-- **C13** over the real numbers with real powers: always succeeds and stays in the box. -/
theorem C13_real (eps : ℝ) (he : 0 < eps) (ds : ℕ → MutDraw ℝ)
    (hds : ∀ i, 0 ≤ (ds i).rnd ∧ (ds i).rnd ≤ 1) (xs : List ℝ) (dims : List (ℝ × ℝ))
    (rate eta : ℝ) (heta : 0 ≤ eta) (hb : InBox xs dims) :
    ∃ ys, mutate (fun b e : ℝ => b ^ e) eps ds xs dims rate eta = some ys ∧ InBox ys dims := by
  obtain ⟨ys, h⟩ := Option.isSome_iff_exists.mp
    (C13_total powLaws_rpow he ds hds xs dims rate eta heta hb)
  exact ⟨ys, h, C13_in_box _ _ _ _ _ _ _ hb _ h⟩

/-- A concrete mutation (power replaced by the square, rational numbers): the first coordinate
is clamped to its upper bound, the second is not selected. -/
example : mutate (fun b _ => b * b) (1 / 100 : ℚ) (fun i => ⟨i, 9 / 10⟩)
    [1 / 2, 3] [(0, 1), (0, 5)] (1 / 2) 1 = some [1, 3] := by
  decide +kernel

example : InBox [(1 / 2 : ℚ), 3] [(0, 1), (0, 5)] := by
  unfold InBox; simp; norm_num

section crossover
variable {K : Type*} [Field K] [LinearOrder K]

/-- **C14** Crossover does not touch any list that existed before (in particular not its
parents) and returns one of the two new lists. -/
theorem C14_parents_untouched (pw : K → K → K) (eps first : K) (pick : Bool)
    (ds : ℕ → SbxDraw K) (h : Heap K) (next xs ys : ℕ) (hx : xs < next) (hy : ys < next)
    (dims : List (K × K)) (rate eta : K) (h' : Heap K) (r : ℕ)
    (hc : crossover pw eps first pick ds h next xs ys dims rate eta = some (h', r)) :
    (∀ p < next, h' p = h p) ∧ (r = next ∨ r = next + 1) := by
  unfold crossover at hc
  simp only at hc
  have hr : ∀ {b : Bool}, (if b = true then next else next + 1) = r →
      r = next ∨ r = next + 1 := by
    intro b hb; cases b <;> simp at hb <;> omega
  have hcopy : ∀ p < next, h.copy2 next xs ys p = h p := by
    intro p hp
    unfold Heap.copy2
    rw [if_neg (by omega), if_neg (by omega)]
  by_cases hf : rate < first
  · rw [if_pos hf] at hc
    injection hc with hc; injection hc with h1 h2
    subst h1
    exact ⟨hcopy, hr h2⟩
  · rw [if_neg hf] at hc
    cases hl : crossoverLoop pw eps eta ds xs ys next (next + 1) 0 dims (h.copy2 next xs ys) with
    | none => rw [hl] at hc; cases hc
    | some h2 =>
      rw [hl] at hc
      simp only [Option.some.injEq, Prod.mk.injEq] at hc
      obtain ⟨rfl, h2⟩ := hc
      obtain ⟨g1, -, -⟩ := crossoverLoop_spec pw eps eta ds (by omega) (by omega) (by omega)
        (by omega) (by omega) _ _ _ _ hl
      exact ⟨fun p hp => (g1 p (by omega) (by omega)).trans (hcopy p hp), hr h2⟩

/-- **C14** The child has the common length of its parents, and each coordinate is copied from
a parent or lies in its interval. -/
theorem C14_coordinates (pw : K → K → K) (eps first : K) (pick : Bool)
    (ds : ℕ → SbxDraw K) (h : Heap K) (next xs ys : ℕ) (hx : xs < next) (hy : ys < next)
    (hlen : (h xs).length = (h ys).length) (dims : List (K × K)) (rate eta : K)
    (hd : ∀ d ∈ dims, d.1 ≤ d.2) (h' : Heap K) (r : ℕ)
    (hc : crossover pw eps first pick ds h next xs ys dims rate eta = some (h', r)) :
    (h' r).length = (h xs).length ∧ ∀ (j : ℕ) (v : K), (h' r)[j]? = some v →
      (h xs)[j]? = some v ∨ (h ys)[j]? = some v ∨
      (first ≤ rate ∧ (ds j).skip ≤ 1 / 2 ∧ ∃ d, dims[j]? = some d ∧ d.1 ≤ v ∧ v ≤ d.2) := by
  unfold crossover at hc
  simp only at hc
  have hcr : ∀ {b : Bool} {r}, (if b = true then next else next + 1) = r →
      (h.copy2 next xs ys r = h xs ∨ h.copy2 next xs ys r = h ys) := by
    intro b r hb
    unfold Heap.copy2
    cases b <;> simp at hb <;> subst hb <;> simp
  by_cases hf : rate < first
  · rw [if_pos hf] at hc
    injection hc with hc; injection hc with h1 h2
    subst h1
    rcases hcr h2 with e | e
    · rw [e]; exact ⟨rfl, fun j v hv => Or.inl hv⟩
    · rw [e]; exact ⟨hlen.symm, fun j v hv => Or.inr (Or.inl hv)⟩
  · rw [if_neg hf] at hc
    cases hl : crossoverLoop pw eps eta ds xs ys next (next + 1) 0 dims (h.copy2 next xs ys) with
    | none => rw [hl] at hc; cases hc
    | some h2 =>
      rw [hl] at hc
      simp only [Option.some.injEq, Prod.mk.injEq] at hc
      obtain ⟨rfl, hr⟩ := hc
      obtain ⟨-, g2, g3⟩ := crossoverLoop_spec pw eps eta ds (by omega) (by omega) (by omega)
        (by omega) (by omega) _ _ _ _ hl
      have e := hcr hr
      refine ⟨?_, ?_⟩
      · rw [g2]; rcases e with e | e <;> rw [e]; exact hlen.symm
      · intro j v hv
        rcases g3 r j with hg | ⟨-, hsk, -, d, hdj, w, hw⟩
        · rw [hg] at hv
          rcases e with e | e <;> rw [e] at hv
          · exact Or.inl hv
          · exact Or.inr (Or.inl hv)
        · rw [hv] at hw; injection hw with hw
          refine Or.inr (Or.inr ⟨not_lt.mp hf, hsk, d, by simpa using hdj, ?_⟩)
          rw [hw]
          exact clamp_mem _ _ _ (hd d (List.mem_of_getElem? hdj))

/-- **C14** The child starts as a copy of the parent chosen by the last toss: without
recombination, and at every coordinate skipped by it, it has that parent's values. -/
theorem C14_chosen_parent (pw : K → K → K) (eps first : K) (pick : Bool)
    (ds : ℕ → SbxDraw K) (h : Heap K) (next xs ys : ℕ) (hx : xs < next) (hy : ys < next)
    (dims : List (K × K)) (rate eta : K) (h' : Heap K) (r : ℕ)
    (hc : crossover pw eps first pick ds h next xs ys dims rate eta = some (h', r)) :
    (rate < first → h' r = h (if pick then xs else ys)) ∧
    ∀ j, (1 / 2 < (ds j).skip ∨ dims.length ≤ j) →
      (h' r)[j]? = (h (if pick then xs else ys))[j]? := by
  unfold crossover at hc
  simp only at hc
  have hcr : ∀ {r}, (if pick = true then next else next + 1) = r →
      h.copy2 next xs ys r = h (if pick then xs else ys) := by
    intro r hb
    unfold Heap.copy2
    cases pick <;> simp at hb <;> subst hb <;> simp
  by_cases hf : rate < first
  · rw [if_pos hf] at hc
    injection hc with hc; injection hc with h1 h2
    subst h1
    rw [hcr h2]
    exact ⟨fun _ => rfl, fun _ _ => rfl⟩
  · rw [if_neg hf] at hc
    refine ⟨fun h => absurd h hf, ?_⟩
    cases hl : crossoverLoop pw eps eta ds xs ys next (next + 1) 0 dims (h.copy2 next xs ys) with
    | none => rw [hl] at hc; cases hc
    | some h2 =>
      rw [hl] at hc
      simp only [Option.some.injEq, Prod.mk.injEq] at hc
      obtain ⟨rfl, hr⟩ := hc
      obtain ⟨-, -, g3⟩ := crossoverLoop_spec pw eps eta ds (by omega) (by omega) (by omega)
        (by omega) (by omega) _ _ _ _ hl
      intro j hj
      rcases g3 r j with hg | ⟨-, hsk, -, d, hdj, -⟩
      · rw [hg, hcr hr]
      · rcases hj with hj | hj
        · exact absurd hsk (not_le.mpr hj)
        · rw [List.getElem?_eq_none (by omega)] at hdj; cases hdj

/-- **C14** A child of two vectors of the box is in the box. -/
theorem C14_in_box (pw : K → K → K) (eps first : K) (pick : Bool)
    (ds : ℕ → SbxDraw K) (h : Heap K) (next xs ys : ℕ) (hx : xs < next) (hy : ys < next)
    (dims : List (K × K)) (rate eta : K) (hbx : InBox (h xs) dims) (hby : InBox (h ys) dims)
    (h' : Heap K) (r : ℕ)
    (hc : crossover pw eps first pick ds h next xs ys dims rate eta = some (h', r)) :
    InBox (h' r) dims := by
  have hd : ∀ d ∈ dims, d.1 ≤ d.2 := by
    intro d hd
    obtain ⟨i, hi⟩ := List.getElem?_of_mem hd
    have hl : i < (h xs).length := by
      rw [hbx.length_eq]; exact (List.getElem?_eq_some_iff.mp hi).1
    have := hbx.get (List.getElem?_eq_getElem hl) hi
    exact this.1.trans this.2
  obtain ⟨h1, h2⟩ := C14_coordinates pw eps first pick ds h next xs ys hx hy
    (hbx.length_eq.trans hby.length_eq.symm) dims rate eta hd h' r hc
  refine inBox_of_get (h1.trans hbx.length_eq) ?_
  intro i x d hxi hdi
  rcases h2 i x hxi with hh | hh | ⟨-, -, d', hd', hh⟩
  · exact hbx.get hh hdi
  · exact hby.get hh hdi
  · rw [hdi] at hd'; injection hd' with hd'; subst hd'; exact hh

variable [IsStrictOrderedRing K]

/-- **C14** On vectors of the box crossover does not fail. -/
theorem C14_total {pw : K → K → K} (hp : PowLaws pw) {eps : K} (he : 0 < eps) (first : K)
    (pick : Bool) (ds : ℕ → SbxDraw K) (hds : ∀ i, 0 ≤ (ds i).rand ∧ (ds i).rand < 1)
    (h : Heap K) (next xs ys : ℕ) (hx : xs < next) (hy : ys < next)
    (dims : List (K × K)) (rate eta : K) (heta : 0 ≤ eta) (hbx : InBox (h xs) dims)
    (hby : InBox (h ys) dims) :
    (crossover pw eps first pick ds h next xs ys dims rate eta).isSome := by
  have hcopy : ∀ p < next, h.copy2 next xs ys p = h p := by
    intro p hp
    unfold Heap.copy2
    rw [if_neg (by omega), if_neg (by omega)]
  have hl : (crossoverLoop pw eps eta ds xs ys next (next + 1) 0 dims
      (h.copy2 next xs ys)).isSome := by
    apply crossoverLoop_isSome _ _ _ _ (by omega) (by omega) (by omega) (by omega)
    intro j d hd
    have hjx : j < (h xs).length := by
      rw [hbx.length_eq]; exact (List.getElem?_eq_some_iff.mp hd).1
    have hjy : j < (h ys).length := by
      rw [hby.length_eq]; exact (List.getElem?_eq_some_iff.mp hd).1
    refine ⟨(h xs)[j], (h ys)[j], ?_, ?_, ?_⟩
    · rw [hcopy _ hx, Nat.zero_add, List.getElem?_eq_getElem hjx]
    · rw [hcopy _ hy, Nat.zero_add, List.getElem?_eq_getElem hjy]
    · obtain ⟨a1, a2⟩ := hbx.get (List.getElem?_eq_getElem hjx) hd
      obtain ⟨b1, b2⟩ := hby.get (List.getElem?_eq_getElem hjy) hd
      exact sbxValues_isSome hp he heta a1 a2 b1 b2 (hds _).1 (hds _).2
  obtain ⟨h2, hl⟩ := Option.isSome_iff_exists.mp hl
  unfold crossover
  simp only [hl]
  by_cases hf : rate < first
  · rw [if_pos hf]; rfl
  · rw [if_neg hf]; rfl

end crossover

/-- **C14** over the real numbers with real powers. -/
theorem C14_real (eps : ℝ) (he : 0 < eps) (first : ℝ) (pick : Bool) (ds : ℕ → SbxDraw ℝ)
    (hds : ∀ i, 0 ≤ (ds i).rand ∧ (ds i).rand < 1) (h : Heap ℝ) (next xs ys : ℕ)
    (hx : xs < next) (hy : ys < next) (dims : List (ℝ × ℝ)) (rate eta : ℝ) (heta : 0 ≤ eta)
    (hbx : InBox (h xs) dims) (hby : InBox (h ys) dims) :
    ∃ h' r, crossover (fun b e : ℝ => b ^ e) eps first pick ds h next xs ys dims rate eta =
      some (h', r) ∧ InBox (h' r) dims ∧ ∀ p < next, h' p = h p := by
  obtain ⟨⟨h', r⟩, hc⟩ := Option.isSome_iff_exists.mp
    (C14_total powLaws_rpow he first pick ds hds h next xs ys hx hy dims rate eta heta hbx hby)
  exact ⟨h', r, hc, C14_in_box _ _ _ _ _ _ _ _ _ hx hy _ _ _ hbx hby _ _ hc,
    (C14_parents_untouched _ _ _ _ _ _ _ _ _ hx hy _ _ _ _ _ hc).1⟩

/-- A concrete crossover (power replaced by a constant 1): first coordinate recombined, second
skipped. -/
example : (crossover (fun _ _ => 1) (1 / 100 : ℚ) 0 true (fun i => ⟨i, 1 / 2, 1⟩)
    (fun p => if p = 0 then [0, 3] else if p = 1 then [1, 5] else []) 2 0 1 [(0, 1), (0, 5)]
      1 1).map (fun r => (r.1 0, r.1 1, r.1 r.2)) = some ([0, 3], [1, 5], [1, 3]) := by
  decide +kernel

/-! ### C61 legacy operators -/

section legacy
variable {K : Type*} [Field K] [LinearOrder K]

omit [Field K] in
/-- **C61** The Gaussian mutation keeps a vector of the box in the box, whatever is drawn. -/
theorem C61_old_mutate (coin : ℕ → Bool) (gauss : ℕ → K) :
    ∀ (xs : List K) (dims : List (K × K)) (sg : List K) (i : ℕ), InBox xs dims →
      sg.length = dims.length → InBox (oldMutate coin gauss i xs dims sg) dims := by
  intro xs
  induction xs with
  | nil => intro dims sg i h _; cases h; simp [oldMutate, InBox]
  | cons x xs ih =>
    intro dims sg i h hs
    cases h with
    | @cons _ d _ dims h1 h2 =>
      obtain ⟨a, b⟩ := d
      cases sg with
      | nil => simp at hs
      | cons s sg =>
        simp only [oldMutate]
        refine List.Forall₂.cons ?_ (ih dims sg (i + 1) h2 (by simpa using hs))
        split_ifs
        · exact ⟨le_min (le_max_left _ _) (h1.1.trans h1.2), min_le_right _ _⟩
        · exact h1

variable [IsStrictOrderedRing K]

/-- **C61** The uniform crossover returns a vector of the common length, each coordinate of
which lies between the parents' coordinates. -/
theorem C61_old_crossover (u : ℕ → K) (hu : ∀ i, 0 ≤ u i ∧ u i ≤ 1) :
    ∀ (xs ys : List K) (i : ℕ), xs.length = ys.length →
      List.Forall₂ (fun z p => min p.1 p.2 ≤ z ∧ z ≤ max p.1 p.2)
        (oldCrossover u i xs ys) (xs.zip ys) := by
  intro xs
  induction xs with
  | nil => intro ys i h; simp [oldCrossover]
  | cons x xs ih =>
    intro ys i h
    cases ys with
    | nil => simp at h
    | cons y ys =>
      simp only [oldCrossover, List.zip_cons_cons]
      refine List.Forall₂.cons ?_ (ih ys (i + 1) (by simpa using h))
      obtain ⟨h0, h1⟩ := hu i
      rcases le_total x y with hxy | hxy
      · rw [min_eq_left hxy, max_eq_right hxy]
        constructor <;> nlinarith
      · rw [min_eq_right hxy, max_eq_left hxy]
        constructor <;> nlinarith

/-- **C61** The same for the crossover with a beta distributed position. -/
theorem C61_crossover_beta (bv : ℕ → K) (hu : ∀ i, 0 ≤ bv i ∧ bv i ≤ 1) :
    ∀ (xs ys : List K) (i : ℕ), xs.length = ys.length →
      List.Forall₂ (fun z p => min p.1 p.2 ≤ z ∧ z ≤ max p.1 p.2)
        (crossoverBeta bv i xs ys) (xs.zip ys) := by
  intro xs
  induction xs with
  | nil => intro ys i h; simp [crossoverBeta]
  | cons x xs ih =>
    intro ys i h
    cases ys with
    | nil => simp at h
    | cons y ys =>
      simp only [crossoverBeta, List.zip_cons_cons]
      refine List.Forall₂.cons ?_ (ih ys (i + 1) (by simpa using h))
      obtain ⟨h0, h1⟩ := hu i
      rcases le_total x y with hxy | hxy
      · rw [min_eq_left hxy, max_eq_right hxy, abs_of_nonpos (by linarith)]
        constructor <;> nlinarith
      · rw [min_eq_right hxy, max_eq_left hxy, abs_of_nonneg (by linarith)]
        constructor <;> nlinarith

end legacy

example : oldMutate (fun i => i == 0) (fun _ => 7) 0 [(1 : ℚ), 2] [(0, 5), (0, 5)] [1, 1] =
    [5, 2] := by decide +kernel

example : oldCrossover (fun _ => 1 / 4) 0 [(1 : ℚ), 2] [5, 2] = [2, 2] := by decide +kernel

end Evogil
