import Verif.Model.Nsgaii
import Verif.Props.NdSort
import Mathlib.Tactic.Linarith
import Mathlib.Tactic.Positivity

/-! # Lemmas about the NSGA-II crowding distance and selection -/

namespace Evogil.Nsgaii

variable {ι K : Type*} [DecidableEq ι] [Field K] [LinearOrder K]

theorem addDist_top (dist : ι → WithTop K) (x y : ι) (v : K) :
    addDist dist x v y = ⊤ ↔ dist y = ⊤ := by
  unfold addDist
  by_cases h : y = x
  · subst h; simp
  · simp [h]

theorem addDist_of_ne (dist : ι → WithTop K) {x y : ι} (v : K) (h : y ≠ x) :
    addDist dist x v y = dist y := by
  simp [addDist, h]

theorem addDist_nonneg [IsStrictOrderedRing K] {dist : ι → WithTop K} (x : ι) {v : K} (hv : 0 ≤ v)
    (h : ∀ y, 0 ≤ dist y) (y : ι) : 0 ≤ addDist dist x v y := by
  by_cases hy : y = x
  · subst hy
    simp only [addDist, Function.update_self]
    exact add_nonneg (h y) (by exact_mod_cast hv)
  · rw [addDist_of_ne _ _ hy]; exact h y

theorem addInner_top (o : ι → K) (range : K) (l : List ι) : ∀ (dist : ι → WithTop K) (y : ι),
    addInner o range dist l y = ⊤ ↔ dist y = ⊤ := by
  match l with
  | [] => intro dist y; simp [addInner]
  | [a] => intro dist y; simp [addInner]
  | [a, b] => intro dist y; simp [addInner]
  | a :: b :: c :: rest =>
    intro dist y
    rw [addInner, addInner_top o range (b :: c :: rest), addDist_top]

theorem addInner_of_notMem (o : ι → K) (range : K) (l : List ι) :
    ∀ (dist : ι → WithTop K) (y : ι), y ∉ l → addInner o range dist l y = dist y := by
  match l with
  | [] => intro dist y _; simp [addInner]
  | [a] => intro dist y _; simp [addInner]
  | [a, b] => intro dist y _; simp [addInner]
  | a :: b :: c :: rest =>
    intro dist y hy
    rw [addInner, addInner_of_notMem o range (b :: c :: rest) _ _ (by simp at hy ⊢; tauto),
      addDist_of_ne]
    simp at hy; tauto

theorem addInner_nonneg [IsStrictOrderedRing K] (o : ι → K) {range : K} (hr : 0 < range)
    (l : List ι) (hl : l.Pairwise (fun a b => o a ≤ o b)) : ∀ dist : ι → WithTop K,
    (∀ y, 0 ≤ dist y) → ∀ y, 0 ≤ addInner o range dist l y := by
  match l with
  | [] => intro dist h; simpa [addInner] using h
  | [a] => intro dist h; simpa [addInner] using h
  | [a, b] => intro dist h; simpa [addInner] using h
  | a :: b :: c :: rest =>
    intro dist h
    rw [addInner]
    apply addInner_nonneg o hr (b :: c :: rest) (List.pairwise_cons.1 hl).2
    apply addDist_nonneg _ _ h
    have : o a ≤ o c := (List.pairwise_cons.1 hl).1 c (by simp)
    exact div_nonneg (by linarith) hr.le

omit [DecidableEq ι] in
theorem lastTwo_spec (l : List ι) (h : 2 ≤ l.length) : ∃ a b, lastTwo l = some (a, b) ∧
    ∃ pre, l = pre ++ [a, b] := by
  match l with
  | [] => simp at h
  | [_] => simp at h
  | [a, b] => exact ⟨a, b, rfl, [], rfl⟩
  | x :: b :: c :: rest =>
    obtain ⟨p, q, e, pre, hp⟩ := lastTwo_spec (b :: c :: rest) (by simp)
    exact ⟨p, q, by rw [lastTwo, e], x :: pre, by rw [hp]; rfl⟩

/-- One turn over an objective adds exactly one member with smallest value to the set of those of
infinite distance. -/
theorem crowdObjective_spec [IsStrictOrderedRing K] {eps : K} (heps : 0 < eps) (o : ι → K)
    (st : List ι × (ι → WithTop K)) (h : 2 ≤ st.1.length) :
    (crowdObjective eps o st).1.Perm st.1 ∧
      (∃ m ∈ st.1, (∀ y ∈ st.1, o m ≤ o y) ∧
        ∀ x, (crowdObjective eps o st).2 x = ⊤ ↔ st.2 x = ⊤ ∨ x = m) ∧
      ((∀ x, 0 ≤ st.2 x) → ∀ x, 0 ≤ (crowdObjective eps o st).2 x) ∧
      ∀ x, x ∉ st.1 → (crowdObjective eps o st).2 x = st.2 x := by
  have hperm := pySorted_perm o st.1
  have hsort := pySorted_sorted o st.1
  have hlen : 2 ≤ (pySorted o st.1).length := by rw [pySorted_length]; exact h
  obtain ⟨prev, last, e2, pre, hpre⟩ := lastTwo_spec _ hlen
  cases hl : pySorted o st.1 with
  | nil => rw [hl] at hlen; simp at hlen
  | cons first rest =>
    have hfirst : first ∈ st.1 := hperm.mem_iff.1 (by rw [hl]; simp)
    have hlast : last ∈ st.1 := hperm.mem_iff.1 (by rw [hpre]; simp)
    have hmin : ∀ y ∈ st.1, o first ≤ o y := by
      intro y hy
      have := hperm.mem_iff.2 hy
      rw [hl] at this hsort
      rcases List.mem_cons.1 this with rfl | hy
      · exact le_rfl
      · exact (List.pairwise_cons.1 hsort).1 y hy
    have hpl : o prev ≤ o last := by
      rw [hpre, List.pairwise_append] at hsort
      exact (List.pairwise_cons.1 hsort.2.1).1 last (by simp)
    have hrange : 0 < o last - o first + eps := by have := hmin last hlast; linarith
    have hc : crowdObjective eps o st = (first :: rest,
        addInner o (o last - o first + eps)
          (addDist (Function.update st.2 first ⊤) last
            (2 * (o last - o prev) / (o last - o first + eps))) (first :: rest)) := by
      unfold crowdObjective
      simp only [hl] at e2 ⊢
      rw [e2]
    rw [hc]
    have hmem : ∀ x, x ∈ first :: rest ↔ x ∈ st.1 := by
      intro x; rw [← hl]; exact hperm.mem_iff
    refine ⟨by rw [← hl]; exact hperm, ⟨first, hfirst, hmin, ?_⟩, ?_, ?_⟩
    · intro x
      simp only [addInner_top, addDist_top]
      by_cases hx : x = first
      · simp [hx]
      · simp [hx]
    · intro hnn
      apply addInner_nonneg o hrange _ (by rw [← hl]; exact hsort)
      apply addDist_nonneg
      · exact div_nonneg (by linarith) hrange.le
      · intro y
        by_cases hy : y = first
        · simp [hy]
        · simpa [hy] using hnn y
    · intro x hx
      have hx' : x ∉ first :: rest := fun h => hx ((hmem x).1 h)
      simp only
      rw [addInner_of_notMem _ _ _ _ _ hx', addDist_of_ne]
      · have : x ≠ first := fun h => hx (h ▸ hfirst)
        simp [this]
      · exact fun h => hx (h ▸ hlast)

/-- The whole loop over the objectives for one front. -/
theorem crowdObjectives_spec [IsStrictOrderedRing K] {eps : K} (heps : 0 < eps)
    (objs : List (ι → K)) : ∀ (st : List ι × (ι → WithTop K)), 2 ≤ st.1.length →
    let r := objs.foldl (fun st o => crowdObjective eps o st) st
    (∃ ms, List.Forall₂ (fun o m => m ∈ st.1 ∧ ∀ y ∈ st.1, o m ≤ o y) objs ms ∧
        ∀ x, r.2 x = ⊤ ↔ st.2 x = ⊤ ∨ x ∈ ms) ∧
      ((∀ x, 0 ≤ st.2 x) → ∀ x, 0 ≤ r.2 x) ∧ ∀ x, x ∉ st.1 → r.2 x = st.2 x := by
  induction objs with
  | nil => intro st _; exact ⟨⟨[], .nil, by simp⟩, fun h => h, fun _ _ => rfl⟩
  | cons o objs ih =>
    intro st h
    obtain ⟨hp, ⟨m, hm, hmin, htop⟩, hnn, hout⟩ := crowdObjective_spec heps o st h
    obtain ⟨⟨ms, hms, htop'⟩, hnn', hout'⟩ := ih (crowdObjective eps o st)
      (by rw [hp.length_eq]; exact h)
    simp only [List.foldl_cons]
    refine ⟨⟨m :: ms, .cons ⟨hm, hmin⟩ (hms.imp ?_), ?_⟩, fun h => hnn' (hnn h), ?_⟩
    · rintro a b ⟨h1, h2⟩
      exact ⟨hp.mem_iff.1 h1, fun y hy => h2 y (hp.mem_iff.2 hy)⟩
    · intro x
      rw [htop' x, htop x, List.mem_cons, or_assoc]
    · intro x hx
      rw [hout' x (fun h => hx (hp.mem_iff.1 h)), hout x hx]

/-- What the crowding distances of one front are to be. -/
def FrontDist (objs : List (ι → K)) (f : List ι) (dist : ι → WithTop K) : Prop :=
  (2 ≤ f.length → ∃ ms, List.Forall₂ (fun o m => m ∈ f ∧ ∀ y ∈ f, o m ≤ o y) objs ms ∧
    ∀ x ∈ f, dist x = ⊤ ↔ x ∈ ms) ∧ ∀ x, f = [x] → dist x = 0

theorem crowdFront_spec [IsStrictOrderedRing K] {eps : K} (heps : 0 < eps) (objs : List (ι → K))
    (f : List ι) (dist : ι → WithTop K) (hz : ∀ x ∈ f, dist x ≠ ⊤) (hnn : ∀ x, 0 ≤ dist x) :
    FrontDist objs f (crowdFront eps objs dist f) ∧ (∀ x, 0 ≤ crowdFront eps objs dist f x) ∧
      ∀ x, x ∉ f → crowdFront eps objs dist f x = dist x := by
  match f with
  | [] => exact ⟨⟨by simp, by simp⟩, hnn, fun _ _ => rfl⟩
  | [a] =>
    refine ⟨⟨by simp, ?_⟩, ?_, ?_⟩
    · intro x hx
      simp only [List.cons.injEq, and_true] at hx
      simp [crowdFront, hx]
    · intro x
      by_cases h : x = a
      · simp [crowdFront, h]
      · simpa [crowdFront, h] using hnn x
    · intro x hx
      have : x ≠ a := by simpa using hx
      simp [crowdFront, this]
  | a :: b :: rest =>
    obtain ⟨⟨ms, h1, h2⟩, h3, h4⟩ := crowdObjectives_spec heps objs (a :: b :: rest, dist)
      (by simp)
    refine ⟨⟨fun _ => ⟨ms, h1, ?_⟩, by simp⟩, h3 hnn, h4⟩
    intro x hx
    have := h2 x
    simp only [hz x hx, false_or] at this
    exact this

theorem crowding_spec [IsStrictOrderedRing K] {eps : K} (heps : 0 < eps) (objs : List (ι → K))
    (fronts : List (List ι)) (hnd : fronts.flatten.Nodup) :
    (∀ f ∈ fronts, FrontDist objs f (crowding eps objs fronts)) ∧
      ∀ x, 0 ≤ crowding eps objs fronts x := by
  suffices H : ∀ (fronts : List (List ι)) (dist : ι → WithTop K), fronts.flatten.Nodup →
      (∀ x ∈ fronts.flatten, dist x ≠ ⊤) → (∀ x, 0 ≤ dist x) →
      (∀ f ∈ fronts, FrontDist objs f (fronts.foldl (crowdFront eps objs) dist)) ∧
      (∀ x, 0 ≤ fronts.foldl (crowdFront eps objs) dist x) ∧
      ∀ x, x ∉ fronts.flatten → fronts.foldl (crowdFront eps objs) dist x = dist x by
    obtain ⟨h1, h2, -⟩ := H fronts (fun _ => 0) hnd (by simp) (by simp)
    exact ⟨h1, h2⟩
  intro fronts
  induction fronts with
  | nil => intro dist _ _ h; exact ⟨by simp, h, fun _ _ => rfl⟩
  | cons f fs ih =>
    intro dist hnd hz hnn
    rw [List.flatten_cons, List.nodup_append] at hnd
    obtain ⟨-, hnd2, hdis⟩ := hnd
    obtain ⟨h1, h2, h3⟩ := crowdFront_spec heps objs f dist (fun x hx => hz x (by simp [hx])) hnn
    have hzz : ∀ x ∈ fs.flatten, crowdFront eps objs dist f x ≠ ⊤ := by
      intro x hx
      rw [h3 x (fun h => hdis x h x hx rfl)]
      exact hz x (by rw [List.flatten_cons]; exact List.mem_append_right _ hx)
    obtain ⟨g1, g2, g3⟩ := ih (crowdFront eps objs dist f) hnd2 hzz h2
    simp only [List.foldl_cons]
    refine ⟨?_, g2, ?_⟩
    · intro f' hf'
      rcases List.mem_cons.1 hf' with rfl | hf'
      · have hsame : ∀ x ∈ f', fs.foldl (crowdFront eps objs) (crowdFront eps objs dist f') x
            = crowdFront eps objs dist f' x :=
          fun x hx => g3 x (fun h => hdis x hx x h rfl)
        refine ⟨fun hl => ?_, fun x hx => ?_⟩
        · obtain ⟨ms, k1, k2⟩ := h1.1 hl
          exact ⟨ms, k1, fun x hx => by rw [hsame x hx]; exact k2 x hx⟩
        · rw [hsame x (by simp [hx])]; exact h1.2 x hx
      · exact g1 f' hf'
    · intro x hx
      rw [List.flatten_cons, List.mem_append] at hx
      rw [g3 x (fun h => hx (.inr h)), h3 x (fun h => hx (.inl h))]

theorem invDist_top (eps : K) : invDist eps ⊤ = 0 := rfl

theorem invDist_pos [IsStrictOrderedRing K] {eps : K} (heps : 0 < eps) {d : WithTop K}
    (hd : 0 ≤ d) (h : d ≠ ⊤) : 0 < invDist eps d := by
  cases d with
  | top => exact absurd rfl h
  | coe d =>
    have : 0 ≤ d := by exact_mod_cast hd
    exact div_pos one_pos (by linarith)

/-- larger distance, smaller key -/
theorem invDist_anti [IsStrictOrderedRing K] {eps : K} (heps : 0 < eps) {a b : WithTop K}
    (ha : 0 ≤ a) (hb : 0 ≤ b) : invDist eps a ≤ invDist eps b ↔ b ≤ a := by
  cases a with
  | top =>
    simp only [invDist_top, le_top, iff_true]
    by_cases h : b = ⊤
    · rw [h]; rfl
    · exact (invDist_pos heps hb h).le
  | coe a =>
    cases b with
    | top =>
      have h1 := invDist_pos heps ha (WithTop.coe_ne_top)
      have h2 : ¬ ((⊤ : WithTop K) ≤ (a : WithTop K)) := by simp
      simp only [invDist_top, h2, iff_false, not_le]
      exact h1
    | coe b =>
      have ha' : 0 ≤ a := by exact_mod_cast ha
      have hb' : 0 ≤ b := by exact_mod_cast hb
      change 1 / (a + eps) ≤ 1 / (b + eps) ↔ _
      rw [one_div_le_one_div (by linarith) (by linarith), WithTop.coe_le_coe]
      constructor <;> intro h <;> linarith

end Evogil.Nsgaii
