import Verif.Model.NdSort
import Verif.Lemmas.StrictOn
import Verif.Lemmas.Rank

namespace Evogil
open Spec

variable {ι : Type*}

/-! ## Generic peeling -/

/-- Dominated by a member of `R`. -/
def domIn (r : ι → ι → Bool) (R : List ι) (x : ι) : Bool := R.any fun y => r y x

theorem domIn_iff {r : ι → ι → Bool} {R : List ι} {x : ι} :
    domIn r R x = true ↔ ∃ y ∈ R, r y x = true := by simp [domIn]

theorem domIn_false_iff {r : ι → ι → Bool} {R : List ι} {x : ι} :
    domIn r R x = false ↔ ∀ y ∈ R, r y x = false := by simp [domIn]

/-- The layers peel non-dominated sets off `R` (up to the order inside a layer). -/
inductive PeelsR (r : ι → ι → Bool) : List ι → List (List ι) → Prop
  | nil : PeelsR r [] []
  | cons {R l L} (h : R ≠ []) (hne : l ≠ []) (hl : l.Perm (R.filter fun c => !domIn r R c))
      (hr : PeelsR r (R.filter (domIn r R)) L) : PeelsR r R (l :: L)

theorem PeelsR.perm {r : ι → ι → Bool} {R : List ι} {L} (h : PeelsR r R L) :
    L.flatten.Perm R := by
  induction h with
  | nil => simp
  | @cons R l L h hne hl hr ih =>
    rw [List.flatten_cons]
    refine (hl.append ih).trans ?_
    exact List.perm_append_comm.trans (List.filter_append_perm (domIn r R) R)

theorem PeelsR.nonempty {r : ι → ι → Bool} {R : List ι} {L} (h : PeelsR r R L) :
    ∀ l ∈ L, l ≠ [] := by
  induction h with
  | nil => simp
  | cons h hne hl hr ih =>
    intro l' hl'
    rcases List.mem_cons.1 hl' with rfl | hl'
    · exact hne
    · exact ih l' hl'

theorem PeelsR.rank {r : ι → ι → Bool} {R : List ι} {L} (h : PeelsR r R L) (k : ℕ) :
    ∀ x, (∃ l, L[k]? = some l ∧ x ∈ l) ↔ IsRank (fun a b => r a b = true) R x k := by
  induction h generalizing k with
  | nil =>
    intro x
    simp only [List.getElem?_nil, reduceCtorEq, false_and, exists_false, false_iff]
    intro hr
    exact absurd (HasChain.mem hr.1) (by simp)
  | @cons R l L h hne hl hr ih =>
    have mem_rest : ∀ c, c ∈ R.filter (domIn r R) ↔ c ∈ R ∧ ∃ w ∈ R, r w c = true := by
      intro c
      rw [List.mem_filter, domIn_iff]
    have chain_iff : ∀ j c, HasChain (fun a b => r a b = true) (R.filter (domIn r R)) j c ↔
        HasChain (fun a b => r a b = true) R (j + 1) c := by
      intro j
      induction j with
      | zero =>
        intro c
        change c ∈ _ ↔ c ∈ R ∧ ∃ y, _ ∧ y ∈ R
        rw [mem_rest]
        exact and_congr_right fun _ => ⟨fun ⟨w, hw, hd⟩ => ⟨w, hd, hw⟩, fun ⟨w, hd, hw⟩ => ⟨w, hw, hd⟩⟩
      | succ j ihj =>
        intro c
        constructor
        · rintro ⟨hc, y, hy, hcy⟩
          exact ⟨((mem_rest c).1 hc).1, y, hy, (ihj y).1 hcy⟩
        · rintro ⟨hc, y, hy, hcy⟩
          exact ⟨(mem_rest c).2 ⟨hc, y, HasChain.mem hcy, hy⟩, y, hy, (ihj y).2 hcy⟩
    intro x
    cases k with
    | zero =>
      simp only [List.getElem?_cons_zero, Option.some.injEq, exists_eq_left']
      rw [hl.mem_iff, List.mem_filter]
      constructor
      · rintro ⟨hx, hn⟩
        refine ⟨hx, ?_⟩
        rintro ⟨-, y, hy, hyc⟩
        rw [Bool.not_eq_true', domIn_false_iff] at hn
        rw [hn y hyc] at hy
        simp at hy
      · rintro ⟨hx, hn⟩
        refine ⟨hx, ?_⟩
        rw [Bool.not_eq_true', domIn_false_iff]
        intro y hy
        rw [Bool.eq_false_iff]
        intro hyd
        exact hn ⟨hx, y, hyd, hy⟩
    | succ k =>
      rw [List.getElem?_cons_succ, ih k x]
      unfold IsRank
      rw [chain_iff, chain_iff]

/-! ## The counter loops -/

variable [DecidableEq ι]

theorem decFold_fst (ys : List ι) (hm : ι → ℤ) (acc : List ι) (y : ι) :
    (ys.foldl decStep (hm, acc)).1 y = hm y - (ys.count y : ℤ) := by
  induction ys generalizing hm acc with
  | nil => simp
  | cons a ys ih =>
    rw [List.foldl_cons]
    change (ys.foldl decStep (Function.update hm a (hm a - 1), _)).1 y = _
    rw [ih]
    by_cases h : y = a
    · subst h; simp; omega
    · rw [Function.update_of_ne h, List.count_cons_of_ne (Ne.symm h)]

theorem decFold_snd (ys : List ι) (hm : ι → ℤ) (acc : List ι) (y : ι) :
    (ys.foldl decStep (hm, acc)).2.count y =
      acc.count y + if 1 ≤ hm y ∧ hm y ≤ (ys.count y : ℤ) then 1 else 0 := by
  induction ys generalizing hm acc with
  | nil =>
    rw [if_neg]
    · simp
    · rw [List.count_nil]
      push_cast
      omega
  | cons a ys ih =>
    rw [List.foldl_cons]
    change (ys.foldl decStep (Function.update hm a (hm a - 1),
      if hm a - 1 = 0 then acc ++ [a] else acc)).2.count y = _
    rw [ih]
    by_cases h : y = a
    · subst h
      rw [Function.update_self, List.count_cons_self]
      by_cases h1 : hm y - 1 = 0
      · rw [if_pos h1, if_neg (by omega), if_pos (by constructor <;> (push_cast; omega))]
        simp
      · rw [if_neg h1]
        congr 1
        apply if_congr _ rfl rfl
        push_cast
        constructor <;> intro h2 <;> omega
    · rw [Function.update_of_ne h, List.count_cons_of_ne (Ne.symm h)]
      congr 1
      split_ifs
      · rw [List.count_append, List.count_singleton]
        simp [Ne.symm h]
      · rfl

theorem processFront_eq (iter : List ι → List ι) (r : ι → ι → Bool) (pop front : List ι)
    (hm : ι → ℤ) :
    processFront iter r pop front hm =
      (front.flatMap fun x => iter (dominatedSet r pop x)).foldl decStep (hm, []) := by
  unfold processFront
  generalize (hm, ([] : List ι)) = st
  induction front generalizing st with
  | nil => rfl
  | cons a l ih => rw [List.foldl_cons, List.flatMap_cons, List.foldl_append, ih]

theorem count_flatMap_dominated (iter : List ι → List ι) (hiter : ∀ l, (iter l).Perm l)
    (r : ι → ι → Bool) (pop front : List ι) (hp : pop.Nodup) (y : ι) :
    (front.flatMap fun x => iter (dominatedSet r pop x)).count y =
      if y ∈ pop then (front.filter fun x => r x y).length else 0 := by
  induction front with
  | nil => simp
  | cons a l ih =>
    have e : (iter (dominatedSet r pop a)).count y = if y ∈ pop ∧ r a y = true then 1 else 0 := by
      rw [(hiter _).count_eq, dominatedSet, dictKeys_of_nodup _ (hp.filter _)]
      by_cases h : y ∈ pop ∧ r a y = true
      · rw [if_pos h, List.count_eq_one_of_mem (hp.filter _) (List.mem_filter.2 h)]
      · rw [if_neg h, List.count_eq_zero_of_not_mem]
        exact fun hm => h (List.mem_filter.1 hm)
    rw [List.flatMap_cons, List.count_append, ih, e]
    by_cases h1 : y ∈ pop
    · cases h2 : r a y
      · simp [h1, h2]
      · simp [h1, h2]; omega
    · simp [h1]

/-- Loop invariant: `R` is what is still to be ranked. -/
structure FrontInv (r : ι → ι → Bool) (pop R front : List ι) (hm : ι → ℤ) : Prop where
  sub : ∀ x ∈ R, x ∈ pop
  nodup : R.Nodup
  count : ∀ y ∈ R, hm y = ((R.filter fun z => r z y).length : ℤ)
  done : ∀ y ∈ pop, y ∉ R → ∀ z ∈ R, r z y = false
  front_eq : front.Perm (R.filter fun c => !domIn r R c)

omit [DecidableEq ι] in
theorem length_filter_split (R : List ι) (p q : ι → Bool) :
    (R.filter q).length = ((R.filter p).filter q).length + ((R.filter fun x => !p x).filter q).length := by
  induction R with
  | nil => rfl
  | cons a l ih =>
    simp only [List.filter_filter] at ih ⊢
    cases hp : p a <;> cases hq : q a <;> simp [hp, hq] <;> omega

theorem FrontInv.next {iter : List ι → List ι} (hiter : ∀ l, (iter l).Perm l)
    {r : ι → ι → Bool} {pop R front : List ι} {hm : ι → ℤ} (hp : pop.Nodup)
    (h : FrontInv r pop R front hm) :
    FrontInv r pop (R.filter (domIn r R)) (processFront iter r pop front hm).2
      (processFront iter r pop front hm).1 := by
  have hcount : ∀ y, (front.flatMap fun x => iter (dominatedSet r pop x)).count y =
      if y ∈ pop then (front.filter fun x => r x y).length else 0 :=
    count_flatMap_dominated iter hiter r pop front hp
  have hfl : ∀ y, (front.filter fun x => r x y).length =
      ((R.filter fun c => !domIn r R c).filter fun x => r x y).length :=
    fun y => (h.front_eq.filter _).length_eq
  have hsplit : ∀ y, (R.filter fun z => r z y).length =
      ((R.filter (domIn r R)).filter fun z => r z y).length +
      (front.filter fun x => r x y).length := by
    intro y
    rw [hfl, length_filter_split R (domIn r R)]
  refine ⟨fun x hx => h.sub x (List.mem_filter.1 hx).1, h.nodup.filter _, ?_, ?_, ?_⟩
  · intro y hy
    have hyR := (List.mem_filter.1 hy).1
    rw [processFront_eq, decFold_fst, hcount, if_pos (h.sub y hyR), h.count y hyR, hsplit y]
    push_cast
    omega
  · intro y hy hyR' z hz
    have hzR := (List.mem_filter.1 hz).1
    by_cases hyR : y ∈ R
    · have : domIn r R y = false := by
        rw [Bool.eq_false_iff]
        exact fun hd => hyR' (List.mem_filter.2 ⟨hyR, hd⟩)
      exact domIn_false_iff.1 this z hzR
    · exact h.done y hy hyR z hzR
  · rw [List.perm_iff_count]
    intro y
    rw [processFront_eq, decFold_snd, List.count_nil, zero_add, hcount]
    have key : (1 ≤ hm y ∧ hm y ≤ ((if y ∈ pop then (front.filter fun x => r x y).length else 0 : ℕ) : ℤ)) ↔
        y ∈ (R.filter (domIn r R)).filter fun c => !domIn r (R.filter (domIn r R)) c := by
      by_cases hyp : y ∈ pop
      · rw [if_pos hyp]
        by_cases hyR : y ∈ R
        · rw [h.count y hyR, List.mem_filter, List.mem_filter, hsplit y, Bool.not_eq_true',
            domIn_false_iff, domIn_iff]
          constructor
          · rintro ⟨h1, h2⟩
            have hz : ((R.filter (domIn r R)).filter fun z => r z y).length = 0 := by omega
            refine ⟨⟨hyR, ?_⟩, ?_⟩
            · have : 0 < (R.filter fun z => r z y).length := by rw [hsplit y]; omega
              obtain ⟨z, hz⟩ := List.length_pos_iff_exists_mem.1 this
              exact ⟨z, (List.mem_filter.1 hz).1, (List.mem_filter.1 hz).2⟩
            · intro z hzR
              rw [Bool.eq_false_iff]
              intro hzy
              have : z ∈ (R.filter (domIn r R)).filter fun z => r z y :=
                List.mem_filter.2 ⟨hzR, hzy⟩
              rw [List.eq_nil_of_length_eq_zero hz] at this
              simp at this
          · rintro ⟨⟨-, z, hz, hzy⟩, hn⟩
            have hz0 : ((R.filter (domIn r R)).filter fun z => r z y).length = 0 := by
              rw [List.length_eq_zero_iff, List.filter_eq_nil_iff]
              intro w hw
              simp [hn w hw]
            have : 0 < (R.filter fun z => r z y).length :=
              List.length_pos_iff_exists_mem.2 ⟨z, List.mem_filter.2 ⟨hz, hzy⟩⟩
            rw [hsplit y] at this
            omega
        · constructor
          · rintro ⟨h1, h2⟩
            have : (front.filter fun x => r x y).length = 0 := by
              rw [List.length_eq_zero_iff, List.filter_eq_nil_iff]
              intro w hw
              have hwR := (List.mem_filter.1 (h.front_eq.mem_iff.1 hw)).1
              simp [h.done y hyp hyR w hwR]
            omega
          · intro hm
            exact absurd (List.mem_filter.1 (List.mem_filter.1 hm).1).1 hyR
      · rw [if_neg hyp]
        constructor
        · rintro ⟨h1, h2⟩
          simp at h2; omega
        · intro hm
          exact absurd (h.sub y (List.mem_filter.1 (List.mem_filter.1 hm).1).1) hyp
    by_cases hc : y ∈ (R.filter (domIn r R)).filter fun c => !domIn r (R.filter (domIn r R)) c
    · rw [if_pos (key.2 hc), List.count_eq_one_of_mem ((h.nodup.filter _).filter _) hc]
    · rw [if_neg (fun hh => hc (key.1 hh)), List.count_eq_zero_of_not_mem hc]

omit [DecidableEq ι] in
theorem FrontInv.init {r : ι → ι → Bool} {pop : List ι} (hp : pop.Nodup)
    (hs : StrictOn r pop) :
    FrontInv r pop pop (pop.filter fun x => howManyInit r pop x = 0) (howManyInit r pop) := by
  have e : ∀ y ∈ pop, howManyInit r pop y = ((pop.filter fun z => r z y).length : ℤ) := by
    intro y hy
    unfold howManyInit
    congr 2
    apply List.filter_congr
    intro z hz
    cases hzy : r z y
    · simp
    · simp [hs.asymm hz hy hzy]
  refine ⟨fun _ h => h, hp, e, fun y hy hn => absurd hy hn, ?_⟩
  have : (pop.filter fun x => decide (howManyInit r pop x = 0)) = pop.filter fun c => !domIn r pop c := by
    apply List.filter_congr
    intro y hy
    rw [Bool.eq_iff_iff, decide_eq_true_eq, e y hy, Bool.not_eq_true', domIn_false_iff]
    rw [Int.natCast_eq_zero, List.length_eq_zero_iff, List.filter_eq_nil_iff]
    simp
  rw [this]

omit [DecidableEq ι] in
theorem rest_lt {r : ι → ι → Bool} {R : List ι} (hs : StrictOn r R) (h : R ≠ []) :
    (R.filter (domIn r R)).length < R.length := by
  refine lt_of_le_of_ne (List.length_filter_le _ _) fun heq => ?_
  rw [List.length_filter_eq_length_iff] at heq
  obtain ⟨z, hz, hmin⟩ := hs.exists_nondominated h
  have := heq z hz
  rw [domIn_iff] at this
  obtain ⟨w, hw, hwz⟩ := this
  rw [hmin w hw] at hwz
  simp at hwz

omit [DecidableEq ι] in
theorem front_nil_iff {r : ι → ι → Bool} {pop R front : List ι} {hm : ι → ℤ}
    (h : FrontInv r pop R front hm) (hs : StrictOn r R) : front = [] ↔ R = [] := by
  constructor
  · rintro rfl
    by_contra hne
    obtain ⟨z, hz, hmin⟩ := hs.exists_nondominated hne
    have : z ∈ R.filter fun c => !domIn r R c := by
      rw [List.mem_filter, Bool.not_eq_true', domIn_false_iff]
      exact ⟨hz, hmin⟩
    rw [← h.front_eq.mem_iff] at this
    simp at this
  · rintro rfl
    exact List.Perm.eq_nil h.front_eq

theorem frontsLoop_ok {iter : List ι → List ι} (hiter : ∀ l, (iter l).Perm l)
    {r : ι → ι → Bool} {pop : List ι} (hp : pop.Nodup) (fuel : ℕ) (R front : List ι)
    (hm : ι → ℤ) (h : FrontInv r pop R front hm) (hs : StrictOn r R) (hf : R.length ≤ fuel) :
    ∃ L, frontsLoop iter r pop fuel front hm = some L ∧ PeelsR r R L := by
  induction fuel generalizing R front hm with
  | zero =>
    have hR := List.eq_nil_of_length_eq_zero (Nat.le_zero.1 hf)
    have := (front_nil_iff h hs).2 hR
    subst hR; subst this
    exact ⟨[], rfl, .nil⟩
  | succ n ih =>
    cases hfr : front with
    | nil =>
      have hR := (front_nil_iff h hs).1 hfr
      subst hR
      exact ⟨[], rfl, .nil⟩
    | cons x xs =>
      subst hfr
      have hR : R ≠ [] := fun hR => by simpa using (front_nil_iff h hs).2 hR
      have hlt := rest_lt hs hR
      obtain ⟨L, hL, hpl⟩ := ih _ _ _ (h.next hiter hp)
        (hs.mono fun y hy => (List.mem_filter.1 hy).1) (by omega)
      exact ⟨_, by rw [frontsLoop, hL]; rfl, .cons hR (by simp) h.front_eq hpl⟩

theorem frontsLoop_mono {iter : List ι → List ι} {r : ι → ι → Bool} {pop : List ι} (n m : ℕ)
    (front : List ι) (hm : ι → ℤ) (L L' : List (List ι))
    (h1 : frontsLoop iter r pop n front hm = some L)
    (h2 : frontsLoop iter r pop m front hm = some L') : L = L' := by
  induction n generalizing m front hm L L' with
  | zero =>
    cases front with
    | nil => cases m <;> simp_all [frontsLoop]
    | cons => simp [frontsLoop] at h1
  | succ n ih =>
    cases front with
    | nil => cases m <;> simp_all [frontsLoop]
    | cons x xs =>
      cases m with
      | zero => simp [frontsLoop] at h2
      | succ m =>
        rw [frontsLoop] at h1 h2
        simp only [Option.map_eq_some_iff] at h1 h2
        obtain ⟨a, ha, rfl⟩ := h1
        obtain ⟨b, hb, rfl⟩ := h2
        rw [ih _ _ _ _ _ ha hb]

/-- Main lemma: for a strict partial order the counting sort terminates and peels. -/
theorem ndSort_peels {iter : List ι → List ι} (hiter : ∀ l, (iter l).Perm l)
    {r : ι → ι → Bool} {pop : List ι} (hp : pop.Nodup) (hs : StrictOn r pop) :
    (∀ fuel, pop.length ≤ fuel → ∃ L, ndSort iter r fuel pop = some L) ∧
    ∀ fuel L, ndSort iter r fuel pop = some L → PeelsR r pop L := by
  have key := fun fuel hf => frontsLoop_ok hiter hp fuel pop _ _ (FrontInv.init hp hs) hs hf
  refine ⟨fun fuel hf => ?_, fun fuel L hL => ?_⟩
  · obtain ⟨L, hL, -⟩ := key fuel hf
    exact ⟨L, hL⟩
  · obtain ⟨L', hL', hpl⟩ := key pop.length le_rfl
    rw [frontsLoop_mono _ _ _ _ _ _ hL hL']
    exact hpl

omit [DecidableEq ι] in
theorem strictOn_nsgaii {α : Type*} [LinearOrder α] {S : List ι} (obj : ι → List α) {d : ℕ}
    (hS : ∀ x ∈ S, (obj x).length = d) : StrictOn (nsgaiiDom obj) S := by
  have : nsgaiiDom obj = fun x y => dominates (obj x) (obj y) := by
    funext x y
    unfold nsgaiiDom
    rw [Bool.eq_iff_iff, nsgaiiDominates_iff_zip, dominates_iff_zip]
  rw [this]
  exact strictOn_dominates_map obj hS

omit [DecidableEq ι] in
theorem strictOn_theta {α : Type*} [LinearOrder α] (S : List ι) (cluster : ι → ℕ) (theta : ι → α) :
    StrictOn (thetaDom cluster theta) S := by
  constructor
  · intro x _
    simp [thetaDom]
  · intro x _ y _ z _
    simp only [thetaDom]
    split_ifs with h1 h2 h3 <;> simp
    exact h3 ⟨h1.1.trans h2.1, h1.2.trans h2.2⟩

end Evogil
