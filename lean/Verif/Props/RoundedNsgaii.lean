import Verif.Model.RoundedNsgaii
import Verif.Props.RoundedSelection
import Verif.Props.Nsgaii

/-! # C131: NSGA-II in floating point -/

set_option linter.unusedSectionVars false

namespace Evogil.Rounded

open Spec Binary64
open Nsgaii (lastTwo lastTwo_spec FrontDist)

variable {ι K : Type*} [DecidableEq ι] [Field K] [LinearOrder K] [IsStrictOrderedRing K] [FloorRing K]

/-- Infinite, or a number between 0 and `2 k`. -/
def Within (k : ℕ) (d : WithTop K) : Prop := ∀ r : K, d = r → 0 ≤ r ∧ r ≤ 2 * k

theorem Within.mono {k j : ℕ} {d : WithTop K} (h : Within k d) (hkj : k ≤ j) : Within j d := by
  intro r hr
  have : (k : K) ≤ j := by exact_mod_cast hkj
  exact ⟨(h r hr).1, by linarith [(h r hr).2]⟩

/-! ## One addition -/

theorem addDist_of_ne (fl : K → K) (dist : ι → WithTop K) {x y : ι} (v : K) (h : y ≠ x) :
    addDist fl dist x v y = dist y := by
  simp [addDist, h]

theorem addDist_top (fl : K → K) (dist : ι → WithTop K) (x y : ι) (v : K) :
    addDist fl dist x v y = ⊤ ↔ dist y = ⊤ := by
  by_cases h : y = x
  · subst h
    unfold addDist
    rw [Function.update_self]
    cases dist y <;> simp
  · rw [addDist_of_ne _ _ _ h]

theorem addDist_within {dist : ι → WithTop K} (x : ι) {v : K} {k : ℕ} (hk : k + 1 ≤ 2 ^ 51) (h0 : 0 ≤ v) (h2 : v ≤ 2)
    (h : Within k (dist x)) : Within (k + 1) (addDist round64 dist x v x) := by
  have R := round64_isRounding (K := K)
  unfold addDist
  rw [Function.update_self]
  cases hd : dist x with
  | top => intro r hr; cases hr
  | coe d =>
    obtain ⟨d0, d1⟩ := h d hd
    intro r hr
    obtain rfl : round64 (d + v) = r := WithTop.coe_injective hr
    refine ⟨fl_nonneg R (by linarith), fl_le R (round64_float ⟨2 * (k + 1), 0, ?_, by norm_num, by push_cast; ring⟩) ?_⟩
    · rw [abs_of_nonneg (by positivity)]
      omega
    · push_cast
      linarith

/-! ## The inner members -/

theorem addInner_top (fl : K → K) (eps : K) (o : ι → K) (lo hi : K) (l : List ι) : ∀ (dist : ι → WithTop K) (y : ι),
    addInner fl eps o lo hi dist l y = ⊤ ↔ dist y = ⊤ := by
  match l with
  | [] => intro dist y; simp [addInner]
  | [a] => intro dist y; simp [addInner]
  | [a, b] => intro dist y; simp [addInner]
  | a :: b :: c :: rest =>
    intro dist y
    rw [addInner, addInner_top fl eps o lo hi (b :: c :: rest), addDist_top]

theorem addInner_outside (fl : K → K) (eps : K) (o : ι → K) (lo hi : K) (l : List ι) :
    ∀ (dist : ι → WithTop K) (y : ι), y ∉ l.tail → addInner fl eps o lo hi dist l y = dist y := by
  match l with
  | [] => intro dist y _; simp [addInner]
  | [a] => intro dist y _; simp [addInner]
  | [a, b] => intro dist y _; simp [addInner]
  | a :: b :: c :: rest =>
    intro dist y hy
    simp only [List.tail_cons, List.mem_cons, not_or] at hy
    rw [addInner, addInner_outside fl eps o lo hi (b :: c :: rest) _ _ (by simp; tauto), addDist_of_ne _ _ _ hy.1]

theorem addInner_last (fl : K → K) (eps : K) (o : ι → K) (lo hi : K) (l : List ι) :
    ∀ (dist : ι → WithTop K) (y : ι) (pre : List ι), l = pre ++ [y] → y ∉ pre → addInner fl eps o lo hi dist l y = dist y := by
  match l with
  | [] => intro dist y pre _ _; simp [addInner]
  | [a] => intro dist y pre _ _; simp [addInner]
  | [a, b] => intro dist y pre _ _; simp [addInner]
  | a :: b :: c :: rest =>
    intro dist y pre hl hy
    match pre, hl, hy with
    | [], hl, _ => simp at hl
    | [p], hl, _ => simp at hl
    | p :: q :: pre, hl, hy =>
      simp only [List.cons_append, List.cons.injEq] at hl
      obtain ⟨rfl, rfl, hl⟩ := hl
      simp only [List.mem_cons, not_or] at hy
      rw [addInner, addInner_last fl eps o lo hi (b :: c :: rest) _ y (b :: pre) (by rw [hl]; rfl) (by simp; tauto),
        addDist_of_ne _ _ _ hy.2.1]

theorem addInner_within {o : ι → K} {lo hi : K} {k : ℕ} (hk : k + 1 ≤ 2 ^ 51) (l : List ι) (hnd : l.Nodup)
    (hl : l.Pairwise fun a b => o a ≤ o b) (hb : ∀ x ∈ l, lo ≤ o x ∧ o x ≤ hi) :
    ∀ (dist : ι → WithTop K) (y : ι), Within k (dist y) →
      Within (k + 1) (addInner round64 (1 / 2 ^ 52) o lo hi dist l y) := by
  match l with
  | [] => intro dist y h; simpa [addInner] using h.mono (by omega)
  | [a] => intro dist y h; simpa [addInner] using h.mono (by omega)
  | [a, b] => intro dist y h; simpa [addInner] using h.mono (by omega)
  | a :: b :: c :: rest =>
    intro dist y h
    rw [addInner]
    by_cases hy : y = b
    · subst hy
      rw [addInner_outside _ _ _ _ _ _ _ _ (by
        have := (List.nodup_cons.1 (List.nodup_cons.1 hnd).2).1
        simpa using this)]
      obtain ⟨c0, c1⟩ := crowdTerm_mem (lo := lo) (hi := hi) (p := .inner (o a) (o c))
        ⟨(hb a (by simp)).1, (List.pairwise_cons.1 hl).1 c (by simp), (hb c (by simp)).2⟩
      exact addDist_within y hk c0 c1 h
    · refine addInner_within hk (b :: c :: rest) (List.nodup_cons.1 hnd).2 (List.pairwise_cons.1 hl).2
        (fun x hx => hb x (List.mem_cons_of_mem _ hx)) _ y ?_
      rw [addDist_of_ne _ _ _ hy]
      exact h

/-! ## Objectives and fronts -/

theorem crowdObjective_spec (o : ι → K) (st : List ι × (ι → WithTop K)) (h : 2 ≤ st.1.length) (hnd : st.1.Nodup) {k : ℕ}
    (hk : k + 1 ≤ 2 ^ 51) (hw : ∀ x ∈ st.1, Within k (st.2 x)) :
    (crowdObjective round64 (1 / 2 ^ 52) o st).1.Perm st.1 ∧
      (∃ m ∈ st.1, (∀ y ∈ st.1, o m ≤ o y) ∧
        ∀ x, (crowdObjective round64 (1 / 2 ^ 52) o st).2 x = ⊤ ↔ st.2 x = ⊤ ∨ x = m) ∧
      (∀ x ∈ st.1, Within (k + 1) ((crowdObjective round64 (1 / 2 ^ 52) o st).2 x)) ∧
      ∀ x, x ∉ st.1 → (crowdObjective round64 (1 / 2 ^ 52) o st).2 x = st.2 x := by
  have hperm := pySorted_perm o st.1
  have hsort := pySorted_sorted o st.1
  have hlen : 2 ≤ (pySorted o st.1).length := by rw [pySorted_length]; exact h
  have hnd' : (pySorted o st.1).Nodup := hperm.nodup_iff.2 hnd
  obtain ⟨prev, last, e2, pre, hpre⟩ := lastTwo_spec _ hlen
  have hmax : ∀ y ∈ st.1, o y ≤ o last := by
    intro y hy
    have hy' := hperm.mem_iff.2 hy
    rw [hpre] at hy' hsort
    rw [show pre ++ [prev, last] = (pre ++ [prev]) ++ [last] by simp] at hy' hsort
    rcases List.mem_append.1 hy' with hy' | hy'
    · exact (List.pairwise_append.1 hsort).2.2 y hy' last (by simp)
    · rw [List.mem_singleton.1 hy']
  cases hl : pySorted o st.1 with
  | nil => rw [hl] at hlen; simp at hlen
  | cons first rest =>
    have hfirst : first ∈ st.1 := hperm.mem_iff.1 (by rw [hl]; simp)
    have hlast : last ∈ st.1 := hperm.mem_iff.1 (by rw [hpre]; simp)
    have hprev : prev ∈ st.1 := hperm.mem_iff.1 (by rw [hpre]; simp)
    have hmin : ∀ y ∈ st.1, o first ≤ o y := by
      intro y hy
      have := hperm.mem_iff.2 hy
      rw [hl] at this hsort
      rcases List.mem_cons.1 this with rfl | hy
      · exact le_rfl
      · exact (List.pairwise_cons.1 hsort).1 y hy
    have hmem : ∀ x, x ∈ first :: rest ↔ x ∈ st.1 := by
      intro x; rw [← hl]; exact hperm.mem_iff
    have hne : last ≠ first := by
      rintro rfl
      rw [hl] at hpre hnd'
      rw [show pre ++ [prev, last] = (pre ++ [prev]) ++ [last] by simp] at hpre
      cases hq : pre ++ [prev] with
      | nil => simp at hq
      | cons q qs =>
        rw [hq] at hpre
        simp only [List.cons_append, List.cons.injEq] at hpre
        exact (List.nodup_cons.1 hnd').1 (by rw [hpre.2]; simp)
    have hc : crowdObjective round64 (1 / 2 ^ 52) o st = (first :: rest,
        addInner round64 (1 / 2 ^ 52) o (o first) (o last)
          (addDist round64 (Function.update st.2 first ⊤) last
            (crowdTerm round64 (1 / 2 ^ 52) (o first) (o last) (.last (o last) (o prev)))) (first :: rest)) := by
      unfold crowdObjective
      simp only [hl] at e2 ⊢
      rw [e2]
    rw [hc]
    refine ⟨by rw [← hl]; exact hperm, ⟨first, hfirst, hmin, ?_⟩, ?_, ?_⟩
    · intro x
      simp only [addInner_top, addDist_top]
      by_cases hx : x = first
      · simp [hx]
      · simp [hx]
    · intro x hxm
      by_cases hx : x = last
      · subst hx
        rw [hl] at hpre hnd'
        rw [show pre ++ [prev, x] = (pre ++ [prev]) ++ [x] by simp] at hpre
        simp only
        rw [addInner_last _ _ _ _ _ _ _ x (pre ++ [prev]) hpre (by
          rw [hpre] at hnd'
          intro hmem'
          exact (List.nodup_append.1 hnd').2.2 x hmem' x (by simp) rfl)]
        obtain ⟨c0, c1⟩ := crowdTerm_mem (lo := o first) (hi := o x) (p := .last (o x) (o prev))
          ⟨hmin prev hprev, hmax prev hprev, le_rfl⟩
        refine addDist_within x hk c0 c1 ?_
        rw [Function.update_of_ne hne]
        exact hw x hxm
      · refine addInner_within hk _ (by rw [← hl]; exact hnd') (by rw [← hl]; exact hsort)
          (fun y hy => ⟨hmin y ((hmem y).1 hy), hmax y ((hmem y).1 hy)⟩) _ x ?_
        rw [addDist_of_ne _ _ _ hx]
        by_cases hf : x = first
        · subst hf
          rw [Function.update_self]
          intro r hr
          cases hr
        · rw [Function.update_of_ne hf]
          exact hw x hxm
    · intro x hx
      have hx' : x ∉ first :: rest := fun h => hx ((hmem x).1 h)
      simp only
      rw [addInner_outside _ _ _ _ _ _ _ _ (fun h => hx' (List.mem_of_mem_tail h)), addDist_of_ne]
      · have : x ≠ first := fun h => hx (h ▸ hfirst)
        simp [this]
      · exact fun h => hx (h ▸ hlast)

theorem crowdObjectives_spec (objs : List (ι → K)) : ∀ (st : List ι × (ι → WithTop K)) (k : ℕ), 2 ≤ st.1.length →
    st.1.Nodup → k + objs.length ≤ 2 ^ 51 → (∀ x ∈ st.1, Within k (st.2 x)) →
    let r := objs.foldl (fun st o => crowdObjective round64 (1 / 2 ^ 52) o st) st
    (∃ ms, List.Forall₂ (fun o m => m ∈ st.1 ∧ ∀ y ∈ st.1, o m ≤ o y) objs ms ∧
        ∀ x, r.2 x = ⊤ ↔ st.2 x = ⊤ ∨ x ∈ ms) ∧
      (∀ x ∈ st.1, Within (k + objs.length) (r.2 x)) ∧ ∀ x, x ∉ st.1 → r.2 x = st.2 x := by
  induction objs with
  | nil => intro st k _ _ _ hw; exact ⟨⟨[], .nil, by simp⟩, hw, fun _ _ => rfl⟩
  | cons o objs ih =>
    intro st k h hnd hk hw
    rw [List.length_cons] at hk
    obtain ⟨hp, ⟨m, hm, hmin, htop⟩, hw', hout⟩ := crowdObjective_spec o st h hnd (by omega) hw
    obtain ⟨⟨ms, hms, htop'⟩, hw'', hout'⟩ := ih (crowdObjective round64 (1 / 2 ^ 52) o st) (k + 1)
      (by rw [hp.length_eq]; exact h) (hp.nodup_iff.2 hnd) (by omega) fun x hx => hw' x (hp.mem_iff.1 hx)
    simp only [List.foldl_cons]
    refine ⟨⟨m :: ms, .cons ⟨hm, hmin⟩ (hms.imp ?_), ?_⟩, ?_, ?_⟩
    · rintro a b ⟨h1, h2⟩
      exact ⟨hp.mem_iff.1 h1, fun y hy => h2 y (hp.mem_iff.2 hy)⟩
    · intro x
      rw [htop' x, htop x, List.mem_cons, or_assoc]
    · intro x hx
      rw [List.length_cons, show k + (objs.length + 1) = k + 1 + objs.length by ring]
      exact hw'' x (hp.mem_iff.2 hx)
    · intro x hx
      rw [hout' x (fun h => hx (hp.mem_iff.1 h)), hout x hx]

theorem crowdFront_spec (objs : List (ι → K)) (hm : objs.length ≤ 2 ^ 51) (f : List ι) (hnd : f.Nodup)
    (dist : ι → WithTop K) (hz : ∀ x ∈ f, dist x = 0) (hw : ∀ x, Within objs.length (dist x)) :
    FrontDist objs f (crowdFront round64 (1 / 2 ^ 52) objs dist f) ∧
      (∀ x, Within objs.length (crowdFront round64 (1 / 2 ^ 52) objs dist f x)) ∧
      ∀ x, x ∉ f → crowdFront round64 (1 / 2 ^ 52) objs dist f x = dist x := by
  match f with
  | [] => exact ⟨⟨by simp, by simp⟩, hw, fun _ _ => rfl⟩
  | [a] =>
    refine ⟨⟨by simp, ?_⟩, ?_, ?_⟩
    · intro x hx
      simp only [List.cons.injEq, and_true] at hx
      simp [crowdFront, hx]
    · intro x
      by_cases h : x = a
      · subst h
        simp only [crowdFront, Function.update_self]
        intro r hr
        obtain rfl : (0 : K) = r := WithTop.coe_injective hr
        exact ⟨le_rfl, by positivity⟩
      · simpa [crowdFront, h] using hw x
    · intro x hx
      have : x ≠ a := by simpa using hx
      simp [crowdFront, this]
  | a :: b :: rest =>
    obtain ⟨⟨ms, h1, h2⟩, h3, h4⟩ := crowdObjectives_spec objs (a :: b :: rest, dist) 0 (by simp) hnd (by omega) (by
      intro x hx r hr
      simp only [hz x hx] at hr
      obtain rfl : (0 : K) = r := WithTop.coe_injective hr
      simp)
    refine ⟨⟨fun _ => ⟨ms, h1, ?_⟩, by simp⟩, ?_, h4⟩
    · intro x hx
      have := h2 x
      simp only [hz x hx, WithTop.zero_ne_top, false_or] at this
      exact this
    · intro x
      by_cases hx : x ∈ a :: b :: rest
      · have := h3 x hx
        rwa [zero_add] at this
      · have := h4 x hx
        have e : crowdFront round64 (1 / 2 ^ 52) objs dist (a :: b :: rest) x = dist x := this
        rw [e]
        exact hw x

theorem crowding_spec (objs : List (ι → K)) (hm : objs.length ≤ 2 ^ 51) (fronts : List (List ι))
    (hnd : fronts.flatten.Nodup) :
    (∀ f ∈ fronts, FrontDist objs f (crowding round64 (1 / 2 ^ 52) objs fronts)) ∧
      ∀ x, Within objs.length (crowding round64 (1 / 2 ^ 52) objs fronts x) := by
  suffices H : ∀ (fronts : List (List ι)) (dist : ι → WithTop K), fronts.flatten.Nodup →
      (∀ x ∈ fronts.flatten, dist x = 0) → (∀ x, Within objs.length (dist x)) →
      (∀ f ∈ fronts, FrontDist objs f (fronts.foldl (crowdFront round64 (1 / 2 ^ 52) objs) dist)) ∧
      (∀ x, Within objs.length (fronts.foldl (crowdFront round64 (1 / 2 ^ 52) objs) dist x)) ∧
      ∀ x, x ∉ fronts.flatten → fronts.foldl (crowdFront round64 (1 / 2 ^ 52) objs) dist x = dist x by
    obtain ⟨h1, h2, -⟩ := H fronts (fun _ => 0) hnd (by simp) (by
      intro x r hr
      obtain rfl : (0 : K) = r := WithTop.coe_injective hr
      exact ⟨le_rfl, by positivity⟩)
    exact ⟨h1, h2⟩
  intro fronts
  induction fronts with
  | nil => intro dist _ _ h; exact ⟨by simp, h, fun _ _ => rfl⟩
  | cons f fs ih =>
    intro dist hnd hz hnn
    rw [List.flatten_cons, List.nodup_append] at hnd
    obtain ⟨hnd1, hnd2, hdis⟩ := hnd
    obtain ⟨h1, h2, h3⟩ := crowdFront_spec objs hm f hnd1 dist (fun x hx => hz x (by simp [hx])) hnn
    have hzz : ∀ x ∈ fs.flatten, crowdFront round64 (1 / 2 ^ 52) objs dist f x = 0 := by
      intro x hx
      rw [h3 x (fun h => hdis x h x hx rfl)]
      exact hz x (by rw [List.flatten_cons]; exact List.mem_append_right _ hx)
    obtain ⟨g1, g2, g3⟩ := ih (crowdFront round64 (1 / 2 ^ 52) objs dist f) hnd2 hzz h2
    simp only [List.foldl_cons]
    refine ⟨?_, g2, ?_⟩
    · intro f' hf'
      rcases List.mem_cons.1 hf' with rfl | hf'
      · have hsame : ∀ x ∈ f', fs.foldl (crowdFront round64 (1 / 2 ^ 52) objs) (crowdFront round64 (1 / 2 ^ 52) objs dist f') x
            = crowdFront round64 (1 / 2 ^ 52) objs dist f' x :=
          fun x hx => g3 x (fun h => hdis x hx x h rfl)
        refine ⟨fun hl => ?_, fun x hx => ?_⟩
        · obtain ⟨ms, k1, k2⟩ := h1.1 hl
          exact ⟨ms, k1, fun x hx => by rw [hsame x hx]; exact k2 x hx⟩
        · rw [hsame x (by simp [hx])]; exact h1.2 x hx
      · exact g1 f' hf'
    · intro x hx
      rw [List.flatten_cons, List.mem_append] at hx
      rw [g3 x (fun h => hx (.inr h)), h3 x (fun h => hx (.inl h))]

/-! ## Keys -/

theorem invDist_top (fl : K → K) (eps : K) : invDist fl eps ⊤ = 0 := rfl

theorem invDist_pos {m : ℕ} (hm : m ≤ 2 ^ 51) {d : WithTop K} (hw : Within m d) (h : d ≠ ⊤) :
    0 < invDist round64 (1 / 2 ^ 52) d := by
  have R := round64_isRounding (K := K)
  have e52 : round64 (1 / 2 ^ 52 : K) = 1 / 2 ^ 52 :=
    round64_float ⟨1, -52, by norm_num, by norm_num, by norm_num⟩
  cases d with
  | top => exact absurd rfl h
  | coe d =>
    obtain ⟨d0, d1⟩ := hw d rfl
    change 0 < crowdKey round64 (1 / 2 ^ 52) d
    unfold crowdKey
    have b1 : round64 (d + 1 / 2 ^ 52) ≤ 2 ^ 53 := by
      refine fl_le R (round64_float ⟨1, 53, by norm_num, by norm_num, by norm_num⟩) ?_
      have h3 : (m : K) ≤ 2 ^ 51 := by exact_mod_cast hm
      have h4 : (1 / 2 ^ 52 : K) ≤ 1 := by norm_num
      have h5 : (2 * 2 ^ 51 + 1 : K) ≤ 2 ^ 53 := by norm_num
      linarith
    have b0 : 1 / 2 ^ 52 ≤ round64 (d + 1 / 2 ^ 52) := le_fl R e52 (by linarith)
    have bp : 0 < round64 (d + 1 / 2 ^ 52) := lt_of_lt_of_le (by positivity) b0
    have : (1 / 2 ^ 53 : K) ≤ round64 (1 / round64 (d + 1 / 2 ^ 52)) := by
      refine le_fl R (round64_float ⟨1, -53, by norm_num, by norm_num, by norm_num⟩) ?_
      exact one_div_le_one_div_of_le bp b1
    exact lt_of_lt_of_le (by positivity) this

/-- A larger distance never has the larger key. -/
theorem invDist_anti {m : ℕ} (hm : m ≤ 2 ^ 51) {a b : WithTop K} (ha : Within m a) (hb : Within m b) (h : a ≤ b) :
    invDist round64 (1 / 2 ^ 52) b ≤ invDist round64 (1 / 2 ^ 52) a := by
  cases b with
  | top =>
    by_cases h' : a = ⊤
    · rw [h']
    · exact (invDist_pos hm ha h').le
  | coe b =>
    cases a with
    | top => simp at h
    | coe a => exact (C125_crowding (K := K) [] (by simp) (by simp)).2.2.2 a b (ha a rfl).1 (WithTop.coe_le_coe.1 h)

/-! ## C131 -/

/-- C131: in floating point, the crowding distances lie between 0 and twice the number of objectives or are infinite; in each
front with at least two members there is, for each objective, a member with the smallest value whose distance is infinite,
and nobody else has an infinite distance. -/
theorem C131_extremes (objs : List (ι → K)) (hm : objs.length ≤ 2 ^ 51) (fronts : List (List ι))
    (hnd : fronts.flatten.Nodup) :
    (∀ x r, crowding round64 (1 / 2 ^ 52) objs fronts x = (r : K) → 0 ≤ r ∧ r ≤ 2 * objs.length) ∧
      ∀ f ∈ fronts, 2 ≤ f.length →
        ∃ ms, List.Forall₂ (fun o m => m ∈ f ∧ ∀ y ∈ f, o m ≤ o y) objs ms ∧
          ∀ x ∈ f, crowding round64 (1 / 2 ^ 52) objs fronts x = ⊤ ↔ x ∈ ms := by
  obtain ⟨h1, h2⟩ := crowding_spec objs hm fronts hnd
  exact ⟨h2, fun f hf => (h1 f hf).1⟩

/-- C131: in floating point, inside one front nobody of infinite distance is discarded while somebody of finite distance is
kept. -/
theorem C131_prefers (objs : List (ι → K)) (hm : objs.length ≤ 2 ^ 51) (fronts : List (List ι))
    (hnd : fronts.flatten.Nodup) (size : ℕ) (pop : List ι) (x y : ι) (hxp : x ∈ pop)
    (hr : nsgaRank fronts x = nsgaRank fronts y) (hx : crowding round64 (1 / 2 ^ 52) objs fronts x = ⊤)
    (hy : crowding round64 (1 / 2 ^ 52) objs fronts y ≠ ⊤)
    (hyk : y ∈ nsgaSelection round64 (1 / 2 ^ 52) fronts (crowding round64 (1 / 2 ^ 52) objs fronts) size pop) :
    x ∈ nsgaSelection round64 (1 / 2 ^ 52) fronts (crowding round64 (1 / 2 ^ 52) objs fronts) size pop := by
  by_contra hnot
  have hw := (crowding_spec objs hm fronts hnd).2
  unfold nsgaSelection at hyk hnot
  have hxd := (List.mem_append.1 ((pySorted_take_drop (fun x => (toLex (nsgaRank fronts x,
    invDist round64 (1 / 2 ^ 52) (crowding round64 (1 / 2 ^ 52) objs fronts x)) : ℕ ×ₗ K)) pop size).mem_iff.2
      hxp)).resolve_left hnot
  have h := Prod.Lex.toLex_le_toLex.1 (pySorted_take_le _ hyk hxd)
  simp only [hr, lt_self_iff_false, false_or, true_and, hx, invDist_top] at h
  exact absurd (invDist_pos hm (hw y) hy) (not_lt.2 h)

/-- C131: in floating point, the selection succeeds; it returns `min size (number of candidates)` individuals, which together
with the discarded ones are the candidates, and no discarded one has a smaller rank than a kept one. -/
theorem C131_elitist (iter : List ι → List ι) (hiter : ∀ l, (iter l).Perm l) (objs : List (ι → K)) (size : ℕ)
    (pop : List ι) (hp : pop.Nodup) (fuel : ℕ) (hf : pop.length ≤ fuel) :
    ∃ kept lost, nsgaSelect round64 iter fuel (1 / 2 ^ 52) objs size pop = some kept ∧
      kept.length = min size pop.length ∧ (kept ++ lost).Perm pop ∧
      ∀ x ∈ kept, ∀ y ∈ lost, ∀ k j, IsRank (Nsgaii.Dom objs) pop x k → IsRank (Nsgaii.Dom objs) pop y j → k ≤ j := by
  have hd : ∀ x ∈ pop, (objs.map fun o => o x).length = objs.length := by simp
  obtain ⟨L, hL⟩ := (C05_nsgaii_sorts_by_rank iter hiter objs.length
    (fun x => objs.map fun o => o x) pop hp hd).1 fuel hf
  refine ⟨_, (pySorted (fun x => (toLex (nsgaRank L x, invDist round64 (1 / 2 ^ 52)
    (crowding round64 (1 / 2 ^ 52) objs L x)) : ℕ ×ₗ K)) pop).drop size,
    by unfold nsgaSelect; simp only at hL; rw [hL], ?_, ?_, ?_⟩
  · rw [nsgaSelection, List.length_take, pySorted_length]
  · exact pySorted_take_drop _ _ _
  · intro x hx y hy k j hk hj
    have hxp : x ∈ pop := (mem_pySorted _).1 (List.mem_of_mem_take hx)
    have hyp : y ∈ pop := (mem_pySorted _).1 (List.mem_of_mem_drop hy)
    have h1 := (C05_nsga_rank iter hiter objs.length _ pop hp hd fuel L hL x hxp k).2 hk
    have h2 := (C05_nsga_rank iter hiter objs.length _ pop hp hd fuel L hL y hyp j).2 hj
    have := pySorted_take_le _ hx hy
    have := (Prod.Lex.toLex_le_toLex.1 this)
    simp only [h1, h2] at this
    omega

/-- C131: in floating point, if there are at least as many places as objectives, the best value of every objective survives
the selection. -/
theorem C131_best_value_kept (iter : List ι → List ι) (hiter : ∀ l, (iter l).Perm l) (objs : List (ι → K))
    (hobj : objs.length ≤ 2 ^ 51) (size : ℕ) (h1 : 1 ≤ size) (hm : objs.length ≤ size) (pop : List ι) (hp : pop.Nodup)
    (fuel : ℕ) (hf : pop.length ≤ fuel) :
    ∃ kept, nsgaSelect round64 iter fuel (1 / 2 ^ 52) objs size pop = some kept ∧
      ∀ x ∈ pop, ∀ o ∈ objs, ∃ y ∈ kept, o y ≤ o x := by
  have hd : ∀ x ∈ pop, (objs.map fun o => o x).length = objs.length := by simp
  have hsort := C05_nsgaii_sorts_by_rank iter hiter objs.length
    (fun x => objs.map fun o => o x) pop hp hd
  obtain ⟨L, hL⟩ := hsort.1 fuel hf
  obtain ⟨hperm, -, hrank⟩ := hsort.2 fuel L hL
  have hnr := C05_nsga_rank iter hiter objs.length (fun x => objs.map fun o => o x) pop hp hd
    fuel L hL
  refine ⟨_, by unfold nsgaSelect; simp only at hL; rw [hL], ?_⟩
  intro x hx o ho
  have hLnd : L.flatten.Nodup := hperm.nodup_iff.2 hp
  obtain ⟨hfd, hnn⟩ := crowding_spec objs hobj L hLnd
  set dist := crowding round64 (1 / 2 ^ 52) objs L with hdist
  set key := fun x => (toLex (nsgaRank L x, invDist round64 (1 / 2 ^ 52) (dist x)) : ℕ ×ₗ K) with hkeydef
  set s := pySorted key pop with hs
  change ∃ y ∈ s.take size, _
  obtain ⟨k, hk⟩ : ∃ k, IsRank (Nsgaii.Dom objs) pop x k := by
    have := hperm.mem_iff.2 hx
    rw [List.mem_flatten] at this
    obtain ⟨l, hl, hyl⟩ := this
    obtain ⟨k, hk⟩ := List.getElem?_of_mem hl
    exact ⟨k, (hrank k x).1 ⟨l, hk, hyl⟩⟩
  obtain ⟨x', hx'0, hx'o⟩ := Nsgaii.exists_rank_zero (Nsgaii.Dom objs) pop (fun a b => o a ≤ o b)
    (fun _ => le_rfl) (by
      intro a b c hab hbc
      refine hab.trans ?_
      obtain ⟨i, hi, rfl⟩ := List.getElem_of_mem ho
      exact Nsgaii.LDom_map_le hbc i hi) k x hk
  obtain ⟨f, hf0, hx'f⟩ := (hrank 0 x').2 hx'0
  have hfL : f ∈ L := List.mem_of_getElem? hf0
  have hmemf : ∀ y, y ∈ pop → nsgaRank L y ≤ 1 → y ∈ f := by
    intro y hy hle
    have hy' : ∃ j, IsRank (Nsgaii.Dom objs) pop y j := by
      have := hperm.mem_iff.2 hy
      rw [List.mem_flatten] at this
      obtain ⟨l, hl, hyl⟩ := this
      obtain ⟨k, hk⟩ := List.getElem?_of_mem hl
      exact ⟨k, (hrank k y).1 ⟨l, hk, hyl⟩⟩
    obtain ⟨j, hj⟩ := hy'
    have := (hnr y hy j).2 hj
    obtain rfl : j = 0 := by omega
    obtain ⟨f', hf', hyf'⟩ := (hrank 0 y).2 hj
    rw [hf0] at hf'
    obtain rfl := Option.some.inj hf'
    exact hyf'
  have hrank1 : ∀ y ∈ f, nsgaRank L y = 1 ∧ y ∈ pop := by
    intro y hy
    have h0 := (hrank 0 y).1 ⟨f, hf0, hy⟩
    have hyp : y ∈ pop := h0.1
    exact ⟨(hnr y hyp 0).2 h0, hyp⟩
  have hkey : ∀ y z, y ∈ s.take size → z ∈ s.drop size →
      nsgaRank L y < nsgaRank L z ∨
        nsgaRank L y = nsgaRank L z ∧
          invDist round64 (1 / 2 ^ 52) (dist y) ≤ invDist round64 (1 / 2 ^ 52) (dist z) := by
    intro y z hy hz
    exact Prod.Lex.toLex_le_toLex.1 (pySorted_take_le _ hy hz)
  have hspl : ∀ z ∈ pop, z ∉ s.take size → z ∈ s.drop size := by
    intro z hz hn
    have := (pySorted_take_drop key pop size).mem_iff.2 hz
    exact (List.mem_append.1 this).resolve_left hn
  have htp : ∀ z ∈ s.take size, z ∈ pop := fun z hz =>
    (mem_pySorted _).1 (List.mem_of_mem_take hz)
  have hsnd : s.Nodup := (pySorted_perm _ pop).nodup_iff.2 hp
  by_cases hlen : 2 ≤ f.length
  · obtain ⟨ms, hms, htop⟩ := (hfd f hfL).1 hlen
    obtain ⟨i, hi, rfl⟩ := List.getElem_of_mem ho
    have hi' : i < ms.length := by rw [← hms.length_eq]; exact hi
    obtain ⟨g1, g2⟩ := (List.forall₂_iff_get.1 hms).2 i hi hi'
    simp only [List.get_eq_getElem] at g1 g2
    refine ⟨ms[i], ?_, (g2 x' hx'f).trans hx'o⟩
    by_contra hnot
    have hdrop := hspl _ (hrank1 _ g1).2 hnot
    have hmtop : dist ms[i] = ⊤ := (htop _ g1).2 (List.getElem_mem hi')
    have hall : ∀ y ∈ s.take size, y ∈ ms := by
      intro y hy
      have h := hkey y _ hy hdrop
      rw [(hrank1 _ g1).1, hmtop, invDist_top] at h
      have hyf : y ∈ f := hmemf y (htp y hy) (by omega)
      have h2 : invDist round64 (1 / 2 ^ 52) (dist y) ≤ 0 := by
        rcases h with h | h
        · have := (hrank1 y hyf).1; omega
        · exact h.2
      rw [← htop y hyf]
      by_contra hne
      exact absurd (invDist_pos hobj (hnn y) hne) (not_lt.2 h2)
    have hnd' : (ms[i] :: s.take size).Nodup :=
      List.nodup_cons.2 ⟨hnot, hsnd.sublist (List.take_sublist _ _)⟩
    have hle : (ms[i] :: s.take size).length ≤ ms.length := by
      apply List.Subperm.length_le
      apply List.subperm_of_subset hnd'
      intro y hy
      rcases List.mem_cons.1 hy with rfl | hy
      · exact List.getElem_mem hi'
      · exact hall y hy
    have hdl : 0 < (s.drop size).length := List.length_pos_iff.2 (List.ne_nil_of_mem hdrop)
    rw [List.length_drop] at hdl
    rw [List.length_cons, List.length_take, ← hms.length_eq] at hle
    omega
  · have hfx : f = [x'] := by
      match f, hx'f, hlen with
      | [a], h, _ => simp at h; simp [h]
      | a :: b :: r, _, h => simp at h
    refine ⟨x', ?_, hx'o⟩
    by_contra hnot
    have hdrop := hspl _ (hrank1 _ hx'f).2 hnot
    have hdl : 0 < (s.drop size).length := List.length_pos_iff.2 (List.ne_nil_of_mem hdrop)
    rw [List.length_drop] at hdl
    have hpos : 0 < (s.take size).length := by rw [List.length_take]; omega
    have hy : (s.take size)[0] ∈ s.take size := List.getElem_mem hpos
    have h := hkey _ _ hy hdrop
    rw [(hrank1 _ hx'f).1] at h
    have hyf := hmemf _ (htp _ hy) (by omega)
    rw [hfx] at hyf
    rw [List.mem_singleton.1 hyf] at hy
    exact hnot hy

/-- C131: in floating point, over any number of steps the best value found so far in any objective is never lost. -/
theorem C131_run (iter : List ι → List ι) (hiter : ∀ l, (iter l).Perm l) (objs : List (ι → K))
    (hobj : objs.length ≤ 2 ^ 51) (size : ℕ) (h1 : 1 ≤ size) (hm : objs.length ≤ size) (fuel : ℕ)
    (batches : List (List ι)) :
    ∀ pop : List ι, (pop ++ batches.flatten).Nodup → (pop ++ batches.flatten).length ≤ fuel →
    ∃ final, nsgaRun round64 iter fuel (1 / 2 ^ 52) objs size pop batches = some final ∧
      (∀ x ∈ pop ++ batches.flatten, ∀ o ∈ objs, ∃ y ∈ final, o y ≤ o x) ∧
      ∀ x ∈ final, x ∈ pop ++ batches.flatten := by
  induction batches with
  | nil =>
    intro pop _ _
    refine ⟨pop, rfl, ?_, by simp⟩
    intro x hx o _
    exact ⟨x, by simpa using hx, le_rfl⟩
  | cons off rest ih =>
    intro pop hnd hlen
    have hpnd : pop.Nodup := (List.nodup_append.1 hnd).1
    have hpl : pop.length ≤ fuel := by rw [List.length_append] at hlen; omega
    obtain ⟨kept, e, hbest⟩ := C131_best_value_kept iter hiter objs hobj size h1 hm pop hpnd fuel hpl
    obtain ⟨kept', lost, e', hkl, hperm, -⟩ := C131_elitist iter hiter objs size pop hpnd fuel hpl
    obtain rfl : kept = kept' := Option.some.inj (e.symm.trans e')
    have hbig : ((kept ++ off ++ rest.flatten) ++ lost).Perm (pop ++ (off :: rest).flatten) := by
      rw [List.flatten_cons]
      calc ((kept ++ off ++ rest.flatten) ++ lost)
          = kept ++ ((off ++ rest.flatten) ++ lost) := by simp only [List.append_assoc]
        _ |>.Perm (kept ++ (lost ++ (off ++ rest.flatten))) :=
            List.Perm.append_left _ List.perm_append_comm
        _ = (kept ++ lost) ++ (off ++ rest.flatten) := by simp only [List.append_assoc]
        _ |>.Perm (pop ++ (off ++ rest.flatten)) := hperm.append_right _
    have hnd' : (kept ++ off ++ rest.flatten).Nodup :=
      (List.nodup_append.1 (hbig.nodup_iff.2 hnd)).1
    have hlen' : (kept ++ off ++ rest.flatten).length ≤ fuel := by
      have := hbig.length_eq
      rw [List.length_append] at this; omega
    obtain ⟨final, hr, hb, hsub⟩ := ih (kept ++ off) hnd' hlen'
    refine ⟨final, by rw [nsgaRun, e]; exact hr, ?_, ?_⟩
    · intro x hx o ho
      rcases List.mem_append.1 hx with hx | hx
      · obtain ⟨y, hy, hyx⟩ := hbest x hx o ho
        obtain ⟨z, hz, hzy⟩ := hb y (by simp [hy]) o ho
        exact ⟨z, hz, hzy.trans hyx⟩
      · apply hb x _ o ho
        rw [List.flatten_cons] at hx
        rcases List.mem_append.1 hx with hx | hx
        · simp [hx]
        · exact List.mem_append_right _ hx
    · intro x hx
      exact hbig.mem_iff.1 (List.mem_append_left _ (hsub x hx))

/-- Two steps with rounded distances; the best value 0 of the first objective survives. -/
example : nsgaRun round64 id 6 (1 / 2 ^ 52 : ℚ) [fun i : ℕ => ([3, 1, 2, 4, 0, 5][i]?).getD 0,
    fun i : ℕ => ([3, 2, 1, 4, 9, 5][i]?).getD 0] 2 [0, 1, 2] [[3, 4], [5]] = some [2, 4, 5] := by decide +kernel

/-- A front of four with one rounded distance. -/
example : crowding round64 (1 / 2 ^ 52 : ℚ) [fun i : ℕ => ([0, 1, 2, 3][i]?).getD 0, fun i : ℕ => ([3, 2, 1, 0][i]?).getD 0]
    [[0, 1, 2, 3]] 1 = ((round64 (2 * round64 (2 / round64 (3 + 1 / 2 ^ 52))) : ℚ) : WithTop ℚ) := by decide +kernel

end Evogil.Rounded
