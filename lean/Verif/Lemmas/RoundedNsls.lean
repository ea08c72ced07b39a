import Verif.Model.RoundedNsls
import Verif.Props.RoundedMoves
import Verif.Props.NslsRun

/-!
# A rounded local search is an exact one with other draws

Rounding the coordinates first is a trim function; and a rounded difference is a multiple of the exact one.
-/

set_option linter.unusedSectionVars false

namespace Evogil.Rounded.Nsls

open Spec Binary64
open Evogil.Nsls (Ind LsDraw Costed evaluate domI replacement allObjectives nextGeneration stepCost TrimOk)

variable {K : Type*} [Field K] [LinearOrder K] [IsStrictOrderedRing K] [FloorRing K]
variable {dims : List (K × K)} {trim : List K → List K} {f : List K → List K} {m : ℕ}
variable {vdist : List K → List K → K}

/-- Round every coordinate, then trim. -/
def rtrim (trim : List K → List K) (v : List K) : List K := trim (v.map round64)

theorem rtrim_ok (hd : FloatBox round64 dims) (ht : TrimOk dims trim) : TrimOk dims (rtrim trim) := by
  refine ⟨fun v => by simp [rtrim, ht.length], ?_⟩
  intro v k x y d hx hy hdk h1 h2
  have hdm := hd d (List.mem_of_getElem? hdk)
  exact ht.coord (v.map round64) k (round64 x) y d (by simp [hx]) hy hdk
    (le_fl round64_isRounding hdm.1 h1) (fl_le round64_isRounding hdm.2.1 h2)

theorem map_floats {v : List K} (hv : Floats round64 v) : v.map round64 = v := by
  conv_rhs => rw [← List.map_id v]
  exact List.map_congr_left fun x hx => hv x hx

theorem rtrim_set {x : List K} (hx : Floats round64 x) (k : ℕ) (y : K) :
    rtrim trim (x.set k y) = trim (x.set k (round64 y)) := by
  unfold rtrim
  rw [List.map_set, map_floats hx]

theorem floats_set {x : List K} (hx : Floats round64 x) (k : ℕ) {y : K} (hy : round64 y = y) :
    Floats round64 (x.set k y) := by
  intro z hz
  rcases List.mem_or_eq_of_mem_set hz with h | rfl
  · exact hx z h
  · exact hy

/-- A trial vector, if it can be computed, consists of floats. -/
theorem trialVector_floats (hf : ∀ v, Floats round64 v → Floats round64 (trim v)) {x u v w : List K}
    (hx : Floats round64 x) {k : ℕ} {c sign : K}
    (h : trialVector round64 dims trim x u v k c sign = .ok w) : Floats round64 w := by
  unfold trialVector at h
  split at h
  · rename_i xk d uk vk h1 h2 h3 h4
    have hw := hf _ (floats_set hx k (round64_round64 (xk + sign * round64 (c * round64 (uk - vk)))))
    simp only at h
    split at h
    · split_ifs at h
      · cases h
        exact floats_set hw _ (hx _ (List.mem_of_getElem? h1))
      · cases h
        exact hw
    · cases h
  · cases h

/-- The trial vector is the exact one for the rounded difference. -/
theorem trialVector_sim {x u v : List K} (hx : Floats round64 x) (k : ℕ) (c sign : K) {uk vk : K}
    (hu : u[k]? = some uk) (hv : v[k]? = some vk) :
    (match trialVector round64 dims trim x u v k c sign with
      | .ok w => some w
      | .error _ => none)
      = Evogil.Nsls.trialVector dims (rtrim trim) x k (sign * round64 (c * round64 (uk - vk))) := by
  unfold trialVector Evogil.Nsls.trialVector
  rw [hu, hv]
  cases hxk : x[k]? with
  | none => simp
  | some xk =>
    cases hd : dims[k]? with
    | none => simp
    | some d =>
      simp only
      rw [rtrim_set hx]
      cases hw : (trim (x.set k (round64 (xk + sign * round64 (c * round64 (uk - vk))))))[k]? with
      | none => simp
      | some wk =>
        simp only
        split_ifs <;> rfl

/-- The factor of the exact local search. -/
def factor (c uk vk : K) : K :=
  if uk = vk then 0 else round64 (c * round64 (uk - vk)) / (uk - vk)

theorem factor_eq (c uk vk : K) : factor c uk vk * (uk - vk) = round64 (c * round64 (uk - vk)) := by
  unfold factor
  split_ifs with h
  · simp [h, fl_zero (round64_isRounding (K := K))]
  · rw [div_mul_cancel₀]
    exact sub_ne_zero.2 h

/-- The same positions and choices. -/
def SameChoices (d d' : LsDraw K) : Prop := d'.pu = d.pu ∧ d'.pv = d.pv ∧ d'.plusFirst = d.plusFirst

/-- All vectors are vectors of floats. -/
def AllFloats (cur : List (Ind K × Bool)) : Prop := ∀ p ∈ cur, Floats round64 p.1.v

theorem lsTurn_sim (i k : ℕ) (d : LsDraw K) {cur : List (Ind K × Bool)} (hc : AllFloats cur) :
    ∃ d', SameChoices d d' ∧
      lsTurn round64 dims trim f i k d cur = Evogil.Nsls.lsTurn dims (rtrim trim) f i k d' cur := by
  unfold lsTurn
  by_cases hlen : cur.length < 2
  · exact ⟨d, ⟨rfl, rfl, rfl⟩, by simp [Evogil.Nsls.lsTurn, hlen]⟩
  cases hx : cur[i]? with
  | none => exact ⟨d, ⟨rfl, rfl, rfl⟩, by simp [Evogil.Nsls.lsTurn, hx]⟩
  | some x =>
    cases hu : cur[d.pu]? with
    | none => exact ⟨d, ⟨rfl, rfl, rfl⟩, by simp [Evogil.Nsls.lsTurn, hx, hu]⟩
    | some u =>
      cases hv : cur[d.pv]? with
      | none => exact ⟨d, ⟨rfl, rfl, rfl⟩, by simp [Evogil.Nsls.lsTurn, hx, hu, hv]⟩
      | some v =>
        simp only [if_neg hlen]
        cases huk : u.1.v[k]? with
        | none =>
          refine ⟨d, ⟨rfl, rfl, rfl⟩, ?_⟩
          simp only [Evogil.Nsls.lsTurn, if_neg hlen, hx, hu, hv, huk, trialVector]
          cases x.1.v[k]? <;> cases dims[k]? <;> rfl
        | some uk =>
          cases hvk : v.1.v[k]? with
          | none =>
            refine ⟨d, ⟨rfl, rfl, rfl⟩, ?_⟩
            simp only [Evogil.Nsls.lsTurn, if_neg hlen, hx, hu, hv, huk, hvk, trialVector]
            cases x.1.v[k]? <;> cases dims[k]? <;> rfl
          | some vk =>
            refine ⟨{ d with c := factor d.c uk vk }, ⟨rfl, rfl, rfl⟩, ?_⟩
            have hfx : Floats round64 x.1.v := hc x (List.mem_of_getElem? hx)
            have e1 := trialVector_sim (dims := dims) (trim := trim) hfx k d.c 1 huk hvk
            have e2 := trialVector_sim (dims := dims) (trim := trim) hfx k d.c (-1) huk hvk
            rw [one_mul] at e1
            rw [neg_one_mul] at e2
            simp only [Evogil.Nsls.lsTurn, if_neg hlen, hx, hu, hv, huk, hvk, factor_eq]
            rw [← e1, ← e2]
            cases trialVector round64 dims trim x.1.v u.1.v v.1.v k d.c 1 with
            | error _ => rfl
            | ok p =>
              cases trialVector round64 dims trim x.1.v u.1.v v.1.v k d.c (-1) with
              | error _ => rfl
              | ok q => rfl

theorem replacement_or {b1 b2 b3 b4 b5 : Bool} {p q w : Ind K} (h : replacement b1 b2 b3 b4 b5 p q = some w) :
    w = p ∨ w = q := by
  unfold replacement at h
  cases b5 <;> split_ifs at h <;> simp at h <;> simp [h]

theorem evaluate_v (x : Ind K) : (evaluate f x).v = x.v := by
  unfold evaluate
  split <;> rfl

theorem lsTurn_floats (hf : ∀ v, Floats round64 v → Floats round64 (trim v)) {i k : ℕ} {d : LsDraw K}
    {cur cur' : List (Ind K × Bool)} (hc : AllFloats cur)
    (h : lsTurn round64 dims trim f i k d cur = some cur') : AllFloats cur' := by
  unfold lsTurn at h
  split_ifs at h
  split at h
  · rename_i x u v hx hu hv
    have hfx : Floats round64 x.1.v := hc x (List.mem_of_getElem? hx)
    split at h
    · rename_i p q hp hq
      simp only at h
      split at h
      · split at h
        · rename_i w hw
          obtain rfl := Option.some.inj h
          intro z hz
          rcases List.mem_or_eq_of_mem_set hz with h' | rfl
          · exact hc z h'
          · rcases replacement_or hw with rfl | rfl
            · rw [evaluate_v]; exact trialVector_floats hf hfx hp
            · rw [evaluate_v]; exact trialVector_floats hf hfx hq
        · obtain rfl := Option.some.inj h; exact hc
      · cases h
    · cases h
  · cases h

theorem exact_lsInner_congr {trim' : List K → List K} {i : ℕ} {ds ds' : ℕ → LsDraw K} : ∀ (ks : List ℕ)
    (cur : List (Ind K × Bool)), (∀ k ∈ ks, ds k = ds' k) →
    Evogil.Nsls.lsInner dims trim' f i ds ks cur = Evogil.Nsls.lsInner dims trim' f i ds' ks cur := by
  intro ks
  induction ks with
  | nil => intro cur _; rfl
  | cons k ks ih =>
    intro cur h
    rw [Evogil.Nsls.lsInner, Evogil.Nsls.lsInner, h k (by simp)]
    split
    · rfl
    · exact ih _ fun j hj => h j (by simp [hj])

theorem exact_lsOuter_congr {trim' : List K → List K} {ds ds' : ℕ → ℕ → LsDraw K} : ∀ (is : List ℕ)
    (cur : List (Ind K × Bool)), (∀ k ∈ is, ds k = ds' k) →
    Evogil.Nsls.lsOuter dims trim' f ds is cur = Evogil.Nsls.lsOuter dims trim' f ds' is cur := by
  intro is
  induction is with
  | nil => intro cur _; rfl
  | cons k ks ih =>
    intro cur h
    rw [Evogil.Nsls.lsOuter, Evogil.Nsls.lsOuter, h k (by simp)]
    split
    · rfl
    · exact ih _ fun j hj => h j (by simp [hj])

theorem lsInner_sim (hf : ∀ v, Floats round64 v → Floats round64 (trim v)) (i : ℕ) (ds : ℕ → LsDraw K) :
    ∀ (ks : List ℕ) (cur : List (Ind K × Bool)), ks.Nodup → AllFloats cur →
      (∃ ds', (∀ k, SameChoices (ds k) (ds' k)) ∧
        lsInner round64 dims trim f i ds ks cur = Evogil.Nsls.lsInner dims (rtrim trim) f i ds' ks cur) ∧
      ∀ cur', lsInner round64 dims trim f i ds ks cur = some cur' → AllFloats cur' := by
  intro ks
  induction ks with
  | nil =>
    intro cur _ hc
    exact ⟨⟨ds, fun k => ⟨rfl, rfl, rfl⟩, rfl⟩, fun cur' h => by rw [lsInner] at h; cases h; exact hc⟩
  | cons k ks ih =>
    intro cur hk hc
    rw [List.nodup_cons] at hk
    obtain ⟨d', hd', e⟩ := lsTurn_sim (dims := dims) (trim := trim) (f := f) i k (ds k) hc
    rw [lsInner]
    cases ht : lsTurn round64 dims trim f i k (ds k) cur with
    | none =>
      refine ⟨⟨Function.update ds k d', ?_, ?_⟩, by simp⟩
      · intro j
        by_cases hj : j = k
        · subst hj; simpa using hd'
        · rw [Function.update_of_ne hj]; exact ⟨rfl, rfl, rfl⟩
      · rw [Evogil.Nsls.lsInner, Function.update_self, ← e, ht]
    | some cur1 =>
      obtain ⟨⟨ds', h1, h2⟩, h3⟩ := ih cur1 hk.2 (lsTurn_floats hf hc ht)
      refine ⟨⟨Function.update ds' k d', ?_, ?_⟩, h3⟩
      · intro j
        by_cases hj : j = k
        · subst hj; simpa using hd'
        · rw [Function.update_of_ne hj]; exact h1 j
      · rw [Evogil.Nsls.lsInner, Function.update_self, ← e, ht]
        simp only
        rw [h2]
        refine exact_lsInner_congr ks cur1 fun j hj => ?_
        rw [Function.update_of_ne]
        rintro rfl
        exact hk.1 hj

theorem lsOuter_sim (hf : ∀ v, Floats round64 v → Floats round64 (trim v)) (ds : ℕ → ℕ → LsDraw K) :
    ∀ (is : List ℕ) (cur : List (Ind K × Bool)), is.Nodup → AllFloats cur →
      (∃ ds', (∀ i k, SameChoices (ds i k) (ds' i k)) ∧
        lsOuter round64 dims trim f ds is cur = Evogil.Nsls.lsOuter dims (rtrim trim) f ds' is cur) ∧
      ∀ cur', lsOuter round64 dims trim f ds is cur = some cur' → AllFloats cur' := by
  intro is
  induction is with
  | nil =>
    intro cur _ hc
    exact ⟨⟨ds, fun i k => ⟨rfl, rfl, rfl⟩, rfl⟩, fun cur' h => by rw [lsOuter] at h; cases h; exact hc⟩
  | cons k ks ih =>
    intro cur hk hc
    rw [List.nodup_cons] at hk
    obtain ⟨⟨d', hd', e⟩, hfl⟩ := lsInner_sim (dims := dims) (f := f) hf k (ds k) (List.range dims.length) cur
      List.nodup_range hc
    rw [lsOuter]
    cases ht : lsInner round64 dims trim f k (ds k) (List.range dims.length) cur with
    | none =>
      refine ⟨⟨Function.update ds k d', ?_, ?_⟩, by simp⟩
      · intro j
        by_cases hj : j = k
        · subst hj; simpa using hd'
        · rw [Function.update_of_ne hj]; exact fun _ => ⟨rfl, rfl, rfl⟩
      · rw [Evogil.Nsls.lsOuter, Function.update_self, ← e, ht]
    | some cur1 =>
      obtain ⟨⟨ds', h1, h2⟩, h3⟩ := ih cur1 hk.2 (hfl _ ht)
      refine ⟨⟨Function.update ds' k d', ?_, ?_⟩, h3⟩
      · intro j
        by_cases hj : j = k
        · subst hj; simpa using hd'
        · rw [Function.update_of_ne hj]; exact h1 j
      · rw [Evogil.Nsls.lsOuter, Function.update_self, ← e, ht]
        simp only
        rw [h2]
        refine exact_lsOuter_congr ks cur1 fun j hj => ?_
        rw [Function.update_of_ne]
        rintro rfl
        exact hk.1 hj

/-- A rounded local search is an exact one with other factors and the trim function that rounds first. -/
theorem localSearch_sim (hf : ∀ v, Floats round64 v → Floats round64 (trim v)) (ds : ℕ → ℕ → LsDraw K)
    {inds : List (Ind K)} (hi : ∀ x ∈ inds, Floats round64 x.v) :
    (∃ ds', (∀ i k, SameChoices (ds i k) (ds' i k)) ∧
      localSearch round64 dims trim f ds inds = Evogil.Nsls.localSearch dims (rtrim trim) f ds' inds) ∧
    ∀ all, localSearch round64 dims trim f ds inds = some all → ∀ x ∈ all, Floats round64 x.v := by
  obtain ⟨⟨ds', h1, h2⟩, h3⟩ := lsOuter_sim (dims := dims) (f := f) hf ds (List.range inds.length)
    (inds.map fun x => (x, false)) List.nodup_range (by
      intro p hp
      obtain ⟨x, hx, rfl⟩ := List.mem_map.1 hp
      exact hi x hx)
  refine ⟨⟨ds', h1, by rw [localSearch, h2]; rfl⟩, ?_⟩
  intro all hall x hx
  unfold localSearch at hall
  split at hall
  · cases hall
  · rename_i cur hcur
    obtain rfl := Option.some.inj hall
    rcases List.mem_append.1 hx with h | h
    · exact hi x h
    · obtain ⟨p, hp, rfl⟩ := List.mem_map.1 h
      exact h3 cur hcur p (List.mem_of_mem_filter hp)

theorem step_sim (hf : ∀ v, Floats round64 v → Floats round64 (trim v)) (ds : ℕ → ℕ → LsDraw K)
    (iter : List ℕ → List ℕ) (sample : List ℕ → ℕ → List ℕ) (size : ℕ)
    {inds : List (Ind K)} (hi : ∀ x ∈ inds, Floats round64 x.v) :
    (∃ ds', (∀ i k, SameChoices (ds i k) (ds' i k)) ∧
      localSearch round64 dims trim f ds (inds.map (evaluate f))
        = Evogil.Nsls.localSearch dims (rtrim trim) f ds' (inds.map (evaluate f)) ∧
      ∀ fuel, step round64 dims trim f m vdist ds iter sample fuel size inds
        = Evogil.Nsls.step dims (rtrim trim) f m vdist ds' iter sample fuel size inds) ∧
    ∀ fuel r, step round64 dims trim f m vdist ds iter sample fuel size inds = some r →
      ∀ x ∈ r, Floats round64 x.v := by
  have hi' : ∀ x ∈ inds.map (evaluate f), Floats round64 x.v := by
    intro x hx
    obtain ⟨y, hy, rfl⟩ := List.mem_map.1 hx
    rw [evaluate_v]
    exact hi y hy
  obtain ⟨⟨ds', h1, h2⟩, h3⟩ := localSearch_sim (dims := dims) (f := f) hf ds hi'
  refine ⟨⟨ds', h1, h2, fun fuel => by rw [step, h2]; rfl⟩, ?_⟩
  intro fuel r hr x hx
  unfold step at hr
  split at hr
  · cases hr
  · rename_i all hall
    split at hr
    · cases hr
    · simp only at hr
      split at hr
      · cases hr
      · obtain rfl := Option.some.inj hr
        obtain ⟨j, _, hj⟩ := List.mem_filterMap.1 hx
        exact h3 all hall x (List.mem_of_getElem? hj)

end Evogil.Rounded.Nsls
