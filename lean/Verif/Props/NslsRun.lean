import Verif.Model.NslsRun
import Verif.Props.Nsls
import Verif.Props.GenerationsRun

/-!
# C102: runs of NSLS
-/

set_option linter.unusedSectionVars false

namespace Evogil.Nsls

open Spec Generations

variable {K : Type*} [Field K] [LinearOrder K] [IsStrictOrderedRing K]
variable {dims : List (K × K)} {trim : List K → List K} {f : List K → List K} {m : ℕ}
variable {vdist : List K → List K → K}

theorem TrimOk.box (ht : TrimOk dims trim) {v : List K} (hv : InBox v dims) :
    InBox (trim v) dims := by
  unfold InBox at *
  rw [List.forall₂_iff_get] at hv ⊢
  obtain ⟨hl, hv⟩ := hv
  refine ⟨by rw [ht.length, hl], fun i h1 h2 => ?_⟩
  have hi : i < v.length := by rw [hl]; exact h2
  obtain ⟨a, b⟩ := hv i hi h2
  exact ht.coord v i _ _ _ (List.getElem?_eq_getElem hi) (List.getElem?_eq_getElem h1)
    (List.getElem?_eq_getElem h2) a b

/-- The draws of one step are valid. -/
structure DrawsOk (N : ℕ) (ds : ℕ → ℕ → LsDraw K) (iter : List ℕ → List ℕ)
    (sample : List ℕ → ℕ → List ℕ) : Prop where
  pairs : ∀ i k, (ds i k).pu < N ∧ (ds i k).pv < N
  iter : ∀ l, (iter l).Perm l
  sample : ∀ l n, n ≤ l.length → IsSample l n (sample l n)

/-- The local search with these draws finds for at least one individual a trial which is not dominated
by it. -/
def Productive (dims : List (K × K)) (trim : List K → List K) (f : List K → List K)
    (ds : ℕ → ℕ → LsDraw K) (inds : List (Ind K)) : Prop :=
  localSearch dims trim f ds (inds.map (evaluate f)) ≠ some (inds.map (evaluate f))

/-- What holds between the steps of a run with `N` individuals; `done` says whether a step has been
made. -/
structure CGood (dims : List (K × K)) (f : List K → List K) (N : ℕ) (done : Bool) (s : Costed K) :
    Prop where
  size : s.size = N
  length : s.inds.length = N
  box : ∀ x ∈ s.inds, InBox x.v dims
  objs : ∀ x ∈ s.inds, x.objectives = if done then some (f x.v) else none

theorem CGood.stepCost {N : ℕ} {done : Bool} {s : Costed K} (h : CGood dims f N done s) :
    Nsls.stepCost dims s.inds = (if done then 0 else N) + N * (dims.length * 2) := by
  unfold Nsls.stepCost
  rw [h.length]
  congr 1
  cases done with
  | true =>
    rw [List.filter_eq_nil_iff.2]
    · rfl
    · intro x hx; rw [h.objs x hx]; simp
  | false =>
    rw [List.filter_eq_self.2, h.length]
    · rfl
    · intro x hx; rw [h.objs x hx]; rfl

theorem CGood.step (ht : TrimOk dims trim) (hf : ∀ v, (f v).length = m) (hm : 1 ≤ m) {N : ℕ}
    (h2 : 2 ≤ N) {done : Bool} {s : Costed K} (h : CGood dims f N done s)
    {ds : ℕ → ℕ → LsDraw K} {iter : List ℕ → List ℕ} {sample : List ℕ → ℕ → List ℕ}
    (hd : DrawsOk N ds iter sample) :
    (Productive dims trim f ds s.inds → ∃ s', stepCosted dims trim f m vdist ds iter sample s = some s'
      ∧ CGood dims f N true s' ∧
      s'.cost = s.cost + (if done then 0 else N) + N * (dims.length * 2)) ∧
    (¬ Productive dims trim f ds s.inds →
      stepCosted dims trim f m vdist ds iter sample s = none ∧
      ∀ fuel, Nsls.step dims trim f m vdist ds iter sample fuel s.size s.inds = none) := by
  obtain ⟨new, n1, n2, n3⟩ := C32_step ht hf hm vdist ds iter hd.iter sample hd.sample
    (inds := s.inds) (by rw [h.length]; exact h2) (by rw [h.length]; exact hd.pairs) (by
      intro x hx
      refine ⟨h.box x hx, fun o ho => ?_⟩
      rw [h.objs x hx] at ho
      split_ifs at ho
      exact (Option.some.inj ho).symm)
  have hprod : Productive dims trim f ds s.inds ↔ new ≠ [] := by
    unfold Productive
    rw [n1]
    simp
  have hsz : s.inds.length = s.size := by rw [h.length, h.size]
  rw [hprod]
  constructor
  · intro hne
    obtain ⟨r, r1, r2, r3⟩ := n2 hne (2 * s.size + 1) (by omega)
    rw [hsz] at r1
    refine ⟨⟨r, s.size, s.cost + Nsls.stepCost dims s.inds⟩, ?_,
      ⟨h.size, by rw [r2, h.length], fun x hx => (r3 x hx).1, fun x hx => (r3 x hx).2⟩, ?_⟩
    · unfold stepCosted; rw [r1]; rfl
    · simp only; rw [h.stepCost, add_assoc]
  · intro hne
    have hnone := n3 (not_not.1 hne)
    rw [hsz] at hnone
    refine ⟨?_, hnone⟩
    unfold stepCosted; rw [hnone]; rfl

theorem initCosted_good (ht : TrimOk dims trim) {pop : List (List K)}
    (hbox : ∀ v ∈ pop, InBox v dims) : CGood dims f pop.length false (initCosted trim pop) := by
  refine ⟨by simp [initCosted, setPopulation], by simp [initCosted, setPopulation], ?_, ?_⟩
  · intro x hx
    simp only [initCosted, setPopulation, List.map_map, List.mem_map] at hx
    obtain ⟨v, hv, rfl⟩ := hx
    exact ht.box (hbox v hv)
  · intro x hx
    simp only [initCosted, setPopulation, List.map_map, List.mem_map] at hx
    obtain ⟨v, hv, rfl⟩ := hx
    rfl

/-- A driver reached from a constructor call with `N` vectors of the box by `k` steps with valid
draws. -/
inductive Reach (dims : List (K × K)) (trim : List K → List K) (f : List K → List K) (m : ℕ)
    (vdist : List K → List K → K) (N : ℕ) : ℕ → Costed K → Prop
  | start (pop : List (List K)) (hn : pop.length = N) (hbox : ∀ v ∈ pop, InBox v dims) :
      Reach dims trim f m vdist N 0 (initCosted trim pop)
  | step {k s s'} (h : Reach dims trim f m vdist N k s) (ds : ℕ → ℕ → LsDraw K)
      (iter : List ℕ → List ℕ) (sample : List ℕ → ℕ → List ℕ) (hd : DrawsOk N ds iter sample)
      (hs : stepCosted dims trim f m vdist ds iter sample s = some s') :
      Reach dims trim f m vdist N (k + 1) s'

/-- **C102.** Runs of NSLS with at least two individuals: there are always `N` individuals, all in the
box. The first step costs `N` evaluations and every step `2 N` evaluations per dimension. The next
step ends if the local search replaces somebody, and otherwise never ends. -/
theorem C102_run (ht : TrimOk dims trim) (hf : ∀ v, (f v).length = m) (hm : 1 ≤ m) {N : ℕ}
    (h2 : 2 ≤ N) (k : ℕ) (s : Costed K) (h : Reach dims trim f m vdist N k s) :
    s.inds.length = N ∧ (∀ x ∈ s.inds, InBox x.v dims) ∧
      (1 ≤ k → ∀ x ∈ s.inds, x.objectives = some (f x.v)) ∧
      s.cost = (if k = 0 then 0 else N) + 2 * N * dims.length * k ∧
      ∀ ds iter sample, DrawsOk N ds iter sample →
        (Productive dims trim f ds s.inds →
          ∃ s', stepCosted dims trim f m vdist ds iter sample s = some s') ∧
        (¬ Productive dims trim f ds s.inds →
          ∀ fuel, step dims trim f m vdist ds iter sample fuel s.size s.inds = none) := by
  have key : CGood dims f N (decide (1 ≤ k)) s ∧
      s.cost = (if k = 0 then 0 else N) + 2 * N * dims.length * k := by
    induction h with
    | start pop hn hbox =>
      subst hn
      exact ⟨initCosted_good ht hbox, rfl⟩
    | @step k s s' _ ds iter sample hd hs ih =>
      obtain ⟨g, c⟩ := ih
      obtain ⟨s1, s2⟩ := g.step (vdist := vdist) ht hf hm h2 hd
      by_cases hp : Productive dims trim f ds s.inds
      · obtain ⟨t, t1, t2, t3⟩ := s1 hp
        obtain rfl : s' = t := Option.some.inj (hs.symm.trans t1)
        refine ⟨by simpa using t2, ?_⟩
        rw [t3, c]
        have e : N * (dims.length * 2) = 2 * N * dims.length := by ring
        rw [e, Nat.mul_succ]
        cases k with
        | zero => simp
        | succ k => simp; omega
      · rw [(s2 hp).1] at hs; cases hs
  obtain ⟨g, c⟩ := key
  refine ⟨g.length, g.box, ?_, c, ?_⟩
  · intro hk x hx
    have := g.objs x hx
    simpa [hk] using this
  · intro ds iter sample hd
    obtain ⟨s1, s2⟩ := g.step (vdist := vdist) ht hf hm h2 hd
    exact ⟨fun hp => let ⟨t, t1, _⟩ := s1 hp; ⟨t, t1⟩, fun hp => (s2 hp).2⟩

/-- **C102.** If the local search always replaces somebody, a budget simulation with NSLS stores a
result of `N` vectors of the box for every budget, at no less than the cost asked for. -/
theorem C102_budget (ht : TrimOk dims trim) (hf : ∀ v, (f v).length = m) (hm : 1 ≤ m)
    (hdims : dims ≠ []) {N : ℕ} (h2 : 2 ≤ N) (ds : ℕ → ℕ → ℕ → LsDraw K)
    (iter : ℕ → List ℕ → List ℕ) (sample : ℕ → List ℕ → ℕ → List ℕ)
    (hd : ∀ n, DrawsOk N (ds n) (iter n) (sample n))
    (hprod : ∀ n inds, inds.length = N → (∀ x ∈ inds, InBox x.v dims) →
      (∀ x ∈ inds, ∀ o, x.objectives = some o → o = f x.v) → Productive dims trim f (ds n) inds)
    (pop : List (List K)) (hn : pop.length = N) (hbox : ∀ v ∈ pop, InBox v dims)
    (budgets : List ℤ) (fuel : ℕ) (hfuel : ∀ b ∈ budgets, b ≤ fuel) :
    ∃ res o', budgetWorker (driver dims trim f m vdist ds iter sample) fuel budgets
        ⟨some (0, initCosted trim pop), 0⟩ = some (res, o') ∧
      res.map (fun r => r.name) = budgets ∧
      ∀ r ∈ res, r.name ≤ r.cost ∧ ∃ p, r.pop = some p ∧ p.length = N ∧ ∀ v ∈ p, InBox v dims := by
  subst hn
  have hdpos : 0 < dims.length := List.length_pos_iff.2 hdims
  refine optDriver_worker
    (P := fun p : List (List K) => p.length = pop.length ∧ ∀ v ∈ p, InBox v dims)
    (Inv := fun s => ∃ done, CGood dims f pop.length done s) ?_ budgets ?_ fuel hfuel 0 _
    ⟨false, initCosted_good ht hbox⟩ 0
  · rintro n s ⟨done, g⟩
    obtain ⟨s1, -⟩ := g.step (vdist := vdist) ht hf hm h2 (hd n)
    obtain ⟨t, t1, t2, t3⟩ := s1 (hprod n s.inds g.length g.box (by
      intro x hx o ho
      rw [g.objs x hx] at ho
      split_ifs at ho
      exact (Option.some.inj ho).symm))
    refine ⟨t, t1, ⟨true, t2⟩, ?_⟩
    have : 0 < pop.length * (dims.length * 2) := by positivity
    omega
  · rintro n s b - ⟨done, g⟩ -
    refine ⟨s, _, rfl, ⟨done, g⟩, ⟨by rw [List.length_map, g.length], ?_⟩, le_rfl⟩
    intro v hv
    obtain ⟨x, hx, rfl⟩ := List.mem_map.1 hv
    exact g.box x hx

/-! ### When the local search replaces somebody -/

theorem lsTurn_marked {i k : ℕ} {d : LsDraw K} {cur cur' : List (Ind K × Bool)}
    (hp : ∃ p ∈ cur, p.2 = true) (h : lsTurn dims trim f i k d cur = some cur') :
    ∃ p ∈ cur', p.2 = true := by
  unfold lsTurn at h
  split_ifs at h
  split at h
  · rename_i x u v hx hu hv
    have hi : i < cur.length := (List.getElem?_eq_some_iff.1 hx).1
    split at h
    · simp only at h
      split at h
      · split at h
        · split at h
          · rename_i w _
            obtain rfl := Option.some.inj h
            exact ⟨(w, true), List.mem_set hi _, rfl⟩
          · obtain rfl := Option.some.inj h; exact hp
        · cases h
      · cases h
    · cases h
  · cases h

theorem lsInner_marked {i : ℕ} {ds : ℕ → LsDraw K} : ∀ (ks : List ℕ) (cur cur' : List (Ind K × Bool)),
    (∃ p ∈ cur, p.2 = true) → lsInner dims trim f i ds ks cur = some cur' →
    ∃ p ∈ cur', p.2 = true := by
  intro ks
  induction ks with
  | nil => intro cur cur' hp h; rw [lsInner] at h; cases h; exact hp
  | cons k ks ih =>
    intro cur cur' hp h
    rw [lsInner] at h
    split at h
    · cases h
    · rename_i c hc
      exact ih _ _ (lsTurn_marked hp hc) h

theorem lsOuter_marked {ds : ℕ → ℕ → LsDraw K} : ∀ (is : List ℕ) (cur cur' : List (Ind K × Bool)),
    (∃ p ∈ cur, p.2 = true) → lsOuter dims trim f ds is cur = some cur' →
    ∃ p ∈ cur', p.2 = true := by
  intro is
  induction is with
  | nil => intro cur cur' hp h; rw [lsOuter] at h; cases h; exact hp
  | cons i is ih =>
    intro cur cur' hp h
    rw [lsOuter] at h
    split at h
    · cases h
    · rename_i c hc
      exact ih _ _ (lsInner_marked _ _ _ hp hc) h

/-- **C102.** If no vector of the box dominates another one (for instance two opposed objectives), the
local search always replaces somebody, so that the assumption of `C102_budget` holds. -/
theorem C102_incomparable (ht : TrimOk dims trim) (hf : ∀ v, (f v).length = m) (hdims : dims ≠ [])
    (hinc : ∀ x y, InBox x dims → InBox y dims → ¬ LDom (f x) (f y)) {inds : List (Ind K)}
    (h2 : 2 ≤ inds.length) {ds : ℕ → ℕ → LsDraw K}
    (hd : ∀ i k, (ds i k).pu < inds.length ∧ (ds i k).pv < inds.length)
    (hbox : ∀ x ∈ inds, InBox x.v dims)
    (hobj : ∀ x ∈ inds, ∀ o, x.objectives = some o → o = f x.v) :
    Productive dims trim f ds inds := by
  have hb' : ∀ x ∈ inds.map (evaluate f), InBox x.v dims ∧ x.objectives = some (f x.v) := by
    intro x hx
    obtain ⟨y, hy, rfl⟩ := List.mem_map.1 hx
    unfold evaluate
    cases ho : y.objectives with
    | none => exact ⟨hbox y hy, rfl⟩
    | some o =>
      simp only
      rw [ho, hobj y hy o ho]
      exact ⟨hbox y hy, rfl⟩
  obtain ⟨d0, dims', rfl⟩ := List.exists_cons_of_ne_nil hdims
  obtain ⟨a, n, hn⟩ : ∃ a n, inds.length = n + 1 ∧ a = n := ⟨_, inds.length - 1, by omega, rfl⟩
  obtain ⟨hn, -⟩ := hn
  intro hE
  unfold localSearch at hE
  rw [List.length_map] at hE
  split at hE
  · cases hE
  · rename_i cur hcur
    have hmark : ∃ p ∈ cur, p.2 = true := by
      rw [hn, List.range_succ_eq_map, lsOuter] at hcur
      split at hcur
      · cases hcur
      · rename_i c1 hc1
        refine lsOuter_marked _ _ _ ?_ hcur
        rw [List.length_cons, List.range_succ_eq_map, lsInner] at hc1
        split at hc1
        · cases hc1
        · rename_i c2 hc2
          refine lsInner_marked _ _ _ ?_ hc1
          obtain ⟨cur', x, p, q, t1, t2, t3, t4, t5, t6, t7⟩ := C32_turn ht hf
            (cur := (inds.map (evaluate f)).map fun x => (x, false)) (by
              intro z hz
              obtain ⟨x, hx, rfl⟩ := List.mem_map.1 hz
              exact hb' x hx) (by simpa using h2) (i := 0) (k := 0)
            (by simp only [List.length_map]; omega) (by simp) (ds 0 0) (by simpa using (hd 0 0).1)
            (by simpa using (hd 0 0).2)
          rw [t1] at hc2
          obtain rfl := Option.some.inj hc2
          rcases t7 with ⟨-, t7, -⟩ | ⟨w, -, t7, -⟩
          · refine absurd t7 (hinc _ _ ?_ t5)
            obtain ⟨y, hy, e⟩ := List.mem_map.1 (List.mem_of_getElem? t4)
            rw [← e]
            exact (hb' y hy).1
          · rw [t7]
            exact ⟨_, List.mem_set (by simp only [List.length_map]; omega) _, rfl⟩
    obtain ⟨p, hp, hp2⟩ := hmark
    have := congrArg (Option.map List.length) hE
    simp only [Option.map_some, List.length_append, List.length_map, Option.some.injEq] at this
    have hz : (cur.filter fun p => p.2).length = 0 := by omega
    rw [List.length_eq_zero_iff, List.filter_eq_nil_iff] at hz
    exact hz p hp hp2

/-- One step with two opposed objectives on three points of `[0, 4]`: 3 evaluations at the start and 2
for each of three individuals. -/
example : (stepCosted [(0, (4 : ℚ))] id (fun v => [v.getD 0 0, - v.getD 0 0]) 2
      (fun a b => |a.getD 0 0 - b.getD 0 0|) (fun _ _ => ⟨1 / 2, 0, 1, true⟩) id
      (fun l n => l.take n) (initCosted id [[0], [1], [4]])).map
      (fun s => (s.cost, s.inds.map Ind.v)) = some (9, [[0], [1], [4]]) := by
  decide +kernel

end Evogil.Nsls
