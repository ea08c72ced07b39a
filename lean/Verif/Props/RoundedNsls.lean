import Verif.Lemmas.RoundedNsls
import Verif.Props.Rounded

/-!
# C149: runs of NSLS in floating point
-/

set_option linter.unusedSectionVars false

namespace Evogil.Rounded.Nsls

open Spec Binary64 Generations
open Evogil.Nsls (Ind LsDraw Costed evaluate TrimOk DrawsOk CGood initCosted)

variable {K : Type*} [Field K] [LinearOrder K] [IsStrictOrderedRing K] [FloorRing K]
variable {dims : List (K × K)} {trim : List K → List K} {f : List K → List K} {m : ℕ}
variable {vdist : List K → List K → K}

/-- In floating point, the local search with these draws finds for at least one individual a trial which is not
dominated by it. -/
def Productive (dims : List (K × K)) (trim : List K → List K) (f : List K → List K)
    (ds : ℕ → ℕ → LsDraw K) (inds : List (Ind K)) : Prop :=
  localSearch round64 dims trim f ds (inds.map (evaluate f)) ≠ some (inds.map (evaluate f))

/-- One step of a state of floats. -/
theorem step_good (hb : FloatBox round64 dims) (ht : TrimOk dims trim)
    (hf : ∀ v, Floats round64 v → Floats round64 (trim v)) (hl : ∀ v, (f v).length = m) (hm : 1 ≤ m) {N : ℕ}
    (h2 : 2 ≤ N) {done : Bool} {s : Costed K} (h : CGood dims f N done s)
    (hs : ∀ x ∈ s.inds, Floats round64 x.v)
    {ds : ℕ → ℕ → LsDraw K} {iter : List ℕ → List ℕ} {sample : List ℕ → ℕ → List ℕ}
    (hd : DrawsOk N ds iter sample) :
    (Productive dims trim f ds s.inds → ∃ s', stepCosted round64 dims trim f m vdist ds iter sample s = some s'
      ∧ CGood dims f N true s' ∧ (∀ x ∈ s'.inds, Floats round64 x.v) ∧
      s'.cost = s.cost + (if done then 0 else N) + N * (dims.length * 2)) ∧
    (¬ Productive dims trim f ds s.inds →
      stepCosted round64 dims trim f m vdist ds iter sample s = none ∧
      ∀ fuel, step round64 dims trim f m vdist ds iter sample fuel s.size s.inds = none) := by
  obtain ⟨⟨ds', h1, h3, h4⟩, h5⟩ := step_sim (dims := dims) (f := f) (m := m) (vdist := vdist) hf ds iter sample
    s.size hs
  have hd' : DrawsOk N ds' iter sample :=
    ⟨fun i k => by rw [(h1 i k).1, (h1 i k).2.1]; exact hd.pairs i k, hd.iter, hd.sample⟩
  have hp : Productive dims trim f ds s.inds ↔ Evogil.Nsls.Productive dims (rtrim trim) f ds' s.inds := by
    unfold Productive Evogil.Nsls.Productive
    rw [h3]
  have hc : stepCosted round64 dims trim f m vdist ds iter sample s
      = Evogil.Nsls.stepCosted dims (rtrim trim) f m vdist ds' iter sample s := by
    unfold stepCosted Evogil.Nsls.stepCosted
    rw [h4]
  obtain ⟨e1, e2⟩ := h.step (vdist := vdist) (rtrim_ok hb ht) hl hm h2 hd'
  rw [hp]
  constructor
  · intro hpr
    obtain ⟨s', a1, a2, a3⟩ := e1 hpr
    refine ⟨s', hc.trans a1, a2, ?_, a3⟩
    rw [← hc] at a1
    unfold stepCosted at a1
    obtain ⟨r, r1, rfl⟩ := Option.map_eq_some_iff.1 a1
    exact h5 _ r r1
  · intro hpr
    obtain ⟨a1, a2⟩ := e2 hpr
    exact ⟨hc.trans a1, fun fuel => (h4 fuel).trans (a2 fuel)⟩

theorem init_floats (hf : ∀ v, Floats round64 v → Floats round64 (trim v)) {pop : List (List K)}
    (hp : ∀ v ∈ pop, Floats round64 v) : ∀ x ∈ (initCosted trim pop).inds, Floats round64 x.v := by
  intro x hx
  simp only [initCosted, Evogil.Nsls.setPopulation, List.map_map, List.mem_map] at hx
  obtain ⟨v, hv, rfl⟩ := hx
  exact hf v (hp v hv)

/-- A driver reached from a constructor call with `N` vectors of floats of the box by `k` steps with valid draws,
in floating point. -/
inductive Reach (dims : List (K × K)) (trim : List K → List K) (f : List K → List K) (m : ℕ)
    (vdist : List K → List K → K) (N : ℕ) : ℕ → Costed K → Prop
  | start (pop : List (List K)) (hn : pop.length = N) (hbox : ∀ v ∈ pop, InBox v dims ∧ Floats round64 v) :
      Reach dims trim f m vdist N 0 (initCosted trim pop)
  | step {k s s'} (h : Reach dims trim f m vdist N k s) (ds : ℕ → ℕ → LsDraw K)
      (iter : List ℕ → List ℕ) (sample : List ℕ → ℕ → List ℕ) (hd : DrawsOk N ds iter sample)
      (hs : stepCosted round64 dims trim f m vdist ds iter sample s = some s') :
      Reach dims trim f m vdist N (k + 1) s'

/-- **C149.** Runs of NSLS in floating point with at least two individuals: there are always `N` individuals, all
of them vectors of floats of the box. The first step costs `N` evaluations and every step `2 N` evaluations per
dimension. The next step ends if the local search replaces somebody, and otherwise never ends. -/
theorem C149_run (hb : FloatBox round64 dims) (ht : TrimOk dims trim)
    (hf : ∀ v, Floats round64 v → Floats round64 (trim v)) (hl : ∀ v, (f v).length = m) (hm : 1 ≤ m) {N : ℕ}
    (h2 : 2 ≤ N) (k : ℕ) (s : Costed K) (h : Reach dims trim f m vdist N k s) :
    s.inds.length = N ∧ (∀ x ∈ s.inds, InBox x.v dims ∧ Floats round64 x.v) ∧
      (1 ≤ k → ∀ x ∈ s.inds, x.objectives = some (f x.v)) ∧
      s.cost = (if k = 0 then 0 else N) + 2 * N * dims.length * k ∧
      ∀ ds iter sample, DrawsOk N ds iter sample →
        (Productive dims trim f ds s.inds →
          ∃ s', stepCosted round64 dims trim f m vdist ds iter sample s = some s') ∧
        (¬ Productive dims trim f ds s.inds →
          ∀ fuel, step round64 dims trim f m vdist ds iter sample fuel s.size s.inds = none) := by
  have key : CGood dims f N (decide (1 ≤ k)) s ∧ (∀ x ∈ s.inds, Floats round64 x.v) ∧
      s.cost = (if k = 0 then 0 else N) + 2 * N * dims.length * k := by
    induction h with
    | start pop hn hbox =>
      subst hn
      exact ⟨Evogil.Nsls.initCosted_good ht fun v hv => (hbox v hv).1, init_floats hf fun v hv => (hbox v hv).2,
        rfl⟩
    | @step k s s' _ ds iter sample hd hs ih =>
      obtain ⟨g, gf, c⟩ := ih
      obtain ⟨s1, s2⟩ := step_good (vdist := vdist) hb ht hf hl hm h2 g gf hd
      by_cases hp : Productive dims trim f ds s.inds
      · obtain ⟨t, t1, t2, tf, t3⟩ := s1 hp
        obtain rfl : s' = t := Option.some.inj (hs.symm.trans t1)
        refine ⟨by simpa using t2, tf, ?_⟩
        rw [t3, c]
        have e : N * (dims.length * 2) = 2 * N * dims.length := by ring
        rw [e, Nat.mul_succ]
        cases k with
        | zero => simp
        | succ k => simp; omega
      · rw [(s2 hp).1] at hs; cases hs
  obtain ⟨g, gf, c⟩ := key
  refine ⟨g.length, fun x hx => ⟨g.box x hx, gf x hx⟩, ?_, c, ?_⟩
  · intro hk x hx
    have := g.objs x hx
    simpa [hk] using this
  · intro ds iter sample hd
    obtain ⟨s1, s2⟩ := step_good (vdist := vdist) hb ht hf hl hm h2 g gf hd
    exact ⟨fun hp => let ⟨t, t1, _⟩ := s1 hp; ⟨t, t1⟩, fun hp => (s2 hp).2⟩

/-- **C149.** In floating point, if the local search always replaces somebody, a budget simulation with NSLS
stores a result of `N` vectors of floats of the box for every budget, at no less than the cost asked for. -/
theorem C149_budget (hb : FloatBox round64 dims) (ht : TrimOk dims trim)
    (hf : ∀ v, Floats round64 v → Floats round64 (trim v)) (hl : ∀ v, (f v).length = m) (hm : 1 ≤ m)
    (hdims : dims ≠ []) {N : ℕ} (h2 : 2 ≤ N) (ds : ℕ → ℕ → ℕ → LsDraw K)
    (iter : ℕ → List ℕ → List ℕ) (sample : ℕ → List ℕ → ℕ → List ℕ)
    (hd : ∀ n, DrawsOk N (ds n) (iter n) (sample n))
    (hprod : ∀ n inds, inds.length = N → (∀ x ∈ inds, InBox x.v dims ∧ Floats round64 x.v) →
      (∀ x ∈ inds, ∀ o, x.objectives = some o → o = f x.v) → Productive dims trim f (ds n) inds)
    (pop : List (List K)) (hn : pop.length = N) (hbox : ∀ v ∈ pop, InBox v dims ∧ Floats round64 v)
    (budgets : List ℤ) (fuel : ℕ) (hfuel : ∀ b ∈ budgets, b ≤ fuel) :
    ∃ res o', budgetWorker (driver round64 dims trim f m vdist ds iter sample) fuel budgets
        ⟨some (0, initCosted trim pop), 0⟩ = some (res, o') ∧
      res.map (fun r => r.name) = budgets ∧
      ∀ r ∈ res, r.name ≤ r.cost ∧ ∃ p, r.pop = some p ∧ p.length = N ∧
        ∀ v ∈ p, InBox v dims ∧ Floats round64 v := by
  subst hn
  have hdpos : 0 < dims.length := List.length_pos_iff.2 hdims
  refine optDriver_worker
    (P := fun p : List (List K) => p.length = pop.length ∧ ∀ v ∈ p, InBox v dims ∧ Floats round64 v)
    (Inv := fun s => ∃ done, CGood dims f pop.length done s ∧ ∀ x ∈ s.inds, Floats round64 x.v) ?_ budgets ?_ fuel
    hfuel 0 _ ⟨false, Evogil.Nsls.initCosted_good ht fun v hv => (hbox v hv).1,
      init_floats hf fun v hv => (hbox v hv).2⟩ 0
  · rintro n s ⟨done, g, gf⟩
    obtain ⟨s1, -⟩ := step_good (vdist := vdist) hb ht hf hl hm h2 g gf (hd n)
    obtain ⟨t, t1, t2, tf, t3⟩ := s1 (hprod n s.inds g.length (fun x hx => ⟨g.box x hx, gf x hx⟩) (by
      intro x hx o ho
      rw [g.objs x hx] at ho
      split_ifs at ho
      exact (Option.some.inj ho).symm))
    refine ⟨t, t1, ⟨true, t2, tf⟩, ?_⟩
    have : 0 < pop.length * (dims.length * 2) := by positivity
    omega
  · rintro n s b - ⟨done, g, gf⟩ -
    refine ⟨s, _, rfl, ⟨done, g, gf⟩, ⟨by rw [List.length_map, g.length], ?_⟩, le_rfl⟩
    intro v hv
    obtain ⟨x, hx, rfl⟩ := List.mem_map.1 hv
    exact ⟨g.box x hx, gf x hx⟩

/-- **C149.** In floating point too, the local search always replaces somebody if no vector of the box dominates
another one. -/
theorem C149_incomparable (hb : FloatBox round64 dims) (ht : TrimOk dims trim)
    (hf : ∀ v, Floats round64 v → Floats round64 (trim v)) (hl : ∀ v, (f v).length = m) (hdims : dims ≠ [])
    (hinc : ∀ x y, InBox x dims → InBox y dims → ¬ LDom (f x) (f y)) {inds : List (Ind K)}
    (h2 : 2 ≤ inds.length) {ds : ℕ → ℕ → LsDraw K}
    (hd : ∀ i k, (ds i k).pu < inds.length ∧ (ds i k).pv < inds.length)
    (hbox : ∀ x ∈ inds, InBox x.v dims ∧ Floats round64 x.v)
    (hobj : ∀ x ∈ inds, ∀ o, x.objectives = some o → o = f x.v) :
    Productive dims trim f ds inds := by
  obtain ⟨⟨ds', h1, h3, -⟩, -⟩ := step_sim (dims := dims) (f := f) (m := m) (vdist := fun _ _ => 0) hf ds id
    (fun _ _ => []) 0 fun x hx => (hbox x hx).2
  unfold Productive
  rw [h3]
  exact Evogil.Nsls.C102_incomparable (rtrim_ok hb ht) hl hdims hinc h2
    (fun i k => by rw [(h1 i k).1, (h1 i k).2.1]; exact hd i k) (fun x hx => (hbox x hx).1) hobj

/-- Two opposed objectives on three points of `[0, 4]` and the factor 0.1, all floats: the new vectors are floats,
0.37 and 0.67 up to rounding. -/
example : (localSearch round64 [(0, (4 : ℚ))] id (fun v => [v.getD 0 0, - v.getD 0 0])
      (fun _ _ => ⟨round64 (1 / 10), 2, 1, true⟩)
      [⟨[0], some [0, 0]⟩, ⟨[round64 (3 / 10)], some [0, 0]⟩, ⟨[4], some [4, -4]⟩]).map
      (fun l => l.map Ind.v)
    = some [[0], [5404319552844595 / 2 ^ 54], [4], [6665327448508335 / 2 ^ 54], [6034823500676465 / 2 ^ 53], [4]] := by
  decide +kernel

/-- A complete step: all six candidates are mutually non-dominated, three are kept. -/
example : (stepCosted round64 [(0, (4 : ℚ))] id (fun v => [v.getD 0 0, - v.getD 0 0]) 2
      (fun a b => |a.getD 0 0 - b.getD 0 0|) (fun _ _ => ⟨round64 (1 / 2), 2, 1, true⟩) id
      (fun l n => l.take n) (initCosted id [[0], [round64 (3 / 10)], [4]])).map
      (fun s => (s.cost, s.inds.map Ind.v)) = some (9, [[0], [round64 (3 / 10)], [4]]) := by
  decide +kernel

end Evogil.Rounded.Nsls
