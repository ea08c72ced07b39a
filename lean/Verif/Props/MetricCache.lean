import Verif.Model.MetricCache
import Verif.Lemmas.Storage
import Mathlib.Data.List.Induction
import Mathlib.Tactic.Set

/-!
# C21: the metric cache
-/

namespace Evogil.Storage

variable {R F P V : Type*} [DecidableEq P]

/-- The two calls ask for the same metric of the same result. -/
def SameKey (p q : Request F P) : Prop :=
  p.dir = q.dir ∧ p.name = q.name ∧ p.metric = q.metric

instance (p q : Request F P) : Decidable (SameKey p q) := by unfold SameKey; infer_instance

/-- The call can be served in the tree: the run directory is there, no metric file yet, and the name
of the result contains no dot (it is a number). -/
def Fresh (fs : FS (Pickle R P V)) (q : Request F P) : Prop :=
  fs q.dir = some .dir ∧ fs q.path = none ∧ '.' ∉ q.name

/-- The first earlier call for the same metric of the same result whose computation succeeded. -/
def firstServed (compute : Name → F → F → P → Option V) (hist : List (Request F P))
    (q : Request F P) : Option (Request F P) :=
  hist.find? fun p => decide (SameKey p q) &&
    (compute p.metric p.fitnesses p.nonDominated p.params).isSome

theorem split_at_dot {a b c d : Name} (ha : '.' ∉ a) (hb : '.' ∉ b)
    (h : a ++ '.' :: c = b ++ '.' :: d) : a = b ∧ c = d := by
  induction a generalizing b with
  | nil =>
    cases b with
    | nil => simpa using h
    | cons x b =>
      simp only [List.nil_append, List.cons_append, List.cons.injEq] at h
      exact absurd (by rw [h.1]; exact List.mem_cons_self) hb
  | cons x a ih =>
    cases b with
    | nil =>
      simp only [List.nil_append, List.cons_append, List.cons.injEq] at h
      exact absurd (by rw [← h.1]; exact List.mem_cons_self) ha
    | cons y b =>
      simp only [List.cons_append, List.cons.injEq] at h
      obtain ⟨e1, e2⟩ := ih (fun hm => ha (List.mem_cons_of_mem _ hm))
        (fun hm => hb (List.mem_cons_of_mem _ hm)) h.2
      exact ⟨by rw [h.1, e1], e2⟩

omit [DecidableEq P] in
theorem path_eq_iff {p q : Request F P} (hp : '.' ∉ p.name) (hq : '.' ∉ q.name) :
    p.path = q.path ↔ SameKey p q := by
  constructor
  · intro h
    simp only [Request.path, List.cons.injEq] at h
    have := List.append_cancel_right h.1
    obtain ⟨e1, e2⟩ := split_at_dot hp hq this
    exact ⟨h.2, e1, e2⟩
  · rintro ⟨h1, h2, h3⟩
    simp [Request.path, h1, h2, h3]

/-- What the cache file of `q` holds after the calls `hist`. -/
def expectedEntry (compute : Name → F → F → P → Option V) (hist : List (Request F P))
    (q : Request F P) : Option (Node (Pickle R P V)) :=
  match firstServed compute hist q with
  | none => none
  | some p =>
    match compute p.metric p.fitnesses p.nonDominated p.params with
    | none => none
    | some v => some (.file (.metric ⟨v, p.metric, p.params⟩))

omit [DecidableEq P] in
theorem firstServed_some {compute : Name → F → F → P → Option V} {hist : List (Request F P)}
    {p q : Request F P} (h : firstServed compute hist q = some p) :
    p ∈ hist ∧ SameKey p q ∧
      ∃ v, compute p.metric p.fitnesses p.nonDominated p.params = some v := by
  have h1 := List.mem_of_find?_eq_some h
  have h2 := List.find?_some h
  simp only [Bool.and_eq_true, decide_eq_true_eq] at h2
  exact ⟨h1, h2.1, Option.isSome_iff_exists.1 h2.2⟩

/-- One call on a tree where the cache file of `q` is missing. -/
theorem getMetric_miss {compute : Name → F → F → P → Option V} {fs : FS (Pickle R P V)}
    {q : Request F P} (hd : fs q.dir = some .dir) (hm : fs q.path = none) :
    getMetric compute fs q =
      match compute q.metric q.fitnesses q.nonDominated q.params with
      | none => (.error .metricFailed, fs)
      | some v => (.ok v, fs.set q.path (.file (.metric ⟨v, q.metric, q.params⟩))) := by
  have ht : q.path.tail = q.dir := rfl
  have hl : loadFile fs q.path = .error .fileNotFound := by
    rw [loadFile, hm, ht, hd]
  rw [getMetric, hl]
  rcases compute q.metric q.fitnesses q.nonDominated q.params with _ | v
  · rfl
  · simp only [saveFile, ht, hd, hm]

/-- One call on a tree where the cache file of `q` is present. -/
theorem getMetric_hit {compute : Name → F → F → P → Option V} {fs : FS (Pickle R P V)}
    {q : Request F P} {e : MetricEntry P V} (hm : fs q.path = some (.file (.metric e))) :
    getMetric compute fs q =
      if e.params = q.params then (.ok e.value, fs) else (.error .paramsChanged, fs) := by
  have hl : loadFile fs q.path = .ok (.metric e) := by rw [loadFile, hm]
  rw [getMetric, hl]
  by_cases h : e.params = q.params <;> simp [h]

/-- The state of the cache after any history. -/
theorem cache_invariant (compute : Name → F → F → P → Option V) (fs : FS (Pickle R P V))
    (hist : List (Request F P)) (hfresh : ∀ p ∈ hist, Fresh fs p) :
    ∀ q : Request F P, Fresh fs q →
      (afterRequests compute fs hist) q.dir = some .dir ∧
      (afterRequests compute fs hist) q.path = expectedEntry compute hist q := by
  induction hist using List.reverseRecOn with
  | nil =>
    intro q hq
    exact ⟨hq.1, by simp [afterRequests, expectedEntry, firstServed, hq.2.1]⟩
  | append_singleton hist r ih =>
    have ih := ih fun p hp => hfresh p (List.mem_append_left _ hp)
    have hr : Fresh fs r := hfresh r (List.mem_append_right _ List.mem_cons_self)
    intro q hq
    obtain ⟨hd, he⟩ := ih q hq
    obtain ⟨rd, re⟩ := ih r hr
    have hstep : afterRequests compute fs (hist ++ [r]) =
        (getMetric compute (afterRequests compute fs hist) r).2 := by
      simp [afterRequests, List.foldl_append]
    rw [hstep]
    set st := afterRequests compute fs hist
    -- what `find?` does on the longer history
    have hfind : firstServed compute (hist ++ [r]) q =
        (firstServed compute hist q).or (if SameKey r q ∧
          (compute r.metric r.fitnesses r.nonDominated r.params).isSome then some r else none) := by
      simp only [firstServed, List.find?_append]
      congr 1
      by_cases h : SameKey r q ∧
          (compute r.metric r.fitnesses r.nonDominated r.params).isSome = true
      · rw [if_pos h, List.find?_cons_of_pos (by simp [h.1, h.2])]
      · rw [if_neg h, List.find?_cons_of_neg (by
          simp only [Bool.and_eq_true, decide_eq_true_eq]; exact h)]
        rfl
    have hsame : firstServed compute hist r = firstServed compute hist q ∨ ¬ SameKey r q := by
      by_cases hk : SameKey r q
      · left
        have : (fun p : Request F P => decide (SameKey p r) &&
              (compute p.metric p.fitnesses p.nonDominated p.params).isSome) =
            (fun p : Request F P => decide (SameKey p q) &&
              (compute p.metric p.fitnesses p.nonDominated p.params).isSome) := by
          funext p
          congr 2
          simp only [SameKey, hk.1, hk.2.1, hk.2.2]
        simp only [firstServed, this]
      · exact Or.inr hk
    rcases hfr : firstServed compute hist r with _ | p
    · -- a miss
      have hmiss : st r.path = none := by rw [re, expectedEntry, hfr]
      rw [getMetric_miss rd hmiss]
      rcases hc : compute r.metric r.fitnesses r.nonDominated r.params with _ | v
      · refine ⟨hd, ?_⟩
        simp only [he, expectedEntry, hfind, hc]
        simp
      · have hne : q.dir ≠ r.path := fun e => by rw [e, hmiss] at hd; cases hd
        refine ⟨by simp [FS.set, hne, hd], ?_⟩
        by_cases hk : SameKey r q
        · have hpath : q.path = r.path := ((path_eq_iff hr.2.2 hq.2.2).2 hk).symm
          have hfq : firstServed compute hist q = none := by
            rcases hsame with h | h
            · rw [← h, hfr]
            · exact absurd hk h
          simp [FS.set, hpath, expectedEntry, hfind, hfq, hk, hc]
        · have hpath : q.path ≠ r.path := fun e => hk ((path_eq_iff hr.2.2 hq.2.2).1 e.symm)
          simp only [FS.set, if_neg hpath, he, expectedEntry, hfind]
          simp [hk]
    · -- a hit
      obtain ⟨-, -, v, hv⟩ := firstServed_some hfr
      have hhit : st r.path = some (.file (.metric ⟨v, p.metric, p.params⟩)) := by
        rw [re, expectedEntry, hfr]; simp only [hv]
      have hst : (getMetric compute st r).2 = st := by
        rw [getMetric_hit hhit]; split <;> rfl
      rw [hst]
      refine ⟨hd, ?_⟩
      rw [he]
      simp only [expectedEntry, hfind]
      by_cases hk : SameKey r q
      · have hfq : firstServed compute hist q = some p := by
          rcases hsame with h | h
          · rw [← h, hfr]
          · exact absurd hk h
        simp [hfq]
      · simp [hk]

/-- **C21.** Whatever was asked before, a call is answered as follows.  If no earlier call for this
metric of this result was computed, the value is computed now.  Otherwise the first such call decides:
with the same parameters its value is returned, with other parameters the call is refused.  Calls for
other metrics or results have no influence. -/
theorem C21_answer (compute : Name → F → F → P → Option V) (fs : FS (Pickle R P V))
    (hist : List (Request F P)) (hfresh : ∀ p ∈ hist, Fresh fs p) (q : Request F P)
    (hq : Fresh fs q) :
    (getMetric compute (afterRequests compute fs hist) q).1 =
      match firstServed compute hist q with
      | none =>
        match compute q.metric q.fitnesses q.nonDominated q.params with
        | none => .error .metricFailed
        | some v => .ok v
      | some p =>
        if p.params = q.params then
          match compute p.metric p.fitnesses p.nonDominated p.params with
          | none => .error .metricFailed
          | some v => .ok v
        else .error .paramsChanged := by
  obtain ⟨hd, he⟩ := cache_invariant compute fs hist hfresh q hq
  rcases hf : firstServed compute hist q with _ | p
  · rw [expectedEntry, hf] at he
    rw [getMetric_miss hd he]
    rcases compute q.metric q.fitnesses q.nonDominated q.params with _ | v <;> rfl
  · obtain ⟨-, -, v, hv⟩ := firstServed_some hf
    rw [expectedEntry, hf] at he
    simp only [hv] at he
    rw [getMetric_hit he]
    simp only [hv]
    split <;> rfl

/-- **C21 (faithful).** As long as the results on disk are not rewritten (every earlier call for this
metric of this result had the same fitness data) and the parameters are the same, the answer is what
would be computed now. -/
theorem C21_as_computed (compute : Name → F → F → P → Option V) (fs : FS (Pickle R P V))
    (hist : List (Request F P)) (hfresh : ∀ p ∈ hist, Fresh fs p) (q : Request F P)
    (hq : Fresh fs q)
    (hsame : ∀ p ∈ hist, SameKey p q →
      p.fitnesses = q.fitnesses ∧ p.nonDominated = q.nonDominated ∧ p.params = q.params) :
    (getMetric compute (afterRequests compute fs hist) q).1 =
      match compute q.metric q.fitnesses q.nonDominated q.params with
      | none => .error .metricFailed
      | some v => .ok v := by
  rw [C21_answer compute fs hist hfresh q hq]
  rcases hf : firstServed compute hist q with _ | p
  · rfl
  · obtain ⟨hm, hk, v, hv⟩ := firstServed_some hf
    obtain ⟨e1, e2, e3⟩ := hsame p hm hk
    simp only [e3, if_true]
    rw [hk.2.2, e1, e2]

/-- **C21 (refusal).** Once computed, asking again with other parameters is refused, never answered. -/
theorem C21_other_params_refused (compute : Name → F → F → P → Option V) (fs : FS (Pickle R P V))
    (hist hist' : List (Request F P)) (p q : Request F P) (v : V)
    (hfresh : ∀ x ∈ hist ++ p :: hist', Fresh fs x) (hq : Fresh fs q)
    (hfirst : ∀ x ∈ hist, ¬ SameKey x q) (hk : SameKey p q)
    (hv : compute p.metric p.fitnesses p.nonDominated p.params = some v)
    (hne : p.params ≠ q.params) :
    (getMetric compute (afterRequests compute fs (hist ++ p :: hist')) q).1 =
      .error .paramsChanged := by
  rw [C21_answer compute fs _ hfresh q hq]
  have : firstServed compute (hist ++ p :: hist') q = some p := by
    rw [firstServed, List.find?_append, List.find?_eq_none.2, Option.none_or,
      List.find?_cons_of_pos]
    · simp [hk, hv]
    · intro x hx
      simp [hfirst x hx]
  rw [this]
  simp [hne]

/-- **C21 (results untouched).** A call changes at most its own cache file: every other path holds
what it held, in particular every file that the listing of results looks at. -/
theorem C21_results_untouched (compute : Name → F → F → P → Option V) (fs : FS (Pickle R P V))
    (q : Request F P) :
    (∀ p, p ≠ q.path → (getMetric compute fs q).2 p = fs p) ∧
    (∀ c d, (matchNumber c).isSome → (getMetric compute fs q).2 (c :: d) = fs (c :: d)) := by
  have h1 : ∀ p, p ≠ q.path → (getMetric compute fs q).2 p = fs p := by
    intro p hp
    rw [getMetric]
    rcases loadFile fs q.path with e | c
    · cases e with
      | fileNotFound =>
        rcases compute q.metric q.fitnesses q.nonDominated q.params with _ | v
        · rfl
        · simp only
          rcases hs : saveFile fs q.path (.metric ⟨v, q.metric, q.params⟩) with e | fs'
          · rfl
          · simp only
            rw [saveFile] at hs
            split at hs
            · cases hs
            · cases hs
            · split at hs
              · cases hs
              · cases hs
                simp [FS.set, hp]
      | _ => rfl
    · cases c with
      | result r => rfl
      | metric e =>
        by_cases h : e.params = q.params <;> simp [h]
  refine ⟨h1, fun c d hc => h1 _ fun e => ?_⟩
  obtain ⟨digits, hd⟩ := Option.isSome_iff_exists.1 hc
  obtain ⟨rfl, -, hdig⟩ := matchNumber_eq_some.1 hd
  simp only [Request.path, List.cons.injEq] at e
  have := List.append_cancel_right e.1
  have hdot : '.' ∈ digits := by rw [this]; simp
  exact absurd (hdig _ hdot) (by decide)

/-- The tree with one run directory and nothing in it. -/
def cacheFS : FS (Pickle ℕ ℕ ℕ) := fun p => if p = [] then some .dir else none

/-- **C21 (stale values).** If the result is rewritten between two calls, the cache answers with the
value of the old result: here the metric is the fitness itself and the second call gets 1, not 2. -/
theorem C21_stale :
    ∃ (compute : Name → ℕ → ℕ → ℕ → Option ℕ) (p q : Request ℕ ℕ),
      Fresh cacheFS p ∧ Fresh cacheFS q ∧ p.params = q.params ∧
      (getMetric compute (afterRequests compute cacheFS [p]) q).1 = .ok 1 ∧
      compute q.metric q.fitnesses q.nonDominated q.params = some 2 :=
  ⟨fun _ f _ _ => some f, ⟨[], ['7'], 1, 0, ['m'], 0⟩, ⟨[], ['7'], 2, 0, ['m'], 0⟩,
    ⟨rfl, rfl, by decide⟩, ⟨rfl, rfl, by decide⟩, rfl, rfl, rfl⟩

/-- A hit, a refusal and an independent metric. -/
example :
    let compute : Name → ℕ → ℕ → ℕ → Option ℕ := fun m f _ p => some (f + p + m.length)
    let a : Request ℕ ℕ := ⟨[], ['7'], 10, 0, ['m'], 0⟩
    let st := afterRequests compute cacheFS [a]
    (getMetric compute st a).1 = .ok 11 ∧
    (getMetric compute st ⟨[], ['7'], 10, 0, ['m'], 3⟩).1 = .error .paramsChanged ∧
    (getMetric compute st ⟨[], ['7'], 10, 0, ['m', 'n'], 3⟩).1 = .ok 15 := by
  refine ⟨rfl, rfl, rfl⟩

end Evogil.Storage
