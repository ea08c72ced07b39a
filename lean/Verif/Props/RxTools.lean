import Verif.Model.RxTools
import Mathlib.Data.Nat.Prime.Basic
import Mathlib.Algebra.Order.BigOperators.Group.List
import Mathlib.Algebra.Order.Ring.Nat

/-!
# C162: the observables of several processes are merged

The specification is the relation `Merge`: an interleaving of lists.
-/

set_option linter.unusedSectionVars false

namespace Evogil.RxTools

/-- `q` is an interleaving of the lists `ls`: each time the first element of some list is taken. -/
inductive Merge {V : Type*} : List (List V) → List V → Prop
  | done {ls : List (List V)} (h : ∀ l ∈ ls, l = []) : Merge ls []
  | take {ls : List (List V)} {q : List V} (i : ℕ) (x : V) (l : List V) (h : ls[i]? = some (x :: l))
      (hq : Merge (ls.set i l) q) : Merge ls (x :: q)

section
variable {V : Type*} [DecidableEq V]

theorem Merge.filter {p : V → Bool} {ls : List (List V)} {q : List V} (h : Merge ls q) :
    Merge (ls.map (List.filter p)) (q.filter p) := by
  induction h with
  | done h =>
    refine .done fun l hl => ?_
    obtain ⟨k, hk, rfl⟩ := List.mem_map.1 hl
    rw [h k hk]; rfl
  | @take ls q i x l h _ ih =>
    rw [List.map_set] at ih
    by_cases hx : p x = true
    · rw [List.filter_cons_of_pos hx]
      refine .take i x (l.filter p) ?_ ih
      rw [List.getElem?_map, h, Option.map_some, List.filter_cons_of_pos hx]
    · rw [List.filter_cons_of_neg hx]
      have e : (ls.map (List.filter p)).set i (l.filter p) = ls.map (List.filter p) := by
        apply List.ext_getElem?
        intro j
        rw [List.getElem?_set]
        split_ifs with hj hlt
        · subst hj
          rw [List.getElem?_map, h, Option.map_some, List.filter_cons_of_neg hx]
        · subst hj
          rw [List.length_map] at hlt
          obtain ⟨hi, -⟩ := List.getElem?_eq_some_iff.1 h
          exact absurd hi hlt
        · rfl
      rw [e] at ih
      exact ih

theorem Merge.count {ls : List (List V)} {q : List V} (h : Merge ls q) (v : V) :
    q.count v = (ls.map (List.count v)).sum := by
  induction h with
  | done h =>
    symm
    rw [List.count_nil]
    refine List.sum_eq_zero fun n hn => ?_
    obtain ⟨l, hl, rfl⟩ := List.mem_map.1 hn
    rw [h l hl]; rfl
  | @take ls q i x l h _ ih =>
    obtain ⟨hi, e⟩ := List.getElem?_eq_some_iff.1 h
    rw [List.count_cons, ih, List.map_set, List.sum_set]
    have hs : (ls.map (List.count v)).sum = ((ls.map (List.count v)).take i).sum + ls[i].count v +
        ((ls.map (List.count v)).drop (i + 1)).sum := by
      rw [← List.sum_take_add_sum_drop (ls.map (List.count v)) i,
        List.drop_eq_getElem_cons (by simpa using hi), List.sum_cons, List.getElem_map]
      omega
    rw [hs, e, List.count_cons, if_pos (by simpa using hi)]
    omega

theorem Merge.last {v : V} {ls : List (List V)} {q : List V} (h : Merge ls q)
    (hl : ∀ l ∈ ls, l = [] ∨ l.getLast? = some v) : q = [] ∨ q.getLast? = some v := by
  induction h with
  | done h => exact Or.inl rfl
  | @take ls q i x l h _ ih =>
    right
    have hx := hl _ (List.mem_of_getElem? h)
    have hx' : (x :: l).getLast? = some v := hx.resolve_left (by simp)
    have := ih (by
      intro k hk
      rcases List.mem_or_eq_of_mem_set hk with hk | rfl
      · exact hl k hk
      · cases k with
        | nil => exact Or.inl rfl
        | cons y k => right; rw [← hx']; simp [List.getLast?_cons])
    rcases this with rfl | hq
    · cases l with
      | nil => simpa using hx'
      | cons y l =>
        rename_i hm
        cases hm with
        | done hm =>
          obtain ⟨hi, -⟩ := List.getElem?_eq_some_iff.1 h
          have := hm (y :: l) (List.mem_of_getElem? (i := i) (by rw [List.getElem?_set_self hi]))
          cases this
    · cases q with
      | nil => cases hq
      | cons y q => rw [← hq]; simp [List.getLast?_cons]

theorem drain_complete (stop : V) (n : ℕ) : ∀ (q : List V) (ended : ℕ), ended + q.count stop = n →
    (q = [] ∨ q.getLast? = some stop) → drain stop n ended q = (q.filter fun v => decide (v ≠ stop), true) := by
  intro q
  induction q with
  | nil =>
    intro ended h _
    rw [List.count_nil] at h
    simp [drain, show ¬ ended < n by omega]
  | cons x q ih =>
    intro ended h hl
    have hl' : (x :: q).getLast? = some stop := hl.resolve_left (by simp)
    have hmem : stop ∈ x :: q := List.mem_of_getLast? hl'
    have hpos : 0 < (x :: q).count stop := List.count_pos_iff.2 hmem
    have hlt : ended < n := by omega
    have hq : q = [] ∨ q.getLast? = some stop := by
      cases q with
      | nil => exact Or.inl rfl
      | cons y q => right; rw [← hl']; simp [List.getLast?_cons]
    rw [drain, if_pos hlt]
    by_cases hx : x = stop
    · subst hx
      rw [if_pos rfl, ih (ended + 1) (by rw [List.count_cons_self] at h; omega) hq]
      simp
    · rw [if_neg hx, ih ended (by rwa [List.count_cons_of_ne hx] at h) hq]
      simp [hx]

theorem drain_waits (stop : V) (n : ℕ) : ∀ (q : List V) (ended : ℕ), ended + q.count stop < n →
    drain stop n ended q = (q.filter fun v => decide (v ≠ stop), false) := by
  intro q
  induction q with
  | nil =>
    intro ended h
    rw [List.count_nil] at h
    simp [drain, show ended < n by omega]
  | cons x q ih =>
    intro ended h
    have hlt : ended < n := by omega
    rw [drain, if_pos hlt]
    by_cases hx : x = stop
    · subst hx
      rw [if_pos rfl, ih (ended + 1) (by rw [List.count_cons_self] at h; omega)]
      simp
    · rw [if_neg hx, ih ended (by rwa [List.count_cons_of_ne hx] at h)]
      simp [hx]

theorem sent_filter {stop : V} {s : Source V} (h : stop ∉ s.values) :
    (sent stop s).filter (fun v => decide (v ≠ stop)) = s.values := by
  have e : s.values.filter (fun v => decide (v ≠ stop)) = s.values :=
    List.filter_eq_self.2 fun v hv => decide_eq_true fun hc => h (hc ▸ hv)
  unfold sent
  split_ifs
  · rw [List.filter_append, e]; simp
  · exact e

theorem sent_count {stop : V} {s : Source V} (h : stop ∉ s.values) :
    (sent stop s).count stop = if s.completes then 1 else 0 := by
  unfold sent
  split_ifs
  · rw [List.count_append, List.count_eq_zero_of_not_mem h]; simp
  · exact List.count_eq_zero_of_not_mem h

/-- C162 (partial): if every provider completes and none emits "end", then whatever the order in which the processes run, the
observer gets all values of all providers, those of each provider in their order, and then the completion. -/
theorem C162_merge_partial (stop : V) (providers : List (Source V)) (hc : ∀ s ∈ providers, s.completes = true)
    (hv : ∀ s ∈ providers, stop ∉ s.values) (queue : List V) (hq : Merge (providers.map (sent stop)) queue) :
    ∃ out, multiprocessObservable stop providers queue = (out, true) ∧ Merge (providers.map fun s => s.values) out := by
  refine ⟨queue.filter fun v => decide (v ≠ stop), drain_complete stop _ queue 0 ?_ (hq.last ?_), ?_⟩
  · rw [zero_add, hq.count stop, List.map_map]
    have : providers.map (List.count stop ∘ sent stop) = providers.map fun _ => 1 :=
      List.map_congr_left fun s hs => by rw [Function.comp, sent_count (hv s hs), if_pos (hc s hs)]
    rw [this]; simp
  · intro l hl
    obtain ⟨s, hs, rfl⟩ := List.mem_map.1 hl
    right
    simp [sent, hc s hs]
  · have := hq.filter (p := fun v => decide (v ≠ stop))
    rw [List.map_map] at this
    rwa [List.map_congr_left (g := fun s => s.values) fun s hs => by rw [Function.comp, sent_filter (hv s hs)]] at this

/-- C162: if some provider fails, the observer still gets all values, but the stream never ends: neither completion nor error. -/
theorem C162_failure_violated (stop : V) (providers : List (Source V)) (hf : ∃ s ∈ providers, s.completes = false)
    (hv : ∀ s ∈ providers, stop ∉ s.values) (queue : List V) (hq : Merge (providers.map (sent stop)) queue) :
    ∃ out, multiprocessObservable stop providers queue = (out, false) ∧ Merge (providers.map fun s => s.values) out := by
  refine ⟨queue.filter fun v => decide (v ≠ stop), drain_waits stop _ queue 0 ?_, ?_⟩
  · rw [zero_add, hq.count stop, List.map_map]
    have e : providers.map (List.count stop ∘ sent stop) = providers.map fun s => if s.completes then 1 else 0 :=
      List.map_congr_left fun s hs => sent_count (hv s hs)
    rw [e]
    have : (providers.map fun s : Source V => if s.completes then 1 else 0).sum < (providers.map fun _ => 1).sum := by
      obtain ⟨s, hs, hs'⟩ := hf
      refine List.sum_lt_sum _ _ (fun t _ => ?_) ⟨s, hs, by simp [hs']⟩
      split_ifs <;> omega
    simpa using this
  · have := hq.filter (p := fun v => decide (v ≠ stop))
    rw [List.map_map] at this
    rwa [List.map_congr_left (g := fun s => s.values) fun s hs => by rw [Function.comp, sent_filter (hv s hs)]] at this

end

/-- C162: an emitted "end" is taken for the end of a provider: it is not passed on, the stream completes too early, and later
values are lost. -/
theorem C162_end_violated : ∃ (providers : List (Source String)) (queue : List String),
    (∀ s ∈ providers, s.completes = true) ∧ Merge (providers.map (sent "end")) queue ∧
    multiprocessObservable "end" providers queue = (["b"], true) ∧ (∃ s ∈ providers, "a" ∈ s.values) := by
  refine ⟨[⟨["end", "a"], true⟩, ⟨["b"], true⟩], ["end", "b", "end", "a", "end"], by simp, ?_, by decide,
    ⟨_, List.mem_cons_self, by simp⟩⟩
  exact .take 0 _ _ rfl (.take 1 _ _ rfl (.take 1 _ _ rfl (.take 0 _ _ rfl (.take 0 _ _ rfl (.done (by simp [sent]))))))

/-- The observables `o1` and `o2` of rxtools.py:98-103 (0 for "end"), in one of the possible orders. -/
example : multiprocessObservable 0 [⟨[1, 2, 3], true⟩, ⟨[4, 5, 6], true⟩] [4, 1, 2, 5, 3, 0, 6, 0] =
    ([4, 1, 2, 5, 3, 6], true) := by decide

example : Merge (([⟨[1], true⟩, ⟨[4, 5], true⟩] : List (Source ℕ)).map (sent 0)) [4, 1, 0, 5, 0] :=
  .take 1 _ _ rfl (.take 0 _ _ rfl (.take 0 _ _ rfl (.take 1 _ _ rfl (.take 1 _ _ rfl (.done (by simp [sent]))))))

example : multiprocessObservable 0 [⟨[1], false⟩, ⟨[4, 5], true⟩] [4, 1, 5, 0] = ([4, 1, 5], false) := by decide

/-! ## Prime numbers -/

theorem primeLoop_iff (num : ℤ) (l : List ℤ) : primeLoop num l = true ↔ ∀ i ∈ l, ¬ i ∣ num := by
  induction l with
  | nil => simp [primeLoop]
  | cons i l ih =>
    rw [primeLoop]
    by_cases h : num % i = 0
    · rw [if_pos h]
      simp only [Bool.false_eq_true, List.mem_cons, forall_eq_or_imp, false_iff, not_and]
      exact fun hc => absurd (Int.dvd_of_emod_eq_zero h) hc
    · rw [if_neg h, ih]
      simp only [List.mem_cons, forall_eq_or_imp]
      exact ⟨fun hl => ⟨fun hc => h (Int.emod_eq_zero_of_dvd hc), hl⟩, fun hl => hl.2⟩

/-- C162: `prime_number` decides for every integer whether it is a prime number. -/
theorem C162_prime (num : ℤ) : primeNumber num = true ↔ ∃ p : ℕ, p.Prime ∧ num = p := by
  unfold primeNumber
  split_ifs with h
  · obtain ⟨n, rfl⟩ := Int.eq_ofNat_of_zero_le (show 0 ≤ num by omega)
    rw [primeLoop_iff]
    constructor
    · intro hl
      refine ⟨n, Nat.prime_def_lt'.2 ⟨by omega, fun m h2 hm hd => ?_⟩, rfl⟩
      refine hl m (List.mem_map_of_mem (List.mem_range'_1.2 ⟨h2, ?_⟩)) (Int.natCast_dvd_natCast.2 hd)
      rw [Int.toNat_natCast]; omega
    · rintro ⟨p, hp, e⟩ i hi
      obtain rfl : n = p := by exact_mod_cast e
      obtain ⟨m, hm, rfl⟩ := List.mem_map.1 hi
      obtain ⟨h2, h3⟩ := List.mem_range'_1.1 hm
      rw [Int.toNat_natCast] at h3
      intro hd
      exact (Nat.prime_def_lt'.1 hp).2 m h2 (by omega) (Int.natCast_dvd_natCast.1 hd)
  · simp only [false_iff, not_exists, not_and]
    rintro p hp rfl
    have := hp.two_le
    omega

example : primeNumber 97 = true ∧ primeNumber 91 = false ∧ primeNumber 2 = true ∧ primeNumber 1 = false ∧
    primeNumber (-7) = false := by decide

end Evogil.RxTools
