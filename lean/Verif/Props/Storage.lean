import Verif.Lemmas.Storage
import Mathlib.Tactic.NormNum

/-!
# C18, C20: stored results are read back; identifiers round-trip
-/

namespace Evogil.Storage

variable {C : Type*}

/-! ## C18 -/

/-- **C18 (read back).** After a successful `store`, `load` with the same identity and name returns
the saved value. -/
theorem C18_read_back {fs fs' : FS C} (hr : fs [] = some .dir) {s : Case} {r : C} {name : Name}
    (h : store fs s r name = .ok fs') : load fs' s name = .ok r := by
  obtain ⟨fs1, _, _, _, rfl⟩ := store_spec hr h
  simp [load, loadFile, FS.set]

/-- **C18 (nothing else changes).** Storing under another identity or name leaves every file of the
tree as it was, in particular every other stored result. -/
theorem C18_other_files_kept {fs fs' : FS C} (hr : fs [] = some .dir) {s : Case} {r : C}
    {name : Name} (h : store fs s r name = .ok fs') :
    (∀ p v, p ≠ s.resultPath name → fs p = some (.file v) → fs' p = some (.file v)) ∧
    (∀ p v, p ≠ s.resultPath name → fs' p = some (.file v) → fs p = some (.file v)) := by
  obtain ⟨fs1, g, hd, _, rfl⟩ := store_spec hr h
  constructor
  · intro p v hp hv
    simp [FS.set, hp, g.keep p _ hv]
  · intro p v hp hv
    simp only [FS.set, hp, if_false] at hv
    rcases hfs : fs p with _ | n
    · have := (g.new p hfs (by rw [hv]; simp)).1
      rw [hv] at this; cases this
    · rw [g.keep p n hfs] at hv
      exact hv

/-- **C18 (other runs).** A result stored under a different problem, algorithm, run id or name is
read back exactly as before: the two identities must differ in at least one component. -/
theorem C18_other_results {fs fs' : FS C} (hr : fs [] = some .dir) {s s' : Case} {r : C}
    {name name' : Name} (hne : (s.resultsDir, s.problem, s.algorithm, s.id, name) ≠
      (s'.resultsDir, s'.problem, s'.algorithm, s'.id, name'))
    (h : store fs s r name = .ok fs') (v : C) :
    load fs' s' name' = .ok v ↔ load fs s' name' = .ok v := by
  have hp : s'.resultPath name' ≠ s.resultPath name := by
    intro e
    obtain ⟨rfl, rfl⟩ := resultPath_inj e
    exact hne rfl
  have key : ∀ f : FS C, load f s' name' = .ok v ↔ f (s'.resultPath name') = some (.file v) := by
    intro f
    rw [load, loadFile]
    rcases f (s'.resultPath name') with _ | _ | w
    · rcases f (s'.resultPath name').tail with _ | _ | w' <;> simp
    · simp
    · simp
  rw [key, key]
  exact ⟨(C18_other_files_kept hr h).2 _ _ hp, (C18_other_files_kept hr h).1 _ _ hp⟩

/-- **C18 (storing works).** In a well-formed tree, `store` succeeds whenever no plain file stands
where a directory is needed and no directory where the result goes. -/
theorem C18_store_succeeds {fs : FS C} (hwf : fs.WF) {s : Case} (r : C) {name : Name}
    (hno : ∀ q c, q <:+ s.path → fs q ≠ some (.file c))
    (hnd : fs (s.resultPath name) ≠ some .dir) :
    ∃ fs', store fs s r name = .ok fs' := by
  have hsave : ∀ fs1 : FS C, Grows fs fs1 s.path → fs1 s.path = some .dir →
      ∃ fs', saveFile fs1 (s.resultPath name) r = .ok fs' := by
    intro fs1 g hd
    have hnd1 : fs1 (s.resultPath name) ≠ some .dir := by
      intro hx
      rcases hfs : fs (s.resultPath name) with _ | n
      · have := (g.new _ hfs (by rw [hx]; simp)).2.length_le
        simp only [Case.resultPath, List.length_cons] at this
        omega
      · rw [g.keep _ n hfs] at hx
        exact hnd (hfs.trans hx)
    have ht : (s.resultPath name).tail = s.path := rfl
    rcases hx : fs1 (s.resultPath name) with _ | _ | w
    · exact ⟨fs1.set (s.resultPath name) (.file r), by simp only [saveFile, ht, hd, hx]⟩
    · exact absurd hx hnd1
    · exact ⟨fs1.set (s.resultPath name) (.file r), by simp only [saveFile, ht, hd, hx]⟩
  rcases (mkdirParents_ok hwf hno).2 with ⟨hd, hm⟩ | ⟨fs1, hm⟩
  · obtain ⟨fs', h⟩ := hsave fs (Grows.refl _ _) hd
    exact ⟨fs', by simp only [store, hm, h]⟩
  · obtain ⟨g, hd⟩ := mkdirParents_grows hwf.root hm
    obtain ⟨fs', h⟩ := hsave fs1 g hd
    exact ⟨fs', by simp only [store, hm, h]⟩

/-- **C18 (the tree stays in order).** A successful `store` in a well-formed tree leaves a well-formed
tree, so that the next one can succeed as well. -/
theorem C18_store_wf {fs fs' : FS C} (hwf : fs.WF) {s : Case} {r : C} {name : Name}
    (h : store fs s r name = .ok fs') : fs'.WF := by
  rw [store] at h
  rcases hm : mkdirParents fs false s.path with e | fs1
  · rw [hm] at h
    cases e <;> simp only [reduceCtorEq] at h
    exact saveFile_wf hwf (by simp [Case.resultPath]) h
  · rw [hm] at h
    exact saveFile_wf (mkdirParents_wf hwf hm) (by simp [Case.resultPath]) h

/-- Perform a list of stores one after the other; every one has to succeed. -/
def storeAll (fs : FS C) : List (Case × Name × C) → Except Err (FS C)
  | [] => .ok fs
  | (s, n, r) :: rest =>
    match store fs s r n with
    | .ok fs' => storeAll fs' rest
    | .error e => .error e

/-- The value most recently given for an identity and name in a history of stores. -/
def lastStored (s : Case) (n : Name) : List (Case × Name × C) → Option C → Option C
  | [], acc => acc
  | (s', n', r) :: rest, acc => lastStored s n rest (if s' = s ∧ n' = n then some r else acc)

/-- **C18 (histories).** After any sequence of successful stores, loading gives the value most
recently stored under exactly that identity and name, or what was there at the beginning. -/
theorem C18_history (l : List (Case × Name × C)) {fs fs' : FS C} (hr : fs [] = some .dir)
    (h : storeAll fs l = .ok fs') (s : Case) (n : Name) :
    (load fs' s n).toOption = lastStored s n l (load fs s n).toOption := by
  induction l generalizing fs with
  | nil => cases h; rfl
  | cons x l ih =>
    obtain ⟨s1, n1, r⟩ := x
    simp only [storeAll] at h
    split at h
    · rename_i fs1 hs
      have hr1 : fs1 [] = some .dir := by
        obtain ⟨f2, g, _, _, rfl⟩ := store_spec hr hs
        simp [FS.set, Case.resultPath, g.keep _ _ hr]
      rw [ih hr1 h]
      simp only [lastStored]
      congr 1
      by_cases e : s1 = s ∧ n1 = n
      · rw [if_pos e]
        obtain ⟨rfl, rfl⟩ := e
        rw [C18_read_back hr hs]; rfl
      · rw [if_neg e]
        have hk := C18_other_results (s' := s) (name' := n) hr (by
          intro he
          simp only [Prod.mk.injEq] at he
          apply e
          cases s1; cases s
          simp_all) hs
        ext v
        have hto : ∀ x : Except Err C, x.toOption = some v ↔ x = .ok v := by
          intro x; cases x <;> simp [Except.toOption]
        rw [hto, hto]
        exact hk v
    · cases h

/-- A tree that holds only the root. -/
def emptyFS : FS ℕ := fun p => if p = [] then some .dir else none

/-- Two results of two runs stored one after the other: both are there. -/
example : ∃ fs', storeAll emptyFS
      [(⟨[['r']], ['Z'], ['A'], ['1']⟩, ['5'], 10), (⟨[['r']], ['Z'], ['A'], ['2']⟩, ['5'], 20),
       (⟨[['r']], ['Z'], ['A'], ['1']⟩, ['5'], 30)] = .ok fs' ∧
    load fs' ⟨[['r']], ['Z'], ['A'], ['1']⟩ ['5'] = .ok 30 ∧
    load fs' ⟨[['r']], ['Z'], ['A'], ['2']⟩ ['5'] = .ok 20 ∧
    load fs' ⟨[['r']], ['Z'], ['A'], ['2']⟩ ['6'] = .error .fileNotFound := by
  refine ⟨_, rfl, rfl, rfl, rfl⟩

/-! ## C20 -/

/-- **C20 (seven digits).** The number part of an identifier has at least seven characters, all of
them digits, and exactly seven when the run number is below ten million. -/
theorem C20_seven_digits (n : ℕ) (hn : n ≠ 0) (date today : Name) (hd : date ≠ []) (rnd : ℕ) :
    ∃ r : Name, getSimulationId (.int n) (some date) today rnd = date ++ ['_', '_'] ++ r ∧
      7 ≤ r.length ∧ (∀ c ∈ r, c.isDigit = true) ∧ (r.length = 7 ↔ n < 10000000) ∧
      readNat r = n := by
  obtain ⟨c, cs, rfl⟩ := List.exists_cons_of_ne_nil hd
  obtain ⟨m, rfl⟩ := Nat.exists_eq_succ_of_ne_zero hn
  refine ⟨pad7 (showNat (m + 1)), rfl, ?_, ?_, ?_, ?_⟩
  · rw [length_pad7]; omega
  · exact pad7_digit fun c hc => showNat_digit hc
  · rw [length_pad7]
    have := length_showNat_le (n := m + 1) (k := 7) (by omega)
    norm_num at this
    rw [show m + 1 < 10000000 ↔ (showNat (m + 1)).length ≤ 7 from this.symm]
    omega
  · rw [readNat_pad7, readNat_showNat]

/-- **C20 (missing or zero).** A missing or zero run number is replaced by the random one, which has
exactly seven digits and no padding. -/
theorem C20_random (run : RunId) (hrun : run = .none ∨ run = .int 0 ∨ run = .str [])
    (date today : Name) (hd : date ≠ []) (rnd : ℕ) (h1 : 1000000 ≤ rnd) (h2 : rnd ≤ 9999999) :
    getSimulationId run (some date) today rnd = date ++ ['_', '_'] ++ showNat rnd ∧
      (showNat rnd).length = 7 := by
  obtain ⟨c, cs, rfl⟩ := List.exists_cons_of_ne_nil hd
  have a := length_showNat_le (n := rnd) (k := 7) (by omega)
  have b := length_showNat_le (n := rnd) (k := 6) (by omega)
  norm_num at a b
  have hl : (showNat rnd).length = 7 := by
    have h7 := a.2 (by omega)
    have h6 : ¬ (showNat rnd).length ≤ 6 := fun h => by have := b.1 h; omega
    omega
  refine ⟨?_, hl⟩
  rcases hrun with rfl | rfl | rfl <;>
    simp [getSimulationId, pad7_eq_self hl.ge]

/-- **C20 (distinct).** Under the same date, distinct positive run numbers get distinct identifiers. -/
theorem C20_injective (m n : ℕ) (hm : m ≠ 0) (hn : n ≠ 0) (date today today' : Name)
    (hd : date ≠ []) (rnd rnd' : ℕ)
    (h : getSimulationId (.int m) (some date) today rnd =
      getSimulationId (.int n) (some date) today' rnd') : m = n := by
  obtain ⟨r, hr, -, -, -, hr'⟩ := C20_seven_digits m hm date today hd rnd
  obtain ⟨q, hq, -, -, -, hq'⟩ := C20_seven_digits n hn date today' hd rnd'
  rw [hr, hq] at h
  have := List.append_cancel_left h
  rw [← hr', this, hq']

/-- **C20 (distinct, with dates).** With dates in the format the code uses, identifiers of different
(date, number) pairs are different. -/
theorem C20_injective_dates (m n : ℕ) (hm : m ≠ 0) (hn : n ≠ 0) (date date' today today' : Name)
    (hd : matchSeq dateCls date = true) (hd' : matchSeq dateCls date' = true) (rnd rnd' : ℕ)
    (h : getSimulationId (.int m) (some date) today rnd =
      getSimulationId (.int n) (some date') today' rnd') : date = date' ∧ m = n := by
  have l1 := matchSeq_length hd
  have l2 := matchSeq_length hd'
  rw [length_dateCls] at l1 l2
  have n1 : date ≠ [] := by rintro rfl; simp at l1
  have n2 : date' ≠ [] := by rintro rfl; simp at l2
  obtain ⟨r, hr, -, -, -, hr'⟩ := C20_seven_digits m hm date today n1 rnd
  obtain ⟨q, hq, -, -, -, hq'⟩ := C20_seven_digits n hn date' today' n2 rnd'
  rw [hr, hq, List.append_assoc, List.append_assoc] at h
  obtain ⟨e1, e2⟩ := List.append_inj h (by omega)
  have := List.append_cancel_left e2
  exact ⟨e1, by rw [← hr', this, hq']⟩

/-- **C20 (the listing recognises it).** The directory of a run numbered 1 to 9999999 is recognised by
the listing, which rebuilds exactly the identifier under which the run was stored. -/
theorem C20_listed (n : ℕ) (hn : n ≠ 0) (hn7 : n < 10000000) (date today : Name)
    (hd : matchSeq dateCls date = true) (rnd : ℕ) :
    ∃ r, matchRun (getSimulationId (.int n) (some date) today rnd) = some (date, r) ∧
      readNat r = n ∧ ∀ today' rnd', getSimulationId (.str r) (some date) today' rnd' =
        getSimulationId (.int n) (some date) today rnd := by
  have l1 := matchSeq_length hd
  rw [length_dateCls] at l1
  have n1 : date ≠ [] := by rintro rfl; simp at l1
  obtain ⟨r, hr, -, hdig, h7, hr'⟩ := C20_seven_digits n hn date today n1 rnd
  have hl := h7.2 hn7
  refine ⟨r, matchRun_eq_some.2 ⟨hr, hd, hl, hdig⟩, hr', fun today' rnd' => ?_⟩
  rw [hr]
  obtain ⟨c, cs, rfl⟩ := List.exists_cons_of_ne_nil n1
  obtain ⟨c', cs', rfl⟩ := List.exists_cons_of_ne_nil (l := r) (by rintro rfl; simp at hl)
  simp [getSimulationId, pad7_eq_self hl.ge]

/-- **C20 (not listed).** Run numbers from ten million on are stored in a directory that the listing
does not recognise: their results are never shown. -/
theorem C20_large_not_listed (n : ℕ) (hn : 10000000 ≤ n) (date today : Name)
    (hd : matchSeq dateCls date = true) (rnd : ℕ) :
    matchRun (getSimulationId (.int n) (some date) today rnd) = none := by
  have l1 := matchSeq_length hd
  rw [length_dateCls] at l1
  have n1 : date ≠ [] := by rintro rfl; simp at l1
  obtain ⟨r, hr, hge, -, h7, -⟩ := C20_seven_digits n (by omega) date today n1 rnd
  rw [matchRun, if_neg]
  intro hm
  have := matchSeq_length hm
  rw [hr] at this
  have hlr : r.length ≠ 7 := fun h => by have := h7.1 h; omega
  simp [runCls, length_dateCls] at this
  omega

/-- **C20 (directory names).** Whatever directory the listing accepts, the identifier it rebuilds is
the name of that directory (also for the number 0000000). -/
theorem C20_rebuilt_id {name d r : Name} (h : matchRun name = some (d, r)) (today : Name)
    (rnd : ℕ) : getSimulationId (.str r) (some d) today rnd = name := by
  obtain ⟨rfl, hd, hl, -⟩ := matchRun_eq_some.1 h
  have l1 := matchSeq_length hd
  rw [length_dateCls] at l1
  obtain ⟨c, cs, rfl⟩ := List.exists_cons_of_ne_nil (l := d) (by rintro rfl; simp at l1)
  obtain ⟨c', cs', rfl⟩ := List.exists_cons_of_ne_nil (l := r) (by rintro rfl; simp at hl)
  simp [getSimulationId, pad7_eq_self hl.ge]

example : getSimulationId (.int 42) (some "2017-05-06.101112.000123".toList) [] 0 =
    "2017-05-06.101112.000123__0000042".toList := by decide +kernel

example : matchRun "2017-05-06.101112.000123__0000042".toList =
    some ("2017-05-06.101112.000123".toList, "0000042".toList) := by decide +kernel

example : matchRun "2017-05-06.101112.000123__10000000".toList = none := by decide +kernel

end Evogil.Storage
