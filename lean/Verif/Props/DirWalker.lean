import Verif.Model.DirWalker
import Verif.Spec.DirWalker

/-!
# C135, C136: the clean-up tool for result directories
-/

set_option linter.unusedSectionVars false

namespace Evogil.DirWalker

open Storage Spec

variable {B V : Type*}

theorem json_iff (n : Name) : jsonExt.isSuffixOf n = true ↔ ∃ s : Name, n = s ++ ".json".toList := by
  rw [List.isSuffixOf_iff_suffix]
  exact ⟨fun ⟨s, h⟩ => ⟨s, h.symm⟩, fun ⟨s, h⟩ => ⟨s, h.symm⟩⟩

theorem target_json (s : Name) : target (s ++ ".json".toList) = s ++ ".pickle".toList := by
  have e1 : ".json".toList = ['.'] ++ ['j', 's', 'o', 'n'] := rfl
  have e2 : ".pickle".toList = ['.'] ++ ['p', 'i', 'c', 'k', 'l', 'e'] := rfl
  have : (s ++ ".json".toList).length - 4 = (s ++ ['.']).length := by
    simp only [e1, List.length_append, List.length_cons, List.length_nil]; omega
  unfold target
  rw [this, e1, e2, ← List.append_assoc, List.take_left, List.append_assoc]

theorem pickle_ne_json (d d' : RPath) (s t : Name) : pickleFile d s ≠ jsonFile d' t := by
  intro h
  have h1 := congrArg (fun l : Name => l.getLast?) (List.cons.inj h).1
  simp [List.getLast?_append] at h1

theorem json_inj {d d' : RPath} {s t : Name} (h : jsonFile d s = jsonFile d' t) : d = d' ∧ s = t := by
  obtain ⟨h1, h2⟩ := List.cons.inj h
  exact ⟨h2, List.append_cancel_right h1⟩

theorem pickle_inj {d d' : RPath} {s t : Name} (h : pickleFile d s = pickleFile d' t) :
    d = d' ∧ s = t := by
  obtain ⟨h1, h2⟩ := List.cons.inj h
  exact ⟨h2, List.append_cancel_right h1⟩

/-- One file: either nothing changes and an exception is raised, or the file is no `.json` file, or
it is converted. -/
theorem json2pickle_cases (jl : B → Option V) (pd : V → B) (fs : FS B) (d : RPath) (n : Name) :
    (∃ e, json2pickle jl pd fs d n = (fs, some e)) ∨
    ((∀ s : Name, n ≠ s ++ ".json".toList) ∧ json2pickle jl pd fs d n = (fs, none)) ∨
    ∃ s b v, n = s ++ ".json".toList ∧ fs (jsonFile d s) = some (.file b) ∧ jl b = some v ∧
      (∀ p, (json2pickle jl pd fs d n).1 p =
        if p = jsonFile d s then none else if p = pickleFile d s then some (.file (pd v)) else fs p) ∧
      (json2pickle jl pd fs d n).2 = none := by
  by_cases hj : jsonExt.isSuffixOf n = true
  · obtain ⟨s, rfl⟩ := (json_iff n).1 hj
    unfold json2pickle
    rw [if_pos hj]
    cases h1 : loadFile fs ((s ++ ".json".toList) :: d) with
    | error e => exact .inl ⟨_, rfl⟩
    | ok b =>
      have hb : fs (jsonFile d s) = some (.file b) := by
        unfold loadFile at h1
        change fs ((s ++ ".json".toList) :: d) = _
        revert h1
        cases hf : fs ((s ++ ".json".toList) :: d) with
        | none => simp only; split <;> intro h <;> cases h
        | some x =>
          cases x with
          | dir => intro h; cases h
          | file c => intro h; simp only [Except.ok.injEq] at h; rw [h]
      simp only
      cases h2 : jl b with
      | none => exact .inl ⟨_, rfl⟩
      | some v =>
        simp only
        cases h3 : saveFile fs (target (s ++ ".json".toList) :: d) (pd v) with
        | error e => exact .inl ⟨_, rfl⟩
        | ok fs' =>
          refine .inr (.inr ⟨s, b, v, rfl, hb, h2, ?_, rfl⟩)
          have hfs : fs' = fs.set (pickleFile d s) (.file (pd v)) := by
            rw [target_json] at h3
            unfold saveFile at h3
            revert h3
            repeat' split
            all_goals intro h; cases h
            rfl
          intro p
          simp only [remove, hfs, FS.set]
          rfl
  · refine .inr (.inl ⟨fun s h => hj ((json_iff n).2 ⟨s, h⟩), ?_⟩)
    unfold json2pickle
    rw [if_neg hj]

/-- When the conversion of one file succeeds. -/
theorem json2pickle_ok (jl : B → Option V) (pd : V → B) (fs : FS B) (d : RPath) (n : Name)
    (hdir : fs d = some .dir) {b : B} (hfile : fs (n :: d) = some (.file b))
    (hj : ∀ s, n = s ++ ".json".toList → (∃ v, jl b = some v) ∧ fs (pickleFile d s) ≠ some .dir) :
    (json2pickle jl pd fs d n).2 = none := by
  unfold json2pickle
  split
  · rename_i h
    obtain ⟨s, rfl⟩ := (json_iff n).1 h
    obtain ⟨⟨v, hv⟩, hp⟩ := hj s rfl
    have h1 : loadFile fs ((s ++ ".json".toList) :: d) = .ok b := by
      unfold loadFile; rw [hfile]
    rw [h1]
    simp only [hv]
    rw [target_json]
    have h2 : saveFile fs ((s ++ ".pickle".toList) :: d) (pd v) =
        .ok (fs.set ((s ++ ".pickle".toList) :: d) (.file (pd v))) := by
      unfold saveFile
      simp only [List.tail_cons, hdir]
      split
      · rename_i h; exact absurd h hp
      · rfl
    rw [h2]
  · rfl

/-- What `walk` with `json2pickle` leaves behind. -/
theorem walk_json (jl : B → Option V) (pd : V → B) :
    ∀ (files : List (RPath × Name)) (fs : FS B), files.Nodup →
      (∀ p, (∀ d s, (d, s ++ ".json".toList) ∈ files → p ≠ jsonFile d s ∧ p ≠ pickleFile d s) →
        (walk (json2pickle jl pd) fs files).1 p = fs p) ∧
      (∀ d s, (d, s ++ ".json".toList) ∈ files →
        ((walk (json2pickle jl pd) fs files).2 ≠ none ∧
          (walk (json2pickle jl pd) fs files).1 (jsonFile d s) = fs (jsonFile d s) ∧
          (walk (json2pickle jl pd) fs files).1 (pickleFile d s) = fs (pickleFile d s)) ∨
        ∃ b v, fs (jsonFile d s) = some (.file b) ∧ jl b = some v ∧
          (walk (json2pickle jl pd) fs files).1 (jsonFile d s) = none ∧
          (walk (json2pickle jl pd) fs files).1 (pickleFile d s) = some (.file (pd v))) := by
  intro files
  induction files with
  | nil => intro fs _; exact ⟨fun _ _ => rfl, fun d s h => absurd h List.not_mem_nil⟩
  | cons x rest ih =>
    obtain ⟨d, n⟩ := x
    intro fs hnd
    have hnd' := (List.nodup_cons.1 hnd)
    rcases json2pickle_cases jl pd fs d n with ⟨e, he⟩ | ⟨hn, he⟩ | ⟨s, b, v, hn, hb, hv, hp, he⟩
    · have hw : walk (json2pickle jl pd) fs ((d, n) :: rest) = (fs, some e) := by
        simp only [walk, he]
      rw [hw]
      exact ⟨fun _ _ => rfl, fun d' s' _ => .inl ⟨by simp, rfl, rfl⟩⟩
    · have hw : walk (json2pickle jl pd) fs ((d, n) :: rest) = walk (json2pickle jl pd) fs rest := by
        simp only [walk, he]
      rw [hw]
      obtain ⟨i1, i2⟩ := ih fs hnd'.2
      refine ⟨fun p h => i1 p fun d' s' hm => h d' s' (List.mem_cons_of_mem _ hm), fun d' s' hm => ?_⟩
      rcases List.mem_cons.1 hm with h | h
      · exact absurd (Prod.mk.inj h).2.symm (hn s')
      · exact i2 d' s' h
    · subst hn
      obtain ⟨fs1, hfs1⟩ : ∃ fs1, fs1 = (json2pickle jl pd fs d (s ++ ".json".toList)).1 := ⟨_, rfl⟩
      have hw : walk (json2pickle jl pd) fs ((d, s ++ ".json".toList) :: rest) =
          walk (json2pickle jl pd) fs1 rest := by
        simp only [walk]
        rw [show json2pickle jl pd fs d (s ++ ".json".toList) = (fs1, none) from Prod.ext hfs1.symm he]
      rw [← hfs1] at hp
      rw [hw]
      obtain ⟨i1, i2⟩ := ih fs1 hnd'.2
      -- the head is not met again
      have hne : ∀ d' s', (d', s' ++ ".json".toList) ∈ rest → jsonFile d s ≠ jsonFile d' s' ∧
          pickleFile d s ≠ pickleFile d' s' := by
        intro d' s' hm
        refine ⟨fun h => ?_, fun h => ?_⟩
        · obtain ⟨rfl, rfl⟩ := json_inj h; exact hnd'.1 hm
        · obtain ⟨rfl, rfl⟩ := pickle_inj h; exact hnd'.1 hm
      constructor
      · intro p h
        have h0 := h d s (List.mem_cons_self ..)
        rw [i1 p fun d' s' hm => h d' s' (List.mem_cons_of_mem _ hm), hp, if_neg h0.1, if_neg h0.2]
      · intro d' s' hm
        rcases List.mem_cons.1 hm with h | h
        · obtain ⟨rfl, h2⟩ := Prod.mk.inj h
          obtain rfl := List.append_cancel_right h2
          refine .inr ⟨b, v, hb, hv, ?_, ?_⟩
          · rw [i1 _ fun d2 s2 hm2 => ⟨(hne d2 s2 hm2).1, (pickle_ne_json _ _ _ _).symm⟩, hp, if_pos rfl]
          · rw [i1 _ fun d2 s2 hm2 => ⟨pickle_ne_json _ _ _ _, (hne d2 s2 hm2).2⟩, hp,
              if_neg (pickle_ne_json _ _ _ _), if_pos rfl]
        · have e1 : fs1 (jsonFile d' s') = fs (jsonFile d' s') := by
            rw [hp, if_neg (hne d' s' h).1.symm, if_neg (pickle_ne_json _ _ _ _).symm]
          have e2 : fs1 (pickleFile d' s') = fs (pickleFile d' s') := by
            rw [hp, if_neg (pickle_ne_json _ _ _ _), if_neg (hne d' s' h).2.symm]
          have := i2 d' s' h
          rw [e1, e2] at this
          exact this

/-- `walk` with `json2pickle` finishes. -/
theorem walk_json_ok (jl : B → Option V) (pd : V → B) :
    ∀ (files : List (RPath × Name)) (fs : FS B), files.Nodup →
      (∀ d n, (d, n) ∈ files → fs d = some .dir ∧ ∃ b, fs (n :: d) = some (.file b) ∧
        ∀ s, n = s ++ ".json".toList → (∃ v, jl b = some v) ∧ fs (pickleFile d s) = none) →
      (walk (json2pickle jl pd) fs files).2 = none := by
  intro files
  induction files with
  | nil => intro fs _ _; rfl
  | cons x rest ih =>
    obtain ⟨d, n⟩ := x
    intro fs hnd h
    have hnd' := List.nodup_cons.1 hnd
    obtain ⟨hd, b, hb, hs⟩ := h d n (List.mem_cons_self ..)
    have hok := json2pickle_ok jl pd fs d n hd hb fun s e => ⟨(hs s e).1, by rw [(hs s e).2]; simp⟩
    rcases json2pickle_cases jl pd fs d n with ⟨e, he⟩ | ⟨hn, he⟩ | ⟨s, b', v, hn, hb', hv, hp, he⟩
    · rw [he] at hok; cases hok
    · simp only [walk, he]
      exact ih fs hnd'.2 fun d' n' hm => h d' n' (List.mem_cons_of_mem _ hm)
    · subst hn
      obtain ⟨fs1, hfs1⟩ : ∃ fs1, fs1 = (json2pickle jl pd fs d (s ++ ".json".toList)).1 := ⟨_, rfl⟩
      simp only [walk]
      rw [show json2pickle jl pd fs d (s ++ ".json".toList) = (fs1, none) from Prod.ext hfs1.symm he]
      rw [← hfs1] at hp
      refine ih fs1 hnd'.2 fun d' n' hm => ?_
      obtain ⟨hd', b2, hb2, hs2⟩ := h d' n' (List.mem_cons_of_mem _ hm)
      have hpn : fs (pickleFile d s) = none := (hs s rfl).2
      refine ⟨?_, b2, ?_, fun t e => ⟨(hs2 t e).1, ?_⟩⟩
      · rw [hp, if_neg, if_neg, hd']
        · rintro rfl; rw [hpn] at hd'; cases hd'
        · rintro rfl; rw [hb'] at hd'; cases hd'
      · rw [hp, if_neg, if_neg, hb2]
        · intro e; rw [e, hpn] at hb2; cases hb2
        · intro e
          obtain ⟨h1, h2⟩ := List.cons.inj e
          subst h1; subst h2; exact hnd'.1 hm
      · subst e
        rw [hp, if_neg (pickle_ne_json _ _ _ _), if_neg, (hs2 t rfl).2]
        intro e
        obtain ⟨rfl, rfl⟩ := pickle_inj e
        exact hnd'.1 hm

/-- **C135** (partial: without a `.pickle` next to a `.json` file of the same name, and if all
`.json` files can be read) The tool finishes; below the directory every `.json` file is replaced by a
`.pickle` file with the value that it contained, and nothing else changes. -/
theorem C135_converted_partial (jl : B → Option V) (pd : V → B) (fs : FS B) (hwf : fs.WF)
    (root : RPath) (files : List (RPath × Name)) (hfiles : ListsFiles fs root files)
    (hread : ∀ d s b, root <:+ d → fs (jsonFile d s) = some (.file b) →
      (∃ v, jl b = some v) ∧ fs (pickleFile d s) = none) :
    (walk (json2pickle jl pd) fs files).2 = none ∧
    (∀ d s b, root <:+ d → fs (jsonFile d s) = some (.file b) → ∃ v, jl b = some v ∧
      (walk (json2pickle jl pd) fs files).1 (jsonFile d s) = none ∧
      (walk (json2pickle jl pd) fs files).1 (pickleFile d s) = some (.file (pd v))) ∧
    ∀ p, (∀ d s b, root <:+ d → fs (jsonFile d s) = some (.file b) →
        p ≠ jsonFile d s ∧ p ≠ pickleFile d s) →
      (walk (json2pickle jl pd) fs files).1 p = fs p := by
  have hok : (walk (json2pickle jl pd) fs files).2 = none := by
    refine walk_json_ok jl pd files fs hfiles.nodup fun d n hm => ?_
    obtain ⟨hr, b, hb⟩ := (hfiles.mem d n).1 hm
    refine ⟨hwf.parent n d (by rw [hb]; simp), b, hb, ?_⟩
    rintro s rfl
    exact hread d s b hr hb
  obtain ⟨w1, w2⟩ := walk_json jl pd files fs hfiles.nodup
  refine ⟨hok, fun d s b hr hb => ?_, fun p h => w1 p fun d s hm => ?_⟩
  · rcases w2 d s ((hfiles.mem d _).2 ⟨hr, b, hb⟩) with h | ⟨b', v, hb', hv, h1, h2⟩
    · exact absurd hok h.1
    · rw [hb] at hb'
      cases hb'
      exact ⟨v, hv, h1, h2⟩
  · obtain ⟨hr, b, hb⟩ := (hfiles.mem d _).1 hm
    exact h d s b hr hb

/-- **C135** However the tool ends, also with an exception in the middle: what a `.json` file
contained is still there, in the `.json` file or in the `.pickle` file, and no file is touched but
the `.json` files and those with the names of the new `.pickle` files. -/
theorem C135_nothing_lost (jl : B → Option V) (pd : V → B) (fs : FS B) (root : RPath)
    (files : List (RPath × Name)) (hfiles : ListsFiles fs root files) :
    (∀ d s b, root <:+ d → fs (jsonFile d s) = some (.file b) →
      (walk (json2pickle jl pd) fs files).1 (jsonFile d s) = some (.file b) ∨
      ∃ v, jl b = some v ∧
        (walk (json2pickle jl pd) fs files).1 (pickleFile d s) = some (.file (pd v))) ∧
    ∀ p, (∀ d s b, root <:+ d → fs (jsonFile d s) = some (.file b) →
        p ≠ jsonFile d s ∧ p ≠ pickleFile d s) →
      (walk (json2pickle jl pd) fs files).1 p = fs p := by
  obtain ⟨w1, w2⟩ := walk_json jl pd files fs hfiles.nodup
  refine ⟨fun d s b hr hb => ?_, fun p h => w1 p fun d s hm => ?_⟩
  · rcases w2 d s ((hfiles.mem d _).2 ⟨hr, b, hb⟩) with h | ⟨b', v, hb', hv, _, h2⟩
    · exact .inl (by rw [h.2.1, hb])
    · rw [hb] at hb'
      cases hb'
      exact .inr ⟨v, hv, h2⟩
  · obtain ⟨hr, b, hb⟩ := (hfiles.mem d _).1 hm
    exact h d s b hr hb

/-! ## Witnesses

The content of a file is `some v`, a JSON text with the value `v`, `none`, a text that is no JSON, or
a pickle; it is enough to take contents that are numbers: an even number `2 v` is the JSON text of
`v`, an odd number `2 v + 1` the pickle of `v`. -/

/-- Read a JSON text, in the witnesses. -/
def demoLoad (b : ℕ) : Option ℕ := if b % 2 = 0 then some (b / 2) else none

/-- Write a pickle, in the witnesses. -/
def demoDump (v : ℕ) : ℕ := 2 * v + 1

/-- A tree with the directory `r` and two entries in it. -/
def demoTree (n1 n2 : Name) (b1 b2 : ℕ) : FS ℕ := fun p =>
  if p = [] ∨ p = [['r']] then some .dir
  else if p = [n1, ['r']] then some (.file b1)
  else if p = [n2, ['r']] then some (.file b2) else none

theorem demoTree_wf (n1 n2 : Name) (b1 b2 : ℕ) : (demoTree n1 n2 b1 b2).WF := by
  constructor
  · simp [demoTree]
  · intro c p h
    unfold demoTree at h ⊢
    by_cases h1 : c :: p = [] ∨ c :: p = [['r']]
    · rcases h1 with h1 | h1
      · cases h1
      · rw [(List.cons.inj h1).2]; simp
    by_cases h2 : c :: p = [n1, ['r']]
    · rw [(List.cons.inj h2).2]; simp
    by_cases h3 : c :: p = [n2, ['r']]
    · rw [(List.cons.inj h3).2]; simp
    exact absurd (by rw [if_neg h1, if_neg h2, if_neg h3]) h

theorem demoTree_lists (n1 n2 : Name) (b1 b2 : ℕ) (h : n1 ≠ n2) :
    ListsFiles (demoTree n1 n2 b1 b2) [['r']] [([['r']], n1), ([['r']], n2)] := by
  constructor
  · simp [h]
  · intro d n
    simp only [List.mem_cons, Prod.mk.injEq, List.not_mem_nil, or_false]
    constructor
    · rintro (⟨rfl, rfl⟩ | ⟨rfl, rfl⟩)
      · exact ⟨List.suffix_refl _, b1, by simp [demoTree]⟩
      · exact ⟨List.suffix_refl _, b2, by simp [demoTree, h.symm]⟩
    · rintro ⟨_, b, hb⟩
      unfold demoTree at hb
      by_cases h1 : n :: d = [] ∨ n :: d = [['r']]
      · rw [if_pos h1] at hb; cases hb
      by_cases h2 : n :: d = [n1, ['r']]
      · exact .inl ⟨(List.cons.inj h2).2, (List.cons.inj h2).1⟩
      by_cases h3 : n :: d = [n2, ['r']]
      · exact .inr ⟨(List.cons.inj h3).2, (List.cons.inj h3).1⟩
      rw [if_neg h1, if_neg h2, if_neg h3] at hb
      cases hb

/-- **C135** (violated) The result `7.pickle` is lost when there is a file `7.json` beside it. -/
theorem C135_overwritten_violated :
    ∃ (fs : FS ℕ) (root : RPath) (files : List (RPath × Name)) (p : RPath),
      fs.WF ∧ ListsFiles fs root files ∧ fs p = some (.file 5) ∧
      (∀ d s, p ≠ jsonFile d s) ∧
      walk (json2pickle demoLoad demoDump) fs files = ((walk (json2pickle demoLoad demoDump) fs files).1, none) ∧
      ∀ q, (walk (json2pickle demoLoad demoDump) fs files).1 q ≠ some (.file 5) := by
  refine ⟨demoTree ['7', '.', 'j', 's', 'o', 'n'] ['7', '.', 'p', 'i', 'c', 'k', 'l', 'e'] 12 5,
    [['r']], _, pickleFile [['r']] ['7'], demoTree_wf .., demoTree_lists _ _ _ _ (by decide),
    by decide, fun d s => pickle_ne_json _ _ _ _, ?_, ?_⟩
  · exact Prod.ext rfl (by decide)
  · intro q hq
    have hq' : (if q = [['7', '.', 'j', 's', 'o', 'n'], ['r']] then none
      else if q = [['7', '.', 'p', 'i', 'c', 'k', 'l', 'e'], ['r']] then some (Node.file 13)
      else demoTree ['7', '.', 'j', 's', 'o', 'n'] ['7', '.', 'p', 'i', 'c', 'k', 'l', 'e'] 12 5 q) =
        some (.file 5) := hq
    split_ifs at hq' with h1 h2
    · simp at hq'
    · unfold demoTree at hq'
      rw [if_neg h1, if_neg h2] at hq'
      split_ifs at hq'
      · simp at hq'

/-- **C135** (violated) After a file that only looks like a JSON file the rest is not converted. -/
theorem C135_stops_violated :
    ∃ (fs : FS ℕ) (root : RPath) (files : List (RPath × Name)) (d : RPath) (s : Name),
      fs.WF ∧ ListsFiles fs root files ∧ root <:+ d ∧ fs (jsonFile d s) = some (.file 12) ∧
      demoLoad 12 = some 6 ∧ fs (pickleFile d s) = none ∧
      (walk (json2pickle demoLoad demoDump) fs files).1 (pickleFile d s) = none := by
  refine ⟨demoTree ['6', '.', 'j', 's', 'o', 'n'] ['7', '.', 'j', 's', 'o', 'n'] 5 12,
    [['r']], _, [['r']], ['7'], demoTree_wf .., demoTree_lists _ _ _ _ (by decide),
    List.suffix_refl _, by decide, by decide, by decide, by decide⟩

/-- A tree in which a result is converted and another file stays. -/
example : (walk (json2pickle demoLoad demoDump)
      (demoTree ['7', '.', 'j', 's', 'o', 'n'] ['a'] 12 5)
      [([['r']], ['7', '.', 'j', 's', 'o', 'n']), ([['r']], ['a'])]).2 = none ∧
    (walk (json2pickle demoLoad demoDump)
      (demoTree ['7', '.', 'j', 's', 'o', 'n'] ['a'] 12 5)
      [([['r']], ['7', '.', 'j', 's', 'o', 'n']), ([['r']], ['a'])]).1 (pickleFile [['r']] ['7']) =
      some (.file 13) := by
  decide

/-! ## `clear_budget` -/

/-- What `walk` with `clear_budget` leaves behind. -/
theorem walk_clear (ti : Name → Option ℤ) :
    ∀ (files : List (RPath × Name)) (fs : FS B) (p : RPath),
      ((walk (clearBudget ti) fs files).1 p = fs p ∨
        (walk (clearBudget ti) fs files).1 p = none ∧
        ∃ d n k, (d, n) ∈ files ∧ p = n :: d ∧ ti (n.takeWhile (· ≠ '.')) = some k ∧ 4500 < k) ∧
      ((walk (clearBudget ti) fs files).2 = none → ∀ d n, (d, n) ∈ files →
        ∃ k, ti (n.takeWhile (· ≠ '.')) = some k ∧
          (p = n :: d → 4500 < k → (walk (clearBudget ti) fs files).1 p = none)) ∧
      ((walk (clearBudget ti) fs files).2 ≠ none →
        ∃ d n, (d, n) ∈ files ∧ ti (n.takeWhile (· ≠ '.')) = none) := by
  intro files
  induction files with
  | nil =>
    intro fs p
    exact ⟨.inl rfl, fun _ d n h => absurd h List.not_mem_nil, fun h => absurd rfl h⟩
  | cons x rest ih =>
    obtain ⟨d, n⟩ := x
    intro fs p
    cases hk : ti (n.takeWhile (· ≠ '.')) with
    | none =>
      have hw : walk (clearBudget ti) fs ((d, n) :: rest) = (fs, some .value) := by
        simp only [walk, clearBudget, hk]
      rw [hw]
      exact ⟨.inl rfl, fun h => (by cases h), fun _ => ⟨d, n, List.mem_cons_self .., hk⟩⟩
    | some k =>
      by_cases hb : k > 4500
      · have hw : walk (clearBudget ti) fs ((d, n) :: rest) =
            walk (clearBudget ti) (remove fs (n :: d)) rest := by
          simp only [walk, clearBudget, hk, if_pos hb]
        rw [hw]
        obtain ⟨i1, i2, i3⟩ := ih (remove fs (n :: d)) p
        have hnone : p = n :: d → (walk (clearBudget ti) (remove fs (n :: d)) rest).1 p = none := by
          intro e
          rcases i1 with h | h
          · rw [h, remove, if_pos e]
          · exact h.1
        refine ⟨?_, fun h d' n' hm => ?_, fun h => ?_⟩
        · by_cases e : p = n :: d
          · exact .inr ⟨hnone e, d, n, k, List.mem_cons_self .., e, hk, hb⟩
          · rcases i1 with h | ⟨h, d', n', k', hm, hp⟩
            · exact .inl (by rw [h, remove, if_neg e])
            · exact .inr ⟨h, d', n', k', List.mem_cons_of_mem _ hm, hp⟩
        · rcases List.mem_cons.1 hm with e | hm
          · obtain ⟨rfl, rfl⟩ := Prod.mk.inj e
            exact ⟨k, hk, fun e _ => hnone e⟩
          · exact i2 h d' n' hm
        · obtain ⟨d', n', hm, h'⟩ := i3 h
          exact ⟨d', n', List.mem_cons_of_mem _ hm, h'⟩
      · have hw : walk (clearBudget ti) fs ((d, n) :: rest) = walk (clearBudget ti) fs rest := by
          simp only [walk, clearBudget, hk, if_neg hb]
        rw [hw]
        obtain ⟨i1, i2, i3⟩ := ih fs p
        refine ⟨?_, fun h d' n' hm => ?_, fun h => ?_⟩
        · rcases i1 with h | ⟨h, d', n', k', hm, hp⟩
          · exact .inl h
          · exact .inr ⟨h, d', n', k', List.mem_cons_of_mem _ hm, hp⟩
        · rcases List.mem_cons.1 hm with e | hm
          · obtain ⟨rfl, rfl⟩ := Prod.mk.inj e
            exact ⟨k, hk, fun _ h => absurd h hb⟩
          · exact i2 h d' n' hm
        · obtain ⟨d', n', hm, h'⟩ := i3 h
          exact ⟨d', n', List.mem_cons_of_mem _ hm, h'⟩

/-- **C136** (partial: if before the first dot of every file name there is a number) `clear_budget`
removes the files with a number above 4500 and leaves everything else as it is. -/
theorem C136_cleared_partial (ti : Name → Option ℤ) (fs : FS B) (root : RPath)
    (files : List (RPath × Name)) (hfiles : ListsFiles fs root files)
    (hnum : ∀ d n b, root <:+ d → fs (n :: d) = some (.file b) →
      ∃ k, ti (n.takeWhile (· ≠ '.')) = some k) :
    (walk (clearBudget ti) fs files).2 = none ∧
    (∀ d n b k, root <:+ d → fs (n :: d) = some (.file b) → ti (n.takeWhile (· ≠ '.')) = some k →
      (walk (clearBudget ti) fs files).1 (n :: d) = if 4500 < k then none else some (.file b)) ∧
    ∀ p, (fs p = some .dir ∨ fs p = none ∨ ¬ root <:+ p) →
      (walk (clearBudget ti) fs files).1 p = fs p := by
  have hok : (walk (clearBudget ti) fs files).2 = none := by
    by_contra h
    obtain ⟨d, n, hm, hn⟩ := (walk_clear ti files fs []).2.2 h
    obtain ⟨hr, b, hb⟩ := (hfiles.mem d n).1 hm
    obtain ⟨k, hk⟩ := hnum d n b hr hb
    rw [hk] at hn
    cases hn
  refine ⟨hok, fun d n b k hr hb hk => ?_, fun p hp => ?_⟩
  · obtain ⟨w1, w2, _⟩ := walk_clear ti files fs (n :: d)
    split_ifs with h
    · obtain ⟨k', hk', h'⟩ := w2 hok d n ((hfiles.mem d n).2 ⟨hr, b, hb⟩)
      rw [hk] at hk'
      cases hk'
      exact h' rfl h
    · rcases w1 with e | ⟨_, d', n', k', _, e, hk', hlt⟩
      · rw [e, hb]
      · obtain ⟨rfl, rfl⟩ := List.cons.inj e
        rw [hk] at hk'
        cases hk'
        exact absurd hlt h
  · rcases (walk_clear ti files fs p).1 with e | ⟨_, d, n, k, hm, e, _⟩
    · exact e
    · obtain ⟨hr, b, hb⟩ := (hfiles.mem d n).1 hm
      rw [← e] at hb
      rcases hp with h | h | h
      · rw [h] at hb; cases hb
      · rw [h] at hb; cases hb
      · exact absurd (e ▸ hr.trans (List.suffix_cons n d)) h

/-- **C136** However it ends, `clear_budget` removes only files with a number above 4500, and it
fails only if some name does not begin with a number. -/
theorem C136_removed_only (ti : Name → Option ℤ) (fs : FS B) (root : RPath)
    (files : List (RPath × Name)) (hfiles : ListsFiles fs root files) :
    (∀ p, (walk (clearBudget ti) fs files).1 p = fs p ∨
      (walk (clearBudget ti) fs files).1 p = none ∧ ∃ d n b k, p = n :: d ∧ root <:+ d ∧
        fs p = some (.file b) ∧ ti (n.takeWhile (· ≠ '.')) = some k ∧ 4500 < k) ∧
    ((walk (clearBudget ti) fs files).2 ≠ none → ∃ d n b, root <:+ d ∧ fs (n :: d) = some (.file b) ∧
      ti (n.takeWhile (· ≠ '.')) = none) := by
  refine ⟨fun p => ?_, fun h => ?_⟩
  · rcases (walk_clear ti files fs p).1 with e | ⟨e, d, n, k, hm, hp, hk⟩
    · exact .inl e
    · obtain ⟨hr, b, hb⟩ := (hfiles.mem d n).1 hm
      exact .inr ⟨e, d, n, b, k, hp, hr, hp ▸ hb, hk⟩
  · obtain ⟨d, n, hm, hn⟩ := (walk_clear ti files fs []).2.2 h
    obtain ⟨hr, b, hb⟩ := (hfiles.mem d n).1 hm
    exact ⟨d, n, b, hr, hb, hn⟩

/-- The value of a numeral, for the witnesses. -/
def demoInt (n : Name) : Option ℤ :=
  if n ≠ [] ∧ n.all Char.isDigit then
    some ((n.foldl (fun k c => 10 * k + (c.toNat - 48)) 0 : ℕ) : ℤ) else none

/-- **C136** (violated) A file with another name, here `a`, stops it; the file `4800.pickle` after it
stays. -/
theorem C136_stops_violated :
    ∃ (fs : FS ℕ) (root : RPath) (files : List (RPath × Name)) (d : RPath) (n : Name),
      fs.WF ∧ ListsFiles fs root files ∧ root <:+ d ∧ fs (n :: d) = some (.file 5) ∧
      demoInt (n.takeWhile (· ≠ '.')) = some 4800 ∧
      (walk (clearBudget demoInt) fs files).1 (n :: d) = some (.file 5) := by
  refine ⟨demoTree ['a'] ['4', '8', '0', '0', '.', 'p', 'i', 'c', 'k', 'l', 'e'] 3 5,
    [['r']], _, [['r']], ['4', '8', '0', '0', '.', 'p', 'i', 'c', 'k', 'l', 'e'], demoTree_wf ..,
    demoTree_lists _ _ _ _ (by decide), List.suffix_refl _, by decide, by decide, by decide⟩

/-- `4800.x.pickle` goes, `4500.pickle` stays. -/
example :
    (walk (clearBudget demoInt)
      (demoTree ['4', '8', '0', '0', '.', 'x', '.', 'p'] ['4', '5', '0', '0', '.', 'p'] 3 5)
      [([['r']], ['4', '8', '0', '0', '.', 'x', '.', 'p']), ([['r']], ['4', '5', '0', '0', '.', 'p'])]).2 =
        none ∧
    (walk (clearBudget demoInt)
      (demoTree ['4', '8', '0', '0', '.', 'x', '.', 'p'] ['4', '5', '0', '0', '.', 'p'] 3 5)
      [([['r']], ['4', '8', '0', '0', '.', 'x', '.', 'p']), ([['r']], ['4', '5', '0', '0', '.', 'p'])]).1
        [['4', '8', '0', '0', '.', 'x', '.', 'p'], ['r']] = none := by
  decide

end Evogil.DirWalker
