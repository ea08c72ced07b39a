import Verif.Model.PdiCache
import Verif.Props.Listing
import Verif.Props.ParetoFilter

/-! # Lemmas about the reference sets of the Pareto dominance indicator -/

set_option linter.unusedSectionVars false

namespace Evogil.Storage
open Spec

variable {α : Type*} [LinearOrder α]

/-! ### Dictionaries -/

section dict
variable {K V : Type*} [DecidableEq K]

theorem dget_dset (d : List (K × V)) (k k' : K) (v : V) :
    dget (dset d k v) k' = if k = k' then some v else dget d k' := by
  induction d with
  | nil => by_cases h : k = k' <;> simp [dset, dget, h]
  | cons x d ih =>
    obtain ⟨k0, v0⟩ := x
    by_cases h0 : k0 = k
    · subst h0
      by_cases h : k0 = k' <;> simp [dset, dget, h]
    · simp only [dset, if_neg h0, dget]
      by_cases h1 : k0 = k'
      · subst h1
        have : ¬ k = k0 := fun h => h0 h.symm
        simp [this]
      · simp only [if_neg h1, ih]

theorem dget_isSome (d : List (K × V)) (k : K) : (dget d k).isSome = true ↔ k ∈ d.map Prod.fst := by
  induction d with
  | nil => simp [dget]
  | cons x d ih =>
    obtain ⟨k0, v0⟩ := x
    by_cases h0 : k0 = k
    · simp [dget, h0]
    · have h0' : ¬ k = k0 := fun h => h0 h.symm
      simp only [dget, if_neg h0, List.map_cons, List.mem_cons, h0', false_or]
      exact ih

theorem dget_eq_none (d : List (K × V)) (k : K) : dget d k = none ↔ k ∉ d.map Prod.fst := by
  rw [← dget_isSome]
  cases dget d k <;> simp

theorem keys_dset (d : List (K × V)) (k : K) (v : V) :
    (dset d k v).map Prod.fst =
      if k ∈ d.map Prod.fst then d.map Prod.fst else d.map Prod.fst ++ [k] := by
  induction d with
  | nil => simp [dset]
  | cons x d ih =>
    obtain ⟨k0, vs⟩ := x
    by_cases h0 : k0 = k
    · simp [dset, h0]
    · simp only [dset, if_neg h0, List.map_cons, ih]
      have h0' : ¬ k = k0 := fun h => h0 h.symm
      by_cases h1 : k ∈ d.map Prod.fst
      · rw [if_pos h1, if_pos (List.mem_cons_of_mem _ h1)]
      · rw [if_neg h1, if_neg (by simp only [List.mem_cons, not_or]; exact ⟨h0', h1⟩)]
        rfl

theorem keys_dset_nodup {d : List (K × V)} (h : (d.map Prod.fst).Nodup) (k : K) (v : V) :
    ((dset d k v).map Prod.fst).Nodup := by
  rw [keys_dset]
  split
  · exact h
  · rename_i hn
    rw [List.nodup_append]
    refine ⟨h, by simp, fun a ha b hb => ?_⟩
    simp only [List.mem_singleton] at hb
    subst hb
    rintro rfl
    exact hn ha

end dict

theorem dget_dictUpdate (nd cache : PdiDict α) (h : (nd.map Prod.fst).Nodup) (k : PdiKey) :
    dget (dictUpdate cache nd) k = (dget nd k).or (dget cache k) := by
  induction nd generalizing cache with
  | nil => simp [dictUpdate, dget]
  | cons x nd ih =>
    obtain ⟨k0, v0⟩ := x
    rw [List.map_cons, List.nodup_cons] at h
    have e : dictUpdate cache ((k0, v0) :: nd) = dictUpdate (dset cache k0 v0) nd := rfl
    rw [e, ih _ h.2, dget_dset]
    by_cases h0 : k0 = k
    · subst h0
      have hn : dget nd k0 = none := (dget_eq_none _ _).2 h.1
      simp [dget, hn]
    · simp [dget, h0]

/-! ### What is read -/

/-- The directories among the entries of a directory. -/
def dirs (fs : PdiFS α) (ls : RPath → List Name) (p : RPath) : List Name :=
  (ls p).filter fun n => isDir (fs (n :: p))

/-- What one file contributes. -/
def fileEvent (fs : PdiFS α) (dir : RPath) (problem : Name) (runNo : ℕ) (file : Name) :
    List (PdiKey × List (List α)) :=
  match matchNumber file with
  | none => []
  | some d =>
    match fs (file :: dir) with
    | some (.file (.result (.result f))) => [((problem, d, runNo), f)]
    | _ => []

/-- What is read for a problem, in order. -/
def events (fs : PdiFS α) (ls : RPath → List Name) (root : RPath) (problem : Name) :
    List (PdiKey × List (List α)) :=
  (dirs fs ls (problem :: root)).flatMap fun a =>
    (dirs fs ls (a :: problem :: root)).zipIdx.flatMap fun r =>
      (ls (r.1 :: a :: problem :: root)).flatMap fun file =>
        fileEvent fs (r.1 :: a :: problem :: root) problem r.2 file

/-- The dictionary after appending. -/
def appendAll (cache : PdiDict α) (l : List (PdiKey × List (List α))) : PdiDict α :=
  l.foldl (fun c e => pdiAppend c e.1 e.2) cache

theorem foldlM_events {β : Type*} (f : PdiDict α → β → Except Err (PdiDict α))
    (ev : β → List (PdiKey × List (List α))) (l : List β)
    (h : ∀ b ∈ l, ∀ c, f c b = .ok (appendAll c (ev b))) (c : PdiDict α) :
    l.foldlM f c = .ok (appendAll c (l.flatMap ev)) := by
  induction l generalizing c with
  | nil => rfl
  | cons b l ih =>
    rw [List.foldlM_cons, h b (by simp)]
    show l.foldlM f _ = _
    rw [ih fun b hb => h b (List.mem_cons_of_mem _ hb), List.flatMap_cons]
    simp [appendAll, List.foldl_append]

theorem preloadFile_eq (fs : PdiFS α) (dir : RPath) (problem : Name) (k : ℕ) (cache : PdiDict α)
    (file : Name) (h : fs (file :: dir) ≠ none) :
    preloadFile fs dir problem k cache file = .ok (appendAll cache (fileEvent fs dir problem k file)) := by
  unfold preloadFile fileEvent
  cases matchNumber file with
  | none => rfl
  | some d =>
    simp only [loadFile]
    rcases hf : fs (file :: dir) with _ | _ | c
    · exact absurd hf h
    · rfl
    · rcases c with (f | ⟨_, _⟩) | e <;> rfl

theorem preloadLoop_eq {fs : PdiFS α} {ls : RPath → List Name} (hl : Lists ls fs) {root : RPath}
    {problem : Name} (hp : fs (problem :: root) = some .dir) (cache : PdiDict α) :
    preloadLoop fs ls root problem cache = .ok (appendAll cache (events fs ls root problem)) := by
  unfold preloadLoop subdirs iterdir
  rw [hp]
  refine foldlM_events _ _ _ (fun a ha c => ?_) cache
  have ha' : fs (a :: problem :: root) = some .dir := isDir_iff.1 (List.mem_filter.1 ha).2
  unfold preloadAlgo subdirs iterdir
  rw [ha']
  refine foldlM_events _ _ _ (fun r hr c => ?_) c
  have hr' : fs (r.1 :: a :: problem :: root) = some .dir := by
    have : r.1 ∈ dirs fs ls (a :: problem :: root) := by
      have := List.mem_map_of_mem (f := Prod.fst) hr
      rwa [List.zipIdx_map_fst] at this
    exact isDir_iff.1 (List.mem_filter.1 this).2
  unfold preloadRun iterdir
  rw [hr']
  exact foldlM_events _ _ _
    (fun file hf c => preloadFile_eq _ _ _ _ _ _ (((hl _ hr').2 _).1 hf)) c

/-- The entry of a key after reading into an empty dictionary. -/
theorem dget_appendAll (l : List (PdiKey × List (List α))) (k : PdiKey) :
    dget (appendAll [] l) k =
      if (l.filter fun e => decide (e.1 = k)) = [] then none
      else some (.lists ((l.filter fun e => decide (e.1 = k)).map Prod.snd)) := by
  induction l using List.reverseRecOn with
  | nil => rfl
  | append_singleton l e ih =>
    have e1 : appendAll [] (l ++ [e]) = pdiAppend (appendAll [] l) e.1 e.2 := by
      simp [appendAll, List.foldl_append]
    rw [e1, List.filter_append]
    by_cases hk : e.1 = k
    · rw [hk]
      unfold pdiAppend
      rw [ih]
      have hs : List.filter (fun e => decide (e.1 = k)) [e] = [e] := by simp [hk]
      rw [hs]
      split_ifs with h0 h1 h1
      · simp at h1
      · simp only [dget_dset, if_true, h0, List.nil_append, List.map_cons, List.map_nil]
      · simp at h1
      · simp only [dget_dset, if_true, List.map_append, List.map_cons, List.map_nil]
    · have hs : List.filter (fun e => decide (e.1 = k)) [e] = [] := by simp [hk]
      rw [hs, List.append_nil]
      have : dget (pdiAppend (appendAll [] l) e.1 e.2) k = dget (appendAll [] l) k := by
        unfold pdiAppend
        split
        · rw [dget_dset, if_neg hk]
        · rw [dget_dset, if_neg hk]
        · rfl
      rw [this, ih]

theorem keys_appendAll_nodup (l : List (PdiKey × List (List α))) :
    ((appendAll [] l).map Prod.fst).Nodup := by
  induction l using List.reverseRecOn with
  | nil => exact List.nodup_nil
  | append_singleton l e ih =>
    have e1 : appendAll [] (l ++ [e]) = pdiAppend (appendAll [] l) e.1 e.2 := by
      simp [appendAll, List.foldl_append]
    rw [e1]
    unfold pdiAppend
    split
    · exact keys_dset_nodup ih _ _
    · exact keys_dset_nodup ih _ _
    · exact ih

theorem mem_fileEvent {fs : PdiFS α} {dir : RPath} {problem : Name} {k : ℕ} {file : Name}
    {e : PdiKey × List (List α)} :
    e ∈ fileEvent fs dir problem k file ↔ ∃ d, matchNumber file = some d ∧ e.1 = (problem, d, k) ∧
      fs (file :: dir) = some (.file (.result (.result e.2))) := by
  unfold fileEvent
  cases h : matchNumber file with
  | none => simp
  | some d =>
    simp only [Option.some.injEq, exists_eq_left']
    rcases hf : fs (file :: dir) with _ | _ | ((f | ⟨_, _⟩) | m)
    · simp
    · simp
    · simp only [List.mem_singleton]
      constructor
      · rintro rfl; simp
      · rintro ⟨h1, h2⟩
        obtain ⟨e1, e2⟩ := e
        simp only at h1 h2
        subst h1
        simp only [Option.some.injEq, Node.file.injEq, Pickle.result.injEq, PdiFile.result.injEq] at h2
        rw [h2]
    · simp
    · simp

theorem matchNumber_pickle {file d : Name} (h : matchNumber file = some d) : file = d ++ pickleExt := by
  unfold matchNumber at h
  simp only at h
  split_ifs at h with hc
  obtain rfl := Option.some.inj h
  rw [← hc.2]
  exact (List.takeWhile_append_dropWhile).symm

theorem mem_events {fs : PdiFS α} {ls : RPath → List Name} (hl : Lists ls fs) {root : RPath}
    {problem : Name} (n : Name) (k : ℕ) (f : List (List α)) :
    ((problem, n, k), f) ∈ events fs ls root problem ↔
      ∃ a r, a ∈ dirs fs ls (problem :: root) ∧ (dirs fs ls (a :: problem :: root))[k]? = some r ∧
        matchNumber (n ++ pickleExt) = some n ∧
        fs ((n ++ pickleExt) :: r :: a :: problem :: root) = some (.file (.result (.result f))) := by
  unfold events
  simp only [List.mem_flatMap, mem_fileEvent]
  constructor
  · rintro ⟨a, ha, ⟨r, i⟩, hr, file, hfile, d, hd, he, hf⟩
    simp only [Prod.mk.injEq, true_and] at he
    obtain ⟨rfl, rfl⟩ := he
    have := matchNumber_pickle hd
    subst this
    refine ⟨a, r, ha, ?_, hd, hf⟩
    simpa using (List.mk_mem_zipIdx_iff_getElem? (x := r) (i := k)).1 hr
  · rintro ⟨a, r, ha, hr, hn, hf⟩
    have hrm : r ∈ dirs fs ls (a :: problem :: root) := List.mem_of_getElem? hr
    have hrd : fs (r :: a :: problem :: root) = some .dir := isDir_iff.1 (List.mem_filter.1 hrm).2
    refine ⟨a, ha, (r, k), ?_, n ++ pickleExt, ((hl _ hrd).2 _).2 (by rw [hf]; simp), n, hn, rfl, hf⟩
    exact (List.mk_mem_zipIdx_iff_getElem? (x := r) (i := k)).2 hr

theorem events_problem {fs : PdiFS α} {ls : RPath → List Name} {root : RPath} {problem : Name}
    {e : PdiKey × List (List α)} (h : e ∈ events fs ls root problem) : e.1.1 = problem := by
  unfold events at h
  simp only [List.mem_flatMap, mem_fileEvent] at h
  obtain ⟨a, -, r, -, file, -, d, -, he, -⟩ := h
  rw [he]

theorem mem_problemKeys {problem : Name} {cache : PdiDict α} {k : PdiKey} :
    k ∈ problemKeys problem cache ↔ (dget cache k).isSome = true ∧ k.1 = problem := by
  unfold problemKeys
  rw [(List.perm_insertionSort _ _).mem_iff, List.mem_filter, dget_isSome]
  simp

/-! ### Computing the non-dominated points -/

theorem ndLoop_eq (cache : PdiDict α) (hc : ∀ k s, dget cache k ≠ some (.set s)) (keys : List PdiKey)
    (nd : PdiDict α) : ∃ nd', ndLoop cache keys nd = .ok nd' ∧
      ((nd.map Prod.fst).Nodup → (nd'.map Prod.fst).Nodup) ∧
      ∀ k, dget nd' k = if k ∈ keys then
          some (.set (filterNotDominated (match dget cache k with
            | some (.lists l) => l.flatten
            | _ => [])).toFinset)
        else dget nd k := by
  induction keys generalizing nd with
  | nil => exact ⟨nd, rfl, id, fun k => by simp⟩
  | cons a keys ih =>
    have hp : entryPoints ((dget cache a).getD (.lists [])) = .ok (match dget cache a with
        | some (.lists l) => l.flatten
        | _ => []) := by
      rcases h : dget cache a with _ | (l | s)
      · rfl
      · rfl
      · exact absurd h (hc a s)
    obtain ⟨nd', h1, h2, h3⟩ := ih (dset nd a (.set (filterNotDominated (match dget cache a with
      | some (.lists l) => l.flatten
      | _ => [])).toFinset))
    refine ⟨nd', ?_, fun hn => h2 (keys_dset_nodup hn _ _), fun k => ?_⟩
    · rw [ndLoop, hp]
      exact h1
    · rw [h3]
      by_cases hk : k ∈ keys
      · rw [if_pos hk, if_pos (List.mem_cons_of_mem _ hk)]
      · rw [if_neg hk, dget_dset]
        by_cases ha : a = k
        · subst ha
          rw [if_pos rfl, if_pos (by simp)]
        · have ha' : ¬ k = a := fun h => ha h.symm
          rw [if_neg ha, if_neg (by simp [hk, ha'])]

/-! ### Clearing -/

theorem removeOld_ok (pp : RPath) (names : List Name) (hn : names.Nodup) (fs : PdiFS α)
    (h : ∀ n ∈ names, ∃ c, fs (n :: pp) = some (.file c)) :
    ∃ fs', removeOld pp names fs = .ok fs' ∧
      ∀ p, fs' p = if ∃ n ∈ names, p = n :: pp then none else fs p := by
  induction names generalizing fs with
  | nil => exact ⟨fs, rfl, fun p => by simp⟩
  | cons n names ih =>
    rw [List.nodup_cons] at hn
    obtain ⟨c, hc⟩ := h n (by simp)
    obtain ⟨fs', h1, h2⟩ := ih hn.2 (fs.unset (n :: pp)) (by
      intro m hm
      obtain ⟨c', hc'⟩ := h m (List.mem_cons_of_mem _ hm)
      refine ⟨c', ?_⟩
      have : ¬ m = n := by rintro rfl; exact hn.1 hm
      simp [FS.unset, this, hc'])
    refine ⟨fs', by rw [removeOld, hc]; exact h1, fun p => ?_⟩
    rw [h2]
    by_cases hp : ∃ m ∈ names, p = m :: pp
    · obtain ⟨m, hm, rfl⟩ := hp
      rw [if_pos ⟨m, hm, rfl⟩, if_pos ⟨m, List.mem_cons_of_mem _ hm, rfl⟩]
    · rw [if_neg hp]
      by_cases h0 : p = n :: pp
      · rw [if_pos ⟨n, by simp, h0⟩]
        simp [FS.unset, h0]
      · rw [if_neg]
        · simp [FS.unset, h0]
        · rintro ⟨m, hm, rfl⟩
          rcases List.mem_cons.1 hm with rfl | hm
          · exact h0 rfl
          · exact hp ⟨m, hm, rfl⟩

/-- Nothing but files matches the pattern for the old cache. -/
def CleanNames (fs : PdiFS α) (root : RPath) (problem : Name) : Prop :=
  ∀ n, fs (n :: problem :: root) = some .dir → oldCache problem (n :: problem :: root) = false

open scoped Classical in
theorem clearOld_ok {fs : PdiFS α} {ls : RPath → List Name} (hl : Lists ls fs) {root : RPath}
    {problem : Name} (hp : fs (problem :: root) = some .dir) (hc : CleanNames fs root problem) :
    ∃ fs', clearOld fs ls problem root = .ok fs' ∧
      ∀ p, fs' p = if (∃ n, p = n :: problem :: root ∧ oldCache problem p = true) ∨
        (isPdiPath (problem :: root) p = true ∧ isDir (fs p) = false) then none else fs p := by
  obtain ⟨fs1, h1, h2⟩ := removeOld_ok (problem :: root)
    ((ls (problem :: root)).filter fun n => oldCache problem (n :: problem :: root))
    ((hl _ hp).1.filter _) fs (by
      intro n hn
      rw [List.mem_filter] at hn
      have := ((hl _ hp).2 n).1 hn.1
      rcases hf : fs (n :: problem :: root) with _ | _ | c
      · exact absurd hf this
      · rw [hc n hf] at hn; exact absurd hn.2 (by simp)
      · exact ⟨c, rfl⟩)
  refine ⟨removePdi (problem :: root) fs1, by simp only [clearOld, iterdir, hp, h1], fun p => ?_⟩
  unfold removePdi
  have hold : (∃ n ∈ (ls (problem :: root)).filter fun n => oldCache problem (n :: problem :: root),
      p = n :: problem :: root) ↔
      (∃ n, p = n :: problem :: root ∧ oldCache problem p = true) ∧ fs p ≠ none := by
    constructor
    · rintro ⟨n, hn, rfl⟩
      rw [List.mem_filter] at hn
      exact ⟨⟨n, rfl, hn.2⟩, ((hl _ hp).2 n).1 hn.1⟩
    · rintro ⟨⟨n, rfl, ho⟩, hne⟩
      exact ⟨n, List.mem_filter.2 ⟨((hl _ hp).2 n).2 hne, ho⟩, rfl⟩
  rw [h2]
  simp only [hold]
  by_cases ho : ∃ n, p = n :: problem :: root ∧ oldCache problem p = true
  · rw [if_pos (Or.inl ho)]
    by_cases hn : fs p = none
    · simp [hn]
    · simp only [ho, hn, ne_eq, not_false_eq_true, and_self, if_true, ite_self]
  · simp only [ho, false_and, if_false, false_or]
    by_cases hq : isPdiPath (problem :: root) p = true
    · cases hd : isDir (fs p) <;> simp [hq]
    · simp [hq]

end Evogil.Storage
