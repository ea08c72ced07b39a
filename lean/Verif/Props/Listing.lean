import Verif.Lemmas.Listing

/-!
# C19: listing of the stored results
-/

namespace Evogil.Storage

variable {C : Type*}

/-- A directory that the listing takes for a run. -/
def IsRunName (name : Name) : Prop :=
  ∃ d r : Name, name = d ++ ['_', '_'] ++ r ∧ matchSeq dateCls d = true ∧ r.length = 7 ∧
    ∀ c ∈ r, c.isDigit = true

theorem isSome_matchRun {name : Name} : (matchRun name).isSome = true ↔ IsRunName name := by
  constructor
  · intro h
    obtain ⟨⟨d, r⟩, h⟩ := Option.isSome_iff_exists.1 h
    exact ⟨d, r, matchRun_eq_some.1 h⟩
  · rintro ⟨d, r, h⟩
    rw [matchRun_eq_some.2 h]; rfl

/-- **C19 (order of directory entries).** The answer of the listing does not depend on the order in
which the operating system enumerates directory entries. -/
theorem C19_order_independent (fs : FS C) (ls ls' : RPath → List Name) (h : Lists ls fs)
    (h' : Lists ls' fs) (dir : RPath) (problem algo today : Name) (rnd : ℕ) :
    loadAll fs ls dir problem algo today rnd = loadAll fs ls' dir problem algo today rnd := by
  have e1 : eachRun fs ls dir problem algo today rnd =
      eachRun fs ls' dir problem algo today rnd := by
    simp only [eachRun, iterdir]
    rcases hd : fs (algo :: problem :: dir) with _ | _ | v
    · rfl
    · simp only [sortNames_congr (h.perm h' hd)]
    · rfl
  have e2 : ∀ s n, loadRun fs ls s n = loadRun fs ls' s n := by
    intro s n
    simp only [loadRun, iterdir]
    rcases hd : fs s.path with _ | _ | v
    · rfl
    · simp only [sortNames_congr (h.perm h' hd)]
    · rfl
  rw [loadAll, loadAll, e1]
  split
  · rfl
  · rename_i runs _
    rw [loadResult, loadResult, collectRuns_congr fs ls ls' runs (fun x _ => e2 x.1 x.2)]

/-- **C19 (runs).** The runs found are exactly the recognised directories, in increasing order of
their names, numbered consecutively from zero, and each is addressed by its directory name. -/
theorem C19_runs (fs : FS C) (ls : RPath → List Name) (h : Lists ls fs)
    (dir : RPath) (problem algo today : Name) (rnd : ℕ)
    (hroot : fs (algo :: problem :: dir) = some .dir) :
    ∃ runs, eachRun fs ls dir problem algo today rnd = .ok runs ∧
      (runs.map fun x => x.1.id).Pairwise (· < ·) ∧
      runs.map Prod.snd = List.range runs.length ∧
      (∀ name, (∃ x ∈ runs, x.1.id = name) ↔
        IsRunName name ∧ fs (name :: algo :: problem :: dir) ≠ none) ∧
      ∀ x ∈ runs, x.1 = ⟨dir, problem, algo, x.1.id⟩ := by
  obtain ⟨hnd, hmem⟩ := h _ hroot
  refine ⟨_, by rw [eachRun, iterdir, hroot], ?_, ?_, ?_, ?_⟩
  · rw [eachRunLoop_eq, List.map_map]
    have : ((fun x : Case × ℕ => x.1.id) ∘ fun x : Name × ℕ =>
        ((⟨dir, problem, algo, x.1⟩ : Case), x.2)) = Prod.fst := rfl
    rw [this, List.zipIdx_map_fst]
    exact (sortNames_lt hnd).filter _
  · rw [eachRunLoop_eq, List.map_map]
    have : (Prod.snd ∘ fun x : Name × ℕ =>
        ((⟨dir, problem, algo, x.1⟩ : Case), x.2)) = Prod.snd := rfl
    rw [this, List.zipIdx_map_snd]
    simp [List.range_eq_range']
  · intro name
    have : (∃ x ∈ eachRunLoop dir problem algo today rnd 0 (sortNames (ls (algo :: problem :: dir))),
        x.1.id = name) ↔ name ∈ (eachRunLoop dir problem algo today rnd 0
          (sortNames (ls (algo :: problem :: dir)))).map fun x => x.1.id := by
      simp [List.mem_map]
    rw [this, eachRunLoop_eq, List.map_map]
    have : ((fun x : Case × ℕ => x.1.id) ∘ fun x : Name × ℕ =>
        ((⟨dir, problem, algo, x.1⟩ : Case), x.2)) = Prod.fst := rfl
    rw [this, List.zipIdx_map_fst, List.mem_filter, (sortNames_perm _).mem_iff, hmem,
      isSome_matchRun, and_comm]
  · intro x hx
    rw [eachRunLoop_eq, List.mem_map] at hx
    obtain ⟨y, -, rfl⟩ := hx
    rfl

/-- **C19 (groups).** Suppose every recognised run is a directory and its result files carry names as
the code writes them.  Then the listing succeeds; the groups come in strictly increasing order of
their measure; a group consists of results of distinct runs in increasing order of the run number; a
listed result is a stored file of the right run and measure; and every stored result of every run is
listed in the group of its measure. -/
theorem C19_groups (fs : FS C) (ls : RPath → List Name) (h : Lists ls fs)
    (dir : RPath) (problem algo today : Name) (rnd : ℕ)
    (hroot : fs (algo :: problem :: dir) = some .dir)
    (hdir : ∀ name, IsRunName name → fs (name :: algo :: problem :: dir) ≠ none →
      fs (name :: algo :: problem :: dir) = some .dir)
    (hcan : ∀ name, IsRunName name → Canonical fs ⟨dir, problem, algo, name⟩) :
    ∃ groups, loadAll fs ls dir problem algo today rnd = .ok groups ∧
      (groups.map Prod.fst).Pairwise (· < ·) ∧
      (∀ g ∈ groups, g.2 ≠ [] ∧ (g.2.map Found.runNo).Pairwise (· < ·)) ∧
      (∀ g ∈ groups, ∀ x ∈ g.2, IsRunName x.case.id ∧ x.case = ⟨dir, problem, algo, x.case.id⟩ ∧
        fs ((showNat g.1 ++ pickleExt) :: x.case.id :: algo :: problem :: dir) =
          some (.file x.value)) ∧
      (∀ n name v, IsRunName name →
        fs ((showNat n ++ pickleExt) :: name :: algo :: problem :: dir) = some (.file v) →
        fs (name :: algo :: problem :: dir) = some .dir →
        ∃ g ∈ groups, g.1 = n ∧ ∃ x ∈ g.2, x.case.id = name ∧ x.value = v) := by
  obtain ⟨runs, hruns, -, hnums, hids, hcase⟩ :=
    C19_runs fs ls h dir problem algo today rnd hroot
  have hrun : ∀ x ∈ runs, IsRunName x.1.id ∧ fs x.1.path = some .dir := by
    intro x hx
    obtain ⟨h1, h2⟩ := (hids x.1.id).1 ⟨x, hx, rfl⟩
    have := hdir _ h1 h2
    rw [hcase x hx]
    exact ⟨h1, this⟩
  let F : Case → ℕ → List (Found C) := fun s n =>
    (sortNames (ls s.path)).filterMap (contribution fs s n)
  have hF : ∀ x ∈ runs, loadRun fs ls x.1 x.2 = .ok (F x.1 x.2) := by
    intro x hx
    obtain ⟨h1, h2⟩ := hrun x hx
    simp only [loadRun, iterdir, h2]
    refine loadLoop_canonical fs x.1 x.2 ?_ _ ?_
    · rw [hcase x hx]; exact hcan _ h1
    · intro c hc
      rw [(sortNames_perm _).mem_iff] at hc
      exact ((h _ h2).2 c).1 hc
  -- membership in one run's results
  have hFmem : ∀ x ∈ runs, ∀ r ∈ F x.1 x.2, r.case = x.1 ∧ r.runNo = x.2 ∧
      r.name = showNat (readNat r.name) ∧
      fs ((r.name ++ pickleExt) :: x.1.path) = some (.file r.value) := by
    intro x hx r hr
    obtain ⟨h1, h2⟩ := hrun x hx
    obtain ⟨c, hc, hcr⟩ := List.mem_filterMap.1 hr
    simp only [contribution] at hcr
    rcases hm : matchNumber c with _ | d
    · rw [hm] at hcr; cases hcr
    · rw [hm] at hcr
      simp only at hcr
      rcases hf : fs (c :: x.1.path) with _ | _ | v
      · rw [hf] at hcr; cases hcr
      · rw [hf] at hcr; cases hcr
      · rw [hf] at hcr
        simp only [Option.some.injEq] at hcr
        subst hcr
        have hcn := (matchNumber_eq_some.1 hm).1
        refine ⟨rfl, rfl, ?_, ?_⟩
        · have := hcan _ h1
          rw [← hcase x hx] at this
          exact this c d hm (by rw [hf]; simp)
        · simp only
          rw [← hcn, hf]
  have hFstored : ∀ x ∈ runs, ∀ n v, fs ((showNat n ++ pickleExt) :: x.1.path) = some (.file v) →
      ∃ r ∈ F x.1 x.2, r.name = showNat n ∧ r.value = v ∧ r.case = x.1 := by
    intro x hx n v hv
    obtain ⟨h1, h2⟩ := hrun x hx
    refine ⟨⟨v, showNat n, x.2, x.1⟩, ?_, rfl, rfl, rfl⟩
    refine List.mem_filterMap.2 ⟨showNat n ++ pickleExt, ?_, ?_⟩
    · rw [(sortNames_perm _).mem_iff, (h _ h2).2, hv]; simp
    · have : matchNumber (showNat n ++ pickleExt) = some (showNat n) :=
        matchNumber_eq_some.2 ⟨rfl, showNat_ne_nil n, fun c hc => showNat_digit hc⟩
      simp only [contribution, this, hv]
  -- at most one result per run and measure
  have hFone : ∀ x ∈ runs, ∀ n,
      ((F x.1 x.2).filter fun r => readNat r.name = n).length ≤ 1 := by
    intro x hx n
    obtain ⟨h1, h2⟩ := hrun x hx
    have hnd : (F x.1 x.2).Pairwise (fun a b => a.name ≠ b.name) := by
      have hs : (sortNames (ls x.1.path)).Nodup := (sortNames_perm _).nodup_iff.2 (h _ h2).1
      refine List.Pairwise.filterMap _ ?_ hs
      intro a a' hne b hb b' hb' hbb
      apply hne
      simp only [contribution] at hb hb'
      rcases hm : matchNumber a with _ | d
      · rw [hm] at hb; cases hb
      rcases hm' : matchNumber a' with _ | d'
      · rw [hm'] at hb'; cases hb'
      rw [hm] at hb; rw [hm'] at hb'
      have e1 : b.name = d := by
        simp only at hb
        split at hb
        · cases hb; rfl
        · cases hb
      have e2 : b'.name = d' := by
        simp only at hb'
        split at hb'
        · cases hb'; rfl
        · cases hb'
      rw [(matchNumber_eq_some.1 hm).1, (matchNumber_eq_some.1 hm').1, ← e1, ← e2, hbb]
    have hnd' := hnd.filter (fun r => decide (readNat r.name = n))
    match hl : (F x.1 x.2).filter (fun r => readNat r.name = n) with
    | [] => rw [hl]; simp
    | [_] => rw [hl]; simp
    | a :: b :: t =>
      exfalso
      rw [hl] at hnd'
      have hne := (List.pairwise_cons.1 hnd').1 b List.mem_cons_self
      have ha : a ∈ (F x.1 x.2).filter (fun r => readNat r.name = n) := by
        rw [hl]; exact List.mem_cons_self
      have hb : b ∈ (F x.1 x.2).filter (fun r => readNat r.name = n) := by
        rw [hl]; exact List.mem_cons_of_mem _ List.mem_cons_self
      rw [List.mem_filter, decide_eq_true_eq] at ha hb
      have ea := (hFmem x hx a ha.1).2.2.1
      have eb := (hFmem x hx b hb.1).2.2.1
      exact hne (by rw [ea, eb, ha.2, hb.2])
  let all := runs.flatMap fun x => F x.1 x.2
  let d := all.foldl (fun d r => dictAppend d (readNat r.name) r) []
  have hcol : collectRuns fs ls runs [] = .ok d := collectRuns_eq fs ls F runs hF []
  obtain ⟨hkn, hkm⟩ := keys_foldl (fun r : Found C => readNat r.name) all [] (by simp)
  have hget : ∀ n, dictGet d n = all.filter fun r => readNat r.name = n := by
    intro n
    have := dictGet_foldl (fun r : Found C => readNat r.name) all [] n
    rw [show dictGet d n = _ from this]
    simp [dictGet]
  have hkeys : ∀ n, n ∈ (d.map Prod.fst).insertionSort (· ≤ ·) ↔ ∃ r ∈ all, readNat r.name = n := by
    intro n
    rw [(List.perm_insertionSort _ _).mem_iff]
    have := hkm n
    simpa using this
  refine ⟨((d.map Prod.fst).insertionSort (· ≤ ·)).map fun k => (k, dictGet d k), ?_, ?_, ?_, ?_, ?_⟩
  · rw [loadAll, hruns]
    simp only [loadResult, hcol]
  · rw [List.map_map]
    have : (Prod.fst ∘ fun k => (k, dictGet d k)) = id := rfl
    rw [this, List.map_id]
    have hnd : ((d.map Prod.fst).insertionSort (· ≤ ·)).Nodup :=
      (List.perm_insertionSort _ _).nodup_iff.2 hkn
    exact (List.pairwise_insertionSort (· ≤ ·) _).imp₂
      (fun a b hab hne => lt_of_le_of_ne hab hne) hnd
  · intro g hg
    obtain ⟨n, hn, rfl⟩ := List.mem_map.1 hg
    simp only
    rw [hget]
    constructor
    · obtain ⟨r, hr, hrn⟩ := (hkeys n).1 hn
      exact List.ne_nil_of_mem (List.mem_filter.2 ⟨hr, by simpa using hrn⟩)
    · -- run numbers increase
      have hsorted : (runs.map Prod.snd).Pairwise (· < ·) := by
        rw [hnums]; exact List.pairwise_lt_range
      rw [List.pairwise_map] at hsorted
      rw [List.pairwise_map, show all = runs.flatMap fun x => F x.1 x.2 from rfl,
        List.filter_flatMap, List.pairwise_flatMap]
      constructor
      · intro x hx
        have := hFone x hx n
        match hl : (F x.1 x.2).filter (fun r => readNat r.name = n) with
        | [] => rw [hl]; simp
        | [_] => rw [hl]; simp
        | a :: b :: t => rw [hl] at this; simp at this
      · refine hsorted.imp_of_mem ?_
        intro x y hx hy hxy a ha b hb
        rw [(hFmem x hx a (List.mem_of_mem_filter ha)).2.1,
          (hFmem y hy b (List.mem_of_mem_filter hb)).2.1]
        exact hxy
  · intro g hg x hx
    obtain ⟨n, hn, rfl⟩ := List.mem_map.1 hg
    simp only at hx ⊢
    rw [hget, List.mem_filter] at hx
    obtain ⟨hx1, hx2⟩ := hx
    obtain ⟨y, hy, hxy⟩ := List.mem_flatMap.1 hx1
    obtain ⟨e1, e2, e3, e4⟩ := hFmem y hy x hxy
    obtain ⟨h1, h2⟩ := hrun y hy
    have hn' : readNat x.name = n := by simpa using hx2
    refine ⟨by rw [e1]; exact h1, by rw [e1]; exact hcase y hy, ?_⟩
    rw [hn'] at e3
    rw [← e3, e1]
    have hpath : y.1.path = y.1.id :: algo :: problem :: dir := by
      conv_lhs => rw [hcase y hy]
      rfl
    rw [← hpath]
    exact e4
  · intro n name v hname hv hd
    obtain ⟨x, hx, rfl⟩ := (hids name).2 ⟨hname, by rw [hd]; simp⟩
    have hpath : x.1.path = x.1.id :: algo :: problem :: dir := by
      conv_lhs => rw [hcase x hx]
      rfl
    rw [← hpath] at hv
    obtain ⟨r, hr, e1, e2, e3⟩ := hFstored x hx n v hv
    have hrall : r ∈ all := List.mem_flatMap.2 ⟨x, hx, hr⟩
    have hrn : readNat r.name = n := by rw [e1, readNat_showNat]
    refine ⟨(n, dictGet d n), List.mem_map.2 ⟨n, (hkeys n).2 ⟨r, hrall, hrn⟩, rfl⟩, rfl,
      r, ?_, by rw [e3], e2⟩
    simp only [hget]
    exact List.mem_filter.2 ⟨hrall, by simpa using hrn⟩

/-- **C19 (failure).** Without the naming hypothesis results are lost: in a run directory that also
holds `007.pickle` the listing asks for `7.pickle`, does not find it, and silently drops the rest of
the run, here the properly stored result 9. -/
theorem C19_leading_zero_loses_results :
    ∃ (fs : FS ℕ) (s : Case) (ls : RPath → List Name), Lists ls fs ∧
      load fs s (showNat 9) = .ok 5 ∧ loadRun fs ls s 0 = .ok [] := by
  let fs : FS ℕ := fun p =>
    if p = [] then some .dir
    else if p = ["9.pickle".toList, [], [], []] then some (.file 5)
    else if p = ["007.pickle".toList, [], [], []] then some (.file 4)
    else if p = [[], [], []] then some .dir
    else if p = [[], []] then some .dir
    else if p = [[]] then some .dir
    else none
  let ls : RPath → List Name := fun p =>
    if p = [[], [], []] then ["9.pickle".toList, "007.pickle".toList]
    else [[]]
  refine ⟨fs, ⟨[], [], [], []⟩, ls, ?_, by decide +kernel, ?_⟩
  · intro p hp
    have hcases : p = [] ∨ p = [[]] ∨ p = [[], []] ∨ p = [[], [], []] := by
      by_contra hne
      simp only [not_or] at hne
      obtain ⟨h0, h1, h2, h3⟩ := hne
      simp only [fs, if_neg h0, if_neg h1, if_neg h2, if_neg h3] at hp
      split at hp
      · cases hp
      split at hp
      · cases hp
      · cases hp
    rcases hcases with rfl | rfl | rfl | rfl
    · refine ⟨by decide, fun c => ?_⟩
      simp only [fs, ls]
      by_cases a : c = []
      · subst a; decide
      · simp [a]
    · refine ⟨by decide, fun c => ?_⟩
      simp only [fs, ls]
      by_cases a : c = []
      · subst a; decide
      · simp [a]
    · refine ⟨by decide, fun c => ?_⟩
      simp only [fs, ls]
      by_cases a : c = []
      · subst a; decide
      · simp [a]
    · refine ⟨by decide +kernel, fun c => ?_⟩
      simp only [fs, ls]
      by_cases a : c = "9.pickle".toList
      · subst a; decide +kernel
      · by_cases b : c = "007.pickle".toList
        · subst b; decide +kernel
        · simp at a b; simp [a, b]
  · rfl

/-- Two runs, the first with results 100 and 20 (and a metric file), the second with 100. -/
def demoFS : FS ℕ := fun p =>
  let r1 := "2017-05-06.101112.000123__0000001".toList
  let r2 := "2017-05-07.101112.000123__0000001".toList
  if p = ["100.pickle".toList, r1, ['A'], ['P']] then some (.file 1)
  else if p = ["20.pickle".toList, r1, ['A'], ['P']] then some (.file 2)
  else if p = ["20.extent.pickle".toList, r1, ['A'], ['P']] then some (.file 9)
  else if p = ["100.pickle".toList, r2, ['A'], ['P']] then some (.file 3)
  else if p ∈ [[], [['P']], [['A'], ['P']], [r1, ['A'], ['P']], [r2, ['A'], ['P']]] then some .dir
  else none

/-- An enumeration of the directories of `demoFS`. -/
def demoLs : RPath → List Name := fun p =>
  let r1 := "2017-05-06.101112.000123__0000001".toList
  let r2 := "2017-05-07.101112.000123__0000001".toList
  if p = [['A'], ['P']] then [r2, r1]
  else if p = [r1, ['A'], ['P']] then
    ["100.pickle".toList, "20.extent.pickle".toList, "20.pickle".toList]
  else ["100.pickle".toList]

example : (loadAll demoFS demoLs [] ['P'] ['A'] [] 0).toOption.map
      (fun gs => gs.map fun g => (g.1, g.2.map fun x => (x.value, x.runNo))) =
    some [(20, [(2, 0)]), (100, [(1, 0), (3, 1)])] := by decide +kernel

/-- **C19 (failure).** A plain file with the name of a run makes the whole listing of the algorithm
fail (`NotADirectoryError` is not caught). -/
theorem C19_file_as_run_fails (fs : FS C) (ls : RPath → List Name) (s : Case) (n : ℕ) (v : C)
    (rest : List (Case × ℕ)) (h : fs s.path = some (.file v)) :
    loadResult fs ls ((s, n) :: rest) = .error .notADirectory := by
  simp [loadResult, collectRuns, loadRun, iterdir, h]

end Evogil.Storage
