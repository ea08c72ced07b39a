import Verif.Lemmas.PdiCache
import Verif.Props.MetricCache

/-!
# C92: the reference set of the Pareto dominance indicator

The indicator of a result compares it with the results of all algorithms for the same problem, with the
same name (budget) and from the run with the same number.
-/

set_option linter.unusedSectionVars false

namespace Evogil.Storage
open Spec

variable {α : Type*} [LinearOrder α]

/-- A vector of fitnesses recorded for the problem under the name `n` in the run which the listing of
the results (`_each_run`) numbers `k`, by any of the algorithms. -/
def Recorded (fs : PdiFS α) (ls : RPath → List Name) (root : RPath) (problem : Name) (n : Name) (k : ℕ)
    (v : List α) : Prop :=
  ∃ (algo : Name) (runs : List (Case × ℕ)) (s : Case) (f : List (List α)),
    fs (algo :: problem :: root) = some .dir ∧
    (∀ today rnd, eachRun fs ls root problem algo today rnd = .ok runs) ∧ (s, k) ∈ runs ∧
    fs (s.resultPath n) = some (.file (.result (.result f))) ∧ v ∈ f

/-- The directories of the algorithm are its runs, and the operating system lists them in the order of
their names. -/
def Orderly (fs : PdiFS α) (ls : RPath → List Name) (p : RPath) : Prop :=
  (∀ n, fs (n :: p) ≠ none → (fs (n :: p) = some .dir ↔ IsRunName n)) ∧
  ((ls p).filter fun n => isDir (fs (n :: p))).Pairwise (· ≤ ·)

theorem orderly_runs {fs : PdiFS α} {ls : RPath → List Name} (hl : Lists ls fs) {root : RPath}
    {problem algo : Name} (hd : fs (algo :: problem :: root) = some .dir)
    (ho : Orderly fs ls (algo :: problem :: root)) (today : Name) (rnd : ℕ) :
    eachRun fs ls root problem algo today rnd =
      .ok ((dirs fs ls (algo :: problem :: root)).zipIdx.map fun x => (⟨root, problem, algo, x.1⟩, x.2)) := by
  unfold eachRun iterdir
  rw [hd]
  simp only [eachRunLoop_eq]
  congr 3
  have e : (ls (algo :: problem :: root)).filter (fun n => (matchRun n).isSome) =
      dirs fs ls (algo :: problem :: root) := by
    unfold dirs
    refine List.filter_congr fun n hn => ?_
    rw [Bool.eq_iff_iff, isSome_matchRun, isDir_iff]
    exact ((ho.1 n (((hl _ hd).2 n).1 hn))).symm
  have hp : ((sortNames (ls (algo :: problem :: root))).filter fun n => (matchRun n).isSome).Perm
      (dirs fs ls (algo :: problem :: root)) := by
    rw [← e]
    exact (sortNames_perm _).filter _
  exact hp.eq_of_pairwise (fun _ _ _ _ => le_antisymm) ((sortNames_sorted _).filter _) ho.2

theorem recorded_iff {fs : PdiFS α} {ls : RPath → List Name} (hl : Lists ls fs) {root : RPath}
    {problem : Name} (hp : fs (problem :: root) = some .dir)
    (ho : ∀ a, fs (a :: problem :: root) = some .dir → Orderly fs ls (a :: problem :: root))
    {n : Name} (hn : n ≠ [] ∧ ∀ c ∈ n, c.isDigit = true) (k : ℕ) (v : List α) :
    Recorded fs ls root problem n k v ↔
      ∃ f, ((problem, n, k), f) ∈ events fs ls root problem ∧ v ∈ f := by
  have hm : matchNumber (n ++ pickleExt) = some n := matchNumber_eq_some.2 ⟨rfl, hn⟩
  simp only [mem_events hl]
  constructor
  · rintro ⟨a, runs, s, f, ha, hr, hs, hf, hv⟩
    have := hr [] 0
    rw [orderly_runs hl ha (ho a ha)] at this
    obtain rfl := Except.ok.inj this
    obtain ⟨⟨r, i⟩, hri, he⟩ := List.mem_map.1 hs
    simp only [Prod.mk.injEq] at he
    obtain ⟨rfl, rfl⟩ := he
    refine ⟨f, ⟨a, r, ?_, ?_, hm, hf⟩, hv⟩
    · exact List.mem_filter.2 ⟨((hl _ hp).2 a).2 (by rw [ha]; simp), isDir_iff.2 ha⟩
    · exact List.mk_mem_zipIdx_iff_getElem?.1 hri
  · rintro ⟨f, ⟨a, r, ha, hr, -, hf⟩, hv⟩
    have had : fs (a :: problem :: root) = some .dir := isDir_iff.1 (List.mem_filter.1 ha).2
    refine ⟨a, _, ⟨root, problem, a, r⟩, f, had, fun today rnd => orderly_runs hl had (ho a had) today rnd,
      ?_, hf, hv⟩
    exact List.mem_map.2 ⟨(r, k), List.mk_mem_zipIdx_iff_getElem?.2 hr, rfl⟩

/-- Nothing is stored from earlier evaluations, or what is stored was computed from other results or
from none. -/
def Outdated (fs : PdiFS α) (ls : RPath → List Name) (root : RPath) (problem : Name) : Prop :=
  fs (ndPath problem root) = none ∨
  ∃ sols nd, fs (ndPath problem root) = some (.file (.result (.nondominated sols nd))) ∧
    (nd.map Prod.fst).Nodup ∧
    ∀ cache, preloadLoop fs ls root problem [] = .ok cache →
      sols ≠ problemSolutions cache (problemKeys problem cache) ∨ sols = []

theorem ndName_old (problem : Name) (root : RPath) : oldCache problem (ndPath problem root) = true := by
  unfold oldCache ndPath
  rw [List.any_cons]
  have : (problem ++ ['_']) <:+: (problem ++ ndSuffix) :=
    ⟨[], "nondominated".toList, by rw [List.nil_append, List.append_assoc]; rfl⟩
  simp [this]

open scoped Classical in
theorem preload_outdated {fs : PdiFS α} {ls : RPath → List Name} (hl : Lists ls fs) {root : RPath}
    {problem : Name} (hp : fs (problem :: root) = some .dir) (hc : CleanNames fs root problem)
    (hout : Outdated fs ls root problem) :
    ∃ nd' fs1, preload fs ls root problem [] =
        (.ok (dictUpdate (appendAll [] (events fs ls root problem)) nd'),
          FS.set fs1 (ndPath problem root) (.file (.result (.nondominated
            (problemSolutions (appendAll [] (events fs ls root problem))
              (problemKeys problem (appendAll [] (events fs ls root problem)))) nd')))) ∧
      (nd'.map Prod.fst).Nodup ∧
      (∀ k : PdiKey, (∃ e ∈ events fs ls root problem, e.1 = k) →
        dget nd' k = some (.set (filterNotDominated
          (((events fs ls root problem).filter fun e => decide (e.1 = k)).map Prod.snd).flatten).toFinset)) ∧
      ∀ p, fs1 p = if (∃ n, p = n :: problem :: root ∧ oldCache problem p = true) ∨
        (isPdiPath (problem :: root) p = true ∧ isDir (fs p) = false) then none else fs p := by
  have hload := preloadLoop_eq hl hp []
  set E := events fs ls root problem with hE
  set cache := appendAll [] E with hcache
  have hstored : ∃ stored nd, loadNd fs (ndPath problem root) = .ok (stored, nd) ∧
      (nd.map Prod.fst).Nodup ∧
      ¬ (stored = some (problemSolutions cache (problemKeys problem cache)) ∧
        problemSolutions cache (problemKeys problem cache) ≠ []) := by
    rcases hout with h | ⟨sols, nd, h, hnd, hne⟩
    · refine ⟨none, [], ?_, List.nodup_nil, by simp⟩
      have h0 : loadFile fs (ndPath problem root) = .error .fileNotFound := by
        unfold loadFile
        rw [h, show (ndPath problem root).tail = problem :: root from rfl, hp]
      unfold loadNd
      rw [h0]
    · refine ⟨some sols, nd, ?_, hnd, ?_⟩
      · unfold loadNd loadFile
        rw [h]
      · rintro ⟨h1, h3⟩
        rcases hne _ hload with h4 | h4
        · exact h4 (Option.some.inj h1)
        · exact h3 (by rw [← Option.some.inj h1, h4])
  obtain ⟨stored, nd, h1, hnd, h2⟩ := hstored
  obtain ⟨fs1, h3, h4⟩ := clearOld_ok hl hp hc
  have hset : ∀ k s, dget cache k ≠ some (.set s) := by
    intro k s
    rw [hcache, dget_appendAll]
    split_ifs <;> simp
  obtain ⟨nd', h5, h6, h7⟩ := ndLoop_eq cache hset (problemKeys problem cache) nd
  have hdir : fs1 (problem :: root) = some .dir := by
    rw [h4, if_neg, hp]
    rintro (⟨n, hn, -⟩ | ⟨-, hd⟩)
    · have := congrArg List.length hn
      simp at this
    · rw [hp] at hd; simp [isDir] at hd
  have hnone : fs1 (ndPath problem root) = none := by
    rw [h4, if_pos (Or.inl ⟨_, rfl, ndName_old problem root⟩)]
  have h8 : saveFile fs1 (ndPath problem root)
      (.result (.nondominated (problemSolutions cache (problemKeys problem cache)) nd')) =
      .ok (fs1.set (ndPath problem root)
        (.file (.result (.nondominated (problemSolutions cache (problemKeys problem cache)) nd')))) := by
    unfold saveFile
    rw [show (ndPath problem root).tail = problem :: root from rfl, hdir, hnone]
  refine ⟨nd', fs1, ?_, h6 hnd, ?_, h4⟩
  · unfold preload filterCache
    rw [hload]
    simp only [h1, h3, h5, h8, if_neg h2]
  · rintro k ⟨e, he, rfl⟩
    have hne : (E.filter fun x => decide (x.1 = e.1)) ≠ [] := by
      intro h0
      have : e ∈ E.filter fun x => decide (x.1 = e.1) := List.mem_filter.2 ⟨he, by simp⟩
      rw [h0] at this
      simp at this
    have hg : dget cache e.1 = some (.lists ((E.filter fun x => decide (x.1 = e.1)).map Prod.snd)) := by
      rw [hcache, dget_appendAll, if_neg hne]
    have hk : e.1 ∈ problemKeys problem cache := mem_problemKeys.2 ⟨by rw [hg]; rfl, events_problem he⟩
    rw [h7, if_pos hk, hg]

/-- **C92** (partial: only if the directories of every algorithm are its runs and are listed in the order
of their names, see `C92_violated`) After loading the results of a problem the reference set for the
results of name `n` in the runs of number `k` consists of the recorded vectors that no recorded vector
dominates. -/
theorem C92_reference_partial {fs : PdiFS α} {ls : RPath → List Name} (hl : Lists ls fs) {root : RPath}
    {problem : Name} (hp : fs (problem :: root) = some .dir) (hc : CleanNames fs root problem)
    (hout : Outdated fs ls root problem)
    (ho : ∀ a, fs (a :: problem :: root) = some .dir → Orderly fs ls (a :: problem :: root))
    (d : ℕ) (hd : ∀ n k v, Recorded fs ls root problem n k v → v.length = d) :
    ∃ cache fs', preload fs ls root problem [] = (.ok cache, fs') ∧
      ∀ (n : Name) (k : ℕ), n ≠ [] → (∀ c ∈ n, c.isDigit = true) →
        (∃ v, Recorded fs ls root problem n k v) →
        ∃ s, dget cache (problem, n, k) = some (.set s) ∧
          ∀ v, v ∈ s ↔ Recorded fs ls root problem n k v ∧
            ∀ w, Recorded fs ls root problem n k w → ¬ LDom w v := by
  obtain ⟨nd', fs1, h1, hnd, h2, -⟩ := preload_outdated hl hp hc hout
  refine ⟨_, _, h1, fun n k hn hn' hv => ?_⟩
  have hrec := fun v => recorded_iff hl hp ho ⟨hn, hn'⟩ k v
  obtain ⟨v0, hv0⟩ := hv
  obtain ⟨f0, hf0, -⟩ := (hrec v0).1 hv0
  have hmem : ∀ v, v ∈ (((events fs ls root problem).filter
      fun e => decide (e.1 = (problem, n, k))).map Prod.snd).flatten ↔ Recorded fs ls root problem n k v := by
    intro v
    rw [hrec]
    simp only [List.mem_flatten, List.mem_map, List.mem_filter, decide_eq_true_eq]
    constructor
    · rintro ⟨l, ⟨⟨k', f⟩, ⟨he, rfl⟩, rfl⟩, hv⟩
      exact ⟨f, he, hv⟩
    · rintro ⟨f, he, hv⟩
      exact ⟨f, ⟨_, ⟨he, rfl⟩, rfl⟩, hv⟩
  refine ⟨_, by rw [dget_dictUpdate _ _ hnd, h2 _ ⟨_, hf0, rfl⟩]; rfl, fun v => ?_⟩
  rw [List.mem_toFinset, C06_mem_filter d _ (fun x hx => hd n k x ((hmem x).1 hx)), hmem]
  unfold NonDominated
  refine and_congr_right fun _ => ?_
  constructor
  · exact fun h w hw => h w ((hmem w).2 hw)
  · exact fun h w hw => h w ((hmem w).1 hw)

/-! ### The order of the directory listing -/

/-- Two runs of one algorithm, in the order of their dates. -/
def exRunA : Name := "2017-05-06.101112.000123__0000001".toList
/-- The later run. -/
def exRunB : Name := "2017-05-07.101112.000123__0000002".toList

/-- One problem `P`, one algorithm `A`, two runs with one result each. -/
def exPdiFS : PdiFS ℕ := fun p =>
  if p = [] ∨ p = [['P']] ∨ p = [['A'], ['P']] ∨ p = [exRunA, ['A'], ['P']] ∨
    p = [exRunB, ['A'], ['P']] then some .dir
  else if p = ['7' :: pickleExt, exRunA, ['A'], ['P']] then some (.file (.result (.result [[1, 2]])))
  else if p = ['7' :: pickleExt, exRunB, ['A'], ['P']] then some (.file (.result (.result [[2, 1]])))
  else none

/-- The operating system lists the later run first or last. -/
def exPdiLs (laterFirst : Bool) : RPath → List Name := fun p =>
  if p = [] then [['P']]
  else if p = [['P']] then [['A']]
  else if p = [['A'], ['P']] then if laterFirst then [exRunB, exRunA] else [exRunA, exRunB]
  else if p = [exRunA, ['A'], ['P']] ∨ p = [exRunB, ['A'], ['P']] then ['7' :: pickleExt]
  else []

/-- The result of the first run as the evaluation gets it. -/
def exPdiFound : Found (List (List ℕ)) := ⟨[[1, 2]], ['7'], 0, ⟨[], ['P'], ['A'], exRunA⟩⟩

/-- The value, if there is one. -/
def pdiOk (r : Except Err ℚ × PdiDict ℕ × PdiFS ℕ) : Option ℚ :=
  match r.1 with
  | .ok v => some v
  | .error _ => none

theorem exPdi_lists (b : Bool) : Lists (exPdiLs b) exPdiFS := by
  intro p hp
  have hp' : p = [] ∨ p = [['P']] ∨ p = [['A'], ['P']] ∨ p = [exRunA, ['A'], ['P']] ∨
      p = [exRunB, ['A'], ['P']] := by
    unfold exPdiFS at hp
    split_ifs at hp with h
    · exact h
    · simp at hp
    · simp at hp
  have hne : exRunA ≠ exRunB := by decide +kernel
  have hA : exRunA ≠ ['P'] := by decide +kernel
  have hB : exRunB ≠ ['P'] := by decide +kernel
  have hA7 : exRunA ≠ '7' :: pickleExt := by decide +kernel
  have hB7 : exRunB ≠ '7' :: pickleExt := by decide +kernel
  rcases hp' with rfl | rfl | rfl | rfl | rfl
  · refine ⟨by simp [exPdiLs], fun c => ?_⟩
    simp [exPdiLs, exPdiFS]
  · refine ⟨by simp [exPdiLs], fun c => ?_⟩
    simp [exPdiLs, exPdiFS]
  · cases b
    · refine ⟨by simp [exPdiLs, hne], fun c => ?_⟩
      simp [exPdiLs, exPdiFS, or_iff_not_imp_left]
    · refine ⟨by simp [exPdiLs, hne.symm], fun c => ?_⟩
      simp [exPdiLs, exPdiFS, or_comm, or_iff_not_imp_left]
  · refine ⟨by simp [exPdiLs], fun c => ?_⟩
    simp [exPdiLs, exPdiFS, hne]
  · refine ⟨by simp [exPdiLs], fun c => ?_⟩
    simp [exPdiLs, exPdiFS, hne.symm]

/-- **C92, negation** One algorithm has two runs with one result each, no vector dominates another. If
the directory listing gives the later run first then the reference set for the first run consists of the
vector found by the second: the indicator of the first run is 0, although it found everything that was
recorded for runs of its number. -/
theorem C92_violated : ∃ (fs : PdiFS ℕ) (ls : RPath → List Name) (x : Found (List (List ℕ))),
    Lists ls fs ∧
    (∃ runs, eachRun fs ls x.case.resultsDir x.case.problem x.case.algorithm [] 0 = .ok runs ∧
      (x.case, x.runNo) ∈ runs) ∧
    fs (x.case.resultPath x.name) = some (.file (.result (.result x.value))) ∧
    (∀ v, Recorded fs ls x.case.resultsDir x.case.problem x.name x.runNo v ↔ v ∈ x.value) ∧
    x.value ≠ [] ∧ (pdi fs ls [] x).1 = .ok 0 := by
  have hruns : ∀ today rnd, eachRun exPdiFS (exPdiLs true) [] ['P'] ['A'] today rnd =
      .ok [(⟨[], ['P'], ['A'], exRunA⟩, 0), (⟨[], ['P'], ['A'], exRunB⟩, 1)] := by
    intro today rnd
    have h1 : iterdir exPdiFS (exPdiLs true) [['A'], ['P']] = .ok [exRunB, exRunA] := by
      simp [iterdir, exPdiFS, exPdiLs]
    unfold eachRun
    rw [h1]
    simp only [eachRunLoop_eq]
    congr 1
  refine ⟨exPdiFS, exPdiLs true, exPdiFound, exPdi_lists _, ⟨_, hruns [] 0, ?_⟩, ?_, ?_, ?_, ?_⟩
  · exact List.mem_cons_self ..
  · simp [Case.resultPath, Case.path, exPdiFound, exPdiFS]
  · intro v
    constructor
    · rintro ⟨algo, runs, s, f, ha, hr, hs, hf, hv⟩
      have ha' : algo = ['A'] := by
        have : exPdiFS [algo, ['P']] = some .dir := ha
        simpa [exPdiFS] using this
      subst ha'
      have h0 := hr [] 0
      rw [show eachRun exPdiFS (exPdiLs true) exPdiFound.case.resultsDir exPdiFound.case.problem ['A'] [] 0 = _
        from hruns [] 0] at h0
      obtain rfl := Except.ok.inj h0
      have hs' : s = ⟨[], ['P'], ['A'], exRunA⟩ := by
        simpa [exPdiFound] using hs
      subst hs'
      have e : exPdiFS (Case.resultPath ⟨[], ['P'], ['A'], exRunA⟩ exPdiFound.name) =
          some (.file (.result (.result [[1, 2]]))) := by
        simp [Case.resultPath, Case.path, exPdiFound, exPdiFS]
      rw [e] at hf
      simp only [Option.some.injEq, Node.file.injEq, Pickle.result.injEq, PdiFile.result.injEq] at hf
      rw [← hf] at hv
      exact hv
    · intro hv
      exact ⟨['A'], _, ⟨[], ['P'], ['A'], exRunA⟩, [[1, 2]], by simp [exPdiFS, exPdiFound], hruns,
        List.mem_cons_self .., by simp [Case.resultPath, Case.path, exPdiFound, exPdiFS], hv⟩
  · simp [exPdiFound]
  · have : pdiOk (pdi exPdiFS (exPdiLs true) [] exPdiFound) = some 0 := by decide +kernel
    unfold pdiOk at this
    split at this
    · rename_i v hv
      rw [hv, Option.some.inj this]
    · simp at this

/-- In the order of the names the indicator is 1. -/
example : pdiOk (pdi exPdiFS (exPdiLs false) [] exPdiFound) = some 1 := by decide +kernel

theorem exPdi_orderly (a : Name) (h : exPdiFS [a, ['P']] = some .dir) :
    Orderly exPdiFS (exPdiLs false) [a, ['P']] := by
  have ha : a = ['A'] := by simpa [exPdiFS] using h
  subst ha
  constructor
  · intro n hn
    have hn' : n = exRunA ∨ n = exRunB := by
      simpa [exPdiFS, or_iff_not_imp_left] using hn
    rcases hn' with rfl | rfl
    · rw [← isSome_matchRun]
      exact ⟨fun _ => by decide +kernel, fun _ => by simp [exPdiFS]⟩
    · rw [← isSome_matchRun]
      exact ⟨fun _ => by decide +kernel, fun _ => by simp [exPdiFS]⟩
  · have e : (exPdiLs false [['A'], ['P']]).filter (fun n => isDir (exPdiFS [n, ['A'], ['P']])) =
        [exRunA, exRunB] := by decide +kernel
    rw [e]
    have : exRunA ≤ exRunB := by decide +kernel
    simpa using this

theorem exPdi_clean : CleanNames exPdiFS [] ['P'] := by
  intro n hn
  have hn' : n = ['A'] := by simpa [exPdiFS] using hn
  subst hn'
  decide +kernel

theorem exPdi_length (n : Name) (k : ℕ) (v : List ℕ)
    (h : Recorded exPdiFS (exPdiLs false) [] ['P'] n k v) : v.length = 2 := by
  obtain ⟨algo, runs, s, f, -, -, -, hf, hv⟩ := h
  unfold exPdiFS at hf
  split_ifs at hf
  · simp at hf
  · simp only [Option.some.injEq, Node.file.injEq, Pickle.result.injEq, PdiFile.result.injEq] at hf
    subst hf
    simp_all
  · simp only [Option.some.injEq, Node.file.injEq, Pickle.result.injEq, PdiFile.result.injEq] at hf
    subst hf
    simp_all

/-- The assumptions of `C92_reference_partial` hold for this tree. -/
example : ∃ cache fs', preload exPdiFS (exPdiLs false) [] ['P'] [] = (.ok cache, fs') ∧
    ∀ n k, n ≠ [] → (∀ c ∈ n, c.isDigit = true) →
      (∃ v, Recorded exPdiFS (exPdiLs false) [] ['P'] n k v) →
      ∃ s, dget cache (['P'], n, k) = some (.set s) ∧
        ∀ v, v ∈ s ↔ Recorded exPdiFS (exPdiLs false) [] ['P'] n k v ∧
          ∀ w, Recorded exPdiFS (exPdiLs false) [] ['P'] n k w → ¬ LDom w v :=
  C92_reference_partial (exPdi_lists false) (by simp [exPdiFS]) exPdi_clean (.inl (by decide +kernel))
    exPdi_orderly 2 exPdi_length

end Evogil.Storage
