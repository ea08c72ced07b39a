import Verif.Lemmas.PdiHistory
import Mathlib.Tactic.FieldSimp

/-!
# C93: repeated evaluations of the Pareto dominance indicator never use outdated reference sets

Results are added between evaluations; every evaluation gives the share of the reference set of the
results that are there.
-/

set_option linter.unusedSectionVars false

namespace Evogil.Storage
open Spec

variable {α : Type*} [LinearOrder α]

/-- A result of the problem as it is listed for the evaluation. -/
structure IsResult (fs : PdiFS α) (ls : RPath → List Name) (root : RPath) (problem : Name)
    (x : Found (List (List α))) : Prop where
  root_eq : x.case.resultsDir = root
  problem_eq : x.case.problem = problem
  name_ne : x.name ≠ []
  name_digits : ∀ c ∈ x.name, c.isDigit = true
  algo : fs (x.case.algorithm :: problem :: root) = some .dir
  run : ∃ runs, (∀ today rnd, eachRun fs ls root problem x.case.algorithm today rnd = .ok runs) ∧
    (x.case, x.runNo) ∈ runs
  file : fs (x.case.resultPath x.name) = some (.file (.result (.result x.value)))

/-- `q` is the share of the reference set that the result contains: the reference set consists of the
vectors recorded for the same name and number of run that no such vector dominates. -/
def IsShare (fs : PdiFS α) (ls : RPath → List Name) (root : RPath) (problem : Name)
    (x : Found (List (List α))) (q : ℚ) : Prop :=
  ∃ s : Finset (List α), s.Nonempty ∧
    (∀ v, v ∈ s ↔ Recorded fs ls root problem x.name x.runNo v ∧
      ∀ w, Recorded fs ls root problem x.name x.runNo w → ¬ LDom w v) ∧
    q = ((s.filter fun v => v ∈ x.value).card : ℚ) / (s.card : ℚ)

/-- Nothing but files is named like stored reference sets or indicators. -/
def Clean (fs : PdiFS α) (root : RPath) (problem : Name) : Prop :=
  CleanNames fs root problem ∧ ∀ p, isPdiPath (problem :: root) p = true → fs p ≠ some .dir

/-- What an evaluation can rely on: the operating system lists each directory completely and the runs
in the order of their names, nothing is named like the files of the evaluation, all vectors have as many
coordinates as the problem has objectives. -/
structure Ready (fs : PdiFS α) (ls : RPath → List Name) (root : RPath) (problem : Name) (d : ℕ) : Prop where
  lists : Lists ls fs
  dir : fs (problem :: root) = some .dir
  orderly : AllOrderly fs ls root problem
  clean : Clean fs root problem
  length : ∀ n k v, Recorded fs ls root problem n k v → v.length = d

/-! ### The reference set of a key -/

/-- The points recorded for a key. -/
def keyPoints (fs : PdiFS α) (ls : RPath → List Name) (root : RPath) (problem : Name) (k : PdiKey) :
    List (List α) :=
  (((events fs ls root problem).filter fun e => decide (e.1 = k)).map Prod.snd).flatten

/-- The reference set of a key. -/
def refSet (fs : PdiFS α) (ls : RPath → List Name) (root : RPath) (problem : Name) (k : PdiKey) :
    Finset (List α) := (filterNotDominated (keyPoints fs ls root problem k)).toFinset

theorem mem_keyPoints {fs : PdiFS α} {ls : RPath → List Name} {root : RPath} {problem : Name} {d : ℕ}
    (h : Ready fs ls root problem d) {n : Name} (hn : n ≠ []) (hd : ∀ c ∈ n, c.isDigit = true) (k : ℕ)
    (v : List α) :
    v ∈ keyPoints fs ls root problem (problem, n, k) ↔ Recorded fs ls root problem n k v := by
  rw [recorded_iff h.lists h.dir h.orderly ⟨hn, hd⟩]
  unfold keyPoints
  simp only [List.mem_flatten, List.mem_map, List.mem_filter, decide_eq_true_eq]
  constructor
  · rintro ⟨l, ⟨⟨k', f⟩, ⟨he, rfl⟩, rfl⟩, hv⟩
    exact ⟨f, he, hv⟩
  · rintro ⟨f, he, hv⟩
    exact ⟨f, ⟨_, ⟨he, rfl⟩, rfl⟩, hv⟩

theorem mem_refSet {fs : PdiFS α} {ls : RPath → List Name} {root : RPath} {problem : Name} {d : ℕ}
    (h : Ready fs ls root problem d) {n : Name} (hn : n ≠ []) (hd : ∀ c ∈ n, c.isDigit = true) (k : ℕ)
    (v : List α) :
    v ∈ refSet fs ls root problem (problem, n, k) ↔ Recorded fs ls root problem n k v ∧
      ∀ w, Recorded fs ls root problem n k w → ¬ LDom w v := by
  have hm := mem_keyPoints h hn hd k
  unfold refSet
  rw [List.mem_toFinset, C06_mem_filter d _ fun x hx => h.length n k x ((hm x).1 hx), hm]
  unfold NonDominated
  refine and_congr_right fun _ => ?_
  constructor
  · exact fun h w hw => h w ((hm w).2 hw)
  · exact fun h w hw => h w ((hm w).1 hw)

theorem IsResult.site {fs : PdiFS α} {ls : RPath → List Name} {root : RPath} {problem : Name} {d : ℕ}
    (h : Ready fs ls root problem d) {x : Found (List (List α))} (hx : IsResult fs ls root problem x) :
    (x.case.resultPath x.name, ((problem, x.name, x.runNo), x.value)) ∈ sites fs ls root problem := by
  obtain ⟨runs, hr, hm⟩ := hx.run
  have := hr [] 0
  rw [orderly_runs h.lists hx.algo (h.orderly _ hx.algo)] at this
  obtain rfl := Except.ok.inj this
  obtain ⟨⟨r, i⟩, hri, he⟩ := List.mem_map.1 hm
  simp only [Prod.mk.injEq] at he
  obtain ⟨he, rfl⟩ := he
  have hpath : x.case.resultPath x.name =
      (x.name ++ pickleExt) :: r :: x.case.algorithm :: problem :: root := by
    rw [← he]; rfl
  refine (mem_sites h.lists).2 ⟨x.name, x.runNo, x.value, x.case.algorithm, r, rfl, hpath,
    (mem_dirs h.lists h.dir).2 hx.algo, List.mk_mem_zipIdx_iff_getElem?.1 hri,
    matchNumber_eq_some.2 ⟨rfl, hx.name_ne, hx.name_digits⟩, ?_⟩
  rw [← hpath]
  exact hx.file

theorem IsResult.recorded {fs : PdiFS α} {ls : RPath → List Name} {root : RPath} {problem : Name}
    {x : Found (List (List α))} (hx : IsResult fs ls root problem x) {v : List α} (hv : v ∈ x.value) :
    Recorded fs ls root problem x.name x.runNo v := by
  obtain ⟨runs, hr, hm⟩ := hx.run
  exact ⟨x.case.algorithm, runs, x.case, x.value, hx.algo, hr, hm, hx.file, hv⟩

/-- The value of the indicator. -/
theorem pdiValue_share {fs : PdiFS α} {ls : RPath → List Name} {root : RPath} {problem : Name} {d : ℕ}
    (h : Ready fs ls root problem d) {x : Found (List (List α))} (hx : IsResult fs ls root problem x)
    (hne : x.value ≠ []) (hnd : x.value.Nodup) :
    ∃ q, pdiValue (filterNotDominated x.value)
        (.set (refSet fs ls root problem (problem, x.name, x.runNo))) = some q ∧
      IsShare fs ls root problem x q := by
  set s := refSet fs ls root problem (problem, x.name, x.runNo) with hs
  have hmem := mem_refSet h hx.name_ne hx.name_digits x.runNo
  rw [← hs] at hmem
  have hkp := mem_keyPoints h hx.name_ne hx.name_digits x.runNo
  have hpos : s.Nonempty := by
    obtain ⟨v, hv⟩ := List.exists_mem_of_ne_nil _ hne
    obtain ⟨y, hy, -⟩ := C06_covers d _ (fun z hz => h.length _ _ z ((hkp z).1 hz)) v
      ((hkp v).2 (hx.recorded hv))
    exact ⟨y, List.mem_toFinset.2 hy⟩
  have hc : s.card ≠ 0 := Finset.card_ne_zero.2 hpos
  refine ⟨_, if_neg hc, s, hpos, hmem, ?_⟩
  congr 2
  obtain ⟨p, hp1, hp2⟩ := C06_filter_eq d x.value fun z hz => h.length _ _ z (hx.recorded hz)
  have hn : ((filterNotDominated x.value).filter fun v => decide (v ∈ s)).Nodup := by
    rw [hp1]
    exact (hnd.filter _).filter _
  rw [← List.toFinset_card_of_nodup hn]
  congr 1
  ext v
  simp only [List.mem_toFinset, List.mem_filter, decide_eq_true_eq, Finset.mem_filter]
  rw [C06_mem_filter d x.value fun z hz => h.length _ _ z (hx.recorded hz)]
  constructor
  · exact fun h => ⟨h.2, h.1.1⟩
  · exact fun h' => ⟨⟨h'.2, fun w hw => ((hmem v).1 h'.1).2 w (hx.recorded hw)⟩, h'.1⟩

/-! ### What is stored between evaluations -/

/-- The file of the indicator of a result. -/
def metricPath (n : Name) (dir : RPath) : RPath := (n ++ '.' :: pdiName ++ pickleExt) :: dir

/-- The stored reference sets and indicators are those of the results of `fs0`, which are still there. -/
structure SoundAt (fs fs0 : PdiFS α) (ls0 : RPath → List Name) (root : RPath) (problem : Name)
    (nd : PdiDict α) : Prop where
  stored : fs (ndPath problem root) = some (.file (.result (.nondominated
    (problemSolutions (appendAll [] (events fs0 ls0 root problem))
      (problemKeys problem (appendAll [] (events fs0 ls0 root problem)))) nd)))
  nodup : (nd.map Prod.fst).Nodup
  keys : ∀ e ∈ events fs0 ls0 root problem,
    dget nd e.1 = some (.set (refSet fs0 ls0 root problem e.1))
  kept : Kept fs0 fs root problem
  metrics : ∀ p e, (p, e) ∈ sites fs0 ls0 root problem → fs (metricPath e.1.2.1 p.tail) = none ∨
    ∃ v, fs (metricPath e.1.2.1 p.tail) =
        some (.file (.metric ⟨v, pdiName, .set (refSet fs0 ls0 root problem e.1)⟩)) ∧
      pdiValue (filterNotDominated e.2) (.set (refSet fs0 ls0 root problem e.1)) = some v

/-- Nothing is stored, or the reference sets and indicators of an earlier evaluation. -/
def Sound (fs : PdiFS α) (root : RPath) (problem : Name) (d : ℕ) : Prop :=
  fs (ndPath problem root) = none ∨
  ∃ fs0 ls0 nd, Ready fs0 ls0 root problem d ∧ SoundAt fs fs0 ls0 root problem nd

/-- The dictionary holds the reference sets. -/
def Loaded (cache : PdiDict α) (fs : PdiFS α) (ls : RPath → List Name) (root : RPath) (problem : Name) :
    Prop :=
  ∀ e ∈ events fs ls root problem, dget cache e.1 = some (.set (refSet fs ls root problem e.1))

theorem pdiSuffix_eq : pdiSuffix = '.' :: pdiName ++ pickleExt := by decide +kernel

theorem isPdiPath_metricPath (n : Name) (a r : Name) (pp : RPath) :
    isPdiPath pp (metricPath n (r :: a :: pp)) = true := by
  unfold isPdiPath metricPath
  simp only [Bool.and_eq_true, decide_eq_true_eq]
  refine ⟨⟨n, ?_⟩, ⟨[r, a], rfl⟩⟩
  rw [pdiSuffix_eq]
  simp

theorem not_pdi_of_digits {n : Name} (hd : ∀ c ∈ n, c.isDigit = true) (t : Name) :
    n ++ pickleExt ≠ t ++ '.' :: pdiName ++ pickleExt := by
  intro h
  have h1 := List.append_cancel_right h
  have : '.' ∈ n := by rw [h1]; simp
  exact absurd (hd _ this) (by decide)

theorem isPdiPath_result {n : Name} (hd : ∀ c ∈ n, c.isDigit = true) (pp dir : RPath) :
    isPdiPath pp ((n ++ pickleExt) :: dir) = false := by
  unfold isPdiPath
  rw [Bool.and_eq_false_iff]
  left
  rw [decide_eq_false_iff_not]
  rintro ⟨t, ht⟩
  refine not_pdi_of_digits hd t ?_
  rw [← ht, pdiSuffix_eq]
  simp

theorem refSet_congr {fs0 fs : PdiFS α} {ls0 ls : RPath → List Name} {root : RPath} {problem : Name}
    {d : ℕ} (h : Ready fs ls root problem d)
    (hp : (sites fs0 ls0 root problem).Perm (sites fs ls root problem)) {e : PdiKey × List (List α)}
    (he : e ∈ events fs ls root problem) :
    refSet fs0 ls0 root problem e.1 = refSet fs ls root problem e.1 := by
  have hE : (events fs0 ls0 root problem).Perm (events fs ls root problem) := by
    rw [← sites_events, ← sites_events]
    exact hp.map _
  have hkp : (keyPoints fs ls root problem e.1).Perm (keyPoints fs0 ls0 root problem e.1) :=
    ((hE.symm.filter _).map _).flatten
  rw [← sites_events] at he
  obtain ⟨⟨p, e'⟩, hs, rfl⟩ := List.mem_map.1 he
  obtain ⟨n, k, f, a, r, rfl, -, -, -, hn, -⟩ := (mem_sites h.lists).1 hs
  obtain ⟨-, h1, h2⟩ := matchNumber_eq_some.1 hn
  have hm := mem_keyPoints h h1 h2 k
  have := C06_order_independent d _ _ (fun x hx => h.length n k x ((hm x).1 hx)) hkp
  unfold refSet
  ext v
  rw [List.mem_toFinset, List.mem_toFinset]
  exact this.mem_iff.symm

/-- An evaluation with an empty dictionary loads the right reference sets and leaves them on disk. -/
theorem preload_sound {fs : PdiFS α} {ls : RPath → List Name} {root : RPath} {problem : Name} {d : ℕ}
    (h : Ready fs ls root problem d) (hs : Sound fs root problem d) :
    ∃ cache fs' nd, preload fs ls root problem [] = (.ok cache, fs') ∧
      Loaded cache fs ls root problem ∧ SoundAt fs' fs ls root problem nd := by
  classical
  have hload := preloadLoop_eq h.lists h.dir []
  by_cases hout : Outdated fs ls root problem
  · obtain ⟨nd', fs1, h1, hnd, h2, h3⟩ := preload_outdated h.lists h.dir h.clean.1 hout
    have hlong : ∀ p, p ≠ ndPath problem root →
        (FS.set fs1 (ndPath problem root) (.file (.result (.nondominated
          (problemSolutions (appendAll [] (events fs ls root problem))
            (problemKeys problem (appendAll [] (events fs ls root problem)))) nd')))) p = fs1 p := by
      intro p hp
      simp [FS.set, hp]
    have hdir : ∀ p, fs p = some .dir → problem :: root <:+ p → fs1 p = some .dir := by
      intro p hp hsuf
      rw [h3, if_neg, hp]
      rintro (⟨n, rfl, ho⟩ | ⟨-, hd⟩)
      · rw [h.clean.1 n hp] at ho
        simp at ho
      · rw [hp] at hd
        simp [isDir] at hd
    have hdir' : ∀ p, fs1 p = some .dir → fs p = some .dir := by
      intro p hp
      rw [h3] at hp
      split_ifs at hp
      exact hp
    have hnd0 : fs (ndPath problem root) ≠ some .dir := by
      intro h0
      have := h.clean.1 _ h0
      rw [show ((problem ++ ndSuffix) :: problem :: root : RPath) = ndPath problem root from rfl,
        ndName_old] at this
      simp at this
    refine ⟨_, _, nd', h1, fun e he => ?_, ?_, hnd, fun e he => h2 _ ⟨e, he, rfl⟩, ⟨?_, ?_, ?_, ?_⟩, ?_⟩
    · rw [dget_dictUpdate _ _ hnd, h2 _ ⟨e, he, rfl⟩]
      rfl
    · simp [FS.set]
    · intro a ha
      rw [hlong _ (by rintro h0; rw [h0] at ha; exact hnd0 ha)]
      exact hdir _ ha ⟨[a], rfl⟩
    · intro a r ha
      rw [hlong _ (by intro h0; have := congrArg List.length h0; simp only [ndPath, List.length_cons] at this; omega)]
      exact hdir _ ha ⟨[r, a], rfl⟩
    · intro a r n f hn hd hf
      rw [hlong _ (by intro h0; have := congrArg List.length h0; simp only [ndPath, List.length_cons] at this; omega), h3, if_neg, hf]
      rintro (⟨m, hm, -⟩ | ⟨hi, -⟩)
      · have := congrArg List.length hm
        simp only [List.length_cons] at this
        omega
      · rw [isPdiPath_result hd] at hi
        simp at hi
    · intro a r r' hr hr' hn
      rw [hlong _ (by intro h0; have := congrArg List.length h0; simp only [ndPath, List.length_cons] at this; omega)] at hr'
      exact absurd (hdir' _ hr') hn
    · intro p e he
      left
      obtain ⟨n, k, f, a, r, rfl, rfl, -⟩ := (mem_sites h.lists).1 he
      rw [hlong _ (by intro h0; have := congrArg List.length h0; simp only [ndPath, metricPath, List.length_cons, List.tail_cons] at this; omega),
        h3,
        if_pos]
      right
      refine ⟨isPdiPath_metricPath _ _ _ _, ?_⟩
      have := h.clean.2 _ (isPdiPath_metricPath n a r (problem :: root))
      rw [Bool.eq_false_iff]
      intro h0
      exact this (isDir_iff.1 h0)
  · rcases hs with hs | ⟨fs0, ls0, nd, h0, hs⟩
    · exact absurd (Or.inl hs) hout
    · have hsols : problemSolutions (appendAll [] (events fs0 ls0 root problem))
          (problemKeys problem (appendAll [] (events fs0 ls0 root problem))) =
          problemSolutions (appendAll [] (events fs ls root problem))
            (problemKeys problem (appendAll [] (events fs ls root problem))) ∧
          problemSolutions (appendAll [] (events fs ls root problem))
            (problemKeys problem (appendAll [] (events fs ls root problem))) ≠ [] := by
        by_contra hcon
        refine hout (.inr ⟨_, nd, hs.stored, hs.nodup, fun cache hc => ?_⟩)
        rw [hload] at hc
        obtain rfl := Except.ok.inj hc
        by_contra hcon'
        push Not at hcon'
        exact hcon ⟨hcon'.1, fun h1 => hcon'.2 (hcon'.1.trans h1)⟩
      have hperm := sites_perm h0.lists h.lists h0.dir h.dir hs.kept h0.orderly h.orderly hsols.1
      have hE : (events fs0 ls0 root problem).Perm (events fs ls root problem) := by
        rw [← sites_events, ← sites_events]
        exact hperm.map _
      refine ⟨dictUpdate (appendAll [] (events fs ls root problem)) nd, fs, nd, ?_, fun e he => ?_, ?_,
        hs.nodup, fun e he => ?_, Kept.refl _ _ _, fun p e he => ?_⟩
      · have h1 : loadNd fs (ndPath problem root) = .ok (some (problemSolutions
            (appendAll [] (events fs0 ls0 root problem))
            (problemKeys problem (appendAll [] (events fs0 ls0 root problem)))), nd) := by
          unfold loadNd loadFile
          rw [hs.stored]
        unfold preload filterCache
        rw [hload]
        simp only [h1]
        rw [if_pos ⟨by rw [hsols.1], hsols.2⟩]
      · rw [dget_dictUpdate _ _ hs.nodup, hs.keys e (hE.mem_iff.2 he), refSet_congr h hperm he]
        rfl
      · rw [hs.stored, hsols.1]
      · rw [hs.keys e (hE.mem_iff.2 he), refSet_congr h hperm he]
      · have he' : e ∈ events fs ls root problem := by
          rw [← sites_events]
          exact List.mem_map.2 ⟨_, he, rfl⟩
        rw [← refSet_congr h hperm he']
        exact hs.metrics p e (hperm.mem_iff.2 he)

/-- One indicator after loading. -/
theorem pdi_loaded {fs fs0 : PdiFS α} {ls0 : RPath → List Name} {root : RPath} {problem : Name} {d : ℕ}
    (h : Ready fs0 ls0 root problem d) {nd : PdiDict α} (hs : SoundAt fs fs0 ls0 root problem nd)
    {x : Found (List (List α))} (hx : IsResult fs0 ls0 root problem x) (hne : x.value ≠ []) (hnd : x.value.Nodup) :
    ∃ q, IsShare fs0 ls0 root problem x q ∧ ∃ fs', SoundAt fs' fs0 ls0 root problem nd ∧
      getMetric (fun _ _ nd p => pdiValue nd p) fs
        (pdiRequest x (.set (refSet fs0 ls0 root problem (problem, x.name, x.runNo)))) = (.ok q, fs') := by
  obtain ⟨q, hq, hshare⟩ := pdiValue_share h hx hne hnd
  have hsite := hx.site h
  obtain ⟨n, k, f, a, r, he, hpath, ha, hr, hn, hf⟩ := (mem_sites h.lists).1 hsite
  simp only [Prod.mk.injEq, true_and] at he
  obtain ⟨⟨rfl, rfl⟩, rfl⟩ := he
  have hcase : x.case.path = r :: a :: problem :: root := (List.cons.inj hpath).2
  have hreq : (pdiRequest x (.set (refSet fs0 ls0 root problem (problem, x.name, x.runNo)))).path =
      metricPath x.name (r :: a :: problem :: root) := by
    rw [← hcase]; rfl
  have had := (mem_dirs h.lists h.dir).1 ha
  have hrd : fs (r :: a :: problem :: root) = some .dir :=
    hs.kept.run a r ((mem_dirs h.lists had).1 (List.mem_of_getElem? hr))
  have htail : (x.case.resultPath x.name).tail = r :: a :: problem :: root := hcase
  refine ⟨q, hshare, ?_⟩
  rcases hs.metrics _ _ hsite with hm | ⟨v, hm, hv⟩
  · rw [htail] at hm
    refine ⟨fs.set (metricPath x.name (r :: a :: problem :: root))
      (.file (.metric ⟨q, pdiName, .set (refSet fs0 ls0 root problem (problem, x.name, x.runNo))⟩)), ?_, ?_⟩
    · have hother : ∀ p, p ≠ metricPath x.name (r :: a :: problem :: root) →
          (fs.set (metricPath x.name (r :: a :: problem :: root))
            (.file (.metric ⟨q, pdiName,
              .set (refSet fs0 ls0 root problem (problem, x.name, x.runNo))⟩))) p = fs p := by
        intro p hp
        simp [FS.set, hp]
      have hnew : ∀ p, (fs.set (metricPath x.name (r :: a :: problem :: root))
            (.file (.metric ⟨q, pdiName,
              .set (refSet fs0 ls0 root problem (problem, x.name, x.runNo))⟩))) p = some .dir →
          fs p = some .dir := by
        intro p hp
        by_cases h0 : p = metricPath x.name (r :: a :: problem :: root)
        · simp [FS.set, h0] at hp
        · rwa [hother p h0] at hp
      have hkd : ∀ p, fs p = some .dir → (fs.set (metricPath x.name (r :: a :: problem :: root))
            (.file (.metric ⟨q, pdiName,
              .set (refSet fs0 ls0 root problem (problem, x.name, x.runNo))⟩))) p = some .dir := by
        intro p hp
        rw [hother p (by rintro rfl; rw [hm] at hp; simp at hp)]
        exact hp
      refine ⟨?_, hs.nodup, hs.keys, ⟨fun b hb => hkd _ (hs.kept.algo b hb),
        fun b t hb => hkd _ (hs.kept.run b t hb), fun b t m f hm0 hmd hf0 => ?_,
        fun b t t' hb hb' hbn => hs.kept.later b t t' hb (hnew _ hb') hbn⟩, fun p e he => ?_⟩
      · rw [hother _ (by intro h0; have := congrArg List.length h0; simp only [ndPath, metricPath, List.length_cons] at this; omega)]
        exact hs.stored
      · rw [hother]
        · exact hs.kept.result b t m f hm0 hmd hf0
        · intro h0
          exact not_pdi_of_digits hmd _ (List.cons.inj h0).1
      · by_cases h0 : metricPath e.1.2.1 p.tail = metricPath x.name (r :: a :: problem :: root)
        · right
          obtain ⟨m, k, f, b, t, rfl, rfl, -⟩ := (mem_sites h.lists).1 he
          simp only [metricPath, List.tail_cons, List.cons.injEq] at h0
          obtain ⟨h1, rfl, rfl, -⟩ := h0
          have hmx : m = x.name := List.append_cancel_right (List.append_cancel_right h1)
          subst hmx
          have hsame := List.inj_on_of_nodup_map (sites_nodup h.lists h.dir) he hsite hpath.symm
          simp only [Prod.mk.injEq, true_and] at hsame
          obtain ⟨-, rfl, rfl⟩ := hsame
          refine ⟨q, ?_, hq⟩
          simp [FS.set]
        · rw [hother _ h0]
          exact hs.metrics p e he
    · unfold getMetric
      have h1 : loadFile fs (metricPath x.name (r :: a :: problem :: root)) = .error .fileNotFound := by
        unfold loadFile
        rw [hm, show (metricPath x.name (r :: a :: problem :: root)).tail = r :: a :: problem :: root from rfl,
          hrd]
      have h2 : ∀ c, saveFile fs (metricPath x.name (r :: a :: problem :: root)) c =
          .ok (fs.set (metricPath x.name (r :: a :: problem :: root)) (.file c)) := by
        intro c
        unfold saveFile
        rw [hm, show (metricPath x.name (r :: a :: problem :: root)).tail = r :: a :: problem :: root from rfl,
          hrd]
      rw [hreq, h1]
      simp only [pdiRequest, hq, h2]
  · rw [htail] at hm
    refine ⟨fs, hs, ?_⟩
    rw [hq] at hv
    obtain rfl := Option.some.inj hv
    unfold getMetric loadFile
    rw [hreq, hm]
    simp [pdiRequest]

/-! ### Evaluations -/

/-- One process evaluates several results one after the other. -/
def pdiAll (fs : PdiFS α) (ls : RPath → List Name) : PdiDict α → List (Found (List (List α))) →
    List (Except Err ℚ) × PdiFS α
  | _, [] => ([], fs)
  | cache, x :: xs =>
    let r := pdi fs ls cache x
    let rest := pdiAll r.2.2 ls r.2.1 xs
    (r.1 :: rest.1, rest.2)

/-- A result that is evaluated: listed, not empty, no vector twice. -/
def Evaluable (fs : PdiFS α) (ls : RPath → List Name) (root : RPath) (problem : Name)
    (x : Found (List (List α))) : Prop :=
  IsResult fs ls root problem x ∧ x.value ≠ [] ∧ x.value.Nodup

theorem pdi_step {fs fs0 : PdiFS α} {ls ls0 : RPath → List Name} {root : RPath} {problem : Name} {d : ℕ}
    (h : Ready fs0 ls0 root problem d) {nd : PdiDict α} (hs : SoundAt fs fs0 ls0 root problem nd)
    {cache : PdiDict α} (hc : Loaded cache fs0 ls0 root problem) {x : Found (List (List α))}
    (hx : Evaluable fs0 ls0 root problem x) :
    ∃ q fs', pdi fs ls cache x = (.ok q, cache, fs') ∧ IsShare fs0 ls0 root problem x q ∧
      SoundAt fs' fs0 ls0 root problem nd := by
  obtain ⟨q, hq, fs', hs', hg⟩ := pdi_loaded h hs hx.1 hx.2.1 hx.2.2
  have hk : dget cache (problem, x.name, x.runNo) =
      some (.set (refSet fs0 ls0 root problem (problem, x.name, x.runNo))) := by
    refine hc ((problem, x.name, x.runNo), x.value) ?_
    rw [← sites_events]
    exact List.mem_map.2 ⟨_, hx.1.site h, rfl⟩
  refine ⟨q, fs', ?_, hq, hs'⟩
  unfold pdi
  simp only [hx.1.problem_eq, hk, Option.isNone_some, Bool.false_eq_true, if_false, Option.getD_some, hg]

theorem pdiAll_loaded {fs0 : PdiFS α} {ls ls0 : RPath → List Name} {root : RPath} {problem : Name} {d : ℕ}
    (h : Ready fs0 ls0 root problem d) {nd : PdiDict α} {cache : PdiDict α}
    (hc : Loaded cache fs0 ls0 root problem) (xs : List (Found (List (List α))))
    (hx : ∀ x ∈ xs, Evaluable fs0 ls0 root problem x) {fs : PdiFS α}
    (hs : SoundAt fs fs0 ls0 root problem nd) :
    List.Forall₂ (fun x r => ∃ q, r = .ok q ∧ IsShare fs0 ls0 root problem x q) xs
        (pdiAll fs ls cache xs).1 ∧
      SoundAt (pdiAll fs ls cache xs).2 fs0 ls0 root problem nd := by
  induction xs generalizing fs with
  | nil => exact ⟨.nil, hs⟩
  | cons x xs ih =>
    obtain ⟨q, fs', h1, h2, h3⟩ := pdi_step (ls := ls) h hs hc (hx x (by simp))
    have := ih (fun x hx' => hx x (List.mem_cons_of_mem _ hx')) h3
    unfold pdiAll
    simp only [h1]
    exact ⟨.cons ⟨q, rfl, h2⟩ this.1, this.2⟩

theorem pdiAll_sound {fs : PdiFS α} {ls : RPath → List Name} {root : RPath} {problem : Name} {d : ℕ}
    (h : Ready fs ls root problem d) (hs : Sound fs root problem d) (xs : List (Found (List (List α))))
    (hx : ∀ x ∈ xs, Evaluable fs ls root problem x) :
    List.Forall₂ (fun x r => ∃ q, r = .ok q ∧ IsShare fs ls root problem x q) xs (pdiAll fs ls [] xs).1 ∧
      Sound (pdiAll fs ls [] xs).2 root problem d := by
  cases xs with
  | nil => exact ⟨.nil, hs⟩
  | cons x xs =>
    obtain ⟨cache, fs', nd, h1, h2, h3⟩ := preload_sound h hs
    have hx0 := hx x (by simp)
    have hk : dget cache (problem, x.name, x.runNo) =
        some (.set (refSet fs ls root problem (problem, x.name, x.runNo))) := by
      refine h2 ((problem, x.name, x.runNo), x.value) ?_
      rw [← sites_events]
      exact List.mem_map.2 ⟨_, hx0.1.site h, rfl⟩
    have e : pdi fs ls [] x = pdi fs' ls cache x := by
      unfold pdi
      simp only [hx0.1.problem_eq, hx0.1.root_eq, dget, Option.isNone_none, if_true, h1, hk,
        Option.isNone_some, Bool.false_eq_true, if_false]
    have e' : pdiAll fs ls [] (x :: xs) = pdiAll fs' ls cache (x :: xs) := by
      unfold pdiAll
      rw [e]
    rw [e']
    have := pdiAll_loaded (ls := ls) h h2 (x :: xs) hx h3
    exact ⟨this.1, .inr ⟨fs, ls, nd, h, this.2⟩⟩

/-- The trees that arise: at first nothing is stored; results are added (nothing is lost, new runs have
later names, the files of the evaluation are left alone); the results are evaluated in a new process. -/
inductive History (root : RPath) (problem : Name) (d : ℕ) : PdiFS α → Prop
  | start {fs} : fs (ndPath problem root) = none → History root problem d fs
  | grow {fs fs'} : History root problem d fs → Kept fs fs' root problem →
      fs' (ndPath problem root) = fs (ndPath problem root) →
      (∀ p, isPdiPath (problem :: root) p = true → fs' p = fs p) → History root problem d fs'
  | evaluate {fs ls xs} : History root problem d fs → Ready fs ls root problem d →
      (∀ x ∈ xs, Evaluable fs ls root problem x) → History root problem d (pdiAll fs ls [] xs).2

theorem History.sound {root : RPath} {problem : Name} {d : ℕ} {fs : PdiFS α}
    (h : History root problem d fs) : Sound fs root problem d := by
  induction h with
  | start h => exact .inl h
  | grow h hk hn hm ih =>
    rcases ih with ih | ⟨fs0, ls0, nd, h0, ih⟩
    · exact .inl (by rw [hn, ih])
    · refine .inr ⟨fs0, ls0, nd, h0, ?_, ih.nodup, ih.keys, ih.kept.trans hk, fun p e he => ?_⟩
      · rw [hn]
        exact ih.stored
      · have he' := he
        obtain ⟨n, k, f, a, r, rfl, rfl, -⟩ := (mem_sites h0.lists).1 he
        have := hm _ (isPdiPath_metricPath n a r (problem :: root))
        simp only [List.tail_cons]
        rw [this]
        exact ih.metrics _ _ he'
  | evaluate _ hr hx ih => exact (pdiAll_sound hr ih _ hx).2

/-- **C93** However often results were added and evaluated before, an evaluation of any results gives for
each of them the share of the current reference set which it contains. In particular nothing computed
from fewer results is used and the check for changed parameters never fails. -/
theorem C93_never_stale {root : RPath} {problem : Name} {d : ℕ} {fs : PdiFS α}
    (hist : History root problem d fs) {ls : RPath → List Name} (h : Ready fs ls root problem d)
    (xs : List (Found (List (List α)))) (hx : ∀ x ∈ xs, Evaluable fs ls root problem x) :
    List.Forall₂ (fun x r => ∃ q, r = .ok q ∧ IsShare fs ls root problem x q) xs (pdiAll fs ls [] xs).1 :=
  (pdiAll_sound h hist.sound xs hx).1

/-- **C93** The share lies between 0 and 1; it is 1 for a result that contains everything recorded. -/
theorem C93_share {fs : PdiFS α} {ls : RPath → List Name} {root : RPath} {problem : Name}
    {x : Found (List (List α))} {q : ℚ} (h : IsShare fs ls root problem x q) :
    0 ≤ q ∧ q ≤ 1 ∧ ((∀ v, Recorded fs ls root problem x.name x.runNo v → v ∈ x.value) → q = 1) := by
  obtain ⟨s, hs, hm, rfl⟩ := h
  have hpos : (0 : ℚ) < s.card := by exact_mod_cast Finset.card_pos.2 hs
  refine ⟨by positivity, ?_, fun hv => ?_⟩
  · rw [div_le_one hpos]
    exact_mod_cast Finset.card_filter_le _ _
  · rw [Finset.filter_true_of_mem fun v hv' => hv v ((hm v).1 hv').1, div_self hpos.ne']

/-! ### Examples -/

theorem exPdi_ready : Ready exPdiFS (exPdiLs false) [] ['P'] 2 := by
  refine ⟨exPdi_lists false, by simp [exPdiFS], exPdi_orderly, ⟨exPdi_clean, fun p hp h => ?_⟩, exPdi_length⟩
  have h' : p = [] ∨ p = [['P']] ∨ p = [['A'], ['P']] ∨ p = [exRunA, ['A'], ['P']] ∨
      p = [exRunB, ['A'], ['P']] := by
    unfold exPdiFS at h
    split_ifs at h with h0
    · exact h0
    · simp at h
    · simp at h
  rcases h' with rfl | rfl | rfl | rfl | rfl <;> revert hp <;> decide +kernel

theorem exPdi_evaluable : Evaluable exPdiFS (exPdiLs false) [] ['P'] exPdiFound := by
  refine ⟨⟨rfl, rfl, by simp [exPdiFound], by simp [exPdiFound], by simp [exPdiFS, exPdiFound], ?_, ?_⟩,
    by simp [exPdiFound], by simp [exPdiFound]⟩
  · refine ⟨_, fun today rnd => orderly_runs (exPdi_lists false) (by simp [exPdiFS, exPdiFound])
      (exPdi_orderly _ (by simp [exPdiFS, exPdiFound])) today rnd, ?_⟩
    refine List.mem_map.2 ⟨(exRunA, 0), ?_, rfl⟩
    have : dirs exPdiFS (exPdiLs false) [['A'], ['P']] = [exRunA, exRunB] := by decide +kernel
    show (exRunA, 0) ∈ (dirs exPdiFS (exPdiLs false) [['A'], ['P']]).zipIdx
    rw [this]
    simp
  · simp [Case.resultPath, Case.path, exPdiFound, exPdiFS]

/-- The assumptions of `C93_never_stale` hold for this tree before and after an evaluation of it, and the
indicator is a share. -/
example : ∃ q, (pdiAll exPdiFS (exPdiLs false) [] [exPdiFound]).1 = [.ok q] ∧
    IsShare exPdiFS (exPdiLs false) [] ['P'] exPdiFound q := by
  have := C93_never_stale (History.start (by decide +kernel)) exPdi_ready [exPdiFound]
    (by simpa using exPdi_evaluable)
  generalize hr : (pdiAll exPdiFS (exPdiLs false) [] [exPdiFound]).1 = rs at this ⊢
  cases this with
  | cons h t =>
    cases t with
    | nil =>
      obtain ⟨q, rfl, hq⟩ := h
      exact ⟨q, rfl, hq⟩

/-- The values that were computed. -/
def exOks (r : List (Except Err ℚ)) : List (Option ℚ) := r.map fun
  | .ok v => some v
  | .error _ => none

/-- A second algorithm is added which finds a better vector in its first run. -/
def exGrow (fs : PdiFS ℕ) : PdiFS ℕ := fun p =>
  if p = [['B'], ['P']] ∨ p = [exRunA, ['B'], ['P']] then some .dir
  else if p = ['7' :: pickleExt, exRunA, ['B'], ['P']] then some (.file (.result (.result [[0, 0]])))
  else fs p

/-- The listing of the larger tree. -/
def exGrowLs : RPath → List Name := fun p =>
  if p = [['P']] then [['B'], ['P', '_', 'n', 'o', 'n', 'd', 'o', 'm', 'i', 'n', 'a', 't', 'e', 'd'], ['A']]
  else if p = [['B'], ['P']] then [exRunA]
  else if p = [exRunA, ['B'], ['P']] then ['7' :: pickleExt]
  else if p = [exRunA, ['A'], ['P']] then
    ['7' :: pickleExt, '7' :: '.' :: (pdiName ++ pickleExt)]
  else exPdiLs false p

/-- Before, the first run of the only algorithm had found everything; after, nothing. The results of the
second run are untouched. -/
example :
    exOks (pdiAll exPdiFS (exPdiLs false) [] [exPdiFound, exPdiFound]).1 = [some 1, some 1] ∧
    exOks (pdiAll (exGrow (pdiAll exPdiFS (exPdiLs false) [] [exPdiFound]).2) exGrowLs []
      [exPdiFound, ⟨[[2, 1]], ['7'], 1, ⟨[], ['P'], ['A'], exRunB⟩⟩]).1 = [some 0, some 1] := by
  constructor <;> decide +kernel

/-- The tree with the second run only. -/
def exLate : PdiFS ℕ := fun p =>
  if p = [exRunA, ['A'], ['P']] ∨ p = ['7' :: pickleExt, exRunA, ['A'], ['P']] then none else exPdiFS p

/-- An empty directory for the first run is added. -/
def exEarlier (fs : PdiFS ℕ) : PdiFS ℕ := fun p =>
  if p = [exRunA, ['A'], ['P']] then some .dir else fs p

/-- Its listing, with or without the first run. -/
def exLateLs (withA : Bool) : RPath → List Name := fun p =>
  if p = [['P']] then
    (if withA then [['P', '_', 'n', 'o', 'n', 'd', 'o', 'm', 'i', 'n', 'a', 't', 'e', 'd'], ['A']] else [['A']])
  else if p = [['A'], ['P']] then (if withA then [exRunA, exRunB] else [exRunB])
  else if p = [exRunA, ['A'], ['P']] then []
  else if p = [exRunB, ['A'], ['P']] then
    (if withA then ['7' :: pickleExt, '7' :: '.' :: (pdiName ++ pickleExt)] else ['7' :: pickleExt])
  else exPdiLs false p

/-- **C93, why new runs must have later names** A run is evaluated, then a directory with an earlier name
appears, without results. The run now has another number, the stored solutions are the same, and the
stored dictionary has nothing for that number: the evaluation of the only result fails, because its
stored indicator was computed with other parameters. -/
theorem C93_earlier_run :
    exOks (pdiAll exLate (exLateLs false) [] [⟨[[2, 1]], ['7'], 0, ⟨[], ['P'], ['A'], exRunB⟩⟩]).1 =
      [some 1] ∧
    exOks (pdiAll (exEarlier (pdiAll exLate (exLateLs false) []
        [⟨[[2, 1]], ['7'], 0, ⟨[], ['P'], ['A'], exRunB⟩⟩]).2) (exLateLs true) []
      [⟨[[2, 1]], ['7'], 1, ⟨[], ['P'], ['A'], exRunB⟩⟩]).1 = [none] := by
  constructor <;> decide +kernel

end Evogil.Storage
