import Verif.Props.PdiCache

/-! # Lemmas about repeated evaluations of the Pareto dominance indicator -/

set_option linter.unusedSectionVars false

namespace Evogil.Storage
open Spec

variable {α : Type*} [LinearOrder α]

/-- The files that are read, with what they contribute. -/
def sites (fs : PdiFS α) (ls : RPath → List Name) (root : RPath) (problem : Name) :
    List (RPath × PdiKey × List (List α)) :=
  (dirs fs ls (problem :: root)).flatMap fun a =>
    (dirs fs ls (a :: problem :: root)).zipIdx.flatMap fun r =>
      (ls (r.1 :: a :: problem :: root)).flatMap fun file =>
        (fileEvent fs (r.1 :: a :: problem :: root) problem r.2 file).map fun e =>
          (file :: r.1 :: a :: problem :: root, e)

theorem sites_events (fs : PdiFS α) (ls : RPath → List Name) (root : RPath) (problem : Name) :
    (sites fs ls root problem).map Prod.snd = events fs ls root problem := by
  unfold sites events
  simp only [List.map_flatMap, List.map_map, Function.comp_def, List.map_id']

theorem mem_sites {fs : PdiFS α} {ls : RPath → List Name} (hl : Lists ls fs) {root : RPath}
    {problem : Name} {p : RPath} {e : PdiKey × List (List α)} :
    (p, e) ∈ sites fs ls root problem ↔
      ∃ n k f a r, e = ((problem, n, k), f) ∧ p = (n ++ pickleExt) :: r :: a :: problem :: root ∧
        a ∈ dirs fs ls (problem :: root) ∧ (dirs fs ls (a :: problem :: root))[k]? = some r ∧
        matchNumber (n ++ pickleExt) = some n ∧
        fs ((n ++ pickleExt) :: r :: a :: problem :: root) = some (.file (.result (.result f))) := by
  unfold sites
  simp only [List.mem_flatMap, List.mem_map, mem_fileEvent]
  constructor
  · rintro ⟨a, ha, ⟨r, i⟩, hr, file, hfile, ⟨k', f⟩, ⟨d, hd, he, hf⟩, hpe⟩
    simp only [Prod.mk.injEq] at hpe
    obtain ⟨rfl, rfl⟩ := hpe
    simp only at he
    subst he
    have := matchNumber_pickle hd
    subst this
    refine ⟨d, i, f, a, r, rfl, rfl, ha, ?_, hd, hf⟩
    simpa using (List.mk_mem_zipIdx_iff_getElem? (x := r) (i := i)).1 hr
  · rintro ⟨n, k, f, a, r, rfl, rfl, ha, hr, hn, hf⟩
    have hrm : r ∈ dirs fs ls (a :: problem :: root) := List.mem_of_getElem? hr
    have hrd : fs (r :: a :: problem :: root) = some .dir := isDir_iff.1 (List.mem_filter.1 hrm).2
    refine ⟨a, ha, (r, k), ?_, n ++ pickleExt, ((hl _ hrd).2 _).2 (by rw [hf]; simp), _,
      ⟨n, hn, rfl, hf⟩, rfl⟩
    exact (List.mk_mem_zipIdx_iff_getElem? (x := r) (i := k)).2 hr

theorem dirs_nodup {fs : PdiFS α} {ls : RPath → List Name} (hl : Lists ls fs) {p : RPath}
    (hp : fs p = some .dir) : (dirs fs ls p).Nodup := (hl _ hp).1.filter _

theorem mem_dirs {fs : PdiFS α} {ls : RPath → List Name} (hl : Lists ls fs) {p : RPath}
    (hp : fs p = some .dir) {n : Name} : n ∈ dirs fs ls p ↔ fs (n :: p) = some .dir := by
  unfold dirs
  rw [List.mem_filter, isDir_iff, (hl _ hp).2]
  constructor
  · exact fun h => h.2
  · intro h
    exact ⟨by rw [h]; simp, h⟩

theorem sites_nodup {fs : PdiFS α} {ls : RPath → List Name} (hl : Lists ls fs) {root : RPath}
    {problem : Name} (hp : fs (problem :: root) = some .dir) :
    ((sites fs ls root problem).map Prod.fst).Nodup := by
  unfold sites
  simp only [List.map_flatMap, List.map_map, Function.comp_def]
  rw [List.nodup_flatMap]
  constructor
  · intro a ha
    have had := (mem_dirs hl hp).1 ha
    rw [List.nodup_flatMap]
    constructor
    · rintro ⟨r, i⟩ hr
      have hrm : r ∈ dirs fs ls (a :: problem :: root) :=
        List.mem_of_getElem? ((List.mk_mem_zipIdx_iff_getElem? (x := r) (i := i)).1 hr)
      have hrd := (mem_dirs hl had).1 hrm
      rw [List.nodup_flatMap]
      constructor
      · intro file _
        unfold fileEvent
        split
        · simp
        · split <;> simp
      · refine (hl _ hrd).1.imp ?_
        intro f g hfg x hx hy
        obtain ⟨-, -, rfl⟩ := List.mem_map.1 hx
        obtain ⟨-, -, h⟩ := List.mem_map.1 hy
        exact hfg (List.cons.inj h).1.symm
    · have hn : ((dirs fs ls (a :: problem :: root)).zipIdx.map Prod.fst).Nodup := by
        rw [List.zipIdx_map_fst]
        exact dirs_nodup hl had
      refine (List.pairwise_map.1 hn).imp ?_
      rintro ⟨r, i⟩ ⟨r', i'⟩ hrr x hx hy
      obtain ⟨f, -, hx⟩ := List.mem_flatMap.1 hx
      obtain ⟨-, -, rfl⟩ := List.mem_map.1 hx
      obtain ⟨g, -, hy⟩ := List.mem_flatMap.1 hy
      obtain ⟨-, -, h⟩ := List.mem_map.1 hy
      simp only [List.cons.injEq] at h
      exact hrr h.2.1.symm
  · refine (dirs_nodup hl hp).imp ?_
    intro a b hab x hx hy
    obtain ⟨r, -, hx⟩ := List.mem_flatMap.1 hx
    obtain ⟨f, -, hx⟩ := List.mem_flatMap.1 hx
    obtain ⟨-, -, rfl⟩ := List.mem_map.1 hx
    obtain ⟨r', -, hy⟩ := List.mem_flatMap.1 hy
    obtain ⟨g, -, hy⟩ := List.mem_flatMap.1 hy
    obtain ⟨-, -, h⟩ := List.mem_map.1 hy
    simp only [List.cons.injEq] at h
    exact hab h.2.2.1.symm

/-! ### The number of results -/

/-- The number of lists in an entry. -/
def entrySize : PdiEntry α → ℕ
  | .lists l => l.length
  | .set _ => 0

theorem sum_fibres {β γ : Type*} [DecidableEq γ] (key : β → γ) (l : List β) (keys : List γ)
    (hn : keys.Nodup) (hk : ∀ b ∈ l, key b ∈ keys) :
    (keys.map fun k => (l.filter fun b => decide (key b = k)).length).sum = l.length := by
  induction l with
  | nil => simp
  | cons b l ih =>
    have h1 := ih fun b hb => hk b (List.mem_cons_of_mem _ hb)
    have h2 : ∀ keys : List γ, (keys.map fun k => ((b :: l).filter fun b => decide (key b = k)).length).sum =
        (keys.map fun k => (l.filter fun b => decide (key b = k)).length).sum + keys.count (key b) := by
      intro keys
      induction keys with
      | nil => simp
      | cons k keys ihk =>
        rw [List.map_cons, List.sum_cons, ihk, List.map_cons, List.sum_cons, List.count_cons,
          List.filter_cons]
        by_cases h : key b = k
        · simp [h]; omega
        · have : ¬ k = key b := fun e => h e.symm
          simp [h, this]; omega
    rw [h2, h1, List.count_eq_one_of_mem hn (hk b (by simp)), List.length_cons]

theorem problemKeys_nodup {cache : PdiDict α} (h : (cache.map Prod.fst).Nodup) (problem : Name) :
    (problemKeys problem cache).Nodup := by
  unfold problemKeys
  exact (List.perm_insertionSort _ _).nodup_iff.2 (h.filter _)

theorem total_solutions (E : List (PdiKey × List (List α))) (problem : Name)
    (hE : ∀ e ∈ E, e.1.1 = problem) :
    ((problemSolutions (appendAll [] E) (problemKeys problem (appendAll [] E))).map entrySize).sum =
      E.length := by
  unfold problemSolutions
  rw [List.map_map, ← sum_fibres Prod.fst E _ (problemKeys_nodup (keys_appendAll_nodup E) problem)]
  · congr 1
    refine List.map_congr_left fun k hk => ?_
    have := (mem_problemKeys.1 hk).1
    rw [dget_appendAll] at this
    simp only [Function.comp_apply]
    rw [dget_appendAll]
    by_cases h : (E.filter fun e => decide (e.1 = k)) = []
    · rw [if_pos h] at this; simp at this
    · rw [if_neg h]
      simp [entrySize]
  · intro e he
    refine mem_problemKeys.2 ⟨?_, hE e he⟩
    rw [dget_appendAll, if_neg]
    · rfl
    · intro h0
      have : e ∈ E.filter fun x => decide (x.1 = e.1) := List.mem_filter.2 ⟨he, by simp⟩
      rw [h0] at this
      simp at this

/-! ### Trees that have grown -/

/-- The later tree keeps the algorithms, runs and results of the earlier one, and new runs have later
names. -/
structure Kept (fs0 fs : PdiFS α) (root : RPath) (problem : Name) : Prop where
  algo : ∀ a, fs0 (a :: problem :: root) = some .dir → fs (a :: problem :: root) = some .dir
  run : ∀ a r, fs0 (r :: a :: problem :: root) = some .dir → fs (r :: a :: problem :: root) = some .dir
  result : ∀ a r n f, n ≠ [] → (∀ c ∈ n, c.isDigit = true) →
    fs0 ((n ++ pickleExt) :: r :: a :: problem :: root) = some (.file (.result (.result f))) →
    fs ((n ++ pickleExt) :: r :: a :: problem :: root) = some (.file (.result (.result f)))
  later : ∀ a r r', fs0 (r :: a :: problem :: root) = some .dir →
    fs (r' :: a :: problem :: root) = some .dir → fs0 (r' :: a :: problem :: root) ≠ some .dir → r < r'

theorem Kept.refl (fs : PdiFS α) (root : RPath) (problem : Name) : Kept fs fs root problem :=
  ⟨fun _ h => h, fun _ _ h => h, fun _ _ _ _ _ _ h => h, fun _ _ _ _ h h' => absurd h h'⟩

theorem Kept.trans {fs0 fs1 fs2 : PdiFS α} {root : RPath} {problem : Name}
    (h : Kept fs0 fs1 root problem) (h' : Kept fs1 fs2 root problem) : Kept fs0 fs2 root problem := by
  refine ⟨fun a ha => h'.algo a (h.algo a ha), fun a r hr => h'.run a r (h.run a r hr),
    fun a r n f hn hd hf => h'.result a r n f hn hd (h.result a r n f hn hd hf),
    fun a r r' hr hr' hn => ?_⟩
  by_cases h1 : fs1 (r' :: a :: problem :: root) = some .dir
  · exact h.later a r r' hr h1 hn
  · exact h'.later a r r' (h.run a r hr) hr' h1

/-- All algorithms are orderly. -/
def AllOrderly (fs : PdiFS α) (ls : RPath → List Name) (root : RPath) (problem : Name) : Prop :=
  ∀ a, fs (a :: problem :: root) = some .dir → Orderly fs ls (a :: problem :: root)

theorem dirs_prefix {fs0 fs : PdiFS α} {ls0 ls : RPath → List Name} {root : RPath} {problem a : Name}
    (hl0 : Lists ls0 fs0) (hl : Lists ls fs) (hk : Kept fs0 fs root problem)
    (ha : fs0 (a :: problem :: root) = some .dir)
    (ho0 : AllOrderly fs0 ls0 root problem) (ho : AllOrderly fs ls root problem) :
    dirs fs0 ls0 (a :: problem :: root) <+: dirs fs ls (a :: problem :: root) := by
  have ha' := hk.algo a ha
  set D0 := dirs fs0 ls0 (a :: problem :: root) with hD0
  set D := dirs fs ls (a :: problem :: root) with hD
  have h1 : (D.filter fun n => decide (n ∈ D0)).Perm D0 := by
    rw [List.perm_ext_iff_of_nodup ((dirs_nodup hl ha').filter _) (dirs_nodup hl0 ha)]
    intro n
    simp only [List.mem_filter, decide_eq_true_eq]
    refine ⟨fun h => h.2, fun h => ⟨?_, h⟩⟩
    exact (mem_dirs hl ha').2 (hk.run a n ((mem_dirs hl0 ha).1 h))
  have h2 : D.Perm (D0 ++ D.filter fun n => !decide (n ∈ D0)) :=
    ((List.filter_append_perm (fun n => decide (n ∈ D0)) D).symm).trans (h1.append_right _)
  have h3 : D = D0 ++ D.filter fun n => !decide (n ∈ D0) := by
    refine h2.eq_of_pairwise (fun _ _ _ _ => le_antisymm) (ho a ha').2 ?_
    rw [List.pairwise_append]
    refine ⟨(ho0 a ha).2, ((ho a ha').2).filter _, fun r hr r' hr' => ?_⟩
    simp only [List.mem_filter, Bool.not_eq_true', decide_eq_false_iff_not] at hr'
    exact (hk.later a r r' ((mem_dirs hl0 ha).1 hr) ((mem_dirs hl ha').1 hr'.1)
      (fun h => hr'.2 ((mem_dirs hl0 ha).2 h))).le
  exact ⟨_, h3.symm⟩

theorem sites_subset {fs0 fs : PdiFS α} {ls0 ls : RPath → List Name} {root : RPath} {problem : Name}
    (hl0 : Lists ls0 fs0) (hl : Lists ls fs) (hp0 : fs0 (problem :: root) = some .dir)
    (hp : fs (problem :: root) = some .dir) (hk : Kept fs0 fs root problem)
    (ho0 : AllOrderly fs0 ls0 root problem) (ho : AllOrderly fs ls root problem) :
    sites fs0 ls0 root problem ⊆ sites fs ls root problem := by
  rintro ⟨p, e⟩ h
  obtain ⟨n, k, f, a, r, rfl, rfl, ha, hr, hn, hf⟩ := (mem_sites hl0).1 h
  have ha0 := (mem_dirs hl0 hp0).1 ha
  refine (mem_sites hl).2 ⟨n, k, f, a, r, rfl, rfl, (mem_dirs hl hp).2 (hk.algo a ha0), ?_, hn, ?_⟩
  · obtain ⟨t, ht⟩ := dirs_prefix hl0 hl hk ha0 ho0 ho
    rw [← ht]
    rw [List.getElem?_append_left (List.getElem?_eq_some_iff.1 hr).1]
    exact hr
  · obtain ⟨-, h1, h2⟩ := matchNumber_eq_some.1 hn
    exact hk.result a r n f h1 h2 hf

theorem sites_perm {fs0 fs : PdiFS α} {ls0 ls : RPath → List Name} {root : RPath} {problem : Name}
    (hl0 : Lists ls0 fs0) (hl : Lists ls fs) (hp0 : fs0 (problem :: root) = some .dir)
    (hp : fs (problem :: root) = some .dir) (hk : Kept fs0 fs root problem)
    (ho0 : AllOrderly fs0 ls0 root problem) (ho : AllOrderly fs ls root problem)
    (hs : problemSolutions (appendAll [] (events fs0 ls0 root problem))
        (problemKeys problem (appendAll [] (events fs0 ls0 root problem))) =
      problemSolutions (appendAll [] (events fs ls root problem))
        (problemKeys problem (appendAll [] (events fs ls root problem)))) :
    (sites fs0 ls0 root problem).Perm (sites fs ls root problem) := by
  have hlen : (sites fs0 ls0 root problem).length = (sites fs ls root problem).length := by
    have h1 := total_solutions (events fs0 ls0 root problem) problem fun e => events_problem
    have h2 := total_solutions (events fs ls root problem) problem fun e => events_problem
    rw [hs, h2, ← sites_events, ← sites_events, List.length_map, List.length_map] at h1
    exact h1.symm
  have hsub := (List.Nodup.of_map _ (sites_nodup hl0 hp0)).subperm
    (sites_subset hl0 hl hp0 hp hk ho0 ho)
  exact hsub.perm_of_length_le hlen.ge

end Evogil.Storage
