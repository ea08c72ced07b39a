import Verif.Model.Summary
import Verif.Spec.Summary
import Verif.Props.Storage

/-!
# Lemmas about `run budget` and `summary`
-/

set_option linter.unusedSectionVars false

namespace Evogil.Storage

open Spec

variable {C : Type*}

/-! ### What the listing returns belongs to the runs found -/

theorem loadLoop_case {fs : FS C} {s : Case} {runNo : ℕ} {names : List Name} {found : List (Found C)}
    (h : loadLoop fs s runNo names = .ok found) : ∀ r ∈ found, r.case = s ∧ r.runNo = runNo := by
  induction names generalizing found with
  | nil => rw [loadLoop] at h; cases h; simp
  | cons c rest ih =>
    rw [loadLoop] at h
    split at h
    · exact ih h
    · split at h
      · split at h
        · rename_i more hm
          cases h
          intro r hr
          rcases List.mem_cons.1 hr with rfl | hr
          · exact ⟨rfl, rfl⟩
          · exact ih hm r hr
        · cases h
      · exact ih h
      · cases h; simp
      · cases h

theorem loadRun_case {fs : FS C} {ls : RPath → List Name} {s : Case} {runNo : ℕ}
    {found : List (Found C)} (h : loadRun fs ls s runNo = .ok found) :
    ∀ r ∈ found, r.case = s ∧ r.runNo = runNo := by
  rw [loadRun] at h
  split at h
  · exact loadLoop_case h
  · cases h; simp
  · cases h

theorem dictAppend_forall {K V : Type*} [DecidableEq K] {P : V → Prop} {d : List (K × List V)} {k : K}
    {v : V} (hd : ∀ g ∈ d, ∀ x ∈ g.2, P x) (hv : P v) : ∀ g ∈ dictAppend d k v, ∀ x ∈ g.2, P x := by
  induction d with
  | nil => simpa [dictAppend] using hv
  | cons y d ih =>
    obtain ⟨k0, vs⟩ := y
    rw [dictAppend]
    split
    · intro g hg x hx
      rcases List.mem_cons.1 hg with rfl | hg
      · rcases List.mem_append.1 hx with hx | hx
        · exact hd _ List.mem_cons_self x hx
        · rw [List.mem_singleton.1 hx]; exact hv
      · exact hd g (List.mem_cons_of_mem _ hg) x hx
    · intro g hg x hx
      rcases List.mem_cons.1 hg with rfl | hg
      · exact hd _ List.mem_cons_self x hx
      · exact ih (fun g hg => hd g (List.mem_cons_of_mem _ hg)) g hg x hx

theorem foldl_dictAppend_forall {K V : Type*} [DecidableEq K] {P : V → Prop} (key : V → K) (l : List V)
    {d : List (K × List V)} (hd : ∀ g ∈ d, ∀ x ∈ g.2, P x) (hl : ∀ v ∈ l, P v) :
    ∀ g ∈ l.foldl (fun d r => dictAppend d (key r) r) d, ∀ x ∈ g.2, P x := by
  induction l generalizing d with
  | nil => exact hd
  | cons v l ih =>
    rw [List.foldl_cons]
    exact ih (dictAppend_forall hd (hl v List.mem_cons_self))
      fun v hv => hl v (List.mem_cons_of_mem _ hv)

theorem collectRuns_case {fs : FS C} {ls : RPath → List Name} {all runs : List (Case × ℕ)}
    (hsub : ∀ x ∈ runs, x ∈ all) {acc d : List (ℕ × List (Found C))}
    (hacc : ∀ g ∈ acc, ∀ x ∈ g.2, (x.case, x.runNo) ∈ all) (h : collectRuns fs ls runs acc = .ok d) :
    ∀ g ∈ d, ∀ x ∈ g.2, (x.case, x.runNo) ∈ all := by
  induction runs generalizing acc with
  | nil => rw [collectRuns] at h; cases h; exact hacc
  | cons y runs ih =>
    obtain ⟨s, n⟩ := y
    rw [collectRuns] at h
    split at h
    · cases h
    · rename_i found hf
      refine ih (fun x hx => hsub x (List.mem_cons_of_mem _ hx)) ?_ h
      refine foldl_dictAppend_forall _ _ hacc fun r hr => ?_
      obtain ⟨e1, e2⟩ := loadRun_case hf r hr
      rw [e1, e2]
      exact hsub _ List.mem_cons_self

theorem dictGet_mem {K V : Type*} [DecidableEq K] {d : List (K × List V)} {k : K} {v : V}
    (h : v ∈ dictGet d k) : ∃ g ∈ d, v ∈ g.2 := by
  induction d with
  | nil => simp [dictGet] at h
  | cons y d ih =>
    obtain ⟨k0, vs⟩ := y
    rw [dictGet] at h
    split at h
    · exact ⟨_, List.mem_cons_self, h⟩
    · obtain ⟨g, hg, hv⟩ := ih h
      exact ⟨g, List.mem_cons_of_mem _ hg, hv⟩

theorem loadAll_case {fs : FS C} {ls : RPath → List Name} {dir : RPath} {p a today : Name} {rnd : ℕ}
    {runs : List (Case × ℕ)} (hr : eachRun fs ls dir p a today rnd = .ok runs)
    {groups : List (ℕ × List (Found C))} (h : loadAll fs ls dir p a today rnd = .ok groups) :
    ∀ g ∈ groups, ∀ x ∈ g.2, (x.case, x.runNo) ∈ runs := by
  rw [loadAll, hr] at h
  simp only [loadResult] at h
  split at h
  · cases h
  · rename_i d hd
    cases h
    intro g hg x hx
    obtain ⟨k, -, rfl⟩ := List.mem_map.1 hg
    obtain ⟨g', hg', hx'⟩ := dictGet_mem hx
    exact collectRuns_case (fun _ h => h) (by simp) hd g' hg' x hx'

/-! ### Trees that can be listed -/

/-- The tree of the results can be listed: everything in it that counts looks as the program leaves it. -/
structure Listable (fs : FS C) (dir : RPath) : Prop where
  wf : fs.WF
  top : ∀ v, fs dir ≠ some (.file v)
  problem : ∀ p, fs (p :: dir) ≠ none → p ∈ problemModules ∧ fs (p :: dir) = some .dir
  run : ∀ p a id, IsRunName id → fs (id :: a :: p :: dir) ≠ none →
    fs (id :: a :: p :: dir) = some .dir
  canon : ∀ p a id, IsRunName id → Canonical fs ⟨dir, p, a, id⟩

/-- Moreover nothing is in the way of further results. -/
structure Tidy (fs : FS C) (dir : RPath) : Prop extends Listable fs dir where
  path : ∀ q v, q <:+ dir → fs q ≠ some (.file v)
  algo : ∀ p a v, fs (a :: p :: dir) ≠ some (.file v)
  result : ∀ p a id b, IsRunName id → fs ((showNat b ++ pickleExt) :: id :: a :: p :: dir) ≠ some .dir

theorem holds_unique {fs : FS C} {dir : RPath} {p a : Name} {b m n : ℕ} (h : Holds fs dir p a b m)
    (h' : Holds fs dir p a b n) : m = n := by
  obtain ⟨l, hn, rfl, hl⟩ := h
  obtain ⟨l', hn', rfl, hl'⟩ := h'
  exact ((List.perm_ext_iff_of_nodup hn hn').2 fun id => by rw [hl, hl']).length_eq

theorem stored_dirs {fs : FS C} {dir : RPath} {p a id : Name} {b : ℕ} (hwf : fs.WF)
    (h : Stored fs dir p a b id) : fs (id :: a :: p :: dir) = some .dir ∧
      fs (a :: p :: dir) = some .dir ∧ fs (p :: dir) = some .dir ∧ fs dir = some .dir := by
  obtain ⟨-, v, hv⟩ := h
  have h1 := hwf.parent _ _ (by rw [hv]; simp)
  have h2 := hwf.parent _ _ (by rw [h1]; simp)
  have h3 := hwf.parent _ _ (by rw [h2]; simp)
  have h4 := hwf.parent _ _ (by rw [h3]; simp)
  exact ⟨h1, h2, h3, h4⟩

theorem holds_stored {fs : FS C} {dir : RPath} {p a : Name} {b n : ℕ} (hn : 0 < n)
    (h : Holds fs dir p a b n) : ∃ id, Stored fs dir p a b id := by
  obtain ⟨l, -, rfl, hl⟩ := h
  obtain ⟨id, hid⟩ := List.exists_mem_of_length_pos hn
  exact ⟨id, (hl id).1 hid⟩

/-- The groups of one algorithm. -/
theorem loadAll_holds {fs : FS C} {ls : RPath → List Name} {dir : RPath} (h : Listable fs dir)
    (hls : Lists ls fs) (p a today : Name) (rnd : ℕ) (hroot : fs (a :: p :: dir) = some .dir) :
    ∃ groups, loadAll fs ls dir p a today rnd = .ok groups ∧ (groups.map Prod.fst).Nodup ∧
      ∀ b n, (∃ g ∈ groups, g.1 = b ∧ g.2.length = n) ↔ 0 < n ∧ Holds fs dir p a b n := by
  obtain ⟨runs, hruns, hlt, -, -, -⟩ := C19_runs fs ls hls dir p a today rnd hroot
  obtain ⟨groups, hg, hk, hne, hf, hs⟩ := C19_groups fs ls hls dir p a today rnd hroot
    (fun name hn => h.run p a name hn) (fun name hn => h.canon p a name hn)
  have hholds : ∀ g ∈ groups, Holds fs dir p a g.1 g.2.length := by
    intro g hgm
    refine ⟨g.2.map fun x => x.case.id, ?_, by simp, fun id => ?_⟩
    · have hnd : (runs.map fun x => x.1.id).Nodup := hlt.imp fun h => ne_of_lt h
      have hp := (hne g hgm).2
      rw [List.pairwise_map] at hp
      rw [List.Nodup, List.pairwise_map]
      refine hp.imp_of_mem fun {x y} hx hy hxy e => ?_
      have := List.inj_on_of_nodup_map hnd (loadAll_case hruns hg g hgm x hx)
        (loadAll_case hruns hg g hgm y hy) e
      rw [Prod.mk.injEq] at this
      omega
    · rw [List.mem_map]
      constructor
      · rintro ⟨x, hx, rfl⟩
        obtain ⟨h1, -, h3⟩ := hf g hgm x hx
        exact ⟨h1, _, h3⟩
      · intro hst
        have hd := (stored_dirs h.wf hst).1
        obtain ⟨h1, v, hv⟩ := hst
        obtain ⟨g', hg', e, x, hx, hx1, -⟩ := hs g.1 id v h1 hv hd
        have hkn : (groups.map Prod.fst).Nodup := hk.imp fun h => ne_of_lt h
        have := List.inj_on_of_nodup_map hkn hg' hgm e
        subst this
        exact ⟨x, hx, hx1⟩
  refine ⟨groups, hg, hk.imp fun h => ne_of_lt h, fun b n => ⟨?_, ?_⟩⟩
  · rintro ⟨g, hgm, rfl, rfl⟩
    exact ⟨List.length_pos_of_ne_nil (hne g hgm).1, hholds g hgm⟩
  · rintro ⟨hn, hh⟩
    obtain ⟨id, hst⟩ := holds_stored hn hh
    have hd := (stored_dirs h.wf hst).1
    obtain ⟨h1, v, hv⟩ := hst
    obtain ⟨g, hgm, rfl, -⟩ := hs b id v h1 hv hd
    exact ⟨g, hgm, rfl, holds_unique (hholds g hgm) hh⟩

/-- What identifies a row. -/
def Row.key (r : Row) : Name × Name × ℕ := (r.1, r.2.1, r.2.2.1)

theorem algoRows_spec {fs : FS C} {ls : RPath → List Name} {dir : RPath} (h : Listable fs dir)
    (hls : Lists ls fs) (today : Name) (rnd : ℕ) (p : Name) (names : List Name) (hn : names.Nodup) :
    ∃ rows, algoRows fs ls dir today rnd p names = .ok rows ∧ (rows.map Row.key).Nodup ∧
      ∀ p' a b n, (p', a, b, n) ∈ rows ↔ p' = p ∧ a ∈ names ∧ 0 < n ∧ Holds fs dir p a b n := by
  induction names with
  | nil => exact ⟨[], rfl, by simp, by simp⟩
  | cons a names ih =>
    rw [List.nodup_cons] at hn
    obtain ⟨rows, hr, hrn, hrm⟩ := ih hn.2
    rw [algoRows]
    split
    · rename_i hd
      obtain ⟨groups, hg, hgn, hgm⟩ := loadAll_holds h hls p a today rnd (isDir_iff.1 hd)
      rw [hg, hr]
      refine ⟨_, rfl, ?_, ?_⟩
      · rw [List.map_append, List.map_map, List.nodup_append]
        refine ⟨?_, hrn, ?_⟩
        · have : (groups.map (Row.key ∘ fun g => (p, a, g.1, g.2.length))) =
              (groups.map Prod.fst).map fun b => (p, a, b) := by
            rw [List.map_map]; rfl
          rw [this]
          exact hgn.map fun x y e => by simpa using e
        · intro x hx y hy e
          subst e
          obtain ⟨g, -, rfl⟩ := List.mem_map.1 hx
          obtain ⟨⟨p', a', b, n⟩, hy1, e⟩ := List.mem_map.1 hy
          simp only [Function.comp, Row.key, Prod.mk.injEq] at e
          obtain ⟨-, rfl, -⟩ := e
          exact hn.1 ((hrm _ _ _ _).1 hy1).2.1
      · intro p' a' b n
        rw [List.mem_append, hrm, List.mem_map]
        constructor
        · rintro (⟨g, hg, e⟩ | ⟨rfl, h1, h2⟩)
          · simp only [Prod.mk.injEq] at e
            obtain ⟨rfl, rfl, e1, e2⟩ := e
            exact ⟨rfl, List.mem_cons_self, (hgm b n).1 ⟨g, hg, e1, e2⟩⟩
          · exact ⟨rfl, List.mem_cons_of_mem _ h1, h2⟩
        · rintro ⟨rfl, h1, h2⟩
          rcases List.mem_cons.1 h1 with rfl | h1
          · obtain ⟨g, hg, rfl, rfl⟩ := (hgm b n).2 h2
            exact Or.inl ⟨g, hg, rfl⟩
          · exact Or.inr ⟨rfl, h1, h2⟩
    · rename_i hd
      refine ⟨rows, hr, hrn, fun p' a' b n => ?_⟩
      rw [hrm]
      constructor
      · rintro ⟨h1, h2, h3⟩
        exact ⟨h1, List.mem_cons_of_mem _ h2, h3⟩
      · rintro ⟨h1, h2, h3, h4⟩
        rcases List.mem_cons.1 h2 with rfl | h2
        · obtain ⟨id, hst⟩ := holds_stored h3 h4
          exact absurd (isDir_iff.2 (stored_dirs h.wf hst).2.1) hd
        · exact ⟨h1, h2, h3, h4⟩

theorem problemRows_spec {fs : FS C} {ls : RPath → List Name} {dir : RPath} (h : Listable fs dir)
    (hls : Lists ls fs) (today : Name) (rnd : ℕ) (names : List Name) (hn : names.Nodup)
    (hex : ∀ p ∈ names, fs (p :: dir) ≠ none) :
    ∃ rows, problemRows fs ls dir today rnd names = .ok rows ∧ (rows.map Row.key).Nodup ∧
      ∀ p a b n, (p, a, b, n) ∈ rows ↔ p ∈ names ∧ 0 < n ∧ Holds fs dir p a b n := by
  induction names with
  | nil => exact ⟨[], rfl, by simp, by simp⟩
  | cons p names ih =>
    rw [List.nodup_cons] at hn
    obtain ⟨more, hr, hrn, hrm⟩ := ih hn.2 fun p hp => hex p (List.mem_cons_of_mem _ hp)
    obtain ⟨hmod, hd⟩ := h.problem p (hex p List.mem_cons_self)
    obtain ⟨hnd, hmem⟩ := hls _ hd
    obtain ⟨rows, ha, han, ham⟩ := algoRows_spec h hls today rnd p (ls (p :: dir)) hnd
    rw [problemRows, if_pos hmod]
    simp only [iterdir, hd, ha, hr]
    refine ⟨_, rfl, ?_, ?_⟩
    · rw [List.map_append, List.nodup_append]
      refine ⟨han, hrn, ?_⟩
      intro x hx y hy e
      subst e
      obtain ⟨⟨p1, a1, b1, n1⟩, hx1, rfl⟩ := List.mem_map.1 hx
      obtain ⟨⟨p', a', b, n⟩, hy1, e⟩ := List.mem_map.1 hy
      simp only [Row.key, Prod.mk.injEq] at e
      obtain ⟨rfl, -⟩ := e
      obtain ⟨rfl, -⟩ := (ham _ _ _ _).1 hx1
      exact hn.1 ((hrm _ _ _ _).1 hy1).1
    · intro p' a b n
      rw [List.mem_append, hrm, ham, List.mem_cons]
      constructor
      · rintro (⟨rfl, -, h2⟩ | ⟨h1, h2⟩)
        · exact ⟨Or.inl rfl, h2⟩
        · exact ⟨Or.inr h1, h2⟩
      · rintro ⟨rfl | h1, h2, h3⟩
        · refine Or.inl ⟨rfl, ?_, h2, h3⟩
          obtain ⟨id, hst⟩ := holds_stored h2 h3
          rw [hmem, (stored_dirs h.wf hst).2.1]
          simp
        · exact Or.inr ⟨h1, h2, h3⟩

/-! ### Storing -/

theorem isRunName_store {fs fs' : FS C} {s : Case} {v : C} {b : ℕ} (hwf : fs.WF)
    (h : store fs s v (showNat b) = .ok fs') :
    (∀ q, q ≠ s.resultPath (showNat b) → (∀ n, fs q = some n → fs' q = some n) ∧
      (fs q = none → fs' q ≠ none → fs' q = some .dir ∧ q <:+ s.path)) ∧
    fs' (s.resultPath (showNat b)) = some (.file v) := by
  obtain ⟨fs1, g, -, -, rfl⟩ := store_spec hwf.root h
  refine ⟨fun q hq => ⟨fun n hn => ?_, fun hn hn' => ?_⟩, by simp [FS.set]⟩
  · simp [FS.set, hq, g.keep q n hn]
  · simp only [FS.set, hq, if_false] at hn' ⊢
    exact g.new q hn hn'

/-- One `store` in a tidy tree. -/
theorem store_tidy {fs : FS C} {s : Case} (h : Tidy fs s.resultsDir) (hp : s.problem ∈ problemModules)
    (hid : IsRunName s.id) (v : C) (b : ℕ) :
    ∃ fs', store fs s v (showNat b) = .ok fs' ∧ Tidy fs' s.resultsDir ∧
      ∀ p a b' id, Stored fs' s.resultsDir p a b' id ↔
        Stored fs s.resultsDir p a b' id ∨ (s = ⟨s.resultsDir, p, a, id⟩ ∧ b' = b) := by
  obtain ⟨dir, p0, a0, id0⟩ := s
  simp only at h hp hid ⊢
  have hnofile : ∀ q c, q <:+ (⟨dir, p0, a0, id0⟩ : Case).path → fs q ≠ some (.file c) := by
    intro q c hq
    simp only [Case.path, List.suffix_cons_iff] at hq
    rcases hq with rfl | rfl | rfl | hq
    · intro hx
      have := h.run p0 a0 id0 hid (by rw [hx]; simp)
      rw [hx] at this; cases this
    · exact h.algo _ _ _
    · intro hx
      have := (h.problem p0 (by rw [hx]; simp)).2
      rw [hx] at this; cases this
    · exact h.path q c hq
  obtain ⟨fs', hs⟩ := C18_store_succeeds h.wf v hnofile
    (name := showNat b) (h.result p0 a0 id0 b hid)
  obtain ⟨hother, hres⟩ := isRunName_store h.wf hs
  have hlen : ∀ q : RPath, q.length ≤ dir.length + 3 →
      q ≠ (⟨dir, p0, a0, id0⟩ : Case).resultPath (showNat b) := by
    rintro q hq rfl
    simp [Case.resultPath, Case.path] at hq
  -- what is found at a path that is not deeper than a run
  have hshort : ∀ q : RPath, q.length ≤ dir.length + 3 → fs' q ≠ none →
      fs' q = fs q ∨ (fs q = none ∧ fs' q = some .dir ∧ q <:+ (⟨dir, p0, a0, id0⟩ : Case).path) := by
    intro q hq hne
    obtain ⟨h1, h2⟩ := hother q (hlen q hq)
    rcases hf : fs q with _ | n
    · exact Or.inr ⟨rfl, h2 hf hne⟩
    · exact Or.inl (h1 n hf)
  have hnf : ∀ q : RPath, q.length ≤ dir.length + 3 → (∀ v, fs q ≠ some (.file v)) →
      ∀ v, fs' q ≠ some (.file v) := by
    intro q hq hno v hv
    rcases hshort q hq (by rw [hv]; simp) with e | ⟨-, e, -⟩
    · exact hno v (e ▸ hv)
    · rw [hv] at e; cases e
  have hdeep : ∀ p a id c, (c :: id :: a :: p :: dir : RPath) ≠
      (⟨dir, p0, a0, id0⟩ : Case).resultPath (showNat b) →
      fs' (c :: id :: a :: p :: dir) = fs (c :: id :: a :: p :: dir) := by
    intro p a id c hne
    obtain ⟨h1, h2⟩ := hother _ hne
    rcases hf : fs (c :: id :: a :: p :: dir) with _ | n
    · by_contra hx
      have := (h2 hf hx).2.length_le
      simp [Case.path] at this
    · exact h1 n hf
  refine ⟨fs', hs, ⟨⟨C18_store_wf h.wf hs, hnf _ (by omega) h.top, ?_, ?_, ?_⟩, ?_, ?_, ?_⟩, ?_⟩
  · intro p hne
    rcases hshort (p :: dir) (by simp) hne with e | ⟨-, e, hsuf⟩
    · rw [e] at hne ⊢; exact h.problem p hne
    · refine ⟨?_, e⟩
      simp only [Case.path, List.suffix_cons_iff] at hsuf
      rcases hsuf with e' | e' | e' | e'
      · have := congrArg List.length e'; simp at this
      · have := congrArg List.length e'; simp at this
      · simp only [List.cons.injEq, and_true] at e'; rw [e']; exact hp
      · have := e'.length_le; simp at this
  · intro p a id hid' hne
    rcases hshort (id :: a :: p :: dir) (by simp) hne with e | ⟨-, e, -⟩
    · rw [e] at hne ⊢; exact h.run p a id hid' hne
    · exact e
  · intro p a id hid' c d hm hne
    by_cases e : (c :: id :: a :: p :: dir : RPath) =
        (⟨dir, p0, a0, id0⟩ : Case).resultPath (showNat b)
    · simp only [Case.resultPath, Case.path, List.cons.injEq] at e
      obtain ⟨rfl, -⟩ := e
      have hm' : matchNumber (showNat b ++ pickleExt) = some (showNat b) :=
        matchNumber_eq_some.2 ⟨rfl, showNat_ne_nil b, fun c hc => showNat_digit hc⟩
      rw [hm'] at hm
      cases hm
      rw [readNat_showNat]
    · have := hdeep p a id c e
      simp only [Case.path] at hne
      rw [this] at hne
      exact h.canon p a id hid' c d hm hne
  · intro q v hq
    exact hnf q (by have := hq.length_le; omega) (fun v => h.path q v hq) v
  · intro p a v
    exact hnf _ (by simp) (h.algo p a) v
  · intro p a id b' hid'
    by_cases e : ((showNat b' ++ pickleExt) :: id :: a :: p :: dir : RPath) =
        (⟨dir, p0, a0, id0⟩ : Case).resultPath (showNat b)
    · rw [e, hres]; simp
    · rw [hdeep p a id _ e]; exact h.result p a id b' hid'
  · intro p a b' id
    by_cases e : ((showNat b' ++ pickleExt) :: id :: a :: p :: dir : RPath) =
        (⟨dir, p0, a0, id0⟩ : Case).resultPath (showNat b)
    · have e' := resultPath_inj (s := ⟨dir, p, a, id⟩) (n := showNat b') e
      simp only [Case.mk.injEq, true_and] at e'
      obtain ⟨⟨rfl, rfl, rfl⟩, hb⟩ := e'
      have := showNat_inj hb
      subst this
      simp only [and_self, or_true, iff_true]
      exact ⟨hid, v, hres⟩
    · simp only [Stored]
      rw [hdeep p a id _ e]
      constructor
      · exact Or.inl
      · rintro (h | ⟨e1, rfl⟩)
        · exact h
        · simp only [Case.mk.injEq, true_and] at e1
          obtain ⟨rfl, rfl, rfl⟩ := e1
          exact absurd rfl e

theorem work_tidy {fs : FS C} {s : Case} (h : Tidy fs s.resultsDir) (hp : s.problem ∈ problemModules)
    (hid : IsRunName s.id) (fails : Bool) (results : List (ℕ × C)) :
    ∃ fs', work fs s fails results = (fs', !fails) ∧ Tidy fs' s.resultsDir ∧
      ∀ p a b id, Stored fs' s.resultsDir p a b id ↔
        Stored fs s.resultsDir p a b id ∨
          (s = ⟨s.resultsDir, p, a, id⟩ ∧ b ∈ results.map Prod.fst) := by
  induction results generalizing fs with
  | nil => exact ⟨fs, rfl, h, by simp⟩
  | cons x rest ih =>
    obtain ⟨b0, v⟩ := x
    obtain ⟨fs1, hs1, ht1, hst1⟩ := store_tidy h hp hid v b0
    obtain ⟨fs2, hs2, ht2, hst2⟩ := ih ht1
    refine ⟨fs2, by rw [work, hs1]; exact hs2, ht2, fun p a b id => ?_⟩
    rw [hst2, hst1, List.map_cons, List.mem_cons]
    tauto

theorem runTasks_tidy {dir : RPath} (tasks : List (Task C)) {fs : FS C} (h : Tidy fs dir)
    (hdir : ∀ t ∈ tasks, t.case.resultsDir = dir) (hp : ∀ t ∈ tasks, t.case.problem ∈ problemModules)
    (hid : ∀ t ∈ tasks, IsRunName t.case.id) (hf : ∀ t ∈ tasks, t.fails = false) :
    ∃ fs', runTasks fs tasks = (fs', true) ∧ Tidy fs' dir ∧
      ∀ p a b id, Stored fs' dir p a b id ↔
        Stored fs dir p a b id ∨
          ∃ t ∈ tasks, t.case = ⟨dir, p, a, id⟩ ∧ b ∈ t.results.map Prod.fst := by
  induction tasks generalizing fs with
  | nil => exact ⟨fs, rfl, h, by simp⟩
  | cons t rest ih =>
    have e0 := hdir t List.mem_cons_self
    subst e0
    obtain ⟨fs1, hs1, ht1, hst1⟩ := work_tidy h (hp t List.mem_cons_self) (hid t List.mem_cons_self)
      t.fails t.results
    rw [hf t List.mem_cons_self] at hs1
    obtain ⟨fs2, hs2, ht2, hst2⟩ := ih ht1 (fun t h => hdir t (List.mem_cons_of_mem _ h))
      (fun t h => hp t (List.mem_cons_of_mem _ h)) (fun t h => hid t (List.mem_cons_of_mem _ h))
      (fun t h => hf t (List.mem_cons_of_mem _ h))
    refine ⟨fs2, ?_, ht2, fun p a b id => ?_⟩
    · rw [runTasks, hf t List.mem_cons_self, hs1]; exact hs2
    · rw [hst2, hst1]
      simp only [List.mem_cons, exists_eq_or_imp]
      tauto

end Evogil.Storage
