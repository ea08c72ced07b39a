import Verif.Lemmas.Storage

/-! # Lemmas about the listing of stored results -/

namespace Evogil.Storage

variable {C : Type*}

/-- `ls` enumerates directories: each entry once, in some order. -/
def Lists (ls : RPath → List Name) (fs : FS C) : Prop :=
  ∀ p, fs p = some .dir → (ls p).Nodup ∧ ∀ c, c ∈ ls p ↔ fs (c :: p) ≠ none

theorem sortNames_perm (l : List Name) : (sortNames l).Perm l := List.perm_insertionSort _ _

theorem sortNames_sorted (l : List Name) : (sortNames l).Pairwise (· ≤ ·) :=
  List.pairwise_insertionSort _ _

theorem sortNames_lt {l : List Name} (h : l.Nodup) : (sortNames l).Pairwise (· < ·) := by
  have hn : (sortNames l).Nodup := (sortNames_perm l).nodup_iff.2 h
  exact (sortNames_sorted l).imp₂ (fun a b hab hne => lt_of_le_of_ne hab hne) hn

theorem sortNames_congr {l l' : List Name} (h : l.Perm l') : sortNames l = sortNames l' :=
  (((sortNames_perm l).trans h).trans (sortNames_perm l').symm).eq_of_pairwise
    (fun _ _ _ _ => le_antisymm) (sortNames_sorted l) (sortNames_sorted l')

theorem Lists.perm {ls ls' : RPath → List Name} {fs : FS C} (h : Lists ls fs) (h' : Lists ls' fs)
    {p : RPath} (hp : fs p = some .dir) : (ls p).Perm (ls' p) :=
  (List.perm_ext_iff_of_nodup (h p hp).1 (h' p hp).1).2 fun c => by
    rw [(h p hp).2, (h' p hp).2]

/-! ### Dictionary -/

section dict
variable {K V : Type*} [DecidableEq K]

theorem dictGet_dictAppend (d : List (K × List V)) (k k' : K) (v : V) :
    dictGet (dictAppend d k v) k' = if k = k' then dictGet d k' ++ [v] else dictGet d k' := by
  induction d with
  | nil => by_cases h : k = k' <;> simp [dictAppend, dictGet, h]
  | cons x d ih =>
    obtain ⟨k0, vs⟩ := x
    by_cases h0 : k0 = k
    · subst h0
      by_cases h : k0 = k' <;> simp [dictAppend, dictGet, h]
    · simp only [dictAppend, if_neg h0, dictGet]
      by_cases h1 : k0 = k'
      · subst h1
        have : ¬ k = k0 := fun h => h0 h.symm
        simp [this]
      · simp only [if_neg h1, ih]

theorem keys_dictAppend (d : List (K × List V)) (k : K) (v : V) :
    (dictAppend d k v).map Prod.fst =
      if k ∈ d.map Prod.fst then d.map Prod.fst else d.map Prod.fst ++ [k] := by
  induction d with
  | nil => simp [dictAppend]
  | cons x d ih =>
    obtain ⟨k0, vs⟩ := x
    by_cases h0 : k0 = k
    · simp [dictAppend, h0]
    · simp only [dictAppend, if_neg h0, List.map_cons, ih]
      have h0' : ¬ k = k0 := fun h => h0 h.symm
      by_cases h1 : k ∈ d.map Prod.fst
      · rw [if_pos h1, if_pos (List.mem_cons_of_mem _ h1)]
      · rw [if_neg h1, if_neg (by simp only [List.mem_cons, not_or]; exact ⟨h0', h1⟩)]
        rfl

theorem dictGet_foldl (key : V → K) (l : List V) (d : List (K × List V)) (k : K) :
    dictGet (l.foldl (fun d r => dictAppend d (key r) r) d) k =
      dictGet d k ++ l.filter (fun r => key r = k) := by
  induction l generalizing d with
  | nil => simp
  | cons r l ih =>
    rw [List.foldl_cons, ih, dictGet_dictAppend]
    by_cases h : key r = k <;> simp [h]

theorem keys_foldl (key : V → K) (l : List V) (d : List (K × List V))
    (hd : (d.map Prod.fst).Nodup) :
    ((l.foldl (fun d r => dictAppend d (key r) r) d).map Prod.fst).Nodup ∧
    ∀ k, k ∈ (l.foldl (fun d r => dictAppend d (key r) r) d).map Prod.fst ↔
      k ∈ d.map Prod.fst ∨ ∃ r ∈ l, key r = k := by
  induction l generalizing d with
  | nil => exact ⟨hd, by simp⟩
  | cons r l ih =>
    have hk := keys_dictAppend d (key r) r
    have hnd : ((dictAppend d (key r) r).map Prod.fst).Nodup := by
      rw [hk]
      split
      · exact hd
      · rename_i hn
        rw [List.nodup_append]
        refine ⟨hd, by simp, ?_⟩
        intro a ha b hb
        simp only [List.mem_singleton] at hb
        subst hb
        rintro rfl
        exact hn ha
    obtain ⟨h1, h2⟩ := ih _ hnd
    refine ⟨h1, fun k => ?_⟩
    rw [List.foldl_cons, h2, hk]
    by_cases hm : key r ∈ d.map Prod.fst
    · rw [if_pos hm]
      constructor
      · rintro (h | ⟨x, hx, rfl⟩)
        · exact Or.inl h
        · exact Or.inr ⟨x, List.mem_cons_of_mem _ hx, rfl⟩
      · rintro (h | ⟨x, hx, rfl⟩)
        · exact Or.inl h
        · rcases List.mem_cons.1 hx with rfl | hx
          · exact Or.inl hm
          · exact Or.inr ⟨x, hx, rfl⟩
    · rw [if_neg hm]
      simp only [List.mem_append, List.mem_singleton, List.exists_mem_cons_iff]
      constructor
      · rintro ((h | rfl) | h)
        · exact Or.inl h
        · exact Or.inr (Or.inl rfl)
        · exact Or.inr (Or.inr h)
      · rintro (h | rfl | h)
        · exact Or.inl (Or.inl h)
        · exact Or.inl (Or.inr rfl)
        · exact Or.inr h

end dict

/-! ### Runs -/

/-- The cases that `eachRunLoop` produces are exactly the recognised names, numbered from `k`. -/
theorem eachRunLoop_eq (dir : RPath) (problem algo today : Name) (rnd k : ℕ) (names : List Name) :
    eachRunLoop dir problem algo today rnd k names =
      ((names.filter fun n => (matchRun n).isSome).zipIdx k).map
        fun x => (⟨dir, problem, algo, x.1⟩, x.2) := by
  induction names generalizing k with
  | nil => rfl
  | cons c rest ih =>
    rw [eachRunLoop]
    rcases h : matchRun c with _ | ⟨d, r⟩
    · simp only [ih]
      rw [List.filter_cons_of_neg (by simp [h])]
    · simp only [ih]
      rw [List.filter_cons_of_pos (by simp [h])]
      obtain ⟨rfl, hd, hl, -⟩ := matchRun_eq_some.1 h
      have l1 := matchSeq_length hd
      rw [length_dateCls] at l1
      obtain ⟨c, cs, rfl⟩ := List.exists_cons_of_ne_nil (l := d) (by rintro rfl; simp at l1)
      obtain ⟨c', cs', rfl⟩ := List.exists_cons_of_ne_nil (l := r) (by rintro rfl; simp at hl)
      simp [getSimulationId, pad7_eq_self hl.ge, List.zipIdx_cons]

/-- What one directory entry contributes to a run's results. -/
def contribution (fs : FS C) (s : Case) (runNo : ℕ) (c : Name) : Option (Found C) :=
  match matchNumber c with
  | none => none
  | some d =>
    match fs (c :: s.path) with
    | some (.file v) => some ⟨v, d, runNo, s⟩
    | _ => none

/-- Every result file of the run directory has the name the code writes: no leading zeros. -/
def Canonical (fs : FS C) (s : Case) : Prop :=
  ∀ c d, matchNumber c = some d → fs (c :: s.path) ≠ none → d = showNat (readNat d)

theorem loadLoop_canonical (fs : FS C) (s : Case) (runNo : ℕ) (hc : Canonical fs s)
    (names : List Name) (hn : ∀ c ∈ names, fs (c :: s.path) ≠ none) :
    loadLoop fs s runNo names = .ok (names.filterMap (contribution fs s runNo)) := by
  induction names with
  | nil => rfl
  | cons c rest ih =>
    have ih' := ih fun c hc => hn c (List.mem_cons_of_mem _ hc)
    have hcm := hn c List.mem_cons_self
    rw [loadLoop]
    rcases h : matchNumber c with _ | d
    · rw [List.filterMap_cons_none (by simp [contribution, h])]
      exact ih'
    · have hd := hc c d h hcm
      have hname := (matchNumber_eq_some.1 h).1
      have hpath : s.resultPath (showNat (readNat d)) = c :: s.path := by
        rw [← hd, hname]; rfl
      rcases hf : fs (c :: s.path) with _ | _ | v
      · exact absurd hf hcm
      · have : load fs s (showNat (readNat d)) = .error .isADirectory := by
          rw [load, loadFile, hpath, hf]
        simp only [this]
        rw [List.filterMap_cons_none (by simp [contribution, h, hf])]
        exact ih'
      · have : load fs s (showNat (readNat d)) = .ok v := by
          rw [load, loadFile, hpath, hf]
        simp only [this, ih']
        rw [List.filterMap_cons_some (b := ⟨v, d, runNo, s⟩) (by simp [contribution, h, hf])]

theorem collectRuns_eq (fs : FS C) (ls : RPath → List Name) (F : Case → ℕ → List (Found C))
    (runs : List (Case × ℕ)) (hF : ∀ x ∈ runs, loadRun fs ls x.1 x.2 = .ok (F x.1 x.2))
    (acc : List (ℕ × List (Found C))) :
    collectRuns fs ls runs acc =
      .ok ((runs.flatMap fun x => F x.1 x.2).foldl
        (fun d r => dictAppend d (readNat r.name) r) acc) := by
  induction runs generalizing acc with
  | nil => rfl
  | cons x runs ih =>
    obtain ⟨s, n⟩ := x
    rw [collectRuns, hF (s, n) List.mem_cons_self]
    simp only [List.flatMap_cons, List.foldl_append]
    exact ih (fun x hx => hF x (List.mem_cons_of_mem _ hx)) _

theorem collectRuns_congr (fs : FS C) (ls ls' : RPath → List Name)
    (runs : List (Case × ℕ)) (h : ∀ x ∈ runs, loadRun fs ls x.1 x.2 = loadRun fs ls' x.1 x.2)
    (acc : List (ℕ × List (Found C))) :
    collectRuns fs ls runs acc = collectRuns fs ls' runs acc := by
  induction runs generalizing acc with
  | nil => rfl
  | cons x runs ih =>
    obtain ⟨s, n⟩ := x
    have hx := h (s, n) List.mem_cons_self
    simp only at hx
    rw [collectRuns, collectRuns, hx]
    split
    · rfl
    · exact ih (fun x hx => h x (List.mem_cons_of_mem _ hx)) _

end Evogil.Storage
