import Verif.Props.RankingTables

/-! # C112: the table of three result sets -/

set_option linter.unusedSectionVars false

namespace Evogil.RankingRun

open Statistics Spec

/-! ## A cell -/

theorem count_pos_iff {α : Type*} (l : List (α × ℕ)) (n : ℕ) :
    0 < (l.map Prod.snd).count n ↔ ∃ e ∈ l, e.2 = n := by
  rw [List.count_pos_iff, List.mem_map]

theorem cell_ok {c : List (String × ℕ)} (hc : Proper c) : CellOk (cnt c) (tableCell c) := by
  have hp := mostCommon_perm c
  have hs := mostCommon_sorted c
  have hmem : ∀ a n, (a, n) ∈ mostCommon c ↔ 0 < n ∧ n = cnt c a := fun a n => by
    rw [hp.mem_iff, mem_iff_cnt hc]
  have hnd : ((mostCommon c).map Prod.fst).Nodup := (hp.map Prod.fst).nodup_iff.2 hc.1
  have hcount : ∀ n, (c.map Prod.snd).count n = ((mostCommon c).map Prod.snd).count n :=
    fun n => ((hp.map Prod.snd).count_eq n).symm
  have hpt : ∀ a, 0 < cnt c a → (a, cnt c a) ∈ mostCommon c := fun a h => (hmem _ _).2 ⟨h, rfl⟩
  unfold tableCell
  generalize mostCommon c = L at hp hs hmem hnd hcount hpt
  match L, hs, hmem, hnd, hcount, hpt with
  | [], hs, hmem, hnd, hcount, hpt =>
    simp only [List.take_nil]
    refine ⟨by simp, by simp, by simp, by simp, by simp, fun _ a _ => ?_, by simp⟩
    by_contra h
    simpa using hpt a (by omega)
  | [x], hs, hmem, hnd, hcount, hpt =>
    simp only [List.take_succ_cons, List.take_nil, formatResult]
    have hx := (hmem x.1 x.2).1 (by simp)
    have hout : ∀ a, a ≠ x.1 → cnt c a = 0 := by
      intro a ha
      by_contra h
      have := hpt a (by omega)
      simp only [List.mem_singleton] at this
      exact ha (by rw [← this])
    refine ⟨by simp, by simp, by simp, ?_, ?_, ?_, ?_⟩
    · simpa using ⟨hx.2, hx.1⟩
    · intro a ha e he
      rw [hout a (by simpa using ha)]; omega
    · intro _ a ha
      exact hout a (by simpa using ha)
    · intro e he
      simp only [List.mem_singleton] at he
      subst he
      simp only [decide_eq_true_eq, hcount]
      constructor
      · intro h
        have : (([x] : List (String × ℕ)).map Prod.snd).count x.2 ≤ 1 := List.count_le_length
        omega
      · rintro ⟨a, ha, h⟩
        rw [hout a (by simpa using ha)] at h
        omega
  | x :: y :: rest, hs, hmem, hnd, hcount, hpt =>
    simp only [List.take_succ_cons, List.take_zero, formatResult]
    have hx := (hmem x.1 x.2).1 (by simp)
    have hy := (hmem y.1 y.2).1 (by simp)
    rw [List.pairwise_cons, List.pairwise_cons] at hs
    obtain ⟨hs1, hs2, -⟩ := hs
    have hxy := hs1 y (by simp)
    simp only [List.map_cons, List.nodup_cons, List.mem_cons, not_or] at hnd
    have hrest : ∀ n, 0 < n → ((∃ a, a ∉ [x.1, y.1] ∧ cnt c a = n) ↔ ∃ e ∈ rest, e.2 = n) := by
      intro n hn
      constructor
      · rintro ⟨a, ha, rfl⟩
        have := hpt a hn
        simp only [List.mem_cons, List.not_mem_nil, or_false, not_or] at this ha
        rcases this with h | h | h
        · exact absurd (by rw [← h]) ha.1
        · exact absurd (by rw [← h]) ha.2
        · exact ⟨_, h, rfl⟩
      · rintro ⟨e, he, rfl⟩
        refine ⟨e.1, ?_, ((hmem e.1 e.2).1 (by simp [he])).2.symm⟩
        simp only [List.mem_cons, List.not_mem_nil, or_false, not_or]
        have hm := List.mem_map_of_mem (f := Prod.fst) he
        exact ⟨fun h => hnd.1.2 (h ▸ hm), fun h => hnd.2.1 (h ▸ hm)⟩
    have hle : ∀ a, a ∉ [x.1, y.1] → cnt c a ≤ y.2 := by
      intro a ha
      by_cases h0 : cnt c a = 0
      · omega
      · obtain ⟨e, he, h⟩ := (hrest _ (by omega)).1 ⟨a, ha, rfl⟩
        rw [← h]; exact hs2 e he
    have hcx : (c.map Prod.snd).count x.2 = (rest.map Prod.snd).count x.2 + 1 + if y.2 = x.2 then 1 else 0 := by
      rw [hcount]; simp only [List.map_cons, List.count_cons, beq_iff_eq]
      split_ifs <;> omega
    have hcy : (c.map Prod.snd).count y.2 = (rest.map Prod.snd).count y.2 + 1 + if y.2 = x.2 then 1 else 0 := by
      rw [hcount]; simp only [List.map_cons, List.count_cons, beq_iff_eq]
      by_cases h : y.2 = x.2
      · simp [h]
      · simp [h, Ne.symm h]
    refine ⟨by simp, ?_, ?_, ?_, ?_, ?_, ?_⟩
    · simpa using hnd.1.1
    · simpa using hxy
    · intro e he
      simp only [List.mem_cons, List.not_mem_nil, or_false] at he
      rcases he with rfl | rfl
      · exact ⟨hx.2, hx.1⟩
      · exact ⟨hy.2, hy.1⟩
    · intro a ha e he
      have := hle a (by simpa using ha)
      simp only [List.mem_cons, List.not_mem_nil, or_false] at he
      rcases he with rfl | rfl
      · exact this.trans hxy
      · exact this
    · intro h; simp at h
    · intro e he
      have hn : 0 < e.2.1 := by
        simp only [List.mem_cons, List.not_mem_nil, or_false] at he
        rcases he with rfl | rfl
        · exact hx.1
        · exact hy.1
      simp only [List.map_cons, List.map_nil]
      rw [hrest _ hn, ← count_pos_iff]
      simp only [List.mem_cons, List.not_mem_nil, or_false] at he
      rcases he with rfl | rfl
      · simp only [decide_eq_true_eq, hcx]
        by_cases h : y.2 = x.2
        · rw [if_pos h]; omega
        · rw [if_neg h]
          have : (rest.map Prod.snd).count x.2 = 0 := by
            by_contra h0
            obtain ⟨e, he, h1⟩ := (count_pos_iff rest x.2).1 (by omega)
            have := hs2 e he
            omega
          omega
      · simp only [decide_eq_true_eq, hcy]
        by_cases h : y.2 = x.2
        · rw [if_pos h, if_neg (by simp [h])]; omega
        · rw [if_neg h, if_pos (fun h' => h h'.symm)]; omega

/-! ## Points by budget and metric, by directory and by algorithm -/

section
variable {K : Type*} [Field K] [LinearOrder K] [IsStrictOrderedRing K]

/-- One counter per directory and key, all of them proper. -/
def Good2 (d : TableResults K) : Prop := (d.map Prod.fst).Nodup ∧ ∀ e ∈ d, Good e.2

/-- All awards of a list. -/
def award2All (evs : List ((K × String) × String × List String)) (d : TableResults K) : TableResults K :=
  evs.foldl (fun d e => award2 e.1 e.2.1 e.2.2 d) d

theorem get_award2 (k : K × String) (set : String) (names : List String) (d : TableResults K)
    (k' : K × String) :
    get (award2 k set names d) k' = if k = k' then award set names (get d k') else get d k' := by
  induction d with
  | nil => by_cases h : k = k' <;> simp [award2, get, h]
  | cons e rest ih =>
    unfold award2
    by_cases h1 : e.1 = k
    · by_cases h2 : k = k' <;> simp [get, h1, h2]
    · rw [if_neg h1]
      by_cases h2 : e.1 = k'
      · have : k ≠ k' := fun h => h1 (h2.trans h.symm)
        simp [get, h2, this]
      · simp only [get, if_neg h2, ih]

theorem keys_award2 (k : K × String) (set : String) (names : List String) (d : TableResults K)
    (k' : K × String) :
    k' ∈ (award2 k set names d).map Prod.fst ↔ k' = k ∨ k' ∈ d.map Prod.fst := by
  induction d with
  | nil => simp [award2]
  | cons e rest ih =>
    unfold award2
    by_cases h1 : e.1 = k
    · rw [if_pos h1]; simp only [List.map_cons, List.mem_cons, h1]; tauto
    · rw [if_neg h1]; simp only [List.map_cons, List.mem_cons, ih]; tauto

theorem good_award2 (k : K × String) (set : String) (names : List String) (d : TableResults K)
    (h : Good2 d) : Good2 (award2 k set names d) := by
  induction d with
  | nil =>
    refine ⟨by simp [award2], fun e he => ?_⟩
    simp only [award2, List.mem_singleton] at he
    subst he
    exact good_award _ _ _ ⟨by simp, by simp⟩
  | cons e rest ih =>
    obtain ⟨h1, h2⟩ := h
    rw [List.map_cons, List.nodup_cons] at h1
    have hr : Good2 rest := ⟨h1.2, fun x hx => h2 x (List.mem_cons_of_mem _ hx)⟩
    unfold award2
    by_cases h3 : e.1 = k
    · rw [if_pos h3]
      refine ⟨by simpa using h1, fun x hx => ?_⟩
      rcases List.mem_cons.1 hx with rfl | hx
      · exact good_award _ _ _ (h2 e (by simp))
      · exact hr.2 x hx
    · rw [if_neg h3]
      refine ⟨?_, fun x hx => ?_⟩
      · rw [List.map_cons, List.nodup_cons]
        refine ⟨?_, (ih hr).1⟩
        rw [keys_award2]
        rintro (h4 | h4)
        · exact h3 h4
        · exact h1.1 h4
      · rcases List.mem_cons.1 hx with rfl | hx
        · exact h2 _ (by simp)
        · exact (ih hr).2 x hx

theorem good_get2 {d : TableResults K} (h : Good2 d) (k : K × String) : Good (get d k) := by
  by_cases hk : k ∈ d.map Prod.fst
  · exact h.2 _ (mem_get hk)
  · rw [get_of_not_mem hk]; exact ⟨by simp, by simp⟩

theorem award2All_spec (evs : List ((K × String) × String × List String)) :
    ∀ d : TableResults K, Good2 d → Good2 (award2All evs d) ∧
      (∀ k, k ∈ (award2All evs d).map Prod.fst ↔ k ∈ evs.map Prod.fst ∨ k ∈ d.map Prod.fst) ∧
      ∀ k set a, cnt (get (get (award2All evs d) k) set) a = cnt (get (get d k) set) a +
        ((evs.filter fun e => decide (e.1 = k ∧ e.2.1 = set)).map fun e => e.2.2.count a).sum := by
  induction evs with
  | nil => intro d h; simpa [award2All] using h
  | cons e evs ih =>
    intro d h
    obtain ⟨h1, h2, h3⟩ := ih _ (good_award2 e.1 e.2.1 e.2.2 d h)
    refine ⟨h1, fun k => ?_, fun k set a => ?_⟩
    · refine (h2 k).trans ?_
      rw [keys_award2, List.map_cons, List.mem_cons]; tauto
    · refine (h3 k set a).trans ?_
      rw [get_award2]
      by_cases hk : e.1 = k
      · rw [if_pos hk, get_award]
        by_cases hset : e.2.1 = set
        · rw [if_pos hset, (bumps e.2.2 _ (proper_get (good_get2 h k) set)).2.1,
            List.filter_cons_of_pos (by simpa using ⟨hk, hset⟩)]
          simp; omega
        · rw [if_neg hset, List.filter_cons_of_neg (by simpa using fun _ => hset)]
      · rw [if_neg hk, List.filter_cons_of_neg (by simpa using fun h => absurd h hk)]

theorem lookupCounter_eq (set : String) (l : List (String × List (String × ℕ))) :
    lookupCounter set l = get l set := by
  induction l with
  | nil => rfl
  | cons e l ih => simp only [lookupCounter, get, ih]

/-! ## The scores of one problem -/

/-- What the results of an algorithm contribute. -/
def tableEvents (algos : List (String × List (Res K))) : List ((K × String) × (String × K)) :=
  algos.flatMap fun a => a.2.flatMap fun r =>
    if r.1 = tableBudget then rankedNames.map fun m => ((r.1, m), (a.1, meanOf (r.2 m))) else []

theorem tableCollect_eq (algos : List (String × List (Res K))) (hv : ∀ a ∈ algos, ∀ r ∈ a.2, ∀ m, r.2 m ≠ []) :
    tableCollect algos = some (pushAll (tableEvents algos) []) := by
  unfold tableCollect
  rw [foldlM_some _ (fun sc a => pushAll (a.2.flatMap fun r =>
    if r.1 = tableBudget then rankedNames.map fun m => ((r.1, m), (a.1, meanOf (r.2 m))) else []) sc),
    foldl_pushAll]
  · rfl
  · intro a ha sc
    rw [foldlM_some _ (fun sc r => pushAll (if r.1 = tableBudget then
      rankedNames.map fun m => ((r.1, m), (a.1, meanOf (r.2 m))) else []) sc), foldl_pushAll]
    intro r hr sc
    unfold tableGroup
    by_cases h : r.1 = tableBudget
    · rw [if_pos h, if_pos h, (addScores_yield _ a.1 r (hv a ha r hr) sc).2]
    · rw [if_neg h, if_neg h]; rfl

theorem get_table (algos : List (String × List (Res K))) {m : String} (hm : m ∈ rankedNames) :
    get (pushAll (tableEvents algos) []) (tableBudget, m) = rawScores algos tableBudget m := by
  rw [get_pushAll]
  simp only [get, List.nil_append]
  unfold tableEvents rawScores
  rw [filter_flatMap_map]
  congr 1; funext a
  rw [filter_flatMap_map]
  induction a.2 with
  | nil => rfl
  | cons r l ih =>
    rw [List.flatMap_cons, ih]
    by_cases h : r.1 = tableBudget
    · rw [List.filter_cons_of_pos (by simpa using h), if_pos h, List.map_cons, h]
      simp only [rankedNames, List.mem_cons, List.not_mem_nil, or_false] at hm
      rcases hm with rfl | rfl | rfl | rfl | rfl | rfl <;> simp [rankedNames]
    · rw [List.filter_cons_of_neg (by simpa using h), if_neg h]; rfl

theorem table_key (algos : List (String × List (Res K))) (k : K × String)
    (hk : k ∈ (tableEvents algos).map Prod.fst) : k.1 = tableBudget ∧ k.2 ∈ rankedNames := by
  unfold tableEvents at hk
  simp only [List.mem_map, List.mem_flatMap] at hk
  obtain ⟨e, ⟨a, ha, r, hr, he⟩, rfl⟩ := hk
  split_ifs at he with h
  · obtain ⟨m, hm, rfl⟩ := List.mem_map.1 he
    exact ⟨h, hm⟩
  · simp at he

/-- The dictionary of one problem. -/
theorem tableDict_spec (algos : List (String × List (Res K))) :
    ((pushAll (tableEvents algos) []).map Prod.fst).Nodup ∧
      (∀ e ∈ pushAll (tableEvents algos) [], e.1.1 = tableBudget ∧ e.1.2 ∈ rankedNames ∧
        e.2 = rawScores algos tableBudget e.1.2 ∧ e.2 ≠ []) ∧
      ∀ m ∈ rankedNames, rawScores algos tableBudget m ≠ [] →
        ((tableBudget, m), rawScores algos tableBudget m) ∈ pushAll (tableEvents algos) [] := by
  have hnd := nodup_pushAll (tableEvents algos) [] (by simp)
  refine ⟨hnd, fun e he => ?_, fun m hm hs => ?_⟩
  · have hk := List.mem_map_of_mem (f := Prod.fst) he
    have hne := (get_ne_nil _ _).1 hk
    rw [get_eq hnd he] at hne
    have hk' := (keys_pushAll (tableEvents algos) [] e.1).1 hk
    simp only [List.map_nil, List.not_mem_nil, or_false] at hk'
    obtain ⟨h1, h2⟩ := table_key algos e.1 hk'
    refine ⟨h1, h2, ?_, hne⟩
    rw [← get_table algos h2, ← h1]
    exact (get_eq hnd he).symm
  · have h := get_table algos hm
    have hk := (get_ne_nil (tableEvents algos) (tableBudget, m)).2 (by rw [h]; exact hs)
    have := mem_get hk
    rwa [h] at this

/-! ## The judgement -/

/-- The names that get points for an entry. -/
def cellNames (eps : K) (e : (K × String) × List (String × K)) : List String :=
  match bestFunc e.1.2, winnerTolerance (K := K) e.1.2 with
  | some isMax, some tol =>
    (awards eps (fun x y : K => if isMax then decide (y < x) else decide (x < y)) e.2 tol).getD []
  | _, _ => []

theorem rawScores_names (algos : List (String × List (Res K))) (m : String) (b : K)
    (h : (algos.map Prod.fst).Nodup) (hb : ∀ a ∈ algos, (a.2.map Prod.fst).Nodup) :
    ((rawScores algos b m).map Prod.fst).Nodup := by
  have hone : ∀ a ∈ algos, (((a.2.filter fun g => decide (g.1 = b)).map
      fun g => (a.1, meanOf (g.2 m))).map Prod.fst) = [] ∨
      (((a.2.filter fun g => decide (g.1 = b)).map fun g => (a.1, meanOf (g.2 m))).map Prod.fst) = [a.1] := by
    intro a ha
    have hn := hb a ha
    clear h hb ha
    generalize a.2 = gs at hn
    induction gs with
    | nil => left; rfl
    | cons g l ih =>
      rw [List.map_cons, List.nodup_cons] at hn
      by_cases hg : g.1 = b
      · right
        rw [List.filter_cons_of_pos (by simpa using hg), List.filter_eq_nil_iff.2]
        · rfl
        · intro x hx
          have : x.1 ≠ b := fun h => hn.1 (by rw [hg, ← h]; exact List.mem_map_of_mem hx)
          simpa using this
      · rw [List.filter_cons_of_neg (by simpa using hg)]
        exact ih hn.2
  have hsub : ((rawScores algos b m).map Prod.fst).Sublist (algos.map Prod.fst) := by
    unfold rawScores
    clear h hb
    induction algos with
    | nil => simp
    | cons a l ih =>
      rw [List.flatMap_cons, List.map_append, List.map_cons]
      have ih' := ih fun x hx => hone x (List.mem_cons_of_mem _ hx)
      rcases hone a (by simp) with h | h
      · rw [h]; exact ih'.cons _
      · rw [h]; exact ih'.cons_cons _
  exact hsub.nodup h

theorem rawScores_nonneg (algos : List (String × List (Res K))) (m : String) (b : K)
    (h : ∀ a ∈ algos, ∀ g ∈ a.2, ∀ x ∈ g.2 m, 0 ≤ x) : ∀ e ∈ rawScores algos b m, 0 ≤ e.2 := by
  intro e he
  unfold rawScores at he
  obtain ⟨a, ha, he⟩ := List.mem_flatMap.1 he
  obtain ⟨g, hg, rfl⟩ := List.mem_map.1 he
  exact div_nonneg (List.sum_nonneg (h a ha g (List.mem_filter.1 hg).1)) (Nat.cast_nonneg _)

/-- What has to hold for one problem. -/
structure TidyProblem (algos : List (String × List (Res K))) : Prop where
  names : (algos.map Prod.fst).Nodup
  budgets : ∀ a ∈ algos, (a.2.map Prod.fst).Nodup
  values : ∀ a ∈ algos, ∀ g ∈ a.2, ∀ m, g.2 m ≠ [] ∧ ∀ x ∈ g.2 m, 0 ≤ x

theorem entry_names (eps : K) (heps : 0 < eps) {algos : List (String × List (Res K))} (h : TidyProblem algos)
    {e : (K × String) × List (String × K)} (he : e ∈ pushAll (tableEvents algos) []) :
    ∃ isMax tol names, bestFunc e.1.2 = some isMax ∧ winnerTolerance (K := K) e.1.2 = some tol ∧
      awards eps (fun x y : K => if isMax then decide (y < x) else decide (x < y)) e.2 tol = some names ∧
      cellNames eps e = names ∧
      ∀ s tol', (e.1.2, s, tol') ∈ (ranked : List (String × Sense × K)) →
        ∀ a, names.count a = deserved eps tol' s e.2 a := by
  obtain ⟨-, h1, -⟩ := tableDict_spec algos
  obtain ⟨-, hm, ht, hne⟩ := h1 e he
  obtain ⟨s, tol, hs⟩ := (mem_ranked_iff (K := K) _).2 hm
  obtain ⟨isMax, w, names, g1, g2, -, g4, -, -, g7⟩ := entry_spec eps heps hs e.2 hne
    (by rw [ht]; exact rawScores_names _ _ _ h.names h.budgets)
    (by rw [ht]; exact rawScores_nonneg _ _ _ fun a ha g hg => (h.values a ha g hg _).2)
  refine ⟨isMax, tol, names, g1, g2, g4, ?_, ?_⟩
  · unfold cellNames; rw [g1, g2]; simp only; rw [g4]; rfl
  · intro s' tol' hs'
    obtain ⟨i1, b1, b2, b3⟩ := sense_of hs
    obtain ⟨i2, c1, c2, c3⟩ := sense_of hs'
    have e1 : tol = tol' := Option.some.inj (b2.symm.trans c2)
    have e2 : i1 = i2 := Option.some.inj (b1.symm.trans c1)
    subst e1 e2
    have e3 : s = s' := by
      have := b3.symm.trans c3
      have h01 := congrFun (congrFun this (1 : K)) 0
      cases s <;> cases s' <;> first | rfl | (exfalso; simp [Sense.better] at h01; linarith)
    rw [← e3]; exact g7

theorem tableJudge_eq (eps : K) (set : String) (sc : List ((K × String) × List (String × K)))
    (h : ∀ e ∈ sc, ∃ isMax tol names, bestFunc e.1.2 = some isMax ∧
      winnerTolerance (K := K) e.1.2 = some tol ∧
      awards eps (fun x y : K => if isMax then decide (y < x) else decide (x < y)) e.2 tol = some names ∧
      cellNames eps e = names) :
    ∀ d, tableJudge eps set sc d = some (award2All (sc.map fun e => (e.1, set, cellNames eps e)) d) := by
  induction sc with
  | nil => intro d; rfl
  | cons e sc ih =>
    intro d
    obtain ⟨isMax, tol, names, h1, h2, h3, h4⟩ := h e (by simp)
    unfold tableJudge
    rw [h1, h2]
    simp only
    rw [h3]
    simp only
    rw [ih (fun x hx => h x (List.mem_cons_of_mem _ hx))]
    simp only [award2All, List.map_cons, List.foldl_cons, h4]

/-- The awards of one problem. -/
def problemAwards (eps : K) (set : String) (algos : List (String × List (Res K))) :
    List ((K × String) × String × List String) :=
  ((pushAll (tableEvents algos) []).insertionSort fun x y => keyLe x.1 y.1).map
    fun e => (e.1, set, cellNames eps e)

theorem tableProblem_eq (eps : K) (heps : 0 < eps) (set : String) (d : TableResults K)
    (p : String × List (String × List (Res K))) (h : TidyProblem p.2) :
    tableProblem eps set d p = some (award2All (problemAwards eps set p.2) d) := by
  unfold tableProblem problemAwards
  rw [tableCollect_eq _ fun a ha r hr m => (h.values a ha r hr m).1]
  simp only
  rw [tableJudge_eq]
  intro e he
  rw [(sort_keys _).1.mem_iff] at he
  obtain ⟨isMax, tol, names, h1, h2, h3, h4, -⟩ := entry_names eps heps h he
  exact ⟨isMax, tol, names, h1, h2, h3, h4⟩

theorem foldl_award2All {ι : Type*} (f : ι → List ((K × String) × String × List String)) (l : List ι) :
    ∀ d, l.foldl (fun d x => award2All (f x) d) d = award2All (l.flatMap f) d := by
  induction l with
  | nil => intro d; rfl
  | cons x l ih =>
    intro d
    rw [List.foldl_cons, ih, List.flatMap_cons]
    simp only [award2All, List.foldl_append]

theorem tableResults_eq (eps : K) (heps : 0 < eps) (sets : List (String × Dirs K))
    (h : ∀ set ∈ sets, ∀ p ∈ set.2, TidyProblem p.2) :
    tableResults eps sets = some (award2All
      (sets.flatMap fun set => set.2.flatMap fun p => problemAwards eps set.1 p.2) []) := by
  unfold tableResults
  rw [foldlM_some _ (fun d set => award2All (set.2.flatMap fun p => problemAwards eps set.1 p.2) d),
    foldl_award2All]
  intro set hset d
  rw [foldlM_some _ (fun d p => award2All (problemAwards eps set.1 p.2) d), foldl_award2All]
  intro p hp d
  exact tableProblem_eq eps heps set.1 d p (h set hset p hp)

/-! ## C112 -/

theorem problem_sum (eps : K) (heps : 0 < eps) (set set' : String) {algos : List (String × List (Res K))}
    (h : TidyProblem algos) {m : String} {s : Sense} {tol : K}
    (hm : (m, s, tol) ∈ (ranked : List (String × Sense × K))) (a : String) :
    (((problemAwards eps set algos).filter
      fun e => decide (e.1 = (tableBudget, m) ∧ e.2.1 = set')).map fun e => e.2.2.count a).sum =
      if set = set' then deserved eps tol s (rawScores algos tableBudget m) a else 0 := by
  obtain ⟨hnd, h1, h2⟩ := tableDict_spec algos
  have hmr := (mem_ranked_iff (K := K) m).1 ⟨s, tol, hm⟩
  unfold problemAwards
  rw [List.filter_map, List.map_map]
  by_cases hset : set = set'
  · rw [if_pos hset]
    have e0 : (fun e : (K × String) × List (String × K) => decide (e.1 = (tableBudget, m))) =
        ((fun e : (K × String) × String × List String => decide (e.1 = (tableBudget, m) ∧ e.2.1 = set')) ∘
          fun e => (e.1, set, cellNames eps e)) := by
      funext e; simp [hset]
    rw [← e0, (((sort_keys (pushAll (tableEvents algos) [])).1.filter _).map _).sum_eq]
    by_cases hne : rawScores algos tableBudget m = []
    · rw [List.filter_eq_nil_iff.2, hne]
      · cases s <;> simp [deserved, bestValue]
      · intro e he
        obtain ⟨-, -, g3, g4⟩ := h1 e he
        simp only [decide_eq_true_eq]
        intro hk
        rw [g3, hk] at g4
        exact g4 hne
    · have hx := h2 m hmr hne
      have hperm : ((pushAll (tableEvents algos) []).filter
          fun e => decide (e.1 = (tableBudget, m))).Perm [((tableBudget, m), rawScores algos tableBudget m)] := by
        refine (List.perm_ext_iff_of_nodup ((List.Nodup.of_map _ hnd).filter _) (by simp)).2 fun e => ?_
        rw [List.mem_filter, decide_eq_true_eq, List.mem_singleton]
        constructor
        · rintro ⟨he, hk⟩
          obtain ⟨-, -, g3, -⟩ := h1 e he
          refine Prod.ext hk ?_
          rw [g3, hk]
        · rintro rfl
          exact ⟨hx, rfl⟩
      rw [(hperm.map _).sum_eq]
      obtain ⟨isMax, tol', names, -, -, -, g4, g5⟩ := entry_names eps heps h hx
      simp only [List.map_cons, List.map_nil, List.sum_cons, List.sum_nil, Nat.add_zero, Function.comp]
      rw [g4]
      exact g5 s tol hm a
  · rw [if_neg hset, List.filter_eq_nil_iff.2]
    · rfl
    · intro e _
      simp [hset]

theorem sum_filter_flatMap {ι β : Type*} (q : β → Bool) (f : β → ℕ) (g : ι → List β) (l : List ι) :
    (((l.flatMap g).filter q).map f).sum = (l.map fun x => (((g x).filter q).map f).sum).sum := by
  induction l with
  | nil => rfl
  | cons x l ih => simp [List.flatMap_cons, List.filter_append, ih]

theorem sum_single {ι : Type*} (key : ι → String) (f : ι → ℕ) (l : List ι) (hn : (l.map key).Nodup) {x : ι}
    (hx : x ∈ l) : (l.map fun y => if key y = key x then f y else 0).sum = f x := by
  induction l with
  | nil => simp at hx
  | cons y l ih =>
    rw [List.map_cons, List.nodup_cons] at hn
    rw [List.map_cons, List.sum_cons]
    rcases List.mem_cons.1 hx with rfl | hx
    · rw [if_pos rfl, List.sum_eq_zero, Nat.add_zero]
      intro z hz
      obtain ⟨w, hw, rfl⟩ := List.mem_map.1 hz
      rw [if_neg]
      intro h
      exact hn.1 (h ▸ List.mem_map_of_mem hw)
    · have h : key y ≠ key x := fun h => hn.1 (h ▸ List.mem_map_of_mem hx)
      rw [if_neg h, ih hn.2 hx, Nat.zero_add]

theorem metricsOrder_mem (m : String) : m ∈ metricsOrder ↔ m ∈ rankedNames := by
  simp only [metricsOrder, rankedNames, List.mem_cons, List.not_mem_nil, or_false]
  tauto

theorem eq_of_sorted_idx (O : List String) (hO : O.Nodup) (l : List String) (hl : l.Nodup)
    (hsub : ∀ x ∈ l, x ∈ O) (hs : l.Pairwise fun x y => O.idxOf x ≤ O.idxOf y) :
    l = O.filter fun x => decide (x ∈ l) := by
  have hs' : l.Pairwise fun x y => O.idxOf x < O.idxOf y := by
    have := hs.and hl
    refine this.imp_of_mem ?_
    rintro a b ha hb ⟨h1, h2⟩
    rcases Nat.lt_or_ge (O.idxOf a) (O.idxOf b) with h | h
    · exact h
    · exact absurd ((List.idxOf_inj (hsub a ha)).1 (le_antisymm h1 h)) h2
  have hO' : (O.filter fun x => decide (x ∈ l)).Pairwise fun x y => O.idxOf x < O.idxOf y := by
    refine List.Pairwise.sublist List.filter_sublist ?_
    rw [List.pairwise_iff_getElem]
    intro i j hi hj hij
    rwa [hO.idxOf_getElem, hO.idxOf_getElem]
  refine List.Perm.eq_of_pairwise (le := fun x y => O.idxOf x < O.idxOf y) ?_ hs' hO' ?_
  · intro a b _ _ h1 h2; omega
  · refine (List.perm_ext_iff_of_nodup hl (hO.filter _)).2 fun x => ?_
    rw [List.mem_filter, decide_eq_true_eq]
    exact ⟨fun h => ⟨hsub x h, h⟩, fun h => h.2⟩

/-- **C112.** For result sets with different names and tidy contents: `table_rank` does not fail; the
table has one row for every ranked metric for which some problem of some set has a result of the budget
40, in the order of `metrics_order`; a row has one cell for each set, in the order of the sets; and a
cell is right for the points that the algorithms deserve for the problems of the set, added up. -/
theorem C112_table (eps : K) (heps : 0 < eps) (sets : List (String × Dirs K))
    (hsets : (sets.map Prod.fst).Nodup) (htidy : ∀ set ∈ sets, Tidy set.2) :
    ∃ rows, tableRank eps sets = some rows ∧
      rows.map Prod.fst = ((["ahd", "gd", "igd", "hypervolume", "pdi", "spacing"] : List String).filter
        fun m => decide (∃ set ∈ sets, ∃ p ∈ set.2, rawScores p.2 40 m ≠ [])).map (fun m => ((40 : K), m)) ∧
      ∀ row ∈ rows, ∀ s tol, (row.1.2, s, tol) ∈ (ranked : List (String × Sense × K)) →
        List.Forall₂ (fun set cell => CellOk
          (fun a => (set.2.map fun p => deserved eps tol s (rawScores p.2 40 row.1.2) a).sum) cell)
          sets row.2 := by
  have htp : ∀ set ∈ sets, ∀ p ∈ set.2, TidyProblem p.2 := fun set hs p hp =>
    ⟨(htidy set hs).algos p hp, (htidy set hs).budgets p hp, (htidy set hs).values p hp⟩
  obtain ⟨a1, a2, a3⟩ := award2All_spec
    (sets.flatMap fun set => set.2.flatMap fun p => problemAwards eps set.1 p.2) [] ⟨by simp, by simp⟩
  have hres := tableResults_eq eps heps sets htp
  -- the keys
  have hkeys : ∀ k : K × String, k ∈ (sets.flatMap fun set => set.2.flatMap fun p =>
      problemAwards eps set.1 p.2).map Prod.fst ↔ k.1 = 40 ∧ k.2 ∈ rankedNames ∧
        ∃ set ∈ sets, ∃ p ∈ set.2, rawScores p.2 40 k.2 ≠ [] := by
    intro k
    simp only [List.mem_map, List.mem_flatMap, problemAwards, (sort_keys _).1.mem_iff]
    constructor
    · rintro ⟨e, ⟨set, hs, p, hp, x, hx, rfl⟩, rfl⟩
      obtain ⟨g1, g2, g3, g4⟩ := (tableDict_spec p.2).2.1 x hx
      exact ⟨g1, g2, set, hs, p, hp, g3 ▸ g4⟩
    · rintro ⟨g1, g2, set, hs, p, hp, hne⟩
      exact ⟨_, ⟨set, hs, p, hp, _, (tableDict_spec p.2).2.2 k.2 g2 hne, rfl⟩, Prod.ext g1.symm rfl⟩
  -- the points
  have hpts : ∀ set ∈ sets, ∀ m s tol, (m, s, tol) ∈ (ranked : List (String × Sense × K)) → ∀ a,
      cnt (get (get (award2All (sets.flatMap fun set => set.2.flatMap fun p => problemAwards eps set.1 p.2) [])
        (40, m)) set.1) a = (set.2.map fun p => deserved eps tol s (rawScores p.2 40 m) a).sum := by
    intro set hs m s tol hm a
    rw [a3]
    simp only [get, cnt, Nat.zero_add]
    rw [sum_filter_flatMap]
    have e1 : (sets.map fun x => (((x.2.flatMap fun p => problemAwards eps x.1 p.2).filter
        fun e => decide (e.1 = ((40 : K), m) ∧ e.2.1 = set.1)).map fun e => e.2.2.count a).sum) =
        sets.map fun y => if y.1 = set.1 then
          (y.2.map fun p => deserved eps tol s (rawScores p.2 40 m) a).sum else 0 := by
      refine List.map_congr_left fun y hy => ?_
      rw [sum_filter_flatMap]
      by_cases hys : y.1 = set.1
      · rw [if_pos hys]
        congr 1
        refine List.map_congr_left fun p hp => ?_
        have := problem_sum eps heps y.1 set.1 (htp y hy p hp) hm a
        rw [if_pos hys] at this
        exact this
      · rw [if_neg hys, List.sum_eq_zero]
        intro z hz
        obtain ⟨p, hp, rfl⟩ := List.mem_map.1 hz
        have := problem_sum eps heps y.1 set.1 (htp y hy p hp) hm a
        rw [if_neg hys] at this
        exact this
    rw [e1]
    exact sum_single Prod.fst _ sets hsets hs
  have hrank : tableRank eps sets = some ((((award2All (sets.flatMap fun set => set.2.flatMap fun p =>
      problemAwards eps set.1 p.2) []).insertionSort
        fun x y => metricsOrder.idxOf x.1.2 ≤ metricsOrder.idxOf y.1.2).insertionSort
          fun x y => x.1.1 ≤ y.1.1).map fun e =>
            (e.1, sets.map fun set => tableCell (lookupCounter set.1 e.2))) := by
    unfold tableRank
    rw [hres]; rfl
  generalize award2All (sets.flatMap fun set => set.2.flatMap fun p => problemAwards eps set.1 p.2) [] = d
    at a1 a2 a3 hpts hrank
  have hd : ∀ e ∈ d, e.1.1 = 40 ∧ e.1.2 ∈ rankedNames ∧
      ∃ set ∈ sets, ∃ p ∈ set.2, rawScores p.2 40 e.1.2 ≠ [] := by
    intro e he
    have := (a2 e.1).1 (List.mem_map_of_mem he)
    simp only [List.map_nil, List.not_mem_nil, or_false] at this
    exact (hkeys e.1).1 this
  let d1 := d.insertionSort fun x y => metricsOrder.idxOf x.1.2 ≤ metricsOrder.idxOf y.1.2
  have hd1 : d1.Perm d := List.perm_insertionSort _ _
  have hd1s : d1.Pairwise fun x y => metricsOrder.idxOf x.1.2 ≤ metricsOrder.idxOf y.1.2 := by
    have ht : IsTrans ((K × String) × List (String × List (String × ℕ)))
        fun x y => metricsOrder.idxOf x.1.2 ≤ metricsOrder.idxOf y.1.2 := ⟨fun _ _ _ h1 h2 => le_trans h1 h2⟩
    have hl : Std.Total (α := (K × String) × List (String × List (String × ℕ)))
        fun x y => metricsOrder.idxOf x.1.2 ≤ metricsOrder.idxOf y.1.2 := ⟨fun x y => le_total _ _⟩
    exact List.pairwise_insertionSort _ _
  have hd2 : d1.insertionSort (fun x y => x.1.1 ≤ y.1.1) = d1 := by
    have hp : d1.Pairwise fun x y => x.1.1 ≤ y.1.1 := by
      refine List.Pairwise.imp_of_mem ?_ hd1s
      intro a b ha hb _
      rw [(hd a (hd1.mem_iff.1 ha)).1, (hd b (hd1.mem_iff.1 hb)).1]
    exact hp.insertionSort_eq
  have hrows : (d1.insertionSort fun x y => x.1.1 ≤ y.1.1) = d1 := hd2
  refine ⟨_, hrank, ?_, ?_⟩
  · show ((d1.insertionSort fun x y => x.1.1 ≤ y.1.1).map fun e =>
      (e.1, sets.map fun set => tableCell (lookupCounter set.1 e.2))).map Prod.fst = _
    rw [hrows, List.map_map]
    have hnd1 : (d1.map Prod.fst).Nodup := (hd1.map Prod.fst).nodup_iff.2 a1.1
    have e1 : d1.map (Prod.fst ∘ fun e => (e.1, sets.map fun set => tableCell (lookupCounter set.1 e.2))) =
        (d1.map fun e => e.1.2).map fun m => ((40 : K), m) := by
      rw [List.map_map]
      refine List.map_congr_left fun e he => ?_
      exact Prod.ext (hd e (hd1.mem_iff.1 he)).1 rfl
    rw [e1]
    congr 1
    have hl : (d1.map fun e => e.1.2).Nodup := by
      have : d1.map Prod.fst = (d1.map fun e => e.1.2).map fun m => ((40 : K), m) := by
        rw [List.map_map]
        refine List.map_congr_left fun e he => ?_
        exact Prod.ext (hd e (hd1.mem_iff.1 he)).1 rfl
      rw [this] at hnd1
      exact List.Nodup.of_map _ hnd1
    rw [eq_of_sorted_idx metricsOrder (by decide) (d1.map fun e => e.1.2) hl ?_ ?_]
    · refine List.filter_congr fun m hm => ?_
      rw [decide_eq_decide]
      constructor
      · intro h
        obtain ⟨e, he, rfl⟩ := List.mem_map.1 h
        exact (hd e (hd1.mem_iff.1 he)).2.2
      · intro h
        have hk := (a2 (40, m)).2 (.inl ((hkeys (40, m)).2 ⟨rfl, (metricsOrder_mem m).1 hm, h⟩))
        obtain ⟨e, he, hek⟩ := List.mem_map.1 hk
        exact List.mem_map.2 ⟨e, hd1.mem_iff.2 he, by rw [hek]⟩
    · intro x hx
      obtain ⟨e, he, rfl⟩ := List.mem_map.1 hx
      exact (metricsOrder_mem _).2 (hd e (hd1.mem_iff.1 he)).2.1
    · rw [List.pairwise_map]; exact hd1s
  · intro row hrow s tol hm
    obtain ⟨e, he, rfl⟩ := List.mem_map.1 hrow
    have he' : e ∈ d := hd1.mem_iff.1 (hrows ▸ he)
    have hg : get d (40, e.1.2) = e.2 := by
      have := get_eq a1.1 he'
      rwa [show e.1 = (40, e.1.2) from Prod.ext (hd e he').1 rfl] at this
    rw [List.forall₂_map_right_iff, List.forall₂_same]
    intro set hs
    have hcell := cell_ok (proper_get (a1.2 e he') set.1)
    have hfun : (fun a => (set.2.map fun p => deserved eps tol s (rawScores p.2 40 e.1.2) a).sum) =
        cnt (get e.2 set.1) := by
      funext a
      rw [← hpts set hs e.1.2 s tol hm a, hg]
    show CellOk (fun a => (set.2.map fun p => deserved eps tol s (rawScores p.2 40 e.1.2) a).sum)
      (tableCell (lookupCounter set.1 e.2))
    rw [hfun, lookupCounter_eq]
    exact hcell

end

/-- Two sets of results of the budget 40. In the first one A and B are equally good on both problems and
C is better on the second. -/
def exSets : List (String × Dirs ℚ) :=
  [("K0", [("ZDT1", [("A", [exGroup 40 60 1]), ("B", [exGroup 20 20 9, exGroup 40 60 1])]),
      ("ZDT2", [("A", [exGroup 40 60 2]), ("C", [exGroup 40 60 1])])]),
    ("K1", [("ZDT1", [("A", [exGroup 40 60 1]), ("B", [exGroup 40 60 1]), ("C", [exGroup 40 60 1])]),
      ("ZDT2", [("B", [exGroup 80 60 2])])])]

theorem exSets_tidy : (exSets.map Prod.fst).Nodup ∧ ∀ set ∈ exSets, Tidy set.2 := by
  refine ⟨by decide, ?_⟩
  intro set hs
  simp only [exSets, List.mem_cons, List.not_mem_nil, or_false] at hs
  rcases hs with rfl | rfl <;> refine ⟨by decide, by decide, by decide, ?_⟩ <;> intro p hp a ha g hg m <;>
    simp only [List.mem_cons, List.not_mem_nil, or_false] at hp <;> rcases hp with rfl | rfl <;>
    simp only [List.mem_cons, List.not_mem_nil, or_false] at ha
  · rcases ha with rfl | rfl <;> simp only [List.mem_cons, List.not_mem_nil, or_false] at hg
    · subst hg; exact exGroup_values (by norm_num) (by norm_num) m
    · rcases hg with rfl | rfl <;> exact exGroup_values (by norm_num) (by norm_num) m
  · rcases ha with rfl | rfl <;> obtain rfl := List.mem_singleton.1 hg <;>
      exact exGroup_values (by norm_num) (by norm_num) m
  · rcases ha with rfl | rfl | rfl <;> obtain rfl := List.mem_singleton.1 hg <;>
      exact exGroup_values (by norm_num) (by norm_num) m
  · subst ha
    obtain rfl := List.mem_singleton.1 hg
    exact exGroup_values (by norm_num) (by norm_num) m

/-- The star in the second cell says that someone else has one point as well; the results of the budgets
20 and 80 do not count. -/
example : (tableRank (1 / 1000000) exSets).map (fun rows => (rows.filter fun e => e.1.2 = "gd").map Prod.snd) =
    some [[[("C", 2, false), ("A", 1, true)], [("A", 1, true), ("B", 1, true)]]] := by
  decide +kernel

example : (tableRank (1 / 1000000) exSets).map (fun rows => rows.map Prod.fst) =
    some [(40, "ahd"), (40, "gd"), (40, "igd"), (40, "hypervolume"), (40, "pdi"), (40, "spacing")] := by
  decide +kernel

end Evogil.RankingRun
