import Verif.Props.PlotsSummary

/-! # C118: the figures of `violin` -/

set_option linter.unusedSectionVars false

namespace Evogil.Plots

open RankingRun Spec

variable {K : Type*} [Field K] [LinearOrder K] [IsStrictOrderedRing K]

/-- A list of assignments `d[k][a] = l`. -/
def assignAll (evs : List ((String × String) × (String × List K))) (d : Samples K) : Samples K :=
  evs.foldl (fun d e => dset e.1 [] (dset e.2.1 [] fun _ => e.2.2) d) d

/-- The sample stored. -/
def stored (d : Samples K) (k : String × String) (a : String) : Option (List K) := dget a ((dget k d).getD [])

theorem stored_assignAll (evs : List ((String × String) × (String × List K)))
    (g : String × String → String → Option (List K)) (hg : ∀ e ∈ evs, g e.1 e.2.1 = some e.2.2) :
    ∀ (d : Samples K) (k : String × String) (a : String), stored (assignAll evs d) k a =
      if (k, a) ∈ evs.map (fun e => (e.1, e.2.1)) then g k a else stored d k a := by
  induction evs with
  | nil => intro d k a; simp [assignAll]
  | cons e evs ih =>
    intro d k a
    have := ih (fun x hx => hg x (List.mem_cons_of_mem _ hx)) (dset e.1 [] (dset e.2.1 [] fun _ => e.2.2) d) k a
    unfold assignAll at this ⊢
    rw [List.foldl_cons, this]
    have he := hg e (by simp)
    have hstep : stored (dset e.1 [] (dset e.2.1 [] fun _ => e.2.2) d) k a =
        if e.1 = k ∧ e.2.1 = a then some e.2.2 else stored d k a := by
      unfold stored
      rw [dget_dset]
      by_cases h1 : e.1 = k
      · rw [if_pos h1, Option.getD_some, dget_dset]
        by_cases h2 : e.2.1 = a <;> simp [h1, h2]
      · simp [h1]
    rw [hstep, List.map_cons]
    by_cases h : (k, a) ∈ evs.map fun e => (e.1, e.2.1)
    · rw [if_pos h, if_pos (List.mem_cons_of_mem _ h)]
    · rw [if_neg h]
      by_cases h2 : e.1 = k ∧ e.2.1 = a
      · rw [if_pos h2, if_pos (by rw [← h2.1, ← h2.2]; simp), ← h2.1, ← h2.2, he]
      · rw [if_neg h2, if_neg]
        intro h3
        rcases List.mem_cons.1 h3 with h3 | h3
        · simp only [Prod.mk.injEq] at h3
          exact h2 ⟨h3.1.symm, h3.2.symm⟩
        · exact h h3

theorem keys_assignAll (evs : List ((String × String) × (String × List K))) :
    ∀ (d : Samples K) (k : String × String), k ∈ (assignAll evs d).map Prod.fst ↔
      k ∈ evs.map Prod.fst ∨ k ∈ d.map Prod.fst := by
  induction evs with
  | nil => intro d k; simp [assignAll]
  | cons e evs ih =>
    intro d k
    have := ih (dset e.1 [] (dset e.2.1 [] fun _ => e.2.2) d) k
    unfold assignAll at this ⊢
    rw [List.foldl_cons, this, keys_dset, List.map_cons, List.mem_cons]
    tauto

theorem nodup_assignAll (evs : List ((String × String) × (String × List K))) :
    ∀ (d : Samples K), (d.map Prod.fst).Nodup → ((assignAll evs d).map Prod.fst).Nodup := by
  induction evs with
  | nil => intro d h; exact h
  | cons e evs ih => intro d h; exact ih _ (nodup_dset _ _ _ _ h)

/-- What an algorithm contributes. -/
def sampleEvents (p : String) (a : String × List (Res K)) : List ((String × String) × (String × List K)) :=
  match counted a.2 with
  | none => []
  | some value => drawn.map fun m => ((p, m), (a.1, value m))

theorem violinAlgo_eq (p : String) (d : Samples K) (a : String × List (Res K)) (ha : a.2 ≠ [])
    (hv : ∀ r ∈ a.2, ∀ m, r.2 m ≠ []) : violinAlgo p d a = some (assignAll (sampleEvents p a) d) := by
  obtain ⟨o, h1, h2⟩ := findResult_eq a.2 ha (fun r hr => hv r hr _)
  unfold violinAlgo sampleEvents
  rw [h1]
  rcases h2 with ⟨rfl, h2⟩ | ⟨r, hr, h2, rfl⟩
  · rw [h2]; rfl
  · rw [h2]
    simp [afterCost, bestFunc, drawn, assignAll]

theorem foldl_assignAll {ι : Type*} (f : ι → List ((String × String) × (String × List K))) (l : List ι) :
    ∀ d, l.foldl (fun d x => assignAll (f x) d) d = assignAll (l.flatMap f) d := by
  induction l with
  | nil => intro d; rfl
  | cons x l ih =>
    intro d
    rw [List.foldl_cons, ih, List.flatMap_cons]
    unfold assignAll
    rw [List.foldl_append]

/-- What all algorithms contribute. -/
def allSamples (dirs : Dirs K) : List ((String × String) × (String × List K)) :=
  dirs.flatMap fun p => p.2.flatMap fun a => sampleEvents p.1 a

theorem collectSamples_eq (dirs : Dirs K) (hg : ∀ p ∈ dirs, ∀ a ∈ p.2, a.2 ≠ [])
    (hv : ∀ p ∈ dirs, ∀ a ∈ p.2, ∀ r ∈ a.2, ∀ m, r.2 m ≠ []) :
    dirs.foldlM (fun (d : Samples K) (problem : String × List (String × List (Res K))) =>
      problem.2.foldlM (violinAlgo problem.1) d) [] = some (assignAll (allSamples dirs) []) := by
  rw [foldlM_some _ (fun d p => assignAll (p.2.flatMap fun a => sampleEvents p.1 a) d), foldl_assignAll]
  · rfl
  · intro p hp d
    rw [foldlM_some _ (fun d a => assignAll (sampleEvents p.1 a) d), foldl_assignAll]
    intro a ha b
    exact violinAlgo_eq _ _ _ (hg p hp a ha) (hv p hp a ha)

theorem find_unique {α : Type*} {l : List (String × α)} (hn : (l.map Prod.fst).Nodup) {x : String × α} (hx : x ∈ l) :
    l.find? (fun q => decide (q.1 = x.1)) = some x := by
  cases hf : l.find? (fun q => decide (q.1 = x.1)) with
  | none =>
    rw [List.find?_eq_none] at hf
    have := hf x hx
    simp at this
  | some y =>
    have hy : y.1 = x.1 := by simpa using List.find?_some hf
    rw [List.inj_on_of_nodup_map hn (List.mem_of_find?_eq_some hf) hx hy]

theorem mem_allSamples (dirs : Dirs K) (e : (String × String) × (String × List K)) :
    e ∈ allSamples dirs ↔ e.1.2 ∈ drawn ∧ ∃ p ∈ dirs, p.1 = e.1.1 ∧ ∃ a ∈ p.2, a.1 = e.2.1 ∧
      ∃ value, counted a.2 = some value ∧ value e.1.2 = e.2.2 := by
  obtain ⟨⟨p', m'⟩, a', l'⟩ := e
  unfold allSamples
  simp only [List.mem_flatMap]
  constructor
  · rintro ⟨p, hp, a, ha, he⟩
    unfold sampleEvents at he
    cases hc : counted a.2 with
    | none => rw [hc] at he; simp at he
    | some value =>
      rw [hc] at he
      obtain ⟨m, hm, he⟩ := List.mem_map.1 he
      simp only [Prod.mk.injEq] at he
      obtain ⟨⟨rfl, rfl⟩, rfl, rfl⟩ := he
      exact ⟨hm, p, hp, rfl, a, ha, rfl, value, hc, rfl⟩
  · rintro ⟨hm, p, hp, rfl, a, ha, rfl, value, hc, rfl⟩
    refine ⟨p, hp, a, ha, ?_⟩
    unfold sampleEvents
    rw [hc]
    exact List.mem_map.2 ⟨m', hm, rfl⟩

theorem sample_of_mem (dirs : Dirs K) (h : Filed dirs) {e : (String × String) × (String × List K)}
    (he : e ∈ allSamples dirs) : sample dirs e.1.1 e.1.2 e.2.1 = some e.2.2 := by
  obtain ⟨-, p, hp, h1, a, ha, h2, value, hc, h3⟩ := (mem_allSamples dirs e).1 he
  unfold sample
  rw [← h1, find_unique h.problems hp, Option.bind_some, ← h2, find_unique (h.algos p hp) ha, Option.bind_some, hc,
    Option.map_some, h3]

theorem mem_of_sample (dirs : Dirs K) {p m a : String} {l : List K} (hm : m ∈ drawn)
    (h : sample dirs p m a = some l) : ((p, m), (a, l)) ∈ allSamples dirs := by
  unfold sample at h
  obtain ⟨q, hq, h⟩ := Option.bind_eq_some_iff.1 h
  obtain ⟨b, hb, h⟩ := Option.bind_eq_some_iff.1 h
  obtain ⟨value, hc, rfl⟩ := Option.map_eq_some_iff.1 h
  have h1 : q.1 = p := by simpa using List.find?_some hq
  have h2 : b.1 = a := by simpa using List.find?_some hb
  exact (mem_allSamples dirs _).2 ⟨hm, q, List.mem_of_find?_eq_some hq, h1, b, List.mem_of_find?_eq_some hb, h2, value,
    hc, rfl⟩

theorem violinFigure_eq (eps : K) (k : String × String) (data : List (String × List K)) :
    violinFigure eps (k, data) =
      (let v := legend.filterMap fun a => (dget a data).bind fun l =>
        if ∀ x ∈ l, x = 0 then none else some (a, l.map fun x => if x = 0 then eps else x)
      if v ≠ [] then some ⟨k.1, k.2, v⟩ else none) := by
  have hz : ∀ order : List String, List.zip (order.filter fun a =>
        (dget a data).any fun l => decide (l ≠ List.replicate l.length 0))
      (prepareData eps ((order.filter fun a =>
        (dget a data).any fun l => decide (l ≠ List.replicate l.length 0)).map fun a => (dget a data).getD [])) =
      order.filterMap fun a => (dget a data).bind fun l =>
        if ∀ x ∈ l, x = 0 then none else some (a, l.map fun x => if x = 0 then eps else x) := by
    intro order
    induction order with
    | nil => rfl
    | cons a order ih =>
      rw [List.filterMap_cons, List.filter_cons]
      cases hd : dget a data with
      | none => simpa using ih
      | some l =>
        have hiff : l = List.replicate l.length 0 ↔ ∀ x ∈ l, x = 0 := by
          rw [List.eq_replicate_iff]; simp
        simp only [Option.bind_some, Option.any_some]
        by_cases hl : ∀ x ∈ l, x = 0
        · rw [if_neg (by simpa using hiff.2 hl), if_pos hl]
          exact ih
        · rw [if_pos (by simpa [hiff] using hl), if_neg hl]
          simp only [List.map_cons, prepareData, List.zip_cons_cons, hd, Option.getD_some] at ih ⊢
          rw [ih]
          congr 2
          refine List.map_congr_left fun x _ => ?_
          by_cases hx : x = 0 <;> simp [hx]
  unfold violinFigure
  simp only
  rw [hz algosOrder, algosOrder_eq]
  have hne : ∀ l : List String, (prepareData eps ((l.filter fun a =>
        (dget a data).any fun l => decide (l ≠ List.replicate l.length 0)).map fun a => (dget a data).getD []) ≠ []) ↔
      (l.filterMap fun a => (dget a data).bind fun l =>
        if ∀ x ∈ l, x = 0 then none else some (a, l.map fun x => if x = 0 then eps else x)) ≠ [] := by
    intro l
    rw [← hz l]
    simp only [prepareData, ne_eq, List.map_eq_nil_iff, List.zip_eq_nil_iff, or_self]
  by_cases hv : (legend.filterMap fun a => (dget a data).bind fun l =>
        if ∀ x ∈ l, x = 0 then none else some (a, l.map fun x => if x = 0 then eps else x)) = []
  · rw [if_neg, if_neg (by simpa using hv)]
    exact fun h => (hne legend).1 h hv
  · rw [if_pos ((hne legend).2 hv), if_pos hv]

/-- **C118.** `violin` draws one figure for every problem and ranked metric with a violin, and in it the
samples of the algorithms of the legend that count and are not zero throughout. -/
theorem C118_violin_partial (eps : K) (dirs : Dirs K) (h : Filed dirs) (hg : ∀ p ∈ dirs, ∀ a ∈ p.2, a.2 ≠ []) :
    ∃ figs, violin eps dirs = some figs ∧ (figs.map fun f => (f.problem, f.metric)).Nodup ∧
      (∀ p m, (∃ f ∈ figs, f.problem = p ∧ f.metric = m) ↔ m ∈ drawn ∧ violins eps dirs p m ≠ []) ∧
      ∀ f ∈ figs, f.violins = violins eps dirs f.problem f.metric := by
  obtain ⟨d, hd⟩ : ∃ d, d = dset ("UF2", "pdi") [] id (assignAll (allSamples dirs) []) := ⟨_, rfl⟩
  have hn : (d.map Prod.fst).Nodup := by
    rw [hd]; exact nodup_dset _ _ _ _ (nodup_assignAll _ _ (by simp))
  have hst : ∀ k a, k.2 ∈ drawn → stored d k a = sample dirs k.1 k.2 a := by
    intro k a hk
    have h1 : stored d k a = stored (assignAll (allSamples dirs) []) k a := by
      rw [hd]
      unfold stored
      rw [dget_dset]
      by_cases hk : ("UF2", "pdi") = k
      · rw [if_pos hk, hk]; simp
      · rw [if_neg hk]
    rw [h1, stored_assignAll (allSamples dirs) (fun k a => sample dirs k.1 k.2 a) (fun e he => sample_of_mem dirs h he)]
    split_ifs with hm
    · rfl
    · cases hs : sample dirs k.1 k.2 a with
      | none => rfl
      | some l =>
        exact absurd (List.mem_map.2 ⟨_, mem_of_sample dirs hk hs, rfl⟩) hm
  have hkeys : ∀ k, k ∈ d.map Prod.fst ↔ k = ("UF2", "pdi") ∨ k ∈ (allSamples dirs).map Prod.fst := by
    intro k
    rw [hd, keys_dset, keys_assignAll]
    simp
  have hdrawn : ∀ k ∈ d.map Prod.fst, k.2 ∈ drawn := by
    intro k hk
    rcases (hkeys k).1 hk with rfl | hk
    · simp [drawn]
    · obtain ⟨e, he, rfl⟩ := List.mem_map.1 hk
      exact ((mem_allSamples dirs e).1 he).1
  have hfig : ∀ e ∈ d, violinFigure eps e =
      if violins eps dirs e.1.1 e.1.2 ≠ [] then some ⟨e.1.1, e.1.2, violins eps dirs e.1.1 e.1.2⟩ else none := by
    intro e he
    have hv : (legend.filterMap fun a => (dget a e.2).bind fun l =>
        if ∀ x ∈ l, x = 0 then none else some (a, l.map fun x => if x = 0 then eps else x)) =
        violins eps dirs e.1.1 e.1.2 := by
      unfold violins
      refine List.filterMap_congr fun a _ => ?_
      rw [← hst e.1 a (hdrawn _ (List.mem_map_of_mem he))]
      unfold stored
      rw [dget_eq hn he]
      rfl
    rw [← hv]
    exact violinFigure_eq eps e.1 e.2
  have hres : violin eps dirs = some (d.filterMap fun e =>
      if violins eps dirs e.1.1 e.1.2 ≠ [] then some ⟨e.1.1, e.1.2, violins eps dirs e.1.1 e.1.2⟩ else none) := by
    unfold violin
    rw [collectSamples_eq dirs hg h.values, Option.map_some, ← hd]
    congr 1
    exact List.filterMap_congr hfig
  have hmem : ∀ f : ViolinFigure K, f ∈ (d.filterMap fun e =>
      if violins eps dirs e.1.1 e.1.2 ≠ [] then
        some (⟨e.1.1, e.1.2, violins eps dirs e.1.1 e.1.2⟩ : ViolinFigure K) else none) ↔
      ∃ k ∈ d.map Prod.fst, violins eps dirs k.1 k.2 ≠ [] ∧ f = ⟨k.1, k.2, violins eps dirs k.1 k.2⟩ := by
    intro f
    rw [List.mem_filterMap]
    constructor
    · rintro ⟨e, he, hf⟩
      split_ifs at hf with hv
      exact ⟨e.1, List.mem_map_of_mem he, hv, (Option.some.inj hf).symm⟩
    · rintro ⟨k, hk, hv, rfl⟩
      obtain ⟨e, he, rfl⟩ := List.mem_map.1 hk
      exact ⟨e, he, if_pos hv⟩
  refine ⟨_, hres, ?_, ?_, ?_⟩
  · have hsub : ∀ l : Samples K, (((l.filterMap fun e =>
        if violins eps dirs e.1.1 e.1.2 ≠ [] then
          some (⟨e.1.1, e.1.2, violins eps dirs e.1.1 e.1.2⟩ : ViolinFigure K) else none).map
        fun f => (f.problem, f.metric))).Sublist (l.map Prod.fst) := by
      intro l
      induction l with
      | nil => simp
      | cons e l ih =>
        rw [List.filterMap_cons]
        split_ifs with hv
        · exact ih.cons_cons _
        · exact ih.cons _
    exact (hsub d).nodup hn
  · intro p m
    constructor
    · rintro ⟨f, hf, rfl, rfl⟩
      obtain ⟨k, hk, hv, rfl⟩ := (hmem f).1 hf
      exact ⟨hdrawn k hk, hv⟩
    · rintro ⟨hm, hv⟩
      refine ⟨⟨p, m, violins eps dirs p m⟩, (hmem _).2 ⟨(p, m), ?_, hv, rfl⟩, rfl, rfl⟩
      obtain ⟨x, hx⟩ := List.exists_mem_of_ne_nil _ hv
      obtain ⟨a, -, ha⟩ := List.mem_filterMap.1 hx
      obtain ⟨l, hl, -⟩ := Option.bind_eq_some_iff.1 ha
      exact (hkeys _).2 (.inr (List.mem_map.2 ⟨_, mem_of_sample dirs hm hl, rfl⟩))
  · intro f hf
    obtain ⟨k, hk, hv, rfl⟩ := (hmem f).1 hf
    rfl

/-- **C118.** Violated: an algorithm that is not in the legend has no violin, and neither has one whose
values are all zero (a perfect distance from the front, for instance). -/
theorem C118_missing_violated (eps : K) (dirs : Dirs K) (h : Filed dirs) (hg : ∀ p ∈ dirs, ∀ a ∈ p.2, a.2 ≠ [])
    {figs : List (ViolinFigure K)} (hf : violin eps dirs = some figs) {f : ViolinFigure K} (hff : f ∈ figs) {a : String}
    (ha : a ∉ legend ∨ ∃ l, sample dirs f.problem f.metric a = some l ∧ ∀ x ∈ l, x = 0) :
    a ∉ f.violins.map Prod.fst := by
  obtain ⟨figs', e1, -, -, e4⟩ := C118_violin_partial eps dirs h hg
  obtain rfl := Option.some.inj (e1.symm.trans hf)
  rw [e4 f hff]
  intro hm
  obtain ⟨x, hx, rfl⟩ := List.mem_map.1 hm
  obtain ⟨b, hb, hx⟩ := List.mem_filterMap.1 hx
  obtain ⟨l, hl, hx⟩ := Option.bind_eq_some_iff.1 hx
  split_ifs at hx with h0
  obtain rfl := Option.some.inj hx
  rcases ha with ha | ⟨l', hl', h0'⟩
  · exact ha hb
  · obtain rfl := Option.some.inj (hl.symm.trans hl')
    exact h0 h0'

/-! ## Examples -/

/-- NSGAII has reached the front, IBEA has in one of two runs, SPEA2 is not in the legend. -/
def exViolins : Dirs ℚ :=
  [("ZDT1", [("IBEA", [exGroup 1 1 0]), ("NSGAII", [(1, fun _ => [0, 0])]), ("SPEA2", [exGroup 1 1 3])]),
    ("UF1", [("SPEA2", [exGroup 1 1 3])])]

theorem exViolins_filed : Filed exViolins := by
  refine ⟨by decide, by decide, by decide, ?_⟩
  intro p hp a ha g hg m
  simp only [exViolins, List.mem_cons, List.not_mem_nil, or_false] at hp
  rcases hp with rfl | rfl <;> simp only [List.mem_cons, List.not_mem_nil, or_false] at ha
  · rcases ha with rfl | rfl | rfl <;> simp only [List.mem_cons, List.not_mem_nil, or_false] at hg <;> subst hg
    · exact (exGroup_values (by norm_num) (by norm_num) m).1
    · simp
    · exact (exGroup_values (by norm_num) (by norm_num) m).1
  · subst ha
    simp only [List.mem_cons, List.not_mem_nil, or_false] at hg
    subst hg
    exact (exGroup_values (by norm_num) (by norm_num) m).1

/-- The hypotheses of `C118_violin_partial`. -/
example : Filed exViolins ∧ ∀ p ∈ exViolins, ∀ a ∈ p.2, a.2 ≠ [] := ⟨exViolins_filed, by decide⟩

/-- One figure per metric, for ZDT1 only, with a single violin. -/
example : ((violin (1 / 1000) exViolins).map fun figs => figs.map fun f => (f.problem, f.metric)) =
    some [("ZDT1", "gd"), ("ZDT1", "igd"), ("ZDT1", "ahd"), ("ZDT1", "spacing"), ("ZDT1", "hypervolume"),
      ("ZDT1", "pdi")] := by decide +kernel

example : ((violin (1 / 1000) exViolins).map fun figs => (figs.filter fun f => f.metric = "gd").map
    fun f => f.violins) = some [[("IBEA", [1 / 1000, 1])]] := by decide +kernel

end Evogil.Plots
