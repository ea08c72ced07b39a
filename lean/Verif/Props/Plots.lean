import Verif.Model.Plots
import Verif.Spec.Plots
import Verif.Props.RankingRun

/-! # C116: the figures of `pictures` -/

set_option linter.unusedSectionVars false

namespace Evogil.Plots

open RankingRun Spec

section dict
variable {β : Type*}

theorem dictGet_iff {l : List (String × β)} (h : (l.map Prod.fst).Nodup) (k : String) (v : β) :
    dictGet l k = some v ↔ (k, v) ∈ l := by
  unfold dictGet
  constructor
  · intro hv
    obtain ⟨e, he, rfl⟩ := Option.map_eq_some_iff.1 hv
    have h1 := List.mem_of_find?_eq_some he
    have h2 := List.find?_some he
    simp only [decide_eq_true_eq] at h2
    subst h2
    simpa using h1
  · intro hm
    cases hf : l.reverse.find? (fun e => decide (e.1 = k)) with
    | none =>
      rw [List.find?_eq_none] at hf
      have := hf (k, v) (by simpa using hm)
      simp at this
    | some e =>
      have h1 := List.mem_of_find?_eq_some hf
      have h2 := List.find?_some hf
      simp only [decide_eq_true_eq] at h2
      have : e = (k, v) := List.inj_on_of_nodup_map h (by simpa using h1) hm h2
      rw [this]; rfl

theorem dictGet_none {l : List (String × β)} (k : String) : dictGet l k = none ↔ k ∉ l.map Prod.fst := by
  unfold dictGet
  rw [Option.map_eq_none_iff, List.find?_eq_none]
  simp only [List.mem_reverse, decide_eq_true_eq, List.mem_map, not_exists, not_and]

end dict

theorem algosOrder_eq : algosOrder = legend := by decide +kernel

theorem legend_algos : ∀ a ∈ legend, a ∈ algos := by decide +kernel

theorem groups_legend {a : String} (h : a ∈ legend) : dictGet algosGroups a = some [""] := by
  revert a; decide +kernel

theorem groups_other {a : String} (h : a ∉ legend) : dictGet algosGroups a = none := by
  rw [dictGet_none]
  have : algosGroups.map Prod.fst = legend := by decide +kernel
  rwa [this]

variable {K : Type*} [Field K] [LinearOrder K] [IsStrictOrderedRing K]

/-- The values that a result contributes. -/
def resEvents (p a : String) (r : Res K) : List ((String × String × String × String) × (K × K)) :=
  drawn.map fun m => ((p, a, m, ""), (r.1, meanOf (r.2 m)))

theorem addSeries_eq {p a : String} (ha : a ∈ legend) (r : Res K) (hv : ∀ m, r.2 m ≠ []) (d : Series K) :
    addSeries p a r.1 (yieldMetrics r) d = some (pushAll (resEvents p a r) d) := by
  simp [yieldMetrics, addSeries, bestFunc, score_eq (hv _), groups_legend ha, resEvents, drawn, pushAll]

theorem addSeries_none {p a : String} (ha : a ∉ legend) (r : Res K) (d : Series K) :
    addSeries p a r.1 (yieldMetrics r) d = none := by
  have hskip : ∀ (e : String × List K) (rest : List (String × List K)), bestFunc e.1 = none →
      addSeries p a r.1 (e :: rest) d = addSeries p a r.1 rest d := by
    intro e rest he
    rw [addSeries, he]; simp
  have hfail : ∀ (e : String × List K) (rest : List (String × List K)), (bestFunc e.1).isSome →
      addSeries p a r.1 (e :: rest) d = none := by
    intro e rest he
    rw [addSeries, if_pos he, groups_other ha]
    cases score e.2 <;> rfl
  unfold yieldMetrics
  rw [List.map_cons, hskip _ _ rfl, List.map_cons, hfail _ _ rfl]

/-- The values that all results contribute. -/
def timeEvents (dirs : Dirs K) : List ((String × String × String × String) × (K × K)) :=
  dirs.flatMap fun p => p.2.flatMap fun a => a.2.flatMap fun r => resEvents p.1 a.1 r

theorem collectTime_eq (dirs : Dirs K) (ha : ∀ p ∈ dirs, ∀ a ∈ p.2, a.2 ≠ [] → a.1 ∈ legend)
    (hv : ∀ p ∈ dirs, ∀ a ∈ p.2, ∀ r ∈ a.2, ∀ m, r.2 m ≠ []) :
    collectTime dirs = some (pushAll (timeEvents dirs) []) := by
  unfold collectTime
  rw [foldlM_some _ (fun d p => pushAll (p.2.flatMap fun a => a.2.flatMap fun r => resEvents p.1 a.1 r) d),
    foldl_pushAll]
  · rfl
  · intro p hp d
    rw [foldlM_some _ (fun d a => pushAll (a.2.flatMap fun r => resEvents p.1 a.1 r) d), foldl_pushAll]
    intro a haa d
    rw [foldlM_some _ (fun d r => pushAll (resEvents p.1 a.1 r) d), foldl_pushAll]
    intro r hr d
    exact addSeries_eq (ha p hp a haa (List.ne_nil_of_mem hr)) r (hv p hp a haa r hr) d

theorem filter_resEvents (p a : String) (r : Res K) (k : String × String × String × String) :
    ((resEvents p a r).filter fun e => decide (e.1 = k)).map Prod.snd =
      if p = k.1 ∧ a = k.2.1 ∧ k.2.2.1 ∈ drawn ∧ k.2.2.2 = "" then [(r.1, meanOf (r.2 k.2.2.1))] else [] := by
  obtain ⟨p', a', m', g'⟩ := k
  unfold resEvents
  by_cases h : p = p' ∧ a = a' ∧ m' ∈ drawn ∧ g' = ""
  · obtain ⟨rfl, rfl, hm, rfl⟩ := h
    rw [if_pos ⟨rfl, rfl, hm, rfl⟩]
    simp only [drawn, List.mem_cons, List.not_mem_nil, or_false] at hm
    rcases hm with rfl | rfl | rfl | rfl | rfl | rfl <;> simp [drawn]
  · rw [if_neg h, List.filter_eq_nil_iff.2, List.map_nil]
    intro e he
    obtain ⟨m, hm, rfl⟩ := List.mem_map.1 he
    simp only [Prod.mk.injEq, decide_eq_true_eq]
    rintro ⟨rfl, rfl, rfl, rfl⟩
    exact h ⟨rfl, rfl, hm, rfl⟩

theorem flatMap_unique {α β κ : Type*} [DecidableEq κ] (key : α → κ) (f : α → List β) :
    ∀ (l : List α), (l.map key).Nodup → ∀ x ∈ l,
    (l.flatMap fun y => if key y = key x then f y else []) = f x := by
  intro l
  induction l with
  | nil => intro _ x hx; simp at hx
  | cons y l ih =>
    intro hn x hx
    rw [List.map_cons, List.nodup_cons] at hn
    rw [List.flatMap_cons]
    rcases List.mem_cons.1 hx with rfl | hx
    · rw [if_pos rfl, List.flatMap_eq_nil_iff.2, List.append_nil]
      intro z hz
      rw [if_neg]
      intro h
      exact hn.1 (h ▸ List.mem_map_of_mem hz)
    · rw [if_neg, List.nil_append, ih hn.2 x hx]
      intro h
      exact hn.1 (h ▸ List.mem_map_of_mem hx)

theorem get_timeEvents (dirs : Dirs K) (h : Filed dirs) {p : String × List (String × List (Res K))}
    (hp : p ∈ dirs) {a : String × List (Res K)} (ha : a ∈ p.2) {m : String} (hm : m ∈ drawn) :
    RankingRun.get (pushAll (timeEvents dirs) []) (p.1, a.1, m, "") = a.2.map fun g => (g.1, meanOf (g.2 m)) := by
  rw [get_pushAll]
  simp only [RankingRun.get, List.nil_append]
  unfold timeEvents
  rw [filter_flatMap_map]
  rw [← flatMap_unique Prod.fst (fun q : String × List (String × List (Res K)) =>
    q.2.flatMap fun b => if b.1 = a.1 then b.2.map fun g => (g.1, meanOf (g.2 m)) else []) dirs h.problems p hp |>.trans
    (flatMap_unique Prod.fst (fun b : String × List (Res K) => b.2.map fun g => (g.1, meanOf (g.2 m)))
      p.2 (h.algos p hp) a ha)]
  congr 1; funext q
  rw [filter_flatMap_map]
  by_cases hq : q.1 = p.1
  · rw [if_pos hq]
    congr 1; funext b
    rw [filter_flatMap_map]
    simp only [filter_resEvents]
    by_cases hb : b.1 = a.1
    · rw [if_pos hb]
      simp [hq, hb, hm]
      induction b.2 with
      | nil => rfl
      | cons x l ih => simp [List.flatMap_cons, ih]
    · rw [if_neg hb]; simp [hb]
  · rw [if_neg hq]
    simp only [filter_flatMap_map, filter_resEvents]
    simp [hq]

theorem mem_timeEvents (dirs : Dirs K) (k : String × String × String × String) :
    k ∈ (timeEvents dirs).map Prod.fst ↔
      k.2.2.1 ∈ drawn ∧ k.2.2.2 = "" ∧ ∃ p ∈ dirs, p.1 = k.1 ∧ ∃ a ∈ p.2, a.1 = k.2.1 ∧ a.2 ≠ [] := by
  obtain ⟨p', a', m', g'⟩ := k
  unfold timeEvents resEvents
  simp only [List.mem_map, List.mem_flatMap]
  constructor
  · rintro ⟨e, ⟨p, hp, a, ha, r, hr, m, hm, rfl⟩, he⟩
    simp only [Prod.mk.injEq] at he
    obtain ⟨rfl, rfl, rfl, rfl⟩ := he
    exact ⟨hm, rfl, p, hp, rfl, a, ha, rfl, List.ne_nil_of_mem hr⟩
  · rintro ⟨hm, hg, p, hp, rfl, a, ha, rfl, hne⟩
    obtain ⟨r, hr⟩ := List.exists_mem_of_ne_nil _ hne
    exact ⟨_, ⟨p, hp, a, ha, r, hr, m', hm, rfl⟩, by simp [hg]⟩

/-! ## The curves -/

theorem curves_eq (data : List (String × List (K × K))) (order : List String) (ho : ∀ a ∈ order, a ∈ algos) :
    curves data order = some (order.filterMap fun a => (dictGet data a).map fun pts => (a, pts)) := by
  induction order with
  | nil => rfl
  | cons a rest ih =>
    unfold curves
    rw [ih (fun b hb => ho b (List.mem_cons_of_mem _ hb)), List.filterMap_cons]
    cases dictGet data a with
    | none => rfl
    | some pts => simp [ho a (by simp)]

theorem toPlot_eq (d : Series K) :
    toPlot d = pushAll (d.map fun e => ((e.1.1, e.1.2.2), (e.1.2.1, e.2.insertionSort fun x y => x.1 ≤ y.1))) [] := by
  unfold toPlot pushAll
  rw [List.foldl_map]

theorem filterMap_names (order : List String) (data : List (String × List (K × K))) :
    ((order.filterMap fun a => (dictGet data a).map fun pts => (a, pts)).map Prod.fst).Sublist order := by
  induction order with
  | nil => simp
  | cons a rest ih =>
    rw [List.filterMap_cons]
    cases dictGet data a with
    | none => exact ih.cons _
    | some pts => exact ih.cons_cons _

theorem isCurve_sort {groups : List (Res K)} {m : String} (h : (groups.map Prod.fst).Nodup) :
    IsCurve groups m ((groups.map fun g => (g.1, meanOf (g.2 m))).insertionSort fun x y => x.1 ≤ y.1) := by
  have hperm := List.perm_insertionSort (fun x y : K × K => x.1 ≤ y.1) (groups.map fun g => (g.1, meanOf (g.2 m)))
  refine ⟨?_, hperm⟩
  have : Std.Total (α := K × K) (fun x y => x.1 ≤ y.1) := ⟨fun x y => le_total _ _⟩
  have : IsTrans (K × K) (fun x y => x.1 ≤ y.1) := ⟨fun x y z => le_trans⟩
  have h1 := List.pairwise_insertionSort (fun x y : K × K => x.1 ≤ y.1) (groups.map fun g => (g.1, meanOf (g.2 m)))
  have h2 : (((groups.map fun g => (g.1, meanOf (g.2 m))).insertionSort fun x y => x.1 ≤ y.1).map Prod.fst).Nodup := by
    rw [(hperm.map Prod.fst).nodup_iff, List.map_map]
    exact h
  rw [List.Nodup, List.pairwise_map] at h2
  exact (h1.and h2).imp fun ⟨a, b⟩ => lt_of_le_of_ne a b

/-- What is drawn for a problem and a metric. -/
theorem figure_curves (dirs : Dirs K) (h : Filed dirs) {d : Series K} (hd : d = pushAll (timeEvents dirs) [])
    {e : (String × String × String) × List (String × List (K × K))} (he : e ∈ toPlot d)
    {p : String × List (String × List (Res K))} (hp : p ∈ dirs) (hpe : p.1 = e.1.1)
    (hleg : ∀ a ∈ p.2, a.2 ≠ [] → a.1 ∈ legend) :
    e.1.2.1 ∈ drawn ∧ e.1.2.2 = "" ∧ ∃ c, curves (e.2.insertionSort fun x y => x.1 ≤ y.1) algosOrder = some c ∧
      CurvesOk p.2 e.1.2.1 c := by
  have hdn : (d.map Prod.fst).Nodup := hd ▸ nodup_pushAll _ _ (by simp)
  have hkeys : ∀ k, k ∈ d.map Prod.fst ↔
      k.2.2.1 ∈ drawn ∧ k.2.2.2 = "" ∧ ∃ p ∈ dirs, p.1 = k.1 ∧ ∃ a ∈ p.2, a.1 = k.2.1 ∧ a.2 ≠ [] := by
    intro k
    rw [hd, keys_pushAll, mem_timeEvents]
    simp
  have htn : ((toPlot d).map Prod.fst).Nodup := by rw [toPlot_eq]; exact nodup_pushAll _ _ (by simp)
  have he2 : e.2 = (d.filter fun x => decide ((x.1.1, x.1.2.2) = e.1)).map
      fun x => (x.1.2.1, x.2.insertionSort fun x y => x.1 ≤ y.1) := by
    rw [← get_eq htn he, toPlot_eq, get_pushAll]
    simp only [RankingRun.get, List.nil_append, List.filter_map, List.map_map]
    rfl
  have hkey : e.1.2.1 ∈ drawn ∧ e.1.2.2 = "" := by
    have : e.1 ∈ (toPlot d).map Prod.fst := List.mem_map_of_mem he
    rw [toPlot_eq, keys_pushAll] at this
    simp only [List.map_map, List.map_nil, List.not_mem_nil, or_false, List.mem_map, Function.comp] at this
    obtain ⟨x, hx, hxe⟩ := this
    have := (hkeys x.1).1 (List.mem_map_of_mem hx)
    rw [← hxe]
    exact ⟨this.1, this.2.1⟩
  have hnn : (e.2.map Prod.fst).Nodup := by
    rw [he2, List.map_map]
    refine List.Nodup.map_on ?_ (hdn.of_map.filter _)
    intro x hx y hy hxy
    simp only [List.mem_filter, decide_eq_true_eq] at hx hy
    simp only [Function.comp] at hxy
    refine List.inj_on_of_nodup_map hdn hx.1 hy.1 ?_
    have := hx.2.trans hy.2.symm
    simp only [Prod.mk.injEq] at this
    exact Prod.ext this.1 (Prod.ext hxy this.2)
  have hperm := List.perm_insertionSort (fun x y : String × List (K × K) => x.1 ≤ y.1) e.2
  have hsn : ((e.2.insertionSort fun x y => x.1 ≤ y.1).map Prod.fst).Nodup :=
    ((hperm.map Prod.fst).nodup_iff).2 hnn
  refine ⟨hkey.1, hkey.2, _, (by rw [algosOrder_eq]; exact curves_eq _ _ legend_algos), ?_⟩
  -- which points
  have hmem : ∀ (a : String) (pts : List (K × K)), (a, pts) ∈ (e.2.insertionSort fun x y => x.1 ≤ y.1) ↔
      ∃ b ∈ p.2, b.1 = a ∧ b.2 ≠ [] ∧
        pts = (b.2.map fun g => (g.1, meanOf (g.2 e.1.2.1))).insertionSort fun x y => x.1 ≤ y.1 := by
    intro a pts
    rw [hperm.mem_iff, he2]
    simp only [List.mem_map, List.mem_filter, decide_eq_true_eq, Prod.mk.injEq]
    constructor
    · rintro ⟨x, ⟨hx, hxe⟩, rfl, rfl⟩
      obtain ⟨h1, h2, q, hq, hq1, b, hb, hb1, hb2⟩ := (hkeys x.1).1 (List.mem_map_of_mem hx)
      have hxe' := hxe
      rw [← hxe] at hpe ⊢
      simp only at hpe
      obtain rfl : q = p := List.inj_on_of_nodup_map h.problems hq hp (hq1.trans hpe.symm)
      refine ⟨b, hb, hb1, hb2, ?_⟩
      congr 1
      have hxk : x.1 = (q.1, b.1, x.1.2.2.1, "") := by
        rw [hq1, hb1, ← h2]
      have := get_timeEvents dirs h hq hb h1
      rw [← hd, ← hxk, get_eq hdn hx] at this
      exact this
    · rintro ⟨b, hb, rfl, hb2, rfl⟩
      have hk := (hkeys (p.1, b.1, e.1.2.1, "")).2 ⟨hkey.1, rfl, p, hp, rfl, b, hb, rfl, hb2⟩
      refine ⟨_, ⟨mem_get hk, ?_⟩, rfl, ?_⟩
      · exact Prod.ext hpe (Prod.ext rfl hkey.2.symm)
      · rw [← get_timeEvents dirs h hp hb hkey.1, hd]
  refine ⟨filterMap_names _ _, ?_, ?_⟩
  · intro a ha hne
    rw [List.mem_map]
    refine ⟨(a.1, (a.2.map fun g => (g.1, meanOf (g.2 e.1.2.1))).insertionSort fun x y => x.1 ≤ y.1),
      List.mem_filterMap.2 ⟨a.1, hleg a ha hne, ?_⟩, rfl⟩
    · rw [(dictGet_iff hsn _ _).2 ((hmem _ _).2 ⟨a, ha, rfl, hne, rfl⟩)]
      rfl
  · intro c hc
    obtain ⟨a, -, hc⟩ := List.mem_filterMap.1 hc
    obtain ⟨pts, hpts, rfl⟩ := Option.map_eq_some_iff.1 hc
    obtain ⟨b, hb, rfl, hb2, rfl⟩ := (hmem _ _).1 ((dictGet_iff hsn _ _).1 hpts)
    exact ⟨b, hb, rfl, hb2, isCurve_sort (h.groups p hp b hb)⟩

theorem mapM_some {α β : Type*} (f : α → Option β) (g : α → β) (l : List α) (h : ∀ x ∈ l, f x = some (g x)) :
    l.mapM f = some (l.map g) := by
  induction l with
  | nil => rfl
  | cons x l ih =>
    rw [List.mapM_cons, h x (by simp), ih (fun y hy => h y (List.mem_cons_of_mem _ hy))]
    rfl

theorem mapM_exists {α β : Type*} (f : α → Option β) (l : List α) (h : ∀ x ∈ l, ∃ y, f x = some y) :
    ∃ r, l.mapM f = some r ∧ List.Forall₂ (fun x y => f x = some y) l r := by
  induction l with
  | nil => exact ⟨[], rfl, .nil⟩
  | cons x l ih =>
    obtain ⟨y, hy⟩ := h x (by simp)
    obtain ⟨r, h1, h2⟩ := ih (fun z hz => h z (List.mem_cons_of_mem _ hz))
    refine ⟨y :: r, ?_, .cons hy h2⟩
    rw [List.mapM_cons, hy, h1]
    rfl

theorem mem_right {α β : Type*} {R : α → β → Prop} {l : List α} {r : List β} (h : List.Forall₂ R l r) {y : β}
    (hy : y ∈ r) : ∃ x ∈ l, R x y := by
  induction h with
  | nil => simp at hy
  | cons hxy _ ih =>
    rcases List.mem_cons.1 hy with rfl | hy
    · exact ⟨_, by simp, hxy⟩
    · obtain ⟨x, hx, h⟩ := ih hy
      exact ⟨x, List.mem_cons_of_mem _ hx, h⟩

theorem push_head {κ β : Type*} [DecidableEq κ] (k : κ) (v : β) (e : κ × List β) (d : List (κ × List β)) :
    ∃ l d', push k v (e :: d) = (e.1, l) :: d' := by
  unfold push
  split_ifs
  · exact ⟨_, _, rfl⟩
  · exact ⟨_, _, rfl⟩

theorem pushAll_head {κ β : Type*} [DecidableEq κ] (evs : List (κ × β)) :
    ∀ (e : κ × List β) (d : List (κ × List β)), ∃ l d', pushAll evs (e :: d) = (e.1, l) :: d' := by
  induction evs with
  | nil => intro e d; exact ⟨_, _, rfl⟩
  | cons x evs ih =>
    intro e d
    obtain ⟨l, d', h⟩ := push_head x.1 x.2 e d
    obtain ⟨l', d'', h'⟩ := ih (e.1, l) d'
    refine ⟨l', d'', ?_⟩
    show pushAll evs (push x.1 x.2 (e :: d)) = _
    rw [h, h']

theorem first_event (dirs : Dirs K) (a : String × List (Res K))
    (ha : (dirs.flatMap Prod.snd).find? (fun a => !a.2.isEmpty) = some a) :
    ∃ p ∈ dirs, a ∈ p.2 ∧ ∃ v rest, timeEvents dirs = ((p.1, a.1, "gd", ""), v) :: rest := by
  have halgo : ∀ (p : String) (l : List (String × List (Res K))),
      (l.find? (fun a => !a.2.isEmpty) = none → (l.flatMap fun a => a.2.flatMap fun r => resEvents p a.1 r) = []) ∧
      ∀ a, l.find? (fun a => !a.2.isEmpty) = some a →
        ∃ v rest, (l.flatMap fun a => a.2.flatMap fun r => resEvents p a.1 r) = ((p, a.1, "gd", ""), v) :: rest := by
    intro p l
    induction l with
    | nil => simp
    | cons b l ih =>
      obtain ⟨b1, b2⟩ := b
      cases b2 with
      | nil => simpa [List.flatMap_cons] using ih
      | cons r b2 =>
        refine ⟨by simp, ?_⟩
        intro a h
        simp only [List.find?_cons, List.isEmpty_cons, Bool.not_false, Option.some.injEq] at h
        subst h
        exact ⟨(r.1, meanOf (r.2 "gd")), _, rfl⟩
  induction dirs with
  | nil => simp at ha
  | cons p dirs ih =>
    rw [List.flatMap_cons, List.find?_append] at ha
    unfold timeEvents
    rw [List.flatMap_cons]
    cases hf : p.2.find? (fun a => !a.2.isEmpty) with
    | none =>
      rw [hf, Option.none_or] at ha
      obtain ⟨q, hq, haq, v, rest, h⟩ := ih ha
      refine ⟨q, List.mem_cons_of_mem _ hq, haq, v, rest, ?_⟩
      rw [(halgo p.1 p.2).1 hf]
      exact h
    | some b =>
      rw [hf, Option.some_or] at ha
      obtain rfl := Option.some.inj ha
      obtain ⟨v, rest, h⟩ := (halgo p.1 p.2).2 b hf
      refine ⟨p, by simp, List.mem_of_find?_eq_some hf, v, rest ++ timeEvents dirs, ?_⟩
      rw [h]
      rfl

/-- **C116.** If every algorithm with results is in the legend and there is a result, `pictures` draws
one figure for every ranked metric and every problem with results, with the curve of every algorithm; the
figures show the times from 0 to the last time of the first algorithm with results. -/
theorem C116_pictures_partial (dirs : Dirs K) (h : Filed dirs)
    (hleg : ∀ p ∈ dirs, ∀ a ∈ p.2, a.2 ≠ [] → a.1 ∈ legend) (a₀ : String × List (Res K))
    (ha₀ : (dirs.flatMap Prod.snd).find? (fun a => !a.2.isEmpty) = some a₀) :
    ∃ figs, picturesTime dirs = some figs ∧
      (figs.map fun f => (f.problem, f.metric)).Nodup ∧
      (∀ p m, (∃ f ∈ figs, f.problem = p ∧ f.metric = m) ↔
        m ∈ drawn ∧ ∃ q ∈ dirs, q.1 = p ∧ ∃ a ∈ q.2, a.2 ≠ []) ∧
      (∀ f ∈ figs, ∀ q ∈ dirs, q.1 = f.problem → CurvesOk q.2 f.metric f.curves) ∧
      ∀ f ∈ figs, f.range.1 = 0 ∧ f.range.2 ∈ a₀.2.map Prod.fst ∧ ∀ g ∈ a₀.2, g.1 ≤ f.range.2 := by
  obtain ⟨p₀, hp₀, hap₀, v, rest, hev⟩ := first_event dirs a₀ ha₀
  have hne₀ : a₀.2 ≠ [] := by have := List.find?_some ha₀; simpa using this
  obtain ⟨l, d', hl⟩ := pushAll_head rest ((p₀.1, a₀.1, "gd", ""), [v]) []
  have hd : pushAll (timeEvents dirs) [] = ((p₀.1, a₀.1, "gd", ""), l) :: d' := by rw [hev]; exact hl
  have hll : l = a₀.2.map fun g => (g.1, meanOf (g.2 "gd")) := by
    rw [← get_timeEvents dirs h hp₀ hap₀ (m := "gd") (by simp [drawn]), hd]
    simp [RankingRun.get]
  obtain ⟨t, ht⟩ := Option.isSome_iff_exists.1
    (List.isSome_max?_of_ne_nil (l := l.map Prod.fst) (by rw [hll]; simpa using hne₀))
  have ht' := ht
  rw [List.max?_eq_some_iff, hll, List.map_map] at ht'
  have hcurves : ∀ e ∈ toPlot (pushAll (timeEvents dirs) []), ∃ f : Figure K,
      ((curves (e.2.insertionSort fun x y => x.1 ≤ y.1) algosOrder).map fun c =>
        (⟨e.1.1, e.1.2.1, e.1.2.2, (0, t), c⟩ : Figure K)) = some f := by
    intro e he
    rw [algosOrder_eq, curves_eq _ _ legend_algos]
    exact ⟨_, rfl⟩
  obtain ⟨figs, h1, h2⟩ := mapM_exists _ _ hcurves
  have hT : ∀ k, k ∈ (toPlot (pushAll (timeEvents dirs) [])).map Prod.fst ↔
      k.2.1 ∈ drawn ∧ k.2.2 = "" ∧ ∃ q ∈ dirs, q.1 = k.1 ∧ ∃ a ∈ q.2, a.2 ≠ [] := by
    intro k
    rw [toPlot_eq, keys_pushAll]
    simp only [List.map_map, List.map_nil, List.not_mem_nil, or_false, List.mem_map, Function.comp]
    constructor
    · rintro ⟨x, hx, rfl⟩
      have : x.1 ∈ (pushAll (timeEvents dirs) []).map Prod.fst := List.mem_map_of_mem hx
      rw [keys_pushAll, mem_timeEvents] at this
      simp only [List.map_nil, List.not_mem_nil, or_false] at this
      obtain ⟨g1, g2, q, hq, g3, a, ha, -, g4⟩ := this
      exact ⟨g1, g2, q, hq, g3, a, ha, g4⟩
    · rintro ⟨g1, g2, q, hq, g3, a, ha, g4⟩
      have : (q.1, a.1, k.2.1, "") ∈ (pushAll (timeEvents dirs) []).map Prod.fst := by
        rw [keys_pushAll, mem_timeEvents]
        exact .inl ⟨g1, rfl, q, hq, rfl, a, ha, rfl, g4⟩
      obtain ⟨x, hx, hxk⟩ := List.mem_map.1 this
      refine ⟨x, hx, ?_⟩
      rw [hxk]
      exact Prod.ext g3 (Prod.ext rfl g2.symm)
  have htn : ((toPlot (pushAll (timeEvents dirs) [])).map Prod.fst).Nodup := by
    rw [toPlot_eq]; exact nodup_pushAll _ _ (by simp)
  have hfig : ∀ f ∈ figs, ∃ e ∈ toPlot (pushAll (timeEvents dirs) []), f.problem = e.1.1 ∧ f.metric = e.1.2.1 ∧
      f.range = (0, t) ∧ curves (e.2.insertionSort fun x y => x.1 ≤ y.1) algosOrder = some f.curves := by
    intro f hf
    obtain ⟨e, he, hef⟩ := mem_right h2 hf
    obtain ⟨c, hc, rfl⟩ := Option.map_eq_some_iff.1 hef
    exact ⟨e, he, rfl, rfl, rfl, hc⟩
  have hmap : figs.map (fun f => (f.problem, f.metric)) =
      (toPlot (pushAll (timeEvents dirs) [])).map fun e => (e.1.1, e.1.2.1) := by
    clear hfig h1 htn hT hcurves
    generalize toPlot (pushAll (timeEvents dirs) []) = T at h2
    induction h2 with
    | nil => rfl
    | cons hef _ ih =>
      obtain ⟨c, hc, rfl⟩ := Option.map_eq_some_iff.1 hef
      rw [List.map_cons, List.map_cons, ih]
  have hnd : ((toPlot (pushAll (timeEvents dirs) [])).map fun e => (e.1.1, e.1.2.1)).Nodup := by
    refine List.Nodup.map_on ?_ htn.of_map
    intro x hx y hy hxy
    refine List.inj_on_of_nodup_map htn hx hy ?_
    have hx' := (hT x.1).1 (List.mem_map_of_mem hx)
    have hy' := (hT y.1).1 (List.mem_map_of_mem hy)
    simp only [Prod.mk.injEq] at hxy
    exact Prod.ext hxy.1 (Prod.ext hxy.2 (hx'.2.1.trans hy'.2.1.symm))
  refine ⟨figs, ?_, hmap ▸ hnd, ?_, ?_, ?_⟩
  · unfold picturesTime
    rw [collectTime_eq dirs hleg h.values, hd]
    simp only [ht]
    unfold plotResults
    rw [← hd]
    exact h1
  · intro p m
    have hleft : (∃ f ∈ figs, f.problem = p ∧ f.metric = m) ↔ (p, m) ∈ figs.map fun f => (f.problem, f.metric) := by
      simp [List.mem_map]
    rw [hleft, hmap, List.mem_map]
    constructor
    · rintro ⟨e, he, hpm⟩
      simp only [Prod.mk.injEq] at hpm
      obtain ⟨rfl, rfl⟩ := hpm
      have := (hT e.1).1 (List.mem_map_of_mem he)
      exact ⟨this.1, this.2.2⟩
    · rintro ⟨hm, hq⟩
      obtain ⟨e, he, hk⟩ := List.mem_map.1 ((hT (p, m, "")).2 ⟨hm, rfl, hq⟩)
      exact ⟨e, he, by rw [hk]⟩
  · intro f hf q hq hqf
    obtain ⟨e, he, g1, g2, -, g3⟩ := hfig f hf
    obtain ⟨-, -, c, hc, hok⟩ := figure_curves dirs h rfl he hq (hqf.trans g1) (hleg q hq)
    obtain rfl := Option.some.inj (hc.symm.trans g3)
    rw [g2]
    exact hok
  · intro f hf
    obtain ⟨-, -, -, -, g, -⟩ := hfig f hf
    rw [g]
    exact ⟨rfl, ht'.1, fun x hx => ht'.2 _ (List.mem_map_of_mem hx)⟩

/-- **C116.** Violated: one result of an algorithm that is not in the legend, and there are no figures
at all. -/
theorem C116_unplotted_violated (dirs : Dirs K) {p : String × List (String × List (Res K))} (hp : p ∈ dirs)
    {a : String × List (Res K)} (ha : a ∈ p.2) (hne : a.2 ≠ []) (hl : a.1 ∉ legend) :
    picturesTime dirs = none := by
  have : collectTime dirs = none := by
    obtain ⟨r, hr⟩ := List.exists_mem_of_ne_nil _ hne
    refine foldlM_none _ _ hp (fun d => ?_) _
    refine foldlM_none _ _ ha (fun d => ?_) _
    exact foldlM_none _ _ hr (fun d => addSeries_none hl r d) _
  unfold picturesTime
  rw [this]

/-- **C116.** Violated: without results the command fails. -/
theorem C116_empty_violated (dirs : Dirs K) (h : ∀ p ∈ dirs, ∀ a ∈ p.2, a.2 = []) : picturesTime dirs = none := by
  have he : timeEvents dirs = [] := by
    unfold timeEvents
    simp only [List.flatMap_eq_nil_iff]
    intro p hp a ha r hr
    rw [h p hp a ha] at hr
    simp at hr
  have : collectTime dirs = some [] := by
    rw [collectTime_eq dirs, he]
    · rfl
    · intro p hp a ha hne; exact absurd (h p hp a ha) hne
    · intro p hp a ha r hr
      rw [h p hp a ha] at hr
      simp at hr
  unfold picturesTime
  rw [this]

/-- The algorithms that `run` can be asked for and that are not in the legend. -/
theorem C116_unplotted :
    ((drivers ++ metaalgorithms.flatMap fun m => drivers.map fun d => m ++ "+" ++ d).filter
      fun a => decide (a ∉ legend)) =
      ["SPEA2", "SMSEMOA", "IMGA+SPEA2", "IMGA+SMSEMOA", "HGS+SPEA2", "HGS+SMSEMOA", "DHGS+SPEA2",
        "DHGS+SMSEMOA"] := by decide +kernel

/-! ## Examples -/

/-- Two problems; IBEA was run longer than NSGAII. -/
def exTimes : Dirs ℚ :=
  [("ZDT1", [("NSGAII", [exGroup 2 10 3, exGroup 1 20 1]), ("IBEA", [exGroup 1 20 2, exGroup 5 10 4])]),
    ("ackley", [("HGS+NSLS", []), ("HGS+IBEA", [exGroup 1 5 2])])]

theorem exTimes_filed : Filed exTimes := by
  refine ⟨by decide, by decide, by decide, ?_⟩
  intro p hp a ha g hg m
  simp only [exTimes, List.mem_cons, List.not_mem_nil, or_false] at hp
  rcases hp with rfl | rfl <;> simp only [List.mem_cons, List.not_mem_nil, or_false] at ha <;>
    rcases ha with rfl | rfl <;> simp only [List.mem_cons, List.not_mem_nil, or_false] at hg
  · rcases hg with rfl | rfl <;> exact (exGroup_values (by norm_num) (by norm_num) m).1
  · rcases hg with rfl | rfl <;> exact (exGroup_values (by norm_num) (by norm_num) m).1
  · subst hg; exact (exGroup_values (by norm_num) (by norm_num) m).1

/-- The hypotheses of `C116_pictures_partial`. -/
example : Filed exTimes ∧ (∀ p ∈ exTimes, ∀ a ∈ p.2, a.2 ≠ [] → a.1 ∈ legend) ∧
    ((exTimes.flatMap Prod.snd).find? fun a => !a.2.isEmpty).map Prod.fst = some "NSGAII" := by
  refine ⟨exTimes_filed, ?_, by decide⟩
  intro p hp a ha _
  simp only [exTimes, List.mem_cons, List.not_mem_nil, or_false] at hp
  rcases hp with rfl | rfl <;> simp only [List.mem_cons, List.not_mem_nil, or_false] at ha <;>
    rcases ha with rfl | rfl <;> decide

/-- The curves are drawn by increasing time. -/
example : ((picturesTime exTimes).map fun figs => (figs.filter fun f => f.metric = "gd").map
    fun f => (f.problem, f.range)) = some [("ZDT1", (0, 2)), ("ackley", (0, 2))] := by decide +kernel

example : ((picturesTime exTimes).map fun figs => (figs.filter fun f => f.metric = "gd").map
    fun f => f.curves) =
    some [[("NSGAII", [(1, 3 / 2), (2, 7 / 2)]), ("IBEA", [(1, 5 / 2), (5, 9 / 2)])],
      [("HGS+IBEA", [(1, 5 / 2)])]] := by decide +kernel

/-- **C116.** Violated: the curve of IBEA goes on up to the time 5, the figure ends at 2. -/
theorem C116_range_violated : ∃ dirs : Dirs ℚ, Filed dirs ∧ ∃ figs, picturesTime dirs = some figs ∧
    ∃ f ∈ figs, ∃ c ∈ f.curves, ∃ pt ∈ c.2, f.range.2 < pt.1 := by
  refine ⟨exTimes, exTimes_filed, ?_⟩
  have : ((picturesTime exTimes).any fun figs => figs.any fun f => f.curves.any fun c => c.2.any fun pt =>
      decide (f.range.2 < pt.1)) = true := by decide +kernel
  cases h : picturesTime exTimes with
  | none => rw [h] at this; simp at this
  | some figs =>
    rw [h] at this
    simp only [Option.any_some, List.any_eq_true, decide_eq_true_eq] at this
    exact ⟨figs, rfl, this⟩

/-- A single result of SPEA2 in another directory. -/
example : picturesTime (exTimes ++ [("ZDT2", [("SPEA2", [exGroup 1 5 2])])]) = none :=
  C116_unplotted_violated _ (List.mem_append_right _ (List.mem_singleton.2 rfl)) (List.mem_singleton.2 rfl)
    (by simp) (by decide)

end Evogil.Plots
