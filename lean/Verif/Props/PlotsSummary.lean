import Verif.Props.Plots

/-! # C117: the figures of `pictures_summary` -/

set_option linter.unusedSectionVars false

namespace Evogil.Plots

open RankingRun Spec

section dict
variable {κ β : Type*} [DecidableEq κ]

theorem dget_dset (k : κ) (b : β) (f : β → β) (d : List (κ × β)) (k' : κ) :
    dget k' (dset k b f d) = if k = k' then some (f ((dget k d).getD b)) else dget k' d := by
  induction d with
  | nil => by_cases h : k = k' <;> simp [dset, dget, h]
  | cons e rest ih =>
    unfold dset
    by_cases h1 : e.1 = k
    · by_cases h2 : k = k' <;> simp [dget, h1, h2]
    · rw [if_neg h1]
      by_cases h2 : e.1 = k'
      · have : k ≠ k' := fun h => h1 (h2.trans h.symm)
        simp [dget, h2, this]
      · simp only [dget, if_neg h2, ih, if_neg h1]

theorem keys_dset (k : κ) (b : β) (f : β → β) (d : List (κ × β)) (k' : κ) :
    k' ∈ (dset k b f d).map Prod.fst ↔ k' = k ∨ k' ∈ d.map Prod.fst := by
  induction d with
  | nil => simp [dset]
  | cons e rest ih =>
    unfold dset
    by_cases h1 : e.1 = k
    · rw [if_pos h1]; simp only [List.map_cons, List.mem_cons, h1]; tauto
    · rw [if_neg h1]; simp only [List.map_cons, List.mem_cons, ih]; tauto

theorem nodup_dset (k : κ) (b : β) (f : β → β) (d : List (κ × β)) (h : (d.map Prod.fst).Nodup) :
    ((dset k b f d).map Prod.fst).Nodup := by
  induction d with
  | nil => simp [dset]
  | cons e rest ih =>
    rw [List.map_cons, List.nodup_cons] at h
    unfold dset
    by_cases h1 : e.1 = k
    · rw [if_pos h1]; simpa using h
    · rw [if_neg h1, List.map_cons, List.nodup_cons]
      refine ⟨?_, ih h.2⟩
      rw [keys_dset]
      rintro (h2 | h2)
      · exact h1 h2
      · exact h.1 h2

theorem dget_eq {d : List (κ × β)} (h : (d.map Prod.fst).Nodup) {e : κ × β} (he : e ∈ d) :
    dget e.1 d = some e.2 := by
  induction d with
  | nil => simp at he
  | cons x rest ih =>
    rw [List.map_cons, List.nodup_cons] at h
    rcases List.mem_cons.1 he with rfl | he
    · simp [dget]
    · have : x.1 ≠ e.1 := fun hx => h.1 (hx ▸ List.mem_map_of_mem he)
      simp only [dget, if_neg this, ih h.2 he]

theorem dget_find (d : List (κ × β)) (k : κ) :
    dget k d = (d.find? fun e => decide (e.1 = k)).map Prod.snd := by
  induction d with
  | nil => rfl
  | cons e rest ih =>
    by_cases h : e.1 = k
    · simp [dget, h]
    · simp [dget, h, ih]

theorem dget_get {γ : Type*} (d : List (κ × List γ)) (k : κ) : (dget k d).getD [] = RankingRun.get d k := by
  induction d with
  | nil => rfl
  | cons e rest ih =>
    by_cases h : e.1 = k
    · simp [dget, RankingRun.get, h]
    · simp [dget, RankingRun.get, h, ih]

end dict

variable {K : Type*} [Field K] [LinearOrder K] [IsStrictOrderedRing K]

/-- The value stored for an algorithm and a problem. -/
def val2 (d : List (String × List (String × K))) (a p : String) : Option K := dget p ((dget a d).getD [])

/-- The value stored for a metric, an algorithm and a problem. -/
def val (d : Summary K) (m a p : String) : Option K := val2 ((dget m d).getD []) a p

theorem val_dset (d : Summary K) (m a p : String) (s : K) (m' a' p' : String) :
    val (dset m [] (dset a [] (dset p s fun _ => s)) d) m' a' p' =
      if m = m' ∧ a = a' ∧ p = p' then some s else val d m' a' p' := by
  unfold val val2
  rw [dget_dset]
  by_cases h1 : m = m'
  · subst h1
    rw [if_pos rfl, Option.getD_some, dget_dset]
    by_cases h2 : a = a'
    · subst h2
      rw [if_pos rfl, Option.getD_some, dget_dset]
      by_cases h3 : p = p' <;> simp [h3]
    · simp [h2]
  · simp [h1]

/-- The scores of one accepted result. -/
def oneScores (ln : K → K) (algo : String) (value : String → List K) : List (String × (String × K)) :=
  drawn.map fun m => (m, (algo, ln (|meanOf (value m)| + 1)))

/-- The dictionary after the metrics of one accepted result. -/
def setScores (ln : K → K) (p a : String) (value : String → List K) (names : List String) (d : Summary K) :
    Summary K :=
  names.foldl (fun d m => dset m [] (dset a [] (dset p (ln (|meanOf (value m)| + 1))
    fun _ => ln (|meanOf (value m)| + 1))) d) d

theorem val_setScores (ln : K → K) (p a : String) (value : String → List K) (names : List String) :
    ∀ (d : Summary K) (m' a' p' : String), val (setScores ln p a value names d) m' a' p' =
      if m' ∈ names ∧ a = a' ∧ p = p' then some (ln (|meanOf (value m')| + 1)) else val d m' a' p' := by
  induction names with
  | nil => intro d m' a' p'; simp [setScores]
  | cons m names ih =>
    intro d m' a' p'
    have := ih (dset m [] (dset a [] (dset p (ln (|meanOf (value m)| + 1)) fun _ => ln (|meanOf (value m)| + 1))) d)
      m' a' p'
    unfold setScores at this ⊢
    rw [List.foldl_cons, this, val_dset]
    by_cases h : a = a' ∧ p = p'
    · by_cases h1 : m' ∈ names
      · simp [h, h1]
      · by_cases h2 : m = m'
        · subst h2; simp [h]
        · simp [h, h1, h2, Ne.symm h2]
    · rw [if_neg (fun h' => h h'.2), if_neg (fun h' => h h'.2), if_neg (fun h' => h h'.2)]

theorem keys_setScores (ln : K → K) (p a : String) (value : String → List K) (names : List String) :
    ∀ (d : Summary K) (m : String), m ∈ (setScores ln p a value names d).map Prod.fst ↔
      m ∈ names ∨ m ∈ d.map Prod.fst := by
  induction names with
  | nil => intro d m; simp [setScores]
  | cons x names ih =>
    intro d m
    have := ih (dset x [] (dset a [] (dset p (ln (|meanOf (value x)| + 1)) fun _ => ln (|meanOf (value x)| + 1))) d) m
    unfold setScores at this ⊢
    rw [List.foldl_cons, this, keys_dset, List.mem_cons]
    tauto

theorem nodup_setScores (ln : K → K) (p a : String) (value : String → List K) (names : List String) :
    ∀ (d : Summary K), (d.map Prod.fst).Nodup → ((setScores ln p a value names d).map Prod.fst).Nodup := by
  induction names with
  | nil => intro d h; exact h
  | cons x names ih => intro d h; exact ih _ (nodup_dset _ _ _ _ h)

theorem addSummary_names (ln : K → K) (p a : String) (value : String → List K) (hv : ∀ m, value m ≠ [])
    (names : List String) : ∀ (d : Summary K × List (String × List (String × K))),
    addSummary ln p a (names.map fun m => (m, value m)) d =
      some (setScores ln p a value (names.filter fun m => (bestFunc m).isSome) d.1,
        pushAll ((names.filter fun m => (bestFunc m).isSome).map
          fun m => (m, (a, ln (|meanOf (value m)| + 1)))) d.2) := by
  induction names with
  | nil => intro d; rfl
  | cons m names ih =>
    intro d
    rw [List.map_cons, addSummary]
    by_cases h : (bestFunc m).isSome
    · rw [if_pos h, List.filter_cons_of_pos (by simpa using h), score_eq (hv m)]
      exact ih _
    · rw [if_neg h, List.filter_cons_of_neg (by simpa using h)]
      exact ih _

theorem addSummary_eq (ln : K → K) (p a : String) (r : Res K) (hv : ∀ m, r.2 m ≠ [])
    (d : Summary K × List (String × List (String × K))) :
    addSummary ln p a (afterCost r) d =
      some (setScores ln p a r.2 drawn d.1, pushAll (oneScores ln a r.2) d.2) :=
  addSummary_names ln p a r.2 hv _ d

/-- The scores of the algorithms of a problem. -/
def allScores (ln : K → K) (algos : List (String × List (Res K))) : List (String × (String × K)) :=
  algos.flatMap fun a => match counted a.2 with
    | none => []
    | some value => oneScores ln a.1 value

theorem summaryAlgos_eq (ln : K → K) (p : String) (algos : List (String × List (Res K)))
    (hg : ∀ a ∈ algos, a.2 ≠ []) (hv : ∀ a ∈ algos, ∀ r ∈ a.2, ∀ m, r.2 m ≠ [])
    (hn : (algos.map Prod.fst).Nodup) :
    ∀ d : Summary K × List (String × List (String × K)),
    ∃ d', algos.foldlM (summaryAlgo ln p) d = some (d', pushAll (allScores ln algos) d.2) ∧
      (∀ m' a' p', val d' m' a' p' =
        if m' ∈ drawn ∧ p = p' ∧ a' ∈ (scores algos m').map Prod.fst then
          dget a' (logScores ln algos m')
        else val d.1 m' a' p') ∧
      (∀ m, m ∈ d'.map Prod.fst ↔ (m ∈ drawn ∧ scores algos m ≠ []) ∨ m ∈ d.1.map Prod.fst) ∧
      ((d.1.map Prod.fst).Nodup → (d'.map Prod.fst).Nodup) := by
  induction algos with
  | nil =>
    intro d
    exact ⟨d.1, rfl, by simp [scores], by simp [scores], id⟩
  | cons b algos ih =>
    intro d
    rw [List.map_cons, List.nodup_cons] at hn
    have ih' := ih (fun a ha => hg a (List.mem_cons_of_mem _ ha)) (fun a ha => hv a (List.mem_cons_of_mem _ ha)) hn.2
    obtain ⟨o, h1, h2⟩ := findResult_eq b.2 (hg b (by simp)) (fun r hr => hv b (by simp) r hr _)
    rw [List.foldlM_cons]
    unfold summaryAlgo
    rw [h1]
    rcases h2 with ⟨rfl, h2⟩ | ⟨r, hr, h2, rfl⟩
    · obtain ⟨d', g1, g2, g3, g4⟩ := ih' d
      refine ⟨d', ?_, ?_, ?_, g4⟩
      · simp only [allScores, List.flatMap_cons, h2, List.nil_append]
        exact g1
      · intro m' a' p'
        have hs : scores (b :: algos) m' = scores algos m' := by simp [scores, h2]
        have hl : logScores ln (b :: algos) m' = logScores ln algos m' := by simp [logScores, hs]
        rw [g2, hs, hl]
      · intro m
        have hs : scores (b :: algos) m = scores algos m := by simp [scores, h2]
        rw [g3, hs]
    · have e2 := val_setScores ln p b.1 r.2 drawn d.1
      obtain ⟨d', g1, g2, g3, g4⟩ := ih' (setScores ln p b.1 r.2 drawn d.1, pushAll (oneScores ln b.1 r.2) d.2)
      refine ⟨d', ?_, ?_, ?_, fun h => g4 (nodup_setScores ln p b.1 r.2 drawn d.1 h)⟩
      · simp only
        rw [addSummary_eq ln p b.1 r (hv b (by simp) r hr) d]
        simp only [allScores, List.flatMap_cons, h2, pushAll_append]
        exact g1
      · intro m' a' p'
        rw [g2]
        have hs : scores (b :: algos) m' = (b.1, meanOf (r.2 m')) :: scores algos m' := by
          simp [scores, h2]
        have hl : logScores ln (b :: algos) m' = (b.1, ln (|meanOf (r.2 m')| + 1)) :: logScores ln algos m' := by
          simp [logScores, hs]
        rw [hs, hl]
        have hnot : b.1 ∉ (scores algos m').map Prod.fst := by
          intro hb
          obtain ⟨x, hx, hxb⟩ := List.mem_map.1 hb
          obtain ⟨a, ha, hax⟩ := List.mem_filterMap.1 hx
          obtain ⟨v, -, rfl⟩ := Option.map_eq_some_iff.1 hax
          exact hn.1 (hxb ▸ List.mem_map_of_mem ha)
        by_cases hm : m' ∈ drawn
        · by_cases hp : p = p'
          · subst hp
            by_cases hb : b.1 = a'
            · subst hb
              simp only [hnot, and_false, if_false, e2]
              simp [hm, dget]
            · by_cases ha : a' ∈ (scores algos m').map Prod.fst
              · simp [hm, ha, dget, hb]
              · simp [hm, ha, hb, e2, Ne.symm hb]
          · simp [hp, e2]
        · simp [hm, e2]
      · intro m
        rw [g3, keys_setScores]
        simp only [scores, List.filterMap_cons, h2, Option.map_some]
        simp
        tauto

theorem get_allScores (ln : K → K) (algos : List (String × List (Res K))) {m : String} (hm : m ∈ drawn) :
    RankingRun.get (pushAll (allScores ln algos) []) m = logScores ln algos m := by
  rw [get_pushAll]
  simp only [RankingRun.get, List.nil_append]
  unfold allScores logScores
  rw [filter_flatMap_map, scores_eq_flatMap, List.map_flatMap]
  congr 1; funext a
  cases counted a.2 with
  | none => simp
  | some value =>
    simp only [drawn, List.mem_cons, List.not_mem_nil, or_false] at hm
    rcases hm with rfl | rfl | rfl | rfl | rfl | rfl <;> simp [oneScores, drawn]

/-! ## Scaling -/

theorem val2_eq (d : List (String × List (String × K))) (a p : String) :
    (dget a d).bind (dget p) = val2 d a p := by
  unfold val2
  cases dget a d <;> rfl

theorem val2_scale (p : String) (c : K) (names : List String) (hn : names.Nodup) :
    ∀ (d : List (String × List (String × K))) (a' p' : String), val2 (scale p c names d) a' p' =
      if p = p' ∧ a' ∈ names then (val2 d a' p).map (fun x => x / c) else val2 d a' p' := by
  induction names with
  | nil => intro d a' p'; simp [scale]
  | cons a names ih =>
    intro d a' p'
    rw [List.nodup_cons] at hn
    have hstep : ∀ b q, val2 (if ((dget a d).bind (dget p)).isSome then dset a [] (dset p 0 fun x => x / c) d else d) b q =
        if p = q ∧ b = a then (val2 d a p).map (fun x => x / c) else val2 d b q := by
      intro b q
      rw [val2_eq]
      cases hv : val2 d a p with
      | none =>
        rw [if_neg (by simp)]
        by_cases h : p = q ∧ b = a
        · rw [if_pos h, ← h.1, h.2, hv]; rfl
        · rw [if_neg h]
      | some x =>
        rw [if_pos (by simp)]
        unfold val2 at hv ⊢
        rw [dget_dset]
        by_cases h1 : a = b
        · subst h1
          rw [if_pos rfl, Option.getD_some, dget_dset, hv]
          by_cases h2 : p = q <;> simp [h2]
        · simp [h1, Ne.symm h1]
    have := ih hn.2 (if ((dget a d).bind (dget p)).isSome then dset a [] (dset p 0 fun x => x / c) d else d) a' p'
    unfold scale at this ⊢
    rw [List.foldl_cons, this, hstep, hstep]
    by_cases hp : p = p'
    · subst hp
      by_cases ha : a' = a
      · subst ha
        simp [hn.1]
      · simp [ha]
    · simp [hp]

theorem normalize_eq (p : String) (names : List String) (hn : names.Nodup)
    (scores : List (String × List (String × K))) (M : String → K) :
    ∀ d : Summary K,
    (∀ m ∈ d.map Prod.fst, m ≠ "pdi" → ((RankingRun.get scores m).map Prod.snd).max? = some (M m)) →
    ∃ d', normalize p names scores d = some d' ∧ d'.map Prod.fst = d.map Prod.fst ∧
      ∀ m a' p', val d' m a' p' =
        if m ≠ "pdi" ∧ p = p' ∧ a' ∈ names then (val d m a' p).map (fun x => x / (M m + 1 / 10000))
        else val d m a' p' := by
  intro d
  induction d with
  | nil =>
    intro _
    refine ⟨[], rfl, rfl, ?_⟩
    intro m a' p'
    simp [val, val2, dget]
  | cons e rest ih =>
    intro hM
    obtain ⟨d', h1, h2, h3⟩ := ih (fun m hm => hM m (List.mem_cons_of_mem _ hm))
    have hcons : ∀ (x : String × List (String × List (String × K))) (l : Summary K) (m a' p' : String),
        val (x :: l) m a' p' = if x.1 = m then val2 x.2 a' p' else val l m a' p' := by
      intro x l m a' p'
      unfold val
      by_cases h : x.1 = m <;> simp [dget, h]
    rw [normalize]
    by_cases he : e.1 = "pdi"
    · rw [if_neg (by simpa using he), h1]
      refine ⟨e :: d', rfl, by simp [h2], ?_⟩
      intro m a' p'
      simp only [hcons]
      by_cases hm : e.1 = m
      · rw [if_pos hm, if_neg (by rw [← hm, he]; simp), if_pos hm]
      · simp only [if_neg hm, h3]
    · rw [if_pos he, dget_get, hM e.1 (by simp) he, h1]
      refine ⟨_, rfl, by simp [h2], ?_⟩
      intro m a' p'
      simp only [hcons]
      by_cases hm : e.1 = m
      · subst hm
        simp only [if_true, val2_scale p _ names hn]
        simp [he]
      · simp only [if_neg hm, h3]

/-- One problem. -/
theorem summaryProblem_eq (ln : K → K) (d : Summary K) (P : String × List (String × List (Res K)))
    (hg : ∀ a ∈ P.2, a.2 ≠ []) (hv : ∀ a ∈ P.2, ∀ r ∈ a.2, ∀ m, r.2 m ≠ []) (hn : (P.2.map Prod.fst).Nodup)
    (hc : ∃ a ∈ P.2, counted a.2 ≠ none) (hd : ∀ m ∈ d.map Prod.fst, m ∈ drawn) (hdn : (d.map Prod.fst).Nodup)
    (hfresh : ∀ m a, val d m a P.1 = none) :
    ∃ d', summaryProblem ln d P = some d' ∧ (∀ m, m ∈ d'.map Prod.fst ↔ m ∈ drawn) ∧ (d'.map Prod.fst).Nodup ∧
      ∀ m a p, val d' m a p = if P.1 = p ∧ m ∈ drawn then height ln P.2 m a else val d m a p := by
  have hne : ∀ m, scores P.2 m ≠ [] := by
    intro m
    obtain ⟨a, ha, hca⟩ := hc
    obtain ⟨v, hv⟩ := Option.ne_none_iff_exists'.1 hca
    exact List.ne_nil_of_mem (List.mem_filterMap.2 ⟨a, ha, by rw [hv]; rfl⟩)
  have hmax : ∀ m, ∃ M, ((logScores ln P.2 m).map Prod.snd).max? = some M := by
    intro m
    refine Option.isSome_iff_exists.1 (List.isSome_max?_of_ne_nil ?_)
    simp only [logScores, List.map_map, ne_eq, List.map_eq_nil_iff]
    exact hne m
  choose M hM using hmax
  obtain ⟨d₁, e1, e2, e3, e4⟩ := summaryAlgos_eq ln P.1 P.2 hg hv hn (d, [])
  have hkeys : ∀ m, m ∈ d₁.map Prod.fst ↔ m ∈ drawn := by
    intro m
    rw [e3]
    constructor
    · rintro (h | h)
      · exact h.1
      · exact hd m h
    · intro h; exact .inl ⟨h, hne m⟩
  obtain ⟨d', g1, g2, g3⟩ := normalize_eq P.1 (P.2.map Prod.fst) hn (pushAll (allScores ln P.2) []) M d₁
    (fun m hm _ => by rw [get_allScores ln P.2 ((hkeys m).1 hm)]; exact hM m)
  refine ⟨d', ?_, ?_, ?_, ?_⟩
  · unfold summaryProblem
    rw [e1]
    exact g1
  · intro m; rw [g2]; exact hkeys m
  · rw [g2]; exact e4 hdn
  intro m a p
  rw [g3]
  have hfind : ∀ m a, a ∉ (scores P.2 m).map Prod.fst → (logScores ln P.2 m).find? (fun e => decide (e.1 = a)) = none := by
    intro m a h
    rw [List.find?_eq_none]
    intro e he
    obtain ⟨x, hx, rfl⟩ := List.mem_map.1 he
    simp only [decide_eq_true_eq]
    rintro rfl
    exact h (List.mem_map_of_mem hx)
  by_cases hp : P.1 = p
  · subst hp
    by_cases hm : m ∈ drawn
    · rw [if_pos (⟨rfl, hm⟩ : P.1 = P.1 ∧ m ∈ drawn)]
      unfold height
      rw [hM m]
      simp only
      by_cases ha : a ∈ (scores P.2 m).map Prod.fst
      · have hname : a ∈ P.2.map Prod.fst := by
          obtain ⟨x, hx, rfl⟩ := List.mem_map.1 ha
          obtain ⟨b, hb, hbx⟩ := List.mem_filterMap.1 hx
          obtain ⟨v, -, rfl⟩ := Option.map_eq_some_iff.1 hbx
          exact List.mem_map_of_mem hb
        have hval : val d₁ m a P.1 =
            ((logScores ln P.2 m).find? fun e => decide (e.1 = a)).map Prod.snd := by
          rw [e2, if_pos ⟨hm, rfl, ha⟩, dget_find]
        rw [hval]
        by_cases hpdi : m = "pdi"
        · rw [if_neg (fun h => h.1 hpdi)]; simp [hpdi]
        · rw [if_pos ⟨hpdi, trivial, hname⟩, Option.map_map]
          simp only [hpdi, if_false]
          rfl
      · have hval : val d₁ m a P.1 = none := by rw [e2, if_neg (fun h => ha h.2.2)]; exact hfresh m a
        rw [hfind m a ha, hval]
        simp
    · rw [if_neg (fun h : P.1 = P.1 ∧ m ∈ drawn => hm h.2)]
      have hval : val d₁ m a P.1 = none := by rw [e2, if_neg (fun h => hm h.1)]; exact hfresh m a
      rw [hval, hfresh]
      simp
  · rw [if_neg (fun h => hp h.2.1), if_neg (fun h => hp h.1), e2, if_neg (fun h => hp h.2.1)]

theorem collectSummary_eq (ln : K → K) (dirs : Dirs K) (h : Filed dirs)
    (hg : ∀ p ∈ dirs, ∀ a ∈ p.2, a.2 ≠ []) (hc : ∀ p ∈ dirs, ∃ a ∈ p.2, counted a.2 ≠ none) :
    ∀ (d : Summary K), (∀ m ∈ d.map Prod.fst, m ∈ drawn) → (d.map Prod.fst).Nodup →
    (∀ p ∈ dirs, ∀ m a, val d m a p.1 = none) →
    ∃ d', dirs.foldlM (summaryProblem ln) d = some d' ∧
      (∀ m, m ∈ d'.map Prod.fst ↔ (m ∈ drawn ∧ dirs ≠ []) ∨ m ∈ d.map Prod.fst) ∧ (d'.map Prod.fst).Nodup ∧
      ∀ m ∈ drawn, ∀ a p, val d' m a p = match dirs.find? (fun q => decide (q.1 = p)) with
        | none => val d m a p
        | some q => height ln q.2 m a := by
  induction dirs with
  | nil => intro d hd hn _; exact ⟨d, rfl, by simp, hn, by simp⟩
  | cons P dirs ih =>
    intro d hd hn hfresh
    obtain ⟨d₁, e1, e2, e3, e4⟩ := summaryProblem_eq ln d P (hg P (by simp)) (h.values P (by simp))
      (h.algos P (by simp)) (hc P (by simp)) hd hn (hfresh P (by simp))
    have hfiled : Filed dirs := ⟨(List.nodup_cons.1 (by simpa using h.problems)).2,
      fun p hp => h.algos p (List.mem_cons_of_mem _ hp), fun p hp => h.groups p (List.mem_cons_of_mem _ hp),
      fun p hp => h.values p (List.mem_cons_of_mem _ hp)⟩
    have hP : P.1 ∉ dirs.map Prod.fst := (List.nodup_cons.1 (by simpa using h.problems)).1
    obtain ⟨d', g1, g2, g3, g4⟩ := ih hfiled (fun p hp => hg p (List.mem_cons_of_mem _ hp))
      (fun p hp => hc p (List.mem_cons_of_mem _ hp)) d₁ (fun m hm => (e2 m).1 hm) e3 (by
        intro p hp m a
        rw [e4, if_neg, hfresh p (List.mem_cons_of_mem _ hp)]
        rintro ⟨hp1, -⟩
        exact hP (hp1 ▸ List.mem_map_of_mem hp))
    refine ⟨d', ?_, ?_, g3, ?_⟩
    · rw [List.foldlM_cons, e1]; exact g1
    · intro m
      rw [g2, e2]
      constructor
      · rintro (h1 | h1)
        · exact .inl ⟨h1.1, by simp⟩
        · exact .inl ⟨h1, by simp⟩
      · rintro (h1 | h1)
        · exact .inr h1.1
        · exact .inr (hd m h1)
    · intro m hm a p
      rw [g4 m hm]
      by_cases hp : P.1 = p
      · have : dirs.find? (fun q => decide (q.1 = p)) = none := by
          rw [List.find?_eq_none]
          intro x hx
          simp only [decide_eq_true_eq]
          intro hxp
          exact hP (by rw [hp, ← hxp]; exact List.mem_map_of_mem hx)
        rw [this]
        simp only [List.find?_cons, hp, decide_true, e4, hm, and_true, if_true]
      · simp only [List.find?_cons, hp, decide_false]
        cases dirs.find? (fun q => decide (q.1 = p)) with
        | none => simp only [e4, if_neg (fun h' : P.1 = p ∧ m ∈ drawn => hp h'.1)]
        | some q => rfl

/-! ## The figures -/

theorem problemsOrder_eq : problemsOrder = axis := by rfl

theorem axis_nodup : axis.Nodup := by decide

theorem labels_perm {problems : List String} (hn : problems.Nodup) (h : ∀ p ∈ problems, p ∈ axis) :
    (axis.filter fun p => decide (p ∈ problems)).Perm problems := by
  refine (List.perm_ext_iff_of_nodup (axis_nodup.filter _) hn).2 fun p => ?_
  simp only [List.mem_filter, decide_eq_true_eq]
  exact ⟨fun h => h.2, fun hp => ⟨h p hp, hp⟩⟩

theorem summaryPoints_eq (labels : List String) (score : List (String × K)) :
    summaryPoints labels labels.length score =
      some (labels.filterMap fun p => (dget p score).map fun y => (p, y)) := by
  unfold summaryPoints
  have h1 : (List.range labels.length).mapM (fun x => (labels[x]?).map fun problem =>
      ((dget problem score).map fun y => (problem, y)).toList) =
      some ((List.range labels.length).map fun x => ((dget (labels[x]?.getD "") score).map
        fun y => ((labels[x]?.getD ""), y)).toList) := by
    refine mapM_some _ _ _ ?_
    intro x hx
    have := List.mem_range.1 hx
    rw [List.getElem?_eq_getElem this]
    rfl
  have h2 : (List.range labels.length).map (fun x => labels[x]?.getD "") = labels := by
    refine List.ext_getElem (by simp) ?_
    intro i hi1 hi2
    simp [List.getElem?_eq_getElem hi2]
  have h3 : ((List.range labels.length).map fun x => ((dget (labels[x]?.getD "") score).map
        fun y => ((labels[x]?.getD ""), y)).toList) =
      labels.map fun p => ((dget p score).map fun y => (p, y)).toList := by
    conv_rhs => rw [← h2]
    rw [List.map_map]
    rfl
  rw [h1, h3, Option.map_some]
  congr 1
  clear h1 h2 h3
  induction labels with
  | nil => rfl
  | cons p l ih =>
    rw [List.map_cons, List.flatten_cons, ih, List.filterMap_cons]
    cases dget p score <;> rfl

/-- **C117.** If all problems are on the axis and for each of them some result counts, `pictures_summary`
draws one figure for every ranked metric with the heights of all algorithms of the legend. -/
theorem C117_summary_partial (ln : K → K) (selected : List String) (dirs : Dirs K) (h : Filed dirs)
    (hg : ∀ p ∈ dirs, ∀ a ∈ p.2, a.2 ≠ []) (hc : ∀ p ∈ dirs, ∃ a ∈ p.2, counted a.2 ≠ none)
    (haxis : ∀ p ∈ dirs, p.1 ∈ axis) :
    ∃ figs, picturesSummary ln selected dirs = some figs ∧ (figs.map SummaryFigure.metric).Nodup ∧
      (∀ m, m ∈ figs.map SummaryFigure.metric ↔ m ∈ drawn ∧ dirs ≠ []) ∧
      ∀ f ∈ figs, f.labels = axis.filter (fun p => decide (p ∈ dirs.map Prod.fst)) ∧
        f.points = legend.map (fun a => (a, heights ln dirs f.metric a, decide (a ∈ selected))) ∧
        f.window = if f.metric = "hypervolume" then some (98 / 100, 1001 / 1000)
          else if f.metric = "pdi" then none else some (-1 / 10, 11 / 10) := by
  obtain ⟨d, h1, h2, h3, h4⟩ := collectSummary_eq ln dirs h hg hc [] (by simp) (by simp)
    (by intros; rfl)
  have hperm := labels_perm h.problems (fun p hp => by
    obtain ⟨q, hq, rfl⟩ := List.mem_map.1 hp
    exact haxis q hq)
  have hfig : ∀ e ∈ d, (fun e : String × List (String × List (String × K)) =>
      (algosOrder.mapM fun algo =>
        if algo ∈ algos then
          (summaryPoints (problemsOrder.filter fun p => decide (p ∈ dirs.map Prod.fst)) (dirs.map Prod.fst).length
            ((dget algo e.2).getD [])).map fun pts => (algo, pts, decide (algo ∈ selected))
        else none).map fun points =>
          (⟨e.1, problemsOrder.filter fun p => decide (p ∈ dirs.map Prod.fst), window e.1, points⟩ :
            SummaryFigure K)) e =
      some ((fun e => ⟨e.1, axis.filter fun p => decide (p ∈ dirs.map Prod.fst), window e.1,
        legend.map fun a => (a, heights ln dirs e.1 a, decide (a ∈ selected))⟩) e) := by
    intro e he
    have hm : e.1 ∈ drawn := by
      have := (h2 e.1).1 (List.mem_map_of_mem he)
      simpa using this.resolve_right (by simp) |>.1
    simp only
    rw [algosOrder_eq, problemsOrder_eq, mapM_some _ (fun a => (a, heights ln dirs e.1 a, decide (a ∈ selected)))]
    · rfl
    · intro a ha
      rw [if_pos (legend_algos a ha), ← hperm.length_eq, summaryPoints_eq, Option.map_some]
      congr 3
      unfold heights
      rw [List.filterMap_filter]
      refine List.filterMap_congr ?_
      intro p _
      have hval : dget p ((dget a e.2).getD []) = val d e.1 a p := by
        unfold val val2
        rw [dget_eq h3 he]
        rfl
      rw [hval, h4 e.1 hm]
      by_cases hp : p ∈ dirs.map Prod.fst
      · cases hq : dirs.find? (fun q => decide (q.1 = p)) with
        | none =>
          obtain ⟨q, hq1, rfl⟩ := List.mem_map.1 hp
          rw [List.find?_eq_none] at hq
          exact absurd (hq q hq1) (by simp)
        | some q => simp [hp]
      · have : dirs.find? (fun q => decide (q.1 = p)) = none := by
          rw [List.find?_eq_none]
          intro x hx
          simp only [decide_eq_true_eq]
          rintro rfl
          exact hp (List.mem_map_of_mem hx)
        rw [this]
        simp [hp]
  have hres : picturesSummary ln selected dirs = some (d.map fun e =>
      ⟨e.1, axis.filter fun p => decide (p ∈ dirs.map Prod.fst), window e.1,
        legend.map fun a => (a, heights ln dirs e.1 a, decide (a ∈ selected))⟩) := by
    unfold picturesSummary
    rw [h1]
    simp only
    unfold plotSummary
    rw [List.dedup_eq_self.2 h.problems]
    exact mapM_some _ _ _ hfig
  refine ⟨_, hres, ?_, ?_, ?_⟩
  · rw [List.map_map]; exact h3
  · intro m
    rw [List.map_map]
    have := h2 m
    simpa using this
  · intro f hf
    obtain ⟨e, he, rfl⟩ := List.mem_map.1 hf
    refine ⟨rfl, rfl, ?_⟩
    simp only [window, ne_eq, ite_not]

/-- **C117.** Heights are not negative, except for the pdi they are below 1, and they are ordered as the
absolute values of the scores. -/
theorem C117_order (ln : K → K) (h1 : ln 1 = 0) (hln : ∀ x y, 1 ≤ x → 1 ≤ y → (ln x ≤ ln y ↔ x ≤ y))
    (algos : List (String × List (Res K))) (hn : (algos.map Prod.fst).Nodup) {m a b : String} {x x' : K}
    (ha : (a, x) ∈ scores algos m) (hb : (b, x') ∈ scores algos m) :
    ∃ y y', height ln algos m a = some y ∧ height ln algos m b = some y' ∧ 0 ≤ y ∧ (m ≠ "pdi" → y < 1) ∧
      (y ≤ y' ↔ |x| ≤ |x'|) := by
  have hsn : ((scores algos m).map Prod.fst).Nodup := scores_names algos m hn
  have hpos : ∀ z : K, 0 ≤ ln (|z| + 1) := by
    intro z
    have := abs_nonneg z
    rw [← h1, hln _ _ le_rfl (by linarith)]
    linarith
  have hiff : ln (|x| + 1) ≤ ln (|x'| + 1) ↔ |x| ≤ |x'| := by
    have g1 := abs_nonneg x
    have g2 := abs_nonneg x'
    rw [hln _ _ (by linarith) (by linarith)]
    exact ⟨fun h => by linarith, fun h => by linarith⟩
  have hlog : ∀ c z, (c, z) ∈ scores algos m → (c, ln (|z| + 1)) ∈ logScores ln algos m :=
    fun c z h => List.mem_map.2 ⟨_, h, rfl⟩
  have hln' : ((logScores ln algos m).map Prod.fst).Nodup := by
    unfold logScores
    rw [List.map_map]
    exact hsn
  have hfind : ∀ c z, (c, z) ∈ scores algos m →
      (logScores ln algos m).find? (fun e => decide (e.1 = c)) = some (c, ln (|z| + 1)) := by
    intro c z h
    cases hf : (logScores ln algos m).find? (fun e => decide (e.1 = c)) with
    | none =>
      rw [List.find?_eq_none] at hf
      have := hf _ (hlog c z h)
      simp at this
    | some e =>
      have he : e.1 = c := by simpa using List.find?_some hf
      rw [List.inj_on_of_nodup_map hln' (List.mem_of_find?_eq_some hf) (hlog c z h) he]
  obtain ⟨M, hM⟩ := Option.isSome_iff_exists.1 (List.isSome_max?_of_ne_nil
    (l := (logScores ln algos m).map Prod.snd) (List.ne_nil_of_mem (List.mem_map_of_mem (hlog a x ha))))
  have hM' := hM
  rw [List.max?_eq_some_iff] at hM'
  have hle := hM'.2 _ (List.mem_map_of_mem (hlog a x ha))
  simp only at hle
  have he : (0 : K) < 1 / 10000 := by positivity
  have hM0 : 0 < M + 1 / 10000 := by
    have := hpos x
    linarith
  unfold height
  rw [hM]
  simp only [hfind a x ha, hfind b x' hb, Option.map_some]
  by_cases hm : m = "pdi"
  · simp only [hm, if_true]
    exact ⟨_, _, rfl, rfl, hpos x, fun h => absurd rfl h, hiff⟩
  · simp only [hm, if_false]
    refine ⟨_, _, rfl, rfl, div_nonneg (hpos x) hM0.le, fun _ => ?_, ?_⟩
    · rw [div_lt_one hM0]; linarith
    · rw [div_le_div_iff_of_pos_right hM0]; exact hiff

/-! ## Where it goes wrong -/

theorem normalize_keys (p : String) (names : List String) (scores : List (String × List (String × K))) :
    ∀ d d' : Summary K, normalize p names scores d = some d' → d'.map Prod.fst = d.map Prod.fst := by
  intro d
  induction d with
  | nil => intro d' h; cases h; rfl
  | cons e rest ih =>
    intro d' h
    rw [normalize] at h
    by_cases he : e.1 = "pdi"
    · rw [if_neg (by simpa using he)] at h
      obtain ⟨l, hl, rfl⟩ := Option.map_eq_some_iff.1 h
      simp [ih l hl]
    · rw [if_pos he] at h
      cases hM : (((dget e.1 scores).getD []).map Prod.snd).max? with
      | none => rw [hM] at h; simp at h
      | some M =>
        rw [hM] at h
        obtain ⟨l, hl, rfl⟩ := Option.map_eq_some_iff.1 h
        simp [ih l hl]

theorem normalize_none (p : String) (names : List String) {m : String} (hm : m ≠ "pdi") :
    ∀ d : Summary K, m ∈ d.map Prod.fst → normalize p names [] d = none := by
  intro d
  induction d with
  | nil => intro h; simp at h
  | cons e rest ih =>
    intro h
    rw [normalize]
    by_cases he : e.1 = "pdi"
    · rw [if_neg (by simpa using he), ih]
      · rfl
      · rcases List.mem_cons.1 h with h | h
        · exact absurd (h.trans he) hm
        · exact h
    · rw [if_pos he]
      rfl

/-- **C117.** Violated: a problem for which no result counts after one for which a result counts, and
there are no figures at all. -/
theorem C117_unscored_violated (ln : K → K) (selected : List String) (l₁ l₂ : Dirs K)
    (p : String × List (String × List (Res K))) (h : Filed (l₁ ++ p :: l₂))
    (hg : ∀ q ∈ l₁ ++ [p], ∀ a ∈ q.2, a.2 ≠ []) (hc : ∃ q ∈ l₁, ∃ a ∈ q.2, counted a.2 ≠ none)
    (hp : ∀ a ∈ p.2, counted a.2 = none) :
    picturesSummary ln selected (l₁ ++ p :: l₂) = none := by
  have hkeep : ∀ (q : String × List (String × List (Res K))), q ∈ l₁ → ∀ d d' : Summary K,
      summaryProblem ln d q = some d' →
      (("gd" ∈ d.map Prod.fst ∨ ∃ a ∈ q.2, counted a.2 ≠ none) → "gd" ∈ d'.map Prod.fst) := by
    intro q hq d d' hd hor
    obtain ⟨d₁, e1, -, e3, -⟩ := summaryAlgos_eq ln q.1 q.2 (hg q (by simp [hq]))
      (h.values q (by simp [hq])) (h.algos q (by simp [hq])) (d, [])
    unfold summaryProblem at hd
    rw [e1] at hd
    rw [normalize_keys _ _ _ _ _ hd, e3]
    rcases hor with hor | ⟨a, ha, hca⟩
    · exact .inr hor
    · left
      refine ⟨by simp [drawn], ?_⟩
      obtain ⟨v, hv⟩ := Option.ne_none_iff_exists'.1 hca
      exact List.ne_nil_of_mem (List.mem_filterMap.2 ⟨a, ha, by rw [hv]; rfl⟩)
  have hfold : ∀ (l : Dirs K), (∀ q ∈ l, q ∈ l₁) → ∀ d d' : Summary K, l.foldlM (summaryProblem ln) d = some d' →
      (("gd" ∈ d.map Prod.fst ∨ ∃ q ∈ l, ∃ a ∈ q.2, counted a.2 ≠ none) → "gd" ∈ d'.map Prod.fst) := by
    intro l
    induction l with
    | nil =>
      intro _ d d' hd hor
      cases hd
      simpa using hor
    | cons q l ih =>
      intro hl d d' hd hor
      rw [List.foldlM_cons] at hd
      cases hq : summaryProblem ln d q with
      | none => rw [hq] at hd; cases hd
      | some d₁ =>
        rw [hq] at hd
        refine ih (fun x hx => hl x (List.mem_cons_of_mem _ hx)) d₁ d' hd ?_
        rcases hor with hor | ⟨x, hx, hax⟩
        · exact .inl (hkeep q (hl q (by simp)) d d₁ hq (.inl hor))
        · rcases List.mem_cons.1 hx with rfl | hx
          · exact .inl (hkeep x (hl x (by simp)) d d₁ hq (.inr hax))
          · exact .inr ⟨x, hx, hax⟩
  have hlast : ∀ d : Summary K, "gd" ∈ d.map Prod.fst → summaryProblem ln d p = none := by
    intro d hd
    obtain ⟨d₁, e1, -, e3, -⟩ := summaryAlgos_eq ln p.1 p.2 (hg p (by simp))
      (h.values p (by simp)) (h.algos p (by simp)) (d, [])
    have : allScores ln p.2 = [] := by
      unfold allScores
      rw [List.flatMap_eq_nil_iff]
      intro a ha
      rw [hp a ha]
    rw [this] at e1
    unfold summaryProblem
    rw [e1]
    exact normalize_none _ _ (by decide : "gd" ≠ "pdi") _ ((e3 _).2 (.inr hd))
  unfold picturesSummary
  rw [List.foldlM_append]
  cases h₁ : l₁.foldlM (summaryProblem ln) [] with
  | none => rfl
  | some d =>
    have := hfold l₁ (fun q hq => hq) [] d h₁ (.inr hc)
    have hnone : List.foldlM (summaryProblem ln) d (p :: l₂) = none := by
      rw [List.foldlM_cons, hlast d this]
      rfl
    show (match List.foldlM (summaryProblem ln) d (p :: l₂) with
      | none => none
      | some scoring => plotSummary (List.map Prod.fst (l₁ ++ p :: l₂)).dedup selected scoring) = none
    rw [hnone]

theorem mapM_none {α β : Type*} (f : α → Option β) {l : List α} {x : α} (hx : x ∈ l) (h : f x = none) :
    l.mapM f = none := by
  induction l with
  | nil => simp at hx
  | cons y l ih =>
    rw [List.mapM_cons]
    rcases List.mem_cons.1 hx with rfl | hx
    · rw [h]; rfl
    · rw [ih hx]
      cases f y <;> rfl

/-- **C117.** Violated: one problem that is not on the axis (ackley, kursawe), and there are no figures
at all. -/
theorem C117_axis_violated (ln : K → K) (selected : List String) (dirs : Dirs K) (h : Filed dirs)
    (hg : ∀ p ∈ dirs, ∀ a ∈ p.2, a.2 ≠ []) (hc : ∀ p ∈ dirs, ∃ a ∈ p.2, counted a.2 ≠ none)
    {p : String × List (String × List (Res K))} (hp : p ∈ dirs) (haxis : p.1 ∉ axis) :
    picturesSummary ln selected dirs = none := by
  obtain ⟨d, h1, h2, h3, h4⟩ := collectSummary_eq ln dirs h hg hc [] (by simp) (by simp)
    (by intros; rfl)
  unfold picturesSummary
  rw [h1]
  simp only
  unfold plotSummary
  rw [List.dedup_eq_self.2 h.problems]
  obtain ⟨e, he, hem⟩ := List.mem_map.1 ((h2 "gd").2 (.inl ⟨by simp [drawn], List.ne_nil_of_mem hp⟩))
  refine mapM_none _ he ?_
  simp only
  rw [mapM_none _ (x := "NSGAII") (by rw [algosOrder_eq]; decide)]
  · rfl
  rw [if_pos (legend_algos _ (by decide))]
  have hlen : (problemsOrder.filter fun p => decide (p ∈ dirs.map Prod.fst)).length < (dirs.map Prod.fst).length := by
    have hsub : (problemsOrder.filter fun p => decide (p ∈ dirs.map Prod.fst)).Subperm
        ((dirs.map Prod.fst).erase p.1) := by
      refine List.subperm_of_subset (axis_nodup.filter _) ?_
      intro q hq
      simp only [List.mem_filter, decide_eq_true_eq] at hq
      refine (List.mem_erase_of_ne ?_).2 hq.2
      rintro rfl
      exact haxis hq.1
    have hmem : p.1 ∈ dirs.map Prod.fst := List.mem_map_of_mem hp
    have := hsub.length_le
    rw [List.length_erase_of_mem hmem] at this
    have := List.length_pos_of_mem hmem
    omega
  have : summaryPoints (problemsOrder.filter fun p => decide (p ∈ dirs.map Prod.fst)) (dirs.map Prod.fst).length
      ((dget "NSGAII" e.2).getD []) = none := by
    unfold summaryPoints
    rw [mapM_none _ (List.mem_range.2 hlen)]
    · rfl
    · rw [List.getElem?_eq_none le_rfl]
      rfl
  rw [this]
  rfl

/-! ## Examples -/

/-- The logarithm of the examples. -/
def exLn (x : ℚ) : ℚ := x - 1

/-- Two problems; SPEA2 is the best for ZDT2. -/
def exSummary : Dirs ℚ :=
  [("ZDT2", [("NSGAII", [exGroup 1000 1010 3, exGroup 2000 2600 1]), ("SPEA2", [exGroup 2000 2050 7])]),
    ("EWA1", [("IBEA", [exGroup 2000 2050 2]), ("NSGAII", [exGroup 1000 9000 1])])]

theorem exSummary_filed : Filed exSummary := by
  refine ⟨by decide, by decide, by decide, ?_⟩
  intro p hp a ha g hg m
  simp only [exSummary, List.mem_cons, List.not_mem_nil, or_false] at hp
  rcases hp with rfl | rfl <;> simp only [List.mem_cons, List.not_mem_nil, or_false] at ha <;>
    rcases ha with rfl | rfl <;> simp only [List.mem_cons, List.not_mem_nil, or_false] at hg
  · rcases hg with rfl | rfl <;> exact (exGroup_values (by norm_num) (by norm_num) m).1
  all_goals subst hg; exact (exGroup_values (by norm_num) (by norm_num) m).1

/-- The hypotheses of `C117_summary_partial`. -/
example : Filed exSummary ∧ (∀ p ∈ exSummary, ∀ a ∈ p.2, a.2 ≠ []) ∧
    (∀ p ∈ exSummary, ∃ a ∈ p.2, (counted a.2).isSome) ∧ ∀ p ∈ exSummary, p.1 ∈ axis :=
  ⟨exSummary_filed, by decide, by decide +kernel, by decide⟩

example : ((picturesSummary exLn ["IBEA"] exSummary).map fun figs => (figs.filter fun f => f.metric = "gd").map
    fun f => (f.points.filter fun e => e.2.1 ≠ []).map fun e => (e.1, e.2.1)) =
    some [[("NSGAII", [("ZDT2", 35000 / 75001)]), ("IBEA", [("EWA1", 25000 / 25001)])]] := by decide +kernel

example : ((picturesSummary exLn ["IBEA"] exSummary).map fun figs => (figs.filter fun f => f.metric = "gd").map
    fun f => (f.labels, (f.points.filter fun e => e.2.2).map Prod.fst)) =
    some [(["EWA1", "ZDT2"], ["IBEA"])] := by decide +kernel

/-- ackley is not on the axis, and nothing counts for ZDT3. -/
example : picturesSummary exLn [] (exSummary ++ [("ackley", [("IBEA", [exGroup 1 1 1])])]) = none ∧
    picturesSummary exLn [] (exSummary ++ [("ZDT3", [("IBEA", [exGroup 1 5000 1])])]) = none ∧
    (picturesSummary exLn [] ([("ZDT3", [("IBEA", [exGroup 1 5000 1])])] ++ exSummary)).isSome := by
  decide +kernel

/-- Two algorithms of which one has reached nothing. -/
def exWindow : Dirs ℚ :=
  [("ZDT1", [("NSGAII", [exGroup 1 1 1]), ("IBEA", [(1, fun _ => [0])])])]

/-- **C117.** Violated: the figure of the hypervolume shows only the heights from 0.98 to 1.001; the
algorithm without any hypervolume, at the height 0, is not to be seen, whatever the logarithm. -/
theorem C117_window_violated (ln : ℚ → ℚ) (h1 : ln 1 = 0) : ∃ dirs : Dirs ℚ, ∃ figs,
    picturesSummary ln [] dirs = some figs ∧ ∃ f ∈ figs, ∃ w, f.window = some w ∧
      ∃ c ∈ f.points, ∃ pt ∈ c.2.1, pt.2 < w.1 := by
  have hfiled : Filed exWindow := by
    refine ⟨by decide, by decide, by decide, ?_⟩
    intro p hp a ha g hg m
    simp only [exWindow, List.mem_cons, List.not_mem_nil, or_false] at hp
    subst hp
    simp only [List.mem_cons, List.not_mem_nil, or_false] at ha
    rcases ha with rfl | rfl <;> simp only [List.mem_cons, List.not_mem_nil, or_false] at hg <;> subst hg
    · exact (exGroup_values (by norm_num) (by norm_num) m).1
    · simp
  have hcount : ∀ p ∈ exWindow, ∃ a ∈ p.2, counted a.2 ≠ none := by
    have : ∀ p ∈ exWindow, ∃ a ∈ p.2, (counted a.2).isSome := by decide +kernel
    intro p hp
    obtain ⟨a, ha, h⟩ := this p hp
    exact ⟨a, ha, fun hn => by rw [hn] at h; simp at h⟩
  obtain ⟨figs, e1, -, e3, e4⟩ := C117_summary_partial ln [] exWindow hfiled (by decide) hcount (by decide)
  refine ⟨exWindow, figs, e1, ?_⟩
  obtain ⟨f, hf, hfm⟩ := List.mem_map.1 ((e3 "hypervolume").2 ⟨by simp [drawn], by simp [exWindow]⟩)
  obtain ⟨-, g2, g3⟩ := e4 f hf
  rw [hfm] at g2 g3
  refine ⟨f, hf, (98 / 100, 1001 / 1000), by rw [g3]; rfl, ("IBEA", heights ln exWindow "hypervolume" "IBEA", false),
    ?_, ("ZDT1", 0), ?_, by norm_num⟩
  · rw [g2]
    exact List.mem_map.2 ⟨"IBEA", by decide, by simp⟩
  · unfold heights
    refine List.mem_filterMap.2 ⟨"ZDT1", by decide, ?_⟩
    have hs : scores [("NSGAII", [exGroup 1 1 1]), ("IBEA", [((1 : ℚ), fun _ => [(0 : ℚ)])])] "hypervolume" =
        [("NSGAII", 3 / 2), ("IBEA", 0)] := by decide +kernel
    have hfind : exWindow.find? (fun q => decide (q.1 = "ZDT1")) =
      some ("ZDT1", [("NSGAII", [exGroup 1 1 1]), ("IBEA", [((1 : ℚ), fun _ => [(0 : ℚ)])])]) := rfl
    rw [hfind]
    simp only [Option.bind_some, height, logScores, hs]
    simp [h1]

end Evogil.Plots
