import Verif.Lemmas.Hgs
import Mathlib.Data.List.Range

/-! # The invariant of the HGS tree -/

set_option linter.unusedSectionVars false

namespace Evogil.Hgs

variable {D K : Type*} [Field K] [LinearOrder K]

theorem flatMap_sprouts (l : List (Node D K)) :
    l.flatMap Node.sprouts = (l.map shape).flatMap Prod.snd := by
  induction l with
  | nil => rfl
  | cons a l ih => simp [shape, ih]

theorem level_get (l : List (Node D K)) (i : ℕ) :
    (l[i]?).map Node.level = ((l.map shape)[i]?).map Prod.fst := by
  simp only [List.getElem?_map, Option.map_map]; rfl

theorem Tree.of_same {m : ℕ} {a b : State D K} (t : Tree m a) (h : SameTree a b) : Tree m b := by
  have hl := h.length
  have hlev : ∀ i : ℕ, (b.nodes[i]?).map Node.level = (a.nodes[i]?).map Node.level := fun i => by
    rw [level_get, level_get, h.2]
  refine ⟨?_, ?_, ?_, ?_, ?_⟩
  · rw [hlev]; exact t.root
  · rw [flatMap_sprouts, h.2, ← flatMap_sprouts, hl]; exact t.once
  · intro p n s hn hs
    obtain ⟨k, hk, e1, e2⟩ := h.get hn
    rw [hlev, ← e1]
    exact t.child p k s hk (e2 ▸ hs)
  · intro n hn
    obtain ⟨i, hi⟩ := List.mem_iff_getElem?.1 hn
    obtain ⟨k, hk, e1, e2⟩ := h.get hi
    rw [← e1]; exact t.depth k (List.mem_of_getElem? hk)
  · rw [h.1, t.levels, hl]
    simp only [hlev]

theorem Tree.level_list {m : ℕ} {st : State D K} (t : Tree m st) {l : ℕ} (hl : l ≤ 2) :
    st.levels[l]? = some ((List.range st.nodes.length).filter fun i =>
      (st.nodes[i]?).map Node.level = some l) := by
  rw [t.levels]
  have : l = 0 ∨ l = 1 ∨ l = 2 := by omega
  rcases this with rfl | rfl | rfl <;> rfl

theorem Tree.mem_level {m : ℕ} {st : State D K} (t : Tree m st) {l : ℕ} (hl : l ≤ 2) {ids : List ℕ}
    (h : st.levels[l]? = some ids) {i : ℕ} :
    i ∈ ids ↔ ∃ n, st.nodes[i]? = some n ∧ n.level = l := by
  rw [t.level_list hl, Option.some.injEq] at h
  subst h
  simp only [List.mem_filter, List.mem_range, decide_eq_true_eq, Option.map_eq_some_iff]
  constructor
  · rintro ⟨_, h⟩; exact h
  · rintro ⟨n, h1, h2⟩
    exact ⟨(List.getElem?_eq_some_iff.1 h1).1, n, h1, h2⟩

theorem Tree.nodup_level {m : ℕ} {st : State D K} (t : Tree m st) {l : ℕ} (hl : l ≤ 2) {ids : List ℕ}
    (h : st.levels[l]? = some ids) : ids.Nodup := by
  rw [t.level_list hl, Option.some.injEq] at h
  subst h
  exact List.nodup_range.filter _

/-- Only the first node is on level 0. -/
theorem Tree.zero_of_level {m : ℕ} {st : State D K} (t : Tree m st) {i : ℕ} {n : Node D K}
    (h : st.nodes[i]? = some n) (hl : n.level = 0) : i = 0 := by
  by_contra hi
  have hlt := (List.getElem?_eq_some_iff.1 h).1
  have : i ∈ List.range' 1 (st.nodes.length - 1) := by
    rw [List.mem_range'_1]; omega
  rw [← t.once.mem_iff, List.mem_flatMap] at this
  obtain ⟨p, hp, hs⟩ := this
  obtain ⟨j, hj⟩ := List.mem_iff_getElem?.1 hp
  have := (t.child j p i hj hs).2
  rw [h] at this
  simp only [Option.map_some, Option.some.injEq] at this
  omega

theorem Tree.level_zero {m : ℕ} {st : State D K} (t : Tree m st) : st.levels[0]? = some [0] := by
  rw [t.level_list (Nat.zero_le _)]
  congr 1
  obtain ⟨n, hn, hl⟩ := Option.map_eq_some_iff.1 t.root
  have hpos := (List.getElem?_eq_some_iff.1 hn).1
  obtain ⟨k, hk⟩ : ∃ k, st.nodes.length = k + 1 := ⟨st.nodes.length - 1, by omega⟩
  rw [hk, List.range_succ_eq_map, List.filter_cons_of_pos (by rw [t.root]; rfl)]
  congr 1
  rw [List.filter_eq_nil_iff]
  intro a ha
  obtain ⟨b, _, rfl⟩ := List.mem_map.1 ha
  simp only [decide_eq_true_eq]
  intro h
  obtain ⟨q, hq, hq'⟩ := Option.map_eq_some_iff.1 h
  exact absurd (t.zero_of_level hq hq') (Nat.succ_ne_zero _)

/-! ## Adding a sprout -/

theorem flatMap_modify_perm {α β : Type*} (g : α → List β) (f : α → α) (x : β)
    (hf : ∀ a, g (f a) = g a ++ [x]) : ∀ (l : List α) (i : ℕ), i < l.length →
    ((l.modify i f).flatMap g).Perm (l.flatMap g ++ [x])
  | [], _, h => by simp at h
  | a :: l, 0, _ => by
    simp only [List.modify_zero_cons, List.flatMap_cons, hf, List.append_assoc]
    exact (List.Perm.refl _).append (List.perm_append_comm)
  | a :: l, i + 1, h => by
    simp only [List.modify_succ_cons, List.flatMap_cons, List.append_assoc]
    exact (List.Perm.refl _).append (flatMap_modify_perm g f x hf l i (by simpa using h))

/-- The nodes after a sprout has been added, one by one. -/
theorem addSprout_get (st : State D K) (i level : ℕ) (ids : List ℕ) (d : D) (j : ℕ) :
    (addSprout st i level ids d).nodes[j]? =
      if j < st.nodes.length then
        (st.nodes[j]?).map fun n =>
          if i = j then { n with sprouts := n.sprouts ++ [st.nodes.length] } else n
      else if j = st.nodes.length then some (newNode (level + 1) (some d)) else none := by
  simp only [addSprout]
  split
  · rename_i h
    rw [List.getElem?_append_left (by simpa using h), List.getElem?_modify]
    cases st.nodes[j]? with
    | none => rfl
    | some n => by_cases e : i = j <;> simp [e]
  · rename_i h
    rw [List.getElem?_append_right (by simpa using h)]
    simp only [List.length_modify]
    split
    · rename_i e; subst e; simp
    · rw [List.getElem?_eq_none]; simp; omega

theorem addSprout_length (st : State D K) (i level : ℕ) (ids : List ℕ) (d : D) :
    (addSprout st i level ids d).nodes.length = st.nodes.length + 1 := by
  simp [addSprout]

theorem addSprout_level (st : State D K) (i level : ℕ) (ids : List ℕ) (d : D) (j : ℕ) :
    ((addSprout st i level ids d).nodes[j]?).map Node.level =
      if j = st.nodes.length then some (level + 1) else (st.nodes[j]?).map Node.level := by
  rw [addSprout_get]
  by_cases h : j < st.nodes.length
  · rw [if_pos h, if_neg (by omega)]
    rw [List.getElem?_eq_getElem h]
    simp only [Option.map_some, Option.some.injEq]
    split <;> rfl
  · rw [if_neg h]
    by_cases e : j = st.nodes.length
    · simp only [e, if_true, Option.map_some]; rfl
    · rw [if_neg e, if_neg e, List.getElem?_eq_none (by omega)]

theorem Tree.addSprout {m : ℕ} (hm : m ≤ 2) {st : State D K} (t : Tree m st) {i level : ℕ} {ids : List ℕ}
    {d : D} {n : Node D K} (hn : st.nodes[i]? = some n) (hl : n.level = level) (hlm : level < m)
    (hids : st.levels[level + 1]? = some ids) : Tree m (addSprout st i level ids d) := by
  have hi := (List.getElem?_eq_some_iff.1 hn).1
  refine ⟨?_, ?_, ?_, ?_, ?_⟩
  · rw [addSprout_level, if_neg (by omega)]; exact t.root
  · rw [addSprout_length]
    simp only [Hgs.addSprout, List.flatMap_append, List.flatMap_cons, List.flatMap_nil,
      List.append_nil]
    have e : (newNode (level + 1) (some d) : Node D K).sprouts = [] := rfl
    rw [e, List.append_nil]
    refine (flatMap_modify_perm _ _ st.nodes.length (fun _ => rfl) _ _ hi).trans ?_
    have e2 : List.range' 1 (st.nodes.length + 1 - 1) =
        List.range' 1 (st.nodes.length - 1) ++ [st.nodes.length] := by
      obtain ⟨k, hk⟩ : ∃ k, st.nodes.length = k + 1 := ⟨st.nodes.length - 1, by omega⟩
      rw [hk, Nat.add_sub_cancel, Nat.add_sub_cancel, List.range'_concat]
      congr 2; omega
    rw [e2]
    exact t.once.append (List.Perm.refl _)
  · intro p q s hp hs
    rw [addSprout_level]
    rw [addSprout_get] at hp
    by_cases hpl : p < st.nodes.length
    · rw [if_pos hpl] at hp
      obtain ⟨q', hq', rfl⟩ := Option.map_eq_some_iff.1 hp
      by_cases e : i = p
      · subst e
        rw [hn] at hq'; cases hq'
        rw [if_pos rfl] at hs ⊢
        simp only at hs ⊢
        rcases List.mem_append.1 hs with hs | hs
        · have := t.child i n s hn hs
          refine ⟨this.1, ?_⟩
          rw [if_neg]
          · exact this.2
          · rintro rfl
            have := this.2
            rw [List.getElem?_eq_none (Nat.le_refl _)] at this
            simp at this
        · have := List.mem_singleton.1 hs
          subst this
          exact ⟨hi, by rw [if_pos rfl, hl]⟩
      · rw [if_neg e] at hs ⊢
        have := t.child p q' s hq' hs
        refine ⟨this.1, ?_⟩
        rw [if_neg]
        · exact this.2
        · rintro rfl
          have := this.2
          rw [List.getElem?_eq_none (Nat.le_refl _)] at this
          simp at this
    · rw [if_neg hpl] at hp
      split at hp
      · cases hp; simp [newNode] at hs
      · cases hp
  · intro q hq
    obtain ⟨j, hj⟩ := List.mem_iff_getElem?.1 hq
    have := congrArg (Option.map Node.level) hj
    rw [addSprout_level] at this
    split at this
    · simp only [Option.map_some, Option.some.injEq] at this; omega
    · obtain ⟨q', hq', e⟩ := Option.map_eq_some_iff.1 this
      rw [← e]; exact t.depth _ (List.mem_of_getElem? hq')
  · have hids' := hids
    rw [t.level_list (by omega), Option.some.injEq] at hids'
    have key : ∀ l : ℕ, (List.range (st.nodes.length + 1)).filter (fun j =>
        ((Hgs.addSprout st i level ids d).nodes[j]?).map Node.level = some l) =
        ((List.range st.nodes.length).filter fun j => (st.nodes[j]?).map Node.level = some l) ++
          (if level + 1 = l then [st.nodes.length] else []) := by
      intro l
      rw [List.range_succ, List.filter_append]
      congr 1
      · apply List.filter_congr
        intro j hj
        rw [addSprout_level, if_neg (by have := List.mem_range.1 hj; omega)]
      · by_cases e : level + 1 = l
        · rw [if_pos e, List.filter_cons_of_pos (by rw [addSprout_level, if_pos rfl, e]; simp)]
          rfl
        · rw [if_neg e, List.filter_cons_of_neg (by rw [addSprout_level, if_pos rfl]; simpa using e)]
          rfl
    rw [addSprout_length]
    simp only [key]
    simp only [Hgs.addSprout, t.levels]
    rw [← hids']
    have : level = 0 ∨ level = 1 := by omega
    rcases this with rfl | rfl <;> simp

end Evogil.Hgs
