import Verif.Model.FrontTools
import Mathlib.Data.List.Chain
import Mathlib.Data.List.Induction
import Mathlib.Data.List.Pairwise
import Mathlib.Algebra.Order.Ring.Rat
import Mathlib.Tactic.Linarith

/-! # C57: splitting a front for display -/

set_option linter.unusedSectionVars false

namespace Evogil.FrontTools

variable {K : Type*} [Field K] [LinearOrder K] [IsStrictOrderedRing K]

/-- The pieces into which a front was cut: no piece is empty, between the last point of a piece and
the first point of the next one there is a gap, and inside a piece there is no gap from the second
point on. -/
structure Pieces (eps : K) (gs : List (List (K × K))) : Prop where
  nonempty : ∀ g ∈ gs, g ≠ []
  between : gs.IsChain fun g h => ∀ p ∈ g.getLast?, ∀ q ∈ h.head?, q.1 - p.1 > eps
  inside : ∀ g ∈ gs, g.tail.IsChain fun p q => q.1 - p.1 ≤ eps

theorem splitLoop_flatten (eps : K) (l : List (K × K)) : ∀ prev groups group,
    (splitLoop eps l prev groups group).1.flatten ++ (splitLoop eps l prev groups group).2 =
      groups.flatten ++ group ++ l := by
  induction l with
  | nil => intro prev groups group; simp [splitLoop]
  | cons p l ih =>
    intro prev groups group
    obtain ⟨x, y⟩ := p
    rw [splitLoop]
    by_cases h : x - prev > eps ∧ group.length > 1
    · rw [if_pos h, ih]; simp
    · rw [if_neg h, ih]; simp

theorem splitLoop_pieces (eps : K) (l : List (K × K)) : ∀ (groups : List (List (K × K)))
    (group : List (K × K)) (p : K × K), group.getLast? = some p →
    Pieces eps (groups ++ [group]) →
    Pieces eps ((splitLoop eps l p.1 groups group).1 ++ [(splitLoop eps l p.1 groups group).2]) := by
  induction l with
  | nil => intro groups group p _ h; exact h
  | cons q l ih =>
    intro groups group p hp h
    obtain ⟨x, y⟩ := q
    rw [splitLoop]
    by_cases hc : x - p.1 > eps ∧ group.length > 1
    · rw [if_pos hc]
      apply ih (groups ++ [group]) [(x, y)] (x, y) (by simp)
      refine ⟨?_, ?_, ?_⟩
      · intro g hg
        rcases List.mem_append.1 hg with hg | hg
        · exact h.nonempty g hg
        · rw [List.mem_singleton.1 hg]; simp
      · rw [List.isChain_append]
        refine ⟨h.between, by simp, ?_⟩
        intro g hg k hk
        simp only [List.getLast?_concat, Option.mem_def, Option.some.injEq] at hg
        simp only [List.head?_cons, Option.mem_def, Option.some.injEq] at hk
        subst hg hk
        intro a ha b hb
        rw [Option.mem_def, hp, Option.some.injEq] at ha
        simp only [List.head?_cons, Option.mem_def, Option.some.injEq] at hb
        subst ha hb
        exact hc.1
      · intro g hg
        rcases List.mem_append.1 hg with hg | hg
        · exact h.inside g hg
        · rw [List.mem_singleton.1 hg]; simp
    · rw [if_neg hc]
      have hne : group ≠ [] := by rintro rfl; simp at hp
      apply ih groups (group ++ [(x, y)]) (x, y) (by simp)
      refine ⟨?_, ?_, ?_⟩
      · intro g hg
        rcases List.mem_append.1 hg with hg | hg
        · exact h.nonempty g (by simp [hg])
        · rw [List.mem_singleton.1 hg]; simp
      · have hb := h.between
        rw [List.isChain_append] at hb ⊢
        refine ⟨hb.1, by simp, ?_⟩
        intro g hg k hk
        simp only [List.head?_cons, Option.mem_def, Option.some.injEq] at hk
        subst hk
        intro a ha b hb'
        rw [List.head?_append_of_ne_nil _ hne] at hb'
        exact hb.2.2 g hg group (by simp) a ha b hb'
      · intro g hg
        rcases List.mem_append.1 hg with hg | hg
        · exact h.inside g (by simp [hg])
        · rw [List.mem_singleton.1 hg]
          have hi := h.inside group (by simp)
          rw [List.tail_append_of_ne_nil hne, List.isChain_append]
          refine ⟨hi, by simp, ?_⟩
          intro a ha b hb
          simp only [List.head?_cons, Option.mem_def, Option.some.injEq] at hb
          subst hb
          have hlen : group.length > 1 := by
            rcases group with _ | ⟨g0, _ | ⟨g1, gs⟩⟩
            · simp at hp
            · simp at ha
            · simp
          have hap : a = p := by
            rcases group with _ | ⟨g0, _ | ⟨g1, gs⟩⟩
            · simp at hp
            · simp at ha
            · rw [List.getLast?_cons_cons] at hp
              rw [List.tail_cons, Option.mem_def, hp, Option.some.injEq] at ha
              exact ha.symm
          rw [hap]
          by_contra hcc
          exact hc ⟨not_le.1 hcc, hlen⟩

theorem splitLoop_groups_ne (eps : K) (l : List (K × K)) : ∀ prev groups group, groups ≠ [] →
    (splitLoop eps l prev groups group).1 ≠ [] := by
  induction l with
  | nil => intro prev groups group h; exact h
  | cons p l ih =>
    intro prev groups group h
    obtain ⟨x, y⟩ := p
    rw [splitLoop]
    split_ifs
    · exact ih _ _ _ (by simp)
    · exact ih _ _ _ h

theorem splitLoop_nil_iff (eps : K) (l : List (K × K)) : ∀ (prev : K) (group : List (K × K)),
    1 < group.length → ((splitLoop eps l prev [] group).1 = [] ↔
      (prev :: l.map Prod.fst).IsChain fun a b => b - a ≤ eps) := by
  induction l with
  | nil => intro prev group _; simp [splitLoop]
  | cons p l ih =>
    intro prev group hg
    obtain ⟨x, y⟩ := p
    rw [splitLoop, List.map_cons, List.isChain_cons_cons]
    by_cases h : x - prev > eps
    · rw [if_pos ⟨h, hg⟩]
      constructor
      · intro h'
        exact absurd h' (splitLoop_groups_ne eps l x _ _ (by simp))
      · intro h'
        exact absurd h (not_lt.2 h'.1)
    · rw [if_neg (fun hc => h hc.1), ih x _ (by simp; omega)]
      simp only [not_lt.1 h, true_and]

theorem splitLoop_start (eps : K) (p : K × K) (l : List (K × K)) :
    splitLoop eps (p :: l) 0 [] [] = splitLoop eps l p.1 [] [p] := by
  obtain ⟨x, y⟩ := p
  rw [splitLoop, if_neg (by simp)]
  rfl

/-- **C57 (partial).** For a front sorted by the first coordinate, whenever the function returns, the
pieces are in order, lose no point, and are cut at gaps. Missing from the full claim: a gap after the
first point of a piece does not start a new piece (`C57_isolated`), and the function fails if it
finds no place to cut (`C57_defined`). -/
theorem C57_pieces_partial {front : List (K × K)} {eps : K} {gs : List (List (K × K))}
    (heps : 0 ≤ eps) (hs : front.Pairwise fun p q => p.1 ≤ q.1)
    (h : splitFront front eps = some gs) : gs.flatten = front ∧ Pieces eps gs := by
  cases front with
  | nil => simp [splitFront, splitLoop] at h
  | cons p l =>
    have hfl := splitLoop_flatten eps (p :: l) 0 [] []
    have hp : Pieces eps ((splitLoop eps (p :: l) 0 [] []).1 ++
        [(splitLoop eps (p :: l) 0 [] []).2]) := by
      rw [splitLoop_start]
      apply splitLoop_pieces eps l [] [p] p (by simp)
      exact ⟨by simp, by simp, by simp⟩
    unfold splitFront at h
    simp only at h
    generalize splitLoop eps (p :: l) 0 [] [] = r at h hfl hp
    obtain ⟨groups, group⟩ := r
    simp only [List.flatten_nil, List.nil_append] at h hfl hp
    cases hg : groups.getLast? with
    | none => rw [hg] at h; simp at h
    | some g =>
      rw [hg] at h
      simp only [Option.some.injEq] at h
      -- the last piece is not equal to the one before
      have hne : g ≠ group := by
        rintro rfl
        obtain ⟨init, rfl⟩ : ∃ init, groups = init ++ [g] := by
          rw [List.getLast?_eq_some_iff] at hg; exact hg
        have hgne : g ≠ [] := hp.nonempty g (by simp)
        have hb := hp.between
        rw [List.isChain_append] at hb
        have hgap := hb.2.2 g (by simp) g (by simp)
        obtain ⟨a, rest, rfl⟩ := List.exists_cons_of_ne_nil hgne
        have h1 := hgap ((a :: rest).getLast hgne) (List.getLast?_eq_getLast_of_ne_nil hgne) a
          (by simp)
        have h2 : a.1 ≤ ((a :: rest).getLast hgne).1 := by
          have hsub : (a :: rest).Pairwise fun p q => p.1 ≤ q.1 := by
            rw [← hfl] at hs
            exact (List.pairwise_append.1 hs).2.1
          rcases List.mem_cons.1 (List.getLast_mem hgne) with h' | h'
          · rw [h']
          · exact (List.pairwise_cons.1 hsub).1 _ h'
        linarith
      rw [if_pos hne] at h
      subst h
      refine ⟨?_, hp⟩
      rw [List.flatten_append, List.flatten_singleton]
      exact hfl

/-- **C57.** The function returns exactly if there is a gap after the second point or later; for all
other fronts (in particular connected ones) it raises an `IndexError`. -/
theorem C57_defined (front : List (K × K)) (eps : K) :
    (splitFront front eps).isSome ↔
      ¬ (front.map Prod.fst).tail.IsChain fun a b => b - a ≤ eps := by
  have key : (splitFront front eps).isSome ↔ (splitLoop eps front 0 [] []).1 ≠ [] := by
    unfold splitFront
    simp only
    generalize splitLoop eps front 0 [] [] = r
    cases hg : r.1.getLast? with
    | none => simp [List.getLast?_eq_none_iff.1 hg]
    | some g =>
      have : r.1 ≠ [] := by
        intro h0
        rw [h0] at hg
        simp at hg
      simp [this]
  rw [key]
  match front with
  | [] => simp [splitLoop]
  | [p] => rw [splitLoop_start]; simp [splitLoop]
  | p :: (x, y) :: l =>
    rw [splitLoop_start, splitLoop, if_neg (by simp)]
    have := splitLoop_nil_iff eps l x ([p] ++ [(x, y)]) (by simp)
    exact not_congr this

/-- **C57.** The full claim fails: the first point is far from the others but shares their piece. -/
theorem C57_isolated : ∃ (front : List (ℚ × ℚ)) (eps : ℚ) (gs : List (List (ℚ × ℚ))),
    0 ≤ eps ∧ front.Pairwise (fun p q => p.1 ≤ q.1) ∧ splitFront front eps = some gs ∧
      ∃ g ∈ gs, ∃ p q rest, g = p :: q :: rest ∧ q.1 - p.1 > eps :=
  ⟨[(0, 3), (5, 2), (9, 0)], 1, [[(0, 3), (5, 2)], [(9, 0)]], by norm_num,
    by simp; norm_num, by decide +kernel,
    [(0, 3), (5, 2)], by simp, (0, 3), (5, 2), [], rfl, by norm_num⟩

/-- **C57.** If the front is not sorted, points can be lost: the second half of this one is. -/
theorem C57_unsorted_loses : ∃ (front : List (ℚ × ℚ)) (eps : ℚ) (gs : List (List (ℚ × ℚ))),
    0 ≤ eps ∧ splitFront front eps = some gs ∧ gs.flatten ≠ front :=
  ⟨[(1, 0), (0, 0), (1, 0), (0, 0)], 0, [[(1, 0), (0, 0)]], le_rfl, by decide +kernel,
    by decide +kernel⟩

example : splitFront [((0 : ℚ), (3 : ℚ)), (1 / 2, 2), (3, 1), (7 / 2, 0)] 1 =
    some [[(0, 3), (1 / 2, 2)], [(3, 1), (7 / 2, 0)]] := by decide +kernel

end Evogil.FrontTools
