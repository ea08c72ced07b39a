import Verif.Model.CommandLine
import Verif.Props.Factory
import Mathlib.Data.Nat.Digits.Defs

/-!
# C160: the command line
-/

set_option linter.unusedSectionVars false

namespace Evogil

namespace Spec

/-- `text` is an integer as Python writes and reads them: spaces, a sign or none, groups of digits with single underscores
between them, spaces; `z` is its value. -/
def Numeral (text : List Char) (z : ℤ) : Prop :=
  ∃ (before after sign first : List Char) (groups : List (List Char)),
    text = before ++ sign ++ (first ++ groups.flatMap ('_' :: ·)) ++ after ∧
    (∀ c ∈ before ++ after, c ∈ [' ', '\t', '\n', '\x0b', '\x0c', '\r']) ∧
    (∀ g ∈ first :: groups, g ≠ [] ∧ ∀ c ∈ g, c.isDigit) ∧
    ((sign = [] ∨ sign = ['+']) ∧ z = (Nat.ofDigits 10 ((first ++ groups.flatten).reverse.map fun c => c.toNat - 48) : ℕ) ∨
      sign = ['-'] ∧ z = -(Nat.ofDigits 10 ((first ++ groups.flatten).reverse.map fun c => c.toNat - 48) : ℕ))

/-- The lines of the help text (evogil.py:4-17) with the words that are commands, and what the help says (evogil.py:20-38, and
the name of the command where it says nothing). -/
def usage : List (List String × CommandLine.Action) :=
  [(["list"], .allAlgosProblems), (["run", "budget"], .runParallel), (["run", "time"], .runParallel),
    (["stats"], .statistics), (["statistics"], .statistics), (["rank"], .rank), (["rank_details"], .detailedRank),
    (["table"], .tableRank), (["summary"], .analyseResults), (["pictures"], .picturesTime),
    (["pictures_summary"], .picturesSummary), (["best_fronts"], .bestFronts), (["violin"], .violin)]

end Spec

namespace CommandLine

open Factory Spec

/-- **C160.** Every line of the help text runs its own command. -/
theorem C160_commands (words : List String) (act : Action) (h : (words, act) ∈ usage) (a : Args)
    (ha : ∀ k, a.given k = decide (k ∈ words.map String.toList)) : mainWorker a = some act := by
  have e : mainWorker a = (runDict.find? fun e => decide (e.1 ∈ words.map String.toList)).map Prod.snd := by
    rw [mainWorker]
    congr 2
    funext e
    exact ha e.1
  rw [e]
  simp only [usage, List.mem_cons, Prod.mk.injEq, List.not_mem_nil, or_false] at h
  rcases h with h | h | h | h | h | h | h | h | h | h | h | h | h <;> obtain ⟨rfl, rfl⟩ := h <;> decide +kernel

theorem ofDigits_foldl (cs : List Char) (n : ℕ) :
    cs.foldl (fun n c => 10 * n + digit c) n =
      Nat.ofDigits 10 (cs.reverse.map fun c => c.toNat - 48) + 10 ^ cs.length * n := by
  induction cs generalizing n with
  | nil => simp
  | cons c cs ih =>
    rw [List.foldl_cons, ih, List.reverse_cons, List.map_append, Nat.ofDigits_append, List.length_map, List.length_reverse]
    simp only [List.map_cons, List.map_nil, Nat.ofDigits_singleton, List.length_cons, pow_succ, digit]
    have : '0'.toNat = 48 := rfl
    rw [this]
    ring

theorem digitsLoop_cons (n : ℕ) (c : Char) (cs : Name) : digitsLoop n (c :: cs) =
    if c.isDigit then digitsLoop (10 * n + digit c) cs
    else if c = '_' then
      match cs with
      | [] => none
      | d :: ds => if d.isDigit then digitsLoop (10 * n + digit d) ds else none
    else none := by
  cases cs <;> rw [digitsLoop.eq_def]

theorem digitsLoop_foldl {g : Name} (h : ∀ c ∈ g, c.isDigit) (n : ℕ) (cs : Name) :
    digitsLoop n (g ++ cs) = digitsLoop (g.foldl (fun n c => 10 * n + digit c) n) cs := by
  induction g generalizing n with
  | nil => rfl
  | cons c g ih =>
    rw [List.cons_append, digitsLoop_cons, if_pos (h c List.mem_cons_self), ih fun x hx => h x (List.mem_cons_of_mem _ hx)]
    rfl

theorem not_isDigit_underscore : '_'.isDigit = false := by decide

theorem digitsLoop_groups {groups : List Name} (h : ∀ g ∈ groups, g ≠ [] ∧ ∀ c ∈ g, c.isDigit) (n : ℕ) :
    digitsLoop n (groups.flatMap ('_' :: ·)) = some (groups.flatten.foldl (fun n c => 10 * n + digit c) n) := by
  induction groups generalizing n with
  | nil => rfl
  | cons g groups ih =>
    obtain ⟨h1, h2⟩ := h g List.mem_cons_self
    obtain ⟨c, g, rfl⟩ := List.exists_cons_of_ne_nil h1
    rw [List.flatMap_cons, List.cons_append, List.cons_append, digitsLoop_cons, not_isDigit_underscore, if_neg (by simp), if_pos rfl]
    simp only [h2 c List.mem_cons_self, if_true]
    rw [digitsLoop_foldl fun x hx => h2 x (List.mem_cons_of_mem _ hx), ih fun x hx => h x (List.mem_cons_of_mem _ hx),
      List.flatten_cons, List.foldl_append]
    rfl

theorem digitsLoop_some (n : ℕ) (cs : Name) {v : ℕ} (h : digitsLoop n cs = some v) :
    ∃ (g : Name) (groups : List Name), cs = g ++ groups.flatMap ('_' :: ·) ∧ (∀ c ∈ g, c.isDigit) ∧
      ∀ g ∈ groups, g ≠ [] ∧ ∀ c ∈ g, c.isDigit := by
  induction hn : cs.length using Nat.strong_induction_on generalizing n cs with
  | _ k ih =>
    match cs, h with
    | [], _ => exact ⟨[], [], rfl, by simp, by simp⟩
    | c :: cs, h =>
      rw [digitsLoop_cons] at h
      split at h
      · rename_i hc
        obtain ⟨g, groups, rfl, h1, h2⟩ := ih cs.length (by simp [← hn]) _ cs h rfl
        exact ⟨c :: g, groups, rfl, by simpa [hc] using h1, h2⟩
      · split at h
        · rename_i hc
          subst hc
          match cs, h with
          | d :: ds, h =>
            simp only at h
            split at h
            · rename_i hd
              obtain ⟨g, groups, rfl, h1, h2⟩ := ih ds.length (by simp only [List.length_cons] at hn; omega) _ ds h rfl
              refine ⟨[], (d :: g) :: groups, rfl, by simp, ?_⟩
              intro x hx
              rcases List.mem_cons.1 hx with rfl | hx
              · exact ⟨by simp, by simpa [hd] using h1⟩
              · exact h2 x hx
            · simp at h
        · simp at h

/-- The texts `natural` accepts, and their values. -/
theorem natural_iff (cs : Name) (v : ℕ) : natural cs = some v ↔
    ∃ (first : Name) (groups : List Name), cs = first ++ groups.flatMap ('_' :: ·) ∧
      (∀ g ∈ first :: groups, g ≠ [] ∧ ∀ c ∈ g, c.isDigit) ∧
      v = Nat.ofDigits 10 ((first ++ groups.flatten).reverse.map fun c => c.toNat - 48) := by
  have value : ∀ (c : Char) (g : Name) (groups : List Name), c.isDigit → (∀ c ∈ g, c.isDigit) →
      (∀ g ∈ groups, g ≠ [] ∧ ∀ c ∈ g, c.isDigit) →
      natural (c :: g ++ groups.flatMap ('_' :: ·)) =
        some (Nat.ofDigits 10 ((c :: g ++ groups.flatten).reverse.map fun c => c.toNat - 48)) := by
    intro c g groups hc h1 h2
    rw [List.cons_append, natural, if_pos hc, digitsLoop_foldl h1, digitsLoop_groups h2, ← List.foldl_append]
    have := ofDigits_foldl (c :: (g ++ groups.flatten)) 0
    rw [List.foldl_cons, mul_zero, mul_zero, add_zero, zero_add] at this
    rw [this]
    rfl
  constructor
  · intro h
    match cs, h with
    | c :: cs, h =>
      have h0 := h
      rw [natural] at h
      split at h
      · rename_i hc
        obtain ⟨g, groups, rfl, h1, h2⟩ := digitsLoop_some _ _ h
        have := value c g groups hc h1 h2
        rw [List.cons_append, h0] at this
        refine ⟨c :: g, groups, rfl, ?_, Option.some.inj this⟩
        intro x hx
        rcases List.mem_cons.1 hx with rfl | hx
        · exact ⟨by simp, by simpa [hc] using h1⟩
        · exact h2 x hx
      · simp at h
  · rintro ⟨first, groups, rfl, h, rfl⟩
    obtain ⟨h1, h2⟩ := h first List.mem_cons_self
    obtain ⟨c, g, rfl⟩ := List.exists_cons_of_ne_nil h1
    exact value c g groups (h2 c List.mem_cons_self) (fun x hx => h2 x (List.mem_cons_of_mem _ hx))
      fun x hx => h x (List.mem_cons_of_mem _ hx)

theorem isSpace_iff (c : Char) : isSpace c = true ↔ c ∈ [' ', '\t', '\n', '\x0b', '\x0c', '\r'] := by
  rw [isSpace, decide_eq_true_iff]

theorem strip_eq {before t after : Name} (hb : ∀ c ∈ before, isSpace c) (ha : ∀ c ∈ after, isSpace c) (hne : t ≠ [])
    (ht : ∀ c ∈ t, ¬isSpace c) : ((before ++ t ++ after).dropWhile isSpace).rdropWhile isSpace = t := by
  have key : ∀ w u : Name, (∀ c ∈ w, isSpace c) → u ≠ [] → (∀ c ∈ u, ¬isSpace c) → ∀ v,
      (w ++ (u ++ v)).dropWhile isSpace = u ++ v := by
    intro w u hw hu hu' v
    rw [List.dropWhile_append_of_pos hw]
    obtain ⟨c, u, rfl⟩ := List.exists_cons_of_ne_nil hu
    rw [List.cons_append, List.dropWhile_cons_of_neg (hu' c List.mem_cons_self)]
  rw [List.append_assoc, key before t hb hne ht, List.rdropWhile, List.reverse_append]
  have := key after.reverse t.reverse (by simpa using ha) (by simpa using hne) (by simpa using ht) []
  rw [List.append_nil] at this
  rw [this, List.reverse_reverse]

theorem not_isSpace_of_isDigit {c : Char} (h : c.isDigit) : ¬isSpace c := by
  intro hs
  rw [isSpace_iff] at hs
  simp only [List.mem_cons, List.not_mem_nil, or_false] at hs
  rcases hs with rfl | rfl | rfl | rfl | rfl | rfl <;> revert h <;> decide

/-- `pyInt` after the spaces have been removed. -/
theorem pyInt_ok {s : Name} {z : ℤ} : pyInt s = .ok z ↔
    ∃ sign cs, (s.dropWhile isSpace).rdropWhile isSpace = sign ++ cs ∧ ∃ n, natural cs = some n ∧
      ((sign = [] ∨ sign = ['+']) ∧ z = n ∨ sign = ['-'] ∧ z = -(n : ℤ)) := by
  rw [pyInt]
  generalize (s.dropWhile isSpace).rdropWhile isSpace = t
  constructor
  · intro h
    split at h
    · rename_i r hr
      obtain rfl : r = z := by injection h
      split at hr
      · rename_i cs
        obtain ⟨n, hn, e⟩ := Option.map_eq_some_iff.1 hr
        exact ⟨['+'], cs, rfl, n, hn, .inl ⟨.inr rfl, e.symm⟩⟩
      · rename_i cs
        obtain ⟨n, hn, e⟩ := Option.map_eq_some_iff.1 hr
        exact ⟨['-'], cs, rfl, n, hn, .inr ⟨rfl, e.symm⟩⟩
      · obtain ⟨m, hm, e⟩ := Option.map_eq_some_iff.1 hr
        exact ⟨[], _, rfl, m, hm, .inl ⟨.inl rfl, e.symm⟩⟩
    · cases h
  · rintro ⟨sign, cs, rfl, n, hn, ⟨rfl | rfl, rfl⟩ | ⟨rfl, rfl⟩⟩
    · match cs, hn with
      | c :: cs, hn =>
        have hc : c.isDigit := by
          rw [natural] at hn
          split at hn
          · assumption
          · simp at hn
        simp only [List.nil_append]
        split
        · rename_i r hr
          split at hr
          · rename_i e
            obtain ⟨rfl, -⟩ := List.cons.inj e
            exact absurd hc (by decide)
          · rename_i e
            obtain ⟨rfl, -⟩ := List.cons.inj e
            exact absurd hc (by decide)
          · rw [hn] at hr
            rw [← Option.some.inj hr]
            rfl
        · rename_i hr
          split at hr
          · rename_i e
            obtain ⟨rfl, -⟩ := List.cons.inj e
            exact absurd hc (by decide)
          · rename_i e
            obtain ⟨rfl, -⟩ := List.cons.inj e
            exact absurd hc (by decide)
          · rw [hn] at hr
            simp at hr
    · simp [hn]
    · simp [hn]

/-- **C160.** `int` accepts exactly the integers as Python writes them, and returns their values. -/
theorem C160_numbers (s : Name) (z : ℤ) : pyInt s = .ok z ↔ Numeral s z := by
  rw [pyInt_ok]
  constructor
  · rintro ⟨sign, cs, hs, n, hn, h⟩
    obtain ⟨first, groups, rfl, hg, rfl⟩ := (natural_iff cs n).1 hn
    refine ⟨s.takeWhile isSpace, (s.dropWhile isSpace).rtakeWhile isSpace, sign, first, groups, ?_, ?_, hg, ?_⟩
    · rw [List.append_assoc (List.takeWhile _ _), ← hs, List.append_assoc, List.rdropWhile_append_rtakeWhile,
        List.takeWhile_append_dropWhile]
    · intro c hc
      rw [← isSpace_iff]
      rcases List.mem_append.1 hc with hc | hc
      · exact List.mem_takeWhile_imp hc
      · exact List.mem_rtakeWhile_imp hc
    · rcases h with ⟨h, rfl⟩ | ⟨h, rfl⟩
      · exact .inl ⟨h, rfl⟩
      · exact .inr ⟨h, rfl⟩
  · rintro ⟨before, after, sign, first, groups, rfl, hsp, hg, h⟩
    refine ⟨sign, first ++ groups.flatMap ('_' :: ·), ?_, _, (natural_iff _ _).2 ⟨first, groups, rfl, hg, rfl⟩, ?_⟩
    · rw [List.append_assoc before]
      refine strip_eq (fun c hc => (isSpace_iff c).2 (hsp c (List.mem_append_left _ hc)))
        (fun c hc => (isSpace_iff c).2 (hsp c (List.mem_append_right _ hc))) ?_ ?_
      · intro e
        have := List.append_eq_nil_iff.1 (List.append_eq_nil_iff.1 e).2
        exact (hg first List.mem_cons_self).1 this.1
      · intro c hc
        rcases List.mem_append.1 hc with hc | hc
        · have : c = '+' ∨ c = '-' := by
            rcases h with ⟨rfl | rfl, -⟩ | ⟨rfl, -⟩ <;> simp_all
          rcases this with rfl | rfl <;> decide
        · rcases List.mem_append.1 hc with hc | hc
          · exact not_isSpace_of_isDigit ((hg first List.mem_cons_self).2 c hc)
          · obtain ⟨g, hgg, hc⟩ := List.mem_flatMap.1 hc
            rcases List.mem_cons.1 hc with rfl | hc
            · decide
            · exact not_isSpace_of_isDigit ((hg g (List.mem_cons_of_mem _ hgg)).2 c hc)
    · rcases h with ⟨h, rfl⟩ | ⟨h, rfl⟩
      · exact .inl ⟨h, rfl⟩
      · exact .inr ⟨h, rfl⟩

theorem comma_notMem {s : Name} {z : ℤ} (h : Numeral s z) : ',' ∉ s := by
  obtain ⟨before, after, sign, first, groups, rfl, hsp, hg, h⟩ := h
  intro hc
  have hsign : ',' ∉ sign := by
    rcases h with ⟨rfl | rfl, -⟩ | ⟨rfl, -⟩ <;> decide
  have hdig : ∀ g ∈ first :: groups, ',' ∉ g := fun g hgg hc => absurd ((hg g hgg).2 _ hc) (by decide)
  have hspace : ',' ∉ before ++ after := fun hc => absurd (hsp _ hc) (by decide)
  simp only [List.mem_append, List.mem_flatMap, List.mem_cons, not_or] at hc hspace hdig
  rcases hc with ((hc | hc) | hc | ⟨g, hgg, hc | hc⟩) | hc
  · exact hspace.1 hc
  · exact hsign hc
  · exact hdig first (.inl rfl) hc
  · exact absurd hc (by decide)
  · exact hdig g (.inr hgg) hc
  · exact hspace.2 hc

theorem mapM_ok {texts : List Name} {zs : List ℤ} (h : List.Forall₂ Numeral texts zs) : texts.mapM pyInt = .ok zs := by
  induction h with
  | nil => rfl
  | cons h1 _ ih => rw [List.mapM_cons, (C160_numbers _ _).2 h1, ih]; rfl

theorem forall₂_left {texts : List Name} {zs : List ℤ} (h : List.Forall₂ Numeral texts zs) :
    ∀ w ∈ texts, ∃ z, Numeral w z := by
  induction h with
  | nil => simp
  | cons h1 _ ih =>
    intro w hw
    rcases List.mem_cons.1 hw with rfl | hw
    · exact ⟨_, h1⟩
    · exact ih w hw

theorem pyInt_error {s : Name} (h : ∀ z, ¬Numeral s z) : pyInt s = .error .valueError := by
  have h' : ∀ z, pyInt s ≠ .ok z := fun z e => h z ((C160_numbers s z).1 e)
  rw [pyInt] at h' ⊢
  generalize (s.dropWhile isSpace).rdropWhile isSpace = t at h' ⊢
  split
  · rename_i r hr
    rw [hr] at h'
    exact absurd rfl (h' r)
  · rfl

/-- What the user asks for: the problems and algorithms named, `n` runs each; some of the names are known. -/
structure Asks (a : Args) (pw aw : List Name) (n : ℤ) : Prop where
  problem : a.problem = some (joinWith ',' pw)
  algo : a.algo = some (joinWith ',' aw)
  problemWords : ∀ w ∈ pw, ',' ∉ w
  algoWords : ∀ w ∈ aw, ',' ∉ w
  knownProblem : ∃ p ∈ problems, Asked pw p
  knownAlgo : ∃ al ∈ algorithms, Asked aw al
  runs : Numeral a.runs n
  pos : 0 < n
  jobs : ∃ j, Numeral a.jobs j ∧ 0 < j

/-- The cases are those asked for, each once. -/
def Cases (pw aw : List Name) (n : ℤ) (cases : List (Name × Name × ℕ)) : Prop :=
  cases.Nodup ∧ ∀ p al r, (p, al, r) ∈ cases ↔ p ∈ problems ∧ Asked pw p ∧ al ∈ algorithms ∧ Asked aw al ∧ (r : ℤ) < n

theorem joinWith_ne_nil {known words : List Name} (hk : [] ∉ known) (h : ∃ p ∈ known, Asked words p) :
    joinWith ',' words ≠ [] := by
  obtain ⟨p, hp, w, hw, e⟩ := h
  have hne : w ≠ [] := by
    rintro rfl
    have : p = [] := by simpa [lower] using e.symm
    exact hk (this ▸ hp)
  match words, hw with
  | [w'], hw =>
    obtain rfl : w = w' := by simpa using hw
    simpa [joinWith] using hne
  | w' :: w'' :: ws, _ => simp [joinWith]

theorem createSimulation_ok {a : Args} {pw aw : List Name} {n : ℤ} (h : Asks a pw aw n) :
    ∃ cases, createSimulation a = .ok cases ∧ Cases pw aw n cases ∧ cases ≠ [] := by
  have hpj := joinWith_ne_nil (by decide +kernel) h.knownProblem
  have haj := joinWith_ne_nil (by decide +kernel) h.knownAlgo
  obtain ⟨e1, -⟩ := parse_eq h.problemWords hpj problems
  obtain ⟨-, e2⟩ := parse_eq h.algoWords haj algorithms
  obtain ⟨p, hp, hp'⟩ := h.knownProblem
  obtain ⟨al, hal, hal'⟩ := h.knownAlgo
  have hn : ¬(parseProblems problems a.problem = [] ∨ parseAlgorithms algorithms a.algo = []) := by
    rw [h.problem, h.algo, e1, e2]
    rintro (e | e)
    · have : p ∈ problems.filter (fun p => Asked pw p) := List.mem_filter.2 ⟨hp, by simpa using hp'⟩
      rw [e] at this
      simp at this
    · have : al ∈ algorithms.filter (fun p => Asked aw p) := List.mem_filter.2 ⟨hal, by simpa using hal'⟩
      rw [e] at this
      simp at this
  obtain ⟨h1, h2, -⟩ := C43_plan pw aw h.problemWords h.algoWords hpj haj n.toNat
  have hc : Cases pw aw n (Factory.createSimulation a.problem a.algo n.toNat) := by
    rw [h.problem, h.algo]
    refine ⟨h1, fun p al r => ?_⟩
    rw [h2, show r < n.toNat ↔ (r : ℤ) < n by omega]
  refine ⟨_, ?_, hc, ?_⟩
  · rw [createSimulation, if_neg hn, (C160_numbers _ _).2 h.runs]
    rfl
  · intro e
    have := (hc.2 p al 0).2 ⟨hp, hp', hal, hal', by simpa using h.pos⟩
    rw [e] at this
    simp at this

theorem runParallel_ok {a : Args} {pw aw : List Name} {n : ℤ} (h : Asks a pw aw n) {k : Kind}
    {cases : List (Name × Name × ℕ)} (hne : cases ≠ []) (hr : resolveConfiguration a = .ok (k, cases)) :
    runParallel a = .ok (k, cases) := by
  obtain ⟨j, hj, hj0⟩ := h.jobs
  rw [runParallel, hr]
  simp only
  rw [(C160_numbers _ _).2 hj]
  simp only
  rw [if_neg (by omega), if_neg hne]

/-- **C160, partial.** With `run budget`, integers separated by commas, and at least one known problem and one known
algorithm, there is one job for each combination of a known problem named, a known algorithm named and a run number; each
gets all budgets, in ascending order. Missing: names that are not known are not reported. -/
theorem C160_budget_partial {a : Args} (hb : a.given "budget".toList = true) {pw aw : List Name} {n : ℤ} (h : Asks a pw aw n)
    {texts : List Name} {zs : List ℤ} (hne : texts ≠ []) (hz : List.Forall₂ Numeral texts zs)
    (hbudget : a.budget = joinWith ',' texts) :
    ∃ budgets cases, runParallel a = .ok (.budget budgets, cases) ∧ budgets.Perm zs ∧ budgets.Pairwise (· ≤ ·) ∧
      Cases pw aw n cases := by
  obtain ⟨cases, h1, h2, h3⟩ := createSimulation_ok h
  have hcomma : ∀ w ∈ texts, ',' ∉ w := fun w hw => by
    obtain ⟨z, hz⟩ := forall₂_left hz w hw
    exact comma_notMem hz
  refine ⟨Factory.parseBudgets zs, cases, runParallel_ok h h3 ?_, List.perm_insertionSort _ _,
    List.pairwise_insertionSort _ _, h2⟩
  rw [resolveConfiguration, if_pos hb, budgetSimulation, parseBudgets, hbudget, pySplit_joinWith hne hcomma, mapM_ok hz]
  simp only [Except.map, h1]

/-- **C160.** If one of the budgets is no integer, nothing is run. -/
theorem C160_budget_rejected {a : Args} (hb : a.given "budget".toList = true) {texts : List Name} {w : Name}
    (hcomma : ∀ w ∈ texts, ',' ∉ w) (hw : w ∈ texts) (hno : ∀ z, ¬Numeral w z) (hbudget : a.budget = joinWith ',' texts) :
    runParallel a = .error .valueError := by
  have key : ∀ l : List Name, w ∈ l → l.mapM pyInt = .error .valueError := by
    intro l hl
    induction l with
    | nil => simp at hl
    | cons x l ih =>
      rw [List.mapM_cons]
      by_cases hx : ∃ z, Numeral x z
      · obtain ⟨z, hz⟩ := hx
        have hl' : w ∈ l := by
          rcases List.mem_cons.1 hl with rfl | hl
          · exact absurd hz (hno z)
          · exact hl
        rw [(C160_numbers _ _).2 hz, ih hl']
        rfl
      · rw [pyInt_error fun z hz => hx ⟨z, hz⟩]
        rfl
  rw [runParallel, resolveConfiguration, if_pos hb, budgetSimulation, parseBudgets, hbudget,
    pySplit_joinWith (List.ne_nil_of_mem hw) hcomma, key texts hw]
  rfl

/-- **C160, partial.** With `run time` and both numbers, there is one job for each combination of a known problem named, a
known algorithm named and a run number; each gets both numbers. Missing: `run time` with only one of them, see
`C160_time_violated`. -/
theorem C160_time_partial {a : Args} (hb : a.given "budget".toList = false) (ht : a.given "time".toList = true)
    {pw aw : List Name} {n : ℤ} (h : Asks a pw aw n) {timeout step : Name} {t s : ℤ} (h1 : a.timeout = some timeout)
    (h2 : a.step = some step) (h3 : Numeral timeout t) (h4 : Numeral step s) :
    ∃ cases, runParallel a = .ok (.time t s, cases) ∧ Cases pw aw n cases := by
  obtain ⟨cases, e1, e2, e3⟩ := createSimulation_ok h
  refine ⟨cases, runParallel_ok h e3 ?_, e2⟩
  rw [resolveConfiguration, if_neg (ne_true_of_eq_false hb), if_pos ht, timeSimulation, h1, h2, intArg, intArg,
    (C160_numbers _ _).2 h3, (C160_numbers _ _).2 h4]
  simp only [Except.map, e1]

/-- C160 is violated: the help offers `run time` with the timeout alone, with the step alone and with neither, but then
nothing is ever run. -/
theorem C160_time_violated {a : Args} (hb : a.given "budget".toList = false) (h : a.timeout = none ∨ a.step = none) :
    ∃ e, runParallel a = .error e := by
  have key : ∃ e, resolveConfiguration a = .error e := by
    rw [resolveConfiguration, if_neg (ne_true_of_eq_false hb)]
    split
    · rw [timeSimulation]
      rcases h with h | h
      · rw [h, intArg]
        exact ⟨_, rfl⟩
      · rw [h]
        split
        · exact ⟨_, rfl⟩
        · rw [intArg]
          exact ⟨_, rfl⟩
    · exact ⟨_, rfl⟩
  obtain ⟨e, he⟩ := key
  exact ⟨e, by rw [runParallel, he]⟩

/-- C160 is violated: without `-a` nothing is run, although all algorithms should be (README.md:66). -/
theorem C160_all_violated {a : Args} (h : a.algo = none) : ∃ e, runParallel a = .error e := by
  have hc : createSimulation a = .ok [] := by
    rw [createSimulation, h, if_pos (.inr rfl)]
  rw [runParallel]
  have key : ∀ r, resolveConfiguration a = .ok r → r.2 = [] := by
    intro r hr
    rw [resolveConfiguration] at hr
    split at hr
    · rw [budgetSimulation, hc] at hr
      split at hr
      · cases hr
      · cases hr
        rfl
    · split at hr
      · rw [timeSimulation, hc] at hr
        split at hr
        · cases hr
        · split at hr
          · cases hr
          · cases hr
            rfl
      · cases hr
  split
  · exact ⟨_, rfl⟩
  · rename_i r hr
    split
    · exact ⟨_, rfl⟩
    · split
      · exact ⟨_, rfl⟩
      · rw [if_pos (key r hr)]
        exact ⟨_, rfl⟩

/-- `run budget 500,1000,1200 -a nsgaii,spea2 -p zdt1,uf2,uf10`, README.md:68. -/
def exReadme : Args where
  given := fun k => k ∈ ["run".toList, "budget".toList]
  budget := "500,1000,1200".toList
  timeout := none
  step := none
  algo := some "nsgaii,spea2".toList
  problem := some "zdt1,uf2,uf10".toList
  runs := "1".toList
  jobs := "4".toList

/-- C160 is violated: the problem UF10 of the example in the README is left out without an error. -/
theorem C160_names_violated : ∃ cases, runParallel exReadme = .ok (.budget [500, 1000, 1200], cases) ∧
    ∀ c ∈ cases, lower c.1 ≠ "uf10".toList :=
  ⟨[("ZDT1".toList, "SPEA2".toList, 0), ("ZDT1".toList, "NSGAII".toList, 0), ("UF2".toList, "SPEA2".toList, 0),
    ("UF2".toList, "NSGAII".toList, 0)], by decide +kernel, by decide +kernel⟩

/-- Spaces, a sign and an underscore; and texts that are no integers. -/
example : pyInt " -1_000\n".toList = .ok (-1000) ∧ pyInt "007".toList = .ok 7 ∧ pyInt "1__0".toList = .error .valueError ∧
    pyInt "- 1".toList = .error .valueError ∧ pyInt "1e3".toList = .error .valueError ∧
    pyInt "".toList = .error .valueError := by
  decide +kernel

/-- 1_200 is a numeral with the value 1200. -/
example : Numeral "1_200".toList 1200 := (C160_numbers _ _).1 (by decide +kernel)

/-- The example of the README meets the conditions of `C160_budget_partial`, with budgets in any order. -/
example : ∃ budgets cases, runParallel { exReadme with budget := "1200, 500,1_000".toList } = .ok (.budget budgets, cases) ∧
    budgets.Perm [1200, 500, 1000] ∧ budgets.Pairwise (· ≤ ·) ∧
    Cases ["zdt1".toList, "uf2".toList, "uf10".toList] ["nsgaii".toList, "spea2".toList] 1 cases := by
  refine C160_budget_partial (texts := ["1200".toList, " 500".toList, "1_000".toList]) (by decide +kernel) ?_ (by simp) ?_
    (by decide +kernel)
  · exact ⟨by decide +kernel, by decide +kernel, by decide +kernel, by decide +kernel,
      ⟨"ZDT1".toList, by decide +kernel, by decide +kernel⟩, ⟨"SPEA2".toList, by decide +kernel, by decide +kernel⟩,
      (C160_numbers _ _).1 (by decide +kernel), by decide, 4, (C160_numbers _ _).1 (by decide +kernel), by decide⟩
  · exact .cons ((C160_numbers _ _).1 (by decide +kernel)) (.cons ((C160_numbers _ _).1 (by decide +kernel))
      (.cons ((C160_numbers _ _).1 (by decide +kernel)) .nil))

/-- A budget that is no integer. -/
example : runParallel { exReadme with budget := "500,1e3".toList } = .error .valueError := by decide +kernel

/-- `run time -t 60 -s 10 -a hgs+ibea -p zdt4 -N 2` -/
def exTime : Args where
  given := fun k => k ∈ ["run".toList, "time".toList]
  budget := []
  timeout := some "60".toList
  step := some "10".toList
  algo := some "hgs+ibea".toList
  problem := some "zdt4".toList
  runs := "2".toList
  jobs := "4".toList

/-- Two runs of 60 seconds with a result every 10 seconds; without the step the command fails; `stats` is another command. -/
example : runParallel exTime = .ok (.time 60 10,
      [("ZDT4".toList, "HGS+IBEA".toList, 0), ("ZDT4".toList, "HGS+IBEA".toList, 1)]) ∧
    runParallel { exTime with step := none } = .error .typeError ∧
    mainWorker exTime = some .runParallel ∧
    mainWorker { exTime with given := fun k => k = "stats".toList } = some .statistics :=
  ⟨by decide +kernel, by decide +kernel, by decide +kernel, by decide +kernel⟩

end CommandLine

end Evogil
