import Verif.Model.Imga
import Mathlib.Data.List.Range
import Mathlib.Tactic.Ring
import Mathlib.Tactic.Linarith

/-! # Auxiliary lemmas about the torus topology -/

namespace Evogil.Imga

/-- predecessor in a cycle of length `n` -/
def prev (n a : ℕ) : ℕ := if a = 0 then n - 1 else a - 1

/-- successor in a cycle of length `n` -/
def next (n a : ℕ) : ℕ := if a + 1 = n then 0 else a + 1

theorem prev_lt {n a : ℕ} (h : a < n) : prev n a < n := by unfold prev; split_ifs <;> omega
theorem next_lt {n a : ℕ} (h : a < n) : next n a < n := by unfold next; split_ifs <;> omega

theorem next_eq_mod {n a : ℕ} (h : a < n) : next n a = (a + 1) % n := by
  unfold next
  split_ifs with h1
  · rw [h1, Nat.mod_self]
  · rw [Nat.mod_eq_of_lt (by omega)]

theorem prev_iff {n a b : ℕ} (ha : a < n) (hb : b < n) : b = prev n a ↔ (b + 1) % n = a := by
  rw [← next_eq_mod hb]
  unfold prev next
  split_ifs <;> omega

theorem pyMod_eq {a : ℤ} {b k : ℕ} (q : ℤ) (hk : k < b) (h : a = k + b * q) : pyMod a b = k := by
  unfold pyMod
  rw [h, Int.add_mul_emod_self_left]
  have : ((k : ℤ) % (b : ℤ)) = ((k % b : ℕ) : ℤ) := (Int.natCast_mod k b).symm
  rw [this, Nat.mod_eq_of_lt hk]
  simp

theorem pyMod_pred {n a : ℕ} (q : ℤ) (h : a < n) : pyMod ((a : ℤ) + n * q - 1) n = prev n a := by
  unfold prev
  split_ifs with h0
  · subst h0
    refine pyMod_eq (q - 1) (by omega) ?_
    rw [Nat.cast_sub (by omega)]
    push_cast
    ring
  · refine pyMod_eq q (by omega) ?_
    rw [Nat.cast_sub (by omega)]
    push_cast
    ring

theorem pyMod_succ {n a : ℕ} (q : ℤ) (h : a < n) : pyMod ((a : ℤ) + n * q + 1) n = next n a := by
  unfold next
  split_ifs with h0
  · refine pyMod_eq (q + 1) (by omega) ?_
    have : (n : ℤ) = a + 1 := by omega
    rw [this]
    push_cast
    ring
  · refine pyMod_eq q (by omega) ?_
    push_cast
    ring

theorem grid_div {w ρ c : ℕ} (hc : c < w) : (ρ * w + c) / w = ρ := by
  rw [Nat.add_comm, Nat.add_mul_div_right _ _ (by omega), Nat.div_eq_of_lt hc, Nat.zero_add]

theorem grid_mod {w ρ c : ℕ} (hc : c < w) : (ρ * w + c) % w = c := by
  rw [Nat.add_comm, Nat.add_mul_mod_self_right, Nat.mod_eq_of_lt hc]

theorem grid_inj {w ρ c ρ' c' : ℕ} (hc : c < w) (hc' : c' < w) (h : ρ * w + c = ρ' * w + c') :
    ρ = ρ' ∧ c = c' := by
  constructor
  · rw [← grid_div (ρ := ρ) hc, h, grid_div hc']
  · rw [← grid_mod (ρ := ρ) hc, h, grid_mod hc']

theorem grid_lt {w h ρ c : ℕ} (hc : c < w) (hρ : ρ < h) : ρ * w + c < w * h := by
  have : (ρ + 1) * w ≤ h * w := Nat.mul_le_mul_right _ hρ
  rw [Nat.succ_mul, Nat.mul_comm h] at this
  omega

/-- The horizontal part of the list of the island in row `ρ` and column `c`; the row has `W` columns -/
def hor (w W ρ c : ℕ) : List ℕ := [prev W c + ρ * w, next W c + ρ * w]

/-- The vertical part as long as the column is not linked to the incomplete row -/
def ver (w h ρ c : ℕ) : List ℕ := [prev h ρ * w + c, next h ρ * w + c]

/-- The vertical part after linking, for the first and the last row -/
def lnk (w h ρ c : ℕ) : List ℕ :=
  if h = 1 then [w * h + c, w * h + c]
  else if ρ = 0 then [next h 0 * w + c, w * h + c] else [prev h ρ * w + c, w * h + c]

theorem fullNeighbors_eq {w h ρ c : ℕ} (hc : c < w) (hρ : ρ < h) :
    fullNeighbors w (w * h) (ρ * w + c) = hor w w ρ c ++ ver w h ρ c := by
  unfold fullNeighbors hor ver
  simp only [grid_div hc, List.cons_append, List.nil_append]
  have e1 : pyMod (((ρ * w + c : ℕ) : ℤ) - 1) w = prev w c := by
    have := pyMod_pred (n := w) (a := c) (ρ : ℤ) hc
    rw [← this]
    congr 1
    push_cast
    ring
  have e2 : pyMod (((ρ * w + c : ℕ) : ℤ) + 1) w = next w c := by
    have := pyMod_succ (n := w) (a := c) (ρ : ℤ) hc
    rw [← this]
    congr 1
    push_cast
    ring
  have e3 : pyMod (((ρ * w + c : ℕ) : ℤ) - w) ((w * h : ℕ) : ℤ) = prev h ρ * w + c := by
    unfold prev
    split_ifs with h0
    · subst h0
      refine pyMod_eq (-1) (grid_lt hc (by omega)) ?_
      push_cast
      rw [Nat.cast_sub (by omega)]
      push_cast
      ring
    · refine pyMod_eq 0 (grid_lt hc (by omega)) ?_
      push_cast
      rw [Nat.cast_sub (by omega)]
      push_cast
      ring
  have e4 : pyMod (((ρ * w + c : ℕ) : ℤ) + w) ((w * h : ℕ) : ℤ) = next h ρ * w + c := by
    unfold next
    split_ifs with h0
    · refine pyMod_eq 1 (grid_lt hc (by omega)) ?_
      rw [← h0]
      push_cast
      ring
    · refine pyMod_eq 0 (grid_lt hc (by omega)) ?_
      push_cast
      ring
  rw [e1, e2, e3, e4]

/-- list of an island of a full row after `m` islands of the incomplete row -/
def tabFull (w h m ρ c : ℕ) : List ℕ :=
  hor w w ρ c ++
    if c < m ∧ w < w * h + c ∧ (ρ = 0 ∨ ρ + 1 = h) then lnk w h ρ c else ver w h ρ c

/-- list of an island of the incomplete row with `r` islands -/
def tabLast (w h r c : ℕ) : List ℕ :=
  (if w < w * h + c then [(h - 1) * w + c, c] else []) ++ hor w r h c

/-- The table after `m` islands of the incomplete row. -/
def TabInv (w h r m : ℕ) (t : List (List ℕ)) : Prop :=
  t.length = w * h + m ∧
  (∀ ρ c, ρ < h → c < w → t[ρ * w + c]? = some (tabFull w h m ρ c)) ∧
  ∀ c < m, t[w * h + c]? = some (tabLast w h r c)

theorem tabInv_init (w h r : ℕ) :
    TabInv w h r 0 ((List.range (w * h)).map (fullNeighbors w (w * h))) := by
  refine ⟨by simp, fun ρ c hρ hc => ?_, by simp⟩
  rw [List.getElem?_map, List.getElem?_range (grid_lt hc hρ)]
  simp only [Option.map_some, tabFull]
  rw [if_neg (by omega), fullNeighbors_eq hc hρ]

theorem pyRemove_second {a b c d x : ℕ} (ha : a ≠ x) (hb : b ≠ x) (hc : c ≠ x) (hd : d = x) :
    pyRemove [a, b, c, d] x = some [a, b, c] := by
  subst hd
  unfold pyRemove
  rw [if_pos (by simp)]
  simp [List.erase_cons, ha, hb, hc]

theorem pyRemove_first {a b c d x : ℕ} (ha : a ≠ x) (hb : b ≠ x) (hc : c = x) :
    pyRemove [a, b, c, d] x = some [a, b, d] := by
  subst hc
  unfold pyRemove
  rw [if_pos (by simp)]
  simp [List.erase_cons, ha, hb]

theorem linkColumn_inv {w h r m : ℕ} (hm : m < r) (hr : r < w) (hl : w < w * h + m)
    (t : List (List ℕ)) (ht : TabInv w h r m t) :
    ∃ t', linkColumn w t (w * h + m) = some (t', [(h - 1) * w + m, m]) ∧
      t'.length = w * h + m ∧
      (∀ ρ c, ρ < h → c < w → t'[ρ * w + c]? = some (tabFull w h (m + 1) ρ c)) ∧
      ∀ c < m, t'[w * h + c]? = some (tabLast w h r c) := by
  obtain ⟨t1, t2, t3⟩ := ht
  have hmw : m < w := by omega
  have h0 : h ≠ 0 := by rintro rfl; simp at hl; omega
  have hlast : w * h + m - w = (h - 1) * w + m := by
    obtain ⟨k, rfl⟩ := Nat.exists_eq_succ_of_ne_zero h0
    rw [Nat.mul_succ, Nat.succ_sub_one, Nat.mul_comm k]
    omega
  have hfirst : (w * h + m) % w = m := by rw [Nat.mul_comm]; exact grid_mod hmw
  have hlastlt : (h - 1) * w + m < t.length := by
    have := grid_lt (w := w) (h := h) (ρ := h - 1) hmw (by omega)
    omega
  have hfirstlt : m < t.length := by
    rw [t1]; omega
  have g1 := t2 (h - 1) m (by omega) hmw
  have g2 : t[m]? = some (tabFull w h m 0 m) := by
    have := t2 0 m (by omega) hmw
    simpa using this
  -- a list that sits at another column or in an inner row does not change
  have other : ∀ ρ c, ρ < h → c < w → ¬ (c = m ∧ (ρ = 0 ∨ ρ + 1 = h)) →
      tabFull w h (m + 1) ρ c = tabFull w h m ρ c := by
    intro ρ c hρ hc hne
    unfold tabFull
    congr 1
    by_cases hcm : c < m ∧ w < w * h + c ∧ (ρ = 0 ∨ ρ + 1 = h)
    · rw [if_pos hcm, if_pos ⟨by omega, hcm.2⟩]
    · rw [if_neg hcm, if_neg]
      rintro ⟨a, b, c'⟩
      rcases Nat.lt_or_ge c m with h1 | h1
      · exact hcm ⟨h1, b, c'⟩
      · exact hne ⟨by omega, c'⟩
  have full_new : ∀ ρ, (ρ = 0 ∨ ρ + 1 = h) → tabFull w h (m + 1) ρ m = hor w w ρ m ++ lnk w h ρ m := by
    intro ρ hρ
    unfold tabFull
    rw [if_pos ⟨by omega, hl, hρ⟩]
  have full_old : ∀ ρ, tabFull w h m ρ m = hor w w ρ m ++ ver w h ρ m := by
    intro ρ
    unfold tabFull
    rw [if_neg (by omega)]
  rw [full_old] at g1 g2
  unfold linkColumn
  simp only
  rw [hlast, hfirst, g1]
  simp only
  by_cases h1 : h = 1
  · -- one full row: both lists are the same
    subst h1
    have e1 : hor w w (1 - 1) m ++ ver w 1 (1 - 1) m = [prev w m, next w m, m, m] := by
      simp [hor, ver, prev, next]
    have n1 : prev w m ≠ m := by unfold prev; split_ifs <;> omega
    have n2 : next w m ≠ m := by unfold next; split_ifs <;> omega
    rw [e1, pyRemove_first n1 n2 rfl]
    simp only [Nat.sub_self, Nat.zero_mul, Nat.zero_add, List.cons_append, List.nil_append]
    rw [List.getElem?_set_self (by simpa using hfirstlt)]
    simp only
    rw [pyRemove_first n1 n2 rfl]
    simp only [List.cons_append, List.nil_append]
    refine ⟨_, rfl, by simp [t1], ?_, ?_⟩
    · intro ρ c hρ hc
      obtain rfl : ρ = 0 := by omega
      rw [Nat.zero_mul, Nat.zero_add]
      by_cases hcm : c = m
      · subst hcm
        rw [List.getElem?_set_self (by simpa using hfirstlt), full_new 0 (by omega)]
        simp [hor, lnk]
      · rw [List.getElem?_set_ne (by omega), List.getElem?_set_ne (by omega),
          other 0 c (by omega) hc (by omega)]
        have := t2 0 c (by omega) hc
        simpa using this
    · intro c hc
      rw [List.getElem?_set_ne (by omega), List.getElem?_set_ne (by omega)]
      exact t3 c hc
  · have hge : w ≤ (h - 1) * w := Nat.le_mul_of_pos_left _ (by omega)
    have hpm := prev_lt hmw
    have hnm := next_lt hmw
    have e1 : pyRemove (hor w w (h - 1) m ++ ver w h (h - 1) m) m =
        some (hor w w (h - 1) m ++ [prev h (h - 1) * w + m]) := by
      have hnx : next h (h - 1) * w + m = m := by
        have : next h (h - 1) = 0 := by unfold next; rw [if_pos (by omega)]
        rw [this]; simp
      unfold hor ver
      simp only [List.cons_append, List.nil_append]
      by_cases h2 : h = 2
      · have hp : prev h (h - 1) * w + m = m := by
          have : prev h (h - 1) = 0 := by unfold prev; rw [if_neg (by omega)]; omega
          rw [this]; simp
        rw [pyRemove_first (by omega) (by omega) hp, hnx, hp]
      · refine pyRemove_second (by omega) (by omega) ?_ hnx
        have : prev h (h - 1) = h - 2 := by unfold prev; rw [if_neg (by omega)]; omega
        rw [this]
        have : w ≤ (h - 2) * w := Nat.le_mul_of_pos_left _ (by omega)
        omega
    have e2 : pyRemove (hor w w 0 m ++ ver w h 0 m) ((h - 1) * w + m) =
        some (hor w w 0 m ++ [next h 0 * w + m]) := by
      have hp : prev h 0 = h - 1 := by unfold prev; rw [if_pos rfl]
      unfold hor ver
      simp only [List.cons_append, List.nil_append]
      rw [pyRemove_first (by omega) (by omega) (by rw [hp])]
    rw [e1]
    simp only
    rw [List.getElem?_set_ne (by omega), g2]
    simp only
    rw [e2]
    simp only
    refine ⟨_, rfl, by simp [t1], ?_, ?_⟩
    · intro ρ c hρ hc
      by_cases hA : c = m ∧ ρ = 0
      · obtain ⟨rfl, rfl⟩ := hA
        rw [Nat.zero_mul, Nat.zero_add, List.getElem?_set_self (by simpa using hfirstlt),
          full_new 0 (by omega)]
        unfold lnk
        rw [if_neg h1, if_pos rfl]
        simp
      · have hne : m ≠ ρ * w + c := by
          intro h'
          have := grid_inj (w := w) (ρ := 0) (c := m) (ρ' := ρ) (c' := c) hmw hc (by omega)
          exact hA ⟨this.2.symm, this.1.symm⟩
        rw [List.getElem?_set_ne hne]
        by_cases hB : c = m ∧ ρ + 1 = h
        · obtain ⟨rfl, hB⟩ := hB
          obtain rfl : ρ = h - 1 := by omega
          rw [List.getElem?_set_self hlastlt, full_new (h - 1) (by omega)]
          unfold lnk
          rw [if_neg h1, if_neg (by omega)]
          simp
        · have hne2 : (h - 1) * w + m ≠ ρ * w + c := by
            intro h'
            obtain ⟨a, b⟩ := grid_inj hmw hc h'
            exact hB ⟨b.symm, by omega⟩
          rw [List.getElem?_set_ne hne2, t2 ρ c hρ hc, other ρ c hρ hc (by omega)]
    · intro c hc
      have := grid_lt (w := w) (h := h) (ρ := h - 1) hmw (by omega)
      rw [List.getElem?_set_ne (by omega), List.getElem?_set_ne (by omega)]
      exact t3 c hc

theorem lastRowStep_inv {w h r m : ℕ} (hm : m < r) (hr : r < w) (t : List (List ℕ))
    (ht : TabInv w h r m t) :
    ∃ t', lastRowStep w (w * h) (w * h + r) t (w * h + m) = some t' ∧ TabInv w h r (m + 1) t' := by
  have hmw : m < w := by omega
  have hrow : (w * h + m) / w = h := by rw [Nat.mul_comm]; exact grid_div hmw
  have e1 : pyMod (((w * h + m : ℕ) : ℤ) - ((w * h : ℕ) : ℤ) - 1) (r : ℤ) = prev r m := by
    rw [← pyMod_pred 0 hm]
    congr 1
    push_cast
    ring
  have e2 : pyMod (((w * h + m : ℕ) : ℤ) - ((w * h : ℕ) : ℤ) + 1) (r : ℤ) = next r m := by
    rw [← pyMod_succ 0 hm]
    congr 1
    push_cast
    ring
  have hwd : w * h + r - w * h = r := by omega
  unfold lastRowStep
  simp only
  rw [ht.1, hrow, hwd, e1, e2]
  by_cases hl : w < w * h + m
  · rw [if_pos hl]
    obtain ⟨t', h1, h2, h3, h4⟩ := linkColumn_inv hm hr hl t ht
    rw [h1]
    refine ⟨_, rfl, by simp [h2]; omega, ?_, ?_⟩
    · intro ρ c hρ hc
      have := grid_lt hc hρ
      rw [List.getElem?_append_left (by omega)]
      exact h3 ρ c hρ hc
    · intro c hc
      by_cases hcm : c = m
      · subst hcm
        rw [List.getElem?_append_right (by omega), h2]
        simp only [Nat.sub_self, List.getElem?_cons_zero, tabLast]
        rw [if_pos hl]
        rfl
      · rw [List.getElem?_append_left (by omega)]
        exact h4 c (by omega)
  · rw [if_neg hl]
    obtain ⟨h2, h3, h4⟩ := ht
    refine ⟨_, rfl, by simp [h2]; omega, ?_, ?_⟩
    · intro ρ c hρ hc
      have := grid_lt hc hρ
      rw [List.getElem?_append_left (by omega), h3 ρ c hρ hc]
      unfold tabFull
      congr 2
      rw [if_neg (by omega), if_neg (by omega)]
    · intro c hc
      by_cases hcm : c = m
      · subst hcm
        rw [List.getElem?_append_right (by omega), h2]
        simp only [Nat.sub_self, List.getElem?_cons_zero, tabLast]
        rw [if_neg hl]
        rfl
      · rw [List.getElem?_append_left (by omega)]
        exact h4 c (by omega)

theorem lastRow_inv {w h r : ℕ} (hr : r < w) : ∀ (k m : ℕ) (t : List (List ℕ)), m + k = r →
    TabInv w h r m t →
    ∃ t', lastRow w (w * h) (w * h + r) t ((List.range k).map fun x => w * h + (m + x)) = some t' ∧
      TabInv w h r r t' := by
  intro k
  induction k with
  | zero => intro m t hmk ht; obtain rfl : m = r := by omega
            exact ⟨t, rfl, ht⟩
  | succ k ih =>
    intro m t hmk ht
    obtain ⟨t1, e, h1⟩ := lastRowStep_inv (by omega) hr t ht
    obtain ⟨t', e', h'⟩ := ih (m + 1) t1 (by omega) h1
    refine ⟨t', ?_, h'⟩
    rw [List.range_succ_eq_map, List.map_cons, List.map_map, lastRow, Nat.add_zero, e]
    simp only
    rw [← e']
    congr 1
    refine List.map_congr_left fun x _ => ?_
    simp only [Function.comp]
    omega

/-- The whole table: full rows, and the incomplete row where the only island of a row of length one
has no horizontal neighbours. -/
theorem torus_table {w h r : ℕ} (hr : r < w) :
    ∃ t, torus w (w * h + r) = some t ∧ t.length = w * h + r ∧
      (∀ ρ c, ρ < h → c < w → t[ρ * w + c]? = some (tabFull w h r ρ c).dedup) ∧
      ∀ c < r, t[w * h + c]? = some (if r = 1 then (tabLast w h r c).filter (· ≠ w * h) else
        tabLast w h r c).dedup := by
  have hw : w ≠ 0 := by omega
  have hdiv : w * ((w * h + r) / w) = w * h := by
    rw [Nat.mul_comm w h, grid_div hr]; ring
  unfold torus
  rw [if_neg hw]
  simp only
  rw [hdiv]
  by_cases h0 : r = 0
  · subst h0
    rw [if_neg (by omega)]
    obtain ⟨i1, i2, i3⟩ := tabInv_init w h 0
    refine ⟨_, rfl, by simp, ?_, by simp⟩
    intro ρ c hρ hc
    rw [List.getElem?_map, i2 ρ c hρ hc]
    rfl
  · rw [if_pos (by omega)]
    obtain ⟨t', e, i1, i2, i3⟩ := lastRow_inv (h := h) hr r 0 _ (by omega) (tabInv_init w h r)
    have hsub : w * h + r - w * h = r := by omega
    simp only [Nat.zero_add] at e
    rw [hsub, e]
    simp only
    by_cases h1 : r = 1
    · subst h1
      have i30 := i3 0 (by omega)
      rw [Nat.add_zero] at i30
      rw [if_pos rfl, dropSelf, i30]
      simp only
      have hself : w * h ∈ tabLast w h 1 0 := by
        unfold tabLast hor prev next
        simp [Nat.mul_comm]
      rw [if_pos hself]
      refine ⟨_, rfl, by simp [i1], ?_, ?_⟩
      · intro ρ c hρ hc
        have := grid_lt hc hρ
        rw [List.getElem?_map, List.getElem?_set_ne (by omega), i2 ρ c hρ hc]
        rfl
      · intro c hc
        obtain rfl : c = 0 := by omega
        rw [List.getElem?_map, Nat.add_zero, List.getElem?_set_self (by omega)]
        simp
    · rw [if_neg h1]
      refine ⟨_, rfl, by simp [i1], ?_, ?_⟩
      · intro ρ c hρ hc
        rw [List.getElem?_map, i2 ρ c hρ hc]
        rfl
      · intro c hc
        rw [List.getElem?_map, i3 c hc, if_neg h1]
        rfl

end Evogil.Imga
