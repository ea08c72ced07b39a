import Verif.Lemmas.Torus
import Verif.Props.Imga

/-! # Property C37: the torus topology -/

set_option linter.unusedSectionVars false

namespace Evogil.Imga

/-- Specification: `a` and `b` are neighbours in a cycle of length `n`. -/
def Cyc (n a b : ℕ) : Prop := (a + 1) % n = b ∨ (b + 1) % n = a

theorem Cyc.symm {n a b : ℕ} (h : Cyc n a b) : Cyc n b a := Or.symm h

/-- Specification of the shape: `h` complete rows of `w` islands and an incomplete one of `r` islands.
Position of an island in row `ρ` and column `c`. -/
def Valid (w h r ρ c : ℕ) : Prop := (ρ < h ∧ c < w) ∨ (ρ = h ∧ c < r)

/-- Specification of the neighbourhood: cyclic rows and columns, where the columns `c < r` have one
more row. Deviations of the code: the incomplete row is linked in column `c` only if there are at least
two complete rows, or `c > 0`; an incomplete row of a single island is not linked to itself. -/
def Near (w h r ρ c ρ' c' : ℕ) : Prop :=
  ((ρ = ρ' ∧ Cyc (if ρ < h then w else r) c c') ∨
    (c = c' ∧ if c < r ∧ w < w * h + c then Cyc (h + 1) ρ ρ' else ρ < h ∧ ρ' < h ∧ Cyc h ρ ρ')) ∧
  ¬ (r = 1 ∧ ρ = h ∧ ρ' = h)

theorem cyc_iff {n a b : ℕ} (ha : a < n) (hb : b < n) : (b = prev n a ∨ b = next n a) ↔ Cyc n a b := by
  unfold Cyc
  rw [prev_iff ha hb, next_eq_mod ha]
  constructor
  · rintro (h | h)
    · exact Or.inr h
    · exact Or.inl h.symm
  · rintro (h | h)
    · exact Or.inr h.symm
    · exact Or.inl h

theorem mem_hor {w W ρ c k : ℕ} (hc : c < W) (hW : W ≤ w) :
    k ∈ hor w W ρ c ↔ ∃ c', c' < W ∧ k = ρ * w + c' ∧ Cyc W c c' := by
  unfold hor
  simp only [List.mem_cons, List.not_mem_nil, or_false]
  constructor
  · rintro (rfl | rfl)
    · exact ⟨prev W c, prev_lt hc, by omega, (cyc_iff hc (prev_lt hc)).1 (Or.inl rfl)⟩
    · exact ⟨next W c, next_lt hc, by omega, (cyc_iff hc (next_lt hc)).1 (Or.inr rfl)⟩
  · rintro ⟨c', hc', rfl, h⟩
    rcases (cyc_iff hc hc').2 h with rfl | rfl
    · left; omega
    · right; omega

theorem mem_ver {w h ρ c k : ℕ} (hρ : ρ < h) :
    k ∈ ver w h ρ c ↔ ∃ ρ', ρ' < h ∧ k = ρ' * w + c ∧ Cyc h ρ ρ' := by
  unfold ver
  simp only [List.mem_cons, List.not_mem_nil, or_false]
  constructor
  · rintro (rfl | rfl)
    · exact ⟨prev h ρ, prev_lt hρ, rfl, (cyc_iff hρ (prev_lt hρ)).1 (Or.inl rfl)⟩
    · exact ⟨next h ρ, next_lt hρ, rfl, (cyc_iff hρ (next_lt hρ)).1 (Or.inr rfl)⟩
  · rintro ⟨ρ', hρ', rfl, h⟩
    rcases (cyc_iff hρ hρ').2 h with rfl | rfl
    · left; rfl
    · right; rfl

/-- linked column: cyclic with one more row -/
theorem mem_lnk {w h ρ c k : ℕ} (hρ : ρ < h) (he : ρ = 0 ∨ ρ + 1 = h) :
    k ∈ lnk w h ρ c ↔ ∃ ρ', ρ' < h + 1 ∧ k = ρ' * w + c ∧ Cyc (h + 1) ρ ρ' := by
  have key : k ∈ lnk w h ρ c ↔ k = prev (h + 1) ρ * w + c ∨ k = next (h + 1) ρ * w + c := by
    unfold lnk
    by_cases h1 : h = 1
    · subst h1
      obtain rfl : ρ = 0 := by omega
      simp [prev, next]
    · rw [if_neg h1]
      by_cases h0 : ρ = 0
      · subst h0
        rw [if_pos rfl]
        simp only [List.mem_cons, List.not_mem_nil, or_false]
        have e1 : prev (h + 1) 0 = h := by unfold prev; rw [if_pos rfl]; omega
        have e2 : next (h + 1) 0 = next h 0 := by unfold next; rw [if_neg (by omega), if_neg (by omega)]
        rw [e1, e2, Nat.mul_comm h w]
        exact or_comm
      · rw [if_neg h0]
        simp only [List.mem_cons, List.not_mem_nil, or_false]
        have e1 : prev (h + 1) ρ = prev h ρ := by unfold prev; rw [if_neg h0, if_neg h0]
        have e2 : next (h + 1) ρ = h := by unfold next; rw [if_neg (by omega)]; omega
        rw [e1, e2, Nat.mul_comm h w]
  rw [key]
  have hρ' : ρ < h + 1 := by omega
  constructor
  · rintro (rfl | rfl)
    · exact ⟨_, prev_lt hρ', rfl, (cyc_iff hρ' (prev_lt hρ')).1 (Or.inl rfl)⟩
    · exact ⟨_, next_lt hρ', rfl, (cyc_iff hρ' (next_lt hρ')).1 (Or.inr rfl)⟩
  · rintro ⟨ρ', hρ'', rfl, h⟩
    rcases (cyc_iff hρ' hρ'').2 h with rfl | rfl
    · left; rfl
    · right; rfl

/-- inner rows do not notice the additional row -/
theorem cyc_inner {h ρ ρ' : ℕ} (h0 : 0 < ρ) (h1 : ρ + 1 < h) :
    (ρ' < h + 1 ∧ Cyc (h + 1) ρ ρ') ↔ (ρ' < h ∧ Cyc h ρ ρ') := by
  have hp : prev (h + 1) ρ = prev h ρ := by
    unfold prev; rw [if_neg (by omega), if_neg (by omega)]
  have hn : next (h + 1) ρ = next h ρ := by
    unfold next; rw [if_neg (by omega), if_neg (by omega)]
  constructor
  · rintro ⟨a, b⟩
    have hor' := (cyc_iff (by omega) a).2 b
    rw [hp, hn] at hor'
    have hlt : ρ' < h := by
      rcases hor' with rfl | rfl
      · exact prev_lt (by omega)
      · exact next_lt (by omega)
    exact ⟨hlt, (cyc_iff (by omega) hlt).1 hor'⟩
  · rintro ⟨a, b⟩
    have hor' := (cyc_iff (by omega) a).2 b
    rw [← hp, ← hn] at hor'
    exact ⟨by omega, (cyc_iff (by omega) (by omega)).1 hor'⟩

/-- C37: what the topology is. For `w` columns, `h` complete rows and `r < w` more islands the creation
succeeds, and the neighbours of an island are exactly those given by the specification `Near`. -/
theorem C37_neighbours {w h r : ℕ} (hr : r < w) :
    ∃ t, torus w (w * h + r) = some t ∧ t.length = w * h + r ∧ (∀ l ∈ t, l.Nodup) ∧
      ∀ ρ c, Valid w h r ρ c → ∃ l, t[ρ * w + c]? = some l ∧
        ∀ k, k ∈ l ↔ ∃ ρ' c', Valid w h r ρ' c' ∧ k = ρ' * w + c' ∧ Near w h r ρ c ρ' c' := by
  obtain ⟨t, ht, hlen, hfull, hlast⟩ := torus_table (w := w) (h := h) hr
  refine ⟨t, ht, hlen, ?_, ?_⟩
  · intro l hl
    unfold torus at ht
    rw [if_neg (by omega)] at ht
    simp only at ht
    obtain ⟨t0, -, rfl⟩ := Option.map_eq_some_iff.1 ht
    obtain ⟨l0, -, rfl⟩ := List.mem_map.1 hl
    exact List.nodup_dedup _
  · rintro ρ c (⟨hρ, hc⟩ | ⟨rfl, hc⟩)
    · refine ⟨_, hfull ρ c hρ hc, fun k => ?_⟩
      rw [List.mem_dedup, tabFull, List.mem_append, mem_hor hc le_rfl]
      have hvert : (k ∈ (if c < r ∧ w < w * h + c ∧ (ρ = 0 ∨ ρ + 1 = h) then lnk w h ρ c
          else ver w h ρ c)) ↔ ∃ ρ', Valid w h r ρ' c ∧ k = ρ' * w + c ∧
            if c < r ∧ w < w * h + c then Cyc (h + 1) ρ ρ' else ρ < h ∧ ρ' < h ∧ Cyc h ρ ρ' := by
        by_cases hl : c < r ∧ w < w * h + c
        · by_cases he : ρ = 0 ∨ ρ + 1 = h
          · rw [if_pos ⟨hl.1, hl.2, he⟩, mem_lnk hρ he]
            constructor
            · rintro ⟨ρ', a, b, d⟩
              exact ⟨ρ', by unfold Valid; omega, b, by rw [if_pos hl]; exact d⟩
            · rintro ⟨ρ', a, b, d⟩
              rw [if_pos hl] at d
              exact ⟨ρ', by unfold Valid at a; omega, b, d⟩
          · rw [if_neg (by tauto), mem_ver hρ]
            constructor
            · rintro ⟨ρ', a, b, d⟩
              obtain ⟨a', d'⟩ := (cyc_inner (by omega) (by omega)).2 ⟨a, d⟩
              exact ⟨ρ', by unfold Valid; omega, b, by rw [if_pos hl]; exact d'⟩
            · rintro ⟨ρ', a, b, d⟩
              rw [if_pos hl] at d
              obtain ⟨a', d'⟩ := (cyc_inner (ρ' := ρ') (by omega) (by omega)).1
                ⟨by unfold Valid at a; omega, d⟩
              exact ⟨ρ', a', b, d'⟩
        · rw [if_neg (by tauto), mem_ver hρ]
          constructor
          · rintro ⟨ρ', a, b, d⟩
            exact ⟨ρ', by unfold Valid; omega, b, by rw [if_neg hl]; exact ⟨hρ, a, d⟩⟩
          · rintro ⟨ρ', -, b, d⟩
            rw [if_neg hl] at d
            exact ⟨ρ', d.2.1, b, d.2.2⟩
      rw [hvert]
      constructor
      · rintro (⟨c', a, b, d⟩ | ⟨ρ', a, b, d⟩)
        · exact ⟨ρ, c', Or.inl ⟨hρ, a⟩, b, Or.inl ⟨rfl, by rw [if_pos hρ]; exact d⟩, by omega⟩
        · exact ⟨ρ', c, a, b, Or.inr ⟨rfl, d⟩, by omega⟩
      · rintro ⟨ρ', c', hv, rfl, (⟨rfl, d⟩ | ⟨rfl, d⟩), -⟩
        · rw [if_pos hρ] at d
          left
          exact ⟨c', by unfold Valid at hv; omega, rfl, d⟩
        · right
          exact ⟨ρ', hv, rfl, d⟩
    · have hl := hlast c hc
      rw [Nat.mul_comm] at hl
      refine ⟨_, hl, fun k => ?_⟩
      rw [List.mem_dedup]
      have hraw : k ∈ tabLast w ρ r c ↔ (∃ c', c' < r ∧ k = ρ * w + c' ∧ Cyc r c c') ∨
          (w < w * ρ + c ∧ ∃ ρ', ρ' < ρ + 1 ∧ k = ρ' * w + c ∧ Cyc (ρ + 1) ρ ρ') := by
        unfold tabLast
        rw [List.mem_append, mem_hor hc hr.le, or_comm]
        refine or_congr Iff.rfl ?_
        by_cases hlk : w < w * ρ + c
        · rw [if_pos hlk]
          have h0 : ρ ≠ 0 := by rintro rfl; simp at hlk; omega
          simp only [hlk, true_and, List.mem_cons, List.not_mem_nil, or_false]
          have e1 : prev (ρ + 1) ρ = ρ - 1 := by unfold prev; rw [if_neg h0]
          have e2 : next (ρ + 1) ρ = 0 := by unfold next; rw [if_pos rfl]
          constructor
          · rintro (rfl | rfl)
            · exact ⟨ρ - 1, by omega, rfl, (cyc_iff (by omega) (by omega)).1 (Or.inl e1.symm)⟩
            · exact ⟨0, by omega, by simp, (cyc_iff (by omega) (by omega)).1 (Or.inr e2.symm)⟩
          · rintro ⟨ρ', a, rfl, d⟩
            rcases (cyc_iff (by omega) a).2 d with h' | h'
            · left; rw [h', e1]
            · right; rw [h', e2]; simp
        · rw [if_neg hlk]
          simp [hlk]
      have hvsplit : (w < w * ρ + c ∧ ∃ ρ', ρ' < ρ + 1 ∧ k = ρ' * w + c ∧ Cyc (ρ + 1) ρ ρ') ↔
          ∃ ρ', Valid w ρ r ρ' c ∧ k = ρ' * w + c ∧
            if c < r ∧ w < w * ρ + c then Cyc (ρ + 1) ρ ρ' else ρ < ρ ∧ ρ' < ρ ∧ Cyc ρ ρ ρ' := by
        constructor
        · rintro ⟨hlk, ρ', a, b, d⟩
          exact ⟨ρ', by unfold Valid; omega, b, by rw [if_pos ⟨hc, hlk⟩]; exact d⟩
        · rintro ⟨ρ', a, b, d⟩
          by_cases hlk : w < w * ρ + c
          · rw [if_pos ⟨hc, hlk⟩] at d
            exact ⟨hlk, ρ', by unfold Valid at a; omega, b, d⟩
          · rw [if_neg (by omega)] at d
            omega
      have hself : ∀ ρ' c', Valid w ρ r ρ' c' → r = 1 → (ρ' * w + c' = ρ * w ↔ ρ' = ρ) := by
        intro ρ' c' hv hr1
        constructor
        · intro h'
          have hc' : c' < w := by unfold Valid at hv; omega
          exact (grid_inj hc' (by omega : 0 < w) h').1
        · rintro rfl
          have : c' = 0 := by unfold Valid at hv; omega
          rw [this]; rfl
      have hmain : k ∈ tabLast w ρ r c ↔ ∃ ρ' c', Valid w ρ r ρ' c' ∧ k = ρ' * w + c' ∧
          ((ρ = ρ' ∧ Cyc (if ρ < ρ then w else r) c c') ∨
          (c = c' ∧ if c < r ∧ w < w * ρ + c then Cyc (ρ + 1) ρ ρ' else
            ρ < ρ ∧ ρ' < ρ ∧ Cyc ρ ρ ρ')) := by
        rw [hraw, hvsplit]
        constructor
        · rintro (⟨c', a, b, d⟩ | ⟨ρ', a, b, d⟩)
          · exact ⟨ρ, c', Or.inr ⟨rfl, a⟩, b, Or.inl ⟨rfl, by rw [if_neg (by omega)]; exact d⟩⟩
          · exact ⟨ρ', c, a, b, Or.inr ⟨rfl, d⟩⟩
        · rintro ⟨ρ', c', hv, rfl, (⟨rfl, d⟩ | ⟨rfl, d⟩)⟩
          · rw [if_neg (by omega)] at d
            left
            exact ⟨c', hv.elim (fun a => absurd a.1 (lt_irrefl _)) (fun a => a.2), rfl, d⟩
          · right
            exact ⟨ρ', hv, rfl, d⟩
      by_cases hr1 : r = 1
      · rw [if_pos hr1, List.mem_filter, hmain]
        simp only [decide_eq_true_eq]
        constructor
        · rintro ⟨⟨ρ', c', hv, rfl, d⟩, hne⟩
          refine ⟨ρ', c', hv, rfl, d, ?_⟩
          rintro ⟨-, -, h'⟩
          exact hne ((hself ρ' c' hv hr1).2 h')
        · rintro ⟨ρ', c', hv, rfl, d, hne⟩
          refine ⟨⟨ρ', c', hv, rfl, d⟩, fun h' => hne ⟨hr1, rfl, (hself ρ' c' hv hr1).1 h'⟩⟩
      · rw [if_neg hr1, hmain]
        constructor
        · rintro ⟨ρ', c', hv, h1, d⟩
          exact ⟨ρ', c', hv, h1, d, by omega⟩
        · rintro ⟨ρ', c', hv, h1, d, -⟩
          exact ⟨ρ', c', hv, h1, d⟩

theorem near_symm {w h r ρ c ρ' c' : ℕ} (hn : Near w h r ρ c ρ' c') : Near w h r ρ' c' ρ c := by
  obtain ⟨h1, h2⟩ := hn
  refine ⟨?_, by omega⟩
  rcases h1 with ⟨rfl, d⟩ | ⟨rfl, d⟩
  · exact Or.inl ⟨rfl, d.symm⟩
  · refine Or.inr ⟨rfl, ?_⟩
    split_ifs at d ⊢ with hl
    · exact d.symm
    · exact ⟨d.2.1, d.1, d.2.2.symm⟩

theorem exists_valid {w h r j : ℕ} (hr : r < w) (hj : j < w * h + r) :
    ∃ ρ c, Valid w h r ρ c ∧ j = ρ * w + c := by
  have hmod : j % w < w := Nat.mod_lt _ (by omega)
  refine ⟨j / w, j % w, ?_, by rw [Nat.mul_comm]; exact (Nat.div_add_mod j w).symm⟩
  have hdm := Nat.div_add_mod j w
  by_cases hlt : j / w < h
  · exact Or.inl ⟨hlt, hmod⟩
  · have h1 : w * h ≤ w * (j / w) := Nat.mul_le_mul_left _ (by omega)
    have h2 : j / w = h := by
      by_contra hne
      have : w * (h + 1) ≤ w * (j / w) := Nat.mul_le_mul_left _ (by omega)
      rw [Nat.mul_succ] at this
      omega
    rw [h2] at hdm
    exact Or.inr ⟨h2, by omega⟩

theorem valid_lt {w h r ρ c : ℕ} (hv : Valid w h r ρ c) : ρ * w + c < w * h + r := by
  rcases hv with ⟨h1, h2⟩ | ⟨rfl, h2⟩
  · have := grid_lt h2 h1; omega
  · rw [Nat.mul_comm]; omega

/-- C37: for every positive width and every number of islands the topology is created, all indices are
in range, and the neighbourhood is symmetric. -/
theorem C37_symmetric (w size : ℕ) (hw : 0 < w) :
    ∃ t, torus w size = some t ∧ SymTopology size t := by
  have hr : size % w < w := Nat.mod_lt _ hw
  obtain ⟨t, ht, hlen, hnd, hn⟩ := C37_neighbours (w := w) (h := size / w) hr
  have hs : w * (size / w) + size % w = size := Nat.div_add_mod _ _
  rw [hs] at ht hlen
  refine ⟨t, ht, hlen, ?_, ?_⟩
  · intro l hl
    refine ⟨hnd l hl, fun k hk => ?_⟩
    obtain ⟨i, hi, rfl⟩ := List.getElem_of_mem hl
    obtain ⟨ρ, c, hv, rfl⟩ := exists_valid (h := size / w) hr (show i < w * (size / w) + size % w by omega)
    obtain ⟨l', h1, h2⟩ := hn ρ c hv
    rw [List.getElem?_eq_getElem hi] at h1
    obtain rfl := Option.some.inj h1
    obtain ⟨ρ', c', hv', rfl, -⟩ := (h2 k).1 hk
    have := valid_lt hv'
    omega
  · have key : ∀ (i j : ℕ) (li lj : List ℕ), t[i]? = some li → t[j]? = some lj → j ∈ li → i ∈ lj := by
      intro i j li lj hi hj hmem
      have hi' : i < t.length := (List.getElem?_eq_some_iff.1 hi).1
      obtain ⟨ρ, c, hv, rfl⟩ := exists_valid (h := size / w) hr
        (show i < w * (size / w) + size % w by omega)
      obtain ⟨l', h1, h2⟩ := hn ρ c hv
      obtain rfl := Option.some.inj (hi.symm.trans h1)
      obtain ⟨ρ', c', hv', rfl, hnear⟩ := (h2 j).1 hmem
      obtain ⟨l'', h3, h4⟩ := hn ρ' c' hv'
      obtain rfl := Option.some.inj (hj.symm.trans h3)
      exact (h4 _).2 ⟨ρ, c, hv, rfl, near_symm hnear⟩
    exact fun i j li lj hi hj => ⟨key i j li lj hi hj, key j i lj li hj hi⟩

theorem cyc_self {n a : ℕ} (ha : a < n) (h : Cyc n a a) : n = 1 := by
  have h' : (a + 1) % n = a := h.elim id id
  by_cases h1 : a + 1 = n
  · rw [h1, Nat.mod_self] at h'; omega
  · rw [Nat.mod_eq_of_lt (by omega)] at h'; omega

/-- C37: no island is its own neighbour, unless there is a single column or exactly one complete row
(then there are such islands, see the examples). -/
theorem C37_loop_free (w size : ℕ) (hw : 2 ≤ w) (h1 : size / w ≠ 1) (t : List (List ℕ))
    (ht : torus w size = some t) (i : ℕ) (l : List ℕ) (hi : t[i]? = some l) : i ∉ l := by
  have hr : size % w < w := Nat.mod_lt _ (by omega)
  obtain ⟨t', ht', hlen, -, hn⟩ := C37_neighbours (w := w) (h := size / w) hr
  have hs : w * (size / w) + size % w = size := Nat.div_add_mod _ _
  rw [hs, ht] at ht'
  obtain rfl := Option.some.inj ht'
  have hi' : i < t.length := (List.getElem?_eq_some_iff.1 hi).1
  obtain ⟨ρ, c, hv, rfl⟩ := exists_valid (h := size / w) hr
    (show i < w * (size / w) + size % w by omega)
  obtain ⟨l', e1, e2⟩ := hn ρ c hv
  obtain rfl := Option.some.inj (hi.symm.trans e1)
  intro hmem
  obtain ⟨ρ', c', hv', heq, hnear, hself⟩ := (e2 _).1 hmem
  have hc : c < w := by unfold Valid at hv; omega
  have hc' : c' < w := by unfold Valid at hv'; omega
  obtain ⟨rfl, rfl⟩ := grid_inj hc hc' heq
  generalize size / w = h at *
  generalize size % w = r at *
  rcases hnear with ⟨-, d⟩ | ⟨-, d⟩
  · by_cases hlt : ρ < h
    · rw [if_pos hlt] at d
      have := cyc_self hc d
      omega
    · rw [if_neg hlt] at d
      have := cyc_self (by unfold Valid at hv; omega) d
      exact hself ⟨this, by unfold Valid at hv; omega, by unfold Valid at hv; omega⟩
  · by_cases hl : c < r ∧ w < w * h + c
    · rw [if_pos hl] at d
      have := cyc_self (by unfold Valid at hv; omega) d
      obtain rfl : h = 0 := by omega
      simp at hl
      omega
    · rw [if_neg hl] at d
      exact h1 (cyc_self d.1 d.2.2)

/-- C37: with at least three columns and three complete rows, every island of a complete row has
exactly four neighbours. -/
theorem C37_four (w h r : ℕ) (hw : 3 ≤ w) (hh : 3 ≤ h) (hr : r < w) (t : List (List ℕ))
    (ht : torus w (w * h + r) = some t) (i : ℕ) (hi : i < w * h) (l : List ℕ) (hl : t[i]? = some l) :
    l.Nodup ∧ l.length = 4 := by
  obtain ⟨t', ht', hlen, hfull, -⟩ := torus_table (w := w) (h := h) hr
  rw [ht] at ht'
  obtain rfl := Option.some.inj ht'
  obtain ⟨ρ, c, hv, rfl⟩ := exists_valid (h := h) (r := 0) (show 0 < w by omega) (by simpa using hi)
  have hρ : ρ < h := by unfold Valid at hv; omega
  have hc : c < w := by unfold Valid at hv; omega
  rw [hfull ρ c hρ hc] at hl
  obtain rfl := Option.some.inj hl
  refine ⟨List.nodup_dedup _, ?_⟩
  have hnd : (tabFull w h r ρ c).Nodup := by
    have p1 := prev_lt hc
    have p2 := next_lt hc
    have p3 : prev w c ≠ next w c := by unfold prev next; split_ifs <;> omega
    have p4 : prev w c ≠ c := by unfold prev; split_ifs <;> omega
    have p5 : next w c ≠ c := by unfold next; split_ifs <;> omega
    have gen : ∀ a b : ℕ, a ≠ b →
        ([prev w c + ρ * w, next w c + ρ * w, a * w + c, b * w + c] : List ℕ).Nodup := by
      intro a b hab
      have n1 : ∀ x y d, x < w → x ≠ c → x + y * w ≠ d * w + c := by
        intro x y d hx hxc h'
        rw [Nat.add_comm] at h'
        exact hxc (grid_inj hx hc h').2
      have n2 : a * w + c ≠ b * w + c := fun h' => hab (grid_inj hc hc h').1
      have n3 : prev w c + ρ * w ≠ next w c + ρ * w := by omega
      simp only [List.nodup_cons, List.mem_cons, List.not_mem_nil, or_false, not_or, not_false_eq_true,
        List.nodup_nil, and_true]
      exact ⟨⟨n3, n1 _ _ _ p1 p4, n1 _ _ _ p1 p4⟩, ⟨n1 _ _ _ p2 p5, n1 _ _ _ p2 p5⟩, n2⟩
    unfold tabFull hor
    split_ifs with hl
    · unfold lnk
      rw [if_neg (by omega)]
      split_ifs with h0
      · have := gen (next h 0) h (by have := next_lt (show 0 < h by omega); omega)
        rw [Nat.mul_comm h w] at this
        exact this
      · have := gen (prev h ρ) h (by have := prev_lt hρ; omega)
        rw [Nat.mul_comm h w] at this
        exact this
    · unfold ver
      exact gen _ _ (by unfold prev next; split_ifs <;> omega)
  rw [hnd.dedup]
  unfold tabFull hor
  split_ifs
  · unfold lnk
    split_ifs <;> rfl
  · rfl

/-- C36 and C37: with the torus topology of any positive width, a migration round succeeds, keeps all
island sizes and loses nobody, if every island has enough individuals. -/
theorem C36_torus {ι V α : Type*} [DecidableEq V] [LinearOrder α] (w : ℕ) (hw : 0 < w) (v : ι → V)
    (fuel : ℕ) (fit : V → List α) (m : ℕ) (pick : ℕ → ℕ → ℕ → List (List V) → Option V)
    (hpick : ∀ i n k, PickOk (pick i n k)) (pops : List (List ι))
    (hfuel : ∀ P ∈ pops, P.length ≤ fuel) (hroom : ∀ P ∈ pops, m * 4 ≤ P.length) :
    ∃ top pops', torus w pops.length = some top ∧
      migration v fuel fit m pick top pops = some pops' ∧
      pops'.map List.length = pops.map List.length ∧ pops'.flatten.Perm pops.flatten := by
  obtain ⟨t, ht, hsym⟩ := C37_symmetric w pops.length hw
  have hr : pops.length % w < w := Nat.mod_lt _ hw
  obtain ⟨t', ht', hlen', hfull, hlast⟩ := torus_table (w := w) (h := pops.length / w) hr
  have hs : w * (pops.length / w) + pops.length % w = pops.length := Nat.div_add_mod _ _
  rw [hs, ht] at ht'
  obtain rfl := Option.some.inj ht'
  have hdeg : ∀ l ∈ t, l.length ≤ 4 := by
    intro l hl
    obtain ⟨i, hi, rfl⟩ := List.getElem_of_mem hl
    obtain ⟨ρ, c, hv, rfl⟩ := exists_valid (h := pops.length / w) hr
      (show i < w * (pops.length / w) + pops.length % w by omega)
    rcases hv with ⟨hρ, hc⟩ | ⟨hρ, hc⟩
    · have := hfull ρ c hρ hc
      rw [List.getElem?_eq_getElem hi] at this
      rw [Option.some.inj this]
      refine (List.dedup_sublist _).length_le.trans ?_
      unfold tabFull lnk hor ver
      split_ifs <;> simp
    · have := hlast c hc
      rw [Nat.mul_comm, ← hρ, List.getElem?_eq_getElem hi] at this
      rw [Option.some.inj this]
      refine (List.dedup_sublist _).length_le.trans ?_
      have h4 : (tabLast w ρ (pops.length % w) c).length ≤ 4 := by
        unfold tabLast hor
        split_ifs <;> simp
      split_ifs
      · exact (List.length_filter_le _ _).trans h4
      · exact h4
  obtain ⟨pops', h1, h2, h3⟩ := C36_conservation v fuel fit m pick hpick pops hfuel t hsym (by
    intro i P l hP hl
    refine le_trans (Nat.mul_le_mul_left m (hdeg l (List.mem_of_getElem? hl))) ?_
    exact hroom P (List.mem_of_getElem? hP))
  exact ⟨t, pops', ht, h1, h2, h3⟩

/-- One complete row: every island is its own neighbour and sends migrants to itself. -/
example : torus 4 4 = some [[3, 1, 0], [0, 2, 1], [1, 3, 2], [2, 0, 3]] := by decide

/-- Five islands, default width: the fifth has no neighbours and never exchanges anybody. -/
theorem C37_isolated : torus 4 5 = some [[3, 1, 0], [0, 2, 1], [1, 3, 2], [2, 0, 3], []] := by decide

/-- Thirteen islands, default width. -/
example : torus 4 13 = some [[3, 1, 4, 12], [0, 2, 9, 5], [1, 3, 10, 6], [2, 0, 11, 7], [7, 5, 0, 8],
    [4, 6, 1, 9], [5, 7, 2, 10], [6, 4, 3, 11], [11, 9, 4, 12], [8, 10, 5, 1], [9, 11, 6, 2],
    [10, 8, 7, 3], [8, 0]] := by decide

end Evogil.Imga
