import Verif.Model.Layers
import Verif.Lemmas.StrictOn
import Verif.Lemmas.Rank
import Mathlib.Data.List.Perm.Basic
import Mathlib.Data.List.Perm.Lattice
import Mathlib.Data.List.Zip
import Mathlib.Data.List.TakeDrop

namespace Evogil
open Spec

variable {α ι : Type*} [LinearOrder α]

/-- In any non-empty population (vectors of any lengths) somebody is not dominated. -/
theorem exists_nondominated_any (n : ℕ) (S : List (List α)) (hn : S.length ≤ n) (hS : S ≠ []) :
    ∃ z ∈ S, ∀ w ∈ S, dominates w z = false := by
  induction n generalizing S with
  | zero => exact absurd (List.eq_nil_of_length_eq_zero (Nat.le_zero.1 hn)) hS
  | succ n ih =>
    -- a member of minimal length
    obtain ⟨m, hm, hmin⟩ : ∃ m ∈ S, ∀ w ∈ S, m.length ≤ w.length := by
      obtain ⟨x, hx⟩ := List.exists_mem_of_ne_nil S hS
      have : ∃ k, ∃ m ∈ S, m.length = k := ⟨_, x, hx, rfl⟩
      classical
      obtain ⟨m, hm, hk⟩ := Nat.find_spec this
      exact ⟨m, hm, fun w hw => hk ▸ Nat.find_min' this ⟨w, hw, rfl⟩⟩
    set k := m.length with hk
    -- a member whose truncation is not dominated
    obtain ⟨t, ht, htmin⟩ := StrictOn.exists_nondominated
      (strictOn_dominates (S := S.map (List.take k)) (d := k) (by
        intro x hx
        obtain ⟨y, hy, rfl⟩ := List.mem_map.1 hx
        have := hmin y hy
        simp; omega)) (by simpa using hS)
    obtain ⟨z, hz, rfl⟩ := List.mem_map.1 ht
    -- a dominator of a member with this truncation has this truncation too
    have key : ∀ z' ∈ S, z'.take k = z.take k → ∀ w ∈ S, dominates w z' = true →
        w.take k = z.take k := by
      intro z' hz' hzz w hw hd
      by_contra hne
      have hwl := hmin w hw
      have hzl := hmin z' hz'
      have hdom : dominates (w.take k) (z.take k) = true := by
        rw [← hzz, dominates_iff_LDom (by simp; omega)]
        rw [dominates_iff_zip, forall_zip_iff (fun a b : α => a ≤ b)] at hd
        refine ⟨by simp; omega, ?_, ?_⟩
        · intro i hi hi'
          simp only [List.length_take, lt_min_iff] at hi hi'
          simpa using hd.1 i hi.2 hi'.2
        · by_contra hall
          push Not at hall
          apply hne
          rw [← hzz]
          apply List.ext_getElem
          · simp; omega
          · intro i hi hi'
            apply le_antisymm
            · simp only [List.length_take, lt_min_iff] at hi hi'
              simpa using hd.1 i hi.2 hi'.2
            · exact hall i hi hi'
      rw [htmin _ (List.mem_map.2 ⟨w, hw, rfl⟩)] at hdom
      simp at hdom
    by_cases hex : ∃ y ∈ S, y.length = k ∧ y.take k = z.take k
    · obtain ⟨y, hy, hyl, hyt⟩ := hex
      refine ⟨y, hy, fun w hw => ?_⟩
      rw [Bool.eq_false_iff]
      intro hd
      have hwt := key y hy hyt w hw hd
      rw [dominates_iff_zip, exists_zip_iff (fun a b : α => a < b)] at hd
      obtain ⟨-, i, hi, hi', hlt⟩ := hd
      have e : (w.take k)[i]'(by simp; omega) = (y.take k)[i]'(by simp; omega) := by
        simp only [hwt, hyt]
      simp only [List.getElem_take] at e
      rw [e] at hlt
      exact lt_irrefl _ hlt
    · push Not at hex
      have hmne : m.take k ≠ z.take k := hex m hm rfl
      let C := S.filter fun w => decide (w.take k = z.take k)
      have hzC : z ∈ C := List.mem_filter.2 ⟨hz, by simp⟩
      have hlt : C.length < S.length := by
        refine lt_of_le_of_ne (List.length_filter_le _ _) fun heq => ?_
        rw [List.length_filter_eq_length_iff] at heq
        exact hmne (by simpa using heq m hm)
      obtain ⟨y, hy, hymin⟩ := ih C (by omega) (List.ne_nil_of_mem hzC)
      have hyS := (List.mem_filter.1 hy).1
      have hyt : y.take k = z.take k := by simpa using (List.mem_filter.1 hy).2
      refine ⟨y, hyS, fun w hw => ?_⟩
      by_cases hwt : w.take k = z.take k
      · exact hymin w (List.mem_filter.2 ⟨hw, by simpa using hwt⟩)
      · rw [Bool.eq_false_iff]
        exact fun hd => hwt (key y hyS hyt w hw hd)

/-- Dominated by some member of a list of cells. -/
def domBy (cells : List (ι × List α)) (c : ι × List α) : Bool :=
  cells.any fun c' => dominates c'.2 c.2

theorem domCount_pos_iff (cells : List (ι × List α)) (j : ℕ) (hj : j < cells.length) :
    0 < domCount cells j (cells[j]).2 ↔ domBy cells cells[j] = true := by
  unfold domCount domBy
  rw [List.length_pos_iff_exists_mem]
  simp only [List.mem_filter, List.any_eq_true, Bool.and_eq_true, decide_eq_true_eq]
  constructor
  · rintro ⟨⟨c, i⟩, hc, -, hd⟩
    exact ⟨c, List.fst_mem_of_mem_zipIdx hc, hd⟩
  · rintro ⟨c, hc, hd⟩
    obtain ⟨i, hi, rfl⟩ := List.mem_iff_getElem.1 hc
    refine ⟨(cells[i], i), ?_, ?_, hd⟩
    · simp [List.mem_zipIdx_iff_getElem?, hi]
    · rintro rfl
      simp [dominates_irrefl] at hd

private theorem map_filter_zipIdx (cells : List (ι × List α)) (p : ℕ → Bool) (q : ι × List α → Bool)
    (h : ∀ j (hj : j < cells.length), p (domCount cells j (cells[j]).2) = q cells[j]) :
    ((cells.zipIdx.map fun c => (c.1, domCount cells c.2 c.1.2)).filter fun c => p c.2).map Prod.fst
      = cells.filter q := by
  rw [List.filter_map, List.map_map]
  have : cells.zipIdx.filter ((fun c : (ι × List α) × ℕ => p c.2) ∘
      fun c => (c.1, domCount cells c.2 c.1.2)) = cells.zipIdx.filter (fun c => q c.1) := by
    apply List.filter_congr
    rintro ⟨c, i⟩ hc
    rw [List.mem_zipIdx_iff_getElem?] at hc
    obtain ⟨hi, he⟩ := List.getElem?_eq_some_iff.1 hc
    have := h i hi
    simp only at he
    rw [he] at this
    exact this
  rw [this]
  conv_rhs => rw [← List.zipIdx_map_fst 0 cells]
  rw [List.filter_map]
  rfl

theorem layerSplit_eq (cells : List (ι × List α)) :
    layerSplit cells = (cells.filter fun c => !domBy cells c, cells.filter (domBy cells)) := by
  unfold layerSplit
  ext1
  · exact map_filter_zipIdx cells (fun n => decide (n = 0)) (fun c => !domBy cells c) (by
      intro j hj
      have := domCount_pos_iff cells j hj
      cases hb : domBy cells cells[j] <;> simp [hb] at this ⊢ <;> omega)
  · exact map_filter_zipIdx cells (fun n => decide (n > 0)) (domBy cells) (by
      intro j hj
      have := domCount_pos_iff cells j hj
      cases hb : domBy cells cells[j] <;> simp [hb] at this ⊢ <;> omega)

/-- The layer is never empty, so the rest shrinks. -/
theorem layerSplit_rest_lt (cells : List (ι × List α)) (h : cells ≠ []) :
    (layerSplit cells).2.length < cells.length := by
  rw [layerSplit_eq]
  refine lt_of_le_of_ne (List.length_filter_le _ _) fun heq => ?_
  rw [List.length_filter_eq_length_iff] at heq
  obtain ⟨z, hz, hmin⟩ := exists_nondominated_any _ (cells.map Prod.snd) le_rfl (by simpa using h)
  obtain ⟨c, hc, rfl⟩ := List.mem_map.1 hz
  have := heq c hc
  unfold domBy at this
  rw [List.any_eq_true] at this
  obtain ⟨c', hc', hd⟩ := this
  rw [hmin _ (List.mem_map.2 ⟨c', hc', rfl⟩)] at hd
  simp at hd

theorem layersLoop_terminates (n : ℕ) (cells : List (ι × List α)) (h : cells.length ≤ n) :
    ∃ L, layersLoop n cells = some L := by
  induction n generalizing cells with
  | zero =>
    rw [List.eq_nil_of_length_eq_zero (Nat.le_zero.1 h)]
    exact ⟨[], rfl⟩
  | succ n ih =>
    cases cells with
    | nil => exact ⟨[], rfl⟩
    | cons c cs =>
      have := layerSplit_rest_lt (c :: cs) (by simp)
      obtain ⟨L, hL⟩ := ih (layerSplit (c :: cs)).2 (by omega)
      exact ⟨_, by rw [layersLoop, hL]; rfl⟩

/-- The result relation of the loop, without fuel. -/
inductive Peels : List (ι × List α) → List (List (ι × List α)) → Prop
  | nil : Peels [] []
  | cons {cells L} (h : cells ≠ []) (hr : Peels (cells.filter (domBy cells)) L) :
      Peels cells (cells.filter (fun c => !domBy cells c) :: L)

theorem layersLoop_peels (n : ℕ) (cells : List (ι × List α)) (L : List (List ι))
    (h : layersLoop n cells = some L) :
    ∃ L', Peels cells L' ∧ L = L'.map (List.map Prod.fst) := by
  induction n generalizing cells L with
  | zero =>
    cases cells with
    | nil =>
      simp [layersLoop] at h
      exact ⟨[], .nil, by simp [← h]⟩
    | cons => simp [layersLoop] at h
  | succ n ih =>
    cases cells with
    | nil =>
      simp [layersLoop] at h
      exact ⟨[], .nil, by simp [← h]⟩
    | cons c cs =>
      rw [layersLoop, layerSplit_eq] at h
      simp only [Option.map_eq_some_iff] at h
      obtain ⟨R, hR, rfl⟩ := h
      obtain ⟨L', hL', rfl⟩ := ih _ _ hR
      exact ⟨_, .cons (by simp) hL', rfl⟩

theorem Peels.perm {cells : List (ι × List α)} {L} (h : Peels cells L) : L.flatten.Perm cells := by
  induction h with
  | nil => simp
  | @cons cells L h hr ih =>
    rw [List.flatten_cons]
    refine (ih.append_left _).trans ?_
    have := List.filter_append_perm (domBy cells) cells
    exact (List.perm_append_comm).trans this

theorem Peels.nonempty {cells : List (ι × List α)} {L} (h : Peels cells L) : ∀ l ∈ L, l ≠ [] := by
  induction h with
  | nil => simp
  | @cons cells L h hr ih =>
    intro l hl
    rcases List.mem_cons.1 hl with rfl | hl
    · obtain ⟨z, hz, hmin⟩ :=
        exists_nondominated_any _ (cells.map Prod.snd) le_rfl (by simpa using h)
      obtain ⟨c, hc, rfl⟩ := List.mem_map.1 hz
      apply List.ne_nil_of_mem (a := c)
      rw [List.mem_filter]
      refine ⟨hc, ?_⟩
      simp only [domBy, Bool.not_eq_true', List.any_eq_false]
      intro w hw
      simp [hmin w.2 (List.mem_map.2 ⟨w, hw, rfl⟩)]
    · exact ih l hl

theorem Peels.layer_antichain {cells : List (ι × List α)} {L} (h : Peels cells L) :
    ∀ l ∈ L, ∀ x ∈ l, ∀ y ∈ l, dominates x.2 y.2 = false := by
  induction h with
  | nil => simp
  | @cons cells L h hr ih =>
    intro l hl x hx y hy
    rcases List.mem_cons.1 hl with rfl | hl
    · rw [List.mem_filter] at hx hy
      have := hy.2
      simp only [domBy, Bool.not_eq_true', List.any_eq_false] at this
      simpa using this x hx.1
    · exact ih l hl x hx y hy

/-- With transitivity: peeling equations at every index. -/
theorem Peels.rank {cells : List (ι × List α)} {L} (h : Peels cells L) (d : ℕ)
    (hd : ∀ c ∈ cells, c.2.length = d) (k : ℕ) :
    ∀ x, (∃ l, L[k]? = some l ∧ x ∈ l) ↔
      IsRank (fun a b : ι × List α => dominates a.2 b.2 = true) cells x k := by
  induction h generalizing k with
  | nil =>
    intro x
    simp only [List.getElem?_nil, reduceCtorEq, false_and, exists_false, false_iff]
    intro hr
    exact absurd (HasChain.mem hr.1) (by simp)
  | @cons cells L h hr ih =>
    have hstr : StrictOn (fun a b : ι × List α => dominates a.2 b.2) cells :=
      strictOn_dominates_map Prod.snd hd
    have mem_rest : ∀ c, c ∈ cells.filter (domBy cells) ↔ c ∈ cells ∧ ∃ w ∈ cells, dominates w.2 c.2 = true := by
      intro c
      rw [List.mem_filter, domBy, List.any_eq_true]
    have chain_iff : ∀ j c, HasChain (fun a b : ι × List α => dominates a.2 b.2 = true)
        (cells.filter (domBy cells)) j c ↔
        HasChain (fun a b : ι × List α => dominates a.2 b.2 = true) cells (j + 1) c := by
      intro j
      induction j with
      | zero =>
        intro c
        change c ∈ _ ↔ c ∈ cells ∧ ∃ y, _ ∧ y ∈ cells
        rw [mem_rest]
        exact and_congr_right fun _ => ⟨fun ⟨w, hw, hd⟩ => ⟨w, hd, hw⟩, fun ⟨w, hd, hw⟩ => ⟨w, hw, hd⟩⟩
      | succ j ihj =>
        intro c
        constructor
        · rintro ⟨hc, y, hy, hcy⟩
          exact ⟨((mem_rest c).1 hc).1, y, hy, (ihj y).1 hcy⟩
        · rintro ⟨hc, y, hy, hcy⟩
          exact ⟨(mem_rest c).2 ⟨hc, y, HasChain.mem hcy, hy⟩, y, hy, (ihj y).2 hcy⟩
    intro x
    cases k with
    | zero =>
      simp only [List.getElem?_cons_zero, Option.some.injEq, exists_eq_left']
      rw [List.mem_filter]
      constructor
      · rintro ⟨hx, hn⟩
        refine ⟨hx, ?_⟩
        rintro ⟨-, y, hy, hyc⟩
        simp only [domBy, Bool.not_eq_true', List.any_eq_false] at hn
        exact hn y hyc hy
      · rintro ⟨hx, hn⟩
        refine ⟨hx, ?_⟩
        simp only [domBy, Bool.not_eq_true', List.any_eq_false]
        intro y hy hyd
        exact hn ⟨hx, y, hyd, hy⟩
    | succ k =>
      rw [List.getElem?_cons_succ, ih (fun c hc => hd c (List.mem_filter.1 hc).1) k x]
      unfold IsRank
      rw [chain_iff, chain_iff]

end Evogil
