import Verif.Model.FrontFill
import Verif.Spec.Rank
import Verif.Props.NdSort

namespace Evogil

open Spec

variable {ι : Type*}

theorem fillFronts_cons (size fuel : ℕ) (acc f : List ι) (fs : List (List ι)) :
    fillFronts size (fuel + 1) acc (f :: fs) =
      if acc.length + f.length ≤ size then fillFronts size fuel (acc ++ f) fs
      else some (acc, f) := rfl

theorem fillFronts_nil (size fuel : ℕ) (acc : List ι) :
    fillFronts size (fuel + 1) acc [] =
      if acc.length + ([] : List ι).length ≤ size then fillFronts size fuel (acc ++ []) []
      else some (acc, []) := rfl

theorem fillFronts_some (size : ℕ) : ∀ (fronts : List (List ι)) (fuel : ℕ) (acc : List ι),
    acc.length ≤ size → size < acc.length + fronts.flatten.length → fronts.length < fuel →
    ∃ k last, fronts[k]? = some last ∧
      fillFronts size fuel acc fronts = some (acc ++ (fronts.take k).flatten, last) ∧
      (acc ++ (fronts.take k).flatten).length ≤ size ∧
      size < (acc ++ (fronts.take k).flatten).length + last.length := by
  intro fronts
  induction fronts with
  | nil => intro fuel acc h1 h2 _; simp at h2; omega
  | cons f fs ih =>
    intro fuel acc h1 h2 h3
    cases fuel with
    | zero => omega
    | succ fuel =>
      rw [fillFronts_cons]
      by_cases h : acc.length + f.length ≤ size
      · rw [if_pos h]
        obtain ⟨k, last, g1, g2, g3, g4⟩ := ih fuel (acc ++ f) (by simpa using h)
          (by simpa [Nat.add_assoc] using h2) (by simpa using h3)
        refine ⟨k + 1, last, by simpa using g1, ?_, ?_, ?_⟩
        · rw [g2]; simp
        · simpa using g3
        · simpa [Nat.add_assoc] using g4
      · rw [if_neg h]
        exact ⟨0, f, by simp, by simp, by simpa using h1, by simpa using h⟩

/-- When the candidates do not exceed the places the loop does not end. -/
theorem fillFronts_none (size : ℕ) : ∀ (fuel : ℕ) (fronts : List (List ι)) (acc : List ι),
    acc.length + fronts.flatten.length ≤ size → fillFronts size fuel acc fronts = none := by
  intro fuel
  induction fuel with
  | zero => intros; rfl
  | succ fuel ih =>
    intro fronts acc h
    cases fronts with
    | nil =>
      rw [fillFronts_nil, if_pos (by simpa using h)]
      exact ih _ _ (by simpa using h)
    | cons f fs =>
      simp only [List.flatten_cons, List.length_append] at h
      rw [fillFronts_cons, if_pos (by omega)]
      exact ih _ _ (by simpa [Nat.add_assoc] using h)

/-- Whole fronts, and part of the first one that does not fit: the result has the wanted size and
nobody left out has a smaller rank than somebody taken. -/
theorem fill_elitist {dom : ι → ι → Prop} {pop : List ι} {L : List (List ι)} (hp : pop.Nodup)
    (hperm : L.flatten.Perm pop)
    (hrank : ∀ k x, (∃ l, L[k]? = some l ∧ x ∈ l) ↔ IsRank dom pop x k)
    (size fuel : ℕ) (hsize : size < pop.length) (hfuel : L.length < fuel) :
    ∃ acc last, fillFronts size fuel [] L = some (acc, last) ∧ acc.length ≤ size ∧
      size < acc.length + last.length ∧ last ∈ L ∧
      ∀ s, IsSample last (size - acc.length) s →
        (acc ++ s).length = size ∧ ∃ lost, ((acc ++ s) ++ lost).Perm pop ∧
          ∀ x ∈ acc ++ s, ∀ y ∈ lost, ∀ i j, IsRank dom pop x i → IsRank dom pop y j → i ≤ j := by
  have hlen : L.flatten.length = pop.length := hperm.length_eq
  obtain ⟨k, last, h1, h2, h3, h4⟩ := fillFronts_some size L fuel [] (by simp)
    (by simp only [List.length_nil, Nat.zero_add]; omega) hfuel
  simp only [List.nil_append] at h2 h3 h4
  refine ⟨(L.take k).flatten, last, h2, h3, h4, List.mem_of_getElem? h1, ?_⟩
  rintro s ⟨hs1, hs2⟩
  refine ⟨by rw [List.length_append, hs1]; omega, ?_⟩
  obtain ⟨rest, hrest⟩ : ∃ rest, last.Perm (s ++ rest) := by
    obtain ⟨s', hs', hsub⟩ := hs2
    obtain ⟨rest, hrest⟩ := hsub.exists_perm_append
    exact ⟨rest, hrest.trans (hs'.append_right rest)⟩
  have hk : k < L.length := by
    by_contra hc
    rw [List.getElem?_eq_none (by omega)] at h1
    simp at h1
  have hsplit : L = L.take k ++ last :: L.drop (k + 1) := by
    have h := (List.getElem?_eq_some_iff.1 h1).2
    rw [← h, List.cons_getElem_drop_succ, List.take_append_drop]
  refine ⟨rest ++ (L.drop (k + 1)).flatten, ?_, ?_⟩
  · refine List.Perm.trans ?_ hperm
    conv_rhs => rw [hsplit]
    rw [List.flatten_append, List.flatten_cons, List.append_assoc]
    refine List.Perm.append_left _ ?_
    rw [← List.append_assoc]
    exact List.Perm.append_right _ hrest.symm
  · have rankOf : ∀ x l n, L[n]? = some l → x ∈ l → ∀ m, IsRank dom pop x m → m = n := by
      intro x l n hl hx m hm
      obtain ⟨l', hl', hx'⟩ := (hrank m x).2 hm
      have hndf : L.flatten.Nodup := hperm.nodup_iff.2 hp
      rw [List.nodup_flatten] at hndf
      by_contra hne
      obtain ⟨hn, en⟩ := List.getElem?_eq_some_iff.1 hl
      obtain ⟨hm', em⟩ := List.getElem?_eq_some_iff.1 hl'
      have hpw := List.pairwise_iff_getElem.1 hndf.2
      rcases Nat.lt_or_gt_of_ne hne with h | h
      · have := hpw m n hm' hn h
        rw [em, en] at this
        exact this hx' hx
      · have := hpw n m hn hm' h
        rw [em, en] at this
        exact this hx hx'
    intro x hx y hy i j hi hj
    have hxi : i ≤ k := by
      rcases List.mem_append.1 hx with hx | hx
      · obtain ⟨l, hl, hxl⟩ := List.mem_flatten.1 hx
        obtain ⟨n, hn, e⟩ := List.getElem_of_mem hl
        rw [List.length_take] at hn
        have : L[n]? = some l := by
          rw [List.getElem_take] at e
          rw [List.getElem?_eq_some_iff]
          exact ⟨by omega, e⟩
        rw [rankOf x l n this hxl i hi]
        omega
      · exact (rankOf x last k h1 (hs2.subset hx) i hi).le
    have hyj : k ≤ j := by
      rcases List.mem_append.1 hy with hy | hy
      · have : y ∈ last := hrest.mem_iff.2 (List.mem_append_right _ hy)
        exact (rankOf y last k h1 this j hj).ge
      · obtain ⟨l, hl, hyl⟩ := List.mem_flatten.1 hy
        obtain ⟨n, hn, e⟩ := List.getElem_of_mem hl
        rw [List.length_drop] at hn
        have : L[k + 1 + n]? = some l := by
          rw [List.getElem_drop] at e
          rw [List.getElem?_eq_some_iff]
          exact ⟨by omega, e⟩
        rw [rankOf y l (k + 1 + n) this hyl j hj]
        omega
    omega

end Evogil
