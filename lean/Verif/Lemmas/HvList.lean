import Verif.Model.HyperVolume
import Mathlib.Data.Finset.Basic
import Mathlib.Data.Finset.Card

/-! # The linked lists of the hypervolume routine -/

namespace Evogil.Hv

/-- The pointers of one dimension link the nodes of `L` in this order, from and to the sentinel. -/
def Linked (nx pv : ℕ → ℕ) (L : List ℕ) : Prop :=
  ∀ A B, L = A ++ B → nx (A.getLastD 0) = B.headD 0 ∧ pv (B.headD 0) = A.getLastD 0

theorem getLastD_mem {A : List ℕ} (h : A ≠ []) : A.getLastD 0 ∈ A := by
  obtain ⟨A', a, rfl⟩ := List.eq_nil_or_concat A |>.resolve_left h
  simp

theorem headD_mem {A : List ℕ} (h : A ≠ []) : A.headD 0 ∈ A := by
  cases A with
  | nil => simp at h
  | cons a l => simp

theorem Linked.next_zero {nx pv : ℕ → ℕ} {L : List ℕ} (h : Linked nx pv L) :
    nx 0 = L.headD 0 := by simpa using (h [] L rfl).1

theorem Linked.prev_zero {nx pv : ℕ → ℕ} {L : List ℕ} (h : Linked nx pv L) :
    pv 0 = L.getLastD 0 := by simpa using (h L [] (by simp)).2

theorem Linked.prev {nx pv : ℕ → ℕ} {A B : List ℕ} {x : ℕ} (h : Linked nx pv (A ++ x :: B)) :
    pv x = A.getLastD 0 := by simpa using (h A (x :: B) rfl).2

theorem Linked.next {nx pv : ℕ → ℕ} {A B : List ℕ} {x : ℕ} (h : Linked nx pv (A ++ x :: B)) :
    nx x = B.headD 0 := by simpa using (h (A ++ [x]) B (by simp)).1

theorem Linked.next_last {nx pv : ℕ → ℕ} {A B : List ℕ} {x : ℕ} (h : Linked nx pv (A ++ x :: B)) :
    nx (A.getLastD 0) = x := by simpa using (h A (x :: B) rfl).1

theorem Linked.prev_head {nx pv : ℕ → ℕ} {A B : List ℕ} {x : ℕ} (h : Linked nx pv (A ++ x :: B)) :
    pv (B.headD 0) = x := by simpa using (h (A ++ [x]) B (by simp)).2

theorem Linked.remove {nx pv : ℕ → ℕ} {A B : List ℕ} {x : ℕ} (h : Linked nx pv (A ++ x :: B))
    (hn : (A ++ x :: B).Nodup) (h0 : 0 ∉ A ++ x :: B) :
    Linked (Function.update nx (pv x) (nx x)) (Function.update pv (nx x) (pv x)) (A ++ B) := by
  intro A' B' he
  rw [h.prev, h.next]
  rcases List.append_eq_append_iff.1 he with ⟨W, rfl, rfl⟩ | ⟨W, rfl, rfl⟩
  · -- A' = A ++ W
    rcases List.eq_nil_or_concat W with rfl | ⟨W', w, rfl⟩
    · simp
    · obtain ⟨h1, h2⟩ := h (A ++ x :: (W' ++ [w])) B' (by simp)
      have e1 : (A ++ x :: (W' ++ [w])).getLastD 0 = w := by
        rw [show A ++ x :: (W' ++ [w]) = (A ++ x :: W') ++ [w] by simp, List.getLastD_concat]
      have e2 : (A ++ W'.concat w).getLastD 0 = w := by
        rw [List.concat_eq_append, ← List.append_assoc, List.getLastD_concat]
      rw [List.concat_eq_append] at *
      rw [← List.append_assoc, List.getLastD_concat]
      rw [e1] at h1 h2
      have n1 : w ≠ A.getLastD 0 := by
        by_cases hA : A = []
        · subst hA
          intro e
          simp at e h0
          exact h0.2.2.1 e.symm
        · intro e
          have := getLastD_mem hA
          rw [← e] at this
          simp [List.nodup_append] at hn
          grind
      have n2 : B'.headD 0 ≠ (W' ++ [w] ++ B').headD 0 := by
        by_cases hB : B' = []
        · subst hB
          have := headD_mem (A := W' ++ [w] ++ []) (by simp)
          intro e
          rw [← e] at this
          simp only [List.headD_nil] at this
          exact h0 (by simp at this ⊢; tauto)
        · have m1 := headD_mem hB
          have m2 := headD_mem (A := W' ++ [w]) (by simp)
          have e3 : (W' ++ [w] ++ B').headD 0 = (W' ++ [w]).headD 0 := by
            cases W' <;> simp
          rw [e3]
          intro e
          rw [← e] at m2
          simp [List.nodup_append] at hn
          grind
      rw [Function.update_of_ne n1, Function.update_of_ne n2]
      exact ⟨h1, h2⟩
  · -- A = A' ++ W
    cases W with
    | nil => simp
    | cons w W =>
      obtain ⟨h1, h2⟩ := h A' (w :: W ++ x :: B) (by simp)
      simp only [List.cons_append, List.headD_cons] at h1 h2 ⊢
      have n1 : A'.getLastD 0 ≠ (A' ++ w :: W).getLastD 0 := by
        have e : (A' ++ w :: W).getLastD 0 = (w :: W).getLastD 0 := by
          rcases List.eq_nil_or_concat (w :: W) with h | ⟨U, u, hu⟩
          · simp at h
          · rw [hu, List.concat_eq_append, ← List.append_assoc, List.getLastD_concat,
              List.getLastD_concat]
        rw [e]
        have m1 := getLastD_mem (A := w :: W) (by simp)
        by_cases hA : A' = []
        · subst hA
          intro e
          rw [← e] at m1
          exact h0 (by simp at m1 ⊢; tauto)
        · have m2 := getLastD_mem hA
          intro e
          rw [← e] at m1
          simp [List.nodup_append] at hn
          grind
      have n2 : w ≠ B.headD 0 := by
        by_cases hB : B = []
        · subst hB
          intro e
          exact h0 (by simp at e ⊢; tauto)
        · have m1 := headD_mem hB
          intro e
          rw [← e] at m1
          simp [List.nodup_append] at hn
          grind
      rw [Function.update_of_ne n1, Function.update_of_ne n2]
      exact ⟨h1, h2⟩

variable {K : Type*} [CommRing K] [LinearOrder K] (c : ℕ → ℕ → K)

theorem removeAt_foldl (x : ℕ) (s : St K) (d : ℕ) :
    (List.range d).foldl (removeAt c x) s =
      { s with
        next := fun i => if i < d then Function.update (s.next i) (s.prev i x) (s.next i x)
          else s.next i
        prev := fun i => if i < d then Function.update (s.prev i) (s.next i x) (s.prev i x)
          else s.prev i
        bounds := fun i => if i < d then min (s.bounds i) (c x i) else s.bounds i } := by
  induction d with
  | zero => simp
  | succ d ih =>
    rw [List.range_succ, List.foldl_append, ih]
    simp only [List.foldl_cons, List.foldl_nil, removeAt, lt_irrefl, if_false, set2]
    congr 1
    · funext i
      by_cases h : i = d
      · subst h; simp
      · rw [Function.update_of_ne h]
        have : i < d + 1 ↔ i < d := by omega
        simp only [this]
    · funext i
      by_cases h : i = d
      · subst h; simp
      · rw [Function.update_of_ne h]
        have : i < d + 1 ↔ i < d := by omega
        simp only [this]
    · funext i
      by_cases h : i = d
      · subst h
        simp only [lt_irrefl, if_false, Nat.lt_succ_self, if_true]
        split_ifs with hb
        · simp [min_eq_right hb.le]
        · simp [min_eq_left (not_lt.1 hb)]
      · have : i < d + 1 ↔ i < d := by omega
        simp only [this]
        split_ifs with hb <;> simp [Function.update_of_ne h, *]

theorem remove_eq (x : ℕ) (s : St K) (d : ℕ) :
    remove c x d s =
      { s with
        next := fun i => if i < d then Function.update (s.next i) (s.prev i x) (s.next i x)
          else s.next i
        prev := fun i => if i < d then Function.update (s.prev i) (s.next i x) (s.prev i x)
          else s.prev i
        bounds := fun i => if i < d then min (s.bounds i) (c x i) else s.bounds i } :=
  removeAt_foldl c x s d

theorem reinsert_eq (x : ℕ) (s : St K) (d : ℕ) :
    reinsert c x d s =
      { s with
        next := fun i => if i < d then Function.update (s.next i) (s.prev i x) x else s.next i
        prev := fun i => if i < d then
          Function.update (s.prev i) (Function.update (s.next i) (s.prev i x) x x) x else s.prev i
        bounds := fun i => if i < d then min (s.bounds i) (c x i) else s.bounds i } := by
  unfold reinsert
  induction d with
  | zero => simp
  | succ d ih =>
    rw [List.range_succ, List.foldl_append, ih]
    simp only [List.foldl_cons, List.foldl_nil, reinsertAt, lt_irrefl, if_false, set2]
    congr 1
    · funext i
      by_cases h : i = d
      · subst h; simp
      · rw [Function.update_of_ne h]
        have : i < d + 1 ↔ i < d := by omega
        simp only [this]
    · funext i
      by_cases h : i = d
      · subst h; simp
      · rw [Function.update_of_ne h]
        have : i < d + 1 ↔ i < d := by omega
        simp only [this]
    · funext i
      by_cases h : i = d
      · subst h
        simp only [lt_irrefl, if_false, Nat.lt_succ_self, if_true]
        split_ifs with hb
        · simp [min_eq_right hb.le]
        · simp [min_eq_left (not_lt.1 hb)]
      · have : i < d + 1 ↔ i < d := by omega
        simp only [this]
        split_ifs with hb <;> simp [Function.update_of_ne h, *]

/-- Reinserting undoes removing, as far as the pointers are concerned. -/
theorem reinsert_remove_ptr {x d : ℕ} {s t : St K} {L : ℕ → List ℕ}
    (hl : ∀ i < d, Linked (s.next i) (s.prev i) (L i)) (hx : ∀ i < d, x ∈ L i)
    (hn : ∀ i < d, (L i).Nodup) (h0 : ∀ i < d, 0 ∉ L i)
    (h1 : t.next = (remove c x d s).next) (h2 : t.prev = (remove c x d s).prev) :
    (reinsert c x d t).next = s.next ∧ (reinsert c x d t).prev = s.prev := by
  rw [reinsert_eq]
  simp only
  rw [h1, h2, remove_eq]
  simp only
  have key : ∀ i < d, s.next i (s.prev i x) = x ∧ s.prev i (s.next i x) = x ∧ s.next i x ≠ x ∧
      s.prev i x ≠ x := by
    intro i hi
    obtain ⟨A, B, hAB⟩ := List.append_of_mem (hx i hi)
    have hl := hl i hi
    have hn := hn i hi
    have h0 := h0 i hi
    rw [hAB] at hl hn h0
    refine ⟨by rw [hl.prev, hl.next_last], by rw [hl.next, hl.prev_head], ?_, ?_⟩
    · rw [hl.next]
      intro e
      by_cases hB : B = []
      · subst hB; simp at e h0; omega
      · have := headD_mem hB
        rw [e] at this
        simp [List.nodup_append] at hn
        tauto
    · rw [hl.prev]
      intro e
      by_cases hA : A = []
      · subst hA; simp at e h0; omega
      · have := getLastD_mem hA
        rw [e] at this
        simp [List.nodup_append] at hn
        grind
  constructor
  · funext i
    by_cases hi : i < d
    · obtain ⟨k1, k2, k3, k4⟩ := key i hi
      simp only [hi, if_true]
      rw [Function.update_of_ne (Ne.symm k3), Function.update_idem]
      conv_rhs => rw [← Function.update_eq_self (s.prev i x) (s.next i), k1]
    · simp only [hi, if_false]
  · funext i
    by_cases hi : i < d
    · obtain ⟨k1, k2, k3, k4⟩ := key i hi
      simp only [hi, if_true]
      rw [Function.update_of_ne (Ne.symm k3), Function.update_idem,
        Function.update_of_ne (Ne.symm k4), Function.update_idem]
      conv_rhs => rw [← Function.update_eq_self (s.next i x) (s.prev i), k2]
    · simp only [hi, if_false]

/-- The nodes of `B` are removed from the lists below `d`, the last one first. -/
def removeAll (d : ℕ) (B : List ℕ) (s : St K) : St K := B.foldr (fun b s => remove c b d s) s

@[simp] theorem removeAll_nil (d : ℕ) (s : St K) : removeAll c d [] s = s := rfl
@[simp] theorem removeAll_cons (d b : ℕ) (B : List ℕ) (s : St K) :
    removeAll c d (b :: B) s = remove c b d (removeAll c d B s) := rfl

@[simp] theorem remove_area (x d : ℕ) (s : St K) : (remove c x d s).area = s.area := by
  rw [remove_eq]
@[simp] theorem remove_volume (x d : ℕ) (s : St K) : (remove c x d s).volume = s.volume := by
  rw [remove_eq]
@[simp] theorem remove_ignore (x d : ℕ) (s : St K) : (remove c x d s).ignore = s.ignore := by
  rw [remove_eq]
theorem remove_bounds (x d : ℕ) (s : St K) : (remove c x d s).bounds =
    fun i => if i < d then min (s.bounds i) (c x i) else s.bounds i := by
  rw [remove_eq]
theorem remove_next_ge (x : ℕ) {d i : ℕ} (s : St K) (h : d ≤ i) :
    (remove c x d s).next i = s.next i := by
  rw [remove_eq]; simp [not_lt.2 h]
theorem remove_prev_ge (x : ℕ) {d i : ℕ} (s : St K) (h : d ≤ i) :
    (remove c x d s).prev i = s.prev i := by
  rw [remove_eq]; simp [not_lt.2 h]
theorem remove_bounds_ge (x : ℕ) {d i : ℕ} (s : St K) (h : d ≤ i) :
    (remove c x d s).bounds i = s.bounds i := by
  rw [remove_eq]; simp [not_lt.2 h]

@[simp] theorem reinsert_area (x d : ℕ) (s : St K) : (reinsert c x d s).area = s.area := by
  rw [reinsert_eq]
@[simp] theorem reinsert_volume (x d : ℕ) (s : St K) : (reinsert c x d s).volume = s.volume := by
  rw [reinsert_eq]
@[simp] theorem reinsert_ignore (x d : ℕ) (s : St K) : (reinsert c x d s).ignore = s.ignore := by
  rw [reinsert_eq]
theorem reinsert_bounds (x d : ℕ) (s : St K) : (reinsert c x d s).bounds =
    fun i => if i < d then min (s.bounds i) (c x i) else s.bounds i := by
  rw [reinsert_eq]

@[simp] theorem removeAll_area (d : ℕ) (B : List ℕ) (s : St K) :
    (removeAll c d B s).area = s.area := by
  induction B <;> simp_all
@[simp] theorem removeAll_volume (d : ℕ) (B : List ℕ) (s : St K) :
    (removeAll c d B s).volume = s.volume := by
  induction B <;> simp_all
@[simp] theorem removeAll_ignore (d : ℕ) (B : List ℕ) (s : St K) :
    (removeAll c d B s).ignore = s.ignore := by
  induction B <;> simp_all
theorem removeAll_next_ge {d i : ℕ} (B : List ℕ) (s : St K) (h : d ≤ i) :
    (removeAll c d B s).next i = s.next i := by
  induction B <;> simp_all [remove_next_ge]
theorem removeAll_prev_ge {d i : ℕ} (B : List ℕ) (s : St K) (h : d ≤ i) :
    (removeAll c d B s).prev i = s.prev i := by
  induction B <;> simp_all [remove_prev_ge]
theorem removeAll_bounds_ge {d i : ℕ} (B : List ℕ) (s : St K) (h : d ≤ i) :
    (removeAll c d B s).bounds i = s.bounds i := by
  induction B <;> simp_all [remove_bounds_ge]

theorem removeAll_append (d : ℕ) (A B : List ℕ) (s : St K) :
    removeAll c d (A ++ B) s = removeAll c d A (removeAll c d B s) := by
  simp [removeAll, List.foldr_append]

/-- The lists of all dimensions: the same nodes, sorted. -/
structure Ctx (M : ℕ → List ℕ) (N : Finset ℕ) : Prop where
  nodup : ∀ i, (M i).Nodup
  mem : ∀ i x, x ∈ M i ↔ x ∈ N
  zero : 0 ∉ N
  sorted : ∀ i, (M i).Pairwise (fun a b => c a i ≤ c b i)

/-- The list of dimension `i` restricted to the present nodes. -/
def lst (M : ℕ → List ℕ) (i : ℕ) (P : Finset ℕ) : List ℕ := (M i).filter (fun x => x ∈ P)

variable {c} {M : ℕ → List ℕ} {N : Finset ℕ}

theorem lst_nodup (hc : Ctx c M N) (i : ℕ) (P : Finset ℕ) : (lst M i P).Nodup :=
  (hc.nodup i).filter _

theorem mem_lst (hc : Ctx c M N) {i : ℕ} {P : Finset ℕ} (hP : P ⊆ N) {x : ℕ} :
    x ∈ lst M i P ↔ x ∈ P := by
  simp only [lst, List.mem_filter, hc.mem, decide_eq_true_eq]
  exact ⟨fun h => h.2, fun h => ⟨hP h, h⟩⟩

theorem zero_notMem_lst (hc : Ctx c M N) {i : ℕ} {P : Finset ℕ} : 0 ∉ lst M i P := by
  simp only [lst, List.mem_filter, hc.mem, not_and]
  exact fun h => absurd h hc.zero

theorem lst_length (hc : Ctx c M N) {i : ℕ} {P : Finset ℕ} (hP : P ⊆ N) :
    (lst M i P).length = P.card := by
  rw [← List.toFinset_card_of_nodup (lst_nodup hc i P)]
  congr 1
  ext x
  rw [List.mem_toFinset, mem_lst hc hP]

theorem lst_toFinset (hc : Ctx c M N) {i : ℕ} {P : Finset ℕ} (hP : P ⊆ N) :
    (lst M i P).toFinset = P := by
  ext x
  rw [List.mem_toFinset, mem_lst hc hP]

theorem lst_sorted (hc : Ctx c M N) (i : ℕ) (P : Finset ℕ) :
    (lst M i P).Pairwise (fun a b => c a i ≤ c b i) := (hc.sorted i).filter _

/-- Removing a present node gives the list of the remaining ones. -/
theorem lst_erase (hc : Ctx c M N) {i : ℕ} {P : Finset ℕ} {A B : List ℕ} {x : ℕ}
    (h : lst M i P = A ++ x :: B) : lst M i (P.erase x) = A ++ B := by
  have h1 : lst M i (P.erase x) = (lst M i P).filter (fun y => y ≠ x) := by
    unfold lst
    rw [List.filter_filter]
    congr 1
    funext y
    simp
  rw [h1, h]
  have hn := lst_nodup hc i P
  rw [h] at hn
  simp only [List.nodup_append, List.nodup_cons, List.mem_cons] at hn
  rw [List.filter_append, List.filter_cons_of_neg (by simp)]
  congr 1
  · apply List.filter_eq_self.2
    intro a ha
    have := hn.2.2 a ha x (Or.inl rfl)
    simpa using this
  · apply List.filter_eq_self.2
    intro a ha
    have := hn.2.1.1
    simp only [ne_eq, decide_not, Bool.not_eq_eq_eq_not, Bool.not_true, decide_eq_false_iff_not]
    rintro rfl
    exact this ha

theorem linked_remove (hc : Ctx c M N) {d : ℕ} {P : Finset ℕ} (hP : P ⊆ N) {x : ℕ} (hx : x ∈ P)
    {s : St K} (hl : ∀ i < d, Linked (s.next i) (s.prev i) (lst M i P)) :
    ∀ i < d, Linked ((remove c x d s).next i) ((remove c x d s).prev i) (lst M i (P.erase x)) := by
  intro i hi
  obtain ⟨A, B, hAB⟩ := List.append_of_mem ((mem_lst hc (i := i) hP).2 hx)
  rw [lst_erase hc hAB, remove_eq]
  simp only [hi, if_true]
  have h1 := hl i hi
  have h2 := lst_nodup hc i P
  have h3 := zero_notMem_lst hc (i := i) (P := P)
  rw [hAB] at h1 h2 h3
  exact h1.remove h2 h3

/-- After the nodes of `B` were removed from the lists below `d`, these link the nodes of `A`. -/
theorem linked_removeAll (hc : Ctx c M N) {d : ℕ} {s : St K} :
    ∀ (B A : List ℕ), (A ++ B).Nodup → (A ++ B).toFinset ⊆ N →
      (∀ i < d, Linked (s.next i) (s.prev i) (lst M i (A ++ B).toFinset)) →
      ∀ i < d, Linked ((removeAll c d B s).next i) ((removeAll c d B s).prev i)
        (lst M i A.toFinset)
  | [], A, _, _, hl => by simpa using hl
  | b :: B, A, hn, hN, hl => by
    have h1 := linked_removeAll hc B (A ++ [b]) (by simpa using hn) (by simpa using hN)
      (by simpa using hl)
    have h2 := linked_remove hc (P := (A ++ [b]).toFinset) (x := b)
      (fun y hy => hN (by simp at hy ⊢; tauto)) (by simp) h1
    have e : (A ++ [b]).toFinset.erase b = A.toFinset := by
      ext y
      simp only [Finset.mem_erase, List.mem_toFinset, List.mem_append, List.mem_singleton]
      constructor
      · rintro ⟨h, h' | h'⟩
        · exact h'
        · exact absurd h' h
      · intro h
        refine ⟨?_, Or.inl h⟩
        rintro rfl
        simp [List.nodup_append] at hn
        grind
    rw [e] at h2
    simpa using h2

end Evogil.Hv
