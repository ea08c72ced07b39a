import Verif.Lemmas.HvVolume
import Mathlib.Data.List.GetD

/-! # From the recursion to `compute` -/

namespace Evogil.Hv

open MeasureTheory

section lists

variable {K : Type*} [CommRing K] [LinearOrder K]

theorem getLastD_append_ne {A B : List ℕ} (h : B ≠ []) :
    (A ++ B).getLastD 0 = B.getLastD 0 := by
  rcases List.eq_nil_or_concat B with h' | ⟨U, u, hu⟩
  · exact absurd h' h
  · rw [hu, List.concat_eq_append, ← List.append_assoc, List.getLastD_concat,
      List.getLastD_concat]

theorem Linked.append {nx pv : ℕ → ℕ} {L : List ℕ} {x : ℕ} (h : Linked nx pv L)
    (hn : (L ++ [x]).Nodup) (h0 : 0 ∉ L ++ [x]) :
    Linked (Function.update (Function.update nx x 0) (pv 0) x)
      (Function.update (Function.update pv x (pv 0)) 0 x) (L ++ [x]) := by
  have hx0 : x ≠ 0 := by rintro rfl; simp at h0
  have hxL : x ∉ L := by
    rw [List.nodup_append] at hn
    intro h
    exact hn.2.2 x h x (by simp) rfl
  have hLn : L.Nodup := (List.nodup_append.1 hn).1
  have h0L : 0 ∉ L := fun h => h0 (by simp [h])
  have hlx : L.getLastD 0 ≠ x := by
    by_cases hL : L = []
    · subst hL; simpa using hx0.symm
    · intro e; exact hxL (e ▸ getLastD_mem hL)
  rw [h.prev_zero]
  intro A B he
  rcases List.eq_nil_or_concat B with rfl | ⟨B', b, rfl⟩
  · rw [List.append_nil] at he
    subst he
    rw [List.getLastD_concat, Function.update_of_ne hlx.symm]
    simp
  · rw [List.concat_eq_append] at he ⊢
    rw [← List.append_assoc] at he
    obtain ⟨he1, he2⟩ := List.append_inj' he (by simp)
    simp only [List.cons.injEq, and_true] at he2
    subst he2
    cases B' with
    | nil =>
      rw [List.append_nil] at he1
      subst he1
      simp [hx0]
    | cons b' B'' =>
      obtain ⟨h1, h2⟩ := h A (b' :: B'') he1
      have hb : b' ∈ L := by rw [he1]; simp
      have hb0 : b' ≠ 0 := by rintro rfl; exact h0L hb
      have hbx : b' ≠ x := by rintro rfl; exact hxL hb
      have hA1 : A.getLastD 0 ≠ x := by
        by_cases hA : A = []
        · subst hA; simpa using hx0.symm
        · intro e
          have := getLastD_mem hA
          exact hxL (by rw [he1, List.mem_append]; left; rw [← e]; exact this)
      have hA2 : A.getLastD 0 ≠ L.getLastD 0 := by
        rw [he1, getLastD_append_ne (by simp)]
        have m1 := getLastD_mem (A := b' :: B'') (by simp)
        intro e
        rw [← e] at m1
        by_cases hA : A = []
        · subst hA
          exact h0L (by rw [he1]; simpa using m1)
        · have m2 := getLastD_mem hA
          rw [he1, List.nodup_append] at hLn
          exact hLn.2.2 _ m2 _ m1 rfl
      simp only [List.headD_cons, List.cons_append] at h1 h2 ⊢
      rw [Function.update_of_ne hA2, Function.update_of_ne hA1, Function.update_of_ne hb0,
        Function.update_of_ne hbx]
      exact ⟨h1, h2⟩

theorem extend_spec (i : ℕ) : ∀ (nodes L : List ℕ) (s : St K), (L ++ nodes).Nodup →
    0 ∉ L ++ nodes → Linked (s.next i) (s.prev i) L →
    Linked ((extend nodes i s).next i) ((extend nodes i s).prev i) (L ++ nodes) ∧
    (∀ j, j ≠ i → (extend nodes i s).next j = s.next j ∧ (extend nodes i s).prev j = s.prev j) ∧
    (extend nodes i s).ignore = s.ignore ∧ (extend nodes i s).area = s.area ∧
    (extend nodes i s).volume = s.volume ∧ (extend nodes i s).bounds = s.bounds
  | [], L, s, _, _, hl => by simpa [extend] using hl
  | x :: nodes, L, s, hn, h0, hl => by
    have e : extend (x :: nodes) i s = extend nodes i (appendNode i s x) := rfl
    have hn' : (L ++ [x] ++ nodes).Nodup := by simpa using hn
    have h0' : 0 ∉ L ++ [x] ++ nodes := by simpa using h0
    have hl' : Linked ((appendNode i s x).next i) ((appendNode i s x).prev i) (L ++ [x]) := by
      have := hl.append (x := x) (List.nodup_append.1 hn').1
        (fun h => h0' (List.mem_append_left _ h))
      simpa [appendNode, set2] using this
    obtain ⟨r1, r2, r3, r4, r5, r6⟩ := extend_spec i nodes (L ++ [x]) (appendNode i s x) hn' h0' hl'
    rw [e]
    refine ⟨by simpa using r1, ?_, r3, r4, r5, r6⟩
    intro j hj
    obtain ⟨q1, q2⟩ := r2 j hj
    refine ⟨?_, ?_⟩
    · rw [q1]; simp [appendNode, set2, Function.update_of_ne hj]
    · rw [q2]; simp [appendNode, set2, Function.update_of_ne hj]

/-- The list of nodes of dimension `i`. -/
def order (c : ℕ → ℕ → K) (nodes : List ℕ) : ℕ → List ℕ
  | 0 => pySorted (c · 0) nodes
  | i + 1 => pySorted (c · (i + 1)) (order c nodes i)

theorem order_perm (c : ℕ → ℕ → K) (nodes : List ℕ) : ∀ i, (order c nodes i).Perm nodes
  | 0 => pySorted_perm _ _
  | i + 1 => (pySorted_perm _ _).trans (order_perm c nodes i)

theorem order_ctx (c : ℕ → ℕ → K) {nodes : List ℕ} (hn : nodes.Nodup) (h0 : 0 ∉ nodes) :
    Ctx c (order c nodes) nodes.toFinset where
  nodup i := (order_perm c nodes i).nodup_iff.2 hn
  mem i x := by rw [(order_perm c nodes i).mem_iff, List.mem_toFinset]
  zero := by simpa using h0
  sorted i := by cases i <;> exact pySorted_sorted _ _

theorem preLoop_append (c : ℕ → ℕ → K) (i : ℕ) : ∀ (is : List ℕ) (r : List ℕ × St K),
    preLoop c (is ++ [i]) r =
      (sortByDimension c (preLoop c is r).1 i,
        extend (sortByDimension c (preLoop c is r).1 i) i (preLoop c is r).2)
  | [], (_, _) => rfl
  | _ :: is, (_, _) => preLoop_append c i is _

theorem preLoop_spec (c : ℕ → ℕ → K) (lowest : K) {nodes : List ℕ} (hn : nodes.Nodup)
    (h0 : 0 ∉ nodes) (d : ℕ) :
    sortByDimension c (preLoop c (List.range d) (nodes, initial lowest)).1 d = order c nodes d ∧
    (∀ i < d, Linked ((preLoop c (List.range d) (nodes, initial lowest)).2.next i)
      ((preLoop c (List.range d) (nodes, initial lowest)).2.prev i) (order c nodes i)) ∧
    (∀ i, d ≤ i → (preLoop c (List.range d) (nodes, initial lowest)).2.next i = (fun _ => 0) ∧
      (preLoop c (List.range d) (nodes, initial lowest)).2.prev i = (fun _ => 0)) ∧
    (preLoop c (List.range d) (nodes, initial lowest)).2.ignore = (fun _ => 0) ∧
    (preLoop c (List.range d) (nodes, initial lowest)).2.area = (fun _ _ => 0) ∧
    (preLoop c (List.range d) (nodes, initial lowest)).2.volume = (fun _ _ => 0) ∧
    (preLoop c (List.range d) (nodes, initial lowest)).2.bounds = (fun _ => lowest) := by
  induction d with
  | zero => exact ⟨rfl, by simp, fun i _ => ⟨rfl, rfl⟩, rfl, rfl, rfl, rfl⟩
  | succ d ih =>
    obtain ⟨r1, r2, r3, r4, r5, r6, r7⟩ := ih
    rw [List.range_succ, preLoop_append, r1]
    simp only
    obtain ⟨s, hs⟩ : ∃ s, s = (preLoop c (List.range d) (nodes, initial lowest)).2 := ⟨_, rfl⟩
    rw [← hs] at r2 r3 r4 r5 r6 r7 ⊢
    have hp := order_perm c nodes d
    obtain ⟨e1, e2, e3, e4, e5, e6⟩ := extend_spec d (order c nodes d) [] s
      (by simpa using hp.nodup_iff.2 hn) (by rw [List.nil_append, hp.mem_iff]; exact h0)
      (by
        rw [(r3 d le_rfl).1, (r3 d le_rfl).2]
        intro A B he
        obtain ⟨rfl, rfl⟩ := List.append_eq_nil_iff.1 he.symm
        simp)
    refine ⟨rfl, ?_, ?_, e3.trans r4, e4.trans r5, e5.trans r6, e6.trans r7⟩
    · intro i hi
      by_cases h : i = d
      · subst h; simpa using e1
      · rw [(e2 i h).1, (e2 i h).2]
        exact r2 i (by omega)
    · intro i hi
      rw [(e2 i (by omega)).1, (e2 i (by omega)).2]
      exact r3 i (by omega)

theorem bef_iff_sublist {l : List ℕ} (hn : l.Nodup) {a b : ℕ} (ha : a ∈ l) (hb : b ∈ l) :
    l.idxOf a < l.idxOf b ↔ [a, b].Sublist l := by
  constructor
  · intro h
    obtain ⟨A, B, rfl⟩ := List.append_of_mem ha
    have hbB : b ∈ B := by
      rw [List.mem_append, List.mem_cons] at hb
      have hp := pairwise_idxOf hn
      rw [List.pairwise_append] at hp
      rcases hb with hb | rfl | hb
      · exact absurd (hp.2.2 b hb a (by simp)) (by omega)
      · exact absurd h (lt_irrefl _)
      · exact hb
    have : [b].Sublist B := List.singleton_sublist.2 hbB
    exact (List.Sublist.cons_cons a this).trans (List.sublist_append_right A (a :: B))
  · intro h
    have := (pairwise_idxOf hn).sublist h
    simpa using this

/-- Points with equal coordinate keep their order. -/
theorem order_stable (c : ℕ → ℕ → K) {nodes : List ℕ} (hn : nodes.Nodup) {i a b : ℕ}
    (ha : a ∈ nodes) (hb : b ∈ nodes) (hab : a ≠ b) (heq : c a (i + 1) = c b (i + 1))
    (h : bef (order c nodes) (i + 1) a b) : bef (order c nodes) i a b := by
  have hp := order_perm c nodes i
  have hp1 := order_perm c nodes (i + 1)
  have hni := hp.nodup_iff.2 hn
  have hni1 := hp1.nodup_iff.2 hn
  by_contra hcon
  have hne : (order c nodes i).idxOf a ≠ (order c nodes i).idxOf b := fun e =>
    hab ((List.idxOf_inj (hp.mem_iff.2 ha)).1 e)
  have hba : (order c nodes i).idxOf b < (order c nodes i).idxOf a := by
    unfold bef at hcon; omega
  have hsub := (bef_iff_sublist hni (hp.mem_iff.2 hb) (hp.mem_iff.2 ha)).1 hba
  have : [b, a].Sublist (order c nodes (i + 1)) := by
    have h1 : [b, a].Pairwise (fun x y => c x (i + 1) ≤ c y (i + 1)) := by simp [heq]
    haveI : Std.Total (fun x y : ℕ => c x (i + 1) ≤ c y (i + 1)) := ⟨fun x y => le_total _ _⟩
    haveI : IsTrans ℕ (fun x y => c x (i + 1) ≤ c y (i + 1)) := ⟨fun x y z h1 h2 => le_trans h1 h2⟩
    exact List.sublist_insertionSort h1 hsub
  have h2 := (bef_iff_sublist hni1 (hp1.mem_iff.2 hb) (hp1.mem_iff.2 ha)).2 this
  unfold bef at h
  omega

/-- The nodes of `n` points. -/
def nodesOf (n : ℕ) : List ℕ := (List.range n).map (· + 1)

theorem nodesOf_nodup (n : ℕ) : (nodesOf n).Nodup :=
  List.Nodup.map (fun a b h => by simpa using h) List.nodup_range

theorem zero_notMem_nodesOf (n : ℕ) : 0 ∉ nodesOf n := by simp [nodesOf]

theorem mem_nodesOf {n x : ℕ} : x ∈ nodesOf n ↔ 1 ≤ x ∧ x ≤ n := by
  simp only [nodesOf, List.mem_map, List.mem_range]
  constructor
  · rintro ⟨a, ha, rfl⟩; omega
  · intro h; exact ⟨x - 1, by omega, by omega⟩

theorem nodesOf_card (n : ℕ) : (nodesOf n).toFinset.card = n := by
  rw [List.toFinset_card_of_nodup (nodesOf_nodup n)]; simp [nodesOf]

/-- The run of the recursion on a fresh multi-list. -/
theorem run_spec (c : ℕ → ℕ → K) (lowest : K) (n D : ℕ) (hD : 1 ≤ D) {V : ℕ → Finset ℕ → K}
    (hV : Vol c (nodesOf n).toFinset V) :
    ∃ v s', hvRec c (n + 1) (D - 1) n (preProcess c lowest D n) = some (v, s') ∧
      s'.next = (preProcess c lowest D n).next ∧ s'.prev = (preProcess c lowest D n).prev ∧
      (D ≤ 3 ∨ Good c (order c (nodesOf n)) (nodesOf n).toFinset V (D - 1) →
        (∀ x ∈ nodesOf n, ∀ i < D, lowest ≤ c x i) → v = V D (nodesOf n).toFinset) := by
  have hc := order_ctx c (nodesOf_nodup n) (zero_notMem_nodesOf n)
  obtain ⟨-, r2, -, r4, r5, r6, r7⟩ := preLoop_spec c lowest (nodesOf_nodup n)
    (zero_notMem_nodesOf n) D
  change ∀ i < D, Linked ((preProcess c lowest D n).next i) ((preProcess c lowest D n).prev i) _
    at r2
  change (preProcess c lowest D n).ignore = _ at r4
  change (preProcess c lowest D n).area = _ at r5
  change (preProcess c lowest D n).volume = _ at r6
  change (preProcess c lowest D n).bounds = _ at r7
  have hlst : ∀ i, lst (order c (nodesOf n)) i (nodesOf n).toFinset = order c (nodesOf n) i := by
    intro i
    apply List.filter_eq_self.2
    intro x hx
    rw [(order_perm c (nodesOf n) i).mem_iff] at hx
    simpa using hx
  obtain ⟨v, s', h1, h2, h3, -, h5⟩ := hvRec_spec (T := D - 1) (fuel := n + 1) hc hV
    (by rw [nodesOf_card]; omega) (D - 1) le_rfl (nodesOf n).toFinset (Finset.Subset.refl _)
    (preProcess c lowest D n) (by
      intro i hi
      rw [hlst]
      exact r2 i (by omega))
  rw [nodesOf_card] at h1
  refine ⟨v, s', h1, h2, h3, ?_⟩
  intro hOK hlow
  have := (h5 (hOK.imp (fun h => by omega) id) ⟨?_, ?_, ?_⟩).1
  · rw [this, show D - 1 + 1 = D by omega]
  · intro _ i hi hid x hx hb
    rw [r7] at hb
    exact absurd hb (not_lt.2 (hlow x (List.mem_toFinset.1 hx) i (by omega)))
  · intro _ x hx h1 h2
    rw [r4] at h2
    simp at h2
  · intro i; rw [r5]

end lists

/-! ## The points -/

theorem weaklyDominates_iff {ref p : List ℝ} (h : p.length = ref.length) :
    weaklyDominates p ref = true ↔ ∀ i < ref.length, p.getD i 0 ≤ ref.getD i 0 := by
  unfold weaklyDominates
  rw [List.all_eq_true]
  constructor
  · intro hall i hi
    have := hall (p[i]'(by omega), ref[i]) (by
      rw [List.mem_iff_getElem]
      exact ⟨i, by simp [h, hi], by simp⟩)
    simp only [gt_iff_lt, decide_not, Bool.not_not, Bool.not_eq_eq_eq_not, Bool.not_true,
      decide_eq_false_iff_not, not_lt] at this
    simpa [List.getD_eq_getElem?_getD, hi, h] using this
  · intro hall ab hab
    obtain ⟨i, hi, rfl⟩ := List.mem_iff_getElem.1 hab
    have hi' : i < ref.length := by simp [h] at hi; exact hi
    have := hall i hi'
    simpa [List.getD_eq_getElem?_getD, hi', h] using this

theorem zipWith_sub_zero : ∀ (p ref : List ℝ), p.length = ref.length → (∀ r ∈ ref, r = 0) →
    List.zipWith (· - ·) p ref = p
  | [], [], _, _ => rfl
  | a :: p, r :: ref, h, h0 => by
    rw [List.zipWith_cons_cons, zipWith_sub_zero p ref (by simpa using h)
      (fun r hr => h0 r (by simp [hr])), h0 r (by simp), sub_zero]

theorem relevant_eq {ref : List ℝ} {front : List (List ℝ)}
    (hlen : ∀ p ∈ front, p.length = ref.length) :
    relevant ref front =
      (front.filter fun p => weaklyDominates p ref).map fun p => List.zipWith (· - ·) p ref := by
  unfold relevant
  simp only
  split_ifs with h
  · rfl
  · symm
    conv_rhs => rw [← List.map_id (front.filter fun p => weaklyDominates p ref)]
    apply List.map_congr_left
    intro p hp
    rw [id]
    refine zipWith_sub_zero p ref (hlen p (List.mem_filter.1 hp).1) ?_
    intro r hr
    by_contra hne
    exact h (List.any_eq_true.2 ⟨r, hr, by simpa using hne⟩)

theorem getD_zipWith_sub {p ref : List ℝ} (h : p.length = ref.length) (i : ℕ) :
    (List.zipWith (· - ·) p ref).getD i 0 = p.getD i 0 - ref.getD i 0 := by
  by_cases hi : i < ref.length
  · simp [List.getD_eq_getElem?_getD, hi, h]
  · rw [List.getD_eq_default _ _ (by simp [h]; omega), List.getD_eq_default _ _ (by omega),
      List.getD_eq_default _ _ (by omega), sub_zero]

/-- The point behind each node: a point of the front below the reference point. -/
theorem cargo_of_node {ref : List ℝ} {front : List (List ℝ)}
    (hlen : ∀ p ∈ front, p.length = ref.length) {x : ℕ}
    (hx : x ∈ nodesOf (relevant ref front).length) :
    ∃ p ∈ front, (∀ i < ref.length, p.getD i 0 ≤ ref.getD i 0) ∧
      ∀ i, cargo (relevant ref front) x i = p.getD i 0 - ref.getD i 0 := by
  rw [mem_nodesOf] at hx
  have hlt : x - 1 < (relevant ref front).length := by omega
  have hm : (relevant ref front)[x - 1] ∈ relevant ref front := List.getElem_mem hlt
  obtain ⟨y, hy⟩ : ∃ y, y = (relevant ref front)[x - 1] := ⟨_, rfl⟩
  rw [← hy, relevant_eq hlen, List.mem_map] at hm
  obtain ⟨p, hp, he⟩ := hm
  rw [List.mem_filter] at hp
  refine ⟨p, hp.1, (weaklyDominates_iff (hlen p hp.1)).1 hp.2, ?_⟩
  intro i
  rw [← getD_zipWith_sub (hlen p hp.1), he, hy]
  unfold cargo
  rw [List.getD_eq_getElem _ _ hlt]

theorem node_of_point {ref : List ℝ} {front : List (List ℝ)}
    (hlen : ∀ p ∈ front, p.length = ref.length) {p : List ℝ} (hp : p ∈ front)
    (hle : ∀ i < ref.length, p.getD i 0 ≤ ref.getD i 0) :
    ∃ x ∈ nodesOf (relevant ref front).length,
      ∀ i, cargo (relevant ref front) x i = p.getD i 0 - ref.getD i 0 := by
  have hm : List.zipWith (· - ·) p ref ∈ relevant ref front := by
    rw [relevant_eq hlen]
    exact List.mem_map.2 ⟨p, List.mem_filter.2 ⟨hp, (weaklyDominates_iff (hlen p hp)).2 hle⟩, rfl⟩
  obtain ⟨k, hk, he⟩ := List.mem_iff_getElem.1 hm
  refine ⟨k + 1, mem_nodesOf.2 ⟨by omega, by omega⟩, ?_⟩
  intro i
  rw [← getD_zipWith_sub (hlen p hp), ← he]
  unfold cargo
  rw [Nat.add_sub_cancel, List.getD_eq_getElem _ _ hk]

theorem cargo_nonpos {ref : List ℝ} {front : List (List ℝ)}
    (hlen : ∀ p ∈ front, p.length = ref.length) {x : ℕ}
    (hx : x ∈ nodesOf (relevant ref front).length) (i : ℕ) :
    cargo (relevant ref front) x i ≤ 0 := by
  obtain ⟨p, hp, hle, he⟩ := cargo_of_node hlen hx
  rw [he]
  by_cases hi : i < ref.length
  · have := hle i hi; linarith
  · rw [List.getD_eq_default _ _ (by rw [hlen p hp]; omega), List.getD_eq_default _ _ (by omega),
      sub_zero]

/-- The volume of the nodes is the volume dominated by the front. -/
theorem vol_eq_dominated {ref : List ℝ} {front : List (List ℝ)}
    (hlen : ∀ p ∈ front, p.length = ref.length) :
    vol (cargo (relevant ref front)) ref.length (nodesOf (relevant ref front).length).toFinset =
      Spec.dominatedVolume ref front := by
  unfold vol Spec.dominatedVolume Measure.real
  rw [← measure_preimage_add_right volume (fun i : Fin ref.length => ref.getD i 0)
    (Spec.dominated ref front)]
  congr 2
  ext z
  simp only [reg, Spec.dominated, Set.mem_ofPred_eq, Set.mem_preimage, Pi.add_apply,
    List.mem_toFinset]
  constructor
  · rintro ⟨x, hx, hz⟩
    obtain ⟨p, hp, -, he⟩ := cargo_of_node hlen hx
    refine ⟨p, hp, fun i => ?_⟩
    have := hz i
    rw [he] at this
    constructor <;> linarith [this.1, this.2]
  · rintro ⟨p, hp, hz⟩
    obtain ⟨x, hx, he⟩ := node_of_point hlen hp (fun i hi => by
      have := hz ⟨i, hi⟩; simp only at this; linarith [this.1, this.2])
    refine ⟨x, hx, fun i => ?_⟩
    have := hz i
    rw [he]
    constructor <;> linarith [this.1, this.2]

/-- `compute` is exact when the marks are reliable. -/
theorem compute_exact {lowest : ℝ} {ref : List ℝ} {front : List (List ℝ)} (hD : 1 ≤ ref.length)
    (hlen : ∀ p ∈ front, p.length = ref.length)
    (hlow : ∀ p ∈ front, ∀ i < ref.length, lowest ≤ p.getD i 0 - ref.getD i 0)
    (hOK : ref.length ≤ 3 ∨ Good (cargo (relevant ref front))
      (order (cargo (relevant ref front)) (nodesOf (relevant ref front).length))
      (nodesOf (relevant ref front).length).toFinset (vol (cargo (relevant ref front)))
      (ref.length - 1)) :
    compute lowest ref front = some (Spec.dominatedVolume ref front) := by
  have hV := vol_Vol (c := cargo (relevant ref front))
    (N := (nodesOf (relevant ref front).length).toFinset)
    (fun x hx i => cargo_nonpos hlen (List.mem_toFinset.1 hx) i)
  obtain ⟨v, s', h1, -, -, h4⟩ := run_spec (cargo (relevant ref front)) lowest
    (relevant ref front).length ref.length hD hV
  unfold compute
  simp only
  rw [h1, Option.map_some, h4 hOK, vol_eq_dominated hlen]
  intro x hx i hi
  obtain ⟨p, hp, -, he⟩ := cargo_of_node hlen hx
  rw [he]
  exact hlow p hp i hi

/-- Marks are reliable when points that are comparable in the first coordinates are equal or
strictly ordered. -/
theorem good_of {ref : List ℝ} {front : List (List ℝ)}
    (hlen : ∀ p ∈ front, p.length = ref.length)
    (hstrict : ∀ p ∈ front, (∀ i < ref.length, p.getD i 0 ≤ ref.getD i 0) →
      ∀ i < ref.length, p.getD i 0 < ref.getD i 0)
    (hcomp : ∀ p ∈ front, ∀ q ∈ front, ∀ k, 3 ≤ k → k < ref.length →
      (∀ i ≤ k, p.getD i 0 ≤ q.getD i 0) → p = q ∨ ∀ j, 2 ≤ j → j < k → p.getD j 0 < q.getD j 0) :
    Good (cargo (relevant ref front))
      (order (cargo (relevant ref front)) (nodesOf (relevant ref front).length))
      (nodesOf (relevant ref front).length).toFinset (vol (cargo (relevant ref front)))
      (ref.length - 1) where
  null d S q hd hN _ h := by
    obtain ⟨p, hp, hle, he⟩ := cargo_of_node hlen
      (List.mem_toFinset.1 (hN (Finset.mem_insert_self q S)))
    refine vol_null ?_ h
    intro i hi
    rw [he]
    have := hstrict p hp hle i (by omega)
    linarith
  compat e he heT j hj hje r hr x hx hrx hle hb := by
    have hr' := List.mem_toFinset.1 hr
    have hx' := List.mem_toFinset.1 hx
    have hc := order_ctx (cargo (relevant ref front))
      (nodesOf_nodup (relevant ref front).length) (zero_notMem_nodesOf _)
    obtain ⟨p, hp, -, hpe⟩ := cargo_of_node hlen hr'
    obtain ⟨q, hq, -, hqe⟩ := cargo_of_node hlen hx'
    have hlast := le_of_idxOf_le hc hr hx (le_of_lt hb)
    rcases hcomp p hp q hq e he (by omega) (by
      intro i hi
      have : cargo (relevant ref front) r i ≤ cargo (relevant ref front) x i := by
        rcases hi.lt_or_eq with h | rfl
        · exact hle i h
        · exact hlast
      rw [hpe, hqe] at this
      linarith) with h | h
    · -- the same point twice
      have heq : ∀ i, cargo (relevant ref front) r i = cargo (relevant ref front) x i := by
        intro i; rw [hpe, hqe, h]
      have : ∀ k, j + k ≤ e → bef (order (cargo (relevant ref front))
          (nodesOf (relevant ref front).length)) (e - k) r x := by
        intro k
        induction k with
        | zero => intro _; exact hb
        | succ k ih =>
          intro hk
          have h1 := ih (by omega)
          rw [show e - k = e - (k + 1) + 1 by omega] at h1
          exact order_stable _ (nodesOf_nodup _) hr' hx' hrx (heq _) h1
      have := this (e - j) (by omega)
      rwa [show e - (e - j) = j by omega] at this
    · -- strictly ordered
      have hlt : cargo (relevant ref front) r j < cargo (relevant ref front) x j := by
        rw [hpe, hqe]
        have := h j hj hje
        linarith
      by_contra hcon
      exact absurd (le_of_idxOf_le hc hx hr (not_lt.1 hcon)) (not_le.2 hlt)

end Evogil.Hv
