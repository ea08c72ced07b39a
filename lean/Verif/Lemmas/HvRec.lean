import Verif.Lemmas.HvList
import Mathlib.Tactic.Ring
import Mathlib.Data.Finset.Max

/-! # The recursion of the hypervolume routine

The recursion is compared with an abstract volume `V d S` (the `d`-dimensional volume dominated by
the nodes `S`), of which only the properties in `Vol` and `Good` are used. -/

namespace Evogil.Hv

variable {K : Type*} [CommRing K] [LinearOrder K]

/-- Volume dominated below the last of a list of nodes sorted by coordinate `d`; the list is given
in reverse. -/
def wr (c : ℕ → ℕ → K) (V : ℕ → Finset ℕ → K) (d : ℕ) : List ℕ → K
  | [] => 0
  | [_] => 0
  | x :: y :: l => wr c V d (y :: l) + V d (y :: l).toFinset * (c x d - c y d)

/-- The same for the list in order. -/
def wf (c : ℕ → ℕ → K) (V : ℕ → Finset ℕ → K) (d : ℕ) (A : List ℕ) : K := wr c V d A.reverse

theorem wf_single (c : ℕ → ℕ → K) (V : ℕ → Finset ℕ → K) (d x : ℕ) : wf c V d [x] = 0 := rfl

theorem wf_concat (c : ℕ → ℕ → K) (V : ℕ → Finset ℕ → K) (d x y : ℕ) (A : List ℕ) :
    wf c V d (A ++ [y] ++ [x]) =
      wf c V d (A ++ [y]) + V d (A ++ [y]).toFinset * (c x d - c y d) := by
  simp only [wf, List.reverse_append, List.reverse_cons, List.reverse_nil, List.nil_append,
    List.singleton_append, wr]
  congr 3
  ext z
  simp [or_comm]

/-- What the recursion needs to know about volumes. -/
structure Vol (c : ℕ → ℕ → K) (N : Finset ℕ) (V : ℕ → Finset ℕ → K) : Prop where
  empty : ∀ d, 1 ≤ d → V d ∅ = 0
  one : ∀ S x, x ∈ S → S ⊆ N → (∀ y ∈ S, c x 0 ≤ c y 0) → V 1 S = -(c x 0)
  slice : ∀ d A q, 1 ≤ d → (A ++ [q]).toFinset ⊆ N →
    (A ++ [q]).Pairwise (fun a b => c a d ≤ c b d) →
    V (d + 1) (A ++ [q]).toFinset = wf c V d (A ++ [q]) - V d (A ++ [q]).toFinset * c q d
  dom : ∀ d S q r, r ∈ S → (∀ i < d, c r i ≤ c q i) → V d (insert q S) = V d S

/-- Node `r` comes before node `x` in the list of dimension `i`. -/
def bef (M : ℕ → List ℕ) (i r x : ℕ) : Prop := (M i).idxOf r < (M i).idxOf x

/-- What makes the marks (`ignore`) reliable up to dimension index `T`. -/
structure Good (c : ℕ → ℕ → K) (M : ℕ → List ℕ) (N : Finset ℕ) (V : ℕ → Finset ℕ → K) (T : ℕ) :
    Prop where
  null : ∀ d S q, d ≤ T → insert q S ⊆ N → q ∉ S → V d (insert q S) ≤ V d S →
    ∃ r ∈ S, ∀ i < d, c r i ≤ c q i
  compat : ∀ e, 3 ≤ e → e ≤ T → ∀ j, 2 ≤ j → j < e → ∀ r ∈ N, ∀ x ∈ N, r ≠ x →
    (∀ i < e, c r i ≤ c x i) → bef M e r x → bef M j r x

/-- A node that justifies the mark `e` of node `x`. -/
def Wit (c : ℕ → ℕ → K) (M : ℕ → List ℕ) (e : ℕ) (P : Finset ℕ) (x : ℕ) : Prop :=
  ∃ r ∈ P, r ≠ x ∧ (∀ i < e, c r i ≤ c x i) ∧ ∀ j, 2 ≤ j → j ≤ e → bef M j r x

/-- The nodes of `P` up to `x` in the list of dimension `i`. -/
def upto (M : ℕ → List ℕ) (i : ℕ) (P : Finset ℕ) (x : ℕ) : List ℕ :=
  (M i).filter (fun y => y ∈ P ∧ (M i).idxOf y ≤ (M i).idxOf x)

/-- The stored areas and volumes of dimension `i` are right below the bound. -/
def Cache (c : ℕ → ℕ → K) (M : ℕ → List ℕ) (V : ℕ → Finset ℕ → K) (i : ℕ) (P : Finset ℕ)
    (s : St K) : Prop :=
  ∀ x ∈ P, c x i < s.bounds i →
    s.area i x = V i (upto M i P x).toFinset ∧ s.volume i x = wf c V i (upto M i P x)

/-- The stored areas and volumes of dimension `d` are right for a prefix of the list. -/
def Valid (c : ℕ → ℕ → K) (V : ℕ → Finset ℕ → K) (d : ℕ) (A : List ℕ) (s : St K) : Prop :=
  ∀ A1 x A2, A = A1 ++ x :: A2 →
    s.area d x = V d (A1 ++ [x]).toFinset ∧ s.volume d x = wf c V d (A1 ++ [x])

/-- The marks from `e` on are justified. -/
def MarkOK (c : ℕ → ℕ → K) (M : ℕ → List ℕ) (e : ℕ) (P : Finset ℕ) (s : St K) : Prop :=
  ∀ x ∈ P, e ≤ s.ignore x → 2 ≤ s.ignore x → Wit c M (s.ignore x) P x

/-- What a call for dimension index `d` leaves alone (apart from the pointers). -/
structure Out (d : ℕ) (P : Finset ℕ) (s s' : St K) : Prop where
  area : ∀ i, d < i → s'.area i = s.area i
  volume : ∀ i, d < i → s'.volume i = s.volume i
  bounds : ∀ i, d < i → s'.bounds i = s.bounds i
  area0 : ∀ i, s'.area i 0 = s.area i 0
  ignHi : ∀ x, d < s.ignore x → s'.ignore x = s.ignore x
  ignLo : ∀ x, s.ignore x ≤ d → s'.ignore x ≤ d
  ignOut : ∀ x, x ∉ P → s'.ignore x = s.ignore x

theorem Out.refl (d : ℕ) (P : Finset ℕ) (s : St K) : Out d P s s :=
  ⟨fun _ _ => rfl, fun _ _ => rfl, fun _ _ => rfl, fun _ => rfl, fun _ _ => rfl, fun _ h => h,
    fun _ _ => rfl⟩

theorem Out.trans {d : ℕ} {P : Finset ℕ} {s t u : St K} (h : Out d P s t) (h' : Out d P t u) :
    Out d P s u :=
  ⟨fun i hi => (h'.area i hi).trans (h.area i hi),
    fun i hi => (h'.volume i hi).trans (h.volume i hi),
    fun i hi => (h'.bounds i hi).trans (h.bounds i hi),
    fun i => (h'.area0 i).trans (h.area0 i),
    fun x hx => (h'.ignHi x (by rw [h.ignHi x hx]; exact hx)).trans (h.ignHi x hx),
    fun x hx => h'.ignLo x (h.ignLo x hx),
    fun x hx => (h'.ignOut x hx).trans (h.ignOut x hx)⟩

theorem Out.mono {d e : ℕ} {P Q : Finset ℕ} {s t : St K} (h : Out d P s t) (hde : d ≤ e)
    (hPQ : P ⊆ Q) : Out e Q s t :=
  ⟨fun i hi => h.area i (by omega), fun i hi => h.volume i (by omega),
    fun i hi => h.bounds i (by omega), h.area0, fun x hx => h.ignHi x (by omega),
    fun x hx => by
      by_cases hd : s.ignore x ≤ d
      · have := h.ignLo x hd; omega
      · rw [h.ignHi x (by omega)]; exact hx,
    fun x hx => h.ignOut x (fun hh => hx (hPQ hh))⟩

/-- What a call for dimension index `d` on the nodes `P` may rely on. -/
def ValEntry (c : ℕ → ℕ → K) (M : ℕ → List ℕ) (V : ℕ → Finset ℕ → K) (d : ℕ) (P : Finset ℕ)
    (s : St K) : Prop :=
  (2 ≤ P.card → ∀ i, 2 ≤ i → i ≤ d → Cache c M V i P s) ∧ (2 ≤ d → MarkOK c M d P s) ∧
    ∀ i, s.area i 0 = 0

/-- What a call for dimension index `d` on the nodes `P` gives. -/
def ValPost (c : ℕ → ℕ → K) (M : ℕ → List ℕ) (N : Finset ℕ) (V : ℕ → Finset ℕ → K) (T d : ℕ)
    (P : Finset ℕ) (s : St K) (v : K) (s' : St K) : Prop :=
  v = V (d + 1) P ∧ (∀ i, 2 ≤ i → i ≤ d → Cache c M V i P s') ∧
    (Good c M N V T → MarkOK c M d P s → MarkOK c M d P s')

/-- The specification of a recursive call. -/
def RecSpec (c : ℕ → ℕ → K) (M : ℕ → List ℕ) (N : Finset ℕ) (V : ℕ → Finset ℕ → K) (T d : ℕ)
    (rec : ℕ → St K → Option (K × St K)) : Prop :=
  ∀ P, P ⊆ N → ∀ s, (∀ i ≤ d, Linked (s.next i) (s.prev i) (lst M i P)) →
    ∃ v s', rec P.card s = some (v, s') ∧ s'.next = s.next ∧ s'.prev = s.prev ∧ Out d P s s' ∧
      (d ≤ 2 ∨ Good c M N V T → ValEntry c M V d P s → ValPost c M N V T d P s v s')

variable {c : ℕ → ℕ → K} {M : ℕ → List ℕ} {N : Finset ℕ} {V : ℕ → Finset ℕ → K} {T : ℕ}

/-! ## Positions in the lists -/

theorem pairwise_idxOf {l : List ℕ} (h : l.Nodup) :
    l.Pairwise (fun a b => l.idxOf a < l.idxOf b) := by
  rw [List.pairwise_iff_getElem]
  intro i j hi hj hij
  rw [List.Nodup.idxOf_getElem h, List.Nodup.idxOf_getElem h]
  exact hij

theorem lst_bef (hc : Ctx c M N) (i : ℕ) (P : Finset ℕ) : (lst M i P).Pairwise (bef M i) :=
  (pairwise_idxOf (hc.nodup i)).filter _

theorem bef_of_mem_left (hc : Ctx c M N) {i x : ℕ} {P : Finset ℕ} {A B : List ℕ}
    (h : lst M i P = A ++ x :: B) {a : ℕ} (ha : a ∈ A) : bef M i a x := by
  have := lst_bef hc i P
  rw [h, List.pairwise_append] at this
  exact this.2.2 a ha x (by simp)

theorem bef_of_mem_right (hc : Ctx c M N) {i x : ℕ} {P : Finset ℕ} {A B : List ℕ}
    (h : lst M i P = A ++ x :: B) {b : ℕ} (hb : b ∈ B) : bef M i x b := by
  have := lst_bef hc i P
  rw [h, List.pairwise_append, List.pairwise_cons] at this
  exact this.2.1.1 b hb

theorem mem_left_of_bef (hc : Ctx c M N) {i x : ℕ} {P : Finset ℕ} (hP : P ⊆ N) {A B : List ℕ}
    (h : lst M i P = A ++ x :: B) {r : ℕ} (hr : r ∈ P) (hb : bef M i r x) : r ∈ A := by
  have hm := (mem_lst hc (i := i) hP).2 hr
  rw [h, List.mem_append, List.mem_cons] at hm
  rcases hm with hm | rfl | hm
  · exact hm
  · exact absurd hb (lt_irrefl _)
  · have := bef_of_mem_right hc h hm
    exact absurd (lt_trans hb this) (lt_irrefl _)

theorem upto_eq (hc : Ctx c M N) {i x : ℕ} {P : Finset ℕ} {A B : List ℕ}
    (h : lst M i P = A ++ x :: B) : upto M i P x = A ++ [x] := by
  have h1 : upto M i P x =
      (lst M i P).filter (fun y => (M i).idxOf y ≤ (M i).idxOf x) := by
    unfold upto lst
    rw [List.filter_filter]
    congr 1
    funext y
    by_cases hy : y ∈ P <;> simp [hy]
  rw [h1, h, List.filter_append, List.filter_cons_of_pos (by simp)]
  congr 1
  · apply List.filter_eq_self.2
    intro a ha
    have := bef_of_mem_left hc h ha
    simpa using this.le
  · congr 1
    apply List.filter_eq_nil_iff.2
    intro b hb
    have := bef_of_mem_right hc h hb
    simpa [bef] using this

theorem le_of_idxOf_le (hc : Ctx c M N) {i r x : ℕ} (hr : r ∈ N) (hx : x ∈ N)
    (h : (M i).idxOf r ≤ (M i).idxOf x) : c r i ≤ c x i := by
  have hr' := (hc.mem i r).2 hr
  have hx' := (hc.mem i x).2 hx
  rcases h.lt_or_eq with h | h
  · have := List.pairwise_iff_getElem.1 (hc.sorted i) _ _ (List.idxOf_lt_length_of_mem hr')
      (List.idxOf_lt_length_of_mem hx') h
    simpa using this
  · rw [(List.idxOf_inj hr').1 h]

/-- A witness within the whole list is a witness within the part up to the node. -/
theorem Wit.restrict (hc : Ctx c M N) {d e x : ℕ} {P : Finset ℕ} (hP : P ⊆ N) (hd : 2 ≤ d)
    (hde : d ≤ e) {A B : List ℕ} (h : lst M d P = A ++ B) (hx : x ∈ A) (hw : Wit c M e P x) :
    Wit c M e A.toFinset x := by
  obtain ⟨r, hr, hrx, hle, hb⟩ := hw
  obtain ⟨A1, A2, rfl⟩ := List.append_of_mem hx
  refine ⟨r, ?_, hrx, hle, hb⟩
  have := mem_left_of_bef hc hP (A := A1) (B := A2 ++ B) (by simpa using h) hr (hb d hd hde)
  simp [this]

theorem Wit.mono {e x : ℕ} {P Q : Finset ℕ} (h : P ⊆ Q) (hw : Wit c M e P x) : Wit c M e Q x := by
  obtain ⟨r, hr, h'⟩ := hw
  exact ⟨r, h hr, h'⟩

/-! ## Stored values -/

theorem Cache.congr {i : ℕ} {P : Finset ℕ} {s t : St K} (h : Cache c M V i P s)
    (h1 : t.area i = s.area i) (h2 : t.volume i = s.volume i) (h3 : t.bounds i = s.bounds i) :
    Cache c M V i P t := by
  intro x hx hb
  rw [h1, h2]
  exact h x hx (by rwa [← h3])

theorem upto_erase (hc : Ctx c M N) {i x y : ℕ} {P : Finset ℕ} (hP : P ⊆ N)
    (hx : x ∈ N) (hy : y ∈ P) (h : c y i < c x i) :
    upto M i (P.erase x) y = upto M i P y := by
  unfold upto
  apply List.filter_congr
  intro z hz
  by_cases hzx : z = x
  · subst hzx
    have : ¬ (M i).idxOf z ≤ (M i).idxOf y := fun hh =>
      absurd (le_of_idxOf_le hc hx (hP hy) hh) (not_le.2 h)
    simp [this]
  · simp [hzx]

theorem cache_remove (hc : Ctx c M N) {d i x : ℕ} {P : Finset ℕ} (hP : P ⊆ N) (hx : x ∈ P)
    (hi : i < d) {s : St K} (h : Cache c M V i P s) :
    Cache c M V i (P.erase x) (remove c x d s) := by
  intro y hy hb
  rw [remove_bounds] at hb
  simp only [hi, if_true, lt_min_iff] at hb
  have hyP := Finset.mem_of_mem_erase hy
  rw [upto_erase hc hP (hP hx) hyP hb.2]
  simpa using h y hyP hb.1

theorem cache_reinsert (hc : Ctx c M N) {d i x : ℕ} {P : Finset ℕ} (hP : insert x P ⊆ N)
    (hx : x ∉ P) (hi : i < d) {s : St K} (h : Cache c M V i P s) :
    Cache c M V i (insert x P) (reinsert c x d s) := by
  intro y hy hb
  rw [reinsert_bounds] at hb
  simp only [hi, if_true, lt_min_iff] at hb
  have hyP : y ∈ P := by
    rcases Finset.mem_insert.1 hy with rfl | h'
    · exact absurd hb.2 (lt_irrefl _)
    · exact h'
  have h1 := upto_erase hc (i := i) (x := x) (y := y) hP (hP (by simp)) hy hb.2
  rw [Finset.erase_insert hx] at h1
  rw [← h1]
  simpa using h y hyP hb.1

theorem toFinset_erase_last {A : List ℕ} {b : ℕ} (h : b ∉ A) :
    (A ++ [b]).toFinset.erase b = A.toFinset := by
  ext y
  simp only [Finset.mem_erase, List.mem_toFinset, List.mem_append, List.mem_singleton]
  constructor
  · rintro ⟨h, h' | h'⟩
    · exact h'
    · exact absurd h' h
  · intro h'
    refine ⟨?_, Or.inl h'⟩
    rintro rfl
    exact h h'

theorem cache_removeAll (hc : Ctx c M N) {d i : ℕ} (hi : i < d) {s : St K} :
    ∀ (B A : List ℕ), (A ++ B).Nodup → (A ++ B).toFinset ⊆ N →
      Cache c M V i (A ++ B).toFinset s → Cache c M V i A.toFinset (removeAll c d B s)
  | [], A, _, _, h => by simpa using h
  | b :: B, A, hn, hN, h => by
    have h1 := cache_removeAll hc hi B (A ++ [b]) (by simpa using hn) (by simpa using hN)
      (by simpa using h)
    have h2 := cache_remove hc (P := (A ++ [b]).toFinset) (x := b)
      (fun y hy => hN (by simp at hy ⊢; tauto)) (by simp) hi h1
    rw [toFinset_erase_last (by simp [List.nodup_append] at hn; grind)] at h2
    simpa using h2

/-- All stored values of the whole list are right. -/
theorem cache_of_valid (hc : Ctx c M N) {d : ℕ} {P : Finset ℕ} (hP : P ⊆ N) {s : St K}
    (h : Valid c V d (lst M d P) s) : Cache c M V d P s := by
  intro x hx _
  obtain ⟨A, B, hAB⟩ := List.append_of_mem ((mem_lst hc (i := d) hP).2 hx)
  rw [upto_eq hc hAB]
  exact h A x B hAB

/-- The stored values of a prefix whose last node is below the bound are right. -/
theorem valid_of_cache (hc : Ctx c M N) {d q : ℕ} {P : Finset ℕ} (hP : P ⊆ N) {s : St K}
    {A B : List ℕ} (hl : lst M d P = A ++ [q] ++ B) (hb : c q d < s.bounds d)
    (h : Cache c M V d P s) : Valid c V d (A ++ [q]) s := by
  intro A1 x A2 he
  have hl' : lst M d P = A1 ++ x :: (A2 ++ B) := by rw [hl, he]; simp
  have hx : x ∈ P := (mem_lst hc (i := d) hP).1 (by rw [hl']; simp)
  have hq : q ∈ P := (mem_lst hc (i := d) hP).1 (by rw [hl]; simp)
  have hle : c x d ≤ c q d := by
    have hs := lst_sorted hc d P
    rw [hl] at hs
    have hs := (List.pairwise_append.1 hs).1
    rcases List.eq_nil_or_concat A2 with rfl | ⟨A3, a, rfl⟩
    · have := List.append_inj' he (by simp)
      simp at this
      rw [this.2]
    · rw [List.concat_eq_append, ← List.cons_append, ← List.append_assoc] at he
      have := List.append_inj' he (by simp)
      obtain ⟨e1, e2⟩ := this
      rw [e1] at hs
      exact (List.pairwise_append.1 hs).2.2 x (by simp) q (by simp)
  have := h x hx (lt_of_le_of_lt hle hb)
  rwa [upto_eq hc hl'] at this

/-! ## The loops -/

/-- The loop clearing marks. -/
theorem resetLoop_spec {d : ℕ} : ∀ (A B : List ℕ) (s : St K) (fuel : ℕ),
    Linked (s.next d) (s.prev d) (A ++ B) → 0 ∉ A → A.Nodup → A.length < fuel →
    ∃ s', resetLoop d fuel (A.getLastD 0) s = some s' ∧ s'.next = s.next ∧ s'.prev = s.prev ∧
      s'.area = s.area ∧ s'.volume = s.volume ∧ s'.bounds = s.bounds ∧
      (∀ x, s'.ignore x = if x ∈ A ∧ s.ignore x < d then 0 else s.ignore x) := by
  intro A
  induction A using List.reverseRecOn with
  | nil =>
    intro B s fuel hl h0 hn hf
    cases fuel with
    | zero => simp at hf
    | succ fuel => exact ⟨s, by simp [resetLoop], rfl, rfl, rfl, rfl, rfl, by simp⟩
  | append_singleton A q ih =>
    intro B s fuel hl h0 hn hf
    cases fuel with
    | zero => simp at hf
    | succ fuel =>
      have hq0 : q ≠ 0 := by rintro rfl; simp at h0
      have hqA : q ∉ A := by simp [List.nodup_append] at hn; grind
      rw [List.getLastD_concat, resetLoop, if_neg hq0]
      simp only
      obtain ⟨s1, hs1⟩ : ∃ s1 : St K, s1 = if s.ignore q < d then
        { s with ignore := Function.update s.ignore q 0 } else s := ⟨_, rfl⟩
      rw [← hs1]
      have e : s1.next = s.next ∧ s1.prev = s.prev ∧ s1.area = s.area ∧ s1.volume = s.volume ∧
          s1.bounds = s.bounds := by
        rw [hs1]; split_ifs <;> exact ⟨rfl, rfl, rfl, rfl, rfl⟩
      have ei : ∀ x, s1.ignore x = if x = q ∧ s.ignore x < d then 0 else s.ignore x := by
        intro x
        rw [hs1]
        by_cases hd : s.ignore q < d
        · rw [if_pos hd]
          by_cases hx : x = q
          · subst hx; simp [hd]
          · simp [hx]
        · rw [if_neg hd]
          by_cases hx : x = q
          · subst hx; simp [hd]
          · simp [hx]
      have hl' : Linked (s1.next d) (s1.prev d) (A ++ q :: B) := by
        rw [e.1, e.2.1]; simpa using hl
      rw [hl'.prev]
      obtain ⟨s', h1, h2, h3, h4, h5, h6, h7⟩ := ih (q :: B) s1 fuel hl'
        (fun h => h0 (by simp [h])) (hn.sublist (List.sublist_append_left _ _))
        (by simp at hf; omega)
      refine ⟨s', h1, h2.trans e.1, h3.trans e.2.1, h4.trans e.2.2.1, h5.trans e.2.2.2.1,
        h6.trans e.2.2.2.2, ?_⟩
      intro x
      rw [h7, ei]
      by_cases hx : x = q
      · subst hx; simp [hqA]
      · simp [hx]

/-- The removal loop. -/
theorem removeLoop_spec {d : ℕ} : ∀ (A B : List ℕ) (s : St K), A ≠ [] →
    Linked (s.next d) (s.prev d) (A ++ B) →
    ∃ A' q B', A ++ B = A' ++ [q] ++ B' ∧ ∃ B1, B' = B1 ++ B ∧
      removeLoop c d A.length (B.headD 0) (A.getLastD 0) s =
        (A'.length + 1, B'.headD 0, q, removeAll c d B1 s) ∧
      (A' ≠ [] → c (A'.getLastD 0) d < s.bounds d) := by
  intro A
  induction A using List.reverseRecOn with
  | nil => intro B s h; simp at h
  | append_singleton A q ih =>
    intro B s _ hl
    rw [List.getLastD_concat, List.length_append, List.length_singleton, removeLoop]
    have hl' : Linked (s.next d) (s.prev d) (A ++ q :: B) := by simpa using hl
    by_cases hcond : 1 < A.length + 1 ∧ (c q d > s.bounds d ∨ c (s.prev d q) d ≥ s.bounds d)
    · rw [if_pos hcond]
      simp only
      have hA : A ≠ [] := by rintro rfl; simp at hcond
      have e : (remove c q d s).prev d q = A.getLastD 0 := by
        rw [remove_prev_ge c q s le_rfl, hl'.prev]
      rw [e]
      obtain ⟨A', q', B', h1, B1, h2, h3, h4⟩ := ih (q :: B) (remove c q d s) hA (by
        rw [remove_prev_ge c q s le_rfl, remove_next_ge c q s le_rfl]; exact hl')
      refine ⟨A', q', B', by rw [← h1]; simp, B1 ++ [q], by rw [h2]; simp, ?_, ?_⟩
      · rw [List.headD_cons] at h3
        rw [h3, removeAll_append]
        simp
      · intro hA'
        have := h4 hA'
        rwa [remove_bounds_ge c q s le_rfl] at this
    · rw [if_neg hcond]
      refine ⟨A, q, B, rfl, [], rfl, rfl, ?_⟩
      intro hA
      have : 1 < A.length + 1 := by
        have := List.length_pos_of_ne_nil hA; omega
      push Not at hcond
      have := (hcond this).2
      rwa [hl'.prev] at this

/-- The sweep in two dimensions. -/
theorem sweep_spec (hc : Ctx c M N) (hV : Vol c N V) {P : Finset ℕ} (hP : P ⊆ N) {s : St K}
    (hl : Linked (s.next 1) (s.prev 1) (lst M 1 P)) :
    ∀ (B A : List ℕ) (q : ℕ) (fuel : ℕ), lst M 1 P = A ++ [q] ++ B → B.length < fuel →
      sweep c s fuel q (B.headD 0) (-(V 1 (A ++ [q]).toFinset)) (wf c V 1 (A ++ [q])) =
        some (V 2 P)
  | [], A, q, fuel + 1, h, _ => by
    rw [sweep]
    simp only [List.headD_nil, if_true]
    have h' : P = (A ++ [q]).toFinset := by
      rw [← lst_toFinset hc (i := 1) hP, h]; simp
    have := hV.slice 1 A q le_rfl (by rw [← h']; exact hP) (by
      have := lst_sorted hc 1 P
      rw [h] at this
      simpa using this)
    rw [h', this]
    congr 1
    ring
  | p :: B, A, q, fuel + 1, h, hf => by
    have hp0 : p ≠ 0 := by
      rintro rfl
      exact zero_notMem_lst hc (i := 1) (P := P) (by rw [h]; simp)
    rw [sweep]
    rw [List.headD_cons, if_neg hp0]
    simp only
    have hl' : Linked (s.next 1) (s.prev 1) ((A ++ [q]) ++ p :: B) := by rw [← h]; exact hl
    rw [hl'.next]
    have := sweep_spec hc hV hP hl B (A ++ [q]) p fuel (by rw [h]; simp)
      (by simp at hf; omega)
    rw [wf_concat] at this
    rw [← this]
    have hsub : ∀ x ∈ A ++ [q] ++ [p], x ∈ N := by
      intro x hx
      apply hP
      rw [← mem_lst hc (i := 1) hP, h]
      simp at hx ⊢
      tauto
    -- the smallest first coordinate seen so far
    obtain ⟨m, hm, hmin⟩ : ∃ m ∈ A ++ [q], ∀ y ∈ A ++ [q], c m 0 ≤ c y 0 := by
      obtain ⟨m, hm, hmin⟩ := Finset.exists_min_image (A ++ [q]).toFinset (fun y => c y 0)
        ⟨q, by simp⟩
      exact ⟨m, List.mem_toFinset.1 hm, fun y hy => hmin y (List.mem_toFinset.2 hy)⟩
    have e1 : V 1 (A ++ [q]).toFinset = -(c m 0) :=
      hV.one _ m (List.mem_toFinset.2 hm) (fun x hx => hsub x (by
        rw [List.mem_toFinset] at hx; exact List.mem_append_left _ hx))
        (fun y hy => hmin y (List.mem_toFinset.1 hy))
    have e2 : V 1 (A ++ [q] ++ [p]).toFinset = -(if c p 0 < c m 0 then c p 0 else c m 0) := by
      by_cases hlt : c p 0 < c m 0
      · rw [if_pos hlt]
        refine hV.one _ p (by simp) (fun x hx => hsub x (List.mem_toFinset.1 hx)) ?_
        intro y hy
        rw [List.mem_toFinset, List.mem_append, List.mem_singleton] at hy
        rcases hy with hy | rfl
        · exact hlt.le.trans (hmin y hy)
        · exact le_rfl
      · rw [if_neg hlt]
        refine hV.one _ m (by
          rw [List.mem_toFinset]; exact List.mem_append_left _ hm)
          (fun x hx => hsub x (List.mem_toFinset.1 hx)) ?_
        intro y hy
        rw [List.mem_toFinset, List.mem_append, List.mem_singleton] at hy
        rcases hy with hy | rfl
        · exact hmin y hy
        · exact not_lt.1 hlt
    rw [e2, e1]
    simp only [neg_neg]
    congr 1
    ring

/-- What `areaStep` does after the recursive call. -/
def afterCall (d q : ℕ) (a : K) (s2 : St K) : St K :=
  let s3 : St K := { s2 with area := set2 s2.area d q a }
  if s3.area d q ≤ s3.area d (s3.prev d q) then
    { s3 with ignore := Function.update s3.ignore q d } else s3

theorem afterCall_eq {d q : ℕ} {a : K} {s2 s3 : St K}
    (h : s3 = { s2 with area := set2 s2.area d q a }) :
    afterCall d q a s2 = if s3.area d q ≤ s3.area d (s3.prev d q) then
      { s3 with ignore := Function.update s3.ignore q d } else s3 := by
  subst h; rfl

theorem areaStep_eq {rec : ℕ → St K → Option (K × St K)} {d q length : ℕ} {hvol : K} {s s1 : St K}
    (h : s1 = { s with volume := set2 s.volume d q hvol }) :
    areaStep rec d q length hvol s =
      if s1.ignore q ≥ d then some { s1 with area := set2 s1.area d q (s1.area d (s1.prev d q)) }
      else match rec length s1 with
        | none => none
        | some (a, s2) => some (afterCall d q a s2) := by
  subst h; rfl

/-- Storing volume and area of the last present node. -/
theorem areaStep_spec (hc : Ctx c M N) (hV : Vol c N V) {d : ℕ} (hd : 2 ≤ d) (hT : d ≤ T)
    {rec : ℕ → St K → Option (K × St K)} (hrec : RecSpec c M N V T (d - 1) rec)
    {P : Finset ℕ} (hP : P ⊆ N) {A0 B : List ℕ} {q : ℕ} (hL : lst M d P = A0 ++ q :: B)
    {s : St K} (hvol : K)
    (hl : ∀ i < d, Linked (s.next i) (s.prev i) (lst M i (A0 ++ [q]).toFinset))
    (hp : s.prev d q = A0.getLastD 0) :
    ∃ s', areaStep rec d q (A0.length + 1) hvol s = some s' ∧ s'.next = s.next ∧
      s'.prev = s.prev ∧ Out d (A0 ++ [q]).toFinset s s' ∧ s'.bounds d = s.bounds d ∧
      (∀ x, x ≠ q → s'.area d x = s.area d x ∧ s'.volume d x = s.volume d x) ∧
      s'.volume d q = hvol ∧
      (d ≤ 2 ∨ Good c M N V T → s.area d (A0.getLastD 0) = V d A0.toFinset →
        (d ≤ s.ignore q → Wit c M (s.ignore q) P q) →
        (A0 ≠ [] → ∀ i, 2 ≤ i → i < d → Cache c M V i (A0 ++ [q]).toFinset s) →
        (∀ i, s.area i 0 = 0) →
        (Good c M N V T → MarkOK c M (d - 1) (A0 ++ [q]).toFinset s) →
        s'.area d q = V d (A0 ++ [q]).toFinset ∧
        (∀ i, 2 ≤ i → i < d → Cache c M V i (A0 ++ [q]).toFinset s') ∧
        (Good c M N V T → MarkOK c M (d - 1) (A0 ++ [q]).toFinset s')) := by
  have hn : (A0 ++ [q]).Nodup := by
    have := lst_nodup hc d P
    rw [hL, show A0 ++ q :: B = (A0 ++ [q]) ++ B by simp] at this
    exact (List.nodup_append.1 this).1
  have hq0 : q ≠ 0 := by
    rintro rfl
    exact zero_notMem_lst hc (i := d) (P := P) (by rw [hL]; simp)
  have hqA : q ∉ A0 := by simp [List.nodup_append] at hn; grind
  have hlast : A0.getLastD 0 ≠ q := by
    by_cases h : A0 = []
    · subst h; simpa using hq0.symm
    · intro e
      exact hqA (e ▸ getLastD_mem h)
  have hAP : (A0 ++ [q]).toFinset ⊆ N := by
    intro x hx
    apply hP
    rw [← mem_lst hc (i := d) hP, hL]
    simp at hx ⊢
    tauto
  have hcard : (A0 ++ [q]).toFinset.card = A0.length + 1 := by
    rw [List.toFinset_card_of_nodup hn]; simp
  have hins : (A0 ++ [q]).toFinset = insert q A0.toFinset := by ext; simp [or_comm]
  obtain ⟨s1, hs1⟩ : ∃ s1 : St K, s1 = { s with volume := set2 s.volume d q hvol } := ⟨_, rfl⟩
  rw [areaStep_eq hs1]
  have v1 : ∀ i, i ≠ d → s1.volume i = s.volume i := by
    intro i hi; rw [hs1]; simp [set2, Function.update_of_ne hi]
  have v2 : ∀ x, x ≠ q → s1.volume d x = s.volume d x := by
    intro x hx; rw [hs1]; simp [set2, Function.update_of_ne hx]
  have v3 : s1.volume d q = hvol := by rw [hs1]; simp [set2]
  have e1 : s1.next = s.next := by rw [hs1]
  have e2 : s1.prev = s.prev := by rw [hs1]
  have e3 : s1.area = s.area := by rw [hs1]
  have e4 : s1.ignore = s.ignore := by rw [hs1]
  have e5 : s1.bounds = s.bounds := by rw [hs1]
  by_cases hig : s.ignore q ≥ d
  · rw [e4, if_pos hig]
    refine ⟨_, rfl, e1, e2, ⟨?_, ?_, ?_, ?_, ?_, ?_, ?_⟩, ?_, ?_, v3, ?_⟩
    · intro i hi
      simp [set2, Function.update_of_ne (show i ≠ d by omega), e3]
    · intro i hi
      exact v1 i (by omega)
    · intro i hi
      simp only [e5]
    · intro i
      by_cases h : i = d
      · subst h; simp [set2, Function.update_of_ne hq0.symm, e3]
      · simp [set2, Function.update_of_ne h, e3]
    · intro x _; simp only [e4]
    · intro x hx; simpa only [e4] using hx
    · intro x _; simp only [e4]
    · simp only [e5]
    · intro x hx
      refine ⟨by simp [set2, Function.update_of_ne hx, e3], v2 x hx⟩
    · intro hOK harea hwit hcache ha0 hmark
      obtain ⟨r, hr, hrq, hle, hb⟩ := hwit hig
      have hrA : r ∈ A0 := mem_left_of_bef hc hP hL hr (hb d hd hig)
      have hA : A0 ≠ [] := by rintro rfl; simp at hrA
      refine ⟨?_, ?_, ?_⟩
      · simp only [set2, Function.update_self, e2, hp, e3]
        rw [harea, hins]
        exact (hV.dom d _ q r (List.mem_toFinset.2 hrA) (fun i hi => hle i (by omega))).symm
      · intro i hi hid
        refine (hcache hA i hi hid).congr ?_ ?_ ?_
        · simp [set2, Function.update_of_ne (show i ≠ d by omega), e3]
        · exact v1 i (by omega)
        · simp only [e5]
      · intro hg
        have := hmark hg
        unfold MarkOK at this ⊢
        simpa only [e4] using this
  · rw [e4, if_neg hig]
    obtain ⟨v, s2, hr, hnx, hpv, hout, hval⟩ := hrec _ hAP s1 (by
      intro i hi
      rw [e1, e2]
      exact hl i (by omega))
    rw [hcard] at hr
    rw [hr]
    obtain ⟨s3, hs3⟩ : ∃ s3 : St K, s3 = { s2 with area := set2 s2.area d q v } := ⟨_, rfl⟩
    dsimp only
    rw [afterCall_eq hs3]
    have f1 : s3.next = s.next := by rw [hs3]; exact hnx.trans e1
    have f2 : s3.prev = s.prev := by rw [hs3]; exact hpv.trans e2
    have f3 : s3.volume = s2.volume := by rw [hs3]
    have f4 : s3.ignore = s2.ignore := by rw [hs3]
    have f5 : s3.bounds = s2.bounds := by rw [hs3]
    have a1 : ∀ i, i ≠ d → s3.area i = s2.area i := by
      intro i hi; rw [hs3]; simp [set2, Function.update_of_ne hi]
    have a2 : ∀ x, x ≠ q → s3.area d x = s2.area d x := by
      intro x hx; rw [hs3]; simp [set2, Function.update_of_ne hx]
    have a3 : s3.area d q = v := by rw [hs3]; simp [set2]
    have a4 : s2.area d = s.area d := by rw [hout.area d (by omega), e3]
    have hcnd : (s3.area d q ≤ s3.area d (s3.prev d q)) = (v ≤ s.area d (A0.getLastD 0)) := by
      rw [f2, hp, a2 _ hlast, a3, a4]
    simp only [hcnd]
    obtain ⟨s4, hs4⟩ : ∃ s4 : St K, s4 = if v ≤ s.area d (A0.getLastD 0) then
      { s3 with ignore := Function.update s3.ignore q d } else s3 := ⟨_, rfl⟩
    rw [← hs4]
    have g : s4.next = s3.next ∧ s4.prev = s3.prev ∧ s4.area = s3.area ∧ s4.volume = s3.volume ∧
        s4.bounds = s3.bounds := by
      rw [hs4]; split_ifs <;> exact ⟨rfl, rfl, rfl, rfl, rfl⟩
    have gi : ∀ x, x ≠ q → s4.ignore x = s2.ignore x := by
      intro x hx
      rw [hs4]
      split_ifs
      · simp [Function.update_of_ne hx, f4]
      · rw [f4]
    have gq : s4.ignore q = if v ≤ s.area d (A0.getLastD 0) then d else s2.ignore q := by
      rw [hs4]
      split_ifs
      · simp
      · rw [f4]
    have hq2 : s2.ignore q < d := by
      by_cases h : s1.ignore q ≤ d - 1
      · have := hout.ignLo q h; omega
      · rw [e4] at h; omega
    have hvd : s2.volume d = s1.volume d := hout.volume d (by omega)
    refine ⟨s4, rfl, g.1.trans f1, g.2.1.trans f2, ⟨?_, ?_, ?_, ?_, ?_, ?_, ?_⟩, ?_, ?_, ?_, ?_⟩
    · intro i hi
      rw [g.2.2.1, a1 i (by omega), hout.area i (by omega), e3]
    · intro i hi
      rw [g.2.2.2.1, f3, hout.volume i (by omega), v1 i (by omega)]
    · intro i hi
      rw [g.2.2.2.2, f5, hout.bounds i (by omega), e5]
    · intro i
      rw [g.2.2.1]
      by_cases h : i = d
      · subst h; rw [a2 0 hq0.symm, hout.area0, e3]
      · rw [a1 i h, hout.area0, e3]
    · intro x hx
      have hxq : x ≠ q := by rintro rfl; omega
      rw [gi x hxq, hout.ignHi x (by rw [e4]; omega), e4]
    · intro x hx
      by_cases hxq : x = q
      · subst hxq; rw [gq]; split_ifs <;> omega
      · rw [gi x hxq]
        by_cases h : s1.ignore x ≤ d - 1
        · have := hout.ignLo x h; omega
        · rw [hout.ignHi x (by omega), e4]; exact hx
    · intro x hx
      have hxq : x ≠ q := by rintro rfl; simp at hx
      rw [gi x hxq, hout.ignOut x hx, e4]
    · rw [g.2.2.2.2, f5, hout.bounds d (by omega), e5]
    · intro x hx
      refine ⟨by rw [g.2.2.1, a2 x hx, a4], by rw [g.2.2.2.1, f3, hvd, v2 x hx]⟩
    · rw [g.2.2.2.1, f3, hvd, v3]
    · intro hOK harea hwit hcache ha0 hmark
      have hpost := hval (hOK.imp (fun h => by omega) id) (by
        refine ⟨?_, ?_, ?_⟩
        · intro hc2 i hi hid
          rw [hcard] at hc2
          refine (hcache (by rintro rfl; simp at hc2) i hi (by omega)).congr (by rw [e3])
            (v1 i (by omega)) (by rw [e5])
        · intro h2
          have := hmark (hOK.resolve_left (by omega))
          unfold MarkOK at this ⊢
          simpa only [e4] using this
        · intro i; rw [e3]; exact ha0 i)
      obtain ⟨p1, p2, p3⟩ := hpost
      rw [show d - 1 + 1 = d by omega] at p1
      refine ⟨by rw [g.2.2.1, a3, p1], ?_, ?_⟩
      · intro i hi hid
        refine (p2 i hi (by omega)).congr ?_ ?_ ?_
        · rw [g.2.2.1, a1 i (by omega)]
        · rw [g.2.2.2.1, f3]
        · rw [g.2.2.2.2, f5]
      · intro hg
        have hm := p3 hg (by
          have := hmark hg
          unfold MarkOK at this ⊢
          simpa only [e4] using this)
        intro x hx h1 h2
        by_cases hxq : x = q
        · subst hxq
          rw [gq] at h1 h2 ⊢
          split_ifs at h1 h2 ⊢ with hcond
          · rw [p1, harea, hins] at hcond
            obtain ⟨r, hr, hle⟩ := hg.null d A0.toFinset x hT (by rw [← hins]; exact hAP)
              (by simpa using hqA) hcond
            have hrA : r ∈ A0 := List.mem_toFinset.1 hr
            have hb : bef M d r x := bef_of_mem_left hc hL hrA
            have hrx : r ≠ x := by rintro rfl; exact hqA hrA
            refine ⟨r, by simp [hrA], hrx, hle, ?_⟩
            intro j hj hjd
            rcases hjd.lt_or_eq with h | rfl
            · exact hg.compat d (by omega) hT j hj h r (hAP (by simp [hrA])) x (hAP (by simp))
                hrx hle hb
            · exact hb
          · exact hm x hx h1 h2
        · rw [gi x hxq] at h1 h2 ⊢
          exact hm x hx h1 h2

/-- The reinsertion loop. -/
theorem reinsertLoop_spec (hc : Ctx c M N) (hV : Vol c N V) {d : ℕ} (hd : 2 ≤ d) (hT : d ≤ T)
    {rec : ℕ → St K → Option (K × St K)} (hrec : RecSpec c M N V T (d - 1) rec)
    {P : Finset ℕ} (hP : P ⊆ N) {s0 : St K}
    (hl : ∀ i ≤ d, Linked (s0.next i) (s0.prev i) (lst M i P)) :
    ∀ (B A0 : List ℕ) (q : ℕ) (hvol : K) (s : St K) (fuel : ℕ),
      lst M d P = A0 ++ [q] ++ B → B.length < fuel →
      s.next = (removeAll c d B s0).next → s.prev = (removeAll c d B s0).prev →
      ∃ v s', reinsertLoop c rec d fuel (B.headD 0) q (A0.length + 1) hvol s = some (v, s') ∧
        s'.next = s0.next ∧ s'.prev = s0.prev ∧ Out d P s s' ∧
        (d ≤ 2 ∨ Good c M N V T → Valid c V d (A0 ++ [q]) s → hvol = wf c V d (A0 ++ [q]) →
          (∀ i, 2 ≤ i → i < d → Cache c M V i (A0 ++ [q]).toFinset s) →
          (Good c M N V T → MarkOK c M (d - 1) (A0 ++ [q]).toFinset s) →
          (∀ x ∈ B, s.ignore x = 0 ∨ d ≤ s.ignore x ∧ Wit c M (s.ignore x) P x) →
          (∀ i, s.area i 0 = 0) →
          v = V (d + 1) P ∧ (∀ i, 2 ≤ i → i ≤ d → Cache c M V i P s') ∧
          (Good c M N V T → MarkOK c M (d - 1) P s'))
  | [], A0, q, hvol, s, fuel + 1, hL, _, hnx, hpv => by
    have hP' : (A0 ++ [q]).toFinset = P := by
      rw [← lst_toFinset hc (i := d) hP, hL]; simp
    refine ⟨_, s, by rw [reinsertLoop]; simp only [List.headD_nil, if_true]; rfl, hnx, hpv,
      Out.refl _ _ _, ?_⟩
    intro hOK hvalid hw hcache hmark _ _
    rw [hP'] at hcache hmark
    refine ⟨?_, ?_, hmark⟩
    · have h1 := (hvalid A0 q [] rfl).1
      have h2 := hV.slice d A0 q (by omega) (by rw [hP']; exact hP) (by
        have := lst_sorted hc d P
        rw [hL] at this
        simpa using this)
      rw [h1, hw, ← hP', h2]
    · intro i hi hid
      rcases hid.lt_or_eq with h | rfl
      · exact hcache i hi h
      · apply cache_of_valid hc hP
        rw [hL]
        simpa using hvalid
  | p :: B, A0, q, hvol, s, fuel + 1, hL, hf, hnx, hpv => by
    have hp0 : p ≠ 0 := by
      rintro rfl
      exact zero_notMem_lst hc (i := d) (P := P) (by rw [hL]; simp)
    have hnd : (A0 ++ [q] ++ p :: B).Nodup := hL ▸ lst_nodup hc d P
    have hP' : (A0 ++ [q] ++ p :: B).toFinset = P := by
      rw [← lst_toFinset hc (i := d) hP, hL]
    have hpA : p ∉ A0 ++ [q] := by
      rw [List.nodup_append] at hnd
      intro h
      exact hnd.2.2 p h p (by simp) rfl
    have hpq : p ≠ q := by rintro rfl; simp at hpA
    have hins : (A0 ++ [q] ++ [p]).toFinset = insert p (A0 ++ [q]).toFinset := by
      ext; simp; tauto
    have hsubP : (A0 ++ [q] ++ [p]).toFinset ⊆ P := by
      rw [← hP']
      intro x hx
      simp at hx ⊢
      tauto
    rw [reinsertLoop]
    rw [List.headD_cons, if_neg hp0]
    simp only
    obtain ⟨hvol', hhv⟩ : ∃ h, h = hvol + s.area d q * (c p d - c q d) := ⟨_, rfl⟩
    rw [← hhv]
    obtain ⟨s1, hs1⟩ : ∃ s1 : St K, s1 = { s with bounds := Function.update s.bounds d (c p d) } :=
      ⟨_, rfl⟩
    rw [show ({ s with bounds := Function.update s.bounds d (c p d) } : St K) = s1 from hs1.symm]
    have e1 : s1.next = s.next := by rw [hs1]
    have e2 : s1.prev = s.prev := by rw [hs1]
    have e3 : s1.area = s.area := by rw [hs1]
    have e4 : s1.volume = s.volume := by rw [hs1]
    have e5 : s1.ignore = s.ignore := by rw [hs1]
    have e6 : ∀ i, i ≠ d → s1.bounds i = s.bounds i := by
      intro i hi; rw [hs1]; simp [Function.update_of_ne hi]
    -- the pointers after reinsertion
    have hlB := linked_removeAll hc (d := d) (s := s0) B (A0 ++ [q] ++ [p])
      (by simpa using hnd) (by
        rw [show A0 ++ [q] ++ [p] ++ B = A0 ++ [q] ++ p :: B by simp, hP']; exact hP)
      (by
        intro i hi
        rw [show A0 ++ [q] ++ [p] ++ B = A0 ++ [q] ++ p :: B by simp, hP']
        exact hl i hi.le)
    obtain ⟨r1, r2⟩ := reinsert_remove_ptr c (x := p) (d := d) (s := removeAll c d B s0) (t := s1)
      (L := fun i => lst M i (A0 ++ [q] ++ [p]).toFinset) hlB
      (fun i _ => (mem_lst hc (hsubP.trans hP)).2 (by simp))
      (fun i _ => lst_nodup hc _ _) (fun i _ => zero_notMem_lst hc)
      (by rw [e1, hnx, removeAll_cons]) (by rw [e2, hpv, removeAll_cons])
    obtain ⟨s2, hs2⟩ : ∃ s2 : St K, s2 = reinsert c p d s1 := ⟨_, rfl⟩
    rw [← hs2] at r1 r2 ⊢
    have hLp : lst M d P = (A0 ++ [q]) ++ p :: B := hL
    have hld := hl d le_rfl
    rw [hLp] at hld
    have hnext : s2.next d p = B.headD 0 := by
      rw [r1, removeAll_next_ge c B s0 le_rfl, hld.next]
    have hprev : s2.prev d p = (A0 ++ [q]).getLastD 0 := by
      rw [r2, removeAll_prev_ge c B s0 le_rfl, hld.prev]
    obtain ⟨s3, ha, hn3, hp3, hout, hb3, hother, hvolp, hval⟩ := areaStep_spec hc hV hd hT hrec hP
      (A0 := A0 ++ [q]) (q := p) (B := B) hLp (s := s2) hvol'
      (by intro i hi; rw [r1, r2]; exact hlB i hi) hprev
    rw [show (A0 ++ [q]).length + 1 = A0.length + 1 + 1 by simp] at ha
    rw [ha, hnext]
    simp only
    obtain ⟨v, s', hrun, hn', hp', hout', hfin⟩ := reinsertLoop_spec hc hV hd hT hrec hP hl B
      (A0 ++ [q]) p hvol' s3 fuel (by rw [hL]; simp) (by simp at hf; omega)
      (hn3.trans r1) (hp3.trans r2)
    rw [show (A0 ++ [q]).length + 1 = A0.length + 1 + 1 by simp] at hrun
    have hs2area : s2.area = s.area := by rw [hs2, reinsert_area, e3]
    have hs2volume : s2.volume = s.volume := by rw [hs2, reinsert_volume, e4]
    have hs2ignore : s2.ignore = s.ignore := by rw [hs2, reinsert_ignore, e5]
    have hs2bounds : ∀ i, d < i → s2.bounds i = s.bounds i := by
      intro i hi
      rw [hs2, reinsert_bounds]
      simp only [show ¬ i < d by omega, if_false]
      exact e6 i (by omega)
    have hout2 : Out d P s s2 :=
      ⟨fun i _ => by rw [hs2area], fun i _ => by rw [hs2volume], hs2bounds,
        fun i => by rw [hs2area], fun x _ => by rw [hs2ignore],
        fun x h => by rw [hs2ignore]; exact h, fun x _ => by rw [hs2ignore]⟩
    have hout3 : Out d P s2 s3 := hout.mono le_rfl hsubP
    refine ⟨v, s', hrun, hn', hp', (hout2.trans hout3).trans hout', ?_⟩
    intro hOK hvalid hw hcache hmark hB ha0
    have hareaq : s.area d q = V d (A0 ++ [q]).toFinset := (hvalid A0 q [] rfl).1
    have hw' : hvol' = wf c V d (A0 ++ [q] ++ [p]) := by
      rw [wf_concat, hhv, hw, hareaq]
    have hlastq : (A0 ++ [q]).getLastD 0 = q := by rw [List.getLastD_concat]
    have hmark2 : Good c M N V T → MarkOK c M (d - 1) (A0 ++ [q] ++ [p]).toFinset s2 := by
      intro hg x hx h1 h2
      rw [hs2ignore] at h1 h2 ⊢
      rw [hins, Finset.mem_insert] at hx
      rcases hx with rfl | hx
      · rcases hB x (by simp) with h | ⟨h, hw⟩
        · omega
        · exact hw.restrict hc hP hd h (A := A0 ++ [q] ++ [x]) (B := B) (by rw [hL]; simp)
            (by simp)
      · exact (hmark hg x hx h1 h2).mono (by rw [hins]; exact Finset.subset_insert _ _)
    obtain ⟨w1, w2, w3⟩ := hval hOK (by rw [hlastq, hs2area, hareaq])
      (by
        intro h
        rw [hs2ignore] at h ⊢
        rcases hB p (by simp) with h' | ⟨h', hw⟩
        · omega
        · exact hw)
      (by
        intro _ i hi hid
        rw [hs2, hins]
        refine cache_reinsert hc ?_ (by rw [List.mem_toFinset]; exact hpA) hid ?_
        · rw [← hins]; exact hsubP.trans hP
        · exact (hcache i hi hid).congr (by rw [e3]) (by rw [e4]) (e6 i (by omega)))
      (by intro i; rw [hs2area]; exact ha0 i) hmark2
    refine hfin hOK ?_ hw' w2 w3 ?_ ?_
    · -- stored values up to p
      intro A1 x A2 he
      rcases List.eq_nil_or_concat A2 with rfl | ⟨A3, a, rfl⟩
      · obtain ⟨h1, h2⟩ := List.append_inj' he (by simp)
        simp only [List.cons.injEq, and_true] at h2
        subst h2
        rw [← h1]
        exact ⟨w1, by rw [hvolp, hw']⟩
      · rw [List.concat_eq_append, ← List.cons_append, ← List.append_assoc] at he
        obtain ⟨h1, h2⟩ := List.append_inj' he (by simp)
        have hx : x ≠ p := by
          rintro rfl
          apply hpA
          rw [h1]; simp
        rw [(hother x hx).1, (hother x hx).2, hs2area, hs2volume]
        exact hvalid A1 x A3 h1
    · intro x hx
      have hxA : x ∉ (A0 ++ [q] ++ [p]).toFinset := by
        rw [show A0 ++ [q] ++ p :: B = (A0 ++ [q] ++ [p]) ++ B by simp, List.nodup_append] at hnd
        intro h
        rw [List.mem_toFinset] at h
        exact hnd.2.2 x h x hx rfl
      rw [hout.ignOut x hxA, hs2ignore]
      exact hB x (by simp [hx])
    · intro i
      rw [hout.area0, hs2area]
      exact ha0 i

/-- The general case. -/
theorem general_spec (hc : Ctx c M N) (hV : Vol c N V) {d : ℕ} (hd : 2 ≤ d) (hT : d ≤ T)
    {rec : ℕ → St K → Option (K × St K)} (hrec : RecSpec c M N V T (d - 1) rec)
    {fuel : ℕ} (hfuel : N.card < fuel) {P : Finset ℕ} (hP : P ⊆ N) (hne : P.Nonempty) {s : St K}
    (hl : ∀ i ≤ d, Linked (s.next i) (s.prev i) (lst M i P)) :
    ∃ v s', general c rec fuel d P.card s = some (v, s') ∧ s'.next = s.next ∧ s'.prev = s.prev ∧
      Out d P s s' ∧
      (d ≤ 2 ∨ Good c M N V T → ValEntry c M V d P s → ValPost c M N V T d P s v s') := by
  have hlen := lst_length hc (i := d) hP
  have hLne : lst M d P ≠ [] := by
    intro h
    rw [h] at hlen
    simp only [List.length_nil] at hlen
    exact absurd hne.card_pos (by omega)
  have hcardN : P.card ≤ N.card := Finset.card_le_card hP
  unfold general
  obtain ⟨s1, hr, n1, p1, a1, v1, b1, i1⟩ := resetLoop_spec (d := d) (lst M d P) [] s fuel
    (by simpa using hl d le_rfl) (zero_notMem_lst hc) (lst_nodup hc d P) (by omega)
  rw [(hl d le_rfl).prev_zero, hr]
  simp only
  have hl1 : ∀ i ≤ d, Linked (s1.next i) (s1.prev i) (lst M i P) := by
    intro i hi; rw [n1, p1]; exact hl i hi
  obtain ⟨A0, q, B, hL, B1, hB1, hrem, hbound⟩ := removeLoop_spec (c := c) (d := d) (lst M d P) []
    s1 hLne (by simpa using hl1 d le_rfl)
  rw [List.append_nil] at hL hB1
  subst hB1
  rw [(hl1 d le_rfl).prev_zero, ← hlen]
  rw [List.headD_nil] at hrem
  rw [hrem]
  simp only
  have hL' : lst M d P = A0 ++ q :: B := by rw [hL]; simp
  have hq0 : q ≠ 0 := by
    rintro rfl
    exact zero_notMem_lst hc (i := d) (P := P) (by rw [hL]; simp)
  have hnd : (A0 ++ [q] ++ B).Nodup := hL ▸ lst_nodup hc d P
  have hqA : q ∉ A0 := by simp [List.nodup_append] at hnd; grind
  have hlast : A0.getLastD 0 ≠ q := by
    by_cases h : A0 = []
    · subst h; simpa using hq0.symm
    · intro e
      exact hqA (e ▸ getLastD_mem h)
  have hP' : (A0 ++ [q] ++ B).toFinset = P := by
    rw [← lst_toFinset hc (i := d) hP, hL]
  have hAP : (A0 ++ [q]).toFinset ⊆ P := by
    rw [← hP']
    intro x hx
    simp at hx ⊢
    tauto
  obtain ⟨s2, hs2⟩ : ∃ s2 : St K, s2 = removeAll c d B s1 := ⟨_, rfl⟩
  rw [← hs2]
  have hprevq : s2.prev d q = A0.getLastD 0 := by
    have := hl1 d le_rfl
    rw [hL'] at this
    rw [hs2, removeAll_prev_ge c B s1 le_rfl, this.prev]
  rw [hprevq]
  have hs2area : s2.area = s.area := by rw [hs2, removeAll_area, a1]
  have hs2volume : s2.volume = s.volume := by rw [hs2, removeAll_volume, v1]
  have hs2ignore : s2.ignore = s1.ignore := by rw [hs2, removeAll_ignore]
  obtain ⟨hvol, hhvol⟩ : ∃ h, h = if A0.length + 1 > 1 then s2.volume d (A0.getLastD 0) +
    s2.area d (A0.getLastD 0) * (c q d - c (A0.getLastD 0) d) else 0 := ⟨_, rfl⟩
  rw [← hhvol]
  obtain ⟨s3, hs3⟩ : ∃ s3 : St K, s3 = if A0.length + 1 > 1 then s2 else singleArea c d q s2 :=
    ⟨_, rfl⟩
  rw [← hs3]
  have e3 : s3.next = s2.next ∧ s3.prev = s2.prev ∧ s3.volume = s2.volume ∧
      s3.bounds = s2.bounds ∧ s3.ignore = s2.ignore := by
    rw [hs3]; split_ifs <;> exact ⟨rfl, rfl, rfl, rfl, rfl⟩
  have a3 : ∀ i x, x ≠ q → s3.area i x = s2.area i x := by
    intro i x hx
    rw [hs3]
    split_ifs
    · rfl
    · simp only [singleArea, hx, false_and, if_false, set2]
      by_cases h : i = 0
      · subst h; simp [Function.update_of_ne hx]
      · simp [Function.update_of_ne h]
  have a3' : ∀ i, d < i → s3.area i = s2.area i := by
    intro i hi
    funext x
    rw [hs3]
    split_ifs
    · rfl
    · simp only [singleArea, show ¬ i ≤ d by omega, and_false, if_false, set2]
      simp [Function.update_of_ne (show i ≠ 0 by omega)]
  have a3'' : A0 ≠ [] → s3 = s2 := by
    intro h
    have := List.length_pos_of_ne_nil h
    rw [hs3, if_pos (by omega)]
  have hlA := linked_removeAll hc (d := d) (s := s1) B (A0 ++ [q]) hnd (by rw [hP']; exact hP)
    (by intro i hi; rw [hP']; exact hl1 i hi.le)
  obtain ⟨s4, ha, n4, p4, hout4, hb4, hother, hvolq, hval⟩ := areaStep_spec hc hV hd hT hrec hP
    (A0 := A0) (q := q) (B := B) hL' (s := s3) hvol
    (by intro i hi; rw [e3.1, e3.2.1, hs2]; exact hlA i hi) (by rw [e3.2.1, hprevq])
  rw [ha]
  simp only
  obtain ⟨v, s', hrun, hn', hp', hout', hfin⟩ := reinsertLoop_spec hc hV hd hT hrec hP
    (s0 := s1) hl1 B A0 q hvol s4 fuel (by rw [hL]) (by
      have := congrArg List.length hL
      simp at this
      omega)
    (by rw [n4, e3.1, hs2]) (by rw [p4, e3.2.1, hs2])
  have hout1 : Out d P s s1 :=
    ⟨fun i _ => by rw [a1], fun i _ => by rw [v1], fun i _ => by rw [b1], fun i => by rw [a1],
      fun x h => by rw [i1, if_neg (by omega)],
      fun x h => by rw [i1]; split_ifs <;> omega,
      fun x h => by rw [i1, if_neg (by rw [mem_lst hc hP]; tauto)]⟩
  have hout3 : Out d P s1 s3 :=
    ⟨fun i hi => by rw [a3' i hi, hs2, removeAll_area],
      fun i hi => by rw [e3.2.2.1, hs2, removeAll_volume],
      fun i hi => by rw [e3.2.2.2.1, hs2, removeAll_bounds_ge c B s1 hi.le],
      fun i => by rw [a3 i 0 hq0.symm, hs2, removeAll_area],
      fun x _ => by rw [e3.2.2.2.2, hs2ignore],
      fun x h => by rw [e3.2.2.2.2, hs2ignore]; exact h,
      fun x _ => by rw [e3.2.2.2.2, hs2ignore]⟩
  refine ⟨v, s', hrun, hn'.trans n1, hp'.trans p1,
    ((hout1.trans hout3).trans (hout4.mono le_rfl hAP)).trans hout', ?_⟩
  intro hOK hentry
  obtain ⟨ec, em, e0⟩ := hentry
  have hcard : A0 ≠ [] → 2 ≤ P.card := by
    intro h
    have h1 := List.length_pos_of_ne_nil h
    have := congrArg List.length hL
    simp at this
    omega
  -- marks after the reset
  have hm1 : ∀ x ∈ P, s1.ignore x = 0 ∨ d ≤ s1.ignore x ∧ Wit c M (s1.ignore x) P x := by
    intro x hx
    rw [i1]
    split_ifs with h
    · exact Or.inl rfl
    · have : d ≤ s.ignore x := by
        by_contra hlt
        exact h ⟨(mem_lst hc hP).2 hx, by omega⟩
      exact Or.inr ⟨this, em hd x hx this (by omega)⟩
  have hvalid0 : A0 ≠ [] → Valid c V d A0 s2 := by
    intro h
    have hb := hbound h
    rcases List.eq_nil_or_concat A0 with h' | ⟨A1, a, hA1⟩
    · exact absurd h' h
    · rw [List.concat_eq_append] at hA1
      rw [hA1, List.getLastD_concat] at hb
      have := valid_of_cache (V := V) (s := s) hc hP (A := A1) (q := a) (B := q :: B) (d := d)
        (by rw [hL', hA1]) (by rw [← b1]; exact hb) (ec (hcard h) d hd le_rfl)
      rw [hA1]
      intro X x Y he
      rw [hs2area, hs2volume]
      exact this X x Y he
  have hareaLast : s3.area d (A0.getLastD 0) = V d A0.toFinset := by
    by_cases h : A0 = []
    · subst h
      simp only [List.getLastD_nil, List.toFinset_nil]
      rw [a3 d 0 hq0.symm, hs2area, e0, hV.empty d (by omega)]
    · rw [a3 d _ hlast]
      rcases List.eq_nil_or_concat A0 with h' | ⟨A1, a, hA1⟩
      · exact absurd h' h
      · rw [List.concat_eq_append] at hA1
        have := (hvalid0 h A1 a [] (by rw [hA1])).1
        rw [hA1, List.getLastD_concat, this]
  have hmarkA : Good c M N V T → MarkOK c M (d - 1) (A0 ++ [q]).toFinset s3 := by
    intro hg x hx h1 h2
    rw [e3.2.2.2.2, hs2ignore] at h1 h2 ⊢
    rcases hm1 x (hAP hx) with h | ⟨h, hw⟩
    · omega
    · exact hw.restrict hc hP hd h (by rw [hL]) (List.mem_toFinset.1 hx)
  obtain ⟨w1, w2, w3⟩ := hval hOK hareaLast
    (by
      intro h
      rw [e3.2.2.2.2, hs2ignore] at h ⊢
      rcases hm1 q (hAP (by simp)) with h' | ⟨h', hw⟩
      · omega
      · exact hw)
    (by
      intro hA i hi hid
      rw [a3'' hA, hs2]
      apply cache_removeAll hc hid B (A0 ++ [q]) hnd (by rw [hP']; exact hP)
      rw [hP']
      exact (ec (hcard hA) i hi hid.le).congr (by rw [a1]) (by rw [v1]) (by rw [b1]))
    (by intro i; rw [a3 i 0 hq0.symm, hs2area]; exact e0 i) hmarkA
  have hw : hvol = wf c V d (A0 ++ [q]) := by
    rcases List.eq_nil_or_concat A0 with h' | ⟨A1, a, hA1⟩
    · subst h'
      rw [hhvol]
      simp [wf_single]
    · rw [List.concat_eq_append] at hA1
      have hA : A0 ≠ [] := by rw [hA1]; simp
      have hpos := List.length_pos_of_ne_nil hA
      rw [hhvol, if_pos (by omega), hA1, List.getLastD_concat, wf_concat]
      have := hvalid0 hA A1 a [] (by rw [hA1])
      rw [this.1, this.2]
  obtain ⟨z1, z2, z3⟩ := hfin hOK
    (by
      intro A1 x A2 he
      rcases List.eq_nil_or_concat A2 with rfl | ⟨A3, a, rfl⟩
      · obtain ⟨h1, h2⟩ := List.append_inj' he (by simp)
        simp only [List.cons.injEq, and_true] at h2
        subst h2
        rw [← h1]
        exact ⟨w1, by rw [hvolq, hw]⟩
      · rw [List.concat_eq_append, ← List.cons_append, ← List.append_assoc] at he
        obtain ⟨h1, h2⟩ := List.append_inj' he (by simp)
        have hxA : x ∈ A0 := by rw [h1]; simp
        have hx : x ≠ q := by
          rintro rfl
          exact hqA hxA
        rw [(hother x hx).1, (hother x hx).2, a3 d x hx, e3.2.2.1]
        exact hvalid0 (by rintro rfl; simp at hxA) A1 x A3 h1)
    hw w2 w3
    (by
      intro x hx
      have hxA : x ∉ (A0 ++ [q]).toFinset := by
        rw [List.nodup_append] at hnd
        intro h
        rw [List.mem_toFinset] at h
        exact hnd.2.2 x h x hx rfl
      rw [hout4.ignOut x hxA, e3.2.2.2.2, hs2ignore]
      exact hm1 x (by rw [← hP']; simp [hx]))
    (by
      intro i
      rw [hout4.area0, a3 i 0 hq0.symm, hs2area]
      exact e0 i)
  exact ⟨z1, z2, fun hg _ x hx h1 h2 => z3 hg x hx (by omega) h2⟩

theorem headD_eq_of_ne {L : List ℕ} (h : L ≠ []) : ∃ L', L = L.headD 0 :: L' := by
  cases L with
  | nil => simp at h
  | cons a l => exact ⟨l, rfl⟩

/-- The recursion meets its specification in every dimension. -/
theorem hvRec_spec (hc : Ctx c M N) (hV : Vol c N V) {fuel : ℕ} (hfuel : N.card < fuel) :
    ∀ d, d ≤ T → RecSpec c M N V T d (hvRec c fuel d)
  | 0, _ => by
    intro P hP s hl
    rw [hvRec]
    by_cases hne : P = ∅
    · subst hne
      refine ⟨0, s, by simp, rfl, rfl, Out.refl _ _ _, fun _ _ => ⟨(hV.empty 1 le_rfl).symm,
        fun i h1 h2 => by omega, fun _ h => h⟩⟩
    · have hpos := Finset.card_pos.2 (Finset.nonempty_iff_ne_empty.2 hne)
      rw [if_neg (by omega)]
      refine ⟨_, s, rfl, rfl, rfl, Out.refl _ _ _, fun _ _ => ⟨?_, fun i h1 h2 => by omega,
        fun _ h => h⟩⟩
      rw [(hl 0 le_rfl).next_zero]
      have hlen := lst_length hc (i := 0) hP
      have hLne : lst M 0 P ≠ [] := by
        intro h
        rw [h] at hlen
        simp only [List.length_nil] at hlen
        omega
      symm
      refine hV.one P _ ((mem_lst hc (i := 0) hP).1 (headD_mem hLne)) hP ?_
      intro y hy
      obtain ⟨L', hL'⟩ := headD_eq_of_ne hLne
      have hs := lst_sorted hc 0 P
      have hy' := (mem_lst hc (i := 0) hP).2 hy
      rw [hL', List.mem_cons] at hy'
      rw [hL', List.pairwise_cons] at hs
      rcases hy' with h | h
      · rw [h]
      · exact hs.1 y h
  | 1, _ => by
    intro P hP s hl
    rw [hvRec]
    by_cases hne : P = ∅
    · subst hne
      refine ⟨0, s, by simp, rfl, rfl, Out.refl _ _ _, fun _ _ => ⟨(hV.empty 2 (by omega)).symm,
        fun i h1 h2 => by omega, fun _ h => h⟩⟩
    · have hpos := Finset.card_pos.2 (Finset.nonempty_iff_ne_empty.2 hne)
      rw [if_neg (by omega)]
      simp only
      have hlen := lst_length hc (i := 1) hP
      have hLne : lst M 1 P ≠ [] := by
        intro h
        rw [h] at hlen
        simp only [List.length_nil] at hlen
        omega
      obtain ⟨L', hL'⟩ := headD_eq_of_ne hLne
      have hl1 := hl 1 le_rfl
      have hq := hl1.next_zero
      obtain ⟨q, hqq⟩ : ∃ q, q = (lst M 1 P).headD 0 := ⟨_, rfl⟩
      rw [← hqq] at hL' hq
      rw [hq]
      have hl1' : Linked (s.next 1) (s.prev 1) ([] ++ q :: L') := by
        rw [List.nil_append, ← hL']; exact hl1
      rw [hl1'.next]
      have hcardN : P.card ≤ N.card := Finset.card_le_card hP
      have hqP : q ∈ P := (mem_lst hc (i := 1) hP).1 (by rw [hL']; simp)
      have := sweep_spec hc hV hP hl1 L' [] q fuel (by rw [hL']; simp) (by
        have := congrArg List.length hL'
        simp at this
        omega)
      rw [List.nil_append, wf_single, hV.one [q].toFinset q (by simp)
        (by intro x hx; simp at hx; subst hx; exact hP hqP) (by simp), neg_neg] at this
      rw [this]
      exact ⟨_, s, rfl, rfl, rfl, Out.refl _ _ _, fun _ _ => ⟨rfl, fun i h1 h2 => by omega,
        fun _ h => h⟩⟩
  | d + 2, hT => by
    intro P hP s hl
    rw [hvRec]
    by_cases hne : P = ∅
    · subst hne
      refine ⟨0, s, by simp, rfl, rfl, Out.refl _ _ _, fun _ _ =>
        ⟨(hV.empty _ (by omega)).symm, fun i h1 h2 x hx => by simp at hx, fun _ h => h⟩⟩
    · have hpos := Finset.card_pos.2 (Finset.nonempty_iff_ne_empty.2 hne)
      rw [if_neg (by omega)]
      exact general_spec hc hV (by omega) hT (hvRec_spec hc hV hfuel (d + 1) (by omega)) hfuel hP
        (Finset.nonempty_iff_ne_empty.2 hne) hl

end Evogil.Hv
