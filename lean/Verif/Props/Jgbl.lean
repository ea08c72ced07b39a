import Verif.Model.Jgbl
import Verif.Spec.Box
import Verif.Props.Nsgaii
import Mathlib.Tactic.FieldSimp
import Mathlib.Tactic.Linarith
import Mathlib.Tactic.Ring

/-! # Properties C34 and C76: JGBL -/

set_option linter.unusedSectionVars false

namespace Evogil.Jgbl

open Spec

variable {K : Type*} [Field K] [LinearOrder K] [IsStrictOrderedRing K]

/-- every interval has a positive length -/
def ProperBox (dims : List (K × K)) : Prop := ∀ d ∈ dims, d.1 < d.2

/-- all entries of a ratio vector lie in [0,1] -/
def InUnit (r : List K) : Prop := ∀ v ∈ r, 0 ≤ v ∧ v ≤ 1

theorem convert_length (dims : List (K × K)) (x : List K) (h : x.length = dims.length) :
    (convertToRatio dims x).length = dims.length := by
  simp [convertToRatio, h]

theorem decode_length (dims : List (K × K)) (r : List K) (h : r.length = dims.length) :
    (decodeRatio dims r).length = dims.length := by
  simp [decodeRatio, h]

theorem decode_convert (dims : List (K × K)) (hp : ProperBox dims) (x : List K)
    (h : x.length = dims.length) : decodeRatio dims (convertToRatio dims x) = x := by
  induction x generalizing dims with
  | nil => simp [decodeRatio, convertToRatio]
  | cons v x ih =>
    cases dims with
    | nil => simp at h
    | cons d dims =>
      have hd := hp d List.mem_cons_self
      have := ih dims (fun e he => hp e (List.mem_cons_of_mem _ he)) (by simpa using h)
      simp only [decodeRatio, convertToRatio, List.zipWith_cons_cons] at this ⊢
      rw [this]
      have : d.2 - d.1 ≠ 0 := (sub_pos.2 hd).ne'
      congr 1
      field_simp
      ring

theorem convert_decode (dims : List (K × K)) (hp : ProperBox dims) (r : List K)
    (h : r.length = dims.length) : convertToRatio dims (decodeRatio dims r) = r := by
  induction r generalizing dims with
  | nil => simp [decodeRatio, convertToRatio]
  | cons v r ih =>
    cases dims with
    | nil => simp at h
    | cons d dims =>
      have hd := hp d List.mem_cons_self
      have := ih dims (fun e he => hp e (List.mem_cons_of_mem _ he)) (by simpa using h)
      simp only [decodeRatio, convertToRatio, List.zipWith_cons_cons] at this ⊢
      rw [this]
      have : d.2 - d.1 ≠ 0 := (sub_pos.2 hd).ne'
      congr 1
      field_simp
      ring

theorem convert_inUnit (dims : List (K × K)) (hp : ProperBox dims) (x : List K)
    (h : InBox x dims) : InUnit (convertToRatio dims x) := by
  induction h with
  | nil => simp [convertToRatio, InUnit]
  | @cons v d x dims h1 _ ih =>
    have hd := sub_pos.2 (hp d List.mem_cons_self)
    intro w hw
    simp only [convertToRatio, List.zipWith_cons_cons, List.mem_cons] at hw
    rcases hw with rfl | hw
    · refine ⟨div_nonneg (by linarith [h1.1]) hd.le, ?_⟩
      rw [div_le_one hd]; linarith [h1.2]
    · exact ih (fun e he => hp e (List.mem_cons_of_mem _ he)) w hw

theorem decode_inBox (dims : List (K × K)) (hp : ProperBox dims) (r : List K)
    (hl : r.length = dims.length) (h : InUnit r) : InBox (decodeRatio dims r) dims := by
  induction r generalizing dims with
  | nil =>
    cases dims with
    | nil => exact List.Forall₂.nil
    | cons => simp at hl
  | cons v r ih =>
    cases dims with
    | nil => simp at hl
    | cons d dims =>
      have hd := sub_pos.2 (hp d List.mem_cons_self)
      simp only [decodeRatio, List.zipWith_cons_cons]
      obtain ⟨h0, h1⟩ := h v List.mem_cons_self
      refine List.Forall₂.cons ⟨?_, ?_⟩ (ih dims (fun e he => hp e (List.mem_cons_of_mem _ he))
        (by simpa using hl) fun w hw => h w (List.mem_cons_of_mem _ hw))
      · linarith [mul_nonneg h0 hd.le]
      · nlinarith [mul_le_mul_of_nonneg_right h1 hd.le]

/-- C34: the ratio codec is a bijection between the box and the unit cube which takes lower ends to 0
and upper ends to 1. -/
theorem C34_codec (dims : List (K × K)) (hp : ProperBox dims) :
    (∀ x, InBox x dims → (convertToRatio dims x).length = dims.length ∧
      InUnit (convertToRatio dims x) ∧ decodeRatio dims (convertToRatio dims x) = x) ∧
    (∀ r, r.length = dims.length → InUnit r → InBox (decodeRatio dims r) dims ∧
      convertToRatio dims (decodeRatio dims r) = r) ∧
    decodeRatio dims (dims.map fun _ => 0) = dims.map Prod.fst ∧
    decodeRatio dims (dims.map fun _ => 1) = dims.map Prod.snd := by
  refine ⟨fun x h => ⟨convert_length _ _ h.length_eq, convert_inUnit dims hp x h,
    decode_convert dims hp x h.length_eq⟩, fun r hl hu => ⟨decode_inBox dims hp r hl hu,
    convert_decode dims hp r hl⟩, ?_, ?_⟩
  · clear hp
    induction dims with
    | nil => rfl
    | cons d dims ih => simp only [decodeRatio] at ih; simp only [decodeRatio, List.map_cons,
        List.zipWith_cons_cons, ih]; simp
  · clear hp
    induction dims with
    | nil => rfl
    | cons d dims ih => simp only [decodeRatio] at ih; simp only [decodeRatio, List.map_cons,
        List.zipWith_cons_cons, ih]; simp

/-- A sorted sample of `k` positions of a list of length `n` -/
def IsSortedSample (n k : ℕ) (s : List ℕ) : Prop :=
  s.Pairwise (· < ·) ∧ s.length = k ∧ ∀ i ∈ s, i < n

theorem transposon_length (r : List K) (s : List ℕ) (h : ∀ i ∈ s, i < r.length) :
    (transposon r s).length = s.length := by
  induction s with
  | nil => rfl
  | cons i s ih =>
    have hi := h i List.mem_cons_self
    have := ih fun j hj => h j (List.mem_cons_of_mem _ hj)
    unfold transposon at this ⊢
    rw [List.filterMap_cons_some (List.getElem?_eq_getElem hi)]
    simp [this]

theorem transposon_subset (r : List K) (s : List ℕ) : ∀ v ∈ transposon r s, v ∈ r := by
  intro v hv
  obtain ⟨i, -, hi⟩ := List.mem_filterMap.1 hv
  exact List.mem_of_getElem? hi

/-- Deleting a sorted sample and collecting it splits the list. -/
theorem delete_transposon_perm (s : List ℕ) : ∀ (r : List K), s.Pairwise (· < ·) →
    (∀ i ∈ s, i < r.length) → (multiDelete r s ++ transposon r s).Perm r := by
  induction s using List.reverseRecOn with
  | nil => intro r _ _; simp [multiDelete, transposon]
  | append_singleton s i ih =>
    intro r hs hr
    rw [List.pairwise_append] at hs
    obtain ⟨hs1, -, hs2⟩ := hs
    have hi : i < r.length := hr i (by simp)
    have e1 : multiDelete r (s ++ [i]) = multiDelete (r.eraseIdx i) s := by
      simp [multiDelete]
    have e2 : transposon r (s ++ [i]) = transposon (r.eraseIdx i) s ++ [r[i]] := by
      unfold transposon
      rw [List.filterMap_append]
      congr 1
      · refine List.filterMap_congr fun j hj => ?_
        have hji : j < i := hs2 j hj i (by simp)
        simp [List.getElem?_eraseIdx, hji]
      · rw [List.filterMap_cons_some (List.getElem?_eq_getElem hi)]
        simp
    have hlen : (r.eraseIdx i).length = r.length - 1 := List.length_eraseIdx_of_lt hi
    have h := ih (r.eraseIdx i) hs1 fun j hj => by
      have : j < i := hs2 j hj i (by simp)
      omega
    rw [e1, e2, ← List.append_assoc]
    refine (h.append_right [r[i]]).trans ?_
    refine List.perm_append_comm.trans ?_
    exact List.getElem_cons_eraseIdx_perm hi

theorem insert_perm (l t : List K) (n : ℕ) : (l.take n ++ t ++ l.drop n).Perm (l ++ t) := by
  conv_rhs => rw [← List.take_append_drop n l]
  rw [List.append_assoc, List.append_assoc]
  exact List.Perm.append_left _ List.perm_append_comm

/-- C34: cut-and-paste conserves the genes of the pair: both results have full length and lie in the
box, and together they have exactly the (relative) genes of the two arguments. -/
theorem C34_cut_and_paste (dims : List (K × K)) (hp : ProperBox dims) (x y : List K)
    (hx : InBox x dims) (hy : InBox y dims) (k : ℕ) (d : PasteDraw)
    (h1 : IsSortedSample dims.length k d.xSample) (h2 : IsSortedSample dims.length k d.ySample) :
    InBox (cutAndPaste dims d x y).1 dims ∧ InBox (cutAndPaste dims d x y).2 dims ∧
      (convertToRatio dims (cutAndPaste dims d x y).1 ++
        convertToRatio dims (cutAndPaste dims d x y).2).Perm
        (convertToRatio dims x ++ convertToRatio dims y) := by
  have lx := convert_length dims x hx.length_eq
  have ly := convert_length dims y hy.length_eq
  have ux := convert_inUnit dims hp x hx
  have uy := convert_inUnit dims hp y hy
  unfold cutAndPaste
  simp only
  generalize convertToRatio dims x = xr at *
  generalize convertToRatio dims y = yr at *
  have px := delete_transposon_perm d.xSample xr h1.1 (by rw [lx]; exact h1.2.2)
  have py := delete_transposon_perm d.ySample yr h2.1 (by rw [ly]; exact h2.2.2)
  have tx := transposon_length xr d.xSample (by rw [lx]; exact h1.2.2)
  have ty := transposon_length yr d.ySample (by rw [ly]; exact h2.2.2)
  have q1 := insert_perm (multiDelete xr d.xSample) (transposon yr d.ySample) d.xPos
  have q2 := insert_perm (multiDelete yr d.ySample) (transposon xr d.xSample) d.yPos
  have l1 := q1.length_eq
  have l2 := q2.length_eq
  have l3 := px.length_eq
  have l4 := py.length_eq
  simp only [List.length_append] at l3 l4
  rw [h1.2.1] at tx
  rw [h2.2.1] at ty
  have sub : ∀ v ∈ multiDelete xr d.xSample ++ transposon xr d.xSample ++
      (multiDelete yr d.ySample ++ transposon yr d.ySample), 0 ≤ v ∧ v ≤ 1 := by
    intro v hv
    rcases List.mem_append.1 hv with hv | hv
    · exact ux v (px.mem_iff.1 hv)
    · exact uy v (py.mem_iff.1 hv)
  have len1 : ((multiDelete xr d.xSample).take d.xPos ++ transposon yr d.ySample ++
      (multiDelete xr d.xSample).drop d.xPos).length = dims.length := by
    rw [l1, List.length_append]; omega
  have len2 : ((multiDelete yr d.ySample).take d.yPos ++ transposon xr d.xSample ++
      (multiDelete yr d.ySample).drop d.yPos).length = dims.length := by
    rw [l2, List.length_append]; omega
  refine ⟨decode_inBox dims hp _ len1 fun v hv => ?_, decode_inBox dims hp _ len2 fun v hv => ?_, ?_⟩
  · refine sub v ?_
    have := q1.mem_iff.1 hv
    simp only [List.mem_append] at this ⊢
    tauto
  · refine sub v ?_
    have := q2.mem_iff.1 hv
    simp only [List.mem_append] at this ⊢
    tauto
  · rw [convert_decode dims hp _ len1, convert_decode dims hp _ len2]
    refine (q1.append q2).trans ?_
    refine List.Perm.trans ?_ (px.append py)
    rw [List.perm_iff_count]
    intro a
    simp only [List.count_append]
    omega

theorem paste_length (t : List K) : ∀ (x : List K) (pos : ℕ), (paste x t pos).length = x.length := by
  induction t with
  | nil => intro x pos; rfl
  | cons a t ih =>
    intro x pos
    rw [paste]
    split_ifs
    · simp
    · rw [ih]; simp

/-- `paste` writes the transposon from position `pos` on, cut off at the end. -/
theorem paste_get (t : List K) : ∀ (x : List K) (pos i : ℕ), i < x.length →
    (paste x t pos)[i]? = if pos ≤ i ∧ i - pos < t.length then t[i - pos]? else x[i]? := by
  induction t with
  | nil => intro x pos i _; simp [paste]
  | cons a t ih =>
    intro x pos i hi
    rw [paste]
    by_cases hp : x.length ≤ pos + 1
    · rw [if_pos hp, List.getElem?_set]
      by_cases h : pos = i
      · subst h; simp [hi]
      · rw [if_neg h, if_neg]
        intro h'
        omega
    · rw [if_neg hp, ih _ _ _ (by simpa using hi), List.getElem?_set]
      by_cases h : pos = i
      · subst h; simp [hi]
      · by_cases h1 : pos + 1 ≤ i ∧ i - (pos + 1) < t.length
        · rw [if_pos h1, if_pos (by simp only [List.length_cons]; omega)]
          obtain ⟨j, hj⟩ : ∃ j, i - pos = j + 1 := ⟨i - pos - 1, by omega⟩
          rw [hj, List.getElem?_cons_succ]
          congr 1
          omega
        · rw [if_neg h1, if_neg h, if_neg]
          simp only [List.length_cons]
          omega

theorem paste_mem (x t : List K) (pos : ℕ) : ∀ v ∈ paste x t pos, v ∈ x ∨ v ∈ t := by
  intro v hv
  obtain ⟨i, hi⟩ := List.mem_iff_getElem?.1 hv
  have hlt : i < x.length := by
    have := (List.getElem?_eq_some_iff.1 hi).1
    rwa [paste_length] at this
  rw [paste_get t x pos i hlt] at hi
  split_ifs at hi
  · exact Or.inr (List.mem_of_getElem? hi)
  · exact Or.inl (List.mem_of_getElem? hi)

/-- C34: copy-and-paste keeps lengths and the box; outside of the window of `k` places at the drawn
insertion point nothing changes, and in the window the (relative) genes sampled from the partner are
written in order. -/
theorem C34_copy_and_paste (dims : List (K × K)) (hp : ProperBox dims) (x y : List K)
    (hx : InBox x dims) (hy : InBox y dims) (k : ℕ) (d : PasteDraw)
    (h1 : IsSortedSample dims.length k d.xSample) (h2 : IsSortedSample dims.length k d.ySample) :
    InBox (copyAndPaste dims d x y).1 dims ∧ InBox (copyAndPaste dims d x y).2 dims ∧
      (∀ i < dims.length, (convertToRatio dims (copyAndPaste dims d x y).1)[i]? =
        if d.xPos ≤ i ∧ i - d.xPos < k then
          (d.ySample[i - d.xPos]?).bind fun j => (convertToRatio dims y)[j]?
        else (convertToRatio dims x)[i]?) ∧
      (∀ i < dims.length, (convertToRatio dims (copyAndPaste dims d x y).2)[i]? =
        if d.yPos ≤ i ∧ i - d.yPos < k then
          (d.xSample[i - d.yPos]?).bind fun j => (convertToRatio dims x)[j]?
        else (convertToRatio dims y)[i]?) := by
  have lx := convert_length dims x hx.length_eq
  have ly := convert_length dims y hy.length_eq
  have ux := convert_inUnit dims hp x hx
  have uy := convert_inUnit dims hp y hy
  unfold copyAndPaste
  simp only
  generalize convertToRatio dims x = xr at *
  generalize convertToRatio dims y = yr at *
  have trans_get : ∀ (r : List K) (s : List ℕ), (∀ i ∈ s, i < r.length) → ∀ n : ℕ,
      (transposon r s)[n]? = (s[n]?).bind fun j => r[j]? := by
    intro r s
    induction s with
    | nil => intro _ n; simp [transposon]
    | cons i s ih =>
      intro h n
      have hi := h i List.mem_cons_self
      have := ih fun j hj => h j (List.mem_cons_of_mem _ hj)
      unfold transposon at this ⊢
      rw [List.filterMap_cons_some (List.getElem?_eq_getElem hi)]
      cases n with
      | zero => simp [hi]
      | succ n => simpa using this n
  have main : ∀ (r r' : List K) (s : List ℕ) (pos : ℕ), r.length = dims.length →
      r'.length = dims.length → InUnit r → InUnit r' → IsSortedSample dims.length k s →
      InBox (decodeRatio dims (paste r (transposon r' s) pos)) dims ∧
      ∀ i < dims.length, (convertToRatio dims (decodeRatio dims
        (paste r (transposon r' s) pos)))[i]? =
        if pos ≤ i ∧ i - pos < k then (s[i - pos]?).bind fun j => r'[j]? else r[i]? := by
    intro r r' s pos lr lr' ur ur' hs
    have hl : (paste r (transposon r' s) pos).length = dims.length := by rw [paste_length, lr]
    refine ⟨decode_inBox dims hp _ hl fun v hv => ?_, fun i hi => ?_⟩
    · rcases paste_mem _ _ _ v hv with h | h
      · exact ur v h
      · exact ur' v (transposon_subset _ _ v h)
    · rw [convert_decode dims hp _ hl, paste_get _ _ _ _ (by rw [lr]; exact hi),
        transposon_length _ _ (by rw [lr']; exact hs.2.2), hs.2.1,
        trans_get _ _ (by rw [lr']; exact hs.2.2)]
  obtain ⟨a1, a2⟩ := main xr yr d.ySample d.xPos lx ly ux uy h2
  obtain ⟨b1, b2⟩ := main yr xr d.xSample d.yPos ly lx uy ux h1
  exact ⟨a1, b1, a2, b2⟩

/-- Valid draws of one call: samples of `k` of `n` positions. -/
def PasteDraw.Ok (n k : ℕ) (d : PasteDraw) : Prop :=
  IsSortedSample n k d.xSample ∧ IsSortedSample n k d.ySample

/-- Valid draws for one jumping individual with `m` possible mates. -/
def JumpDraw.Ok (n k m : ℕ) (d : JumpDraw) : Prop :=
  d.cutSelf.Ok n k ∧ d.copySelf.Ok n k ∧ d.cut.Ok n k ∧ d.copy.Ok n k ∧ d.mateCut < m ∧ d.mateCopy < m

/-- C34: jumping creates six children per jumping individual, all of them inside the box. -/
theorem C34_jump_genes (dims : List (K × K)) (hp : ProperBox dims) (k : ℕ)
    (nondominated : List (List K)) (hnd : ∀ v ∈ nondominated, InBox v dims)
    (pop : List (List K)) (hpop : ∀ v ∈ pop, InBox v dims) (draws : List (Option JumpDraw))
    (hlen : draws.length = pop.length)
    (hd : ∀ d, some d ∈ draws → d.Ok dims.length k nondominated.length) :
    ∃ children, jumpGenes dims nondominated pop draws = some children ∧
      children.length = 6 * (draws.countP fun d => d.isSome) ∧ ∀ v ∈ children, InBox v dims := by
  induction pop generalizing draws with
  | nil =>
    obtain rfl : draws = [] := by simpa using hlen
    exact ⟨[], by simp [jumpGenes], by simp, by simp⟩
  | cons v pop ih =>
    cases draws with
    | nil => simp at hlen
    | cons d draws =>
      obtain ⟨cs, e, l, b⟩ := ih (fun w hw => hpop w (List.mem_cons_of_mem _ hw)) draws
        (by simpa using hlen) fun d hd' => hd d (List.mem_cons_of_mem _ hd')
      cases d with
      | none => exact ⟨cs, by simpa [jumpGenes] using e, by simpa using l, b⟩
      | some d =>
        obtain ⟨o1, o2, o3, o4, m1, m2⟩ := hd d List.mem_cons_self
        have hv := hpop v List.mem_cons_self
        have hm1 := hnd _ (List.getElem_mem m1)
        have hm2 := hnd _ (List.getElem_mem m2)
        obtain ⟨-, a1, -⟩ := C34_cut_and_paste dims hp v v hv hv k d.cutSelf o1.1 o1.2
        obtain ⟨-, a2, -⟩ := C34_copy_and_paste dims hp v v hv hv k d.copySelf o2.1 o2.2
        obtain ⟨a3, a4, -⟩ := C34_cut_and_paste dims hp v _ hv hm1 k d.cut o3.1 o3.2
        obtain ⟨a5, a6, -⟩ := C34_copy_and_paste dims hp v _ hv hm2 k d.copy o4.1 o4.2
        obtain ⟨c, ec, lc, bc⟩ : ∃ c, jumpOne dims nondominated d v = some c ∧ c.length = 6 ∧
            ∀ w ∈ c, InBox w dims := by
          rw [jumpOne, List.getElem?_eq_getElem m1, List.getElem?_eq_getElem m2]
          refine ⟨_, rfl, rfl, ?_⟩
          intro w hw
          simp only [List.mem_cons, List.not_mem_nil, or_false] at hw
          rcases hw with rfl | rfl | rfl | rfl | rfl | rfl <;> assumption
        refine ⟨c ++ cs, ?_, ?_, ?_⟩
        · rw [jumpGenes, e, ec]
        · simp [l, lc]; omega
        · intro w hw
          rcases List.mem_append.1 hw with hw | hw
          · exact bc w hw
          · exact b w hw

/-- C34: which six children one jumping individual gets. The first two come from jumping within
`v`; the third and fourth together have exactly the genes of `v` and of one nondominated mate, so no
gene of the pair is lost; the fifth is `v` and the sixth is the second mate, each outside of its window
of `k` places. -/
theorem C34_children (dims : List (K × K)) (hp : ProperBox dims) (k : ℕ)
    (nondominated : List (List K)) (hnd : ∀ v ∈ nondominated, InBox v dims) (v : List K)
    (hv : InBox v dims) (d : JumpDraw) (hd : d.Ok dims.length k nondominated.length) :
    ∃ a b c₁ c₂ p₁ p₂ m₁ m₂, jumpOne dims nondominated d v = some [a, b, c₁, c₂, p₁, p₂] ∧
      m₁ ∈ nondominated ∧ m₂ ∈ nondominated ∧
      (∀ g ∈ convertToRatio dims a, g ∈ convertToRatio dims v) ∧
      (∀ i < dims.length, ¬(d.copySelf.yPos ≤ i ∧ i - d.copySelf.yPos < k) →
        (convertToRatio dims b)[i]? = (convertToRatio dims v)[i]?) ∧
      (convertToRatio dims c₁ ++ convertToRatio dims c₂).Perm
        (convertToRatio dims v ++ convertToRatio dims m₁) ∧
      (∀ i < dims.length, ¬(d.copy.xPos ≤ i ∧ i - d.copy.xPos < k) →
        (convertToRatio dims p₁)[i]? = (convertToRatio dims v)[i]?) ∧
      (∀ i < dims.length, ¬(d.copy.yPos ≤ i ∧ i - d.copy.yPos < k) →
        (convertToRatio dims p₂)[i]? = (convertToRatio dims m₂)[i]?) := by
  obtain ⟨o1, o2, o3, o4, m1, m2⟩ := hd
  have hm1 := hnd _ (List.getElem_mem m1)
  have hm2 := hnd _ (List.getElem_mem m2)
  obtain ⟨-, -, a1⟩ := C34_cut_and_paste dims hp v v hv hv k d.cutSelf o1.1 o1.2
  obtain ⟨-, -, -, a2⟩ := C34_copy_and_paste dims hp v v hv hv k d.copySelf o2.1 o2.2
  obtain ⟨-, -, a3⟩ := C34_cut_and_paste dims hp v _ hv hm1 k d.cut o3.1 o3.2
  obtain ⟨-, -, a5, a6⟩ := C34_copy_and_paste dims hp v _ hv hm2 k d.copy o4.1 o4.2
  have e : jumpOne dims nondominated d v = some [(cutAndPaste dims d.cutSelf v v).2,
      (copyAndPaste dims d.copySelf v v).2, (cutAndPaste dims d.cut v nondominated[d.mateCut]).1,
      (cutAndPaste dims d.cut v nondominated[d.mateCut]).2,
      (copyAndPaste dims d.copy v nondominated[d.mateCopy]).1,
      (copyAndPaste dims d.copy v nondominated[d.mateCopy]).2] := by
    rw [jumpOne, List.getElem?_eq_getElem m1, List.getElem?_eq_getElem m2]
  refine ⟨_, _, _, _, _, _, nondominated[d.mateCut], nondominated[d.mateCopy], e,
    List.getElem_mem _, List.getElem_mem _, ?_, ?_, a3, ?_, ?_⟩
  · intro g hg
    have := a1.mem_iff.1 (List.mem_append_right _ hg)
    simpa using this
  · intro i hi hw
    rw [a2 i hi, if_neg hw]
  · intro i hi hw
    rw [a5 i hi, if_neg hw]
  · intro i hi hw
    rw [a6 i hi, if_neg hw]

/-! ## C76 -/

variable {ι : Type*} [DecidableEq ι]

/-- C76: a JGBL step always succeeds as long as jumping succeeds when there are mates (there always
are); no objective's best value is lost; afterwards the population has the nominal size or the nominal
size plus the offspring of the inner step. -/
theorem C76_step (iter : List ι → List ι) (hiter : ∀ l, (iter l).Perm l) {eps : K} (heps : 0 < eps)
    (objs : List (ι → K)) (size : ℕ) (h1 : 1 ≤ size) (hm : objs.length ≤ size)
    (jump : List ι → List ι → Option (List ι)) (jmax : ℕ)
    (hjump : ∀ sel nd, nd ≠ [] → sel.length = size → ∃ j, jump sel nd = some j ∧ j.length ≤ jmax)
    (pop offspring : List ι) (hp : (pop ++ offspring).Nodup) (hsize : size ≤ pop.length) (fuel : ℕ)
    (hf : pop.length + offspring.length + size + jmax ≤ fuel) :
    ∃ final, step iter fuel eps objs size jump pop offspring = some final ∧
      (∀ x ∈ pop ++ offspring, ∀ o ∈ objs, ∃ y ∈ final, o y ≤ o x) ∧
      (final.length = size ∨ final.length = size + offspring.length) := by
  have hpop : pop.Nodup := (List.nodup_append.1 hp).1
  obtain ⟨kept, e1, b1⟩ := Nsgaii.C62_best_value_kept iter hiter heps objs size h1 hm pop hpop fuel
    (by omega)
  obtain ⟨kept', lost, e1', l1, p1, -⟩ := Nsgaii.C23_elitist iter hiter eps objs size pop hpop fuel
    (by omega)
  obtain rfl : kept = kept' := Option.some.inj (e1.symm.trans e1')
  have hkeptsub : ∀ x ∈ kept, x ∈ pop := fun x hx => p1.mem_iff.1 (List.mem_append_left _ hx)
  have hnew : Nsgaii.step iter fuel eps objs size pop offspring = some (kept ++ offspring) := by
    unfold Nsgaii.step; rw [e1]
  have hun : (asSet iter (pop ++ (kept ++ offspring))).Nodup :=
    (hiter _).nodup_iff.2 (List.nodup_dedup _)
  have hmem : ∀ x, x ∈ asSet iter (pop ++ (kept ++ offspring)) ↔ x ∈ pop ++ offspring := by
    intro x
    rw [asSet, (hiter _).mem_iff, List.mem_dedup]
    simp only [List.mem_append]
    have := hkeptsub x
    tauto
  have hulen : (asSet iter (pop ++ (kept ++ offspring))).length = pop.length + offspring.length := by
    rw [← List.length_append]
    exact ((List.perm_ext_iff_of_nodup hun hp).2 hmem).length_eq
  have hnewlen : (kept ++ offspring).length = size + offspring.length := by
    rw [List.length_append, l1]; omega
  unfold step
  rw [hnew]
  simp only
  generalize asSet iter (pop ++ (kept ++ offspring)) = U at *
  have hd : ∀ x ∈ U, (objs.map fun o => o x).length = objs.length := by simp
  obtain ⟨L, hL⟩ := (C05_nsgaii_sorts_by_rank iter hiter objs.length
    (fun x => objs.map fun o => o x) U hun hd).1 fuel (by omega)
  simp only at hL
  obtain ⟨sel, es, bs⟩ := Nsgaii.C62_best_value_kept iter hiter heps objs size h1 hm U hun fuel
    (by omega)
  obtain ⟨sel', lost', es', ls, ps, -⟩ := Nsgaii.C23_elitist iter hiter eps objs size U hun fuel
    (by omega)
  obtain rfl : sel = sel' := Option.some.inj (es.symm.trans es')
  have hsel : Nsgaii.environmentalSelection eps L (Nsgaii.crowding eps objs L) size U = sel := by
    unfold Nsgaii.select at es
    rw [hL] at es
    exact Option.some.inj es
  have hsl : sel.length = size := by rw [ls, hulen]; omega
  rw [hL]
  simp only
  rw [hsel]
  by_cases hlt : sel.length < (L.headD []).length
  · rw [if_pos hlt]
    have hne : (L.headD []).filter (fun n => n ∉ sel) ≠ [] := by
      intro h
      have hsub : ∀ x ∈ L.headD [], x ∈ sel := by
        intro x hx
        by_contra hxs
        have : x ∈ (L.headD []).filter (fun n => n ∉ sel) := by
          rw [List.mem_filter]; exact ⟨hx, by simpa using hxs⟩
        rw [h] at this
        simp at this
      have hperm := ((C05_nsgaii_sorts_by_rank iter hiter objs.length
        (fun x => objs.map fun o => o x) U hun hd).2 fuel L hL).1
      have hLn : L.flatten.Nodup := hperm.nodup_iff.2 hun
      have hhn : (L.headD []).Nodup := by
        cases L with
        | nil => simp
        | cons f L =>
          simp only [List.flatten_cons] at hLn
          exact (List.nodup_append.1 hLn).1
      have := (List.subperm_of_subset hhn hsub).length_le
      omega
    obtain ⟨J, eJ, lJ⟩ := hjump sel _ hne hsl
    rw [eJ]
    simp only
    have hn2 : (asSet iter (sel ++ J)).Nodup := (hiter _).nodup_iff.2 (List.nodup_dedup _)
    have hm2 : ∀ x, x ∈ asSet iter (sel ++ J) ↔ x ∈ sel ++ J := by
      intro x; rw [asSet, (hiter _).mem_iff, List.mem_dedup]
    have hl2 : (asSet iter (sel ++ J)).length ≤ size + jmax := by
      rw [asSet, (hiter _).length_eq]
      have := (List.dedup_sublist (sel ++ J)).length_le
      rw [List.length_append] at this
      omega
    have hl3 : size ≤ (asSet iter (sel ++ J)).length := by
      have hsn : sel.Nodup := (List.nodup_append.1 (ps.nodup_iff.2 hun)).1
      have := (List.subperm_of_subset hsn
        (fun x hx => (hm2 x).2 (List.mem_append_left J hx))).length_le
      omega
    obtain ⟨fin, ef, bf⟩ := Nsgaii.C62_best_value_kept iter hiter heps objs size h1 hm _ hn2 fuel
      (by omega)
    obtain ⟨fin', _, ef', lf, -, -⟩ := Nsgaii.C23_elitist iter hiter eps objs size _ hn2 fuel
      (by omega)
    obtain rfl : fin = fin' := Option.some.inj (ef.symm.trans ef')
    refine ⟨fin, ef, ?_, Or.inl (by rw [lf]; omega)⟩
    intro x hx o ho
    obtain ⟨y, hy, hyx⟩ := bs x ((hmem x).2 hx) o ho
    obtain ⟨z, hz, hzy⟩ := bf y ((hm2 y).2 (List.mem_append_left _ hy)) o ho
    exact ⟨z, hz, hzy.trans hyx⟩
  · rw [if_neg hlt]
    refine ⟨kept ++ offspring, rfl, ?_, Or.inr hnewlen⟩
    intro x hx o ho
    rcases List.mem_append.1 hx with hx | hx
    · obtain ⟨y, hy, hyx⟩ := b1 x hx o ho
      exact ⟨y, List.mem_append_left _ hy, hyx⟩
    · exact ⟨x, List.mem_append_right _ hx, le_rfl⟩

/-- Cut-and-paste on two chromosomes with three genes: the first and third gene of one parent and the
second and third of the other are exchanged. -/
example : cutAndPaste ([(0, 10), (0, 10), (0, 10)] : List (ℚ × ℚ)) ⟨[0, 2], [1, 2], 1, 0⟩ [1, 2, 3]
    [4, 5, 6] = ([2, 5, 6], [1, 3, 4]) := by decide +kernel

/-- Copy-and-paste: the window is cut off at the end of the chromosome. -/
example : copyAndPaste ([(0, 10), (0, 10), (0, 10)] : List (ℚ × ℚ)) ⟨[0, 2], [1, 2], 2, 0⟩ [1, 2, 3]
    [4, 5, 6] = ([1, 2, 5], [1, 3, 6]) := by decide +kernel

/-- Three incomparable candidates, one place each, one objective pair: the jump branch is taken. -/
example : step (fun l : List ℕ => l) 10 (1 / 100 : ℚ) [fun x => (x : ℚ), fun x => 10 - (x : ℚ)] 2
    (fun _ _ => some [9]) [1, 2, 3] [4] = some [1, 9] := by decide +kernel

end Evogil.Jgbl
