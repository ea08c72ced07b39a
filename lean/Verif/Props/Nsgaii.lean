import Verif.Lemmas.Nsgaii

/-! # C23, C60, C62: NSGA-II selection -/

namespace Evogil.Nsgaii
open Spec

variable {ι K : Type*} [DecidableEq ι] [Field K] [LinearOrder K]

/-- Dominance of individuals through their objective functions. -/
def Dom (objs : List (ι → K)) (x y : ι) : Prop :=
  LDom (objs.map fun o => o x) (objs.map fun o => o y)

omit [DecidableEq ι] [Field K] in
theorem LDom_map_le {objs : List (ι → K)} {x y : ι}
    (h : LDom (objs.map fun o => o x) (objs.map fun o => o y)) (i : ℕ) (hi : i < objs.length) :
    objs[i] x ≤ objs[i] y := by
  have := h.2.1 i (by simpa using hi) (by simpa using hi)
  simpa using this

/-! ## C23 -/

/-- **C23.** The selection succeeds; it returns `min size (number of candidates)` individuals, and
together with the discarded ones these are the candidates. No discarded candidate has a smaller
non-domination rank than a kept one. -/
theorem C23_elitist (iter : List ι → List ι) (hiter : ∀ l, (iter l).Perm l) (eps : K)
    (objs : List (ι → K)) (size : ℕ) (pop : List ι) (hp : pop.Nodup) (fuel : ℕ)
    (hf : pop.length ≤ fuel) :
    ∃ kept lost, select iter fuel eps objs size pop = some kept ∧
      kept.length = min size pop.length ∧ (kept ++ lost).Perm pop ∧
      ∀ x ∈ kept, ∀ y ∈ lost, ∀ k j, IsRank (Dom objs) pop x k → IsRank (Dom objs) pop y j →
        k ≤ j := by
  have hd : ∀ x ∈ pop, (objs.map fun o => o x).length = objs.length := by simp
  obtain ⟨L, hL⟩ := (C05_nsgaii_sorts_by_rank iter hiter objs.length
    (fun x => objs.map fun o => o x) pop hp hd).1 fuel hf
  refine ⟨_, (pySorted (fitnessKey eps L (crowding eps objs L)) pop).drop size,
    by unfold select; simp only at hL; rw [hL], ?_, ?_, ?_⟩
  · rw [environmentalSelection, List.length_take, pySorted_length]
  · exact pySorted_take_drop _ _ _
  · intro x hx y hy k j hk hj
    have hxp : x ∈ pop := (mem_pySorted _).1 (List.mem_of_mem_take hx)
    have hyp : y ∈ pop := (mem_pySorted _).1 (List.mem_of_mem_drop hy)
    have h1 := (C05_nsga_rank iter hiter objs.length _ pop hp hd fuel L hL x hxp k).2 hk
    have h2 := (C05_nsga_rank iter hiter objs.length _ pop hp hd fuel L hL y hyp j).2 hj
    have := pySorted_take_le _ hx hy
    have := (Prod.Lex.toLex_le_toLex.1 this)
    simp only [h1, h2] at this
    omega

/-- **C23.** If the non-dominated candidates fit, all of them survive. -/
theorem C23_nondominated_survive (iter : List ι → List ι) (hiter : ∀ l, (iter l).Perm l) (eps : K)
    (objs : List (ι → K)) (size : ℕ) (pop : List ι) (hp : pop.Nodup) (fuel : ℕ) (kept : List ι)
    (hf : pop.length ≤ fuel) (h : select iter fuel eps objs size pop = some kept)
    (front : List ι)
    (hfront : ∀ x, x ∈ front ↔ x ∈ pop ∧ ∀ y ∈ pop, ¬ Dom objs y x)
    (hsize : front.length ≤ size) : ∀ x ∈ front, x ∈ kept := by
  obtain ⟨kept', lost, e, hlen, hperm, hrank⟩ := C23_elitist iter hiter eps objs size pop hp fuel hf
  obtain rfl : kept = kept' := Option.some.inj (h.symm.trans e)
  intro x hx
  by_contra hnot
  have hxp := ((hfront x).1 hx).1
  have hxl : x ∈ lost := by
    rcases List.mem_append.1 (hperm.mem_iff.2 hxp) with h | h
    · exact absurd h hnot
    · exact h
  have rank0 : ∀ y, y ∈ front ↔ IsRank (Dom objs) pop y 0 := by
    intro y
    rw [hfront]
    unfold IsRank
    simp only [HasChain]
    constructor
    · rintro ⟨h1, h2⟩
      exact ⟨h1, fun ⟨_, z, hz, hzp⟩ => h2 z hzp hz⟩
    · rintro ⟨h1, h2⟩
      exact ⟨h1, fun z hzp hz => h2 ⟨h1, z, hz, hzp⟩⟩
  have hd : ∀ x ∈ pop, (objs.map fun o => o x).length = objs.length := by simp
  obtain ⟨L, hL⟩ := (C05_nsgaii_sorts_by_rank iter hiter objs.length
    (fun x => objs.map fun o => o x) pop hp hd).1 fuel hf
  have hex : ∀ y ∈ pop, ∃ k, IsRank (Dom objs) pop y k := by
    intro y hy
    obtain ⟨hpf, -, hr⟩ := (C05_nsgaii_sorts_by_rank iter hiter objs.length
      (fun x => objs.map fun o => o x) pop hp hd).2 fuel L hL
    have := hpf.mem_iff.2 hy
    rw [List.mem_flatten] at this
    obtain ⟨l, hl, hyl⟩ := this
    obtain ⟨k, hk⟩ := List.getElem?_of_mem hl
    exact ⟨k, (hr k y).1 ⟨l, hk, hyl⟩⟩
  have hsub : ∀ y ∈ kept, y ∈ front := by
    intro y hy
    obtain ⟨k, hk⟩ := hex y (hperm.mem_iff.1 (List.mem_append_left _ hy))
    have := hrank y hy x hxl k 0 hk ((rank0 x).1 hx)
    rw [rank0]
    obtain rfl : k = 0 := by omega
    exact hk
  have hnd : (x :: kept).Nodup := by
    refine List.nodup_cons.2 ⟨hnot, ?_⟩
    have := hperm.nodup_iff.2 hp
    exact (List.nodup_append.1 this).1
  have hle : (x :: kept).length ≤ front.length := by
    apply List.Subperm.length_le
    apply List.subperm_of_subset hnd
    intro y hy
    rcases List.mem_cons.1 hy with rfl | hy
    · exact hx
    · exact hsub y hy
  have hlost : 0 < lost.length := List.length_pos_iff.2 (List.ne_nil_of_mem hxl)
  have := hperm.length_eq
  simp only [List.length_append, List.length_cons] at this hle
  omega

/-- Five individuals with two non-dominated ones, three places. -/
example : select id 5 (1/1000 : ℚ) [fun i : ℕ => ([3, 1, 2, 4, 5][i]?).getD 0,
    fun i : ℕ => ([3, 2, 1, 4, 5][i]?).getD 0] 3 [0, 1, 2, 3, 4] = some [1, 2, 0] := by
  decide +kernel

/-! ## C60 -/

/-- **C60.** The distances are non-negative, and in each front with at least two members there is,
for each objective, a member with the smallest value whose distance is infinite; nobody else has an
infinite distance. -/
theorem C60_extremes [IsStrictOrderedRing K] {eps : K} (heps : 0 < eps) (objs : List (ι → K))
    (fronts : List (List ι)) (hnd : fronts.flatten.Nodup) :
    (∀ x, 0 ≤ crowding eps objs fronts x) ∧
      ∀ f ∈ fronts, 2 ≤ f.length →
        ∃ ms, List.Forall₂ (fun o m => m ∈ f ∧ ∀ y ∈ f, o m ≤ o y) objs ms ∧
          ∀ x ∈ f, crowding eps objs fronts x = ⊤ ↔ x ∈ ms := by
  obtain ⟨h1, h2⟩ := crowding_spec heps objs fronts hnd
  exact ⟨h2, fun f hf => (h1 f hf).1⟩

/-- **C60.** A member of a front that is strictly better in one objective than all other members
gets an infinite distance. -/
theorem C60_strict_minimum [IsStrictOrderedRing K] {eps : K} (heps : 0 < eps)
    (objs : List (ι → K)) (fronts : List (List ι)) (hnd : fronts.flatten.Nodup) (f : List ι)
    (hf : f ∈ fronts) (hlen : 2 ≤ f.length) (o : ι → K) (ho : o ∈ objs) (x : ι) (hx : x ∈ f)
    (hmin : ∀ y ∈ f, y ≠ x → o x < o y) : crowding eps objs fronts x = ⊤ := by
  obtain ⟨ms, hms, htop⟩ := (C60_extremes heps objs fronts hnd).2 f hf hlen
  rw [htop x hx]
  obtain ⟨i, hi, rfl⟩ := List.getElem_of_mem ho
  have hi' : i < ms.length := by rw [← hms.length_eq]; exact hi
  obtain ⟨h1, h2⟩ := (List.forall₂_iff_get.1 hms).2 i hi hi'
  simp only [List.get_eq_getElem] at h1 h2
  by_contra hne
  have hneq : ms[i] ≠ x := fun h => hne (h ▸ List.getElem_mem hi')
  exact absurd (h2 x hx) (not_le.2 (hmin _ h1 hneq))

/-- **C60.** Inside one front the selection prefers larger distances: a member of smaller distance
is never kept at the expense of one with a larger distance; in particular a boundary point is
preferred over every interior point. -/
theorem C60_prefers_distance [IsStrictOrderedRing K] {eps : K} (heps : 0 < eps)
    (objs : List (ι → K)) (fronts : List (List ι)) (hnd : fronts.flatten.Nodup) (size : ℕ)
    (pop : List ι) (x y : ι) (hxp : x ∈ pop)
    (hr : nsgaRank fronts x = nsgaRank fronts y)
    (hxy : crowding eps objs fronts y < crowding eps objs fronts x)
    (hy : y ∈ environmentalSelection eps fronts (crowding eps objs fronts) size pop) :
    x ∈ environmentalSelection eps fronts (crowding eps objs fronts) size pop := by
  by_contra hx
  have hnn := (crowding_spec heps objs fronts hnd).2
  have hxd : x ∈ (pySorted (fitnessKey eps fronts (crowding eps objs fronts)) pop).drop size := by
    have := (pySorted_take_drop (fitnessKey eps fronts (crowding eps objs fronts)) pop
      size).mem_iff.2 hxp
    exact (List.mem_append.1 this).resolve_left hx
  have h := Prod.Lex.toLex_le_toLex.1 (pySorted_take_le _ hy hxd)
  simp only [hr, lt_self_iff_false, false_or, true_and] at h
  exact absurd ((invDist_anti heps (hnn y) (hnn x)).1 h) (not_le.2 hxy)

/-- The member with the largest value is not protected (the assignment of an infinite distance to
`inds[-1]` is commented out in line 154). -/
example : crowding (1 : ℚ) [fun i : ℕ => (i : ℚ)] [[0, 1, 2]] 2 = ((2/3 : ℚ) : WithTop ℚ) := by
  decide +kernel

/-! ## C62 -/

omit [DecidableEq ι] in
theorem exists_rank_zero (dom : ι → ι → Prop) (S : List ι) (P : ι → ι → Prop)
    (hrefl : ∀ x, P x x) (hstep : ∀ x y z, P x y → dom y z → P x z) (k : ℕ) :
    ∀ x, IsRank dom S x k → ∃ y, IsRank dom S y 0 ∧ P y x := by
  induction k with
  | zero => intro x h; exact ⟨x, h, hrefl x⟩
  | succ k ih =>
    rintro x ⟨⟨hx, y, hy, hc⟩, hn⟩
    obtain ⟨z, hz, hp⟩ := ih y ⟨hc, fun h => hn ⟨hx, y, hy, h⟩⟩
    exact ⟨z, hz, hstep z y x hp hy⟩

/-- **C62.** If there are at least as many places as objectives, the best value of every objective
survives the selection: for every candidate and every objective, some kept individual is at least as
good in that objective. -/
theorem C62_best_value_kept [IsStrictOrderedRing K] (iter : List ι → List ι)
    (hiter : ∀ l, (iter l).Perm l) {eps : K} (heps : 0 < eps) (objs : List (ι → K)) (size : ℕ)
    (h1 : 1 ≤ size) (hm : objs.length ≤ size) (pop : List ι) (hp : pop.Nodup) (fuel : ℕ)
    (hf : pop.length ≤ fuel) :
    ∃ kept, select iter fuel eps objs size pop = some kept ∧
      ∀ x ∈ pop, ∀ o ∈ objs, ∃ y ∈ kept, o y ≤ o x := by
  have hd : ∀ x ∈ pop, (objs.map fun o => o x).length = objs.length := by simp
  have hsort := C05_nsgaii_sorts_by_rank iter hiter objs.length
    (fun x => objs.map fun o => o x) pop hp hd
  obtain ⟨L, hL⟩ := hsort.1 fuel hf
  obtain ⟨hperm, -, hrank⟩ := hsort.2 fuel L hL
  have hnr := C05_nsga_rank iter hiter objs.length (fun x => objs.map fun o => o x) pop hp hd
    fuel L hL
  refine ⟨_, by unfold select; simp only at hL; rw [hL], ?_⟩
  intro x hx o ho
  have hLnd : L.flatten.Nodup := hperm.nodup_iff.2 hp
  obtain ⟨hfd, hnn⟩ := crowding_spec heps objs L hLnd
  set dist := crowding eps objs L with hdist
  set s := pySorted (fitnessKey eps L dist) pop with hs
  change ∃ y ∈ s.take size, _
  -- a non-dominated candidate at least as good as `x`
  obtain ⟨k, hk⟩ : ∃ k, IsRank (Dom objs) pop x k := by
    have := hperm.mem_iff.2 hx
    rw [List.mem_flatten] at this
    obtain ⟨l, hl, hyl⟩ := this
    obtain ⟨k, hk⟩ := List.getElem?_of_mem hl
    exact ⟨k, (hrank k x).1 ⟨l, hk, hyl⟩⟩
  obtain ⟨x', hx'0, hx'o⟩ := exists_rank_zero (Dom objs) pop (fun a b => o a ≤ o b)
    (fun _ => le_rfl) (by
      intro a b c hab hbc
      refine hab.trans ?_
      obtain ⟨i, hi, rfl⟩ := List.getElem_of_mem ho
      exact LDom_map_le hbc i hi) k x hk
  obtain ⟨f, hf0, hx'f⟩ := (hrank 0 x').2 hx'0
  have hfL : f ∈ L := List.mem_of_getElem? hf0
  have hmemf : ∀ y, y ∈ pop → nsgaRank L y ≤ 1 → y ∈ f := by
    intro y hy hle
    have hy' : ∃ j, IsRank (Dom objs) pop y j := by
      have := hperm.mem_iff.2 hy
      rw [List.mem_flatten] at this
      obtain ⟨l, hl, hyl⟩ := this
      obtain ⟨k, hk⟩ := List.getElem?_of_mem hl
      exact ⟨k, (hrank k y).1 ⟨l, hk, hyl⟩⟩
    obtain ⟨j, hj⟩ := hy'
    have := (hnr y hy j).2 hj
    obtain rfl : j = 0 := by omega
    obtain ⟨f', hf', hyf'⟩ := (hrank 0 y).2 hj
    rw [hf0] at hf'
    obtain rfl := Option.some.inj hf'
    exact hyf'
  have hrank1 : ∀ y ∈ f, nsgaRank L y = 1 ∧ y ∈ pop := by
    intro y hy
    have h0 := (hrank 0 y).1 ⟨f, hf0, hy⟩
    have hyp : y ∈ pop := h0.1
    exact ⟨(hnr y hyp 0).2 h0, hyp⟩
  have hkey : ∀ y z, y ∈ s.take size → z ∈ s.drop size →
      nsgaRank L y < nsgaRank L z ∨
        nsgaRank L y = nsgaRank L z ∧ invDist eps (dist y) ≤ invDist eps (dist z) := by
    intro y z hy hz
    exact Prod.Lex.toLex_le_toLex.1 (pySorted_take_le _ hy hz)
  have hspl : ∀ z ∈ pop, z ∉ s.take size → z ∈ s.drop size := by
    intro z hz hn
    have := (pySorted_take_drop (fitnessKey eps L dist) pop size).mem_iff.2 hz
    exact (List.mem_append.1 this).resolve_left hn
  have htp : ∀ z ∈ s.take size, z ∈ pop := fun z hz =>
    (mem_pySorted _).1 (List.mem_of_mem_take hz)
  have hsnd : s.Nodup := (pySorted_perm _ pop).nodup_iff.2 hp
  by_cases hlen : 2 ≤ f.length
  · obtain ⟨ms, hms, htop⟩ := (hfd f hfL).1 hlen
    obtain ⟨i, hi, rfl⟩ := List.getElem_of_mem ho
    have hi' : i < ms.length := by rw [← hms.length_eq]; exact hi
    obtain ⟨g1, g2⟩ := (List.forall₂_iff_get.1 hms).2 i hi hi'
    simp only [List.get_eq_getElem] at g1 g2
    refine ⟨ms[i], ?_, (g2 x' hx'f).trans hx'o⟩
    by_contra hnot
    have hdrop := hspl _ (hrank1 _ g1).2 hnot
    have hmtop : dist ms[i] = ⊤ := (htop _ g1).2 (List.getElem_mem hi')
    have hall : ∀ y ∈ s.take size, y ∈ ms := by
      intro y hy
      have h := hkey y _ hy hdrop
      rw [(hrank1 _ g1).1, hmtop, invDist_top] at h
      have hyf : y ∈ f := hmemf y (htp y hy) (by omega)
      have h2 : invDist eps (dist y) ≤ 0 := by
        rcases h with h | h
        · have := (hrank1 y hyf).1; omega
        · exact h.2
      rw [← htop y hyf]
      by_contra hne
      exact absurd (invDist_pos heps (hnn y) hne) (not_lt.2 h2)
    have hnd' : (ms[i] :: s.take size).Nodup :=
      List.nodup_cons.2 ⟨hnot, hsnd.sublist (List.take_sublist _ _)⟩
    have hle : (ms[i] :: s.take size).length ≤ ms.length := by
      apply List.Subperm.length_le
      apply List.subperm_of_subset hnd'
      intro y hy
      rcases List.mem_cons.1 hy with rfl | hy
      · exact List.getElem_mem hi'
      · exact hall y hy
    have hdl : 0 < (s.drop size).length := List.length_pos_iff.2 (List.ne_nil_of_mem hdrop)
    rw [List.length_drop] at hdl
    rw [List.length_cons, List.length_take, ← hms.length_eq] at hle
    omega
  · -- a single non-dominated individual
    have hfx : f = [x'] := by
      match f, hx'f, hlen with
      | [a], h, _ => simp at h; simp [h]
      | a :: b :: r, _, h => simp at h
    refine ⟨x', ?_, hx'o⟩
    by_contra hnot
    have hdrop := hspl _ (hrank1 _ hx'f).2 hnot
    have hdl : 0 < (s.drop size).length := List.length_pos_iff.2 (List.ne_nil_of_mem hdrop)
    rw [List.length_drop] at hdl
    have hpos : 0 < (s.take size).length := by rw [List.length_take]; omega
    have hy : (s.take size)[0] ∈ s.take size := List.getElem_mem hpos
    have h := hkey _ _ hy hdrop
    rw [(hrank1 _ hx'f).1] at h
    have hyf := hmemf _ (htp _ hy) (by omega)
    rw [hfx] at hyf
    rw [List.mem_singleton.1 hyf] at hy
    exact hnot hy

/-- **C62.** Over any number of steps the best value found so far in any objective is never lost:
for every individual that was ever in the population some current one is at least as good in that
objective. The population has, from the first step on, the configured size plus the offspring. -/
theorem C62_run [IsStrictOrderedRing K] (iter : List ι → List ι)
    (hiter : ∀ l, (iter l).Perm l) {eps : K} (heps : 0 < eps) (objs : List (ι → K)) (size : ℕ)
    (h1 : 1 ≤ size) (hm : objs.length ≤ size) (fuel : ℕ) (batches : List (List ι)) :
    ∀ pop : List ι, (pop ++ batches.flatten).Nodup → (pop ++ batches.flatten).length ≤ fuel →
    ∃ final, run iter fuel eps objs size pop batches = some final ∧
      (∀ x ∈ pop ++ batches.flatten, ∀ o ∈ objs, ∃ y ∈ final, o y ≤ o x) ∧
      (∀ x ∈ final, x ∈ pop ++ batches.flatten) ∧
      ∀ b ∈ batches.getLast?, size ≤ pop.length →
        (∀ b' ∈ batches, b'.length = b.length) → final.length = size + b.length := by
  induction batches with
  | nil =>
    intro pop _ _
    refine ⟨pop, rfl, ?_, by simp, by simp⟩
    intro x hx o _
    exact ⟨x, by simpa using hx, le_rfl⟩
  | cons off rest ih =>
    intro pop hnd hlen
    have hpnd : pop.Nodup := (List.nodup_append.1 hnd).1
    have hpl : pop.length ≤ fuel := by rw [List.length_append] at hlen; omega
    obtain ⟨kept, e, hbest⟩ := C62_best_value_kept iter hiter heps objs size h1 hm pop hpnd fuel hpl
    obtain ⟨kept', lost, e', hkl, hperm, -⟩ := C23_elitist iter hiter eps objs size pop hpnd fuel hpl
    obtain rfl : kept = kept' := Option.some.inj (e.symm.trans e')
    have hstep : step iter fuel eps objs size pop off = some (kept ++ off) := by
      unfold step; rw [e]
    have hbig : ((kept ++ off ++ rest.flatten) ++ lost).Perm (pop ++ (off :: rest).flatten) := by
      rw [List.flatten_cons]
      calc ((kept ++ off ++ rest.flatten) ++ lost)
          = kept ++ ((off ++ rest.flatten) ++ lost) := by simp only [List.append_assoc]
        _ |>.Perm (kept ++ (lost ++ (off ++ rest.flatten))) :=
            List.Perm.append_left _ List.perm_append_comm
        _ = (kept ++ lost) ++ (off ++ rest.flatten) := by simp only [List.append_assoc]
        _ |>.Perm (pop ++ (off ++ rest.flatten)) := hperm.append_right _
    have hnd' : (kept ++ off ++ rest.flatten).Nodup :=
      (List.nodup_append.1 (hbig.nodup_iff.2 hnd)).1
    have hlen' : (kept ++ off ++ rest.flatten).length ≤ fuel := by
      have := hbig.length_eq
      rw [List.length_append] at this; omega
    obtain ⟨final, hr, hb, hsub, hsz⟩ := ih (kept ++ off) hnd' hlen'
    refine ⟨final, by rw [run, hstep]; exact hr, ?_, ?_, ?_⟩
    · intro x hx o ho
      rcases List.mem_append.1 hx with hx | hx
      · obtain ⟨y, hy, hyx⟩ := hbest x hx o ho
        obtain ⟨z, hz, hzy⟩ := hb y (by simp [hy]) o ho
        exact ⟨z, hz, hzy.trans hyx⟩
      · apply hb x _ o ho
        rw [List.flatten_cons] at hx
        rcases List.mem_append.1 hx with hx | hx
        · simp [hx]
        · exact List.mem_append_right _ hx
    · intro x hx
      exact hbig.mem_iff.1 (List.mem_append_left _ (hsub x hx))
    · intro b hb' hps hall
      have hkl' : kept.length = size := by rw [hkl]; omega
      cases rest with
      | nil =>
        simp only [List.getLast?_singleton, Option.mem_def, Option.some.injEq] at hb'
        subst hb'
        simp only [run, Option.some.injEq] at hr
        rw [← hr, List.length_append, hkl']
      | cons r rest =>
        apply hsz b
        · simpa using hb'
        · rw [List.length_append]; omega
        · intro b' hbm; exact hall b' (by simp [hbm])

/-- Two steps; the best value 0 of the first objective survives although six candidates were seen
and only two places are kept. -/
example : run id 6 (1/1000 : ℚ) [fun i : ℕ => ([3, 1, 2, 4, 0, 5][i]?).getD 0,
    fun i : ℕ => ([3, 2, 1, 4, 9, 5][i]?).getD 0] 2 [0, 1, 2] [[3, 4], [5]]
      = some [2, 4, 5] := by decide +kernel

end Evogil.Nsgaii
