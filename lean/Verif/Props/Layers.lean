import Verif.Lemmas.Layers

/-! # Property C04: Pareto layering -/

namespace Evogil
open Spec

variable {α ι : Type*} [LinearOrder α]

/-- C04: the layering iterator terminates on every population, whatever the lengths of
the objective vectors: as many turns as there are individuals always suffice. -/
theorem C04_terminates (lst : List ι) (f : ι → List α) (fuel : ℕ) (h : lst.length ≤ fuel) :
    ∃ L, paretofrontLayers fuel lst f = some L :=
  layersLoop_terminates fuel _ (by simpa using h)

/-- C04: whenever the iteration finishes, the layers are non-empty and together contain
every individual exactly as often as the input (partition). -/
theorem C04_partition (lst : List ι) (f : ι → List α) (fuel : ℕ) (L : List (List ι))
    (h : paretofrontLayers fuel lst f = some L) :
    L.flatten.Perm lst ∧ ∀ l ∈ L, l ≠ [] := by
  obtain ⟨L', hp, rfl⟩ := layersLoop_peels _ _ _ h
  constructor
  · have := hp.perm.map Prod.fst
    rw [List.map_flatten, List.map_map] at this
    simpa [Function.comp_def] using this
  · intro l hl
    obtain ⟨l', hl', rfl⟩ := List.mem_map.1 hl
    simpa using hp.nonempty l' hl'

private theorem peels_cells {lst : List ι} {f : ι → List α}
    {L : List (List (ι × List α))} (h : Peels (lst.map fun i => (i, f i)) L) :
    ∀ l ∈ L, ∀ c ∈ l, c.1 ∈ lst ∧ c.2 = f c.1 := by
  intro l hl c hc
  have : c ∈ lst.map fun i => (i, f i) := h.perm.mem_iff.1 (List.mem_flatten.2 ⟨l, hl, hc⟩)
  obtain ⟨i, hi, rfl⟩ := List.mem_map.1 this
  exact ⟨hi, rfl⟩

private theorem mem_map_fst {lst : List ι} {f : ι → List α}
    {L : List (List (ι × List α))} (h : Peels (lst.map fun i => (i, f i)) L)
    {l : List (ι × List α)} (hl : l ∈ L) (x : ι) :
    x ∈ l.map Prod.fst ↔ (x, f x) ∈ l := by
  constructor
  · intro hx
    obtain ⟨c, hc, rfl⟩ := List.mem_map.1 hx
    have := (peels_cells h l hl c hc).2
    rw [← this]
    exact hc
  · intro hx
    exact List.mem_map.2 ⟨_, hx, rfl⟩

/-- C04: inside a layer nobody dominates anybody. -/
theorem C04_layer_antichain (d : ℕ) (lst : List ι) (f : ι → List α)
    (hd : ∀ x ∈ lst, (f x).length = d) (fuel : ℕ) (L : List (List ι))
    (h : paretofrontLayers fuel lst f = some L) :
    ∀ l ∈ L, ∀ x ∈ l, ∀ y ∈ l, ¬ LDom (f x) (f y) := by
  obtain ⟨L', hp, rfl⟩ := layersLoop_peels _ _ _ h
  intro l hl x hx y hy
  obtain ⟨l', hl', rfl⟩ := List.mem_map.1 hl
  rw [mem_map_fst hp hl'] at hx hy
  have hxm := (peels_cells hp l' hl' _ hx).1
  have hym := (peels_cells hp l' hl' _ hy).1
  rw [← dominates_iff_LDom ((hd x hxm).trans (hd y hym).symm)]
  simp [hp.layer_antichain l' hl' _ hx _ hy]

private theorem chain_cells (f : ι → List α) (lst : List ι) (k : ℕ) (x : ι)
    (d : ℕ) (hd : ∀ x ∈ lst, (f x).length = d) :
    HasChain (fun a b : ι × List α => dominates a.2 b.2 = true) (lst.map fun i => (i, f i)) k
      (x, f x) ↔ HasChain (fun a b => LDom (f a) (f b)) lst k x := by
  have hm : ∀ x, (x, f x) ∈ (lst.map fun i => (i, f i)) ↔ x ∈ lst := by
    intro x
    simp
  induction k generalizing x with
  | zero => exact hm x
  | succ k ih =>
    constructor
    · rintro ⟨hx, c, hc, hch⟩
      have hcm := HasChain.mem hch
      obtain ⟨i, hi, rfl⟩ := List.mem_map.1 hcm
      exact ⟨(hm x).1 hx, i,
        (dominates_iff_LDom ((hd i hi).trans (hd x ((hm x).1 hx)).symm)).1 hc, (ih i).1 hch⟩
    · rintro ⟨hx, i, hi, hch⟩
      have him := HasChain.mem hch
      exact ⟨(hm x).2 hx, (i, f i),
        (dominates_iff_LDom ((hd i him).trans (hd x hx).symm)).2 hi, (ih i).2 hch⟩

/-- C04: layer number `k` consists exactly of the individuals of dominance rank `k`. -/
theorem C04_layer_rank (d : ℕ) (lst : List ι) (f : ι → List α)
    (hd : ∀ x ∈ lst, (f x).length = d) (fuel : ℕ) (L : List (List ι))
    (h : paretofrontLayers fuel lst f = some L) (k : ℕ) (x : ι) :
    (∃ l, L[k]? = some l ∧ x ∈ l) ↔ IsRank (fun a b => LDom (f a) (f b)) lst x k := by
  obtain ⟨L', hp, rfl⟩ := layersLoop_peels _ _ _ h
  have hd' : ∀ c ∈ (lst.map fun i => (i, f i)), c.2.length = d := by
    intro c hc
    obtain ⟨i, hi, rfl⟩ := List.mem_map.1 hc
    exact hd i hi
  have := hp.rank d hd' k (x, f x)
  unfold IsRank at this ⊢
  rw [chain_cells f lst k x d hd, chain_cells f lst (k + 1) x d hd] at this
  rw [← this]
  simp only [List.getElem?_map, Option.map_eq_some_iff]
  constructor
  · rintro ⟨l, ⟨l', hl', rfl⟩, hx⟩
    exact ⟨l', hl', (mem_map_fst hp (List.mem_of_getElem? hl') x).1 hx⟩
  · rintro ⟨l', hl', hx⟩
    exact ⟨_, ⟨l', hl', rfl⟩, (mem_map_fst hp (List.mem_of_getElem? hl') x).2 hx⟩

/-- C04: everybody in a later layer is dominated by somebody in the layer just before. -/
theorem C04_dominated_by_previous (d : ℕ) (lst : List ι) (f : ι → List α)
    (hd : ∀ x ∈ lst, (f x).length = d) (fuel : ℕ) (L : List (List ι))
    (h : paretofrontLayers fuel lst f = some L) (k : ℕ) (l l' : List ι)
    (hl : L[k]? = some l) (hl' : L[k + 1]? = some l') :
    ∀ x ∈ l', ∃ y ∈ l, LDom (f y) (f x) := by
  intro x hx
  obtain ⟨⟨hxm, y, hy, hc⟩, hn⟩ := (C04_layer_rank d lst f hd fuel L h (k + 1) x).1 ⟨l', hl', hx⟩
  have hry : IsRank (fun a b => LDom (f a) (f b)) lst y k :=
    ⟨hc, fun hcy => hn ⟨hxm, y, hy, hcy⟩⟩
  obtain ⟨l₂, hl₂, hyl⟩ := (C04_layer_rank d lst f hd fuel L h k y).2 hry
  rw [hl] at hl₂
  obtain rfl := Option.some.inj hl₂
  exact ⟨y, hyl, hy⟩

/-- The docstring of `paretofront_layers` ("all elements of Ai dominate all of Aj") is
wrong: here the layers are `[0, 1]` and `[2]`, but individual 0 does not dominate 2. -/
theorem C04_docstring_false :
    ∃ (f : ℕ → List ℕ) (L : List (List ℕ)), paretofrontLayers 3 [0, 1, 2] f = some L ∧
      L = [[0, 1], [2]] ∧ ¬ LDom (f 0) (f 2) := by
  refine ⟨fun i => if i = 0 then [0, 9] else if i = 1 then [5, 1] else [6, 2], _, rfl, by decide, ?_⟩
  rw [← dominates_iff_LDom (by decide)]
  decide

/-- Non-trivial instance: duplicates, three layers. -/
example : paretofrontLayers 5 [[2, 2], [1, 1], [1, 1], [0, 3], [3, (3 : ℕ)]] id =
    some [[[1, 1], [1, 1], [0, 3]], [[2, 2]], [[3, 3]]] := by decide

end Evogil
