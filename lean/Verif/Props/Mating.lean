import Verif.Lemmas.Mating
import Verif.Props.Generations

/-!
# C148: who becomes a parent

NSGAII.py:182-192, IBEA.py:139-149, SPEA2.py:21-23. The probabilities with which the members of a
population are drawn into the mating pool.
-/

set_option linter.unusedSectionVars false

namespace Evogil.Mating

open Spec Generations Evaluation

variable {ι : Type*} [DecidableEq ι]

/-- The entry of the mating pool for one draw: a pool with this entry only. -/
def entry (better : Bool → ι → ι → ι) (l : List ι) (coin : Bool) (a b : ℕ) : Option ι :=
  (matingPool better (fun _ => ⟨a, b, coin⟩) l 1).bind fun pool => pool[0]?

theorem entry_eq (better : Bool → ι → ι → ι) (l : List ι) (coin : Bool) {a b : ℕ} {y z : ι}
    (ha : l[a]? = some y) (hb : l[b]? = some z) :
    entry better l coin a b = some (better coin y z) := by
  simp [entry, matingPool, ha, hb]

/-- **C148** Each entry of a mating pool is decided by its own two positions and its own coin. -/
theorem C148_entries (better : Bool → ι → ι → ι) (l : List ι) (d : ℕ → MateDraw) (n : ℕ)
    (pool : List ι) (h : matingPool better d l n = some pool) :
    pool.length = n ∧ ∀ i < n, pool[i]? = entry better l (d i).coin (d i).a (d i).b := by
  unfold matingPool at h
  rw [mapM_option_eq_some] at h
  have hlen : pool.length = n := by simpa using h.length_eq.symm
  refine ⟨hlen, fun i hi => ?_⟩
  have hi' : i < pool.length := by omega
  have e := h.get (i := i) (by simpa using hi) hi'
  simp only [List.get_eq_getElem, List.getElem_range] at e
  rw [List.getElem?_eq_getElem hi', ← e]
  cases h1 : l[(d i).a]? with
  | none => rw [h1] at e; simp at e
  | some y =>
    cases h2 : l[(d i).b]? with
    | none => rw [h1, h2] at e; simp at e
    | some z => rw [entry_eq _ _ _ h1 h2]

section generic
variable {κ : Type*} [LinearOrder κ] {K : Type*} [Field K] [LinearOrder K] [IsStrictOrderedRing K]

/-- What NSGA-II and IBEA have in common: the coin shows whether the smaller or the larger value of
`fit` wins. -/
def Lambda (fit : ι → κ) (better : Bool → ι → ι → ι) : Prop :=
  (∀ y z, better true y z = if fit y < fit z then y else z) ∧
    ∀ y z, better false y z = if fit z < fit y then y else z

variable {fit : ι → κ} {better : Bool → ι → ι → ι}

theorem wins_true (hb : Lambda fit better) {l : List ι} (hl : l.Nodup) {x : ι} (hx : x ∈ l) :
    wins l.length (entry better l true) x
      = 2 * (l.countP fun y => fit x < fit y) + l.countP fun y => fit y = fit x := by
  rw [wins_eq hl hx (fun y z => fit y < fit z) (lt_irrefl _) _ (fun a b y z ha hz => by
    rw [entry_eq _ _ _ ha hz, hb.1]), countP_not_lt]
  omega

theorem wins_false (hb : Lambda fit better) {l : List ι} (hl : l.Nodup) {x : ι} (hx : x ∈ l) :
    wins l.length (entry better l false) x
      = 2 * (l.countP fun y => fit y < fit x) + l.countP fun y => fit y = fit x := by
  rw [wins_eq hl hx (fun y z => fit z < fit y) (lt_irrefl _) _ (fun a b y z ha hz => by
    rw [entry_eq _ _ _ ha hz, hb.2]), countP_not_gt]
  omega

theorem chance_eq (hb : Lambda fit better) (p : K) {l : List ι} (hl : l.Nodup) {x : ι}
    (hx : x ∈ l) :
    chance p l.length (entry better l) x
      = (p * (2 * ((l.countP fun y => fit x < fit y : ℕ) : K) + ((l.countP fun y => fit y = fit x : ℕ) : K))
        + (1 - p) * (2 * ((l.countP fun y => fit y < fit x : ℕ) : K)
          + ((l.countP fun y => fit y = fit x : ℕ) : K))) / ((l.length : K) * (l.length : K)) := by
  unfold chance
  rw [wins_true hb hl hx, wins_false hb hl hx]
  push_cast
  rfl

theorem chance_lt (hb : Lambda fit better) {p : K} (hp : 1 / 2 < p) {l : List ι} (hl : l.Nodup)
    {x y : ι} (hx : x ∈ l) (hy : y ∈ l) (h : fit x < fit y) :
    chance p l.length (entry better l) y < chance p l.length (entry better l) x := by
  rw [chance_eq hb p hl hx, chance_eq hb p hl hy]
  have hn : (0 : K) < (l.length : K) := by
    exact_mod_cast List.length_pos_of_mem hx
  apply div_lt_div_of_pos_right _ (mul_pos hn hn)
  have h1 := countP_step fit l h
  have h2 := countP_self_pos fit hx
  have h3 := countP_three fit l x
  have h4 := countP_three fit l y
  generalize (l.countP fun z => fit x < fit z) = wx at *
  generalize (l.countP fun z => fit z = fit x) = ex at *
  generalize (l.countP fun z => fit z < fit x) = bx at *
  generalize (l.countP fun z => fit y < fit z) = wy at *
  generalize (l.countP fun z => fit z = fit y) = ey at *
  generalize (l.countP fun z => fit z < fit y) = by_ at *
  have e1 : (bx : K) = l.length - ex - wx := by rw [← h3]; push_cast; ring
  have e2 : (by_ : K) = l.length - ey - wy := by rw [← h4]; push_cast; ring
  have e3 : (2 * wy + ey : K) + 1 ≤ 2 * wx + ex := by
    have : 2 * wy + ey + 1 ≤ 2 * wx + ex := by omega
    exact_mod_cast this
  rw [e1, e2]
  nlinarith

theorem chance_same (hb : Lambda fit better) (p : K) {l : List ι} (hl : l.Nodup)
    {x y : ι} (hx : x ∈ l) (hy : y ∈ l) (h : fit x = fit y) :
    chance p l.length (entry better l) x = chance p l.length (entry better l) y := by
  rw [chance_eq hb p hl hx, chance_eq hb p hl hy, h]

theorem chance_pos (hb : Lambda fit better) {p : K} (h0 : 0 ≤ p) (h1 : p ≤ 1) {l : List ι}
    (hl : l.Nodup) {x : ι} (hx : x ∈ l) :
    1 / ((l.length : K) * (l.length : K)) ≤ chance p l.length (entry better l) x := by
  rw [chance_eq hb p hl hx]
  have hn : (0 : K) < (l.length : K) := by
    exact_mod_cast List.length_pos_of_mem hx
  apply div_le_div_of_nonneg_right _ (mul_pos hn hn).le
  have h2 : (1 : K) ≤ ((l.countP fun y => fit y = fit x : ℕ) : K) := by
    exact_mod_cast countP_self_pos fit hx
  have a1 : (0 : K) ≤ ((l.countP fun y => fit x < fit y : ℕ) : K) := Nat.cast_nonneg _
  have a2 : (0 : K) ≤ ((l.countP fun y => fit y < fit x : ℕ) : K) := Nat.cast_nonneg _
  nlinarith [mul_nonneg h0 a1, mul_nonneg (sub_nonneg.2 h1) a2]

theorem chance_sum (hb : Lambda fit better) (p : K) {l : List ι} (hl : l.Nodup) (hne : l ≠ []) :
    (l.map (chance p l.length (entry better l))).sum = 1 := by
  have hw : ∀ c, (l.map (wins l.length (entry better l c))).sum = l.length * l.length := by
    intro c
    refine wins_sum hl _ fun a ha b hb' => ?_
    rw [entry_eq _ _ _ (List.getElem?_eq_getElem ha) (List.getElem?_eq_getElem hb')]
    refine ⟨_, ?_, rfl⟩
    cases c
    · rw [hb.2]; split_ifs <;> simp
    · rw [hb.1]; split_ifs <;> simp
  have hs : ∀ (l' : List ι) (u v : ι → ℕ) (D : K),
      (l'.map fun x => (p * (u x : K) + (1 - p) * (v x : K)) / D).sum
        = (p * ((l'.map u).sum : ℕ) + (1 - p) * ((l'.map v).sum : ℕ)) / D := by
    intro l' u v D
    induction l' with
    | nil => simp
    | cons a l' ih =>
      simp only [List.map_cons, List.sum_cons, ih]
      push_cast
      ring
  unfold chance
  rw [hs, hw, hw]
  have hn : (l.length : K) ≠ 0 := by
    simpa using hne
  push_cast
  field_simp
  ring

end generic

/-! ## NSGA-II -/

section nsgaii
variable {κ : Type*} [LinearOrder κ] {K : Type*} [Field K] [LinearOrder K] [IsStrictOrderedRing K]

theorem nsgaii_lambda (fit : ι → κ) : Lambda fit (nsgaiiBetter fit) :=
  ⟨fun _ _ => rfl, fun _ _ => rfl⟩

/-- **C148** NSGA-II: the probability that an entry of the mating pool is `x`, from the numbers of
members with a larger, the same and a smaller value. -/
theorem C148_nsgaii (fit : ι → κ) (p : K) {l : List ι} (hl : l.Nodup) {x : ι} (hx : x ∈ l) :
    chance p l.length (entry (nsgaiiBetter fit) l) x
      = (p * (2 * ((l.countP fun y => fit x < fit y : ℕ) : K) + ((l.countP fun y => fit y = fit x : ℕ) : K))
        + (1 - p) * (2 * ((l.countP fun y => fit y < fit x : ℕ) : K)
          + ((l.countP fun y => fit y = fit x : ℕ) : K))) / ((l.length : K) * (l.length : K)) :=
  chance_eq (nsgaii_lambda fit) p hl hx

/-- **C148** These are probabilities: they sum up to 1, and nobody is left out. -/
theorem C148_nsgaii_everyone (fit : ι → κ) {p : K} (h0 : 0 ≤ p) (h1 : p ≤ 1) {l : List ι}
    (hl : l.Nodup) :
    (l ≠ [] → (l.map (chance p l.length (entry (nsgaiiBetter fit) l))).sum = 1) ∧
      ∀ x ∈ l, 1 / ((l.length : K) * (l.length : K)) ≤
        chance p l.length (entry (nsgaiiBetter fit) l) x :=
  ⟨chance_sum (nsgaii_lambda fit) p hl, fun _ hx => chance_pos (nsgaii_lambda fit) h0 h1 hl hx⟩

/-- **C148** The member with the better (smaller) value is more likely to become a parent; equal
values give equal probabilities. -/
theorem C148_nsgaii_order (fit : ι → κ) {p : K} (hp : 1 / 2 < p) {l : List ι} (hl : l.Nodup)
    {x y : ι} (hx : x ∈ l) (hy : y ∈ l) :
    chance p l.length (entry (nsgaiiBetter fit) l) y < chance p l.length (entry (nsgaiiBetter fit) l) x
      ↔ fit x < fit y := by
  rcases lt_trichotomy (fit x) (fit y) with h | h | h
  · simp [h, chance_lt (nsgaii_lambda fit) hp hl hx hy h]
  · simp [h, chance_same (nsgaii_lambda fit) p hl hx hy h]
  · simp [h.not_gt, (chance_lt (nsgaii_lambda fit) hp hl hy hx h).le]

end nsgaii

section step
variable {K : Type*} [Field K] [LinearOrder K] [IsStrictOrderedRing K] [FloorSemiring K]

/-- **C148** In a step of NSGA-II, with the table the selection has left behind and `p = 0.9`, of two
survivors the one of the lower non-domination rank is more likely to become a parent. In particular
one that dominates another is more likely to become a parent than the other. -/
theorem C148_nsgaii_rank {iter : List (Ind (List K) (List K)) → List (Ind (List K) (List K))}
    (hiter : ∀ l, (iter l).Perm l) (eps : K) (m size : ℕ) {pop : List (Ind (List K) (List K))}
    (hp : pop.Nodup) (kept : List (Ind (List K) (List K))) (fitness : Ind (List K) (List K) → ℕ ×ₗ K)
    (h : nsgaiiSelect iter eps m size pop = some (kept, fitness)) {x y : Ind (List K) (List K)}
    (hx : x ∈ kept) (hy : y ∈ kept) :
    (∀ k j, IsRank (Nsgaii.Dom (objFns m)) pop x k → IsRank (Nsgaii.Dom (objFns m)) pop y j →
      k < j → chance (9 / 10 : K) kept.length (entry (nsgaiiBetter fitness) kept) y
        < chance (9 / 10 : K) kept.length (entry (nsgaiiBetter fitness) kept) x) ∧
    (Nsgaii.Dom (objFns m) x y →
      chance (9 / 10 : K) kept.length (entry (nsgaiiBetter fitness) kept) y
        < chance (9 / 10 : K) kept.length (entry (nsgaiiBetter fitness) kept) x) := by
  have hd : ∀ x ∈ pop, ((objFns (K := K) m).map fun o => o x).length = (objFns (K := K) m).length := by
    simp
  obtain ⟨kept', fitness', h', -, hsub⟩ := nsgaiiSelect_spec hiter eps m size hp
  rw [h] at h'
  obtain ⟨rfl, rfl⟩ : kept = kept' ∧ fitness = fitness' := by simpa using h'
  have hkn : kept.Nodup := by
    obtain ⟨l', hl', hs⟩ := hsub
    exact hl'.nodup_iff.1 (hs.nodup hp)
  unfold nsgaiiSelect at h
  cases hf : ndSort iter (nsgaiiDom fun x => (objFns m).map (fun o => o x)) pop.length pop with
  | none => rw [hf] at h; simp at h
  | some fronts =>
    rw [hf] at h
    simp only [Option.some.injEq, Prod.mk.injEq] at h
    have main : ∀ k j, IsRank (Nsgaii.Dom (objFns m)) pop x k →
        IsRank (Nsgaii.Dom (objFns m)) pop y j → k < j → fitness x < fitness y := by
      intro k j hk hj hkj
      have e1 := (C05_nsga_rank iter hiter _ _ pop hp hd _ fronts hf x (hsub.subset hx) k).2 hk
      have e2 := (C05_nsga_rank iter hiter _ _ pop hp hd _ fronts hf y (hsub.subset hy) j).2 hj
      rw [← h.2]
      unfold Nsgaii.fitnessKey
      rw [Prod.Lex.toLex_lt_toLex]
      left
      simp only [e1, e2]
      omega
    have hhalf : (1 / 2 : K) < 9 / 10 := by norm_num
    refine ⟨fun k j hk hj hkj => (C148_nsgaii_order fitness hhalf hkn hx hy).2 (main k j hk hj hkj),
      fun hxy => (C148_nsgaii_order fitness hhalf hkn hx hy).2 ?_⟩
    obtain ⟨hpf, -, hr⟩ := (C05_nsgaii_sorts_by_rank iter hiter _ _ pop hp hd).2 _ fronts hf
    have hex : ∀ z ∈ pop, ∃ k, IsRank (Nsgaii.Dom (objFns m)) pop z k := by
      intro z hz
      have := hpf.mem_iff.2 hz
      rw [List.mem_flatten] at this
      obtain ⟨l, hl, hzl⟩ := this
      obtain ⟨k, hk⟩ := List.getElem?_of_mem hl
      exact ⟨k, (hr k z).1 ⟨l, hk, hzl⟩⟩
    obtain ⟨k, hk⟩ := hex x (hsub.subset hx)
    obtain ⟨j, hj⟩ := hex y (hsub.subset hy)
    refine main k j hk hj ?_
    by_contra hc
    have hch : HasChain (Nsgaii.Dom (objFns m)) pop (k + 1) y := ⟨hsub.subset hy, x, hxy, hk.1⟩
    exact hj.2 (HasChain.mono hch (by omega))

end step

/-! ## IBEA -/

section ibea
variable {K : Type*} [Field K] [LinearOrder K] [IsStrictOrderedRing K]

theorem ibea_lambda (fit : ι → K) : Lambda fit (Ibea.better fit) :=
  ⟨fun _ _ => rfl, fun _ _ => rfl⟩

/-- **C59** (violated) The larger the fitness, the later the environmental selection
discards an individual (`sorted(..., reverse=True)` and `pop`, IBEA.py:126-129) and the less likely
it is to become a parent. -/
theorem C59_chance_violated (fit : ι → K) {p : K} (hp : 1 / 2 < p) {l : List ι} (hl : l.Nodup)
    {x y : ι} (hx : x ∈ l) (hy : y ∈ l) :
    chance p l.length (entry (Ibea.better fit) l) y < chance p l.length (entry (Ibea.better fit) l) x
      ↔ fit x < fit y := by
  rcases lt_trichotomy (fit x) (fit y) with h | h | h
  · simp [h, chance_lt (ibea_lambda fit) hp hl hx hy h]
  · simp [h, chance_same (ibea_lambda fit) p hl hx hy h]
  · simp [h.not_gt, (chance_lt (ibea_lambda fit) hp hl hy hx h).le]

/-- **C59** The fittest of `n` individuals with different values is a parent with the
probability `(p + (1 - p) * (2 * n - 1)) / n²`, the least fit one with
`(p * (2 * n - 1) + (1 - p)) / n²`. -/
theorem C59_extremes_partial (fit : ι → K) (p : K) {l : List ι} (hl : l.Nodup) {x : ι}
    (hx : x ∈ l) :
    ((∀ y ∈ l, y ≠ x → fit y < fit x) → chance p l.length (entry (Ibea.better fit) l) x
      = (p + (1 - p) * (2 * (l.length : K) - 1)) / ((l.length : K) * (l.length : K))) ∧
    ((∀ y ∈ l, y ≠ x → fit x < fit y) → chance p l.length (entry (Ibea.better fit) l) x
      = (p * (2 * (l.length : K) - 1) + (1 - p)) / ((l.length : K) * (l.length : K))) := by
  have h3 := countP_three fit l x
  have one : (∀ y ∈ l, y ≠ x → fit y ≠ fit x) → (l.countP fun y => fit y = fit x) = 1 := by
    intro h
    rw [← List.count_eq_one_of_mem hl hx, List.count]
    apply List.countP_congr
    intro y hy
    by_cases e : y = x
    · simp [e]
    · simp [e, h y hy e]
  constructor <;> intro h
  · have e1 := one fun y hy e => (h y hy e).ne
    have e2 : (l.countP fun y => fit x < fit y) = 0 := by
      rw [List.countP_eq_zero]
      intro y hy
      by_cases e : y = x
      · simp [e]
      · simp [(h y hy e).le]
    rw [e1, e2] at h3
    rw [chance_eq (ibea_lambda fit) p hl hx, e1, e2, ← h3]
    push_cast
    ring
  · have e1 := one fun y hy e => (h y hy e).ne'
    have e2 : (l.countP fun y => fit y < fit x) = 0 := by
      rw [List.countP_eq_zero]
      intro y hy
      by_cases e : y = x
      · simp [e]
      · simp [(h y hy e).le]
    rw [e1, e2] at h3
    rw [chance_eq (ibea_lambda fit) p hl hx, e1, e2, ← h3]
    push_cast
    ring

end ibea

/-! ## SPEA2 -/

section spea2
variable {K : Type*} [Field K] [LinearOrder K] [IsStrictOrderedRing K]

theorem spea2_wins (fit : ι → K) {l : List ι} (hl : l.Nodup) {x : ι} (hx : x ∈ l) :
    wins l.length (Spea2.select fit l) x + 1
      = 2 * (l.countP fun y => fit x < fit y) + l.countP fun y => fit y = fit x := by
  let pick : ℕ → ℕ → Option ι := fun a b =>
    match l[a]?, l[b]? with
    | some y, some z => some (if fit y < fit z then y else z)
    | _, _ => none
  have hs : ∀ a, pick a a = l[a]? := by
    intro a
    simp only [pick]
    cases l[a]? <;> simp
  have h1 := wins_distinct hl hx (Spea2.select fit l) (fun a b => pick b a) (by
    intro a ha b hb hab
    simp only [pick, Spea2.select, if_neg hab, List.getElem?_eq_getElem ha,
      List.getElem?_eq_getElem hb, Spea2.tournament]) (by simp [Spea2.select]) hs
  rw [h1, wins_swap, wins_eq hl hx (fun y z => fit y < fit z) (lt_irrefl _) pick (by
    intro a b y z ha hb
    simp only [pick, ha, hb]), countP_not_lt]
  omega

/-- **C148** SPEA2: the probability that a tournament is won by `x`, from the numbers of members of
the archive with a larger and with the same value (itself included). -/
theorem C148_spea2 (fit : ι → K) {l : List ι} (hl : l.Nodup) {x : ι} (hx : x ∈ l) :
    chanceDistinct (K := K) l.length (Spea2.select fit l) x
      = (2 * ((l.countP fun y => fit x < fit y : ℕ) : K) + ((l.countP fun y => fit y = fit x : ℕ) : K) - 1)
        / ((l.length : K) * ((l.length : K) - 1)) := by
  have h := congrArg (Nat.cast (R := K)) (spea2_wins fit hl hx)
  push_cast at h
  unfold chanceDistinct
  rw [← h]
  congr 1
  ring

/-- **C148** SPEA2: with at least two members, the one with the better (smaller) value is more
likely to win; a single worst member never wins. -/
theorem C148_spea2_order (fit : ι → K) {l : List ι} (hl : l.Nodup) (h2 : 2 ≤ l.length) {x : ι}
    (hx : x ∈ l) :
    (∀ y ∈ l, (chanceDistinct (K := K) l.length (Spea2.select fit l) y
      < chanceDistinct (K := K) l.length (Spea2.select fit l) x ↔ fit x < fit y)) ∧
    (chanceDistinct (K := K) l.length (Spea2.select fit l) x = 0 ↔ ∀ y ∈ l, y ≠ x → fit y < fit x) := by
  have hn : (0 : K) < (l.length : K) * ((l.length : K) - 1) := by
    have : (2 : K) ≤ (l.length : K) := by exact_mod_cast h2
    nlinarith
  have lt : ∀ x ∈ l, ∀ y ∈ l, fit x < fit y →
      wins l.length (Spea2.select fit l) y < wins l.length (Spea2.select fit l) x := by
    intro x hx y hy h
    have a1 := spea2_wins fit hl hx
    have a2 := spea2_wins fit hl hy
    have a3 := countP_step fit l h
    have a4 := countP_self_pos fit hx
    have a5 := countP_self_pos fit hy
    omega
  constructor
  · intro y hy
    unfold chanceDistinct
    rw [div_lt_div_iff_of_pos_right hn, Nat.cast_lt]
    rcases lt_trichotomy (fit x) (fit y) with h | h | h
    · simp [h, lt x hx y hy h]
    · have a1 := spea2_wins fit hl hx
      have a2 := spea2_wins fit hl hy
      rw [h] at a1
      simp only [h, lt_self_iff_false, iff_false]
      omega
    · simp only [h.not_gt, iff_false, not_lt]
      exact (lt y hy x hx h).le
  · unfold chanceDistinct
    rw [div_eq_zero_iff, or_iff_left hn.ne', Nat.cast_eq_zero]
    have a1 := spea2_wins fit hl hx
    have a4 := countP_self_pos fit hx
    constructor
    · intro h y hy hne
      rw [h] at a1
      have b1 : (l.countP fun y => fit x < fit y) = 0 := by omega
      have b2 : (l.countP fun y => fit y = fit x) = 1 := by omega
      rw [List.countP_eq_zero] at b1
      have c1 : fit y ≤ fit x := by simpa using b1 y hy
      refine lt_of_le_of_ne c1 fun e => ?_
      have hsub : [x, y].Subperm (l.filter fun y => fit y = fit x) :=
        List.subperm_of_subset (by simpa using hne.symm) (by
          intro z hz
          simp only [List.mem_cons, List.not_mem_nil, or_false] at hz
          rcases hz with rfl | rfl
          · simp [hx]
          · simp [hy, e])
      have := hsub.length_le
      rw [← List.countP_eq_length_filter, b2] at this
      simp at this
    · intro h
      have e1 : (l.countP fun y => fit y = fit x) = 1 := by
        rw [← List.count_eq_one_of_mem hl hx, List.count]
        apply List.countP_congr
        intro y hy
        by_cases e : y = x
        · simp [e]
        · simp [e, (h y hy e).ne]
      have e2 : (l.countP fun y => fit x < fit y) = 0 := by
        rw [List.countP_eq_zero]
        intro y hy
        by_cases e : y = x
        · simp [e]
        · simp [(h y hy e).le]
      omega

end spea2

/-! ## Cases -/

/-- Four members with the values 0, 1, 1, 5 and `p = 0.9`: the probabilities of NSGA-II. -/
example : [0, 1, 2, 3].map (chance (9 / 10 : ℚ) 4 (entry (nsgaiiBetter
    fun i : ℕ => if i = 0 then (0 : ℕ) else if i = 3 then 5 else 1) [0, 1, 2, 3]))
    = [64 / 160, 40 / 160, 40 / 160, 16 / 160] := by decide +kernel

/-- The same for IBEA, where 5 is the best value. -/
example : [0, 1, 2, 3].map (chance (9 / 10 : ℚ) 4 (entry (Ibea.better
    fun i : ℕ => if i = 0 then (0 : ℚ) else if i = 3 then 5 else 1) [0, 1, 2, 3]))
    = [64 / 160, 40 / 160, 40 / 160, 16 / 160] := by decide +kernel

/-- The same for SPEA2, where 0 is the best value. -/
example : [0, 1, 2, 3].map (chanceDistinct (K := ℚ) 4 (Spea2.select
    (fun i : ℕ => if i = 0 then (0 : ℚ) else if i = 3 then 5 else 1) [0, 1, 2, 3]))
    = [1 / 2, 1 / 4, 1 / 4, 0] := by decide +kernel

end Evogil.Mating
