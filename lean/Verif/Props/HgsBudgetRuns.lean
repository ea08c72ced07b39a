import Verif.Props.HgsBudget

/-!
# C114: budget simulations of HGS with the shipped numbers, and with NSGA-II
-/

set_option linter.unusedSectionVars false

namespace Evogil.Hgs

open Generations Evaluation Spec

section
variable {K : Type*} [Field K] [LinearOrder K] [IsStrictOrderedRing K] [FloorRing K]

variable {pw : K → K → K} {eps : K} {dims : List (K × K)} {trim : ℕ → List K → List K}
  (hpw : PowLaws pw) (heps : 0 < eps) (htrim : ∀ l v, InBox v dims → InBox (trim l v) dims)
  (near : ℕ → List K → List K → Bool) (mean : List (List K) → List K) (eps' : K)
  (hv : List (List K) → K)
  (shuffle : ℕ → ℕ → List (List K) → List (List K)) (hsh : ∀ i k l, (shuffle i k l).Perm l)
  (ds : ℕ → ℕ → ℕ → ℕ → MutDraw K)
  (hds : ∀ l i k n, 0 ≤ (ds l i k n).rnd ∧ (ds l i k n).rnd ≤ 1)
  (perm : List (List K) → List (List K)) (hperm : ∀ l, (perm l).Perm l)
  (population : List (List K)) (hpop : population.length = 64) (hbox : ∀ v ∈ population, InBox v dims)

include hpw heps htrim hsh hds hperm hpop hbox

/-- **C114 (SPEA2).** A simulation of HGS with SPEA2 and the shipped numbers, on any box and for any list of
budgets: it ends within a tenth of the largest budget of steps, nothing raises, and it has stored what it
should. -/
theorem C114_spea2 {A : Type*} (dist : List K → List K → K) (hdist : ∀ a b, 0 ≤ dist a b)
    (key : List K → A) {m : ℕ} (d : Spea2Draws K) (hfit : ∀ l i k j v, (d.fit l i k j v).length = m)
    (hdt : ∀ l i k j n, PairDraw (shipSizes l) (d.dt l i k j n).1 ∧ PairDraw (shipSizes l) (d.dt l i k j n).2)
    (hdv : ∀ i k j n, (d.dv i k j n).Valid) (budgets : List ℤ) (fuel : ℕ)
    (hfuel : ∀ b ∈ budgets, b ≤ fuel * 10) :
    ∃ s res o', start (spea2Ops (shipSetup pw eps dims trim) dist key d) shipRatio perm 64 () population =
        some s ∧
      budgetWorker (hgsDriver (shipConf near mean eps') (spea2Ops (shipSetup pw eps dims trim) dist key d)
        ⟨fun _ => 5, hv, shuffle, fun l i v => populationFromDelegate pw eps (ds l i) v (shipSizes l) dims
          (1 / dims.length) (shipMutEta l)⟩) fuel budgets ⟨some (0, s), 0⟩ = some (res, o') ∧
      Stores (shipConf near mean eps') (spea2Ops (shipSetup pw eps dims trim) dist key d)
        ⟨fun _ => 5, hv, shuffle, fun l i v => populationFromDelegate pw eps (ds l i) v (shipSizes l) dims
          (1 / dims.length) (shipMutEta l)⟩ (fun v => InBox v dims) 64 s budgets res :=
  C114_box (cfg := shipConf near mean eps') (S := shipSetup pw eps dims trim) (N := shipSizes) (g := 10) le_rfl
    (spea2_contract (key := key) (fun l _ => shipSetup_valid hpw heps htrim l) (fun _ _ => rfl) hdist hfit
      (fun l _ => le_trans (by norm_num) (shipSizes_ge l)) (fun l _ => shipSizes_ge l) (fun l _ => hdt l) hdv)
    (fun _ h => h.ge) (fun l _ => shipSetup_valid hpw heps htrim l) (fun l _ => le_trans (by norm_num) (shipSizes_ge l))
    (fun _ => 5) (fun _ => by norm_num) hv shuffle hsh ds hds (fun _ => 1 / dims.length) shipMutEta
    shipMutEta_nonneg le_rfl perm hperm () trivial population hpop.ge hbox 1 zero_le_one (fun _ _ => le_rfl)
    budgets fuel fun b hb => by
      have : ((b : ℤ) : K) ≤ ((fuel * 10 : ℤ) : K) := Int.cast_le.2 (hfuel b hb)
      simpa using this

/-- **C114 (IBEA).** The same for IBEA; it ends within a fifteenth of the largest budget of steps. -/
theorem C114_ibea (ex : K → K) (d : IbeaDraws K)
    (hdm : ∀ l i k j n, (d.dm l i k j n).Valid (shipSizes l))
    (hdv : ∀ i k j n, (d.dv i k j n).Valid) (budgets : List ℤ) (fuel : ℕ)
    (hfuel : ∀ b ∈ budgets, b ≤ fuel * 15) :
    ∃ s res o', start (ibeaOps (shipSetup pw eps dims trim) ex (5 / 100) (1 / 2) d) shipRatio perm 64 ()
        population = some s ∧
      budgetWorker (hgsDriver (shipConf near mean eps')
        (ibeaOps (shipSetup pw eps dims trim) ex (5 / 100) (1 / 2) d)
        ⟨fun _ => 5, hv, shuffle, fun l i v => populationFromDelegate pw eps (ds l i) v (shipSizes l) dims
          (1 / dims.length) (shipMutEta l)⟩) fuel budgets ⟨some (0, s), 0⟩ = some (res, o') ∧
      Stores (shipConf near mean eps') (ibeaOps (shipSetup pw eps dims trim) ex (5 / 100) (1 / 2) d)
        ⟨fun _ => 5, hv, shuffle, fun l i v => populationFromDelegate pw eps (ds l i) v (shipSizes l) dims
          (1 / dims.length) (shipMutEta l)⟩ (fun v => InBox v dims) 64 s budgets res := by
  have hg : ∀ l, 15 ≤ shipSizes l + ⌊(1 / 2 : K) * (shipSizes l : K)⌋₊ := by
    intro l
    have h10 := shipSizes_ge l
    have : 5 ≤ ⌊(1 / 2 : K) * (shipSizes l : K)⌋₊ := by
      apply Nat.le_floor
      have : (10 : K) ≤ (shipSizes l : K) := by exact_mod_cast h10
      push_cast
      linarith
    omega
  exact C114_box (cfg := shipConf near mean eps') (S := shipSetup pw eps dims trim) (N := shipSizes) (g := 15)
    le_rfl
    (ibea_contract (fun l _ => shipSetup_valid hpw heps htrim l) (fun _ _ => rfl)
      (fun l _ => le_trans (by norm_num) (shipSizes_ge l)) (fun l _ => hg l) (fun l _ => hdm l) hdv)
    (fun _ h => h.ge) (fun l _ => shipSetup_valid hpw heps htrim l) (fun l _ => le_trans (by norm_num) (shipSizes_ge l))
    (fun _ => 5) (fun _ => by norm_num) hv shuffle hsh ds hds (fun _ => 1 / dims.length) shipMutEta
    shipMutEta_nonneg le_rfl perm hperm () trivial population hpop.ge hbox 1 zero_le_one (fun _ _ => le_rfl)
    budgets fuel fun b hb => by
      have : ((b : ℤ) : K) ≤ ((fuel * 15 : ℤ) : K) := Int.cast_le.2 (hfuel b hb)
      simpa using this

/-- **C114 (SMS-EMOA).** The same for SMS-EMOA with the default `epoch_length_multiplier` 0.5
(algorithms/SMSEMOA/SMSEMOA.py:23); it ends within a fiftieth of the largest budget of steps. -/
theorem C114_smsemoa {A : Type*} (key : List K → A) (hvol : List (List K) → K) {m : ℕ}
    (d : SmsDraws K) (hfit : ∀ l i k j v, (d.fit l i k j v).length = m)
    (hiter : ∀ i k j l, (d.iter i k j l).Perm l)
    (hdt : ∀ l i k j n, PairDraw (shipSizes l) (d.dt l i k j n))
    (hdv : ∀ i k j n, (d.dv i k j n).Valid) (budgets : List ℤ) (fuel : ℕ)
    (hfuel : ∀ b ∈ budgets, b ≤ fuel * 50) :
    ∃ s res o', start (smsOps (shipSetup pw eps dims trim) key hvol (1 / 2) d) shipRatio perm 64 ()
        population = some s ∧
      budgetWorker (hgsDriver (shipConf near mean eps')
        (smsOps (shipSetup pw eps dims trim) key hvol (1 / 2) d)
        ⟨fun _ => 5, hv, shuffle, fun l i v => populationFromDelegate pw eps (ds l i) v (shipSizes l) dims
          (1 / dims.length) (shipMutEta l)⟩) fuel budgets ⟨some (0, s), 0⟩ = some (res, o') ∧
      Stores (shipConf near mean eps') (smsOps (shipSetup pw eps dims trim) key hvol (1 / 2) d)
        ⟨fun _ => 5, hv, shuffle, fun l i v => populationFromDelegate pw eps (ds l i) v (shipSizes l) dims
          (1 / dims.length) (shipMutEta l)⟩ (fun v => InBox v dims) 64 s budgets res := by
  have hg : ∀ l, 50 ≤ ⌊(shipSizes l : K) * (1 / 2)⌋₊ * shipSizes l := by
    intro l
    have h10 := shipSizes_ge l
    have : 5 ≤ ⌊(shipSizes l : K) * (1 / 2)⌋₊ := by
      apply Nat.le_floor
      have : (10 : K) ≤ (shipSizes l : K) := by exact_mod_cast h10
      push_cast
      linarith
    exact Nat.mul_le_mul this h10
  exact C114_box (cfg := shipConf near mean eps') (S := shipSetup pw eps dims trim) (N := shipSizes) (g := 50)
    le_rfl
    (sms_contract (key := key) (fun l _ => shipSetup_valid hpw heps htrim l) (fun _ _ => rfl) hfit hiter
      (fun l _ => hg l) (fun l _ => hdt l) hdv)
    (fun _ h => h.ge) (fun l _ => shipSetup_valid hpw heps htrim l) (fun l _ => le_trans (by norm_num) (shipSizes_ge l))
    (fun _ => 5) (fun _ => by norm_num) hv shuffle hsh ds hds (fun _ => 1 / dims.length) shipMutEta
    shipMutEta_nonneg le_rfl perm hperm () trivial population hpop.ge hbox 1 zero_le_one (fun _ _ => le_rfl)
    budgets fuel fun b hb => by
      have : ((b : ℤ) : K) ≤ ((fuel * 50 : ℤ) : K) := Int.cast_le.2 (hfuel b hb)
      simpa using this

end

/-! ## NSGA-II -/

section
variable {K : Type*} [Field K] [LinearOrder K] [IsStrictOrderedRing K] [FloorRing K]
  {A : Type*} [DecidableEq A] {S : ℕ → Setup K} {key : List K → A} {m : ℕ} {c : K} {d : NsgaiiDraws K}
  {N : ℕ → ℕ} {dims : List (K × K)} {trim : ℕ → List K → List K}

/-- **C114 (NSGA-II).** A simulation of HGS with NSGA-II in its nodes and archives that are empty at first. If it
ends, it has stored what it should. It need not end, though: a step may find all its vectors in the archive and
cost nothing. If trimming leaves only finitely many vectors, a budget above the cost of them all on all levels is
never met, and the simulation goes on for ever. -/
theorem C114_nsgaii {cfg : Conf (List K) K} (hm2 : cfg.maxLevel ≤ 2)
    (hS : ∀ l, l ≤ cfg.maxLevel → (S l).Valid) (hdims : ∀ l, l ≤ cfg.maxLevel → (S l).dims = dims)
    (hfit : ∀ l i k j v, (d.fit l i k j v).length = m) (hiter : ∀ i k j l, (d.iter i k j l).Perm l)
    (hdm : ∀ l, l ≤ cfg.maxLevel → ∀ i k j n, (d.dm l i k j n).Valid (N l))
    (hdv : ∀ i k j n, (d.dv i k j n).Valid)
    (len : ℕ → ℕ) (hlen : ∀ l, 1 ≤ len l) (hv : List (List K) → K)
    (shuffle : ℕ → ℕ → List (List K) → List (List K)) (hsh : ∀ i k l, (shuffle i k l).Perm l)
    (hN1 : ∀ l, l ≤ cfg.maxLevel → 1 ≤ N l)
    (ds : ℕ → ℕ → ℕ → ℕ → MutDraw K)
    (hds : ∀ l i k n, 0 ≤ (ds l i k n).rnd ∧ (ds l i k n).rnd ≤ 1) (rate eta : ℕ → K)
    (heta : ∀ l, 0 ≤ eta l) {ratio : List K} (hr : 3 ≤ ratio.length)
    (perm : List (List K) → List (List K)) (hperm : ∀ l, (perm l).Perm l)
    (population : List (List K)) (hN : N 0 ≤ population.length) (hbox : ∀ v ∈ population, InBox v dims) :
    ∃ s, start (nsgaiiOps S key m c d) ratio perm (N 0) (fun _ _ => none) population = some s ∧
      (∀ fuel budgets res o', budgetWorker (hgsDriver cfg (nsgaiiOps S key m c d) ⟨len, hv, shuffle, fun l i v =>
          populationFromDelegate (S l).pw (S l).eps (ds l i) v (N l) dims (rate l) (eta l)⟩) fuel budgets
            ⟨some (0, s), 0⟩ = some (res, o') →
        Stores cfg (nsgaiiOps S key m c d) ⟨len, hv, shuffle, fun l i v =>
          populationFromDelegate (S l).pw (S l).eps (ds l i) v (N l) dims (rate l) (eta l)⟩
            (fun v => InBox v dims) (N 0) s budgets res) ∧
      ((∀ l, 0 ≤ cfg.modifier l) → ∀ F : List A, (∀ l v, InBox v dims → key ((S l).trim v) ∈ F) →
        ∀ budgets : List ℤ,
        (∃ b ∈ budgets, ((List.range 3).map fun l => cfg.modifier l * (F.length : K)).sum < (b : K)) →
        ∀ fuel, budgetWorker (hgsDriver cfg (nsgaiiOps S key m c d) ⟨len, hv, shuffle, fun l i v =>
          populationFromDelegate (S l).pw (S l).eps (ds l i) v (N l) dims (rate l) (eta l)⟩) fuel budgets
            ⟨some (0, s), 0⟩ = none) := by
  have hseed : ∀ l, l ≤ cfg.maxLevel → ∀ (i : ℕ) (v : List K), InBox v dims → ∃ pop,
      populationFromDelegate (S l).pw (S l).eps (ds l i) v (N l) dims (rate l) (eta l) = some pop ∧
        pop.length = N l ∧ ∀ x ∈ pop, InBox x dims := by
    intro l hl i v hv
    obtain ⟨pop, hp⟩ := Option.isSome_iff_exists.1 (C90_from_delegate_total (hS l hl).pow (hS l hl).eps
      (ds l i) (hds l i) v (N l) dims (rate l) (eta l) (heta l) hv)
    obtain ⟨h1, -, h3⟩ := C90_from_delegate _ _ _ _ _ _ _ _ hv pop hp
    exact ⟨pop, hp, h1.trans (max_eq_right (hN1 l hl)), h3⟩
  have hw : Ledger (fun l => (S l).trim) key dims m (fun _ _ => none : ℕ → Archive A (List K)) fun _ => 0 :=
    fun l => ⟨⟨[], List.nodup_nil, rfl, by simp⟩, by simp, by simp⟩
  obtain ⟨s, e0, h0⟩ := C114_stored (C := ⟨len, hv, shuffle, fun l i v =>
    populationFromDelegate (S l).pw (S l).eps (ds l i) v (N l) dims (rate l) (eta l)⟩)
    (nsgaii_contract (key := key) (c := c) hS hdims hfit hiter hdm hdv) (fun _ h => h.ge) hm2 hlen hsh hseed hr
    perm hperm _ hw
    population hN hbox
  refine ⟨s, e0, h0, ?_⟩
  rintro hmod F hF budgets ⟨b, hb, hlt⟩ fuel
  cases hr' : budgetWorker (hgsDriver cfg (nsgaiiOps S key m c d) ⟨len, hv, shuffle, fun l i v =>
    populationFromDelegate (S l).pw (S l).eps (ds l i) v (N l) dims (rate l) (eta l)⟩) fuel budgets
      ⟨some (0, s), 0⟩ with
  | none => rfl
  | some r =>
    obtain ⟨res, o'⟩ := r
    obtain ⟨h1, h2⟩ := h0 fuel budgets res o' hr'
    rw [← h1] at hb
    obtain ⟨r, hr1, rfl⟩ := List.mem_map.1 hb
    obtain ⟨n, t, e1, -, h3, -⟩ := h2 r hr1
    obtain ⟨s1, t1, f0, f1, -, -, -, _, -, -, h4⟩ := C106_nsgaii (key := key) (c := c) hm2 hS hdims hfit hiter hdm
      hdv len hlen hv shuffle hsh hN1 ds hds rate eta heta hr perm hperm population hN hbox n
    have : s1 = s := Option.some.inj (f0.symm.trans e0)
    subst this
    have : t1 = t := Option.some.inj (f1.symm.trans e1)
    subst this
    exact absurd (lt_of_le_of_lt (h4 hmod F hF) hlt) (not_lt.2 h3)

end

/-- The example of C106 with the budgets 3, 6 and 7: the results and their costs. -/
example : (start (K := ℚ) (nsgaiiOps (fun _ => exSetup) (id : List ℚ → List ℚ) 2 1 exNsgaiiDraws)
      [10, 10, 10] id 2 (fun _ _ => none) [[0], [1 / 2], [1]]).bind (fun s =>
        (budgetWorker (hgsDriver exTreeConf (nsgaiiOps (fun _ => exSetup) id 2 1 exNsgaiiDraws) exRunConf) 9
          [3, 6, 7] ⟨some (0, s), 0⟩).map fun r => r.1.map fun x => x.pop) =
    some [some ([[0], [151 / 202]], 3), some ([[0], [1927951 / 2060602], [0], [50 / 101]], 6),
      some ([[0], [1927951 / 2060602], [0], [897650 / 1030301]], 7)] := by
  decide +kernel

/-- The smaller budget comes second and gets the same result again; nothing has been done for the budget 0. -/
example : (start (K := ℚ) (nsgaiiOps (fun _ => exSetup) (id : List ℚ → List ℚ) 2 1 exNsgaiiDraws)
      [10, 10, 10] id 2 (fun _ _ => none) [[0], [1 / 2], [1]]).bind (fun s =>
        (budgetWorker (hgsDriver exTreeConf (nsgaiiOps (fun _ => exSetup) id 2 1 exNsgaiiDraws) exRunConf) 9
          [0, 6, 3] ⟨some (0, s), 0⟩).map fun r => r.1.map fun x => x.pop) =
    some [some ([], 0), some ([[0], [1927951 / 2060602], [0], [50 / 101]], 6),
      some ([[0], [1927951 / 2060602], [0], [50 / 101]], 6)] := by
  decide +kernel

theorem exRounded_valid : exRounded.Valid :=
  ⟨exSetup_valid.pow, exSetup_valid.eps, exSetup_valid.crossEta, exSetup_valid.mutEta, by
    intro v hv
    obtain ⟨x, rfl⟩ : ∃ x, v = [x] := by
      cases hv with
      | cons _ h => cases h; exact ⟨_, rfl⟩
    simp only [exRounded, exSetup, List.map_cons, List.map_nil]
    refine List.Forall₂.cons ?_ List.Forall₂.nil
    split_ifs <;> norm_num⟩

/-- With the rounded vectors, the budget 4 is never met: there are two vectors on each of three levels, and the
cost modifiers are 1, 1 / 2 and 1 / 4. -/
example : ∃ s, start (K := ℚ) (nsgaiiOps (fun _ => exRounded) (id : List ℚ → List ℚ) 2 1 exNsgaiiDraws)
      [10, 10, 10] id 2 (fun _ _ => none) [[0], [1 / 2], [1]] = some s ∧
    ∀ fuel, budgetWorker (hgsDriver exTreeConf (nsgaiiOps (fun _ => exRounded) id 2 1 exNsgaiiDraws) exRunConf)
      fuel [2, 4] ⟨some (0, s), 0⟩ = none := by
  obtain ⟨s, h1, -, h2⟩ := C114_nsgaii (cfg := exTreeConf) (S := fun _ => exRounded) (key := id) (m := 2) (c := 1)
    (d := exNsgaiiDraws) (N := fun _ => 2) (dims := [(0, 1)]) (by decide) (fun _ _ => exRounded_valid)
    (fun _ _ => rfl) (fun _ _ _ _ _ => rfl) (fun _ _ _ _ => List.Perm.refl _)
    (fun _ _ _ _ _ _ => by constructor <;> simp [exNsgaiiDraws])
    (fun i k j n => ⟨fun _ => ⟨by simp only [exNsgaiiDraws]; positivity, by
      simp only [exNsgaiiDraws]
      rw [div_lt_one (by positivity)]
      have h1 : (0 : ℚ) ≤ k := Nat.cast_nonneg _
      have h2 : (0 : ℚ) ≤ j := Nat.cast_nonneg _
      linarith⟩, fun _ => by simp only [exNsgaiiDraws]; norm_num⟩)
    (fun _ => 1) (fun _ => le_rfl) (fun p => p.flatten.sum) (fun _ _ => id) (fun _ _ _ => List.Perm.refl _)
    (fun _ _ => by decide) (fun _ _ _ _ => ⟨0, 1 / 4⟩) (fun _ _ _ _ => by norm_num) (fun _ => 1)
    (fun _ => 1) (fun _ => by norm_num) (ratio := [10, 10, 10]) (by decide) id (fun _ => List.Perm.refl _)
    [[0], [1 / 2], [1]] (by decide) exBox
  refine ⟨s, h1, h2 (fun l => by simp only [exTreeConf]; positivity) [[0], [1]] ?_ [2, 4] ⟨4, by simp, ?_⟩⟩
  · intro _ v hv
    cases hv with
    | cons _ h =>
      cases h
      simp only [exRounded, List.map_cons, List.map_nil, id]
      split_ifs <;> simp
  · simp only [exTreeConf, List.range_succ, List.range_zero]
    norm_num

/-- With SPEA2 every step costs something; the budget 7 is met after four steps. -/
example : (start (K := ℚ) (spea2Ops (fun _ => exSetup) (fun a b => |a.sum - b.sum|)
      (id : List ℚ → List ℚ) exSpea2Draws) [10, 10, 10] id 2 () [[0], [1 / 2], [1]]).bind (fun s =>
        (budgetWorker (hgsDriver exTreeConf (spea2Ops (fun _ => exSetup) (fun a b => |a.sum - b.sum|)
          (id : List ℚ → List ℚ) exSpea2Draws) exRunConf) 4 [7] ⟨some (0, s), 0⟩).map
            fun r => r.1.map fun x => x.pop) =
    some [some ([[129403 / 163216], [129403 / 163216], [129403 / 163216], [6599553 / 16484816]], 7)] := by
  decide +kernel

end Evogil.Hgs
