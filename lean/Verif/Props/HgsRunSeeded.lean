import Verif.Props.HgsRun

/-!
# C106 for any driver that works on the vectors of a box

The sprouts are seeded with `population_from_delegate`.
-/

set_option linter.unusedSectionVars false

namespace Evogil.Hgs

open Generations

section
variable {K : Type*} [Field K] [LinearOrder K] [IsStrictOrderedRing K] {W σ : Type*}
  {O : NodeOps W σ (List K)} {S : ℕ → Setup K} {N : ℕ → ℕ} {dims : List (K × K)} {g : ℕ}
  {G H : ℕ → σ → Prop} {Sz : ℕ → ℕ → Prop} {size : ℕ} {GW : W → (ℕ → ℕ) → Prop} {Free : Prop}

/-- **C106 for drivers of a box.** If the drivers keep the contract for the vectors of the box, then
however many steps are made, nothing raises; all vectors of the result are in the box; there are at least
`size` of them from the first step on, if the root has at least `size` after a metaepoch; and each step costs at least the smallest cost of
a step of a driver times the smallest cost modifier. -/
theorem C106_box {cfg : Conf (List K) K} (hm2 : cfg.maxLevel ≤ 2)
    (hc : Contract O cfg.maxLevel (fun v => InBox v dims) N Sz G H GW Free g)
    (hsize : ∀ p, Sz 0 p → size ≤ p) (hS : ∀ l, l ≤ cfg.maxLevel → (S l).Valid) (hN1 : ∀ l, l ≤ cfg.maxLevel → 1 ≤ N l)
    (len : ℕ → ℕ) (hlen : ∀ l, 1 ≤ len l) (hv : List (List K) → K)
    (shuffle : ℕ → ℕ → List (List K) → List (List K)) (hsh : ∀ i k l, (shuffle i k l).Perm l)
    (ds : ℕ → ℕ → ℕ → ℕ → MutDraw K)
    (hds : ∀ l i k n, 0 ≤ (ds l i k n).rnd ∧ (ds l i k n).rnd ≤ 1) (rate eta : ℕ → K)
    (heta : ∀ l, 0 ≤ eta l) {ratio : List K} (hr : 3 ≤ ratio.length)
    (perm : List (List K) → List (List K)) (hperm : ∀ l, (perm l).Perm l) (w : W) (hw : GW w fun _ => 0)
    (population : List (List K)) (hN : N 0 ≤ population.length) (hbox : ∀ v ∈ population, InBox v dims)
    (μ : K) (hμ : 0 ≤ μ) (hmod : ∀ l, l ≤ cfg.maxLevel → μ ≤ cfg.modifier l) (n : ℕ) :
    ∃ s s', start O ratio perm (N 0) w population = some s ∧
      runSteps cfg O ⟨len, hv, shuffle, fun l i v =>
        populationFromDelegate (S l).pw (S l).eps (ds l i) v (N l) dims (rate l) (eta l)⟩ 0 n s = some s' ∧
      (∀ v ∈ result s', InBox v dims) ∧ (1 ≤ n → size ≤ (result s').length) ∧
      n * (μ * g) ≤ s'.tree.cost := by
  have hseed : ∀ l, l ≤ cfg.maxLevel → ∀ (i : ℕ) (v : List K), InBox v dims → ∃ pop,
      populationFromDelegate (S l).pw (S l).eps (ds l i) v (N l) dims (rate l) (eta l) = some pop ∧
        pop.length = N l ∧ ∀ x ∈ pop, InBox x dims := by
    intro l hl i v hv
    obtain ⟨pop, hp⟩ := Option.isSome_iff_exists.1 (C90_from_delegate_total (hS l hl).pow (hS l hl).eps
      (ds l i) (hds l i) v (N l) dims (rate l) (eta l) (heta l) hv)
    obtain ⟨h1, -, h3⟩ := C90_from_delegate _ _ _ _ _ _ _ _ hv pop hp
    exact ⟨pop, hp, h1.trans (max_eq_right (hN1 l hl)), h3⟩
  obtain ⟨s, s', e0, e1, h1, -, h2⟩ := C106_run hc hm2 ⟨len, hv, shuffle, fun l i v =>
    populationFromDelegate (S l).pw (S l).eps (ds l i) v (N l) dims (rate l) (eta l)⟩ hlen hsh hseed hr
    perm hperm w hw population hN hbox n
  refine ⟨s, s', e0, e1, h1, fun hn => (h2 hn).elim fun p hp => (hsize p hp.1).trans hp.2, ?_⟩
  obtain ⟨t, f0, i0, ht⟩ := hc.start (cfg := cfg) rfl hr perm hperm w hw population hN hbox
  have : s = t := Option.some.inj (e0.symm.trans f0)
  subst this
  have key : ∀ (n k : ℕ) (s s' : Run W σ (List K) K),
      RunInv cfg O (fun v => InBox v dims) Sz G GW Free s →
      runSteps cfg O ⟨len, hv, shuffle, fun l i v =>
        populationFromDelegate (S l).pw (S l).eps (ds l i) v (N l) dims (rate l) (eta l)⟩ k n s = some s' →
      s.tree.cost + n * (μ * g) ≤ s'.tree.cost := by
    intro n
    induction n with
    | zero =>
      intro k s s' _ h
      cases h
      simp
    | succ n ih =>
      intro k s s' hs h
      obtain ⟨u, e, hu, hle⟩ := C106_progress hc hm2 ⟨len, hv, shuffle, fun l i v =>
        populationFromDelegate (S l).pw (S l).eps (ds l i) v (N l) dims (rate l) (eta l)⟩ hlen hsh hseed
        μ hμ hmod k s hs
      rw [runSteps, e, Option.bind_some] at h
      have := ih (k + 1) u s' hu h
      push_cast
      linarith
  have := key n 0 s s' i0 e1
  rw [ht] at this
  simpa [init] using this

end

end Evogil.Hgs
