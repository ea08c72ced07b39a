import Verif.Props.HgsRunArchive
import Verif.Props.DistDriversRest

/-!
# C106 and C114 for the sequential HGS with OMOPSO, NSGA-III, NSLS and JGBL in its nodes

The drivers but OMOPSO evaluate with the archive of their level.
-/

set_option linter.unusedSectionVars false

namespace Evogil.Hgs

open Generations Evaluation Spec

section
variable {K : Type*} [Field K] [LinearOrder K] [IsStrictOrderedRing K] {A σ : Type*}

/-- A vector is paid for once on each level: the cost, with what the drivers of the newest sprouts have already
charged, is the sum over the levels of the cost modifier times the number of entries of the archive of the level.
The keys of the entries satisfy `Q`; if these are finitely many, the cost never exceeds their number times the
sum of the cost modifiers. -/
def PaidOnce (cfg : Conf (List K) K) (O : NodeOps (ℕ → Archive A (List K)) σ (List K)) (Q : ℕ → A → Prop)
    (s : Run (ℕ → Archive A (List K)) σ (List K) K) : Prop :=
  (∀ l k, (s.world l k).isSome → Q l k) ∧
  (∃ entries : ℕ → ℕ, (∀ l, Entries (s.world l) (entries l)) ∧
    s.tree.cost + ((s.tree.nodes.zip s.drivers).map fun p =>
      if p.1.pop.isEmpty then cfg.modifier p.1.level * (O.cost p.2 : K) else 0).sum =
    ((List.range 3).map fun l => cfg.modifier l * (entries l : K)).sum) ∧
  ((∀ l, 0 ≤ cfg.modifier l) → ∀ F : List A, (∀ l k, Q l k → k ∈ F) →
    s.tree.cost ≤ ((List.range 3).map fun l => cfg.modifier l * (F.length : K)).sum)

variable {O : NodeOps (ℕ → Archive A (List K)) σ (List K)} {S : ℕ → Setup K} {N : ℕ → ℕ}
  {dims : List (K × K)} {g : ℕ} {G H : ℕ → σ → Prop} {GW : (ℕ → Archive A (List K)) → (ℕ → ℕ) → Prop}
  {Q : ℕ → A → Prop}

/-- **C106 for drivers with an archive.** However many steps are made, nothing raises; all vectors of the result
are in the box; there are at least `population_sizes[0]` of them from the first step on; a vector is paid for
once on each level. -/
theorem C106_archive {cfg : Conf (List K) K} (hm2 : cfg.maxLevel ≤ 2)
    (hc : Contract O cfg.maxLevel (fun v => InBox v dims) N (fun l p => p = N l) G H GW True g)
    (hGW : ∀ w n, GW w n → ∀ l, Entries (w l) (n l) ∧ ∀ k, (w l k).isSome → Q l k)
    (hw : GW (fun _ _ => none) fun _ => 0)
    (hS : ∀ l, l ≤ cfg.maxLevel → (S l).Valid) (hN1 : ∀ l, l ≤ cfg.maxLevel → 1 ≤ N l)
    (len : ℕ → ℕ) (hlen : ∀ l, 1 ≤ len l) (hv : List (List K) → K)
    (shuffle : ℕ → ℕ → List (List K) → List (List K)) (hsh : ∀ i k l, (shuffle i k l).Perm l)
    (ds : ℕ → ℕ → ℕ → ℕ → MutDraw K)
    (hds : ∀ l i k n, 0 ≤ (ds l i k n).rnd ∧ (ds l i k n).rnd ≤ 1) (rate eta : ℕ → K)
    (heta : ∀ l, 0 ≤ eta l) {ratio : List K} (hr : 3 ≤ ratio.length)
    (perm : List (List K) → List (List K)) (hperm : ∀ l, (perm l).Perm l)
    (population : List (List K)) (hN : N 0 ≤ population.length) (hbox : ∀ v ∈ population, InBox v dims) (n : ℕ) :
    ∃ s s', start O ratio perm (N 0) (fun _ _ => none) population = some s ∧
      runSteps cfg O ⟨len, hv, shuffle, fun l i v =>
        populationFromDelegate (S l).pw (S l).eps (ds l i) v (N l) dims (rate l) (eta l)⟩ 0 n s = some s' ∧
      (∀ v ∈ result s', InBox v dims) ∧ (1 ≤ n → N 0 ≤ (result s').length) ∧
      PaidOnce cfg O Q s' := by
  have hseed : ∀ l, l ≤ cfg.maxLevel → ∀ (i : ℕ) (v : List K), InBox v dims → ∃ pop,
      populationFromDelegate (S l).pw (S l).eps (ds l i) v (N l) dims (rate l) (eta l) = some pop ∧
        pop.length = N l ∧ ∀ x ∈ pop, InBox x dims := by
    intro l hl i v hv
    obtain ⟨pop, hp⟩ := Option.isSome_iff_exists.1 (C90_from_delegate_total (hS l hl).pow (hS l hl).eps
      (ds l i) (hds l i) v (N l) dims (rate l) (eta l) (heta l) hv)
    obtain ⟨h1, -, h3⟩ := C90_from_delegate _ _ _ _ _ _ _ _ hv pop hp
    exact ⟨pop, hp, h1.trans (max_eq_right (hN1 l hl)), h3⟩
  obtain ⟨s, s', e0, e1, h1, -, h2⟩ := C106_run hc hm2 ⟨len, hv, shuffle, fun l i v =>
    populationFromDelegate (S l).pw (S l).eps (ds l i) v (N l) dims (rate l) (eta l)⟩ hlen hsh hseed hr
    perm hperm _ hw population hN hbox n
  obtain ⟨t, f0, i0, -⟩ := hc.start (cfg := cfg) rfl hr perm hperm _ hw population hN hbox
  have : s = t := Option.some.inj (e0.symm.trans f0)
  subst this
  obtain ⟨t, f1, i1⟩ := hc.runSteps rfl hm2 ⟨len, hv, shuffle, fun l i v =>
    populationFromDelegate (S l).pw (S l).eps (ds l i) v (N l) dims (rate l) (eta l)⟩ hlen hsh hseed n 0 s i0
  have : s' = t := Option.some.inj (e1.symm.trans f1)
  subst this
  have hcost := C106_cost trivial hm2 (fun l hl h => by have := hN1 l hl; omega) s' i1
  refine ⟨s, s', e0, e1, h1, fun hn => (h2 hn).elim fun p hp => hp.1.ge.trans hp.2,
    fun l => (hGW _ _ i1.world l).2, ⟨_, fun l => (hGW _ _ i1.world l).1, hcost⟩, ?_⟩
  intro hpos F hF
  have hle : s'.tree.cost ≤ ((List.range 3).map fun l => cfg.modifier l * (levelCost
      (s'.tree.nodes.map Node.level) (s'.drivers.map O.cost) l : K)).sum := by
    rw [← hcost]
    refine le_add_of_nonneg_right (List.sum_nonneg ?_)
    intro x hx
    obtain ⟨p, -, rfl⟩ := List.mem_map.1 hx
    split_ifs
    · exact mul_nonneg (hpos _) (Nat.cast_nonneg _)
    · exact le_rfl
  refine hle.trans (List.sum_le_sum ?_)
  intro l _
  refine mul_le_mul_of_nonneg_left (Nat.cast_le.2 ?_) (hpos l)
  obtain ⟨⟨ks, k1, k2, k3⟩, k4⟩ := hGW _ _ i1.world l
  rw [← k2]
  exact (k1.subperm fun k hk => hF l k (k4 k ((k3 k).2 hk))).length_le

/-- **C114 for drivers with an archive.** If a budget simulation ends, it has stored what it should. If there are
only finitely many keys, a budget above the cost of them all on all levels is never met, and the simulation goes
on for ever. -/
theorem C114_archive {K : Type*} [Field K] [LinearOrder K] [IsStrictOrderedRing K] [FloorRing K] {A σ : Type*}
    {O : NodeOps (ℕ → Archive A (List K)) σ (List K)} {S : ℕ → Setup K} {N : ℕ → ℕ}
    {dims : List (K × K)} {g : ℕ} {G H : ℕ → σ → Prop} {GW : (ℕ → Archive A (List K)) → (ℕ → ℕ) → Prop}
    {Q : ℕ → A → Prop} {cfg : Conf (List K) K} (hm2 : cfg.maxLevel ≤ 2)
    (hc : Contract O cfg.maxLevel (fun v => InBox v dims) N (fun l p => p = N l) G H GW True g)
    (hGW : ∀ w n, GW w n → ∀ l, Entries (w l) (n l) ∧ ∀ k, (w l k).isSome → Q l k)
    (hw : GW (fun _ _ => none) fun _ => 0)
    (hS : ∀ l, l ≤ cfg.maxLevel → (S l).Valid) (hN1 : ∀ l, l ≤ cfg.maxLevel → 1 ≤ N l)
    (len : ℕ → ℕ) (hlen : ∀ l, 1 ≤ len l) (hv : List (List K) → K)
    (shuffle : ℕ → ℕ → List (List K) → List (List K)) (hsh : ∀ i k l, (shuffle i k l).Perm l)
    (ds : ℕ → ℕ → ℕ → ℕ → MutDraw K)
    (hds : ∀ l i k n, 0 ≤ (ds l i k n).rnd ∧ (ds l i k n).rnd ≤ 1) (rate eta : ℕ → K)
    (heta : ∀ l, 0 ≤ eta l) {ratio : List K} (hr : 3 ≤ ratio.length)
    (perm : List (List K) → List (List K)) (hperm : ∀ l, (perm l).Perm l)
    (population : List (List K)) (hN : N 0 ≤ population.length) (hbox : ∀ v ∈ population, InBox v dims) :
    ∃ s, start O ratio perm (N 0) (fun _ _ => none) population = some s ∧
      (∀ fuel budgets res o', budgetWorker (hgsDriver cfg O ⟨len, hv, shuffle, fun l i v =>
        populationFromDelegate (S l).pw (S l).eps (ds l i) v (N l) dims (rate l) (eta l)⟩) fuel budgets
            ⟨some (0, s), 0⟩ = some (res, o') →
        Stores cfg O ⟨len, hv, shuffle, fun l i v =>
        populationFromDelegate (S l).pw (S l).eps (ds l i) v (N l) dims (rate l) (eta l)⟩ (fun v => InBox v dims) (N 0) s budgets res) ∧
      ((∀ l, 0 ≤ cfg.modifier l) → ∀ F : List A, (∀ l k, Q l k → k ∈ F) →
        ∀ budgets : List ℤ,
        (∃ b ∈ budgets, ((List.range 3).map fun l => cfg.modifier l * (F.length : K)).sum < (b : K)) →
        ∀ fuel, budgetWorker (hgsDriver cfg O ⟨len, hv, shuffle, fun l i v =>
        populationFromDelegate (S l).pw (S l).eps (ds l i) v (N l) dims (rate l) (eta l)⟩) fuel budgets ⟨some (0, s), 0⟩ = none) := by
  have hseed : ∀ l, l ≤ cfg.maxLevel → ∀ (i : ℕ) (v : List K), InBox v dims → ∃ pop,
      populationFromDelegate (S l).pw (S l).eps (ds l i) v (N l) dims (rate l) (eta l) = some pop ∧
        pop.length = N l ∧ ∀ x ∈ pop, InBox x dims := by
    intro l hl i v hv
    obtain ⟨pop, hp⟩ := Option.isSome_iff_exists.1 (C90_from_delegate_total (hS l hl).pow (hS l hl).eps
      (ds l i) (hds l i) v (N l) dims (rate l) (eta l) (heta l) hv)
    obtain ⟨h1, -, h3⟩ := C90_from_delegate _ _ _ _ _ _ _ _ hv pop hp
    exact ⟨pop, hp, h1.trans (max_eq_right (hN1 l hl)), h3⟩
  obtain ⟨s, e0, h0⟩ := C114_stored (C := ⟨len, hv, shuffle, fun l i v =>
    populationFromDelegate (S l).pw (S l).eps (ds l i) v (N l) dims (rate l) (eta l)⟩)
    hc (fun _ h => h.ge) hm2 hlen hsh hseed hr perm hperm _ hw population hN hbox
  refine ⟨s, e0, h0, ?_⟩
  rintro hmod F hF budgets ⟨b, hb, hlt⟩ fuel
  cases hr' : budgetWorker (hgsDriver cfg O ⟨len, hv, shuffle, fun l i v =>
    populationFromDelegate (S l).pw (S l).eps (ds l i) v (N l) dims (rate l) (eta l)⟩) fuel budgets
      ⟨some (0, s), 0⟩ with
  | none => rfl
  | some r =>
    obtain ⟨res, o'⟩ := r
    obtain ⟨h1, h2⟩ := h0 fuel budgets res o' hr'
    rw [← h1] at hb
    obtain ⟨r, hr1, rfl⟩ := List.mem_map.1 hb
    obtain ⟨n, t, e1, -, h3, -⟩ := h2 r hr1
    obtain ⟨s1, t1, f0, f1, -, -, -, -, h4⟩ := C106_archive hm2 hc hGW hw hS hN1 len hlen hv shuffle hsh ds hds
      rate eta heta hr perm hperm population hN hbox n
    have : s1 = s := Option.some.inj (f0.symm.trans e0)
    subst this
    have : t1 = t := Option.some.inj (f1.symm.trans e1)
    subst this
    exact absurd (lt_of_le_of_lt (h4 hmod F hF) hlt) (not_lt.2 h3)

end

section
variable {K : Type*} [Field K] [LinearOrder K] [IsStrictOrderedRing K] {A : Type*} [DecidableEq A]
  {key : List K → A} {S : ℕ → Setup K} {N : ℕ → ℕ} {dims : List (K × K)} {m : ℕ}

/-- **C106 for NSGA-III**, at least two individuals on every level. -/
theorem C106_nsgaiii {pw : K → K → K} {sq : K → K} {eps : K} {f : ℕ → List K → List K}
    {cf : ℕ → ℕ → Nsgaiii.Conf K} {d : NsgaiiiDraws K} {trim : ℕ → List K → List K}
    {cfg : Conf (List K) K} (hm2 : cfg.maxLevel ≤ 2)
    (hS : ∀ l, l ≤ cfg.maxLevel → (S l).Valid) (hp : PowLaws pw) (he : 0 < eps)
    (hkey : ∀ l, l ≤ cfg.maxLevel → ∀ u v, key u = key v → f l u = f l v)
    (hcf : ∀ l, l ≤ cfg.maxLevel → ∀ i, Nsgaiii.ConfOk (f l) (cf l i))
    (hdims : ∀ l, l ≤ cfg.maxLevel → ∀ i, (cf l i).dims = dims)
    (htrim : ∀ l, l ≤ cfg.maxLevel → ∀ i, (cf l i).trim = trim l) (hN2 : ∀ l, l ≤ cfg.maxLevel → 2 ≤ N l)
    (hd : ∀ l, l ≤ cfg.maxLevel → ∀ i k j,
      Nsgaiii.DrawsOk (N l) (d.ds l i k j) (d.iter i k j) (d.sample i k j))
    (len : ℕ → ℕ) (hlen : ∀ l, 1 ≤ len l) (hv : List (List K) → K)
    (shuffle : ℕ → ℕ → List (List K) → List (List K)) (hsh : ∀ i k l, (shuffle i k l).Perm l)
    (ds : ℕ → ℕ → ℕ → ℕ → MutDraw K)
    (hds : ∀ l i k n, 0 ≤ (ds l i k n).rnd ∧ (ds l i k n).rnd ≤ 1) (rate eta : ℕ → K)
    (heta : ∀ l, 0 ≤ eta l) {ratio : List K} (hr : 3 ≤ ratio.length)
    (perm : List (List K) → List (List K)) (hperm : ∀ l, (perm l).Perm l)
    (population : List (List K)) (hN : N 0 ≤ population.length) (hbox : ∀ v ∈ population, InBox v dims) (n : ℕ) :
    ∃ s s', start (nsgaiiiSeqOps pw sq eps key f cf d) ratio perm (N 0) (fun _ _ => none) population = some s ∧
      runSteps cfg (nsgaiiiSeqOps pw sq eps key f cf d) ⟨len, hv, shuffle, fun l i v =>
        populationFromDelegate (S l).pw (S l).eps (ds l i) v (N l) dims (rate l) (eta l)⟩ 0 n s = some s' ∧
      (∀ v ∈ result s', InBox v dims) ∧ (1 ≤ n → N 0 ≤ (result s').length) ∧
      PaidOnce cfg (nsgaiiiSeqOps pw sq eps key f cf d) (fun l k => ∃ v, InBox v dims ∧ key (trim l v) = k) s' :=
  C106_archive hm2 (nsgaiii_seq_contract (sq := sq) hp he hkey hcf hdims htrim hN2 hd)
    (fun _ _ h l => ⟨(h l).1, (h l).2.2⟩) (fun _ => held_empty) hS (fun l hl => by have := hN2 l hl; omega)
    len hlen hv shuffle hsh ds hds rate eta heta hr perm hperm population hN hbox n

/-- **C106 for NSLS**, at least two individuals on every level, if the local search always finds a trial
that is not dominated. -/
theorem C106_nsls {trim : ℕ → List K → List K} {f : ℕ → List K → List K} {vdist : List K → List K → K}
    {d : NslsDraws K} {cfg : Conf (List K) K} (hm2 : cfg.maxLevel ≤ 2)
    (hS : ∀ l, l ≤ cfg.maxLevel → (S l).Valid) (ht : ∀ l, l ≤ cfg.maxLevel → Nsls.TrimOk dims (trim l))
    (hf : ∀ l, l ≤ cfg.maxLevel → ∀ v, (f l v).length = m) (hm : 1 ≤ m)
    (hkey : ∀ l, l ≤ cfg.maxLevel → ∀ u v, key u = key v → f l u = f l v)
    (hN2 : ∀ l, l ≤ cfg.maxLevel → 2 ≤ N l)
    (hd : ∀ l, l ≤ cfg.maxLevel → ∀ i k j,
      Nsls.DrawsOk (N l) (d.ds l i k j) (d.iter i k j) (d.sample i k j))
    (hprod : ∀ l, l ≤ cfg.maxLevel → ∀ i k j (s : Nsls.Costed K) done, Nsls.CGood dims (f l) (N l) done s →
      Nsls.Productive dims (trim l) (f l) (d.ds l i k j) s.inds)
    (len : ℕ → ℕ) (hlen : ∀ l, 1 ≤ len l) (hv : List (List K) → K)
    (shuffle : ℕ → ℕ → List (List K) → List (List K)) (hsh : ∀ i k l, (shuffle i k l).Perm l)
    (ds : ℕ → ℕ → ℕ → ℕ → MutDraw K)
    (hds : ∀ l i k n, 0 ≤ (ds l i k n).rnd ∧ (ds l i k n).rnd ≤ 1) (rate eta : ℕ → K)
    (heta : ∀ l, 0 ≤ eta l) {ratio : List K} (hr : 3 ≤ ratio.length)
    (perm : List (List K) → List (List K)) (hperm : ∀ l, (perm l).Perm l)
    (population : List (List K)) (hN : N 0 ≤ population.length) (hbox : ∀ v ∈ population, InBox v dims) (n : ℕ) :
    ∃ s s', start (nslsSeqOps dims trim key f m vdist d) ratio perm (N 0) (fun _ _ => none) population = some s ∧
      runSteps cfg (nslsSeqOps dims trim key f m vdist d) ⟨len, hv, shuffle, fun l i v =>
        populationFromDelegate (S l).pw (S l).eps (ds l i) v (N l) dims (rate l) (eta l)⟩ 0 n s = some s' ∧
      (∀ v ∈ result s', InBox v dims) ∧ (1 ≤ n → N 0 ≤ (result s').length) ∧
      PaidOnce cfg (nslsSeqOps dims trim key f m vdist d) (fun _ k => ∃ v, InBox v dims ∧ key v = k) s' :=
  C106_archive hm2 (nsls_seq_contract (vdist := vdist) ht hf hm hkey hN2 hd hprod)
    (fun _ _ h l => ⟨(h l).1, (h l).2.2⟩) (fun _ => held_empty) hS (fun l hl => by have := hN2 l hl; omega)
    len hlen hv shuffle hsh ds hds rate eta heta hr perm hperm population hN hbox n

end

section
variable {K : Type*} [Field K] [LinearOrder K] [IsStrictOrderedRing K] [FloorSemiring K] {A : Type*}
  [DecidableEq A] {S : ℕ → Setup K} {key : List K → A} {m : ℕ} {c : K} {d : JgblDraws K} {jumps : ℕ}
  {N : ℕ → ℕ} {dims : List (K × K)}

/-- **C106 for JGBL**, objective values blurred anew in every step. -/
theorem C106_jgbl {cfg : Conf (List K) K} (hm2 : cfg.maxLevel ≤ 2)
    (hS : ∀ l, l ≤ cfg.maxLevel → (S l).Valid) (hdims : ∀ l, l ≤ cfg.maxLevel → (S l).dims = dims)
    (hproper : Jgbl.ProperBox dims)
    (hfit : ∀ l i k j v, (d.fit l i k j v).length = m) (ho : ∀ i k j, (d.orders i k j).Valid)
    (hdm : ∀ l, l ≤ cfg.maxLevel → ∀ i k j n, (d.dm l i k j n).Valid (N l))
    (hdv : ∀ i k j n, (d.dv i k j n).Valid)
    (hjd : ∀ i k j, Jumping.JumpsValid dims.length jumps (d.jd i k j)) (hN1 : ∀ l, l ≤ cfg.maxLevel → 1 ≤ N l)
    (len : ℕ → ℕ) (hlen : ∀ l, 1 ≤ len l) (hv : List (List K) → K)
    (shuffle : ℕ → ℕ → List (List K) → List (List K)) (hsh : ∀ i k l, (shuffle i k l).Perm l)
    (ds : ℕ → ℕ → ℕ → ℕ → MutDraw K)
    (hds : ∀ l i k n, 0 ≤ (ds l i k n).rnd ∧ (ds l i k n).rnd ≤ 1) (rate eta : ℕ → K)
    (heta : ∀ l, 0 ≤ eta l) {ratio : List K} (hr : 3 ≤ ratio.length)
    (perm : List (List K) → List (List K)) (hperm : ∀ l, (perm l).Perm l)
    (population : List (List K)) (hN : N 0 ≤ population.length) (hbox : ∀ v ∈ population, InBox v dims) (n : ℕ) :
    ∃ s s', start (jgblSeqOps S key m c d) ratio perm (N 0) (fun _ _ => none) population = some s ∧
      runSteps cfg (jgblSeqOps S key m c d) ⟨len, hv, shuffle, fun l i v =>
        populationFromDelegate (S l).pw (S l).eps (ds l i) v (N l) dims (rate l) (eta l)⟩ 0 n s = some s' ∧
      (∀ v ∈ result s', InBox v dims) ∧ (1 ≤ n → N 0 ≤ (result s').length) ∧
      PaidOnce cfg (jgblSeqOps S key m c d) (fun l k => ∃ v, InBox v dims ∧ key ((S l).trim v) = k) s' :=
  C106_archive hm2 (jgbl_seq_contract (key := key) (c := c) hS hdims hproper hfit ho hdm hdv hjd)
    (fun _ _ h l => ⟨(h l).1, (h l).2.2⟩) (fun l => ⟨⟨[], List.nodup_nil, rfl, by simp⟩, by simp, by simp⟩) hS hN1
    len hlen hv shuffle hsh ds hds rate eta heta hr perm hperm population hN hbox n

end

section
variable {K : Type*} [Field K] [LinearOrder K] [IsStrictOrderedRing K] [FloorRing K] {A : Type*} [DecidableEq A]
  {key : List K → A} {S : ℕ → Setup K} {N : ℕ → ℕ} {dims : List (K × K)} {m : ℕ}

/-- **C114 for NSGA-III**, at least two individuals on every level. -/
theorem C114_nsgaiii {pw : K → K → K} {sq : K → K} {eps : K} {f : ℕ → List K → List K}
    {cf : ℕ → ℕ → Nsgaiii.Conf K} {d : NsgaiiiDraws K} {trim : ℕ → List K → List K}
    {cfg : Conf (List K) K} (hm2 : cfg.maxLevel ≤ 2)
    (hS : ∀ l, l ≤ cfg.maxLevel → (S l).Valid) (hp : PowLaws pw) (he : 0 < eps)
    (hkey : ∀ l, l ≤ cfg.maxLevel → ∀ u v, key u = key v → f l u = f l v)
    (hcf : ∀ l, l ≤ cfg.maxLevel → ∀ i, Nsgaiii.ConfOk (f l) (cf l i))
    (hdims : ∀ l, l ≤ cfg.maxLevel → ∀ i, (cf l i).dims = dims)
    (htrim : ∀ l, l ≤ cfg.maxLevel → ∀ i, (cf l i).trim = trim l) (hN2 : ∀ l, l ≤ cfg.maxLevel → 2 ≤ N l)
    (hd : ∀ l, l ≤ cfg.maxLevel → ∀ i k j,
      Nsgaiii.DrawsOk (N l) (d.ds l i k j) (d.iter i k j) (d.sample i k j))
    (len : ℕ → ℕ) (hlen : ∀ l, 1 ≤ len l) (hv : List (List K) → K)
    (shuffle : ℕ → ℕ → List (List K) → List (List K)) (hsh : ∀ i k l, (shuffle i k l).Perm l)
    (ds : ℕ → ℕ → ℕ → ℕ → MutDraw K)
    (hds : ∀ l i k n, 0 ≤ (ds l i k n).rnd ∧ (ds l i k n).rnd ≤ 1) (rate eta : ℕ → K)
    (heta : ∀ l, 0 ≤ eta l) {ratio : List K} (hr : 3 ≤ ratio.length)
    (perm : List (List K) → List (List K)) (hperm : ∀ l, (perm l).Perm l)
    (population : List (List K)) (hN : N 0 ≤ population.length) (hbox : ∀ v ∈ population, InBox v dims) :
    ∃ s, start (nsgaiiiSeqOps pw sq eps key f cf d) ratio perm (N 0) (fun _ _ => none) population = some s ∧
      (∀ fuel budgets res o', budgetWorker (hgsDriver cfg (nsgaiiiSeqOps pw sq eps key f cf d) ⟨len, hv, shuffle, fun l i v =>
        populationFromDelegate (S l).pw (S l).eps (ds l i) v (N l) dims (rate l) (eta l)⟩) fuel budgets
            ⟨some (0, s), 0⟩ = some (res, o') →
        Stores cfg (nsgaiiiSeqOps pw sq eps key f cf d) ⟨len, hv, shuffle, fun l i v =>
        populationFromDelegate (S l).pw (S l).eps (ds l i) v (N l) dims (rate l) (eta l)⟩ (fun v => InBox v dims) (N 0) s budgets res) ∧
      ((∀ l, 0 ≤ cfg.modifier l) → ∀ F : List A, (∀ l v, InBox v dims → key (trim l v) ∈ F) →
        ∀ budgets : List ℤ,
        (∃ b ∈ budgets, ((List.range 3).map fun l => cfg.modifier l * (F.length : K)).sum < (b : K)) →
        ∀ fuel, budgetWorker (hgsDriver cfg (nsgaiiiSeqOps pw sq eps key f cf d) ⟨len, hv, shuffle, fun l i v =>
        populationFromDelegate (S l).pw (S l).eps (ds l i) v (N l) dims (rate l) (eta l)⟩) fuel budgets ⟨some (0, s), 0⟩ = none) :=
  (C114_archive hm2 (nsgaiii_seq_contract (sq := sq) hp he hkey hcf hdims htrim hN2 hd)
    (fun _ _ h l => ⟨(h l).1, (h l).2.2⟩) (fun _ => held_empty) hS (fun l hl => by have := hN2 l hl; omega)
    len hlen hv shuffle hsh ds hds rate eta heta hr perm hperm population hN hbox).imp fun _ h =>
      ⟨h.1, h.2.1, fun a F hF => h.2.2 a F fun l _ ⟨v, hv, e⟩ => e ▸ hF l v hv⟩

/-- **C114 for NSLS**, at least two individuals on every level, if the local search always finds a trial
that is not dominated. -/
theorem C114_nsls {trim : ℕ → List K → List K} {f : ℕ → List K → List K} {vdist : List K → List K → K}
    {d : NslsDraws K} {cfg : Conf (List K) K} (hm2 : cfg.maxLevel ≤ 2)
    (hS : ∀ l, l ≤ cfg.maxLevel → (S l).Valid) (ht : ∀ l, l ≤ cfg.maxLevel → Nsls.TrimOk dims (trim l))
    (hf : ∀ l, l ≤ cfg.maxLevel → ∀ v, (f l v).length = m) (hm : 1 ≤ m)
    (hkey : ∀ l, l ≤ cfg.maxLevel → ∀ u v, key u = key v → f l u = f l v)
    (hN2 : ∀ l, l ≤ cfg.maxLevel → 2 ≤ N l)
    (hd : ∀ l, l ≤ cfg.maxLevel → ∀ i k j,
      Nsls.DrawsOk (N l) (d.ds l i k j) (d.iter i k j) (d.sample i k j))
    (hprod : ∀ l, l ≤ cfg.maxLevel → ∀ i k j (s : Nsls.Costed K) done, Nsls.CGood dims (f l) (N l) done s →
      Nsls.Productive dims (trim l) (f l) (d.ds l i k j) s.inds)
    (len : ℕ → ℕ) (hlen : ∀ l, 1 ≤ len l) (hv : List (List K) → K)
    (shuffle : ℕ → ℕ → List (List K) → List (List K)) (hsh : ∀ i k l, (shuffle i k l).Perm l)
    (ds : ℕ → ℕ → ℕ → ℕ → MutDraw K)
    (hds : ∀ l i k n, 0 ≤ (ds l i k n).rnd ∧ (ds l i k n).rnd ≤ 1) (rate eta : ℕ → K)
    (heta : ∀ l, 0 ≤ eta l) {ratio : List K} (hr : 3 ≤ ratio.length)
    (perm : List (List K) → List (List K)) (hperm : ∀ l, (perm l).Perm l)
    (population : List (List K)) (hN : N 0 ≤ population.length) (hbox : ∀ v ∈ population, InBox v dims) :
    ∃ s, start (nslsSeqOps dims trim key f m vdist d) ratio perm (N 0) (fun _ _ => none) population = some s ∧
      (∀ fuel budgets res o', budgetWorker (hgsDriver cfg (nslsSeqOps dims trim key f m vdist d) ⟨len, hv, shuffle, fun l i v =>
        populationFromDelegate (S l).pw (S l).eps (ds l i) v (N l) dims (rate l) (eta l)⟩) fuel budgets
            ⟨some (0, s), 0⟩ = some (res, o') →
        Stores cfg (nslsSeqOps dims trim key f m vdist d) ⟨len, hv, shuffle, fun l i v =>
        populationFromDelegate (S l).pw (S l).eps (ds l i) v (N l) dims (rate l) (eta l)⟩ (fun v => InBox v dims) (N 0) s budgets res) ∧
      ((∀ l, 0 ≤ cfg.modifier l) → ∀ F : List A, (∀ v, InBox v dims → key v ∈ F) →
        ∀ budgets : List ℤ,
        (∃ b ∈ budgets, ((List.range 3).map fun l => cfg.modifier l * (F.length : K)).sum < (b : K)) →
        ∀ fuel, budgetWorker (hgsDriver cfg (nslsSeqOps dims trim key f m vdist d) ⟨len, hv, shuffle, fun l i v =>
        populationFromDelegate (S l).pw (S l).eps (ds l i) v (N l) dims (rate l) (eta l)⟩) fuel budgets ⟨some (0, s), 0⟩ = none) :=
  (C114_archive hm2 (nsls_seq_contract (vdist := vdist) ht hf hm hkey hN2 hd hprod)
    (fun _ _ h l => ⟨(h l).1, (h l).2.2⟩) (fun _ => held_empty) hS (fun l hl => by have := hN2 l hl; omega)
    len hlen hv shuffle hsh ds hds rate eta heta hr perm hperm population hN hbox).imp fun _ h =>
      ⟨h.1, h.2.1, fun a F hF => h.2.2 a F fun _ _ ⟨v, hv, e⟩ => e ▸ hF v hv⟩

variable {c : K} {d : JgblDraws K} {jumps : ℕ}

/-- **C114 for JGBL**, objective values blurred anew in every step. -/
theorem C114_jgbl {cfg : Conf (List K) K} (hm2 : cfg.maxLevel ≤ 2)
    (hS : ∀ l, l ≤ cfg.maxLevel → (S l).Valid) (hdims : ∀ l, l ≤ cfg.maxLevel → (S l).dims = dims)
    (hproper : Jgbl.ProperBox dims)
    (hfit : ∀ l i k j v, (d.fit l i k j v).length = m) (ho : ∀ i k j, (d.orders i k j).Valid)
    (hdm : ∀ l, l ≤ cfg.maxLevel → ∀ i k j n, (d.dm l i k j n).Valid (N l))
    (hdv : ∀ i k j n, (d.dv i k j n).Valid)
    (hjd : ∀ i k j, Jumping.JumpsValid dims.length jumps (d.jd i k j)) (hN1 : ∀ l, l ≤ cfg.maxLevel → 1 ≤ N l)
    (len : ℕ → ℕ) (hlen : ∀ l, 1 ≤ len l) (hv : List (List K) → K)
    (shuffle : ℕ → ℕ → List (List K) → List (List K)) (hsh : ∀ i k l, (shuffle i k l).Perm l)
    (ds : ℕ → ℕ → ℕ → ℕ → MutDraw K)
    (hds : ∀ l i k n, 0 ≤ (ds l i k n).rnd ∧ (ds l i k n).rnd ≤ 1) (rate eta : ℕ → K)
    (heta : ∀ l, 0 ≤ eta l) {ratio : List K} (hr : 3 ≤ ratio.length)
    (perm : List (List K) → List (List K)) (hperm : ∀ l, (perm l).Perm l)
    (population : List (List K)) (hN : N 0 ≤ population.length) (hbox : ∀ v ∈ population, InBox v dims) :
    ∃ s, start (jgblSeqOps S key m c d) ratio perm (N 0) (fun _ _ => none) population = some s ∧
      (∀ fuel budgets res o', budgetWorker (hgsDriver cfg (jgblSeqOps S key m c d) ⟨len, hv, shuffle, fun l i v =>
        populationFromDelegate (S l).pw (S l).eps (ds l i) v (N l) dims (rate l) (eta l)⟩) fuel budgets
            ⟨some (0, s), 0⟩ = some (res, o') →
        Stores cfg (jgblSeqOps S key m c d) ⟨len, hv, shuffle, fun l i v =>
        populationFromDelegate (S l).pw (S l).eps (ds l i) v (N l) dims (rate l) (eta l)⟩ (fun v => InBox v dims) (N 0) s budgets res) ∧
      ((∀ l, 0 ≤ cfg.modifier l) → ∀ F : List A, (∀ l v, InBox v dims → key ((S l).trim v) ∈ F) →
        ∀ budgets : List ℤ,
        (∃ b ∈ budgets, ((List.range 3).map fun l => cfg.modifier l * (F.length : K)).sum < (b : K)) →
        ∀ fuel, budgetWorker (hgsDriver cfg (jgblSeqOps S key m c d) ⟨len, hv, shuffle, fun l i v =>
        populationFromDelegate (S l).pw (S l).eps (ds l i) v (N l) dims (rate l) (eta l)⟩) fuel budgets ⟨some (0, s), 0⟩ = none) :=
  (C114_archive hm2 (jgbl_seq_contract (key := key) (c := c) hS hdims hproper hfit ho hdm hdv hjd)
    (fun _ _ h l => ⟨(h l).1, (h l).2.2⟩) (fun l => ⟨⟨[], List.nodup_nil, rfl, by simp⟩, by simp, by simp⟩) hS hN1
    len hlen hv shuffle hsh ds hds rate eta heta hr perm hperm population hN hbox).imp fun _ h =>
      ⟨h.1, h.2.1, fun a F hF => h.2.2 a F fun l _ ⟨v, hv, e⟩ => e ▸ hF l v hv⟩

end

section
variable {K : Type*} [Field K] [LinearOrder K] [IsStrictOrderedRing K] {S : ℕ → Setup K} {N : ℕ → ℕ}
  {dims : List (K × K)} {m g : ℕ}

/-- **C106 for OMOPSO**, which reads its archive but puts nothing into it: however many steps are made, nothing
raises; all vectors of the result are in the box; there is at least one from the first step on; and each step costs
at least the smallest size of a swarm times the smallest cost modifier. -/
theorem C106_omopso {trim : ℕ → List K → List K} {step : K} {fit : ℕ → List K → List K}
    {od : ℕ → ℕ → ℕ → ℕ → Swarm.SpeedDraw K} {cfg : Conf (List K) K} (hm2 : cfg.maxLevel ≤ 2)
    (hS : ∀ l, l ≤ cfg.maxLevel → (S l).Valid)
    (htrim : ∀ l, l ≤ cfg.maxLevel → ∀ v, InBox v dims → InBox (trim l v) dims)
    (hfit : ∀ l, l ≤ cfg.maxLevel → ∀ v, (fit l v).length = m) (hN1 : ∀ l, l ≤ cfg.maxLevel → 1 ≤ N l)
    (hod : ∀ i k j p, (od i k j p).Valid) (hg : ∀ l, l ≤ cfg.maxLevel → g ≤ N l)
    (len : ℕ → ℕ) (hlen : ∀ l, 1 ≤ len l) (hv : List (List K) → K)
    (shuffle : ℕ → ℕ → List (List K) → List (List K)) (hsh : ∀ i k l, (shuffle i k l).Perm l)
    (ds : ℕ → ℕ → ℕ → ℕ → MutDraw K)
    (hds : ∀ l i k n, 0 ≤ (ds l i k n).rnd ∧ (ds l i k n).rnd ≤ 1) (rate eta : ℕ → K)
    (heta : ∀ l, 0 ≤ eta l) {ratio : List K} (hr : 3 ≤ ratio.length)
    (perm : List (List K) → List (List K)) (hperm : ∀ l, (perm l).Perm l)
    (population : List (List K)) (hN : N 0 ≤ population.length) (hbox : ∀ v ∈ population, InBox v dims)
    (μ : K) (hμ : 0 ≤ μ) (hmod : ∀ l, l ≤ cfg.maxLevel → μ ≤ cfg.modifier l) (n : ℕ) :
    ∃ s s', start (omopsoOps dims trim step m fit od) ratio perm (N 0) () population = some s ∧
      runSteps cfg (omopsoOps dims trim step m fit od) ⟨len, hv, shuffle, fun l i v =>
        populationFromDelegate (S l).pw (S l).eps (ds l i) v (N l) dims (rate l) (eta l)⟩ 0 n s = some s' ∧
      (∀ v ∈ result s', InBox v dims) ∧ (1 ≤ n → 1 ≤ (result s').length) ∧
      n * (μ * g) ≤ s'.tree.cost :=
  C106_box hm2 (omopso_contract (eta := step) htrim hfit hN1 hod hg) (fun _ h => h) hS hN1 len hlen hv shuffle hsh
    ds hds rate eta heta hr perm hperm () trivial population hN hbox μ hμ hmod n

end

/-- **C114 (OMOPSO).** A simulation of HGS with OMOPSO and the shipped numbers, on any box and for any list of
budgets: it ends within a tenth of the largest budget of steps, nothing raises, and it has stored what it should;
the results have at least one vector. -/
theorem C114_omopso {K : Type*} [Field K] [LinearOrder K] [IsStrictOrderedRing K] [FloorRing K]
    {pw : K → K → K} {eps : K} {dims : List (K × K)} {trim : ℕ → List K → List K}
    (hpw : PowLaws pw) (heps : 0 < eps) (htrim : ∀ l v, InBox v dims → InBox (trim l v) dims)
    (near : ℕ → List K → List K → Bool) (mean : List (List K) → List K) (eps' : K)
    (hv : List (List K) → K)
    (shuffle : ℕ → ℕ → List (List K) → List (List K)) (hsh : ∀ i k l, (shuffle i k l).Perm l)
    (ds : ℕ → ℕ → ℕ → ℕ → MutDraw K)
    (hds : ∀ l i k n, 0 ≤ (ds l i k n).rnd ∧ (ds l i k n).rnd ≤ 1)
    (perm : List (List K) → List (List K)) (hperm : ∀ l, (perm l).Perm l)
    (population : List (List K)) (hpop : population.length = 64) (hbox : ∀ v ∈ population, InBox v dims)
    {m : ℕ} (step : K) (fit : ℕ → List K → List K) (hfit : ∀ l v, (fit l v).length = m)
    (od : ℕ → ℕ → ℕ → ℕ → Swarm.SpeedDraw K) (hod : ∀ i k j p, (od i k j p).Valid)
    (budgets : List ℤ) (fuel : ℕ) (hfuel : ∀ b ∈ budgets, b ≤ fuel * 10) :
    ∃ s res o', start (omopsoOps dims trim step m fit od) shipRatio perm 64 () population = some s ∧
      budgetWorker (hgsDriver (shipConf near mean eps') (omopsoOps dims trim step m fit od)
        ⟨fun _ => 5, hv, shuffle, fun l i v => populationFromDelegate pw eps (ds l i) v (shipSizes l) dims
          (1 / dims.length) (shipMutEta l)⟩) fuel budgets ⟨some (0, s), 0⟩ = some (res, o') ∧
      Stores (shipConf near mean eps') (omopsoOps dims trim step m fit od)
        ⟨fun _ => 5, hv, shuffle, fun l i v => populationFromDelegate pw eps (ds l i) v (shipSizes l) dims
          (1 / dims.length) (shipMutEta l)⟩ (fun v => InBox v dims) 1 s budgets res :=
  C114_box (cfg := shipConf near mean eps') (S := shipSetup pw eps dims trim) (N := shipSizes) (g := 10) le_rfl
    (omopso_contract (eta := step) (fun l _ => htrim l) (fun l _ => hfit l)
      (fun l _ => le_trans (by norm_num) (shipSizes_ge l)) hod (fun l _ => shipSizes_ge l))
    (fun _ h => h) (fun l _ => shipSetup_valid hpw heps htrim l) (fun l _ => le_trans (by norm_num) (shipSizes_ge l))
    (fun _ => 5) (fun _ => by norm_num) hv shuffle hsh ds hds (fun _ => 1 / dims.length) shipMutEta
    shipMutEta_nonneg le_rfl perm hperm () trivial population hpop.ge hbox 1 zero_le_one (fun _ _ => le_rfl)
    budgets fuel fun b hb => by
      have : ((b : ℤ) : K) ≤ ((fuel * 10 : ℤ) : K) := Int.cast_le.2 (hfuel b hb)
      simpa using this

open Evogil.Dist in
/-- With NSGA-III the first step evaluates four vectors; the same children are in the archive ever after, and the
cost does not grow any more. -/
example : [0, 1, 2, 6].map (fun n => (start (K := ℚ) (nsgaiiiSeqOps exSetup.pw id (1 / 1000) (id : List ℚ → List ℚ) (fun _ => exOpposite)
      (fun _ _ => exNsgaiiiConf) exNsgaiiiDraws)
      [10, 10, 10] id 2 (fun _ _ => none) [[0], [1 / 2], [1]]).bind (fun s =>
        (runSteps exTreeConf (nsgaiiiSeqOps exSetup.pw id (1 / 1000) (id : List ℚ → List ℚ) (fun _ => exOpposite)
      (fun _ _ => exNsgaiiiConf) exNsgaiiiDraws) exRunConf 0 n s).map
          fun s => (result s, s.tree.cost))) =
    [some ([], 0), some ([[0], [1 / 2]], 4), some ([[0], [1 / 2]], 4), some ([[0], [1 / 2]], 4)] := by
  decide +kernel

open Evogil.Dist in
/-- With NSLS the constructor evaluates nothing; the first step evaluates the two vectors and four trials, two of
which are found in the archive. -/
example : [0, 1, 2].map (fun n => (start (K := ℚ) (nslsSeqOps [(0, 1)] (fun _ => id) (id : List ℚ → List ℚ) (fun _ => exOpposite) 2
      (fun a b => |a.getD 0 0 - b.getD 0 0|) exNslsDraws)
      [10, 10, 10] id 2 (fun _ _ => none) [[0], [1 / 2], [1]]).bind (fun s =>
        (runSteps exTreeConf (nslsSeqOps [(0, 1)] (fun _ => id) (id : List ℚ → List ℚ) (fun _ => exOpposite) 2
      (fun a b => |a.getD 0 0 - b.getD 0 0|) exNslsDraws) exRunConf 0 n s).map
          fun s => (result s, s.tree.cost, s.drivers.map fun x => x.1.cost))) =
    [some ([], 0, [0]), some ([[0], [1 / 2]], 4, [4]), some ([[0], [1 / 2]], 4, [4])] := by
  decide +kernel

open Evogil.Dist in
/-- With JGBL after six steps there are four nodes; five vectors have been paid for on level 0, four on level 1 and
one, by a sprout that has not run, on level 2. -/
example : (start (K := ℚ) (jgblSeqOps (fun _ => exSetup) (id : List ℚ → List ℚ) 2 1 exJgblDraws)
      [10, 10, 10] id 2 (fun _ _ => none) [[0], [1 / 2], [1]]).bind (fun s =>
        (runSteps exTreeConf (jgblSeqOps (fun _ => exSetup) (id : List ℚ → List ℚ) 2 1 exJgblDraws) exRunConf 0 6 s).map
          fun s => (s.tree.cost, s.tree.nodes.map fun n => (n.level, n.alive, n.pop.length),
            s.drivers.map fun x => x.acc.cost)) =
    some (7, [(0, false, 2), (1, false, 2), (2, true, 0), (1, true, 0)], [5, 4, 1, 0]) := by
  decide +kernel

open Evogil.Dist in
/-- With OMOPSO every step of the root costs two. -/
example : [0, 1, 2, 4].map (fun n => (start (K := ℚ) (omopsoOps [(0, 1)] (fun _ => id) (3 / 400) 2 (fun _ => exOpposite)
      (fun _ _ _ _ => ⟨fun _ => (1, 0), 1, 1 / 4, 2, 2, 1⟩))
      [10, 10, 10] id 2 () [[0], [1 / 2], [1]]).bind (fun s =>
        (runSteps exTreeConf (omopsoOps [(0, 1)] (fun _ => id) (3 / 400) 2 (fun _ => exOpposite)
      (fun _ _ _ _ => ⟨fun _ => (1, 0), 1, 1 / 4, 2, 2, 1⟩)) exRunConf 0 n s).map
          fun s => (result s, s.tree.cost))) =
    [some ([], 0), some ([[0], [1 / 2], [1 / 4]], 4), some ([[0], [1 / 2], [1 / 4], [3 / 8]], 6),
      some ([[0], [1 / 2], [1 / 4], [3 / 8], [9 / 16], [0]], 10)] := by
  decide +kernel

open Evogil.Dist in
/-- The theorem applies to runs of HGS with NSGA-III. -/
example (n : ℕ) := C106_nsgaiii (cfg := exTreeConf)
  (key := (id : List ℚ → List ℚ)) (S := fun _ => exSetup) (N := fun _ => 2) (dims := [(0, 1)]) (pw := exSetup.pw)
  (sq := id) (eps := 1 / 1000) (f := fun _ => exOpposite) (cf := fun _ _ => exNsgaiiiConf) (d := exNsgaiiiDraws)
  (trim := fun _ => id)
  (by decide) (fun _ _ => exSetup_valid) exSetup_valid.pow (by norm_num) (fun _ _ _ _ h => congrArg exOpposite h)
  (fun _ _ _ => ⟨by norm_num [exNsgaiiiConf], by norm_num [exNsgaiiiConf], fun _ h => h, fun _ => rfl,
    fun _ => rfl⟩) (fun _ _ _ => rfl) (fun _ _ _ => rfl) (fun _ _ => le_rfl)
  (fun _ _ _ _ _ => ⟨fun _ => by constructor <;> norm_num [exNsgaiiiDraws], fun _ => List.Perm.refl _,
    fun l n h => exSample l n h⟩)
  (fun _ => 1) (fun _ => le_rfl) (fun p => p.flatten.sum) (fun _ _ => id) (fun _ _ _ => List.Perm.refl _)
  (fun _ _ _ _ => ⟨0, 1 / 4⟩) (fun _ _ _ _ => by norm_num) (fun _ => 1)
  (fun _ => 1) (fun _ => by norm_num) (ratio := [10, 10, 10]) (by decide) id (fun _ => List.Perm.refl _)
  [[0], [1 / 2], [1]] (by decide) exBox n

open Evogil.Dist in
/-- The theorem applies to runs of HGS with NSLS and two objectives that rank the vectors in opposite orders. -/
example (n : ℕ) := C106_nsls (cfg := exTreeConf)
  (key := (id : List ℚ → List ℚ)) (S := fun _ => exSetup) (m := 2) (N := fun _ => 2) (dims := [(0, 1)])
  (trim := fun _ => id) (f := fun _ => exOpposite) (vdist := fun a b => |a.getD 0 0 - b.getD 0 0|)
  (d := exNslsDraws) (by decide) (fun _ _ => exSetup_valid) (fun _ _ => exTrimOk) (fun _ _ _ => rfl) (by decide)
  (fun _ _ _ _ h => congrArg exOpposite h) (fun _ _ => le_rfl)
  (fun _ _ _ _ _ => ⟨fun _ _ => ⟨by simp [exNslsDraws], by simp [exNslsDraws]⟩, fun _ => List.Perm.refl _,
    fun l n h => exSample l n h⟩)
  (fun _ _ _ _ _ s done h => Nsls.C102_incomparable (m := 2) exTrimOk (fun _ => rfl) (by simp)
    (fun x y _ _ => exOpposite_incomparable x y) (by rw [h.length])
    (by rw [h.length]; exact fun _ _ => ⟨by simp [exNslsDraws], by simp [exNslsDraws]⟩)
    h.box (fun x hx o ho => by
      have h3 := h.objs x hx
      rw [ho] at h3
      cases done with
      | false => cases h3
      | true => simpa using h3))
  (fun _ => 1) (fun _ => le_rfl) (fun p => p.flatten.sum) (fun _ _ => id) (fun _ _ _ => List.Perm.refl _)
  (fun _ _ _ _ => ⟨0, 1 / 4⟩) (fun _ _ _ _ => by norm_num) (fun _ => 1)
  (fun _ => 1) (fun _ => by norm_num) (ratio := [10, 10, 10]) (by decide) id (fun _ => List.Perm.refl _)
  [[0], [1 / 2], [1]] (by decide) exBox n

open Evogil.Dist in
/-- The theorem applies to runs of HGS with JGBL. -/
example (n : ℕ) := C106_jgbl (cfg := exTreeConf)
  (S := fun _ => exSetup) (key := (id : List ℚ → List ℚ)) (m := 2) (c := 1) (jumps := 1)
  (d := exJgblDraws) (N := fun _ => 2) (dims := [(0, 1)]) (by decide) (fun _ _ => exSetup_valid)
  (fun _ _ => rfl) (by simp [Jgbl.ProperBox]) (fun _ _ _ _ _ => rfl) (fun _ _ _ => by
    constructor <;> exact fun _ => List.Perm.refl _)
  (fun _ _ _ _ _ _ => by constructor <;> simp [exJgblDraws, exNsgaiiDraws])
  (fun i k j n => ⟨fun _ => ⟨by simp only [exJgblDraws, exNsgaiiDraws]; positivity, by
    simp only [exJgblDraws, exNsgaiiDraws]
    rw [div_lt_one (by positivity)]
    have h1 : (0 : ℚ) ≤ k := Nat.cast_nonneg _
    have h2 : (0 : ℚ) ≤ j := Nat.cast_nonneg _
    linarith⟩, fun _ => by simp only [exJgblDraws, exNsgaiiDraws]; norm_num⟩)
  (fun _ _ _ mates i d h1 h => by
    simp only [exJgblDraws] at h
    split at h
    · cases h
      simp only [Jgbl.JumpDraw.Ok, Jgbl.PasteDraw.Ok, Jgbl.IsSortedSample]
      simp
      omega
    · cases h)
  (fun _ _ => by decide)
  (fun _ => 1) (fun _ => le_rfl) (fun p => p.flatten.sum) (fun _ _ => id) (fun _ _ _ => List.Perm.refl _)
  (fun _ _ _ _ => ⟨0, 1 / 4⟩) (fun _ _ _ _ => by norm_num) (fun _ => 1)
  (fun _ => 1) (fun _ => by norm_num) (ratio := [10, 10, 10]) (by decide) id (fun _ => List.Perm.refl _)
  [[0], [1 / 2], [1]] (by decide) exBox n

open Evogil.Dist in
/-- The theorem applies to runs of HGS with OMOPSO; each step costs at least 2 / 4. -/
example (n : ℕ) := C106_omopso (cfg := exTreeConf)
  (S := fun _ => exSetup) (m := 2) (N := fun _ => 2) (dims := [(0, 1)]) (g := 2) (trim := fun _ => id)
  (step := 3 / 400) (fit := fun _ => exOpposite) (od := fun _ _ _ _ => ⟨fun _ => (1, 0), 1, 1 / 4, 2, 2, 1⟩)
  (by decide) (fun _ _ => exSetup_valid) (fun _ _ _ h => h) (fun _ _ _ => rfl) (fun _ _ => by decide)
  (fun _ _ _ _ n h => ⟨by simp, by simp only; omega, by simp only; omega⟩) (fun _ _ => le_rfl)
  (fun _ => 1) (fun _ => le_rfl) (fun p => p.flatten.sum) (fun _ _ => id) (fun _ _ _ => List.Perm.refl _)
  (fun _ _ _ _ => ⟨0, 1 / 4⟩) (fun _ _ _ _ => by norm_num) (fun _ => 1)
  (fun _ => 1) (fun _ => by norm_num) (ratio := [10, 10, 10]) (by decide) id (fun _ => List.Perm.refl _)
  [[0], [1 / 2], [1]] (by decide) exBox (1 / 4) (by norm_num)
  (fun l hl => by have : l ≤ 2 := hl; interval_cases l <;> decide +kernel) n

end Evogil.Hgs
