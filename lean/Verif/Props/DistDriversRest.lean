import Verif.Props.HgsRunRest

/-!
# C113: whole runs of the distributed HGS with OMOPSO, JGBL, NSGA-III and NSLS
-/

set_option linter.unusedSectionVars false

namespace Evogil.Dist

open Spec Hgs Generations Evaluation

section
variable {K : Type*} [Field K] [LinearOrder K] [IsStrictOrderedRing K]
  {S : ℕ → Setup K} {m : ℕ} {N : ℕ → ℕ} {dims : List (K × K)} {g : ℕ}

/-- **C113 for OMOPSO.** The population of a node is the archive of its driver: the result has at least one
vector, not a given number of them. -/
theorem C113_omopso {trim : ℕ → List K → List K} {step : K} {fit : ℕ → List K → List K}
    {od : ℕ → ℕ → ℕ → ℕ → Swarm.SpeedDraw K} {cfg : Hgs.Conf (List K) K} (hm2 : cfg.maxLevel ≤ 2)
    (hS : ∀ l, l ≤ cfg.maxLevel → (S l).Valid)
    (htrim : ∀ l, l ≤ cfg.maxLevel → ∀ v, InBox v dims → InBox (trim l v) dims)
    (hfit : ∀ l, l ≤ cfg.maxLevel → ∀ v, (fit l v).length = m) (hN1 : ∀ l, l ≤ cfg.maxLevel → 1 ≤ N l)
    (hod : ∀ i k j p, (od i k j p).Valid) (hg : ∀ l, l ≤ cfg.maxLevel → g ≤ N l)
    (len : ℕ → ℕ) (hlen : ∀ l, 1 ≤ len l) (hv : List (List K) → K)
    (shuffle : ℕ → ℕ → List (List K) → List (List K)) (hsh : ∀ i k l, (shuffle i k l).Perm l)
    (ds : ℕ → ℕ → ℕ → ℕ → MutDraw K)
    (hds : ∀ l i k n, 0 ≤ (ds l i k n).rnd ∧ (ds l i k n).rnd ≤ 1) (rate eta : ℕ → K)
    (heta : ∀ l, 0 ≤ eta l) (draw : ℕ → ℕ → ℕ → ℕ) {ratio : List K} (hr : cfg.maxLevel < ratio.length)
    (perm : List (List K) → List (List K)) (hperm : ∀ l, (perm l).Perm l)
    (population : List (List K)) (hN : N 0 ≤ population.length) (hbox : ∀ v ∈ population, InBox v dims)
    (μ : K) (hμ : 0 ≤ μ) (hmod : ∀ l, l ≤ cfg.maxLevel → μ ≤ cfg.modifier l) (calls : List Call) :
    Delivers (omopsoOps dims trim step m fit od) ⟨len, hv, shuffle, fun l i v =>
        populationFromDelegate (S l).pw (S l).eps (ds l i) v (N l) dims (rate l) (eta l)⟩ draw cfg ratio
      (fun v => InBox v dims) (fun _ p => 1 ≤ p) (1) (μ * g) ((perm population).take (N 0)) calls :=
  C113_box hm2 (omopso_contract (eta := step) htrim hfit hN1 hod hg)
    (fun _ h => h) hS (hN1) len hlen hv shuffle hsh ds hds rate eta heta
    draw hr perm hperm population hN hbox μ hμ hmod calls

/-- **C113 for NSGA-III**, at least two individuals on every level. Every budget is reached (`g` is 1) if the
first pair of parents is crossed in every step. -/
theorem C113_nsgaiii {pw : K → K → K} {sq : K → K} {eps : K} {f : ℕ → List K → List K}
    {cf : ℕ → ℕ → Nsgaiii.Conf K} {d : NsgaiiiDraws K}
    {cfg : Hgs.Conf (List K) K} (hm2 : cfg.maxLevel ≤ 2)
    (hS : ∀ l, l ≤ cfg.maxLevel → (S l).Valid) (hp : PowLaws pw) (he : 0 < eps)
    (hcf : ∀ l, l ≤ cfg.maxLevel → ∀ i, Nsgaiii.ConfOk (f l) (cf l i))
    (hdims : ∀ l, l ≤ cfg.maxLevel → ∀ i, (cf l i).dims = dims) (hN2 : ∀ l, l ≤ cfg.maxLevel → 2 ≤ N l)
    (hd : ∀ l, l ≤ cfg.maxLevel → ∀ i k j,
      Nsgaiii.DrawsOk (N l) (d.ds l i k j) (d.iter i k j) (d.sample i k j))
    (hg : g = 0 ∨ (g = 1 ∧ ∀ l, l ≤ cfg.maxLevel → ∀ i' i k j, (d.ds l i k j 0).first ≤ (cf l i').rateC))
    (len : ℕ → ℕ) (hlen : ∀ l, 1 ≤ len l) (hv : List (List K) → K)
    (shuffle : ℕ → ℕ → List (List K) → List (List K)) (hsh : ∀ i k l, (shuffle i k l).Perm l)
    (ds : ℕ → ℕ → ℕ → ℕ → MutDraw K)
    (hds : ∀ l i k n, 0 ≤ (ds l i k n).rnd ∧ (ds l i k n).rnd ≤ 1) (rate eta : ℕ → K)
    (heta : ∀ l, 0 ≤ eta l) (draw : ℕ → ℕ → ℕ → ℕ) {ratio : List K} (hr : cfg.maxLevel < ratio.length)
    (perm : List (List K) → List (List K)) (hperm : ∀ l, (perm l).Perm l)
    (population : List (List K)) (hN : N 0 ≤ population.length) (hbox : ∀ v ∈ population, InBox v dims)
    (μ : K) (hμ : 0 ≤ μ) (hmod : ∀ l, l ≤ cfg.maxLevel → μ ≤ cfg.modifier l) (calls : List Call) :
    Delivers (nsgaiiiOps pw sq eps f cf d) ⟨len, hv, shuffle, fun l i v =>
        populationFromDelegate (S l).pw (S l).eps (ds l i) v (N l) dims (rate l) (eta l)⟩ draw cfg ratio
      (fun v => InBox v dims) (fun l p => p = N l) (N 0) (μ * g) ((perm population).take (N 0)) calls :=
  C113_box hm2 (nsgaiii_contract (sq := sq) hp he hcf hdims hN2 hd hg)
    (fun _ h => h.ge) hS (fun l hl => by have := hN2 l hl; omega) len hlen hv shuffle hsh ds hds rate eta heta
    draw hr perm hperm population hN hbox μ hμ hmod calls

/-- **C113 for NSLS**, at least two individuals on every level, if the local search always finds a trial that is
not dominated; otherwise a step, and with it the whole run, may never end (C102). -/
theorem C113_nsls {trim : ℕ → List K → List K} {f : ℕ → List K → List K} {vdist : List K → List K → K}
    {d : NslsDraws K} {cfg : Hgs.Conf (List K) K} (hm2 : cfg.maxLevel ≤ 2)
    (hS : ∀ l, l ≤ cfg.maxLevel → (S l).Valid) (ht : ∀ l, l ≤ cfg.maxLevel → Nsls.TrimOk dims (trim l))
    (hf : ∀ l, l ≤ cfg.maxLevel → ∀ v, (f l v).length = m) (hm : 1 ≤ m) (hN2 : ∀ l, l ≤ cfg.maxLevel → 2 ≤ N l)
    (hd : ∀ l, l ≤ cfg.maxLevel → ∀ i k j,
      Nsls.DrawsOk (N l) (d.ds l i k j) (d.iter i k j) (d.sample i k j))
    (hprod : ∀ l, l ≤ cfg.maxLevel → ∀ i k j (s : Nsls.Costed K) done, Nsls.CGood dims (f l) (N l) done s →
      Nsls.Productive dims (trim l) (f l) (d.ds l i k j) s.inds)
    (hg : ∀ l, l ≤ cfg.maxLevel → g ≤ N l * (dims.length * 2))
    (len : ℕ → ℕ) (hlen : ∀ l, 1 ≤ len l) (hv : List (List K) → K)
    (shuffle : ℕ → ℕ → List (List K) → List (List K)) (hsh : ∀ i k l, (shuffle i k l).Perm l)
    (ds : ℕ → ℕ → ℕ → ℕ → MutDraw K)
    (hds : ∀ l i k n, 0 ≤ (ds l i k n).rnd ∧ (ds l i k n).rnd ≤ 1) (rate eta : ℕ → K)
    (heta : ∀ l, 0 ≤ eta l) (draw : ℕ → ℕ → ℕ → ℕ) {ratio : List K} (hr : cfg.maxLevel < ratio.length)
    (perm : List (List K) → List (List K)) (hperm : ∀ l, (perm l).Perm l)
    (population : List (List K)) (hN : N 0 ≤ population.length) (hbox : ∀ v ∈ population, InBox v dims)
    (μ : K) (hμ : 0 ≤ μ) (hmod : ∀ l, l ≤ cfg.maxLevel → μ ≤ cfg.modifier l) (calls : List Call) :
    Delivers (nslsOps dims trim f m vdist d) ⟨len, hv, shuffle, fun l i v =>
        populationFromDelegate (S l).pw (S l).eps (ds l i) v (N l) dims (rate l) (eta l)⟩ draw cfg ratio
      (fun v => InBox v dims) (fun l p => p = N l) (N 0) (μ * g) ((perm population).take (N 0)) calls :=
  C113_box hm2 (nsls_contract (vdist := vdist) ht hf hm hN2 hd hprod hg)
    (fun _ h => h.ge) hS (fun l hl => by have := hN2 l hl; omega) len hlen hv shuffle hsh ds hds rate eta heta
    draw hr perm hperm population hN hbox μ hμ hmod calls

end

section
variable {K : Type*} [Field K] [LinearOrder K] [IsStrictOrderedRing K] [FloorSemiring K] {A : Type*}
  [DecidableEq A] {S : ℕ → Setup K} {key : List K → A} {m : ℕ} {c : K} {d : JgblDraws K} {jumps : ℕ}
  {N : ℕ → ℕ} {dims : List (K × K)} {g : ℕ}

/-- **C113 for JGBL.** -/
theorem C113_jgbl {cfg : Hgs.Conf (List K) K} (hm2 : cfg.maxLevel ≤ 2)
    (hS : ∀ l, l ≤ cfg.maxLevel → (S l).Valid) (hdims : ∀ l, l ≤ cfg.maxLevel → (S l).dims = dims)
    (hproper : Jgbl.ProperBox dims)
    (hfit : ∀ l i k j v, (d.fit l i k j v).length = m) (ho : ∀ i k j, (d.orders i k j).Valid)
    (hdm : ∀ l, l ≤ cfg.maxLevel → ∀ i k j n, (d.dm l i k j n).Valid (N l))
    (hdv : ∀ i k j n, (d.dv i k j n).Valid)
    (hjd : ∀ i k j, Jumping.JumpsValid dims.length jumps (d.jd i k j))
    (hg : ∀ l, l ≤ cfg.maxLevel → g ≤ ⌊c * (N l : K)⌋₊) (hN1 : ∀ l, l ≤ cfg.maxLevel → 1 ≤ N l)
    (len : ℕ → ℕ) (hlen : ∀ l, 1 ≤ len l) (hv : List (List K) → K)
    (shuffle : ℕ → ℕ → List (List K) → List (List K)) (hsh : ∀ i k l, (shuffle i k l).Perm l)
    (ds : ℕ → ℕ → ℕ → ℕ → MutDraw K)
    (hds : ∀ l i k n, 0 ≤ (ds l i k n).rnd ∧ (ds l i k n).rnd ≤ 1) (rate eta : ℕ → K)
    (heta : ∀ l, 0 ≤ eta l) (draw : ℕ → ℕ → ℕ → ℕ) {ratio : List K} (hr : cfg.maxLevel < ratio.length)
    (perm : List (List K) → List (List K)) (hperm : ∀ l, (perm l).Perm l)
    (population : List (List K)) (hN : N 0 ≤ population.length) (hbox : ∀ v ∈ population, InBox v dims)
    (μ : K) (hμ : 0 ≤ μ) (hmod : ∀ l, l ≤ cfg.maxLevel → μ ≤ cfg.modifier l) (calls : List Call) :
    Delivers (jgblOps S key m c d) ⟨len, hv, shuffle, fun l i v =>
        populationFromDelegate (S l).pw (S l).eps (ds l i) v (N l) dims (rate l) (eta l)⟩ draw cfg ratio
      (fun v => InBox v dims) (fun l p => p = N l) (N 0) (μ * g) ((perm population).take (N 0)) calls :=
  C113_box hm2 (jgbl_contract (key := key) hS hdims hproper hfit ho hdm hdv hjd hg)
    (fun _ h => h.ge) hS (hN1) len hlen hv shuffle hsh ds hds rate eta heta
    draw hr perm hperm population hN hbox μ hμ hmod calls

end

/-- Two objectives that rank the vectors of one coordinate in opposite orders. -/
def exOpposite (v : List ℚ) : List ℚ := [v.getD 0 0, 1 - v.getD 0 0]

theorem exOpposite_incomparable (x y : List ℚ) : ¬ LDom (exOpposite x) (exOpposite y) := by
  rintro ⟨-, h1, i, hx, hy, h2⟩
  have a0 := h1 0 (by simp [exOpposite]) (by simp [exOpposite])
  have a1 := h1 1 (by simp [exOpposite]) (by simp [exOpposite])
  simp only [exOpposite, List.getElem_cons_zero, List.getElem_cons_succ] at a0 a1
  have hi : i < 2 := hx
  interval_cases i
  · simp only [exOpposite, List.getElem_cons_zero] at h2
    linarith
  · simp only [exOpposite, List.getElem_cons_zero, List.getElem_cons_succ] at h2
    linarith

theorem exTrimOk : Nsls.TrimOk [((0 : ℚ), 1)] id := by
  refine ⟨fun _ => rfl, ?_⟩
  intro v k x y d hx hy _ h1 h2
  rw [id_eq, hx, Option.some.injEq] at hy
  subst hy
  exact ⟨h1, h2⟩

theorem exSample (l : List ℕ) (n : ℕ) (h : n ≤ l.length) : IsSample l n (l.take n) :=
  ⟨by rw [List.length_take, min_eq_left h], (List.take_sublist n l).subperm⟩

/-- The theorem applies to a run of OMOPSO with two particles on three levels: whatever is called, each step
costs at least 2 / 4. -/
example (draw : ℕ → ℕ → ℕ → ℕ) (calls : List Call) := C113_omopso (cfg := exTreeConf)
  (S := fun _ => exSetup) (m := 2) (N := fun _ => 2) (dims := [(0, 1)]) (g := 2) (trim := fun _ => id)
  (step := 3 / 400) (fit := fun _ => exOpposite) (od := fun _ _ _ _ => ⟨fun _ => (1, 0), 1, 1 / 4, 2, 2, 1⟩)
  (by decide) (fun _ _ => exSetup_valid) (fun _ _ _ h => h) (fun _ _ _ => rfl) (fun _ _ => by decide)
  (fun _ _ _ _ n h => ⟨by simp, by simp only; omega, by simp only; omega⟩) (fun _ _ => le_rfl)
  (fun _ => 1) (fun _ => le_rfl) (fun p => p.flatten.sum) (fun _ _ => id) (fun _ _ _ => List.Perm.refl _)
  (fun _ _ _ _ => ⟨0, 1 / 4⟩) (fun _ _ _ _ => by norm_num) (fun _ => 1)
  (fun _ => 1) (fun _ => by norm_num) draw (ratio := [10, 10, 10]) (by decide) id (fun _ => List.Perm.refl _)
  [[0], [1 / 2], [1]] (by decide) exBox (1 / 4) (by norm_num)
  (fun l hl => by have : l ≤ 2 := hl; interval_cases l <;> decide +kernel) calls

/-- The parameters of NSGA-III in the example. -/
def exNsgaiiiConf : Nsgaiii.Conf ℚ :=
  ⟨[(0, 1)], 1, 1, 9 / 10, 0, 5, id, [[1, 0], [0, 1], [1 / 2, 1 / 2], [1, 1]], 2⟩

def exNsgaiiiDraws : NsgaiiiDraws ℚ where
  ds := fun _ _ _ _ _ => ⟨0, 1, 1 / 2, fun _ => ⟨1 / 4, 1 / 4, 1 / 4⟩, fun _ => ⟨1 / 2, 1 / 2⟩,
    fun _ => ⟨1 / 2, 1 / 2⟩⟩
  iter := fun _ _ _ => id
  sample := fun _ _ _ l n => l.take n

/-- The theorem applies to a run of NSGA-III with two individuals that are crossed in every step. -/
example (draw : ℕ → ℕ → ℕ → ℕ) (calls : List Call) := C113_nsgaiii (cfg := exTreeConf)
  (S := fun _ => exSetup) (N := fun _ => 2) (dims := [(0, 1)]) (g := 1) (pw := exSetup.pw) (sq := id)
  (eps := 1 / 1000) (f := fun _ => exOpposite) (cf := fun _ _ => exNsgaiiiConf) (d := exNsgaiiiDraws)
  (by decide) (fun _ _ => exSetup_valid) exSetup_valid.pow (by norm_num)
  (fun _ _ _ => ⟨by norm_num [exNsgaiiiConf], by norm_num [exNsgaiiiConf], fun _ h => h, fun _ => rfl,
    fun _ => rfl⟩) (fun _ _ _ => rfl) (fun _ _ => le_rfl)
  (fun _ _ _ _ _ => ⟨fun _ => by constructor <;> norm_num [exNsgaiiiDraws], fun _ => List.Perm.refl _,
    fun l n h => exSample l n h⟩)
  (Or.inr ⟨rfl, fun _ _ _ _ _ _ => by norm_num [exNsgaiiiDraws, exNsgaiiiConf]⟩)
  (fun _ => 1) (fun _ => le_rfl) (fun p => p.flatten.sum) (fun _ _ => id) (fun _ _ _ => List.Perm.refl _)
  (fun _ _ _ _ => ⟨0, 1 / 4⟩) (fun _ _ _ _ => by norm_num) (fun _ => 1)
  (fun _ => 1) (fun _ => by norm_num) draw (ratio := [10, 10, 10]) (by decide) id (fun _ => List.Perm.refl _)
  [[0], [1 / 2], [1]] (by decide) exBox (1 / 4) (by norm_num)
  (fun l hl => by have : l ≤ 2 := hl; interval_cases l <;> decide +kernel) calls

def exNslsDraws : NslsDraws ℚ where
  ds := fun _ _ _ _ _ _ => ⟨1 / 2, 0, 1, true⟩
  iter := fun _ _ _ => id
  sample := fun _ _ _ l n => l.take n

/-- The theorem applies to a run of NSLS with two objectives that rank the vectors in opposite orders: there
every trial succeeds. -/
example (draw : ℕ → ℕ → ℕ → ℕ) (calls : List Call) := C113_nsls (cfg := exTreeConf)
  (S := fun _ => exSetup) (m := 2) (N := fun _ => 2) (dims := [(0, 1)]) (g := 4) (trim := fun _ => id)
  (f := fun _ => exOpposite) (vdist := fun a b => |a.getD 0 0 - b.getD 0 0|) (d := exNslsDraws)
  (by decide) (fun _ _ => exSetup_valid) (fun _ _ => exTrimOk) (fun _ _ _ => rfl) (by decide)
  (fun _ _ => le_rfl)
  (fun _ _ _ _ _ => ⟨fun _ _ => ⟨by simp [exNslsDraws], by simp [exNslsDraws]⟩, fun _ => List.Perm.refl _, fun l n h => exSample l n h⟩)
  (fun _ _ _ _ _ s done h => Nsls.C102_incomparable (m := 2) exTrimOk (fun _ => rfl) (by simp)
    (fun x y _ _ => exOpposite_incomparable x y) (by rw [h.length]) (by rw [h.length]; exact fun _ _ => ⟨by simp [exNslsDraws], by simp [exNslsDraws]⟩)
    h.box (fun x hx o ho => by
      have h3 := h.objs x hx
      rw [ho] at h3
      cases done with
      | false => cases h3
      | true => simpa using h3))
  (fun _ _ => by decide)
  (fun _ => 1) (fun _ => le_rfl) (fun p => p.flatten.sum) (fun _ _ => id) (fun _ _ _ => List.Perm.refl _)
  (fun _ _ _ _ => ⟨0, 1 / 4⟩) (fun _ _ _ _ => by norm_num) (fun _ => 1)
  (fun _ => 1) (fun _ => by norm_num) draw (ratio := [10, 10, 10]) (by decide) id (fun _ => List.Perm.refl _)
  [[0], [1 / 2], [1]] (by decide) exBox (1 / 4) (by norm_num)
  (fun l hl => by have : l ≤ 2 := hl; interval_cases l <;> decide +kernel) calls

def exJgblDraws : JgblDraws ℚ where
  fit := fun _ _ _ _ => exOpposite
  orders := fun _ _ _ => ⟨id, id, id, id, id⟩
  dm := exNsgaiiDraws.dm
  dv := exNsgaiiDraws.dv
  jd := fun _ _ _ _ i => if i = 0 then some ⟨⟨[0], [0], 0, 0⟩, ⟨[0], [0], 0, 0⟩, 0, ⟨[0], [0], 0, 0⟩, 0,
        ⟨[0], [0], 0, 0⟩⟩ else none

/-- The theorem applies to a run of JGBL in which the first individual jumps in every step. -/
example (draw : ℕ → ℕ → ℕ → ℕ) (calls : List Call) := C113_jgbl (cfg := exTreeConf)
  (S := fun _ => exSetup) (key := (id : List ℚ → List ℚ)) (m := 2) (c := 1) (jumps := 1)
  (d := exJgblDraws) (N := fun _ => 2) (dims := [(0, 1)]) (g := 2) (by decide) (fun _ _ => exSetup_valid)
  (fun _ _ => rfl) (by simp [Jgbl.ProperBox]) (fun _ _ _ _ _ => rfl) (fun _ _ _ => by
    constructor <;> exact fun _ => List.Perm.refl _)
  (fun _ _ _ _ _ _ => by constructor <;> simp [exJgblDraws, exNsgaiiDraws])
  (fun i k j n => ⟨fun _ => ⟨by simp only [exJgblDraws, exNsgaiiDraws]; positivity, by
    simp only [exJgblDraws, exNsgaiiDraws]
    rw [div_lt_one (by positivity)]
    have h1 : (0 : ℚ) ≤ k := Nat.cast_nonneg _
    have h2 : (0 : ℚ) ≤ j := Nat.cast_nonneg _
    linarith⟩, fun _ => by simp only [exJgblDraws, exNsgaiiDraws]; norm_num⟩)
  (fun _ _ _ mates i d h1 h => by
    simp only [exJgblDraws] at h
    split at h
    · cases h
      simp only [Jgbl.JumpDraw.Ok, Jgbl.PasteDraw.Ok, Jgbl.IsSortedSample]
      simp
      omega
    · cases h)
  (fun _ _ => Nat.le_floor (by norm_num)) (fun _ _ => by decide)
  (fun _ => 1) (fun _ => le_rfl) (fun p => p.flatten.sum) (fun _ _ => id) (fun _ _ _ => List.Perm.refl _)
  (fun _ _ _ _ => ⟨0, 1 / 4⟩) (fun _ _ _ _ => by norm_num) (fun _ => 1)
  (fun _ => 1) (fun _ => by norm_num) draw (ratio := [10, 10, 10]) (by decide) id (fun _ => List.Perm.refl _)
  [[0], [1 / 2], [1]] (by decide) exBox (1 / 4) (by norm_num)
  (fun l hl => by have : l ≤ 2 := hl; interval_cases l <;> decide +kernel) calls

/-- One step of the root with OMOPSO: two evaluations in the constructor and two in the metaepoch; the population is the archive, the delegates are the two particles. -/
example : ((omopsoOps [(0, 1)] (fun _ => id) (3 / 400) 2 (fun _ => exOpposite)
      (fun _ _ _ _ => ⟨fun _ => (1, 0), 1, 1 / 4, 2, 2, 1⟩)).make 0 0 [[0], [1 / 2]] () |>.bind fun s =>
      Hgs.nodeReport (K := ℚ) (omopsoOps [(0, 1)] (fun _ => id) (3 / 400) 2 (fun _ => exOpposite)
        (fun _ _ _ _ => ⟨fun _ => (1, 0), 1, 1 / 4, 2, 2, 1⟩)) exRunConf 0 0 1 () s.2).map
        (fun r => (r.2.1.cost, r.2.2.costs, r.2.2.pop, r.2.2.delegates)) =
    some (4, [4], [[0], [1 / 2], [1 / 4]], [[0], [1 / 4]]) := by decide +kernel

/-- One step of the root with NSGA-III: the delegates are the vectors of the first front. -/
example : ((nsgaiiiOps exSetup.pw id (1 / 1000) (fun _ => exOpposite) (fun _ _ => exNsgaiiiConf)
      exNsgaiiiDraws).make 0 0 [[0], [1 / 2]] () |>.bind fun s =>
      Hgs.nodeReport (K := ℚ) (nsgaiiiOps exSetup.pw id (1 / 1000) (fun _ => exOpposite)
        (fun _ _ => exNsgaiiiConf) exNsgaiiiDraws) exRunConf 0 0 1 () s.2).map
        (fun r => (r.2.1.st.cost, r.2.2.costs, r.2.2.pop, r.2.2.delegates)) =
    some (4, [4], [[0], [1 / 2]], [[0], [1 / 2]]) := by decide +kernel

/-- One step of the root with NSLS: the individuals are evaluated in the first step, and then four trials; the
first front has the two individuals and the two trials that were kept. -/
example : ((nslsOps [(0, 1)] (fun _ => id) (fun _ => exOpposite) 2 (fun a b => |a.getD 0 0 - b.getD 0 0|)
      exNslsDraws).make 0 0 [[0], [1 / 2]] () |>.bind fun s =>
      Hgs.nodeReport (K := ℚ) (nslsOps [(0, 1)] (fun _ => id) (fun _ => exOpposite) 2
        (fun a b => |a.getD 0 0 - b.getD 0 0|) exNslsDraws) exRunConf 0 0 1 () s.2).map
        (fun r => (r.2.1.1.cost, r.2.2.costs, r.2.2.pop, r.2.2.delegates)) =
    some (6, [6], [[0], [1 / 2]], [[0], [1 / 2], [0], [1 / 4]]) := by decide +kernel

/-- One step of the root with JGBL: two evaluations in the constructor, two children and six from the jump. -/
example : ((jgblOps (fun _ => exSetup) (id : List ℚ → List ℚ) 2 1 exJgblDraws).make 0 0 [[0], [1 / 2]] ()
      |>.bind fun s =>
      Hgs.nodeReport (K := ℚ) (jgblOps (fun _ => exSetup) (id : List ℚ → List ℚ) 2 1 exJgblDraws) exRunConf
        0 0 1 () s.2).map
        (fun r => (r.2.1.acc.cost, r.2.2.costs, r.2.2.pop.length, r.2.2.delegates.length)) =
    some (10, [10], 2, 2) := by decide +kernel

end Evogil.Dist
