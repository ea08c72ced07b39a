import Verif.Model.RoundedDist
import Verif.Props.DistDriversRest
import Verif.Props.RoundedHgsRest

/-!
# C158: whole runs of the distributed HGS in floating point
-/

set_option linter.unusedSectionVars false

namespace Evogil.Rounded.Dist

open Evogil.Hgs (NodeOps Contract NsgaiiDraws Spea2Draws IbeaDraws SmsDraws NsgaiiiDraws NslsDraws JgblDraws
  nsgaiiDelegates evalAll_known)
open Evogil.Dist (Call Delivers)
open Evaluation Generations Spec Binary64 Rounded.Run Rounded.Hgs

/-! ## Boxes of floats -/

section
variable {K : Type*} [Field K] [LinearOrder K] [IsStrictOrderedRing K] [FloorRing K] {δ : Type*}
  {O : NodeOps Unit δ (List K)} {S : ℕ → Setup K} {N : ℕ → ℕ} {dims : List (K × K)} {g : ℕ}
  {Sz : ℕ → ℕ → Prop} {size : ℕ} {G H : ℕ → δ → Prop} {Free : Prop}

/-- C158 for drivers that keep the contract with floats of a box: whatever the user calls, the distributed HGS delivers. The
comparisons of the actors may be rounded in any way (`cfg.fl`). -/
theorem C158_box {cfg : Evogil.Hgs.Conf (List K) K} (hm2 : cfg.maxLevel ≤ 2)
    (hc : Contract O cfg.maxLevel (FBox dims) N Sz G H (fun _ _ => True) Free g)
    (hsize : ∀ p, Sz 0 p → size ≤ p)
    (hS : ∀ l, l ≤ cfg.maxLevel → Usable (S l)) (hdims : ∀ l, l ≤ cfg.maxLevel → (S l).dims = dims)
    (hN1 : ∀ l, l ≤ cfg.maxLevel → 1 ≤ N l)
    (len : ℕ → ℕ) (hlen : ∀ l, 1 ≤ len l) (hv : List (List K) → K)
    (shuffle : ℕ → ℕ → List (List K) → List (List K)) (hsh : ∀ i k l, (shuffle i k l).Perm l)
    (ds : ℕ → ℕ → ℕ → ℕ → MutDraw K)
    (hds : ∀ l i k n, IsDraw (1 / 2 ^ 53) (ds l i k n).rnd) (rate eta : ℕ → K)
    (heta : ∀ l, 0 ≤ eta l) (draw : ℕ → ℕ → ℕ → ℕ) {ratio : List K} (hr : cfg.maxLevel < ratio.length)
    (perm : List (List K) → List (List K)) (hperm : ∀ l, (perm l).Perm l)
    (population : List (List K)) (hN : N 0 ≤ population.length) (hbox : ∀ v ∈ population, FBox dims v)
    (μ : K) (hμ : 0 ≤ μ) (hmod : ∀ l, l ≤ cfg.maxLevel → μ ≤ cfg.modifier l) (calls : List Call) :
    Delivers O ⟨len, hv, shuffle, fun l i v =>
        Rounded.Hgs.populationFromDelegate round64 (S l).pw (S l).eps (ds l i) v (N l) dims (rate l) (eta l)⟩ draw cfg ratio
      (FBox dims) Sz size (μ * g) ((perm population).take (N 0)) calls := by
  refine Evogil.Dist.C113_run hc hsize hm2 hlen hsh ?_ hr μ hμ hmod _ ?_ ?_ calls
  · intro l hl i v hv
    have := seeds_ok (hS l hl) (hds l i) (heta l) (rate := rate l) (hN1 l hl) (v := v) (by rw [hdims l hl]; exact hv)
    rwa [hdims l hl] at this
  · rw [List.length_take, (hperm _).length_eq, min_eq_left hN]
  · intro v hv
    exact hbox v ((hperm _).subset (List.mem_of_mem_take hv))

end

/-! ## NSGA-II and JGBL -/

section
variable {K : Type*} [Field K] [LinearOrder K] [IsStrictOrderedRing K] [FloorRing K] {A : Type*} [DecidableEq A]
  {S : ℕ → Setup K} {key : List K → A} {m : ℕ} {c : K} {N : ℕ → ℕ} {dims : List (K × K)} {maxLevel g : ℕ}

/-- NSGA-II without archive keeps the contract; a step costs as much as there are children. -/
theorem nsgaii_contract {d : NsgaiiDraws K} (hS : ∀ l, l ≤ maxLevel → Usable (S l))
    (hdims : ∀ l, l ≤ maxLevel → (S l).dims = dims) (hm : m ≤ 2 ^ 51)
    (hfit : ∀ l i k j v, (d.fit l i k j v).length = m) (hiter : ∀ i k j l, (d.iter i k j l).Perm l)
    (hdm : ∀ l, l ≤ maxLevel → ∀ i k j n, (d.dm l i k j n).Valid (N l))
    (hdv : ∀ i k j n, Draws (d.dv i k j n)) (hg : ∀ l, l ≤ maxLevel → g ≤ portion round64 c (N l)) :
    Contract (nsgaiiOps round64 S key m c d) maxLevel (FBox dims) N (fun l p => p = N l)
      (fun l s => Rounded.Run.NInv (S l) m c (N l) s ∧ s.acc.archive = none) (fun _ _ => True) (fun _ _ => True) True
      g := by
  constructor
  · intro l hl i pop w f hn hP _
    refine ⟨(), _, rfl, ⟨?_, (Rounded.Run.nsgaiiInit_cost _).1⟩, trivial⟩
    exact (Rounded.Run.NReach.inv (hS l hl) hm (hfit l i 0 0) (Rounded.Run.NReach.start (key := key) none (by simp) pop hn
      (fun v hv => by rw [hdims l hl]; exact hP v hv))).1
  · rintro l hl i k j w f s ⟨hs, ha⟩ -
    obtain ⟨s', e1, g1, -⟩ := Rounded.Run.NInv.step (hS l hl) hm (key := key) (hfit l i (k + 1) (j + 1))
      (hiter i (k + 1) (j + 1)) (hdm l hl i k j) (hdv i k j) hs
    obtain ⟨b1, b2⟩ := (nsgaiiStep_shape (hS l hl) hm (hfit l i (k + 1) (j + 1)) (hiter i (k + 1) (j + 1)) (hdm l hl i k j)
      (hdv i k j) hs e1).2.2 ha
    refine ⟨(), s', by simp only [nsgaiiOps, e1, Option.map_some], ⟨g1, b1⟩, ?_, trivial⟩
    have := hg l hl
    simp only [nsgaiiOps, b2]
    omega
  · exact fun _ _ _ _ _ _ _ _ _ _ _ _ _ => trivial
  · rintro l hl i k w f s ⟨hs, ha⟩ - -
    obtain ⟨s', r, e1, g1, g2, g3⟩ := Rounded.Run.NInv.finish (key := key) (hS l hl) hm (hfit l i (k + 1) 0)
      (hiter i (k + 1) 0) hs
    obtain ⟨b1, b2⟩ := Rounded.Run.NInv.finish_cost hs ha e1
    have hknown := evalAll_known key (d.fit l i (k + 1) 0) s.individuals s.acc (fun x hx => by
        obtain ⟨y, hy, -⟩ := hs.objs x hx; exact ⟨y, hy⟩)
    obtain ⟨fr, e3, e4⟩ : ∃ fr, ndSort (d.iter i (k + 1) 0)
        (nsgaiiDom fun x => (objFns m).map (fun o => o x)) s.individuals.length s.individuals = some fr ∧
        ∀ x ∈ fr.headD [], x ∈ s.individuals := by
      obtain ⟨c1, c2⟩ := C05_nsgaii_sorts_by_rank (d.iter i (k + 1) 0) (hiter i (k + 1) 0) m
        (fun x => (objFns m).map (fun o => o x)) s.individuals hs.nodup (fun x _ => by simp [objFns])
      obtain ⟨fr, e3⟩ := c1 s.individuals.length le_rfl
      refine ⟨fr, e3, ?_⟩
      intro x hx
      refine (c2 _ fr e3).1.subset ?_
      cases fr with
      | nil => cases hx
      | cons y fr => exact List.mem_append_left _ hx
    have e5 : (nsgaiiOps round64 S key m c d).conclude l i k w s = some ((), s', r,
        (fr.headD []).map fun x => x.v) := by
      simp only [nsgaiiOps, e1, hknown, nsgaiiDelegates, e3, Option.map_some]
    refine ⟨_, _, _, _, e5, ⟨g1, b1⟩, ?_, fun _ => ?_, trivial, ?_, ?_, ?_⟩
    · simp only [nsgaiiOps, b2]; exact le_rfl
    · simp only [nsgaiiOps, b2]
    · rw [g3, List.length_map, g2]
    · intro v hv
      rw [g3] at hv
      obtain ⟨x, hx, rfl⟩ := List.mem_map.1 hv
      rw [← hdims l hl]
      exact g1.box x hx
    · intro v hv
      obtain ⟨x, hx, rfl⟩ := List.mem_map.1 hv
      rw [← hdims l hl]
      exact hs.box x (e4 x hx)

/-- C158 for NSGA-II: each step costs at least the smallest number of children, `c * N` rounded to a float and then down to
an integer, times the smallest cost modifier. -/
theorem C158_nsgaii {d : NsgaiiDraws K} {cfg : Evogil.Hgs.Conf (List K) K} (hm2 : cfg.maxLevel ≤ 2)
    (hS : ∀ l, l ≤ cfg.maxLevel → Usable (S l)) (hdims : ∀ l, l ≤ cfg.maxLevel → (S l).dims = dims)
    (hm : m ≤ 2 ^ 51) (hfit : ∀ l i k j v, (d.fit l i k j v).length = m) (hiter : ∀ i k j l, (d.iter i k j l).Perm l)
    (hdm : ∀ l, l ≤ cfg.maxLevel → ∀ i k j n, (d.dm l i k j n).Valid (N l))
    (hdv : ∀ i k j n, Draws (d.dv i k j n)) (hg : ∀ l, l ≤ cfg.maxLevel → g ≤ ⌊round64 (c * (N l : K))⌋₊)
    (hN1 : ∀ l, l ≤ cfg.maxLevel → 1 ≤ N l)
    (len : ℕ → ℕ) (hlen : ∀ l, 1 ≤ len l) (hv : List (List K) → K)
    (shuffle : ℕ → ℕ → List (List K) → List (List K)) (hsh : ∀ i k l, (shuffle i k l).Perm l)
    (ds : ℕ → ℕ → ℕ → ℕ → MutDraw K)
    (hds : ∀ l i k n, IsDraw (1 / 2 ^ 53) (ds l i k n).rnd) (rate eta : ℕ → K)
    (heta : ∀ l, 0 ≤ eta l) (draw : ℕ → ℕ → ℕ → ℕ) {ratio : List K} (hr : cfg.maxLevel < ratio.length)
    (perm : List (List K) → List (List K)) (hperm : ∀ l, (perm l).Perm l)
    (population : List (List K)) (hN : N 0 ≤ population.length) (hbox : ∀ v ∈ population, FBox dims v)
    (μ : K) (hμ : 0 ≤ μ) (hmod : ∀ l, l ≤ cfg.maxLevel → μ ≤ cfg.modifier l) (calls : List Call) :
    Delivers (nsgaiiOps round64 S key m c d) ⟨len, hv, shuffle, fun l i v =>
        Rounded.Hgs.populationFromDelegate round64 (S l).pw (S l).eps (ds l i) v (N l) dims (rate l) (eta l)⟩ draw cfg ratio
      (FBox dims) (fun l p => p = N l) (N 0) (μ * g) ((perm population).take (N 0)) calls :=
  C158_box hm2 (nsgaii_contract (key := key) hS hdims hm hfit hiter hdm hdv hg) (fun _ h => h.ge) hS hdims hN1 len hlen hv
    shuffle hsh ds hds rate eta heta draw hr perm hperm population hN hbox μ hμ hmod calls

/-- JGBL without archive keeps the contract if the box is closed; a step costs at least as much as there are children. -/
theorem jgbl_contract {d : JgblDraws K} {jumps : ℕ} (hS : ∀ l, l ≤ maxLevel → Usable (S l))
    (hdims : ∀ l, l ≤ maxLevel → (S l).dims = dims) (hp : Run.Closed dims) (hm : m ≤ 2 ^ 51)
    (hfit : ∀ l i k j v, (d.fit l i k j v).length = m) (ho : ∀ i k j, (d.orders i k j).Valid)
    (hdm : ∀ l, l ≤ maxLevel → ∀ i k j n, (d.dm l i k j n).Valid (N l))
    (hdv : ∀ i k j n, Draws (d.dv i k j n))
    (hjd : ∀ i k j, Jumping.JumpsValid dims.length jumps (d.jd i k j))
    (hg : ∀ l, l ≤ maxLevel → g ≤ portion round64 c (N l)) :
    Contract (jgblOps round64 S key m c d) maxLevel (FBox dims) N (fun l p => p = N l)
      (fun l s => Rounded.Run.NInv (S l) m c (N l) s ∧ s.acc.archive = none) (fun _ _ => True) (fun _ _ => True) True
      g := by
  have hc := nsgaii_contract (S := S) (key := key) (m := m) (c := c)
    (d := ⟨d.fit, fun i k j => (d.orders i k j).inner, d.dm, d.dv⟩) (N := N) (dims := dims)
    (maxLevel := maxLevel) (g := g) hS hdims hm hfit (fun i k j => (ho i k j).inner) hdm hdv hg
  constructor
  · exact hc.make
  · rintro l hl i k j w f s ⟨hs, ha⟩ -
    obtain ⟨s', e1, g1, -, g3⟩ := hs.jump (key := key) (hS l hl) (by rw [hdims l hl]; exact hp) hm
      (hfit l i (k + 1) (j + 1)) (ho i (k + 1) (j + 1)) (hdm l hl i k j) (hdv i k j)
      (jd := d.jd i k j) (k := jumps) (by rw [hdims l hl]; exact hjd i k j)
    obtain ⟨b1, n, -, b2⟩ := g3 ha
    refine ⟨(), s', by simp only [jgblOps, e1, Option.map_some], ⟨g1, b1⟩, ?_, trivial⟩
    have := hg l hl
    simp only [jgblOps, b2]
    omega
  · exact fun _ _ _ _ _ _ _ _ _ _ _ _ _ => trivial
  · exact hc.conclude

/-- C158 for JGBL in closed boxes. Missing: the other boxes, where JGBL itself leaves the box or raises (C151). -/
theorem C158_jgbl_partial {d : JgblDraws K} {jumps : ℕ} {cfg : Evogil.Hgs.Conf (List K) K} (hm2 : cfg.maxLevel ≤ 2)
    (hS : ∀ l, l ≤ cfg.maxLevel → Usable (S l)) (hdims : ∀ l, l ≤ cfg.maxLevel → (S l).dims = dims)
    (hp : Run.Closed dims) (hm : m ≤ 2 ^ 51)
    (hfit : ∀ l i k j v, (d.fit l i k j v).length = m) (ho : ∀ i k j, (d.orders i k j).Valid)
    (hdm : ∀ l, l ≤ cfg.maxLevel → ∀ i k j n, (d.dm l i k j n).Valid (N l))
    (hdv : ∀ i k j n, Draws (d.dv i k j n))
    (hjd : ∀ i k j, Jumping.JumpsValid dims.length jumps (d.jd i k j))
    (hg : ∀ l, l ≤ cfg.maxLevel → g ≤ ⌊round64 (c * (N l : K))⌋₊) (hN1 : ∀ l, l ≤ cfg.maxLevel → 1 ≤ N l)
    (len : ℕ → ℕ) (hlen : ∀ l, 1 ≤ len l) (hv : List (List K) → K)
    (shuffle : ℕ → ℕ → List (List K) → List (List K)) (hsh : ∀ i k l, (shuffle i k l).Perm l)
    (ds : ℕ → ℕ → ℕ → ℕ → MutDraw K)
    (hds : ∀ l i k n, IsDraw (1 / 2 ^ 53) (ds l i k n).rnd) (rate eta : ℕ → K)
    (heta : ∀ l, 0 ≤ eta l) (draw : ℕ → ℕ → ℕ → ℕ) {ratio : List K} (hr : cfg.maxLevel < ratio.length)
    (perm : List (List K) → List (List K)) (hperm : ∀ l, (perm l).Perm l)
    (population : List (List K)) (hN : N 0 ≤ population.length) (hbox : ∀ v ∈ population, FBox dims v)
    (μ : K) (hμ : 0 ≤ μ) (hmod : ∀ l, l ≤ cfg.maxLevel → μ ≤ cfg.modifier l) (calls : List Call) :
    Delivers (jgblOps round64 S key m c d) ⟨len, hv, shuffle, fun l i v =>
        Rounded.Hgs.populationFromDelegate round64 (S l).pw (S l).eps (ds l i) v (N l) dims (rate l) (eta l)⟩ draw cfg ratio
      (FBox dims) (fun l p => p = N l) (N 0) (μ * g) ((perm population).take (N 0)) calls :=
  C158_box hm2 (jgbl_contract (key := key) hS hdims hp hm hfit ho hdm hdv hjd hg) (fun _ h => h.ge) hS hdims hN1 len hlen hv
    shuffle hsh ds hds rate eta heta draw hr perm hperm population hN hbox μ hμ hmod calls

end

/-! ## SPEA2, IBEA and SMS-EMOA -/

section
variable {K : Type*} [Field K] [LinearOrder K] [IsStrictOrderedRing K] [FloorRing K] {A : Type*}
  {S : ℕ → Setup K} {key : List K → A} {m : ℕ} {N : ℕ → ℕ} {dims : List (K × K)} {g : ℕ}

/-- C158 for SPEA2, at least two individuals on every level. -/
theorem C158_spea2 {dist : List K → List K → K} {d : Spea2Draws K} {cfg : Evogil.Hgs.Conf (List K) K}
    (hm2 : cfg.maxLevel ≤ 2)
    (hS : ∀ l, l ≤ cfg.maxLevel → Usable (S l)) (hdims : ∀ l, l ≤ cfg.maxLevel → (S l).dims = dims)
    (hdist : ∀ a b, 0 ≤ dist a b) (hfit : ∀ l i k j v, (d.fit l i k j v).length = m)
    (hN2 : ∀ l, l ≤ cfg.maxLevel → 2 ≤ N l) (hg : ∀ l, l ≤ cfg.maxLevel → g ≤ N l)
    (hdt : ∀ l, l ≤ cfg.maxLevel → ∀ i k j n,
      PairDraw (N l) (d.dt l i k j n).1 ∧ PairDraw (N l) (d.dt l i k j n).2)
    (hdv : ∀ i k j n, Draws (d.dv i k j n))
    (len : ℕ → ℕ) (hlen : ∀ l, 1 ≤ len l) (hv : List (List K) → K)
    (shuffle : ℕ → ℕ → List (List K) → List (List K)) (hsh : ∀ i k l, (shuffle i k l).Perm l)
    (ds : ℕ → ℕ → ℕ → ℕ → MutDraw K)
    (hds : ∀ l i k n, IsDraw (1 / 2 ^ 53) (ds l i k n).rnd) (rate eta : ℕ → K)
    (heta : ∀ l, 0 ≤ eta l) (draw : ℕ → ℕ → ℕ → ℕ) {ratio : List K} (hr : cfg.maxLevel < ratio.length)
    (perm : List (List K) → List (List K)) (hperm : ∀ l, (perm l).Perm l)
    (population : List (List K)) (hN : N 0 ≤ population.length) (hbox : ∀ v ∈ population, FBox dims v)
    (μ : K) (hμ : 0 ≤ μ) (hmod : ∀ l, l ≤ cfg.maxLevel → μ ≤ cfg.modifier l) (calls : List Call) :
    Delivers (spea2Ops round64 S dist key d) ⟨len, hv, shuffle, fun l i v =>
        Rounded.Hgs.populationFromDelegate round64 (S l).pw (S l).eps (ds l i) v (N l) dims (rate l) (eta l)⟩ draw cfg ratio
      (FBox dims) (fun l p => p = N l) (N 0) (μ * g) ((perm population).take (N 0)) calls :=
  C158_box hm2 (spea2_contract (key := key) hS hdims hdist hfit hN2 hg hdt hdv) (fun _ h => h.ge) hS hdims
    (fun l hl => by have := hN2 l hl; omega) len hlen hv
    shuffle hsh ds hds rate eta heta draw hr perm hperm population hN hbox μ hμ hmod calls

/-- C158 for IBEA, at least one objective and `kappa` at least 1/32. -/
theorem C158_ibea {ex : K → K} {kappa c : K} {d : IbeaDraws K} {cfg : Evogil.Hgs.Conf (List K) K} (hm2 : cfg.maxLevel ≤ 2)
    (hS : ∀ l, l ≤ cfg.maxLevel → Usable (S l)) (hdims : ∀ l, l ≤ cfg.maxLevel → (S l).dims = dims)
    (hobj : ∀ l i k j, d.obj l i k j ≠ []) (hk : 1 / 32 ≤ kappa)
    (hN1 : ∀ l, l ≤ cfg.maxLevel → 1 ≤ N l) (hg : ∀ l, l ≤ cfg.maxLevel → g ≤ N l + ⌊round64 (c * (N l : K))⌋₊)
    (hdm : ∀ l, l ≤ cfg.maxLevel → ∀ i k j n, (d.dm l i k j n).Valid (N l))
    (hdv : ∀ i k j n, Draws (d.dv i k j n))
    (len : ℕ → ℕ) (hlen : ∀ l, 1 ≤ len l) (hv : List (List K) → K)
    (shuffle : ℕ → ℕ → List (List K) → List (List K)) (hsh : ∀ i k l, (shuffle i k l).Perm l)
    (ds : ℕ → ℕ → ℕ → ℕ → MutDraw K)
    (hds : ∀ l i k n, IsDraw (1 / 2 ^ 53) (ds l i k n).rnd) (rate eta : ℕ → K)
    (heta : ∀ l, 0 ≤ eta l) (draw : ℕ → ℕ → ℕ → ℕ) {ratio : List K} (hr : cfg.maxLevel < ratio.length)
    (perm : List (List K) → List (List K)) (hperm : ∀ l, (perm l).Perm l)
    (population : List (List K)) (hN : N 0 ≤ population.length) (hbox : ∀ v ∈ population, FBox dims v)
    (μ : K) (hμ : 0 ≤ μ) (hmod : ∀ l, l ≤ cfg.maxLevel → μ ≤ cfg.modifier l) (calls : List Call) :
    Delivers (ibeaOps round64 S ex kappa c d) ⟨len, hv, shuffle, fun l i v =>
        Rounded.Hgs.populationFromDelegate round64 (S l).pw (S l).eps (ds l i) v (N l) dims (rate l) (eta l)⟩ draw cfg ratio
      (FBox dims) (fun l p => p = N l) (N 0) (μ * g) ((perm population).take (N 0)) calls :=
  C158_box hm2 (ibea_contract (ex := ex) (c := c) hS hdims hobj hk hN1 hg hdm hdv) (fun _ h => h.ge) hS hdims hN1 len hlen hv
    shuffle hsh ds hds rate eta heta draw hr perm hperm population hN hbox μ hμ hmod calls

/-- C158 for SMS-EMOA. -/
theorem C158_smsemoa {hvol : List (List K) → K} {mult : K} {d : SmsDraws K} {cfg : Evogil.Hgs.Conf (List K) K}
    (hm2 : cfg.maxLevel ≤ 2)
    (hS : ∀ l, l ≤ cfg.maxLevel → Usable (S l)) (hdims : ∀ l, l ≤ cfg.maxLevel → (S l).dims = dims)
    (hfit : ∀ l i k j v, (d.fit l i k j v).length = m) (hiter : ∀ i k j l, (d.iter i k j l).Perm l)
    (hN1 : ∀ l, l ≤ cfg.maxLevel → 1 ≤ N l) (hg : ∀ l, l ≤ cfg.maxLevel → g ≤ ⌊round64 (mult * (N l : K))⌋₊ * N l)
    (hdt : ∀ l, l ≤ cfg.maxLevel → ∀ i k j n, PairDraw (N l) (d.dt l i k j n))
    (hdv : ∀ i k j n, Draws (d.dv i k j n))
    (len : ℕ → ℕ) (hlen : ∀ l, 1 ≤ len l) (hv : List (List K) → K)
    (shuffle : ℕ → ℕ → List (List K) → List (List K)) (hsh : ∀ i k l, (shuffle i k l).Perm l)
    (ds : ℕ → ℕ → ℕ → ℕ → MutDraw K)
    (hds : ∀ l i k n, IsDraw (1 / 2 ^ 53) (ds l i k n).rnd) (rate eta : ℕ → K)
    (heta : ∀ l, 0 ≤ eta l) (draw : ℕ → ℕ → ℕ → ℕ) {ratio : List K} (hr : cfg.maxLevel < ratio.length)
    (perm : List (List K) → List (List K)) (hperm : ∀ l, (perm l).Perm l)
    (population : List (List K)) (hN : N 0 ≤ population.length) (hbox : ∀ v ∈ population, FBox dims v)
    (μ : K) (hμ : 0 ≤ μ) (hmod : ∀ l, l ≤ cfg.maxLevel → μ ≤ cfg.modifier l) (calls : List Call) :
    Delivers (smsOps round64 S key hvol mult d) ⟨len, hv, shuffle, fun l i v =>
        Rounded.Hgs.populationFromDelegate round64 (S l).pw (S l).eps (ds l i) v (N l) dims (rate l) (eta l)⟩ draw cfg ratio
      (FBox dims) (fun l p => p = N l) (N 0) (μ * g) ((perm population).take (N 0)) calls :=
  C158_box hm2 (sms_contract (key := key) (hvol := hvol) hS hdims hfit hiter hg hdt hdv) (fun _ h => h.ge) hS hdims hN1 len hlen hv
    shuffle hsh ds hds rate eta heta draw hr perm hperm population hN hbox μ hμ hmod calls

end

/-! ## OMOPSO, NSGA-III and NSLS -/

section
variable {K : Type*} [Field K] [LinearOrder K] [IsStrictOrderedRing K] [FloorRing K]
  {S : ℕ → Setup K} {m : ℕ} {N : ℕ → ℕ} {dims : List (K × K)} {maxLevel g : ℕ}

/-- C158 for OMOPSO. The population of a node is the archive of its driver: the result has at least one vector, not a given
number of them. -/
theorem C158_omopso {trim : ℕ → List K → List K} {etaV : K} {fit : ℕ → List K → List K}
    {dw : ℕ → ℕ → ℕ → ℕ → Evogil.Swarm.SpeedDraw K} {cfg : Evogil.Hgs.Conf (List K) K} (hm2 : cfg.maxLevel ≤ 2)
    (hS : ∀ l, l ≤ cfg.maxLevel → Usable (S l)) (hdims : ∀ l, l ≤ cfg.maxLevel → (S l).dims = dims)
    (T : ∀ l, l ≤ cfg.maxLevel → Swarm.FTask dims (trim l) m (id : List K → List K) (fit l) none)
    (hN1 : ∀ l, l ≤ cfg.maxLevel → 1 ≤ N l)
    (hdw : ∀ i k j p, (dw i k j p).Valid ∧ Mild (Swarm.turn (dw i k j p))) (hg : ∀ l, l ≤ cfg.maxLevel → g ≤ N l)
    (len : ℕ → ℕ) (hlen : ∀ l, 1 ≤ len l) (hv : List (List K) → K)
    (shuffle : ℕ → ℕ → List (List K) → List (List K)) (hsh : ∀ i k l, (shuffle i k l).Perm l)
    (ds : ℕ → ℕ → ℕ → ℕ → MutDraw K)
    (hds : ∀ l i k n, IsDraw (1 / 2 ^ 53) (ds l i k n).rnd) (rate eta : ℕ → K)
    (heta : ∀ l, 0 ≤ eta l) (draw : ℕ → ℕ → ℕ → ℕ) {ratio : List K} (hr : cfg.maxLevel < ratio.length)
    (perm : List (List K) → List (List K)) (hperm : ∀ l, (perm l).Perm l)
    (population : List (List K)) (hN : N 0 ≤ population.length) (hbox : ∀ v ∈ population, FBox dims v)
    (μ : K) (hμ : 0 ≤ μ) (hmod : ∀ l, l ≤ cfg.maxLevel → μ ≤ cfg.modifier l) (calls : List Call) :
    Delivers (omopsoOps round64 dims trim etaV m fit dw) ⟨len, hv, shuffle, fun l i v =>
        Rounded.Hgs.populationFromDelegate round64 (S l).pw (S l).eps (ds l i) v (N l) dims (rate l) (eta l)⟩ draw cfg ratio
      (FBox dims) (fun _ p => 1 ≤ p) 1 (μ * g) ((perm population).take (N 0)) calls :=
  C158_box hm2 (omopso_contract (etaV := etaV) T hN1 hdw hg) (fun _ h => h) hS hdims hN1 len hlen hv
    shuffle hsh ds hds rate eta heta draw hr perm hperm population hN hbox μ hμ hmod calls

/-- After a step of NSGA-III there is a first front, and its vectors are floats of the box. -/
theorem nsgaiii_front {pw : K → K → K} {dot : List K → List K → K} {norm : List K → K} (hp : PowerLaws pw)
    {f : List K → List K} {cf : Evogil.Nsgaiii.Conf K}
    (hcf : Nsgaiii.FloatConf f norm cf) {n : ℕ} {s s' : Evogil.Nsgaiii.Costed K} (hs : Nsgaiii.CGood f cf n s)
    {ds : ℕ → Evogil.Nsgaiii.PairDraw K} {iter : List ℕ → List ℕ} {sample : List ℕ → ℕ → List ℕ}
    (hd : Nsgaiii.DrawsOk n ds iter sample)
    (h : Nsgaiii.stepCosted round64 pw dot norm (1 / 2 ^ 52) f cf ds iter sample s = some s') :
    ∃ front, Nsgaiii.stepFront round64 pw dot norm (1 / 2 ^ 52) f cf ds iter (2 * s.st.size + 1) s.st = some front ∧
      ∀ x ∈ front, FBox cf.dims x.v := by
  obtain ⟨hg, hN, hfl⟩ := hs
  have hl : s.st.inds.length = n := by rw [hg.size, hN]
  obtain ⟨raw, r1, r2, r3, -⟩ := Nsgaiii.makeOffspring_spec hp hcf
    (fun x hx => ⟨hg.box x hx, hfl x hx, hg.eval x hx⟩) ds (by rw [hl]; exact hd.pairs) (s.st.size / 2) 0
  unfold Nsgaiii.stepCosted Nsgaiii.step at h
  unfold Nsgaiii.stepFront
  rw [r1] at h ⊢
  simp only at h ⊢
  set off := raw.map fun x => Evogil.Nsgaiii.evaluate f ⟨cf.trim x.v, x.objectives⟩ with hoff
  have hbox : ∀ x ∈ off ++ s.st.inds, FBox cf.dims x.v := by
    intro x hx
    rcases List.mem_append.1 hx with hx | hx
    · obtain ⟨z, hz, rfl⟩ := List.mem_map.1 hx
      have hz1 := hcf.trimBox _ (r3 z hz).1
      have hz2 := hcf.trimFloats _ (r3 z hz).2.1
      unfold Evogil.Nsgaiii.evaluate
      split <;> exact ⟨hz1, hz2⟩
    · exact ⟨hg.box x hx, hfl x hx⟩
  cases ho : Evogil.Nsgaiii.allObjectives (off ++ s.st.inds) with
  | none => rw [ho] at h; cases h
  | some objs =>
    rw [ho] at h
    simp only at h ⊢
    set ideal := Evogil.Nsgaiii.updateIdeal s.st.ideal (off.filterMap Evogil.Nsgaiii.Ind.objectives) with hid
    set sc := Nsgaiii.scores round64 dot norm (1 / 2 ^ 52) cf ideal objs with hsc
    cases hL : ndSort iter (thetaDom (fun i => (sc.getD i (0, 0)).1) (fun i => (sc.getD i (0, 0)).2))
        (2 * s.st.size + 1) (List.range sc.length) with
    | none =>
      rw [Evogil.Nsgaiii.selectIdx, hL] at h
      split at h <;> cases h
    | some L =>
      refine ⟨_, rfl, ?_⟩
      intro x hx
      obtain ⟨i, -, hi⟩ := List.mem_filterMap.1 hx
      exact hbox x (List.mem_of_getElem? hi)

variable {pw : K → K → K} {dot : List K → List K → K} {norm : List K → K} {f : ℕ → List K → List K}

/-- NSGA-III without archive keeps the contract, with at least two individuals on every level; if the first pair of parents
is always crossed, a step costs at least one evaluation. -/
theorem nsgaiii_contract {cf : ℕ → ℕ → Evogil.Nsgaiii.Conf K} {d : NsgaiiiDraws K} (hp : PowerLaws pw)
    (hcf : ∀ l, l ≤ maxLevel → ∀ i, Nsgaiii.FloatConf (f l) norm (cf l i))
    (hdims : ∀ l, l ≤ maxLevel → ∀ i, (cf l i).dims = dims) (hN2 : ∀ l, l ≤ maxLevel → 2 ≤ N l)
    (hd : ∀ l, l ≤ maxLevel → ∀ i k j, Nsgaiii.DrawsOk (N l) (d.ds l i k j) (d.iter i k j) (d.sample i k j))
    (hg : g = 0 ∨ (g = 1 ∧ ∀ l, l ≤ maxLevel → ∀ i' i k j, (d.ds l i k j 0).first ≤ (cf l i').rateC)) :
    Contract (nsgaiiiOps round64 pw dot norm (1 / 2 ^ 52) f cf d) maxLevel (FBox dims) N (fun l p => p = N l)
      (fun l s => (∃ i, s.cf = cf l i) ∧ Nsgaiii.CGood (f l) s.cf (N l) s.st ∧ ∀ v ∈ s.front, FBox dims v)
      (fun _ _ => True) (fun _ _ => True) True g := by
  constructor
  · intro l hl i pop w f' hn hP _
    refine ⟨(), _, rfl, ⟨⟨i, rfl⟩, ?_, by simp⟩, trivial⟩
    have := Nsgaiii.initCosted_good (hcf l hl i) (pop := pop) (by rw [hdims l hl i]; exact hP)
    rwa [hn] at this
  · rintro l hl i k j w f' s ⟨⟨i', hi'⟩, hs, -⟩ -
    obtain ⟨cf', st, front⟩ := s
    simp only at hi' hs
    subst hi'
    obtain ⟨raw, st', r1, r2, r3, r4, r5⟩ := Nsgaiii.stepCosted_spec (dot := dot) hp (hcf l hl i') (hN2 l hl) hs
      (hd l hl i k j)
    obtain ⟨fr, e1, e2⟩ := nsgaiii_front hp (hcf l hl i') hs (hd l hl i k j) r2
    refine ⟨(), ⟨cf l i', st', fr.map Evogil.Nsgaiii.Ind.v⟩, by simp only [nsgaiiiOps, r2, e1], ⟨⟨i', rfl⟩, r3, ?_⟩,
      ?_, trivial⟩
    · intro v hv
      obtain ⟨x, hx, rfl⟩ := List.mem_map.1 hv
      have := e2 x hx
      rwa [hdims l hl i'] at this
    · simp only [nsgaiiiOps, r5]
      rcases hg with rfl | ⟨rfl, hfirst⟩
      · omega
      · obtain ⟨raw', t1, -, -, -, t5, -⟩ := Nsgaiii.makeOffspring_spec hp (hcf l hl i')
          (fun x hx => ⟨hs.1.box x hx, hs.2.2 x hx, hs.1.eval x hx⟩) (d.ds l i k j) (by
            rw [hs.1.size, hs.2.1]; exact (hd l hl i k j).pairs) (N l / 2) 0
        obtain rfl : raw' = raw := Option.some.inj (t1.symm.trans r1)
        have := t5 0 le_rfl (by have := hN2 l hl; omega) (hfirst l hl i' i k j)
        omega
  · exact fun _ _ _ _ _ _ _ _ _ _ _ _ _ => trivial
  · rintro l hl i k w f' s ⟨⟨i', hi'⟩, hs, hfr⟩ - -
    refine ⟨(), s, _, _, rfl, ⟨⟨i', hi'⟩, hs, hfr⟩, le_rfl, fun _ => rfl, trivial, ?_, ?_, hfr⟩
    · rw [List.length_map, hs.1.size, hs.2.1]
    · intro v hv
      obtain ⟨x, hx, rfl⟩ := List.mem_map.1 hv
      have := hs.1.box x hx
      rw [hi', hdims l hl i'] at this
      exact ⟨this, hs.2.2 x hx⟩

/-- C158 for NSGA-III, at least two individuals on every level. Every budget is reached (`g` is 1) if the first pair of
parents is crossed in every step. -/
theorem C158_nsgaiii {cf : ℕ → ℕ → Evogil.Nsgaiii.Conf K} {d : NsgaiiiDraws K} {cfg : Evogil.Hgs.Conf (List K) K}
    (hm2 : cfg.maxLevel ≤ 2) (hp : PowerLaws pw)
    (hS : ∀ l, l ≤ cfg.maxLevel → Usable (S l)) (hdims : ∀ l, l ≤ cfg.maxLevel → (S l).dims = dims)
    (hcf : ∀ l, l ≤ cfg.maxLevel → ∀ i, Nsgaiii.FloatConf (f l) norm (cf l i))
    (hcd : ∀ l, l ≤ cfg.maxLevel → ∀ i, (cf l i).dims = dims) (hN2 : ∀ l, l ≤ cfg.maxLevel → 2 ≤ N l)
    (hd : ∀ l, l ≤ cfg.maxLevel → ∀ i k j, Nsgaiii.DrawsOk (N l) (d.ds l i k j) (d.iter i k j) (d.sample i k j))
    (hg : g = 0 ∨ (g = 1 ∧ ∀ l, l ≤ cfg.maxLevel → ∀ i' i k j, (d.ds l i k j 0).first ≤ (cf l i').rateC))
    (len : ℕ → ℕ) (hlen : ∀ l, 1 ≤ len l) (hv : List (List K) → K)
    (shuffle : ℕ → ℕ → List (List K) → List (List K)) (hsh : ∀ i k l, (shuffle i k l).Perm l)
    (ds : ℕ → ℕ → ℕ → ℕ → MutDraw K)
    (hds : ∀ l i k n, IsDraw (1 / 2 ^ 53) (ds l i k n).rnd) (rate eta : ℕ → K)
    (heta : ∀ l, 0 ≤ eta l) (draw : ℕ → ℕ → ℕ → ℕ) {ratio : List K} (hr : cfg.maxLevel < ratio.length)
    (perm : List (List K) → List (List K)) (hperm : ∀ l, (perm l).Perm l)
    (population : List (List K)) (hN : N 0 ≤ population.length) (hbox : ∀ v ∈ population, FBox dims v)
    (μ : K) (hμ : 0 ≤ μ) (hmod : ∀ l, l ≤ cfg.maxLevel → μ ≤ cfg.modifier l) (calls : List Call) :
    Delivers (nsgaiiiOps round64 pw dot norm (1 / 2 ^ 52) f cf d) ⟨len, hv, shuffle, fun l i v =>
        Rounded.Hgs.populationFromDelegate round64 (S l).pw (S l).eps (ds l i) v (N l) dims (rate l) (eta l)⟩ draw cfg ratio
      (FBox dims) (fun l p => p = N l) (N 0) (μ * g) ((perm population).take (N 0)) calls :=
  C158_box hm2 (nsgaiii_contract (dot := dot) hp hcf hcd hN2 hd hg) (fun _ h => h.ge) hS hdims
    (fun l hl => by have := hN2 l hl; omega) len hlen hv
    shuffle hsh ds hds rate eta heta draw hr perm hperm population hN hbox μ hμ hmod calls

/-- After a step of NSLS there is a first front, and its vectors are floats of the box. -/
theorem nsls_front {vdist : List K → List K → K} {trim f : List K → List K} (hb : FloatBox round64 dims)
    (ht : Evogil.Nsls.TrimOk dims trim)
    (hft : ∀ v, Floats round64 v → Floats round64 (trim v)) (hf : ∀ v, (f v).length = m) {n : ℕ}
    (h2 : 2 ≤ n) {done : Bool} {s : Evogil.Nsls.Costed K} (h : Evogil.Nsls.CGood dims f n done s)
    (hfl : ∀ x ∈ s.inds, Floats round64 x.v)
    {ds : ℕ → ℕ → Evogil.Nsls.LsDraw K} {iter : List ℕ → List ℕ} {sample : List ℕ → ℕ → List ℕ}
    (hd : Evogil.Nsls.DrawsOk n ds iter sample) {s' : Evogil.Nsls.Costed K}
    (hs : Nsls.stepCosted round64 dims trim f m vdist ds iter sample s = some s') :
    ∃ front, Nsls.stepFront round64 dims trim f ds iter (2 * s.size + 1) s.inds = some front ∧
      ∀ x ∈ front, FBox dims x.v := by
  have hi' : ∀ x ∈ s.inds.map (Evogil.Nsls.evaluate f), Floats round64 x.v := by
    intro x hx
    obtain ⟨y, hy, rfl⟩ := List.mem_map.1 hx
    rw [Nsls.evaluate_v]
    exact hfl y hy
  obtain ⟨⟨ds', h1, h3⟩, h4⟩ := Nsls.localSearch_sim (dims := dims) (f := f) hft ds hi'
  have hd' : Evogil.Nsls.DrawsOk n ds' iter sample :=
    ⟨fun i k => by rw [(h1 i k).1, (h1 i k).2.1]; exact hd.pairs i k, hd.iter, hd.sample⟩
  have hc : Nsls.stepCosted round64 dims trim f m vdist ds iter sample s
      = Evogil.Nsls.stepCosted dims (Nsls.rtrim trim) f m vdist ds' iter sample s := by
    unfold Nsls.stepCosted Evogil.Nsls.stepCosted Nsls.step Evogil.Nsls.step
    rw [h3]
    rfl
  obtain ⟨fr, e1, e2⟩ := Evogil.Hgs.nsls_front (Nsls.rtrim_ok hb ht) hf h2 h hd' (hc ▸ hs)
  have e3 : Nsls.stepFront round64 dims trim f ds iter (2 * s.size + 1) s.inds = some fr := by
    rw [← e1]
    unfold Nsls.stepFront Evogil.Nsls.stepFront
    rw [h3]
    rfl
  refine ⟨fr, e3, fun x hx => ⟨e2 x hx, ?_⟩⟩
  unfold Nsls.stepFront at e3
  split at e3
  · cases e3
  · rename_i all hall
    split at e3
    · cases e3
    · obtain ⟨L, -, rfl⟩ := Option.map_eq_some_iff.1 e3
      obtain ⟨i, -, hi⟩ := List.mem_filterMap.1 hx
      exact h4 all hall x (List.mem_of_getElem? hi)

/-- NSLS without archive keeps the contract, with at least two individuals on every level, if the local search always finds
a trial that is not dominated: otherwise a step does not end (C149). -/
theorem nsls_contract {trim : ℕ → List K → List K} {vdist : List K → List K → K} {d : NslsDraws K}
    (hb : FloatBox round64 dims) (ht : ∀ l, l ≤ maxLevel → Evogil.Nsls.TrimOk dims (trim l))
    (hft : ∀ l, l ≤ maxLevel → ∀ v, Floats round64 v → Floats round64 (trim l v))
    (hf : ∀ l, l ≤ maxLevel → ∀ v, (f l v).length = m) (hm : 1 ≤ m) (hN2 : ∀ l, l ≤ maxLevel → 2 ≤ N l)
    (hd : ∀ l, l ≤ maxLevel → ∀ i k j, Evogil.Nsls.DrawsOk (N l) (d.ds l i k j) (d.iter i k j) (d.sample i k j))
    (hprod : ∀ l, l ≤ maxLevel → ∀ i k j inds, inds.length = N l → (∀ x ∈ inds, FBox dims x.v) →
      (∀ x ∈ inds, ∀ o, x.objectives = some o → o = f l x.v) →
      Nsls.Productive dims (trim l) (f l) (d.ds l i k j) inds)
    (hg : ∀ l, l ≤ maxLevel → g ≤ N l * (dims.length * 2)) :
    Contract (nslsOps round64 dims trim f m vdist d) maxLevel (FBox dims) N (fun l p => p = N l)
      (fun l s => (∃ done, Evogil.Nsls.CGood dims (f l) (N l) done s.1) ∧ (∀ x ∈ s.1.inds, Floats round64 x.v) ∧
        ∀ v ∈ s.2, FBox dims v)
      (fun _ _ => True) (fun _ _ => True) True g := by
  constructor
  · intro l hl i pop w f' hn hP _
    refine ⟨(), _, rfl, ⟨⟨false, ?_⟩, Nsls.init_floats (hft l hl) fun v hv => (hP v hv).2, by simp⟩, trivial⟩
    have := Evogil.Nsls.initCosted_good (f := f l) (ht l hl) fun v hv => (hP v hv).1
    rwa [hn] at this
  · rintro l hl i k j w f' s ⟨⟨done, hs⟩, hfl, -⟩ -
    obtain ⟨s', e, h', hfl', hc⟩ := (Nsls.step_good (vdist := vdist) hb (ht l hl) (hft l hl) (hf l hl) hm (hN2 l hl) hs hfl
      (hd l hl i k j)).1 (hprod l hl i k j s.1.inds hs.length (fun x hx => ⟨hs.box x hx, hfl x hx⟩) (by
        intro x hx o ho
        rw [hs.objs x hx] at ho
        split_ifs at ho
        exact (Option.some.inj ho).symm))
    obtain ⟨fr, e1, e2⟩ := nsls_front hb (ht l hl) (hft l hl) (hf l hl) (hN2 l hl) hs hfl (hd l hl i k j) e
    refine ⟨(), (s', fr.map Evogil.Nsls.Ind.v), by simp only [nslsOps, e, e1], ⟨⟨true, h'⟩, hfl', ?_⟩, ?_, trivial⟩
    · intro v hv
      obtain ⟨x, hx, rfl⟩ := List.mem_map.1 hv
      exact e2 x hx
    · have := hg l hl
      simp only [nslsOps, hc]
      omega
  · exact fun _ _ _ _ _ _ _ _ _ _ _ _ _ => trivial
  · rintro l hl i k w f' s ⟨⟨done, hs⟩, hfl, hfr⟩ - -
    refine ⟨(), s, _, _, rfl, ⟨⟨done, hs⟩, hfl, hfr⟩, le_rfl, fun _ => rfl, trivial, ?_, ?_, hfr⟩
    · rw [List.length_map, hs.length]
    · intro v hv
      obtain ⟨x, hx, rfl⟩ := List.mem_map.1 hv
      exact ⟨hs.box x hx, hfl x hx⟩

/-- C158 for NSLS, at least two individuals on every level, if the local search always finds a trial that is not dominated;
otherwise a step, and with it the whole run, may never end (C149). -/
theorem C158_nsls {trim : ℕ → List K → List K} {vdist : List K → List K → K} {d : NslsDraws K}
    {cfg : Evogil.Hgs.Conf (List K) K} (hm2 : cfg.maxLevel ≤ 2)
    (hS : ∀ l, l ≤ cfg.maxLevel → Usable (S l)) (hdims : ∀ l, l ≤ cfg.maxLevel → (S l).dims = dims)
    (hb : FloatBox round64 dims) (ht : ∀ l, l ≤ cfg.maxLevel → Evogil.Nsls.TrimOk dims (trim l))
    (hft : ∀ l, l ≤ cfg.maxLevel → ∀ v, Floats round64 v → Floats round64 (trim l v))
    (hf : ∀ l, l ≤ cfg.maxLevel → ∀ v, (f l v).length = m) (hm : 1 ≤ m) (hN2 : ∀ l, l ≤ cfg.maxLevel → 2 ≤ N l)
    (hd : ∀ l, l ≤ cfg.maxLevel → ∀ i k j, Evogil.Nsls.DrawsOk (N l) (d.ds l i k j) (d.iter i k j) (d.sample i k j))
    (hprod : ∀ l, l ≤ cfg.maxLevel → ∀ i k j inds, inds.length = N l → (∀ x ∈ inds, FBox dims x.v) →
      (∀ x ∈ inds, ∀ o, x.objectives = some o → o = f l x.v) →
      Nsls.Productive dims (trim l) (f l) (d.ds l i k j) inds)
    (hg : ∀ l, l ≤ cfg.maxLevel → g ≤ N l * (dims.length * 2))
    (len : ℕ → ℕ) (hlen : ∀ l, 1 ≤ len l) (hv : List (List K) → K)
    (shuffle : ℕ → ℕ → List (List K) → List (List K)) (hsh : ∀ i k l, (shuffle i k l).Perm l)
    (ds : ℕ → ℕ → ℕ → ℕ → MutDraw K)
    (hds : ∀ l i k n, IsDraw (1 / 2 ^ 53) (ds l i k n).rnd) (rate eta : ℕ → K)
    (heta : ∀ l, 0 ≤ eta l) (draw : ℕ → ℕ → ℕ → ℕ) {ratio : List K} (hr : cfg.maxLevel < ratio.length)
    (perm : List (List K) → List (List K)) (hperm : ∀ l, (perm l).Perm l)
    (population : List (List K)) (hN : N 0 ≤ population.length) (hbox : ∀ v ∈ population, FBox dims v)
    (μ : K) (hμ : 0 ≤ μ) (hmod : ∀ l, l ≤ cfg.maxLevel → μ ≤ cfg.modifier l) (calls : List Call) :
    Delivers (nslsOps round64 dims trim f m vdist d) ⟨len, hv, shuffle, fun l i v =>
        Rounded.Hgs.populationFromDelegate round64 (S l).pw (S l).eps (ds l i) v (N l) dims (rate l) (eta l)⟩ draw cfg ratio
      (FBox dims) (fun l p => p = N l) (N 0) (μ * g) ((perm population).take (N 0)) calls :=
  C158_box hm2 (nsls_contract (vdist := vdist) hb ht hft hf hm hN2 hd hprod hg) (fun _ h => h.ge) hS hdims
    (fun l hl => by have := hN2 l hl; omega) len hlen hv
    shuffle hsh ds hds rate eta heta draw hr perm hperm population hN hbox μ hμ hmod calls

end

/-! ## Examples -/

/-- The tree of the other examples, with rounded comparisons. -/
def exFloatTree : Evogil.Hgs.Conf (List ℚ) ℚ := { Evogil.Hgs.exTreeConf with fl := round64 }

theorem exModifier : ∀ l, l ≤ exFloatTree.maxLevel → 1 / 4 ≤ exFloatTree.modifier l := by
  intro l hl
  have : l ≤ 2 := hl
  interval_cases l <;> norm_num [exFloatTree, Evogil.Hgs.exTreeConf]

/-- Every step costs at least half an evaluation with NSGA-II with two children. -/
example (draw : ℕ → ℕ → ℕ → ℕ) (calls : List Call) := C158_nsgaii (K := ℚ) (cfg := exFloatTree) (S := fun _ => Rounded.Run.exSetup)
  (key := (id : List ℚ → List ℚ)) (m := 2) (c := 1) (d := exNsgaii) (N := fun _ => 2) (dims := [(0, 1)]) (g := 2)
  le_rfl (fun _ _ => exSetup_usable) (fun _ _ => rfl) (by norm_num) (fun _ _ _ _ _ => rfl) (fun _ _ _ _ => List.Perm.refl _)
  (fun _ _ _ _ _ _ => by constructor <;> simp [exNsgaii]) (fun _ _ _ _ => exDraw_draws)
  (fun _ _ => by decide +kernel) (fun _ _ => by decide)
  (fun _ => 1) (fun _ => le_rfl) (fun p => p.flatten.sum) (fun _ _ => id) (fun _ _ _ => List.Perm.refl _)
  (fun _ _ _ _ => ⟨0, 1 / 4⟩) (fun _ _ _ _ => exQuarter) (fun _ => 1) (fun _ => 1) (fun _ => zero_le_one) draw
  (ratio := [10, 10, 10]) (by decide) id (fun _ => List.Perm.refl _) [[0], [1 / 4], [1]] (by decide) exThree (1 / 4)
  (by norm_num) exModifier calls

example (draw : ℕ → ℕ → ℕ → ℕ) (calls : List Call) := C158_jgbl_partial (K := ℚ) (cfg := exFloatTree) (S := fun _ => Rounded.Run.exSetup)
  (key := (id : List ℚ → List ℚ)) (m := 2) (c := 1) (jumps := 1) (d := exJgbl) (N := fun _ => 2) (dims := [(0, 1)])
  (g := 2) le_rfl (fun _ _ => exSetup_usable) (fun _ _ => rfl) exSetup_closed (by norm_num) (fun _ _ _ _ _ => rfl)
  (fun _ _ _ => by constructor <;> exact fun _ => List.Perm.refl _)
  (fun _ _ _ _ _ _ => by constructor <;> simp [exJgbl]) (fun _ _ _ _ => exDraw_draws)
  (fun _ _ _ => exJumps_valid 1 le_rfl) (fun _ _ => by decide +kernel) (fun _ _ => by decide)
  (fun _ => 1) (fun _ => le_rfl) (fun p => p.flatten.sum) (fun _ _ => id) (fun _ _ _ => List.Perm.refl _)
  (fun _ _ _ _ => ⟨0, 1 / 4⟩) (fun _ _ _ _ => exQuarter) (fun _ => 1) (fun _ => 1) (fun _ => zero_le_one) draw
  (ratio := [10, 10, 10]) (by decide) id (fun _ => List.Perm.refl _) [[0], [1 / 4], [1]] (by decide) exThree (1 / 4)
  (by norm_num) exModifier calls

example (draw : ℕ → ℕ → ℕ → ℕ) (calls : List Call) := C158_spea2 (K := ℚ) (cfg := exFloatTree) (S := fun _ => Rounded.Run.exSetup)
  (dist := fun a b => |a.sum - b.sum|) (key := (id : List ℚ → List ℚ)) (m := 2) (d := exSpea2) (N := fun _ => 2)
  (dims := [(0, 1)]) (g := 2) le_rfl (fun _ _ => exSetup_usable) (fun _ _ => rfl) (fun _ _ => abs_nonneg _) (fun _ _ _ _ _ => rfl) (fun _ _ => le_rfl) (fun _ _ => le_rfl)
  (fun _ _ _ _ _ _ => by simp [exSpea2, PairDraw]) (fun _ _ _ _ => exDraw_draws)
  (fun _ => 1) (fun _ => le_rfl) (fun p => p.flatten.sum) (fun _ _ => id) (fun _ _ _ => List.Perm.refl _)
  (fun _ _ _ _ => ⟨0, 1 / 4⟩) (fun _ _ _ _ => exQuarter) (fun _ => 1) (fun _ => 1) (fun _ => zero_le_one) draw
  (ratio := [10, 10, 10]) (by decide) id (fun _ => List.Perm.refl _) [[0], [1 / 4], [1]] (by decide) exThree (1 / 4)
  (by norm_num) exModifier calls

example (draw : ℕ → ℕ → ℕ → ℕ) (calls : List Call) := C158_ibea (K := ℚ) (cfg := exFloatTree) (S := fun _ => Rounded.Run.exSetup)
  (ex := fun x => x) (kappa := 1) (c := 1) (d := exIbea) (N := fun _ => 2) (dims := [(0, 1)]) (g := 4) le_rfl
  (fun _ _ => exSetup_usable) (fun _ _ => rfl) (fun _ _ _ _ => by simp [exIbea]) (by norm_num) (fun _ _ => by decide) (fun _ _ => by decide +kernel)
  (fun _ _ _ _ _ _ => by constructor <;> simp [exIbea]) (fun _ _ _ _ => exDraw_draws)
  (fun _ => 1) (fun _ => le_rfl) (fun p => p.flatten.sum) (fun _ _ => id) (fun _ _ _ => List.Perm.refl _)
  (fun _ _ _ _ => ⟨0, 1 / 4⟩) (fun _ _ _ _ => exQuarter) (fun _ => 1) (fun _ => 1) (fun _ => zero_le_one) draw
  (ratio := [10, 10, 10]) (by decide) id (fun _ => List.Perm.refl _) [[0], [1 / 4], [1]] (by decide) exThree (1 / 4)
  (by norm_num) exModifier calls

example (draw : ℕ → ℕ → ℕ → ℕ) (calls : List Call) := C158_smsemoa (K := ℚ) (cfg := exFloatTree) (S := fun _ => Rounded.Run.exSetup)
  (key := (id : List ℚ → List ℚ)) (m := 2) (hvol := fun l => (l.map List.sum).sum) (mult := 1 / 2) (d := exSms)
  (N := fun _ => 2) (dims := [(0, 1)]) (g := 2) le_rfl (fun _ _ => exSetup_usable) (fun _ _ => rfl) (fun _ _ _ _ _ => rfl)
  (fun _ _ _ _ => List.Perm.refl _) (fun _ _ => by decide) (fun _ _ => by decide +kernel)
  (fun _ _ _ _ _ _ => by simp [exSms, PairDraw]) (fun _ _ _ _ => exDraw_draws)
  (fun _ => 1) (fun _ => le_rfl) (fun p => p.flatten.sum) (fun _ _ => id) (fun _ _ _ => List.Perm.refl _)
  (fun _ _ _ _ => ⟨0, 1 / 4⟩) (fun _ _ _ _ => exQuarter) (fun _ => 1) (fun _ => 1) (fun _ => zero_le_one) draw
  (ratio := [10, 10, 10]) (by decide) id (fun _ => List.Perm.refl _) [[0], [1 / 4], [1]] (by decide) exThree (1 / 4)
  (by norm_num) exModifier calls

example (draw : ℕ → ℕ → ℕ → ℕ) (calls : List Call) := C158_omopso (K := ℚ) (cfg := exFloatTree) (S := fun _ => Rounded.Run.exSetup)
  (dims := [(0, 1)]) (trim := fun _ => id) (etaV := round64 (3 / 400)) (m := 2) (fit := fun _ => Islands.exHead)
  (N := fun _ => 2) (g := 2) (dw := fun _ _ _ _ => ⟨fun _ => (1, 0), 1, 1 / 4, 2, 2, 1 / 2⟩) le_rfl (fun _ _ => exSetup_usable) (fun _ _ => rfl)
  (fun _ _ => ⟨exUnit, fun _ h => h, fun _ => rfl, by
      intro v hv x hx
      simp only [Islands.exHead, List.mem_cons, List.not_mem_nil, or_false] at hx
      rcases hx with rfl | rfl
      · cases v with
        | nil => decide +kernel
        | cons a l => exact hv a (by simp)
      · exact round64_isRounding.idem _, fun _ h => by cases h⟩) (fun _ _ => by decide)
  (fun _ _ _ _ => ⟨fun n h => ⟨by simp, by simp only; omega, by simp only; omega⟩,
    by constructor <;> norm_num [Swarm.turn]⟩) (fun _ _ => le_rfl)
  (fun _ => 1) (fun _ => le_rfl) (fun p => p.flatten.sum) (fun _ _ => id) (fun _ _ _ => List.Perm.refl _)
  (fun _ _ _ _ => ⟨0, 1 / 4⟩) (fun _ _ _ _ => exQuarter) (fun _ => 1) (fun _ => 1) (fun _ => zero_le_one) draw
  (ratio := [10, 10, 10]) (by decide) id (fun _ => List.Perm.refl _) [[0], [1 / 4], [1]] (by decide) exThree (1 / 4)
  (by norm_num) exModifier calls

example (draw : ℕ → ℕ → ℕ → ℕ) (calls : List Call) := C158_nsgaiii (K := ℚ) (cfg := exFloatTree) (S := fun _ => Rounded.Run.exSetup)
  (pw := Rounded.Run.exSetup.pw) (dot := Evogil.Nsgaiii.dot) (norm := Evogil.Nsgaiii.norm id)
  (f := fun _ => Islands.exHead) (cf := fun _ _ => Evogil.Dist.exNsgaiiiConf) (d := Evogil.Dist.exNsgaiiiDraws) (dims := [(0, 1)])
  (N := fun _ => 2) (g := 1) le_rfl Rounded.Run.exSetup_usable.pow (fun _ _ => exSetup_usable) (fun _ _ => rfl)
  (fun _ _ _ => ⟨⟨by norm_num [Evogil.Dist.exNsgaiiiConf], by norm_num [Evogil.Dist.exNsgaiiiConf], fun _ h => h, fun _ => rfl,
    fun _ => rfl⟩, exUnit, fun _ h => h, by
      have : ∀ r ∈ Evogil.Dist.exNsgaiiiConf.refs, Evogil.Nsgaiii.norm id r ≠ 0 := by decide +kernel
      exact this⟩)
  (fun _ _ _ => rfl) (fun _ _ => le_rfl)
  (fun _ _ _ _ _ => ⟨fun _ => ⟨by simp [Evogil.Dist.exNsgaiiiDraws], by simp [Evogil.Dist.exNsgaiiiDraws], fun _ => exQuarter,
    fun _ => exHalf, fun _ => exHalf⟩, fun _ => List.Perm.refl _, fun l n h => Evogil.Dist.exSample l n h⟩)
  (Or.inr ⟨rfl, fun _ _ _ _ _ _ => by norm_num [Evogil.Dist.exNsgaiiiDraws, Evogil.Dist.exNsgaiiiConf]⟩)
  (fun _ => 1) (fun _ => le_rfl) (fun p => p.flatten.sum) (fun _ _ => id) (fun _ _ _ => List.Perm.refl _)
  (fun _ _ _ _ => ⟨0, 1 / 4⟩) (fun _ _ _ _ => exQuarter) (fun _ => 1) (fun _ => 1) (fun _ => zero_le_one) draw
  (ratio := [10, 10, 10]) (by decide) id (fun _ => List.Perm.refl _) [[0], [1 / 4], [1]] (by decide) exThree (1 / 4)
  (by norm_num) exModifier calls

example (draw : ℕ → ℕ → ℕ → ℕ) (calls : List Call) := C158_nsls (K := ℚ) (cfg := exFloatTree) (S := fun _ => Rounded.Run.exSetup)
  (dims := [(0, 1)]) (trim := fun _ => id) (f := fun _ => Evogil.Dist.exOpposite) (m := 2)
  (vdist := fun a b => |a.getD 0 0 - b.getD 0 0|) (d := Evogil.Dist.exNslsDraws) (N := fun _ => 2) (g := 4) le_rfl (fun _ _ => exSetup_usable) (fun _ _ => rfl) exUnit
  (fun _ _ => Evogil.Dist.exTrimOk) (fun _ _ _ h => h) (fun _ _ _ => rfl) (by decide) (fun _ _ => le_rfl)
  (fun _ _ _ _ _ => ⟨fun _ _ => ⟨by simp [Evogil.Dist.exNslsDraws], by simp [Evogil.Dist.exNslsDraws]⟩, fun _ => List.Perm.refl _,
    fun l n h => Evogil.Dist.exSample l n h⟩)
  (fun l _ i k j inds h1 h2 h3 => Nsls.C149_incomparable (m := 2) exUnit Evogil.Dist.exTrimOk (fun _ h => h)
    (fun _ => rfl) (by simp) (fun x y _ _ => Evogil.Dist.exOpposite_incomparable x y) (by rw [h1])
    (by rw [h1]; exact fun _ _ => ⟨by simp [Evogil.Dist.exNslsDraws], by simp [Evogil.Dist.exNslsDraws]⟩) h2 h3)
  (fun _ _ => by decide)
  (fun _ => 1) (fun _ => le_rfl) (fun p => p.flatten.sum) (fun _ _ => id) (fun _ _ _ => List.Perm.refl _)
  (fun _ _ _ _ => ⟨0, 1 / 4⟩) (fun _ _ _ _ => exQuarter) (fun _ => 1) (fun _ => 1) (fun _ => zero_le_one) draw
  (ratio := [10, 10, 10]) (by decide) id (fun _ => List.Perm.refl _) [[0], [1 / 4], [1]] (by decide) exThree (1 / 4)
  (by norm_num) exModifier calls

/-- One step of the root with NSGA-II, from 0 and the float next to 1/3: the cost of the driver, the costs reported, the population and the delegates. -/
example : ((nsgaiiOps (K := ℚ) round64 (fun _ => Rounded.Run.exSetup) (id : List ℚ → List ℚ) 2 1 exNsgaii).make 0 0
      [[0], [6004799503160661 / 2 ^ 54]] () |>.bind fun s =>
      Evogil.Hgs.nodeReport (K := ℚ) (nsgaiiOps round64 (fun _ => Rounded.Run.exSetup) (id : List ℚ → List ℚ) 2 1 exNsgaii)
        exFloatConf 0 0 1 () s.2).map (fun r => (r.2.1.acc.cost, r.2.2.costs, r.2.2.pop, r.2.2.delegates)) =
    some (4, [4], [[0], [1501199875790165 / 2 ^ 51]],
      [[0], [6004799503160661 / 2 ^ 54], [1501199875790165 / 2 ^ 51], [1501199875790165 / 2 ^ 51]]) := by decide +kernel

/-- With JGBL: the cost of the driver, the costs reported, the population and the delegates. -/
example : ((jgblOps (K := ℚ) round64 (fun _ => Rounded.Run.exSetup) (id : List ℚ → List ℚ) 2 1 exJgbl).make 0 0
      [[0], [6004799503160661 / 2 ^ 54]] () |>.bind fun s =>
      Evogil.Hgs.nodeReport (K := ℚ) (jgblOps round64 (fun _ => Rounded.Run.exSetup) (id : List ℚ → List ℚ) 2 1 exJgbl)
        exFloatConf 0 0 1 () s.2).map (fun r => (r.2.1.acc.cost, r.2.2.costs, r.2.2.pop, r.2.2.delegates)) =
    some (10, [10], [[0], [1501199875790165 / 2 ^ 51]], [[0], [1501199875790165 / 2 ^ 51]]) := by decide +kernel

/-- With NSGA-III: the cost of the driver, the costs reported, the population and the delegates. -/
example : ((nsgaiiiOps round64 Rounded.Run.exSetup.pw Evogil.Nsgaiii.dot (Evogil.Nsgaiii.norm id) (1 / 2 ^ 52)
      (fun _ => Islands.exHead) (fun _ _ => Evogil.Dist.exNsgaiiiConf) Evogil.Dist.exNsgaiiiDraws).make 0 0
      [[0], [6004799503160661 / 2 ^ 54]] () |>.bind fun s =>
      Evogil.Hgs.nodeReport (K := ℚ) (nsgaiiiOps round64 Rounded.Run.exSetup.pw Evogil.Nsgaiii.dot (Evogil.Nsgaiii.norm id)
      (1 / 2 ^ 52) (fun _ => Islands.exHead) (fun _ _ => Evogil.Dist.exNsgaiiiConf) Evogil.Dist.exNsgaiiiDraws)
        exFloatConf 0 0 1 () s.2).map (fun r => (r.2.1.st.cost, r.2.2.costs, r.2.2.pop, r.2.2.delegates)) =
    some (4, [4], [[0], [6004799503160661 / 2 ^ 54]], [[0], [6004799503160661 / 2 ^ 54]]) := by decide +kernel

/-- With NSLS: the cost of the driver, the costs reported, the population and the delegates. -/
example : ((nslsOps round64 [(0, 1)] (fun _ => id) (fun _ => Evogil.Dist.exOpposite) 2 (fun a b => |a.getD 0 0 - b.getD 0 0|)
      Evogil.Dist.exNslsDraws).make 0 0
      [[0], [6004799503160661 / 2 ^ 54]] () |>.bind fun s =>
      Evogil.Hgs.nodeReport (K := ℚ) (nslsOps round64 [(0, 1)] (fun _ => id) (fun _ => Evogil.Dist.exOpposite) 2
        (fun a b => |a.getD 0 0 - b.getD 0 0|) Evogil.Dist.exNslsDraws) exFloatConf 0 0 1 () s.2).map
        (fun r => (r.2.1.1.cost, r.2.2.costs, r.2.2.pop, r.2.2.delegates)) =
    some (6, [6], [[0], [6004799503160661 / 2 ^ 54]],
      [[0], [6004799503160661 / 2 ^ 54], [0], [6004799503160661 / 2 ^ 55]]) := by decide +kernel

end Evogil.Rounded.Dist
