import Verif.Model.HgsRunMore
import Verif.Props.HgsRunSeeded

/-!
# C106 for HGS with SMS-EMOA in its nodes
-/

set_option linter.unusedSectionVars false

namespace Evogil.Hgs

open Generations Evaluation Spec

section
variable {K : Type*} [Field K] [LinearOrder K] [IsStrictOrderedRing K] [FloorSemiring K] {A : Type*}

/-- An archive in which nothing is found spares nothing. -/
theorem smsTurns_empty {S : Setup K} {key : List K → A} {fit : List K → List K}
    {iter : List (Ind (List K) (List K)) → List (Ind (List K) (List K))} {hv : List (List K) → K}
    {dt : ℕ → ℕ × ℕ} {dv : ℕ → VarDraw K} (n : ℕ) : ∀ (k : ℕ) (s : MState K),
    smsTurns S key fit (some fun _ => none) iter hv dt dv k n s = smsTurns S key fit none iter hv dt dv k n s := by
  induction n with
  | zero => intro k s; rfl
  | succ n ih =>
    intro k s
    rw [smsTurns, smsTurns]
    have : smsTurn S key fit (some fun _ => none) iter hv (dt k) (dv k) s =
      smsTurn S key fit none iter hv (dt k) (dv k) s := rfl
    rw [this]
    cases smsTurn S key fit none iter hv (dt k) (dv k) s with
    | none => rfl
    | some s' => exact ih (k + 1) s'

variable {S : ℕ → Setup K} {key : List K → A} {hvol : List (List K) → K} {mult : K} {d : SmsDraws K}
  {N : ℕ → ℕ} {dims : List (K × K)} {maxLevel g m : ℕ}

/-- The delegates of SMS-EMOA are individuals that no individual dominates. -/
theorem smsDelegates_front {iter : List (Ind (List K) (List K)) → List (Ind (List K) (List K))}
    (hiter : ∀ l, (iter l).Perm l) (inds : List (Ind (List K) (List K))) (hn : inds.Nodup)
    (hobj : ∀ x ∈ inds, (objsOf x).length = m) :
    ∃ front : List (Ind (List K) (List K)), smsDelegates iter inds = some (front.map fun x => x.v) ∧ front.Nodup ∧
      ∀ x, x ∈ front ↔ x ∈ inds ∧ ∀ y ∈ inds, ¬ LDom (objsOf y) (objsOf x) := by
  obtain ⟨h1, h2⟩ := C05_smsemoa_sorts_by_rank iter hiter m objsOf inds hn hobj
  obtain ⟨L, hL⟩ := h1 inds.length le_rfl
  obtain ⟨hp, -, hr⟩ := h2 _ L hL
  refine ⟨L.headD [], by simp only [smsDelegates, hL, Option.map_some], ?_, fun x => ?_⟩
  · cases L with
    | nil => simp
    | cons l L =>
      have := hp.nodup_iff.2 hn
      rw [List.flatten_cons, List.nodup_append] at this
      exact this.1
  · have hr0 := hr 0 x
    have : x ∈ L.headD [] ↔ ∃ l, L[0]? = some l ∧ x ∈ l := by
      cases L <;> simp
    rw [this, hr0]
    constructor
    · rintro ⟨a, b⟩
      exact ⟨a, fun y hy hd => b ⟨a, y, hd, hy⟩⟩
    · rintro ⟨a, b⟩
      exact ⟨a, fun ⟨_, y, hd, hy⟩ => b y hy hd⟩

/-- SMS-EMOA keeps the contract; a step charges the population size for every turn of its loop. -/
theorem sms_contract (hS : ∀ l, l ≤ maxLevel → (S l).Valid)
    (hdims : ∀ l, l ≤ maxLevel → (S l).dims = dims)
    (hfit : ∀ l i k j v, (d.fit l i k j v).length = m) (hiter : ∀ i k j l, (d.iter i k j l).Perm l)
    (hg : ∀ l, l ≤ maxLevel → g ≤ ⌊(N l : K) * mult⌋₊ * N l)
    (hdt : ∀ l, l ≤ maxLevel → ∀ i k j n, PairDraw (N l) (d.dt l i k j n))
    (hdv : ∀ i k j n, (d.dv i k j n).Valid) :
    Contract (smsOps S key hvol mult d) maxLevel (fun v => InBox v dims) N (fun l p => p = N l)
      (fun l s => MInv (S l) m mult (N l) s) (fun _ _ => True) (fun _ _ => True) True g := by
  constructor
  · intro l hl i pop w f hn hP _
    exact ⟨(), _, rfl, (MReach.start (key := key) (fit := d.fit l i 0 0) (m := m) (mult := mult)
      (some fun _ => none) (by intro a ha; cases ha; simp) pop hn
      (fun v hv => by rw [hdims l hl]; exact hP v hv)).inv (hS l hl) (hfit l i 0 0), trivial⟩
  · intro l hl i k j w f s hs _
    obtain ⟨s', e1, g1⟩ := MInv.turns (key := key) (hS l hl) (hfit l i (k + 1) (j + 1))
      (fa := some fun _ => none) (by intro a ha; cases ha; simp) (hiter i (k + 1) (j + 1)) hvol
      (hdt l hl i k j) (hdv i k j) s.epochLength 0 s hs
    refine ⟨(), s', ?_, g1, ?_, trivial⟩
    · have : smsStep (S l) key (d.fit l i (k + 1) (j + 1)) (some fun _ => none) (d.iter i (k + 1) (j + 1))
        hvol (d.dt l i k j) (d.dv i k j) s = some s' := e1
      simp only [smsOps, this, Option.map_some]
    · rw [smsTurns_empty] at e1
      have := smsTurns_cost (hS l hl) (hfit l i (k + 1) (j + 1)) (hiter i (k + 1) (j + 1)) hvol
        (hdt l hl i k j) (hdv i k j) _ _ _ _ hs e1
      have h2 := hg l hl
      rw [hs.epoch] at this
      simp only [smsOps]
      omega
  · exact fun _ _ _ _ _ _ _ _ _ _ _ _ _ => trivial
  · intro l hl i k w f s hs _ _
    obtain ⟨front, e1, -, h1⟩ := smsDelegates_front (m := m) (hiter i (k + 1) 0) s.individuals
      (hs.ids.1.of_map _) (fun x hx => by
        obtain ⟨y, hy, hl⟩ := hs.objs x hx
        rw [objsOf, hy]; exact hl)
    refine ⟨(), s, _, front.map fun x => x.v, by simp only [smsOps, e1, Option.map_some]; rfl, hs, le_rfl,
      fun _ => rfl, trivial, by rw [smsFinal, List.length_map, hs.size], ?_, ?_⟩
    · intro v hv
      obtain ⟨x, hx, rfl⟩ := List.mem_map.1 hv
      rw [← hdims l hl]
      exact hs.box x hx
    · intro v hv
      obtain ⟨x, hx, rfl⟩ := List.mem_map.1 hv
      rw [← hdims l hl]
      exact hs.box x ((h1 x).1 hx).1

/-- **C106 for SMS-EMOA.** Whole runs of HGS with SMS-EMOA in its nodes: however many steps are made,
nothing raises; all vectors of the result are in the box; there are at least `population_sizes[0]` of
them from the first step on; and each step costs at least the smallest product of the population size and
the length of an epoch, times the smallest cost modifier. -/
theorem C106_smsemoa {cfg : Conf (List K) K} (hm2 : cfg.maxLevel ≤ 2)
    (hS : ∀ l, l ≤ cfg.maxLevel → (S l).Valid) (hdims : ∀ l, l ≤ cfg.maxLevel → (S l).dims = dims)
    (hfit : ∀ l i k j v, (d.fit l i k j v).length = m) (hiter : ∀ i k j l, (d.iter i k j l).Perm l)
    (hN1 : ∀ l, l ≤ cfg.maxLevel → 1 ≤ N l)
    (hg : ∀ l, l ≤ cfg.maxLevel → g ≤ ⌊(N l : K) * mult⌋₊ * N l)
    (hdt : ∀ l, l ≤ cfg.maxLevel → ∀ i k j n, PairDraw (N l) (d.dt l i k j n))
    (hdv : ∀ i k j n, (d.dv i k j n).Valid)
    (len : ℕ → ℕ) (hlen : ∀ l, 1 ≤ len l) (hv : List (List K) → K)
    (shuffle : ℕ → ℕ → List (List K) → List (List K)) (hsh : ∀ i k l, (shuffle i k l).Perm l)
    (ds : ℕ → ℕ → ℕ → ℕ → MutDraw K)
    (hds : ∀ l i k n, 0 ≤ (ds l i k n).rnd ∧ (ds l i k n).rnd ≤ 1) (rate eta : ℕ → K)
    (heta : ∀ l, 0 ≤ eta l) {ratio : List K} (hr : 3 ≤ ratio.length)
    (perm : List (List K) → List (List K)) (hperm : ∀ l, (perm l).Perm l)
    (population : List (List K)) (hN : N 0 ≤ population.length) (hbox : ∀ v ∈ population, InBox v dims)
    (μ : K) (hμ : 0 ≤ μ) (hmod : ∀ l, l ≤ cfg.maxLevel → μ ≤ cfg.modifier l) (n : ℕ) :
    ∃ s s', start (smsOps S key hvol mult d) ratio perm (N 0) () population = some s ∧
      runSteps cfg (smsOps S key hvol mult d) ⟨len, hv, shuffle, fun l i v =>
        populationFromDelegate (S l).pw (S l).eps (ds l i) v (N l) dims (rate l) (eta l)⟩ 0 n s = some s' ∧
      (∀ v ∈ result s', InBox v dims) ∧ (1 ≤ n → N 0 ≤ (result s').length) ∧
      n * (μ * g) ≤ s'.tree.cost :=
  C106_box hm2 (sms_contract (key := key) (hvol := hvol) hS hdims hfit hiter hg hdt hdv)
    (fun _ h => h.ge) hS hN1 len hlen hv
    shuffle hsh ds hds rate eta heta hr perm hperm () trivial population hN hbox μ hμ hmod n

end

/-- The draws of the example. -/
def exSmsDraws : SmsDraws ℚ :=
  ⟨fun _ _ _ _ => exFit, fun _ _ _ => id, fun _ _ _ _ _ => (0, 1), fun _ k j _ =>
    ⟨1 / 2, true, fun _ => ⟨0, 1 / (k + j + 4), 0⟩, fun _ => ⟨0, 3 / 4⟩⟩⟩

/-- After four steps: the root has charged 2 at the start and 2 in each of its three metaepochs, its
sprout 2 and 2, which count half. -/
example : (start (K := ℚ) (smsOps (fun _ => exSetup) (id : List ℚ → List ℚ) (fun l => (l.map List.sum).sum) (1 / 2)
      exSmsDraws) [10, 10, 10] id 2 () [[0], [1 / 2], [1]]).bind (fun s =>
        (runSteps exTreeConf (smsOps (fun _ => exSetup) (id : List ℚ → List ℚ)
          (fun l => (l.map List.sum).sum) (1 / 2) exSmsDraws) exRunConf 0 4 s).map
          fun s => (result s, s.tree.cost, s.tree.nodes.map Node.cost, s.drivers.map fun x => x.cost)) =
    some ([[62483 / 81608], [54719417 / 65939264], [3186633 / 8242408], [4500465731 / 5827382456]], 10,
      [8, 4], [8, 4]) := by decide +kernel

end Evogil.Hgs
