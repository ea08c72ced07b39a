import Verif.Model.ImgaRun
import Verif.Props.Torus
import Verif.Props.GenerationsRun

/-!
# C103: whole runs of the island model

First for islands with any driver that keeps a contract, then for NSGA-II, SPEA2, IBEA and SMS-EMOA.
-/

set_option linter.unusedSectionVars false

namespace Evogil.Imga

open Generations Evaluation

/-! ## Lists -/

section lists
variable {X Y : Type*}

theorem mapM_zipIdx_aux {f : X × ℕ → Option Y} {Q : ℕ → X → Y → Prop} : ∀ (l : List X) (k : ℕ),
    (∀ i a, l[i]? = some a → ∃ b, f (a, k + i) = some b ∧ Q (k + i) a b) →
    ∃ l', (l.zipIdx k).mapM f = some l' ∧ l'.length = l.length ∧
      ∀ i a b, l[i]? = some a → l'[i]? = some b → Q (k + i) a b ∧ f (a, k + i) = some b := by
  intro l
  induction l with
  | nil => intro k _; exact ⟨[], rfl, rfl, by simp⟩
  | cons x l ih =>
    intro k h
    obtain ⟨b, hb, hq⟩ := h 0 x rfl
    obtain ⟨l', h1, h2, h3⟩ := ih (k + 1) (by
      intro i a ha
      have := h (i + 1) a (by simpa using ha)
      rwa [show k + 1 + i = k + (i + 1) by omega])
    refine ⟨b :: l', ?_, by simp [h2], ?_⟩
    · rw [List.zipIdx_cons, List.mapM_cons]
      simp only [Nat.add_zero] at hb
      rw [hb, h1]
      rfl
    · intro i a c ha hc
      cases i with
      | zero =>
        simp only [List.getElem?_cons_zero, Option.some.injEq] at ha hc
        subst ha hc
        exact ⟨hq, hb⟩
      | succ i =>
        simp only [List.getElem?_cons_succ] at ha hc
        have := h3 i a c ha hc
        rwa [show k + 1 + i = k + (i + 1) by omega] at this

theorem mapM_zipIdx {f : X × ℕ → Option Y} {Q : ℕ → X → Y → Prop} (l : List X)
    (h : ∀ i a, l[i]? = some a → ∃ b, f (a, i) = some b ∧ Q i a b) :
    ∃ l', l.zipIdx.mapM f = some l' ∧ l'.length = l.length ∧
      ∀ i a b, l[i]? = some a → l'[i]? = some b → Q i a b ∧ f (a, i) = some b := by
  obtain ⟨l', h1, h2, h3⟩ := mapM_zipIdx_aux (f := f) (Q := Q) l 0 (by simpa using h)
  exact ⟨l', h1, h2, by simpa using h3⟩

theorem sum_lt_of_get : ∀ (l l' : List ℕ), l.length = l'.length →
    (∀ (i a b : ℕ), l[i]? = some a → l'[i]? = some b → a ≤ b) →
    l.sum ≤ l'.sum ∧ ((∃ i a b : ℕ, l[i]? = some a ∧ l'[i]? = some b ∧ a < b) → l.sum < l'.sum) := by
  intro l
  induction l with
  | nil => intro l' _ _; exact ⟨by simp, by simp⟩
  | cons x l ih =>
    intro l' hl h
    cases l' with
    | nil => simp at hl
    | cons y l' =>
      obtain ⟨h1, h2⟩ := ih l' (by simpa using hl) (fun i a b ha hb => h (i + 1) a b
        (by simpa using ha) (by simpa using hb))
      have h0 := h 0 x y rfl rfl
      rw [List.sum_cons, List.sum_cons]
      refine ⟨by omega, ?_⟩
      rintro ⟨i, a, b, ha, hb, hab⟩
      cases i with
      | zero =>
        simp only [List.getElem?_cons_zero, Option.some.injEq] at ha hb
        omega
      | succ i =>
        have := h2 ⟨i, a, b, by simpa using ha, by simpa using hb, hab⟩
        omega

end lists

/-! ## Islands with any driver -/

section
variable {σ ι V α : Type*} [DecidableEq V] [LinearOrder α]

/-- What the driver of an island has to satisfy. `Inv i` and `Ready i` describe the states of island
`i` at any time and after at least one step; `P` holds for all individuals, `obs` is what of an
individual survives its migration, `N i` is the size of the population of the island, a step costs
between `g i` and `G i`, `R i` is what a result should be. -/
structure Loose {W : Type*} (D : IslandOps σ ι V) (n : ℕ) (Inv Ready : ℕ → σ → Prop) (P : ι → Prop)
    (obs : ι → W) (N g G : ℕ → ℕ) (R : ℕ → List V → Prop) : Prop where
  ready : ∀ i s, Ready i s → Inv i s
  step : ∀ i, i < n → ∀ k j s, Inv i s → ∃ s', D.step i k j s = some s' ∧ Ready i s' ∧
    D.cost s + g i ≤ D.cost s' ∧ D.cost s' ≤ D.cost s + G i
  put : ∀ i, i < n → ∀ s l, Ready i s → l.length = (D.inds s).length → (∀ x ∈ l, P x) →
    Ready i (D.put l s) ∧ D.cost (D.put l s) = D.cost s ∧ (D.inds (D.put l s)).map obs = l.map obs
  inds : ∀ i, i < n → ∀ s, Ready i s → N i ≤ (D.inds s).length ∧ ∀ x ∈ D.inds s, P x
  finish : ∀ i, i < n → ∀ k s, Ready i s → ∃ s' r, D.finalize i k s = some (s', r) ∧ Ready i s' ∧
    R i r ∧ D.cost s ≤ D.cost s'

/-- The same for drivers whose steps always cost `g i` and whose individuals migrate as they are. -/
structure Contract (D : IslandOps σ ι V) (n : ℕ) (Inv Ready : ℕ → σ → Prop) (P : ι → Prop)
    (N g : ℕ → ℕ) (R : ℕ → List V → Prop) : Prop where
  ready : ∀ i s, Ready i s → Inv i s
  step : ∀ i, i < n → ∀ k j s, Inv i s → ∃ s', D.step i k j s = some s' ∧ Ready i s' ∧
    D.cost s' = D.cost s + g i
  put : ∀ i, i < n → ∀ s l, Ready i s → l.length = (D.inds s).length → (∀ x ∈ l, P x) →
    Ready i (D.put l s) ∧ D.cost (D.put l s) = D.cost s ∧ D.inds (D.put l s) = l
  inds : ∀ i, i < n → ∀ s, Ready i s → N i ≤ (D.inds s).length ∧ ∀ x ∈ D.inds s, P x
  finish : ∀ i, i < n → ∀ k s, Ready i s → ∃ s' r, D.finalize i k s = some (s', r) ∧ Ready i s' ∧
    R i r ∧ D.cost s ≤ D.cost s'

/-- A property of all islands. -/
def All (n : ℕ) (Q : ℕ → σ → Prop) (l : List σ) : Prop :=
  l.length = n ∧ ∀ i s, l[i]? = some s → Q i s

variable {D : IslandOps σ ι V} {n : ℕ} {Inv Ready : ℕ → σ → Prop} {P : ι → Prop} {W : Type*}
  {obs : ι → W} {N g G : ℕ → ℕ} {R : ℕ → List V → Prop}

theorem Loose.epoch (h : Loose D n Inv Ready P obs N g G R) {i : ℕ} (hi : i < n) (k : ℕ) :
    ∀ (len j : ℕ) (s : σ), Ready i s →
      ∃ s', Imga.epoch D i k j len s = some s' ∧ Ready i s' ∧ D.cost s + len * g i ≤ D.cost s' ∧
        D.cost s' ≤ D.cost s + len * G i := by
  intro len
  induction len with
  | zero => intro j s hs; exact ⟨s, rfl, hs, by omega, by omega⟩
  | succ len ih =>
    intro j s hs
    obtain ⟨s1, h1, h2, h3, h3'⟩ := h.step i hi k j s (h.ready i s hs)
    obtain ⟨s2, h4, h5, h6, h6'⟩ := ih (j + 1) s1 h2
    refine ⟨s2, by rw [Imga.epoch, h1]; exact h4, h5, ?_⟩
    simp only [Nat.succ_mul]
    omega

theorem Loose.epoch_pos (h : Loose D n Inv Ready P obs N g G R) {i : ℕ} (hi : i < n) (k : ℕ)
    {len : ℕ} (hlen : 0 < len) (s : σ) (hs : Inv i s) :
    ∃ s', Imga.epoch D i k 0 len s = some s' ∧ Ready i s' ∧ D.cost s + len * g i ≤ D.cost s' ∧
      D.cost s' ≤ D.cost s + len * G i := by
  obtain ⟨len, rfl⟩ := Nat.exists_eq_succ_of_ne_zero hlen.ne'
  obtain ⟨s1, h1, h2, h3, h3'⟩ := h.step i hi k 0 s hs
  obtain ⟨s2, h4, h5, h6, h6'⟩ := h.epoch hi k len 1 s1 h2
  refine ⟨s2, by rw [Imga.epoch, h1]; exact h4, h5, ?_⟩
  simp only [Nat.succ_mul]
  omega

/-- **C103.** A step of IMGA, for islands with any driver that keeps the contract: it does not raise;
every island makes its epoch; the cost is the sum of the costs of the islands; and then the
individuals are exchanged, so that none is lost or duplicated and every island keeps its size. -/
theorem C103_step_loose (h : Loose D n Inv Ready P obs N g G R) (fit : V → List α) {top : List (List ℕ)}
    (htop : SymTopology n top) {mig : ℕ}
    (hroom : ∀ (i : ℕ) (l : List ℕ), top[i]? = some l → mig * l.length ≤ N i)
    {len : ℕ} (hlen : 0 < len) (pick : ℕ → ℕ → ℕ → ℕ → List (List V) → Option V)
    (hpick : ∀ k a b j, PickOk (pick k a b j)) (k : ℕ) (s : State σ) (hs : All n Inv s.islands) :
    ∃ islands s', step D fit top mig len pick k s = some s' ∧ All n Ready islands ∧
      All n Ready s'.islands ∧
      (∀ i a b, s.islands[i]? = some a → islands[i]? = some b →
        Imga.epoch D i k 0 len a = some b ∧ D.cost a + len * g i ≤ D.cost b ∧
          D.cost b ≤ D.cost a + len * G i) ∧
      s'.cost = (islands.map D.cost).sum ∧ s'.islands.map D.cost = islands.map D.cost ∧
      ((s'.islands.map D.inds).flatten.map obs).Perm ((islands.map D.inds).flatten.map obs) ∧
      s'.islands.map (fun x => (D.inds x).length) = islands.map (fun x => (D.inds x).length) := by
  obtain ⟨hl, hs⟩ := hs
  have hlt : ∀ {i : ℕ} {a : σ}, s.islands[i]? = some a → i < n := fun e => by
    rw [← hl]; exact (List.getElem?_eq_some_iff.1 e).1
  obtain ⟨isl, h1, h2, h3⟩ := mapM_zipIdx
    (f := fun p => Imga.epoch D p.2 k 0 len p.1)
    (Q := fun i a b => Ready i b ∧ D.cost a + len * g i ≤ D.cost b ∧ D.cost b ≤ D.cost a + len * G i) s.islands (by
      intro i a ha
      obtain ⟨b, e1, e2, e3⟩ := h.epoch_pos (hlt ha) k hlen a (hs i a ha)
      exact ⟨b, e1, e2, e3⟩)
  have hisl : isl.length = n := h2.trans hl
  have hready : All n Ready isl := by
    refine ⟨hisl, fun i b hb => ?_⟩
    have hi : i < s.islands.length := by rw [hl, ← hisl]; exact (List.getElem?_eq_some_iff.1 hb).1
    exact (h3 i _ b (List.getElem?_eq_getElem hi) hb).1.1
  obtain ⟨pops', m1, m2, m3⟩ := C36_conservation D.vec (isl.map D.inds).flatten.length fit mig
    (pick k) (hpick k) (isl.map D.inds) (by
      intro p hp
      obtain ⟨a, ha, rfl⟩ := List.mem_map.1 hp
      exact (List.sublist_flatten_of_mem hp).length_le) top (by rw [List.length_map, hisl]; exact htop) (by
      intro i p l hp hl
      rw [List.getElem?_map, Option.map_eq_some_iff] at hp
      obtain ⟨a, ha, rfl⟩ := hp
      have hi : i < n := by rw [← hisl]; exact (List.getElem?_eq_some_iff.1 ha).1
      exact (hroom i l hl).trans (h.inds i hi a (hready.2 i a ha)).1)
  have hpl : pops'.length = isl.length := by simpa using congrArg List.length m2
  have hput : ∀ (i : ℕ) (l : List ι) (a : σ), pops'[i]? = some l → isl[i]? = some a →
      Ready i (D.put l a) ∧ D.cost (D.put l a) = D.cost a ∧ (D.inds (D.put l a)).map obs = l.map obs ∧
        l.length = (D.inds a).length := by
    intro i l a hpi ha
    have hi : i < n := by rw [← hisl]; exact (List.getElem?_eq_some_iff.1 ha).1
    have hlen : l.length = (D.inds a).length := by
      have := congrArg (fun L : List ℕ => L[i]?) m2
      simp only [List.getElem?_map, hpi, ha, Option.map_some, Option.some.injEq] at this
      exact this
    obtain ⟨e1, e2, e3⟩ := h.put i hi a l (hready.2 i a ha) hlen (by
      intro x hx
      have : x ∈ pops'.flatten := List.mem_flatten.2 ⟨l, List.mem_of_getElem? hpi, hx⟩
      rw [m3.mem_iff, List.mem_flatten] at this
      obtain ⟨q, hq, hxq⟩ := this
      obtain ⟨b, hb, rfl⟩ := List.mem_map.1 hq
      obtain ⟨j, hj⟩ := List.mem_iff_getElem?.1 hb
      have hj' : j < n := by rw [← hisl]; exact (List.getElem?_eq_some_iff.1 hj).1
      exact (h.inds j hj' b (hready.2 j b hj)).2 x hxq)
    exact ⟨e1, e2, e3, hlen⟩
  have hget : ∀ (i : ℕ) (c : σ), (List.zipWith D.put pops' isl)[i]? = some c →
      ∃ l a, pops'[i]? = some l ∧ isl[i]? = some a ∧ c = D.put l a := by
    intro i c hc
    rw [List.getElem?_zipWith] at hc
    cases hp : pops'[i]? with
    | none => rw [hp] at hc; simp at hc
    | some l =>
      cases ha : isl[i]? with
      | none => rw [hp, ha] at hc; simp at hc
      | some a =>
        rw [hp, ha] at hc
        simp only [Option.some.injEq] at hc
        exact ⟨l, a, rfl, rfl, hc.symm⟩
  have hzl : (List.zipWith D.put pops' isl).length = n := by
    rw [List.length_zipWith, hpl, min_self, hisl]
  have hmap : ∀ {X : Type} (f : σ → X) (hf : ∀ (i : ℕ) (l : List ι) (a : σ), pops'[i]? = some l → isl[i]? = some a →
      f (D.put l a) = f a), (List.zipWith D.put pops' isl).map f = isl.map f := by
    intro X f hf
    refine List.ext_getElem (by simp [hpl]) fun i hi hi' => ?_
    rw [List.length_map] at hi hi'
    rw [List.getElem_map, List.getElem_map, List.getElem_zipWith]
    exact hf i _ _ (List.getElem?_eq_getElem _) (List.getElem?_eq_getElem _)
  have hinds : ((List.zipWith D.put pops' isl).map D.inds).map (List.map obs) = pops'.map (List.map obs) := by
    refine List.ext_getElem (by simp [hpl]) fun i hi hi' => ?_
    simp only [List.length_map] at hi
    rw [List.getElem_map, List.getElem_map, List.getElem_map, List.getElem_zipWith]
    exact (hput i _ _ (List.getElem?_eq_getElem _) (List.getElem?_eq_getElem _)).2.2.1
  refine ⟨isl, ⟨List.zipWith D.put pops' isl, (isl.map D.cost).sum⟩, ?_, hready, ⟨hzl, ?_⟩, ?_, rfl,
    ?_, ?_, ?_⟩
  · rw [step, if_neg hlen.ne', h1]
    simp only
    rw [m1]
  · intro i c hc
    obtain ⟨l, a, e1, e2, rfl⟩ := hget i c hc
    exact (hput i l a e1 e2).1
  · intro i a b ha hb
    obtain ⟨⟨-, e1⟩, e2⟩ := h3 i a b ha hb
    exact ⟨e2, e1⟩
  · exact hmap D.cost fun i l a e1 e2 => (hput i l a e1 e2).2.1
  · simp only
    rw [List.map_flatten, hinds, ← List.map_flatten]
    exact m3.map obs
  · refine hmap (fun x => (D.inds x).length) fun i l a e1 e2 => ?_
    obtain ⟨-, -, e3, e4⟩ := hput i l a e1 e2
    have := congrArg List.length e3
    rw [List.length_map, List.length_map] at this
    rw [this, e4]

theorem Contract.loose (h : Contract D n Inv Ready P N g R) :
    Loose D n Inv Ready P (id : ι → ι) N g g R where
  ready := h.ready
  step := fun i hi k j s hs => by
    obtain ⟨s', h1, h2, h3⟩ := h.step i hi k j s hs
    exact ⟨s', h1, h2, h3.ge, h3.le⟩
  put := fun i hi s l h1 h2 h3 => by
    obtain ⟨e1, e2, e3⟩ := h.put i hi s l h1 h2 h3
    exact ⟨e1, e2, by rw [e3]⟩
  inds := h.inds
  finish := h.finish

/-- **C103.** The same for drivers whose steps always cost the same: so do the epochs. -/
theorem C103_step (h : Contract D n Inv Ready P N g R) (fit : V → List α) {top : List (List ℕ)}
    (htop : SymTopology n top) {mig : ℕ}
    (hroom : ∀ (i : ℕ) (l : List ℕ), top[i]? = some l → mig * l.length ≤ N i)
    {len : ℕ} (hlen : 0 < len) (pick : ℕ → ℕ → ℕ → ℕ → List (List V) → Option V)
    (hpick : ∀ k a b j, PickOk (pick k a b j)) (k : ℕ) (s : State σ) (hs : All n Inv s.islands) :
    ∃ islands s', step D fit top mig len pick k s = some s' ∧ All n Ready islands ∧
      All n Ready s'.islands ∧
      (∀ i a b, s.islands[i]? = some a → islands[i]? = some b →
        Imga.epoch D i k 0 len a = some b ∧ D.cost b = D.cost a + len * g i) ∧
      s'.cost = (islands.map D.cost).sum ∧ s'.islands.map D.cost = islands.map D.cost ∧
      (s'.islands.map D.inds).flatten.Perm (islands.map D.inds).flatten ∧
      s'.islands.map (fun x => (D.inds x).length) = islands.map (fun x => (D.inds x).length) := by
  obtain ⟨isl, s', h1, h2, h3, h4, h5, h6, h7, h8⟩ := C103_step_loose h.loose fit htop hroom hlen pick
    hpick k s hs
  refine ⟨isl, s', h1, h2, h3, fun i a b ha hb => ?_, h5, h6, by simpa using h7, h8⟩
  obtain ⟨e1, e2, e3⟩ := h4 i a b ha hb
  exact ⟨e1, le_antisymm e3 e2⟩

/-- An epoch of no steps raises. -/
theorem C103_no_epoch (D : IslandOps σ ι V) (fit : V → List α) (top : List (List ℕ)) (mig : ℕ)
    (pick : ℕ → ℕ → ℕ → ℕ → List (List V) → Option V) (k : ℕ) (s : State σ) :
    step D fit top mig 0 pick k s = none := rfl

/-- The result of IMGA: the results of the islands, one after the other. -/
theorem Loose.finalize (h : Loose D n Inv Ready P obs N g G R) (k : ℕ) (s : State σ)
    (hs : All n Ready s.islands) :
    ∃ (s' : State σ) (rs : List (List V)), finalize D k s = some (s', rs.flatten) ∧
      All n Ready s'.islands ∧ rs.length = n ∧ (∀ i r, rs[i]? = some r → R i r) ∧
      s'.cost = s.cost ∧ (s.islands.map D.cost).sum ≤ (s'.islands.map D.cost).sum := by
  obtain ⟨hl, hs⟩ := hs
  have hlt : ∀ {i : ℕ} {a : σ}, s.islands[i]? = some a → i < n := fun e => by
    rw [← hl]; exact (List.getElem?_eq_some_iff.1 e).1
  obtain ⟨rs, h1, h2, h3⟩ := mapM_zipIdx (f := fun p => D.finalize p.2 k p.1)
    (Q := fun i a b => Ready i b.1 ∧ R i b.2 ∧ D.cost a ≤ D.cost b.1) s.islands (by
      intro i a ha
      obtain ⟨s', r, e1, e2, e3, e4⟩ := h.finish i (hlt ha) k a (hs i a ha)
      exact ⟨(s', r), e1, e2, e3, e4⟩)
  have hrl : rs.length = n := h2.trans hl
  have hQ : ∀ i b, rs[i]? = some b → Ready i b.1 ∧ R i b.2 := by
    intro i b hb
    have hi : i < s.islands.length := by rw [hl, ← hrl]; exact (List.getElem?_eq_some_iff.1 hb).1
    have := (h3 i _ b (List.getElem?_eq_getElem hi) hb).1
    exact ⟨this.1, this.2.1⟩
  refine ⟨⟨rs.map Prod.fst, s.cost⟩, rs.map Prod.snd, ?_, ⟨by simp [hrl], ?_⟩, by simp [hrl], ?_, rfl,
    ?_⟩
  · rw [Imga.finalize, h1, Option.map_some, List.flatMap_def]
  · intro i b hb
    rw [List.getElem?_map, Option.map_eq_some_iff] at hb
    obtain ⟨c, hc, rfl⟩ := hb
    exact (hQ i c hc).1
  · intro i b hb
    rw [List.getElem?_map, Option.map_eq_some_iff] at hb
    obtain ⟨c, hc, rfl⟩ := hb
    exact (hQ i c hc).2
  · refine (sum_lt_of_get _ _ (by simp [h2]) ?_).1
    intro i a b ha hb
    simp only [List.getElem?_map, Option.map_eq_some_iff] at ha hb
    obtain ⟨a', ha, rfl⟩ := ha
    obtain ⟨b', ⟨c, hc, rfl⟩, rfl⟩ := hb
    exact (h3 i a' c ha hc).1.2.2

/-- **C103.** A budget simulation with IMGA: if the steps of some island cost something, there is a
result for every positive budget, at no less than the cost asked for, and it consists of the results
of all islands. -/
theorem C103_budgets (h : Loose D n Inv Ready P obs N g G R) (fit : V → List α) {top : List (List ℕ)}
    (htop : SymTopology n top) {mig : ℕ}
    (hroom : ∀ (i : ℕ) (l : List ℕ), top[i]? = some l → mig * l.length ≤ N i)
    {len : ℕ} (hlen : 0 < len) (hg : ∃ i, i < n ∧ 0 < g i)
    (pick : ℕ → ℕ → ℕ → ℕ → List (List V) → Option V)
    (hpick : ∀ k a b j, PickOk (pick k a b j)) (s : State σ) (hs : All n Inv s.islands)
    (hc : s.cost = 0) (budgets : List ℤ) (hpos : ∀ b ∈ budgets, 0 < b) (fuel : ℕ)
    (hfuel : ∀ b ∈ budgets, b ≤ fuel) :
    ∃ res o', budgetWorker (driver D fit top mig len pick) fuel budgets ⟨some (0, s), 0⟩
        = some (res, o') ∧ res.map (fun r => r.name) = budgets ∧
      ∀ r ∈ res, r.name ≤ r.cost ∧ ∃ p, r.pop = some p ∧
        ∃ rs : List (List V), p = rs.flatten ∧ rs.length = n ∧ ∀ i q, rs[i]? = some q → R i q := by
  refine optDriver_worker (Inv := fun s : State σ => s.cost ≤ (s.islands.map D.cost).sum ∧
    (s.cost = 0 ∧ All n Inv s.islands ∨ All n Ready s.islands)) (P := fun p => ∃ rs : List (List V),
      p = rs.flatten ∧ rs.length = n ∧ ∀ i q, rs[i]? = some q → R i q) ?_ budgets ?_ fuel hfuel 0 s
    ⟨by omega, Or.inl ⟨hc, hs⟩⟩ 0
  · rintro k s ⟨hle, hs⟩
    have hall : All n Inv s.islands := by
      rcases hs with hs | hs
      · exact hs.2
      · exact ⟨hs.1, fun i a ha => h.ready i a (hs.2 i a ha)⟩
    obtain ⟨isl, s', h1, h2, h3, h4, h5, h6, -, -⟩ := C103_step_loose h fit htop hroom hlen pick
      hpick k s hall
    refine ⟨s', h1, ⟨by rw [h5, h6], Or.inr h3⟩, ?_⟩
    rw [h5]
    refine Nat.succ_le_of_lt (lt_of_le_of_lt hle ((sum_lt_of_get _ _ ?_ ?_).2 ?_))
    · rw [List.length_map, List.length_map, h2.1, hall.1]
    · intro i a b ha hb
      simp only [List.getElem?_map, Option.map_eq_some_iff] at ha hb
      obtain ⟨a', ha, rfl⟩ := ha
      obtain ⟨b', hb, rfl⟩ := hb
      have := (h4 i a' b' ha hb).2.1
      omega
    · obtain ⟨i, hi, hgi⟩ := hg
      have ha : i < s.islands.length := by rw [hall.1]; exact hi
      have hb : i < isl.length := by rw [h2.1]; exact hi
      refine ⟨i, D.cost s.islands[i], D.cost isl[i], by simp [ha], by simp [hb], ?_⟩
      have := (h4 i _ _ (List.getElem?_eq_getElem ha) (List.getElem?_eq_getElem hb)).2.1
      have := Nat.mul_pos hlen hgi
      omega
  · rintro k s b hb ⟨hle, hs⟩ hcost
    have hpb := hpos b hb
    have hready : All n Ready s.islands := by
      rcases hs with hs | hs
      · omega
      · exact hs
    obtain ⟨s', rs, h1, h2, h3, h4, h5, h6⟩ := h.finalize k s hready
    exact ⟨s', _, h1, ⟨by omega, Or.inr h2⟩, ⟨rs, rfl, h3, h4⟩, by omega⟩

/-- **C103.** The cost shown by IMGA: 0 at the start, although the drivers of the islands may have
evaluated their populations already; after `k` steps the sum, over the islands, of the cost `c i` at
the start and that of `k` epochs. -/
theorem C103_cost (h : Contract D n Inv Ready P N g R) (fit : V → List α) {top : List (List ℕ)}
    (htop : SymTopology n top) {mig : ℕ}
    (hroom : ∀ (i : ℕ) (l : List ℕ), top[i]? = some l → mig * l.length ≤ N i)
    {len : ℕ} (hlen : 0 < len) (pick : ℕ → ℕ → ℕ → ℕ → List (List V) → Option V)
    (hpick : ∀ k a b j, PickOk (pick k a b j)) (s : State σ) (hs : All n Inv s.islands)
    (hc : s.cost = 0) {c : ℕ → ℕ} (hcs : ∀ i a, s.islands[i]? = some a → D.cost a = c i) (k : ℕ) :
    (driver D fit top mig len pick).cost ((driver D fit top mig len pick).step^[k] (some (0, s)))
      = if k = 0 then 0 else (((List.range n).map fun i => c i + k * (len * g i)).sum : ℕ) := by
  have key : ∃ t : State σ, (driver D fit top mig len pick).step^[k] (some (0, s)) = some (k, t) ∧
      All n Inv t.islands ∧ (∀ i a, t.islands[i]? = some a → D.cost a = c i + k * (len * g i)) ∧
      t.cost = if k = 0 then 0 else ((List.range n).map fun i => c i + k * (len * g i)).sum := by
    induction k with
    | zero => exact ⟨s, rfl, hs, by simpa using hcs, by simpa using hc⟩
    | succ k ih =>
      obtain ⟨t, h1, h2, h3, -⟩ := ih
      obtain ⟨isl, t', e1, e2, e3, e4, e5, e6, -, -⟩ := C103_step h fit htop hroom hlen pick hpick k t h2
      have hcost : isl.map D.cost = (List.range n).map fun i => c i + (k + 1) * (len * g i) := by
        refine List.ext_getElem (by simp [e2.1]) fun i hi _ => ?_
        rw [List.length_map] at hi
        have hi' : i < t.islands.length := by rw [h2.1, ← e2.1]; exact hi
        rw [List.getElem_map, List.getElem_map, List.getElem_range,
          (e4 i _ _ (List.getElem?_eq_getElem hi') (List.getElem?_eq_getElem hi)).2,
          h3 i _ (List.getElem?_eq_getElem hi'), Nat.succ_mul]
        omega
      refine ⟨t', ?_, ⟨e3.1, fun i a ha => h.ready i a (e3.2 i a ha)⟩, ?_, ?_⟩
      · rw [Function.iterate_succ_apply', h1]
        simp [driver, optDriver, e1]
      · intro i a ha
        have := congrArg (fun L : List ℕ => L[i]?) (e6.trans hcost)
        have hi : i < n := by rw [← e3.1]; exact (List.getElem?_eq_some_iff.1 ha).1
        simpa [ha, hi] using this
      · rw [if_neg (by omega), e5, hcost]
  obtain ⟨t, h1, -, -, h4⟩ := key
  rw [h1]
  show ((t.cost : ℕ) : ℤ) = _
  rw [h4]

/-- **C103.** If the steps of no island cost anything, a budget above what the constructors of the
islands cost is never reached, and the run does not end. -/
theorem C103_stuck (h : Contract D n Inv Ready P N g R) (fit : V → List α) {top : List (List ℕ)}
    (htop : SymTopology n top) {mig : ℕ}
    (hroom : ∀ (i : ℕ) (l : List ℕ), top[i]? = some l → mig * l.length ≤ N i)
    {len : ℕ} (hlen : 0 < len) (hg : ∀ i, i < n → g i = 0)
    (pick : ℕ → ℕ → ℕ → ℕ → List (List V) → Option V)
    (hpick : ∀ k a b j, PickOk (pick k a b j)) (s : State σ) (hs : All n Inv s.islands)
    (hc : s.cost = 0) {c : ℕ → ℕ} (hcs : ∀ i a, s.islands[i]? = some a → D.cost a = c i) {b : ℤ}
    (hb : (((List.range n).map c).sum : ℕ) < b) (fuel : ℕ) :
    budgetRun (driver D fit top mig len pick) b fuel ⟨some (0, s), 0⟩ = none := by
  refine budgetRun_never _ hb _ (fun k => ?_) fuel
  simp only
  rw [C103_cost h fit htop hroom hlen pick hpick s hs hc hcs k]
  have e : ((List.range n).map fun i => c i + k * (len * g i)) = (List.range n).map c := by
    refine List.map_congr_left fun i hi => ?_
    rw [hg i (List.mem_range.1 hi)]
    simp
  rw [e]
  split_ifs
  · exact Int.natCast_nonneg _
  · exact le_rfl

/-! ### From the constructor -/

/-- Specification: the size of island `i` when `N` vectors are spread over `n` islands. -/
def islandSize (N n i : ℕ) : ℕ := N / n + if i < N % n then 1 else 0

omit [DecidableEq V] in
theorem mapM_get {X Y : Type*} {f : X → Option Y} {Q : ℕ → Y → Prop} : ∀ (l : List X) (k : ℕ),
    (∀ i a, l[i]? = some a → ∃ b, f a = some b ∧ Q (k + i) b) →
    ∃ l', l.mapM f = some l' ∧ l'.length = l.length ∧ ∀ i b, l'[i]? = some b → Q (k + i) b := by
  intro l
  induction l with
  | nil => intro k _; exact ⟨[], rfl, rfl, by simp⟩
  | cons x l ih =>
    intro k h
    obtain ⟨b, hb, hq⟩ := h 0 x rfl
    obtain ⟨l', h1, h2, h3⟩ := ih (k + 1) (by
      intro i a ha
      have := h (i + 1) a (by simpa using ha)
      rwa [show k + 1 + i = k + (i + 1) by omega])
    refine ⟨b :: l', by rw [List.mapM_cons, hb, h1]; rfl, by simp [h2], ?_⟩
    intro i c hc
    cases i with
    | zero =>
      simp only [List.getElem?_cons_zero, Option.some.injEq] at hc
      subst hc
      exact hq
    | succ i =>
      simp only [List.getElem?_cons_succ] at hc
      have := h3 i c hc
      rwa [show k + 1 + i = k + (i + 1) by omega] at this

theorem start_spec {mk : List V → Option σ} (hn : 0 < n) (population : List V) {Q : ℕ → σ → Prop}
    (hmk : ∀ i, i < n → ∀ p : List V, p.length = islandSize population.length n i →
      (∀ v ∈ p, v ∈ population) → ∃ s, mk p = some s ∧ Q i s) :
    ∃ st, start mk n population = some st ∧ All n Q st.islands ∧ st.cost = 0 := by
  obtain ⟨pops, h1, h2, h3, h4⟩ := C35_partition n hn population
  obtain ⟨l, e1, e2, e3⟩ := mapM_get (f := mk) (Q := Q) pops 0 (by
    intro i p hp
    obtain ⟨s, hs, hq⟩ := hmk i (by rw [← h2]; exact (List.getElem?_eq_some_iff.1 hp).1) p (h4 i p hp)
      (fun v hv => h3.mem_iff.1 (List.mem_flatten.2 ⟨p, List.mem_of_getElem? hp, hv⟩))
    exact ⟨s, hs, by rwa [Nat.zero_add]⟩)
  exact ⟨⟨l, 0⟩, by rw [start, h1]; simp only; rw [e1]; rfl, ⟨e2.trans h2, by simpa using e3⟩, rfl⟩

/-- The sizes of the islands add up. -/
theorem flatten_size (hn : 0 < n) {T : ℕ} (rs : List (List V)) (hl : rs.length = n)
    (h : ∀ i r, rs[i]? = some r → r.length = islandSize T n i) : rs.flatten.length = T := by
  obtain ⟨pops, -, h2, h3, h4⟩ := C35_partition n hn (List.replicate T ())
  have e : rs.map List.length = pops.map List.length := by
    refine List.ext_getElem (by simp [hl, h2]) fun i hi hi' => ?_
    rw [List.length_map] at hi hi'
    rw [List.getElem_map, List.getElem_map, h i _ (List.getElem?_eq_getElem hi),
      h4 i _ (List.getElem?_eq_getElem hi'), List.length_replicate]
    rfl
  have := h3.length_eq
  rw [List.length_flatten, List.length_replicate] at this
  rw [List.length_flatten, e, this]

end

/-! ## Degrees in the torus -/

theorem pyRemove_length {l r : List ℕ} {x : ℕ} (h : pyRemove l x = some r) (y : ℕ) :
    (r ++ [y]).length = l.length := by
  unfold pyRemove at h
  split_ifs at h with hx
  obtain rfl := Option.some.inj h
  rw [List.length_append, List.length_erase_of_mem hx, List.length_singleton]
  have := List.length_pos_of_mem hx
  omega

theorem set_small {t : List (List ℕ)} {d i : ℕ} {l : List ℕ} (h : ∀ l ∈ t, l.length ≤ d)
    (hl : l.length ≤ d) : ∀ l' ∈ t.set i l, l'.length ≤ d := by
  intro l' hl'
  rcases List.mem_or_eq_of_mem_set hl' with h' | rfl
  · exact h _ h'
  · exact hl

theorem linkColumn_small {w i : ℕ} {t t' : List (List ℕ)} {nb : List ℕ}
    (h : ∀ l ∈ t, l.length ≤ 4) (e : linkColumn w t i = some (t', nb)) :
    (∀ l ∈ t', l.length ≤ 4) ∧ nb.length = 2 := by
  simp only [linkColumn] at e
  split at e
  · simp at e
  · rename_i ln hln
    split at e
    · simp at e
    · rename_i l1 hl1
      have s1 := set_small (i := i - w) (l := l1 ++ [i]) h
        ((pyRemove_length hl1 i).trans_le (h _ (List.mem_of_getElem? hln)))
      split at e
      · simp at e
      · rename_i fn hfn
        split at e
        · simp at e
        · rename_i f1 hf1
          simp only [Option.some.injEq, Prod.mk.injEq] at e
          obtain ⟨rfl, rfl⟩ := e
          exact ⟨set_small s1 ((pyRemove_length hf1 i).trans_le (s1 _ (List.mem_of_getElem? hfn))), rfl⟩

theorem lastRow_small {w N size : ℕ} : ∀ (is : List ℕ) (t t' : List (List ℕ)),
    (∀ l ∈ t, l.length ≤ 4) → lastRow w N size t is = some t' → ∀ l ∈ t', l.length ≤ 4 := by
  intro is
  induction is with
  | nil => intro t t' h e; obtain rfl := Option.some.inj e; exact h
  | cons i is ih =>
    intro t t' h e
    rw [lastRow] at e
    cases hs : lastRowStep w N size t i with
    | none => rw [hs] at e; simp at e
    | some t1 =>
      rw [hs] at e
      refine ih t1 t' ?_ e
      simp only [lastRowStep] at hs
      split at hs
      · simp at hs
      · rename_i t2 nb hlink
        simp only [Option.some.injEq] at hs
        subst hs
        have h2 : (∀ l ∈ t2, l.length ≤ 4) ∧ nb.length ≤ 2 := by
          split_ifs at hlink with hw
          · obtain ⟨a, b⟩ := linkColumn_small h hlink
            exact ⟨a, b.le⟩
          · simp only [Option.some.injEq, Prod.mk.injEq] at hlink
            obtain ⟨rfl, rfl⟩ := hlink
            exact ⟨h, by simp⟩
        intro l hl
        rcases List.mem_append.1 hl with hl | hl
        · exact h2.1 l hl
        · rw [List.mem_singleton] at hl
          subst hl
          simp only [List.length_append, List.length_cons, List.length_nil]
          have := h2.2
          omega

/-- Nobody has more than four neighbours. -/
theorem torus_degree {w size : ℕ} {t : List (List ℕ)} (h : torus w size = some t) :
    ∀ l ∈ t, l.length ≤ 4 := by
  unfold torus at h
  split_ifs at h with hw
  simp only [Option.map_eq_some_iff] at h
  obtain ⟨t0, h0, rfl⟩ := h
  have hfull : ∀ l ∈ (List.range (w * (size / w))).map (fullNeighbors w (w * (size / w))),
      l.length ≤ 4 := by
    intro l hl
    obtain ⟨i, -, rfl⟩ := List.mem_map.1 hl
    simp [fullNeighbors]
  have key : ∀ l ∈ t0, l.length ≤ 4 := by
    by_cases hN : w * (size / w) < size
    · rw [if_pos hN] at h0
      split at h0
      · simp at h0
      · rename_i t1 ht1
        have h1 := lastRow_small _ _ _ hfull ht1
        split_ifs at h0 with h2
        · unfold dropSelf at h0
          split at h0
          · simp at h0
          · rename_i l1 hl1
            split_ifs at h0
            obtain rfl := Option.some.inj h0
            exact set_small h1 ((List.length_filter_le _ _).trans (h1 _ (List.mem_of_getElem? hl1)))
        · obtain rfl := Option.some.inj h0
          exact h1
    · rw [if_neg hN] at h0
      obtain rfl := Option.some.inj h0
      exact hfull
  intro l hl
  obtain ⟨l0, hl0, rfl⟩ := List.mem_map.1 hl
  exact (List.dedup_sublist l0).length_le.trans (key l0 hl0)

/-! ## Islands with the drivers of C94 -/

section
variable {K : Type*} [Field K] [LinearOrder K] {σ ι : Type*} {D : IslandOps σ ι (List K)}

/-- A budget simulation with IMGA on a torus, from the constructor to the stored results. -/
theorem run_torus_any {n N : ℕ} (hn : 0 < n) {Inv Ready : ℕ → σ → Prop} {P : ι → Prop} {W : Type*}
    {obs : ι → W} {g G : ℕ → ℕ} {R : ℕ → List (List K) → Prop}
    (h : Loose D n Inv Ready P obs (islandSize N n) g G R) {mk : List (List K) → Option σ}
    {population : List (List K)} (hN : population.length = N)
    (hmk : ∀ i, i < n → ∀ p : List (List K), p.length = islandSize N n i →
      (∀ v ∈ p, v ∈ population) → ∃ s, mk p = some s ∧ Inv i s)
    (fit : List K → List K) {w : ℕ} (hw : 0 < w) {mig : ℕ} (hmig : mig * 4 ≤ N / n)
    {len : ℕ} (hlen : 0 < len) (hg : ∃ i, i < n ∧ 0 < g i)
    (pick : ℕ → ℕ → ℕ → ℕ → List (List (List K)) → Option (List K))
    (hpick : ∀ k a b j, PickOk (pick k a b j)) (budgets : List ℤ) (hpos : ∀ b ∈ budgets, 0 < b)
    (fuel : ℕ) (hfuel : ∀ b ∈ budgets, b ≤ fuel) :
    ∃ top s, torus w n = some top ∧ start mk n population = some s ∧
      ∃ res o', budgetWorker (driver D fit top mig len pick) fuel budgets ⟨some (0, s), 0⟩
          = some (res, o') ∧
        res.map (fun r => r.name) = budgets ∧
        ∀ r ∈ res, r.name ≤ r.cost ∧ ∃ p, r.pop = some p ∧
          ∃ rs : List (List (List K)), p = rs.flatten ∧ rs.length = n ∧
            ∀ i q, rs[i]? = some q → R i q := by
  obtain ⟨top, htop, hsym⟩ := C37_symmetric w n hw
  obtain ⟨s, h1, h2, h3⟩ := start_spec hn population (Q := Inv) (by rw [hN]; exact hmk)
  refine ⟨top, s, htop, h1, ?_⟩
  exact C103_budgets h fit hsym (mig := mig) (by
    intro i l hl
    have := Nat.mul_le_mul_left mig (torus_degree htop l (List.mem_of_getElem? hl))
    unfold islandSize
    omega) hlen hg pick hpick s h2 h3 budgets hpos fuel hfuel

/-- The same for drivers with results of the size of the island. -/
theorem run_torus {n N : ℕ} (hn : 0 < n) {Inv Ready : ℕ → σ → Prop} {P : ι → Prop} {W : Type*}
    {obs : ι → W} {g G : ℕ → ℕ} {dims : List (K × K)}
    (h : Loose D n Inv Ready P obs (islandSize N n) g G (fun i r => GoodResult dims (islandSize N n i) r)) {mk : List (List K) → Option σ}
    {population : List (List K)} (hN : population.length = N)
    (hmk : ∀ i, i < n → ∀ p : List (List K), p.length = islandSize N n i →
      (∀ v ∈ p, v ∈ population) → ∃ s, mk p = some s ∧ Inv i s)
    (fit : List K → List K) {w : ℕ} (hw : 0 < w) {mig : ℕ} (hmig : mig * 4 ≤ N / n)
    {len : ℕ} (hlen : 0 < len) (hg : ∃ i, i < n ∧ 0 < g i)
    (pick : ℕ → ℕ → ℕ → ℕ → List (List (List K)) → Option (List K))
    (hpick : ∀ k a b j, PickOk (pick k a b j)) (budgets : List ℤ) (hpos : ∀ b ∈ budgets, 0 < b)
    (fuel : ℕ) (hfuel : ∀ b ∈ budgets, b ≤ fuel) :
    ∃ top s, torus w n = some top ∧ start mk n population = some s ∧
      ∃ res o', budgetWorker (driver D fit top mig len pick) fuel budgets ⟨some (0, s), 0⟩
          = some (res, o') ∧
        res.map (fun r => r.name) = budgets ∧
        ∀ r ∈ res, r.name ≤ r.cost ∧ ∃ p, r.pop = some p ∧ GoodResult dims N p := by
  obtain ⟨top, s, htop, h1, res, o', e1, e2, e3⟩ := run_torus_any hn h hN hmk fit hw hmig hlen hg pick hpick
    budgets hpos fuel hfuel
  refine ⟨top, s, htop, h1, res, o', e1, e2, fun r hr => ?_⟩
  obtain ⟨f1, p, f2, rs, rfl, f3, f4⟩ := e3 r hr
  refine ⟨f1, _, f2, flatten_size hn rs f3 (fun i r hr => (f4 i r hr).1), ?_⟩
  intro v hv
  obtain ⟨r, hr, hv⟩ := List.mem_flatten.1 hv
  obtain ⟨i, hi⟩ := List.mem_iff_getElem?.1 hr
  exact (f4 i r hi).2 v hv

theorem renumber_id (next : ℕ) (l : List (List K × Option (List K))) :
    (renumber next l).map (fun x => x.id) = List.range' next l.length := by
  unfold renumber
  rw [List.map_map]
  refine List.ext_getElem (by simp) fun i hi _ => ?_
  simp

theorem renumber_payload (next : ℕ) (l : List (List K × Option (List K))) :
    (renumber next l).map (fun x => (x.v, x.objectives)) = l := by
  unfold renumber
  rw [List.map_map]
  refine List.ext_getElem (by simp) fun i hi _ => ?_
  simp

theorem renumber_ids (next : ℕ) (l : List (List K × Option (List K))) :
    Ids (next + l.length) ((renumber next l).map fun x => x.id) := by
  rw [renumber_id]
  have := Ids.append_range' (next := next) (n := l.length) (l := []) ⟨List.nodup_nil, by simp⟩
  simpa using this

theorem renumber_mem {next : ℕ} {l : List (List K × Option (List K))} {x : Ind (List K) (List K)}
    (hx : x ∈ renumber next l) : (x.v, x.objectives) ∈ l := by
  rw [← renumber_payload next l]
  exact List.mem_map_of_mem (f := fun x : Ind (List K) (List K) => (x.v, x.objectives)) hx

theorem renumber_length (next : ℕ) (l : List (List K × Option (List K))) :
    (renumber next l).length = l.length := by simp [renumber]

end

section nsgaii
variable {K : Type*} [Field K] [LinearOrder K] [IsStrictOrderedRing K] [FloorSemiring K]
  {A : Type*} [DecidableEq A] {S : Setup K} {key : List K → A} {fit : List K → List K} {m : ℕ} {c : K}
  {n N : ℕ}

theorem nsgaii_contract (hS : S.Valid) (hfit : ∀ v, (fit v).length = m)
    {iter : ℕ → ℕ → ℕ → List (Ind (List K) (List K)) → List (Ind (List K) (List K))}
    (hiter : ∀ i k j l, (iter i k j l).Perm l) {dm : ℕ → ℕ → ℕ → ℕ → MateDraw}
    (hdm : ∀ i k j t, (dm i k j t).Valid (islandSize N n i)) {dv : ℕ → ℕ → ℕ → ℕ → VarDraw K}
    (hdv : ∀ i k j t, (dv i k j t).Valid) :
    Contract (nsgaiiOps S key fit m iter dm dv) n
      (fun i s => NInv S m c (islandSize N n i) s ∧ s.acc.archive = none)
      (fun i s => NInv S m c (islandSize N n i) s ∧ s.acc.archive = none)
      (fun x => InBox x.1 S.dims ∧ ∃ f, x.2 = some f ∧ f.length = m) (islandSize N n)
      (fun i => ⌊c * (islandSize N n i : K)⌋₊)
      (fun i r => GoodResult S.dims (islandSize N n i) r) where
  ready := fun i s h => h
  step := by
    rintro i - k j s ⟨h, ha⟩
    obtain ⟨s', h1, h2, -⟩ := h.step (key := key) hS hfit (hiter i k j) (hdm i k j) (hdv i k j)
    obtain ⟨h3, h4⟩ := h.step_cost hS (hiter i k j) (hdm i k j) (hdv i k j) ha h1
    exact ⟨s', h1, ⟨h2, h3⟩, h4⟩
  put := by
    rintro i - s l ⟨h, ha⟩ hl hP
    have hl' : l.length = s.individuals.length := by simpa [nsgaiiOps] using hl
    refine ⟨⟨⟨h.size, h.mating, renumber_ids s.nextId l, ?_, ?_, ?_, h.arch⟩, ha⟩, rfl,
      renumber_payload s.nextId l⟩
    · show _ ≤ (renumber s.nextId l).length
      rw [renumber_length, hl']
      exact h.large
    · exact fun x hx => (hP _ (renumber_mem hx)).1
    · exact fun x hx => (hP _ (renumber_mem hx)).2
  inds := by
    rintro i - s ⟨h, -⟩
    refine ⟨by simpa [nsgaiiOps] using h.large, ?_⟩
    intro x hx
    obtain ⟨y, hy, rfl⟩ := List.mem_map.1 hx
    exact ⟨h.box y hy, h.objs y hy⟩
  finish := by
    rintro i - k s ⟨h, ha⟩
    obtain ⟨s', r, h1, h2, h3, rfl⟩ := h.finish (key := key) hfit (hiter i k 0)
    obtain ⟨h4, h5⟩ := h.finish_cost ha h1
    refine ⟨s', _, h1, ⟨h2, h4⟩, ⟨by rw [List.length_map, h3], ?_⟩, h5.ge⟩
    intro v hv
    obtain ⟨x, hx, rfl⟩ := List.mem_map.1 hv
    exact h2.box x hx

/-- **C103 for islands with NSGA-II.** If the largest island has offspring and nobody sends away more
than the population of an island, there is a result for every positive budget: as many vectors as in
the initial population, all in the box, at no less than the cost asked for. -/
theorem C103_nsgaii (hS : S.Valid) (hfit : ∀ v, (fit v).length = m) (hn : 0 < n)
    (hM : 1 ≤ ⌊c * (islandSize N n 0 : K)⌋₊)
    (iter : ℕ → ℕ → ℕ → List (Ind (List K) (List K)) → List (Ind (List K) (List K)))
    (hiter : ∀ i k j l, (iter i k j l).Perm l) (dm : ℕ → ℕ → ℕ → ℕ → MateDraw)
    (hdm : ∀ i k j t, (dm i k j t).Valid (islandSize N n i)) (dv : ℕ → ℕ → ℕ → ℕ → VarDraw K)
    (hdv : ∀ i k j t, (dv i k j t).Valid) (population : List (List K)) (hN : population.length = N)
    (hbox : ∀ v ∈ population, InBox v S.dims) {w : ℕ} (hw : 0 < w) {mig : ℕ}
    (hmig : mig * 4 ≤ N / n) {len : ℕ} (hlen : 0 < len)
    (pick : ℕ → ℕ → ℕ → ℕ → List (List (List K)) → Option (List K))
    (hpick : ∀ k a b j, PickOk (pick k a b j)) (budgets : List ℤ) (hpos : ∀ b ∈ budgets, 0 < b)
    (fuel : ℕ) (hfuel : ∀ b ∈ budgets, b ≤ fuel) :
    ∃ top s, torus w n = some top ∧
      start (fun p => some (nsgaiiInit S key fit none c p)) n population = some s ∧
      ∃ res o', budgetWorker (driver (nsgaiiOps S key fit m iter dm dv) fit top mig len pick) fuel
          budgets ⟨some (0, s), 0⟩ = some (res, o') ∧
        res.map (fun r => r.name) = budgets ∧
        ∀ r ∈ res, r.name ≤ r.cost ∧ ∃ p, r.pop = some p ∧ GoodResult S.dims N p :=
  run_torus hn (nsgaii_contract (c := c) hS hfit hiter hdm hdv).loose hN (by
    intro i _ p hp hmem
    exact ⟨_, rfl, ((nsgaiiInit_reach hp fun v hv => hbox v (hmem v hv)).inv hS hfit).1,
      (nsgaiiInit_cost p).1⟩) fit hw hmig hlen ⟨0, hn, hM⟩ pick hpick budgets hpos fuel hfuel

/-- Two islands with two vectors each, one migrant, epochs of one step, budgets 5 and 9. The islands
send each other one individual, and the cost is that of both islands. -/
example : torus 4 2 = some [[1], [0]] ∧
    ((start (fun p => some (nsgaiiInit exSetup (fun v : List ℚ => v) exFit none 1 p)) 2
      [[0], [1 / 2], [1], [1 / 4]]).bind fun s =>
      (budgetWorker (driver (nsgaiiOps exSetup (fun v : List ℚ => v) exFit 2 (fun _ _ _ l => l)
        (fun _ _ _ _ => ⟨0, 1, true⟩) (fun _ _ _ _ => exDraw)) exFit [[1], [0]] 1 1
        (fun _ _ _ _ L => L.flatten.head?)) 5 [5, 9] ⟨some (0, s), 0⟩).map
      (fun r => r.1.map fun x => (x.name, x.cost, x.pop.map List.length)))
    = some [(5, 8, some 4), (9, 12, some 4)] := by decide +kernel

end nsgaii

section spea2
variable {K : Type*} [Field K] [LinearOrder K] [IsStrictOrderedRing K] {A : Type*}
  {S : Setup K} {dist : List K → List K → K} {key : List K → A} {fit : List K → List K} {m n N : ℕ}

theorem spea2_contract (hS : S.Valid) (hdist : ∀ a b, 0 ≤ dist a b) (hfit : ∀ v, (fit v).length = m)
    (h2 : 2 ≤ N / n) {dt : ℕ → ℕ → ℕ → ℕ → (ℕ × ℕ) × (ℕ × ℕ)}
    (hdt : ∀ i k j t, PairDraw (islandSize N n i) (dt i k j t).1 ∧
      PairDraw (islandSize N n i) (dt i k j t).2)
    {dv : ℕ → ℕ → ℕ → ℕ → VarDraw K} (hdv : ∀ i k j t, (dv i k j t).Valid) :
    Contract (spea2Ops S dist key fit dt dv) n (fun i s => SInv S m (islandSize N n i) s)
      (fun i s => SInv S m (islandSize N n i) s ∧ s.archive.length = islandSize N n i)
      (fun x => InBox x.1 S.dims) (islandSize N n) (islandSize N n)
      (fun i r => GoodResult S.dims (islandSize N n i) r) where
  ready := fun i s h => h.1
  step := by
    rintro i - k j s h
    have hN : 2 ≤ islandSize N n i := by unfold islandSize; omega
    obtain ⟨s', h1, h2, h3⟩ := h.step (key := key) (fa := none) hS hdist hfit hN (by simp)
      (hdt i k j) (hdv i k j)
    exact ⟨s', h1, ⟨h2, h3⟩, spea2Step_cost (by omega) h h1⟩
  put := by
    rintro i - s l ⟨h, ha⟩ hl hP
    have hl' : l.length = s.individuals.length := by simpa [spea2Ops] using hl
    refine ⟨⟨⟨h.size, ?_, ?_, h.arch, h.abox⟩, ha⟩, rfl, renumber_payload s.nextId l⟩
    · show (renumber s.nextId l).length = _
      rw [renumber_length, hl', h.inds]
    · exact fun x hx => hP _ (renumber_mem hx)
  inds := by
    rintro i - s ⟨h, -⟩
    refine ⟨by simp [spea2Ops, h.inds], ?_⟩
    intro x hx
    obtain ⟨y, hy, rfl⟩ := List.mem_map.1 hx
    exact h.ibox y hy
  finish := by
    rintro i - k s ⟨h, ha⟩
    refine ⟨s, _, rfl, ⟨h, ha⟩, ⟨by rw [spea2Final, List.length_map, ha], ?_⟩, le_rfl⟩
    intro v hv
    obtain ⟨x, hx, rfl⟩ := List.mem_map.1 hv
    exact (h.abox x hx).1

/-- **C103 for islands with SPEA2**, with at least two individuals on every island. -/
theorem C103_spea2 (hS : S.Valid) (hdist : ∀ a b, 0 ≤ dist a b) (hfit : ∀ v, (fit v).length = m)
    (hn : 0 < n) (h2 : 2 ≤ N / n) (dt : ℕ → ℕ → ℕ → ℕ → (ℕ × ℕ) × (ℕ × ℕ))
    (hdt : ∀ i k j t, PairDraw (islandSize N n i) (dt i k j t).1 ∧
      PairDraw (islandSize N n i) (dt i k j t).2)
    (dv : ℕ → ℕ → ℕ → ℕ → VarDraw K)
    (hdv : ∀ i k j t, (dv i k j t).Valid) (population : List (List K)) (hN : population.length = N)
    (hbox : ∀ v ∈ population, InBox v S.dims) {w : ℕ} (hw : 0 < w) {mig : ℕ}
    (hmig : mig * 4 ≤ N / n) {len : ℕ} (hlen : 0 < len)
    (pick : ℕ → ℕ → ℕ → ℕ → List (List (List K)) → Option (List K))
    (hpick : ∀ k a b j, PickOk (pick k a b j)) (budgets : List ℤ) (hpos : ∀ b ∈ budgets, 0 < b)
    (fuel : ℕ) (hfuel : ∀ b ∈ budgets, b ≤ fuel) :
    ∃ top s, torus w n = some top ∧
      start (fun p => some (spea2Init S p)) n population = some s ∧
      ∃ res o', budgetWorker (driver (spea2Ops S dist key fit dt dv) fit top mig len pick) fuel
          budgets ⟨some (0, s), 0⟩ = some (res, o') ∧
        res.map (fun r => r.name) = budgets ∧
        ∀ r ∈ res, r.name ≤ r.cost ∧ ∃ p, r.pop = some p ∧ GoodResult S.dims N p :=
  run_torus hn (spea2_contract hS hdist hfit h2 hdt hdv).loose hN (by
    intro i _ p hp hmem
    exact ⟨_, rfl, (SFull.start hS hp fun v hv => hbox v (hmem v hv)).1⟩) fit hw hmig hlen
    ⟨0, hn, by unfold islandSize; omega⟩ pick hpick budgets hpos fuel hfuel

end spea2

section ibea
variable {K : Type*} [Field K] [LinearOrder K] [IsStrictOrderedRing K] [FloorSemiring K]
  {S : Setup K} {ex : K → K} {kappa : K} {objectives : List (List K → K)} {c : K} {n N : ℕ}

theorem ibea_contract (hS : S.Valid) (h1 : 1 ≤ N / n) {dm : ℕ → ℕ → ℕ → ℕ → MateDraw}
    (hdm : ∀ i k j t, (dm i k j t).Valid (islandSize N n i)) {dv : ℕ → ℕ → ℕ → ℕ → VarDraw K}
    (hdv : ∀ i k j t, (dv i k j t).Valid) :
    Contract (ibeaOps S ex kappa objectives dm dv) n (fun i s => IInv S c (islandSize N n i) s)
      (fun i s => IInv S c (islandSize N n i) s)
      (fun x => InBox x.1 S.dims) (islandSize N n)
      (fun i => islandSize N n i + ⌊c * (islandSize N n i : K)⌋₊)
      (fun i r => GoodResult S.dims (islandSize N n i) r) where
  ready := fun i s h => h
  step := by
    rintro i - k j s h
    obtain ⟨s', h1, h2, h3⟩ := h.step (ex := ex) (kappa := kappa) (objectives := objectives) hS
      (by unfold islandSize; omega) (fun _ => false) false (hdm i k j) (hdv i k j)
    exact ⟨s', h1, h2, by
      show s'.cost = s.cost + _
      rw [ibeaStep_cost h1, h3]⟩
  put := by
    rintro i - s l h hl hP
    have hl' : l.length = s.individuals.length := by simpa [ibeaOps] using hl
    have hmem : ∀ x ∈ (l.zipIdx.map fun p => (⟨s.nextId + p.2, p.1.1, p.1.2⟩ : IInd K)),
        (x.v, x.known) ∈ l := by
      intro x hx
      obtain ⟨p, hp, rfl⟩ := List.mem_map.1 hx
      exact List.fst_mem_of_mem_zipIdx hp
    refine ⟨⟨h.size, h.mating, ?_, ?_, fun x hx => hP _ (hmem x hx)⟩, rfl, ?_⟩
    · have e : (l.zipIdx.map fun p => (⟨s.nextId + p.2, p.1.1, p.1.2⟩ : IInd K)).map (fun x => x.id)
          = List.range' s.nextId l.length := by
        rw [List.map_map]
        refine List.ext_getElem (by simp) fun i hi _ => ?_
        simp
      have := Ids.append_range' (next := s.nextId) (n := l.length) (l := []) ⟨List.nodup_nil, by simp⟩
      show Ids (s.nextId + l.length) _
      simp only [ibeaOps] at *
      rw [e]
      simpa using this
    · show _ ≤ (l.zipIdx.map fun p => (⟨s.nextId + p.2, p.1.1, p.1.2⟩ : IInd K)).length
      rw [List.length_map, List.length_zipIdx, hl']
      exact h.large
    · show (l.zipIdx.map fun p => (⟨s.nextId + p.2, p.1.1, p.1.2⟩ : IInd K)).map
        (fun x => (x.v, x.known)) = l
      rw [List.map_map]
      refine List.ext_getElem (by simp) fun i hi _ => ?_
      simp
  inds := by
    rintro i - s h
    refine ⟨by simpa [ibeaOps] using h.large, ?_⟩
    intro x hx
    obtain ⟨y, hy, rfl⟩ := List.mem_map.1 hx
    exact h.box y hy
  finish := by
    rintro i - k s h
    obtain ⟨s', r, h1, h2, h3, rfl⟩ := h.finish (ex := ex) (kappa := kappa)
      (objectives := objectives) (by unfold islandSize; omega) (fun _ => false) false
    refine ⟨s', _, h1, h2, ⟨by rw [List.length_map, h3], ?_⟩, ?_⟩
    · intro v hv
      obtain ⟨x, hx, rfl⟩ := List.mem_map.1 hv
      exact h2.box x hx
    · show s.cost ≤ s'.cost
      rw [ibeaFinish_cost h1]
      omega

/-- **C103 for islands with IBEA.** -/
theorem C103_ibea (hS : S.Valid) (hn : 0 < n) (h1 : 1 ≤ N / n) (dm : ℕ → ℕ → ℕ → ℕ → MateDraw)
    (hdm : ∀ i k j t, (dm i k j t).Valid (islandSize N n i)) (dv : ℕ → ℕ → ℕ → ℕ → VarDraw K)
    (hdv : ∀ i k j t, (dv i k j t).Valid) (population : List (List K)) (hN : population.length = N)
    (hbox : ∀ v ∈ population, InBox v S.dims) {w : ℕ} (hw : 0 < w) {mig : ℕ}
    (hmig : mig * 4 ≤ N / n) {len : ℕ} (hlen : 0 < len)
    (pick : ℕ → ℕ → ℕ → ℕ → List (List (List K)) → Option (List K))
    (hpick : ∀ k a b j, PickOk (pick k a b j)) (budgets : List ℤ) (hpos : ∀ b ∈ budgets, 0 < b)
    (fuel : ℕ) (hfuel : ∀ b ∈ budgets, b ≤ fuel) :
    ∃ top s, torus w n = some top ∧
      start (ibeaInit S objectives c) n population = some s ∧
      ∃ res o', budgetWorker (driver (ibeaOps S ex kappa objectives dm dv)
          (fun v => objectives.map fun o => o v) top mig len pick) fuel
          budgets ⟨some (0, s), 0⟩ = some (res, o') ∧
        res.map (fun r => r.name) = budgets ∧
        ∀ r ∈ res, r.name ≤ r.cost ∧ ∃ p, r.pop = some p ∧ GoodResult S.dims N p :=
  run_torus hn (ibea_contract (c := c) hS h1 hdm hdv).loose hN (by
    intro i _ p hp hmem
    obtain ⟨s, e1, e2, -⟩ := ibeaInit_spec (objectives := objectives) (c := c) hS
      (show 1 ≤ islandSize N n i by unfold islandSize; omega) hp (fun v hv => hbox v (hmem v hv))
    exact ⟨s, e1, e2⟩) _ hw hmig hlen
    ⟨0, hn, by unfold islandSize; omega⟩ pick hpick budgets hpos fuel hfuel

end ibea

section smsemoa
variable {K : Type*} [Field K] [LinearOrder K] [IsStrictOrderedRing K] [FloorSemiring K]
  {A : Type*} {S : Setup K} {key : List K → A} {fit : List K → List K} {m : ℕ} {mult : K} {n N : ℕ}

theorem sms_contract (hS : S.Valid) (hfit : ∀ v, (fit v).length = m)
    {iter : ℕ → ℕ → ℕ → List (Ind (List K) (List K)) → List (Ind (List K) (List K))}
    (hiter : ∀ i k j l, (iter i k j l).Perm l) (hv : List (List K) → K)
    {dt : ℕ → ℕ → ℕ → ℕ → ℕ × ℕ} (hdt : ∀ i k j t, PairDraw (islandSize N n i) (dt i k j t))
    {dv : ℕ → ℕ → ℕ → ℕ → VarDraw K} (hdv : ∀ i k j t, (dv i k j t).Valid) :
    Contract (smsOps S key fit iter hv dt dv) n (fun i s => MInv S m mult (islandSize N n i) s)
      (fun i s => MInv S m mult (islandSize N n i) s)
      (fun x => InBox x.1 S.dims ∧ ∃ f, x.2 = some f ∧ f.length = m) (islandSize N n)
      (fun i => ⌊(islandSize N n i : K) * mult⌋₊ * islandSize N n i)
      (fun i r => GoodResult S.dims (islandSize N n i) r) where
  ready := fun i s h => h
  step := by
    rintro i - k j s h
    obtain ⟨s', h1, h2⟩ := MInv.turns (key := key) (fa := none) hS hfit (by simp) (hiter i k j) hv
      (hdt i k j) (hdv i k j) s.epochLength 0 s h
    refine ⟨s', h1, h2, ?_⟩
    show s'.cost = s.cost + _
    rw [smsTurns_cost hS hfit (hiter i k j) hv (hdt i k j) (hdv i k j) _ _ _ _ h h1, h.epoch]
  put := by
    rintro i - s l h hl hP
    have hl' : l.length = s.individuals.length := by simpa [smsOps] using hl
    refine ⟨⟨h.epoch, renumber_ids s.nextId l, ?_, ?_, ?_⟩, rfl, renumber_payload s.nextId l⟩
    · show (renumber s.nextId l).length = _
      rw [renumber_length, hl', h.size]
    · exact fun x hx => (hP _ (renumber_mem hx)).1
    · exact fun x hx => (hP _ (renumber_mem hx)).2
  inds := by
    rintro i - s h
    refine ⟨by simp [smsOps, h.size], ?_⟩
    intro x hx
    obtain ⟨y, hy, rfl⟩ := List.mem_map.1 hx
    exact ⟨h.box y hy, h.objs y hy⟩
  finish := by
    rintro i - k s h
    refine ⟨s, _, rfl, h, ⟨by rw [smsFinal, List.length_map, h.size], ?_⟩, le_rfl⟩
    intro v hv
    obtain ⟨x, hx, rfl⟩ := List.mem_map.1 hv
    exact h.box x hx

/-- **C103 for islands with SMS-EMOA**, with at least two individuals on every island and at least
one child per epoch on the largest one. -/
theorem C103_smsemoa (hS : S.Valid) (hfit : ∀ v, (fit v).length = m) (hn : 0 < n)
    (hM : 1 ≤ ⌊(islandSize N n 0 : K) * mult⌋₊)
    (iter : ℕ → ℕ → ℕ → List (Ind (List K) (List K)) → List (Ind (List K) (List K)))
    (hiter : ∀ i k j l, (iter i k j l).Perm l) (hv : List (List K) → K)
    (dt : ℕ → ℕ → ℕ → ℕ → ℕ × ℕ) (hdt : ∀ i k j t, PairDraw (islandSize N n i) (dt i k j t))
    (dv : ℕ → ℕ → ℕ → ℕ → VarDraw K)
    (hdv : ∀ i k j t, (dv i k j t).Valid) (population : List (List K)) (hN : population.length = N)
    (hbox : ∀ v ∈ population, InBox v S.dims) {w : ℕ} (hw : 0 < w) {mig : ℕ}
    (hmig : mig * 4 ≤ N / n) {len : ℕ} (hlen : 0 < len)
    (pick : ℕ → ℕ → ℕ → ℕ → List (List (List K)) → Option (List K))
    (hpick : ∀ k a b j, PickOk (pick k a b j)) (budgets : List ℤ) (hpos : ∀ b ∈ budgets, 0 < b)
    (fuel : ℕ) (hfuel : ∀ b ∈ budgets, b ≤ fuel) :
    ∃ top s, torus w n = some top ∧
      start (fun p => some (smsInit S key fit none mult p)) n population = some s ∧
      ∃ res o', budgetWorker (driver (smsOps S key fit iter hv dt dv) fit top mig len pick) fuel
          budgets ⟨some (0, s), 0⟩ = some (res, o') ∧
        res.map (fun r => r.name) = budgets ∧
        ∀ r ∈ res, r.name ≤ r.cost ∧ ∃ p, r.pop = some p ∧ GoodResult S.dims N p :=
  run_torus hn (sms_contract (mult := mult) hS hfit hiter hv hdt hdv).loose hN (by
    intro i _ p hp hmem
    exact ⟨_, rfl, (MReach.start (fit := fit) (key := key) (mult := mult) none (by simp) p hp
      fun v hv => hbox v (hmem v hv)).inv hS hfit⟩) fit hw hmig hlen
    ⟨0, hn, Nat.mul_pos hM (by
      have := (hdt 0 0 0 0).2.1
      omega)⟩ pick hpick budgets hpos fuel hfuel

end smsemoa

end Evogil.Imga
