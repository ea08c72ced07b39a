import Verif.Props.ImgaRunRest

/-!
# C115: the normalized objectives of NSGA-III on an island
-/

set_option linter.unusedSectionVars false

namespace Evogil.Nsgaiii

open Generations Evaluation Spec

section
variable {K : Type*} [Field K] [LinearOrder K] [IsStrictOrderedRing K]

/-- If the ideal point is that of a history `hist` which contains one of the vectors `objs` to be normalized, it is
nowhere above the nadir point, so nothing is divided by zero. -/
theorem bounds_any (m : ℕ) (hist objs : List (List K))
    (hh : ∀ o ∈ hist, o.length = m) (hobjs : ∀ o ∈ objs, o.length = m) {o0 : List K} (h0 : o0 ∈ objs)
    (h0' : o0 ∈ hist) (i : ℕ) (him : i < m) :
    ∃ a b : K, (updateIdeal (initialIdeal m) hist)[i]? = some (a : WithTop K) ∧
      (defiledPoint m objs)[i]? = some (b : WithBot K) ∧ a ≤ b ∧
      (∀ o ∈ hist, ∀ y, o[i]? = some y → a ≤ y) ∧ (∀ o ∈ objs, ∀ y, o[i]? = some y → y ≤ b) := by
  obtain ⟨hil, hi⟩ := C31_ideal m hist hh
  obtain ⟨a, a1, a2, a3⟩ := hi i him
  obtain ⟨b, b1, -, b3, b4⟩ := defiled_get m objs (List.replicate m ⊥) hobjs i ⊥ him
    (by simp [him])
  have hol := hobjs o0 h0
  have hoi : o0[i]? = some (o0[i]'(by omega)) := List.getElem?_eq_getElem (by omega)
  generalize o0[i]'(by omega) = y at hoi
  have ha : ∃ a' : K, a = (a' : WithTop K) := by
    rcases a3 with ⟨h, -⟩ | ⟨_, _, y', _, e⟩
    · rw [h] at h0'; exact absurd h0' (by simp)
    · exact ⟨y', e⟩
  have hb : ∃ b' : K, b = (b' : WithBot K) := by
    rcases b4 with h | ⟨_, _, y', _, e⟩
    · have := b3 o0 h0 y hoi
      rw [h] at this
      exact absurd this (not_le.2 (WithBot.bot_lt_coe y))
    · exact ⟨y', e⟩
  obtain ⟨a', rfl⟩ := ha
  obtain ⟨b', rfl⟩ := hb
  refine ⟨a', b', a1, b1, ?_, fun o ho y hy => WithTop.coe_le_coe.1 (a2 o ho y hy),
    fun o ho y hy => WithBot.coe_le_coe.1 (b3 o ho y hy)⟩
  exact (WithTop.coe_le_coe.1 (a2 o0 h0' y hoi)).trans (WithBot.coe_le_coe.1 (b3 o0 h0 y hoi))

theorem normalized_any {eps : K} (he : 0 < eps) (m : ℕ) (hist objs : List (List K))
    (hh : ∀ o ∈ hist, o.length = m) (hobjs : ∀ o ∈ objs, o.length = m) {o0 : List K} (h0 : o0 ∈ objs)
    (h0' : o0 ∈ hist) (o : List K) (ho : o ∈ objs) (x : K)
    (hx : x ∈ normalizeOne eps (updateIdeal (initialIdeal m) hist) (defiledPoint m objs) o) :
    x < 1 ∧ (o ∈ hist → 0 ≤ x) := by
  obtain ⟨i, hi⟩ := List.mem_iff_getElem?.1 hx
  unfold normalizeOne at hi
  rw [List.getElem?_zipWith] at hi
  cases hz : (List.zip (updateIdeal (initialIdeal m) hist) (defiledPoint m objs))[i]? with
  | none => rw [hz] at hi; simp at hi
  | some p =>
    cases hy : o[i]? with
    | none => rw [hz, hy] at hi; simp at hi
    | some y =>
      have him : i < m := by
        have := (List.getElem?_eq_some_iff.1 hy).1
        rwa [hobjs o ho] at this
      obtain ⟨a, b, a1, b1, hab, ha, hb⟩ := bounds_any m hist objs hh hobjs h0 h0' i him
      obtain ⟨z1, z2⟩ := List.getElem?_zip_eq_some.1 hz
      rw [z1] at a1
      rw [z2] at b1
      rw [hz, hy] at hi
      simp only [Option.some.injEq] at hi a1 b1
      rw [a1, b1] at hi
      have hden : 0 < b - a + eps := by linarith
      have hyb := hb o ho y hy
      have hval : x = (y - a) / (b - a + eps) := hi.symm
      rw [hval]
      constructor
      · rw [div_lt_one hden]
        linarith
      · intro h
        have := ha o h y hy
        exact div_nonneg (by linarith) hden.le

variable {pw : K → K → K} {eps : K} {f : List K → List K} {cf : Conf K}

theorem normalizeOne_length (eps : K) (m : ℕ) (hist objs : List (List K)) (hh : ∀ o ∈ hist, o.length = m)
    (hobjs : ∀ o ∈ objs, o.length = m) (o : List K) (ho : o ∈ objs) :
    (normalizeOne eps (updateIdeal (initialIdeal m) hist) (defiledPoint m objs) o).length = m := by
  have h1 := (C31_ideal m hist hh).1
  have h2 : (defiledPoint m objs).length = m := by
    unfold defiledPoint
    have : ∀ (l : List (List K)) (d : List (WithBot K)), d.length = m → (∀ o ∈ l, o.length = m) →
        (l.foldl updateDefiledOne d).length = m := by
      intro l
      induction l with
      | nil => intro d h _; exact h
      | cons a l ih =>
        intro d h hl
        rw [List.foldl_cons]
        refine ih _ ?_ fun o h => hl o (List.mem_cons_of_mem _ h)
        unfold updateDefiledOne
        rw [List.length_zipWith, h, hl a List.mem_cons_self, Nat.min_self]
    exact this objs _ (by simp) hobjs
  unfold normalizeOne
  rw [List.length_zipWith, List.length_zip, h1, h2, hobjs o ho]
  simp

/-- Objectives which are nowhere below the ideal point do not change it. -/
theorem updateIdealOne_of_le : ∀ {ideal : List (WithTop K)} {o : List K},
    List.Forall₂ (fun a (y : K) => a ≤ (y : WithTop K)) ideal o → updateIdealOne ideal o = ideal
  | _, _, .nil => rfl
  | _, _, .cons h t => by
    have := updateIdealOne_of_le t
    unfold updateIdealOne at this ⊢
    rw [List.zipWith_cons_cons, this, if_neg (not_lt.2 h)]

/-- **C115, what holds.** In every step of NSGA-III, whoever has arrived from elsewhere since the last one: everybody
is normalized, the results are below 1, and they are not negative for the new individuals and for everybody who has no
objective below the ideal point. -/
theorem C115_normalized_partial (hp : PowLaws pw) (he : 0 < eps) (hcf : ConfOk f cf) {st : State K}
    (hs : Sound f cf st) (h2 : 2 ≤ st.size) (hist : List (List K))
    (hi : st.ideal = updateIdeal (initialIdeal cf.m) hist) (hh : ∀ o ∈ hist, o.length = cf.m)
    (ds : ℕ → PairDraw K) (hd : ∀ j, DrawOk st.inds.length (ds j)) :
    ∃ new old, stepNormalized pw eps f cf ds st = some (new ++ old) ∧ new.length = 2 * (st.size / 2) ∧
      old.map Prod.fst = st.inds.map Ind.v ∧
      (∀ p ∈ new ++ old, p.2.length = cf.m ∧ ∀ x ∈ p.2, x < 1) ∧
      (∀ p ∈ new, ∀ x ∈ p.2, 0 ≤ x) ∧
      ∀ p ∈ old, List.Forall₂ (fun a (y : K) => a ≤ (y : WithTop K)) st.ideal (f p.1) → ∀ x ∈ p.2, 0 ≤ x := by
  obtain ⟨raw, r1, r2, r3⟩ := makeOffspring_spec hp he hcf hs ds hd (st.size / 2) 0
  unfold stepNormalized
  rw [r1]
  simp only
  set off := raw.map fun x => evaluate f ⟨cf.trim x.v, x.objectives⟩ with hoff
  have hoffEval : ∀ x ∈ off, x.objectives = some (f x.v) := by
    intro x hx
    obtain ⟨z, hz, rfl⟩ := List.mem_map.1 hx
    obtain ⟨z1, z2, z3⟩ := r3 z hz
    unfold evaluate
    cases ho : z.objectives with
    | none => rfl
    | some o =>
      simp only
      have ht : cf.trim z.v = z.v := by
        rcases z3 with z3 | z3
        · rw [ho] at z3; simp at z3
        · exact z3
      rw [ht, z2 o ho]
  have hoffLen : off.length = 2 * (st.size / 2) := by rw [hoff, List.length_map, r2]
  have hall : ∀ x ∈ off ++ st.inds, x.objectives = some (f x.v) := by
    intro x hx
    rcases List.mem_append.1 hx with hx | hx
    · exact hoffEval x hx
    · exact hs.eval x hx
  rw [allObjectives_of f _ hall, filterMap_objectives f off hoffEval, hi, C31_ideal_history]
  simp only
  set hist' := hist ++ off.map fun x => f x.v with hhist
  set objs := (off ++ st.inds).map fun x => f x.v with hobjs
  have hh' : ∀ o ∈ hist', o.length = cf.m := by
    intro o ho
    rcases List.mem_append.1 ho with ho | ho
    · exact hh o ho
    · obtain ⟨x, -, rfl⟩ := List.mem_map.1 ho
      exact hcf.objectives _
  have ho' : ∀ o ∈ objs, o.length = cf.m := by
    intro o ho
    obtain ⟨x, -, rfl⟩ := List.mem_map.1 ho
    exact hcf.objectives _
  obtain ⟨x0, hx0⟩ : ∃ x0, x0 ∈ off := by
    rcases List.eq_nil_or_concat off with h | ⟨l, x, h⟩
    · rw [h, List.length_nil] at hoffLen
      omega
    · exact ⟨x, by simp [h]⟩
  have key : ∀ x ∈ off ++ st.inds, ∀ y ∈ normalizeOne eps (updateIdeal (initialIdeal cf.m) hist')
      (defiledPoint cf.m objs) (f x.v), y < 1 ∧ (f x.v ∈ hist' → 0 ≤ y) := fun x hx y hy =>
    normalized_any he cf.m hist' objs hh' ho' (o0 := f x0.v)
      (List.mem_map.2 ⟨x0, List.mem_append_left _ hx0, rfl⟩)
      (List.mem_append_right _ (List.mem_map.2 ⟨x0, hx0, rfl⟩)) _ (List.mem_map.2 ⟨x, hx, rfl⟩) y hy
  set g : Ind K → List K × List K := fun x =>
    (x.v, normalizeOne eps (updateIdeal (initialIdeal cf.m) hist') (defiledPoint cf.m objs) (f x.v)) with hg
  refine ⟨off.map g, st.inds.map g, ?_, by rw [List.length_map, hoffLen], ?_, ?_, ?_, ?_⟩
  · rw [hobjs, List.zipWith_map_right, ← hobjs, List.zipWith_self, ← List.map_append]
  · rw [List.map_map]
    rfl
  · intro p hp'
    rw [← List.map_append] at hp'
    obtain ⟨x, hx, rfl⟩ := List.mem_map.1 hp'
    exact ⟨normalizeOne_length eps cf.m hist' objs hh' ho' _ (List.mem_map.2 ⟨x, hx, rfl⟩),
      fun y hy => (key x hx y hy).1⟩
  · intro p hp' y hy
    obtain ⟨x, hx, rfl⟩ := List.mem_map.1 hp'
    exact (key x (List.mem_append_left _ hx) y hy).2
      (List.mem_append_right _ (List.mem_map.2 ⟨x, hx, rfl⟩))
  · intro p hp' hle y hy
    obtain ⟨x, hx, rfl⟩ := List.mem_map.1 hp'
    have e : updateIdeal (initialIdeal cf.m) ((hist ++ [f x.v]) ++ off.map fun x => f x.v) =
        updateIdeal (initialIdeal cf.m) hist' := by
      rw [hhist, ← C31_ideal_history, ← C31_ideal_history, ← C31_ideal_history]
      congr 1
      exact updateIdealOne_of_le hle
    rw [hg] at hy
    simp only at hy
    rw [← e] at hy
    refine (normalized_any he cf.m _ objs ?_ ho' (o0 := f x0.v)
      (List.mem_map.2 ⟨x0, List.mem_append_left _ hx0, rfl⟩)
      (List.mem_append_right _ (List.mem_map.2 ⟨x0, hx0, rfl⟩)) _
      (List.mem_map.2 ⟨x, List.mem_append_right _ hx, rfl⟩) y hy).2 (by simp)
    intro o ho
    rcases List.mem_append.1 ho with ho | ho
    · rcases List.mem_append.1 ho with ho | ho
      · exact hh o ho
      · rw [List.mem_singleton.1 ho]
        exact hcf.objectives _
    · obtain ⟨x, -, rfl⟩ := List.mem_map.1 ho
      exact hcf.objectives _

end

end Evogil.Nsgaiii

namespace Evogil.Imga

open Generations Evaluation Spec

/-- The state of IMGA after `k` steps, algorithms/base/driver.py:75-80. -/
def after {σ ι V α : Type*} [DecidableEq V] [LinearOrder α] (D : IslandOps σ ι V) (fit : V → List α)
    (top : List (List ℕ)) (mig len : ℕ) (pick : ℕ → ℕ → ℕ → ℕ → List (List V) → Option V) :
    ℕ → State σ → Option (State σ)
  | 0, s => some s
  | k + 1, s => (after D fit top mig len pick k s).bind (step D fit top mig len pick k)

/-- **C103.** As long as one likes, every step succeeds and every island stays in order. -/
theorem C103_run {σ ι V α W : Type*} [DecidableEq V] [LinearOrder α] {D : IslandOps σ ι V} {n : ℕ}
    {Inv Ready : ℕ → σ → Prop} {P : ι → Prop} {obs : ι → W} {N g G : ℕ → ℕ} {R : ℕ → List V → Prop}
    (h : Loose D n Inv Ready P obs N g G R) (fit : V → List α) {top : List (List ℕ)}
    (htop : SymTopology n top) {mig : ℕ}
    (hroom : ∀ (i : ℕ) (l : List ℕ), top[i]? = some l → mig * l.length ≤ N i)
    {len : ℕ} (hlen : 0 < len) (pick : ℕ → ℕ → ℕ → ℕ → List (List V) → Option V)
    (hpick : ∀ k a b j, PickOk (pick k a b j)) (s : State σ) (hs : All n Inv s.islands) (k : ℕ) :
    ∃ s', after D fit top mig len pick k s = some s' ∧ All n Inv s'.islands := by
  induction k with
  | zero => exact ⟨s, rfl, hs⟩
  | succ k ih =>
    obtain ⟨s', e, h'⟩ := ih
    obtain ⟨isl, s'', e', -, h'', -⟩ := C103_step_loose h fit htop hroom hlen pick hpick k s' h'
    exact ⟨s'', by rw [after, e]; exact e', h''.1, fun i x hx => h.ready i x (h''.2 i x hx)⟩

section
variable {K : Type*} [Field K] [LinearOrder K] [IsStrictOrderedRing K] {pw : K → K → K} {sq : K → K}
  {eps : K} {f : List K → List K} {cf : Nsgaiii.Conf K} {n N : ℕ}

/-- **C115, what holds, on islands.** At every moment of every run of IMGA with NSGA-III: in the next step of the island
everybody is normalized, the results are below 1, and they are not negative for the new individuals and for everybody
who has no objective below the ideal point. -/
theorem C115_island_partial (hp : PowLaws pw) (he : 0 < eps) (hcf : Nsgaiii.ConfOk f cf) (hn : 0 < n) (h2 : 2 ≤ N / n)
    (d : NsgaiiiDraws K)
    (hd : ∀ i k j, Nsgaiii.DrawsOk (islandSize N n i) (d.ds i k j) (d.iter i k j) (d.sample i k j))
    (population : List (List K)) (hN : population.length = N) (hbox : ∀ v ∈ population, InBox v cf.dims)
    {w : ℕ} (hw : 0 < w) {mig : ℕ} (hmig : mig * 4 ≤ N / n) {len : ℕ} (hlen : 0 < len)
    (pick : ℕ → ℕ → ℕ → ℕ → List (List (List K)) → Option (List K)) (hpick : ∀ k a b j, PickOk (pick k a b j))
    (k j i : ℕ) (hi : i < n) :
    ∃ top s s' a b, torus w n = some top ∧
      start (fun p => some (Nsgaiii.initCosted f cf p)) n population = some s ∧
      after (nsgaiiiOps pw sq eps f cf d) f top mig len pick k s = some s' ∧ s'.islands[i]? = some a ∧
      epoch (nsgaiiiOps pw sq eps f cf d) i k 0 j a = some b ∧
      ∃ new old : List (List K × List K),
        Nsgaiii.stepNormalized pw eps f { cf with refs := d.refs i } (d.ds i k j) b.st = some (new ++ old) ∧
        new.length = 2 * (islandSize N n i / 2) ∧ old.map Prod.fst = b.st.inds.map Nsgaiii.Ind.v ∧
        (∀ p ∈ new ++ old, p.2.length = cf.m ∧ ∀ x ∈ p.2, x < 1) ∧
        (∀ p ∈ new, ∀ x ∈ p.2, 0 ≤ x) ∧
        ∀ p ∈ old, List.Forall₂ (fun a (y : K) => a ≤ (y : WithTop K)) b.st.ideal (f p.1) → ∀ x ∈ p.2, 0 ≤ x := by
  have C := nsgaiii_contract (g := 0) (sq := sq) hp he hcf h2 hd (Or.inl rfl)
  obtain ⟨top, htop, hsym⟩ := C37_symmetric w n hw
  obtain ⟨s, e1, e2, -⟩ := start_spec (mk := fun p => some (Nsgaiii.initCosted f cf p)) hn population
    (Q := fun i s => Nsgaiii.CSound f cf (islandSize N n i) s) (by
      intro i _ p hp hmem
      rw [hN] at hp
      have := Nsgaiii.initCosted_good hcf (pop := p) fun v hv => hbox v (hmem v hv)
      rw [hp] at this
      exact ⟨_, rfl, this.sound⟩)
  obtain ⟨s', e3, e4⟩ := C103_run C f hsym (mig := mig) (by
    intro i l hl
    have := Nat.mul_le_mul_left mig (torus_degree htop l (List.mem_of_getElem? hl))
    unfold islandSize
    omega) hlen pick hpick s e2 k
  have hlt : i < s'.islands.length := by rw [e4.1]; exact hi
  have ha := List.getElem?_eq_getElem hlt
  generalize s'.islands[i] = a at ha
  obtain ⟨b, f1, f2, -⟩ := C.epoch hi k j 0 a (e4.2 i a ha)
  refine ⟨top, s, s', a, b, htop, e1, e3, ha, f1, ?_⟩
  obtain ⟨hb, hsz, hist, g1, g2⟩ := f2
  obtain ⟨new, old, r1, r2, r3⟩ := Nsgaiii.C115_normalized_partial (cf := { cf with refs := d.refs i }) hp he
    ⟨hcf.etaC, hcf.etaM, hcf.trimBox, hcf.trimIdem, hcf.objectives⟩
    (st := b.st) ⟨hb.size, hb.box, hb.trimmed, hb.eval⟩ (by rw [hsz]; unfold islandSize; omega) hist g1 g2
    (d.ds i k j) (by rw [hb.size, hsz]; exact (hd i k j).pairs)
  exact ⟨new, old, r1, by rw [r2, hsz], r3⟩

end

/-- **C115 is violated.** Two islands with two individuals each, both crossed in every step. After one step of IMGA
with one migrant the individual 1 has moved to the island whose ideal point is (0, 3/4); its second objective is 0, so
in the next step it is normalized to a number below zero. -/
theorem C115_violated :
    ∃ new old, torus 4 2 = some [[1], [0]] ∧
      ((start (fun p => some (Nsgaiii.initCosted Dist.exOpposite Dist.exNsgaiiiConf p)) 2
          [[0], [1 / 4], [1 / 2], [1]]).bind fun s =>
        (after (nsgaiiiOps exSetup.pw id (1 / 1000) Dist.exOpposite Dist.exNsgaiiiConf exNsgaiiiIslands)
          Dist.exOpposite [[1], [0]] 1 1 (fun _ _ _ _ L => L.flatten.head?) 1 s).bind fun s' =>
        s'.islands[0]?.bind fun a =>
        Nsgaiii.stepNormalized exSetup.pw (1 / 1000) Dist.exOpposite
          { Dist.exNsgaiiiConf with refs := exNsgaiiiIslands.refs 0 } (exNsgaiiiIslands.ds 0 1 0) a.st)
          = some (new ++ old) ∧
      new.length = 2 ∧ ∃ x ∈ old, ∃ y ∈ x.2, y < 0 :=
  ⟨[([121 / 256], [1375 / 2912, 6750 / 16907]), ([175 / 256], [3125 / 4576, 0])],
    [([5 / 32], [625 / 4004, 16875 / 16907]), ([1], [1000 / 1001, -10125 / 16907])], by decide +kernel,
    by decide +kernel, rfl, _, List.mem_cons_of_mem _ (List.mem_singleton.2 rfl), _,
    List.mem_cons_of_mem _ (List.mem_singleton.2 rfl), by norm_num⟩

/-- The theorem applies to two islands of four individuals each. -/
example (k j i : ℕ) (hi : i < 2) := C115_island_partial (pw := exSetup.pw) (sq := id) (eps := 1 / 1000)
  (f := Dist.exOpposite) (cf := Dist.exNsgaiiiConf) (n := 2) (N := 8) exSetup_valid.pow (by norm_num)
  ⟨by norm_num [Dist.exNsgaiiiConf], by norm_num [Dist.exNsgaiiiConf], fun _ h => h, fun _ => rfl, fun _ => rfl⟩
  (by decide) (by decide) exNsgaiiiIslands exNsgaiiiIslands_ok
  [[0], [1 / 8], [1 / 4], [3 / 8], [1 / 2], [5 / 8], [3 / 4], [1]] rfl exEight (w := 4) (by decide) (mig := 1)
  (by decide) (len := 5) (by decide) (fun _ _ _ _ L => L.flatten.head?) exPick k j i hi

end Evogil.Imga
