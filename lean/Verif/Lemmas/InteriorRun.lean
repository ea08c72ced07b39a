import Verif.Props.Generations

/-!
# What crossover, mutation and trimming keep, a run keeps

The selections only choose, so a property of vectors that survives the operators holds in every state of a run of NSGA-II,
SPEA2, IBEA and SMS-EMOA.
-/

set_option linter.unusedSectionVars false

namespace Evogil.Generations

open Evaluation

theorem mapM_mem {α β : Type*} {f : α → Option β} {l : List α} {r : List β} (h : l.mapM f = some r) :
    ∀ y ∈ r, ∃ x ∈ l, f x = some y := by
  have hf := (mapM_option_eq_some f l r).1 h
  clear h
  induction hf with
  | nil => simp
  | @cons a b l r hab _ ih =>
    intro y hy
    rcases List.mem_cons.1 hy with rfl | hy
    · exact ⟨a, by simp, hab⟩
    · obtain ⟨x, hx, e⟩ := ih y hy
      exact ⟨x, List.mem_cons_of_mem _ hx, e⟩

section
variable {K : Type*} [Field K] [LinearOrder K] [IsStrictOrderedRing K]

/-- A property of vectors of the box that survives crossover, mutation and trimming. -/
structure Kept (S : Setup K) (P : List K → Prop) : Prop where
  box : ∀ v, P v → InBox v S.dims
  cross : ∀ d : VarDraw K, d.Valid → ∀ x y c, P x → P y → crossVec S d x y = some c → P c
  mutn : ∀ d : VarDraw K, d.Valid → ∀ x c, P x → mutVec S d x = some c → P c
  trim : ∀ v, P v → P (S.trim v)

variable {S : Setup K} {P : List K → Prop}

theorem Kept.child (hP : Kept S P) {d : VarDraw K} (hd : d.Valid) {x y c : List K} (hx : P x) (hy : P y)
    (h : makeChild S d x y = some c) : P c := by
  unfold makeChild at h
  cases h1 : crossVec S d x y with
  | none => rw [h1] at h; cases h
  | some z =>
    rw [h1] at h
    simp only at h
    obtain ⟨w, h2, rfl⟩ := Option.map_eq_some_iff.1 h
    exact hP.trim _ (hP.mutn d hd z w (hP.cross d hd x y z hx hy h1) h2)

theorem Kept.offspring (hP : Kept S P) {ι : Type*} {better : Bool → ι → ι → ι}
    (hb : ∀ c x y, better c x y = x ∨ better c x y = y) {vec : ι → List K} {dm : ℕ → MateDraw} {dv : ℕ → VarDraw K}
    (hdv : ∀ i, (dv i).Valid) {individuals : List ι} (hi : ∀ x ∈ individuals, P (vec x)) {m : ℕ} {vs : List (List K)}
    (h : offspring S better vec dm dv individuals m = some vs) : ∀ v ∈ vs, P v := by
  unfold Generations.offspring at h
  cases h1 : matingPool better dm individuals (2 * m) with
  | none => rw [h1] at h; cases h
  | some mating =>
    rw [h1] at h
    simp only at h
    have hm : ∀ v ∈ mating.map vec, P v := by
      intro v hv
      obtain ⟨z, hz, rfl⟩ := List.mem_map.1 hv
      obtain ⟨i, -, e⟩ := mapM_mem h1 z hz
      cases h2 : individuals[(dm i).a]? with
      | none => rw [h2] at e; cases e
      | some x =>
        cases h3 : individuals[(dm i).b]? with
        | none => rw [h2, h3] at e; cases e
        | some y =>
          rw [h2, h3] at e
          simp only [Option.some.injEq] at e
          rw [← e]
          rcases hb (dm i).coin x y with g | g
          · rw [g]; exact hi x (List.mem_of_getElem? h2)
          · rw [g]; exact hi y (List.mem_of_getElem? h3)
    cases h4 : crossAll S dv (mating.map vec) m with
    | none => rw [h4] at h; cases h
    | some crossed =>
      rw [h4] at h
      simp only at h
      have hc : ∀ v ∈ crossed, P v := by
        intro v hv
        obtain ⟨i, -, e⟩ := mapM_mem h4 v hv
        cases h2 : (mating.map vec)[i]? with
        | none => rw [h2] at e; cases e
        | some x =>
          cases h3 : (mating.map vec)[m + i]? with
          | none => rw [h2, h3] at e; cases e
          | some y =>
            rw [h2, h3] at e
            exact hP.cross (dv i) (hdv i) x y v (hm x (List.mem_of_getElem? h2)) (hm y (List.mem_of_getElem? h3)) e
      intro v hv
      obtain ⟨p, hp, e⟩ := mapM_mem h v hv
      obtain ⟨w, hw, rfl⟩ := Option.map_eq_some_iff.1 e
      exact hP.trim _ (hP.mutn _ (hdv _) _ _ (hc _ (List.mem_of_getElem? (List.mem_zipIdx_iff_getElem?.1 hp))) hw)

theorem of_map_v {l l' : List (Ind (List K) (List K))} (h : l.map (fun x => x.v) = l'.map fun x => x.v)
    (hl : ∀ x ∈ l', P x.v) : ∀ x ∈ l, P x.v := by
  intro x hx
  have : x.v ∈ l.map (fun x => x.v) := List.mem_map_of_mem hx
  rw [h] at this
  obtain ⟨y, hy, e⟩ := List.mem_map.1 this
  rw [← e]; exact hl y hy

theorem newInds_keep {next : ℕ} {vs : List (List K)} (h : ∀ v ∈ vs, P v) : ∀ x ∈ newInds next vs, P x.v :=
  fun _ hx => h _ (newInds_none _ _ _ hx).2

end

/-! ## NSGA-II -/

section nsgaii
variable {K : Type*} [Field K] [LinearOrder K] [IsStrictOrderedRing K] [FloorSemiring K] {A : Type*} [DecidableEq A]

/-- The states of an NSGA-II driver started with `N` vectors that satisfy `P`, as `NReach`. -/
inductive NFrom (S : Setup K) (P : List K → Prop) (key : List K → A) (fit : List K → List K) (m : ℕ) (c : K) (N : ℕ) :
    NState K A → Prop
  | start (archive : Option (Archive A (List K)))
      (ha : ∀ a, archive = some a → ∀ k f, a k = some f → f.length = m)
      (population : List (List K)) (hn : population.length = N) (hp : ∀ v ∈ population, P v) :
      NFrom S P key fit m c N (nsgaiiInit S key fit archive c population)
  | step (iter : List (Ind (List K) (List K)) → List (Ind (List K) (List K)))
      (hiter : ∀ l, (iter l).Perm l) (dm : ℕ → MateDraw) (hdm : ∀ i, (dm i).Valid N)
      (dv : ℕ → VarDraw K) (hdv : ∀ i, (dv i).Valid) (s s' : NState K A)
      (hs : NFrom S P key fit m c N s) (h : nsgaiiStep S key fit m iter dm dv s = some s') : NFrom S P key fit m c N s'
  | finish (iter : List (Ind (List K) (List K)) → List (Ind (List K) (List K)))
      (hiter : ∀ l, (iter l).Perm l) (s s' : NState K A) (r : List (List K))
      (hs : NFrom S P key fit m c N s) (h : nsgaiiFinish S key fit m iter s = some (s', r)) : NFrom S P key fit m c N s'

variable {S : Setup K} {P : List K → Prop} {key : List K → A} {fit : List K → List K} {m : ℕ} {c : K} {N : ℕ}

theorem NFrom.reach (hP : Kept S P) {s : NState K A} (h : NFrom S P key fit m c N s) : NReach S key fit m c N s := by
  induction h with
  | start archive ha population hn hp => exact .start archive ha population hn fun v hv => hP.box v (hp v hv)
  | step iter hiter dm hdm dv hdv s s' hs h ih => exact .step iter hiter dm hdm dv hdv s s' ih h
  | finish iter hiter s s' r hs h ih => exact .finish iter hiter s s' r ih h

theorem evalAll_v (key : List K → A) (fit : List K → List K) (st : Acc (List K) A (List K))
    (inds : List (Ind (List K) (List K))) :
    (evalAll key fit st inds).2.map (fun x => x.v) = inds.map fun x => x.v :=
  (evalAll_keeps key fit (fun _ => True) (fun _ => trivial) inds st (fun _ _ _ _ _ => trivial)
    (fun _ _ _ _ => trivial)).2.1

theorem NFrom.keeps (hS : S.Valid) (hfit : ∀ v, (fit v).length = m) (hP : Kept S P) {s : NState K A}
    (h : NFrom S P key fit m c N s) : ∀ x ∈ s.individuals, P x.v := by
  induction h with
  | start archive ha population hn hp =>
    refine of_map_v (evalAll_v key fit _ _) (newInds_keep ?_)
    intro v hv
    obtain ⟨w, hw, rfl⟩ := List.mem_map.1 hv
    exact hP.trim w (hp w hw)
  | step iter hiter dm hdm dv hdv s s' hs h ih =>
    have hi := (hs.reach hP).inv hS hfit
    obtain ⟨kept, fitness, h1, -, h3⟩ := nsgaiiSelect_spec hiter S.eps m s.popSize hi.1.nodup
    simp only [nsgaiiStep, h1] at h
    cases h4 : offspring S (nsgaiiBetter fitness) (fun x => x.v) dm dv kept s.matingSize with
    | none => rw [h4] at h; cases h
    | some vs =>
      rw [h4] at h
      simp only [Option.some.injEq] at h
      subst h
      have hk : ∀ x ∈ kept, P x.v := fun x hx => ih x (h3.subset hx)
      refine of_map_v (evalAll_v key fit _ _) ?_
      intro x hx
      rcases List.mem_append.1 hx with hx | hx
      · exact hk x hx
      · exact newInds_keep (hP.offspring (nsgaiiBetter_or fitness) hdv hk h4) x hx
  | finish iter hiter s s' r hs h ih =>
    have hi := (hs.reach hP).inv hS hfit
    have he := of_map_v (P := P) (evalAll_v key fit s.acc s.individuals) ih
    unfold nsgaiiFinish at h
    simp only at h
    have hnd : (evalAll key fit s.acc s.individuals).2.Nodup := by
      have := (evalAll_keeps key fit (fun _ => True) (fun _ => trivial) s.individuals s.acc (fun _ _ _ _ _ => trivial)
        (fun _ _ _ _ => trivial)).1
      refine List.Nodup.of_map (fun x => x.id) ?_
      rw [this]; exact hi.1.ids.1
    obtain ⟨kept, fitness, h1, -, h3⟩ := nsgaiiSelect_spec hiter S.eps m s.popSize hnd
    rw [h1] at h
    simp only [Option.some.injEq, Prod.mk.injEq] at h
    rw [← h.1]
    exact fun x hx => he x (h3.subset hx)

end nsgaii

/-! ## SPEA2 -/

section spea2
variable {K : Type*} [Field K] [LinearOrder K] [IsStrictOrderedRing K] {A : Type*}

/-- The states of an SPEA2 driver started with `N` vectors that satisfy `P`, as `SReach`. -/
inductive SFrom (S : Setup K) (P : List K → Prop) (dist : List K → List K → K) (key : List K → A)
    (fit : List K → List K) (m N : ℕ) : SState K → Prop
  | start (population : List (List K)) (hn : population.length = N) (hp : ∀ v ∈ population, P v) :
      SFrom S P dist key fit m N (spea2Init S population)
  | step (fa : Option (Archive A (List K)))
      (ha : ∀ a, fa = some a → ∀ k f, a k = some f → f.length = m)
      (dt : ℕ → (ℕ × ℕ) × (ℕ × ℕ)) (hdt : ∀ i, PairDraw N (dt i).1 ∧ PairDraw N (dt i).2)
      (dv : ℕ → VarDraw K) (hdv : ∀ i, (dv i).Valid) (s s' : SState K)
      (hs : SFrom S P dist key fit m N s) (h : spea2Step S dist key fit fa dt dv s = some s') :
      SFrom S P dist key fit m N s'

variable {S : Setup K} {P : List K → Prop} {dist : List K → List K → K} {key : List K → A} {fit : List K → List K} {m N : ℕ}

theorem SFrom.reach (hP : Kept S P) {s : SState K} (h : SFrom S P dist key fit m N s) : SReach S dist key fit m N s := by
  induction h with
  | start population hn hp => exact .start population hn fun v hv => hP.box v (hp v hv)
  | step fa ha dt hdt dv hdv s s' hs h ih => exact .step fa ha dt hdt dv hdv s s' ih h

theorem SFrom.keeps (hS : S.Valid) (hdist : ∀ a b, 0 ≤ dist a b) (hfit : ∀ v, (fit v).length = m) (hN : 2 ≤ N)
    (hP : Kept S P) {s : SState K} (h : SFrom S P dist key fit m N s) :
    (∀ x ∈ s.individuals, P x.v) ∧ ∀ x ∈ s.archive, P x.v := by
  induction h with
  | start population hn hp =>
    refine ⟨newInds_keep ?_, by simp [spea2Init]⟩
    intro v hv
    obtain ⟨w, hw, rfl⟩ := List.mem_map.1 hv
    exact hP.trim w (hp w hw)
  | step fa ha dt hdt dv hdv s s' hs h ih =>
    have hi := (hs.reach hP).inv hS hdist hfit hN
    obtain ⟨c1, c2⟩ := chargeAll_lengths key fit fa s.individuals.length m hfit ha
      (s.individuals.map fun x => x.v)
    rw [List.length_map] at c1
    obtain ⟨e1, e2, -, e4⟩ := zipWith_eval c1 c2
    set ev := spea2Eval key fit fa s.individuals with hev
    have hel : ev.2.length = N := e1.trans hi.inds
    have hePv : ∀ x ∈ ev.2, P x.v := of_map_v e2 ih.1
    have hlen : ∀ x ∈ s.archive ++ ev.2, (objsOf x).length = m := by
      intro x hx
      rcases List.mem_append.1 hx with hx | hx
      · obtain ⟨-, f, hf, hl⟩ := hi.abox x hx
        rw [objsOf, hf]; exact hl
      · obtain ⟨f, hf, hl⟩ := e4 x hx
        rw [objsOf, hf]; exact hl
    have hall : ∀ x ∈ s.archive ++ ev.2, P x.v := by
      intro x hx
      rcases List.mem_append.1 hx with hx | hx
      · exact ih.2 x hx
      · exact hePv x hx
    have htwo : 2 ≤ (s.archive ++ ev.2).length := by rw [List.length_append]; omega
    simp only [spea2Step, ← hev] at h
    set fitness : Ind (List K) (List K) → K :=
      fun x => (Spea2.fitness dist objsOf (s.archive ++ ev.2) x).getD 0 with hfitness
    obtain ⟨kept, lost, k1, k2, k3, -⟩ := Spea2.C25_step
      (same := sameDict (s.archive ++ ev.2) fitness) (by intro x; simp [sameDict]) hdist m objsOf
      s.archiveSize ev.2 s.archive hlen htwo fitness (by
        intro x hx
        obtain ⟨f, d, h1, -⟩ := Spea2.C24_fitness hdist m objsOf (s.archive ++ ev.2) hlen htwo x hx
        rw [h1, hfitness]; simp only [h1, Option.getD_some]) (s.archive ++ ev.2).length le_rfl
    have hk : ∀ x ∈ kept, P x.v := fun x hx => hall x (k3.mem_iff.1 (List.mem_append_left _ hx))
    cases hf : (s.archive ++ ev.2).mapM (Spea2.fitness dist objsOf (s.archive ++ ev.2)) with
    | none => rw [hf] at h; cases h
    | some fs =>
      rw [hf] at h
      simp only [k1] at h
      cases hv : (List.range ev.2.length).mapM fun i => spea2Child S fitness kept (dt i) (dv i) with
      | none => rw [hv] at h; cases h
      | some vs =>
        rw [hv] at h
        simp only [Option.some.injEq] at h
        subst h
        refine ⟨newInds_keep ?_, hk⟩
        intro v hv'
        obtain ⟨i, -, e⟩ := mapM_mem hv v hv'
        have hkl : kept.length = N := by
          rw [k2, hi.size, List.length_append, hel]; omega
        obtain ⟨x, hx, hx'⟩ := spea2_select_mem (fit := fitness) (pool := kept) (t := (dt i).1)
          (by rw [hkl]; exact (hdt i).1)
        obtain ⟨y, hy, hy'⟩ := spea2_select_mem (fit := fitness) (pool := kept) (t := (dt i).2)
          (by rw [hkl]; exact (hdt i).2)
        simp only [spea2Child, hx', hy'] at e
        exact hP.child (hdv i) (hk x hx) (hk y hy) e

end spea2

/-! ## IBEA -/

section ibea
variable {K : Type*} [Field K] [LinearOrder K] [IsStrictOrderedRing K] [FloorSemiring K]

/-- The states of an IBEA driver started with `N` vectors that satisfy `P`, as `IReach`. -/
inductive IFrom (S : Setup K) (P : List K → Prop) (ex : K → K) (kappa : K) (objectives : List (List K → K)) (c : K)
    (N : ℕ) : IState K → Prop
  | start (population : List (List K)) (hn : population.length = N) (hp : ∀ v ∈ population, P v) (s : IState K)
      (h : ibeaInit S objectives c population = some s) : IFrom S P ex kappa objectives c N s
  | step (inArchive : List K → Bool) (hasArchive : Bool) (dm : ℕ → MateDraw)
      (hdm : ∀ i, (dm i).Valid N) (dv : ℕ → VarDraw K) (hdv : ∀ i, (dv i).Valid) (s s' : IState K)
      (hs : IFrom S P ex kappa objectives c N s)
      (h : ibeaStep S ex kappa objectives inArchive hasArchive dm dv s = some s') : IFrom S P ex kappa objectives c N s'
  | finish (inArchive : List K → Bool) (hasArchive : Bool) (s s' : IState K) (r : List (List K))
      (hs : IFrom S P ex kappa objectives c N s)
      (h : ibeaFinish S ex kappa objectives inArchive hasArchive s = some (s', r)) : IFrom S P ex kappa objectives c N s'

variable {S : Setup K} {P : List K → Prop} {ex : K → K} {kappa : K} {objectives : List (List K → K)} {c : K} {N : ℕ}

theorem IFrom.reach (hP : Kept S P) {s : IState K} (h : IFrom S P ex kappa objectives c N s) :
    IReach S ex kappa objectives c N s := by
  induction h with
  | start population hn hp s h => exact .start population hn (fun v hv => hP.box v (hp v hv)) s h
  | step ia hA dm hdm dv hdv s s' hs h ih => exact .step ia hA dm hdm dv hdv s s' ih h
  | finish ia hA s s' r hs h ih => exact .finish ia hA s s' r ih h

theorem ibeaScale_keeps {eps : K} {inArchive : List K → Bool} {hasArchive : Bool} {s s' : IState K}
    (h : ibeaScale eps objectives inArchive hasArchive s = some s') :
    s'.individuals = s.individuals.map (fun x => { x with known := true }) ∧ s'.popSize = s.popSize := by
  unfold ibeaScale at h
  simp only at h
  split at h
  · cases h
  · cases h; exact ⟨rfl, rfl⟩

theorem known_keep {l : List (IInd K)} (h : ∀ x ∈ l, P x.v) :
    ∀ x ∈ l.map (fun x => { x with known := true }), P x.v := by
  intro x hx
  obtain ⟨y, hy, rfl⟩ := List.mem_map.1 hx
  exact h y hy

theorem IFrom.keeps (hS : S.Valid) (hN : 1 ≤ N) (hP : Kept S P) {s : IState K}
    (h : IFrom S P ex kappa objectives c N s) : ∀ x ∈ s.individuals, P x.v := by
  induction h with
  | start population hn hp s h =>
    rw [(ibeaScale_keeps h).1]
    refine known_keep fun x hx => ?_
    obtain ⟨w, hw, e⟩ := List.mem_map.1 (newIInds_mem _ _ _ hx).1
    rw [← e]; exact hP.trim w (hp w hw)
  | step ia hA dm hdm dv hdv s s' hs h ih =>
    have hi := (hs.reach hP).inv hS hN
    obtain ⟨kept, fitness, h1, -, h3⟩ := hi.1.select hN ex S.eps kappa s.scaled
    simp only [ibeaStep, h1] at h
    cases h4 : offspring S (Ibea.better fitness) (fun x : IInd K => x.v) dm dv kept s.matingSize with
    | none => rw [h4] at h; cases h
    | some vs =>
      rw [h4] at h
      simp only at h
      rw [(ibeaScale_keeps h).1]
      have hk : ∀ x ∈ kept, P x.v := fun x hx => ih x (h3.subset hx)
      refine known_keep fun x hx => ?_
      rcases List.mem_append.1 hx with hx | hx
      · exact hk x hx
      · exact hP.offspring (ibeaBetter_or fitness) hdv hk h4 _ (newIInds_mem _ _ _ hx).1
  | finish ia hA s s' r hs h ih =>
    have hi := (hs.reach hP).inv hS hN
    unfold ibeaFinish at h
    cases hsc : ibeaScale S.eps objectives ia hA s with
    | none => rw [hsc] at h; cases h
    | some s1 =>
      rw [hsc] at h
      simp only at h
      have e := ibeaScale_keeps hsc
      have hk1 := hi.1.known s1.cost s1.scaled
      obtain ⟨kept, fitness, h1, -, h3⟩ := hk1.select hN ex S.eps kappa s1.scaled
      simp only [← e.1, ← e.2] at h1 h3
      rw [h1] at h
      simp only [Option.some.injEq, Prod.mk.injEq] at h
      rw [← h.1]
      intro x hx
      have := h3.subset hx
      rw [e.1] at this
      exact known_keep ih x this

end ibea

/-! ## SMS-EMOA -/

section smsemoa
variable {K : Type*} [Field K] [LinearOrder K] [IsStrictOrderedRing K] [FloorSemiring K] {A : Type*}

/-- The states of an SMS-EMOA driver started with `N` vectors that satisfy `P`, as `MReach`. -/
inductive MFrom (S : Setup K) (P : List K → Prop) (key : List K → A) (fit : List K → List K) (m : ℕ) (mult : K)
    (N : ℕ) : MState K → Prop
  | start (fa : Option (Archive A (List K)))
      (ha : ∀ a, fa = some a → ∀ k f, a k = some f → f.length = m)
      (population : List (List K)) (hn : population.length = N) (hp : ∀ v ∈ population, P v) :
      MFrom S P key fit m mult N (smsInit S key fit fa mult population)
  | step (fa : Option (Archive A (List K)))
      (ha : ∀ a, fa = some a → ∀ k f, a k = some f → f.length = m)
      (iter : List (Ind (List K) (List K)) → List (Ind (List K) (List K)))
      (hiter : ∀ l, (iter l).Perm l) (hv : List (List K) → K)
      (dt : ℕ → ℕ × ℕ) (hdt : ∀ i, PairDraw N (dt i)) (dv : ℕ → VarDraw K)
      (hdv : ∀ i, (dv i).Valid) (s s' : MState K) (hs : MFrom S P key fit m mult N s)
      (h : smsStep S key fit fa iter hv dt dv s = some s') : MFrom S P key fit m mult N s'

variable {S : Setup K} {P : List K → Prop} {key : List K → A} {fit : List K → List K} {m : ℕ} {mult : K} {N : ℕ}

theorem MFrom.reach (hP : Kept S P) {s : MState K} (h : MFrom S P key fit m mult N s) : MReach S key fit m mult N s := by
  induction h with
  | start fa ha population hn hp => exact .start fa ha population hn fun v hv => hP.box v (hp v hv)
  | step fa ha iter hiter hv dt hdt dv hdv s s' hs h ih => exact .step fa ha iter hiter hv dt hdt dv hdv s s' ih h

theorem MInv.turn_keeps (hfit : ∀ v, (fit v).length = m) (hP : Kept S P)
    {fa : Option (Archive A (List K))}
    (ha : ∀ a, fa = some a → ∀ k f, a k = some f → f.length = m)
    {iter : List (Ind (List K) (List K)) → List (Ind (List K) (List K))}
    (hiter : ∀ l, (iter l).Perm l) (hv : List (List K) → K) {t : ℕ × ℕ} (ht : PairDraw N t)
    {d : VarDraw K} (hd : d.Valid) {s s' : MState K} (hi : MInv S m mult N s) (hp : ∀ x ∈ s.individuals, P x.v)
    (h : smsTurn S key fit fa iter hv t d s = some s') : ∀ x ∈ s'.individuals, P x.v := by
  obtain ⟨h1, h2, h3⟩ := ht
  rw [← hi.size] at h2 h3
  unfold smsTurn at h
  cases hg : smsGenerate S s.individuals t d with
  | none => rw [hg] at h; cases h
  | some v =>
    have hPv : P v := by
      unfold smsGenerate at hg
      rw [if_neg h1, List.getElem?_eq_getElem h2, List.getElem?_eq_getElem h3] at hg
      exact hP.child hd (hp _ (List.getElem_mem h2)) (hp _ (List.getElem_mem h3)) hg
    rw [hg] at h
    simp only at h
    obtain ⟨e1, e2, e3, e4⟩ := smsEval_spec (key := key) hfit ha s.individuals.length (newInds s.nextId [v])
    set ev := smsEval key fit fa s.individuals.length (newInds s.nextId [v]) with hev
    have hall : ∀ x ∈ s.individuals ++ ev.2, P x.v := by
      intro x hx
      rcases List.mem_append.1 hx with hx | hx
      · exact hp x hx
      · exact of_map_v e2 (newInds_keep (by simpa using hPv)) x hx
    have hids : Ids (s.nextId + 1) ((s.individuals ++ ev.2).map fun x => x.id) := by
      rw [List.map_append, e3, newInds_id]
      exact hi.ids.append_range'
    have hl : (s.individuals ++ ev.2).length = N + 1 := by
      rw [List.length_append, e1, newInds_length, hi.size]; rfl
    obtain ⟨x, hx, -, -, hr, -⟩ := Smsemoa.C27_reduce iter hiter hv m objsOf (s.individuals ++ ev.2)
      (hids.1.of_map _) (by
        intro x hx
        rcases List.mem_append.1 hx with hx | hx
        · obtain ⟨f, hf, hl⟩ := hi.objs x hx
          rw [objsOf, hf]; exact hl
        · obtain ⟨f, hf, hl⟩ := e4 x hx
          rw [objsOf, hf]; exact hl) (by
        intro e; rw [e, List.length_nil] at hl; omega) (s.individuals.length + 1)
      (by rw [hl, hi.size])
    rw [hr] at h
    simp only [Option.some.injEq] at h
    subst h
    exact fun y hy => hall y (List.mem_of_mem_erase hy)

theorem MInv.turns_keeps (hS : S.Valid) (hfit : ∀ v, (fit v).length = m) (hP : Kept S P)
    {fa : Option (Archive A (List K))}
    (ha : ∀ a, fa = some a → ∀ k f, a k = some f → f.length = m)
    {iter : List (Ind (List K) (List K)) → List (Ind (List K) (List K))}
    (hiter : ∀ l, (iter l).Perm l) (hv : List (List K) → K) {dt : ℕ → ℕ × ℕ}
    (hdt : ∀ i, PairDraw N (dt i)) {dv : ℕ → VarDraw K} (hdv : ∀ i, (dv i).Valid) (n : ℕ) :
    ∀ (k : ℕ) (s s' : MState K), MInv S m mult N s → (∀ x ∈ s.individuals, P x.v) →
      smsTurns S key fit fa iter hv dt dv k n s = some s' → ∀ x ∈ s'.individuals, P x.v := by
  induction n with
  | zero => intro k s s' _ hp h; cases h; exact hp
  | succ n ih =>
    intro k s s' hi hp h
    obtain ⟨s1, h1, hi1⟩ := hi.turn (key := key) hS hfit ha hiter hv (hdt k) (hdv k)
    simp only [smsTurns, h1] at h
    exact ih (k + 1) s1 s' hi1 (hi.turn_keeps hfit hP ha hiter hv (hdt k) (hdv k) hp h1) h

theorem MFrom.keeps (hS : S.Valid) (hfit : ∀ v, (fit v).length = m) (hP : Kept S P) {s : MState K}
    (h : MFrom S P key fit m mult N s) : ∀ x ∈ s.individuals, P x.v := by
  induction h with
  | start fa ha population hn hp =>
    refine of_map_v (smsEval_spec (key := key) hfit ha _ _).2.1 (newInds_keep ?_)
    intro v hv
    obtain ⟨w, hw, rfl⟩ := List.mem_map.1 hv
    exact hP.trim w (hp w hw)
  | step fa ha iter hiter hv dt hdt dv hdv s s' hs h ih =>
    exact ((hs.reach hP).inv hS hfit).turns_keeps hS hfit hP ha hiter hv hdt hdv _ _ _ _ ih h

end smsemoa

end Evogil.Generations
