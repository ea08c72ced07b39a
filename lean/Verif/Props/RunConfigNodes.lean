import Verif.Props.RunConfig

/-!
# C110: the drivers of HGS nodes, and problems without a front
-/

set_option linter.unusedSectionVars false

namespace Evogil.Factory

open Spec

/-- The keyword arguments that a node adds. -/
def nodeArgs (b : Bool) (p : Name) (m : Problem) (o n : String) (level : ℕ) (meta' ceta bits : ℚ)
    (pop : Val Atom) : Cfg Atom :=
  [(kPopulation, pop), (kDims, .atom (.dims m.dims)),
    (kFitnesses, .atom (.fitnesses p (some level))), ("mutation_eta".toList, num meta'),
    ("mutation_rate".toList, num (1 / m.dims.length)), ("crossover_eta".toList, num ceta),
    ("crossover_rate".toList, num (9/10))] ++
  (if b then [] else [("fitness_archive".toList, .atom (.archive level))]) ++
  [("trim_function".toList, .atom (.trim bits)),
    ("message_adapter_factory".toList, .adapter n.toList o.toList)]

/-- The keys of these arguments. -/
def keysOf (b : Bool) : List String := if b then distributedKeys else nodeKeys

theorem nodeArgs_keys (b : Bool) (p : Name) (m : Problem) (o n : String) (level : ℕ) (meta' ceta bits : ℚ)
    (pop : Val Atom) :
    (nodeArgs b p m o n level meta' ceta bits pop).map Prod.fst = (keysOf b).map String.toList := by
  cases b <;> rfl

theorem nodeArgs_dict (b : Bool) (p : Name) (m : Problem) (o n : String) (level : ℕ) (meta' ceta bits : ℚ)
    (pop : Val Atom) : IsDict (nodeArgs b p m o n level meta' ceta bits pop) := by
  rw [IsDict, nodeArgs_keys]
  cases b <;> decide +kernel

theorem nodeDriver_eq (b : Bool) {n : String} (hn : n ∈ driverNames) (p : Name) (m : Problem) (w : ℕ)
    (type o : String) (level : ℕ) (meta' ceta bits : ℚ) (h1 : [10, 12, 15][level]? = some meta')
    (h2 : [15, 20, 25][level]? = some ceta) (h3 : [4, 16, 64][level]? = some bits) (pop : Val Atom) :
    nodeDriver b (hgsArgs p m w type (.part n.toList (driverArgs p m (ownArgs n) (refArgs w n)))
      (.adapter n.toList o.toList)) level pop =
    .ok (update (driverArgs p m (ownArgs n) (refArgs w n)) (nodeArgs b p m o n level meta' ceta bits pop)) := by
  have hacc := driver_accepts hn p m w (nodeArgs b p m o n level meta' ceta bits pop)
    (nodeArgs_keys b p m o n level meta' ceta bits pop) (by cases b <;> decide +kernel)
  have hl : level < 3 := by
    obtain ⟨h, -⟩ := List.getElem?_eq_some_iff.1 h1
    exact h
  have hcall : callPart (.part n.toList (driverArgs p m (ownArgs n) (refArgs w n)))
      (nodeArgs b p m o n level meta' ceta bits pop) =
      .ok (update (driverArgs p m (ownArgs n) (refArgs w n)) (nodeArgs b p m o n level meta' ceta bits pop)) := by
    simp only [callPart, bind, Except.bind]
    rw [hacc]
    rfl
  have key : ∀ x : Except CallErr (Cfg Atom), x = .ok (update (driverArgs p m (ownArgs n) (refArgs w n))
      (nodeArgs b p m o n level meta' ceta bits pop)) → (x >>= fun r => pure r) = .ok (update
      (driverArgs p m (ownArgs n) (refArgs w n)) (nodeArgs b p m o n level meta' ceta bits pop)) := by
    rintro x rfl
    rfl
  obtain rfl | rfl | rfl : level = 0 ∨ level = 1 ∨ level = 2 := by omega
  · cases h1; cases h2; cases h3
    cases b <;> exact key _ hcall
  · cases h1; cases h2; cases h3
    cases b <;> exact key _ hcall
  · cases h1; cases h2; cases h3
    cases b <;> exact key _ hcall

/-- **C110 (HGS).** HGS, classic or distributed, with every listed driver is assembled and accepted, and
so is the driver of a node of each of the three levels with whatever population it gets: the objectives,
the variation parameters, the archive (only in the classic one) and the precision are those of the level,
all other parameters those the driver has on its own. -/
theorem C110_nodes {mods : Name → Option Problem} {p : Name} {m : Problem} {w : ℕ}
    (h : Complete mods p m w) (n : String) (hn : n ∈ driverNames) (o : String)
    (b : Bool) (ho : (o = "HGS" ∧ b = false) ∨ (o = "DHGS" ∧ b = true)) :
    ∃ args : Cfg Atom,
      prepare (runEnv mods) (o ++ "+" ++ n).toList p = .ok (some (.part o.toList args)) ∧
      callPart (.part o.toList args) [] = .ok args ∧
      get args "population_sizes".toList = some (nums [64, 20, 10]) ∧
      get args "cost_modifiers".toList = some (nums [1, 1, 1]) ∧
      get args "metaepoch_len".toList = some (nums [5, 5, 5]) ∧
      get args "reference_point".toList = some (nums (List.replicate w 50)) ∧
      get args kPopulation = some (.atom (.population (m.initial 64))) ∧
      ∀ (level : ℕ) (meta' ceta bits : ℚ), [10, 12, 15][level]? = some meta' →
        [15, 20, 25][level]? = some ceta → [4, 16, 64][level]? = some bits →
      ∀ pop, ∃ dargs, nodeDriver b args level pop = .ok dargs ∧
        get dargs kPopulation = some pop ∧
        get dargs kDims = some (.atom (.dims m.dims)) ∧
        get dargs kFitnesses = some (.atom (.fitnesses p (some level))) ∧
        get dargs "mutation_eta".toList = some (num meta') ∧
        get dargs "mutation_rate".toList = some (num (1 / m.dims.length)) ∧
        get dargs "crossover_eta".toList = some (num ceta) ∧
        get dargs "crossover_rate".toList = some (num (9/10)) ∧
        get dargs "fitness_archive".toList = (if b then none else some (.atom (.archive level))) ∧
        get dargs "trim_function".toList = some (.atom (.trim bits)) ∧
        get dargs "message_adapter_factory".toList = some (.adapter n.toList o.toList) ∧
        ∀ k ∉ (keysOf b).map String.toList,
          get dargs k = get (driverArgs p m (ownArgs n) (refArgs w n)) k := by
  have hprep := prepare_pair h n hn o (by rcases ho with ⟨rfl, -⟩ | ⟨rfl, -⟩ <;> decide +kernel)
  have hne : o ≠ "IMGA" := by rcases ho with ⟨rfl, -⟩ | ⟨rfl, -⟩ <;> decide +kernel
  rw [if_neg hne] at hprep
  refine ⟨_, hprep, ?_, rfl, rfl, rfl, rfl, rfl, ?_⟩
  · generalize (if o = "HGS" then "classic" else "distributed") = type
    have hall : ∀ o ∈ ["HGS", "DHGS"], (∀ k ∈ needs o, k.toList ∈ (hgsArgs [] ⟨[], .empty, fun _ => []⟩ 0
        "" (num 0) (num 0)).map Prod.fst ++ []) ∧ ∀ k ∈ (hgsArgs [] ⟨[], .empty, fun _ => []⟩ 0
        "" (num 0) (num 0)).map Prod.fst ++ [], k ∈ (needs o ++ takes o).map String.toList := by
      decide +kernel
    have hmem : o ∈ ["HGS", "DHGS"] := by rcases ho with ⟨rfl, -⟩ | ⟨rfl, -⟩ <;> decide +kernel
    have hmem' : o ∈ ["SPEA2", "IBEA", "NSGAII", "OMOPSO", "NSGAIII", "JGBL", "SMSEMOA", "NSLS", "IMGA",
      "HGS", "DHGS"] := by rcases ho with ⟨rfl, -⟩ | ⟨rfl, -⟩ <;> decide +kernel
    have : construct o.toList (update (hgsArgs p m w type (.part n.toList
        (driverArgs p m (ownArgs n) (refArgs w n))) (.adapter n.toList o.toList)) []) = .ok () :=
      construct_update hmem' (kc := (hgsArgs [] ⟨[], .empty, fun _ => []⟩ 0
        "" (num 0) (num 0)).map Prod.fst) rfl (ku := []) rfl (hall o hmem)
    simp only [callPart, bind, Except.bind]
    rw [this]
    rfl
  · intro level meta' ceta bits h1 h2 h3 pop
    refine ⟨_, nodeDriver_eq b hn p m w _ o level meta' ceta bits h1 h2 h3 pop, ?_⟩
    have hd := nodeArgs_dict b p m o n level meta' ceta bits pop
    refine ⟨?_, ?_, ?_, ?_, ?_, ?_, ?_, ?_, ?_, ?_, fun k hk => ?_⟩
    iterate 7 (rw [get_update hd]; rfl)
    · rw [get_update hd]
      cases b
      · rfl
      · simp only [driverNames, List.mem_cons, List.not_mem_nil, or_false] at hn
        rcases hn with rfl | rfl | rfl | rfl | rfl | rfl | rfl | rfl <;> rfl
    iterate 2 (rw [get_update hd]; cases b <;> rfl)
    refine get_update_same hd k fun v hv => ?_
    exact absurd (List.mem_map_of_mem (f := Prod.fst) hv) (by rwa [nodeArgs_keys])

/-! ## Problems without a front -/

section
variable (c : Char) (cs : Name) (d : ℚ × ℚ) (ds : List (ℚ × ℚ)) (ini : ℕ → List (List ℚ))

set_option maxRecDepth 8000 in
theorem prep_SMSEMOA_absent :
    prepareWithDriver (runEnv fun _ => some ⟨d :: ds, .absent, ini⟩) "SMSEMOA".toList (c :: cs) none [] =
      .ok (.part "SMSEMOA".toList (driverArgs (c :: cs) ⟨d :: ds, .absent, ini⟩ [] [])) := rfl

end

/-- **C110 (problems without a front).** If the problem module has no `pareto_front`, SMS-EMOA is still
assembled, because the `AttributeError` of its initialiser is suppressed; only the call of the class
fails, with the `TypeError` of a missing `reference_point`. -/
theorem C110_no_front {mods : Name → Option Problem} {p : Name} {m : Problem} (hp : p ≠ [])
    (hm : mods p = some m) (hdims : m.dims ≠ []) (hf : m.front = .absent) :
    prepare (runEnv mods) "SMSEMOA".toList p =
      .ok (some (.part "SMSEMOA".toList (driverArgs p m [] []))) ∧
    callPart (.part "SMSEMOA".toList (driverArgs p m [] [])) [] =
      .error (.missing "reference_point".toList) := by
  rw [prepare_one hm]
  obtain ⟨dims, front, ini⟩ := m
  cases dims with
  | nil => exact absurd rfl hdims
  | cons x xs =>
  cases p with
  | nil => exact absurd rfl hp
  | cons c cs =>
  simp only at hf
  subst hf
  have hs : pySplit '+' "SMSEMOA".toList = ["SMSEMOA".toList] := by decide +kernel
  constructor
  · simp only [prepare, hs, prepareLoop, bind, Except.bind, pure, Except.pure,
      prep_SMSEMOA_absent c cs x xs ini]
  · rfl

/-! ## Cases -/

/-- Two parameters, two objectives. -/
def demoMods (p : Name) : Option Problem :=
  if p = "ZDT1".toList then some ⟨[(0, 1), (0, 1)], .width 2, fun n => List.replicate n [1/2, 1/2]⟩ else none

theorem demo_complete : Complete demoMods "ZDT1".toList
    ⟨[(0, 1), (0, 1)], .width 2, fun n => List.replicate n [1/2, 1/2]⟩ 2 :=
  ⟨by decide +kernel, rfl, by simp, rfl⟩

/-- A call with a misspelt argument, a call without a required one, an accepted one. -/
example : construct "JGBL".toList (("percentage".toList, 0) ::
      (driverKeys "JGBL").map fun k => (k, 0)) = .error (.unexpected "percentage".toList) ∧
    construct "SMSEMOA".toList ((driverKeys "SPEA2").map fun k => (k, 0)) =
      .error (.missing "reference_point".toList) ∧
    construct "SPEA2".toList ((driverKeys "SPEA2").map fun k => (k, 0)) = .ok () := by decide +kernel

example : ∃ args dargs : Cfg Atom,
    prepare (runEnv demoMods) "HGS+IBEA".toList "ZDT1".toList = .ok (some (.part "HGS".toList args)) ∧
    nodeDriver false args 1 (.atom (.population [])) = .ok dargs ∧
    get dargs "mutation_eta".toList = some (num 12) ∧ get dargs "kappa".toList = some (num (5/100)) := by
  obtain ⟨args, h1, -, -, -, -, -, -, h⟩ := C110_nodes demo_complete "IBEA" (by decide +kernel) "HGS"
    false (Or.inl ⟨rfl, rfl⟩)
  obtain ⟨dargs, h2, -, -, -, h3, -, -, -, -, -, -, h4⟩ := h 1 12 20 16 rfl rfl rfl (.atom (.population []))
  exact ⟨args, dargs, h1, h2, h3, h4 "kappa".toList (by decide +kernel)⟩

end Evogil.Factory
