import Verif.Lemmas.Factory

/-!
# C43, C44, C45: the plan of simulations, configuration precedence, nesting of drivers
-/

namespace Evogil.Factory

/-! ## C43 -/

/-- The option names `name`: one of the requested words equals it up to case. -/
def Asked (words : List Name) (name : Name) : Prop := ∃ w ∈ words, lower w = lower name

instance (words : List Name) (name : Name) : Decidable (Asked words name) := by
  unfold Asked; infer_instance

theorem parse_eq {words : List Name} (h : ∀ w ∈ words, ',' ∉ w) (hj : joinWith ',' words ≠ [])
    (known : List Name) :
    parseProblems known (some (joinWith ',' words)) = known.filter (fun p => Asked words p) ∧
    parseAlgorithms known (some (joinWith ',' words)) = known.filter (fun p => Asked words p) := by
  have hne : words ≠ [] := by rintro rfl; exact hj rfl
  have hs := split_lower hne h
  obtain ⟨c, cs, e⟩ := List.exists_cons_of_ne_nil hj
  rw [e] at hs ⊢
  have key : (fun p : Name => decide (lower p ∈ pySplit ',' (lower (c :: cs)))) =
      fun p => decide (Asked words p) := by
    funext p
    rw [hs]
    congr 1
    simp only [Asked, List.mem_map]
  constructor
  · rw [parseProblems, key]
  · rw [parseAlgorithms, key]

/-- **C43.** With problems and algorithms requested by name (any case, comma separated) and `n`
repetitions, the plan contains exactly the combinations of a requested known problem, a requested
known algorithm and a run number below `n`; each exactly once. -/
theorem C43_plan (pw aw : List Name) (hp : ∀ w ∈ pw, ',' ∉ w) (ha : ∀ w ∈ aw, ',' ∉ w)
    (hpj : joinWith ',' pw ≠ []) (haj : joinWith ',' aw ≠ []) (n : ℕ) :
    let plan := createSimulation (some (joinWith ',' pw)) (some (joinWith ',' aw)) n
    plan.Nodup ∧
    (∀ p a r, (p, a, r) ∈ plan ↔
      p ∈ problems ∧ Asked pw p ∧ a ∈ algorithms ∧ Asked aw a ∧ r < n) ∧
    plan.length = (problems.filter (fun p => Asked pw p)).length *
      (algorithms.filter (fun a => Asked aw a)).length * n := by
  intro plan
  have hplan : plan = (((problems.filter (fun p => Asked pw p)).flatMap fun p =>
      (algorithms.filter (fun a => Asked aw a)).map fun a => (p, a)).flatMap fun c =>
        (List.range n).map fun run => (c.1, c.2, run)) := by
    simp only [plan, createSimulation, (parse_eq hp hpj problems).1, (parse_eq ha haj algorithms).2]
  have hnp : problems.Nodup := by decide +kernel
  have hna : algorithms.Nodup := by decide +kernel
  refine ⟨?_, ?_, ?_⟩
  · rw [hplan, List.nodup_flatMap]
    constructor
    · intro c _
      exact List.nodup_range.map fun a b e => by simpa using e
    · have hprod : ((problems.filter (fun p => Asked pw p)).flatMap fun p =>
          (algorithms.filter (fun a => Asked aw a)).map fun a => (p, a)).Nodup :=
        (hnp.filter _).product (hna.filter _)
      refine hprod.imp ?_
      intro a b hne x hx hx'
      obtain ⟨i, -, rfl⟩ := List.mem_map.1 hx
      obtain ⟨j, -, e⟩ := List.mem_map.1 hx'
      simp only [Prod.mk.injEq] at e
      exact hne (Prod.ext e.1.symm e.2.1.symm)
  · intro p a r
    rw [hplan]
    simp only [List.mem_flatMap, List.mem_map, List.mem_range, List.mem_filter, decide_eq_true_eq,
      Prod.exists, Prod.mk.injEq]
    constructor
    · rintro ⟨p', a', ⟨p'', ⟨h1, h2⟩, a'', ⟨h3, h4⟩, rfl, rfl⟩, r', hr, rfl, rfl, rfl⟩
      exact ⟨h1, h2, h3, h4, hr⟩
    · rintro ⟨h1, h2, h3, h4, hr⟩
      exact ⟨p, a, ⟨p, ⟨h1, h2⟩, a, ⟨h3, h4⟩, rfl, rfl⟩, r, hr, rfl, rfl, rfl⟩
  · rw [hplan]
    simp [List.length_flatMap, List.map_const']

/-- **C43 (options left out).** Without a problem option all known problems are planned; without an
algorithm option *nothing* is, whatever else was asked for. -/
theorem C43_defaults (algoOpt problemOpt : Option Name) (n : ℕ) :
    (∀ p a r, (p, a, r) ∈ createSimulation none algoOpt n ↔
      p ∈ problems ∧ a ∈ parseAlgorithms algorithms algoOpt ∧ r < n) ∧
    createSimulation problemOpt none n = [] := by
  constructor
  · intro p a r
    simp only [createSimulation, parseProblems, List.mem_flatMap, List.mem_map, List.mem_range,
      Prod.exists, Prod.mk.injEq]
    constructor
    · rintro ⟨p', a', ⟨p'', h1, a'', h2, rfl, rfl⟩, r', hr, rfl, rfl, rfl⟩
      exact ⟨h1, h2, hr⟩
    · rintro ⟨h1, h2, hr⟩
      exact ⟨p, a, ⟨p, h1, a, h2, rfl, rfl⟩, r, hr, rfl, rfl, rfl⟩
  · simp [createSimulation, parseAlgorithms]

/-- **C43 (algorithms are parsable).** Whatever the options, a planned algorithm is a known driver or
a known meta-algorithm followed by a known driver, and splitting its name gives these parts. -/
theorem C43_parsable (problemOpt algoOpt : Option Name) (n : ℕ) (p a : Name) (r : ℕ)
    (h : (p, a, r) ∈ createSimulation problemOpt algoOpt n) :
    p ∈ problems ∧ ((a ∈ drivers ∧ pySplit '+' a = [a]) ∨
      ∃ m ∈ metaalgorithms, ∃ d ∈ drivers, pySplit '+' a = [m, d]) := by
  have hsub : ∀ opt : Option Name, ∀ x ∈ parseProblems problems opt, x ∈ problems := by
    intro opt x hx
    unfold parseProblems at hx
    split at hx
    · exact List.mem_of_mem_filter hx
    · exact hx
  have hsub' : ∀ opt : Option Name, ∀ x ∈ parseAlgorithms algorithms opt, x ∈ algorithms := by
    intro opt x hx
    unfold parseAlgorithms at hx
    split at hx
    · exact List.mem_of_mem_filter hx
    · simp at hx
  simp only [createSimulation, List.mem_flatMap, List.mem_map, List.mem_range,
    Prod.exists, Prod.mk.injEq] at h
  obtain ⟨p', a', ⟨p'', h1, a'', h2, rfl, rfl⟩, r', hr, rfl, rfl, rfl⟩ := h
  refine ⟨hsub _ _ h1, ?_⟩
  have ha := hsub' _ _ h2
  have hd : ∀ d ∈ drivers, '+' ∉ d := by decide +kernel
  have hm : ∀ d ∈ metaalgorithms, '+' ∉ d := by decide +kernel
  rw [algorithms, List.mem_append, List.mem_flatMap] at ha
  rcases ha with ⟨m, hmm, hx⟩ | ha
  · obtain ⟨d, hdd, rfl⟩ := List.mem_map.1 hx
    exact Or.inr ⟨m, hmm, d, hdd, by rw [pySplit_append (hm m hmm), pySplit_word (hd d hdd)]⟩
  · exact Or.inl ⟨ha, pySplit_word (hd _ ha)⟩

/-- The budgets are the requested ones in increasing order. -/
theorem C43_budgets (l : List ℤ) : (parseBudgets l).Perm l ∧ (parseBudgets l).Pairwise (· ≤ ·) :=
  ⟨List.perm_insertionSort _ _, List.pairwise_insertionSort _ _⟩

example : createSimulation (some "zdt1,uf2,nope".toList) (some "HGS+spea2,ibea".toList) 2 =
    ([("ZDT1", "HGS+SPEA2", 0), ("ZDT1", "HGS+SPEA2", 1), ("ZDT1", "IBEA", 0), ("ZDT1", "IBEA", 1),
      ("UF2", "HGS+SPEA2", 0), ("UF2", "HGS+SPEA2", 1), ("UF2", "IBEA", 0), ("UF2", "IBEA", 1)].map
      fun x => (String.toList x.1, String.toList x.2.1, x.2.2)) := by decide +kernel

/-! ## C44 -/

variable {A : Type}

/-- The environment consists of dictionaries, and every initialiser only updates the configuration by
a dictionary that depends on the problem (as all those in `run_config` do). -/
structure Env.Tables (env : Env A) (initUpd : Name → Name → Option (Cfg A)) : Prop where
  base : ∀ a c, env.algoBase a = some c → IsDict c
  sub : ∀ a l c, env.algoSubBase a l = some c → IsDict c
  cust : ∀ l c, env.custBase l = some c → IsDict c
  initDict : ∀ key p c, initUpd key p = some c → IsDict c
  init : ∀ key, (∀ f, env.init key = some f → ∀ cfg p, ∃ upd, initUpd key p = some upd ∧
      f cfg p = (update cfg upd, none)) ∧ (env.init key = none → ∀ p, initUpd key p = none)

/-- The layers of a configuration from the least to the most specific one. -/
def layers (env : Env A) (initUpd : Name → Name → Option (Cfg A)) (algo problem : Name)
    (driver : Option (Val A)) (subs : List Name) : List (Cfg A) :=
  [ [(kDims, env.dims problem), (kFitnesses, env.fitnesses problem)],
    (match driver, subs with
      | some d, inner :: _ => [(kDriver, d), (kAdapter, .adapter inner algo)]
      | _, _ => []),
    (env.algoBase algo).getD [],
    (env.algoSubBase algo subs).getD [],
    (env.custBase [algo, problem]).getD [],
    (env.custBase (algo :: subs ++ [problem])).getD [],
    (initUpd (initKey algo none none) problem).getD [],
    (initUpd (initKey algo (some subs) none) problem).getD [],
    (initUpd (initKey algo none (some problem)) problem).getD [],
    (initUpd (initKey algo (some subs) (some problem)) problem).getD [] ]

/-- The value of a key in the last of the layers that defines it. -/
def mostSpecific (ls : List (Cfg A)) (k : Name) : Option (Val A) :=
  ls.reverse.findSome? fun l => get l k

theorem get_updateOpt {cfg : Cfg A} {o : Option (Cfg A)} (h : ∀ c, o = some c → IsDict c)
    (k : Name) : get (updateOpt cfg o) k = (get (o.getD []) k).or (get cfg k) := by
  cases o with
  | none => simp [updateOpt, get]
  | some c => simp only [updateOpt, get_update (h c rfl), Option.getD_some]

theorem get_customInit {env : Env A} {initUpd : Name → Name → Option (Cfg A)}
    (ht : env.Tables initUpd) (key problem : Name) (cfg : Cfg A) :
    ∃ cfg', customInit env key problem cfg = .ok cfg' ∧
      ∀ k, get cfg' k = (get ((initUpd key problem).getD []) k).or (get cfg k) := by
  obtain ⟨h1, h2⟩ := ht.init key
  rcases hi : env.init key with _ | f
  · refine ⟨cfg, by simp [customInit, hi], fun k => ?_⟩
    rw [h2 hi problem]
    simp [get]
  · obtain ⟨upd, hu, hf⟩ := h1 f hi cfg problem
    refine ⟨update cfg upd, by simp [customInit, hi, hf], fun k => ?_⟩
    rw [get_update (ht.initDict _ _ _ hu), hu]
    rfl

/-- **C44.** When a driver is assembled, the value of every configuration key is the one given by the
most specific layer that defines it; the population is filled in only when no layer defines it; keys
defined nowhere are absent. -/
theorem C44_precedence (env : Env A) (initUpd : Name → Name → Option (Cfg A))
    (ht : env.Tables initUpd) (algo problem : Name) (driver : Option (Val A)) (subs : List Name)
    (v : Val A) (h : prepareWithDriver env algo problem driver subs = .ok v) :
    ∃ cfg, v = .part algo cfg ∧ ∀ k, get cfg k =
      (mostSpecific (layers env initUpd algo problem driver subs) k).or
        (if k = kPopulation then some (env.population problem) else none) := by
  rw [prepareWithDriver] at h
  split at h
  · cases h
  split at h
  · cases h
  -- the driver part
  obtain ⟨c1, hc1, hg1⟩ : ∃ c1, loadDriver env algo driver subs (loadObligatory env problem []) =
      .ok c1 ∧ ∀ k, get c1 k =
        (get (match driver, subs with
          | some d, inner :: _ => [(kDriver, d), (kAdapter, .adapter inner algo)]
          | _, _ => []) k).or
          (get [(kDims, env.dims problem), (kFitnesses, env.fitnesses problem)] k) := by
    have hobl : ∀ k, get (loadObligatory env problem []) k =
        get [(kDims, env.dims problem), (kFitnesses, env.fitnesses problem)] k := by
      intro k
      rw [loadObligatory, get_update (by
        simp only [IsDict, List.map_cons, List.map_nil]; decide +kernel)]
      simp [get]
    cases driver with
    | none =>
      refine ⟨_, rfl, fun k => ?_⟩
      rw [hobl]
      simp [get]
    | some d =>
      cases subs with
      | nil =>
        rw [loadDriver] at h
        cases h
      | cons inner rest =>
        by_cases had : env.adapterExists inner algo = true
        · refine ⟨_, by rw [loadDriver, if_pos had], fun k => ?_⟩
          rw [get_update (by simp [IsDict]), get_update (by simp [IsDict]), hobl]
          simp only [get]
          by_cases e1 : kDriver = k
          · subst e1
            simp [show ¬ kAdapter = kDriver by decide +kernel]
          · by_cases e2 : kAdapter = k
            · subst e2; simp [e1]
            · simp [e1, e2]
        · rw [loadDriver, if_neg had] at h
          cases h
  rw [hc1] at h
  -- the tables
  have hg2 := get_updateOpt (cfg := c1) (ht.base algo)
  have hg3 := get_updateOpt (cfg := loadAlgorithm env algo c1) (ht.sub algo subs)
  have hg4 := get_updateOpt (cfg := loadAlgorithmSub env algo subs (loadAlgorithm env algo c1))
    (ht.cust [algo, problem])
  have hg5 := get_updateOpt (cfg := loadProblem env algo [] problem
    (loadAlgorithmSub env algo subs (loadAlgorithm env algo c1)))
    (ht.cust (algo :: subs ++ [problem]))
  -- the initialisers
  obtain ⟨i1, hi1, gi1⟩ := get_customInit ht (initKey algo none none) problem
    (loadTables env algo subs problem c1)
  obtain ⟨i2, hi2, gi2⟩ := get_customInit ht (initKey algo (some subs) none) problem i1
  obtain ⟨i3, hi3, gi3⟩ := get_customInit ht (initKey algo none (some problem)) problem i2
  obtain ⟨i4, hi4, gi4⟩ := get_customInit ht (initKey algo (some subs) (some problem)) problem i3
  have hinits : customInits env algo subs problem (loadTables env algo subs problem c1) =
      .ok i4 := by
    simp only [customInits, hi1]
    show (customInit env _ problem i1).bind _ = _
    rw [hi2]
    show (customInit env _ problem i2).bind _ = _
    rw [hi3]
    exact hi4
  have h' : Except.ok (.part algo (loadPopulation env problem i4)) = Except.ok (ε := Err) v := by
    rw [← h]
    show _ = (customInits env algo subs problem (loadTables env algo subs problem c1)).bind _
    rw [hinits]
    rfl
  cases h'
  refine ⟨_, rfl, fun k => ?_⟩
  have hall : ∀ k, get i4 k = mostSpecific (layers env initUpd algo problem driver subs) k := by
    intro k
    rw [gi4, gi3, gi2, gi1]
    have e5 : get (loadTables env algo subs problem c1) k = _ := hg5 k
    have e4 : get (loadProblem env algo [] problem
      (loadAlgorithmSub env algo subs (loadAlgorithm env algo c1))) k = _ := hg4 k
    have e3 : get (loadAlgorithmSub env algo subs (loadAlgorithm env algo c1)) k = _ := hg3 k
    have e2 : get (loadAlgorithm env algo c1) k = _ := hg2 k
    rw [e5, e4, e3, e2, hg1]
    have hor : ∀ (l : Cfg A) (ls : List (Cfg A)), (l :: ls).findSome? (fun l => get l k) =
        (get l k).or (ls.findSome? fun l => get l k) := by
      intro l ls
      rw [List.findSome?_cons]
      cases get l k <;> rfl
    simp only [mostSpecific, layers, List.reverse_cons, List.reverse_nil, List.nil_append,
      List.cons_append, hor, List.findSome?_nil, Option.or_none]
  rw [← hall, loadPopulation]
  by_cases hk : k = kPopulation
  · subst hk
    rcases hp : get i4 kPopulation with _ | x
    · rw [get_update (by simp [IsDict])]
      simp [get]
    · simp [hp]
  · rw [if_neg hk, Option.or_none]
    rcases hp : get i4 kPopulation with _ | x
    · rw [get_update (by simp [IsDict])]
      simp only [get, if_neg (fun e : kPopulation = k => hk e.symm), Option.none_or]
    · rfl

/-- Two initialisers and a table: the initialiser beats the table, the table beats the defaults. -/
def demoEnv : Env ℕ where
  algoBase := fun a => if a = ['H'] then some [(['x'], .atom 1), (['y'], .atom 1)] else none
  algoSubBase := fun _ _ => none
  custBase := fun _ => none
  init := fun k => if k = "init_alg___H".toList then
    some (fun cfg _ => (update cfg [(['y'], .atom 2)], none)) else none
  classExists := fun _ => true
  problemExists := fun _ => true
  adapterExists := fun inner outer => decide (inner = ['S'] ∧ outer = ['H'])
  dims := fun _ => .atom 10
  fitnesses := fun _ => .atom 11
  population := fun _ => .atom 12

example : ∃ cfg, prepareWithDriver demoEnv ['H'] ['P'] none [] = .ok (.part ['H'] cfg) ∧
    get cfg ['x'] = some (.atom 1) ∧ get cfg ['y'] = some (.atom 2) ∧
    get cfg kDims = some (.atom 10) ∧ get cfg kPopulation = some (.atom 12) ∧
    get cfg ['z'] = none := ⟨_, rfl, rfl, rfl, rfl, rfl, rfl⟩

/-! ## C45 -/

/-- Tables and initialisers leave the two keys alone that carry the sub-driver. -/
structure Env.NoDriverKeys (env : Env A) : Prop where
  base : ∀ a c, env.algoBase a = some c → IsDict c ∧ get c kDriver = none ∧ get c kAdapter = none
  sub : ∀ a l c, env.algoSubBase a l = some c →
    IsDict c ∧ get c kDriver = none ∧ get c kAdapter = none
  cust : ∀ l c, env.custBase l = some c → IsDict c ∧ get c kDriver = none ∧ get c kAdapter = none
  init : ∀ key f, env.init key = some f → ∀ cfg p,
    get (f cfg p).1 kDriver = get cfg kDriver ∧ get (f cfg p).1 kAdapter = get cfg kAdapter

/-- The driver is nested as the list of names says: the first name is the outermost class, its
configuration holds the driver for the remaining names together with the adapter between the two, and
the innermost one holds no driver. -/
def Nested : List Name → Val A → Prop
  | [], _ => False
  | [d], v => ∃ cfg, v = .part d cfg ∧ get cfg kDriver = none ∧ get cfg kAdapter = none
  | d :: e :: rest, v => ∃ cfg inner, v = .part d cfg ∧ get cfg kDriver = some inner ∧
      get cfg kAdapter = some (.adapter e d) ∧ Nested (e :: rest) inner

theorem customInit_keeps {env : Env A} (hk : env.NoDriverKeys) {key problem : Name}
    {cfg cfg' : Cfg A} (h : customInit env key problem cfg = .ok cfg') :
    get cfg' kDriver = get cfg kDriver ∧ get cfg' kAdapter = get cfg kAdapter := by
  rw [customInit] at h
  split at h
  · cases h; exact ⟨rfl, rfl⟩
  · rename_i f hf
    have := hk.init key f hf cfg problem
    split at h
    · rename_i c hc; cases h; rw [hc] at this; exact this
    · rename_i c hc; cases h; rw [hc] at this; exact this
    · cases h

theorem prepareWithDriver_keeps {env : Env A} (hk : env.NoDriverKeys) {algo problem : Name}
    {driver : Option (Val A)} {subs : List Name} {v : Val A}
    (h : prepareWithDriver env algo problem driver subs = .ok v) :
    ∃ c1 cfg, loadDriver env algo driver subs (loadObligatory env problem []) = .ok c1 ∧
      v = .part algo cfg ∧ get cfg kDriver = get c1 kDriver ∧
      get cfg kAdapter = get c1 kAdapter := by
  rw [prepareWithDriver] at h
  split at h
  · cases h
  split at h
  · cases h
  rcases hc1 : loadDriver env algo driver subs (loadObligatory env problem []) with e | c1
  · rw [hc1] at h; cases h
  rw [hc1] at h
  have h2 : ((customInits env algo subs problem (loadTables env algo subs problem c1)).bind
      fun c2 => Except.ok (.part algo (loadPopulation env problem c2))) = .ok v := h
  rcases hi : customInits env algo subs problem (loadTables env algo subs problem c1) with e | c2
  · rw [hi] at h2; cases h2
  rw [hi] at h2
  cases h2
  refine ⟨c1, _, rfl, rfl, ?_⟩
  -- the population
  have hpop : get (loadPopulation env problem c2) kDriver = get c2 kDriver ∧
      get (loadPopulation env problem c2) kAdapter = get c2 kAdapter := by
    rw [loadPopulation]
    split
    · rw [get_update (by simp [IsDict]), get_update (by simp [IsDict])]
      simp only [get, if_neg (show ¬ kPopulation = kDriver by decide +kernel),
        if_neg (show ¬ kPopulation = kAdapter by decide +kernel), Option.none_or, and_self]
    · exact ⟨rfl, rfl⟩
  -- the initialisers
  have hin : get c2 kDriver = get (loadTables env algo subs problem c1) kDriver ∧
      get c2 kAdapter = get (loadTables env algo subs problem c1) kAdapter := by
    have hi' : ((customInit env (initKey algo none none) problem
        (loadTables env algo subs problem c1)).bind fun a =>
        (customInit env (initKey algo (some subs) none) problem a).bind fun b =>
        (customInit env (initKey algo none (some problem)) problem b).bind fun c =>
        customInit env (initKey algo (some subs) (some problem)) problem c) = .ok c2 := hi
    rcases e1 : customInit env (initKey algo none none) problem
        (loadTables env algo subs problem c1) with e | a
    · rw [e1] at hi'; cases hi'
    rw [e1] at hi'
    simp only [Except.bind] at hi'
    rcases e2 : customInit env (initKey algo (some subs) none) problem a with e | b
    · rw [e2] at hi'; cases hi'
    rw [e2] at hi'
    simp only at hi'
    rcases e3 : customInit env (initKey algo none (some problem)) problem b with e | c
    · rw [e3] at hi'; cases hi'
    rw [e3] at hi'
    simp only at hi'
    have k1 := customInit_keeps hk e1
    have k2 := customInit_keeps hk e2
    have k3 := customInit_keeps hk e3
    have k4 := customInit_keeps hk hi'
    exact ⟨by rw [k4.1, k3.1, k2.1, k1.1], by rw [k4.2, k3.2, k2.2, k1.2]⟩
  -- the tables
  have hup : ∀ (cfg : Cfg A) (o : Option (Cfg A)),
      (∀ c, o = some c → IsDict c ∧ get c kDriver = none ∧ get c kAdapter = none) →
      get (updateOpt cfg o) kDriver = get cfg kDriver ∧
      get (updateOpt cfg o) kAdapter = get cfg kAdapter := by
    intro cfg o ho
    cases o with
    | none => exact ⟨rfl, rfl⟩
    | some c =>
      obtain ⟨hd, h1, h2⟩ := ho c rfl
      simp [updateOpt, get_update hd, h1, h2]
  have t1 := hup c1 _ (hk.base algo)
  have t2 := hup (loadAlgorithm env algo c1) _ (hk.sub algo subs)
  have t3 := hup (loadAlgorithmSub env algo subs (loadAlgorithm env algo c1)) _
    (hk.cust [algo, problem])
  have t4 := hup (loadProblem env algo [] problem
    (loadAlgorithmSub env algo subs (loadAlgorithm env algo c1))) _
    (hk.cust (algo :: subs ++ [problem]))
  refine ⟨?_, ?_⟩
  · rw [hpop.1, hin.1]
    exact t4.1.trans (t3.1.trans (t2.1.trans t1.1))
  · rw [hpop.2, hin.2]
    exact t4.2.trans (t3.2.trans (t2.2.trans t1.2))

/-- **C45 (nesting).** A composite name `d₁+d₂+…` that can be assembled gives a driver with `d₁`
outermost, each level configured with the driver of the following names and the adapter for the next
one, and the innermost without a sub-driver. -/
theorem C45_nested (env : Env A) (hk : env.NoDriverKeys) (problem : Name) (names : List Name)
    (hne : names ≠ []) (hplus : ∀ d ∈ names, '+' ∉ d) (v : Option (Val A))
    (h : prepare env (joinWith '+' names) problem = .ok v) :
    ∃ w, v = some w ∧ Nested names w := by
  rw [prepare, pySplit_joinWith hne hplus] at h
  clear hplus
  have hobl : get (loadObligatory env problem []) kDriver = none ∧
      get (loadObligatory env problem []) kAdapter = none := by
    rw [loadObligatory, get_update (by
      simp only [IsDict, List.map_cons, List.map_nil]; decide +kernel), get_update (by
      simp only [IsDict, List.map_cons, List.map_nil]; decide +kernel)]
    simp only [get, if_neg (show ¬ kDims = kDriver by decide +kernel),
      if_neg (show ¬ kDims = kAdapter by decide +kernel),
      if_neg (show ¬ kFitnesses = kDriver by decide +kernel),
      if_neg (show ¬ kFitnesses = kAdapter by decide +kernel), Option.none_or, and_self]
  induction names generalizing v with
  | nil => exact absurd rfl hne
  | cons d rest ih =>
    have h' : ((prepareLoop env problem rest).bind fun inner =>
        (prepareWithDriver env d problem inner rest).bind fun v => Except.ok (some v)) = .ok v := h
    rcases hr : prepareLoop env problem rest with e | inner
    · rw [hr] at h'; cases h'
    rw [hr] at h'
    simp only [Except.bind] at h'
    rcases hp : prepareWithDriver env d problem inner rest with e | w
    · rw [hp] at h'; cases h'
    rw [hp] at h'
    cases h'
    refine ⟨w, rfl, ?_⟩
    obtain ⟨c1, cfg, hc1, rfl, g1, g2⟩ := prepareWithDriver_keeps hk hp
    cases rest with
    | nil =>
      cases hr
      rw [loadDriver] at hc1
      cases hc1
      exact ⟨cfg, rfl, g1.trans hobl.1, g2.trans hobl.2⟩
    | cons e rest =>
      obtain ⟨w', rfl, hw'⟩ := ih (by simp) inner hr
      rw [loadDriver] at hc1
      split at hc1
      · cases hc1
        refine ⟨cfg, w', rfl, ?_, ?_, hw'⟩
        · rw [g1, get_update (by simp [IsDict]), get_update (by simp [IsDict])]
          simp only [get, if_neg (show ¬ kAdapter = kDriver by decide +kernel), if_true]
          rfl
        · rw [g2, get_update (by simp [IsDict])]
          simp only [get, if_true]
          rfl
      · cases hc1

/-- **C45 (refusal).** If for two neighbours of the composite name there is no message adapter, nothing
is assembled; and when all classes and the problem exist and the initialisers raise nothing else, the
refusal is the `NotViableConfiguration` exception. -/
theorem C45_refused (env : Env A) (problem : Name) (names : List Name)
    (hne : names ≠ []) (hplus : ∀ d ∈ names, '+' ∉ d)
    (pre post : List Name) (d e : Name) (hn : names = pre ++ d :: e :: post)
    (had : env.adapterExists e d = false) :
    (∀ v, prepare env (joinWith '+' names) problem ≠ .ok v) ∧
    ((∀ x ∈ names, env.classExists x = true) → env.problemExists problem = true →
      (∀ key p cfg, ∃ c, customInit env key p cfg = .ok c) →
      prepare env (joinWith '+' names) problem = .error .notViable) := by
  rw [prepare, pySplit_joinWith hne hplus]
  clear hplus hne
  have hok : ∀ l : List Name, ∀ v, prepareLoop env problem l = .ok v → (v.isSome = true ↔ l ≠ []) := by
    intro l v hv
    cases l with
    | nil => cases hv; simp
    | cons x l =>
      have h' : ((prepareLoop env problem l).bind fun inner =>
        (prepareWithDriver env x problem inner l).bind fun v => Except.ok (some v)) = .ok v := hv
      rcases hr : prepareLoop env problem l with e | inner
      · rw [hr] at h'; cases h'
      rw [hr] at h'
      simp only [Except.bind] at h'
      rcases hp : prepareWithDriver env x problem inner l with e | w
      · rw [hp] at h'; cases h'
      rw [hp] at h'
      cases h'
      simp
  -- one level: never `ok`, and every error is `notViable` under the extra hypotheses
  have hstep : ∀ x l, prepareLoop env problem (x :: l) = ((prepareLoop env problem l).bind fun inner =>
      (prepareWithDriver env x problem inner l).bind fun v => Except.ok (some v)) := fun _ _ => rfl
  have hbad : ∀ inner, prepareLoop env problem (e :: post) = .ok inner →
      ∀ w, prepareWithDriver env d problem inner (e :: post) ≠ .ok w := by
    intro inner hi w hw
    have hs := (hok _ _ hi).2 (by simp)
    obtain ⟨y, rfl⟩ := Option.isSome_iff_exists.1 hs
    rw [prepareWithDriver] at hw
    split at hw
    · cases hw
    split at hw
    · cases hw
    rw [loadDriver, if_neg (by simp [had])] at hw
    cases hw
  have hnot : ∀ v, prepareLoop env problem names ≠ .ok v := by
    intro v hv
    subst hn
    induction pre generalizing v with
    | nil =>
      rw [List.nil_append, hstep] at hv
      rcases hi : prepareLoop env problem (e :: post) with er | inner
      · rw [hi] at hv; cases hv
      rw [hi] at hv
      simp only [Except.bind] at hv
      rcases hp : prepareWithDriver env d problem inner (e :: post) with er | w
      · rw [hp] at hv; cases hv
      exact hbad inner hi w hp
    | cons x pre ih =>
      rw [List.cons_append, hstep] at hv
      rcases hi : prepareLoop env problem (pre ++ d :: e :: post) with er | inner
      · rw [hi] at hv; cases hv
      · exact ih inner hi
  refine ⟨hnot, ?_⟩
  · intro hcl hpr hinit
    -- every error raised while assembling is `notViable`
    have hlevel : ∀ x l inner er, env.classExists x = true →
        prepareLoop env problem l = .ok inner →
        prepareWithDriver env x problem inner l = .error er → er = .notViable := by
      intro x l inner er hx hi her
      rw [prepareWithDriver, if_neg (by simp [hx]), if_neg (by simp [hpr])] at her
      rcases hd : loadDriver env x inner l (loadObligatory env problem []) with e' | c1
      · rw [hd] at her
        cases her
        rw [loadDriver.eq_def] at hd
        split at hd
        · cases hd
        · split at hd
          · have := (hok _ _ hi).1 (by simp)
            exact absurd rfl this
          · split at hd
            · cases hd
            · cases hd; rfl
      · rw [hd] at her
        exfalso
        have hc : ∀ cfg, ∃ c, customInits env x l problem cfg = .ok c := by
          intro cfg
          obtain ⟨a, ha⟩ := hinit (initKey x none none) problem cfg
          obtain ⟨b, hb⟩ := hinit (initKey x (some l) none) problem a
          obtain ⟨c, hc⟩ := hinit (initKey x none (some problem)) problem b
          obtain ⟨c', hc'⟩ := hinit (initKey x (some l) (some problem)) problem c
          refine ⟨c', ?_⟩
          show ((customInit env (initKey x none none) problem cfg).bind fun a =>
            (customInit env (initKey x (some l) none) problem a).bind fun b =>
            (customInit env (initKey x none (some problem)) problem b).bind fun c =>
            customInit env (initKey x (some l) (some problem)) problem c) = .ok c'
          rw [ha]; simp only [Except.bind]
          rw [hb]; simp only
          rw [hc]; simp only
          exact hc'
        obtain ⟨c, hc⟩ := hc (loadTables env x l problem c1)
        have her' : ((customInits env x l problem (loadTables env x l problem c1)).bind
          fun c2 => Except.ok (.part x (loadPopulation env problem c2))) =
            .error (α := Val A) er := her
        rw [hc] at her'
        cases her'
    have hany : ∀ l : List Name, (∀ x ∈ l, env.classExists x = true) → ∀ er,
        prepareLoop env problem l = .error er → er = .notViable := by
      intro l
      induction l with
      | nil => intro _ er h; cases h
      | cons x l ihl =>
        intro hx er h
        rw [hstep] at h
        rcases hi : prepareLoop env problem l with er' | inner
        · rw [hi] at h; cases h
          exact ihl (fun y hy => hx y (List.mem_cons_of_mem _ hy)) _ hi
        rw [hi] at h
        simp only [Except.bind] at h
        rcases hp : prepareWithDriver env x problem inner l with er' | w
        · rw [hp] at h
          cases h
          exact hlevel x l inner _ (hx x List.mem_cons_self) hi hp
        · rw [hp] at h; cases h
    rcases hl : prepareLoop env problem names with er | v
    · rw [hany names hcl er hl]
    · exact absurd hl (hnot v)

example : ∃ cfg icfg, prepare demoEnv "H+S".toList ['P'] = .ok (some (.part ['H'] cfg)) ∧
    get cfg kDriver = some (.part ['S'] icfg) ∧ get icfg kDriver = none :=
  ⟨_, _, rfl, rfl, rfl⟩

example : prepare demoEnv "S+H+S".toList ['P'] = .error .notViable := rfl

/-! ### The adapters that exist -/

/-- The pairs (inner, outer) for which `algorithms/<inner>/message.py` defines
`<inner><outer>MessageAdapter`: every driver for each of the three meta-algorithms
(algorithms/SPEA2/message.py:6,27,34, algorithms/NSGAII/message.py:5,9,15, and likewise the other
six files; there is no `algorithms/IMGA/message.py` or `algorithms/HGS/message.py` entry with a
meta-algorithm inside). -/
def adapterTable (inner outer : Name) : Bool :=
  decide (inner ∈ drivers ∧ outer ∈ metaalgorithms)

/-- **C45 (the real table).** With the adapters that exist, every algorithm of the plan finds its
adapter, and no composite name with more than two known parts can be assembled. -/
theorem C45_known_algorithms (env : Env A) (hA : env.adapterExists = adapterTable) :
    (∀ m ∈ metaalgorithms, ∀ d ∈ drivers, env.adapterExists d m = true) ∧
    (∀ problem (a b c : Name) (rest : List Name),
      (∀ x ∈ a :: b :: c :: rest, x ∈ drivers ∨ x ∈ metaalgorithms) →
      ∀ v, prepare env (joinWith '+' (a :: b :: c :: rest)) problem ≠ .ok v) := by
  constructor
  · intro m hm d hd
    rw [hA]
    simp [adapterTable, hm, hd]
  · intro problem a b c rest hx
    have hd : ∀ d ∈ drivers, '+' ∉ d ∧ d ∉ metaalgorithms := by decide +kernel
    have hm : ∀ d ∈ metaalgorithms, '+' ∉ d := by decide +kernel
    have hplus : ∀ d ∈ a :: b :: c :: rest, '+' ∉ d := by
      intro d hdd
      rcases hx d hdd with h | h
      · exact (hd d h).1
      · exact hm d h
    by_cases hb : b ∈ drivers
    · exact (C45_refused env problem (a :: b :: c :: rest) (by simp) hplus [a] rest b c rfl
        (by rw [hA]; simp [adapterTable, (hd b hb).2])).1
    · exact (C45_refused env problem (a :: b :: c :: rest) (by simp) hplus [] (c :: rest) a b rfl
        (by rw [hA]; simp [adapterTable, hb])).1

end Evogil.Factory
