import Verif.Props.Factory
import Verif.Model.RunConfig
import Verif.Spec.RunConfig

/-!
# C110: the shipped configuration can be run

Every listed algorithm is assembled for every problem module with parameters and a front, its class
accepts the assembled arguments, and so do the drivers of the nodes and islands.
-/

set_option linter.unusedSectionVars false

namespace Evogil.Factory

open Spec

/-! ## Calls -/

section
variable {V : Type}

theorem Sig.bind_ok (s : Sig) (kw rest : List (Name × V)) :
    s.bind kw = .ok rest ↔ (∀ k ∈ s.required, k ∈ kw.map Prod.fst) ∧
      rest = kw.filter fun a => decide (a.1 ∉ s.required ++ s.optional) := by
  rw [Sig.bind]
  rcases h : s.required.find? (fun k => decide (k ∉ kw.map Prod.fst)) with _ | k
  · simp only [Except.ok.injEq]
    rw [List.find?_eq_none] at h
    simp only [decide_eq_true_eq, not_not] at h
    exact ⟨fun e => ⟨h, e.symm⟩, fun e => e.2.symm⟩
  · simp only [reduceCtorEq, false_iff, not_and]
    intro hh
    have h1 := List.find?_some h
    have h2 := List.mem_of_find?_eq_some h
    simp only [decide_eq_true_eq] at h1
    exact absurd (hh k h2) h1

theorem driverInit_ok (kw : List (Name × V)) :
    driverInit kw = .ok () ↔ ∀ k ∈ kw.map Prod.fst, k = "message_adapter_factory".toList := by
  rw [driverInit]
  generalize "message_adapter_factory".toList = n
  split
  · rename_i a h
    have h1 := List.find?_some h
    have h2 := List.mem_of_find?_eq_some h
    refine ⟨fun e => (by cases e), fun hh => ?_⟩
    exact absurd (hh a.1 (List.mem_map_of_mem h2)) (of_decide_eq_true h1)
  · rename_i h
    rw [List.find?_eq_none] at h
    refine ⟨fun _ k hk => ?_, fun _ => rfl⟩
    obtain ⟨x, hx, rfl⟩ := List.mem_map.1 hk
    by_contra hne
    exact h x hx (decide_eq_true hne)

theorem ok_bind_iff {α β : Type} (x : Except CallErr α) (f : α → Except CallErr β) (b : β) :
    (x >>= f) = .ok b ↔ ∃ a, x = .ok a ∧ f a = .ok b := by
  cases x with
  | error e => simp [bind, Except.bind]
  | ok a => simp [bind, Except.bind]

theorem keys_filter (kw : List (Name × V)) (l : List Name) (P : Name → Prop) :
    (∀ k ∈ (kw.filter fun a => decide (a.1 ∉ l)).map Prod.fst, P k) ↔
      ∀ k ∈ kw.map Prod.fst, k ∉ l → P k := by
  constructor
  · intro h k hk hl
    obtain ⟨x, hx, rfl⟩ := List.mem_map.1 hk
    exact h x.1 (List.mem_map_of_mem (List.mem_filter.2 ⟨hx, decide_eq_true hl⟩))
  · intro h k hk
    obtain ⟨x, hx, rfl⟩ := List.mem_map.1 hk
    obtain ⟨h1, h2⟩ := List.mem_filter.1 hx
    exact h x.1 (List.mem_map_of_mem h1) (of_decide_eq_true h2)

theorem complexInit_ok (kw : List (Name × V)) :
    complexInit kw = .ok () ↔ "driver_message_adapter_factory".toList ∈ kw.map Prod.fst ∧
      ∀ k ∈ kw.map Prod.fst, k ∉ ["driver_message_adapter_factory".toList] →
        k = "message_adapter_factory".toList := by
  rw [complexInit, ok_bind_iff]
  simp only [Sig.bind_ok]
  constructor
  · rintro ⟨rest, ⟨h1, rfl⟩, h2⟩
    rw [driverInit_ok, keys_filter] at h2
    exact ⟨h1 _ List.mem_cons_self, h2⟩
  · rintro ⟨h1, h2⟩
    refine ⟨_, ⟨fun k hk => ?_, rfl⟩, ?_⟩
    · rw [List.mem_singleton] at hk; rw [hk]; exact h1
    · rw [driverInit_ok, keys_filter]; exact h2

/-- A constructor whose remaining arguments go to `Driver.__init__`. -/
theorem simple_ok (s : Sig) (kw : List (Name × V)) :
    (do let rest ← s.bind kw; driverInit rest) = .ok () ↔
      (∀ k ∈ s.required, k ∈ kw.map Prod.fst) ∧ ∀ k ∈ kw.map Prod.fst,
        k ∈ s.required ++ s.optional ++ ["message_adapter_factory".toList] := by
  rw [ok_bind_iff]
  simp only [Sig.bind_ok]
  have key : (∀ k ∈ kw.map Prod.fst, k ∉ s.required ++ s.optional →
      k = "message_adapter_factory".toList) ↔ ∀ k ∈ kw.map Prod.fst,
        k ∈ s.required ++ s.optional ++ ["message_adapter_factory".toList] := by
    refine forall₂_congr fun k _ => ?_
    rw [List.mem_append (t := ["message_adapter_factory".toList]), List.mem_singleton]
    tauto
  constructor
  · rintro ⟨rest, ⟨h1, rfl⟩, h2⟩
    rw [driverInit_ok, keys_filter, key] at h2
    exact ⟨h1, h2⟩
  · rintro ⟨h1, h2⟩
    exact ⟨_, ⟨h1, rfl⟩, by rw [driverInit_ok, keys_filter, key]; exact h2⟩

/-- A constructor whose remaining arguments go to `ComplexDriver.__init__`. -/
theorem complex_ok (s : Sig) (hs : "driver_message_adapter_factory".toList ∉ s.required ++ s.optional)
    (kw : List (Name × V)) :
    (do let rest ← s.bind kw; complexInit rest) = .ok () ↔
      (∀ k ∈ s.required ++ ["driver_message_adapter_factory".toList], k ∈ kw.map Prod.fst) ∧
      ∀ k ∈ kw.map Prod.fst, k ∈ s.required ++ s.optional ++
        ["driver_message_adapter_factory".toList, "message_adapter_factory".toList] := by
  rw [ok_bind_iff]
  simp only [Sig.bind_ok]
  have hk : ∀ (kw : List (Name × V)) (l : List Name) k, k ∈ (kw.filter fun a => decide (a.1 ∉ l)).map Prod.fst ↔
      k ∈ kw.map Prod.fst ∧ k ∉ l := by
    intro kw l k
    simp only [List.mem_map, List.mem_filter, decide_eq_true_eq]
    constructor
    · rintro ⟨a, ⟨h1, h2⟩, rfl⟩; exact ⟨⟨a, h1, rfl⟩, h2⟩
    · rintro ⟨⟨a, h1, rfl⟩, h2⟩; exact ⟨a, ⟨h1, h2⟩, rfl⟩
  constructor
  · rintro ⟨rest, ⟨h1, rfl⟩, h2⟩
    rw [complexInit_ok, keys_filter, hk] at h2
    refine ⟨fun k hk => ?_, fun k hk => ?_⟩
    · rw [List.mem_append, List.mem_singleton] at hk
      rcases hk with hk | rfl
      · exact h1 k hk
      · exact h2.1.1
    · have := h2.2 k hk
      simp only [List.mem_append, List.mem_cons, List.not_mem_nil, or_false] at this ⊢
      tauto
  · rintro ⟨h1, h2⟩
    refine ⟨_, ⟨fun k hk => h1 k (List.mem_append_left _ hk), rfl⟩, ?_⟩
    rw [complexInit_ok, keys_filter, hk]
    refine ⟨⟨h1 _ (by simp), hs⟩, fun k hk h3 h4 => ?_⟩
    have := h2 k hk
    simp only [List.mem_append, List.mem_cons, List.not_mem_nil, or_false] at this h3 h4
    tauto

/-- The conditions with two descriptions of the same sets of names. -/
theorem accepted_congr {keys r o : List Name} {cls : String}
    (h1 : (∀ k ∈ r, k ∈ (needs cls).map String.toList) ∧ ∀ k ∈ (needs cls).map String.toList, k ∈ r)
    (h2 : (∀ k ∈ o, k ∈ (needs cls ++ takes cls).map String.toList) ∧
      ∀ k ∈ (needs cls ++ takes cls).map String.toList, k ∈ o) :
    ((∀ k ∈ r, k ∈ keys) ∧ ∀ k ∈ keys, k ∈ o) ↔ Accepted cls keys := by
  rw [Accepted]
  constructor
  · rintro ⟨a, b⟩
    exact ⟨fun k hk => a _ (h1.2 _ (List.mem_map_of_mem hk)), fun k hk => h2.1 _ (b k hk)⟩
  · rintro ⟨a, b⟩
    refine ⟨fun k hk => ?_, fun k hk => h2.2 _ (b k hk)⟩
    obtain ⟨s, hs, rfl⟩ := List.mem_map.1 (h1.1 k hk)
    exact a s hs

/-- **C110 (calls).** A call of a class of the configuration is accepted exactly when every argument
without a default is given and nothing else than its arguments is given. -/
theorem C110_call (cls : String)
    (hc : cls ∈ ["SPEA2", "IBEA", "NSGAII", "OMOPSO", "NSGAIII", "JGBL", "SMSEMOA", "NSLS", "IMGA", "HGS",
      "DHGS"]) (kw : List (Name × V)) :
    construct cls.toList kw = .ok () ↔ Accepted cls (kw.map Prod.fst) := by
  have hgs : ∀ kw : List (Name × V), hgsInit kw = .ok () ↔
      (do let rest ← hgsSig.bind kw; complexInit rest) = .ok () := by
    intro kw
    rw [hgsInit, ok_bind_iff, ok_bind_iff]
    refine exists_congr fun rest => and_congr_right fun hr => ?_
    rw [ok_bind_iff]
    have hnone : rest.find? (fun a => decide (a.1 ∈ innerHgsSig.required ++ innerHgsSig.optional)) = none := by
      rw [List.find?_eq_none]
      intro a ha
      rw [((Sig.bind_ok _ _ _).1 hr).2, List.mem_filter] at ha
      simp only [decide_eq_true_eq]
      intro h
      have := ha.2
      simp only [decide_eq_true_eq] at this
      apply this
      rw [List.mem_append] at h ⊢
      rcases h with h | h
      · exact Or.inl h
      · exact Or.inr (List.mem_append_left _ h)
    rw [hnone]
    exact ⟨fun ⟨_, h, _⟩ => h, fun h => ⟨(), h, h⟩⟩
  have jgbl : ∀ (s s' : Sig) (hss : ∀ k ∈ s'.required ++ s'.optional, k ∈ s.required ++ s.optional)
      (kw : List (Name × V)),
      (do let rest ← s.bind kw
          match rest.find? fun a => decide (a.1 ∈ s'.required ++ s'.optional) with
          | some a => .error (.unexpected a.1)
          | none => driverInit rest) = Except.ok () ↔
      (do let rest ← s.bind kw; driverInit rest) = .ok () := by
    intro s s' hss kw
    rw [ok_bind_iff, ok_bind_iff]
    refine exists_congr fun rest => and_congr_right fun hr => ?_
    have hnone : rest.find? (fun a => decide (a.1 ∈ s'.required ++ s'.optional)) = none := by
      rw [List.find?_eq_none]
      intro a ha
      rw [((Sig.bind_ok _ _ _).1 hr).2, List.mem_filter] at ha
      simp only [decide_eq_true_eq]
      intro h
      have := ha.2
      simp only [decide_eq_true_eq] at this
      exact this (hss _ h)
    rw [hnone]
  simp only [List.mem_cons, List.not_mem_nil, or_false] at hc
  rcases hc with rfl | rfl | rfl | rfl | rfl | rfl | rfl | rfl | rfl | rfl | rfl
  · exact (simple_ok _ kw).trans (accepted_congr (by decide +kernel) (by decide +kernel))
  · exact (simple_ok _ kw).trans (accepted_congr (by decide +kernel) (by decide +kernel))
  · exact (simple_ok _ kw).trans (accepted_congr (by decide +kernel) (by decide +kernel))
  · exact (simple_ok _ kw).trans (accepted_congr (by decide +kernel) (by decide +kernel))
  · exact (simple_ok _ kw).trans (accepted_congr (by decide +kernel) (by decide +kernel))
  · exact (jgbl _ _ (by decide +kernel) kw).trans ((simple_ok _ kw).trans
      (accepted_congr (by decide +kernel) (by decide +kernel)))
  · exact (simple_ok _ kw).trans (accepted_congr (by decide +kernel) (by decide +kernel))
  · exact (simple_ok _ kw).trans (accepted_congr (by decide +kernel) (by decide +kernel))
  · exact (complex_ok _ (by decide +kernel) kw).trans
      (accepted_congr (by decide +kernel) (by decide +kernel))
  · exact (hgs kw).trans ((complex_ok _ (by decide +kernel) kw).trans
      (accepted_congr (by decide +kernel) (by decide +kernel)))
  · exact (hgs kw).trans ((complex_ok _ (by decide +kernel) kw).trans
      (accepted_congr (by decide +kernel) (by decide +kernel)))

end

/-! ## The assembled configurations -/

theorem customInit_one {mods : Name → Option Problem} {p : Name} {m : Problem} (h : mods p = some m)
    (key : Name) (cfg : Cfg Atom) :
    customInit (runEnv mods) key p cfg = customInit (runEnv fun _ => some m) key p cfg := by
  simp only [customInit, runEnv]
  cases initOf key with
  | none => rfl
  | some f => simp only [Option.map_some, h]

theorem prepare_one {mods : Name → Option Problem} {p : Name} {m : Problem} (h : mods p = some m)
    (a : Name) : prepare (runEnv mods) a p = prepare (runEnv fun _ => some m) a p := by
  have hstep : ∀ x d l, prepareWithDriver (runEnv mods) x p d l =
      prepareWithDriver (runEnv fun _ => some m) x p d l := by
    intro x d l
    have hc : ∀ cfg, customInits (runEnv mods) x l p cfg = customInits (runEnv fun _ => some m) x l p cfg := by
      intro cfg
      simp only [customInits, customInit_one h]
    have ho : loadObligatory (runEnv mods) p [] = loadObligatory (runEnv fun _ => some m) p [] := by
      simp only [loadObligatory, runEnv, h]
    have hp : ∀ cfg, loadPopulation (runEnv mods) p cfg = loadPopulation (runEnv fun _ => some m) p cfg := by
      intro cfg
      simp only [loadPopulation, runEnv, h]
    have hd : loadDriver (runEnv mods) x d l = loadDriver (runEnv fun _ => some m) x d l := rfl
    have ht : loadTables (runEnv mods) x l p = loadTables (runEnv fun _ => some m) x l p := rfl
    have he : (runEnv mods).problemExists p = (runEnv fun _ => some m).problemExists p := by
      simp only [runEnv, h]
    have hcl : (runEnv mods).classExists = (runEnv fun _ => some m).classExists := rfl
    simp only [prepareWithDriver, hc, ho, hp, hd, ht, he, hcl]
  have hloop : ∀ l, prepareLoop (runEnv mods) p l = prepareLoop (runEnv fun _ => some m) p l := by
    intro l
    induction l with
    | nil => rfl
    | cons x l ih => simp only [prepareLoop, ih, hstep]
  exact hloop _

/-- The problem modules for which the configuration is complete: a name, at least one parameter, a front
with at least one row. -/
def Complete (mods : Name → Option Problem) (p : Name) (m : Problem) (w : ℕ) : Prop :=
  p ≠ [] ∧ mods p = some m ∧ m.dims ≠ [] ∧ m.front = .width w

theorem set_append {V : Type} {c : List (Name × V)} {k : Name} {v : V} (h : k ∉ c.map Prod.fst) :
    set c k v = c ++ [(k, v)] := by
  induction c with
  | nil => rfl
  | cons x c ih =>
    rw [List.map_cons, List.mem_cons, not_or] at h
    rw [set, if_neg (fun e => h.1 e.symm), ih h.2]
    rfl

theorem update_append {V : Type} {c u : List (Name × V)} {kc ku : List Name} (hc : c.map Prod.fst = kc)
    (hu : u.map Prod.fst = ku) (h : (kc ++ ku).Nodup) : update c u = c ++ u := by
  subst hc hu
  induction u generalizing c with
  | nil => simp [update]
  | cons x u ih =>
    have hx : x.1 ∉ c.map Prod.fst := by
      rw [List.map_cons, List.nodup_append] at h
      exact fun hm => h.2.2 _ hm _ List.mem_cons_self rfl
    have := ih (c := c ++ [(x.1, x.2)]) (by simpa using h)
    rw [update, List.foldl_cons, set_append hx]
    exact this.trans (by simp)

/-- What a single driver is called with: the problem, the entries of its own, the standard variation
parameters with mutation rate one over the number of parameters, and the initial population. -/
def driverArgs (p : Name) (m : Problem) (own after : Cfg Atom) : Cfg Atom :=
  [(kDims, .atom (.dims m.dims)), (kFitnesses, .atom (.fitnesses p none))] ++ own ++
  [("mutation_eta".toList, num 20), ("crossover_eta".toList, num 30),
    ("mutation_rate".toList, num (1 / m.dims.length)), ("crossover_rate".toList, num (9/10))] ++ after ++
  [(kPopulation, .atom (.population (m.initial 64)))]

/-- The entries that only the driver itself has. -/
def ownArgs : String → Cfg Atom
  | "IBEA" => [("kappa".toList, num (5/100)), ("mating_population_size".toList, num (1/2))]
  | "NSGAII" => [("mating_population_size".toList, num (1/2))]
  | "JGBL" => [("mating_population_size".toList, num (1/2)), ("jumping_rate".toList, num (6/10)),
      ("jumping_percentage".toList, num (1/2))]
  | "NSLS" => [("local_search_mu".toList, num (1/2)), ("local_search_sigma".toList, num (1/2))]
  | _ => []

/-- The reference point of SMS-EMOA. -/
def refArgs (w : ℕ) : String → Cfg Atom
  | "SMSEMOA" => [("reference_point".toList, nums (List.replicate w 50))]
  | _ => []

section
variable (c : Char) (cs : Name) (d : ℚ × ℚ) (ds : List (ℚ × ℚ)) (w : ℕ) (ini : ℕ → List (List ℚ))

set_option maxRecDepth 8000 in
theorem prep_SPEA2 :
    prepareWithDriver (runEnv fun _ => some ⟨d :: ds, .width w, ini⟩) "SPEA2".toList (c :: cs) none [] =
      .ok (.part "SPEA2".toList (driverArgs (c :: cs) ⟨d :: ds, .width w, ini⟩ (ownArgs "SPEA2")
        (refArgs w "SPEA2"))) := rfl

set_option maxRecDepth 8000 in
theorem prep_OMOPSO :
    prepareWithDriver (runEnv fun _ => some ⟨d :: ds, .width w, ini⟩) "OMOPSO".toList (c :: cs) none [] =
      .ok (.part "OMOPSO".toList (driverArgs (c :: cs) ⟨d :: ds, .width w, ini⟩ (ownArgs "OMOPSO")
        (refArgs w "OMOPSO"))) := rfl

set_option maxRecDepth 8000 in
theorem prep_NSGAIII :
    prepareWithDriver (runEnv fun _ => some ⟨d :: ds, .width w, ini⟩) "NSGAIII".toList (c :: cs) none [] =
      .ok (.part "NSGAIII".toList (driverArgs (c :: cs) ⟨d :: ds, .width w, ini⟩ (ownArgs "NSGAIII")
        (refArgs w "NSGAIII"))) := rfl

set_option maxRecDepth 8000 in
theorem prep_IBEA :
    prepareWithDriver (runEnv fun _ => some ⟨d :: ds, .width w, ini⟩) "IBEA".toList (c :: cs) none [] =
      .ok (.part "IBEA".toList (driverArgs (c :: cs) ⟨d :: ds, .width w, ini⟩ (ownArgs "IBEA")
        (refArgs w "IBEA"))) := rfl

set_option maxRecDepth 8000 in
theorem prep_NSGAII :
    prepareWithDriver (runEnv fun _ => some ⟨d :: ds, .width w, ini⟩) "NSGAII".toList (c :: cs) none [] =
      .ok (.part "NSGAII".toList (driverArgs (c :: cs) ⟨d :: ds, .width w, ini⟩ (ownArgs "NSGAII")
        (refArgs w "NSGAII"))) := rfl

set_option maxRecDepth 8000 in
theorem prep_JGBL :
    prepareWithDriver (runEnv fun _ => some ⟨d :: ds, .width w, ini⟩) "JGBL".toList (c :: cs) none [] =
      .ok (.part "JGBL".toList (driverArgs (c :: cs) ⟨d :: ds, .width w, ini⟩ (ownArgs "JGBL")
        (refArgs w "JGBL"))) := rfl

set_option maxRecDepth 8000 in
theorem prep_SMSEMOA :
    prepareWithDriver (runEnv fun _ => some ⟨d :: ds, .width w, ini⟩) "SMSEMOA".toList (c :: cs) none [] =
      .ok (.part "SMSEMOA".toList (driverArgs (c :: cs) ⟨d :: ds, .width w, ini⟩ (ownArgs "SMSEMOA")
        (refArgs w "SMSEMOA"))) := rfl

set_option maxRecDepth 8000 in
theorem prep_NSLS :
    prepareWithDriver (runEnv fun _ => some ⟨d :: ds, .width w, ini⟩) "NSLS".toList (c :: cs) none [] =
      .ok (.part "NSLS".toList (driverArgs (c :: cs) ⟨d :: ds, .width w, ini⟩ (ownArgs "NSLS")
        (refArgs w "NSLS"))) := rfl

/-- What HGS is called with. -/
def hgsArgs (p : Name) (m : Problem) (w : ℕ) (type : String) (driver adapter : Val Atom) : Cfg Atom :=
  [(kDims, .atom (.dims m.dims)), (kFitnesses, .atom (.fitnesses p none)), (kDriver, driver),
    (kAdapter, adapter), ("hgs_type".toList, .atom (.text type.toList)),
    ("fitness_errors".toList, nums [0, 0, 0]), ("cost_modifiers".toList, nums [1, 1, 1]),
    ("mutation_etas".toList, nums [10, 12, 15]), ("crossover_etas".toList, nums [15, 20, 25]),
    ("population_sizes".toList, nums [64, 20, 10]),
    ("comparison_multipliers".toList, nums [1, 8/100, 2/100]),
    ("mantissa_bits".toList, nums [4, 16, 64]), ("max_sprouts_no".toList, num 16),
    ("sproutiveness".toList, num 3), ("metaepoch_len".toList, nums [5, 5, 5]),
    ("min_progress_ratio".toList, nums [0, 1/100000, 1/10000]),
    ("reference_point".toList, nums (List.replicate w 50)),
    ("mutation_rates".toList, nums [1 / m.dims.length, 1 / m.dims.length, 1 / m.dims.length]),
    ("crossover_rates".toList, nums [9/10, 9/10, 9/10]),
    (kPopulation, .atom (.population (m.initial 64)))]

/-- What IMGA is called with. -/
def imgaArgs (p : Name) (m : Problem) (driver adapter : Val Atom) : Cfg Atom :=
  [(kDims, .atom (.dims m.dims)), (kFitnesses, .atom (.fitnesses p none)), (kDriver, driver),
    (kAdapter, adapter), ("islands_number".toList, num 3), ("migrants_number".toList, num 5),
    ("epoch_length".toList, num 5), ("mutation_eta".toList, num 20), ("crossover_eta".toList, num 30),
    ("mutation_rate".toList, num (1 / m.dims.length)), ("crossover_rate".toList, num (9/10)),
    (kPopulation, .atom (.population (m.initial 64)))]

variable (v : Val Atom) (inner : Name)

theorem loadDriver_ok (mods : Name → Option Problem) (outer : Name) (h : shippedAdapter inner outer = true)
    (cfg : Cfg Atom) :
    loadDriver (runEnv mods) outer (some v) [inner] cfg =
      .ok (update (update cfg [(kDriver, v)]) [(kAdapter, .adapter inner outer)]) := by
  have : (runEnv mods).adapterExists inner outer = true := h
  simp only [loadDriver, this, if_true]

/-- The configuration of HGS before the initialisers. -/
def hgsTables (p : Name) (m : Problem) (type : String) (driver adapter : Val Atom) : Cfg Atom :=
  [(kDims, .atom (.dims m.dims)), (kFitnesses, .atom (.fitnesses p none)), (kDriver, driver),
    (kAdapter, adapter), ("hgs_type".toList, .atom (.text type.toList)),
    ("fitness_errors".toList, nums [0, 0, 0]), ("cost_modifiers".toList, nums [1, 1, 1]),
    ("mutation_etas".toList, nums [10, 12, 15]), ("crossover_etas".toList, nums [15, 20, 25]),
    ("population_sizes".toList, nums [64, 20, 10]),
    ("comparison_multipliers".toList, nums [1, 8/100, 2/100]),
    ("mantissa_bits".toList, nums [4, 16, 64]), ("max_sprouts_no".toList, num 16),
    ("sproutiveness".toList, num 3), ("metaepoch_len".toList, nums [5, 5, 5]),
    ("min_progress_ratio".toList, nums [0, 1/100000, 1/10000])]

/-- The configuration of HGS after the initialisers. -/
def hgsInits (p : Name) (m : Problem) (w : ℕ) (type : String) (driver adapter : Val Atom) : Cfg Atom :=
  hgsTables p m type driver adapter ++ [("reference_point".toList, nums (List.replicate w 50)),
    ("mutation_rates".toList, nums [1 / m.dims.length, 1 / m.dims.length, 1 / m.dims.length]),
    ("crossover_rates".toList, nums [9/10, 9/10, 9/10])]

set_option maxRecDepth 8000 in
theorem tables_HGS (a : Val Atom) :
    loadTables (runEnv fun _ => some ⟨d :: ds, .width w, ini⟩) "HGS".toList [inner] (c :: cs)
      (update (update (loadObligatory (runEnv fun _ => some ⟨d :: ds, .width w, ini⟩) (c :: cs) [])
        [(kDriver, v)]) [(kAdapter, a)]) =
      hgsTables (c :: cs) ⟨d :: ds, .width w, ini⟩ "classic" v a := by
  have h1 : (runEnv fun _ => some ⟨d :: ds, .width w, ini⟩).algoBase "HGS".toList =
    some (("hgs_type".toList, .atom (.text "classic".toList)) :: hgsBase) := rfl
  have h2 : update (update (loadObligatory (runEnv fun _ => some ⟨d :: ds, .width w, ini⟩) (c :: cs) [])
        [(kDriver, v)]) [(kAdapter, a)] =
      [(kDims, .atom (.dims (d :: ds))), (kFitnesses, .atom (.fitnesses (c :: cs) none)), (kDriver, v),
        (kAdapter, a)] := rfl
  rw [h2]
  show updateOpt _ ((runEnv fun _ => some ⟨d :: ds, .width w, ini⟩).algoBase "HGS".toList) = _
  rw [h1, updateOpt, update_append (kc := [kDims, kFitnesses, kDriver, kAdapter]) rfl
    (ku := (("hgs_type".toList, Val.atom (.text "classic".toList)) :: hgsBase).map Prod.fst) rfl
    (by decide +kernel)]
  rfl

set_option maxRecDepth 8000 in
theorem init_HGS (a : Val Atom) :
    customInit (runEnv fun _ => some ⟨d :: ds, .width w, ini⟩) (initKey "HGS".toList none none) (c :: cs)
      (hgsTables (c :: cs) ⟨d :: ds, .width w, ini⟩ "classic" v a) =
      .ok (hgsInits (c :: cs) ⟨d :: ds, .width w, ini⟩ w "classic" v a) := rfl

set_option maxRecDepth 8000 in
theorem tables_DHGS (a : Val Atom) :
    loadTables (runEnv fun _ => some ⟨d :: ds, .width w, ini⟩) "DHGS".toList [inner] (c :: cs)
      (update (update (loadObligatory (runEnv fun _ => some ⟨d :: ds, .width w, ini⟩) (c :: cs) [])
        [(kDriver, v)]) [(kAdapter, a)]) =
      hgsTables (c :: cs) ⟨d :: ds, .width w, ini⟩ "distributed" v a := by
  have h1 : (runEnv fun _ => some ⟨d :: ds, .width w, ini⟩).algoBase "DHGS".toList =
    some (("hgs_type".toList, .atom (.text "distributed".toList)) :: hgsBase) := rfl
  have h2 : update (update (loadObligatory (runEnv fun _ => some ⟨d :: ds, .width w, ini⟩) (c :: cs) [])
        [(kDriver, v)]) [(kAdapter, a)] =
      [(kDims, .atom (.dims (d :: ds))), (kFitnesses, .atom (.fitnesses (c :: cs) none)), (kDriver, v),
        (kAdapter, a)] := rfl
  rw [h2]
  show updateOpt _ ((runEnv fun _ => some ⟨d :: ds, .width w, ini⟩).algoBase "DHGS".toList) = _
  rw [h1, updateOpt, update_append (kc := [kDims, kFitnesses, kDriver, kAdapter]) rfl
    (ku := (("hgs_type".toList, Val.atom (.text "distributed".toList)) :: hgsBase).map Prod.fst) rfl
    (by decide +kernel)]
  rfl

set_option maxRecDepth 8000 in
theorem init_DHGS (a : Val Atom) :
    customInit (runEnv fun _ => some ⟨d :: ds, .width w, ini⟩) (initKey "DHGS".toList none none) (c :: cs)
      (hgsTables (c :: cs) ⟨d :: ds, .width w, ini⟩ "distributed" v a) =
      .ok (hgsInits (c :: cs) ⟨d :: ds, .width w, ini⟩ w "distributed" v a) := rfl

theorem customInits_first {env : Env Atom} {x p : Name} {l : List Name} {cfg cfg' : Cfg Atom}
    (h1 : customInit env (initKey x none none) p cfg = .ok cfg')
    (h2 : env.init (initKey x (some l) none) = none) (h3 : env.init (initKey x none (some p)) = none)
    (h4 : env.init (initKey x (some l) (some p)) = none) : customInits env x l p cfg = .ok cfg' := by
  have g : ∀ key, env.init key = none → ∀ c, customInit env key p c = .ok c := by
    intro key hk c
    rw [customInit, hk]
  simp only [customInits, h1, bind, Except.bind, g _ h2, g _ h3, g _ h4]

set_option maxRecDepth 8000 in
theorem prep_HGS (h : shippedAdapter inner "HGS".toList = true) :
    prepareWithDriver (runEnv fun _ => some ⟨d :: ds, .width w, ini⟩) "HGS".toList (c :: cs) (some v)
      [inner] = .ok (.part "HGS".toList (hgsArgs (c :: cs) ⟨d :: ds, .width w, ini⟩ w "classic" v
        (.adapter inner "HGS".toList))) := by
  have hd := loadDriver_ok v inner (fun _ => some ⟨d :: ds, .width w, ini⟩) "HGS".toList h
  have hc := customInits_first (init_HGS c cs d ds w ini v (.adapter inner "HGS".toList)) (l := [inner])
    rfl rfl rfl
  have h1 : (runEnv fun _ => some ⟨d :: ds, .width w, ini⟩).classExists "HGS".toList = true := rfl
  have h2 : (runEnv fun _ => some ⟨d :: ds, .width w, ini⟩).problemExists (c :: cs) = true := rfl
  simp only [prepareWithDriver, hd, h1, h2, Bool.true_eq_false, if_false, bind, Except.bind,
    tables_HGS, hc]
  rfl

set_option maxRecDepth 8000 in
theorem prep_DHGS (h : shippedAdapter inner "DHGS".toList = true) :
    prepareWithDriver (runEnv fun _ => some ⟨d :: ds, .width w, ini⟩) "DHGS".toList (c :: cs) (some v)
      [inner] = .ok (.part "DHGS".toList (hgsArgs (c :: cs) ⟨d :: ds, .width w, ini⟩ w "distributed" v
        (.adapter inner "DHGS".toList))) := by
  have hd := loadDriver_ok v inner (fun _ => some ⟨d :: ds, .width w, ini⟩) "DHGS".toList h
  have hc := customInits_first (init_DHGS c cs d ds w ini v (.adapter inner "DHGS".toList)) (l := [inner])
    rfl rfl rfl
  have h1 : (runEnv fun _ => some ⟨d :: ds, .width w, ini⟩).classExists "DHGS".toList = true := rfl
  have h2 : (runEnv fun _ => some ⟨d :: ds, .width w, ini⟩).problemExists (c :: cs) = true := rfl
  simp only [prepareWithDriver, hd, h1, h2, Bool.true_eq_false, if_false, bind, Except.bind,
    tables_DHGS, hc]
  rfl

set_option maxRecDepth 8000 in
theorem prep_IMGA (h : shippedAdapter inner "IMGA".toList = true) :
    prepareWithDriver (runEnv fun _ => some ⟨d :: ds, .width w, ini⟩) "IMGA".toList (c :: cs) (some v)
      [inner] = .ok (.part "IMGA".toList (imgaArgs (c :: cs) ⟨d :: ds, .width w, ini⟩ v
        (.adapter inner "IMGA".toList))) := by
  have hd := loadDriver_ok v inner (fun _ => some ⟨d :: ds, .width w, ini⟩) "IMGA".toList h
  rw [prepareWithDriver, hd]
  rfl

end

/-! ## C110 -/

/-- The drivers by name. -/
theorem mem_drivers {d : Name} (h : d ∈ drivers) : ∃ n ∈ ["SPEA2", "IBEA", "NSGAII", "OMOPSO", "NSGAIII",
    "JGBL", "SMSEMOA", "NSLS"], String.toList n = d := List.mem_map.1 h

theorem prep_driver (c : Char) (cs : Name) (d : ℚ × ℚ) (ds : List (ℚ × ℚ)) (w : ℕ)
    (ini : ℕ → List (List ℚ)) (n : String)
    (hn : n ∈ ["SPEA2", "IBEA", "NSGAII", "OMOPSO", "NSGAIII", "JGBL", "SMSEMOA", "NSLS"]) :
    prepareWithDriver (runEnv fun _ => some ⟨d :: ds, .width w, ini⟩) n.toList (c :: cs) none [] =
      .ok (.part n.toList (driverArgs (c :: cs) ⟨d :: ds, .width w, ini⟩ (ownArgs n) (refArgs w n))) := by
  simp only [List.mem_cons, List.not_mem_nil, or_false] at hn
  rcases hn with rfl | rfl | rfl | rfl | rfl | rfl | rfl | rfl
  · exact prep_SPEA2 c cs d ds w ini
  · exact prep_IBEA c cs d ds w ini
  · exact prep_NSGAII c cs d ds w ini
  · exact prep_OMOPSO c cs d ds w ini
  · exact prep_NSGAIII c cs d ds w ini
  · exact prep_JGBL c cs d ds w ini
  · exact prep_SMSEMOA c cs d ds w ini
  · exact prep_NSLS c cs d ds w ini

theorem mem_keys_set {V : Type} (c : List (Name × V)) (k : Name) (v : V) (x : Name) :
    x ∈ (set c k v).map Prod.fst ↔ x ∈ c.map Prod.fst ∨ x = k := by
  induction c with
  | nil => simp [set]
  | cons y c ih =>
    rw [set]
    split
    · rename_i h
      subst h
      simp only [List.map_cons, List.mem_cons]
      tauto
    · simp only [List.map_cons, List.mem_cons, ih]
      tauto

theorem mem_keys_update {V : Type} (c u : List (Name × V)) (x : Name) :
    x ∈ (update c u).map Prod.fst ↔ x ∈ c.map Prod.fst ++ u.map Prod.fst := by
  induction u generalizing c with
  | nil => simp [update]
  | cons y u ih =>
    have := ih (set c y.1 y.2)
    rw [update, List.foldl_cons]
    refine this.trans ?_
    simp only [List.mem_append, mem_keys_set, List.map_cons, List.mem_cons]
    tauto

theorem construct_update {V : Type} {n : String}
    (hn : n ∈ ["SPEA2", "IBEA", "NSGAII", "OMOPSO", "NSGAIII", "JGBL", "SMSEMOA", "NSLS", "IMGA", "HGS",
      "DHGS"]) {c u : List (Name × V)} {kc ku : List Name} (hc : c.map Prod.fst = kc)
    (hu : u.map Prod.fst = ku)
    (h : (∀ k ∈ needs n, k.toList ∈ kc ++ ku) ∧
      ∀ k ∈ kc ++ ku, k ∈ (needs n ++ takes n).map String.toList) :
    construct n.toList (update c u) = .ok () := by
  rw [C110_call n hn]
  subst hc hu
  exact ⟨fun k hk => (mem_keys_update _ _ _).2 (h.1 k hk),
    fun k hk => h.2 k ((mem_keys_update _ _ _).1 hk)⟩

/-- The keys of the configuration of a single driver. -/
def driverKeys (n : String) : List Name :=
  [kDims, kFitnesses] ++ (ownArgs n).map Prod.fst ++ ["mutation_eta".toList, "crossover_eta".toList,
    "mutation_rate".toList, "crossover_rate".toList] ++
    (if n = "SMSEMOA" then ["reference_point".toList] else []) ++ [kPopulation]

theorem keys_driverArgs (p : Name) (m : Problem) (w : ℕ) (n : String) :
    (driverArgs p m (ownArgs n) (refArgs w n)).map Prod.fst = driverKeys n := by
  have : (refArgs w n).map Prod.fst = if n = "SMSEMOA" then ["reference_point".toList] else [] := by
    by_cases h : n = "SMSEMOA"
    · subst h; rfl
    · rw [if_neg h, refArgs]
      · rfl
      · exact h
  simp only [driverArgs, driverKeys, List.map_append, this]
  rfl

theorem driver_accepts {n : String}
    (hn : n ∈ ["SPEA2", "IBEA", "NSGAII", "OMOPSO", "NSGAIII", "JGBL", "SMSEMOA", "NSLS"])
    (p : Name) (m : Problem) (w : ℕ) (u : Cfg Atom) {ku : List Name} (hu : u.map Prod.fst = ku)
    (hku : ku ∈ [[], nodeKeys.map String.toList, distributedKeys.map String.toList,
      islandKeys.map String.toList]) :
    construct n.toList (update (driverArgs p m (ownArgs n) (refArgs w n)) u) = .ok () := by
  have hall : ∀ n ∈ ["SPEA2", "IBEA", "NSGAII", "OMOPSO", "NSGAIII", "JGBL", "SMSEMOA", "NSLS"],
      ∀ ku ∈ [[], nodeKeys.map String.toList, distributedKeys.map String.toList,
      islandKeys.map String.toList],
      (∀ k ∈ needs n, k.toList ∈ driverKeys n ++ ku) ∧
      ∀ k ∈ driverKeys n ++ ku, k ∈ (needs n ++ takes n).map String.toList := by decide +kernel
  refine construct_update ?_ (keys_driverArgs p m w n) hu (hall n hn ku hku)
  simp only [List.mem_cons, List.not_mem_nil, or_false] at hn ⊢
  tauto

/-- The names of the drivers. -/
def driverNames : List String :=
  ["SPEA2", "IBEA", "NSGAII", "OMOPSO", "NSGAIII", "JGBL", "SMSEMOA", "NSLS"]

/-- **C110 (single drivers).** Every listed driver is assembled for every complete problem module with
exactly these arguments, and its class accepts them. -/
theorem C110_drivers {mods : Name → Option Problem} {p : Name} {m : Problem} {w : ℕ}
    (h : Complete mods p m w) (n : String) (hn : n ∈ driverNames) :
    prepare (runEnv mods) n.toList p =
      .ok (some (.part n.toList (driverArgs p m (ownArgs n) (refArgs w n)))) ∧
    callPart (.part n.toList (driverArgs p m (ownArgs n) (refArgs w n))) [] =
      .ok (driverArgs p m (ownArgs n) (refArgs w n)) := by
  obtain ⟨hp, hm, hdims, hf⟩ := h
  rw [prepare_one hm]
  obtain ⟨dims, front, ini⟩ := m
  cases dims with
  | nil => exact absurd rfl hdims
  | cons x xs =>
  cases p with
  | nil => exact absurd rfl hp
  | cons c cs =>
  simp only at hf
  subst hf
  have hs : ∀ n ∈ driverNames, pySplit '+' n.toList = [n.toList] := by decide +kernel
  constructor
  · simp only [prepare, hs n hn, prepareLoop, bind, Except.bind, pure, Except.pure,
      prep_driver c cs x xs w ini n hn]
  · simp only [callPart, driver_accepts hn (c :: cs) ⟨x :: xs, .width w, ini⟩ w [] rfl List.mem_cons_self,
      bind, Except.bind]
    rfl

theorem prepare_pair {mods : Name → Option Problem} {p : Name} {m : Problem} {w : ℕ}
    (h : Complete mods p m w) (n : String) (hn : n ∈ driverNames) (o : String)
    (ho : o ∈ ["IMGA", "HGS", "DHGS"]) :
    prepare (runEnv mods) (o ++ "+" ++ n).toList p =
      .ok (some (.part o.toList (if o = "IMGA" then
        imgaArgs p m (.part n.toList (driverArgs p m (ownArgs n) (refArgs w n))) (.adapter n.toList o.toList)
      else hgsArgs p m w (if o = "HGS" then "classic" else "distributed")
        (.part n.toList (driverArgs p m (ownArgs n) (refArgs w n))) (.adapter n.toList o.toList)))) := by
  obtain ⟨hp, hm, hdims, hf⟩ := h
  rw [prepare_one hm]
  obtain ⟨dims, front, ini⟩ := m
  cases dims with
  | nil => exact absurd rfl hdims
  | cons x xs =>
  cases p with
  | nil => exact absurd rfl hp
  | cons c cs =>
  simp only at hf
  subst hf
  have hs : ∀ o ∈ ["IMGA", "HGS", "DHGS"], ∀ n ∈ driverNames,
      pySplit '+' (o ++ "+" ++ n).toList = [o.toList, n.toList] ∧
      shippedAdapter n.toList o.toList = true := by decide +kernel
  obtain ⟨h1, h2⟩ := hs o ho n hn
  simp only [prepare, h1, prepareLoop, bind, Except.bind, pure, Except.pure,
      prep_driver c cs x xs w ini n hn]
  simp only [List.mem_cons, List.not_mem_nil, or_false] at ho
  rcases ho with rfl | rfl | rfl
  · rw [prep_IMGA c cs x xs w ini _ _ h2]; rfl
  · rw [prep_HGS c cs x xs w ini _ _ h2]; rfl
  · rw [prep_DHGS c cs x xs w ini _ _ h2]; rfl

set_option maxRecDepth 4000 in
/-- The parameters that all drivers share. -/
theorem get_driverArgs {n : String} (hn : n ∈ driverNames) (p : Name) (m : Problem) (w : ℕ) :
    let args := driverArgs p m (ownArgs n) (refArgs w n)
    get args kDims = some (.atom (.dims m.dims)) ∧
    get args kFitnesses = some (.atom (.fitnesses p none)) ∧
    get args "mutation_rate".toList = some (num (1 / m.dims.length)) ∧
    get args "mutation_eta".toList = some (num 20) ∧
    get args "crossover_rate".toList = some (num (9/10)) ∧
    get args "crossover_eta".toList = some (num 30) ∧
    get args kPopulation = some (.atom (.population (m.initial 64))) := by
  simp only [driverNames, List.mem_cons, List.not_mem_nil, or_false] at hn
  rcases hn with rfl | rfl | rfl | rfl | rfl | rfl | rfl | rfl <;>
    exact ⟨rfl, rfl, rfl, rfl, rfl, rfl, rfl⟩

theorem get_mem {V : Type} {u : List (Name × V)} {k : Name} {v : V} (h : get u k = some v) :
    (k, v) ∈ u := by
  induction u with
  | nil => cases h
  | cons x u ih =>
    obtain ⟨a, b⟩ := x
    rw [get] at h
    split at h
    · rename_i e
      subst e
      cases h
      exact List.mem_cons_self
    · exact List.mem_cons_of_mem _ (ih h)

/-- Updating with values that are there already changes nothing. -/
theorem get_update_same {V : Type} {c u : List (Name × V)} (hd : IsDict u) (k : Name)
    (h : ∀ v, (k, v) ∈ u → get c k = some v) : get (update c u) k = get c k := by
  rw [get_update hd]
  rcases hg : get u k with _ | v
  · rfl
  · rw [h v (get_mem hg)]; rfl

/-- **C110 (IMGA).** IMGA with every listed driver is assembled and accepted, and so is the driver of an
island with whatever population it gets: the variation parameters are those of IMGA, all other parameters
those the driver has on its own. -/
theorem C110_islands {mods : Name → Option Problem} {p : Name} {m : Problem} {w : ℕ}
    (h : Complete mods p m w) (n : String) (hn : n ∈ driverNames) :
    ∃ args : Cfg Atom,
      prepare (runEnv mods) ("IMGA+" ++ n).toList p = .ok (some (.part "IMGA".toList args)) ∧
      callPart (.part "IMGA".toList args) [] = .ok args ∧
      get args "islands_number".toList = some (num 3) ∧ get args "migrants_number".toList = some (num 5) ∧
      get args "epoch_length".toList = some (num 5) ∧
      get args kPopulation = some (.atom (.population (m.initial 64))) ∧
      ∀ pop, ∃ dargs, islandDriver args pop = .ok dargs ∧
        get dargs kPopulation = some pop ∧
        get dargs "message_adapter_factory".toList = some (.adapter n.toList "IMGA".toList) ∧
        ∀ k, k ≠ kPopulation → k ≠ "message_adapter_factory".toList →
          get dargs k = get (driverArgs p m (ownArgs n) (refArgs w n)) k := by
  refine ⟨imgaArgs p m (.part n.toList (driverArgs p m (ownArgs n) (refArgs w n)))
    (.adapter n.toList "IMGA".toList), ?_, ?_, rfl, rfl, rfl, rfl, ?_⟩
  · have := prepare_pair h n hn "IMGA" (by decide +kernel)
    exact this
  · have : construct "IMGA".toList (update (imgaArgs p m (.part n.toList
        (driverArgs p m (ownArgs n) (refArgs w n))) (.adapter n.toList "IMGA".toList)) []) = .ok () :=
      construct_update (by decide +kernel) (kc := [kDims, kFitnesses, kDriver, kAdapter,
        "islands_number".toList, "migrants_number".toList, "epoch_length".toList, "mutation_eta".toList,
        "crossover_eta".toList, "mutation_rate".toList, "crossover_rate".toList, kPopulation]) rfl
        (ku := []) rfl (by decide +kernel)
    simp only [callPart, this, bind, Except.bind]
    rfl
  · intro pop
    have hacc := driver_accepts hn p m w
      [(kPopulation, pop), (kDims, .atom (.dims m.dims)), (kFitnesses, .atom (.fitnesses p none)),
        ("mutation_rate".toList, num (1 / m.dims.length)), ("mutation_eta".toList, num 20),
        ("crossover_rate".toList, num (9/10)), ("crossover_eta".toList, num 30),
        ("message_adapter_factory".toList, .adapter n.toList "IMGA".toList)]
      (ku := islandKeys.map String.toList) rfl (by decide +kernel)
    have hdict : IsDict
      [(kPopulation, pop), (kDims, .atom (.dims m.dims)), (kFitnesses, .atom (.fitnesses p none)),
        ("mutation_rate".toList, num (1 / m.dims.length)), ("mutation_eta".toList, num 20),
        ("crossover_rate".toList, num (9/10)), ("crossover_eta".toList, num 30),
        ("message_adapter_factory".toList, .adapter n.toList "IMGA".toList)] := by
      show (islandKeys.map String.toList).Nodup
      decide +kernel
    refine ⟨update (driverArgs p m (ownArgs n) (refArgs w n))
      [(kPopulation, pop), (kDims, .atom (.dims m.dims)), (kFitnesses, .atom (.fitnesses p none)),
        ("mutation_rate".toList, num (1 / m.dims.length)), ("mutation_eta".toList, num 20),
        ("crossover_rate".toList, num (9/10)), ("crossover_eta".toList, num 30),
        ("message_adapter_factory".toList, .adapter n.toList "IMGA".toList)], ?_, ?_, ?_, ?_⟩
    · show callPart (.part n.toList (driverArgs p m (ownArgs n) (refArgs w n))) _ = _
      simp only [callPart, bind, Except.bind]
      rw [hacc]
      rfl
    · rw [get_update hdict]; rfl
    · rw [get_update hdict]; rfl
    · intro k h1 h2
      obtain ⟨g1, g2, g3, g4, g5, g6, -⟩ := get_driverArgs hn p m w
      refine get_update_same hdict k fun v hv => ?_
      rw [List.mem_cons, List.mem_cons, List.mem_cons, List.mem_cons, List.mem_cons, List.mem_cons,
        List.mem_cons, List.mem_cons] at hv
      rcases hv with e | e | e | e | e | e | e | e | e
      · exact absurd (congrArg Prod.fst e) h1
      · cases e; exact g1
      · cases e; exact g2
      · cases e; exact g3
      · cases e; exact g4
      · cases e; exact g5
      · cases e; exact g6
      · exact absurd (congrArg Prod.fst e) h2
      · cases e

end Evogil.Factory
