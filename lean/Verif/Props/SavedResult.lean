import Verif.Model.SavedResult
import Verif.Props.ImgaRun

/-! # C104: the saved decision vectors and the saved objective values belong together -/

set_option linter.unusedSectionVars false

namespace Evogil

section
variable {σ V F : Type*}

theorem budgetRun_wrap (wrap : List V → Iterable V) (D : DriverSig σ (Option (List V))) (b : ℤ) :
    ∀ (fuel : ℕ) (o : DriverObj σ),
    budgetRun (wrapResult wrap D) b fuel o = budgetRun D b fuel o := by
  intro fuel
  induction fuel with
  | zero => intro o; rw [budgetRun, budgetRun]; rfl
  | succ n ih =>
    intro o
    rw [budgetRun, budgetRun]
    have e : nextStep (wrapResult wrap D) o = nextStep D o := rfl
    simp only [e, ih]
    rfl

theorem budgetWorker_wrap (wrap : List V → Iterable V) (D : DriverSig σ (Option (List V))) (fuel : ℕ) :
    ∀ (budgets : List ℤ) (o : DriverObj σ),
    budgetWorker (wrapResult wrap D) fuel budgets o = (budgetWorker D fuel budgets o).map fun r =>
      (r.1.map fun x => ⟨x.name, x.cost, x.pop.map wrap⟩, r.2) := by
  intro budgets
  induction budgets with
  | nil => intro o; rfl
  | cons b bs ih =>
    intro o
    rw [budgetWorker, budgetWorker, budgetRun_wrap]
    cases budgetRun D b fuel o with
    | none => rfl
    | some r =>
      have e := ih ⟨(D.finalize r.2.st).1, r.2.stepNo⟩
      simp only [wrapResult, Option.map_map] at e ⊢
      rw [e, Option.map_map]
      rfl

/-- If a budget simulation ends with a result for every budget, all of them are saved: in the order
of the budgets, with the cost and the objective values of the result, and with the object returned by
the driver as the loop over it has left it. -/
theorem savedFiles_spec (fit : V → F) (wrap : List V → Iterable V)
    (D : DriverSig σ (Option (List V))) (fuel : ℕ) (budgets : List ℤ) (o o' : DriverObj σ)
    (res : List (Stored (Option (List V))))
    (h : budgetWorker D fuel budgets o = some (res, o')) (hres : ∀ r ∈ res, ∃ p, r.pop = some p) :
    ∃ files, savedFiles fit (wrapResult wrap D) fuel budgets o = some files ∧
      List.Forall₂ (fun r f => f.name = r.name ∧ f.cost = r.cost ∧ ∃ p, r.pop = some p ∧
        f.population = (wrap p).afterLoop ∧ f.fitnesses = (wrap p).elements.map fit) res files := by
  unfold savedFiles
  rw [budgetWorker_wrap, h]
  simp only [Option.map_some, Option.bind_some]
  clear h
  induction res with
  | nil => exact ⟨[], rfl, .nil⟩
  | cons r res ih =>
    obtain ⟨files, h1, h2⟩ := ih fun r hr => hres r (List.mem_cons_of_mem _ hr)
    obtain ⟨p, hp⟩ := hres r List.mem_cons_self
    refine ⟨processResults fit ⟨r.name, r.cost, wrap p⟩ :: files, ?_, ?_⟩
    · rw [List.map_cons, List.mapM_cons, h1]
      simp [hp]
    · exact .cons ⟨rfl, rfl, p, hp, rfl, rfl⟩ h2

/-- What a saved file should be: the objective values are those of the decision vectors, one by one,
and the number of decision vectors can be asked for. -/
def Saved.Consistent (fit : V → F) (f : Saved V F) : Prop :=
  f.fitnesses = f.population.elements.map fit ∧ f.population.len = some f.fitnesses.length

/-- **C104, the part that holds.** For drivers which return lists, all files saved are consistent and
hold the result of the driver. -/
theorem C104_lists_partial (fit : V → F) (D : DriverSig σ (Option (List V))) (fuel : ℕ)
    (budgets : List ℤ) (o o' : DriverObj σ) (res : List (Stored (Option (List V))))
    (h : budgetWorker D fuel budgets o = some (res, o')) (hres : ∀ r ∈ res, ∃ p, r.pop = some p) :
    ∃ files, savedFiles fit (wrapResult .list D) fuel budgets o = some files ∧
      files.length = res.length ∧ (∀ f ∈ files, f.Consistent fit) ∧
      List.Forall₂ (fun r f => f.name = r.name ∧ f.cost = r.cost ∧ ∃ p, r.pop = some p ∧
        f.population = .list p) res files := by
  obtain ⟨files, h1, h2⟩ := savedFiles_spec fit .list D fuel budgets o o' res h hres
  refine ⟨files, h1, h2.length_eq.symm, ?_, h2.imp ?_⟩
  · intro f hf
    obtain ⟨i, hi, rfl⟩ := List.getElem_of_mem hf
    obtain ⟨-, -, p, -, e1, e2⟩ := h2.get (i := i) (by rw [h2.length_eq]; exact hi) hi
    simp only [List.get_eq_getElem] at e1 e2
    refine ⟨?_, ?_⟩
    · rw [e1, e2]; rfl
    · rw [e1, e2]; simp [Iterable.afterLoop, Iterable.len, Iterable.elements]
  · rintro r f ⟨a, b, p, c, d, -⟩
    exact ⟨a, b, p, c, d⟩

/-- **C104, what happens with an iterator.** No file holds any decision vector, although the objective
values of all of them are there, and their number cannot be asked for. -/
theorem C104_iterator (fit : V → F) (D : DriverSig σ (Option (List V))) (fuel : ℕ)
    (budgets : List ℤ) (o o' : DriverObj σ) (res : List (Stored (Option (List V))))
    (h : budgetWorker D fuel budgets o = some (res, o')) (hres : ∀ r ∈ res, ∃ p, r.pop = some p) :
    ∃ files, savedFiles fit (wrapResult .iterator D) fuel budgets o = some files ∧
      files.length = res.length ∧
      (∀ f ∈ files, f.population.elements = [] ∧ f.population.len = none) ∧
      List.Forall₂ (fun r f => ∃ p, r.pop = some p ∧ f.fitnesses = p.map fit) res files := by
  obtain ⟨files, h1, h2⟩ := savedFiles_spec fit .iterator D fuel budgets o o' res h hres
  refine ⟨files, h1, h2.length_eq.symm, ?_, h2.imp ?_⟩
  · intro f hf
    obtain ⟨i, hi, rfl⟩ := List.getElem_of_mem hf
    obtain ⟨-, -, p, -, e1, -⟩ := h2.get (i := i) (by rw [h2.length_eq]; exact hi) hi
    simp only [List.get_eq_getElem] at e1
    rw [e1]
    exact ⟨rfl, rfl⟩
  · rintro r f ⟨-, -, p, c, -, d⟩
    exact ⟨p, c, d⟩

end

/-! ## The island model -/

open Imga Generations Evaluation

section
variable {K : Type*} [Field K] [LinearOrder K] [IsStrictOrderedRing K] [FloorSemiring K]
  {A : Type*} [DecidableEq A] {S : Setup K} {key : List K → A} {fit : List K → List K} {m : ℕ} {c : K}
  {n N : ℕ}

/-- **C104 is violated by IMGA**, whenever a simulation such as those of C103 is run: each file saved
has the objective values of `N` vectors and none of the vectors. -/
theorem C104_imga (hS : S.Valid) (hfit : ∀ v, (fit v).length = m) (hn : 0 < n)
    (hM : 1 ≤ ⌊c * (islandSize N n 0 : K)⌋₊)
    (iter : ℕ → ℕ → ℕ → List (Ind (List K) (List K)) → List (Ind (List K) (List K)))
    (hiter : ∀ i k j l, (iter i k j l).Perm l) (dm : ℕ → ℕ → ℕ → ℕ → MateDraw)
    (hdm : ∀ i k j t, (dm i k j t).Valid (islandSize N n i)) (dv : ℕ → ℕ → ℕ → ℕ → VarDraw K)
    (hdv : ∀ i k j t, (dv i k j t).Valid) (population : List (List K)) (hN : population.length = N)
    (hbox : ∀ v ∈ population, InBox v S.dims) {w : ℕ} (hw : 0 < w) {mig : ℕ}
    (hmig : mig * 4 ≤ N / n) {len : ℕ} (hlen : 0 < len)
    (pick : ℕ → ℕ → ℕ → ℕ → List (List (List K)) → Option (List K))
    (hpick : ∀ k a b j, PickOk (pick k a b j)) (budgets : List ℤ) (hpos : ∀ b ∈ budgets, 0 < b)
    (fuel : ℕ) (hfuel : ∀ b ∈ budgets, b ≤ fuel) :
    ∃ top s files, torus w n = some top ∧
      start (fun p => some (nsgaiiInit S key fit none c p)) n population = some s ∧
      savedFiles fit (wrapResult .iterator
        (driver (nsgaiiOps S key fit m iter dm dv) fit top mig len pick)) fuel budgets ⟨some (0, s), 0⟩
        = some files ∧ files.length = budgets.length ∧
      ∀ f ∈ files, f.population.elements = [] ∧ f.fitnesses.length = N ∧ ¬ f.Consistent fit := by
  obtain ⟨top, s, h1, h2, res, o', h3, h4, h5⟩ := C103_nsgaii (key := key) hS hfit hn hM iter hiter dm
    hdm dv hdv population hN hbox hw hmig hlen pick hpick budgets hpos fuel hfuel
  obtain ⟨files, h6, h7, h8, h9⟩ := C104_iterator fit _ fuel budgets _ o' res h3 (fun r hr => by
    obtain ⟨-, p, hp, -⟩ := h5 r hr
    exact ⟨p, hp⟩)
  refine ⟨top, s, files, h1, h2, h6, by rw [h7, ← h4, List.length_map], ?_⟩
  intro f hf
  obtain ⟨i, hi, rfl⟩ := List.getElem_of_mem hf
  have hi' : i < res.length := by rw [h9.length_eq]; exact hi
  obtain ⟨p, e1, e2⟩ := h9.get (i := i) hi' hi
  simp only [List.get_eq_getElem] at e1 e2
  obtain ⟨-, q, e3, e4, -⟩ := h5 _ (List.getElem_mem hi')
  obtain rfl : p = q := Option.some.inj (e1.symm.trans e3)
  refine ⟨(h8 _ hf).1, by rw [e2, List.length_map, e4], ?_⟩
  rintro ⟨-, hc⟩
  rw [(h8 _ hf).2] at hc
  exact absurd hc (by simp)

end

/-- The simulation of the example for C103: the files have four objective vectors each and no decision
vector; with lists they would have four. -/
example : ((start (fun p => some (nsgaiiInit exSetup (fun v : List ℚ => v) exFit none 1 p)) 2
      [[0], [1 / 2], [1], [1 / 4]]).bind fun s =>
      (savedFiles exFit (wrapResult .iterator (driver (nsgaiiOps exSetup (fun v : List ℚ => v) exFit 2
        (fun _ _ _ l => l) (fun _ _ _ _ => ⟨0, 1, true⟩) (fun _ _ _ _ => exDraw)) exFit [[1], [0]] 1 1
        (fun _ _ _ _ L => L.flatten.head?))) 5 [5, 9] ⟨some (0, s), 0⟩).map
      (fun r => r.map fun x => (x.population.elements.length, x.fitnesses.length)))
    = some [(0, 4), (0, 4)] ∧
    ((start (fun p => some (nsgaiiInit exSetup (fun v : List ℚ => v) exFit none 1 p)) 2
      [[0], [1 / 2], [1], [1 / 4]]).bind fun s =>
      (savedFiles exFit (wrapResult .list (driver (nsgaiiOps exSetup (fun v : List ℚ => v) exFit 2
        (fun _ _ _ l => l) (fun _ _ _ _ => ⟨0, 1, true⟩) (fun _ _ _ _ => exDraw)) exFit [[1], [0]] 1 1
        (fun _ _ _ _ L => L.flatten.head?))) 5 [5, 9] ⟨some (0, s), 0⟩).map
      (fun r => r.map fun x => (x.population.elements.length, x.fitnesses.length)))
    = some [(4, 4), (4, 4)] := by decide +kernel

end Evogil
