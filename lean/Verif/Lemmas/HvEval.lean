import Verif.Model.HyperVolume
import Mathlib.Algebra.Order.Ring.Int
import Mathlib.Algebra.Order.Ring.Cast
import Mathlib.Tactic.NormNum

/-! # Evaluating the hypervolume routine on integer points

A copy of the model in which numbers and tables are evaluated before they are used, so that the
kernel can run it; it is proved equal to the model.  Running the model on integers gives the same as
running it on their images in any ordered ring. -/

namespace Evogil.Hv.Eval

/-- Evaluate a number before going on. -/
def forceN {α : Type*} (a : ℕ) (k : ℕ → α) : α := match a with | 0 => k 0 | n + 1 => k (n + 1)
def forceZ {α : Type*} (a : ℤ) (k : ℤ → α) : α :=
  match a with
  | .ofNat n => forceN n fun n => k (.ofNat n)
  | .negSucc n => forceN n fun n => k (.negSucc n)
theorem forceN_eq {α : Type*} (a : ℕ) (k : ℕ → α) : forceN a k = k a := by cases a <;> rfl
theorem forceZ_eq {α : Type*} (a : ℤ) (k : ℤ → α) : forceZ a k = k a := by
  cases a <;> simp [forceZ, forceN_eq]

def tabK {α β : Type*} (force : β → (β → α) → α) (g : ℕ → β) : ℕ → ℕ → (List β → α) → α
  | _, 0, k => k []
  | a, m + 1, k => force (g a) fun v => tabK force g (a + 1) m fun l => k (v :: l)

def look {β : Type*} (dflt : β) : List β → ℕ → β
  | [], _ => dflt
  | a :: _, 0 => a
  | _ :: l, k + 1 => look dflt l k

theorem tabK_eq {α β : Type*} {force : β → (β → α) → α} (hf : ∀ b k, force b k = k b) (g : ℕ → β) :
    ∀ (m a : ℕ) (k : List β → α), tabK force g a m k = k ((List.range' a m).map g)
  | 0, a, k => rfl
  | m + 1, a, k => by
    rw [tabK, hf, tabK_eq hf g m (a + 1)]; rfl

theorem look_eq {β : Type*} (g : ℕ → β) : ∀ (m a x : ℕ),
    look (g (a + x)) ((List.range' a m).map g) x = g (a + x)
  | 0, a, x => rfl
  | m + 1, a, 0 => rfl
  | m + 1, a, x + 1 => by
    rw [List.range'_succ, List.map_cons, look]
    have := look_eq g m (a + 1) x
    rw [show a + 1 + x = a + (x + 1) by omega] at this
    exact this

/-- Replace a function by its table, forced. -/
def comp1 {α β : Type*} (force : β → (β → α) → α) (m : ℕ) (g : ℕ → β) (k : (ℕ → β) → α) : α :=
  tabK force g 0 m fun l => k fun x => look (g x) l x

theorem comp1_eq {α β : Type*} {force : β → (β → α) → α} (hf : ∀ b k, force b k = k b) (m : ℕ)
    (g : ℕ → β) (k : (ℕ → β) → α) : comp1 force m g k = k g := by
  rw [comp1, tabK_eq hf]
  congr 1
  funext x
  simpa using look_eq g m 0 x

def comp2 {α β : Type*} (force : β → (β → α) → α) (D m : ℕ) (g : ℕ → ℕ → β)
    (k : (ℕ → ℕ → β) → α) : α :=
  tabK (fun h => comp1 force m h) g 0 D fun l => k fun i => look (g i) l i

theorem comp2_eq {α β : Type*} {force : β → (β → α) → α} (hf : ∀ b k, force b k = k b) (D m : ℕ)
    (g : ℕ → ℕ → β) (k : (ℕ → ℕ → β) → α) : comp2 force D m g k = k g := by
  rw [comp2, tabK_eq (fun b k => comp1_eq hf m b k)]
  congr 1
  funext i
  simpa using look_eq g D 0 i

/-- Evaluate a state before going on. -/
def forceS {α : Type*} (D m : ℕ) (s : St ℤ) (k : St ℤ → α) : α :=
  comp2 forceN D m s.next fun a => comp2 forceN D m s.prev fun b => comp1 forceN m s.ignore fun c =>
  comp2 forceZ D m s.area fun d => comp2 forceZ D m s.volume fun e => comp1 forceZ D s.bounds fun f =>
  k ⟨a, b, c, d, e, f⟩

theorem forceS_eq {α : Type*} (D m : ℕ) (s : St ℤ) (k : St ℤ → α) : forceS D m s k = k s := by
  simp only [forceS, comp2_eq forceN_eq, comp2_eq forceZ_eq, comp1_eq forceN_eq, comp1_eq forceZ_eq]

variable (D m : ℕ) (c : ℕ → ℕ → ℤ)

def sweepF (s : St ℤ) : ℕ → ℕ → ℕ → ℤ → ℤ → Option ℤ
  | 0, _, _, _, _ => none
  | fuel + 1, q, p, h, hvol =>
    if p = 0 then some (hvol + h * c q 1)
    else
      forceZ (hvol + h * (c q 1 - c p 1)) fun hvol' =>
      forceZ (if c p 0 < h then c p 0 else h) fun h' =>
      forceN (s.next 1 p) fun p' =>
      sweepF s fuel p p' h' hvol'

theorem sweepF_eq (s : St ℤ) : ∀ fuel q p h hvol, sweepF c s fuel q p h hvol = sweep c s fuel q p h hvol
  | 0, _, _, _, _ => rfl
  | fuel + 1, q, p, h, hvol => by
    rw [sweepF, sweep]
    simp only [forceN_eq, forceZ_eq, sweepF_eq s fuel]

def resetLoopF (d : ℕ) : ℕ → ℕ → St ℤ → Option (St ℤ)
  | 0, _, _ => none
  | fuel + 1, q, s =>
    if q = 0 then some s
    else
      forceS D m (if s.ignore q < d then { s with ignore := Function.update s.ignore q 0 } else s)
        fun s' => forceN (s'.prev d q) fun q' => resetLoopF d fuel q' s'

theorem resetLoopF_eq (d : ℕ) : ∀ fuel q s, resetLoopF D m d fuel q s = resetLoop d fuel q s
  | 0, _, _ => rfl
  | fuel + 1, q, s => by
    rw [resetLoopF, resetLoop]
    simp only [forceN_eq, forceS_eq, resetLoopF_eq d fuel]

def removeF {α : Type*} (x index : ℕ) (s : St ℤ) (k : St ℤ → α) : α :=
  forceS D m (remove c x index s) k

def removeLoopF {α : Type*} (d : ℕ) : ℕ → ℕ → ℕ → St ℤ → (ℕ × ℕ × ℕ × St ℤ → α) → α
  | 0, p, q, s, k => k (0, p, q, s)
  | length + 1, p, q, s, k =>
    if 1 < length + 1 ∧ (c q d > s.bounds d ∨ c (s.prev d q) d ≥ s.bounds d) then
      forceS D m (remove c q d s) fun s' =>
      forceN (s'.prev d q) fun q' =>
      removeLoopF d length q q' s' k
    else k (length + 1, p, q, s)

theorem removeLoopF_eq {α : Type*} (d : ℕ) : ∀ length p q s (k : ℕ × ℕ × ℕ × St ℤ → α),
    removeLoopF D m c d length p q s k = k (removeLoop c d length p q s)
  | 0, _, _, _, _ => rfl
  | length + 1, p, q, s, k => by
    rw [removeLoopF, removeLoop]
    simp only [forceN_eq, forceS_eq, removeLoopF_eq d length]
    split_ifs <;> rfl

def areaStepF (rec : ℕ → St ℤ → Option (ℤ × St ℤ)) (d q length : ℕ) (hvol : ℤ) (s : St ℤ) :
    Option (St ℤ) :=
  forceS D m { s with volume := set2 s.volume d q hvol } fun s1 =>
  if s1.ignore q ≥ d then
    some { s1 with area := set2 s1.area d q (s1.area d (s1.prev d q)) }
  else
    match rec length s1 with
    | none => none
    | some (a, s2) =>
      forceZ a fun a => forceS D m { s2 with area := set2 s2.area d q a } fun s3 =>
      some (if s3.area d q ≤ s3.area d (s3.prev d q) then
        { s3 with ignore := Function.update s3.ignore q d } else s3)

theorem areaStepF_eq (rec : ℕ → St ℤ → Option (ℤ × St ℤ)) (d q length : ℕ) (hvol : ℤ) (s : St ℤ) :
    areaStepF D m rec d q length hvol s = areaStep rec d q length hvol s := by
  simp only [areaStepF, areaStep, forceS_eq, forceZ_eq]
  split_ifs
  · rfl
  · generalize rec length _ = r
    rcases r with _ | ⟨a, s2⟩ <;> rfl

def reinsertLoopF (rec : ℕ → St ℤ → Option (ℤ × St ℤ)) (d : ℕ) :
    ℕ → ℕ → ℕ → ℕ → ℤ → St ℤ → Option (ℤ × St ℤ)
  | 0, _, _, _, _, _ => none
  | fuel + 1, p, q, length, hvol, s =>
    if p = 0 then some (hvol - s.area d q * c q d, s)
    else
      forceZ (hvol + s.area d q * (c p d - c q d)) fun hvol' =>
      forceS D m (reinsert c p d { s with bounds := Function.update s.bounds d (c p d) }) fun s2 =>
      forceN (s2.next d p) fun p' =>
      match areaStepF D m rec d p (length + 1) hvol' s2 with
      | none => none
      | some s3 => forceS D m s3 fun s3 => reinsertLoopF rec d fuel p' p (length + 1) hvol' s3

theorem reinsertLoopF_eq (rec : ℕ → St ℤ → Option (ℤ × St ℤ)) (d : ℕ) :
    ∀ fuel p q length hvol s, reinsertLoopF D m c rec d fuel p q length hvol s =
      reinsertLoop c rec d fuel p q length hvol s
  | 0, _, _, _, _, _ => rfl
  | fuel + 1, p, q, length, hvol, s => by
    rw [reinsertLoopF, reinsertLoop]
    simp only [forceZ_eq, forceS_eq, forceN_eq, areaStepF_eq, reinsertLoopF_eq rec d fuel]
    split_ifs
    · rfl
    · generalize areaStep rec d p (length + 1) _ _ = r
      cases r <;> rfl

def generalF (rec : ℕ → St ℤ → Option (ℤ × St ℤ)) (fuel d length : ℕ) (s : St ℤ) :
    Option (ℤ × St ℤ) :=
  match resetLoopF D m d fuel (s.prev d 0) s with
  | none => none
  | some s1 =>
    removeLoopF D m c d length 0 (s1.prev d 0) s1 fun r =>
    match r with
    | (length', p, q, s2) =>
      forceN length' fun length' => forceN p fun p => forceN q fun q => forceN (s2.prev d q) fun qp =>
      forceZ (if length' > 1 then s2.volume d qp + s2.area d qp * (c q d - c qp d) else 0) fun hvol =>
      forceS D m (if length' > 1 then s2 else singleArea c d q s2) fun s3 =>
      match areaStepF D m rec d q length' hvol s3 with
      | none => none
      | some s4 => forceS D m s4 fun s4 => reinsertLoopF D m c rec d fuel p q length' hvol s4

theorem generalF_eq (rec : ℕ → St ℤ → Option (ℤ × St ℤ)) (fuel d length : ℕ) (s : St ℤ) :
    generalF D m c rec fuel d length s = general c rec fuel d length s := by
  simp only [generalF, general, resetLoopF_eq, removeLoopF_eq, forceN_eq, forceZ_eq, forceS_eq,
    areaStepF_eq, reinsertLoopF_eq]
  generalize resetLoop d fuel _ s = r
  rcases r with _ | s1
  · rfl
  · dsimp only
    generalize removeLoop c d length 0 _ s1 = r
    rcases r with ⟨length', p, q, s2⟩
    dsimp only
    generalize areaStep rec d q length' _ _ = r
    cases r <;> rfl

def hvRecF (fuel : ℕ) : ℕ → ℕ → St ℤ → Option (ℤ × St ℤ)
  | 0, length, s => if length = 0 then some (0, s) else some (-(c (s.next 0 0) 0), s)
  | 1, length, s =>
    if length = 0 then some (0, s)
    else
      forceN (s.next 1 0) fun q => forceN (s.next 1 q) fun p => forceZ (c q 0) fun h =>
      match sweepF c s fuel q p h 0 with
      | none => none
      | some v => some (v, s)
  | d + 2, length, s =>
    if length = 0 then some (0, s)
    else generalF D m c (hvRecF fuel (d + 1)) fuel (d + 2) length s

theorem hvRecF_eq (fuel : ℕ) : ∀ d length s, hvRecF D m c fuel d length s = hvRec c fuel d length s
  | 0, _, _ => rfl
  | 1, length, s => by
    rw [hvRecF, hvRec]; simp only [forceN_eq, forceZ_eq, sweepF_eq]
    generalize sweep c s fuel _ _ _ _ = r
    cases r <;> rfl
  | d + 2, length, s => by
    rw [hvRecF, hvRec, generalF_eq]
    rw [show hvRecF D m c fuel (d + 1) = hvRec c fuel (d + 1) from
      funext fun l => funext fun s => hvRecF_eq fuel (d + 1) l s]

def computeF (lowest : ℤ) (ref : List ℤ) (front : List (List ℤ)) : Option ℤ :=
  let pts := relevant ref front
  comp2 forceZ (pts.length + 1) ref.length (cargo pts) fun c =>
  forceS ref.length (pts.length + 1) (preProcess c lowest ref.length pts.length) fun s =>
  (hvRecF ref.length (pts.length + 1) c (pts.length + 1) (ref.length - 1) pts.length s).map Prod.fst

theorem computeF_eq (lowest : ℤ) (ref : List ℤ) (front : List (List ℤ)) :
    computeF lowest ref front = compute lowest ref front := by
  simp only [computeF, compute, comp2_eq forceZ_eq, forceS_eq, hvRecF_eq]


section cast

set_option linter.unusedSectionVars false

variable (K : Type*) [CommRing K] [LinearOrder K] [IsStrictOrderedRing K]

/-- The state with integers replaced by ring elements. -/
def mapS (s : St ℤ) : St K :=
  ⟨s.next, s.prev, s.ignore, fun i x => (s.area i x : K), fun i x => (s.volume i x : K),
    fun i => (s.bounds i : K)⟩

/-- Coordinates as ring elements. -/
def mapC (c : ℕ → ℕ → ℤ) : ℕ → ℕ → K := fun x i => (c x i : K)

variable {K}

theorem update_cast (f : ℕ → ℤ) (i : ℕ) (v : ℤ) :
    Function.update (fun j => (f j : K)) i (v : K) = fun j => ((Function.update f i v j : ℤ) : K) := by
  funext j
  by_cases h : j = i
  · subst h; simp
  · simp [Function.update_of_ne h]

theorem set2_cast (f : ℕ → ℕ → ℤ) (i x : ℕ) (v : ℤ) :
    set2 (fun j y => (f j y : K)) i x (v : K) = fun j y => ((set2 f i x v j y : ℤ) : K) := by
  funext j y
  unfold set2
  by_cases h : j = i
  · subst h
    rw [Function.update_self, Function.update_self, update_cast]
  · rw [Function.update_of_ne h, Function.update_of_ne h]

theorem removeAt_cast (x : ℕ) (s : St ℤ) (i : ℕ) :
    removeAt (mapC K c) x (mapS K s) i = mapS K (removeAt c x s i) := by
  simp only [removeAt, mapS, mapC, gt_iff_lt, Int.cast_lt]
  by_cases h : c x i < s.bounds i
  · simp only [h, if_true, update_cast]
  · simp only [h, if_false]

theorem reinsertAt_cast (x : ℕ) (s : St ℤ) (i : ℕ) :
    reinsertAt (mapC K c) x (mapS K s) i = mapS K (reinsertAt c x s i) := by
  simp only [reinsertAt, mapS, mapC, gt_iff_lt, Int.cast_lt]
  by_cases h : c x i < s.bounds i
  · simp only [h, if_true, update_cast]
  · simp only [h, if_false]

theorem remove_cast (x d : ℕ) (s : St ℤ) :
    remove (mapC K c) x d (mapS K s) = mapS K (remove c x d s) := by
  unfold remove
  induction List.range d generalizing s with
  | nil => rfl
  | cons i l ih => rw [List.foldl_cons, List.foldl_cons, removeAt_cast, ih]

theorem reinsert_cast (x d : ℕ) (s : St ℤ) :
    reinsert (mapC K c) x d (mapS K s) = mapS K (reinsert c x d s) := by
  unfold reinsert
  induction List.range d generalizing s with
  | nil => rfl
  | cons i l ih => rw [List.foldl_cons, List.foldl_cons, reinsertAt_cast, ih]

theorem sweep_cast (s : St ℤ) : ∀ fuel q p (h hvol : ℤ),
    sweep (mapC K c) (mapS K s) fuel q p (h : K) (hvol : K) =
      (sweep c s fuel q p h hvol).map (fun v : ℤ => (v : K))
  | 0, _, _, _, _ => rfl
  | fuel + 1, q, p, h, hvol => by
    rw [sweep, sweep]
    by_cases hp : p = 0
    · rw [if_pos hp, if_pos hp]; simp [mapC]
    · rw [if_neg hp, if_neg hp]
      simp only
      rw [← sweep_cast s fuel]
      simp only [mapC, Int.cast_lt, mapS]
      push_cast
      rfl

theorem resetLoop_cast (d : ℕ) : ∀ fuel q (s : St ℤ),
    resetLoop d fuel q (mapS K s) = (resetLoop d fuel q s).map (mapS K)
  | 0, _, _ => rfl
  | fuel + 1, q, s => by
    rw [resetLoop, resetLoop]
    by_cases hq : q = 0
    · rw [if_pos hq, if_pos hq]; rfl
    · rw [if_neg hq, if_neg hq]
      simp only
      rw [← resetLoop_cast d fuel]
      by_cases h : s.ignore q < d
      · rw [if_pos h, if_pos (show (mapS K s).ignore q < d from h)]; rfl
      · rw [if_neg h, if_neg (show ¬ (mapS K s).ignore q < d from h)]; rfl

theorem removeLoop_cast (d : ℕ) : ∀ length p q (s : St ℤ),
    removeLoop (mapC K c) d length p q (mapS K s) =
      ((removeLoop c d length p q s).1, (removeLoop c d length p q s).2.1,
        (removeLoop c d length p q s).2.2.1, mapS K (removeLoop c d length p q s).2.2.2)
  | 0, _, _, _ => rfl
  | length + 1, p, q, s => by
    rw [removeLoop, removeLoop]
    have e : (1 < length + 1 ∧ (mapC K c q d > (mapS K s).bounds d ∨
        mapC K c ((mapS K s).prev d q) d ≥ (mapS K s).bounds d)) ↔
        (1 < length + 1 ∧ (c q d > s.bounds d ∨ c (s.prev d q) d ≥ s.bounds d)) := by
      simp only [mapC, mapS, gt_iff_lt, ge_iff_le, Int.cast_lt, Int.cast_le]
    by_cases h : 1 < length + 1 ∧ (c q d > s.bounds d ∨ c (s.prev d q) d ≥ s.bounds d)
    · rw [if_pos h, if_pos (e.2 h)]
      simp only
      rw [remove_cast, removeLoop_cast d length]
      rfl
    · rw [if_neg h, if_neg (fun h' => h (e.1 h'))]

theorem singleArea_cast (d q : ℕ) (s : St ℤ) :
    singleArea (mapC K c) d q (mapS K s) = mapS K (singleArea c d q s) := by
  simp only [singleArea, mapS, mapC]
  congr 1
  funext i x
  have := set2_cast (K := K) s.area 0 q 1
  rw [Int.cast_one] at this
  rw [this]
  by_cases h : x = q ∧ 1 ≤ i ∧ i ≤ d
  · rw [if_pos h, if_pos h]; push_cast; rfl
  · rw [if_neg h, if_neg h]

/-- A recursive call on integers agrees with one on ring elements. -/
def RecCast (recK : ℕ → St K → Option (K × St K)) (recZ : ℕ → St ℤ → Option (ℤ × St ℤ)) : Prop :=
  ∀ l s, recK l (mapS K s) = (recZ l s).map fun r => ((r.1 : K), mapS K r.2)

theorem areaStep_cast {recK : ℕ → St K → Option (K × St K)}
    {recZ : ℕ → St ℤ → Option (ℤ × St ℤ)} (hrec : RecCast recK recZ) (d q length : ℕ) (hvol : ℤ)
    (s : St ℤ) :
    areaStep recK d q length (hvol : K) (mapS K s) =
      (areaStep recZ d q length hvol s).map (mapS K) := by
  have e1 : ({ mapS K s with volume := set2 (mapS K s).volume d q (hvol : K) } : St K) =
      mapS K { s with volume := set2 s.volume d q hvol } := by
    simp only [mapS, set2_cast]
  unfold areaStep
  rw [e1]
  generalize ({ s with volume := set2 s.volume d q hvol } : St ℤ) = s1
  dsimp only
  by_cases h : s1.ignore q ≥ d
  · rw [if_pos h, if_pos (show (mapS K s1).ignore q ≥ d from h)]
    simp only [mapS, set2_cast, Option.map_some]
  · rw [if_neg h, if_neg (show ¬ (mapS K s1).ignore q ≥ d from h), hrec]
    generalize recZ length s1 = r
    rcases r with _ | ⟨a, s2⟩
    · rfl
    · simp only [Option.map_some, mapS, set2_cast, Int.cast_le]
      by_cases h : set2 s2.area d q a d q ≤ set2 s2.area d q a d (s2.prev d q)
      · rw [if_pos h, if_pos h]
      · rw [if_neg h, if_neg h]

theorem reinsertLoop_cast {recK : ℕ → St K → Option (K × St K)}
    {recZ : ℕ → St ℤ → Option (ℤ × St ℤ)} (hrec : RecCast recK recZ) (d : ℕ) :
    ∀ fuel p q length (hvol : ℤ) (s : St ℤ),
      reinsertLoop (mapC K c) recK d fuel p q length (hvol : K) (mapS K s) =
        (reinsertLoop c recZ d fuel p q length hvol s).map fun r => ((r.1 : K), mapS K r.2)
  | 0, _, _, _, _, _ => rfl
  | fuel + 1, p, q, length, hvol, s => by
    rw [reinsertLoop, reinsertLoop]
    by_cases hp : p = 0
    · rw [if_pos hp, if_pos hp]
      simp [mapC, mapS]
    · rw [if_neg hp, if_neg hp]
      dsimp only
      have e1 : ({ mapS K s with
            bounds := Function.update (mapS K s).bounds d (mapC K c p d) } : St K) =
          mapS K { s with bounds := Function.update s.bounds d (c p d) } := by
        simp only [mapS, mapC, update_cast]
      have e2 : (hvol : K) + (mapS K s).area d q * (mapC K c p d - mapC K c q d) =
          ((hvol + s.area d q * (c p d - c q d) : ℤ) : K) := by
        simp only [mapS, mapC]; push_cast; rfl
      rw [e1, e2, reinsert_cast]
      generalize reinsert c p d { s with bounds := Function.update s.bounds d (c p d) } = s2
      rw [areaStep_cast hrec]
      generalize areaStep recZ d p (length + 1) (hvol + s.area d q * (c p d - c q d)) s2 = r
      rcases r with _ | s3
      · rfl
      · simp only [Option.map_some]
        rw [← reinsertLoop_cast hrec d fuel]
        rfl

theorem general_cast {recK : ℕ → St K → Option (K × St K)}
    {recZ : ℕ → St ℤ → Option (ℤ × St ℤ)} (hrec : RecCast recK recZ) (fuel d : ℕ) :
    RecCast (general (mapC K c) recK fuel d) (general c recZ fuel d) := by
  intro length s
  unfold general
  rw [show (mapS K s).prev = s.prev from rfl, resetLoop_cast]
  generalize resetLoop d fuel (s.prev d 0) s = r
  rcases r with _ | s1
  · rfl
  · simp only [Option.map_some]
    rw [show (mapS K s1).prev = s1.prev from rfl, removeLoop_cast]
    generalize removeLoop c d length 0 (s1.prev d 0) s1 = r
    rcases r with ⟨length', p, q, s2⟩
    dsimp only
    have e1 : (if length' > 1 then (mapS K s2).volume d ((mapS K s2).prev d q) +
        (mapS K s2).area d ((mapS K s2).prev d q) *
          (mapC K c q d - mapC K c ((mapS K s2).prev d q) d) else 0) =
        ((if length' > 1 then s2.volume d (s2.prev d q) +
          s2.area d (s2.prev d q) * (c q d - c (s2.prev d q) d) else 0 : ℤ) : K) := by
      by_cases h : length' > 1
      · rw [if_pos h, if_pos h]; simp only [mapS, mapC]; push_cast; rfl
      · rw [if_neg h, if_neg h]; simp
    have e2 : (if length' > 1 then mapS K s2 else singleArea (mapC K c) d q (mapS K s2)) =
        mapS K (if length' > 1 then s2 else singleArea c d q s2) := by
      by_cases h : length' > 1
      · rw [if_pos h, if_pos h]
      · rw [if_neg h, if_neg h, singleArea_cast]
    rw [e1, e2, areaStep_cast hrec]
    generalize areaStep recZ d q length' _ _ = r
    rcases r with _ | s4
    · rfl
    · simp only [Option.map_some]
      rw [reinsertLoop_cast c hrec]

theorem hvRec_cast (fuel : ℕ) : ∀ d, RecCast (hvRec (mapC K c) fuel d) (hvRec c fuel d)
  | 0 => by
    intro l s
    rw [hvRec, hvRec]
    by_cases h : l = 0
    · rw [if_pos h, if_pos h]; simp
    · rw [if_neg h, if_neg h]; simp [mapC, mapS]
  | 1 => by
    intro l s
    rw [hvRec, hvRec]
    by_cases h : l = 0
    · rw [if_pos h, if_pos h]; simp
    · rw [if_neg h, if_neg h]
      dsimp only
      have := sweep_cast (K := K) c s fuel (s.next 1 0) (s.next 1 (s.next 1 0)) (c (s.next 1 0) 0) 0
      rw [Int.cast_zero] at this
      rw [show (mapS K s).next = s.next from rfl,
        show mapC K c (s.next 1 0) 0 = ((c (s.next 1 0) 0 : ℤ) : K) from rfl, this]
      generalize sweep c s fuel _ _ _ _ = r
      cases r <;> rfl
  | d + 2 => by
    intro l s
    rw [hvRec, hvRec]
    by_cases h : l = 0
    · rw [if_pos h, if_pos h]; simp
    · rw [if_neg h, if_neg h]
      exact general_cast c (hvRec_cast fuel (d + 1)) fuel (d + 2) l s

theorem extend_cast (nodes : List ℕ) (i : ℕ) (s : St ℤ) :
    extend nodes i (mapS K s) = mapS K (extend nodes i s) := by
  unfold extend
  induction nodes generalizing s with
  | nil => rfl
  | cons x l ih =>
    rw [List.foldl_cons, List.foldl_cons, show appendNode i (mapS K s) x =
      mapS K (appendNode i s x) from rfl, ih]

theorem sort_cast (nodes : List ℕ) (i : ℕ) :
    sortByDimension (mapC K c) nodes i = sortByDimension c nodes i := by
  unfold sortByDimension pySorted mapC
  have : (fun a b => (c a i : K) ≤ (c b i : K)) = fun a b => c a i ≤ c b i := by
    funext a b; simp
  simp only [Int.cast_le]

theorem preLoop_cast : ∀ (is nodes : List ℕ) (s : St ℤ),
    preLoop (mapC K c) is (nodes, mapS K s) =
      ((preLoop c is (nodes, s)).1, mapS K (preLoop c is (nodes, s)).2)
  | [], _, _ => rfl
  | i :: is, nodes, s => by
    rw [preLoop, preLoop, sort_cast, extend_cast]
    exact preLoop_cast is _ _

theorem preProcess_cast (lowest : ℤ) (dims n : ℕ) :
    preProcess (mapC K c) (lowest : K) dims n = mapS K (preProcess c lowest dims n) := by
  unfold preProcess
  have : (initial (lowest : K)) = mapS K (initial lowest) := by simp [initial, mapS]
  rw [this, preLoop_cast]

/-- A point with integer coordinates. -/
def castP (K : Type*) [CommRing K] (p : List ℤ) : List K := p.map fun z : ℤ => (z : K)

theorem weaklyDominates_cast : ∀ (p q : List ℤ),
    weaklyDominates (castP K p) (castP K q) = weaklyDominates p q
  | [], q => by cases q <;> rfl
  | _ :: _, [] => rfl
  | a :: p, b :: q => by
    have := weaklyDominates_cast p q
    unfold weaklyDominates castP at this ⊢
    simp only [List.map_cons, List.zip_cons_cons, List.all_cons, this, gt_iff_lt, Int.cast_lt]

theorem zipWith_cast : ∀ (p q : List ℤ),
    List.zipWith (· - ·) (castP K p) (castP K q) = castP K (List.zipWith (· - ·) p q)
  | [], q => by cases q <;> rfl
  | _ :: _, [] => rfl
  | a :: p, b :: q => by
    have := zipWith_cast p q
    unfold castP at this ⊢
    simp only [List.map_cons, List.zipWith_cons_cons, this, Int.cast_sub]

theorem relevant_cast (ref : List ℤ) (front : List (List ℤ)) :
    relevant (castP K ref) (front.map (castP K)) = (relevant ref front).map (castP K) := by
  unfold relevant
  dsimp only
  have e1 : (castP K ref).any (fun r => !(r == 0)) = ref.any (fun r => !(r == 0)) := by
    unfold castP
    rw [List.any_map]
    congr 1
    funext z
    simp [Function.comp]
  have e2 : (front.map (castP K)).filter (fun p => weaklyDominates p (castP K ref)) =
      (front.filter fun p => weaklyDominates p ref).map (castP K) := by
    rw [List.filter_map]
    congr 2
    funext p
    simp [Function.comp, weaklyDominates_cast]
  rw [e1, e2]
  split_ifs
  · rw [List.map_map, List.map_map]
    congr 1
    funext p
    simp only [Function.comp, zipWith_cast]
  · rfl

theorem cargo_cast (pts : List (List ℤ)) :
    cargo (pts.map (castP K)) = mapC K (cargo pts) := by
  funext x i
  have h1 : (pts.map (castP K)).getD (x - 1) [] = castP K (pts.getD (x - 1) []) := by
    simp only [List.getD_eq_getElem?_getD, List.getElem?_map]
    cases pts[x - 1]? <;> rfl
  unfold cargo mapC
  rw [h1]
  unfold castP
  simp only [List.getD_eq_getElem?_getD, List.getElem?_map]
  generalize (pts[x - 1]?.getD [])[i]? = o
  cases o <;> simp

/-- The routine on integer points gives the same number in every ordered ring. -/
theorem compute_cast (lowest : ℤ) (ref : List ℤ) (front : List (List ℤ)) :
    compute (lowest : K) (castP K ref) (front.map (castP K)) =
      (compute lowest ref front).map fun z : ℤ => (z : K) := by
  unfold compute
  dsimp only
  have hl : (castP K ref).length = ref.length := by simp [castP]
  rw [relevant_cast, cargo_cast, List.length_map, hl, preProcess_cast, hvRec_cast]
  generalize hvRec (cargo (relevant ref front)) _ _ _ _ = r
  cases r <;> rfl

end cast

end Evogil.Hv.Eval
