import Verif.Lemmas.DistMore
import Verif.Model.DistDrivers

/-!
# The sprouts of the distributed HGS and what the tasks depend on
-/

set_option linter.unusedSectionVars false

namespace Evogil.Dist

variable {D K : Type*} [Field K] [LinearOrder K]
variable {cfg : Hgs.Conf D K} {env env' : ℕ → ℕ → Hgs.Report D K} {spawn spawn' : ℕ → ℕ → ℕ → List D}

/-! ## The populations of the sprouts that are looked at -/

theorem sproutLoop_congr {i k lvl alive : ℕ} (h : spawn' i k = spawn i k) : ∀ (ds : List D) (idx released : ℕ)
    (next created : List (NState D)) (st : Hgs.State D K),
    sproutLoop cfg spawn' i k lvl alive ds idx released next created st =
      sproutLoop cfg spawn i k lvl alive ds idx released next created st
  | [], _, _, _, _, _ => rfl
  | d :: ds, idx, released, next, created, st => by
    simp only [sproutLoop, h, sproutLoop_congr h ds]

theorem releaseTurn_ctr {i : ℕ} {next : List (NState D)} {σ : PState D K}
    {r : PState D K × NState D × List (NState D)} (h : releaseTurn cfg spawn i next σ = some r) :
    (∀ n, σ.ctr n ≤ r.1.ctr n) ∧ σ.ctr i < r.1.ctr i := by
  simp only [releaseTurn] at h
  split at h
  · cases h
  · simp only [Option.some.injEq] at h
    subst h
    refine ⟨fun n => le_bump _ _ _, ?_⟩
    simp only [bump]
    rw [if_pos (by simp)]
    omega

theorem releaseTurn_congr {i : ℕ} {next : List (NState D)} {σ : PState D K}
    (h : spawn' i (σ.ctr i) = spawn i (σ.ctr i)) :
    releaseTurn cfg spawn' i next σ = releaseTurn cfg spawn i next σ := by
  simp only [releaseTurn, sproutLoop_congr h]

theorem releaseNodes_ctr : ∀ (is : List ℕ) (cur next : List (NState D)) (σ : PState D K)
    {r : PState D K × List (NState D)}, releaseNodes cfg spawn is cur next σ = some r →
    ∀ n, σ.ctr n ≤ r.1.ctr n
  | [], _, _, σ, r, h, n => by cases h; exact le_rfl
  | i :: is, cur, next, σ, r, h, n => by
    simp only [releaseNodes, Option.bind_eq_some_iff] at h
    obtain ⟨t, h1, h2⟩ := h
    exact ((releaseTurn_ctr h1).1 n).trans (releaseNodes_ctr is _ _ _ h2 n)

theorem releaseNodes_congr : ∀ (is : List ℕ) (cur next : List (NState D)) (σ : PState D K)
    {r : PState D K × List (NState D)}, releaseNodes cfg spawn is cur next σ = some r →
    (∀ i k, k < r.1.ctr i → spawn' i k = spawn i k) → releaseNodes cfg spawn' is cur next σ = some r
  | [], _, _, σ, r, h, _ => h
  | i :: is, cur, next, σ, r, h, hs => by
    simp only [releaseNodes, Option.bind_eq_some_iff] at h ⊢
    obtain ⟨t, h1, h2⟩ := h
    refine ⟨t, ?_, releaseNodes_congr is _ _ _ h2 hs⟩
    rw [releaseTurn_congr (hs i _ (lt_of_lt_of_le (releaseTurn_ctr h1).2 (releaseNodes_ctr is _ _ _ h2 i)))]
    exact h1

theorem releaseLevels_ctr : ∀ (lvl : ℕ) (next : List (NState D)) (σ : PState D K) {σ' : PState D K},
    releaseLevels cfg spawn lvl next σ = some σ' → ∀ n, σ.ctr n ≤ σ'.ctr n := by
  intro lvl
  induction lvl with
  | zero =>
    intro next σ σ' h n
    rw [releaseLevels] at h
    simp only [Option.bind_eq_some_iff] at h
    obtain ⟨ns, _, r, h1, h2⟩ := h
    cases h2
    exact releaseNodes_ctr _ _ _ _ h1 n
  | succ l ih =>
    intro next σ σ' h n
    rw [releaseLevels] at h
    simp only [Option.bind_eq_some_iff] at h
    obtain ⟨ns, _, r, h1, h2⟩ := h
    exact (releaseNodes_ctr _ _ _ _ h1 n).trans (ih _ _ h2 n)

theorem releaseLevels_congr : ∀ (lvl : ℕ) (next : List (NState D)) (σ : PState D K) {σ' : PState D K},
    releaseLevels cfg spawn lvl next σ = some σ' → (∀ i k, k < σ'.ctr i → spawn' i k = spawn i k) →
    releaseLevels cfg spawn' lvl next σ = some σ' := by
  intro lvl
  induction lvl with
  | zero =>
    intro next σ σ' h hs
    rw [releaseLevels] at h ⊢
    simp only [Option.bind_eq_some_iff] at h ⊢
    obtain ⟨ns, hn, r, h1, h2⟩ := h
    cases h2
    exact ⟨ns, hn, r, releaseNodes_congr _ _ _ _ h1 hs, rfl⟩
  | succ l ih =>
    intro next σ σ' h hs
    rw [releaseLevels] at h ⊢
    simp only [Option.bind_eq_some_iff] at h ⊢
    obtain ⟨ns, hn, r, h1, h2⟩ := h
    exact ⟨ns, hn, r, releaseNodes_congr _ _ _ _ h1 fun i k hk => hs i k (lt_of_lt_of_le hk
      (releaseLevels_ctr l _ _ h2 i)), ih _ _ h2 hs⟩

theorem seqRelease_ctr {σ σ' : PState D K} (h : seqRelease cfg spawn σ = some σ') (n : ℕ) :
    σ.ctr n ≤ σ'.ctr n := by
  simp only [seqRelease, Option.bind_eq_some_iff] at h
  obtain ⟨l, _, h⟩ := h
  exact releaseLevels_ctr _ _ _ h n

theorem seqRelease_congr {σ σ' : PState D K} (h : seqRelease cfg spawn σ = some σ')
    (hs : ∀ i k, k < σ'.ctr i → spawn' i k = spawn i k) : seqRelease cfg spawn' σ = some σ' := by
  simp only [seqRelease, Option.bind_eq_some_iff] at h ⊢
  obtain ⟨l, hl, h⟩ := h
  exact ⟨l, hl, releaseLevels_congr _ _ _ h hs⟩

theorem seqRevive_ctr {σ σ' : PState D K} (h : seqRevive cfg σ = some σ') (n : ℕ) :
    σ.ctr n ≤ σ'.ctr n := by
  simp only [seqRevive] at h
  split at h
  · obtain ⟨r, _, rfl⟩ := Option.map_eq_some_iff.1 h
    simp only
    split <;> omega
  · cases h; exact le_rfl

theorem seqMetaepoch_ctr {σ σ' : PState D K} (h : seqMetaepoch cfg env σ = some σ') :
    σ'.ctr = (bumpAll σ).ctr := by
  obtain ⟨t, _, rfl⟩ := Option.map_eq_some_iff.1 h
  rfl

theorem seqStep_ctr {σ σ' : PState D K} (h : seqStep cfg env spawn σ = some σ') :
    (∀ n, σ.ctr n ≤ σ'.ctr n) ∧ ∀ n < σ.st.nodes.length, σ.ctr n < σ'.ctr n := by
  simp only [seqStep, Option.bind_eq_some_iff] at h
  obtain ⟨σ₂, ⟨σ₁, h1, h2⟩, h3⟩ := h
  have e1 := seqMetaepoch_ctr h1
  have key : ∀ n, (bumpAll σ).ctr n ≤ σ'.ctr n := by
    intro n
    rw [← e1]
    refine le_trans ?_ ((seqRelease_ctr h2 n).trans (seqRevive_ctr h3 n))
    exact (le_bump _ _ _).trans (le_bump _ _ _)
  refine ⟨fun n => (le_bump _ _ _).trans (key n), fun n hn => lt_of_lt_of_le ?_ (key n)⟩
  simp only [bumpAll, bump, List.mem_range, if_pos hn]
  omega

/-- A step only looks at the draws of the tasks given during the step. -/
theorem seqStep_congr {σ σ' : PState D K} (h : seqStep cfg env spawn σ = some σ')
    (he : ∀ n < σ.st.nodes.length, env' n (σ.ctr n) = env n (σ.ctr n))
    (hs : ∀ i k, k < σ'.ctr i → spawn' i k = spawn i k) : seqStep cfg env' spawn' σ = some σ' := by
  simp only [seqStep, Option.bind_eq_some_iff] at h ⊢
  obtain ⟨σ₂, ⟨σ₁, h1, h2⟩, h3⟩ := h
  refine ⟨σ₂, ⟨σ₁, ?_, seqRelease_congr h2 fun i k hk => hs i k (lt_of_lt_of_le hk (seqRevive_ctr h3 i))⟩, h3⟩
  rw [← h1]
  have : (σ.st.nodes.mapIdx fun n a => nodeMetaepoch cfg.fl (env' n (σ.ctr n)) a) =
      σ.st.nodes.mapIdx fun n a => nodeMetaepoch cfg.fl (env n (σ.ctr n)) a := by
    apply List.ext_getElem?
    intro i
    simp only [List.getElem?_mapIdx]
    by_cases hi : i < σ.st.nodes.length
    · rw [he i hi]
    · rw [List.getElem?_eq_none (by omega)]; rfl
  simp only [seqMetaepoch, this]

/-! ## Where the sprouts come from -/

/-- From the number `n` on, every node is the sprout of a node and belongs to one of its delegates, in a
task of number `c` or later. -/
def From (n : ℕ) (c : ℕ → ℕ) (st : Hgs.State D K) (ctr : ℕ → ℕ) : Prop :=
  ∀ j, n ≤ j → j < st.nodes.length → ∃ (i k idx : ℕ) (d : D), i < st.nodes.length ∧ c i ≤ k ∧ k < ctr i ∧
    (nodeAt st i).delegates[idx]? = some d ∧ j ∈ (nodeAt st i).sprouts ∧
    (nodeAt st j).level = (nodeAt st i).level + 1

theorem From.mono {n : ℕ} {c ctr ctr' : ℕ → ℕ} {st : Hgs.State D K} (h : From n c st ctr)
    (hc : ∀ n, ctr n ≤ ctr' n) : From n c st ctr' := by
  intro j h1 h2
  obtain ⟨i, k, idx, d, a1, a2, a3, a4⟩ := h j h1 h2
  exact ⟨i, k, idx, d, a1, a2, lt_of_lt_of_le a3 (hc i), a4⟩

theorem From.add {n : ℕ} {c ctr : ℕ → ℕ} {st : Hgs.State D K} (h : From n c st ctr) {i k idx : ℕ} {d : D}
    (hi : i < st.nodes.length) (h1 : c i ≤ k) (h2 : k < ctr i)
    (h3 : (nodeAt st i).delegates[idx]? = some d) :
    From n c (addSprout st i (nodeAt st i).level) ctr := by
  obtain ⟨lvl, hlvl⟩ : ∃ lvl, lvl = (nodeAt st i).level := ⟨_, rfl⟩
  rw [← hlvl]
  have hb : ∀ m < st.nodes.length, (nodeAt (addSprout st i lvl) m).delegates = (nodeAt st m).delegates ∧
      (nodeAt (addSprout st i lvl) m).level = (nodeAt st m).level ∧
      ∀ j ∈ (nodeAt st m).sprouts, j ∈ (nodeAt (addSprout st i lvl) m).sprouts := by
    intro m hm
    rw [nodeAt_addSprout st hi m hm]
    split
    · rename_i e; subst e
      exact ⟨rfl, rfl, fun j hj => List.mem_append_left _ hj⟩
    · exact ⟨rfl, rfl, fun j hj => hj⟩
  intro j hj1 hj2
  rw [addSprout_length] at hj2
  by_cases e : j < st.nodes.length
  · obtain ⟨i', k', idx', d', a1, a2, a3, a4, a5, a6⟩ := h j hj1 e
    refine ⟨i', k', idx', d', by rw [addSprout_length]; omega, a2, a3, ?_, ?_, ?_⟩
    · rw [(hb i' a1).1]; exact a4
    · exact (hb i' a1).2.2 j a5
    · rw [(hb i' a1).2.1, (hb j e).2.1]; exact a6
  · have : j = st.nodes.length := by omega
    subst this
    refine ⟨i, k, idx, d, by rw [addSprout_length]; omega, h1, h2, ?_, ?_, ?_⟩
    · rw [(hb i hi).1]; exact h3
    · rw [nodeAt_addSprout st hi i hi, if_pos rfl]; simp
    · rw [(hb i hi).2.1, nodeAt_addSprout_new, hlvl]; rfl

theorem sproutLoop_from {n : ℕ} {c ctr : ℕ → ℕ} {i k lvl alive : ℕ} (h1 : c i ≤ k) (h2 : k < ctr i)
    (dl : List D) : ∀ (ds : List D) (idx released : ℕ) (next created : List (NState D)) (st : Hgs.State D K),
    (∀ p, ds[p]? = dl[idx + p]?) → i < st.nodes.length → (nodeAt st i).delegates = dl →
    (nodeAt st i).level = lvl → From n c st ctr →
    From n c (sproutLoop cfg spawn i k lvl alive ds idx released next created st).1 ctr
  | [], _, _, _, _, _, _, _, _, _, h => h
  | d :: ds, idx, released, next, created, st, hd, hi, hdl, hl, h => by
    have hds : ∀ p, ds[p]? = dl[idx + 1 + p]? := by
      intro p
      have := hd (p + 1)
      rw [List.getElem?_cons_succ] at this
      rw [this]
      congr 1
      omega
    simp only [sproutLoop]
    split
    · exact h
    · split
      · exact sproutLoop_from h1 h2 dl ds _ _ _ _ _ hds hi hdl hl h
      · have hd0 : (nodeAt st i).delegates[idx]? = some d := by
          have := hd 0
          rw [List.getElem?_cons_zero] at this
          rw [hdl, this]; rfl
        have hnew := h.add hi h1 h2 hd0
        rw [hl] at hnew
        refine sproutLoop_from h1 h2 dl ds _ _ _ _ _ hds (by rw [addSprout_length]; omega) ?_ ?_ hnew
        · rw [nodeAt_addSprout st hi i hi, if_pos rfl]; exact hdl
        · rw [nodeAt_addSprout st hi i hi, if_pos rfl]; exact hl

theorem releaseTurn_from {n : ℕ} {c : ℕ → ℕ} {i : ℕ} {next : List (NState D)} {σ : PState D K}
    {r : PState D K × NState D × List (NState D)} (h : releaseTurn cfg spawn i next σ = some r)
    (hc : ∀ n, c n ≤ σ.ctr n) (hf : From n c σ.st σ.ctr) : From n c r.1.st r.1.ctr := by
  have hct := releaseTurn_ctr h
  simp only [releaseTurn] at h
  split at h
  · cases h
  · rename_i a ha
    have hi := (List.getElem?_eq_some_iff.1 ha).1
    have hat : nodeAt σ.st i = a := by simp [nodeAt, ha]
    simp only [Option.some.injEq] at h
    subst h
    simp only at hct ⊢
    split
    · exact sproutLoop_from (hc i) hct.2 a.delegates _ _ _ _ _ _ (fun p => by rw [Nat.zero_add]) hi
        (by rw [hat]) (by rw [hat]) (hf.mono hct.1)
    · exact hf.mono hct.1

theorem releaseNodes_from {n : ℕ} {c : ℕ → ℕ} : ∀ (is : List ℕ) (cur next : List (NState D)) (σ : PState D K)
    {r : PState D K × List (NState D)}, releaseNodes cfg spawn is cur next σ = some r →
    (∀ n, c n ≤ σ.ctr n) → From n c σ.st σ.ctr → From n c r.1.st r.1.ctr
  | [], _, _, σ, r, h, _, hf => by cases h; exact hf
  | i :: is, cur, next, σ, r, h, hc, hf => by
    simp only [releaseNodes, Option.bind_eq_some_iff] at h
    obtain ⟨t, h1, h2⟩ := h
    exact releaseNodes_from is _ _ _ h2 (fun n => (hc n).trans ((releaseTurn_ctr h1).1 n))
      (releaseTurn_from h1 hc hf)

theorem releaseLevels_from {n : ℕ} {c : ℕ → ℕ} : ∀ (lvl : ℕ) (next : List (NState D)) (σ : PState D K)
    {σ' : PState D K}, releaseLevels cfg spawn lvl next σ = some σ' → (∀ n, c n ≤ σ.ctr n) →
    From n c σ.st σ.ctr → From n c σ'.st σ'.ctr := by
  intro lvl
  induction lvl with
  | zero =>
    intro next σ σ' h hc hf
    rw [releaseLevels] at h
    simp only [Option.bind_eq_some_iff] at h
    obtain ⟨ns, _, r, h1, h2⟩ := h
    cases h2
    exact releaseNodes_from _ _ _ _ h1 hc hf
  | succ l ih =>
    intro next σ σ' h hc hf
    rw [releaseLevels] at h
    simp only [Option.bind_eq_some_iff] at h
    obtain ⟨ns, _, r, h1, h2⟩ := h
    exact ih _ _ h2 (fun n => (hc n).trans (releaseNodes_ctr _ _ _ _ h1 n)) (releaseNodes_from _ _ _ _ h1 hc hf)

theorem seqRelease_from {σ σ' : PState D K} (h : seqRelease cfg spawn σ = some σ') :
    From σ.st.nodes.length σ.ctr σ'.st σ'.ctr := by
  simp only [seqRelease, Option.bind_eq_some_iff] at h
  obtain ⟨l, _, h⟩ := h
  exact releaseLevels_from _ _ _ h (fun _ => le_rfl) fun j h1 h2 => by omega

/-- A node except for its flags and its sprouts. -/
def core (a : Hgs.Node D K) : Hgs.Node D K := { a with alive := true, ripe := false, center := none, sprouts := [] }

theorem core_bare {a b : Hgs.Node D K} (h : bare a = bare b) : core a = core b := by
  have : core (bare a) = core (bare b) := by rw [h]
  exact this

theorem core_nodeTrim (q : K) (a : Hgs.Node D K) : core (nodeTrim cfg q a) = core a := by
  simp only [nodeTrim]; split <;> rfl

theorem seqRevive_core {σ σ' : PState D K} (h : seqRevive cfg σ = some σ') :
    σ'.st.nodes.length = σ.st.nodes.length ∧ σ'.st.cost = σ.st.cost ∧
      ∀ i < σ.st.nodes.length, core (nodeAt σ'.st i) = core (nodeAt σ.st i) ∧
      (nodeAt σ'.st i).sprouts = (nodeAt σ.st i).sprouts := by
  simp only [seqRevive] at h
  split at h
  · obtain ⟨r, _, rfl⟩ := Option.map_eq_some_iff.1 h
    refine ⟨by simp, rfl, fun i hi => ?_⟩
    rw [nodeAt_mk rfl (by rw [List.getElem?_mapIdx, nodeAt_get hi]; rfl)]
    split <;> exact ⟨rfl, rfl⟩
  · cases h; exact ⟨rfl, rfl, fun _ _ => ⟨rfl, rfl⟩⟩

/-- What a step does to the attributes that do not concern the tree. -/
theorem seqStep_core (hm : cfg.maxLevel ≤ 2) (henv : ∀ n k, (env n k).costs ≠ []) {σ σ' : PState D K}
    (g : Good cfg σ) (h : seqStep cfg env spawn σ = some σ') :
    Good cfg σ' ∧ σ.st.nodes.length ≤ σ'.st.nodes.length ∧
    (∀ i < σ.st.nodes.length,
      core (nodeAt σ'.st i) = core (nodeMetaepoch cfg.fl (env i (σ.ctr i)) (nodeAt σ.st i)).1) ∧
    (∀ j, σ.st.nodes.length ≤ j → j < σ'.st.nodes.length → ∃ l, core (nodeAt σ'.st j) = Hgs.newNode l none) ∧
    From σ.st.nodes.length σ.ctr σ'.st σ'.ctr ∧
    ∃ σ₁, Served cfg env spawn σ .metaepoch (.metaepochEnd σ₁.st.cost) σ₁ ∧ σ'.st.cost = σ₁.st.cost := by
  obtain ⟨σ₁, σ₂, σ₃, T, p⟩ := phases (cfg := cfg) (env := env) (spawn := spawn) hm henv g
  have e := p.step
  rw [h, Option.some.injEq] at e
  subst e
  have l1 : σ₁.st.nodes.length = σ.st.nodes.length := p.keep.same.length
  obtain ⟨ρ, hρ⟩ : ∃ ρ, ρ = seqRedundant (seqTrim cfg σ₁) := ⟨_, rfl⟩
  have hl2 : ρ.st.nodes.length = σ.st.nodes.length := by
    rw [hρ, ← l1]; exact (seqTrim_same (cfg := cfg) σ₁).length
  have hcc : ρ.st.cost = σ₁.st.cost := by rw [hρ]; rfl
  have hctr : ∀ n, σ.ctr n ≤ ρ.ctr n := by
    intro n
    rw [hρ]
    have := p.keep.ctr
    refine le_trans ?_ ((le_bump _ _ _).trans (le_bump _ _ _))
    rw [this]
    exact le_bump _ _ _
  have hcore : ∀ i < σ.st.nodes.length,
      core (nodeAt ρ.st i) = core (nodeMetaepoch cfg.fl (env i (σ.ctr i)) (nodeAt σ.st i)).1 := by
    intro i hi
    have e1 : nodeAt ρ.st i = nodeAt (seqTrim cfg σ₁).st i := by rw [hρ]; rfl
    rw [e1, nodeAt_seqTrim (by omega), core_nodeTrim]
    congr 1
    obtain ⟨t, _, rfl⟩ := Option.map_eq_some_iff.1 p.metaepoch
    apply nodeAt_mk rfl
    simp [nodeAt_get hi]
  have hrel := p.release
  have ht2 := p.tree₂
  have hpos := p.pos₂
  rw [← hρ] at hrel ht2 hpos
  obtain ⟨lvl, σ₂', _, _, _, h2, S⟩ := seqRelease_some (spawn := spawn) hm ht2
    (fun n hn => hpos n (by omega))
  rw [hrel, Option.some.injEq] at h2
  subst h2
  obtain ⟨r1, r2, r3⟩ := seqRevive_core p.revive
  have hfrom := seqRelease_from hrel
  refine ⟨p.good', by have := S.len; omega, ?_, ?_, ?_, σ₁, .metaepoch p.metaepoch, by rw [r2, S.cost, hcc]⟩
  · intro i hi
    have := S.len
    rw [(r3 i (by omega)).1, core_bare (S.keep i (by omega)), hcore i hi]
  · intro j h1 h2
    obtain ⟨l, hl⟩ := S.new j (by omega) (by omega)
    refine ⟨l, ?_⟩
    rw [(r3 j (by omega)).1]
    have : core (bare (nodeAt σ₂.st j)) = core (Hgs.newNode l none) := by rw [hl]
    exact this
  · intro j h1 h2
    obtain ⟨i, k, idx, d, a1, a2, a3, a4, a5, a6⟩ := hfrom j (by omega) (by omega)
    have hj := r3 j (by omega)
    have hi := r3 i a1
    refine ⟨i, k, idx, d, by omega, (hctr i).trans a2, lt_of_lt_of_le a3 (seqRevive_ctr p.revive i), ?_, ?_, ?_⟩
    · have := congrArg Hgs.Node.delegates hi.1
      simp only [core] at this
      rw [this]; exact a4
    · rw [hi.2]; exact a5
    · have h1 := congrArg Hgs.Node.level hi.1
      have h2 := congrArg Hgs.Node.level hj.1
      simp only [core] at h1 h2
      rw [h1, h2]; exact a6

end Evogil.Dist
