import Verif.Lemmas.DistAsk

/-!
# The messages of one node that releases its sprouts
-/

set_option linter.unusedSectionVars false

namespace Evogil.Dist

variable {D K : Type*} [Field K] [LinearOrder K]

theorem NodeOK.set {n : ℕ} {a a' : Hgs.Node D K} {k j : ℕ} {x : NodeS D K} (h : NodeOK n a k x) (hj : j < k)
    (t : NTask D) : NodeOK n a' k { setN (.node n, j) t x with mem := some a' } := by
  refine ⟨rfl, h.sup, h.next, ?_⟩
  intro i hi
  by_cases e : i = (.node n, j)
  · subst e; exact ⟨rfl, hj⟩
  · simp only [setN, Function.update_of_ne e] at hi
    exact h.wf i hi

theorem NodeOK.set' {n : ℕ} {a : Hgs.Node D K} {k j : ℕ} {x : NodeS D K} (h : NodeOK n a k x) (hj : j < k)
    (t : NTask D) : NodeOK n a k (setN (.node n, j) t x) := by
  have := h.set (a' := a) hj t
  rw [← h.mem] at this
  exact this

theorem addSprout_length (st : Hgs.State D K) (i level : ℕ) :
    (addSprout st i level).nodes.length = st.nodes.length + 1 := by
  simp [addSprout]

theorem nodeAt_addSprout (st : Hgs.State D K) {i level : ℕ} (hi : i < st.nodes.length) (j : ℕ)
    (hj : j < st.nodes.length) : nodeAt (addSprout st i level) j =
      if j = i then { nodeAt st i with sprouts := (nodeAt st i).sprouts ++ [st.nodes.length] }
      else nodeAt st j := by
  simp only [nodeAt, addSprout]
  rw [List.getElem?_append_left (by simpa using hj), List.getElem?_modify]
  by_cases e : j = i
  · subst e; simp [List.getElem?_eq_getElem hj]
  · have : ¬ i = j := fun h => e h.symm
    simp [this, e]

theorem nodeAt_addSprout_new (st : Hgs.State D K) (i level : ℕ) :
    nodeAt (addSprout st i level) st.nodes.length = Hgs.newNode (level + 1) none := by
  simp [nodeAt, addSprout]

section
variable {cfg : Hgs.Conf D K} {env : ℕ → ℕ → Hgs.Report D K} {spawn : ℕ → ℕ → ℕ → List D}

theorem releaseNext_congr {i k : ℕ} {a a' : Hgs.Node D K} (hl : a'.level = a.level) (ha : a'.alive = a.alive)
    (hr : a'.ripe = a.ripe) (hp : a'.pop = a.pop) (sv : Addr) :
    ∀ (ds : List D) (r : Rel D), releaseNext cfg spawn i k a' sv ds r = releaseNext cfg spawn i k a sv ds r
  | [], r => by simp [releaseNext, finish, stateOf, hl, ha, hr, hp]
  | d :: ds, r => by
    simp only [releaseNext, finish, stateOf, hl, ha, hr, hp]
    split
    · rfl
    · split
      · exact releaseNext_congr hl ha hr hp sv ds _
      · rfl

/-- The loop over the delegates: from the moment at which node `i` goes on with the delegates `ds` until its
final answer is under way. -/
theorem ev_sprout {Q : Sys D K → Prop} {σ : PState D K} {i k lvl alive checked : ℕ} {me : Id} {st₀ : NState D}
    {todo : List (Req D)} {sent : ℕ} {inbox : List (Msg D K)} {tk : Option (STask D K)} {nt : ℕ}
    (hk : k < σ.ctr i) :
    ∀ (ds : List D) (idx released : ℕ) (next created : List (NState D)) (st : Hgs.State D K) (c : Sys D K),
      (∀ n, st.nodes.length ≤ n → σ.ctr n = 0) → i < st.nodes.length → (nodeAt st i).level = lvl →
      (nodeAt st i).delegates.drop idx = ds → stateOf cfg (.node i) (nodeAt st i) = st₀ →
      lvl + 1 < st.levels.length →
      SupOK { σ with st := st } c.sup → NodesOK { σ with st := st } c →
      (c.nodes i).tasks (.node i, k) = some (.release (releaseNext cfg spawn i k (nodeAt st i) .sup ds
        ⟨.sup, me, alive, next, checked, released, idx, created⟩).1) →
      c.chan = pushAll empty (.node i) (releaseNext cfg spawn i k (nodeAt st i) .sup ds
        ⟨.sup, me, alive, next, checked, released, idx, created⟩).2 →
      Client todo true sent inbox c → c.sup.tasks me = tk → c.sup.nextTask = nt →
      (∀ c' : Sys D K,
        SupOK { σ with st := (sproutLoop cfg spawn i k lvl alive ds idx released next created st).1 } c'.sup →
        NodesOK { σ with st := (sproutLoop cfg spawn i k lvl alive ds idx released next created st).1 } c' →
        c'.chan = only (.node i) .sup
          (.releaseEnd me st₀ (sproutLoop cfg spawn i k lvl alive ds idx released next created st).2) →
        Client todo true sent inbox c' → c'.sup.tasks me = tk → c'.sup.nextTask = nt →
        EvC cfg env spawn Q c') →
      EvC cfg env spawn Q c
  | [], idx, released, next, created, st, c, hz, hi, hl, hds, hst, hlv, hsup, hnodes, htask, hchan, hcl, htk,
      hnt, hQ => by
    apply hQ c hsup hnodes _ hcl htk hnt
    rw [hchan]
    simp only [releaseNext, finish, hst, pushAll_one, sproutLoop]
  | d :: ds, idx, released, next, created, st, c, hz, hi, hl, hds, hst, hlv, hsup, hnodes, htask, hchan, hcl,
      htk, hnt, hQ => by
    have hdrop : (nodeAt st i).delegates.drop (idx + 1) = ds := by
      rw [← List.drop_drop, hds]
      rfl
    by_cases hlim : cfg.sproutiveness ≤ released ∨ cfg.maxSprouts ≤ alive
    · apply hQ c
      · simp only [sproutLoop, if_pos hlim]; exact hsup
      · simp only [sproutLoop, if_pos hlim]; exact hnodes
      · rw [hchan]
        simp only [releaseNext, if_pos hlim, finish, hst, pushAll_one, sproutLoop]
      · exact hcl
      · exact htk
      · exact hnt
    · by_cases hred : redundantDelegate cfg (lvl + 1) d next = true
      · have e : releaseNext cfg spawn i k (nodeAt st i) .sup (d :: ds)
            ⟨.sup, me, alive, next, checked, released, idx, created⟩ =
            releaseNext cfg spawn i k (nodeAt st i) .sup ds
              ⟨.sup, me, alive, next, checked, released, idx + 1, created⟩ := by
          simp only [releaseNext, if_neg hlim, hl, if_pos hred]
        have e' : sproutLoop cfg spawn i k lvl alive (d :: ds) idx released next created st =
            sproutLoop cfg spawn i k lvl alive ds (idx + 1) released next created st := by
          simp only [sproutLoop, if_neg hlim, if_pos hred]
        rw [e] at htask hchan
        rw [e'] at hQ
        exact ev_sprout hk ds (idx + 1) released next created st c hz hi hl hdrop hst hlv hsup hnodes htask hchan
          hcl htk hnt hQ
      · obtain ⟨ns, hns⟩ : ∃ ns, ns = createNodeState cfg (.node i) (lvl + 1) true false (spawn i k idx) :=
          ⟨_, rfl⟩
        have e : releaseNext cfg spawn i k (nodeAt st i) .sup (d :: ds)
            ⟨.sup, me, alive, next, checked, released, idx, created⟩ =
            (⟨.sup, me, alive, next ++ [ns], checked, released, idx + 1, created ++ [ns]⟩,
              [(.sup, .registerNode (.node i, k) (lvl + 1) (spawn i k idx))]) := by
          simp only [releaseNext, if_neg hlim, hl, if_neg hred, hns]
        have e' : sproutLoop cfg spawn i k lvl alive (d :: ds) idx released next created st =
            sproutLoop cfg spawn i k lvl alive ds (idx + 1) (released + 1) (next ++ [ns]) (created ++ [ns])
              (addSprout st i lvl) := by
          simp only [sproutLoop, if_neg hlim, if_neg hred, hns]
        rw [e] at htask hchan
        rw [e'] at hQ
        rw [pushAll_one] at hchan
        have hoki := nodesOK_iff.1 hnodes i hi
        have hnN : c.sup.nextNode = st.nodes.length := hsup.next
        have hposi : 0 < (c.nodes i).nextTask := by rw [hoki.next]; simp only; omega
        have hlevels : c.sup.levels[lvl + 1]? = some (st.levels[lvl + 1]) := by
          rw [hsup.levels]; exact List.getElem?_eq_getElem hlv
        -- the supervisor creates the node
        have hrec : supReceive cfg c.sup (.registerNode (.node i, k) (lvl + 1) (spawn i k idx)) (.node i) =
            some ({ c.sup with
                nextNode := st.nodes.length + 1
                nodes := c.sup.nodes ++ [st.nodes.length]
                levels := (addSprout st i lvl).levels },
              (.node st.nodes.length, .hello) :: (.node st.nodes.length, .reset (lvl + 1) (spawn i k idx)) ::
                [(.node i, .registerNodeEnd (.node i, k) st.nodes.length)]) := by
          simp only [supReceive, createNode, hlevels, hnN]
          have : c.sup.levels.set (lvl + 1) (st.levels[lvl + 1] ++ [st.nodes.length]) =
              (addSprout st i lvl).levels := by
            simp only [addSprout]
            rw [hsup.levels, List.modify_eq_set, List.getElem?_eq_getElem hlv]
            rfl
          rw [this]
          rfl
        refine ev_single (c' := { c with
            sup := { c.sup with
              nextNode := st.nodes.length + 1
              nodes := c.sup.nodes ++ [st.nodes.length]
              levels := (addSprout st i lvl).levels }
            nodes := Function.update c.nodes st.nodes.length (booted (lvl + 1))
            chan := only .sup (.node i) (.registerNodeEnd (.node i, k) st.nodes.length) })
          hchan hcl.waiting ⟨hnN ▸ hi, hposi⟩ trivial ?_ ?_
        · simp only [chandle, hrec, Option.map_some, hchan, pop_only, syncPost, pushAll_one]
        have hne : i ≠ st.nodes.length := by omega
        -- the node goes on
        have hmem : (c.nodes i).mem = some (nodeAt st i) := hoki.mem
        have hsv : (c.nodes i).supervisor = some .sup := hoki.sup
        have hnr : nodeReceive cfg env spawn i (c.nodes i) (.registerNodeEnd (.node i, k) st.nodes.length) .sup =
            some ({ setN (.node i, k) (.release (releaseNext cfg spawn i k (nodeAt (addSprout st i lvl) i) .sup ds
                  ⟨.sup, me, alive, next ++ [ns], checked, released + 1, idx + 1, created ++ [ns]⟩).1)
                (c.nodes i) with mem := some (nodeAt (addSprout st i lvl) i) },
              (releaseNext cfg spawn i k (nodeAt (addSprout st i lvl) i) .sup ds
                  ⟨.sup, me, alive, next ++ [ns], checked, released + 1, idx + 1, created ++ [ns]⟩).2) := by
          have h1 : nodeAt (addSprout st i lvl) i =
              { nodeAt st i with sprouts := (nodeAt st i).sprouts ++ [st.nodes.length] } := by
            rw [nodeAt_addSprout st hi i hi, if_pos rfl]
          simp only [nodeReceive, Msg.id?, Option.bind_some, htask, Option.map_some, nodeTask, hmem, hsv, hdrop,
            h1]
        refine ev_single (c' := { c with
            sup := { c.sup with
              nextNode := st.nodes.length + 1
              nodes := c.sup.nodes ++ [st.nodes.length]
              levels := (addSprout st i lvl).levels }
            nodes := Function.update (Function.update c.nodes st.nodes.length (booted (lvl + 1))) i
              { setN (.node i, k) (.release (releaseNext cfg spawn i k (nodeAt (addSprout st i lvl) i) .sup ds
                  ⟨.sup, me, alive, next ++ [ns], checked, released + 1, idx + 1, created ++ [ns]⟩).1)
                (c.nodes i) with mem := some (nodeAt (addSprout st i lvl) i) }
            chan := pushAll empty (.node i) (releaseNext cfg spawn i k (nodeAt (addSprout st i lvl) i) .sup ds
                  ⟨.sup, me, alive, next ++ [ns], checked, released + 1, idx + 1, created ++ [ns]⟩).2 })
          rfl hcl.waiting trivial ⟨by simp only; omega, Or.inl rfl⟩ ?_ ?_
        · simp only [chandle, handle, Function.update_of_ne hne, hnr, Option.map_some, pop_only]
        have hi' : i < (addSprout st i lvl).nodes.length := by rw [addSprout_length]; omega
        have hati : nodeAt (addSprout st i lvl) i =
            { nodeAt st i with sprouts := (nodeAt st i).sprouts ++ [st.nodes.length] } := by
          rw [nodeAt_addSprout st hi i hi, if_pos rfl]
        refine ev_sprout hk ds (idx + 1) (released + 1) (next ++ [ns]) (created ++ [ns]) (addSprout st i lvl) _
          ?_ hi' ?_ ?_ ?_ ?_ ?_ ?_ ?_ rfl ?_ htk hnt hQ
        · intro n hn
          rw [addSprout_length] at hn
          exact hz n (by omega)
        · rw [hati]; exact hl
        · rw [hati]; exact hdrop
        · rw [hati]; exact hst
        · simpa [addSprout] using hlv
        · refine ⟨?_, ?_, rfl, hsup.cost, hsup.ratio, hsup.states, hsup.wf⟩
          · simp only [hsup.nodes, addSprout_length, List.range_succ]
          · simp only [addSprout_length]
        · rw [nodesOK_iff]
          intro n hn
          simp only [addSprout_length] at hn
          by_cases en : n = i
          · subst en
            simp only [Function.update_self]
            exact hoki.set hk _
          · simp only [Function.update_of_ne en]
            by_cases eN : n = st.nodes.length
            · subst eN
              simp only [Function.update_self, nodeAt_addSprout_new, hz _ le_rfl]
              exact ⟨rfl, rfl, rfl, by intro j hj; simp [booted] at hj⟩
            · simp only [Function.update_of_ne eN]
              rw [nodeAt_addSprout st hi n (by omega), if_neg en]
              exact nodesOK_iff.1 hnodes n (by simp only; omega)
        · simp [setN]
        · exact ⟨hcl.todo, hcl.waiting, hcl.sent, hcl.inbox⟩

end

end Evogil.Dist
