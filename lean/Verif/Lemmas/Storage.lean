import Verif.Model.Storage

/-! # Lemmas about the file tree model -/

namespace Evogil.Storage

variable {C : Type*}

/-- Going from `fs` to `fs'` only directories were added, all of them at `p` or above it. -/
structure Grows (fs fs' : FS C) (p : RPath) : Prop where
  keep : ∀ q n, fs q = some n → fs' q = some n
  new : ∀ q, fs q = none → fs' q ≠ none → fs' q = some .dir ∧ q <:+ p

theorem Grows.refl (fs : FS C) (p : RPath) : Grows fs fs p :=
  ⟨fun _ _ h => h, fun _ h h' => absurd h h'⟩

theorem Grows.trans {fs fs1 fs2 : FS C} {p p' : RPath} (hp : p <:+ p')
    (h1 : Grows fs fs1 p) (h2 : Grows fs1 fs2 p') : Grows fs fs2 p' := by
  refine ⟨fun q n h => h2.keep q n (h1.keep q n h), fun q h h' => ?_⟩
  by_cases hq : fs1 q = none
  · exact h2.new q hq h'
  · obtain ⟨hd, hs⟩ := h1.new q h hq
    exact ⟨h2.keep q _ hd, hs.trans hp⟩

theorem osMkdir_grows {fs fs' : FS C} {p : RPath} (h : osMkdir fs p = .ok fs') :
    Grows fs fs' p ∧ fs' p = some .dir := by
  cases p with
  | nil => simp [osMkdir] at h
  | cons c par =>
    rw [osMkdir] at h
    split at h
    · cases h
    · cases h
    · split at h
      · cases h
      · rename_i hn
        cases h
        refine ⟨⟨fun q n hq => ?_, fun q hq hq' => ?_⟩, by simp [FS.set]⟩
        · by_cases e : q = c :: par
          · subst e; rw [hn] at hq; cases hq
          · simp [FS.set, e, hq]
        · by_cases e : q = c :: par
          · subst e; simp [FS.set]
          · simp [FS.set, e, hq] at hq'

theorem isDir_iff {o : Option (Node C)} : isDir o = true ↔ o = some .dir := by
  rcases o with _ | _ | _ <;> simp [isDir]

theorem mkdirParents_grows {fs fs' : FS C} {b : Bool} {p : RPath} (hr : fs [] = some .dir)
    (h : mkdirParents fs b p = .ok fs') : Grows fs fs' p ∧ fs' p = some .dir := by
  induction p generalizing b fs' with
  | nil =>
    rw [mkdirParents] at h
    split at h
    · cases h; exact ⟨Grows.refl _ _, hr⟩
    · cases h
  | cons c par ih =>
    rw [mkdirParents] at h
    split at h
    · rename_i f hf
      cases h
      exact osMkdir_grows hf
    · split at h
      · rename_i fs1 h1
        have g1 := ih h1
        have g2 := osMkdir_grows h
        exact ⟨g1.1.trans (List.suffix_cons _ _) g2.1, g2.2⟩
      · cases h
    · split at h
      · rename_i hb
        cases h
        simp only [Bool.and_eq_true, isDir_iff] at hb
        exact ⟨Grows.refl _ _, hb.2⟩
      · cases h

/-- Making a directory with its parents succeeds when no file is in the way. -/
theorem mkdirParents_ok {fs : FS C} (hwf : fs.WF) {p : RPath}
    (hno : ∀ q c, q <:+ p → fs q ≠ some (.file c)) :
    (∃ fs', mkdirParents fs true p = .ok fs') ∧
    ((fs p = some .dir ∧ mkdirParents fs false p = .error .fileExists) ∨
      ∃ fs', mkdirParents fs false p = .ok fs') := by
  induction p with
  | nil => exact ⟨⟨fs, rfl⟩, Or.inl ⟨hwf.root, rfl⟩⟩
  | cons c par ih =>
    have hno' : ∀ q c', q <:+ par → fs q ≠ some (.file c') := fun q c' hq =>
      hno q c' (hq.trans (List.suffix_cons _ _))
    obtain ⟨⟨fs1, h1⟩, -⟩ := ih hno'
    rcases hpar : fs par with _ | _ | v
    · -- the parent is missing
      have e : osMkdir fs (c :: par) = .error .fileNotFound := by simp [osMkdir, hpar]
      have hc : fs (c :: par) = none := by
        by_contra hne
        have := hwf.parent c par hne
        rw [hpar] at this; cases this
      have g1 := mkdirParents_grows hwf.root h1
      have hc1 : fs1 (c :: par) = none := by
        by_contra hne
        have := (g1.1.new _ hc hne).2
        have := this.length_le
        simp only [List.length_cons] at this
        omega
      have e2 : osMkdir fs1 (c :: par) = .ok (fs1.set (c :: par) .dir) := by
        simp [osMkdir, g1.2, hc1]
      exact ⟨⟨fs1.set (c :: par) .dir, by simp [mkdirParents, e, h1, e2]⟩,
        Or.inr ⟨fs1.set (c :: par) .dir, by simp [mkdirParents, e, h1, e2]⟩⟩
    · rcases hc : fs (c :: par) with _ | _ | v
      · have e2 : osMkdir fs (c :: par) = .ok (fs.set (c :: par) .dir) := by
          simp [osMkdir, hpar, hc]
        exact ⟨⟨_, by rw [mkdirParents, e2]⟩, Or.inr ⟨_, by rw [mkdirParents, e2]⟩⟩
      · have e2 : osMkdir fs (c :: par) = .error .fileExists := by simp [osMkdir, hpar, hc]
        exact ⟨⟨fs, by simp [mkdirParents, e2, hc, isDir]⟩,
          Or.inl ⟨rfl, by simp [mkdirParents, e2]⟩⟩
      · exact absurd hc (hno _ _ List.suffix_rfl)
    · exact absurd hpar (hno' _ _ List.suffix_rfl)

theorem osMkdir_wf {fs fs' : FS C} (hwf : fs.WF) {p : RPath} (h : osMkdir fs p = .ok fs') :
    fs'.WF := by
  obtain ⟨g, -⟩ := osMkdir_grows h
  cases p with
  | nil => simp [osMkdir] at h
  | cons c par =>
    rw [osMkdir] at h
    split at h
    · cases h
    · cases h
    · rename_i hpar
      split at h
      · cases h
      · cases h
        refine ⟨g.keep _ _ hwf.root, fun c' q hq => ?_⟩
        by_cases e : c' :: q = c :: par
        · simp only [List.cons.injEq] at e
          obtain ⟨rfl, rfl⟩ := e
          exact g.keep _ _ hpar
        · simp only [FS.set, e, if_false] at hq
          exact g.keep _ _ (hwf.parent _ _ hq)

theorem mkdirParents_wf {fs fs' : FS C} (hwf : fs.WF) {b : Bool} {p : RPath}
    (h : mkdirParents fs b p = .ok fs') : fs'.WF := by
  induction p generalizing b fs' with
  | nil =>
    rw [mkdirParents] at h
    split at h
    · cases h; exact hwf
    · cases h
  | cons c par ih =>
    rw [mkdirParents] at h
    split at h
    · rename_i f hf
      cases h
      exact osMkdir_wf hwf hf
    · split at h
      · rename_i fs1 h1
        exact osMkdir_wf (ih h1) h
      · cases h
    · split at h
      · cases h; exact hwf
      · cases h

theorem saveFile_wf {fs fs' : FS C} (hwf : fs.WF) {p : RPath} (hp : p ≠ []) {r : C}
    (h : saveFile fs p r = .ok fs') : fs'.WF := by
  rw [saveFile] at h
  split at h
  · cases h
  · cases h
  · rename_i hd
    split at h
    · cases h
    · rename_i hnd
      cases h
      refine ⟨by simp [FS.set, hp.symm, hwf.root], fun c q hq => ?_⟩
      have hdir : fs q = some .dir := by
        by_cases e : c :: q = p
        · rw [← e] at hd; exact hd
        · simp only [FS.set, e, if_false] at hq
          exact hwf.parent _ _ hq
      have hqp : q ≠ p := by rintro rfl; exact hnd hdir
      simp [FS.set, hqp, hdir]

/-- What a successful `store` did: it added directories towards the target and wrote the target. -/
theorem store_spec {fs fs' : FS C} (hr : fs [] = some .dir) {s : Case} {r : C} {name : Name}
    (h : store fs s r name = .ok fs') :
    ∃ fs1, Grows fs fs1 s.path ∧ fs1 s.path = some .dir ∧
      fs1 (s.resultPath name) ≠ some .dir ∧
      fs' = fs1.set (s.resultPath name) (.file r) := by
  have save : ∀ fs1 : FS C, saveFile fs1 (s.resultPath name) r = .ok fs' →
      fs1 s.path = some .dir ∧ fs1 (s.resultPath name) ≠ some .dir ∧
      fs' = fs1.set (s.resultPath name) (.file r) := by
    intro fs1 h1
    rw [saveFile] at h1
    have ht : (s.resultPath name).tail = s.path := rfl
    rw [ht] at h1
    split at h1
    · cases h1
    · cases h1
    · rename_i hd
      split at h1
      · cases h1
      · rename_i hnd
        cases h1
        exact ⟨hd, hnd, rfl⟩
  rw [store] at h
  rcases hm : mkdirParents fs false s.path with e | fs1
  · rw [hm] at h
    cases e <;> simp only [reduceCtorEq] at h
    obtain ⟨a, b, c⟩ := save fs h
    exact ⟨fs, Grows.refl _ _, a, b, c⟩
  · rw [hm] at h
    obtain ⟨a, b, c⟩ := save fs1 h
    exact ⟨fs1, (mkdirParents_grows hr hm).1, a, b, c⟩

theorem resultPath_inj {s s' : Case} {n n' : Name}
    (h : s.resultPath n = s'.resultPath n') : s = s' ∧ n = n' := by
  cases s; cases s'
  simp only [Case.resultPath, Case.path, List.cons.injEq] at h
  obtain ⟨h1, h2, h3, h4, h5⟩ := h
  have := List.append_cancel_right h1
  simp_all

/-! ### Digits -/

theorem readNat_showNat (n : ℕ) : readNat (showNat n) = n := by
  simp [readNat, showNat]

theorem showNat_inj {m n : ℕ} (h : showNat m = showNat n) : m = n := by
  rw [← readNat_showNat m, h, readNat_showNat]

theorem showNat_digit {n : ℕ} {c : Char} (h : c ∈ showNat n) : c.isDigit = true :=
  Nat.isDigit_of_mem_toDigits (by omega) (by omega) h

theorem showNat_ne_nil (n : ℕ) : showNat n ≠ [] := Nat.toDigits_ne_nil

theorem length_showNat_le {n k : ℕ} (hk : 0 < k) : (showNat n).length ≤ k ↔ n < 10 ^ k :=
  Nat.length_toDigits_le_iff (by omega) hk

theorem readNat_pad7 (s : Name) : readNat (pad7 s) = readNat s := by
  simp [readNat, pad7, Nat.ofDigitChars_append]

theorem length_pad7 (s : Name) : (pad7 s).length = max 7 s.length := by
  simp [pad7]; omega

theorem pad7_digit {s : Name} (h : ∀ c ∈ s, c.isDigit = true) : ∀ c ∈ pad7 s, c.isDigit = true := by
  intro c hc
  simp only [pad7, List.mem_append, List.mem_replicate] at hc
  rcases hc with ⟨_, rfl⟩ | hc
  · decide
  · exact h c hc

theorem pad7_eq_self {s : Name} (h : 7 ≤ s.length) : pad7 s = s := by
  simp [pad7, Nat.sub_eq_zero_of_le h]

/-! ### Regular expressions -/

theorem matchSeq_append {ks ks' : List Cls} {cs cs' : Name} (hl : ks.length = cs.length) :
    matchSeq (ks ++ ks') (cs ++ cs') = (matchSeq ks cs && matchSeq ks' cs') := by
  induction ks generalizing cs with
  | nil => cases cs with
    | nil => simp [matchSeq]
    | cons => simp at hl
  | cons k ks ih => cases cs with
    | nil => simp at hl
    | cons c cs =>
      simp only [List.cons_append, matchSeq]
      rw [ih (by simpa using hl), Bool.and_assoc]

theorem matchSeq_length {ks : List Cls} {cs : Name} (h : matchSeq ks cs = true) :
    ks.length = cs.length := by
  induction ks generalizing cs with
  | nil => cases cs with
    | nil => rfl
    | cons => simp [matchSeq] at h
  | cons k ks ih => cases cs with
    | nil => simp [matchSeq] at h
    | cons c cs =>
      simp only [matchSeq, Bool.and_eq_true] at h
      simp [ih h.2]

theorem matchSeq_digits (n : ℕ) (cs : Name) :
    matchSeq (List.replicate n .digit) cs = true ↔ cs.length = n ∧ ∀ c ∈ cs, c.isDigit = true := by
  induction n generalizing cs with
  | zero => cases cs <;> simp [matchSeq]
  | succ n ih => cases cs with
    | nil => simp [matchSeq, List.replicate_succ]
    | cons c cs =>
      simp only [List.replicate_succ, matchSeq, Bool.and_eq_true, ih, Cls.ok, List.length_cons,
        List.forall_mem_cons]
      constructor
      · rintro ⟨a, b, d⟩; exact ⟨by omega, a, d⟩
      · rintro ⟨a, b, d⟩; exact ⟨b, by omega, d⟩

theorem length_dateCls : dateCls.length = 24 := rfl

/-- What the run-directory expression accepts. -/
theorem matchRun_eq_some {name d r : Name} :
    matchRun name = some (d, r) ↔
      name = d ++ ['_', '_'] ++ r ∧ matchSeq dateCls d = true ∧ r.length = 7 ∧
        ∀ c ∈ r, c.isDigit = true := by
  constructor
  · intro h
    rw [matchRun] at h
    split at h
    · rename_i hm
      simp only [Option.some.injEq, Prod.mk.injEq] at h
      obtain ⟨hd, hr⟩ := h
      have hlen := matchSeq_length hm
      have hlen' : name.length = 33 := by rw [← hlen]; rfl
      have hsplit : name = d ++ (((name.drop 24).take 2) ++ r) := by
        rw [← hd, ← hr]
        rw [show name.drop 26 = (name.drop 24).drop 2 by simp, List.take_append_drop,
          List.take_append_drop]
      have hdl : d.length = 24 := by rw [← hd]; simp [hlen']
      have h2 : ((name.drop 24).take 2).length = 2 := by simp [hlen']
      rw [hsplit, runCls, List.append_assoc, matchSeq_append (by rw [hdl]; rfl),
        matchSeq_append (by rw [h2]; rfl)] at hm
      simp only [Bool.and_eq_true, matchSeq_digits] at hm
      obtain ⟨hm1, hm2, hm3⟩ := hm
      refine ⟨?_, hm1, hm3.1, hm3.2⟩
      have h22 : (name.drop 24).take 2 = ['_', '_'] := by
        match hx : (name.drop 24).take 2, h2, hm2 with
        | [a, b], _, hm2 =>
          simp [matchSeq, Cls.ok] at hm2
          simp [hm2]
      rw [hsplit, h22]
      simp
    · cases h
  · rintro ⟨rfl, hd, hr, hdig⟩
    have hdl : d.length = 24 := by rw [← matchSeq_length hd]; rfl
    have hm : matchSeq runCls (d ++ ['_', '_'] ++ r) = true := by
      rw [runCls, List.append_assoc, List.append_assoc, matchSeq_append (by rw [hdl]; rfl),
        matchSeq_append (by rfl)]
      simp only [Bool.and_eq_true, matchSeq_digits]
      exact ⟨hd, by decide, hr, hdig⟩
    rw [matchRun, if_pos hm]
    simp only [Option.some.injEq, Prod.mk.injEq]
    constructor
    · rw [List.append_assoc, List.take_append_of_le_length (by omega), ← hdl, List.take_length]
    · rw [List.drop_append]; simp [hdl]

theorem matchNumber_eq_some {name d : Name} :
    matchNumber name = some d ↔
      name = d ++ pickleExt ∧ d ≠ [] ∧ ∀ c ∈ d, c.isDigit = true := by
  constructor
  · intro h
    simp only [matchNumber] at h
    split at h
    · rename_i hc
      simp only [Option.some.injEq] at h
      subst h
      refine ⟨?_, hc.1, fun c hc' => ?_⟩
      · rw [← hc.2, List.takeWhile_append_dropWhile]
      · exact List.all_eq_true.1 List.all_takeWhile c hc'
    · cases h
  · rintro ⟨rfl, hne, hd⟩
    have h1 : (d ++ pickleExt).takeWhile Char.isDigit = d := by
      rw [List.takeWhile_append_of_pos hd]
      simp [pickleExt, Char.isDigit]
    have h2 : (d ++ pickleExt).dropWhile Char.isDigit = pickleExt := by
      rw [List.dropWhile_append_of_pos hd]
      simp [pickleExt, Char.isDigit]
    simp only [matchNumber, h1, h2]
    simp [hne]

end Evogil.Storage
