import Verif.Model.RankingRun
import Verif.Spec.RankingRun
import Verif.Props.Statistics

/-! # Dictionaries of the ranking -/

set_option linter.unusedSectionVars false

namespace Evogil.RankingRun

open Statistics Spec

section dict
variable {κ β : Type*} [DecidableEq κ]

/-- The list stored under a key, empty if there is none. -/
def get (d : List (κ × List β)) (k : κ) : List β :=
  match d with
  | [] => []
  | e :: rest => if e.1 = k then e.2 else get rest k

theorem get_push (k : κ) (v : β) (d : List (κ × List β)) (k' : κ) :
    get (push k v d) k' = get d k' ++ if k = k' then [v] else [] := by
  induction d with
  | nil => by_cases h : k = k' <;> simp [push, get, h]
  | cons e rest ih =>
    unfold push
    by_cases h1 : e.1 = k
    · by_cases h2 : k = k'
      · simp [get, h1, h2]
      · simp [get, h1, h2]
    · rw [if_neg h1]
      by_cases h2 : e.1 = k'
      · have : k ≠ k' := fun h => h1 (h2.trans h.symm)
        simp [get, h2, this]
      · simp only [get, if_neg h2, ih]

theorem keys_push (k : κ) (v : β) (d : List (κ × List β)) (k' : κ) :
    k' ∈ (push k v d).map Prod.fst ↔ k' = k ∨ k' ∈ d.map Prod.fst := by
  induction d with
  | nil => simp [push]
  | cons e rest ih =>
    unfold push
    by_cases h1 : e.1 = k
    · rw [if_pos h1]; simp only [List.map_cons, List.mem_cons, h1]; tauto
    · rw [if_neg h1]; simp only [List.map_cons, List.mem_cons, ih]; tauto

theorem nodup_push (k : κ) (v : β) (d : List (κ × List β)) (h : (d.map Prod.fst).Nodup) :
    ((push k v d).map Prod.fst).Nodup := by
  induction d with
  | nil => simp [push]
  | cons e rest ih =>
    rw [List.map_cons, List.nodup_cons] at h
    unfold push
    by_cases h1 : e.1 = k
    · rw [if_pos h1]; simpa using h
    · rw [if_neg h1, List.map_cons, List.nodup_cons]
      refine ⟨?_, ih h.2⟩
      rw [keys_push]
      rintro (h2 | h2)
      · exact h1 h2
      · exact h.1 h2

theorem get_eq {d : List (κ × List β)} (h : (d.map Prod.fst).Nodup) {e : κ × List β} (he : e ∈ d) :
    get d e.1 = e.2 := by
  induction d with
  | nil => simp at he
  | cons x rest ih =>
    rw [List.map_cons, List.nodup_cons] at h
    rcases List.mem_cons.1 he with rfl | he
    · simp [get]
    · have : x.1 ≠ e.1 := fun hx => h.1 (hx ▸ List.mem_map_of_mem he)
      simp only [get, if_neg this, ih h.2 he]

theorem mem_get {d : List (κ × List β)} {k : κ} (hk : k ∈ d.map Prod.fst) : (k, get d k) ∈ d := by
  induction d with
  | nil => simp at hk
  | cons x rest ih =>
    by_cases h : x.1 = k
    · subst h; simp [get]
    · simp only [get, if_neg h]
      refine List.mem_cons_of_mem _ (ih ?_)
      rcases List.mem_cons.1 hk with h' | h'
      · exact absurd h'.symm h
      · exact h'

theorem get_of_not_mem {d : List (κ × List β)} {k : κ} (hk : k ∉ d.map Prod.fst) : get d k = [] := by
  induction d with
  | nil => rfl
  | cons x rest ih =>
    simp only [List.map_cons, List.mem_cons, not_or] at hk
    simp only [get, if_neg (Ne.symm hk.1), ih hk.2]

/-- All of a list of pairs pushed. -/
def pushAll (evs : List (κ × β)) (d : List (κ × List β)) : List (κ × List β) :=
  evs.foldl (fun d e => push e.1 e.2 d) d

theorem pushAll_append (a b : List (κ × β)) (d : List (κ × List β)) :
    pushAll (a ++ b) d = pushAll b (pushAll a d) := List.foldl_append

theorem get_pushAll (evs : List (κ × β)) : ∀ (d : List (κ × List β)) (k : κ),
    get (pushAll evs d) k = get d k ++ (evs.filter fun e => decide (e.1 = k)).map Prod.snd := by
  induction evs with
  | nil => intro d k; simp [pushAll]
  | cons e evs ih =>
    intro d k
    have := ih (push e.1 e.2 d) k
    unfold pushAll at this ⊢
    rw [List.foldl_cons, this, get_push, List.append_assoc]
    congr 1
    by_cases h : e.1 = k <;> simp [h]

theorem keys_pushAll (evs : List (κ × β)) : ∀ (d : List (κ × List β)) (k : κ),
    k ∈ (pushAll evs d).map Prod.fst ↔ k ∈ evs.map Prod.fst ∨ k ∈ d.map Prod.fst := by
  induction evs with
  | nil => intro d k; simp [pushAll]
  | cons e evs ih =>
    intro d k
    have := ih (push e.1 e.2 d) k
    unfold pushAll at this ⊢
    rw [List.foldl_cons, this, keys_push, List.map_cons, List.mem_cons]
    tauto

theorem nodup_pushAll (evs : List (κ × β)) : ∀ (d : List (κ × List β)), (d.map Prod.fst).Nodup →
    ((pushAll evs d).map Prod.fst).Nodup := by
  induction evs with
  | nil => intro d h; exact h
  | cons e evs ih => intro d h; exact ih _ (nodup_push _ _ _ h)

end dict

section counter
variable {κ : Type*} [DecidableEq κ]

/-- The count of a key. -/
def cnt (c : List (κ × ℕ)) (a : κ) : ℕ :=
  match c with
  | [] => 0
  | e :: rest => if e.1 = a then e.2 else cnt rest a

theorem cnt_bump (a : κ) (c : List (κ × ℕ)) (b : κ) :
    cnt (bump a c) b = cnt c b + if a = b then 1 else 0 := by
  induction c with
  | nil => by_cases h : a = b <;> simp [bump, cnt, h]
  | cons e rest ih =>
    unfold bump
    by_cases h1 : e.1 = a
    · by_cases h2 : a = b <;> simp [cnt, h1, h2]
    · rw [if_neg h1]
      by_cases h2 : e.1 = b
      · have : a ≠ b := fun h => h1 (h2.trans h.symm)
        simp [cnt, h2, this]
      · simp only [cnt, if_neg h2, ih]

theorem keys_bump (a : κ) (c : List (κ × ℕ)) (b : κ) :
    b ∈ (bump a c).map Prod.fst ↔ b = a ∨ b ∈ c.map Prod.fst := by
  induction c with
  | nil => simp [bump]
  | cons e rest ih =>
    unfold bump
    by_cases h1 : e.1 = a
    · rw [if_pos h1]; simp only [List.map_cons, List.mem_cons, h1]; tauto
    · rw [if_neg h1]; simp only [List.map_cons, List.mem_cons, ih]; tauto

/-- No key twice, and only positive counts. -/
def Proper (c : List (κ × ℕ)) : Prop := (c.map Prod.fst).Nodup ∧ ∀ e ∈ c, 0 < e.2

theorem proper_bump (a : κ) (c : List (κ × ℕ)) (h : Proper c) : Proper (bump a c) := by
  induction c with
  | nil => simp [bump, Proper]
  | cons e rest ih =>
    obtain ⟨h1, h2⟩ := h
    rw [List.map_cons, List.nodup_cons] at h1
    have hr : Proper rest := ⟨h1.2, fun x hx => h2 x (List.mem_cons_of_mem _ hx)⟩
    unfold bump
    by_cases h3 : e.1 = a
    · rw [if_pos h3]
      refine ⟨by simpa using h1, fun x hx => ?_⟩
      rcases List.mem_cons.1 hx with rfl | hx
      · exact Nat.succ_pos _
      · exact hr.2 x hx
    · rw [if_neg h3]
      refine ⟨?_, fun x hx => ?_⟩
      · rw [List.map_cons, List.nodup_cons]
        refine ⟨?_, (ih hr).1⟩
        rw [keys_bump]
        rintro (h4 | h4)
        · exact h3 h4
        · exact h1.1 h4
      · rcases List.mem_cons.1 hx with rfl | hx
        · exact h2 _ (by simp)
        · exact (ih hr).2 x hx

theorem total_bump (a : κ) (c : List (κ × ℕ)) :
    ((bump a c).map Prod.snd).sum = (c.map Prod.snd).sum + 1 := by
  induction c with
  | nil => simp [bump]
  | cons e rest ih =>
    unfold bump
    by_cases h1 : e.1 = a
    · rw [if_pos h1]; simp; omega
    · rw [if_neg h1, List.map_cons, List.sum_cons, ih]; simp; omega

theorem mem_iff_cnt {c : List (κ × ℕ)} (h : Proper c) (a : κ) (n : ℕ) :
    (a, n) ∈ c ↔ 0 < n ∧ n = cnt c a := by
  induction c with
  | nil => simp [cnt]; omega
  | cons e rest ih =>
    obtain ⟨h1, h2⟩ := h
    rw [List.map_cons, List.nodup_cons] at h1
    have hr : Proper rest := ⟨h1.2, fun x hx => h2 x (List.mem_cons_of_mem _ hx)⟩
    have he := h2 e (by simp)
    rw [List.mem_cons]
    by_cases h3 : e.1 = a
    · simp only [cnt, if_pos h3]
      constructor
      · rintro (h4 | h4)
        · rw [← h4] at he ⊢; exact ⟨he, rfl⟩
        · exact absurd (h3 ▸ List.mem_map_of_mem (f := Prod.fst) h4) h1.1
      · rintro ⟨-, rfl⟩
        left; rw [← h3]
    · simp only [cnt, if_neg h3]
      rw [← ih hr]
      constructor
      · rintro (h4 | h4)
        · exact absurd (by rw [← h4]) h3
        · exact h4
      · exact .inr

theorem bumps (names : List κ) : ∀ c : List (κ × ℕ), Proper c →
    Proper (names.foldl (fun c a => bump a c) c) ∧
      (∀ a, cnt (names.foldl (fun c a => bump a c) c) a = cnt c a + names.count a) ∧
      ((names.foldl (fun c a => bump a c) c).map Prod.snd).sum = (c.map Prod.snd).sum + names.length := by
  induction names with
  | nil => intro c h; simpa using h
  | cons x names ih =>
    intro c h
    obtain ⟨h1, h2, h3⟩ := ih _ (proper_bump x c h)
    refine ⟨h1, fun a => ?_, ?_⟩
    · rw [List.foldl_cons, h2, cnt_bump, List.count_cons]
      by_cases hx : x = a <;> simp [hx] <;> omega
    · rw [List.foldl_cons, h3, total_bump, List.length_cons]; omega

/-- One counter per key, all of them proper. -/
def Good (d : List (κ × List (String × ℕ))) : Prop :=
  (d.map Prod.fst).Nodup ∧ ∀ e ∈ d, Proper e.2

theorem get_award (m : κ) (names : List String) (d : List (κ × List (String × ℕ))) (m' : κ) :
    get (award m names d) m' =
      if m = m' then names.foldl (fun c a => bump a c) (get d m') else get d m' := by
  induction d with
  | nil => by_cases h : m = m' <;> simp [award, get, h]
  | cons e rest ih =>
    unfold award
    by_cases h1 : e.1 = m
    · by_cases h2 : m = m' <;> simp [get, h1, h2]
    · rw [if_neg h1]
      by_cases h2 : e.1 = m'
      · have : m ≠ m' := fun h => h1 (h2.trans h.symm)
        simp [get, h2, this]
      · simp only [get, if_neg h2, ih]

theorem keys_award (m : κ) (names : List String) (d : List (κ × List (String × ℕ))) (m' : κ) :
    m' ∈ (award m names d).map Prod.fst ↔ m' = m ∨ m' ∈ d.map Prod.fst := by
  induction d with
  | nil => simp [award]
  | cons e rest ih =>
    unfold award
    by_cases h1 : e.1 = m
    · rw [if_pos h1]; simp only [List.map_cons, List.mem_cons, h1]; tauto
    · rw [if_neg h1]; simp only [List.map_cons, List.mem_cons, ih]; tauto

theorem good_award (m : κ) (names : List String) (d : List (κ × List (String × ℕ))) (h : Good d) :
    Good (award m names d) := by
  induction d with
  | nil =>
    refine ⟨by simp [award], fun e he => ?_⟩
    simp only [award, List.mem_singleton] at he
    subst he
    exact (bumps names [] ⟨by simp, by simp⟩).1
  | cons e rest ih =>
    obtain ⟨h1, h2⟩ := h
    rw [List.map_cons, List.nodup_cons] at h1
    have hr : Good rest := ⟨h1.2, fun x hx => h2 x (List.mem_cons_of_mem _ hx)⟩
    unfold award
    by_cases h3 : e.1 = m
    · rw [if_pos h3]
      refine ⟨by simpa using h1, fun x hx => ?_⟩
      rcases List.mem_cons.1 hx with rfl | hx
      · exact (bumps names _ (h2 e (by simp))).1
      · exact hr.2 x hx
    · rw [if_neg h3]
      refine ⟨?_, fun x hx => ?_⟩
      · rw [List.map_cons, List.nodup_cons]
        refine ⟨?_, (ih hr).1⟩
        rw [keys_award]
        rintro (h4 | h4)
        · exact h3 h4
        · exact h1.1 h4
      · rcases List.mem_cons.1 hx with rfl | hx
        · exact h2 _ (by simp)
        · exact (ih hr).2 x hx

/-- All awards of a list. -/
def awardAll {ι : Type*} (key : ι → κ) (names : ι → List String) (l : List ι)
    (d : List (κ × List (String × ℕ))) : List (κ × List (String × ℕ)) :=
  l.foldl (fun d e => award (key e) (names e) d) d

theorem proper_get {d : List (κ × List (String × ℕ))} (h : Good d) (m : κ) : Proper (get d m) := by
  by_cases hm : m ∈ d.map Prod.fst
  · exact h.2 _ (mem_get hm)
  · rw [get_of_not_mem hm]; exact ⟨by simp, by simp⟩

theorem awardAll_spec {ι : Type*} (key : ι → κ) (names : ι → List String) (l : List ι) :
    ∀ d : List (κ × List (String × ℕ)), Good d →
    Good (awardAll key names l d) ∧
      (∀ m, m ∈ (awardAll key names l d).map Prod.fst ↔ m ∈ l.map key ∨ m ∈ d.map Prod.fst) ∧
      (∀ m a, cnt (get (awardAll key names l d) m) a = cnt (get d m) a +
        ((l.filter fun e => decide (key e = m)).map fun e => (names e).count a).sum) ∧
      ∀ m, ((get (awardAll key names l d) m).map Prod.snd).sum = ((get d m).map Prod.snd).sum +
        ((l.filter fun e => decide (key e = m)).map fun e => (names e).length).sum := by
  induction l with
  | nil => intro d h; simpa [awardAll] using h
  | cons e l ih =>
    intro d h
    obtain ⟨h1, h2, h3, h4⟩ := ih _ (good_award (key e) (names e) d h)
    refine ⟨h1, fun m => ?_, fun m a => ?_, fun m => ?_⟩
    · refine (h2 m).trans ?_
      rw [keys_award, List.map_cons, List.mem_cons]; tauto
    · refine (h3 m a).trans ?_
      rw [get_award]
      by_cases hm : key e = m
      · rw [if_pos hm, (bumps (names e) _ (proper_get h m)).2.1,
          List.filter_cons_of_pos (by simpa using hm)]
        simp; omega
      · rw [if_neg hm, List.filter_cons_of_neg (by simpa using hm)]
    · refine (h4 m).trans ?_
      rw [get_award]
      by_cases hm : key e = m
      · rw [if_pos hm, (bumps (names e) _ (proper_get h m)).2.2,
          List.filter_cons_of_pos (by simpa using hm)]
        simp; omega
      · rw [if_neg hm, List.filter_cons_of_neg (by simpa using hm)]

end counter

end Evogil.RankingRun
