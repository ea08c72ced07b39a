import Verif.Model.Factory

/-! # Lemmas about splitting names and updating configurations -/

namespace Evogil.Factory

/-- Words joined by a separator. -/
def joinWith (c : Char) : List Name → Name
  | [] => []
  | [w] => w
  | w :: w' :: ws => w ++ c :: joinWith c (w' :: ws)

theorem pySplit_ne_nil (c : Char) (s : Name) : pySplit c s ≠ [] := by
  cases s with
  | nil => simp [pySplit]
  | cons x xs =>
    rw [pySplit]
    split
    · simp
    · split <;> simp

theorem pySplit_word {c : Char} {w : Name} (h : c ∉ w) : pySplit c w = [w] := by
  induction w with
  | nil => rfl
  | cons x xs ih =>
    simp only [List.mem_cons, not_or] at h
    rw [pySplit, if_neg (fun e => h.1 e.symm), ih h.2]

theorem pySplit_append {c : Char} {w : Name} (h : c ∉ w) (s : Name) :
    pySplit c (w ++ c :: s) = w :: pySplit c s := by
  induction w with
  | nil => simp [pySplit]
  | cons x xs ih =>
    simp only [List.mem_cons, not_or] at h
    rw [List.cons_append, pySplit, if_neg (fun e => h.1 e.symm), ih h.2]

/-- Splitting gives back the words. -/
theorem pySplit_joinWith {c : Char} {ws : List Name} (hne : ws ≠ []) (h : ∀ w ∈ ws, c ∉ w) :
    pySplit c (joinWith c ws) = ws := by
  induction ws with
  | nil => exact absurd rfl hne
  | cons w ws ih =>
    cases ws with
    | nil => exact pySplit_word (h w List.mem_cons_self)
    | cons w' ws =>
      rw [joinWith, pySplit_append (h w List.mem_cons_self),
        ih (by simp) fun x hx => h x (List.mem_cons_of_mem _ hx)]

theorem toLower_comma {x : Char} : x.toLower = ',' ↔ x = ',' := by
  constructor
  · intro h
    unfold Char.toLower at h
    split at h
    · rename_i hx
      exfalso
      have h1 := congrArg Char.val h
      simp only at h1
      have : x.val + 32 = 44 := by simpa using h1
      have hlo : (65 : UInt32) ≤ x.val := hx.1
      have hhi : x.val ≤ (90 : UInt32) := hx.2
      have e := congrArg UInt32.toNat this
      rw [UInt32.toNat_add] at e
      have hlo' : 65 ≤ x.val.toNat := UInt32.le_iff_toNat_le.1 hlo
      have hhi' : x.val.toNat ≤ 90 := UInt32.le_iff_toNat_le.1 hhi
      simp at e
      have hv : x.toNat = x.val.toNat := rfl
      omega
    · exact h
  · rintro rfl; decide

theorem lower_joinWith (ws : List Name) : lower (joinWith ',' ws) = joinWith ',' (ws.map lower) := by
  induction ws with
  | nil => rfl
  | cons w ws ih =>
    cases ws with
    | nil => rfl
    | cons w' ws =>
      simp only [List.map_cons] at ih ⊢
      rw [joinWith, joinWith, ← ih]
      simp [lower]

/-- The words of a lowered comma separated list. -/
theorem split_lower {ws : List Name} (hne : ws ≠ []) (h : ∀ w ∈ ws, ',' ∉ w) :
    pySplit ',' (lower (joinWith ',' ws)) = ws.map lower := by
  rw [lower_joinWith, pySplit_joinWith (by simpa using hne)]
  intro w hw
  obtain ⟨v, hv, rfl⟩ := List.mem_map.1 hw
  intro hc
  simp only [lower, List.mem_map, toLower_comma, exists_eq_right] at hc
  exact h v hv hc

/-! ### Dictionaries -/

section
variable {V : Type}

theorem get_set (c : List (Name × V)) (k k' : Name) (v : V) :
    get (set c k v) k' = if k = k' then some v else get c k' := by
  induction c with
  | nil => simp [set, get]
  | cons x c ih =>
    obtain ⟨k0, v0⟩ := x
    by_cases h0 : k0 = k
    · subst h0
      by_cases h : k0 = k' <;> simp [set, get, h]
    · simp only [set, if_neg h0, get]
      by_cases h1 : k0 = k'
      · subst h1
        have : ¬ k = k0 := fun h => h0 h.symm
        simp [this]
      · simp only [if_neg h1, ih]

/-- The entries of a Python `dict` have distinct keys. -/
def IsDict (c : List (Name × V)) : Prop := (c.map Prod.fst).Nodup

theorem get_eq_none {c : List (Name × V)} {k : Name} : get c k = none ↔ k ∉ c.map Prod.fst := by
  induction c with
  | nil => simp [get]
  | cons x c ih =>
    obtain ⟨k0, v0⟩ := x
    rw [get]
    by_cases h : k0 = k
    · simp [h]
    · rw [if_neg h, ih]
      simp only [List.map_cons, List.mem_cons, not_or]
      exact ⟨fun hh => ⟨fun e => h e.symm, hh⟩, fun hh => hh.2⟩

theorem get_update {c upd : List (Name × V)} (h : IsDict upd) (k : Name) :
    get (update c upd) k = (get upd k).or (get c k) := by
  induction upd generalizing c with
  | nil => simp [update, get]
  | cons x upd ih =>
    obtain ⟨k0, v0⟩ := x
    have h1 : k0 ∉ upd.map Prod.fst := (List.nodup_cons.1 h).1
    have h2 : IsDict upd := (List.nodup_cons.1 h).2
    have := ih (c := set c k0 v0) h2
    rw [update] at this ⊢
    rw [List.foldl_cons, this, get_set, get]
    by_cases e : k0 = k
    · subst e
      rw [get_eq_none.2 h1]
      simp
    · simp [e]

end

end Evogil.Factory
