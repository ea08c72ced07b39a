import Verif.Model.HgsOptional
import Verif.Spec.Box
import Mathlib.Tactic.FieldSimp
import Mathlib.Tactic.Linarith
import Mathlib.Tactic.Ring

/-! # C58: scaled coordinates of HGS -/

set_option linter.unusedSectionVars false

namespace Evogil.HgsOptional

variable {K : Type*} [Field K] [LinearOrder K] [IsStrictOrderedRing K]

/-- **C58.** Going to scaled coordinates and back gives the same vector, and the other way round. -/
theorem C58_roundtrip {xs : List K} {dims : List (K × K)} {eta : K} (he : eta ≠ 0)
    (hl : xs.length = dims.length) :
    code (decode xs eta dims) eta dims = xs ∧ decode (code xs eta dims) eta dims = xs := by
  induction xs generalizing dims with
  | nil => simp [code, decode]
  | cons x xs ih =>
    cases dims with
    | nil => simp at hl
    | cons d dims =>
      have h := ih (dims := dims) (by simpa using hl)
      simp only [code, decode, List.zip_cons_cons, List.map_cons] at h ⊢
      rw [h.1, h.2]
      constructor
      · congr 1
        field_simp
        ring
      · congr 1
        field_simp
        ring

/-- **C58.** The scaled domain corresponds to the box: a vector lies in the one exactly if its image
lies in the other. -/
theorem C58_domain {xs : List K} {dims : List (K × K)} {eta : K} (he : 0 < eta)
    (hl : xs.length = dims.length) :
    (InBox (code xs eta dims) dims ↔ InBox xs (scaledDomain dims eta)) ∧
      (InBox (decode xs eta dims) (scaledDomain dims eta) ↔ InBox xs dims) := by
  induction xs generalizing dims with
  | nil =>
    cases dims with
    | nil => simp [code, decode, scaledDomain, InBox]
    | cons d dims => simp at hl
  | cons x xs ih =>
    cases dims with
    | nil => simp at hl
    | cons d dims =>
      have h := ih (dims := dims) (by simpa using hl)
      simp only [code, decode, scaledDomain, InBox, List.zip_cons_cons, List.map_cons,
        List.forall₂_cons] at h ⊢
      rw [h.1, h.2]
      constructor
      · apply and_congr_left
        intro _
        constructor
        · rintro ⟨h1, h2⟩
          refine ⟨?_, ?_⟩
          · by_contra hc
            have := mul_neg_of_pos_of_neg he (not_le.1 hc)
            linarith
          · rw [le_div_iff₀ he]; linarith
        · rintro ⟨h1, h2⟩
          rw [le_div_iff₀ he] at h2
          have := mul_nonneg he.le h1
          exact ⟨by linarith, by linarith⟩
      · apply and_congr_left
        intro _
        rw [div_le_div_iff_of_pos_right he]
        constructor
        · rintro ⟨h1, h2⟩
          refine ⟨?_, by linarith⟩
          by_contra hc
          have := div_neg_of_neg_of_pos (sub_neg.2 (not_le.1 hc)) he
          linarith
        · rintro ⟨h1, h2⟩
          exact ⟨div_nonneg (by linarith) he.le, by linarith⟩

/-- **C58.** `scale` translates between the coordinates of two levels: it takes the scaled vector of
a point for `etaFrom` to the scaled vector of the same point for `etaTo`. -/
theorem C58_scale {xs : List K} {dims : List (K × K)} {etaFrom etaTo : K} (hf : etaFrom ≠ 0)
    (ht : etaTo ≠ 0) (hl : xs.length = dims.length) :
    code (scale xs etaFrom etaTo) etaTo dims = code xs etaFrom dims ∧
      scale (decode xs etaFrom dims) etaFrom etaTo = decode xs etaTo dims := by
  induction xs generalizing dims with
  | nil => simp [code, decode, scale]
  | cons x xs ih =>
    cases dims with
    | nil => simp at hl
    | cons d dims =>
      have h := ih (dims := dims) (by simpa using hl)
      simp only [code, decode, scale, List.zip_cons_cons, List.map_cons] at h ⊢
      rw [h.1, h.2]
      constructor
      · congr 1
        field_simp
      · congr 1
        field_simp

/-- **C58.** The versions for lists of vectors do the same to each vector. -/
theorem C58_all {vs : List (List K)} {dims : List (K × K)} {eta etaTo : K} (he : eta ≠ 0)
    (ht : etaTo ≠ 0) (hl : ∀ xs ∈ vs, xs.length = dims.length) :
    codeAll (decodeAll vs eta dims) eta dims = vs ∧
      decodeAll (codeAll vs eta dims) eta dims = vs ∧
      scaleAll (decodeAll vs eta dims) eta etaTo = decodeAll vs etaTo dims := by
  simp only [codeAll, decodeAll, scaleAll, List.map_map]
  refine ⟨?_, ?_, ?_⟩
  · conv_rhs => rw [← List.map_id vs]
    exact List.map_congr_left fun xs hx => (C58_roundtrip he (hl xs hx)).1
  · conv_rhs => rw [← List.map_id vs]
    exact List.map_congr_left fun xs hx => (C58_roundtrip he (hl xs hx)).2
  · exact List.map_congr_left fun xs hx => (C58_scale he ht (hl xs hx)).2

example : decode [(3 : ℚ), 1] 2 [(1, 5), (0, 4)] = [1, 1 / 2] := by
  norm_num [decode]

example : code [(1 : ℚ), 1 / 2] 2 [(1, 5), (0, 4)] = [3, 1] := by
  norm_num [code]

end Evogil.HgsOptional
