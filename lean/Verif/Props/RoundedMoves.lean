import Verif.Model.RoundedMoves
import Verif.Spec.RoundedMoves
import Verif.Props.Rounded
import Verif.Lemmas.Nearest
import Verif.Lemmas.Nsls

/-! # Property C124: the moves of OMOPSO, NSLS and NSGA-III in floating point -/

set_option linter.unusedSectionVars false

namespace Evogil.Rounded

open Spec Binary64

variable {K : Type*} [Field K] [LinearOrder K] [IsStrictOrderedRing K] [FloorRing K]

/-! ## Speeds -/

theorem abs_round64_le {x b : K} (hb : round64 b = b) (h : |x| ≤ b) : |round64 x| ≤ b := by
  have h1 := abs_le.1 h
  refine abs_le.2 ⟨?_, fl_le round64_isRounding hb h1.2⟩
  refine le_fl round64_isRounding ?_ h1.1
  rw [round64_neg, hb]

theorem float_mul {w : K} (hw : round64 w = w) : round64 (2 * w) = 2 * w ∧ round64 (8 * w) = 8 * w ∧
    round64 (16 * w) = 16 * w := by
  have d := (round64_isRounding (K := K)).double
  have h2 := d w hw
  have h4 := d _ h2
  have h8 := d _ h4
  have h16 := d _ h8
  refine ⟨h2, ?_, ?_⟩
  · rw [show (8 : K) * w = 2 * (2 * (2 * w)) by ring]; exact h8
  · rw [show (16 : K) * w = 2 * (2 * (2 * (2 * w))) by ring]; exact h16

/-- The coefficients of a turn are in the ranges of OMOPSO.py:146-150. -/
structure Mild (t : Turn K) : Prop where
  w : 0 ≤ t.w ∧ t.w ≤ 1 / 2
  c1 : 0 ≤ t.c1 ∧ t.c1 ≤ 2
  r1 : 0 ≤ t.r1 ∧ t.r1 ≤ 1
  c2 : 0 ≤ t.c2 ∧ t.c2 ≤ 2
  r2 : 0 ≤ t.r2 ∧ t.r2 ≤ 1

theorem pull_le {c r p x lo hi : K} (hc : 0 ≤ c ∧ c ≤ 2) (hr : 0 ≤ r ∧ r ≤ 1) (hp : lo ≤ p ∧ p ≤ hi)
    (hx : lo ≤ x ∧ x ≤ hi) :
    |round64 (round64 (c * r) * round64 (p - x))| ≤ 2 * round64 (hi - lo) := by
  have h := round64_isRounding (K := K)
  have hw := h.idem (hi - lo)
  have hw0 : 0 ≤ round64 (hi - lo) := fl_nonneg h (by linarith)
  have h1 : 0 ≤ round64 (c * r) := fl_nonneg h (mul_nonneg hc.1 hr.1)
  have h2 : round64 (c * r) ≤ 2 := fl_le h (fl_two h) (by nlinarith)
  have h3 : |round64 (p - x)| ≤ round64 (hi - lo) := by
    refine abs_le.2 ⟨?_, h.mono _ _ (by linarith)⟩
    rw [← round64_neg]
    exact h.mono _ _ (by linarith)
  refine abs_round64_le (float_mul hw).1 ?_
  rw [abs_mul, abs_of_nonneg h1]
  exact mul_le_mul h2 h3 (abs_nonneg _) (by norm_num)

theorem speedCoord_le {t : Turn K} (ht : Mild t) {s x b g lo hi : K} (hs : |s| ≤ 16 * round64 (hi - lo))
    (hx : lo ≤ x ∧ x ≤ hi) (hb : lo ≤ b ∧ b ≤ hi) (hg : lo ≤ g ∧ g ≤ hi) :
    |speedCoord round64 t s x b g| ≤ 16 * round64 (hi - lo) := by
  have h := round64_isRounding (K := K)
  obtain ⟨w, hwd⟩ : ∃ w, w = round64 (hi - lo) := ⟨_, rfl⟩
  have hw : round64 w = w := by rw [hwd, h.idem]
  have hw0 : 0 ≤ w := by rw [hwd]; exact fl_nonneg h (by linarith)
  have p1 := pull_le ht.c1 ht.r1 hb hx
  have p2 := pull_le ht.c2 ht.r2 hg hx
  unfold speedCoord
  rw [← hwd] at hs p1 p2 ⊢
  obtain ⟨-, f8, f16⟩ := float_mul hw
  have h1 : |round64 (t.w * s)| ≤ 8 * w := by
    refine abs_round64_le f8 ?_
    rw [abs_mul, abs_of_nonneg ht.w.1]
    nlinarith [ht.w.1, ht.w.2, abs_nonneg s]
  generalize round64 (t.w * s) = a at h1
  generalize round64 (round64 (t.c1 * t.r1) * round64 (b - x)) = p at p1
  generalize round64 (round64 (t.c2 * t.r2) * round64 (g - x)) = q at p2
  have h10 : |a + p| ≤ 10 * w := (abs_add_le _ _).trans (by linarith)
  have h12 : round64 (10 * w) ≤ 12 * w := by
    have := (le_abs_self _).trans (round64_near (10 * w) f8)
    rw [abs_sub_comm, abs_of_nonneg (by linarith)] at this
    linarith
  have h12' : |round64 (a + p)| ≤ 12 * w := by
    have h3 := abs_le.1 h10
    refine abs_le.2 ⟨?_, (h.mono _ _ h3.2).trans h12⟩
    have := h.mono _ _ h3.1
    rw [round64_neg] at this
    linarith
  refine abs_round64_le f16 ((abs_add_le _ _).trans ?_)
  linarith

theorem moveCoord_ok {x s lo hi b : K} (h1 : round64 lo = lo) (h2 : round64 hi = hi) (hle : lo ≤ hi)
    (hs : round64 s = s) (hb : |s| ≤ b) :
    (lo ≤ (moveCoord round64 x s lo hi).1 ∧ (moveCoord round64 x s lo hi).1 ≤ hi) ∧
    round64 (moveCoord round64 x s lo hi).1 = (moveCoord round64 x s lo hi).1 ∧
    round64 (moveCoord round64 x s lo hi).2 = (moveCoord round64 x s lo hi).2 ∧
    |(moveCoord round64 x s lo hi).2| ≤ b := by
  unfold moveCoord
  simp only
  refine ⟨⟨le_min (le_max_right _ _) hle, min_le_right _ _⟩, ?_, ?_, ?_⟩
  · have := min_max_float h1 h2 (round64_round64 (x + s))
    rwa [min_comm, max_comm] at this
  · split_ifs
    · exact round64_round64 _
    · exact hs
  · split_ifs
    · rw [mul_neg_one, round64_neg, hs, abs_neg]; exact hb
    · exact hb

/-! ## Flights -/

theorem fly_ok {t : Turn K} (ht : Mild t) : ∀ (dims : List (K × K)) (xs ss bs gs : List K),
    FloatBox round64 dims → InBox xs dims → Slow round64 dims ss → InBox bs dims → InBox gs dims →
    ∃ q, fly round64 t xs ss bs gs dims = .ok q ∧ InBox q.1 dims ∧ Floats round64 q.1 ∧
      Slow round64 dims q.2 := by
  intro dims
  induction dims with
  | nil =>
    intro xs ss bs gs _ hx hs _ _
    cases hx
    cases hs
    exact ⟨([], []), by rw [fly], .nil, by simp [Floats], .nil⟩
  | cons d dims ih =>
    intro xs ss bs gs hd hx hs hb hg
    cases hx with
    | @cons x _ xs _ hx1 hx =>
    cases hs with
    | @cons s _ ss _ hs1 hs =>
    cases hb with
    | @cons b _ bs _ hb1 hb =>
    cases hg with
    | @cons g _ gs _ hg1 hg =>
    obtain ⟨lo, hi⟩ := d
    obtain ⟨f1, f2, f3⟩ := hd (lo, hi) List.mem_cons_self
    obtain ⟨q, e, qb, qf, qs⟩ := ih xs ss bs gs (fun d hd' => hd d (List.mem_cons_of_mem _ hd')) hx hs hb hg
    obtain ⟨m1, m2, m3, m4⟩ := moveCoord_ok (x := x) f1 f2 f3 (s := speedCoord round64 t s x b g)
      (round64_round64 _) (speedCoord_le ht hs1.2 hx1 hb1 hg1)
    refine ⟨((moveCoord round64 x (speedCoord round64 t s x b g) lo hi).1 :: q.1,
      (moveCoord round64 x (speedCoord round64 t s x b g) lo hi).2 :: q.2), by rw [fly, e]; rfl, .cons m1 qb, ?_, .cons ⟨m3, m4⟩ qs⟩
    intro y hy
    rcases List.mem_cons.1 hy with rfl | hy
    · exact m2
    · exact qf y hy

theorem trim_inBox {dims : List (K × K)} {trim : List K → List K} (ht : Nsls.TrimOk dims trim) {x : List K}
    (hx : InBox x dims) : InBox (trim x) dims := by
  refine inBox_of_get (by rw [ht.length, hx.length_eq]) fun i y d hy hd => ?_
  have hi : i < x.length := by
    have := (List.getElem?_eq_some_iff.1 hd).1
    rwa [hx.length_eq]
  have hxi : x[i]? = some x[i] := List.getElem?_eq_getElem hi
  exact ht.coord x i _ y d hxi hy hd (hx.get hxi hd).1 (hx.get hxi hd).2

theorem flyAll_ok {dims : List (K × K)} {trim : List K → List K} (hd : FloatBox round64 dims)
    (ht : Nsls.TrimOk dims trim) (hf : ∀ v, Floats round64 v → Floats round64 (trim v))
    (visited : List (List K)) (hv : ∀ v ∈ visited, InBox v dims) :
    ∀ (ps : List (List K × List K)) (ts : List (Turn K)), ps.length ≤ ts.length →
      (∀ t ∈ ts, Mild t ∧ t.best < visited.length ∧ t.leader < visited.length) →
      (∀ p ∈ ps, InBox p.1 dims ∧ Slow round64 dims p.2) →
      ∃ qs, flyAll round64 trim dims visited ps ts = .ok qs ∧ qs.length = ps.length ∧
        ∀ q ∈ qs, InBox q.1 dims ∧ Floats round64 q.1 ∧ Slow round64 dims q.2 := by
  intro ps
  induction ps with
  | nil => intro ts _ _ _; exact ⟨[], by rw [flyAll], rfl, by simp⟩
  | cons p ps ih =>
    intro ts hl hts hps
    cases ts with
    | nil => simp at hl
    | cons t ts =>
    obtain ⟨h1, h2, h3⟩ := hts t List.mem_cons_self
    obtain ⟨qs, e, ql, qo⟩ := ih ts (by simpa using hl) (fun t ht' => hts t (List.mem_cons_of_mem _ ht'))
      (fun p hp => hps p (List.mem_cons_of_mem _ hp))
    obtain ⟨p1, p2⟩ := hps p List.mem_cons_self
    obtain ⟨q, eq, q1, q2, q3⟩ := fly_ok h1 dims p.1 p.2 visited[t.best] visited[t.leader] hd p1 p2
      (hv _ (List.getElem_mem _)) (hv _ (List.getElem_mem _))
    refine ⟨(trim q.1, q.2) :: qs, ?_, by simp [ql], ?_⟩
    · rw [flyAll, List.getElem?_eq_getElem h2, List.getElem?_eq_getElem h3]
      simp only [eq, e, bind, Except.bind, pure, Except.pure]
    · intro z hz
      rcases List.mem_cons.1 hz with rfl | hz
      · exact ⟨trim_inBox ht q1, hf _ q2, q3⟩
      · exact qo z hz

/-- The turns of every step are as many as there are particles, with coefficients in the ranges of the code, and
refer to positions visited before. -/
def TurnsOk (n : ℕ) (turns : List (List (Turn K))) (v : ℕ) : Prop :=
  ∀ (i : ℕ) (ts : List (Turn K)), turns[i]? = some ts → n ≤ ts.length ∧
    ∀ t ∈ ts, Mild t ∧ t.best < v + i * n ∧ t.leader < v + i * n

theorem flight_ok {dims : List (K × K)} {trim : List K → List K} (hd : FloatBox round64 dims)
    (ht : Nsls.TrimOk dims trim) (hf : ∀ v, Floats round64 v → Floats round64 (trim v)) :
    ∀ (turns : List (List (Turn K))) (ps : List (List K × List K)) (visited : List (List K)),
      TurnsOk ps.length turns visited.length →
      (∀ v ∈ visited, InBox v dims ∧ Floats round64 v) →
      (∀ p ∈ ps, InBox p.1 dims ∧ Floats round64 p.1 ∧ Slow round64 dims p.2) →
      ∃ r, flight round64 trim dims turns ps visited = .ok r ∧ r.1.length = ps.length ∧
        (∀ p ∈ r.1, InBox p.1 dims ∧ Floats round64 p.1 ∧ Slow round64 dims p.2) ∧
        ∀ v ∈ r.2, InBox v dims ∧ Floats round64 v := by
  intro turns
  induction turns with
  | nil => intro ps visited _ hv hp; exact ⟨(ps, visited), by rw [flight], rfl, hp, hv⟩
  | cons ts turns ih =>
    intro ps visited hts hv hp
    obtain ⟨hl, h0⟩ := hts 0 ts rfl
    obtain ⟨qs, e, ql, qo⟩ := flyAll_ok hd ht hf visited (fun v h => (hv v h).1) ps ts hl
      (fun t ht' => by simpa using h0 t ht') (fun p h => ⟨(hp p h).1, (hp p h).2.2⟩)
    obtain ⟨r, er, r1, r3, r4⟩ := ih qs (visited ++ qs.map Prod.fst)
      (fun i us hu => by
        obtain ⟨a, b⟩ := hts (i + 1) us (by simpa using hu)
        rw [ql, List.length_append, List.length_map, ql]
        refine ⟨a, fun t ht' => ?_⟩
        have := b t ht'
        rw [Nat.succ_mul] at this
        exact ⟨this.1, by omega, by omega⟩)
      (fun v hv' => by
        rcases List.mem_append.1 hv' with hv' | hv'
        · exact hv v hv'
        · obtain ⟨q, hq, rfl⟩ := List.mem_map.1 hv'
          exact ⟨(qo q hq).1, (qo q hq).2.1⟩)
      qo
    exact ⟨r, by rw [flight, e]; exact er, by rw [r1, ql], r3, r4⟩

theorem slow_atRest {dims : List (K × K)} (hd : FloatBox round64 dims) {x : List K} (hx : InBox x dims) :
    Slow round64 dims (x.map fun _ => 0) := by
  induction hx with
  | nil => exact .nil
  | @cons x d xs dims h1 hx ih =>
    refine .cons ⟨fl_zero round64_isRounding, ?_⟩ (ih fun d hd' => hd d (List.mem_cons_of_mem _ hd'))
    rw [abs_zero]
    have := fl_nonneg round64_isRounding (x := d.2 - d.1) (by linarith [h1.1, h1.2])
    linarith

/-! ## The coefficients -/

/-- What OMOPSO.py:146-150 draws: two values of `random.random()`, two of `random.uniform(1.5, 2.0)` and one of
`random.uniform(0.1, 0.5)`. -/
structure Drawn (t : Turn ℚ) : Prop where
  r1 : IsDraw (1 / 2 ^ 53) t.r1
  r2 : IsDraw (1 / 2 ^ 53) t.r2
  c1 : ∃ r, IsDraw (1 / 2 ^ 53) r ∧ t.c1 = uniform round64 r (3 / 2) 2
  c2 : ∃ r, IsDraw (1 / 2 ^ 53) r ∧ t.c2 = uniform round64 r (3 / 2) 2
  w : ∃ r, IsDraw (1 / 2 ^ 53) r ∧ t.w = uniform round64 r (round64 (1 / 10)) (1 / 2)

theorem mild_of_drawn {t : Turn ℚ} (h : Drawn t) : Mild t := by
  have R := round64_isRounding (K := ℚ)
  have c : ∀ x, (∃ r, IsDraw (1 / 2 ^ 53) r ∧ x = uniform round64 r (3 / 2) (2 : ℚ)) → 0 ≤ x ∧ x ≤ 2 := by
    rintro x ⟨r, hr, rfl⟩
    obtain ⟨h1, h2, -⟩ := uniform_mem R (d := (3 / 2, 2)) (by decide +kernel) (by norm_num)
      (by unfold UniformOk; decide +kernel) hr
    simp only at h1 h2
    exact ⟨by linarith, h2⟩
  have r : ∀ x, IsDraw (1 / 2 ^ 53) x → 0 ≤ x ∧ x ≤ (1 : ℚ) := fun x hx => by
    obtain ⟨h1, h2⟩ := draw_bounds R hx
    exact ⟨h1, h2.trans (by norm_num)⟩
  refine ⟨?_, c _ h.c1, r _ h.r1, c _ h.c2, r _ h.r2⟩
  obtain ⟨r, hr, hw⟩ := h.w
  obtain ⟨h1, h2, -⟩ := uniform_mem R (d := (round64 (1 / 10), 1 / 2)) (by decide +kernel) (by decide +kernel)
    (by unfold UniformOk; decide +kernel) hr
  simp only at h1 h2
  rw [hw]
  exact ⟨le_trans (by decide +kernel) h1, h2⟩

/-- C124: in floating point, whatever is drawn and whichever visited positions are the personal bests and the
leaders, no step of an OMOPSO swarm fails, all positions ever visited are vectors of floats of the box, and no
speed grows beyond 16 times the width of its dimension. -/
theorem C124_omopso (dims : List (ℚ × ℚ)) (hd : FloatBox round64 dims) (trim : List ℚ → List ℚ)
    (ht : Nsls.TrimOk dims trim) (hf : ∀ v, Floats round64 v → Floats round64 (trim v)) (pop : List (List ℚ))
    (hp : ∀ x ∈ pop, InBox x dims ∧ Floats round64 x) (turns : List (List (Turn ℚ)))
    (h : ∀ (i : ℕ) (ts : List (Turn ℚ)), turns[i]? = some ts → ts.length = pop.length ∧
      ∀ t ∈ ts, Drawn t ∧ t.best < (i + 1) * pop.length ∧ t.leader < (i + 1) * pop.length) :
    ∃ particles visited, swarm round64 trim dims turns pop = .ok (particles, visited) ∧
      particles.length = pop.length ∧ (∀ v ∈ visited, InBox v dims ∧ Floats round64 v) ∧
      ∀ p ∈ particles, InBox p.1 dims ∧ Floats round64 p.1 ∧ Slow round64 dims p.2 := by
  have hpop : ∀ v ∈ pop.map trim, InBox v dims ∧ Floats round64 v := by
    intro v hv
    obtain ⟨x, hx, rfl⟩ := List.mem_map.1 hv
    exact ⟨trim_inBox ht (hp x hx).1, hf x (hp x hx).2⟩
  obtain ⟨⟨a, b⟩, e, r1, r2, r3⟩ := flight_ok hd ht hf turns ((pop.map trim).map atRest) (pop.map trim)
    (by
      intro i ts hi
      obtain ⟨h1, h2⟩ := h i ts hi
      simp only [List.length_map]
      refine ⟨h1.ge, fun t ht' => ⟨mild_of_drawn (h2 t ht').1, ?_, ?_⟩⟩
      · have := (h2 t ht').2.1
        rw [Nat.succ_mul] at this
        omega
      · have := (h2 t ht').2.2
        rw [Nat.succ_mul] at this
        omega)
    hpop
    (by
      intro p hp'
      obtain ⟨x, hx, rfl⟩ := List.mem_map.1 hp'
      exact ⟨(hpop x hx).1, (hpop x hx).2, slow_atRest hd (hpop x hx).1⟩)
  exact ⟨a, b, e, by simpa using r1, r3, r2⟩

/-! ## NSLS -/

theorem trialVector_eq (fl : K → K) (dims : List (K × K)) (trim : List K → List K) {x u v : List K} {k : ℕ}
    {xk uk vk : K} (hx : x[k]? = some xk) (hu : u[k]? = some uk) (hv : v[k]? = some vk) (c sign : K) (w : List K)
    (hw : Nsls.trialVector dims trim x k (fl (xk + sign * fl (c * fl (uk - vk))) - xk) = some w) :
    trialVector fl dims trim x u v k c sign = .ok w := by
  unfold Nsls.trialVector at hw
  unfold trialVector
  rw [hx] at hw ⊢
  rw [hu, hv]
  cases hd : dims[k]? with
  | none => rw [hd] at hw; simp at hw
  | some d =>
    rw [hd] at hw
    simp only [add_sub_cancel] at hw ⊢
    cases hk : (trim (x.set k (fl (xk + sign * fl (c * fl (uk - vk))))))[k]? with
    | none => rw [hk] at hw; simp at hw
    | some wk =>
      rw [hk] at hw
      simp only at hw ⊢
      split_ifs at hw ⊢ <;> (cases hw; rfl)

/-- C124: in floating point, both trial vectors of every local search of NSLS are vectors of floats of the box,
whatever the draw of the normal distribution. -/
theorem C124_nsls (dims : List (K × K)) (trim : List K → List K) (ht : Nsls.TrimOk dims trim)
    (hf : ∀ v, Floats round64 v → Floats round64 (trim v)) (x u v : List K)
    (hx : InBox x dims) (hu : InBox u dims) (hv : InBox v dims) (fx : Floats round64 x) (k : ℕ)
    (hk : k < dims.length) (c sign : K) :
    ∃ w, trialVector round64 dims trim x u v k c sign = .ok w ∧ InBox w dims ∧ Floats round64 w := by
  have hkx : k < x.length := by rwa [hx.length_eq]
  have hku : k < u.length := by rwa [hu.length_eq]
  have hkv : k < v.length := by rwa [hv.length_eq]
  have ex : x[k]? = some x[k] := List.getElem?_eq_getElem hkx
  obtain ⟨w, hw, hb⟩ := Nsls.trialVector_spec ht hx hk
    (round64 (x[k] + sign * round64 (c * round64 (u[k] - v[k]))) - x[k])
  refine ⟨w, trialVector_eq round64 dims trim ex (List.getElem?_eq_getElem hku) (List.getElem?_eq_getElem hkv) c sign
    w hw, hb, ?_⟩
  unfold Nsls.trialVector at hw
  rw [ex, List.getElem?_eq_getElem hk] at hw
  simp only [add_sub_cancel] at hw
  have hset : ∀ (l : List K) (y : K), Floats round64 l → round64 y = y → Floats round64 (l.set k y) := by
    intro l y hl hy z hz
    rcases List.mem_or_eq_of_mem_set hz with h | rfl
    · exact hl z h
    · exact hy
  have h1 := hf _ (hset x _ fx (round64_round64 (x[k] + sign * round64 (c * round64 (u[k] - v[k])))))
  split at hw
  · split_ifs at hw
    · cases hw
      exact hset _ _ h1 (fx _ (List.getElem_mem _))
    · cases hw
      exact h1
  · simp at hw

/-! ## NSGA-III -/

/-- C124: in floating point, the variation operators of NSGA-III give vectors of floats of the box. -/
theorem C124_nsgaiii (pw : K → K → K) (hp : PowerLaws pw) (rate rate' eta eta' first : K) (heta : 0 ≤ eta)
    (heta' : 0 ≤ eta') (ds : ℕ → SbxDraw K) (hds : ∀ i, IsDraw (1 / 2 ^ 53) (ds i).rand) (ms ms' : ℕ → MutDraw K)
    (hms : ∀ i, IsDraw (1 / 2 ^ 53) (ms i).rnd) (hms' : ∀ i, IsDraw (1 / 2 ^ 53) (ms' i).rnd)
    (dims : List (K × K)) (hd : FloatBox round64 dims) (xs ys : List K) (hx : InBox xs dims) (hy : InBox ys dims)
    (fx : Floats round64 xs) (fy : Floats round64 ys) :
    ∃ as bs as' bs', simulatedBinaryCrossover round64 pw (1 / 2 ^ 52) rate eta first ds xs ys dims = .ok (as, bs) ∧
      polynomialMutation round64 pw (1 / 2 ^ 52) rate' eta' ms as dims = .ok as' ∧
      polynomialMutation round64 pw (1 / 2 ^ 52) rate' eta' ms' bs dims = .ok bs' ∧
      (InBox as' dims ∧ Floats round64 as') ∧ (InBox bs' dims ∧ Floats round64 bs') ∧
      (rate < first → as = xs ∧ bs = ys) := by
  have he : round64 (1 / 2 ^ 52 : K) = 1 / 2 ^ 52 :=
    round64_float ⟨1, -52, by norm_num, by norm_num, by norm_num⟩
  obtain ⟨as, bs, e, ha, hb, hr⟩ : ∃ as bs,
      simulatedBinaryCrossover round64 pw (1 / 2 ^ 52) rate eta first ds xs ys dims = .ok (as, bs) ∧
      (InBox as dims ∧ Floats round64 as) ∧ (InBox bs dims ∧ Floats round64 bs) ∧
      (rate < first → as = xs ∧ bs = ys) := by
    unfold simulatedBinaryCrossover
    by_cases hc : rate < first
    · exact ⟨xs, ys, if_pos hc, ⟨hx, fx⟩, ⟨hy, fy⟩, fun _ => ⟨rfl, rfl⟩⟩
    · obtain ⟨as, bs, e, h1, h2, -⟩ := crossoverLoop_ok round64_isRounding hp (by positivity) he heta dims xs ys ds
        hds hd hx hy fx fy
      exact ⟨as, bs, by rw [if_neg hc, e], h1, h2, fun h => absurd h hc⟩
  obtain ⟨as', e1, a1, a2, -⟩ := C121_mutate pw hp rate' eta' heta' ms hms dims hd as ha.1 ha.2
  obtain ⟨bs', e2, b1, b2, -⟩ := C121_mutate pw hp rate' eta' heta' ms' hms' dims hd bs hb.1 hb.2
  exact ⟨as, bs, as', bs', e, e1, e2, ⟨a1, a2⟩, ⟨b1, b2⟩, hr⟩

/-- What is left to 1 can be added without exceeding 1. -/
theorem rest_le_one {s c : K} (hs0 : 0 ≤ s) (hs : s ≤ 1) (hc : c ≤ round64 (1 - s)) : round64 (s + c) ≤ 1 := by
  have R := round64_isRounding (K := K)
  refine (R.mono _ _ (add_le_add_right hc s)).trans ?_
  obtain ⟨z, hz⟩ : ∃ z, z = s + round64 (1 - s) := ⟨_, rfl⟩
  rw [← hz]
  by_contra hn
  push Not at hn
  have gap := float_gap (R.idem z) hn
  have near1 := round64_near z (fl_one R)
  -- a multiple of 2⁻⁵³ near `1 - s`
  have hm : ∃ n : ℕ, n ≤ 2 ^ 53 ∧ |(n : K) * (1 / 2 ^ 53) - (1 - s)| ≤ 1 / 2 ^ 54 := by
    have hp : (0 : K) < 2 ^ 53 := by positivity
    refine ⟨(⌊(1 - s) * 2 ^ 53 + 1 / 2⌋).toNat, ?_, ?_⟩
    · have h1 : ⌊(1 - s) * 2 ^ 53 + 1 / 2⌋ < 2 ^ 53 + 1 := by
        rw [Int.floor_lt]
        push_cast
        norm_num
        linarith
      omega
    · have h0 : 0 ≤ ⌊(1 - s) * 2 ^ 53 + 1 / 2⌋ := Int.floor_nonneg.2 (by
        have : 0 ≤ (1 - s) * 2 ^ 53 := mul_nonneg (by linarith) hp.le
        linarith)
      have e : (((⌊(1 - s) * 2 ^ 53 + 1 / 2⌋).toNat : ℕ) : K) = (⌊(1 - s) * 2 ^ 53 + 1 / 2⌋ : K) := by
        rw [← Int.cast_natCast, Int.toNat_of_nonneg h0]
      rw [e]
      have f1 := Int.floor_le ((1 - s) * 2 ^ 53 + 1 / 2)
      have f2 := Int.lt_floor_add_one ((1 - s) * 2 ^ 53 + 1 / 2)
      generalize (⌊(1 - s) * 2 ^ 53 + 1 / 2⌋ : K) = f at f1 f2
      norm_num at f1 f2 ⊢
      exact abs_le.2 ⟨by linarith, by linarith⟩
  obtain ⟨n, hn1, hn2⟩ := hm
  have near2 := (round64_near (1 - s) (R.grid n hn1)).trans hn2
  have hz1 : z ≤ 1 + 1 / 2 ^ 54 := by
    have := (abs_le.1 near2).2
    rw [hz]; linarith
  have hz2 : 1 ≤ z := by
    by_contra hh
    exact absurd (fl_le_one R (not_le.1 hh).le) (not_le.2 hn)
  rw [abs_of_nonpos (show 1 - z ≤ 0 by linarith)] at near1
  have := (abs_le.1 near1).2
  norm_num at gap hz1
  linarith

theorem refLoop_ok {pw : K → K → K} (hp : PowerLaws pw) {rand : ℕ → K} (hr : ∀ i, 0 ≤ rand i ∧ rand i ≤ 1) (n : ℕ) :
    ∀ (rest i : ℕ) (s : K), i + rest = n + 1 → 0 ≤ s → s ≤ 1 →
      (refLoop round64 pw rand n rest i s).length = rest ∧
      (∀ c ∈ refLoop round64 pw rand n rest i s, (0 ≤ c ∧ c ≤ 1) ∧ round64 c = c) ∧
      (s = 0 → 0 < rest → ∃ c ∈ refLoop round64 pw rand n rest i s, 0 < c) := by
  have R := round64_isRounding (K := K)
  intro rest
  induction rest with
  | zero => intro i s _ _ _; exact ⟨rfl, by simp [refLoop], by simp⟩
  | succ rest ih =>
    intro i s hi hs0 hs1
    have l0 : 0 ≤ round64 (1 - s) := fl_nonneg R (by linarith)
    have l1 : round64 (1 - s) ≤ 1 := fl_le_one R (by linarith)
    rw [refLoop]
    split_ifs with hc
    · have q0 : 0 ≤ round64 (1 / ((n - i : ℕ) : K)) := fl_nonneg R (by positivity)
      have p0 := hp.nonneg (rand i) (round64 (1 / ((n - i : ℕ) : K))) (hr i).1
      have p1 := hp.small (rand i) _ (hr i).1 (hr i).2 q0
      have m0 : 0 ≤ round64 (1 - pw (rand i) (round64 (1 / ((n - i : ℕ) : K)))) := fl_nonneg R (by linarith)
      have m1 : round64 (1 - pw (rand i) (round64 (1 / ((n - i : ℕ) : K)))) ≤ 1 := fl_le_one R (by linarith)
      obtain ⟨c, hcd⟩ : ∃ c, c = round64 (round64 (1 - s) *
        round64 (1 - pw (rand i) (round64 (1 / ((n - i : ℕ) : K))))) := ⟨_, rfl⟩
      have c0 : 0 ≤ c := by rw [hcd]; exact fl_nonneg R (mul_nonneg l0 m0)
      have c1 : c ≤ round64 (1 - s) := by
        rw [hcd]
        exact fl_le R (R.idem _) (by nlinarith)
      have cf : round64 c = c := by rw [hcd, R.idem]
      simp only [← hcd]
      obtain ⟨i1, i2, i3⟩ := ih (i + 1) (round64 (s + c)) (by omega) (fl_nonneg R (by linarith))
        (rest_le_one hs0 hs1 c1)
      refine ⟨by simp [i1], ?_, ?_⟩
      · intro z hz
        rcases List.mem_cons.1 hz with rfl | hz
        · exact ⟨⟨c0, c1.trans l1⟩, cf⟩
        · exact i2 z hz
      · intro hs _
        rcases eq_or_lt_of_le c0 with h0 | h0
        · obtain ⟨z, hz, hz0⟩ := i3 (by rw [hs, ← h0, add_zero]; exact fl_zero R) (by omega)
          exact ⟨z, List.mem_cons_of_mem _ hz, hz0⟩
        · exact ⟨c, List.mem_cons_self, h0⟩
    · have hrest : rest = 0 := by omega
      subst hrest
      refine ⟨by simp [refLoop], ?_, ?_⟩
      · intro z hz
        simp only [refLoop, List.mem_singleton] at hz
        rw [hz]
        exact ⟨⟨l0, l1⟩, R.idem _⟩
      · intro hs _
        refine ⟨round64 (1 - s), List.mem_cons_self, ?_⟩
        rw [hs, sub_zero, fl_one R]
        exact one_pos

/-- C124: in floating point, a random reference point of NSGA-III has as many coordinates as there are
objectives, all in [0, 1] and not all 0: although the coordinates are added up with rounding, the rest left for
the last one is never negative. -/
theorem C124_reference (pw : K → K → K) (hp : PowerLaws pw) (rand : ℕ → K)
    (hr : ∀ i, IsDraw (1 / 2 ^ 53) (rand i)) (n : ℕ) :
    (refPoint round64 pw rand n).length = n ∧
      (∀ c ∈ refPoint round64 pw rand n, (0 ≤ c ∧ c ≤ 1) ∧ round64 c = c) ∧
      (0 < n → ∃ c ∈ refPoint round64 pw rand n, 0 < c) := by
  obtain ⟨h1, h2, h3⟩ := refLoop_ok hp (rand := rand) (fun i => by
    obtain ⟨a, b⟩ := draw_bounds round64_isRounding (hr i)
    exact ⟨a, b.trans (by norm_num)⟩) n n 1 0 (by omega) le_rfl zero_le_one
  exact ⟨h1, h2, h3 rfl⟩

/-- C124: in floating point, the normalized objectives of NSGA-III lie in [0, 1], also if all individuals agree in
an objective. -/
theorem C124_normalize (ideal defiled obj : K) (h1 : ideal ≤ obj) (h2 : obj ≤ defiled) :
    ∃ z, normalizeValue round64 (1 / 2 ^ 52) ideal defiled obj = .ok z ∧ 0 ≤ z ∧ z ≤ 1 := by
  obtain ⟨a, b, c⟩ := ratio_mem round64_isRounding (eps := (1 / 2 ^ 52 : K)) (by positivity)
    (round64_float ⟨1, -52, by norm_num, by norm_num, by norm_num⟩) (a := obj - ideal) (b := defiled - ideal)
    (by linarith) (by linarith)
  exact ⟨_, div_ok a, b, c⟩

/-! ## Examples -/

/-- A turn with all draws close to the upper ends. -/
def fastTurn (best leader : ℕ) : Turn ℚ :=
  ⟨uniform round64 (1 / 2) (round64 (1 / 10)) (1 / 2), uniform round64 (3 / 4) (3 / 2) 2, 3 / 4,
    uniform round64 (3 / 4) (3 / 2) 2, 7 / 8, best, leader⟩

example : Drawn (fastTurn 0 1) :=
  ⟨⟨6755399441055744, by norm_num, by norm_num [fastTurn]⟩, ⟨7881299347898368, by norm_num, by norm_num [fastTurn]⟩,
    ⟨3 / 4, ⟨6755399441055744, by norm_num, by norm_num⟩, rfl⟩,
    ⟨3 / 4, ⟨6755399441055744, by norm_num, by norm_num⟩, rfl⟩,
    ⟨1 / 2, ⟨4503599627370496, by norm_num, by norm_num⟩, rfl⟩⟩

-- the first particle is drawn past the upper end of [0, 1], stops there and turns around
example : swarm round64 id [((0 : ℚ), 1)] [[fastTurn 0 1, fastTurn 1 1]] [[1 / 4], [1]] =
    .ok ([([1], [-(315 / 256)]), ([1], [0])], [[1 / 4], [1], [1], [1]]) := by decide +kernel

-- a difference of 0.1 is added to 0.7 with rounding
example : trialVector round64 [((0 : ℚ), 1)] id [round64 (7 / 10)] [round64 (1 / 10)] [0] 0 1 1 =
    .ok [7205759403792793 / 9007199254740992] := by decide +kernel

example : round64 (8 / 10 : ℚ) = 7205759403792794 / 9007199254740992 := by decide +kernel

-- out of the box: the coordinate is reset
example : trialVector round64 [((0 : ℚ), 1)] id [round64 (7 / 10)] [1] [0] 0 (1 / 2) 1 = .ok [round64 (7 / 10)] := by
  decide +kernel

-- three coordinates; the rounded sum of the first two is 0.75
example : refPoint round64 (fun b _ => b) (fun _ => (1 / 2 : ℚ)) 3 = [1 / 2, 1 / 4, 1 / 4] := by decide +kernel

example : normalizeValue round64 (1 / 2 ^ 52) (0 : ℚ) 3 3 = .ok 1 := by decide +kernel

example : normalizeValue round64 (1 / 2 ^ 52) (5 : ℚ) 5 5 = .ok 0 := by decide +kernel

end Evogil.Rounded
