import Verif.Props.Rates

/-! # C40: the proximity quotient as a Lyapunov candidate, over the reals -/

set_option linter.unusedSectionVars false

namespace PyQ

/-- The power `((a - aT)/(m aT))**n` of the Keplerian law is a number that is not negative: the base is not
negative, or the exponent is an even integer (the default is 4). -/
def SmaScaleReal (A : LyapArgs ℝ) : Prop :=
  A.oeT 0 ≤ A.oe 0 ∨ ∃ j : ℕ, A.n = 2 * j

/-- The power is above -1 for every `a > 0`: the exponent is an integer, which may be odd, and `m ≥ 1` (the
default is 3). With an exponent that is not an integer the program computes NaN below the target (C141). -/
def WholeScale (A : LyapArgs ℝ) : Prop := 1 ≤ A.m ∧ ∃ j : ℕ, A.n = j

/-- then the number of which `soe[0]` is a root, `_symbolic.py:84`, is positive -/
theorem WholeScale.pos {A : LyapArgs ℝ} (H : WholeScale A) (ha : 0 < A.oe 0) (hT : 0 < A.oeT 0) :
    0 < 1 + ((A.oe 0 - A.oeT 0) / (A.m * A.oeT 0)) ^ A.n := by
  obtain ⟨hm, j, hj⟩ := H
  have hd : 0 < A.m * A.oeT 0 := mul_pos (by linarith) hT
  rw [hj, Real.rpow_natCast]
  by_cases h : 0 ≤ (A.oe 0 - A.oeT 0) / (A.m * A.oeT 0)
  · have := pow_nonneg h j
    linarith
  · rw [not_le] at h
    have h1 : -1 < (A.oe 0 - A.oeT 0) / (A.m * A.oeT 0) := by
      rw [lt_div_iff₀ hd]
      nlinarith
    rcases Nat.eq_zero_or_pos j with rfl | hj0
    · norm_num
    · have h2 := pow_lt_one₀ (abs_nonneg _) (abs_lt.2 ⟨h1, by linarith⟩) hj0.ne'
      rw [← abs_pow] at h2
      linarith [(abs_lt.1 h2).1]

/-- Keplerian arguments for which the formula of `Q` has no division by zero and no power of a
negative number, with non-negative weights -/
structure KepAdmissible (A : LyapArgs ℝ) : Prop extends KepEllipse A where
  e_pos : 0 < A.oe 1
  aT : 0 < A.oeT 0
  m : 0 < A.m
  n : 0 ≤ A.n
  r : A.r ≠ 0
  b : 0 ≤ A.b
  rpmin : 0 < A.rpmin
  wp : 0 ≤ A.wp
  woe : ∀ j, 0 ≤ A.woe j
  scale : SmaScaleReal A ∨ WholeScale A

/-- MEE arguments, likewise -/
structure MeeAdmissible (A : LyapArgs ℝ) : Prop extends MeeEllipse A where
  aT : 0 < A.oeT 0
  m : 0 < A.m
  n : 0 ≤ A.n
  r : A.r ≠ 0
  rpmin : 0 < A.rpmin
  wp : 0 ≤ A.wp
  woe : ∀ j, 0 ≤ A.woe j

/-- every Keplerian element with positive weight is at its target, angles up to full turns -/
def KepAtTarget (A : LyapArgs ℝ) : Prop :=
  (0 < A.woe 0 → A.oe 0 = A.oeT 0) ∧ (0 < A.woe 1 → A.oe 1 = A.oeT 1) ∧
  (0 < A.woe 2 → A.oe 2 = A.oeT 2) ∧
  (0 < A.woe 3 → ∃ n : ℤ, A.oe 3 = A.oeT 3 + n * (2 * Real.pi)) ∧
  (0 < A.woe 4 → ∃ n : ℤ, A.oe 4 = A.oeT 4 + n * (2 * Real.pi))

/-- every MEE element with positive weight is at its target -/
def MeeAtTarget (A : LyapArgs ℝ) : Prop :=
  ∀ j : Fin 5, 0 < A.woe j → A.oe j.castSucc = A.oeT j

/-! ## the anomaly of the maximum rate of the argument of periapsis -/

/-- `cos_ta_xx` of the code as a function of the eccentricity -/
noncomputable def cosTaXx (e : ℝ) : ℝ :=
  ((1 - e ^ 2) / (2 * e ^ 3) + Real.sqrt (1 / 4 * ((1 - e ^ 2) / e ^ 3) ^ 2 + 1 / 27)) ^ (1 / 3 : ℝ) -
  (-(1 - e ^ 2) / (2 * e ^ 3) +
    Real.sqrt (1 / 4 * ((1 - e ^ 2) / e ^ 3) ^ 2 + 1 / 27)) ^ (1 / 3 : ℝ) - 1 / e

theorem cbrt_cube {x : ℝ} (hx : 0 ≤ x) : (x ^ (1 / 3 : ℝ)) ^ 3 = x := by
  rw [← Real.rpow_natCast, ← Real.rpow_mul hx]; norm_num

/-- Cardano: the code's value is a root of `(c + 1/e)³ + (c + 1/e) = (1 - e²)/e³` -/
theorem cosTaXx_root {e : ℝ} (he0 : 0 < e) (he1 : e < 1) :
    (cosTaXx e + 1 / e) ^ 3 + (cosTaXx e + 1 / e) = (1 - e ^ 2) / e ^ 3 := by
  obtain ⟨s, hs⟩ : ∃ s, s = (1 - e ^ 2) / e ^ 3 := ⟨_, rfl⟩
  have hs0 : 0 < s := by rw [hs]; exact div_pos (by nlinarith) (by positivity)
  have e1 : (1 - e ^ 2) / (2 * e ^ 3) = s / 2 := by rw [hs]; field_simp
  have e2 : -(1 - e ^ 2) / (2 * e ^ 3) = -(s / 2) := by rw [← e1]; ring
  have hR : 0 ≤ 1 / 4 * s ^ 2 + 1 / 27 := by positivity
  have hS := Real.sq_sqrt hR
  have hlt : s / 2 < Real.sqrt (1 / 4 * s ^ 2 + 1 / 27) := by
    apply Real.lt_sqrt_of_sq_lt; nlinarith
  rw [cosTaXx, e1, e2, ← hs]
  set S := Real.sqrt (1 / 4 * s ^ 2 + 1 / 27)
  have h1 : 0 < s / 2 + S := by positivity
  have h2 : 0 < -(s / 2) + S := by linarith
  have c1 := cbrt_cube h1.le
  have c2 := cbrt_cube h2.le
  have p1 := Real.rpow_pos_of_pos h1 (1 / 3)
  have p2 := Real.rpow_pos_of_pos h2 (1 / 3)
  generalize (s / 2 + S) ^ (1 / 3 : ℝ) = t1 at *
  generalize (-(s / 2) + S) ^ (1 / 3 : ℝ) = t2 at *
  have hprod : t1 * t2 = 1 / 3 := by
    have h3 : (t1 * t2) ^ 3 = (1 / 3) ^ 3 := by
      rw [mul_pow, c1, c2]; nlinarith
    exact (pow_left_inj₀ (by positivity) (by norm_num) (by norm_num : (3 : ℕ) ≠ 0)).1 h3
  have : t1 - t2 - 1 / e + 1 / e = t1 - t2 := by ring
  rw [this]
  linear_combination c1 - c2 - 3 * (t1 - t2) * hprod

/-- the code's value is the cosine of an angle strictly between apoapsis and the semi-latus rectum -/
theorem cosTaXx_range {e : ℝ} (he0 : 0 < e) (he1 : e < 1) : -1 < cosTaXx e ∧ cosTaXx e < 0 := by
  have h := cosTaXx_root he0 he1
  obtain ⟨x, hx⟩ : ∃ x, x = 1 / e := ⟨_, rfl⟩
  have hx1 : 1 < x := by rw [hx, lt_div_iff₀ he0]; linarith
  have hs : (1 - e ^ 2) / e ^ 3 = x ^ 3 - x := by rw [hx]; field_simp
  rw [← hx, hs] at h
  generalize cosTaXx e = c at *
  constructor
  · by_contra hc
    push Not at hc
    have hy : c + x ≤ x - 1 := by linarith
    have : (c + x) ^ 3 ≤ (x - 1) ^ 3 := (Odd.pow_le_pow (⟨1, rfl⟩ : Odd 3)).2 hy
    nlinarith
  · by_contra hc
    push Not at hc
    have hy : x ≤ c + x := by linarith
    have : x ^ 3 ≤ (c + x) ^ 3 := (Odd.pow_le_pow (⟨1, rfl⟩ : Odd 3)).2 hy
    nlinarith

/-! ## positivity of the maximum rates -/

theorem kepOedot_pos {A : LyapArgs ℝ} (H : KepEllipse A) (he : 0 < A.oe 1) (hb : 0 ≤ A.b)
    (j : Fin 5) : 0 < kepOedot A j := by
  have hp := H.p_pos
  have hh := H.h_pos
  have hf := H.f
  have hmu := H.mu
  have ha := H.a
  have he1 := H.e1
  have hi := Real.sin_pos_of_pos_of_lt_pi H.i0 H.i1
  have hG1 := gap_pos (c := Real.cos (A.oe 4)) (s := Real.sin (A.oe 4)) he.le he1
    (Real.cos_sq_add_sin_sq _)
  have hG2 := gap_pos (c := Real.sin (A.oe 4)) (s := Real.cos (A.oe 4)) he.le he1
    (Real.sin_sq_add_cos_sq _)
  have hra : 0 < kepOedot A 3 := by
    simp only [kepOedot, Matrix.cons_val, Nat.cast_one, sqrt_real, cos_real, sin_real]
    positivity
  have h1e : 0 < 1 - A.oe 1 := by linarith
  fin_cases j
  · simp only [kepOedot, Fin.zero_eta, Matrix.cons_val, Nat.cast_one, Nat.cast_ofNat, sqrt_real]
    positivity
  · simp only [kepOedot, Fin.mk_one, Matrix.cons_val, Nat.cast_one, Nat.cast_ofNat, sqrt_real]
    positivity
  · simp only [kepOedot, Fin.reduceFinMk, Matrix.cons_val, Nat.cast_one, sqrt_real, cos_real,
      sin_real]
    positivity
  · exact hra
  · obtain ⟨hc1, hc2⟩ := cosTaXx_range he he1
    have hom : kepOedot A 4 = (A.f / (A.oe 1 * Real.sqrt (A.oe 0 * A.mu * (1 - A.oe 1 ^ 2))) *
        Real.sqrt ((A.oe 0 * (1 - A.oe 1 ^ 2)) ^ 2 * cosTaXx (A.oe 1) ^ 2 +
          (A.oe 0 * (1 - A.oe 1 ^ 2) + A.oe 0 * (1 - A.oe 1 ^ 2) /
            (1 + A.oe 1 * cosTaXx (A.oe 1))) ^ 2 * (1 - cosTaXx (A.oe 1) ^ 2)) +
        A.b * (kepOedot A 3 * Real.sqrt (Real.cos (A.oe 2) ^ 2))) / (1 + A.b) := by
      simp only [kepOedot, cosTaXx, Matrix.cons_val, Nat.cast_one, Nat.cast_ofNat, sqrt_real,
        cos_real, sin_real, rpow_real, rat_real]
    show 0 < kepOedot A 4
    rw [hom]
    have hc0 : 0 < cosTaXx (A.oe 1) ^ 2 := by nlinarith
    have hc3 : 0 ≤ 1 - cosTaXx (A.oe 1) ^ 2 := by nlinarith
    have : 0 < (A.oe 0 * (1 - A.oe 1 ^ 2)) ^ 2 * cosTaXx (A.oe 1) ^ 2 +
          (A.oe 0 * (1 - A.oe 1 ^ 2) + A.oe 0 * (1 - A.oe 1 ^ 2) /
            (1 + A.oe 1 * cosTaXx (A.oe 1))) ^ 2 * (1 - cosTaXx (A.oe 1) ^ 2) := by
      positivity
    have h5 := Real.sqrt_pos.2 this
    positivity

theorem meeOedot_pos {A : LyapArgs ℝ} (H : MeeEllipse A) (j : Fin 5) : 0 < meeOedot A j := by
  have hs := mee_s_pos H
  have hf := H.f
  have hmu := H.mu
  have ha := H.a
  have he1 := H.e_lt
  have e0 := Real.sqrt_nonneg (A.oe 1 ^ 2 + A.oe 2 ^ 2)
  have hG1 := fg_gap_pos H.ecc
  have hG2 := fg_gap_pos (show A.oe 2 ^ 2 + A.oe 1 ^ 2 < 1 by linarith [H.ecc])
  have h1 : 0 < Real.sqrt (1 - A.oe 2 ^ 2) + A.oe 1 := by
    have := neg_abs_le (A.oe 1); linarith
  have h2 : 0 < Real.sqrt (1 - A.oe 1 ^ 2) + A.oe 2 := by
    have := neg_abs_le (A.oe 2); linarith
  have h3 : 0 < 1 - Real.sqrt (A.oe 1 ^ 2 + A.oe 2 ^ 2) := by linarith
  fin_cases j
  · simp only [meeOedot, Fin.zero_eta, Matrix.cons_val, Nat.cast_one, Nat.cast_ofNat, sqrt_real]
    positivity
  · simp only [meeOedot, Fin.mk_one, Matrix.cons_val, Nat.cast_one, Nat.cast_ofNat, sqrt_real]
    positivity
  · simp only [meeOedot, Fin.reduceFinMk, Matrix.cons_val, Nat.cast_one, Nat.cast_ofNat, sqrt_real]
    positivity
  · simp only [meeOedot, Fin.reduceFinMk, Matrix.cons_val, Nat.cast_one, Nat.cast_ofNat, sqrt_real,
      rat_real]
    positivity
  · simp only [meeOedot, Fin.reduceFinMk, Matrix.cons_val, Nat.cast_one, Nat.cast_ofNat, sqrt_real,
      rat_real]
    positivity

theorem kepSoe_pos {A : LyapArgs ℝ} (H : KepAdmissible A) : 0 < kepSoe A := by
  simp only [kepSoe, rpow_real, Nat.cast_one]
  apply Real.rpow_pos_of_pos
  rcases H.scale with hs | hs
  swap
  · exact hs.pos H.a H.aT
  have : 0 ≤ ((A.oe 0 - A.oeT 0) / (A.m * A.oeT 0)) ^ A.n := by
    have hd : 0 < A.m * A.oeT 0 := mul_pos H.m H.aT
    rcases hs with h | ⟨j, h⟩
    · exact Real.rpow_nonneg (div_nonneg (by linarith) hd.le) _
    · rw [h, show ((2 : ℝ) * (j : ℝ)) = ((2 * j : ℕ) : ℝ) by push_cast; ring, Real.rpow_natCast,
        pow_mul]
      positivity
  linarith

theorem meeSoe_pos {A : LyapArgs ℝ} (H : MeeAdmissible A) : 0 < meeSoe A := by
  simp only [meeSoe, rpow_real, Nat.cast_one, sqrt_real]
  apply Real.rpow_pos_of_pos
  have hd : 0 < A.m * A.oeT 0 := mul_pos H.m H.aT
  have : 0 ≤ (Real.sqrt ((A.oe 0 - A.oeT 0) ^ 2) / (A.m * A.oeT 0)) ^ A.n :=
    Real.rpow_nonneg (by positivity) _
  linarith

/-- a weighted sum of squares -/
theorem weighted_zero {c : ℝ} (hc : 0 < c) {w s d o : Fin 5 → ℝ} (hw : ∀ j, 0 ≤ w j)
    (hs : ∀ j, 0 < s j) (ho : ∀ j, 0 < o j) :
    0 ≤ c * (w 0 * s 0 * (d 0 / o 0) ^ 2 + w 1 * s 1 * (d 1 / o 1) ^ 2 + w 2 * s 2 * (d 2 / o 2) ^ 2 +
      w 3 * s 3 * (d 3 / o 3) ^ 2 + w 4 * s 4 * (d 4 / o 4) ^ 2) ∧
    (c * (w 0 * s 0 * (d 0 / o 0) ^ 2 + w 1 * s 1 * (d 1 / o 1) ^ 2 + w 2 * s 2 * (d 2 / o 2) ^ 2 +
      w 3 * s 3 * (d 3 / o 3) ^ 2 + w 4 * s 4 * (d 4 / o 4) ^ 2) = 0 ↔
      ∀ j, 0 < w j → d j = 0) := by
  have h0 : ∀ j, 0 ≤ w j * s j * (d j / o j) ^ 2 := fun j =>
    mul_nonneg (mul_nonneg (hw j) (hs j).le) (sq_nonneg _)
  have hz : ∀ j, w j * s j * (d j / o j) ^ 2 = 0 ↔ (0 < w j → d j = 0) := by
    intro j
    rw [mul_eq_zero, mul_eq_zero, pow_eq_zero_iff two_ne_zero, div_eq_zero_iff]
    have := (hs j).ne'
    have := (ho j).ne'
    constructor
    · rintro ((h | h) | h | h) hp
      · exact absurd h hp.ne'
      · contradiction
      · exact h
      · contradiction
    · intro h
      rcases (hw j).eq_or_lt with h1 | h1
      · exact Or.inl (Or.inl h1.symm)
      · exact Or.inr (Or.inl (h h1))
  have := h0 0; have := h0 1; have := h0 2; have := h0 3; have := h0 4
  refine ⟨by positivity, ?_⟩
  rw [mul_eq_zero, or_iff_right hc.ne']
  constructor
  · intro h j
    rw [← hz j]
    clear hz h0
    match j with
    | 0 => linarith
    | 1 => linarith
    | 2 => linarith
    | 3 => linarith
    | 4 => linarith
  · intro h
    have e := fun j => (hz j).2 (h j)
    rw [e 0, e 1, e 2, e 3, e 4]; norm_num

theorem arccos_cos_eq_zero (x y : ℝ) :
    Real.arccos (Real.cos (x - y)) = 0 ↔ ∃ n : ℤ, x = y + n * (2 * Real.pi) := by
  rw [Real.arccos_eq_zero]
  constructor
  · intro h
    obtain ⟨n, hn⟩ := (Real.cos_eq_one_iff _).1 (le_antisymm (Real.cos_le_one _) h)
    exact ⟨n, by linarith⟩
  · rintro ⟨n, rfl⟩
    have : y + n * (2 * Real.pi) - y = n * (2 * Real.pi) := by ring
    rw [this, Real.cos_int_mul_two_pi]

/-- C40, Keplerian: `Q ≥ 0`, and `Q = 0` exactly at the target. -/
theorem C40_keplerian (A : LyapArgs ℝ) (H : KepAdmissible A) :
    0 ≤ kepQ A ∧ (kepQ A = 0 ↔ KepAtTarget A) := by
  have hc : 0 < 1 + A.wp * kepPenalty A := by
    have : 0 < kepPenalty A := Real.exp_pos _
    have := H.wp
    positivity
  obtain ⟨h1, h2⟩ := weighted_zero hc (w := A.woe) (s := ![kepSoe A, 1, 1, 1, 1])
    (d := kepDoe A) (o := kepOedot A) H.woe
    (by intro j; fin_cases j <;> simp; exact kepSoe_pos H)
    (kepOedot_pos H.toKepEllipse H.e_pos H.b)
  have e : kepQ A = (1 + A.wp * kepPenalty A) *
      (A.woe 0 * (![kepSoe A, 1, 1, 1, 1] : Fin 5 → ℝ) 0 * (kepDoe A 0 / kepOedot A 0) ^ 2 +
      A.woe 1 * (![kepSoe A, 1, 1, 1, 1] : Fin 5 → ℝ) 1 * (kepDoe A 1 / kepOedot A 1) ^ 2 +
      A.woe 2 * (![kepSoe A, 1, 1, 1, 1] : Fin 5 → ℝ) 2 * (kepDoe A 2 / kepOedot A 2) ^ 2 +
      A.woe 3 * (![kepSoe A, 1, 1, 1, 1] : Fin 5 → ℝ) 3 * (kepDoe A 3 / kepOedot A 3) ^ 2 +
      A.woe 4 * (![kepSoe A, 1, 1, 1, 1] : Fin 5 → ℝ) 4 * (kepDoe A 4 / kepOedot A 4) ^ 2) := by
    simp only [kepQ, Nat.cast_one, Matrix.cons_val]
  rw [e]
  refine ⟨h1, h2.trans ?_⟩
  rw [Fin.forall_fin_succ, Fin.forall_fin_succ, Fin.forall_fin_succ, Fin.forall_fin_succ,
    Fin.forall_fin_succ]
  simp [KepAtTarget, kepDoe, sub_eq_zero, arccos_cos_eq_zero, -Real.arccos_eq_zero]

/-- C40, MEE: `Q ≥ 0`, and `Q = 0` exactly at the target. -/
theorem C40_mee (A : LyapArgs ℝ) (H : MeeAdmissible A) :
    0 ≤ meeQ A ∧ (meeQ A = 0 ↔ MeeAtTarget A) := by
  have hc : 0 < 1 + A.wp * meePenalty A := by
    have : 0 < meePenalty A := Real.exp_pos _
    have := H.wp
    positivity
  obtain ⟨h1, h2⟩ := weighted_zero hc (w := A.woe) (s := ![meeSoe A, 1, 1, 1, 1])
    (d := meeDoe A) (o := meeOedot A) H.woe
    (by intro j; fin_cases j <;> simp; exact meeSoe_pos H) (meeOedot_pos H.toMeeEllipse)
  have e : meeQ A = (1 + A.wp * meePenalty A) *
      (A.woe 0 * (![meeSoe A, 1, 1, 1, 1] : Fin 5 → ℝ) 0 * (meeDoe A 0 / meeOedot A 0) ^ 2 +
      A.woe 1 * (![meeSoe A, 1, 1, 1, 1] : Fin 5 → ℝ) 1 * (meeDoe A 1 / meeOedot A 1) ^ 2 +
      A.woe 2 * (![meeSoe A, 1, 1, 1, 1] : Fin 5 → ℝ) 2 * (meeDoe A 2 / meeOedot A 2) ^ 2 +
      A.woe 3 * (![meeSoe A, 1, 1, 1, 1] : Fin 5 → ℝ) 3 * (meeDoe A 3 / meeOedot A 3) ^ 2 +
      A.woe 4 * (![meeSoe A, 1, 1, 1, 1] : Fin 5 → ℝ) 4 * (meeDoe A 4 / meeOedot A 4) ^ 2) := by
    simp only [meeQ, Nat.cast_one, Matrix.cons_val]
  rw [e]
  refine ⟨h1, h2.trans ?_⟩
  simp only [MeeAtTarget]
  rw [Fin.forall_fin_succ, Fin.forall_fin_succ, Fin.forall_fin_succ, Fin.forall_fin_succ,
    Fin.forall_fin_succ, Fin.forall_fin_succ, Fin.forall_fin_succ, Fin.forall_fin_succ,
    Fin.forall_fin_succ, Fin.forall_fin_succ]
  simp [meeDoe, sub_eq_zero]

/-- C40: `Q` does not depend on the anomaly. -/
theorem C40_anomaly (A : LyapArgs ℝ) (ta : ℝ) :
    kepQ (A.atAnomaly ta) = kepQ A ∧ meeQ (A.atAnomaly ta) = meeQ A := ⟨rfl, rfl⟩

/-- C40: `Q` scales with the inverse square of the acceleration. -/
theorem C40_scaling (A : LyapArgs ℝ) (c : ℝ) :
    kepQ { A with f := c * A.f } = kepQ A / c ^ 2 ∧
    meeQ { A with f := c * A.f } = meeQ A / c ^ 2 := by
  have h1 : ∀ j, kepOedot { A with f := c * A.f } j = c * kepOedot A j := by
    intro j; fin_cases j <;> simp [kepOedot] <;> ring
  have h2 : ∀ j, meeOedot { A with f := c * A.f } j = c * meeOedot A j := by
    intro j; fin_cases j <;> simp [meeOedot] <;> ring
  have h3 : ∀ d o : ℝ, (d / (c * o)) ^ 2 = (d / o) ^ 2 / c ^ 2 := by intros; ring
  constructor
  · simp only [kepQ, h1, h3]
    show (_ + _ * kepPenalty A) * (_ * kepSoe A * ((kepDoe A 0 / _) ^ 2 / _) +
      _ * _ * ((kepDoe A 1 / _) ^ 2 / _) + _ * _ * ((kepDoe A 2 / _) ^ 2 / _) +
      _ * _ * ((kepDoe A 3 / _) ^ 2 / _) + _ * _ * ((kepDoe A 4 / _) ^ 2 / _)) = _
    ring
  · simp only [meeQ, h2, h3]
    show (_ + _ * meePenalty A) * (_ * meeSoe A * ((meeDoe A 0 / _) ^ 2 / _) +
      _ * _ * ((meeDoe A 1 / _) ^ 2 / _) + _ * _ * ((meeDoe A 2 / _) ^ 2 / _) +
      _ * _ * ((meeDoe A 3 / _) ^ 2 / _) + _ * _ * ((meeDoe A 4 / _) ^ 2 / _)) = _
    ring

example : KepAdmissible sampleKep where
  toKepEllipse := sampleKep_ellipse
  e_pos := by simp [sampleKep]
  aT := by simp [sampleKep]
  m := by simp [sampleKep]
  n := by simp [sampleKep]
  r := by simp [sampleKep]
  b := by simp [sampleKep]
  rpmin := by simp [sampleKep]
  wp := by simp [sampleKep]
  woe := by intro j; fin_cases j <;> simp [sampleKep]
  scale := Or.inl (Or.inr ⟨2, by simp [sampleKep]; norm_num⟩)

/-- below the target with an odd `n_petro` -/
example : ∃ A : LyapArgs ℝ, KepAdmissible A ∧ A.n = 3 ∧ A.oe 0 < A.oeT 0 := by
  refine ⟨{ sampleKep with n := 3, oeT := ![5, 1 / 2, 1, 1, 1], m := 1 }, ?_, rfl, ?_⟩
  · exact {
      toKepEllipse := ⟨sampleKep_ellipse.mu, sampleKep_ellipse.f, sampleKep_ellipse.a, sampleKep_ellipse.e0,
        sampleKep_ellipse.e1, sampleKep_ellipse.i0, sampleKep_ellipse.i1⟩
      e_pos := by simp [sampleKep]
      aT := by simp
      m := one_pos
      n := by norm_num
      r := by simp [sampleKep]
      b := by simp [sampleKep]
      rpmin := by simp [sampleKep]
      wp := by simp [sampleKep]
      woe := by intro j; fin_cases j <;> simp [sampleKep]
      scale := Or.inr ⟨le_refl _, 3, by norm_num⟩ }
  · simp [sampleKep]; norm_num

example : MeeAdmissible (sampleMee (1 / 2)) where
  mu := by simp [sampleMee]
  f := by simp [sampleMee]
  a := by simp [sampleMee]
  ecc := by simp [sampleMee]; norm_num
  aT := by simp [sampleMee]
  m := by simp [sampleMee]
  n := by simp [sampleMee]
  r := by simp [sampleMee]
  rpmin := by simp [sampleMee]
  wp := by simp [sampleMee]
  woe := by intro j; fin_cases j <;> simp [sampleMee]

end PyQ
