import Verif.Props.Candidate

/-! # C93: the rate that normalises the argument of periapsis, over the reals -/

set_option linter.unusedSectionVars false

namespace PyQ

/-- `M` is the maximum over anomaly and over the unit directions in `D` of the rate of element `j` -/
def IsMaxRateOn (D : (Fin 3 → ℝ) → Prop) (psi : LyapArgs ℝ → Fin 3 → Fin 5 → ℝ) (A : LyapArgs ℝ)
    (j : Fin 5) (M : ℝ) : Prop :=
  (∀ ta d, norm3 d = 1 → D d → |elementRate A.f (psi (A.atAnomaly ta)) j d| ≤ M) ∧
  ∃ ta d, norm3 d = 1 ∧ D d ∧ elementRate A.f (psi (A.atAnomaly ta)) j d = M

/-- directions in the orbit plane -/
def InPlane (d : Fin 3 → ℝ) : Prop := d 2 = 0

/-- directions along the orbit normal -/
def AlongNormal (d : Fin 3 → ℝ) : Prop := d 0 = 0 ∧ d 1 = 0

/-- the squared coefficient of the in-plane rate is largest at the code's anomaly -/
theorem inPlane_bound {e x c : ℝ} (he0 : 0 < e) (he1 : e < 1) (hx : -1 ≤ x)
    (hc : -1 < c) (hroot : (c + 1 / e) ^ 3 + (c + 1 / e) = (1 - e ^ 2) / e ^ 3) :
    x ^ 2 + (1 + 1 / (1 + e * x)) ^ 2 * (1 - x ^ 2) ≤
      c ^ 2 + (1 + 1 / (1 + e * c)) ^ 2 * (1 - c ^ 2) := by
  have hw : 0 < 1 + e * x := by nlinarith
  have hW : 0 < 1 + e * c := by nlinarith
  have hr : (1 + e * c) ^ 3 + e ^ 2 * (1 + e * c) = 1 - e ^ 2 := by
    field_simp at hroot
    linear_combination hroot
  have hxe : x = ((1 + e * x) - 1) / e := by field_simp; ring
  have hce : c = ((1 + e * c) - 1) / e := by field_simp; ring
  generalize 1 + e * x = w at *
  generalize 1 + e * c = W at *
  subst hxe hce
  have key : ((W - 1) / e) ^ 2 + (1 + 1 / W) ^ 2 * (1 - ((W - 1) / e) ^ 2) -
      (((w - 1) / e) ^ 2 + (1 + 1 / w) ^ 2 * (1 - ((w - 1) / e) ^ 2)) =
      (w - W) ^ 2 * (2 * W ^ 2 * w + (1 - e ^ 2)) / (e ^ 2 * w ^ 2 * W ^ 2) := by
    field_simp
    linear_combination (2 * w * (w - W)) * hr
  have : 0 ≤ (w - W) ^ 2 * (2 * W ^ 2 * w + (1 - e ^ 2)) / (e ^ 2 * w ^ 2 * W ^ 2) := by
    have : 0 < 1 - e ^ 2 := by nlinarith
    positivity
  linarith

/-- a direction attaining the length of a coefficient vector in the orbit plane -/
theorem exists_direction {x y : ℝ} (h : 0 < x ^ 2 + y ^ 2) :
    ∃ d : Fin 3 → ℝ, norm3 d = 1 ∧ InPlane d ∧ x * d 0 + y * d 1 = Real.sqrt (x ^ 2 + y ^ 2) := by
  have hs := Real.sqrt_pos.2 h
  have hq := Real.sq_sqrt h.le
  set S := Real.sqrt (x ^ 2 + y ^ 2)
  refine ⟨![x / S, y / S, 0], ?_, rfl, ?_⟩
  · simp only [norm3, sqrt_real, Matrix.cons_val]
    rw [div_pow, div_pow, ← add_div, ← hq]
    simp [hs.ne']
  · simp only [Matrix.cons_val]
    field_simp
    linarith

section
variable {A : LyapArgs ℝ} (H : KepEllipse A)
include H

/-- the in-plane part of the code's rate of the argument of periapsis -/
noncomputable def omInPlane (A : LyapArgs ℝ) : ℝ :=
  A.f / (A.oe 1 * Real.sqrt (A.oe 0 * A.mu * (1 - A.oe 1 ^ 2))) *
    Real.sqrt ((A.oe 0 * (1 - A.oe 1 ^ 2)) ^ 2 * cosTaXx (A.oe 1) ^ 2 +
      (A.oe 0 * (1 - A.oe 1 ^ 2) + A.oe 0 * (1 - A.oe 1 ^ 2) / (1 + A.oe 1 * cosTaXx (A.oe 1))) ^ 2 *
        (1 - cosTaXx (A.oe 1) ^ 2))

omit H in
theorem kepOedot_om (A : LyapArgs ℝ) : kepOedot A 4 =
    (omInPlane A + A.b * (kepOedot A 3 * |Real.cos (A.oe 2)|)) / (1 + A.b) := by
  simp only [kepOedot, omInPlane, cosTaXx, Matrix.cons_val, Nat.cast_one, Nat.cast_ofNat, sqrt_real,
    cos_real, sin_real, rpow_real, rat_real, Real.sqrt_sq_eq_abs]

theorem om_inPlane (he : 0 < A.oe 1) : IsMaxRateOn InPlane kepPsi A 4 (omInPlane A) := by
  have hp := H.p_pos
  have hh := H.h_pos
  have he1 := H.e1
  obtain ⟨hc1, hc2⟩ := cosTaXx_range he he1
  have hroot := cosTaXx_root he he1
  have hW : 0 < 1 + A.oe 1 * cosTaXx (A.oe 1) := by nlinarith
  -- the coefficient vector
  have co : ∀ ta, kepPsi (A.atAnomaly ta) 0 4 ^ 2 + kepPsi (A.atAnomaly ta) 1 4 ^ 2 =
      (A.oe 0 * (1 - A.oe 1 ^ 2) / (A.oe 1 * Real.sqrt (A.oe 0 * A.mu * (1 - A.oe 1 ^ 2)))) ^ 2 *
      (Real.cos ta ^ 2 + (1 + 1 / (1 + A.oe 1 * Real.cos ta)) ^ 2 * (1 - Real.cos ta ^ 2)) := by
    intro ta
    rw [kepPsi_real H]
    have hw := H.w_pos ta
    simp only [Matrix.cons_val]
    rw [← Real.sin_sq]
    generalize Real.sqrt (A.oe 0 * A.mu * (1 - A.oe 1 ^ 2)) = h at *
    generalize A.oe 0 * (1 - A.oe 1 ^ 2) = p at *
    generalize 1 + A.oe 1 * Real.cos ta = w at *
    field_simp
  have hM : omInPlane A = A.f * Real.sqrt
      ((A.oe 0 * (1 - A.oe 1 ^ 2) / (A.oe 1 * Real.sqrt (A.oe 0 * A.mu * (1 - A.oe 1 ^ 2)))) ^ 2 *
      (cosTaXx (A.oe 1) ^ 2 + (1 + 1 / (1 + A.oe 1 * cosTaXx (A.oe 1))) ^ 2 *
        (1 - cosTaXx (A.oe 1) ^ 2))) := by
    unfold omInPlane
    generalize Real.sqrt (A.oe 0 * A.mu * (1 - A.oe 1 ^ 2)) = h at *
    generalize A.oe 0 * (1 - A.oe 1 ^ 2) = p at *
    have e1 : p ^ 2 * cosTaXx (A.oe 1) ^ 2 + (p + p / (1 + A.oe 1 * cosTaXx (A.oe 1))) ^ 2 *
        (1 - cosTaXx (A.oe 1) ^ 2) = p ^ 2 * (cosTaXx (A.oe 1) ^ 2 +
        (1 + 1 / (1 + A.oe 1 * cosTaXx (A.oe 1))) ^ 2 * (1 - cosTaXx (A.oe 1) ^ 2)) := by
      field_simp
    rw [e1, Real.sqrt_mul (sq_nonneg _), Real.sqrt_mul (sq_nonneg _), Real.sqrt_sq hp.le,
      Real.sqrt_sq (by positivity)]
    field_simp
  rw [hM]
  constructor
  · intro ta d hd hp0
    have hd2 : d 2 = 0 := hp0
    have : elementRate A.f (kepPsi (A.atAnomaly ta)) 4 d =
        elementRate A.f ![kepPsi (A.atAnomaly ta) 0, kepPsi (A.atAnomaly ta) 1, fun _ => 0] 4 d := by
      simp [elementRate, hd2]
    rw [this]
    refine elementRate_le H.f.le (Real.sqrt_nonneg _) ?_ hd
    have hb := inPlane_bound he he1 (Real.neg_one_le_cos ta) hc1 hroot
    have h0 : 0 ≤ cosTaXx (A.oe 1) ^ 2 + (1 + 1 / (1 + A.oe 1 * cosTaXx (A.oe 1))) ^ 2 *
        (1 - cosTaXx (A.oe 1) ^ 2) := by
      have : 0 ≤ 1 - cosTaXx (A.oe 1) ^ 2 := by nlinarith
      positivity
    rw [Real.sq_sqrt (mul_nonneg (sq_nonneg _) h0)]
    simp only [Matrix.cons_val, Fin.isValue]
    rw [co ta]
    simpa using mul_le_mul_of_nonneg_left hb (sq_nonneg _)
  · have hq : 0 ≤ 1 - cosTaXx (A.oe 1) ^ 2 := by nlinarith
    obtain ⟨θ, h1, h2⟩ := exists_angle (cosTaXx (A.oe 1)) (Real.sqrt (1 - cosTaXx (A.oe 1) ^ 2))
      (by rw [Real.sq_sqrt hq]; ring)
    have hco := co θ
    rw [h1] at hco
    have hpos : 0 < kepPsi (A.atAnomaly θ) 0 4 ^ 2 + kepPsi (A.atAnomaly θ) 1 4 ^ 2 := by
      rw [hco]
      have : 0 < cosTaXx (A.oe 1) ^ 2 := by nlinarith
      positivity
    obtain ⟨d, d1, d2, d3⟩ := exists_direction hpos
    refine ⟨θ, d, d1, d2, ?_⟩
    have hd2 : d 2 = 0 := d2
    rw [← hco, ← d3]
    simp [elementRate, hd2]

theorem om_normal : IsMaxRateOn AlongNormal kepPsi A 4 (kepOedot A 3 * |Real.cos (A.oe 2)|) := by
  have hp := H.p_pos
  have hh := H.h_pos
  have hi := Real.sin_pos_of_pos_of_lt_pi H.i0 H.i1
  obtain ⟨hb, ta, d, hd, hat⟩ := C42_raan H
  have h3 : ∀ ta d, elementRate A.f (kepPsi (A.atAnomaly ta)) 3 d =
      A.f * kepPsi (A.atAnomaly ta) 2 3 * d 2 := by
    intro ta d
    rw [kepPsi_real H]
    simp [elementRate]
    ring
  have h4 : ∀ ta d, AlongNormal d → elementRate A.f (kepPsi (A.atAnomaly ta)) 4 d =
      -(Real.cos (A.oe 2)) * elementRate A.f (kepPsi (A.atAnomaly ta)) 3 d := by
    rintro ta d ⟨d0, d1⟩
    rw [h3, kepPsi_real H]
    have hw := H.w_pos ta
    simp only [elementRate, Matrix.cons_val, d0, d1, mul_zero, zero_add]
    field_simp
  constructor
  · intro ta d hd hn
    rw [h4 ta d hn, abs_mul, abs_neg, mul_comm]
    exact mul_le_mul_of_nonneg_right (hb ta d hd) (abs_nonneg _)
  · rw [h3] at hat
    have hup := hb ta ![0, 0, 1] (norm3_e2 1 (by norm_num))
    have hM : 0 ≤ kepOedot A 3 := (abs_nonneg _).trans hup
    rw [h3] at hup
    simp only [Matrix.cons_val, mul_one] at hup
    have hle : kepOedot A 3 ≤ |A.f * kepPsi (A.atAnomaly ta) 2 3| := by
      rw [← abs_of_nonneg hM, ← hat, abs_mul (A.f * _)]
      exact mul_le_of_le_one_right (abs_nonneg _) (norm3_comp_le H hd)
    have heq := le_antisymm hup hle
    have fin : ∀ s : ℝ, s ^ 2 = 1 →
        -(Real.cos (A.oe 2)) * (A.f * kepPsi (A.atAnomaly ta) 2 3 * s) =
          kepOedot A 3 * |Real.cos (A.oe 2)| →
        ∃ ta d, norm3 d = 1 ∧ AlongNormal d ∧
          elementRate A.f (kepPsi (A.atAnomaly ta)) 4 d = kepOedot A 3 * |Real.cos (A.oe 2)| := by
      intro s hs h
      refine ⟨ta, ![0, 0, s], norm3_e2 s hs, ⟨rfl, rfl⟩, ?_⟩
      rw [h4 _ _ ⟨rfl, rfl⟩, h3]
      exact h
    rw [← heq] at *
    rcases abs_cases (A.f * kepPsi (A.atAnomaly ta) 2 3 * Real.cos (A.oe 2)) with ⟨h, -⟩ | ⟨h, -⟩
    · apply fin (-1) (by norm_num)
      rw [← abs_mul, h]
      ring
    · apply fin 1 (by norm_num)
      rw [← abs_mul, h]
      ring

/-- **C93** The rate that normalises the argument of periapsis in `Q` is `(I + b O)/(1 + b)`, where `I` is
the maximum of `|dω/dt|` over anomaly and unit directions in the orbit plane and `O` its maximum over
anomaly and directions along the orbit normal. -/
theorem C93_om_rate (he : 0 < A.oe 1) : ∃ I O, IsMaxRateOn InPlane kepPsi A 4 I ∧
    IsMaxRateOn AlongNormal kepPsi A 4 O ∧ kepOedot A 4 = (I + A.b * O) / (1 + A.b) :=
  ⟨_, _, om_inPlane H he, om_normal H, kepOedot_om A⟩

omit H in
/-- maxima over a set of directions are unique, so `I` and `O` of `C93_om_rate` are determined -/
theorem C93_max_unique {D : (Fin 3 → ℝ) → Prop} {psi : LyapArgs ℝ → Fin 3 → Fin 5 → ℝ} {j : Fin 5}
    {M N : ℝ} (h1 : IsMaxRateOn D psi A j M) (h2 : IsMaxRateOn D psi A j N) : M = N := by
  obtain ⟨a1, t, d, n1, n2, rfl⟩ := h1
  obtain ⟨b1, u, c, m1, m2, rfl⟩ := h2
  exact le_antisymm ((le_abs_self _).trans (b1 t d n1 n2)) ((le_abs_self _).trans (a1 u c m1 m2))

/-- with `b = 0` the normalising rate is the in-plane maximum -/
theorem C93_b_zero (he : 0 < A.oe 1) (hb : A.b = 0) :
    IsMaxRateOn InPlane kepPsi A 4 (kepOedot A 4) := by
  rw [kepOedot_om, hb]
  simpa using om_inPlane H he

end

/-- C93: an ellipse of eccentricity 1/2 -/
example : KepEllipse sampleKep ∧ 0 < sampleKep.oe 1 :=
  ⟨sampleKep_ellipse, by simp [sampleKep]⟩

end PyQ
