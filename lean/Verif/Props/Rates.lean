import Verif.Props.ControlLaw
import Mathlib.Analysis.Real.Pi.Bounds

/-! # C42-C44: maximum element rates and Gauss coefficients, over the reals -/

set_option linter.unusedSectionVars false

namespace PyQ

/-- rate of slow element `j` under acceleration of magnitude `f` in direction `d` -/
def elementRate (f : ℝ) (psi : Fin 3 → Fin 5 → ℝ) (j : Fin 5) (d : Fin 3 → ℝ) : ℝ :=
  f * (psi 0 j * d 0 + psi 1 j * d 1 + psi 2 j * d 2)

/-- the same arguments with another anomaly (true anomaly or true longitude) -/
def LyapArgs.atAnomaly (A : LyapArgs ℝ) (ta : ℝ) : LyapArgs ℝ :=
  { A with oe := ![A.oe 0, A.oe 1, A.oe 2, A.oe 3, A.oe 4, ta] }

/-- `M` is the maximum over anomaly and unit directions of the rate of element `j` -/
def IsMaxRate (psi : LyapArgs ℝ → Fin 3 → Fin 5 → ℝ) (A : LyapArgs ℝ) (j : Fin 5) (M : ℝ) : Prop :=
  (∀ ta d, norm3 d = 1 → |elementRate A.f (psi (A.atAnomaly ta)) j d| ≤ M) ∧
  ∃ ta d, norm3 d = 1 ∧ elementRate A.f (psi (A.atAnomaly ta)) j d = M

/-- elliptic Keplerian elements with `0 < i < π` -/
structure KepEllipse (A : LyapArgs ℝ) : Prop where
  mu : 0 < A.mu
  f : 0 < A.f
  a : 0 < A.oe 0
  e0 : 0 ≤ A.oe 1
  e1 : A.oe 1 < 1
  i0 : 0 < A.oe 2
  i1 : A.oe 2 < Real.pi

theorem exists_angle (x y : ℝ) (h : x ^ 2 + y ^ 2 = 1) :
    ∃ θ, Real.cos θ = x ∧ Real.sin θ = y := by
  obtain ⟨h1, h2⟩ := arg_sincos x y (by rw [h]; norm_num)
  rw [h, Real.sqrt_one, div_one] at h1 h2
  exact ⟨_, h1, h2⟩

/-- a rate is at most the length of its coefficient vector -/
theorem elementRate_le {f M : ℝ} (hf : 0 ≤ f) {psi : Fin 3 → Fin 5 → ℝ} {j : Fin 5}
    (hM0 : 0 ≤ M) (hM : psi 0 j ^ 2 + psi 1 j ^ 2 + psi 2 j ^ 2 ≤ M ^ 2) {d : Fin 3 → ℝ}
    (hd : norm3 d = 1) : |elementRate f psi j d| ≤ f * M := by
  have h := abs_dot3_le ![psi 0 j, psi 1 j, psi 2 j] d
  rw [hd, mul_one] at h
  have hn : norm3 ![psi 0 j, psi 1 j, psi 2 j] ≤ M := by
    simp only [norm3, sqrt_real]
    rw [Real.sqrt_le_iff]; exact ⟨hM0, by simpa using hM⟩
  have e : elementRate f psi j d = f * dot3 ![psi 0 j, psi 1 j, psi 2 j] d := by
    simp [elementRate, dot3]
  rw [e, abs_mul, abs_of_nonneg hf]
  exact mul_le_mul_of_nonneg_left (h.trans hn) hf

theorem norm3_e1 : norm3 ![0, (1 : ℝ), 0] = 1 := by simp [norm3]
theorem norm3_e2 (s : ℝ) (hs : s ^ 2 = 1) : norm3 ![0, 0, s] = 1 := by simp [norm3, hs]

/-- `sqrt(1 - e² s²) - e |c| > 0` inside the ellipse -/
theorem gap_pos {e c s : ℝ} (he0 : 0 ≤ e) (he1 : e < 1) (h : c ^ 2 + s ^ 2 = 1) :
    0 < Real.sqrt (1 - e ^ 2 * s ^ 2) - e * Real.sqrt (c ^ 2) := by
  rw [Real.sqrt_sq_eq_abs, sub_pos]
  apply Real.lt_sqrt_of_sq_lt
  rw [mul_pow, sq_abs]
  nlinarith

/-- the maximum of `|x| / (1 + e (x c + y s))` over the unit circle, upper bound -/
theorem gap_bound {e c s x y : ℝ} (he0 : 0 ≤ e) (he1 : e < 1) (h : c ^ 2 + s ^ 2 = 1)
    (hxy : x ^ 2 + y ^ 2 = 1) :
    |x| * (Real.sqrt (1 - e ^ 2 * s ^ 2) - e * Real.sqrt (c ^ 2)) ≤ 1 + e * (x * c + y * s) := by
  have hr : 0 ≤ 1 - e ^ 2 * s ^ 2 := by nlinarith [sq_nonneg c, sq_nonneg e, mul_self_nonneg s]
  have hS := Real.sq_sqrt hr
  have hS0 := Real.sqrt_nonneg (1 - e ^ 2 * s ^ 2)
  rw [Real.sqrt_sq_eq_abs]
  set S := Real.sqrt (1 - e ^ 2 * s ^ 2)
  have h1 : -(|x| * |c|) ≤ x * c := by rw [← abs_mul]; exact neg_abs_le _
  have h2 : |x| * S - e * s * y ≤ 1 := by
    have hx := sq_abs x
    nlinarith [sq_nonneg (|x| - S), sq_nonneg (y + e * s)]
  nlinarith

/-- and attainment -/
theorem gap_attained {e c s : ℝ} (he0 : 0 ≤ e) (he1 : e < 1) (h : c ^ 2 + s ^ 2 = 1) :
    ∃ x y, x ^ 2 + y ^ 2 = 1 ∧
      |x| * (Real.sqrt (1 - e ^ 2 * s ^ 2) - e * Real.sqrt (c ^ 2)) = 1 + e * (x * c + y * s) := by
  have hr : 0 ≤ 1 - e ^ 2 * s ^ 2 := by nlinarith [sq_nonneg c, sq_nonneg e, mul_self_nonneg s]
  have hS := Real.sq_sqrt hr
  have hS0 := Real.sqrt_nonneg (1 - e ^ 2 * s ^ 2)
  rw [Real.sqrt_sq_eq_abs]
  set S := Real.sqrt (1 - e ^ 2 * s ^ 2)
  rcases le_or_gt 0 c with hc | hc
  · refine ⟨-S, -(e * s), by nlinarith, ?_⟩
    rw [abs_neg, abs_of_nonneg hS0, abs_of_nonneg hc]; nlinarith
  · refine ⟨S, -(e * s), by nlinarith, ?_⟩
    rw [abs_of_nonneg hS0, abs_of_neg hc]; nlinarith

section
variable {A : LyapArgs ℝ} (H : KepEllipse A)
include H

theorem KepEllipse.p_pos : 0 < A.oe 0 * (1 - A.oe 1 ^ 2) := by
  have := H.a; have := H.e0; have := H.e1
  exact mul_pos H.a (by nlinarith)

theorem KepEllipse.h_pos : 0 < Real.sqrt (A.oe 0 * A.mu * (1 - A.oe 1 ^ 2)) := by
  have := H.p_pos; have := H.mu
  apply Real.sqrt_pos.2
  rw [mul_right_comm]; positivity

theorem KepEllipse.h_sq : Real.sqrt (A.oe 0 * A.mu * (1 - A.oe 1 ^ 2)) ^ 2 =
    A.mu * (A.oe 0 * (1 - A.oe 1 ^ 2)) := by
  have := H.p_pos; have := H.mu
  rw [Real.sq_sqrt]
  · ring
  · rw [mul_right_comm]; positivity

theorem KepEllipse.w_pos (ta : ℝ) : 0 < 1 + A.oe 1 * Real.cos ta := by
  have := H.e0; have := H.e1
  nlinarith [Real.neg_one_le_cos ta]

/-- the Gauss matrix of the code, simplified on an ellipse -/
theorem kepPsi_real (ta : ℝ) : kepPsi (A.atAnomaly ta) =
    let e := A.oe 1
    let p := A.oe 0 * (1 - A.oe 1 ^ 2)
    let h := Real.sqrt (A.oe 0 * A.mu * (1 - A.oe 1 ^ 2))
    let w := 1 + A.oe 1 * Real.cos ta
    ![![2 * A.oe 0 ^ 2 / h * (e * Real.sin ta), p / h * Real.sin ta, 0, 0, -p / (e * h) * Real.cos ta],
      ![2 * A.oe 0 ^ 2 / h * w, p / h * (Real.cos ta + (Real.cos ta + e) / w), 0, 0,
        (p + p / w) * Real.sin ta / (e * h)],
      ![0, 0, p / h * (Real.cos (ta + A.oe 4) / w),
        p / h * (Real.sin (ta + A.oe 4) / w) / Real.sin (A.oe 2),
        -(p / w) * Real.sin (ta + A.oe 4) * Real.cos (A.oe 2) / (h * Real.sin (A.oe 2))]] := by
  have hp := H.p_pos
  have hh := H.h_pos
  have hmu := H.mu
  have hw := H.w_pos ta
  have hsq := H.h_sq
  have hr : Real.sqrt (A.oe 0 * A.mu * (1 - A.oe 1 ^ 2)) ^ 2 / (A.mu * (1 + A.oe 1 * Real.cos ta)) =
      A.oe 0 * (1 - A.oe 1 ^ 2) / (1 + A.oe 1 * Real.cos ta) := by
    rw [hsq]; field_simp
  simp only [kepPsi, LyapArgs.atAnomaly, Matrix.cons_val, Nat.cast_one, Nat.cast_zero,
    Nat.cast_ofNat, sqrt_real, cos_real, sin_real, hr]
  generalize Real.sqrt (A.oe 0 * A.mu * (1 - A.oe 1 ^ 2)) = h at *
  generalize hpd : A.oe 0 * (1 - A.oe 1 ^ 2) = p at *
  generalize hwd : 1 + A.oe 1 * Real.cos ta = w at *
  funext c j
  fin_cases c <;> fin_cases j <;> simp
  · ring
  · field_simp
  · field_simp; ring
  · field_simp
  · field_simp

/-- C42: the semi-major axis. -/
theorem C42_a : IsMaxRate kepPsi A 0 (kepOedot A 0) := by
  have hp := H.p_pos
  have hh := H.h_pos
  have hmu := H.mu
  have hsq := H.h_sq
  have ha := H.a
  have he0 := H.e0
  have he1 := H.e1
  have hM : kepOedot A 0 = A.f * (2 * A.oe 0 ^ 2 /
      Real.sqrt (A.oe 0 * A.mu * (1 - A.oe 1 ^ 2)) * (1 + A.oe 1)) := by
    simp only [kepOedot, Matrix.cons_val, Nat.cast_ofNat, Nat.cast_one, sqrt_real]
    rw [show A.oe 0 ^ 3 * (1 + A.oe 1) / (A.mu * (1 - A.oe 1)) =
      (A.oe 0 ^ 2 * (1 + A.oe 1) / Real.sqrt (A.oe 0 * A.mu * (1 - A.oe 1 ^ 2))) ^ 2 by
        rw [div_pow, hsq]
        have : 1 - A.oe 1 ≠ 0 := by linarith
        have h3 : 1 - A.oe 1 ^ 2 ≠ 0 := by nlinarith
        field_simp; ring]
    rw [Real.sqrt_sq (by positivity)]; ring
  rw [hM]
  constructor
  · intro ta d hd
    apply elementRate_le H.f.le (by positivity) _ hd
    rw [kepPsi_real H]
    simp only [Matrix.cons_val]
    have hcs := Real.sin_sq_add_cos_sq ta
    have hc := Real.cos_le_one ta
    generalize 2 * A.oe 0 ^ 2 / Real.sqrt (A.oe 0 * A.mu * (1 - A.oe 1 ^ 2)) = K
    have : (K * (A.oe 1 * Real.sin ta)) ^ 2 + (K * (1 + A.oe 1 * Real.cos ta)) ^ 2 + 0 ^ 2 =
        K ^ 2 * (1 + A.oe 1 ^ 2 + 2 * A.oe 1 * Real.cos ta) := by
      linear_combination K ^ 2 * A.oe 1 ^ 2 * hcs
    rw [this, mul_pow]
    apply mul_le_mul_of_nonneg_left _ (sq_nonneg K)
    nlinarith
  · refine ⟨0, ![0, 1, 0], norm3_e1, ?_⟩
    rw [kepPsi_real H]
    simp [elementRate]

/-- C42: the eccentricity. -/
theorem C42_e : IsMaxRate kepPsi A 1 (kepOedot A 1) := by
  have hp := H.p_pos
  have hh := H.h_pos
  have he0 := H.e0
  have he1 := H.e1
  have hM : kepOedot A 1 = A.f * (A.oe 0 * (1 - A.oe 1 ^ 2) /
      Real.sqrt (A.oe 0 * A.mu * (1 - A.oe 1 ^ 2)) * 2) := by
    simp only [kepOedot, Matrix.cons_val, Nat.cast_ofNat, Nat.cast_one, sqrt_real]; ring
  rw [hM]
  constructor
  · intro ta d hd
    apply elementRate_le H.f.le (by positivity) _ hd
    rw [kepPsi_real H]
    simp only [Matrix.cons_val]
    have hcs := Real.sin_sq_add_cos_sq ta
    have hw := H.w_pos ta
    generalize A.oe 0 * (1 - A.oe 1 ^ 2) / Real.sqrt (A.oe 0 * A.mu * (1 - A.oe 1 ^ 2)) = K
    have hx1 := Real.cos_le_one ta
    have hx2 := Real.neg_one_le_cos ta
    generalize Real.cos ta = x at *
    generalize Real.sin ta = s at *
    have hy1 : (x + A.oe 1) / (1 + A.oe 1 * x) ≤ 1 := by
      rw [div_le_one hw]; nlinarith
    have hy2 : -1 ≤ (x + A.oe 1) / (1 + A.oe 1 * x) := by
      rw [le_div_iff₀ hw]; nlinarith
    generalize (x + A.oe 1) / (1 + A.oe 1 * x) = y at *
    have : (K * s) ^ 2 + (K * (x + y)) ^ 2 + 0 ^ 2 = K ^ 2 * (1 + 2 * (x * y) + y ^ 2) := by
      linear_combination K ^ 2 * hcs
    rw [this, mul_pow]
    apply mul_le_mul_of_nonneg_left _ (sq_nonneg K)
    nlinarith
  · refine ⟨0, ![0, 1, 0], norm3_e1, ?_⟩
    rw [kepPsi_real H]
    have : 1 + A.oe 1 ≠ 0 := by linarith
    simp [elementRate, div_self this]
    ring_nf
    simp

/-- a rate along the orbit normal -/
theorem normal_rate {f K w x σ : ℝ} (hw : 0 < w) (G : ℝ) (hG : 0 < G) (hf : 0 ≤ f) (hK : 0 ≤ K)
    (hb : |x| * G ≤ w) (hσ : |σ| ≤ 1) : |f * (K * (x / w) * σ)| ≤ f * (K / G) := by
  rw [abs_mul, abs_of_nonneg hf, abs_mul, abs_mul, abs_of_nonneg hK, abs_div, abs_of_pos hw]
  apply mul_le_mul_of_nonneg_left _ hf
  have h1 : |x| / w ≤ 1 / G := by
    rw [div_le_div_iff₀ hw hG]; linarith
  have h2 : 0 ≤ |x| / w := by positivity
  calc K * (|x| / w) * |σ| ≤ K * (1 / G) * 1 := by
        apply mul_le_mul _ hσ (abs_nonneg _) (by positivity)
        exact mul_le_mul_of_nonneg_left h1 hK
    _ = K / G := by ring

theorem norm3_comp_le {d : Fin 3 → ℝ} (hd : norm3 d = 1) : |d 2| ≤ 1 := by
  have := norm3_sq d
  rw [hd] at this
  simp only [dot3] at this
  rw [abs_le_one_iff_mul_self_le_one]
  nlinarith [mul_self_nonneg (d 0), mul_self_nonneg (d 1)]

/-- C42: the inclination. -/
theorem C42_i : IsMaxRate kepPsi A 2 (kepOedot A 2) := by
  have hp := H.p_pos
  have hh := H.h_pos
  have he0 := H.e0
  have he1 := H.e1
  have hG := gap_pos (c := Real.cos (A.oe 4)) (s := Real.sin (A.oe 4)) he0 he1
    (Real.cos_sq_add_sin_sq _)
  have hM : kepOedot A 2 = A.f * (A.oe 0 * (1 - A.oe 1 ^ 2) /
      Real.sqrt (A.oe 0 * A.mu * (1 - A.oe 1 ^ 2)) /
      (Real.sqrt (1 - A.oe 1 ^ 2 * Real.sin (A.oe 4) ^ 2) -
        A.oe 1 * Real.sqrt (Real.cos (A.oe 4) ^ 2))) := by
    simp only [kepOedot, Matrix.cons_val, Nat.cast_one, sqrt_real, cos_real, sin_real]
    field_simp
  rw [hM]
  have hK : 0 < A.oe 0 * (1 - A.oe 1 ^ 2) / Real.sqrt (A.oe 0 * A.mu * (1 - A.oe 1 ^ 2)) := by
    positivity
  have key : ∀ ta, 1 + A.oe 1 * Real.cos ta = 1 + A.oe 1 *
      (Real.cos (ta + A.oe 4) * Real.cos (A.oe 4) + Real.sin (ta + A.oe 4) * Real.sin (A.oe 4)) := by
    intro ta
    rw [← Real.cos_sub]; congr 3; ring
  constructor
  · intro ta d hd
    rw [kepPsi_real H]
    simp only [elementRate, Matrix.cons_val, zero_mul, zero_add]
    apply normal_rate H (H.w_pos ta) _ hG H.f.le hK.le _ (norm3_comp_le H hd)
    rw [key ta]
    exact gap_bound he0 he1 (Real.cos_sq_add_sin_sq _) (Real.cos_sq_add_sin_sq _)
  · obtain ⟨x, y, hxy, hat⟩ := gap_attained (c := Real.cos (A.oe 4)) (s := Real.sin (A.oe 4)) he0 he1
      (Real.cos_sq_add_sin_sq _)
    obtain ⟨θ, hc, hs⟩ := exists_angle x y hxy
    have hw := H.w_pos (θ - A.oe 4)
    rw [key, sub_add_cancel, hc, hs, ← hat] at hw
    have hx : 0 < |x| := by
      by_contra h0
      have : |x| = 0 := le_antisymm (not_lt.1 h0) (abs_nonneg x)
      rw [this] at hw; simp at hw
    refine ⟨θ - A.oe 4, ![0, 0, |x| / x], norm3_e2 _ ?_, ?_⟩
    · rw [div_pow, sq_abs, div_self]
      exact pow_ne_zero _ (abs_pos.1 hx)
    · rw [kepPsi_real H]
      simp only [elementRate, Matrix.cons_val, zero_mul, zero_add]
      rw [key, sub_add_cancel, hc, hs, ← hat]
      have hx0 := abs_pos.1 hx
      have hGn := hG.ne'
      generalize Real.sqrt (1 - A.oe 1 ^ 2 * Real.sin (A.oe 4) ^ 2) -
        A.oe 1 * Real.sqrt (Real.cos (A.oe 4) ^ 2) = G at *
      field_simp

/-- C42: the right ascension of the ascending node. -/
theorem C42_raan : IsMaxRate kepPsi A 3 (kepOedot A 3) := by
  have hp := H.p_pos
  have hh := H.h_pos
  have he0 := H.e0
  have he1 := H.e1
  have hi := Real.sin_pos_of_pos_of_lt_pi H.i0 H.i1
  have hG := gap_pos (c := Real.sin (A.oe 4)) (s := Real.cos (A.oe 4)) he0 he1
    (Real.sin_sq_add_cos_sq _)
  have hM : kepOedot A 3 = A.f * (A.oe 0 * (1 - A.oe 1 ^ 2) /
      Real.sqrt (A.oe 0 * A.mu * (1 - A.oe 1 ^ 2)) / Real.sin (A.oe 2) /
      (Real.sqrt (1 - A.oe 1 ^ 2 * Real.cos (A.oe 4) ^ 2) -
        A.oe 1 * Real.sqrt (Real.sin (A.oe 4) ^ 2))) := by
    simp only [kepOedot, Matrix.cons_val, Nat.cast_one, sqrt_real, cos_real, sin_real]
    field_simp
  rw [hM]
  have hK : 0 < A.oe 0 * (1 - A.oe 1 ^ 2) / Real.sqrt (A.oe 0 * A.mu * (1 - A.oe 1 ^ 2)) /
      Real.sin (A.oe 2) := by
    positivity
  have key : ∀ ta, 1 + A.oe 1 * Real.cos ta = 1 + A.oe 1 *
      (Real.sin (ta + A.oe 4) * Real.sin (A.oe 4) + Real.cos (ta + A.oe 4) * Real.cos (A.oe 4)) := by
    intro ta
    rw [add_comm (_ * _) (Real.cos (ta + A.oe 4) * _), ← Real.cos_sub]; congr 3; ring
  have assoc : ∀ K x w i σ : ℝ, K * (x / w) / i * σ = K / i * (x / w) * σ := by intros; ring
  constructor
  · intro ta d hd
    rw [kepPsi_real H]
    simp only [elementRate, Matrix.cons_val, zero_mul, zero_add]
    rw [assoc]
    apply normal_rate H (H.w_pos ta) _ hG H.f.le hK.le _ (norm3_comp_le H hd)
    rw [key ta]
    exact gap_bound he0 he1 (Real.sin_sq_add_cos_sq _) (Real.sin_sq_add_cos_sq _)
  · obtain ⟨x, y, hxy, hat⟩ := gap_attained (c := Real.sin (A.oe 4)) (s := Real.cos (A.oe 4)) he0 he1
      (Real.sin_sq_add_cos_sq _)
    obtain ⟨θ, hc, hs⟩ := exists_angle y x (by linarith)
    have hw := H.w_pos (θ - A.oe 4)
    rw [key, sub_add_cancel, hc, hs, ← hat] at hw
    have hx : 0 < |x| := by
      by_contra h0
      have : |x| = 0 := le_antisymm (not_lt.1 h0) (abs_nonneg x)
      rw [this] at hw; simp at hw
    refine ⟨θ - A.oe 4, ![0, 0, |x| / x], norm3_e2 _ ?_, ?_⟩
    · rw [div_pow, sq_abs, div_self]
      exact pow_ne_zero _ (abs_pos.1 hx)
    · rw [kepPsi_real H]
      simp only [elementRate, Matrix.cons_val, zero_mul, zero_add]
      rw [key, sub_add_cancel, hc, hs, ← hat]
      have hx0 := abs_pos.1 hx
      have hGn := hG.ne'
      generalize Real.sqrt (1 - A.oe 1 ^ 2 * Real.cos (A.oe 4) ^ 2) -
        A.oe 1 * Real.sqrt (Real.sin (A.oe 4) ^ 2) = G at *
      field_simp

end

/-- an inclined ellipse with unit gravitational parameter and acceleration -/
noncomputable def sampleKep : LyapArgs ℝ :=
  { mu := 1, f := 1, oe := ![2, 1 / 2, 1, 0, 3, 0], oeT := ![3, 0, 0, 0, 0], rpmin := 1, m := 3,
    n := 4, r := 2, b := 1 / 100, k := 1, wp := 1, woe := ![1, 1, 1, 1, 1] }

theorem sampleKep_ellipse : KepEllipse sampleKep := by
  have := Real.pi_gt_three
  refine ⟨?_, ?_, ?_, ?_, ?_, ?_, ?_⟩ <;> simp [sampleKep] <;> norm_num
  linarith

/-! ## C43: MEE -/

/-- elliptic MEE elements -/
structure MeeEllipse (A : LyapArgs ℝ) : Prop where
  mu : 0 < A.mu
  f : 0 < A.f
  a : 0 < A.oe 0
  ecc : A.oe 1 ^ 2 + A.oe 2 ^ 2 < 1

theorem fg_gap_pos {f g : ℝ} (h : f ^ 2 + g ^ 2 < 1) : 0 < Real.sqrt (1 - g ^ 2) - |f| := by
  rw [sub_pos]
  apply Real.lt_sqrt_of_sq_lt
  rw [sq_abs]; linarith

theorem fg_gap_bound {f g x y : ℝ} (h : f ^ 2 + g ^ 2 < 1) (hxy : x ^ 2 + y ^ 2 = 1) :
    |x| * (Real.sqrt (1 - g ^ 2) - |f|) ≤ 1 + f * x + g * y := by
  have hS := Real.sq_sqrt (show 0 ≤ 1 - g ^ 2 by nlinarith [sq_nonneg f])
  set S := Real.sqrt (1 - g ^ 2)
  have h1 : -(|f| * |x|) ≤ f * x := by rw [← abs_mul]; exact neg_abs_le _
  nlinarith [sq_nonneg (|x| - S), sq_nonneg (y + g), sq_abs x]

theorem fg_gap_attained {f g : ℝ} (h : f ^ 2 + g ^ 2 < 1) : ∃ x y, x ^ 2 + y ^ 2 = 1 ∧
    |x| * (Real.sqrt (1 - g ^ 2) - |f|) = 1 + f * x + g * y := by
  have hS := Real.sq_sqrt (show 0 ≤ 1 - g ^ 2 by nlinarith [sq_nonneg f])
  have hS0 := Real.sqrt_nonneg (1 - g ^ 2)
  set S := Real.sqrt (1 - g ^ 2)
  rcases le_or_gt 0 f with hf | hf
  · refine ⟨-S, -g, by nlinarith, ?_⟩
    rw [abs_neg, abs_of_nonneg hS0, abs_of_nonneg hf]; nlinarith
  · refine ⟨S, -g, by nlinarith, ?_⟩
    rw [abs_of_nonneg hS0, abs_of_neg hf]; nlinarith

theorem fg_w_pos {f g : ℝ} (h : f ^ 2 + g ^ 2 < 1) (L : ℝ) :
    0 < 1 + f * Real.cos L + g * Real.sin L := by
  have hcs := Real.sin_sq_add_cos_sq L
  nlinarith [sq_nonneg (f + Real.cos L), sq_nonneg (g + Real.sin L)]

/-- near periapsis direction the transverse coefficient of `f` exceeds two, unless `g = 0` -/
theorem fg_exceeds {f g : ℝ} (h : f ^ 2 + g ^ 2 < 1) (hg : g ≠ 0) : ∃ x y, x ^ 2 + y ^ 2 = 1 ∧
    2 < x + (x + f) / (1 + f * x + g * y) := by
  obtain ⟨hf1, hf2⟩ : -1 < f ∧ f < 1 := by
    constructor <;> nlinarith [sq_nonneg g]
  have hg1 : |g| < 1 := by
    rw [abs_lt]; constructor <;> nlinarith [sq_nonneg f]
  have hG : 0 < |g| := abs_pos.2 hg
  obtain ⟨t, ht⟩ : ∃ t, t = |g| / 8 := ⟨_, rfl⟩
  have ht0 : 0 < t := by rw [ht]; positivity
  have hσ : g * (|g| / g) = |g| := by field_simp
  have hσ2 : (|g| / g) ^ 2 = 1 := by rw [div_pow, sq_abs, div_self (pow_ne_zero _ hg)]
  generalize |g| / g = σ at *
  have hT : 0 < 1 + t ^ 2 := by positivity
  refine ⟨(1 - t ^ 2) / (1 + t ^ 2), -(2 * t * σ) / (1 + t ^ 2), ?_, ?_⟩
  · rw [div_pow, div_pow, ← add_div, div_eq_one_iff_eq (by positivity), neg_sq, mul_pow, hσ2]; ring
  · have hw : 1 + f * ((1 - t ^ 2) / (1 + t ^ 2)) + g * (-(2 * t * σ) / (1 + t ^ 2)) =
        ((1 + f) + (1 - f) * t ^ 2 - 2 * |g| * t) / (1 + t ^ 2) := by
      rw [← hσ]; field_simp; ring
    have hx : (1 - t ^ 2) / (1 + t ^ 2) + f = ((1 + f) - (1 - f) * t ^ 2) / (1 + t ^ 2) := by
      field_simp; ring
    have hg8 : |g| = 8 * t := by rw [ht]; ring
    have hD : 0 < (1 + f) + (1 - f) * t ^ 2 - 2 * |g| * t := by
      have hsq : |g| ^ 2 < (1 + f) * (1 - f) := by rw [sq_abs]; nlinarith
      rw [hg8] at hsq ⊢
      nlinarith
    rw [hw, hx, div_div_div_cancel_right₀ hT.ne']
    have hy : 1 + (8 * t * t - (1 - f) * t ^ 2) ≤
        ((1 + f) - (1 - f) * t ^ 2) / ((1 + f) + (1 - f) * t ^ 2 - 2 * |g| * t) := by
      rw [le_div_iff₀ hD, hg8]
      have hA : 0 ≤ 8 * t * t - (1 - f) * t ^ 2 := by nlinarith [sq_nonneg t]
      nlinarith [mul_nonneg hA hA, mul_nonneg hA (by linarith : 0 ≤ 1 - f)]
    have hx1 : 1 - 2 * t ^ 2 ≤ (1 - t ^ 2) / (1 + t ^ 2) := by
      rw [le_div_iff₀ hT]; nlinarith [sq_nonneg t, sq_nonneg (t ^ 2)]
    nlinarith [sq_nonneg t, mul_pos ht0 ht0]

section
variable {A : LyapArgs ℝ} (H : MeeEllipse A)
include H

theorem MeeEllipse.p_pos : 0 < A.oe 0 * (1 - A.oe 1 ^ 2 - A.oe 2 ^ 2) :=
  mul_pos H.a (by linarith [H.ecc])

theorem MeeEllipse.e_sq : Real.sqrt (A.oe 1 ^ 2 + A.oe 2 ^ 2) ^ 2 = A.oe 1 ^ 2 + A.oe 2 ^ 2 :=
  Real.sq_sqrt (by positivity)

theorem MeeEllipse.e_lt : Real.sqrt (A.oe 1 ^ 2 + A.oe 2 ^ 2) < 1 := by
  rw [Real.sqrt_lt' one_pos]; linarith [H.ecc]

/-- the Gauss matrix of the code, simplified on an ellipse; `ta'` is the anomaly the code uses in the
first row -/
theorem meePsi_real (L : ℝ) : meePsi (A.atAnomaly L) =
    let e := Real.sqrt (A.oe 1 ^ 2 + A.oe 2 ^ 2)
    let s := Real.sqrt (A.oe 0 * (1 - A.oe 1 ^ 2 - A.oe 2 ^ 2) / A.mu)
    let K := 2 * A.oe 0 ^ 2 / Real.sqrt (A.mu * (A.oe 0 * (1 - A.oe 1 ^ 2 - A.oe 2 ^ 2)))
    let w := 1 + A.oe 1 * Real.cos L + A.oe 2 * Real.sin L
    let ta' := L - Real.arctan (A.oe 2 / A.oe 1)
    ![![K * (e * Real.sin ta'), s * Real.sin L, -s * Real.cos L, 0, 0],
      ![K * (1 + e * Real.cos ta'), s * (Real.cos L + (Real.cos L + A.oe 1) / w),
        s * (Real.sin L + (Real.sin L + A.oe 2) / w), 0, 0],
      ![0, s / w * (-A.oe 2 * (A.oe 3 * Real.sin L - A.oe 4 * Real.cos L)),
        s / w * (A.oe 1 * (A.oe 3 * Real.sin L - A.oe 4 * Real.cos L)),
        s * (1 + A.oe 3 ^ 2 + A.oe 4 ^ 2) / 2 * (Real.cos L / w),
        s * (1 + A.oe 3 ^ 2 + A.oe 4 ^ 2) / 2 * (Real.sin L / w)]] := by
  have hp := H.p_pos
  have hmu := H.mu
  have he2 := H.e_sq
  have he1 := H.e_lt
  have hw := fg_w_pos H.ecc L
  have e0 := Real.sqrt_nonneg (A.oe 1 ^ 2 + A.oe 2 ^ 2)
  have hw' : 0 < 1 + Real.sqrt (A.oe 1 ^ 2 + A.oe 2 ^ 2) *
      Real.cos (L - Real.arctan (A.oe 2 / A.oe 1)) := by
    nlinarith [Real.neg_one_le_cos (L - Real.arctan (A.oe 2 / A.oe 1))]
  have hang : A.oe 0 * A.mu * (1 - Real.sqrt (A.oe 1 ^ 2 + A.oe 2 ^ 2) ^ 2) =
      A.mu * (A.oe 0 * (1 - A.oe 1 ^ 2 - A.oe 2 ^ 2)) := by rw [he2]; ring
  have hh := Real.sqrt_pos.2 (mul_pos hmu hp)
  have hsq := Real.sq_sqrt (mul_pos hmu hp).le
  simp only [meePsi, LyapArgs.atAnomaly, Matrix.cons_val, Nat.cast_one, Nat.cast_zero,
    Nat.cast_ofNat, sqrt_real, cos_real, sin_real, arctan_real, hang, rat_real]
  generalize Real.sqrt (A.mu * (A.oe 0 * (1 - A.oe 1 ^ 2 - A.oe 2 ^ 2))) = h at *
  generalize Real.sqrt (A.oe 0 * (1 - A.oe 1 ^ 2 - A.oe 2 ^ 2) / A.mu) = s at *
  generalize hpd : A.oe 0 * (1 - A.oe 1 ^ 2 - A.oe 2 ^ 2) = p at *
  generalize hwd : 1 + A.oe 1 * Real.cos L + A.oe 2 * Real.sin L = w at *
  generalize hwd' : 1 + Real.sqrt (A.oe 1 ^ 2 + A.oe 2 ^ 2) *
      Real.cos (L - Real.arctan (A.oe 2 / A.oe 1)) = w' at *
  have hr : h ^ 2 / (A.mu * w') = p / w' := by rw [hsq]; field_simp
  funext c j
  fin_cases c <;> fin_cases j <;> simp [hr]
  · ring
  · field_simp
  · field_simp; ring
  · field_simp; ring
  · field_simp
  · field_simp

/-- C43: the rate of the semi-major axis is a maximum (`f = 0` is excluded because `g/f` is then not
a number in the program). -/
theorem C43_a_partial (_hf : A.oe 1 ≠ 0) : IsMaxRate meePsi A 0 (meeOedot A 0) := by
  have hp := H.p_pos
  have hmu := H.mu
  have ha := H.a
  have he2 := H.e_sq
  have he1 := H.e_lt
  have e0 := Real.sqrt_nonneg (A.oe 1 ^ 2 + A.oe 2 ^ 2)
  have hh := Real.sqrt_pos.2 (mul_pos hmu hp)
  have hsq := Real.sq_sqrt (mul_pos hmu hp).le
  have hM : meeOedot A 0 = A.f * (2 * A.oe 0 ^ 2 /
      Real.sqrt (A.mu * (A.oe 0 * (1 - A.oe 1 ^ 2 - A.oe 2 ^ 2))) *
      (1 + Real.sqrt (A.oe 1 ^ 2 + A.oe 2 ^ 2))) := by
    simp only [meeOedot, Matrix.cons_val, Nat.cast_ofNat, Nat.cast_one, sqrt_real]
    set e := Real.sqrt (A.oe 1 ^ 2 + A.oe 2 ^ 2)
    have h3 : 1 - A.oe 1 ^ 2 - A.oe 2 ^ 2 = (1 - e) * (1 + e) := by
      have : (1 - e) * (1 + e) = 1 - e ^ 2 := by ring
      rw [this, he2]; ring
    rw [h3] at hsq hh ⊢
    have hne : 1 - e ≠ 0 := by linarith
    rw [show 2 * A.f * A.oe 0 * Real.sqrt (A.oe 0 / A.mu) * Real.sqrt ((1 + e) / (1 - e)) =
      2 * A.f * A.oe 0 * (Real.sqrt (A.oe 0 / A.mu) * Real.sqrt ((1 + e) / (1 - e))) by ring,
      ← Real.sqrt_mul (by positivity), show A.oe 0 / A.mu * ((1 + e) / (1 - e)) =
      (A.oe 0 * (1 + e) / Real.sqrt (A.mu * (A.oe 0 * ((1 - e) * (1 + e))))) ^ 2 by
        rw [div_pow, hsq]; field_simp]
    rw [Real.sqrt_sq (by positivity)]; ring
  rw [hM]
  constructor
  · intro L d hd
    apply elementRate_le H.f.le (by positivity) _ hd
    rw [meePsi_real H]
    simp only [Matrix.cons_val]
    generalize L - Real.arctan (A.oe 2 / A.oe 1) = ta
    have hcs := Real.sin_sq_add_cos_sq ta
    have hc := Real.cos_le_one ta
    generalize 2 * A.oe 0 ^ 2 / Real.sqrt (A.mu * (A.oe 0 * (1 - A.oe 1 ^ 2 - A.oe 2 ^ 2))) = K
    generalize Real.sqrt (A.oe 1 ^ 2 + A.oe 2 ^ 2) = e at *
    have : (K * (e * Real.sin ta)) ^ 2 + (K * (1 + e * Real.cos ta)) ^ 2 + 0 ^ 2 =
        K ^ 2 * (1 + e ^ 2 + 2 * e * Real.cos ta) := by
      linear_combination K ^ 2 * e ^ 2 * hcs
    rw [this, mul_pow]
    apply mul_le_mul_of_nonneg_left _ (sq_nonneg K)
    nlinarith
  · refine ⟨Real.arctan (A.oe 2 / A.oe 1), ![0, 1, 0], norm3_e1, ?_⟩
    rw [meePsi_real H]
    simp [elementRate]

theorem mee_s_pos : 0 < Real.sqrt (A.oe 0 * (1 - A.oe 1 ^ 2 - A.oe 2 ^ 2) / A.mu) := by
  have := H.p_pos; have := H.mu
  apply Real.sqrt_pos.2; positivity

/-- the true maximum of the rate of `h` -/
theorem mee_h_max : IsMaxRate meePsi A 3 (A.f *
    (Real.sqrt (A.oe 0 * (1 - A.oe 1 ^ 2 - A.oe 2 ^ 2) / A.mu) * (1 + A.oe 3 ^ 2 + A.oe 4 ^ 2) / 2 /
      (Real.sqrt (1 - A.oe 2 ^ 2) - |A.oe 1|))) := by
  have hs := mee_s_pos H
  have hG := fg_gap_pos H.ecc
  have hK : 0 < Real.sqrt (A.oe 0 * (1 - A.oe 1 ^ 2 - A.oe 2 ^ 2) / A.mu) *
    (1 + A.oe 3 ^ 2 + A.oe 4 ^ 2) / 2 := by positivity
  have nr : ∀ {w x σ : ℝ}, 0 < w → |x| * (Real.sqrt (1 - A.oe 2 ^ 2) - |A.oe 1|) ≤ w → |σ| ≤ 1 →
      |A.f * (Real.sqrt (A.oe 0 * (1 - A.oe 1 ^ 2 - A.oe 2 ^ 2) / A.mu) *
        (1 + A.oe 3 ^ 2 + A.oe 4 ^ 2) / 2 * (x / w) * σ)| ≤ _ :=
    fun hw hb hσ => normal_rate sampleKep_ellipse hw _ hG H.f.le hK.le hb hσ
  constructor
  · intro L d hd
    rw [meePsi_real H]
    simp only [elementRate, Matrix.cons_val, zero_mul, zero_add]
    exact nr (fg_w_pos H.ecc L) (fg_gap_bound H.ecc (Real.cos_sq_add_sin_sq L))
      (norm3_comp_le sampleKep_ellipse hd)
  · obtain ⟨x, y, hxy, hat⟩ := fg_gap_attained H.ecc
    obtain ⟨θ, hc, hs'⟩ := exists_angle x y hxy
    have hw := fg_w_pos H.ecc θ
    rw [hc, hs', ← hat] at hw
    have hx : 0 < |x| := by
      by_contra h0
      have : |x| = 0 := le_antisymm (not_lt.1 h0) (abs_nonneg x)
      rw [this] at hw; simp at hw
    refine ⟨θ, ![0, 0, |x| / x], norm3_e2 _ ?_, ?_⟩
    · rw [div_pow, sq_abs, div_self]
      exact pow_ne_zero _ (abs_pos.1 hx)
    · rw [meePsi_real H]
      simp only [elementRate, Matrix.cons_val, zero_mul, zero_add]
      rw [hc, hs', ← hat]
      have hx0 := abs_pos.1 hx
      have hGn := hG.ne'
      generalize Real.sqrt (1 - A.oe 2 ^ 2) - |A.oe 1| = G at *
      field_simp

/-- the true maximum of the rate of `k` -/
theorem mee_k_max : IsMaxRate meePsi A 4 (A.f *
    (Real.sqrt (A.oe 0 * (1 - A.oe 1 ^ 2 - A.oe 2 ^ 2) / A.mu) * (1 + A.oe 3 ^ 2 + A.oe 4 ^ 2) / 2 /
      (Real.sqrt (1 - A.oe 1 ^ 2) - |A.oe 2|))) := by
  have hs := mee_s_pos H
  have hecc : A.oe 2 ^ 2 + A.oe 1 ^ 2 < 1 := by linarith [H.ecc]
  have hG := fg_gap_pos hecc
  have hK : 0 < Real.sqrt (A.oe 0 * (1 - A.oe 1 ^ 2 - A.oe 2 ^ 2) / A.mu) *
    (1 + A.oe 3 ^ 2 + A.oe 4 ^ 2) / 2 := by positivity
  constructor
  · intro L d hd
    rw [meePsi_real H]
    simp only [elementRate, Matrix.cons_val, zero_mul, zero_add]
    refine normal_rate sampleKep_ellipse (fg_w_pos H.ecc L) _ hG H.f.le hK.le ?_
      (norm3_comp_le sampleKep_ellipse hd)
    have := fg_gap_bound hecc (Real.sin_sq_add_cos_sq L)
    linarith
  · obtain ⟨x, y, hxy, hat⟩ := fg_gap_attained hecc
    obtain ⟨θ, hc, hs'⟩ := exists_angle y x (by linarith)
    have hw := fg_w_pos H.ecc θ
    have hat' : 1 + A.oe 1 * y + A.oe 2 * x =
        |x| * (Real.sqrt (1 - A.oe 1 ^ 2) - |A.oe 2|) := by rw [hat]; ring
    rw [hc, hs', hat'] at hw
    have hx : 0 < |x| := by
      by_contra h0
      have : |x| = 0 := le_antisymm (not_lt.1 h0) (abs_nonneg x)
      rw [this] at hw; simp at hw
    refine ⟨θ, ![0, 0, |x| / x], norm3_e2 _ ?_, ?_⟩
    · rw [div_pow, sq_abs, div_self]
      exact pow_ne_zero _ (abs_pos.1 hx)
    · rw [meePsi_real H]
      simp only [elementRate, Matrix.cons_val, zero_mul, zero_add]
      rw [hc, hs', hat']
      have hx0 := abs_pos.1 hx
      have hGn := hG.ne'
      generalize Real.sqrt (1 - A.oe 1 ^ 2) - |A.oe 2| = G at *
      field_simp

/-- C43: the code's rate of `h` is the maximum when `f ≤ 0`, and is exceeded by some direction at some
longitude when `f > 0`. -/
theorem C43_h_partial : (A.oe 1 ≤ 0 → IsMaxRate meePsi A 3 (meeOedot A 3)) ∧
    (0 < A.oe 1 → ∃ L d, norm3 d = 1 ∧
      meeOedot A 3 < elementRate A.f (meePsi (A.atAnomaly L)) 3 d) := by
  have hm := mee_h_max H
  have hs := mee_s_pos H
  have hG := fg_gap_pos H.ecc
  have hO : meeOedot A 3 = A.f * (Real.sqrt (A.oe 0 * (1 - A.oe 1 ^ 2 - A.oe 2 ^ 2) / A.mu) *
      (1 + A.oe 3 ^ 2 + A.oe 4 ^ 2) / 2 / (Real.sqrt (1 - A.oe 2 ^ 2) + A.oe 1)) := by
    simp only [meeOedot, Matrix.cons_val, Nat.cast_one, Nat.cast_ofNat, sqrt_real, rat_real]
    field_simp
  constructor
  · intro hf
    rw [hO]
    rw [abs_of_nonpos hf, sub_neg_eq_add] at hm
    exact hm
  · intro hf
    obtain ⟨-, L, d, hd, hr⟩ := hm
    refine ⟨L, d, hd, ?_⟩
    rw [hr, hO, abs_of_pos hf]
    rw [abs_of_pos hf] at hG
    have hK : 0 < Real.sqrt (A.oe 0 * (1 - A.oe 1 ^ 2 - A.oe 2 ^ 2) / A.mu) *
      (1 + A.oe 3 ^ 2 + A.oe 4 ^ 2) / 2 := by positivity
    exact mul_lt_mul_of_pos_left (div_lt_div_of_pos_left hK hG (by linarith)) H.f

/-- C43: likewise for `k` and the sign of `g`. -/
theorem C43_k_partial : (A.oe 2 ≤ 0 → IsMaxRate meePsi A 4 (meeOedot A 4)) ∧
    (0 < A.oe 2 → ∃ L d, norm3 d = 1 ∧
      meeOedot A 4 < elementRate A.f (meePsi (A.atAnomaly L)) 4 d) := by
  have hm := mee_k_max H
  have hs := mee_s_pos H
  have hG := fg_gap_pos (show A.oe 2 ^ 2 + A.oe 1 ^ 2 < 1 by linarith [H.ecc])
  have hO : meeOedot A 4 = A.f * (Real.sqrt (A.oe 0 * (1 - A.oe 1 ^ 2 - A.oe 2 ^ 2) / A.mu) *
      (1 + A.oe 3 ^ 2 + A.oe 4 ^ 2) / 2 / (Real.sqrt (1 - A.oe 1 ^ 2) + A.oe 2)) := by
    simp only [meeOedot, Matrix.cons_val, Nat.cast_one, Nat.cast_ofNat, sqrt_real, rat_real]
    field_simp
  constructor
  · intro hf
    rw [hO]
    rw [abs_of_nonpos hf, sub_neg_eq_add] at hm
    exact hm
  · intro hf
    obtain ⟨-, L, d, hd, hr⟩ := hm
    refine ⟨L, d, hd, ?_⟩
    rw [hr, hO, abs_of_pos hf]
    rw [abs_of_pos hf] at hG
    have hK : 0 < Real.sqrt (A.oe 0 * (1 - A.oe 1 ^ 2 - A.oe 2 ^ 2) / A.mu) *
      (1 + A.oe 3 ^ 2 + A.oe 4 ^ 2) / 2 := by positivity
    exact mul_lt_mul_of_pos_left (div_lt_div_of_pos_left hK hG (by linarith)) H.f

omit H in
/-- in-plane coefficients of an eccentricity component -/
theorem fg_inplane {f x s : ℝ} (hf : f ^ 2 < 1) (hcs : x ^ 2 + s ^ 2 = 1) :
    s ^ 2 + (x + (x + f) / (1 + f * x)) ^ 2 ≤ 2 ^ 2 := by
  have hx1 : x ≤ 1 := by nlinarith [sq_nonneg s]
  have hx2 : -1 ≤ x := by nlinarith [sq_nonneg s]
  have hf1 : f < 1 := by nlinarith
  have hf2 : -1 < f := by nlinarith
  have hw : 0 < 1 + f * x := by nlinarith [sq_nonneg (f + x), sq_nonneg s]
  have hy1 : (x + f) / (1 + f * x) ≤ 1 := by rw [div_le_one hw]; nlinarith
  have hy2 : -1 ≤ (x + f) / (1 + f * x) := by rw [le_div_iff₀ hw]; nlinarith
  generalize (x + f) / (1 + f * x) = y at *
  nlinarith

/-- C43: the code's rate of `f` is the maximum exactly when `g = 0`. -/
theorem C43_f_partial : (A.oe 2 = 0 → IsMaxRate meePsi A 1 (meeOedot A 1)) ∧
    (A.oe 2 ≠ 0 → ∃ L d, norm3 d = 1 ∧
      meeOedot A 1 < elementRate A.f (meePsi (A.atAnomaly L)) 1 d) := by
  have hs := mee_s_pos H
  have hO : meeOedot A 1 = A.f * (Real.sqrt (A.oe 0 * (1 - A.oe 1 ^ 2 - A.oe 2 ^ 2) / A.mu) * 2) := by
    simp only [meeOedot, Matrix.cons_val, Nat.cast_one, Nat.cast_ofNat, sqrt_real]; ring
  rw [hO]
  constructor
  · intro hg
    have hecc := H.ecc
    have hf : A.oe 1 ^ 2 < 1 := by rw [hg] at hecc; nlinarith
    constructor
    · intro L d hd
      apply elementRate_le H.f.le (by positivity) _ hd
      rw [meePsi_real H]
      simp only [Matrix.cons_val]
      have hb := fg_inplane hf (Real.cos_sq_add_sin_sq L)
      generalize Real.sqrt (A.oe 0 * (1 - A.oe 1 ^ 2 - A.oe 2 ^ 2) / A.mu) = s at *
      rw [hg]
      simp only [neg_zero, zero_mul, mul_zero, add_zero]
      have := mul_le_mul_of_nonneg_left hb (sq_nonneg s)
      nlinarith
    · refine ⟨0, ![0, 1, 0], norm3_e1, ?_⟩
      rw [meePsi_real H]
      have : 1 + A.oe 1 ≠ 0 := by nlinarith
      simp [elementRate, div_self this, hg]
      left; norm_num
  · intro hg
    obtain ⟨x, y, hxy, hgt⟩ := fg_exceeds H.ecc hg
    obtain ⟨θ, hc, hs'⟩ := exists_angle x y hxy
    refine ⟨θ, ![0, 1, 0], norm3_e1, ?_⟩
    rw [meePsi_real H]
    simp only [elementRate, Matrix.cons_val, mul_zero, mul_one, zero_add, add_zero, hc, hs']
    exact mul_lt_mul_of_pos_left (mul_lt_mul_of_pos_left hgt hs) H.f

/-- C43: the code's rate of `g` is the maximum exactly when `f = 0`. -/
theorem C43_g_partial : (A.oe 1 = 0 → IsMaxRate meePsi A 2 (meeOedot A 2)) ∧
    (A.oe 1 ≠ 0 → ∃ L d, norm3 d = 1 ∧
      meeOedot A 2 < elementRate A.f (meePsi (A.atAnomaly L)) 2 d) := by
  have hs := mee_s_pos H
  have hO : meeOedot A 2 = A.f * (Real.sqrt (A.oe 0 * (1 - A.oe 1 ^ 2 - A.oe 2 ^ 2) / A.mu) * 2) := by
    simp only [meeOedot, Matrix.cons_val, Nat.cast_one, Nat.cast_ofNat, sqrt_real]; ring
  rw [hO]
  constructor
  · intro hf
    have hecc := H.ecc
    have hg : A.oe 2 ^ 2 < 1 := by rw [hf] at hecc; nlinarith
    constructor
    · intro L d hd
      apply elementRate_le H.f.le (by positivity) _ hd
      rw [meePsi_real H]
      simp only [Matrix.cons_val]
      have hb := fg_inplane hg (Real.sin_sq_add_cos_sq L)
      generalize Real.sqrt (A.oe 0 * (1 - A.oe 1 ^ 2 - A.oe 2 ^ 2) / A.mu) = s at *
      rw [hf]
      simp only [zero_mul, mul_zero, add_zero]
      have := mul_le_mul_of_nonneg_left hb (sq_nonneg s)
      nlinarith
    · refine ⟨Real.pi / 2, ![0, 1, 0], norm3_e1, ?_⟩
      rw [meePsi_real H]
      have : 1 + A.oe 2 ≠ 0 := by nlinarith
      simp [elementRate, div_self this, hf]
      left; norm_num
  · intro hf
    obtain ⟨x, y, hxy, hgt⟩ := fg_exceeds (show A.oe 2 ^ 2 + A.oe 1 ^ 2 < 1 by linarith [H.ecc]) hf
    obtain ⟨θ, hc, hs'⟩ := exists_angle y x (by linarith)
    refine ⟨θ, ![0, 1, 0], norm3_e1, ?_⟩
    rw [meePsi_real H]
    simp only [elementRate, Matrix.cons_val, mul_zero, mul_one, zero_add, add_zero, hc, hs']
    rw [show 1 + A.oe 1 * y + A.oe 2 * x = 1 + A.oe 2 * x + A.oe 1 * y by ring]
    exact mul_lt_mul_of_pos_left (mul_lt_mul_of_pos_left hgt hs) H.f

/-! ## C44 -/

omit H in
theorem arctan_quadrant {f g : ℝ} (hf : f ≠ 0) :
    Real.sqrt (f ^ 2 + g ^ 2) * Real.cos (Real.arctan (g / f)) = |f| ∧
    Real.sqrt (f ^ 2 + g ^ 2) * Real.sin (Real.arctan (g / f)) = g / f * |f| := by
  have h1 : Real.sqrt (f ^ 2 + g ^ 2) = |f| * Real.sqrt (1 + (g / f) ^ 2) := by
    rw [← Real.sqrt_sq_eq_abs, ← Real.sqrt_mul (sq_nonneg f)]
    congr 1; field_simp
  have h2 : Real.sqrt (1 + (g / f) ^ 2) ≠ 0 := by positivity
  constructor
  · rw [h1, Real.cos_arctan]; field_simp
  · rw [h1, Real.sin_arctan]; field_simp

/-- C44: right for `f > 0`. -/
theorem C44_partial (L : ℝ) (hf : 0 < A.oe 1) :
    meePsi (A.atAnomaly L) 0 0 =
      2 * A.oe 0 ^ 2 / Real.sqrt (A.mu * (A.oe 0 * (1 - A.oe 1 ^ 2 - A.oe 2 ^ 2))) *
        (A.oe 1 * Real.sin L - A.oe 2 * Real.cos L) ∧
    meePsi (A.atAnomaly L) 1 0 =
      2 * A.oe 0 ^ 2 / Real.sqrt (A.mu * (A.oe 0 * (1 - A.oe 1 ^ 2 - A.oe 2 ^ 2))) *
        (1 + A.oe 1 * Real.cos L + A.oe 2 * Real.sin L) := by
  obtain ⟨h1, h2⟩ := arctan_quadrant (g := A.oe 2) hf.ne'
  rw [abs_of_pos hf] at h1 h2
  have h2' : Real.sqrt (A.oe 1 ^ 2 + A.oe 2 ^ 2) * Real.sin (Real.arctan (A.oe 2 / A.oe 1)) =
    A.oe 2 := by rw [h2]; field_simp
  rw [meePsi_real H]
  simp only [Matrix.cons_val, Real.sin_sub, Real.cos_sub]
  constructor
  · congr 1; linear_combination Real.sin L * h1 - Real.cos L * h2'
  · congr 1; linear_combination Real.cos L * h1 + Real.sin L * h2'

/-- C44: for `f < 0` the in-plane parts have the wrong sign. -/
theorem C44_wrong_half_plane (L : ℝ) (hf : A.oe 1 < 0) :
    meePsi (A.atAnomaly L) 0 0 =
      2 * A.oe 0 ^ 2 / Real.sqrt (A.mu * (A.oe 0 * (1 - A.oe 1 ^ 2 - A.oe 2 ^ 2))) *
        -(A.oe 1 * Real.sin L - A.oe 2 * Real.cos L) ∧
    meePsi (A.atAnomaly L) 1 0 =
      2 * A.oe 0 ^ 2 / Real.sqrt (A.mu * (A.oe 0 * (1 - A.oe 1 ^ 2 - A.oe 2 ^ 2))) *
        (1 - (A.oe 1 * Real.cos L + A.oe 2 * Real.sin L)) := by
  obtain ⟨h1, h2⟩ := arctan_quadrant (g := A.oe 2) hf.ne
  rw [abs_of_neg hf] at h1 h2
  have h2' : Real.sqrt (A.oe 1 ^ 2 + A.oe 2 ^ 2) * Real.sin (Real.arctan (A.oe 2 / A.oe 1)) =
    -A.oe 2 := by rw [h2]; have := hf.ne; field_simp
  rw [meePsi_real H]
  simp only [Matrix.cons_val, Real.sin_sub, Real.cos_sub]
  constructor
  · congr 1; linear_combination Real.sin L * h1 - Real.cos L * h2'
  · congr 1; linear_combination Real.cos L * h1 + Real.sin L * h2'

/-- C44 is violated: for `f < 0`, at every longitude, one of the two coefficients is wrong. -/
theorem C44_violated (L : ℝ) (hf : A.oe 1 < 0) : ¬ (
    meePsi (A.atAnomaly L) 0 0 =
      2 * A.oe 0 ^ 2 / Real.sqrt (A.mu * (A.oe 0 * (1 - A.oe 1 ^ 2 - A.oe 2 ^ 2))) *
        (A.oe 1 * Real.sin L - A.oe 2 * Real.cos L) ∧
    meePsi (A.atAnomaly L) 1 0 =
      2 * A.oe 0 ^ 2 / Real.sqrt (A.mu * (A.oe 0 * (1 - A.oe 1 ^ 2 - A.oe 2 ^ 2))) *
        (1 + A.oe 1 * Real.cos L + A.oe 2 * Real.sin L)) := by
  rintro ⟨h1, h2⟩
  obtain ⟨e1, e2⟩ := C44_wrong_half_plane H L hf
  have ha := H.a
  have hK : 2 * A.oe 0 ^ 2 / Real.sqrt (A.mu * (A.oe 0 * (1 - A.oe 1 ^ 2 - A.oe 2 ^ 2))) ≠ 0 := by
    have := Real.sqrt_pos.2 (mul_pos H.mu H.p_pos)
    positivity
  rw [e1] at h1
  rw [e2] at h2
  have h1' := mul_left_cancel₀ hK h1
  have h2' := mul_left_cancel₀ hK h2
  have hcs := Real.sin_sq_add_cos_sq L
  have : A.oe 1 ^ 2 + A.oe 2 ^ 2 = 0 := by
    have z1 : A.oe 1 * Real.sin L - A.oe 2 * Real.cos L = 0 := by linarith
    have z2 : A.oe 1 * Real.cos L + A.oe 2 * Real.sin L = 0 := by linarith
    linear_combination (A.oe 1 * Real.sin L - A.oe 2 * Real.cos L) * z1 +
      (A.oe 1 * Real.cos L + A.oe 2 * Real.sin L) * z2 - (A.oe 1 ^ 2 + A.oe 2 ^ 2) * hcs
  nlinarith [sq_nonneg (A.oe 2)]

end

/-- C44: with `f = 0` the equations of motion raise. -/
theorem C44_raises (t : ℝ) (s : Fin 6 → ℝ) (P : OdeParams ℝ) (h : s 1 = 0) :
    eomMeeWithAGauss t s P = .error .zeroDivision := by
  simp only [eomMeeWithAGauss, h]
  rw [ndiv_zero_real]; rfl

/-- an ellipse in MEE with `f < 0`, and one with `f > 0` -/
noncomputable def sampleMee (f : ℝ) : LyapArgs ℝ :=
  { mu := 1, f := 1, oe := ![2, f, 1 / 4, 1, 3, 0], oeT := ![3, 0, 0, 0, 0], rpmin := 1, m := 3,
    n := 4, r := 2, b := 1 / 100, k := 1, wp := 1, woe := ![1, 1, 1, 1, 1] }

example : MeeEllipse (sampleMee (1 / 2)) ∧ 0 < (sampleMee (1 / 2)).oe 1 := by
  refine ⟨⟨?_, ?_, ?_, ?_⟩, ?_⟩ <;> (simp [sampleMee]; try norm_num)

example : MeeEllipse (sampleMee (-1 / 2)) ∧ (sampleMee (-1 / 2)).oe 1 < 0 := by
  refine ⟨⟨?_, ?_, ?_, ?_⟩, ?_⟩ <;> simp [sampleMee] <;> norm_num

end PyQ
