import Verif.Props.NodeFrame

/-! # C140: with weight on the semi-major axis only, the two element sets command the same thrust -/

set_option linter.unusedSectionVars false

noncomputable section

namespace PyQ

/-- the call of the generated functions for the same orbit in modified equinoctial elements, with target `T` -/
def LyapArgs.inMee (A : LyapArgs ℝ) (T : Fin 5 → ℝ) : LyapArgs ℝ :=
  { A with oe := kep2meeWithA A.oe, oeT := T }

/-- an ellipse with weight on the semi-major axis only, and an even exponent `n_petro` -/
structure SmaOnly (A : LyapArgs ℝ) : Prop extends KepEllipse A where
  e_pos : 0 < A.oe 1
  woe : ∀ i, i ≠ 0 → A.woe i = 0
  even : ∃ j : ℕ, A.n = ((2 * j : ℕ) : ℝ)

section
variable {A : LyapArgs ℝ} {T : Fin 5 → ℝ}

/-- `Q` as a function of semi-major axis and eccentricity -/
def smaQ (A : LyapArgs ℝ) (a e : ℝ) : ℝ :=
  (1 + A.wp * Real.exp (A.k * (1 - a * (1 - e) / A.rpmin))) *
    (A.woe 0 * PyTrans.rpow (1 + PyTrans.rpow ((a - A.oeT 0) / (A.m * A.oeT 0)) A.n) (1 / A.r) *
      ((a - A.oeT 0) ^ 2 / (4 * A.f ^ 2 * (a ^ 3 * (1 + e) / (A.mu * (1 - e))))))

theorem kepQ_sma {B : LyapArgs ℝ} (hw : ∀ i, i ≠ 0 → B.woe i = 0) (hmu : 0 < B.mu) (ha : 0 < B.oe 0)
    (he0 : 0 < B.oe 1) (he1 : B.oe 1 < 1) : kepQ B = smaQ B (B.oe 0) (B.oe 1) := by
  have h1 := hw 1 (by decide)
  have h2 := hw 2 (by decide)
  have h3 := hw 3 (by decide)
  have h4 := hw 4 (by decide)
  have hr : 0 ≤ B.oe 0 ^ 3 * (1 + B.oe 1) / (B.mu * (1 - B.oe 1)) := by
    have : 0 < 1 - B.oe 1 := by linarith
    positivity
  simp only [kepQ, kepPenalty, kepSoe, kepDoe, h1, h2, h3, h4, zero_mul, add_zero, Nat.cast_one, exp_real, smaQ]
  rw [show kepOedot B 0 = 2 * B.f * Real.sqrt (B.oe 0 ^ 3 * (1 + B.oe 1) / (B.mu * (1 - B.oe 1))) by
    simp [kepOedot]]
  rw [div_pow, mul_pow, mul_pow, Real.sq_sqrt hr]
  simp only [Matrix.cons_val]
  norm_num

theorem rpow_real_eq (x y : ℝ) : PyTrans.rpow x y = x ^ y := rfl

theorem soe_even {B : LyapArgs ℝ} (hn : ∃ j : ℕ, B.n = ((2 * j : ℕ) : ℝ)) :
    meeSoe B = PyTrans.rpow (1 + PyTrans.rpow ((B.oe 0 - B.oeT 0) / (B.m * B.oeT 0)) B.n) (1 / B.r) := by
  obtain ⟨j, hj⟩ := hn
  simp only [meeSoe, Nat.cast_one, sqrt_real, rpow_real_eq, hj, Real.rpow_natCast, Real.sqrt_sq_eq_abs]
  rw [pow_mul, pow_mul, div_pow, div_pow, div_pow, sq_abs, div_pow]

theorem meeQ_sma {B : LyapArgs ℝ} (hw : ∀ i, i ≠ 0 → B.woe i = 0) (hn : ∃ j : ℕ, B.n = ((2 * j : ℕ) : ℝ))
    (hmu : 0 < B.mu) (ha : 0 < B.oe 0) (he : B.oe 1 ^ 2 + B.oe 2 ^ 2 < 1) :
    meeQ B = smaQ B (B.oe 0) (Real.sqrt (B.oe 1 ^ 2 + B.oe 2 ^ 2)) := by
  have h1 := hw 1 (by decide)
  have h2 := hw 2 (by decide)
  have h3 := hw 3 (by decide)
  have h4 := hw 4 (by decide)
  have hs : Real.sqrt (B.oe 1 ^ 2 + B.oe 2 ^ 2) < 1 := by rw [Real.sqrt_lt' one_pos]; linarith
  have hs0 := Real.sqrt_nonneg (B.oe 1 ^ 2 + B.oe 2 ^ 2)
  simp only [meeQ, meePenalty, meeDoe, h1, h2, h3, h4, zero_mul, add_zero, Nat.cast_one, exp_real, smaQ, soe_even hn,
    sqrt_real]
  rw [show meeOedot B 0 = 2 * B.f * B.oe 0 * Real.sqrt (B.oe 0 / B.mu) *
      Real.sqrt ((1 + Real.sqrt (B.oe 1 ^ 2 + B.oe 2 ^ 2)) / (1 - Real.sqrt (B.oe 1 ^ 2 + B.oe 2 ^ 2))) by
    simp [meeOedot]]
  generalize Real.sqrt (B.oe 1 ^ 2 + B.oe 2 ^ 2) = e at *
  have hd : 0 < 1 - e := by linarith
  rw [div_pow, mul_pow, mul_pow, mul_pow, mul_pow, Real.sq_sqrt (by positivity), Real.sq_sqrt (by positivity)]
  simp only [Matrix.cons_val]
  congr 3
  field_simp
  ring

theorem smaQ_diff {a e : ℝ} (hmu : 0 < A.mu) (hf : 0 < A.f) (ha : 0 < a) (he0 : 0 < e) (he1 : e < 1) :
    DifferentiableAt ℝ (smaQ A a) e := by
  have h1 : A.mu * (1 - e) ≠ 0 := by
    have : 0 < 1 - e := by linarith
    positivity
  have h2 : 4 * A.f ^ 2 * (a ^ 3 * (1 + e) / (A.mu * (1 - e))) ≠ 0 := by
    have : 0 < 1 - e := by linarith
    positivity
  unfold smaQ
  fun_prop (disch := assumption)

theorem inMee_elems (A : LyapArgs ℝ) (T : Fin 5 → ℝ) :
    (A.inMee T).oe 0 = A.oe 0 ∧ (A.inMee T).oe 1 = A.oe 1 * Real.cos (A.oe 3 + A.oe 4) ∧
    (A.inMee T).oe 2 = A.oe 1 * Real.sin (A.oe 3 + A.oe 4) ∧ (A.inMee T).oe 5 = A.oe 3 + A.oe 4 + A.oe 5 := by
  simp [LyapArgs.inMee, kep2meeWithA]

theorem inMee_ecc (A : LyapArgs ℝ) (T : Fin 5 → ℝ) : (A.inMee T).oe 1 ^ 2 + (A.inMee T).oe 2 ^ 2 = A.oe 1 ^ 2 := by
  obtain ⟨-, h1, h2, -⟩ := inMee_elems A T
  rw [h1, h2]
  linear_combination A.oe 1 ^ 2 * Real.cos_sq_add_sin_sq (A.oe 3 + A.oe 4)

theorem smaQ_inMee (hT : T 0 = A.oeT 0) : smaQ (A.inMee T) = smaQ A := by
  funext a e
  unfold smaQ
  rw [show (A.inMee T).oeT 0 = A.oeT 0 from hT]
  rfl

theorem SmaOnly.inMee (H : SmaOnly A) (T : Fin 5 → ℝ) : MeeEllipse (A.inMee T) :=
  ⟨H.mu, H.f, H.a, by rw [inMee_ecc]; have := H.e_pos; have := H.e1; nlinarith⟩

/-- the partial derivatives of the two quotients -/
theorem grad_sma (H : SmaOnly A) (hT : T 0 = A.oeT 0) :
    partialQ meeQ (A.inMee T) 0 = partialQ kepQ A 0 ∧
    partialQ meeQ (A.inMee T) 1 = partialQ kepQ A 1 * Real.cos (A.oe 3 + A.oe 4) ∧
    partialQ meeQ (A.inMee T) 2 = partialQ kepQ A 1 * Real.sin (A.oe 3 + A.oe 4) ∧
    partialQ meeQ (A.inMee T) 3 = 0 ∧ partialQ meeQ (A.inMee T) 4 = 0 ∧
    partialQ kepQ A 2 = 0 ∧ partialQ kepQ A 3 = 0 ∧ partialQ kepQ A 4 = 0 := by
  have hB := H.inMee T
  obtain ⟨b0, b1, b2, b5⟩ := inMee_elems A T
  have be := inMee_ecc A T
  have hep := H.e_pos
  have hs : Real.sqrt ((A.inMee T).oe 1 ^ 2 + (A.inMee T).oe 2 ^ 2) = A.oe 1 := by rw [be]; exact Real.sqrt_sq hep.le
  have wB : ∀ i, i ≠ 0 → (A.inMee T).woe i = 0 := H.woe
  have hK : ∀ y, 0 < y → kepQ (A.setOe 0 y) = smaQ A y (A.oe 1) := fun y hy =>
    kepQ_sma (B := A.setOe 0 y) H.woe H.mu hy hep H.e1
  have hKe : ∀ y, 0 < y → y < 1 → kepQ (A.setOe 1 y) = smaQ A (A.oe 0) y := fun y h0 h1 =>
    kepQ_sma (B := A.setOe 1 y) H.woe H.mu H.a h0 h1
  have hM : ∀ y, 0 < y → meeQ ((A.inMee T).setOe 0 y) = smaQ A y (A.oe 1) := by
    intro y hy
    have := meeQ_sma (B := (A.inMee T).setOe 0 y) wB H.even H.mu hy hB.ecc
    rw [this]
    show smaQ (A.inMee T) y (Real.sqrt ((A.inMee T).oe 1 ^ 2 + (A.inMee T).oe 2 ^ 2)) = _
    rw [hs, smaQ_inMee hT]
  have hMf : ∀ y, y ^ 2 + (A.inMee T).oe 2 ^ 2 < 1 → meeQ ((A.inMee T).setOe 1 y) =
      smaQ A (A.oe 0) (Real.sqrt (y ^ 2 + (A.inMee T).oe 2 ^ 2)) := by
    intro y hy
    have := meeQ_sma (B := (A.inMee T).setOe 1 y) wB H.even H.mu H.a hy
    rw [this]
    show smaQ (A.inMee T) (A.oe 0) _ = _
    rw [smaQ_inMee hT]; rfl
  have hMg : ∀ y, (A.inMee T).oe 1 ^ 2 + y ^ 2 < 1 → meeQ ((A.inMee T).setOe 2 y) =
      smaQ A (A.oe 0) (Real.sqrt ((A.inMee T).oe 1 ^ 2 + y ^ 2)) := by
    intro y hy
    have := meeQ_sma (B := (A.inMee T).setOe 2 y) wB H.even H.mu H.a hy
    rw [this]
    show smaQ (A.inMee T) (A.oe 0) _ = _
    rw [smaQ_inMee hT]; rfl
  have d1 : partialQ kepQ A 1 = deriv (smaQ A (A.oe 0)) (A.oe 1) := by
    show deriv (fun y => kepQ (A.setOe 1 y)) (A.oe 1) = _
    apply Filter.EventuallyEq.deriv_eq
    filter_upwards [lt_mem_nhds hep, gt_mem_nhds H.e1] with y h0 h1
    exact hKe y h0 h1
  have hS := (smaQ_diff (A := A) H.mu H.f H.a hep H.e1).hasDerivAt
  have heq : A.oe 1 ≠ 0 := hep.ne'
  refine ⟨?_, ?_, ?_, ?_, ?_, ?_, ?_, ?_⟩
  · show deriv (fun y => meeQ ((A.inMee T).setOe 0 y)) (A.oe 0) = deriv (fun y => kepQ (A.setOe 0 y)) (A.oe 0)
    apply Filter.EventuallyEq.deriv_eq
    filter_upwards [lt_mem_nhds H.a] with y h0
    rw [hM y h0, hK y h0]
  · have e1 : partialQ meeQ (A.inMee T) 1 =
        deriv (fun y => smaQ A (A.oe 0) (Real.sqrt (y ^ 2 + (A.inMee T).oe 2 ^ 2))) ((A.inMee T).oe 1) := by
      show deriv (fun y => meeQ ((A.inMee T).setOe 1 y)) ((A.inMee T).oe 1) = _
      apply Filter.EventuallyEq.deriv_eq
      have hc : ContinuousAt (fun y : ℝ => y ^ 2 + (A.inMee T).oe 2 ^ 2) ((A.inMee T).oe 1) := by fun_prop
      filter_upwards [hc.eventually (gt_mem_nhds hB.ecc)] with y hy
      exact hMf y hy
    have hu : HasDerivAt (fun y : ℝ => y ^ 2 + (A.inMee T).oe 2 ^ 2) (2 * (A.inMee T).oe 1) ((A.inMee T).oe 1) := by
      simpa using (hasDerivAt_pow 2 ((A.inMee T).oe 1)).add_const ((A.inMee T).oe 2 ^ 2)
    have hq := hu.sqrt (by rw [be]; positivity)
    rw [hs] at hq
    have hS' : HasDerivAt (smaQ A (A.oe 0)) (deriv (smaQ A (A.oe 0)) (A.oe 1))
        (Real.sqrt ((A.inMee T).oe 1 ^ 2 + (A.inMee T).oe 2 ^ 2)) := by rw [hs]; exact hS
    have := (hS'.comp ((A.inMee T).oe 1) hq).deriv
    rw [e1, d1]
    refine Eq.trans this ?_
    rw [b1]
    field_simp
  · have e1 : partialQ meeQ (A.inMee T) 2 =
        deriv (fun y => smaQ A (A.oe 0) (Real.sqrt ((A.inMee T).oe 1 ^ 2 + y ^ 2))) ((A.inMee T).oe 2) := by
      show deriv (fun y => meeQ ((A.inMee T).setOe 2 y)) ((A.inMee T).oe 2) = _
      apply Filter.EventuallyEq.deriv_eq
      have hc : ContinuousAt (fun y : ℝ => (A.inMee T).oe 1 ^ 2 + y ^ 2) ((A.inMee T).oe 2) := by fun_prop
      filter_upwards [hc.eventually (gt_mem_nhds hB.ecc)] with y hy
      exact hMg y hy
    have hu : HasDerivAt (fun y : ℝ => (A.inMee T).oe 1 ^ 2 + y ^ 2) (2 * (A.inMee T).oe 2) ((A.inMee T).oe 2) := by
      simpa using (hasDerivAt_pow 2 ((A.inMee T).oe 2)).const_add ((A.inMee T).oe 1 ^ 2)
    have hq := hu.sqrt (by rw [be]; positivity)
    rw [hs] at hq
    have hS' : HasDerivAt (smaQ A (A.oe 0)) (deriv (smaQ A (A.oe 0)) (A.oe 1))
        (Real.sqrt ((A.inMee T).oe 1 ^ 2 + (A.inMee T).oe 2 ^ 2)) := by rw [hs]; exact hS
    have := (hS'.comp ((A.inMee T).oe 2) hq).deriv
    rw [e1, d1]
    refine Eq.trans this ?_
    rw [b2]
    field_simp
  · have e : (fun y => meeQ ((A.inMee T).setOe 3 y)) = fun _ => meeQ (A.inMee T) := by
      funext y
      rw [meeQ_sma (B := (A.inMee T).setOe 3 y) wB H.even H.mu H.a hB.ecc, meeQ_sma wB H.even H.mu H.a hB.ecc]
      rfl
    show deriv (fun y => meeQ ((A.inMee T).setOe 3 y)) _ = 0
    rw [e]; exact deriv_const _ _
  · have e : (fun y => meeQ ((A.inMee T).setOe 4 y)) = fun _ => meeQ (A.inMee T) := by
      funext y
      rw [meeQ_sma (B := (A.inMee T).setOe 4 y) wB H.even H.mu H.a hB.ecc, meeQ_sma wB H.even H.mu H.a hB.ecc]
      rfl
    show deriv (fun y => meeQ ((A.inMee T).setOe 4 y)) _ = 0
    rw [e]; exact deriv_const _ _
  · have e : (fun y => kepQ (A.setOe 2 y)) = fun _ => kepQ A := by
      funext y
      rw [kepQ_sma (B := A.setOe 2 y) H.woe H.mu H.a hep H.e1, kepQ_sma H.woe H.mu H.a hep H.e1]
      rfl
    show deriv (fun y => kepQ (A.setOe 2 y)) _ = 0
    rw [e]; exact deriv_const _ _
  · have e : (fun y => kepQ (A.setOe 3 y)) = fun _ => kepQ A := by
      funext y
      rw [kepQ_sma (B := A.setOe 3 y) H.woe H.mu H.a hep H.e1, kepQ_sma H.woe H.mu H.a hep H.e1]
      rfl
    show deriv (fun y => kepQ (A.setOe 3 y)) _ = 0
    rw [e]; exact deriv_const _ _
  · have e : (fun y => kepQ (A.setOe 4 y)) = fun _ => kepQ A := by
      funext y
      rw [kepQ_sma (B := A.setOe 4 y) H.woe H.mu H.a hep H.e1, kepQ_sma H.woe H.mu H.a hep H.e1]
      rfl
    show deriv (fun y => kepQ (A.setOe 4 y)) _ = 0
    rw [e]; exact deriv_const _ _

/-- **C140, the quotient.** Both element sets have the same `Q`. -/
theorem C140_quotient (H : SmaOnly A) (hT : T 0 = A.oeT 0) : meeQ (A.inMee T) = kepQ A := by
  rw [meeQ_sma (B := A.inMee T) H.woe H.even H.mu H.a (H.inMee T).ecc, kepQ_sma H.woe H.mu H.a H.e_pos H.e1,
    smaQ_inMee hT, inMee_ecc, Real.sqrt_sq H.e_pos.le]
  rfl

theorem kepPsi_plane (H : SmaOnly A) :
    kepPsi A 0 0 = 2 * A.oe 0 ^ 2 / Real.sqrt (A.mu * (A.oe 0 * (1 - A.oe 1 ^ 2))) * (A.oe 1 * Real.sin (A.oe 5)) ∧
    kepPsi A 0 1 = Real.sqrt (A.oe 0 * (1 - A.oe 1 ^ 2) / A.mu) * Real.sin (A.oe 5) ∧
    kepPsi A 1 0 = 2 * A.oe 0 ^ 2 / Real.sqrt (A.mu * (A.oe 0 * (1 - A.oe 1 ^ 2))) *
      (1 + A.oe 1 * Real.cos (A.oe 5)) ∧
    kepPsi A 1 1 = Real.sqrt (A.oe 0 * (1 - A.oe 1 ^ 2) / A.mu) / (1 + A.oe 1 * Real.cos (A.oe 5)) *
      ((1 + A.oe 1 * Real.cos (A.oe 5) + 1) * Real.cos (A.oe 5) + A.oe 1) ∧
    kepPsi A 2 0 = 0 ∧ kepPsi A 2 1 = 0 := by
  have ha := H.a
  have hmu := H.mu
  have he0 := H.e_pos
  have he1 := H.e1
  have hq : 0 < 1 - A.oe 1 ^ 2 := by nlinarith
  have hw : 0 < 1 + A.oe 1 * Real.cos (A.oe 5) := by nlinarith [Real.neg_one_le_cos (A.oe 5)]
  have hh : A.oe 0 * A.mu * (1 - A.oe 1 ^ 2) = A.mu * (A.oe 0 * (1 - A.oe 1 ^ 2)) := by ring
  have hp : 0 < A.oe 0 * (1 - A.oe 1 ^ 2) := by positivity
  have hS : Real.sqrt (A.oe 0 * (1 - A.oe 1 ^ 2) / A.mu) =
      A.oe 0 * (1 - A.oe 1 ^ 2) / Real.sqrt (A.mu * (A.oe 0 * (1 - A.oe 1 ^ 2))) := by
    rw [eq_div_iff (Real.sqrt_pos.2 (by positivity)).ne', ← Real.sqrt_mul (by positivity)]
    rw [show A.oe 0 * (1 - A.oe 1 ^ 2) / A.mu * (A.mu * (A.oe 0 * (1 - A.oe 1 ^ 2))) =
      (A.oe 0 * (1 - A.oe 1 ^ 2)) ^ 2 by field_simp]
    exact Real.sqrt_sq hp.le
  have hsq : Real.sqrt (A.mu * (A.oe 0 * (1 - A.oe 1 ^ 2))) ^ 2 = A.mu * (A.oe 0 * (1 - A.oe 1 ^ 2)) :=
    Real.sq_sqrt (by positivity)
  have hn : Real.sqrt (A.mu * (A.oe 0 * (1 - A.oe 1 ^ 2))) ≠ 0 := (Real.sqrt_pos.2 (by positivity)).ne'
  simp only [kepPsi, Matrix.cons_val, sqrt_real, sin_real, cos_real, Nat.cast_one, Nat.cast_zero, Nat.cast_ofNat, hh, hS,
    and_true, true_and, hsq]
  generalize Real.sqrt (A.mu * (A.oe 0 * (1 - A.oe 1 ^ 2))) = h at *
  generalize 1 + A.oe 1 * Real.cos (A.oe 5) = w at *
  generalize 1 - A.oe 1 ^ 2 = q at *
  refine ⟨by ring, ?_, ?_⟩
  · field_simp
  · field_simp

/-- the thrust vectors apart from the terms of the semi-major axis -/
theorem controls_sma (H : SmaOnly A) (hT : T 0 = A.oeT 0) :
    rawControl (meePsi (A.inMee T)) (partialQ meeQ (A.inMee T)) 0 - meePsi (A.inMee T) 0 0 * partialQ kepQ A 0 =
      rawControl (kepPsi A) (partialQ kepQ A) 0 - kepPsi A 0 0 * partialQ kepQ A 0 ∧
    rawControl (meePsi (A.inMee T)) (partialQ meeQ (A.inMee T)) 1 - meePsi (A.inMee T) 1 0 * partialQ kepQ A 0 =
      rawControl (kepPsi A) (partialQ kepQ A) 1 - kepPsi A 1 0 * partialQ kepQ A 0 ∧
    rawControl (meePsi (A.inMee T)) (partialQ meeQ (A.inMee T)) 2 = 0 ∧
    rawControl (kepPsi A) (partialQ kepQ A) 2 = 0 := by
  obtain ⟨g0, g1, g2, g3, g4, k2, k3, k4⟩ := grad_sma H hT
  obtain ⟨a1, a2, a3, a4, a5, a6, a7⟩ := meePsi_plane (A.inMee T)
  obtain ⟨-, c1, -, c3, c4, c5⟩ := kepPsi_plane H
  obtain ⟨b0, b1, b2, b5⟩ := inMee_elems A T
  have be : 1 - (A.inMee T).oe 1 ^ 2 - (A.inMee T).oe 2 ^ 2 = 1 - A.oe 1 ^ 2 := by linarith [inMee_ecc A T]
  have hcs := Real.cos_sq_add_sin_sq (A.oe 3 + A.oe 4)
  have hw : 1 + (A.inMee T).oe 1 * Real.cos ((A.inMee T).oe 5) + (A.inMee T).oe 2 * Real.sin ((A.inMee T).oe 5) =
      1 + A.oe 1 * Real.cos (A.oe 5) := by
    rw [b1, b2, b5, Real.cos_add _ (A.oe 5), Real.sin_add _ (A.oe 5)]
    linear_combination A.oe 1 * Real.cos (A.oe 5) * hcs
  have hmu : (A.inMee T).mu = A.mu := rfl
  rw [be, b0, hmu, b5, Real.sin_add] at a1
  rw [be, b0, hmu, b5, Real.cos_add] at a2
  rw [be, hw, b0, hmu, b5, b1, Real.cos_add _ (A.oe 5)] at a3
  rw [be, hw, b0, hmu, b5, b2, Real.sin_add _ (A.oe 5)] at a4
  rw [be, hw, b2] at a6
  rw [be, hw, b1] at a7
  refine ⟨?_, ?_, ?_, ?_⟩
  · unfold rawControl
    rw [g0, g1, g2, g3, g4, k2, k3, k4, a1, a2, c1]
    generalize Real.sqrt _ = S
    linear_combination S * Real.sin (A.oe 5) * partialQ kepQ A 1 * hcs
  · unfold rawControl
    rw [g0, g1, g2, g3, g4, k2, k3, k4, a3, a4, c3]
    generalize Real.sqrt _ = S
    generalize 1 + A.oe 1 * Real.cos (A.oe 5) = w
    linear_combination S / w * ((w + 1) * Real.cos (A.oe 5) + A.oe 1) * partialQ kepQ A 1 * hcs
  · unfold rawControl
    rw [g0, g1, g2, g3, g4, a5, a6, a7]
    ring
  · unfold rawControl
    rw [k2, k3, k4, c4, c5]
    ring

theorem inMee_atAnomaly (A : LyapArgs ℝ) (T : Fin 5 → ℝ) :
    (A.inMee T).atAnomaly ((A.inMee T).oe 5) = A.inMee T := by
  unfold LyapArgs.atAnomaly
  congr 1

/-- **C140, the thrust (partial).** If `f > 0`, both element sets command the same thrust vector and predict the same
rate of `Q`. -/
theorem C140_thrust_partial (H : SmaOnly A) (hT : T 0 = A.oeT 0) (hf : 0 < Real.cos (A.oe 3 + A.oe 4)) :
    (meeLyap (A.inMee T)).uRaw = (kepLyap A).uRaw ∧ meeDqdt (A.inMee T) = kepDqdt A := by
  obtain ⟨b0, b1, b2, b5⟩ := inMee_elems A T
  have hcs := Real.cos_sq_add_sin_sq (A.oe 3 + A.oe 4)
  obtain ⟨p0, p1⟩ := C44_partial (H.inMee T) ((A.inMee T).oe 5) (by rw [b1]; exact mul_pos H.e_pos hf)
  rw [inMee_atAnomaly] at p0 p1
  have be : 1 - (A.inMee T).oe 1 ^ 2 - (A.inMee T).oe 2 ^ 2 = 1 - A.oe 1 ^ 2 := by linarith [inMee_ecc A T]
  have hmu : (A.inMee T).mu = A.mu := rfl
  rw [be, b0, hmu, b5, b1, b2, Real.sin_add _ (A.oe 5), Real.cos_add _ (A.oe 5)] at p0 p1
  obtain ⟨c0, -, c2, -⟩ := kepPsi_plane H
  have q0 : meePsi (A.inMee T) 0 0 = kepPsi A 0 0 := by
    rw [p0, c0]
    congr 1
    linear_combination A.oe 1 * Real.sin (A.oe 5) * hcs
  have q1 : meePsi (A.inMee T) 1 0 = kepPsi A 1 0 := by
    rw [p1, c2]
    congr 1
    linear_combination A.oe 1 * Real.cos (A.oe 5) * hcs
  obtain ⟨r0, r1, r2, r3⟩ := controls_sma H hT
  rw [q0] at r0
  rw [q1] at r1
  have key : rawControl (meePsi (A.inMee T)) (partialQ meeQ (A.inMee T)) = rawControl (kepPsi A) (partialQ kepQ A) := by
    funext c
    fin_cases c
    · exact sub_left_inj.1 r0
    · exact sub_left_inj.1 r1
    · exact r2.trans r3.symm
  refine ⟨key, ?_⟩
  unfold meeDqdt kepDqdt
  rw [evalDqdt_dot, evalDqdt_dot, key]
  rfl

/-- **C140 is violated for `f < 0`** (see C44): wherever `Q` depends on the semi-major axis the two element sets
command different thrust vectors, at every longitude. -/
theorem C140_differs (H : SmaOnly A) (hT : T 0 = A.oeT 0) (hf : Real.cos (A.oe 3 + A.oe 4) < 0)
    (hq : partialQ kepQ A 0 ≠ 0) : (meeLyap (A.inMee T)).uRaw ≠ (kepLyap A).uRaw := by
  intro hne
  have key : rawControl (meePsi (A.inMee T)) (partialQ meeQ (A.inMee T)) = rawControl (kepPsi A) (partialQ kepQ A) := hne
  obtain ⟨b0, b1, b2, b5⟩ := inMee_elems A T
  have hcs := Real.cos_sq_add_sin_sq (A.oe 3 + A.oe 4)
  obtain ⟨p0, p1⟩ := C44_wrong_half_plane (H.inMee T) ((A.inMee T).oe 5)
    (by rw [b1]; exact mul_neg_of_pos_of_neg H.e_pos hf)
  rw [inMee_atAnomaly] at p0 p1
  have be : 1 - (A.inMee T).oe 1 ^ 2 - (A.inMee T).oe 2 ^ 2 = 1 - A.oe 1 ^ 2 := by linarith [inMee_ecc A T]
  have hmu : (A.inMee T).mu = A.mu := rfl
  rw [be, b0, hmu, b5, b1, b2, Real.sin_add _ (A.oe 5), Real.cos_add _ (A.oe 5)] at p0 p1
  obtain ⟨c0, -, c2, -⟩ := kepPsi_plane H
  obtain ⟨r0, r1, -, -⟩ := controls_sma H hT
  rw [key] at r0 r1
  have q0 := mul_right_cancel₀ hq (sub_right_inj.1 r0)
  have q1 := mul_right_cancel₀ hq (sub_right_inj.1 r1)
  have hK : 2 * A.oe 0 ^ 2 / Real.sqrt (A.mu * (A.oe 0 * (1 - A.oe 1 ^ 2))) ≠ 0 := by
    have h1 := H.a
    have h2 := H.mu
    have h3 : 0 < 1 - A.oe 1 ^ 2 := by nlinarith [H.e_pos, H.e1]
    have := Real.sqrt_pos.2 (show 0 < A.mu * (A.oe 0 * (1 - A.oe 1 ^ 2)) by positivity)
    positivity
  rw [p0, c0] at q0
  rw [p1, c2] at q1
  have s0 := mul_left_cancel₀ hK q0
  have s1 := mul_left_cancel₀ hK q1
  have he := H.e_pos
  have z0 : A.oe 1 * Real.sin (A.oe 5) = 0 := by
    linear_combination -(1 / 2) * s0 - A.oe 1 * Real.sin (A.oe 5) / 2 * hcs
  have z1 : A.oe 1 * Real.cos (A.oe 5) = 0 := by
    linear_combination -(1 / 2) * s1 - A.oe 1 * Real.cos (A.oe 5) / 2 * hcs
  have : A.oe 1 ^ 2 = 0 := by
    have := Real.sin_sq_add_cos_sq (A.oe 5)
    linear_combination A.oe 1 * Real.sin (A.oe 5) * z0 + A.oe 1 * Real.cos (A.oe 5) * z1 - A.oe 1 ^ 2 * this
  nlinarith

end

/-- raising the semi-major axis from 1 to 2 on an orbit with `e = 1/2` and longitude of periapsis `w` -/
def raiseCase (w : ℝ) : LyapArgs ℝ :=
  { mu := 1, f := 1, oe := ![1, 1 / 2, 1, w, 0, 0], oeT := ![2, 0, 0, 0, 0], rpmin := 1, m := 3, n := 0, r := 2, b := 1,
    k := 1, wp := 0, woe := ![1, 0, 0, 0, 0] }

theorem raiseCase_sma (w : ℝ) : SmaOnly (raiseCase w) := by
  refine ⟨⟨?_, ?_, ?_, ?_, ?_, ?_, ?_⟩, ?_, ?_, ⟨0, ?_⟩⟩
  · norm_num [raiseCase]
  · norm_num [raiseCase]
  · norm_num [raiseCase]
  · norm_num [raiseCase]
  · norm_num [raiseCase]
  · simp only [raiseCase, Matrix.cons_val]; norm_num
  · simp only [raiseCase, Matrix.cons_val]; linarith [Real.pi_gt_three]
  · norm_num [raiseCase]
  · intro i hi
    fin_cases i
    · exact absurd rfl hi
    all_goals rfl
  · norm_num [raiseCase]

theorem raiseCase_grad (w : ℝ) : partialQ kepQ (raiseCase w) 0 ≠ 0 := by
  have hc : (0 : ℝ) < (1 + 1) ^ (1 / 2 : ℝ) := by positivity
  have e : partialQ kepQ (raiseCase w) 0 = deriv (fun y => (1 + 1 : ℝ) ^ (1 / 2 : ℝ) * ((y - 2) ^ 2 / (12 * y ^ 3))) 1 := by
    show deriv (fun y => kepQ ((raiseCase w).setOe 0 y)) 1 = _
    apply Filter.EventuallyEq.deriv_eq
    filter_upwards [lt_mem_nhds (zero_lt_one : (0 : ℝ) < 1)] with y h0
    rw [kepQ_sma (B := (raiseCase w).setOe 0 y) (raiseCase_sma w).woe (raiseCase_sma w).mu h0 (raiseCase_sma w).e_pos
      (raiseCase_sma w).e1]
    show (1 + 0 * _) * (1 * ((1 + ((y - 2) / (3 * 2) : ℝ) ^ (0 : ℝ)) ^ (1 / 2 : ℝ)) *
      ((y - 2) ^ 2 / (4 * 1 ^ 2 * (y ^ 3 * (1 + 1 / 2) / (1 * (1 - 1 / 2)))))) = _
    rw [Real.rpow_zero]
    generalize (1 + 1 : ℝ) ^ (1 / 2 : ℝ) = c
    have := h0.ne'
    field_simp
    ring
  have h1 : HasDerivAt (fun y : ℝ => (y - 2) ^ 2) (2 * (1 - 2)) 1 := by
    exact (HasDerivAt.comp (h₂ := fun y : ℝ => y ^ 2) (1 : ℝ) (hasDerivAt_pow 2 ((1 : ℝ) - 2))
      ((hasDerivAt_id (1 : ℝ)).sub_const 2)).congr_deriv (by norm_num)
  have h2 : HasDerivAt (fun y : ℝ => 12 * y ^ 3) (12 * (3 * 1 ^ 2)) 1 := by
    simpa using (hasDerivAt_pow 3 (1 : ℝ)).const_mul 12
  have h3 := ((h1.div h2 (by norm_num)).const_mul ((1 + 1 : ℝ) ^ (1 / 2 : ℝ))).deriv
  rw [e]
  intro h
  have h4 := h3.symm.trans h
  have h5 := (mul_eq_zero.1 h4).resolve_left hc.ne'
  norm_num at h5

/-- with periapsis at longitude 0 the thrust vectors agree, at longitude `π` they do not -/
example : (meeLyap ((raiseCase 0).inMee ![2, 0, 0, 0, 0])).uRaw = (kepLyap (raiseCase 0)).uRaw ∧
    (meeLyap ((raiseCase Real.pi).inMee ![2, 0, 0, 0, 0])).uRaw ≠ (kepLyap (raiseCase Real.pi)).uRaw := by
  refine ⟨(C140_thrust_partial (raiseCase_sma 0) rfl ?_).1, C140_differs (raiseCase_sma Real.pi) rfl ?_ (raiseCase_grad _)⟩
  · show 0 < Real.cos (0 + 0)
    simp
  · show Real.cos (Real.pi + 0) < 0
    simp

end PyQ
