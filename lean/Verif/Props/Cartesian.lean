import Verif.Proofs.Kepler
import Verif.Props.Elements

/-! # C48-C51 and C54: elements and Cartesian states, over the reals -/

set_option linter.unusedSectionVars false

namespace PyQ

/-- the semi-latus rectum `a (1 - e²)` -/
noncomputable def semiLatus (k : Fin 6 → ℝ) : ℝ := k 0 * (1 - k 1 ^ 2)

/-- elements of a real orbit, at a point with `1 + e cos ν > 0` -/
structure OrbitPoint (k : Fin 6 → ℝ) (mu : ℝ) : Prop where
  mu_pos : 0 < mu
  p_pos : 0 < semiLatus k
  w_pos : 0 < 1 + k 1 * Real.cos (k 5)

/-- what it means that position `r` and velocity `v` belong to the orbit with elements `k`: radius,
speed, radial velocity and angular momentum vector -/
structure OnOrbit (k : Fin 6 → ℝ) (mu : ℝ) (r v : Fin 3 → ℝ) : Prop where
  radius : norm3 r = semiLatus k / (1 + k 1 * Real.cos (k 5))
  speed : dot3 v v = mu * (2 / norm3 r - 1 / k 0)
  radial : dot3 r v = norm3 r * (Real.sqrt (mu / semiLatus k) * k 1 * Real.sin (k 5))
  angular : cross3 r v = vsmul (Real.sqrt (mu * semiLatus k))
    ![Real.sin (k 2) * Real.sin (k 3), -(Real.sin (k 2) * Real.cos (k 3)), Real.cos (k 2)]

theorem OrbitPoint.a_ne {k : Fin 6 → ℝ} {mu : ℝ} (H : OrbitPoint k mu) : k 0 ≠ 0 := by
  intro e; have := H.p_pos; simp [semiLatus, e] at this

theorem OrbitPoint.e_ne {k : Fin 6 → ℝ} {mu : ℝ} (H : OrbitPoint k mu) : 1 - k 1 ^ 2 ≠ 0 := by
  intro e; have := H.p_pos; simp [semiLatus, e] at this

/-- `kep2sv` in perifocal form, with its side conditions discharged -/
theorem kep2sv_orbit {k : Fin 6 → ℝ} {mu : ℝ} (H : OrbitPoint k mu) :
    ∃ h r v, kep2sv k mu = .ok ![r 0, r 1, r 2, v 0, v 1, v 2] ∧
      0 < h ∧ h ^ 2 = mu * semiLatus k ∧ h = Real.sqrt (mu * semiLatus k) ∧
      r = orbPos (semiLatus k / (1 + k 1 * Real.cos (k 5))) (k 2) (k 3) (k 4) (k 5) ∧
      v = orbVel (mu / h) (k 1) (k 2) (k 3) (k 4) (k 5) := by
  have hmu := H.mu_pos
  have hp := H.p_pos
  have hw := H.w_pos
  have e : k 0 * mu * (1 - k 1 ^ 2) = mu * semiLatus k := by simp only [semiLatus]; ring
  have hpos : 0 < mu * semiLatus k := by positivity
  have hs := Real.sqrt_pos.2 hpos
  have hsq := Real.sq_sqrt hpos.le
  refine ⟨Real.sqrt (mu * semiLatus k), _, _, ?_, hs, hsq, rfl, rfl, rfl⟩
  rw [kep2sv_eq k mu (by positivity) (by rw [e]; exact hs.ne')]
  simp only [e, hsq]
  rw [mul_div_mul_left _ _ hmu.ne']

/-- C48: the state produced has the given elements. -/
theorem C48_on_orbit (k : Fin 6 → ℝ) (mu : ℝ) (H : OrbitPoint k mu) :
    ∃ sv, kep2sv k mu = .ok sv ∧ OnOrbit k mu (svPos sv) (svVel sv) := by
  obtain ⟨h, r, v, hk, hh, hsq, hs, hr, hv⟩ := kep2sv_orbit H
  refine ⟨_, hk, ?_⟩
  rw [svPos_mk, svVel_mk]
  have hmu := H.mu_pos
  have hp := H.p_pos
  have hw := H.w_pos
  have ha := H.a_ne
  have hρ : 0 < semiLatus k / (1 + k 1 * Real.cos (k 5)) := by positivity
  have hrad : norm3 r = semiLatus k / (1 + k 1 * Real.cos (k 5)) := by
    rw [norm3_eq_sqrt, hr, orbPos_sq, Real.sqrt_sq hρ.le]
  have hm : mu / h = Real.sqrt (mu / semiLatus k) := by
    symm
    rw [show mu / semiLatus k = (mu / h) ^ 2 by rw [div_pow, hsq]; field_simp]
    exact Real.sqrt_sq (by positivity)
  have hm2 : (mu / h) ^ 2 = mu / semiLatus k := by rw [div_pow, hsq]; field_simp
  refine ⟨hrad, ?_, ?_, ?_⟩
  · rw [hrad, hv, orbVel_sq, hm2]
    have : semiLatus k = k 0 * (1 - k 1 ^ 2) := rfl
    have h1 : 1 / k 0 = (1 - k 1 ^ 2) / semiLatus k := by
      rw [this, ← div_div, div_right_comm, div_self H.e_ne]
    rw [h1]; field_simp; ring
  · rw [hrad, hr, hv, orbPos_dot_vel, ← hm]; ring
  · rw [hr, hv, orbPos_cross_vel, ← hs]
    have : semiLatus k / (1 + k 1 * Real.cos (k 5)) * (mu / h) * (1 + k 1 * Real.cos (k 5)) = h := by
      field_simp; rw [hsq]; ring
    rw [this]; rfl

/-- C48: the tests `if angle != 0.0` are irrelevant: the result is the product of the three rotations
whatever the angles are. -/
theorem C48_skipped_rotations (k : Fin 6 → ℝ) (mu : ℝ) (H : OrbitPoint k mu) :
    ∃ sv, kep2sv k mu = .ok sv ∧
      svPos sv = mulVec3 (rotmat3 (-k 3)) (mulVec3 (rotmat1 (-k 2)) (mulVec3 (rotmat3 (-k 4))
        (vsmul (semiLatus k / (1 + k 1 * Real.cos (k 5))) ![Real.cos (k 5), Real.sin (k 5), 0]))) ∧
      svVel sv = mulVec3 (rotmat3 (-k 3)) (mulVec3 (rotmat1 (-k 2)) (mulVec3 (rotmat3 (-k 4))
        (vsmul (mu / Real.sqrt (mu * semiLatus k))
          ![-Real.sin (k 5), k 1 + Real.cos (k 5), 0]))) := by
  obtain ⟨h, r, v, hk, hh, hsq, hs, hr, hv⟩ := kep2sv_orbit H
  refine ⟨_, hk, ?_, ?_⟩
  · rw [svPos_mk, hr]
    have e1 : ∀ c a b : ℝ, vsmul c ![a, b, 0] = ![c * a, c * b, 0] := by
      intro c a b; funext j; fin_cases j <;> simp [vsmul]
    rw [e1, rot_perifocal]; funext j; simp only [orbPos]; ring
  · rw [svVel_mk, hv, ← hs]
    have e1 : ∀ c a b : ℝ, vsmul c ![a, b, 0] = ![c * a, c * b, 0] := by
      intro c a b; funext j; fin_cases j <;> simp [vsmul]
    rw [e1, rot_perifocal]; funext j; simp only [orbVel]; ring

example : OrbitPoint ![2, 1 / 2, 1, 0, 7, 3] 1 := by
  have h := Real.neg_one_le_cos 3
  refine ⟨by norm_num, by simp [semiLatus]; norm_num, ?_⟩
  simp; linarith

/-- a hyperbola also qualifies -/
example : OrbitPoint ![-2, 2, 1, 0, 7, 0] 1 := by
  refine ⟨by norm_num, by simp [semiLatus]; norm_num, ?_⟩
  simp; norm_num

/-! ## C49 -/

theorem ecc_vector {k : Fin 6 → ℝ} {mu h : ℝ} {r v : Fin 3 → ℝ} (H : OrbitPoint k mu)
    (hh : 0 < h) (hsq : h ^ 2 = mu * semiLatus k)
    (hr : r = orbPos (semiLatus k / (1 + k 1 * Real.cos (k 5))) (k 2) (k 3) (k 4) (k 5))
    (hv : v = orbVel (mu / h) (k 1) (k 2) (k 3) (k 4) (k 5)) :
    cross3 r v = vsmul h (periW (k 2) (k 3)) ∧
    norm3 r = semiLatus k / (1 + k 1 * Real.cos (k 5)) ∧
    vsub (vsmul (1 / mu) (cross3 v (cross3 r v))) (vdivs r (norm3 r)) =
      vsmul (k 1) (periP (k 2) (k 3) (k 4)) := by
  have hmu := H.mu_pos
  have hp := H.p_pos
  have hw := H.w_pos
  have hρ : 0 < semiLatus k / (1 + k 1 * Real.cos (k 5)) := by positivity
  have hrad : norm3 r = semiLatus k / (1 + k 1 * Real.cos (k 5)) := by
    rw [norm3_eq_sqrt, hr, orbPos_sq, Real.sqrt_sq hρ.le]
  have hcr : cross3 r v = vsmul h (periW (k 2) (k 3)) := by
    rw [hr, hv, orbPos_cross_vel]
    congr 1
    field_simp; rw [hsq]; ring
  refine ⟨hcr, hrad, ?_⟩
  have hvW : cross3 v (periW (k 2) (k 3)) = fun j => (mu / h) *
      (Real.sin (k 5) * periQ (k 2) (k 3) (k 4) j +
        (k 1 + Real.cos (k 5)) * periP (k 2) (k 3) (k 4) j) := by
    have a := periPxW (k 2) (k 3) (k 4)
    have b := periQxW (k 2) (k 3) (k 4)
    rw [hv]
    have a0 := congrFun a 0
    have a1 := congrFun a 1
    have a2 := congrFun a 2
    have b0 := congrFun b 0
    have b1 := congrFun b 1
    have b2 := congrFun b 2
    simp [cross3, vsmul] at a0 a1 a2 b0 b1 b2
    funext j
    fin_cases j <;> simp [cross3, orbVel]
    · linear_combination (-(mu / h) * Real.sin (k 5)) * a0 + (mu / h) * (k 1 + Real.cos (k 5)) * b0
    · linear_combination (-(mu / h) * Real.sin (k 5)) * a1 + (mu / h) * (k 1 + Real.cos (k 5)) * b1
    · linear_combination (-(mu / h) * Real.sin (k 5)) * a2 + (mu / h) * (k 1 + Real.cos (k 5)) * b2
  rw [hcr, cross3_smul_right, hvW, hrad, hr]
  funext j
  simp only [vsub, vsmul, vdivs, orbPos]
  field_simp
  ring

theorem norm3_smul_pos {c : ℝ} (hc : 0 ≤ c) {v : Fin 3 → ℝ} (hv : dot3 v v = 1) :
    norm3 (vsmul c v) = c := by
  rw [norm3_smul, norm3_eq_sqrt, hv, Real.sqrt_one, abs_of_nonneg hc, mul_one]

/-- the semi-major axis and eccentricity recovered from a state of an orbit -/
theorem sma_ecc {k : Fin 6 → ℝ} {mu : ℝ} (H : OrbitPoint k mu) (he : 0 ≤ k 1) :
    ∃ sv, kep2sv k mu = .ok sv ∧ getSemiMajorAxis sv mu = .ok (k 0) ∧
      getEccentricity sv mu = .ok (vsmul (k 1) (periP (k 2) (k 3) (k 4))) ∧
      norm3 (vsmul (k 1) (periP (k 2) (k 3) (k 4))) = k 1 := by
  obtain ⟨h, r, v, hk, hh, hsq, hs, hr, hv⟩ := kep2sv_orbit H
  obtain ⟨hcr, hrad, hecc⟩ := ecc_vector H hh hsq hr hv
  have hmu := H.mu_pos
  refine ⟨_, hk, ?_, ?_, norm3_smul_pos he (periP_sq _ _ _)⟩
  · simp only [getSemiMajorAxis, getEccentricity, svPos_mk, svVel_mk, Nat.cast_one]
    rw [ndiv_real hmu.ne']
    simp only [bind, Except.bind, pure, Except.pure, hecc,
      norm3_smul_pos he (periP_sq _ _ _)]
    rw [hcr, norm3_smul_pos hh.le (periW_sq _ _), ndiv_real (mul_ne_zero hmu.ne' H.e_ne), hsq,
      semiLatus]
    have := H.e_ne
    congr 1
    field_simp
  · simp only [getEccentricity, svPos_mk, svVel_mk, Nat.cast_one]
    rw [ndiv_real hmu.ne']
    simp only [bind, Except.bind, pure, Except.pure, hecc]

theorem inclination_orbit {k : Fin 6 → ℝ} {mu : ℝ} {sv : Fin 6 → ℝ} (H : OrbitPoint k mu)
    (hsv : kep2sv k mu = .ok sv) (hi0 : 0 ≤ k 2) (hi1 : k 2 ≤ Real.pi) :
    getInclination sv = .ok (k 2) := by
  obtain ⟨h, r, v, hk, hh, hsq, hs, hr, hv⟩ := kep2sv_orbit H
  obtain ⟨hcr, hrad, hev⟩ := ecc_vector H hh hsq hr hv
  rw [hsv] at hk
  injection hk with hk
  rw [hk]
  simp only [getInclination, svPos_mk, svVel_mk, hcr]
  rw [norm3_smul_pos hh.le (periW_sq _ _), ndiv_real hh.ne']
  simp only [bind, Except.bind, pure, Except.pure, vsmul, periW]
  congr 1
  rw [mul_comm h, mul_div_assoc, div_self hh.ne', mul_one]
  simp [Matrix.cons_val]
  exact Real.arccos_cos hi0 hi1

theorem trueanom_orbit {k : Fin 6 → ℝ} {mu : ℝ} {sv : Fin 6 → ℝ} (H : OrbitPoint k mu)
    (hsv : kep2sv k mu = .ok sv) (he0 : 0 < k 1) (ht1 : -Real.pi < k 5) (ht2 : k 5 ≤ Real.pi) :
    getTrueanom sv mu = .ok (k 5) := by
  obtain ⟨h, r, v, hk, hh, hsq, hs, hr, hv⟩ := kep2sv_orbit H
  obtain ⟨hcr, hrad, hev⟩ := ecc_vector H hh hsq hr hv
  rw [hsv] at hk
  injection hk with hk
  have hmu := H.mu_pos
  have hp := H.p_pos
  have hw := H.w_pos
  rw [hk]
  have hrpos : 0 < norm3 r := by rw [hrad]; positivity
  simp only [getTrueanom, svPos_mk, svVel_mk, hcr]
  rw [ndiv_real hrpos.ne', ndiv_real hrpos.ne', norm3_smul_pos hh.le (periW_sq _ _)]
  simp only [bind, Except.bind, pure, Except.pure, arctan2_real]
  have e1 : dot3 v r / norm3 r = mu / h * k 1 * Real.sin (k 5) := by
    rw [dot3_comm, hrad, hr, hv, orbPos_dot_vel]; field_simp
  have e2 : h ^ 2 / norm3 r = mu * (1 + k 1 * Real.cos (k 5)) := by
    rw [hsq, hrad]; field_simp
  rw [e1, e2, show mu * (1 + k 1 * Real.cos (k 5)) - mu = mu * k 1 * Real.cos (k 5) by ring,
    show h * (mu / h * k 1 * Real.sin (k 5)) = mu * k 1 * Real.sin (k 5) by field_simp]
  rw [arg_polar (by positivity) ht1 ht2]

/-- C49 for every conic: elements to Cartesian and back is the identity, outside the code's own guard
against singular orbits (`|N| |e| ≥ 1e-12`, that is `sqrt(μ p) sin i * e ≥ 1e-12`). -/
theorem C49_any_conic (k : Fin 6 → ℝ) (mu : ℝ) (H : OrbitPoint k mu) (he0 : 0 < k 1)
    (hi0 : 0 < k 2) (hi1 : k 2 < Real.pi) (hO1 : -Real.pi < k 3)
    (hO2 : k 3 ≤ Real.pi) (ho1 : 0 ≤ k 4) (ho2 : k 4 < 2 * Real.pi) (ht1 : -Real.pi < k 5)
    (ht2 : k 5 ≤ Real.pi)
    (hguard : 1 / 10 ^ 12 ≤ Real.sqrt (mu * (k 0 * (1 - k 1 ^ 2))) * Real.sin (k 2) * k 1) :
    ∃ sv, kep2sv k mu = .ok sv ∧ sv2kep sv mu = .ok k := by
  have hmu := H.mu_pos
  obtain ⟨sv, hsv, hsma, hecc, hen⟩ := sma_ecc H he0.le
  obtain ⟨h, r, v, hk, hh, hsq, hs, hr, hv⟩ := kep2sv_orbit H
  obtain ⟨hcr, hrad, hev⟩ := ecc_vector H hh hsq hr hv
  rw [hsv] at hk
  injection hk with hk
  refine ⟨sv, hsv, ?_⟩
  have hp := H.p_pos
  have hw := H.w_pos
  have hsin : 0 < Real.sin (k 2) := Real.sin_pos_of_pos_of_lt_pi hi0 hi1
  have hpi := Real.pi_pos
  have hinc := inclination_orbit H hsv hi0.le hi1.le
  -- node
  have hnd : cross3 ![((0 : ℕ) : ℝ), ((0 : ℕ) : ℝ), ((1 : ℕ) : ℝ)] (vsmul h (periW (k 2) (k 3))) =
      vsmul (h * Real.sin (k 2)) ![Real.cos (k 3), Real.sin (k 3), 0] := by
    funext j; fin_cases j <;> simp [cross3, vsmul, periW] <;> ring
  have hN1 : dot3 ![Real.cos (k 3), Real.sin (k 3), 0] ![Real.cos (k 3), Real.sin (k 3), 0] = 1 := by
    have := Real.sin_sq_add_cos_sq (k 3)
    simp [dot3]; linarith
  have hraan : getRaan sv = k 3 := by
    rw [hk]
    simp only [getRaan, svPos_mk, svVel_mk, hcr, hnd, arctan2_real]
    simp only [vsmul, Matrix.cons_val]
    exact arg_polar (by positivity) hO1 hO2
  -- argument of periapsis
  have hNP : dot3 ![Real.cos (k 3), Real.sin (k 3), 0] (periP (k 2) (k 3) (k 4)) =
      Real.cos (k 4) := by
    have := Real.sin_sq_add_cos_sq (k 3)
    simp [dot3, periP]; linear_combination Real.cos (k 4) * this
  have hom : getOmega sv mu = .ok (k 4) := by
    rw [hk]
    simp only [getOmega, svPos_mk, svVel_mk, Nat.cast_one]
    rw [ndiv_real hmu.ne']
    simp only [bind, Except.bind, pure, Except.pure]
    rw [hev, hcr]
    have hnd' := hnd
    rw [Nat.cast_one] at hnd'
    rw [hnd', norm3_smul_pos (by positivity) hN1, norm3_smul_pos he0.le (periP_sq _ _ _)]
    have hg : 1 / 10 ^ 12 ≤ |h * Real.sin (k 2) * k 1| := by
      rw [abs_of_nonneg (by positivity), hs]; exact hguard
    have hgt : PyOrd.le (rat 1 (10 ^ 12) : ℝ) (PyOrd.abs (h * Real.sin (k 2) * k 1)) = true := by
      simp only [le_real, abs_real, decide_eq_true_eq, rat_real]
      exact_mod_cast hg
    rw [if_pos hgt, ndiv_real (by positivity), dot3_smul_left, dot3_smul_right, hNP]
    have hq : h * Real.sin (k 2) * (k 1 * Real.cos (k 4)) / (h * Real.sin (k 2) * k 1) =
        Real.cos (k 4) := by field_simp
    simp only [hq, arccos_real, lt_real, pi_real]
    have hz : vsmul (k 1) (periP (k 2) (k 3) (k 4)) 2 = k 1 * Real.sin (k 2) * Real.sin (k 4) := by
      simp [vsmul, periP]; ring
    rw [hz]
    rcases le_or_gt (k 4) Real.pi with hle | hgt
    · have hsw : 0 ≤ Real.sin (k 4) := Real.sin_nonneg_of_nonneg_of_le_pi ho1 hle
      have : ¬ (k 1 * Real.sin (k 2) * Real.sin (k 4) < ((0 : ℕ) : ℝ)) := by
        push_cast; push Not; positivity
      rw [if_neg (by simpa using this), Real.arccos_cos ho1 hle]
    · have hsw : Real.sin (k 4) < 0 := by
        have := Real.sin_pos_of_pos_of_lt_pi (x := k 4 - Real.pi) (by linarith) (by linarith)
        rw [Real.sin_sub_pi] at this; linarith
      have : k 1 * Real.sin (k 2) * Real.sin (k 4) < ((0 : ℕ) : ℝ) := by
        push_cast
        exact mul_neg_of_pos_of_neg (by positivity) hsw
      rw [if_pos (by simpa using this)]
      have hc : Real.cos (k 4) = Real.cos (2 * Real.pi - k 4) := by rw [Real.cos_two_pi_sub]
      rw [hc, Real.arccos_cos (by linarith) (by linarith)]
      push_cast
      congr 1; ring
  have hta := trueanom_orbit H hsv he0 ht1 ht2
  simp only [sv2kep, hsma, hecc, hinc, hraan, hom, hta, bind, Except.bind, pure, Except.pure, hen]
  congr 1
  funext j; fin_cases j <;> simp

/-- C49: elements to Cartesian and back is the identity, outside the code's own guard against
singular orbits (`|N| |e| ≥ 1e-12`, that is `sqrt(μ p) sin i * e ≥ 1e-12`). -/
theorem C49_roundtrip (k : Fin 6 → ℝ) (mu : ℝ) (hmu : 0 < mu) (ha : 0 < k 0) (he0 : 0 < k 1)
    (he1 : k 1 < 1) (hi0 : 0 < k 2) (hi1 : k 2 < Real.pi) (hO1 : -Real.pi < k 3)
    (hO2 : k 3 ≤ Real.pi) (ho1 : 0 ≤ k 4) (ho2 : k 4 < 2 * Real.pi) (ht1 : -Real.pi < k 5)
    (ht2 : k 5 ≤ Real.pi)
    (hguard : 1 / 10 ^ 12 ≤ Real.sqrt (mu * (k 0 * (1 - k 1 ^ 2))) * Real.sin (k 2) * k 1) :
    ∃ sv, kep2sv k mu = .ok sv ∧ sv2kep sv mu = .ok k := by
  have hcos := Real.neg_one_le_cos (k 5)
  exact C49_any_conic k mu ⟨hmu, mul_pos ha (by nlinarith), by nlinarith⟩ he0 hi0 hi1 hO1 hO2 ho1 ho2
    ht1 ht2 hguard

/-! ## C50 -/

theorem peri_turn (i O w : ℝ) (m n : ℤ) :
    periP i (O + m * (2 * Real.pi)) (w + n * (2 * Real.pi)) = periP i O w ∧
    periQ i (O + m * (2 * Real.pi)) (w + n * (2 * Real.pi)) = periQ i O w := by
  simp only [periP, periQ, Real.cos_add_int_mul_two_pi, Real.sin_add_int_mul_two_pi]
  exact ⟨trivial, trivial⟩

/-- full turns in any of the angles do not change the Cartesian state -/
theorem kep2sv_turns (k : Fin 6 → ℝ) (mu : ℝ) (H : OrbitPoint k mu) (m n l : ℤ) :
    kep2sv ![k 0, k 1, k 2, k 3 + m * (2 * Real.pi), k 4 + n * (2 * Real.pi),
      k 5 + l * (2 * Real.pi)] mu = kep2sv k mu := by
  have e : k 0 * mu * (1 - k 1 ^ 2) = mu * semiLatus k := by simp only [semiLatus]; ring
  have hmu := H.mu_pos
  have hp := H.p_pos
  have hw := H.w_pos
  have h1 : mu * (1 + k 1 * Real.cos (k 5)) ≠ 0 := by positivity
  have h2 : Real.sqrt (k 0 * mu * (1 - k 1 ^ 2)) ≠ 0 := by rw [e]; positivity
  rw [kep2sv_eq k mu h1 h2, kep2sv_eq _ mu (by simpa [Real.cos_add_int_mul_two_pi] using h1)
    (by simpa using h2)]
  simp only [Matrix.cons_val, Real.cos_add_int_mul_two_pi, Real.sin_add_int_mul_two_pi, orbPos,
    orbVel, (peri_turn _ _ _ m n).1, (peri_turn _ _ _ m n).2]

/-- C50: through MEE or directly, the same Cartesian state, for every inclined eccentric ellipse and
arbitrary angles. -/
theorem C50_agrees (k : Fin 6 → ℝ) (mu : ℝ) (hmu : 0 < mu) (ha : 0 < k 0) (he0 : 0 < k 1)
    (he1 : k 1 < 1) (hi0 : 0 < k 2) (hi1 : k 2 < Real.pi) :
    meeWithA2sv (kep2meeWithA k) mu = kep2sv k mu ∧ ∃ sv, kep2sv k mu = .ok sv := by
  have hcos := Real.neg_one_le_cos (k 5)
  have H : OrbitPoint k mu := ⟨hmu, mul_pos ha (by nlinarith), by nlinarith⟩
  obtain ⟨m, n, hk⟩ := C45_mod_turns k he0 he1 hi0 hi1
  refine ⟨?_, ?_⟩
  · have hb := C47_direct_back k
    simp only [meeWithA2mee] at hb
    simp only [meeWithA2sv, hb, hk, bind, Except.bind]
    exact kep2sv_turns k mu H m n (-m - n)
  · obtain ⟨sv, h, -⟩ := C48_on_orbit k mu H
    exact ⟨sv, h⟩

/-- C50, circular inclined orbits: the argument of periapsis is undefined and the code sets it to
zero, but the Cartesian state is still right. -/
theorem C50_circular (k : Fin 6 → ℝ) (mu : ℝ) (hmu : 0 < mu) (ha : 0 < k 0) (he : k 1 = 0)
    (hi0 : 0 < k 2) (hi1 : k 2 < Real.pi) :
    meeWithA2sv (kep2meeWithA k) mu = kep2sv k mu := by
  have hT : 0 < Real.tan (k 2 / 2) :=
    Real.tan_pos_of_pos_of_lt_pi_div_two (by linarith) (by linarith)
  obtain ⟨m, hm⟩ := arg_polar_mod hT (k 3)
  have hb := C47_direct_back k
  simp only [meeWithA2mee] at hb
  have hcs := Real.sin_sq_add_cos_sq (k 3)
  have hkep : mee2kep (kep2mee k) = .ok ![k 0, 0, k 2, k 3 + m * (2 * Real.pi), 0,
      k 4 + k 5 + (-m : ℤ) * (2 * Real.pi)] := by
    rw [mee2kep_real _ (by rw [kep2mee_real]; simp [he])]
    rw [kep2mee_real]
    simp only [Matrix.cons_val, he, zero_mul]
    generalize hTd : Real.tan (k 2 / 2) = T at *
    have e2 : Real.sqrt ((T * Real.cos (k 3)) ^ 2 + (T * Real.sin (k 3)) ^ 2) = T := by
      rw [show (T * Real.cos (k 3)) ^ 2 + (T * Real.sin (k 3)) ^ 2 = T ^ 2 by
        linear_combination (T ^ 2) * hcs]
      exact Real.sqrt_sq hT.le
    have e3 : 1 - (T * Real.cos (k 3)) ^ 2 - (T * Real.sin (k 3)) ^ 2 = 1 - T ^ 2 := by
      linear_combination -(T ^ 2) * hcs
    have hat : Real.arctan T = k 2 / 2 := by
      rw [← hTd]; exact Real.arctan_tan (by linarith) (by linarith)
    rw [e2, e3, arg_double hT.le, hat, hm]
    congr 1
    funext j; fin_cases j <;> simp [arg_zero_zero]
    · ring
    · ring
  simp only [meeWithA2sv, hb, hkep, bind, Except.bind]
  have hsq : Real.sqrt (k 0 * mu) ≠ 0 := by positivity
  rw [kep2sv_eq k mu (by simp [he, hmu.ne']) (by simpa [he] using hsq),
    kep2sv_eq _ mu (by simp [hmu.ne']) (by simpa using hsq)]
  simp only [Matrix.cons_val, he]
  have e0 : ∀ (i O w t : ℝ) (j : Fin 3),
      Real.cos (w + t + (-m : ℤ) * (2 * Real.pi)) * periP i (O + m * (2 * Real.pi)) 0 j +
      Real.sin (w + t + (-m : ℤ) * (2 * Real.pi)) * periQ i (O + m * (2 * Real.pi)) 0 j =
      Real.cos t * periP i O w j + Real.sin t * periQ i O w j := by
    intro i O w t j
    rw [Real.cos_add_int_mul_two_pi, Real.sin_add_int_mul_two_pi, Real.cos_add, Real.sin_add]
    simp only [periP, periQ, Real.cos_add_int_mul_two_pi, Real.sin_add_int_mul_two_pi]
    fin_cases j <;> simp <;> ring
  have e1 : ∀ (i O w t : ℝ) (j : Fin 3),
      -Real.sin (w + t + (-m : ℤ) * (2 * Real.pi)) * periP i (O + m * (2 * Real.pi)) 0 j +
      (0 + Real.cos (w + t + (-m : ℤ) * (2 * Real.pi))) * periQ i (O + m * (2 * Real.pi)) 0 j =
      -Real.sin t * periP i O w j + (0 + Real.cos t) * periQ i O w j := by
    intro i O w t j
    rw [Real.cos_add_int_mul_two_pi, Real.sin_add_int_mul_two_pi, Real.cos_add, Real.sin_add]
    simp only [periP, periQ, Real.cos_add_int_mul_two_pi, Real.sin_add_int_mul_two_pi]
    fin_cases j <;> simp <;> ring
  simp only [zero_mul, orbPos, orbVel, e0, e1]

/-- C50 fails for an equatorial eccentric orbit: with `ω = π/2`, periapsis comes out on the x-axis. -/
theorem C50_violated : ∃ s1 s2 : Fin 6 → ℝ,
    meeWithA2sv (kep2meeWithA ![1, 1 / 2, 0, 0, Real.pi / 2, 0]) 1 = .ok s1 ∧
    kep2sv ![1, 1 / 2, 0, 0, Real.pi / 2, 0] 1 = .ok s2 ∧
    svPos s2 = ![0, 1 / 2, 0] ∧ svPos s1 ≠ svPos s2 := by
  have hs : Real.sqrt (1 * 1 * (1 - (1 / 2 : ℝ) ^ 2)) ≠ 0 := by
    apply (Real.sqrt_pos.2 _).ne'; norm_num
  have hsq : Real.sqrt (1 * 1 * (1 - (1 / 2 : ℝ) ^ 2)) ^ 2 = 3 / 4 := by
    rw [Real.sq_sqrt (by norm_num)]; norm_num
  have hk2 := kep2sv_eq ![1, 1 / 2, 0, 0, Real.pi / 2, 0] 1 (by simp; norm_num)
    (by simpa using hs)
  have hb := C47_direct_back ![1, 1 / 2, 0, 0, Real.pi / 2, 0]
  simp only [meeWithA2mee] at hb
  have h1 : Complex.arg ⟨1, 0⟩ = 0 := by
    have : (⟨1, 0⟩ : ℂ) = 1 := rfl
    rw [this, Complex.arg_one]
  have hsq2 : Real.sqrt ((2 : ℝ)⁻¹ ^ 2) = 2⁻¹ := Real.sqrt_sq (by norm_num)
  have hkep : mee2kep (kep2mee ![1, 1 / 2, 0, 0, Real.pi / 2, 0]) =
      .ok ![1, 1 / 2, 0, 0, 0, Real.pi / 2] := by
    rw [kep2mee_real]
    have em : (![(![1, 1 / 2, 0, 0, Real.pi / 2, 0] : Fin 6 → ℝ) 0 *
          (1 - (![1, 1 / 2, 0, 0, Real.pi / 2, 0] : Fin 6 → ℝ) 1 ^ 2),
        (![1, 1 / 2, 0, 0, Real.pi / 2, 0] : Fin 6 → ℝ) 1 *
          Real.cos ((![1, 1 / 2, 0, 0, Real.pi / 2, 0] : Fin 6 → ℝ) 3 + (![1, 1 / 2, 0, 0, Real.pi / 2, 0] : Fin 6 → ℝ) 4),
        (![1, 1 / 2, 0, 0, Real.pi / 2, 0] : Fin 6 → ℝ) 1 *
          Real.sin ((![1, 1 / 2, 0, 0, Real.pi / 2, 0] : Fin 6 → ℝ) 3 + (![1, 1 / 2, 0, 0, Real.pi / 2, 0] : Fin 6 → ℝ) 4),
        Real.tan ((![1, 1 / 2, 0, 0, Real.pi / 2, 0] : Fin 6 → ℝ) 2 / 2) * Real.cos ((![1, 1 / 2, 0, 0, Real.pi / 2, 0] : Fin 6 → ℝ) 3),
        Real.tan ((![1, 1 / 2, 0, 0, Real.pi / 2, 0] : Fin 6 → ℝ) 2 / 2) * Real.sin ((![1, 1 / 2, 0, 0, Real.pi / 2, 0] : Fin 6 → ℝ) 3),
        (![1, 1 / 2, 0, 0, Real.pi / 2, 0] : Fin 6 → ℝ) 3 + (![1, 1 / 2, 0, 0, Real.pi / 2, 0] : Fin 6 → ℝ) 4 + (![1, 1 / 2, 0, 0, Real.pi / 2, 0] : Fin 6 → ℝ) 5] : Fin 6 → ℝ) =
        ![3 / 4, 0, 1 / 2, 0, 0, Real.pi / 2] := by
      funext j; fin_cases j <;> simp
      norm_num
    rw [em, mee2kep_real _ (by simp; norm_num)]
    congr 1
    funext j; fin_cases j <;> simp [arg_zero_zero, h1]
    norm_num
  have hk1 := kep2sv_eq ![1, 1 / 2, 0, 0, 0, Real.pi / 2] 1 (by simp) (by simpa using hs)
  refine ⟨_, _, by simp only [meeWithA2sv, hb, hkep, bind, Except.bind]; exact hk1, hk2, ?_, ?_⟩
  · rw [svPos_mk]
    simp only [Matrix.cons_val, hsq]
    funext j; fin_cases j <;> simp [orbPos, periP, periQ]
    norm_num
  · rw [svPos_mk, svPos_mk]
    intro e
    have := congrFun e 1
    simp only [Matrix.cons_val, hsq] at this
    simp [orbPos, periP, periQ] at this
    norm_num at this

/-- the hypotheses of C49 are met by an ellipse in a vertical plane -/
example : (1 : ℝ) / 10 ^ 12 ≤
    Real.sqrt (1 * (2 * (1 - (1 / 2) ^ 2))) * Real.sin (Real.pi / 2) * (1 / 2) := by
  have : (1 : ℝ) ≤ Real.sqrt (1 * (2 * (1 - (1 / 2) ^ 2))) := by
    rw [Real.one_le_sqrt]; norm_num
  rw [Real.sin_pi_div_two]; norm_num at this ⊢; linarith

/-! ## C51 -/

/-- orbital energy per unit mass -/
noncomputable def energy (s : Fin 6 → ℝ) (mu : ℝ) : ℝ :=
  dot3 (svVel s) (svVel s) / 2 - mu / norm3 (svPos s)

/-- the eccentricity vector computed by the code has `|e|² = 1 + 2 E h² / μ²` -/
theorem ecc_norm_sq (s : Fin 6 → ℝ) (mu : ℝ) (hmu : 0 < mu) (hr : svPos s ≠ 0) :
    ∃ ev, getEccentricity s mu = .ok ev ∧
      norm3 ev ^ 2 = 1 + 2 * energy s mu * norm3 (cross3 (svPos s) (svVel s)) ^ 2 / mu ^ 2 := by
  simp only [getEccentricity, Nat.cast_one]
  rw [ndiv_real hmu.ne']
  simp only [bind, Except.bind, pure, Except.pure]
  refine ⟨_, rfl, ?_⟩
  generalize hx : svPos s = x at *
  generalize hy : svVel s = y at *
  have hn := norm3_pos hr
  have hn2 := norm3_sq x
  have e1 : dot3 (cross3 y (cross3 x y)) (cross3 y (cross3 x y)) =
      dot3 y y * dot3 (cross3 x y) (cross3 x y) := by
    rw [dot3_cross3, dot3_cross3_right]; ring
  have e2 : dot3 (cross3 y (cross3 x y)) x = dot3 (cross3 x y) (cross3 x y) := by
    rw [dot3_comm, ← dot3_cross3_cyc]
  have e3 : ∀ (a b c : ℝ) (u w : Fin 3 → ℝ), b ≠ 0 →
      dot3 (vsub (vsmul a u) (vdivs w b)) (vsub (vsmul a u) (vdivs w b)) =
      a ^ 2 * dot3 u u - 2 * a / b * dot3 u w + dot3 w w / b ^ 2 := by
    intro a b c u w hb; simp only [dot3, vsub, vsmul, vdivs]; field_simp; ring
  rw [norm3_sq, e3 _ _ 0 _ _ hn.ne', e1, e2, norm3_sq (cross3 x y), ← hn2, energy, hx, hy]
  field_simp
  ring

/-- the semi-major axis by the vis-viva equation -/
theorem sma_vis_viva (s : Fin 6 → ℝ) (mu : ℝ) (hmu : 0 < mu)
    (hh : cross3 (svPos s) (svVel s) ≠ 0) (hE : energy s mu ≠ 0) :
    getSemiMajorAxis s mu = .ok (-mu / (2 * energy s mu)) := by
  have hr : svPos s ≠ 0 := by
    intro e; apply hh; rw [e, cross3_zero_left]
  obtain ⟨ev, h1, h2⟩ := ecc_norm_sq s mu hmu hr
  have hn := norm3_pos hh
  simp only [getSemiMajorAxis, h1, bind, Except.bind, Nat.cast_one]
  have e : mu * (1 - norm3 ev ^ 2) =
      -(2 * energy s mu * norm3 (cross3 (svPos s) (svVel s)) ^ 2 / mu) := by
    rw [h2]; field_simp; ring
  rw [e, ndiv_real (by
    apply neg_ne_zero.2; apply div_ne_zero _ hmu.ne'
    exact mul_ne_zero (mul_ne_zero two_ne_zero hE) (pow_ne_zero _ hn.ne'))]
  congr 1
  field_simp

/-- C51: the period of a state with non-zero angular momentum. -/
theorem C51_period (s : Fin 6 → ℝ) (mu : ℝ) (hmu : 0 < mu)
    (hh : cross3 (svPos s) (svVel s) ≠ 0) (hE : energy s mu ≠ 0) :
    ∃ a, getSemiMajorAxis s mu = .ok a ∧ energy s mu = -mu / (2 * a) ∧ a ≠ 0 ∧
      (0 < a → getPeriod s mu = .ok (2 * Real.pi * Real.sqrt (a ^ 3 / mu))) ∧
      (getPeriod s mu = .ok (-1) ↔ a < 0) := by
  have h := sma_vis_viva s mu hmu hh hE
  have ha : -mu / (2 * energy s mu) ≠ 0 :=
    div_ne_zero (neg_ne_zero.2 hmu.ne') (mul_ne_zero two_ne_zero hE)
  refine ⟨_, h, by field_simp, ha, ?_, ?_⟩
  · intro hp
    simp only [getPeriod, h, bind, Except.bind, pure, Except.pure, lt_real, Nat.cast_zero]
    rw [if_neg (by simpa using hp.le), ndiv_real hmu.ne']
    simp [sqrt_real, pi_real]
  · generalize -mu / (2 * energy s mu) = a at *
    simp only [getPeriod, h, bind, Except.bind, pure, Except.pure, lt_real, Nat.cast_zero]
    rcases lt_or_gt_of_ne ha with hl | hg
    · rw [if_pos (by simpa using hl)]; simp [hl]
    · rw [if_neg (by simpa using hg.le), ndiv_real hmu.ne']
      constructor
      · intro e
        injection e with e
        simp only [sqrt_real, pi_real] at e
        have : (0 : ℝ) ≤ ((2 : ℕ) : ℝ) * Real.pi * Real.sqrt (a ^ 3 / mu) := by positivity
        rw [e] at this; norm_num at this
      · intro e; linarith

/-- C51: on the orbit produced by `kep2sv` the period is `2 π sqrt(a³/μ)` for an ellipse and `-1`
for a hyperbola. -/
theorem C51_of_elements (k : Fin 6 → ℝ) (mu : ℝ) (H : OrbitPoint k mu) (he : 0 ≤ k 1) :
    ∃ sv, kep2sv k mu = .ok sv ∧
      (0 < k 0 → getPeriod sv mu = .ok (2 * Real.pi * Real.sqrt (k 0 ^ 3 / mu))) ∧
      (k 0 < 0 → getPeriod sv mu = .ok (-1)) := by
  obtain ⟨sv, h1, h2, -, -⟩ := sma_ecc H he
  refine ⟨sv, h1, ?_, ?_⟩
  · intro hp
    simp only [getPeriod, h2, bind, Except.bind, pure, Except.pure, lt_real, Nat.cast_zero]
    rw [if_neg (by simpa using hp.le), ndiv_real H.mu_pos.ne']
    simp [sqrt_real, pi_real]
  · intro hp
    simp only [getPeriod, h2, bind, Except.bind, pure, Except.pure, lt_real, Nat.cast_zero]
    rw [if_pos (by simpa using hp)]
    simp

/-- C51: outside the hypotheses (parabolic or rectilinear motion) the call raises. -/
theorem C51_degenerate_raises (s : Fin 6 → ℝ) (mu : ℝ) (hmu : 0 < mu) (hr : svPos s ≠ 0)
    (hd : energy s mu = 0 ∨ cross3 (svPos s) (svVel s) = 0) :
    getPeriod s mu = .error .zeroDivision ∧ getSemiMajorAxis s mu = .error .zeroDivision := by
  obtain ⟨ev, h1, h2⟩ := ecc_norm_sq s mu hmu hr
  have e1 : norm3 ev ^ 2 = 1 := by
    rcases hd with h | h
    · rw [h2, h]; simp
    · rw [h2, h, show norm3 (0 : Fin 3 → ℝ) = 0 from norm3_eq_zero.2 rfl]; simp
  have : getSemiMajorAxis s mu = .error .zeroDivision := by
    simp only [getSemiMajorAxis, h1, bind, Except.bind, Nat.cast_one, e1, sub_self, mul_zero]
    exact ndiv_zero_real _
  exact ⟨by simp only [getPeriod, this, bind, Except.bind], this⟩

example : cross3 (svPos ![1, 0, 0, 0, 1, (0 : ℝ)]) (svVel ![1, 0, 0, 0, 1, 0]) ≠ 0 ∧
    energy ![1, 0, 0, 0, 1, 0] 1 ≠ 0 := by
  refine ⟨?_, ?_⟩
  · intro e; have := congrFun e 2; simp [cross3, svPos, svVel] at this
  · simp [energy, svPos, svVel, dot3, norm3]; norm_num

/-! ## C54 -/

theorem linspace_length {α : Type} [Add α] [Sub α] [Mul α] [Div α] [NatCast α] (a b : α) (n : ℕ) :
    (linspace a b n).length = n := by
  rcases n with _ | _ | n <;> simp [linspace]

/-- C54: `steps` states, all of the same energy and angular momentum, the last equal to the first. -/
theorem C54_closes (k : Fin 6 → ℝ) (mu : ℝ) (steps : ℕ) (hmu : 0 < mu) (ha : 0 < k 0)
    (he0 : 0 ≤ k 1) (he1 : k 1 < 1) :
    ∃ L, getOrbitCoordinates k mu steps = .ok L ∧ L.length = steps ∧
      (∀ s ∈ L, energy s mu = -mu / (2 * k 0) ∧
        cross3 (svPos s) (svVel s) = vsmul (Real.sqrt (mu * semiLatus k))
          ![Real.sin (k 2) * Real.sin (k 3), -(Real.sin (k 2) * Real.cos (k 3)), Real.cos (k 2)]) ∧
      (2 ≤ steps → L[0]? = L[steps - 1]?) := by
  let f : ℝ → Fin 6 → ℝ := fun ta =>
    match kep2sv ![k 0, k 1, k 2, k 3, k 4, ta] mu with
    | .ok s => s
    | .error _ => 0
  have H : ∀ ta, OrbitPoint ![k 0, k 1, k 2, k 3, k 4, ta] mu := fun ta => by
    have hcos := Real.neg_one_le_cos ta
    exact ⟨hmu, mul_pos ha (by show 0 < 1 - k 1 ^ 2; nlinarith),
      by show 0 < 1 + k 1 * Real.cos ta; nlinarith⟩
  have hf : ∀ ta, kep2sv ![k 0, k 1, k 2, k 3, k 4, ta] mu = .ok (f ta) := fun ta => by
    obtain ⟨sv, h, -⟩ := C48_on_orbit _ mu (H ta)
    simp only [f, h]
  have hm : ∀ l : List ℝ, (l.mapM fun ta => kep2sv ![k 0, k 1, k 2, k 3, k 4, ta] mu) =
      .ok (l.map f) := by
    intro l
    induction l with
    | nil => rfl
    | cons x l ih => rw [List.mapM_cons, ih, hf]; rfl
  refine ⟨(linspace ((0 : ℕ) : ℝ) (((2 : ℕ) : ℝ) * Real.pi) steps).map f, hm _, ?_, ?_, ?_⟩
  · rw [List.length_map, linspace_length]
  · intro s hs
    obtain ⟨ta, -, rfl⟩ := List.mem_map.1 hs
    obtain ⟨sv, h, ho⟩ := C48_on_orbit _ mu (H ta)
    rw [hf ta] at h
    injection h with h
    rw [h]
    refine ⟨?_, ?_⟩
    · rw [energy, ho.speed]; simp; field_simp; ring
    · rw [ho.angular]; simp [semiLatus]
  · intro h2
    obtain ⟨n, rfl⟩ : ∃ n, steps = n + 2 := ⟨steps - 2, by omega⟩
    have hper : f 0 = f (2 * Real.pi) := by
      have := kep2sv_turns ![k 0, k 1, k 2, k 3, k 4, 0] mu (H 0) 0 0 1
      simp only [Matrix.cons_val, Int.cast_zero, zero_mul, add_zero, Int.cast_one, one_mul,
        zero_add] at this
      rw [hf, hf] at this
      injection this with this
      exact this.symm
    simp [linspace, hper]

/-- the points of `np.linspace` are equally spaced -/
theorem linspace_get (a b : ℝ) {n j : ℕ} (hn : 2 ≤ n) (hj : j < n) :
    (linspace a b n)[j]? = some (a + j * ((b - a) / (n - 1))) := by
  obtain ⟨n, rfl⟩ : ∃ m, n = m + 2 := ⟨n - 2, by omega⟩
  have hne : ((n : ℝ) + 1) ≠ 0 := by positivity
  have hc : (((n + 2 : ℕ) : ℝ) - 1) = (n : ℝ) + 1 := by push_cast; ring
  rw [hc]
  simp only [linspace]
  rcases Nat.lt_or_ge j (n + 1) with h | h
  · rw [List.getElem?_append_left (by simpa using h), List.getElem?_map, List.getElem?_range h]
    simp only [Option.map_some, Nat.cast_add, Nat.cast_one]
    rw [add_comm]
  · obtain rfl : j = n + 1 := by omega
    rw [List.getElem?_append_right (by simp)]
    simp only [List.length_map, List.length_range, Nat.sub_self, List.getElem?_cons_zero, Nat.cast_add,
      Nat.cast_one]
    congr 1
    field_simp
    ring

/-- C54: the states are those at equally spaced true anomalies: state `j` is the state at anomaly
`2 pi j/(steps - 1)`. -/
theorem C54_points (k : Fin 6 → ℝ) (mu : ℝ) (steps : ℕ) (hmu : 0 < mu) (ha : 0 < k 0)
    (he0 : 0 ≤ k 1) (he1 : k 1 < 1) (h2 : 2 ≤ steps) :
    ∃ L, getOrbitCoordinates k mu steps = .ok L ∧ L.length = steps ∧ ∀ j < steps, ∃ s, L[j]? = some s ∧
      kep2sv ![k 0, k 1, k 2, k 3, k 4, 2 * Real.pi * j / (steps - 1)] mu = .ok s := by
  let f : ℝ → Fin 6 → ℝ := fun ta =>
    match kep2sv ![k 0, k 1, k 2, k 3, k 4, ta] mu with
    | .ok s => s
    | .error _ => 0
  have H : ∀ ta, OrbitPoint ![k 0, k 1, k 2, k 3, k 4, ta] mu := fun ta => by
    have hcos := Real.neg_one_le_cos ta
    exact ⟨hmu, mul_pos ha (by show 0 < 1 - k 1 ^ 2; nlinarith),
      by show 0 < 1 + k 1 * Real.cos ta; nlinarith⟩
  have hf : ∀ ta, kep2sv ![k 0, k 1, k 2, k 3, k 4, ta] mu = .ok (f ta) := fun ta => by
    obtain ⟨sv, h, -⟩ := C48_on_orbit _ mu (H ta)
    simp only [f, h]
  have hm : ∀ l : List ℝ, (l.mapM fun ta => kep2sv ![k 0, k 1, k 2, k 3, k 4, ta] mu) =
      .ok (l.map f) := by
    intro l
    induction l with
    | nil => rfl
    | cons x l ih => rw [List.mapM_cons, ih, hf]; rfl
  refine ⟨(linspace ((0 : ℕ) : ℝ) (((2 : ℕ) : ℝ) * Real.pi) steps).map f, hm _, ?_, ?_⟩
  · rw [List.length_map, linspace_length]
  · intro j hj
    refine ⟨_, ?_, hf _⟩
    rw [List.getElem?_map, linspace_get _ _ h2 hj]
    simp only [Option.map_some, Nat.cast_zero, Nat.cast_ofNat, zero_add, sub_zero]
    congr 2
    ring

end PyQ
