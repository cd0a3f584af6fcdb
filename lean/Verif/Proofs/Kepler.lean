import Verif.Model.Elements
import Verif.Proofs.Vec3
import Verif.Proofs.Angles

/-! # Perifocal representation of `kep2sv` over the reals -/

set_option linter.unusedSectionVars false

namespace PyQ

/-- inertial direction of periapsis -/
noncomputable def periP (i O w : ℝ) : Fin 3 → ℝ :=
  ![Real.cos O * Real.cos w - Real.sin O * Real.sin w * Real.cos i,
    Real.sin O * Real.cos w + Real.cos O * Real.sin w * Real.cos i,
    Real.sin w * Real.sin i]

/-- inertial direction a quarter turn ahead of periapsis -/
noncomputable def periQ (i O w : ℝ) : Fin 3 → ℝ :=
  ![-(Real.cos O * Real.sin w) - Real.sin O * Real.cos w * Real.cos i,
    -(Real.sin O * Real.sin w) + Real.cos O * Real.cos w * Real.cos i,
    Real.cos w * Real.sin i]

/-- orbit normal -/
noncomputable def periW (i O : ℝ) : Fin 3 → ℝ :=
  ![Real.sin i * Real.sin O, -(Real.sin i * Real.cos O), Real.cos i]

theorem periP_sq (i O w : ℝ) : dot3 (periP i O w) (periP i O w) = 1 := by
  have h1 := Real.sin_sq_add_cos_sq i
  have h2 := Real.sin_sq_add_cos_sq O
  have h3 := Real.sin_sq_add_cos_sq w
  simp [dot3, periP]
  linear_combination (Real.sin w ^ 2) * h1 +
    (Real.cos w ^ 2 + Real.sin w ^ 2 * Real.cos i ^ 2) * h2 + h3

theorem periQ_sq (i O w : ℝ) : dot3 (periQ i O w) (periQ i O w) = 1 := by
  have h1 := Real.sin_sq_add_cos_sq i
  have h2 := Real.sin_sq_add_cos_sq O
  have h3 := Real.sin_sq_add_cos_sq w
  simp [dot3, periQ]
  linear_combination (Real.cos w ^ 2) * h1 +
    (Real.sin w ^ 2 + Real.cos w ^ 2 * Real.cos i ^ 2) * h2 + h3

theorem periPQ (i O w : ℝ) : dot3 (periP i O w) (periQ i O w) = 0 := by
  have h1 := Real.sin_sq_add_cos_sq i
  have h2 := Real.sin_sq_add_cos_sq O
  simp [dot3, periP, periQ]
  linear_combination (Real.sin w * Real.cos w) * h1 +
    (Real.sin w * Real.cos w * Real.cos i ^ 2 - Real.sin w * Real.cos w) * h2

theorem periPxQ (i O w : ℝ) : cross3 (periP i O w) (periQ i O w) = periW i O := by
  have h2 := Real.sin_sq_add_cos_sq O
  have h3 := Real.sin_sq_add_cos_sq w
  funext j; fin_cases j <;> simp [cross3, periP, periQ, periW]
  · linear_combination (Real.sin i * Real.sin O) * h3
  · linear_combination -(Real.sin i * Real.cos O) * h3
  · linear_combination (Real.cos i * (Real.sin w ^ 2 + Real.cos w ^ 2)) * h2 + Real.cos i * h3

theorem periPxW (i O w : ℝ) : cross3 (periP i O w) (periW i O) = vsmul (-1) (periQ i O w) := by
  have h1 := Real.sin_sq_add_cos_sq i
  have h2 := Real.sin_sq_add_cos_sq O
  funext j; fin_cases j <;> simp [cross3, periP, periQ, periW, vsmul]
  · linear_combination (Real.cos O * Real.sin w) * h1
  · linear_combination (Real.sin O * Real.sin w) * h1
  · linear_combination -(Real.sin i * Real.cos w) * h2

theorem periQxW (i O w : ℝ) : cross3 (periQ i O w) (periW i O) = periP i O w := by
  have h1 := Real.sin_sq_add_cos_sq i
  have h2 := Real.sin_sq_add_cos_sq O
  funext j; fin_cases j <;> simp [cross3, periP, periQ, periW]
  · linear_combination (Real.cos O * Real.cos w) * h1
  · linear_combination (Real.sin O * Real.cos w) * h1
  · linear_combination (Real.sin i * Real.sin w) * h2

theorem periW_sq (i O : ℝ) : dot3 (periW i O) (periW i O) = 1 := by
  have h1 := Real.sin_sq_add_cos_sq i
  have h2 := Real.sin_sq_add_cos_sq O
  simp [dot3, periW]
  linear_combination h1 + (Real.sin i ^ 2) * h2

/-- position for radius `ρ` and true anomaly `t` -/
noncomputable def orbPos (ρ i O w t : ℝ) : Fin 3 → ℝ :=
  fun j => ρ * (Real.cos t * periP i O w j + Real.sin t * periQ i O w j)

/-- velocity for `m = μ/h` -/
noncomputable def orbVel (m e i O w t : ℝ) : Fin 3 → ℝ :=
  fun j => m * (-Real.sin t * periP i O w j + (e + Real.cos t) * periQ i O w j)

/-- rotating by the zero angle is the identity, so the tests `angle != 0` change nothing -/
theorem rot3_skip (a : ℝ) (v : Fin 3 → ℝ) :
    (if (!PyOrd.eq a (((0 : ℕ) : ℝ))) = true then mulVec3 (rotmat3 (-a)) v else v) =
      mulVec3 (rotmat3 (-a)) v := by
  by_cases h : a = 0
  · subst h
    simp [rotmat3]
    funext j; fin_cases j <;> simp [mulVec3, dot3]
  · simp [h]

theorem rot1_skip (a : ℝ) (v : Fin 3 → ℝ) :
    (if (!PyOrd.eq a (((0 : ℕ) : ℝ))) = true then mulVec3 (rotmat1 (-a)) v else v) =
      mulVec3 (rotmat1 (-a)) v := by
  by_cases h : a = 0
  · subst h
    simp [rotmat1]
    funext j; fin_cases j <;> simp [mulVec3, dot3]
  · simp [h]

theorem rot_perifocal (i O w x y : ℝ) :
    mulVec3 (rotmat3 (-O)) (mulVec3 (rotmat1 (-i)) (mulVec3 (rotmat3 (-w)) ![x, y, 0])) =
      fun j => x * periP i O w j + y * periQ i O w j := by
  funext j; fin_cases j <;> simp [mulVec3, dot3, rotmat1, rotmat3, periP, periQ] <;> ring

/-- `kep2sv` in perifocal form -/
theorem kep2sv_eq (k : Fin 6 → ℝ) (mu : ℝ)
    (h1 : mu * (1 + k 1 * Real.cos (k 5)) ≠ 0)
    (h2 : Real.sqrt (k 0 * mu * (1 - k 1 ^ 2)) ≠ 0) :
    kep2sv k mu = .ok (
      let h := Real.sqrt (k 0 * mu * (1 - k 1 ^ 2))
      let r := orbPos (h ^ 2 / (mu * (1 + k 1 * Real.cos (k 5)))) (k 2) (k 3) (k 4) (k 5)
      let v := orbVel (mu / h) (k 1) (k 2) (k 3) (k 4) (k 5)
      ![r 0, r 1, r 2, v 0, v 1, v 2]) := by
  simp only [kep2sv, Nat.cast_one, sqrt_real, cos_real, sin_real]
  rw [ndiv_real h1, ndiv_real h2]
  simp only [bind, Except.bind, pure, Except.pure, rot3_skip, rot1_skip]
  congr 1
  have e1 : ∀ c a b : ℝ, vsmul c ![a, b, ((0 : ℕ) : ℝ)] = ![c * a, c * b, 0] := by
    intro c a b; funext j; fin_cases j <;> simp [vsmul]
  simp only [e1, rot_perifocal]
  funext j; fin_cases j <;> simp [orbPos, orbVel] <;> ring

theorem svPos_mk (r v : Fin 3 → ℝ) : svPos ![r 0, r 1, r 2, v 0, v 1, v 2] = r := by
  funext j; fin_cases j <;> simp [svPos]

theorem svVel_mk (r v : Fin 3 → ℝ) : svVel ![r 0, r 1, r 2, v 0, v 1, v 2] = v := by
  funext j; fin_cases j <;> simp [svVel]

theorem orbPos_sq (ρ i O w t : ℝ) : dot3 (orbPos ρ i O w t) (orbPos ρ i O w t) = ρ ^ 2 := by
  have a := periP_sq i O w
  have b := periQ_sq i O w
  have c := periPQ i O w
  have d := Real.sin_sq_add_cos_sq t
  simp only [dot3, orbPos] at *
  linear_combination (ρ ^ 2 * Real.cos t ^ 2) * a + (ρ ^ 2 * Real.sin t ^ 2) * b +
    (2 * ρ ^ 2 * Real.cos t * Real.sin t) * c + ρ ^ 2 * d

theorem orbVel_sq (m e i O w t : ℝ) : dot3 (orbVel m e i O w t) (orbVel m e i O w t) =
    m ^ 2 * (1 + 2 * e * Real.cos t + e ^ 2) := by
  have a := periP_sq i O w
  have b := periQ_sq i O w
  have c := periPQ i O w
  have d := Real.sin_sq_add_cos_sq t
  simp only [dot3, orbVel] at *
  linear_combination (m ^ 2 * Real.sin t ^ 2) * a + (m ^ 2 * (e + Real.cos t) ^ 2) * b -
    (2 * m ^ 2 * Real.sin t * (e + Real.cos t)) * c + m ^ 2 * d

theorem orbPos_dot_vel (ρ m e i O w t : ℝ) : dot3 (orbPos ρ i O w t) (orbVel m e i O w t) =
    ρ * m * e * Real.sin t := by
  have a := periP_sq i O w
  have b := periQ_sq i O w
  have c := periPQ i O w
  simp only [dot3, orbVel, orbPos] at *
  linear_combination -(ρ * m * Real.sin t * Real.cos t) * a +
    (ρ * m * Real.sin t * (e + Real.cos t)) * b +
    (ρ * m * (Real.cos t * (e + Real.cos t) - Real.sin t ^ 2)) * c

theorem orbPos_cross_vel (ρ m e i O w t : ℝ) : cross3 (orbPos ρ i O w t) (orbVel m e i O w t) =
    vsmul (ρ * m * (1 + e * Real.cos t)) (periW i O) := by
  have d := Real.sin_sq_add_cos_sq t
  have hx := periPxQ i O w
  have h0 := congrFun hx 0
  have h1 := congrFun hx 1
  have h2 := congrFun hx 2
  simp [cross3] at h0 h1 h2
  funext j
  fin_cases j <;> simp [cross3, orbPos, orbVel, vsmul]
  · rw [← h0]
    linear_combination (ρ * m * (periP i O w 1 * periQ i O w 2 - periP i O w 2 * periQ i O w 1)) * d
  · rw [← h1]
    linear_combination (ρ * m * (periP i O w 2 * periQ i O w 0 - periP i O w 0 * periQ i O w 2)) * d
  · rw [← h2]
    linear_combination (ρ * m * (periP i O w 0 * periQ i O w 1 - periP i O w 1 * periQ i O w 0)) * d

end PyQ
