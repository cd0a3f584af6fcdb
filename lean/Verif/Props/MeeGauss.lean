import Verif.Props.Newton

/-! # C91: the MEE equations of motion with the semi-latus rectum -/

set_option linter.unusedSectionVars false

namespace PyQ

/-- at time `t` the curve `k` of MEE elements (with `p` first) moves by `eom_mee_gauss`, under an
acceleration with RTN components `acc` -/
def MeePMotion (mu : ℝ) (k : ℝ → Fin 6 → ℝ) (acc : Fin 3 → ℝ) (t : ℝ) : Prop :=
  ∃ (P : OdeParams ℝ) (d : Fin 6 → ℝ), P.mu = mu ∧ (∀ i, P.u i + P.ptrb i = acc i) ∧
    eomMeeGauss t (k t) P = .ok d ∧ ∀ j, HasDerivAt (fun s => k s j) (d j) t

theorem eomMeeP_real {m : Fin 6 → ℝ} {P : OdeParams ℝ} (t : ℝ) (hmu : 0 < P.mu) (hp : 0 < m 0)
    (hw : 0 < 1 + m 1 * Real.cos (m 5) + m 2 * Real.sin (m 5)) :
    eomMeeGauss t m P = .ok (
      let w := 1 + m 1 * Real.cos (m 5) + m 2 * Real.sin (m 5)
      let s := Real.sqrt (m 0 / P.mu)
      let q := m 3 * Real.sin (m 5) - m 4 * Real.cos (m 5)
      let a := vadd P.u P.ptrb
      ![2 * m 0 * s / w * a 1,
        s * Real.sin (m 5) * a 0 + s / w * ((w + 1) * Real.cos (m 5) + m 1) * a 1 -
          m 2 * s / w * q * a 2,
        -(s * Real.cos (m 5)) * a 0 + s / w * ((w + 1) * Real.sin (m 5) + m 2) * a 1 +
          m 1 * s / w * q * a 2,
        s / w * ((1 + m 3 ^ 2 + m 4 ^ 2) / 2) * Real.cos (m 5) * a 2,
        s / w * ((1 + m 3 ^ 2 + m 4 ^ 2) / 2) * Real.sin (m 5) * a 2,
        s / w * q * a 2 + Real.sqrt (P.mu * m 0) * (w / m 0) ^ 2]) := by
  simp only [eomMeeGauss, Nat.cast_one, sin_real, cos_real, sqrt_real]
  simp only [ndiv_real hmu.ne', ndiv_real hw.ne', ndiv_real hp.ne', bind, Except.bind, pure,
    Except.pure]
  congr 1
  funext j
  fin_cases j <;> simp [dot3, rat_real, -mul_eq_mul_right_iff, -mul_eq_mul_left_iff] <;> ring

/-- **C91.** The MEE image of a Keplerian motion moves by `eom_mee_gauss` under the same acceleration,
whatever the position of periapsis. -/
theorem C91_consistent (mu : ℝ) (k : ℝ → Fin 6 → ℝ) (acc : Fin 3 → ℝ) (t : ℝ)
    (S : KepState mu (k t)) (hi : Real.sin (k t 2) ≠ 0) (M : KepMotion mu k acc t) :
    MeePMotion mu (fun s => kep2mee (k s)) acc t := by
  obtain ⟨p, h, r, hp, hh, hr, ep, ehp, eh, er, d0, d1, d2, d3, d4, d5⟩ := M.rates S
  have hmu := S.mu
  have he := S.e0
  have hw := S.w_pos (k t 5)
  have hst := Real.sin_sq_add_cos_sq (k t 5)
  have hϖ := Real.sin_sq_add_cos_sq (k t 3 + k t 4)
  have er' : r * (1 + k t 1 * Real.cos (k t 5)) = p := by rw [er]; field_simp
  obtain ⟨m, hm⟩ : ∃ m, m = kep2mee (k t) := ⟨_, rfl⟩
  have hm' := hm
  rw [kep2mee_real] at hm'
  have m0 : m 0 = p := by rw [hm', ep]; rfl
  have m1 : m 1 = k t 1 * Real.cos (k t 3 + k t 4) := by rw [hm']; rfl
  have m2 : m 2 = k t 1 * Real.sin (k t 3 + k t 4) := by rw [hm']; rfl
  have m3 : m 3 = Real.tan (k t 2 / 2) * Real.cos (k t 3) := by rw [hm']; rfl
  have m4 : m 4 = Real.tan (k t 2 / 2) * Real.sin (k t 3) := by rw [hm']; rfl
  have m5 : m 5 = k t 3 + k t 4 + k t 5 := by rw [hm']; rfl
  have hL : 1 + m 1 * Real.cos (m 5) + m 2 * Real.sin (m 5) = p / r := by
    have : p / r = 1 + k t 1 * Real.cos (k t 5) := by rw [← er']; field_simp
    rw [this, m1, m2, m5, Real.cos_add (k t 3 + k t 4), Real.sin_add (k t 3 + k t 4)]
    linear_combination k t 1 * Real.cos (k t 5) * hϖ
  let P : OdeParams ℝ := { mu := mu, u := acc, psi0 := 0, psi1 := 0, psi2 := 0, ptrb := 0 }
  refine ⟨P, _, rfl, by intro i; simp [P],
    by show eomMeeGauss t (kep2mee (k t)) P = _
       rw [← hm]
       exact eomMeeP_real (P := P) t hmu (by rw [m0]; exact hp) (by rw [hL]; positivity), ?_⟩
  have hsp : Real.sqrt (p / mu) = p / h := by
    rw [show p / mu = (p / h) ^ 2 by rw [div_pow, ehp]; field_simp]
    exact Real.sqrt_sq (by positivity)
  have hsm : Real.sqrt (mu * p) = h := by rw [← ehp]; exact Real.sqrt_sq hh.le
  -- half-angle facts
  have hhalf : Real.sin (k t 2) = 2 * Real.sin (k t 2 / 2) * Real.cos (k t 2 / 2) := by
    rw [← Real.sin_two_mul]; congr 1; ring
  have hc2 : Real.cos (k t 2 / 2) ≠ 0 := by
    intro h0; rw [hhalf, h0] at hi; simp at hi
  have hs2 : Real.sin (k t 2 / 2) ≠ 0 := by
    intro h0; rw [hhalf, h0] at hi; simp at hi
  have hq := Real.sin_sq_add_cos_sq (k t 2 / 2)
  have hcos : Real.cos (k t 2) = 1 - 2 * Real.sin (k t 2 / 2) ^ 2 := by
    have := Real.cos_two_mul (k t 2 / 2)
    rw [show 2 * (k t 2 / 2) = k t 2 by ring] at this
    rw [this]; linarith
  have hτ : (1 - Real.cos (k t 2)) / Real.sin (k t 2) = Real.tan (k t 2 / 2) := by
    rw [hcos, hhalf, Real.tan_eq_sin_div_cos]; field_simp; ring
  have hnode : m 3 * Real.sin (m 5) - m 4 * Real.cos (m 5) =
      Real.tan (k t 2 / 2) * Real.sin (k t 4 + k t 5) := by
    have := Real.sin_sq_add_cos_sq (k t 3)
    rw [m3, m4, m5, add_assoc, Real.sin_add (k t 3), Real.cos_add (k t 3)]
    linear_combination Real.tan (k t 2 / 2) * Real.sin (k t 4 + k t 5) * this
  have dϖ : HasDerivAt (fun s => k s 3 + k s 4) ((-(p * Real.cos (k t 5)) * acc 0 +
        (p + r) * Real.sin (k t 5) * acc 1) / (k t 1 * h) + r / h * acc 2 *
        (m 3 * Real.sin (m 5) - m 4 * Real.cos (m 5))) t := by
    refine (d3.add d4).congr_deriv ?_
    rw [hnode, ← hτ]; ring
  have hcL : Real.cos (m 5) = Real.cos (k t 3 + k t 4) * Real.cos (k t 5) -
      Real.sin (k t 3 + k t 4) * Real.sin (k t 5) := by rw [m5, Real.cos_add (k t 3 + k t 4)]
  have hsL : Real.sin (m 5) = Real.sin (k t 3 + k t 4) * Real.cos (k t 5) +
      Real.cos (k t 3 + k t 4) * Real.sin (k t 5) := by rw [m5, Real.sin_add (k t 3 + k t 4)]
  have hcL' : Real.cos (m 5) = Real.cos (k t 3) * Real.cos (k t 4 + k t 5) -
      Real.sin (k t 3) * Real.sin (k t 4 + k t 5) := by rw [m5, add_assoc, Real.cos_add (k t 3)]
  have hsL' : Real.sin (m 5) = Real.sin (k t 3) * Real.cos (k t 4 + k t 5) +
      Real.cos (k t 3) * Real.sin (k t 4 + k t 5) := by rw [m5, add_assoc, Real.sin_add (k t 3)]
  -- the tangent of half the inclination
  have dτ : HasDerivAt (fun s => Real.tan (k s 2 / 2))
      ((1 + Real.tan (k t 2 / 2) ^ 2) / 2 * (r / h * acc 2 * Real.cos (k t 4 + k t 5))) t := by
    refine (HasDerivAt.comp t (Real.hasDerivAt_tan hc2) (d2.div_const 2)).congr_deriv ?_
    rw [Real.tan_eq_sin_div_cos]
    field_simp
    linear_combination (-(acc 2 * Real.cos (k t 4 + k t 5))) * hq
  have hsec : Real.tan (k t 2 / 2) * 2 = (1 + Real.tan (k t 2 / 2) ^ 2) * Real.sin (k t 2) := by
    rw [hhalf, Real.tan_eq_sin_div_cos]
    field_simp
    linear_combination -hq
  have hO := Real.sin_sq_add_cos_sq (k t 3)
  have h34 : m 3 ^ 2 + m 4 ^ 2 = Real.tan (k t 2 / 2) ^ 2 := by
    rw [m3, m4]; linear_combination Real.tan (k t 2 / 2) ^ 2 * hO
  intro j
  simp only [P, m0, hL, hsp, hsm, vadd, Pi.zero_apply, add_zero]
  match j with
  | 0 =>
    have hfun : (fun s => kep2mee (k s) 0) = fun s => k s 0 * (1 - k s 1 ^ 2) := by
      funext s; rw [kep2mee_real]; rfl
    rw [hfun]
    refine (d0.mul ((d1.pow 2).const_sub 1)).congr_deriv ?_
    simp only [Matrix.cons_val]
    have e1 : p / r = 1 + k t 1 * Real.cos (k t 5) := by rw [← er']; field_simp
    have e2 : 2 * p * (p / h) / (p / r) = 2 * p * r / h := by field_simp
    have e3 : ((p + r) * Real.cos (k t 5) + r * k t 1) =
        r * ((2 + k t 1 * Real.cos (k t 5)) * Real.cos (k t 5) + k t 1) := by rw [← er']; ring
    rw [e2, e1, e3]
    simp only [Pi.pow_apply, Nat.cast_ofNat, pow_one, Nat.add_one_sub_one]
    have er2 : r * (1 + k t 1 * Real.cos (k t 5)) = k t 0 * (1 - k t 1 ^ 2) := by rw [er', ep]
    rw [ep]
    field_simp
    linear_combination (-(k t 0 * acc 1 * (1 + k t 1 * Real.cos (k t 5)))) * er2
  | 1 =>
    have hfun : (fun s => kep2mee (k s) 1) = fun s => k s 1 * Real.cos (k s 3 + k s 4) := by
      funext s; rw [kep2mee_real]; rfl
    rw [hfun]
    refine (d1.mul (HasDerivAt.comp t (Real.hasDerivAt_cos _) dϖ)).congr_deriv ?_
    simp only [Matrix.cons_val, Function.comp]
    generalize m 3 * Real.sin (m 5) - m 4 * Real.cos (m 5) = q at *
    rw [m1, m2, hcL, hsL]
    field_simp
    ring
  | 2 =>
    have hfun : (fun s => kep2mee (k s) 2) = fun s => k s 1 * Real.sin (k s 3 + k s 4) := by
      funext s; rw [kep2mee_real]; rfl
    rw [hfun]
    refine (d1.mul (HasDerivAt.comp t (Real.hasDerivAt_sin _) dϖ)).congr_deriv ?_
    simp only [Matrix.cons_val, Function.comp]
    generalize m 3 * Real.sin (m 5) - m 4 * Real.cos (m 5) = q at *
    rw [m1, m2, hcL, hsL]
    field_simp
    ring
  | 3 =>
    have hfun : (fun s => kep2mee (k s) 3) =
        fun s => Real.tan (k s 2 / 2) * Real.cos (k s 3) := by
      funext s; rw [kep2mee_real]; rfl
    rw [hfun]
    refine (dτ.mul (HasDerivAt.comp t (Real.hasDerivAt_cos _) d3)).congr_deriv ?_
    simp only [Matrix.cons_val, Function.comp, add_assoc 1 (m 3 ^ 2), h34]
    rw [hcL']
    generalize Real.tan (k t 2 / 2) = τ at *
    field_simp
    linear_combination (-(acc 2 * Real.sin (k t 4 + k t 5) * Real.sin (k t 3))) * hsec
  | 4 =>
    have hfun : (fun s => kep2mee (k s) 4) =
        fun s => Real.tan (k s 2 / 2) * Real.sin (k s 3) := by
      funext s; rw [kep2mee_real]; rfl
    rw [hfun]
    refine (dτ.mul (HasDerivAt.comp t (Real.hasDerivAt_sin _) d3)).congr_deriv ?_
    simp only [Matrix.cons_val, Function.comp, add_assoc 1 (m 3 ^ 2), h34]
    rw [hsL']
    generalize Real.tan (k t 2 / 2) = τ at *
    field_simp
    linear_combination (acc 2 * Real.sin (k t 4 + k t 5) * Real.cos (k t 3)) * hsec
  | 5 =>
    have hfun : (fun s => kep2mee (k s) 5) = fun s => k s 3 + k s 4 + k s 5 := by
      funext s; rw [kep2mee_real]; rfl
    rw [hfun]
    refine (dϖ.add d5).congr_deriv ?_
    simp only [Matrix.cons_val]
    generalize m 3 * Real.sin (m 5) - m 4 * Real.cos (m 5) = q at *
    field_simp
    ring

/-- a concrete Keplerian motion with periapsis on the negative x-axis (`f < 0`), and its image -/
example : ∃ k : ℝ → Fin 6 → ℝ, KepMotion 1 k ![1, -2, 3] 0 ∧ kep2mee (k 0) 1 < 0 ∧
    MeePMotion 1 (fun s => kep2mee (k s)) ![1, -2, 3] 0 := by
  have S : KepState 1 ![1, 1 / 2, 1, 0, Real.pi, 2] := by
    constructor <;> (simp; try norm_num)
  obtain ⟨k, h0, M⟩ := exists_motion S ![1, -2, 3]
  have hs : Real.sin (k 0 2) ≠ 0 := by
    rw [h0]
    exact (Real.sin_pos_of_pos_of_lt_pi (by simp) (by have := Real.pi_gt_three; simp; linarith)).ne'
  exact ⟨k, M, by rw [h0, kep2mee_real]; simp, C91_consistent 1 k _ 0 (by rw [h0]; exact S) hs M⟩

end PyQ
