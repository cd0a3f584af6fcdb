import Verif.Props.Coast
import Verif.Props.Cartesian
import Mathlib.Analysis.Real.Pi.Bounds
import Mathlib.Analysis.SpecialFunctions.Trigonometric.Deriv
import Mathlib.Analysis.SpecialFunctions.Sqrt
import Mathlib.Analysis.Calculus.Deriv.Inv

/-! # C58, C59: the Gauss equations are Newton's law -/

set_option linter.unusedSectionVars false

open Filter Topology

namespace PyQ

/-! ## the rotating orbital frame -/

/-- radial direction at argument of latitude `θ` -/
noncomputable def frameU (i O θ : ℝ) : Fin 3 → ℝ :=
  ![Real.cos O * Real.cos θ - Real.sin O * Real.sin θ * Real.cos i,
    Real.sin O * Real.cos θ + Real.cos O * Real.sin θ * Real.cos i,
    Real.sin θ * Real.sin i]

/-- transverse direction -/
noncomputable def frameV (i O θ : ℝ) : Fin 3 → ℝ :=
  ![-(Real.cos O * Real.sin θ) - Real.sin O * Real.cos θ * Real.cos i,
    -(Real.sin O * Real.sin θ) + Real.cos O * Real.cos θ * Real.cos i,
    Real.cos θ * Real.sin i]

theorem frameU_eq (i O w t : ℝ) (j : Fin 3) :
    Real.cos t * periP i O w j + Real.sin t * periQ i O w j = frameU i O (w + t) j := by
  fin_cases j <;> simp [periP, periQ, frameU, Real.cos_add, Real.sin_add] <;> ring

theorem frameV_eq (i O w t : ℝ) (j : Fin 3) :
    -Real.sin t * periP i O w j + Real.cos t * periQ i O w j = frameV i O (w + t) j := by
  fin_cases j <;> simp [periP, periQ, frameV, Real.cos_add, Real.sin_add] <;> ring

/-- if the frame's angles satisfy the osculation condition, the radial direction turns in the orbit
plane at the rate `κ` -/
theorem frameU_deriv {i O θ : ℝ → ℝ} {i' O' θ' κ t : ℝ} (hi : HasDerivAt i i' t)
    (hO : HasDerivAt O O' t) (hθ : HasDerivAt θ θ' t)
    (h1 : i' * Real.sin (θ t) = O' * Real.sin (i t) * Real.cos (θ t))
    (h2 : θ' = κ - O' * Real.cos (i t)) (j : Fin 3) :
    HasDerivAt (fun s => frameU (i s) (O s) (θ s) j) (κ * frameV (i t) (O t) (θ t) j) t := by
  have hsi := Real.sin_sq_add_cos_sq (i t)
  fin_cases j
  · refine ((hO.cos.mul hθ.cos).sub ((hO.sin.mul hθ.sin).mul hi.cos)).congr_deriv ?_
    simp [frameV, h2]
    linear_combination Real.sin (O t) * Real.sin (i t) * h1 +
      O' * Real.sin (O t) * Real.cos (θ t) * hsi
  · refine ((hO.sin.mul hθ.cos).add ((hO.cos.mul hθ.sin).mul hi.cos)).congr_deriv ?_
    simp [frameV, h2]
    linear_combination -Real.cos (O t) * Real.sin (i t) * h1 -
      O' * Real.cos (O t) * Real.cos (θ t) * hsi
  · refine (hθ.sin.mul hi.sin).congr_deriv ?_
    simp [frameV, h2]
    linear_combination Real.cos (i t) * h1

/-- the transverse direction turns in the plane and with the plane -/
theorem frameV_deriv {i O θ : ℝ → ℝ} {i' O' θ' κ l t : ℝ} (hi : HasDerivAt i i' t)
    (hO : HasDerivAt O O' t) (hθ : HasDerivAt θ θ' t)
    (h1 : i' = l * Real.cos (θ t)) (h3 : O' * Real.sin (i t) = l * Real.sin (θ t))
    (h2 : θ' = κ - O' * Real.cos (i t)) (j : Fin 3) :
    HasDerivAt (fun s => frameV (i s) (O s) (θ s) j)
      (-κ * frameU (i t) (O t) (θ t) j + l * periW (i t) (O t) j) t := by
  have hsi := Real.sin_sq_add_cos_sq (i t)
  have hst := Real.sin_sq_add_cos_sq (θ t)
  fin_cases j
  · refine ((hO.cos.mul hθ.sin).neg.sub ((hO.sin.mul hθ.cos).mul hi.cos)).congr_deriv ?_
    simp [frameU, periW, h2, h1]
    linear_combination (Real.sin (O t) * Real.sin (θ t) * Real.sin (i t)) * h3 +
      Real.sin (O t) * Real.sin (i t) * l * hst - (O' * Real.sin (O t) * Real.sin (θ t)) * hsi
  · refine ((hO.sin.mul hθ.sin).neg.add ((hO.cos.mul hθ.cos).mul hi.cos)).congr_deriv ?_
    simp [frameU, periW, h2, h1]
    linear_combination (-Real.cos (O t) * Real.sin (θ t) * Real.sin (i t)) * h3 -
      Real.cos (O t) * Real.sin (i t) * l * hst + (O' * Real.cos (O t) * Real.sin (θ t)) * hsi
  · refine (hθ.cos.mul hi.sin).congr_deriv ?_
    simp [frameU, periW, h2, h1]
    linear_combination (Real.sin (θ t) * Real.cos (i t)) * h3 + Real.cos (i t) * l * hst

/-! ## radius and velocity components -/

/-- in-plane motion: with `x = e cos ν`, `y = e sin ν`, semi-latus rectum `p`, angular momentum `h`,
the radius and the two velocity components satisfy the polar form of Newton's law -/
theorem polar_newton {p h x y : ℝ → ℝ} {mu R T t : ℝ} (hmu : 0 < mu) (hp0 : 0 < p t)
    (hh0 : 0 < h t) (hw0 : 0 < 1 + x t) (hhp : h t ^ 2 = mu * p t)
    (hp : HasDerivAt p (2 * p t * (p t / (1 + x t)) / h t * T) t)
    (hh : HasDerivAt h ((p t / (1 + x t)) * T) t)
    (hx : HasDerivAt x (-(y t) * (h t / (p t / (1 + x t)) ^ 2) + 2 * p t / h t * T) t)
    (hy : HasDerivAt y (x t * (h t / (p t / (1 + x t)) ^ 2) + p t / h t * R +
      (p t / (1 + x t)) * y t / h t * T) t) :
    HasDerivAt (fun s => p s / (1 + x s)) (mu / h t * y t) t ∧
    HasDerivAt (fun s => mu / h s * y s) (mu / h t * (1 + x t) * (h t / (p t / (1 + x t)) ^ 2) -
      mu / (p t / (1 + x t)) ^ 2 + R) t ∧
    HasDerivAt (fun s => mu / h s * (1 + x s))
      (-(mu / h t * y t) * (h t / (p t / (1 + x t)) ^ 2) + T) t := by
  have h1 : HasDerivAt (fun s => 1 + x s) _ t := hx.const_add 1
  have h2 : HasDerivAt (fun s => mu / h s) (-(mu * ((p t / (1 + x t)) * T)) / h t ^ 2) t :=
    ((hasDerivAt_const t mu).div hh hh0.ne').congr_deriv (by ring)
  refine ⟨(hp.div h1 hw0.ne').congr_deriv ?_, (h2.mul hy).congr_deriv ?_,
    (h2.mul h1).congr_deriv ?_⟩
  · have : mu = h t ^ 2 / p t := by rw [hhp]; field_simp
    rw [this]
    generalize p t = P at *; generalize h t = K at *; generalize x t = X at *; generalize y t = Y at *
    field_simp
    ring
  · have : mu = h t ^ 2 / p t := by rw [hhp]; field_simp
    rw [this]
    generalize p t = P at *; generalize h t = K at *; generalize x t = X at *; generalize y t = Y at *
    field_simp
    ring
  · have : mu = h t ^ 2 / p t := by rw [hhp]; field_simp
    rw [this]
    generalize p t = P at *; generalize h t = K at *; generalize x t = X at *; generalize y t = Y at *
    field_simp
    ring

/-! ## motion under the package's equations -/

/-- at time `t` the curve `k` of Keplerian elements moves by `eom_kep_gauss`, with the Gauss matrix of
the control law at `k t`, under an acceleration (thrust plus perturbation) with RTN components `acc` -/
def KepMotion (mu : ℝ) (k : ℝ → Fin 6 → ℝ) (acc : Fin 3 → ℝ) (t : ℝ) : Prop :=
  ∃ (A : LyapArgs ℝ) (P : OdeParams ℝ) (d : Fin 6 → ℝ), A.mu = mu ∧ A.oe = k t ∧ P.mu = mu ∧
    P.psi0 = kepPsi A 0 ∧ P.psi1 = kepPsi A 1 ∧ P.psi2 = kepPsi A 2 ∧
    (∀ i, P.u i + P.ptrb i = acc i) ∧ eomKepGauss t (k t) P = .ok d ∧
    ∀ j, HasDerivAt (fun s => k s j) (d j) t

/-- the element rates of a Keplerian motion, written with `p`, `h`, `r` -/
theorem KepMotion.rates {mu : ℝ} {k : ℝ → Fin 6 → ℝ} {acc : Fin 3 → ℝ} {t : ℝ}
    (M : KepMotion mu k acc t) (S : KepState mu (k t)) :
    ∃ p h r, 0 < p ∧ 0 < h ∧ 0 < r ∧ p = k t 0 * (1 - k t 1 ^ 2) ∧ h ^ 2 = mu * p ∧
      h = Real.sqrt (k t 0 * mu * (1 - k t 1 ^ 2)) ∧
      r = p / (1 + k t 1 * Real.cos (k t 5)) ∧
      HasDerivAt (fun s => k s 0) (2 * k t 0 ^ 2 / h * (k t 1 * Real.sin (k t 5) * acc 0 +
        p / r * acc 1)) t ∧
      HasDerivAt (fun s => k s 1) (p / h * Real.sin (k t 5) * acc 0 +
        ((p + r) * Real.cos (k t 5) + r * k t 1) / h * acc 1) t ∧
      HasDerivAt (fun s => k s 2) (r / h * acc 2 * Real.cos (k t 4 + k t 5)) t ∧
      HasDerivAt (fun s => k s 3) (r / h * acc 2 * Real.sin (k t 4 + k t 5) / Real.sin (k t 2)) t ∧
      HasDerivAt (fun s => k s 4) ((-(p * Real.cos (k t 5)) * acc 0 +
        (p + r) * Real.sin (k t 5) * acc 1) / (k t 1 * h) - r / h * acc 2 *
          Real.sin (k t 4 + k t 5) / Real.sin (k t 2) * Real.cos (k t 2)) t ∧
      HasDerivAt (fun s => k s 5) (h / r ^ 2 + (p * Real.cos (k t 5) * acc 0 -
        (p + r) * Real.sin (k t 5) * acc 1) / (k t 1 * h)) t := by
  obtain ⟨A, P, d, hA, hAo, hPm, h0, h1, h2, hacc, heq, hd⟩ := M
  subst hPm
  rw [eomKep_real S] at heq
  injection heq with heq
  have hw := S.w_pos (k t 5)
  have hs := Real.sq_sqrt S.h_pos.le
  have hh := Real.sqrt_pos.2 S.h_pos
  have hmu := S.mu
  have he := S.e0
  have hp : 0 < k t 0 * (1 - k t 1 ^ 2) := by
    have := S.h_pos
    have e : k t 0 * P.mu * (1 - k t 1 ^ 2) = P.mu * (k t 0 * (1 - k t 1 ^ 2)) := by ring
    rw [e] at this
    exact (mul_pos_iff_of_pos_left hmu).1 this
  have hr : Real.sqrt (k t 0 * P.mu * (1 - k t 1 ^ 2)) ^ 2 /
      (P.mu * (1 + k t 1 * Real.cos (k t 5))) =
      k t 0 * (1 - k t 1 ^ 2) / (1 + k t 1 * Real.cos (k t 5)) := by
    rw [hs]; field_simp
  refine ⟨k t 0 * (1 - k t 1 ^ 2), Real.sqrt (k t 0 * P.mu * (1 - k t 1 ^ 2)),
    k t 0 * (1 - k t 1 ^ 2) / (1 + k t 1 * Real.cos (k t 5)), hp, hh, by positivity, rfl,
    by rw [hs]; ring, rfl, rfl, ?_, ?_, ?_, ?_, ?_, ?_⟩
  · refine (hd 0).congr_deriv ?_
    rw [← heq]
    simp [gaussCombine, h0, h1, h2, kepPsi, hA, hAo, vadd, hacc, dot3, hr]
    try ring
  · refine (hd 1).congr_deriv ?_
    rw [← heq]
    simp [gaussCombine, h0, h1, h2, kepPsi, hA, hAo, vadd, hacc, dot3, hr]
    try ring
  · refine (hd 2).congr_deriv ?_
    rw [← heq, add_comm (k t 4) (k t 5)]
    simp [gaussCombine, h0, h1, h2, kepPsi, hA, hAo, vadd, hacc, dot3, hr]
    try ring
  · refine (hd 3).congr_deriv ?_
    rw [← heq, add_comm (k t 4) (k t 5)]
    simp [gaussCombine, h0, h1, h2, kepPsi, hA, hAo, vadd, hacc, dot3, hr]
    try ring
  · refine (hd 4).congr_deriv ?_
    rw [← heq, add_comm (k t 4) (k t 5)]
    simp [gaussCombine, h0, h1, h2, kepPsi, hA, hAo, vadd, hacc, dot3, hr]
    try ring
  · refine (hd 5).congr_deriv ?_
    rw [← heq]
    simp [gaussCombine, h0, h1, h2, kepPsi, hA, hAo, vadd, hacc, dot3, hr]
    try ring

/-- unit vectors of the radial, transverse, normal frame of a Cartesian state -/
noncomputable def dirR (s : Fin 6 → ℝ) : Fin 3 → ℝ := vsmul (1 / norm3 (svPos s)) (svPos s)

noncomputable def dirN (s : Fin 6 → ℝ) : Fin 3 → ℝ :=
  vsmul (1 / norm3 (cross3 (svPos s) (svVel s))) (cross3 (svPos s) (svVel s))

noncomputable def dirT (s : Fin 6 → ℝ) : Fin 3 → ℝ := cross3 (dirN s) (dirR s)

theorem frameU_sq (i O θ : ℝ) : dot3 (frameU i O θ) (frameU i O θ) = 1 := periP_sq i O θ

theorem frame_dirs {ρ α β i O θ : ℝ} (hρ : 0 < ρ) (hβ : 0 < β) {s : Fin 6 → ℝ}
    (hr : svPos s = fun j => ρ * frameU i O θ j)
    (hv : svVel s = fun j => α * frameU i O θ j + β * frameV i O θ j) :
    norm3 (svPos s) = ρ ∧ dirR s = frameU i O θ ∧ dirN s = periW i O ∧
      dirT s = frameV i O θ := by
  have hU : norm3 (svPos s) = ρ := by
    rw [norm3_eq_sqrt, hr]
    have : dot3 (fun j => ρ * frameU i O θ j) (fun j => ρ * frameU i O θ j) = ρ ^ 2 := by
      have := frameU_sq i O θ
      simp only [dot3] at *
      linear_combination ρ ^ 2 * this
    rw [this, Real.sqrt_sq hρ.le]
  have hR : dirR s = frameU i O θ := by
    funext j; rw [dirR, hU, hr]; simp only [vsmul]; field_simp
  have hx : cross3 (frameU i O θ) (frameV i O θ) = periW i O := periPxQ i O θ
  have hC : cross3 (svPos s) (svVel s) = vsmul (ρ * β) (periW i O) := by
    rw [hr, hv, ← hx]
    funext j; fin_cases j <;> simp [cross3, vsmul] <;> ring
  have hCn : norm3 (cross3 (svPos s) (svVel s)) = ρ * β := by
    rw [hC]
    exact norm3_smul_pos (by positivity) (periW_sq i O)
  have hN : dirN s = periW i O := by
    rw [dirN, hCn, hC]
    funext j; simp only [vsmul]; field_simp
  refine ⟨hU, hR, hN, ?_⟩
  rw [dirT, hN, hR]
  have := periPxW i O θ
  change cross3 (frameU i O θ) (periW i O) = vsmul (-1) (frameV i O θ) at this
  have e0 := congrFun this 0
  have e1 := congrFun this 1
  have e2 := congrFun this 2
  simp [cross3, vsmul] at e0 e1 e2
  funext j; fin_cases j <;> simp [cross3] <;> linarith

/-- **C58.** Let Keplerian elements move by `eom_kep_gauss` with the package's Gauss matrix under an
acceleration with RTN components `acc`, at a non-circular elliptic state of non-zero inclination. Then
their Cartesian image under `kep2sv` satisfies `r' = v` and
`v' = -μ r/|r|³ + acc_R R + acc_T T + acc_N N`. -/
theorem C58_newton (mu : ℝ) (k : ℝ → Fin 6 → ℝ) (acc : Fin 3 → ℝ) (t : ℝ)
    (S : KepState mu (k t)) (hi : Real.sin (k t 2) ≠ 0) (M : KepMotion mu k acc t)
    (sv : ℝ → Fin 6 → ℝ) (hsv : ∀ᶠ s in 𝓝 t, kep2sv (k s) mu = .ok (sv s)) (j : Fin 3) :
    HasDerivAt (fun s => svPos (sv s) j) (svVel (sv t) j) t ∧
    HasDerivAt (fun s => svVel (sv s) j)
      (-mu / norm3 (svPos (sv t)) ^ 3 * svPos (sv t) j +
        (acc 0 * dirR (sv t) j + acc 1 * dirT (sv t) j + acc 2 * dirN (sv t) j)) t := by
  obtain ⟨p, h, r, hp, hh, hr, ep, ehp, eh, er, d0, d1, d2, d3, d4, d5⟩ := M.rates S
  have hmu := S.mu
  have he := S.e0
  have hw := S.w_pos (k t 5)
  have hst := Real.sin_sq_add_cos_sq (k t 5)
  -- the scalar functions
  let pf : ℝ → ℝ := fun s => k s 0 * (1 - k s 1 ^ 2)
  let hf : ℝ → ℝ := fun s => Real.sqrt (k s 0 * mu * (1 - k s 1 ^ 2))
  let xf : ℝ → ℝ := fun s => k s 1 * Real.cos (k s 5)
  let yf : ℝ → ℝ := fun s => k s 1 * Real.sin (k s 5)
  let θf : ℝ → ℝ := fun s => k s 4 + k s 5
  have er' : r * (1 + k t 1 * Real.cos (k t 5)) = p := by rw [er]; field_simp
  have dp : HasDerivAt pf (2 * p * r / h * acc 1) t := by
    refine (d0.mul ((hasDerivAt_const t (1 : ℝ)).sub (d1.pow 2))).congr_deriv ?_
    have hpr : p / r = 1 + k t 1 * Real.cos (k t 5) := by rw [← er']; field_simp
    simp only [Pi.sub_apply, Pi.pow_apply]
    rw [hpr]
    norm_num
    generalize Real.cos (k t 5) = c at *
    generalize Real.sin (k t 5) = z at *
    generalize k t 0 = a at *
    generalize k t 1 = e at *
    have e1 : r = a * (1 - e ^ 2) / (1 + e * c) := by rw [er, ep]
    rw [ep, e1]
    field_simp
    ring
  have dh : HasDerivAt hf (r * acc 1) t := by
    have e1 : hf = fun s => Real.sqrt (mu * pf s) := by
      funext s; simp only [hf, pf]; congr 1; ring
    have hpp : mu * pf t = h ^ 2 := by rw [ehp, ep]
    rw [e1]
    refine ((dp.const_mul mu).sqrt (by rw [hpp]; positivity)).congr_deriv ?_
    rw [hpp, Real.sqrt_sq hh.le]
    have : p = h ^ 2 / mu := by rw [ehp]; field_simp
    rw [this]
    field_simp
  have dx : HasDerivAt xf (-(yf t) * (h / r ^ 2) + 2 * p / h * acc 1) t := by
    refine (d1.mul d5.cos).congr_deriv ?_
    simp only [yf]
    generalize Real.cos (k t 5) = c at *
    generalize Real.sin (k t 5) = z at *
    generalize k t 1 = e at *
    field_simp
    linear_combination (p + r) * acc 1 * r ^ 2 * hst + acc 1 * r ^ 2 * er'
  have dy : HasDerivAt yf (xf t * (h / r ^ 2) + p / h * acc 0 + r * yf t / h * acc 1) t := by
    refine (d1.mul d5.sin).congr_deriv ?_
    simp only [xf, yf]
    generalize Real.cos (k t 5) = c at *
    generalize Real.sin (k t 5) = z at *
    generalize k t 1 = e at *
    field_simp
    linear_combination p * acc 0 * r ^ 2 * hst
  have hpt : pf t = p := ep.symm
  have hht : hf t = h := eh.symm
  have hrt : pf t / (1 + xf t) = r := by rw [hpt]; exact er.symm
  obtain ⟨dρ, dα, dβ⟩ := polar_newton (p := pf) (h := hf) (x := xf) (y := yf) (mu := mu)
    (R := acc 0) (T := acc 1) (t := t) hmu (by rw [hpt]; exact hp) (by rw [hht]; exact hh) hw
    (by rw [hpt, hht]; exact ehp) (by rw [hrt, hpt, hht]; exact dp) (by rw [hrt]; exact dh)
    (by rw [hrt, hpt, hht]; exact dx) (by rw [hrt, hpt, hht]; exact dy)
  rw [hrt, hht] at dα dβ
  rw [hht] at dρ
  have dθ : HasDerivAt θf (h / r ^ 2 - r / h * acc 2 * Real.sin (k t 4 + k t 5) /
      Real.sin (k t 2) * Real.cos (k t 2)) t := by
    refine (d4.add d5).congr_deriv ?_
    ring
  have dU := frameU_deriv (κ := h / r ^ 2) d2 d3 dθ (by change _ = _ * Real.cos (k t 4 + k t 5); field_simp; rfl) rfl j
  have dV := frameV_deriv (κ := h / r ^ 2) (l := r / h * acc 2) d2 d3 dθ rfl
    (by field_simp; rfl) rfl j
  -- the Cartesian image near `t`
  have hform : ∀ᶠ s in 𝓝 t, svPos (sv s) = (fun j => pf s / (1 + xf s) *
        frameU (k s 2) (k s 3) (θf s) j) ∧
      svVel (sv s) = (fun j => mu / hf s * yf s * frameU (k s 2) (k s 3) (θf s) j +
        mu / hf s * (1 + xf s) * frameV (k s 2) (k s 3) (θf s) j) := by
    have c0 := d0.continuousAt
    have c1 := d1.continuousAt
    have c5 := d5.continuousAt
    have o1 : ∀ᶠ s in 𝓝 t, 0 < k s 0 * mu * (1 - k s 1 ^ 2) := by
      have : ContinuousAt (fun s => k s 0 * mu * (1 - k s 1 ^ 2)) t :=
        (c0.mul continuousAt_const).mul (continuousAt_const.sub (c1.pow 2))
      exact this.eventually_const_lt S.h_pos
    have o2 : ∀ᶠ s in 𝓝 t, 0 < 1 + k s 1 * Real.cos (k s 5) := by
      have : ContinuousAt (fun s => 1 + k s 1 * Real.cos (k s 5)) t :=
        continuousAt_const.add (c1.mul (Real.continuous_cos.continuousAt.comp c5))
      exact this.eventually_const_lt hw
    filter_upwards [hsv, o1, o2] with s h1 h2 h3
    have hs := Real.sqrt_pos.2 h2
    have hq := Real.sq_sqrt h2.le
    rw [kep2sv_eq (k s) mu (by positivity) hs.ne'] at h1
    injection h1 with h1
    rw [← h1]
    simp only [svPos_mk, svVel_mk]
    constructor
    · funext j
      rw [orbPos, frameU_eq, hq]
      simp only [pf, xf, θf]
      congr 1
      field_simp
    · funext j
      rw [orbVel]
      simp only [← frameU_eq, ← frameV_eq, hf, xf, yf, θf]
      have := Real.sin_sq_add_cos_sq (k s 5)
      linear_combination (-mu / Real.sqrt (k s 0 * mu * (1 - k s 1 ^ 2)) * k s 1 *
        periQ (k s 2) (k s 3) (k s 4) j) * this
  have hformt := hform.self_of_nhds
  have hβ : 0 < mu / h * (1 + xf t) := by
    have : 0 < 1 + xf t := hw
    positivity
  obtain ⟨n1, n2, n3, n4⟩ := frame_dirs (ρ := r) (α := mu / h * yf t)
    (β := mu / h * (1 + xf t)) hr hβ (by rw [hformt.1, hrt]) (by rw [hformt.2, hht])
  constructor
  · refine HasDerivAt.congr_of_eventuallyEq ?_ (hform.mono fun s hs => congrFun hs.1 j)
    refine (dρ.mul dU).congr_deriv ?_
    rw [hformt.2, hrt, hht]
    have : mu / h * (1 + xf t) = h / r := by
      have : mu = h ^ 2 / p := by rw [ehp]; field_simp
      rw [this, ← er']
      simp only [xf]
      field_simp
    rw [this]
    field_simp
  · refine HasDerivAt.congr_of_eventuallyEq ?_ (hform.mono fun s hs => congrFun hs.2 j)
    refine ((dα.mul dU).add (dβ.mul dV)).congr_deriv ?_
    rw [n1, n2, n3, n4, hformt.1, hrt, hht]
    have : mu / h * (1 + xf t) = h / r := by
      have : mu = h ^ 2 / p := by rw [ehp]; field_simp
      rw [this, ← er']
      simp only [xf]
      field_simp
    rw [this]
    field_simp
    ring

/-- a straight curve with the prescribed rates is a motion at one instant: the hypotheses of C58 and
C59 are met at every non-circular elliptic state, for every acceleration -/
theorem exists_motion {mu : ℝ} {x : Fin 6 → ℝ} (S : KepState mu x) (acc : Fin 3 → ℝ) :
    ∃ k : ℝ → Fin 6 → ℝ, k 0 = x ∧ KepMotion mu k acc 0 := by
  let A : LyapArgs ℝ := { mu := mu, f := 1, oe := x, oeT := 0, rpmin := 1, m := 1, n := 1, r := 1,
                          b := 1, k := 1, wp := 1, woe := 0 }
  let P : OdeParams ℝ := { mu := mu, u := acc, psi0 := kepPsi A 0, psi1 := kepPsi A 1,
                           psi2 := kepPsi A 2, ptrb := 0 }
  obtain ⟨d, hd⟩ : ∃ d, eomKepGauss 0 x P = .ok d := ⟨_, eomKep_real (P := P) S 0⟩
  have h0 : (fun j => x j + 0 * d j) = x := by funext j; ring
  refine ⟨fun s j => x j + s * d j, h0, A, P, d, rfl, h0.symm, rfl, rfl, rfl, rfl, ?_, ?_, ?_⟩
  · intro i; simp [P]
  · show eomKepGauss 0 (fun j => x j + 0 * d j) P = _
    rw [h0, hd]
  · intro j
    exact (((hasDerivAt_id (0 : ℝ)).mul_const (d j)).const_add (x j)).congr_deriv (by simp)

example : KepState 1 ![1, 1 / 2, 1, 0, 0, 2] := by
  constructor <;> (simp; try norm_num)

/-! ## C59 -/

/-- at time `t` the curve `k` of MEE elements moves by `eom_mee_with_a_gauss`, with the Gauss matrix of
the control law at `k t`, under an acceleration with RTN components `acc`; the set `J` selects
the elements spoken about -/
def MeeMotion (mu : ℝ) (k : ℝ → Fin 6 → ℝ) (acc : Fin 3 → ℝ) (t : ℝ) (J : Set (Fin 6)) : Prop :=
  ∃ (A : LyapArgs ℝ) (P : OdeParams ℝ) (d : Fin 6 → ℝ), A.mu = mu ∧ A.oe = k t ∧ P.mu = mu ∧
    P.psi0 = meePsi A 0 ∧ P.psi1 = meePsi A 1 ∧ P.psi2 = meePsi A 2 ∧
    (∀ i, P.u i + P.ptrb i = acc i) ∧ eomMeeWithAGauss t (k t) P = .ok d ∧
    ∀ j ∈ J, HasDerivAt (fun s => k s j) (d j) t

/-- **C59.** The MEE image of a Keplerian motion is an MEE motion under the same acceleration:
in all six elements if `f > 0`, and in all but the semi-major axis if only `f ≠ 0`. -/
theorem C59_consistent (mu : ℝ) (k : ℝ → Fin 6 → ℝ) (acc : Fin 3 → ℝ) (t : ℝ)
    (S : KepState mu (k t)) (hi : Real.sin (k t 2) ≠ 0) (M : KepMotion mu k acc t)
    (hf : Real.cos (k t 3 + k t 4) ≠ 0) :
    MeeMotion mu (fun s => kep2meeWithA (k s)) acc t
      {j | j ≠ 0 ∨ 0 < Real.cos (k t 3 + k t 4)} := by
  obtain ⟨p, h, r, hp, hh, hr, ep, ehp, eh, er, d0, d1, d2, d3, d4, d5⟩ := M.rates S
  have hmu := S.mu
  have he := S.e0
  have hw := S.w_pos (k t 5)
  have hst := Real.sin_sq_add_cos_sq (k t 5)
  have hϖ := Real.sin_sq_add_cos_sq (k t 3 + k t 4)
  have er' : r * (1 + k t 1 * Real.cos (k t 5)) = p := by rw [er]; field_simp
  obtain ⟨m, hm⟩ : ∃ m, m = kep2meeWithA (k t) := ⟨_, rfl⟩
  have m0 : m 0 = k t 0 := by simp [hm, kep2meeWithA]
  have m1 : m 1 = k t 1 * Real.cos (k t 3 + k t 4) := by simp [hm, kep2meeWithA]
  have m2 : m 2 = k t 1 * Real.sin (k t 3 + k t 4) := by simp [hm, kep2meeWithA]
  have m3 : m 3 = Real.tan (k t 2 / 2) * Real.cos (k t 3) := by simp [hm, kep2meeWithA]
  have m4 : m 4 = Real.tan (k t 2 / 2) * Real.sin (k t 3) := by simp [hm, kep2meeWithA]
  have m5 : m 5 = k t 3 + k t 4 + k t 5 := by simp [hm, kep2meeWithA]
  have hfg : m 1 ^ 2 + m 2 ^ 2 = k t 1 ^ 2 := by
    rw [m1, m2]; linear_combination (k t 1) ^ 2 * hϖ
  have SM : MeeState mu m := by
    refine ⟨hmu, by rw [m0]; exact S.a, by rw [hfg]; have := S.e1; nlinarith, ?_⟩
    rw [m1]; exact mul_ne_zero he.ne' hf
  let B : LyapArgs ℝ := { mu := mu, f := 1, oe := m, oeT := 0, rpmin := 1, m := 1, n := 1, r := 1,
                          b := 1, k := 1, wp := 1, woe := 0 }
  have HB : MeeEllipse B := ⟨hmu, one_pos, SM.a, SM.ecc⟩
  have hBo : (B.atAnomaly (m 5)).oe = m := by
    funext j; fin_cases j <;> rfl
  let P : OdeParams ℝ :=
    { mu := mu, u := acc, psi0 := meePsi (B.atAnomaly (m 5)) 0, psi1 := meePsi (B.atAnomaly (m 5)) 1,
      psi2 := meePsi (B.atAnomaly (m 5)) 2, ptrb := 0 }
  refine ⟨B.atAnomaly (m 5), P, _, rfl, by rw [hBo, hm], rfl, rfl, rfl, rfl, by intro i; simp [P],
    by show eomMeeWithAGauss t (kep2meeWithA (k t)) P = _; rw [← hm]; exact eomMee_real (P := P) SM t, ?_⟩
  -- the quantities of the MEE equations
  have hpm : m 0 * (1 - (m 1 ^ 2 + m 2 ^ 2)) = p := by rw [hfg, m0, ep]
  have hpm' : m 0 * (1 - m 1 ^ 2 - m 2 ^ 2) = p := by rw [← hpm]; ring
  have hsp : Real.sqrt (p / mu) = p / h := by
    rw [show p / mu = (p / h) ^ 2 by rw [div_pow, ehp]; field_simp]
    exact Real.sqrt_sq (by positivity)
  have hsm : Real.sqrt (mu * p) = h := by rw [← ehp]; exact Real.sqrt_sq hh.le
  have hL : 1 + m 1 * Real.cos (m 5) + m 2 * Real.sin (m 5) = p / r := by
    have : p / r = 1 + k t 1 * Real.cos (k t 5) := by rw [← er']; field_simp
    rw [this, m1, m2, m5, Real.cos_add (k t 3 + k t 4), Real.sin_add (k t 3 + k t 4)]
    linear_combination k t 1 * Real.cos (k t 5) * hϖ
  -- half-angle facts
  have hhalf : Real.sin (k t 2) = 2 * Real.sin (k t 2 / 2) * Real.cos (k t 2 / 2) := by
    rw [← Real.sin_two_mul]; congr 1; ring
  have hc2 : Real.cos (k t 2 / 2) ≠ 0 := by
    intro h0; rw [hhalf, h0] at hi; simp at hi
  have hs2 : Real.sin (k t 2 / 2) ≠ 0 := by
    intro h0; rw [hhalf, h0] at hi; simp at hi
  have hq := Real.sin_sq_add_cos_sq (k t 2 / 2)
  have hcos : Real.cos (k t 2) = 1 - 2 * Real.sin (k t 2 / 2) ^ 2 := by
    have := Real.cos_two_mul (k t 2 / 2)
    rw [show 2 * (k t 2 / 2) = k t 2 by ring] at this
    rw [this]; linarith
  have hτ : (1 - Real.cos (k t 2)) / Real.sin (k t 2) = Real.tan (k t 2 / 2) := by
    rw [hcos, hhalf, Real.tan_eq_sin_div_cos]; field_simp; ring
  have hnode : m 3 * Real.sin (m 5) - m 4 * Real.cos (m 5) =
      Real.tan (k t 2 / 2) * Real.sin (k t 4 + k t 5) := by
    have := Real.sin_sq_add_cos_sq (k t 3)
    rw [m3, m4, m5, add_assoc, Real.sin_add (k t 3), Real.cos_add (k t 3)]
    linear_combination Real.tan (k t 2 / 2) * Real.sin (k t 4 + k t 5) * this
  have dϖ : HasDerivAt (fun s => k s 3 + k s 4) ((-(p * Real.cos (k t 5)) * acc 0 +
        (p + r) * Real.sin (k t 5) * acc 1) / (k t 1 * h) + r / h * acc 2 *
        (m 3 * Real.sin (m 5) - m 4 * Real.cos (m 5))) t := by
    refine (d3.add d4).congr_deriv ?_
    rw [hnode, ← hτ]; ring
  intro j hj
  have hpsi := meePsi_real HB (m 5)
  simp only [B] at hpsi
  simp only [hpm'] at hpsi
  rw [hL, hsp, hsm] at hpsi
  change meePsi (B.atAnomaly (m 5)) = _ at hpsi
  have hcL : Real.cos (m 5) = Real.cos (k t 3 + k t 4) * Real.cos (k t 5) -
      Real.sin (k t 3 + k t 4) * Real.sin (k t 5) := by rw [m5, Real.cos_add (k t 3 + k t 4)]
  have hsL : Real.sin (m 5) = Real.sin (k t 3 + k t 4) * Real.cos (k t 5) +
      Real.cos (k t 3 + k t 4) * Real.sin (k t 5) := by rw [m5, Real.sin_add (k t 3 + k t 4)]
  have hcL' : Real.cos (m 5) = Real.cos (k t 3) * Real.cos (k t 4 + k t 5) -
      Real.sin (k t 3) * Real.sin (k t 4 + k t 5) := by rw [m5, add_assoc, Real.cos_add (k t 3)]
  have hsL' : Real.sin (m 5) = Real.sin (k t 3) * Real.cos (k t 4 + k t 5) +
      Real.cos (k t 3) * Real.sin (k t 4 + k t 5) := by rw [m5, add_assoc, Real.sin_add (k t 3)]
  simp only [P, hpm, hsp, hsm, hL]
  -- the tangent of half the inclination
  have dτ : HasDerivAt (fun s => Real.tan (k s 2 / 2))
      ((1 + Real.tan (k t 2 / 2) ^ 2) / 2 * (r / h * acc 2 * Real.cos (k t 4 + k t 5))) t := by
    refine (HasDerivAt.comp t (Real.hasDerivAt_tan hc2) (d2.div_const 2)).congr_deriv ?_
    rw [Real.tan_eq_sin_div_cos]
    field_simp
    linear_combination (-(acc 2 * Real.cos (k t 4 + k t 5))) * hq
  have hsec : Real.tan (k t 2 / 2) * 2 = (1 + Real.tan (k t 2 / 2) ^ 2) * Real.sin (k t 2) := by
    rw [hhalf, Real.tan_eq_sin_div_cos]
    field_simp
    linear_combination -hq
  have hO := Real.sin_sq_add_cos_sq (k t 3)
  have h34 : m 3 ^ 2 + m 4 ^ 2 = Real.tan (k t 2 / 2) ^ 2 := by
    rw [m3, m4]; linear_combination Real.tan (k t 2 / 2) ^ 2 * hO
  match j with
  | 0 =>
    have hpos : 0 < Real.cos (k t 3 + k t 4) := by
      rcases hj with hj | hj
      · exact absurd rfl hj
      · exact hj
    have hm1 : 0 < m 1 := by rw [m1]; positivity
    obtain ⟨c1, c2⟩ := C44_partial HB (m 5) hm1
    have c3 : meePsi (B.atAnomaly (m 5)) 2 0 = 0 := by rw [hpsi]; rfl
    simp only [B] at c1 c2
    rw [hpm', hsm] at c1 c2
    rw [hL] at c2
    have hfun : (fun s => kep2meeWithA (k s) 0) = fun s => k s 0 := by
      funext s; simp [kep2meeWithA]
    rw [hfun]
    refine d0.congr_deriv ?_
    simp only [gaussCombine, dot3, vadd, Matrix.cons_val, Pi.zero_apply, add_zero, Nat.cast_zero]
    change meePsi (B.atAnomaly (m 5)) 0 0 = _ at c1
    change meePsi (B.atAnomaly (m 5)) 1 0 = _ at c2
    rw [c1, c2, c3, m0, m1, m2, hcL, hsL]
    linear_combination (-(2 * k t 0 ^ 2 / h * (k t 1 * Real.sin (k t 5) * acc 0))) * hϖ
  | 1 =>
    have hfun : (fun s => kep2meeWithA (k s) 1) = fun s => k s 1 * Real.cos (k s 3 + k s 4) := by
      funext s; simp [kep2meeWithA]
    rw [hfun]
    refine (d1.mul (HasDerivAt.comp t (Real.hasDerivAt_cos _) dϖ)).congr_deriv ?_
    simp only [gaussCombine, dot3, vadd, Matrix.cons_val, Pi.zero_apply, add_zero, Nat.cast_zero,
      hpsi, Function.comp]
    generalize m 3 * Real.sin (m 5) - m 4 * Real.cos (m 5) = q at *
    rw [m1, m2, hcL, hsL]
    field_simp
    ring
  | 2 =>
    have hfun : (fun s => kep2meeWithA (k s) 2) = fun s => k s 1 * Real.sin (k s 3 + k s 4) := by
      funext s; simp [kep2meeWithA]
    rw [hfun]
    refine (d1.mul (HasDerivAt.comp t (Real.hasDerivAt_sin _) dϖ)).congr_deriv ?_
    simp only [gaussCombine, dot3, vadd, Matrix.cons_val, Pi.zero_apply, add_zero, Nat.cast_zero,
      hpsi, Function.comp]
    generalize m 3 * Real.sin (m 5) - m 4 * Real.cos (m 5) = q at *
    rw [m1, m2, hcL, hsL]
    field_simp
    ring
  | 3 =>
    have hfun : (fun s => kep2meeWithA (k s) 3) =
        fun s => Real.tan (k s 2 / 2) * Real.cos (k s 3) := by
      funext s; simp [kep2meeWithA]
    rw [hfun]
    refine (dτ.mul (HasDerivAt.comp t (Real.hasDerivAt_cos _) d3)).congr_deriv ?_
    simp only [gaussCombine, dot3, vadd, Matrix.cons_val, Pi.zero_apply, add_zero, Nat.cast_zero,
      hpsi, Function.comp, add_assoc 1 (m 3 ^ 2), h34]
    rw [hcL']
    generalize Real.tan (k t 2 / 2) = τ at *
    field_simp
    linear_combination (-(r * acc 2 * Real.sin (k t 4 + k t 5) * Real.sin (k t 3))) * hsec
  | 4 =>
    have hfun : (fun s => kep2meeWithA (k s) 4) =
        fun s => Real.tan (k s 2 / 2) * Real.sin (k s 3) := by
      funext s; simp [kep2meeWithA]
    rw [hfun]
    refine (dτ.mul (HasDerivAt.comp t (Real.hasDerivAt_sin _) d3)).congr_deriv ?_
    simp only [gaussCombine, dot3, vadd, Matrix.cons_val, Pi.zero_apply, add_zero, Nat.cast_zero,
      hpsi, Function.comp, add_assoc 1 (m 3 ^ 2), h34]
    rw [hsL']
    generalize Real.tan (k t 2 / 2) = τ at *
    field_simp
    linear_combination (r * acc 2 * Real.sin (k t 4 + k t 5) * Real.cos (k t 3)) * hsec
  | 5 =>
    have hfun : (fun s => kep2meeWithA (k s) 5) = fun s => k s 3 + k s 4 + k s 5 := by
      funext s; simp [kep2meeWithA]
    rw [hfun]
    refine (dϖ.add d5).congr_deriv ?_
    simp only [gaussCombine, dot3, vadd, Matrix.cons_val, Pi.zero_apply, add_zero, Nat.cast_zero,
      zero_mul, zero_add]
    generalize m 3 * Real.sin (m 5) - m 4 * Real.cos (m 5) = q at *
    field_simp
    ring

/-- a concrete Keplerian motion, and its MEE image, for the acceleration `(1, -2, 3)` -/
example : ∃ k : ℝ → Fin 6 → ℝ, KepMotion 1 k ![1, -2, 3] 0 ∧
    MeeMotion 1 (fun s => kep2meeWithA (k s)) ![1, -2, 3] 0 Set.univ := by
  have S : KepState 1 ![1, 1 / 2, 1, 0, 0, 2] := by
    constructor <;> (simp; try norm_num)
  obtain ⟨k, h0, M⟩ := exists_motion S ![1, -2, 3]
  have hc : Real.cos (k 0 3 + k 0 4) = 1 := by rw [h0]; simp
  have hs : Real.sin (k 0 2) ≠ 0 := by
    rw [h0]
    exact (Real.sin_pos_of_pos_of_lt_pi (by simp) (by have := Real.pi_gt_three; simp; linarith)).ne'
  refine ⟨k, M, ?_⟩
  have := C59_consistent 1 k _ 0 (by rw [h0]; exact S) hs M (by rw [hc]; exact one_ne_zero)
  rw [hc] at this
  rwa [show {j : Fin 6 | j ≠ 0 ∨ (0 : ℝ) < 1} = Set.univ by ext j; simp] at this

end PyQ
