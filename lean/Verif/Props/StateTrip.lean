import Verif.Props.Cartesian

/-! # C90: Cartesian states through Keplerian elements and back -/

set_option linter.unusedSectionVars false

namespace PyQ

/-- an angle in `(-π, π]` with the given cosine and sine -/
theorem exists_angle_pi (x y : ℝ) (h : x ^ 2 + y ^ 2 = 1) :
    ∃ θ, -Real.pi < θ ∧ θ ≤ Real.pi ∧ Real.cos θ = x ∧ Real.sin θ = y := by
  obtain ⟨h1, h2⟩ := arg_sincos x y (by rw [h]; exact one_ne_zero)
  rw [h, Real.sqrt_one, div_one] at h1 h2
  exact ⟨_, Complex.neg_pi_lt_arg _, Complex.arg_le_pi _, h1, h2⟩

/-- an angle in `[0, 2π)` with the given cosine and sine -/
theorem exists_angle_two_pi (x y : ℝ) (h : x ^ 2 + y ^ 2 = 1) :
    ∃ θ, 0 ≤ θ ∧ θ < 2 * Real.pi ∧ Real.cos θ = x ∧ Real.sin θ = y := by
  obtain ⟨θ, h1, h2, h3, h4⟩ := exists_angle_pi x y h
  have hpi := Real.pi_pos
  rcases lt_or_ge θ 0 with hn | hp
  · exact ⟨θ + 2 * Real.pi, by linarith, by linarith, by rw [Real.cos_add_two_pi, h3],
      by rw [Real.sin_add_two_pi, h4]⟩
  · exact ⟨θ, hp, by linarith, h3, h4⟩

/-- the node frame is a basis: components along `N`, `M` and the normal recover a vector -/
theorem frame_complete (i O w : ℝ) (a : Fin 3 → ℝ) (j : Fin 3) :
    dot3 a (periP i O w) * periP i O w j + dot3 a (periQ i O w) * periQ i O w j +
      dot3 a (periW i O) * periW i O j = a j := by
  have h1 := Real.sin_sq_add_cos_sq i
  have h2 := Real.sin_sq_add_cos_sq O
  have h3 := Real.sin_sq_add_cos_sq w
  have c1 : Real.cos i ^ 2 = 1 - Real.sin i ^ 2 := by linarith
  have c2 : Real.cos O ^ 2 = 1 - Real.sin O ^ 2 := by linarith
  have c3 : Real.cos w ^ 2 = 1 - Real.sin w ^ 2 := by linarith
  fin_cases j <;> simp [dot3, periP, periQ, periW] <;> ring_nf <;> simp only [c1, c2, c3] <;> ring

/-- a unit vector of the plane with normal `periW i O` is at some angle from the frame at `w` -/
theorem in_plane (i O w : ℝ) (u : Fin 3 → ℝ) (hu : dot3 u u = 1) (hW : dot3 u (periW i O) = 0) :
    dot3 u (periP i O w) ^ 2 + dot3 u (periQ i O w) ^ 2 = 1 ∧
    ∀ j, u j = dot3 u (periP i O w) * periP i O w j + dot3 u (periQ i O w) * periQ i O w j := by
  have hc := frame_complete i O w u
  have hj : ∀ j, u j = dot3 u (periP i O w) * periP i O w j + dot3 u (periQ i O w) * periQ i O w j := by
    intro j; have := hc j; rw [hW] at this; linarith
  refine ⟨?_, hj⟩
  have : dot3 u u = dot3 u (periP i O w) * dot3 u (periP i O w) +
      dot3 u (periQ i O w) * dot3 u (periQ i O w) := by
    have e0 := hj 0
    have e1 := hj 1
    have e2 := hj 2
    simp only [dot3] at e0 e1 e2 ⊢
    linear_combination u 0 * e0 + u 1 * e1 + u 2 * e2
  rw [hu] at this; linarith

theorem periP_node (i O w : ℝ) (j : Fin 3) :
    Real.cos w * periP i O 0 j + Real.sin w * periQ i O 0 j = periP i O w j := by
  fin_cases j <;> simp [periP, periQ] <;> ring

theorem periW_perp (i O w : ℝ) : dot3 (periP i O w) (periW i O) = 0 ∧
    dot3 (periQ i O w) (periW i O) = 0 := by
  rw [← periPxQ i O w]
  exact ⟨dot3_cross3_left _ _, dot3_cross3_right _ _⟩

/-- the code's eccentricity vector -/
noncomputable def eccVec (r v : Fin 3 → ℝ) (mu : ℝ) : Fin 3 → ℝ :=
  vsub (vsmul (1 / mu) (cross3 v (cross3 r v))) (vdivs r (norm3 r))

theorem getEccentricity_real (s : Fin 6 → ℝ) {mu : ℝ} (hmu : mu ≠ 0) :
    getEccentricity s mu = .ok (eccVec (svPos s) (svVel s) mu) := by
  simp only [getEccentricity, Nat.cast_one]
  rw [ndiv_real hmu]
  rfl

theorem sv_eta (s : Fin 6 → ℝ) :
    s = ![svPos s 0, svPos s 1, svPos s 2, svVel s 0, svVel s 1, svVel s 2] := by
  funext j; fin_cases j <;> simp [svPos, svVel]

/-- every state with non-zero energy and eccentricity whose angular momentum is `h` along the normal
of the plane `(i, Ω)` has elements in that plane -/
theorem elements_of_plane (s : Fin 6 → ℝ) (mu : ℝ) (hmu : 0 < mu) (hE : energy s mu ≠ 0)
    {h i O : ℝ} (hh : 0 < h) (hW : cross3 (svPos s) (svVel s) = vsmul h (periW i O))
    (hev : eccVec (svPos s) (svVel s) mu ≠ 0) :
    ∃ k : Fin 6 → ℝ, k 2 = i ∧ k 3 = O ∧ 0 < k 1 ∧ 0 ≤ k 4 ∧ k 4 < 2 * Real.pi ∧
      -Real.pi < k 5 ∧ k 5 ≤ Real.pi ∧ OrbitPoint k mu ∧ mu * semiLatus k = h ^ 2 ∧
      kep2sv k mu = .ok s := by
  obtain ⟨ev', hg, hnsq⟩ := ecc_norm_sq s mu hmu (by
    intro e
    rw [e, cross3_zero_left] at hW
    have := congrArg (fun v => dot3 v v) hW
    simp only [dot3_smul_left, dot3_smul_right, periW_sq] at this
    simp [dot3] at this
    exact hh.ne' this)
  rw [getEccentricity_real s hmu.ne'] at hg
  injection hg with hg
  subst hg
  have hsv := sv_eta s
  have hr0 : svPos s ≠ 0 := by
    intro e
    rw [e, cross3_zero_left] at hW
    have := congrArg (fun v => dot3 v v) hW
    simp only [dot3_smul_left, dot3_smul_right, periW_sq] at this
    simp [dot3] at this
    exact hh.ne' this
  have hhn : norm3 (cross3 (svPos s) (svVel s)) = h := by
    rw [hW, norm3_smul_pos hh.le (periW_sq _ _)]
  rw [hhn] at hnsq
  have hrn := norm3_pos hr0
  have hrsq := norm3_sq (svPos s)
  have hen := norm3_pos hev
  have hesq := norm3_sq (eccVec (svPos s) (svVel s) mu)
  generalize hr : svPos s = r at *
  generalize hv : svVel s = v at *
  generalize hed : eccVec r v mu = E at *
  generalize hρ : norm3 r = ρ at *
  generalize he : norm3 E = e at *
  -- perpendicular to the normal
  have hrW : dot3 r (periW i O) = 0 := by
    have := dot3_cross3_left r v
    rw [hW, dot3_smul_right] at this
    exact (mul_eq_zero.1 this).resolve_left hh.ne'
  have hvW : dot3 v (periW i O) = 0 := by
    have := dot3_cross3_right r v
    rw [hW, dot3_smul_right] at this
    exact (mul_eq_zero.1 this).resolve_left hh.ne'
  have hEj : ∀ j, E j = 1 / mu * cross3 v (vsmul h (periW i O)) j - r j / ρ := by
    intro j; rw [← hed, eccVec, hW, hρ]; rfl
  have hEW : dot3 E (periW i O) = 0 := by
    have h1 : dot3 (cross3 v (vsmul h (periW i O))) (periW i O) = 0 := by
      rw [cross3_smul_right, dot3_smul_left, dot3_comm, dot3_cross3_right, mul_zero]
    simp only [dot3] at h1 hrW ⊢
    rw [hEj 0, hEj 1, hEj 2]
    linear_combination (1 / mu) * h1 - (1 / ρ) * hrW
  -- argument of periapsis
  obtain ⟨hx1, hxj⟩ := in_plane i O 0 (vsmul (1 / e) E)
    (by rw [dot3_smul_left, dot3_smul_right, ← hesq]; field_simp)
    (by rw [dot3_smul_left, hEW, mul_zero])
  obtain ⟨w, hw0, hw1, hwc, hws⟩ := exists_angle_two_pi _ _ hx1
  have hEP : E = vsmul e (periP i O w) := by
    funext j
    have := hxj j
    rw [← hwc, ← hws, periP_node] at this
    simp only [vsmul] at this ⊢
    rw [← this]; field_simp
  -- true anomaly
  obtain ⟨ht1, htj⟩ := in_plane i O w (vsmul (1 / ρ) r)
    (by rw [dot3_smul_left, dot3_smul_right, ← hrsq]; field_simp)
    (by rw [dot3_smul_left, hrW, mul_zero])
  obtain ⟨θ, hθ0, hθ1, hθc, hθs⟩ := exists_angle_pi _ _ ht1
  have hrP : ∀ j, r j = ρ * (Real.cos θ * periP i O w j + Real.sin θ * periQ i O w j) := by
    intro j
    have := htj j
    rw [← hθc, ← hθs] at this
    simp only [vsmul] at this
    rw [← this]; field_simp
  have hrPd : dot3 r (periP i O w) = ρ * Real.cos θ := by
    rw [hθc, dot3_smul_left]; field_simp
  have hconic : ρ * (1 + e * Real.cos θ) = h ^ 2 / mu := by
    have h1 : dot3 r E = e * (ρ * Real.cos θ) := by rw [hEP, dot3_smul_right, hrPd]
    have h2 : dot3 r (cross3 v (vsmul h (periW i O))) = h ^ 2 := by
      rw [← dot3_cross3_cyc, hW, dot3_smul_left, dot3_smul_right, periW_sq]; ring
    have h3 : dot3 r E = 1 / mu * h ^ 2 - ρ := by
      have h4 : dot3 r r / ρ = ρ := by rw [← hrsq]; field_simp
      rw [← h2, ← h4]
      simp only [dot3]
      rw [hEj 0, hEj 1, hEj 2]
      ring
    rw [h1] at h3
    linear_combination h3
  have hwpos : 0 < 1 + e * Real.cos θ := by
    have : 0 < ρ * (1 + e * Real.cos θ) := by rw [hconic]; positivity
    exact (mul_pos_iff_of_pos_left hrn).1 this
  have hvel : v = orbVel (mu / h) e i O w θ := by
    have hx : ∀ j, cross3 v (periW i O) j = mu / h *
        ((e + Real.cos θ) * periP i O w j + Real.sin θ * periQ i O w j) := by
      intro j
      have h1 := hEj j
      rw [cross3_smul_right, hEP, hrP j] at h1
      simp only [vsmul] at h1
      field_simp at h1 ⊢
      linear_combination -h1
    have hb : ∀ j, cross3 (periW i O) (cross3 v (periW i O)) j = v j := by
      intro j
      have hs := periW_sq i O
      generalize periW i O = W at hvW hs ⊢
      simp only [dot3] at hs hvW
      fin_cases j <;> simp [cross3]
      · linear_combination v 0 * hs - W 0 * hvW
      · linear_combination v 1 * hs - W 1 * hvW
      · linear_combination v 2 * hs - W 2 * hvW
    have hP := periPxW i O w
    have hQ := periQxW i O w
    have p0 := congrFun hP 0
    have p1 := congrFun hP 1
    have p2 := congrFun hP 2
    have q0 := congrFun hQ 0
    have q1 := congrFun hQ 1
    have q2 := congrFun hQ 2
    simp [cross3, vsmul] at p0 p1 p2 q0 q1 q2
    have hx0 := hx 0
    have hx1 := hx 1
    have hx2 := hx 2
    funext j
    rw [← hb j]
    generalize cross3 v (periW i O) = X at hx0 hx1 hx2 ⊢
    fin_cases j <;> simp [cross3, orbVel]
    · rw [hx1, hx2]
      linear_combination (-(mu / h) * (e + Real.cos θ)) * p0 - (mu / h * Real.sin θ) * q0
    · rw [hx0, hx2]
      linear_combination (-(mu / h) * (e + Real.cos θ)) * p1 - (mu / h * Real.sin θ) * q1
    · rw [hx0, hx1]
      linear_combination (-(mu / h) * (e + Real.cos θ)) * p2 - (mu / h * Real.sin θ) * q2
  have he1 : 1 - e ^ 2 ≠ 0 := by
    rw [hnsq]
    have : 1 - (1 + 2 * energy s mu * h ^ 2 / mu ^ 2) = -(2 * energy s mu * h ^ 2 / mu ^ 2) := by ring
    rw [this, neg_ne_zero]
    exact div_ne_zero (mul_ne_zero (mul_ne_zero two_ne_zero hE) (by positivity)) (by positivity)
  have hsl : semiLatus ![h ^ 2 / mu / (1 - e ^ 2), e, i, O, w, θ] = h ^ 2 / mu := by
    simp only [semiLatus, Matrix.cons_val]
    exact div_mul_cancel₀ _ he1
  have H : OrbitPoint ![h ^ 2 / mu / (1 - e ^ 2), e, i, O, w, θ] mu :=
    ⟨hmu, by rw [hsl]; positivity, hwpos⟩
  refine ⟨![h ^ 2 / mu / (1 - e ^ 2), e, i, O, w, θ], rfl, rfl, hen, hw0, hw1, hθ0, hθ1, H, ?_, ?_⟩
  · rw [hsl]; field_simp
  · obtain ⟨h', r', v', hk, hh', -, hs', hr', hv'⟩ := kep2sv_orbit H
    have hh'' : h' = h := by
      rw [hs', hsl, show mu * (h ^ 2 / mu) = h ^ 2 by field_simp]
      exact Real.sqrt_sq hh.le
    rw [hk]
    congr 1
    rw [hsv]
    simp only [Matrix.cons_val] at hr' hv'
    rw [hh''] at hv'
    have : r' = r := by
      rw [hr', hsl, ← hconic]
      funext j
      rw [hrP j, orbPos, mul_div_assoc, div_self hwpos.ne', mul_one]
    rw [this, hv', ← hvel]

/-- a vector that is not vertical is a positive multiple of the normal of an inclined plane -/
theorem exists_plane (H : Fin 3 → ℝ) (hn : H 0 ^ 2 + H 1 ^ 2 ≠ 0) :
    ∃ i O, 0 < i ∧ i < Real.pi ∧ -Real.pi < O ∧ O ≤ Real.pi ∧ H = vsmul (norm3 H) (periW i O) ∧
      norm3 H * Real.sin i = Real.sqrt (H 0 ^ 2 + H 1 ^ 2) := by
  have hd : norm3 H ^ 2 = H 0 ^ 2 + H 1 ^ 2 + H 2 ^ 2 := by rw [norm3_sq]; simp only [dot3]; ring
  have h0 : 0 < H 0 ^ 2 + H 1 ^ 2 := lt_of_le_of_ne (by positivity) (Ne.symm hn)
  have hne : H ≠ 0 := by rintro rfl; simp at hn
  have hp := norm3_pos hne
  have hlt : |H 2| < norm3 H := by
    apply abs_lt_of_sq_lt_sq _ hp.le
    rw [hd]; linarith
  rw [abs_lt] at hlt
  have hl : -1 < H 2 / norm3 H := by rw [lt_div_iff₀ hp]; linarith
  have hu : H 2 / norm3 H < 1 := by rw [div_lt_one hp]; linarith
  have hc : Real.cos (Real.arccos (H 2 / norm3 H)) = H 2 / norm3 H := Real.cos_arccos hl.le hu.le
  have hs : norm3 H * Real.sin (Real.arccos (H 2 / norm3 H)) = Real.sqrt (H 0 ^ 2 + H 1 ^ 2) := by
    rw [Real.sin_arccos]
    have : H 0 ^ 2 + H 1 ^ 2 = norm3 H ^ 2 * (1 - (H 2 / norm3 H) ^ 2) := by
      field_simp; linarith
    rw [this, Real.sqrt_mul (by positivity), Real.sqrt_sq hp.le]
  have hsq := Real.sq_sqrt h0.le
  have hsp := Real.sqrt_pos.2 h0
  obtain ⟨O, hO1, hO2, hOc, hOs⟩ := exists_angle_pi (-H 1 / Real.sqrt (H 0 ^ 2 + H 1 ^ 2))
    (H 0 / Real.sqrt (H 0 ^ 2 + H 1 ^ 2)) (by rw [div_pow, div_pow, hsq]; field_simp; ring)
  refine ⟨Real.arccos (H 2 / norm3 H), O, Real.arccos_pos.2 hu, ?_, hO1, hO2, ?_, hs⟩
  · rcases lt_or_eq_of_le (Real.arccos_le_pi (H 2 / norm3 H)) with h | h
    · exact h
    · rw [Real.arccos_eq_pi] at h; linarith
  · funext j
    fin_cases j <;> simp [vsmul, periW]
    · rw [← mul_assoc, hs, hOs]; field_simp
    · rw [← mul_assoc, hs, hOc]; field_simp
    · rw [hc]; field_simp

/-- horizontal part of the angular momentum, the length of the code's node vector -/
noncomputable def nodeLen (s : Fin 6 → ℝ) : ℝ :=
  Real.sqrt (cross3 (svPos s) (svVel s) 0 ^ 2 + cross3 (svPos s) (svVel s) 1 ^ 2)

/-- C90, the part that holds: outside the code's guard against equatorial and circular orbits, a state
of any ellipse or hyperbola is recovered from its elements. -/
theorem C90_trip_partial (s : Fin 6 → ℝ) (mu : ℝ) (hmu : 0 < mu) (hE : energy s mu ≠ 0)
    {ecc : Fin 3 → ℝ} (he : getEccentricity s mu = .ok ecc)
    (hguard : 1 / 10 ^ 12 ≤ nodeLen s * norm3 ecc) :
    ∃ k, sv2kep s mu = .ok k ∧ kep2sv k mu = .ok s := by
  rw [getEccentricity_real s hmu.ne'] at he
  injection he with he
  have hpos : 0 < nodeLen s * norm3 ecc := lt_of_lt_of_le (by positivity) hguard
  have hnl : nodeLen s ≠ 0 := by rintro h; rw [h, zero_mul] at hpos; exact lt_irrefl _ hpos
  have hec : norm3 ecc ≠ 0 := by rintro h; rw [h, mul_zero] at hpos; exact lt_irrefl _ hpos
  have hn0 : cross3 (svPos s) (svVel s) 0 ^ 2 + cross3 (svPos s) (svVel s) 1 ^ 2 ≠ 0 := by
    intro h; apply hnl; rw [nodeLen, h, Real.sqrt_zero]
  obtain ⟨i, O, hi0, hi1, hO1, hO2, hW, hsin⟩ := exists_plane _ hn0
  have hh : 0 < norm3 (cross3 (svPos s) (svVel s)) := by
    apply norm3_pos; intro h; rw [h] at hn0; simp at hn0
  have hev : eccVec (svPos s) (svVel s) mu ≠ 0 := by
    rw [he]; intro h; exact hec (norm3_eq_zero.2 h)
  obtain ⟨k, rfl, rfl, h1, h2, h3, h4, h5, H, hp, hk⟩ := elements_of_plane s mu hmu hE hh hW hev
  refine ⟨k, ?_, hk⟩
  obtain ⟨sv, hk', hev', hen, hn⟩ := sma_ecc H h1.le
  rw [hk] at hk'
  injection hk' with hk'
  subst hk'
  rw [getEccentricity_real s hmu.ne', he] at hen
  injection hen with hen
  obtain ⟨sv, hk', hr⟩ := C49_any_conic k mu H h1 hi0 hi1 hO1 hO2 h2 h3 h4 h5 (by
    change _ ≤ Real.sqrt (mu * semiLatus k) * _ * _
    rw [hp, Real.sqrt_sq hh.le, hsin]
    rw [hen, hn] at hguard
    exact hguard)
  rw [hk] at hk'
  injection hk' with hk'
  rw [hk']; exact hr

theorem zdir_cross (h : ℝ) (i O : ℝ) :
    cross3 ![((0 : ℕ) : ℝ), ((0 : ℕ) : ℝ), ((1 : ℕ) : ℝ)] (vsmul h (periW i O)) =
      vsmul (h * Real.sin i) ![Real.cos O, Real.sin O, 0] := by
  funext j; fin_cases j <;> simp [cross3, vsmul, periW] <;> ring

/-- inside the guard the code measures periapsis from the x-axis -/
theorem omega_guarded (s : Fin 6 → ℝ) {mu : ℝ} (hmu : mu ≠ 0)
    (hg : norm3 (cross3 ![((0 : ℕ) : ℝ), ((0 : ℕ) : ℝ), ((1 : ℕ) : ℝ)]
      (cross3 (svPos s) (svVel s))) * norm3 (eccVec (svPos s) (svVel s) mu) = 0) :
    getOmega s mu = .ok (Complex.arg
      ⟨eccVec (svPos s) (svVel s) mu 0, eccVec (svPos s) (svVel s) mu 1⟩) := by
  simp only [eccVec] at *
  rw [Nat.cast_one] at hg
  simp only [getOmega, Nat.cast_one]
  rw [ndiv_real hmu]
  simp only [bind, Except.bind, pure, Except.pure]
  rw [hg, if_neg]
  · rfl
  · simp only [le_real, abs_real, decide_eq_true_eq, rat_real, abs_zero]
    norm_num

/-- C90, equatorial orbits flown anticlockwise: the state of any eccentric ellipse or hyperbola is
recovered, the node being put on the x-axis. -/
theorem C90_equatorial_partial (s : Fin 6 → ℝ) (mu : ℝ) (hmu : 0 < mu) (hz : s 2 = 0)
    (hvz : s 5 = 0) (hh : 0 < s 0 * s 4 - s 1 * s 3) (hE : energy s mu ≠ 0)
    {ecc : Fin 3 → ℝ} (he : getEccentricity s mu = .ok ecc) (hne : ecc ≠ 0) :
    ∃ k, sv2kep s mu = .ok k ∧ kep2sv k mu = .ok s ∧ k 2 = 0 ∧ k 3 = 0 := by
  rw [getEccentricity_real s hmu.ne'] at he
  injection he with he
  have hW : cross3 (svPos s) (svVel s) = vsmul (s 0 * s 4 - s 1 * s 3) (periW 0 0) := by
    funext j; fin_cases j <;> simp [cross3, svPos, svVel, vsmul, periW, hz, hvz]
  generalize hhd : s 0 * s 4 - s 1 * s 3 = h at *
  obtain ⟨k, h2, h3, he0, -, -, h4, h5, H, hp, hk⟩ := elements_of_plane s mu hmu hE hh hW
    (by rw [he]; exact hne)
  have hpi := Real.pi_pos
  have hinc := inclination_orbit H hk (by rw [h2]) (by rw [h2]; exact hpi.le)
  have hta := trueanom_orbit H hk he0 h4 h5
  obtain ⟨sv, hk', hsma, hecc, hn⟩ := sma_ecc H he0.le
  rw [hk] at hk'
  injection hk' with hk'
  subst hk'
  have hz0 := zdir_cross h 0 0
  have hzero : vsmul (h * Real.sin 0) ![Real.cos 0, Real.sin 0, 0] = 0 := by
    funext j; fin_cases j <;> simp [vsmul]
  rw [hzero] at hz0
  have hraan : getRaan s = k 3 := by
    simp only [getRaan, hW, hz0, arctan2_real, h3]
    exact arg_zero_zero
  have hom := omega_guarded s hmu.ne' (by
    rw [hW, hz0, show norm3 (0 : Fin 3 → ℝ) = 0 from norm3_eq_zero.2 rfl, zero_mul])
  rw [getEccentricity_real s hmu.ne'] at hecc
  injection hecc with hecc
  obtain ⟨n, hn'⟩ := arg_polar_mod he0 (k 4)
  have hom' : getOmega s mu = .ok (k 4 + n * (2 * Real.pi)) := by
    rw [hom, hecc, ← hn', h2, h3]
    simp [vsmul, periP]
  refine ⟨![k 0, k 1, k 2, k 3, k 4 + n * (2 * Real.pi), k 5], ?_, ?_, h2, h3⟩
  · simp only [sv2kep, hsma, getEccentricity_real s hmu.ne', hecc, hinc, hraan, hom', hta, hn, bind,
      Except.bind, pure, Except.pure]
  · rw [← hk]
    have := kep2sv_turns k mu H 0 n 0
    simpa using this

/-- the elements computed for a state of a circular orbit -/
theorem sv2kep_circular (s : Fin 6 → ℝ) (mu : ℝ) (hmu : 0 < mu)
    (hh : cross3 (svPos s) (svVel s) ≠ 0) (he : getEccentricity s mu = .ok 0) :
    ∃ i, getInclination s = .ok i ∧ sv2kep s mu =
      .ok ![norm3 (cross3 (svPos s) (svVel s)) ^ 2 / mu, 0, i, getRaan s, 0, 0] := by
  have hg := he
  rw [getEccentricity_real s hmu.ne'] at he
  injection he with he
  have hr0 : svPos s ≠ 0 := by intro e; apply hh; rw [e, cross3_zero_left]
  have hrn := norm3_pos hr0
  have hn := norm3_pos hh
  have hom := omega_guarded s hmu.ne' (by
    rw [he, show norm3 (0 : Fin 3 → ℝ) = 0 from norm3_eq_zero.2 rfl, mul_zero])
  rw [he] at hom
  have hom' : getOmega s mu = .ok 0 := by rw [hom]; exact congrArg _ arg_zero_zero
  have hsma : getSemiMajorAxis s mu =
      .ok (norm3 (cross3 (svPos s) (svVel s)) ^ 2 / (mu * (1 - 0 ^ 2))) := by
    simp only [getSemiMajorAxis, hg, bind, Except.bind, Nat.cast_one]
    rw [show norm3 (0 : Fin 3 → ℝ) = 0 from norm3_eq_zero.2 rfl, ndiv_real (by simpa using hmu.ne')]
  have hinc : ∃ i, getInclination s = .ok i := by
    simp only [getInclination]
    rw [ndiv_real hn.ne']
    exact ⟨_, rfl⟩
  obtain ⟨i, hinc⟩ := hinc
  -- the two components of the eccentricity vector that fix the anomaly
  have hrsq := norm3_sq (svPos s)
  have e1 : dot3 (svPos s) (eccVec (svPos s) (svVel s) mu) =
      norm3 (cross3 (svPos s) (svVel s)) ^ 2 / mu - norm3 (svPos s) := by
    have h4 : dot3 (svPos s) (svPos s) / norm3 (svPos s) = norm3 (svPos s) := by
      rw [← hrsq]; field_simp
    have h5 : dot3 (svPos s) (cross3 (svVel s) (cross3 (svPos s) (svVel s))) =
        norm3 (cross3 (svPos s) (svVel s)) ^ 2 := by
      rw [← dot3_cross3_cyc, norm3_sq]
    rw [← h5]
    conv_rhs => rw [← h4]
    simp only [dot3, eccVec, vsub, vsmul, vdivs]
    ring
  have e2 : dot3 (svVel s) (eccVec (svPos s) (svVel s) mu) =
      -(dot3 (svVel s) (svPos s) / norm3 (svPos s)) := by
    have h5 := dot3_cross3_left (svVel s) (cross3 (svPos s) (svVel s))
    have : dot3 (svVel s) (eccVec (svPos s) (svVel s) mu) =
        1 / mu * dot3 (svVel s) (cross3 (svVel s) (cross3 (svPos s) (svVel s))) -
          dot3 (svVel s) (svPos s) / norm3 (svPos s) := by
      simp only [dot3, eccVec, vsub, vsmul, vdivs]
      ring
    rw [this, h5]; ring
  have z : ∀ v : Fin 3 → ℝ, dot3 v 0 = 0 := by intro v; simp [dot3]
  rw [he, z] at e1 e2
  have hvr : dot3 (svVel s) (svPos s) / norm3 (svPos s) = 0 := by linarith
  have hq : norm3 (cross3 (svPos s) (svVel s)) ^ 2 / norm3 (svPos s) - mu = 0 := by
    field_simp at e1 ⊢
    linarith
  have hta : getTrueanom s mu = .ok 0 := by
    simp only [getTrueanom]
    rw [ndiv_real hrn.ne', ndiv_real hrn.ne']
    simp only [bind, Except.bind, pure, Except.pure, arctan2_real, hvr, hq, mul_zero]
    exact congrArg _ arg_zero_zero
  refine ⟨i, hinc, ?_⟩
  simp only [sv2kep, hsma, hg, hinc, hom', hta, bind, Except.bind, pure, Except.pure]
  rw [show norm3 (0 : Fin 3 → ℝ) = 0 from norm3_eq_zero.2 rfl]
  simp

/-- C90: every state of a circular orbit is given argument of periapsis and true anomaly zero, so the
position on the orbit is lost. -/
theorem C90_circular_forgets (s : Fin 6 → ℝ) (mu : ℝ) (hmu : 0 < mu)
    (hh : cross3 (svPos s) (svVel s) ≠ 0) (he : getEccentricity s mu = .ok 0) :
    ∃ k, sv2kep s mu = .ok k ∧ k 1 = 0 ∧ k 4 = 0 ∧ k 5 = 0 := by
  obtain ⟨i, -, h⟩ := sv2kep_circular s mu hmu hh he
  exact ⟨_, h, rfl, rfl, rfl⟩

/-- C90 is violated on circular orbits: a quarter turn from the x-axis on the unit circle. -/
theorem C90_violated : getEccentricity ![0, 1, 0, -1, 0, (0 : ℝ)] 1 = .ok 0 ∧
    ∃ k s', sv2kep ![0, 1, 0, -1, 0, (0 : ℝ)] 1 = .ok k ∧
    kep2sv k 1 = .ok s' ∧ svPos s' = ![1, 0, 0] ∧ svPos s' ≠ svPos ![0, 1, 0, -1, 0, (0 : ℝ)] := by
  have hp : svPos ![0, 1, 0, -1, 0, (0 : ℝ)] = ![0, 1, 0] := by
    funext j; fin_cases j <;> rfl
  have hv : svVel ![0, 1, 0, -1, 0, (0 : ℝ)] = ![-1, 0, 0] := by
    funext j; fin_cases j <;> rfl
  have hc : cross3 ![0, 1, (0 : ℝ)] ![-1, 0, 0] = ![0, 0, 1] := by
    funext j; fin_cases j <;> simp [cross3]
  have hn1 : norm3 ![0, 0, (1 : ℝ)] = 1 := by simp [norm3]
  have he : getEccentricity ![0, 1, 0, -1, 0, (0 : ℝ)] 1 = .ok 0 := by
    rw [getEccentricity_real _ one_ne_zero, hp, hv, eccVec, hc]
    congr 1
    funext j; fin_cases j <;> simp [vsub, vsmul, vdivs, cross3, norm3]
  obtain ⟨i, hi, hk⟩ := sv2kep_circular ![0, 1, 0, -1, 0, (0 : ℝ)] 1 one_pos (by
    rw [hp, hv, hc]; intro h; have := congrFun h 2; simp at this) he
  rw [hp, hv, hc, hn1] at hk
  have hi0 : i = 0 := by
    simp only [getInclination, hp, hv, hc, hn1] at hi
    rw [ndiv_real one_ne_zero] at hi
    simp only [bind, Except.bind, pure, Except.pure] at hi
    injection hi with hi
    rw [← hi]; simp
  have hO : getRaan ![0, 1, 0, -1, 0, (0 : ℝ)] = 0 := by
    simp only [getRaan, hp, hv, hc, arctan2_real]
    refine (congrArg Complex.arg ?_).trans arg_zero_zero
    apply Complex.ext <;> simp [cross3]
  rw [hi0, hO] at hk
  refine ⟨he, _, _, hk, kep2sv_eq _ 1 (by simp) (by simp), ?_, ?_⟩
  · rw [svPos_mk]
    funext j; fin_cases j <;> simp [orbPos, periP, periQ]
  · rw [svPos_mk, hp]
    intro h
    have := congrFun h 1
    simp [orbPos, periP, periQ] at this

/-- C90 is violated on eccentric equatorial orbits flown clockwise: periapsis on the positive y-axis
comes back on the negative y-axis. -/
theorem C90_retrograde_violated : ∃ k s', sv2kep ![0, 1, 0, 5 / 4, 0, (0 : ℝ)] 1 = .ok k ∧
    kep2sv k 1 = .ok s' ∧ svPos ![0, 1, 0, 5 / 4, 0, (0 : ℝ)] = ![0, 1, 0] ∧
    svPos s' = ![0, -1, 0] := by
  have hp : svPos ![0, 1, 0, 5 / 4, 0, (0 : ℝ)] = ![0, 1, 0] := by
    funext j; fin_cases j <;> rfl
  have hv : svVel ![0, 1, 0, 5 / 4, 0, (0 : ℝ)] = ![5 / 4, 0, 0] := by
    funext j; fin_cases j <;> rfl
  have hc : cross3 ![0, 1, (0 : ℝ)] ![5 / 4, 0, 0] = ![0, 0, -(5 / 4)] := by
    funext j; fin_cases j <;> simp [cross3]
  have hn1 : norm3 ![0, 0, (-(5 / 4) : ℝ)] = 5 / 4 := by
    simp only [norm3]
    rw [show ((![0, 0, (-(5 / 4) : ℝ)] : Fin 3 → ℝ) 0 ^ 2 + (![0, 0, (-(5 / 4) : ℝ)] : Fin 3 → ℝ) 1 ^ 2 +
      (![0, 0, (-(5 / 4) : ℝ)] : Fin 3 → ℝ) 2 ^ 2) = (5 / 4) ^ 2 by simp]
    exact Real.sqrt_sq (by norm_num)
  have hr1 : norm3 ![0, 1, (0 : ℝ)] = 1 := by simp [norm3]
  have hev : eccVec ![0, 1, (0 : ℝ)] ![5 / 4, 0, 0] 1 = ![0, 9 / 16, 0] := by
    rw [eccVec, hc, hr1]
    funext j; fin_cases j <;> simp [vsub, vsmul, vdivs, cross3]
    norm_num
  have hen : norm3 ![0, (9 / 16 : ℝ), 0] = 9 / 16 := by
    simp only [norm3]
    rw [show ((![0, (9 / 16 : ℝ), 0] : Fin 3 → ℝ) 0 ^ 2 + (![0, (9 / 16 : ℝ), 0] : Fin 3 → ℝ) 1 ^ 2 +
      (![0, (9 / 16 : ℝ), 0] : Fin 3 → ℝ) 2 ^ 2) = (9 / 16) ^ 2 by simp]
    exact Real.sqrt_sq (by norm_num)
  have he := getEccentricity_real ![0, 1, 0, 5 / 4, 0, (0 : ℝ)] (mu := 1) one_ne_zero
  rw [hp, hv, hev] at he
  have hzc : cross3 ![((0 : ℕ) : ℝ), ((0 : ℕ) : ℝ), ((1 : ℕ) : ℝ)] ![0, 0, -(5 / 4)] = 0 := by
    funext j; fin_cases j <;> simp [cross3]
  have hsma : getSemiMajorAxis ![0, 1, 0, 5 / 4, 0, (0 : ℝ)] 1 = .ok (16 / 7) := by
    simp only [getSemiMajorAxis, he, hp, hv, hc, hn1, hen, bind, Except.bind, Nat.cast_one]
    rw [ndiv_real (by norm_num)]
    norm_num
  have hinc : getInclination ![0, 1, 0, 5 / 4, 0, (0 : ℝ)] = .ok Real.pi := by
    simp only [getInclination, hp, hv, hc, hn1]
    rw [ndiv_real (by norm_num)]
    simp [bind, Except.bind, pure, Except.pure]
  have hO : getRaan ![0, 1, 0, 5 / 4, 0, (0 : ℝ)] = 0 := by
    simp only [getRaan, hp, hv, hc, hzc, arctan2_real]
    exact arg_zero_zero
  have hom : getOmega ![0, 1, 0, 5 / 4, 0, (0 : ℝ)] 1 = .ok (Real.pi / 2) := by
    rw [omega_guarded _ one_ne_zero (by
      rw [hp, hv, hc, hzc, show norm3 (0 : Fin 3 → ℝ) = 0 from norm3_eq_zero.2 rfl, zero_mul]),
      hp, hv, hev]
    have := arg_polar (r := 9 / 16) (θ := Real.pi / 2) (by norm_num)
      (by linarith [Real.pi_pos]) (by linarith [Real.pi_pos])
    rw [Real.cos_pi_div_two, Real.sin_pi_div_two, mul_zero, mul_one] at this
    exact congrArg _ this
  have hta : getTrueanom ![0, 1, 0, 5 / 4, 0, (0 : ℝ)] 1 = .ok 0 := by
    simp only [getTrueanom, hp, hv, hc, hn1, hr1]
    rw [ndiv_real one_ne_zero, ndiv_real one_ne_zero]
    simp only [bind, Except.bind, pure, Except.pure, arctan2_real]
    have := arg_polar (r := 9 / 16) (θ := 0) (by norm_num)
      (by linarith [Real.pi_pos]) (by linarith [Real.pi_pos])
    rw [Real.cos_zero, Real.sin_zero, mul_zero, mul_one] at this
    refine congrArg _ ((congrArg Complex.arg ?_).trans this)
    apply Complex.ext <;> simp [dot3]
    norm_num
  have hk : sv2kep ![0, 1, 0, 5 / 4, 0, (0 : ℝ)] 1 =
      .ok ![16 / 7, 9 / 16, Real.pi, 0, Real.pi / 2, 0] := by
    simp only [sv2kep, hsma, he, hinc, hO, hom, hta, hen, bind, Except.bind, pure, Except.pure]
  have hsq : Real.sqrt (16 / 7 * 1 * (1 - (9 / 16 : ℝ) ^ 2)) = 5 / 4 := by
    rw [show (16 / 7 * 1 * (1 - (9 / 16 : ℝ) ^ 2)) = (5 / 4) ^ 2 by norm_num]
    exact Real.sqrt_sq (by norm_num)
  refine ⟨_, _, hk, kep2sv_eq _ 1 (by simp; norm_num) (by simp only [Matrix.cons_val]; rw [hsq]; norm_num),
    hp, ?_⟩
  rw [svPos_mk]
  simp only [Matrix.cons_val, hsq]
  funext j; fin_cases j <;> simp [orbPos, periP, periQ]
  norm_num

/-- the hypotheses of the two positive parts are met: a state above the equator and one in it -/
example : 0 < (1 : ℝ) * (5 / 4) - 0 * 0 ∧ energy ![1, 0, 0, 0, 5 / 4, (0 : ℝ)] 1 ≠ 0 ∧
    eccVec ![1, 0, (0 : ℝ)] ![0, 5 / 4, 0] 1 ≠ 0 := by
  refine ⟨by norm_num, ?_, ?_⟩
  · have : norm3 (svPos ![1, 0, 0, 0, 5 / 4, (0 : ℝ)]) = 1 := by simp [norm3, svPos]
    rw [energy, this]
    simp [dot3, svVel]
    norm_num
  · intro h
    have := congrFun h 0
    simp [eccVec, vsub, vsmul, vdivs, cross3, norm3] at this
    norm_num at this

example : energy ![1, 0, 0, 0, 0, (5 / 4 : ℝ)] 1 ≠ 0 ∧
    1 / 10 ^ 12 ≤ nodeLen ![1, 0, 0, 0, 0, (5 / 4 : ℝ)] * norm3 (eccVec ![1, 0, (0 : ℝ)] ![0, 0, 5 / 4] 1) := by
  have hn : nodeLen ![1, 0, 0, 0, 0, (5 / 4 : ℝ)] = 5 / 4 := by
    rw [nodeLen]
    rw [show cross3 (svPos ![1, 0, 0, 0, 0, (5 / 4 : ℝ)]) (svVel ![1, 0, 0, 0, 0, (5 / 4 : ℝ)]) 0 ^ 2 +
      cross3 (svPos ![1, 0, 0, 0, 0, (5 / 4 : ℝ)]) (svVel ![1, 0, 0, 0, 0, (5 / 4 : ℝ)]) 1 ^ 2 =
      (5 / 4) ^ 2 by simp [cross3, svPos, svVel]]
    exact Real.sqrt_sq (by norm_num)
  have he : eccVec ![1, 0, (0 : ℝ)] ![0, 0, 5 / 4] 1 = ![9 / 16, 0, 0] := by
    funext j; fin_cases j <;> simp [eccVec, vsub, vsmul, vdivs, cross3, norm3]
    norm_num
  have hen : norm3 ![(9 / 16 : ℝ), 0, 0] = 9 / 16 := by
    simp only [norm3]
    rw [show ((![(9 / 16 : ℝ), 0, 0] : Fin 3 → ℝ) 0 ^ 2 + (![(9 / 16 : ℝ), 0, 0] : Fin 3 → ℝ) 1 ^ 2 +
      (![(9 / 16 : ℝ), 0, 0] : Fin 3 → ℝ) 2 ^ 2) = (9 / 16) ^ 2 by simp]
    exact Real.sqrt_sq (by norm_num)
  refine ⟨?_, by rw [hn, he, hen]; norm_num⟩
  have : norm3 (svPos ![1, 0, 0, 0, 0, (5 / 4 : ℝ)]) = 1 := by simp [norm3, svPos]
  rw [energy, this]
  simp [dot3, svVel]
  norm_num

end PyQ
