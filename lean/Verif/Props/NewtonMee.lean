import Verif.Props.Newton
import Verif.Props.Descent

/-!
C113: the MEE equations of motion are Newton's law too, where `f > 0` off the equator.
-/

set_option linter.unusedSectionVars false
set_option linter.unusedSimpArgs false
set_option maxRecDepth 100000

open Set Metric Topology

namespace PyQ

/-- the Cartesian image of Keplerian elements, as a formula -/
noncomputable def svFormula (mu : ℝ) (k : Fin 6 → ℝ) : Fin 6 → ℝ :=
  let h := Real.sqrt (k 0 * mu * (1 - k 1 ^ 2))
  let r := orbPos (h ^ 2 / (mu * (1 + k 1 * Real.cos (k 5)))) (k 2) (k 3) (k 4) (k 5)
  let v := orbVel (mu / h) (k 1) (k 2) (k 3) (k 4) (k 5)
  ![r 0, r 1, r 2, v 0, v 1, v 2]

theorem kep2sv_formula {mu : ℝ} {k : Fin 6 → ℝ} (S : KepState mu k) : kep2sv k mu = .ok (svFormula mu k) := by
  have h1 := S.mu
  have h2 := S.w_pos (k 5)
  exact kep2sv_eq k mu (by positivity) (Real.sqrt_pos.2 S.h_pos).ne'

theorem svFormula_c1 {mu : ℝ} {k : Fin 6 → ℝ} (S : KepState mu k) : ContDiffAt ℝ 1 (svFormula mu) k := by
  have h1 := S.mu
  have h2 := S.w_pos (k 5)
  have h3 := S.h_pos
  have h4 := Real.sqrt_pos.2 h3
  have h5 : mu * (1 + k 1 * Real.cos (k 5)) ≠ 0 := by positivity
  refine contDiffAt_pi.2 fun i => ?_
  fin_cases i <;>
    simp only [svFormula, orbPos, orbVel, periP, periQ, Fin.zero_eta, Fin.mk_one, Fin.reduceFinMk, Matrix.cons_val] <;>
    fun_prop (disch := first | assumption | positivity)

theorem kepState_open (mu : ℝ) : IsOpen {x | KepState mu x} := by
  have : {x | KepState mu x} = {x : Fin 6 → ℝ | 0 < mu ∧ 0 < x 0 ∧ 0 < x 1 ∧ x 1 < 1} := by
    ext x
    exact ⟨fun h => ⟨h.1, h.2, h.3, h.4⟩, fun h => ⟨h.1, h.2.1, h.2.2.1, h.2.2.2⟩⟩
  rw [this]
  refine IsOpen.and (by exact isOpen_const) (IsOpen.and ?_ (IsOpen.and ?_ ?_))
  · exact isOpen_lt continuous_const (by fun_prop)
  · exact isOpen_lt continuous_const (by fun_prop)
  · exact isOpen_lt (by fun_prop) continuous_const

/-! ## the equinoctial frame -/

noncomputable def eqU (h k L : ℝ) : Fin 3 → ℝ :=
  ![(Real.cos L * (1 + h ^ 2 - k ^ 2) + 2 * h * k * Real.sin L) / (1 + h ^ 2 + k ^ 2),
    (Real.sin L * (1 - h ^ 2 + k ^ 2) + 2 * h * k * Real.cos L) / (1 + h ^ 2 + k ^ 2),
    2 * (h * Real.sin L - k * Real.cos L) / (1 + h ^ 2 + k ^ 2)]

noncomputable def eqV (h k L : ℝ) : Fin 3 → ℝ :=
  ![(-(Real.sin L) * (1 + h ^ 2 - k ^ 2) + 2 * h * k * Real.cos L) / (1 + h ^ 2 + k ^ 2),
    (Real.cos L * (1 - h ^ 2 + k ^ 2) - 2 * h * k * Real.sin L) / (1 + h ^ 2 + k ^ 2),
    2 * (h * Real.cos L + k * Real.sin L) / (1 + h ^ 2 + k ^ 2)]

noncomputable def eqW (h k : ℝ) : Fin 3 → ℝ :=
  ![2 * k / (1 + h ^ 2 + k ^ 2), -(2 * h) / (1 + h ^ 2 + k ^ 2), (1 - h ^ 2 - k ^ 2) / (1 + h ^ 2 + k ^ 2)]

theorem eqU_deriv {h k L : ℝ → ℝ} {l κ t : ℝ}
    (dh : HasDerivAt h (l * (1 + h t ^ 2 + k t ^ 2) / 2 * Real.cos (L t)) t)
    (dk : HasDerivAt k (l * (1 + h t ^ 2 + k t ^ 2) / 2 * Real.sin (L t)) t)
    (dL : HasDerivAt L (κ + l * (h t * Real.sin (L t) - k t * Real.cos (L t))) t) (j : Fin 3) :
    HasDerivAt (fun s => eqU (h s) (k s) (L s) j) (κ * eqV (h t) (k t) (L t) j) t := by
  have hs := Real.sin_sq_add_cos_sq (L t)
  have hpos : 1 + h t ^ 2 + k t ^ 2 ≠ 0 := by positivity
  have dden : HasDerivAt (fun s => 1 + h s ^ 2 + k s ^ 2) _ t := ((dh.pow 2).const_add 1).add (dk.pow 2)
  fin_cases j
  · refine (((dL.cos.mul (((dh.pow 2).const_add 1).sub (dk.pow 2))).add (((dh.const_mul 2).mul dk).mul dL.sin)).div dden
      hpos).congr_deriv ?_
    simp [eqV]
    field_simp
    generalize Real.sin (L t) = z at hs ⊢
    generalize Real.cos (L t) = c at hs ⊢
    have h2 : z ^ 2 = 1 - c ^ 2 := by linarith
    have h3 : z ^ 3 = z * (1 - c ^ 2) := by rw [← h2]; ring
    ring_nf
    try simp only [h2, h3]
    try ring
  · refine (((dL.sin.mul (((dh.pow 2).const_sub 1).add (dk.pow 2))).add (((dh.const_mul 2).mul dk).mul dL.cos)).div dden
      hpos).congr_deriv ?_
    simp [eqV]
    field_simp
    generalize Real.sin (L t) = z at hs ⊢
    generalize Real.cos (L t) = c at hs ⊢
    have h2 : z ^ 2 = 1 - c ^ 2 := by linarith
    have h3 : z ^ 3 = z * (1 - c ^ 2) := by rw [← h2]; ring
    ring_nf
    try simp only [h2, h3]
    try ring
  · refine ((((dh.mul dL.sin).sub (dk.mul dL.cos)).const_mul 2).div dden hpos).congr_deriv ?_
    simp [eqV]
    field_simp
    generalize Real.sin (L t) = z at hs ⊢
    generalize Real.cos (L t) = c at hs ⊢
    have h2 : z ^ 2 = 1 - c ^ 2 := by linarith
    have h3 : z ^ 3 = z * (1 - c ^ 2) := by rw [← h2]; ring
    ring_nf
    try simp only [h2, h3]
    try ring

theorem eqV_deriv {h k L : ℝ → ℝ} {l κ t : ℝ}
    (dh : HasDerivAt h (l * (1 + h t ^ 2 + k t ^ 2) / 2 * Real.cos (L t)) t)
    (dk : HasDerivAt k (l * (1 + h t ^ 2 + k t ^ 2) / 2 * Real.sin (L t)) t)
    (dL : HasDerivAt L (κ + l * (h t * Real.sin (L t) - k t * Real.cos (L t))) t) (j : Fin 3) :
    HasDerivAt (fun s => eqV (h s) (k s) (L s) j) (-κ * eqU (h t) (k t) (L t) j + l * eqW (h t) (k t) j) t := by
  have hs := Real.sin_sq_add_cos_sq (L t)
  have hpos : 1 + h t ^ 2 + k t ^ 2 ≠ 0 := by positivity
  have dden : HasDerivAt (fun s => 1 + h s ^ 2 + k s ^ 2) _ t := ((dh.pow 2).const_add 1).add (dk.pow 2)
  fin_cases j
  · refine (((dL.sin.neg.mul (((dh.pow 2).const_add 1).sub (dk.pow 2))).add (((dh.const_mul 2).mul dk).mul dL.cos)).div dden
      hpos).congr_deriv ?_
    simp [eqU, eqW]
    field_simp
    generalize Real.sin (L t) = z at hs ⊢
    generalize Real.cos (L t) = c at hs ⊢
    have h2 : z ^ 2 = 1 - c ^ 2 := by linarith
    have h3 : z ^ 3 = z * (1 - c ^ 2) := by rw [← h2]; ring
    ring_nf
    try simp only [h2, h3]
    try ring
  · refine (((dL.cos.mul (((dh.pow 2).const_sub 1).add (dk.pow 2))).sub (((dh.const_mul 2).mul dk).mul dL.sin)).div dden
      hpos).congr_deriv ?_
    simp [eqU, eqW]
    field_simp
    generalize Real.sin (L t) = z at hs ⊢
    generalize Real.cos (L t) = c at hs ⊢
    have h2 : z ^ 2 = 1 - c ^ 2 := by linarith
    have h3 : z ^ 3 = z * (1 - c ^ 2) := by rw [← h2]; ring
    ring_nf
    try simp only [h2, h3]
    try ring
  · refine ((((dh.mul dL.cos).add (dk.mul dL.sin)).const_mul 2).div dden hpos).congr_deriv ?_
    simp [eqU, eqW]
    field_simp
    generalize Real.sin (L t) = z at hs ⊢
    generalize Real.cos (L t) = c at hs ⊢
    have h2 : z ^ 2 = 1 - c ^ 2 := by linarith
    have h3 : z ^ 3 = z * (1 - c ^ 2) := by rw [← h2]; ring
    ring_nf
    try simp only [h2, h3]
    try ring

/-- the equinoctial frame is the orbital frame -/
theorem frame_eq {i O θ : ℝ} (hc : Real.cos (i / 2) ≠ 0) (j : Fin 3) :
    frameU i O θ j = eqU (Real.tan (i / 2) * Real.cos O) (Real.tan (i / 2) * Real.sin O) (O + θ) j ∧
    frameV i O θ j = eqV (Real.tan (i / 2) * Real.cos O) (Real.tan (i / 2) * Real.sin O) (O + θ) j := by
  have hO := Real.sin_sq_add_cos_sq O
  have ht := Real.sin_sq_add_cos_sq θ
  have hq := Real.sin_sq_add_cos_sq (i / 2)
  have hci : Real.cos i = (1 - Real.tan (i / 2) ^ 2) / (1 + Real.tan (i / 2) ^ 2) := by
    have := Real.cos_two_mul (i / 2)
    rw [show 2 * (i / 2) = i by ring] at this
    rw [this, Real.tan_eq_sin_div_cos]
    field_simp
    rw [show Real.cos (i / 2) ^ 2 + Real.sin (i / 2) ^ 2 = 1 by linarith]
    linarith
  have hsi : Real.sin i = 2 * Real.tan (i / 2) / (1 + Real.tan (i / 2) ^ 2) := by
    have := Real.sin_two_mul (i / 2)
    rw [show 2 * (i / 2) = i by ring] at this
    rw [this, Real.tan_eq_sin_div_cos]
    field_simp
    rw [show Real.cos (i / 2) ^ 2 + Real.sin (i / 2) ^ 2 = 1 by linarith]
    ring
  have hden : 1 + (Real.tan (i / 2) * Real.cos O) ^ 2 + (Real.tan (i / 2) * Real.sin O) ^ 2 = 1 + Real.tan (i / 2) ^ 2 := by
    linear_combination Real.tan (i / 2) ^ 2 * hO
  have hp : (1 : ℝ) + Real.tan (i / 2) ^ 2 ≠ 0 := by positivity
  generalize Real.tan (i / 2) = τ at *
  constructor <;> fin_cases j <;>
    simp only [frameU, frameV, eqU, eqV, hden, hci, hsi, Real.sin_add, Real.cos_add, Fin.zero_eta, Fin.mk_one,
      Fin.reduceFinMk, Matrix.cons_val] <;> field_simp <;>
    generalize Real.sin O = z at hO ⊢ <;> generalize Real.cos O = c at hO ⊢ <;>
    (have h2 : z ^ 2 = 1 - c ^ 2 := by linarith) <;>
    (have h3 : z ^ 3 = z * (1 - c ^ 2) := by rw [← h2]; ring) <;>
    ring_nf <;> (try simp only [h2, h3]) <;> (try ring)

/-- the Cartesian image of modified equinoctial elements, as a formula -/
noncomputable def meeSv (mu : ℝ) (m : Fin 6 → ℝ) : Fin 6 → ℝ :=
  let p := m 0 * (1 - m 1 ^ 2 - m 2 ^ 2)
  let w := 1 + m 1 * Real.cos (m 5) + m 2 * Real.sin (m 5)
  let y := m 1 * Real.sin (m 5) - m 2 * Real.cos (m 5)
  let c := mu / Real.sqrt (mu * p)
  let U := eqU (m 3) (m 4) (m 5)
  let V := eqV (m 3) (m 4) (m 5)
  ![p / w * U 0, p / w * U 1, p / w * U 2, c * (y * U 0 + w * V 0), c * (y * U 1 + w * V 1), c * (y * U 2 + w * V 2)]

theorem svFormula_mee {mu : ℝ} {k : Fin 6 → ℝ} (S : KepState mu k) (hc : Real.cos (k 2 / 2) ≠ 0) :
    svFormula mu k = meeSv mu (kep2meeWithA k) := by
  have hmu := S.mu
  have hw := S.w_pos (k 5)
  have m0 : kep2meeWithA k 0 = k 0 := by simp [kep2meeWithA]
  have m1 : kep2meeWithA k 1 = k 1 * Real.cos (k 3 + k 4) := by simp [kep2meeWithA]
  have m2 : kep2meeWithA k 2 = k 1 * Real.sin (k 3 + k 4) := by simp [kep2meeWithA]
  have m3 : kep2meeWithA k 3 = Real.tan (k 2 / 2) * Real.cos (k 3) := by simp [kep2meeWithA]
  have m4 : kep2meeWithA k 4 = Real.tan (k 2 / 2) * Real.sin (k 3) := by simp [kep2meeWithA]
  have m5 : kep2meeWithA k 5 = k 3 + k 4 + k 5 := by simp [kep2meeWithA]
  have m5' : kep2meeWithA k 5 = k 3 + (k 4 + k 5) := by rw [m5]; ring
  have hϖ := Real.sin_sq_add_cos_sq (k 3 + k 4)
  have hp : k 0 * (1 - (k 1 * Real.cos (k 3 + k 4)) ^ 2 - (k 1 * Real.sin (k 3 + k 4)) ^ 2) = k 0 * (1 - k 1 ^ 2) := by
    linear_combination -(k 0 * k 1 ^ 2) * hϖ
  have hx : 1 + k 1 * Real.cos (k 3 + k 4) * Real.cos (k 3 + k 4 + k 5) +
      k 1 * Real.sin (k 3 + k 4) * Real.sin (k 3 + k 4 + k 5) = 1 + k 1 * Real.cos (k 5) := by
    rw [Real.cos_add (k 3 + k 4), Real.sin_add (k 3 + k 4)]
    linear_combination k 1 * Real.cos (k 5) * hϖ
  have hy : k 1 * Real.cos (k 3 + k 4) * Real.sin (k 3 + k 4 + k 5) -
      k 1 * Real.sin (k 3 + k 4) * Real.cos (k 3 + k 4 + k 5) = k 1 * Real.sin (k 5) := by
    rw [Real.cos_add (k 3 + k 4), Real.sin_add (k 3 + k 4)]
    linear_combination k 1 * Real.sin (k 5) * hϖ
  have hsq : Real.sqrt (k 0 * mu * (1 - k 1 ^ 2)) ^ 2 = mu * (k 0 * (1 - k 1 ^ 2)) := by
    rw [Real.sq_sqrt S.h_pos.le]; ring
  have hsq' : Real.sqrt (mu * (k 0 * (1 - k 1 ^ 2))) = Real.sqrt (k 0 * mu * (1 - k 1 ^ 2)) := by congr 1; ring
  have hr : ∀ j, orbPos (Real.sqrt (k 0 * mu * (1 - k 1 ^ 2)) ^ 2 / (mu * (1 + k 1 * Real.cos (k 5)))) (k 2) (k 3) (k 4) (k 5) j =
      k 0 * (1 - k 1 ^ 2) / (1 + k 1 * Real.cos (k 5)) *
        eqU (Real.tan (k 2 / 2) * Real.cos (k 3)) (Real.tan (k 2 / 2) * Real.sin (k 3)) (k 3 + (k 4 + k 5)) j := fun j => by
    rw [orbPos, frameU_eq, (frame_eq hc j).1, hsq]
    congr 1
    field_simp
  have hv : ∀ j, orbVel (mu / Real.sqrt (k 0 * mu * (1 - k 1 ^ 2))) (k 1) (k 2) (k 3) (k 4) (k 5) j =
      mu / Real.sqrt (k 0 * mu * (1 - k 1 ^ 2)) * (k 1 * Real.sin (k 5) *
        eqU (Real.tan (k 2 / 2) * Real.cos (k 3)) (Real.tan (k 2 / 2) * Real.sin (k 3)) (k 3 + (k 4 + k 5)) j +
        (1 + k 1 * Real.cos (k 5)) *
        eqV (Real.tan (k 2 / 2) * Real.cos (k 3)) (Real.tan (k 2 / 2) * Real.sin (k 3)) (k 3 + (k 4 + k 5)) j) := fun j => by
    rw [orbVel, ← (frame_eq hc j).1, ← (frame_eq hc j).2, ← frameU_eq, ← frameV_eq]
    have := Real.sin_sq_add_cos_sq (k 5)
    linear_combination (-mu / Real.sqrt (k 0 * mu * (1 - k 1 ^ 2)) * k 1 * periQ (k 2) (k 3) (k 4) j) * this
  funext j
  simp only [svFormula, meeSv, hr, hv, m0, m1, m2, m3, m4, m5', hp, ← add_assoc, hx, hy, hsq']

/-- an elliptic, non-circular, inclined MEE state -/
structure MeeOffPlane (mu : ℝ) (m : Fin 6 → ℝ) : Prop where
  mu : 0 < mu
  a : 0 < m 0
  ecc : m 1 ^ 2 + m 2 ^ 2 < 1
  ecc0 : 0 < m 1 ^ 2 + m 2 ^ 2
  inc : 0 < m 3 ^ 2 + m 4 ^ 2

theorem polar (x y : ℝ) : ∃ θ, x = Real.sqrt (x ^ 2 + y ^ 2) * Real.cos θ ∧ y = Real.sqrt (x ^ 2 + y ^ 2) * Real.sin θ := by
  by_cases h : x ^ 2 + y ^ 2 = 0
  · have hx : x = 0 := by nlinarith [sq_nonneg x, sq_nonneg y]
    have hy : y = 0 := by nlinarith [sq_nonneg x, sq_nonneg y]
    exact ⟨0, by simp [hx, hy], by simp [hx, hy]⟩
  · have hs : Real.sqrt (x ^ 2 + y ^ 2) ≠ 0 := fun h0 => h ((Real.sqrt_eq_zero (by positivity)).1 h0)
    obtain ⟨h1, h2⟩ := arg_sincos x y h
    exact ⟨_, by rw [h1]; field_simp, by rw [h2]; field_simp⟩

/-- such a state is the image of Keplerian elements -/
theorem MeeOffPlane.kep {mu : ℝ} {m : Fin 6 → ℝ} (S : MeeOffPlane mu m) :
    ∃ k, kep2meeWithA k = m ∧ KepState mu k ∧ 0 < k 2 ∧ k 2 < Real.pi := by
  obtain ⟨ϖ, f1, f2⟩ := polar (m 1) (m 2)
  obtain ⟨O, h1, h2⟩ := polar (m 3) (m 4)
  have he0 := Real.sqrt_pos.2 S.ecc0
  have he1 : Real.sqrt (m 1 ^ 2 + m 2 ^ 2) < 1 := by
    rw [← Real.sqrt_one]; exact Real.sqrt_lt_sqrt (by positivity) S.ecc
  have hT := Real.sqrt_pos.2 S.inc
  refine ⟨![m 0, Real.sqrt (m 1 ^ 2 + m 2 ^ 2), 2 * Real.arctan (Real.sqrt (m 3 ^ 2 + m 4 ^ 2)), O, ϖ - O, m 5 - ϖ],
    ?_, ⟨S.mu, S.a, he0, he1⟩, ?_, ?_⟩
  · have ht : Real.tan (2 * Real.arctan (Real.sqrt (m 3 ^ 2 + m 4 ^ 2)) / 2) = Real.sqrt (m 3 ^ 2 + m 4 ^ 2) := by
      rw [mul_div_cancel_left₀ _ two_ne_zero, Real.tan_arctan]
    funext j
    fin_cases j
    · simp [kep2meeWithA]
    · simp [kep2meeWithA, ← f1]
    · simp [kep2meeWithA, ← f2]
    · simp [kep2meeWithA, ← h1]
    · simp [kep2meeWithA, ← h2]
    · simp [kep2meeWithA]
  · have := Real.arctan_pos.2 hT
    simpa using this
  · have := Real.arctan_lt_pi_div_two (Real.sqrt (m 3 ^ 2 + m 4 ^ 2))
    simp only [Matrix.cons_val]
    linarith

theorem mee2sv_formula {mu : ℝ} {m : Fin 6 → ℝ} (S : MeeOffPlane mu m) : meeWithA2sv m mu = .ok (meeSv mu m) := by
  obtain ⟨k, rfl, hk, i0, i1⟩ := S.kep
  rw [(C50_agrees k mu hk.mu hk.a hk.e0 hk.e1 i0 i1).1, kep2sv_formula hk, svFormula_mee hk]
  exact (Real.cos_pos_of_mem_Ioo ⟨by linarith [Real.pi_pos], by linarith⟩).ne'

theorem meeOffPlane_open (mu : ℝ) : IsOpen {x | MeeOffPlane mu x} := by
  have : {x | MeeOffPlane mu x} = {x : Fin 6 → ℝ | 0 < mu ∧ 0 < x 0 ∧ x 1 ^ 2 + x 2 ^ 2 < 1 ∧ 0 < x 1 ^ 2 + x 2 ^ 2 ∧
      0 < x 3 ^ 2 + x 4 ^ 2} := by
    ext x
    exact ⟨fun h => ⟨h.1, h.2, h.3, h.4, h.5⟩, fun h => ⟨h.1, h.2.1, h.2.2.1, h.2.2.2.1, h.2.2.2.2⟩⟩
  rw [this]
  refine IsOpen.and (by exact isOpen_const) (IsOpen.and ?_ (IsOpen.and ?_ (IsOpen.and ?_ ?_)))
  · exact isOpen_lt continuous_const (by fun_prop)
  · exact isOpen_lt (by fun_prop) continuous_const
  · exact isOpen_lt continuous_const (by fun_prop)
  · exact isOpen_lt continuous_const (by fun_prop)

theorem meeSv_c1 {mu : ℝ} {m : Fin 6 → ℝ} (hmu : 0 < mu) (ha : 0 < m 0) (he : m 1 ^ 2 + m 2 ^ 2 < 1) :
    ContDiffAt ℝ 1 (meeSv mu) m := by
  have hw := fg_w_pos he (m 5)
  have hp : 0 < mu * (m 0 * (1 - m 1 ^ 2 - m 2 ^ 2)) := mul_pos hmu (mul_pos ha (by linarith))
  have h4 := Real.sqrt_pos.2 hp
  have h5 : 1 + m 3 ^ 2 + m 4 ^ 2 ≠ 0 := by positivity
  refine contDiffAt_pi.2 fun i => ?_
  fin_cases i <;>
    simp only [meeSv, eqU, eqV, Fin.zero_eta, Fin.mk_one, Fin.reduceFinMk, Matrix.cons_val] <;>
    fun_prop (disch := first | assumption | positivity)

theorem eqU_sq (h k L : ℝ) : dot3 (eqU h k L) (eqU h k L) = 1 := by
  have hs := Real.sin_sq_add_cos_sq L
  have hpos : 1 + h ^ 2 + k ^ 2 ≠ 0 := by positivity
  simp only [dot3, eqU, Matrix.cons_val]
  field_simp
  generalize Real.sin L = z at hs ⊢
  generalize Real.cos L = c at hs ⊢
  linear_combination ((1 + h ^ 2 + k ^ 2) ^ 2) * hs

theorem eqW_sq (h k : ℝ) : dot3 (eqW h k) (eqW h k) = 1 := by
  have hpos : 1 + h ^ 2 + k ^ 2 ≠ 0 := by positivity
  simp only [dot3, eqW, Matrix.cons_val]
  field_simp
  ring

theorem eq_cross (h k L : ℝ) : cross3 (eqU h k L) (eqV h k L) = eqW h k ∧ cross3 (eqW h k) (eqU h k L) = eqV h k L := by
  have hs := Real.sin_sq_add_cos_sq L
  have hpos : 1 + h ^ 2 + k ^ 2 ≠ 0 := by positivity
  constructor <;> funext j <;> fin_cases j <;>
    simp only [cross3, eqU, eqV, eqW, Fin.zero_eta, Fin.mk_one, Fin.reduceFinMk, Matrix.cons_val] <;> field_simp <;>
    generalize Real.sin L = z at hs ⊢ <;> generalize Real.cos L = c at hs ⊢ <;>
    (have h2 : z ^ 2 = 1 - c ^ 2 := by linarith) <;>
    ring_nf <;> (try simp only [h2]) <;> (try ring)

/-- the radial, transverse and normal directions of a state given in an orthonormal frame -/
theorem dirs_of_frame {ρ α β : ℝ} (hρ : 0 < ρ) (hβ : 0 < β) {U V W : Fin 3 → ℝ} (hU : dot3 U U = 1) (hW : dot3 W W = 1)
    (h1 : cross3 U V = W) (h2 : cross3 W U = V) {s : Fin 6 → ℝ}
    (hr : svPos s = fun j => ρ * U j) (hv : svVel s = fun j => α * U j + β * V j) :
    norm3 (svPos s) = ρ ∧ dirR s = U ∧ dirN s = W ∧ dirT s = V := by
  have hn : norm3 (svPos s) = ρ := by
    rw [norm3_eq_sqrt, hr]
    have : dot3 (fun j => ρ * U j) (fun j => ρ * U j) = ρ ^ 2 := by
      simp only [dot3] at *
      linear_combination ρ ^ 2 * hU
    rw [this, Real.sqrt_sq hρ.le]
  have hR : dirR s = U := by
    funext j; rw [dirR, hn, hr]; simp only [vsmul]; field_simp
  have hC : cross3 (svPos s) (svVel s) = vsmul (ρ * β) W := by
    rw [hr, hv, ← h1]
    funext j; fin_cases j <;> simp [cross3, vsmul] <;> ring
  have hCn : norm3 (cross3 (svPos s) (svVel s)) = ρ * β := by
    rw [hC]
    exact norm3_smul_pos (by positivity) hW
  have hN : dirN s = W := by
    rw [dirN, hCn, hC]
    funext j; simp only [vsmul]; field_simp
  exact ⟨hn, hR, hN, by rw [dirT, hN, hR, h2]⟩

/-- the element rates of an MEE motion with `f > 0`, written with `p`, `h`, `r` -/
theorem MeeMotion.rates {mu : ℝ} {k : ℝ → Fin 6 → ℝ} {acc : Fin 3 → ℝ} {t : ℝ}
    (M : MeeMotion mu k acc t univ) (hmu : 0 < mu) (ha : 0 < k t 0) (hecc : k t 1 ^ 2 + k t 2 ^ 2 < 1) (hf : 0 < k t 1) :
    ∃ p w h, 0 < p ∧ 0 < w ∧ 0 < h ∧ p = k t 0 * (1 - k t 1 ^ 2 - k t 2 ^ 2) ∧ h ^ 2 = mu * p ∧ h = Real.sqrt (mu * p) ∧
      w = 1 + k t 1 * Real.cos (k t 5) + k t 2 * Real.sin (k t 5) ∧
      HasDerivAt (fun s => k s 0) (2 * k t 0 ^ 2 / h * ((k t 1 * Real.sin (k t 5) - k t 2 * Real.cos (k t 5)) * acc 0 +
        w * acc 1)) t ∧
      HasDerivAt (fun s => k s 1) (p / h * (Real.sin (k t 5) * acc 0 + (Real.cos (k t 5) + (Real.cos (k t 5) + k t 1) / w) * acc 1 -
        k t 2 * (k t 3 * Real.sin (k t 5) - k t 4 * Real.cos (k t 5)) / w * acc 2)) t ∧
      HasDerivAt (fun s => k s 2) (p / h * (-Real.cos (k t 5) * acc 0 + (Real.sin (k t 5) + (Real.sin (k t 5) + k t 2) / w) * acc 1 +
        k t 1 * (k t 3 * Real.sin (k t 5) - k t 4 * Real.cos (k t 5)) / w * acc 2)) t ∧
      HasDerivAt (fun s => k s 3) (p / w / h * acc 2 * (1 + k t 3 ^ 2 + k t 4 ^ 2) / 2 * Real.cos (k t 5)) t ∧
      HasDerivAt (fun s => k s 4) (p / w / h * acc 2 * (1 + k t 3 ^ 2 + k t 4 ^ 2) / 2 * Real.sin (k t 5)) t ∧
      HasDerivAt (fun s => k s 5) (h / (p / w) ^ 2 + p / w / h * acc 2 *
        (k t 3 * Real.sin (k t 5) - k t 4 * Real.cos (k t 5))) t := by
  obtain ⟨A, P, d, hA, hAo, hPm, h0, h1, h2, hacc, heq, hd⟩ := M
  subst hPm
  have SM : MeeState P.mu (k t) := ⟨hmu, ha, hecc, hf.ne'⟩
  rw [eomMee_real SM] at heq
  injection heq with heq
  dsimp only at heq
  -- the matrix does not depend on the other arguments of the law
  obtain ⟨B, hB⟩ : ∃ B : LyapArgs ℝ, B = { A with f := 1 } := ⟨_, rfl⟩
  have HB : MeeEllipse B := by
    rw [hB]; exact ⟨by simpa [hA] using hmu, one_pos, by simpa [hAo] using ha, by simpa [hAo] using hecc⟩
  have hBo : B.oe = k t := by rw [hB]; exact hAo
  have hBm : B.mu = P.mu := by rw [hB]; exact hA
  have hpsiA : ∀ c, meePsi (B.atAnomaly (k t 5)) c = meePsi A c := by
    have : (B.atAnomaly (k t 5)).oe = A.oe := by
      rw [hAo]; funext j; fin_cases j <;> simp [LyapArgs.atAnomaly, hBo]
    intro c
    simp only [meePsi, this]
    simp [LyapArgs.atAnomaly, hB]
  have hpsi := meePsi_real HB (k t 5)
  dsimp only at hpsi
  obtain ⟨c1, c2⟩ := C44_partial HB (k t 5) (by rw [hBo]; exact hf)
  rw [hBo, hBm] at hpsi c1 c2
  have hw := fg_w_pos hecc (k t 5)
  have hp : 0 < k t 0 * (1 - k t 1 ^ 2 - k t 2 ^ 2) := mul_pos ha (by linarith)
  have hp' : k t 0 * (1 - (k t 1 ^ 2 + k t 2 ^ 2)) = k t 0 * (1 - k t 1 ^ 2 - k t 2 ^ 2) := by ring
  rw [hp'] at heq
  obtain ⟨p, ep⟩ : ∃ p, p = k t 0 * (1 - k t 1 ^ 2 - k t 2 ^ 2) := ⟨_, rfl⟩
  obtain ⟨w, ew⟩ : ∃ w, w = 1 + k t 1 * Real.cos (k t 5) + k t 2 * Real.sin (k t 5) := ⟨_, rfl⟩
  obtain ⟨h, eh⟩ : ∃ h, h = Real.sqrt (P.mu * p) := ⟨_, rfl⟩
  rw [← ep] at heq hpsi c1 c2 hp
  rw [← ew] at heq hpsi c2 hw
  rw [← eh] at heq hpsi c1 c2
  have hh : 0 < h := by rw [eh]; exact Real.sqrt_pos.2 (by positivity)
  have hhp : h ^ 2 = P.mu * p := by rw [eh]; exact Real.sq_sqrt (by positivity)
  have hsp : Real.sqrt (p / P.mu) = p / h := by
    rw [show p / P.mu = (p / h) ^ 2 by rw [div_pow, hhp]; field_simp]
    exact Real.sqrt_sq (by positivity)
  rw [hsp] at heq hpsi
  have q0 : ∀ j, P.psi0 j = meePsi (B.atAnomaly (k t 5)) 0 j := fun j => by rw [h0, hpsiA]
  have q1 : ∀ j, P.psi1 j = meePsi (B.atAnomaly (k t 5)) 1 j := fun j => by rw [h1, hpsiA]
  have q2 : ∀ j, P.psi2 j = meePsi (B.atAnomaly (k t 5)) 2 j := fun j => by rw [h2, hpsiA]
  have c3 : meePsi (B.atAnomaly (k t 5)) 2 0 = 0 := by rw [hpsi]; rfl
  refine ⟨p, w, h, hp, hw, hh, ep, hhp, eh, ew, ?_, ?_, ?_, ?_, ?_, ?_⟩
  · refine (hd 0 (mem_univ _)).congr_deriv ?_
    rw [← heq]
    simp only [gaussCombine, dot3, vadd, Matrix.cons_val, q0, q1, q2, c1, c2, c3, hacc, Nat.cast_zero]
    ring
  · refine (hd 1 (mem_univ _)).congr_deriv ?_
    rw [← heq]
    simp only [gaussCombine, dot3, vadd, Matrix.cons_val, q0, q1, q2, hpsi, hacc, Nat.cast_zero]
    field_simp
    try ring
  · refine (hd 2 (mem_univ _)).congr_deriv ?_
    rw [← heq]
    simp only [gaussCombine, dot3, vadd, Matrix.cons_val, q0, q1, q2, hpsi, hacc, Nat.cast_zero]
    field_simp
    try ring
  · refine (hd 3 (mem_univ _)).congr_deriv ?_
    rw [← heq]
    simp only [gaussCombine, dot3, vadd, Matrix.cons_val, q0, q1, q2, hpsi, hacc, Nat.cast_zero]
    field_simp
    try ring
  · refine (hd 4 (mem_univ _)).congr_deriv ?_
    rw [← heq]
    simp only [gaussCombine, dot3, vadd, Matrix.cons_val, q0, q1, q2, hpsi, hacc, Nat.cast_zero]
    field_simp
    try ring
  · refine (hd 5 (mem_univ _)).congr_deriv ?_
    rw [← heq]
    simp only [gaussCombine, dot3, vadd, Matrix.cons_val, q0, q1, q2, hpsi, hacc, Nat.cast_zero]
    field_simp
    try ring

theorem alg_p {a f g z c p w h A0 A1 q : ℝ} (hw : w = 1 + f * c + g * z) (hw0 : w ≠ 0) (hp : p = a * (1 - f ^ 2 - g ^ 2))
    (hh : h ≠ 0) :
    2 * a ^ 2 / h * ((f * z - g * c) * A0 + w * A1) * (1 - f ^ 2 - g ^ 2) +
      a * (0 - 2 * f * (p / h * (z * A0 + (c + (c + f) / w) * A1 - g * q / w)) -
        2 * g * (p / h * (-c * A0 + (z + (z + g) / w) * A1 + f * q / w))) = 2 * p * (p / w) / h * A1 := by
  have e : f * c + g * z = w - 1 := by linarith
  rw [hp]
  field_simp
  linear_combination (-2 * A1 * a ^ 2 * (1 - f ^ 2 - g ^ 2) * (1 + w)) * e

theorem alg_x {f g z c p w h A0 A1 q : ℝ} (hs : z ^ 2 + c ^ 2 = 1) (hw : w = 1 + f * c + g * z) (hw0 : w ≠ 0) (hp0 : p ≠ 0)
    (hh : h ≠ 0) :
    p / h * (z * A0 + (c + (c + f) / w) * A1 - g * q / w) * c + f * (-z * (h / (p / w) ^ 2 + p / w / h * q)) +
      (p / h * (-c * A0 + (z + (z + g) / w) * A1 + f * q / w) * z + g * (c * (h / (p / w) ^ 2 + p / w / h * q))) =
    -(f * z - g * c) * (h / (p / w) ^ 2) + 2 * p / h * A1 := by
  have e : f * c + g * z = w - 1 := by linarith
  field_simp
  linear_combination (p ^ 3 * A1 * (w + 1)) * hs + p ^ 3 * A1 * e

theorem alg_y {f g z c p w h A0 A1 q : ℝ} (hs : z ^ 2 + c ^ 2 = 1) (hw0 : w ≠ 0) (hp0 : p ≠ 0)
    (hh : h ≠ 0) :
    p / h * (z * A0 + (c + (c + f) / w) * A1 - g * q / w) * z + f * (c * (h / (p / w) ^ 2 + p / w / h * q)) -
      (p / h * (-c * A0 + (z + (z + g) / w) * A1 + f * q / w) * c + g * (-z * (h / (p / w) ^ 2 + p / w / h * q))) =
    (f * c + g * z) * (h / (p / w) ^ 2) + p / h * A0 + p / w * (f * z - g * c) / h * A1 := by
  field_simp
  linear_combination (p ^ 3 * A0 * w) * hs

/-- **C113.** Let modified equinoctial elements move by `eom_mee_with_a_gauss` with the package's Gauss matrix under an
acceleration with RTN components `acc`, at an elliptic state with `f > 0` that is not equatorial. Then their Cartesian
image under `mee_with_a2sv` satisfies `r' = v` and `v' = -μ r/|r|³ + acc_R R + acc_T T + acc_N N`. -/
theorem C113_newton (mu : ℝ) (k : ℝ → Fin 6 → ℝ) (acc : Fin 3 → ℝ) (t : ℝ)
    (hmu : 0 < mu) (ha : 0 < k t 0) (hecc : k t 1 ^ 2 + k t 2 ^ 2 < 1) (hf : 0 < k t 1)
    (hi : k t 3 ≠ 0 ∨ k t 4 ≠ 0) (M : MeeMotion mu k acc t univ)
    (sv : ℝ → Fin 6 → ℝ) (hsv : ∀ᶠ s in 𝓝 t, meeWithA2sv (k s) mu = .ok (sv s)) (j : Fin 3) :
    HasDerivAt (fun s => svPos (sv s) j) (svVel (sv t) j) t ∧
    HasDerivAt (fun s => svVel (sv s) j)
      (-mu / norm3 (svPos (sv t)) ^ 3 * svPos (sv t) j +
        (acc 0 * dirR (sv t) j + acc 1 * dirT (sv t) j + acc 2 * dirN (sv t) j)) t := by
  obtain ⟨p, w, h, hp, hw, hh, ep, ehp, eh, ew, d0, d1, d2, d3, d4, d5⟩ := M.rates hmu ha hecc hf
  have hst := Real.sin_sq_add_cos_sq (k t 5)
  let pf : ℝ → ℝ := fun s => k s 0 * (1 - k s 1 ^ 2 - k s 2 ^ 2)
  let hf' : ℝ → ℝ := fun s => Real.sqrt (mu * pf s)
  let xf : ℝ → ℝ := fun s => k s 1 * Real.cos (k s 5) + k s 2 * Real.sin (k s 5)
  let yf : ℝ → ℝ := fun s => k s 1 * Real.sin (k s 5) - k s 2 * Real.cos (k s 5)
  have hpt : pf t = p := ep.symm
  have hht : hf' t = h := by rw [eh, ← hpt]
  have hxt : 1 + xf t = w := by rw [ew]; simp only [xf]; ring
  obtain ⟨r, hr⟩ : ∃ r, r = p / w := ⟨_, rfl⟩
  have hr0 : 0 < r := by rw [hr]; positivity
  have dp : HasDerivAt pf (2 * p * r / h * acc 1) t := by
    refine (d0.mul (((hasDerivAt_const t (1 : ℝ)).sub (d1.pow 2)).sub (d2.pow 2))).congr_deriv ?_
    have := alg_p (A0 := acc 0) (A1 := acc 1) (q := (k t 3 * Real.sin (k t 5) - k t 4 * Real.cos (k t 5)) * acc 2) ew hw.ne' ep
      hh.ne'
    rw [← hr] at this
    simp only [Pi.sub_apply, Pi.pow_apply]
    push_cast
    linear_combination this
  have dh : HasDerivAt hf' (r * acc 1) t := by
    have hpp : mu * pf t = h ^ 2 := by rw [ehp, hpt]
    refine ((dp.const_mul mu).sqrt (by rw [hpp]; positivity)).congr_deriv ?_
    rw [hpp, Real.sqrt_sq hh.le]
    have : p = h ^ 2 / mu := by rw [ehp]; field_simp
    rw [this]
    field_simp
  have dx : HasDerivAt xf (-(yf t) * (h / r ^ 2) + 2 * p / h * acc 1) t := by
    refine ((d1.mul d5.cos).add (d2.mul d5.sin)).congr_deriv ?_
    have := alg_x (A0 := acc 0) (A1 := acc 1) (q := (k t 3 * Real.sin (k t 5) - k t 4 * Real.cos (k t 5)) * acc 2) hst ew hw.ne'
      hp.ne' hh.ne'
    rw [← hr] at this ⊢
    simp only [yf]
    linear_combination this
  have dy : HasDerivAt yf (xf t * (h / r ^ 2) + p / h * acc 0 + r * yf t / h * acc 1) t := by
    refine ((d1.mul d5.sin).sub (d2.mul d5.cos)).congr_deriv ?_
    have := alg_y (f := k t 1) (g := k t 2) (A0 := acc 0) (A1 := acc 1)
      (q := (k t 3 * Real.sin (k t 5) - k t 4 * Real.cos (k t 5)) * acc 2) hst hw.ne' hp.ne' hh.ne'
    rw [← hr] at this ⊢
    simp only [xf, yf]
    linear_combination this
  have hrt : pf t / (1 + xf t) = r := by rw [hpt, hxt, hr]
  obtain ⟨dρ, dα, dβ⟩ := polar_newton (p := pf) (h := hf') (x := xf) (y := yf) (mu := mu)
    (R := acc 0) (T := acc 1) (t := t) hmu (by rw [hpt]; exact hp) (by rw [hht]; exact hh) (by rw [hxt]; exact hw)
    (by rw [hpt, hht]; exact ehp) (by rw [hrt, hpt, hht]; exact dp) (by rw [hrt]; exact dh)
    (by rw [hrt, hpt, hht]; exact dx) (by rw [hrt, hpt, hht]; exact dy)
  rw [hrt, hht] at dα dβ
  rw [hht] at dρ
  rw [← hr] at d3 d4 d5
  have dU := eqU_deriv (h := fun s => k s 3) (k := fun s => k s 4) (L := fun s => k s 5) (κ := h / r ^ 2)
    (l := r / h * acc 2) d3 d4 d5 j
  have dV := eqV_deriv (h := fun s => k s 3) (k := fun s => k s 4) (L := fun s => k s 5) (κ := h / r ^ 2)
    (l := r / h * acc 2) d3 d4 d5 j
  have hpos : ∀ m : Fin 6 → ℝ, svPos (meeSv mu m) = (fun j => m 0 * (1 - m 1 ^ 2 - m 2 ^ 2) /
        (1 + (m 1 * Real.cos (m 5) + m 2 * Real.sin (m 5))) * eqU (m 3) (m 4) (m 5) j) ∧
      svVel (meeSv mu m) = (fun j => mu / Real.sqrt (mu * (m 0 * (1 - m 1 ^ 2 - m 2 ^ 2))) *
          (m 1 * Real.sin (m 5) - m 2 * Real.cos (m 5)) * eqU (m 3) (m 4) (m 5) j +
        mu / Real.sqrt (mu * (m 0 * (1 - m 1 ^ 2 - m 2 ^ 2))) * (1 + (m 1 * Real.cos (m 5) + m 2 * Real.sin (m 5))) *
          eqV (m 3) (m 4) (m 5) j) := fun m => by
    constructor <;> funext j <;> fin_cases j <;> simp [svPos, svVel, meeSv, ← add_assoc] <;> ring
  have hform : ∀ᶠ s in 𝓝 t, svPos (sv s) = (fun j => pf s / (1 + xf s) * eqU (k s 3) (k s 4) (k s 5) j) ∧
      svVel (sv s) = (fun j => mu / hf' s * yf s * eqU (k s 3) (k s 4) (k s 5) j +
        mu / hf' s * (1 + xf s) * eqV (k s 3) (k s 4) (k s 5) j) := by
    have c0 := d0.continuousAt
    have c1 := d1.continuousAt
    have c2 := d2.continuousAt
    have c3 := d3.continuousAt
    have c4 := d4.continuousAt
    have o0 : ∀ᶠ s in 𝓝 t, 0 < k s 0 := c0.eventually_const_lt ha
    have o1 : ∀ᶠ s in 𝓝 t, k s 1 ^ 2 + k s 2 ^ 2 < 1 := ((c1.pow 2).add (c2.pow 2)).eventually_lt_const hecc
    have o2 : ∀ᶠ s in 𝓝 t, 0 < k s 1 := c1.eventually_const_lt hf
    have o3 : ∀ᶠ s in 𝓝 t, 0 < k s 3 ^ 2 + k s 4 ^ 2 := by
      refine ((c3.pow 2).add (c4.pow 2)).eventually_const_lt ?_
      rcases hi with hi | hi <;> simp only [Pi.add_apply, Pi.pow_apply] <;> positivity
    filter_upwards [hsv, o0, o1, o2, o3] with s e0 e1 e2 e3 e4
    rw [mee2sv_formula ⟨hmu, e1, e2, by positivity, e4⟩] at e0
    injection e0 with e0
    rw [← e0]
    exact hpos (k s)
  have hformt := hform.self_of_nhds
  have hβ : 0 < mu / h * (1 + xf t) := by rw [hxt]; positivity
  obtain ⟨n1, n2, n3, n4⟩ := dirs_of_frame (ρ := r) (α := mu / h * yf t) (β := mu / h * (1 + xf t)) hr0 hβ
    (eqU_sq (k t 3) (k t 4) (k t 5)) (eqW_sq (k t 3) (k t 4)) (eq_cross (k t 3) (k t 4) (k t 5)).1
    (eq_cross (k t 3) (k t 4) (k t 5)).2 (s := sv t) (by rw [hformt.1, hrt]) (by rw [hformt.2, hht])
  have hsp : mu / h * (1 + xf t) = h / r := by
    have : mu = h ^ 2 / p := by rw [ehp]; field_simp
    rw [this, hxt, hr]
    field_simp
  constructor
  · refine HasDerivAt.congr_of_eventuallyEq ?_ (hform.mono fun s hs => congrFun hs.1 j)
    refine (dρ.mul dU).congr_deriv ?_
    rw [hformt.2, hrt, hht, hsp]
    field_simp
  · refine HasDerivAt.congr_of_eventuallyEq ?_ (hform.mono fun s hs => congrFun hs.2 j)
    refine ((dα.mul dU).add (dβ.mul dV)).congr_deriv ?_
    rw [n1, n2, n3, n4, hformt.1, hrt, hht, hsp]
    field_simp
    ring

/-- the hypotheses of C113 are met at every elliptic state with `f > 0` off the reference plane, for every acceleration -/
example {mu : ℝ} {x : Fin 6 → ℝ} (hmu : 0 < mu) (ha : 0 < x 0) (hecc : x 1 ^ 2 + x 2 ^ 2 < 1) (hf : 0 < x 1)
    (hi : x 3 ≠ 0 ∨ x 4 ≠ 0) (acc : Fin 3 → ℝ) :
    ∃ (k : ℝ → Fin 6 → ℝ) (sv : ℝ → Fin 6 → ℝ), k 0 = x ∧ MeeMotion mu k acc 0 univ ∧
      ∀ᶠ s in 𝓝 0, meeWithA2sv (k s) mu = .ok (sv s) := by
  let A : LyapArgs ℝ := { mu := mu, f := 1, oe := x, oeT := 0, rpmin := 1, m := 1, n := 1, r := 1,
                          b := 1, k := 1, wp := 1, woe := 0 }
  let P : OdeParams ℝ := { mu := mu, u := acc, psi0 := meePsi A 0, psi1 := meePsi A 1,
                           psi2 := meePsi A 2, ptrb := 0 }
  have S : MeeState P.mu x := ⟨hmu, ha, hecc, hf.ne'⟩
  obtain ⟨d, hd⟩ : ∃ d, eomMeeWithAGauss 0 x P = .ok d := ⟨_, eomMee_real (P := P) S 0⟩
  have h0 : (fun j => x j + 0 * d j) = x := by funext j; ring
  have R : MeeOffPlane mu x := by
    refine ⟨hmu, ha, hecc, by positivity, ?_⟩
    rcases hi with h | h <;> positivity
  have hev : ∀ᶠ s in 𝓝 (0 : ℝ), MeeOffPlane mu (fun j => x j + s * d j) := by
    have hc : ContinuousAt (fun (s : ℝ) (j : Fin 6) => x j + s * d j) 0 := by fun_prop
    refine hc.eventually ((meeOffPlane_open mu).mem_nhds ?_)
    show MeeOffPlane mu (fun j => x j + 0 * d j)
    rw [h0]; exact R
  refine ⟨fun s j => x j + s * d j, fun s => meeSv mu (fun j => x j + s * d j), h0,
    ⟨A, P, d, rfl, h0.symm, rfl, rfl, rfl, rfl, ?_, ?_, ?_⟩, hev.mono fun s hs => mee2sv_formula hs⟩
  · intro i; simp [P]
  · show eomMeeWithAGauss 0 (fun j => x j + 0 * d j) P = _
    rw [h0, hd]
  · intro j _
    exact (((hasDerivAt_id (0 : ℝ)).mul_const (d j)).const_add (x j)).congr_deriv (by simp)

/-- a concrete such state -/
example : (0 : ℝ) < 1 ∧ ((1 / 2 : ℝ)) ^ 2 + (1 / 4) ^ 2 < 1 ∧ (0 : ℝ) < 1 / 2 ∧ ((1 / 3 : ℝ) ≠ 0 ∨ (0 : ℝ) ≠ 0) := by norm_num

end PyQ
