import Verif.Model.Elements
import Verif.Proofs.Angles
import Mathlib.Analysis.Real.Pi.Bounds
import Mathlib.Tactic.FinCases

/-! # C45-C47: conversions between element sets, over the reals -/

set_option linter.unusedSectionVars false

namespace PyQ

theorem kep2mee_real (k : Fin 6 → ℝ) : kep2mee k =
    ![k 0 * (1 - k 1 ^ 2), k 1 * Real.cos (k 3 + k 4), k 1 * Real.sin (k 3 + k 4),
      Real.tan (k 2 / 2) * Real.cos (k 3), Real.tan (k 2 / 2) * Real.sin (k 3),
      k 3 + k 4 + k 5] := by
  simp [kep2mee]

theorem mee2kep_real (m : Fin 6 → ℝ) (h : 1 - m 1 ^ 2 - m 2 ^ 2 ≠ 0) : mee2kep m = .ok
    ![m 0 / (1 - m 1 ^ 2 - m 2 ^ 2), Real.sqrt (m 1 ^ 2 + m 2 ^ 2),
      Complex.arg ⟨1 - m 3 ^ 2 - m 4 ^ 2, 2 * Real.sqrt (m 3 ^ 2 + m 4 ^ 2)⟩,
      Complex.arg ⟨m 3, m 4⟩,
      Complex.arg ⟨m 1 * m 3 + m 2 * m 4, m 2 * m 3 - m 1 * m 4⟩,
      m 5 - Complex.arg ⟨m 3, m 4⟩ -
        Complex.arg ⟨m 1 * m 3 + m 2 * m 4, m 2 * m 3 - m 1 * m 4⟩] := by
  simp only [mee2kep, Nat.cast_one, Nat.cast_ofNat]
  rw [ndiv_real h]
  rfl

/-- the core of C45: what `mee2kep (kep2mee k)` computes -/
theorem roundtrip_core (k : Fin 6 → ℝ) (he0 : 0 < k 1) (he1 : k 1 < 1) (hi0 : 0 < k 2)
    (hi1 : k 2 < Real.pi) :
    mee2kep (kep2mee k) = .ok ![k 0, k 1, k 2,
      Complex.arg ⟨Real.tan (k 2 / 2) * Real.cos (k 3), Real.tan (k 2 / 2) * Real.sin (k 3)⟩,
      Complex.arg ⟨k 1 * Real.tan (k 2 / 2) * Real.cos (k 4),
        k 1 * Real.tan (k 2 / 2) * Real.sin (k 4)⟩,
      k 3 + k 4 + k 5 -
        Complex.arg ⟨Real.tan (k 2 / 2) * Real.cos (k 3), Real.tan (k 2 / 2) * Real.sin (k 3)⟩ -
        Complex.arg ⟨k 1 * Real.tan (k 2 / 2) * Real.cos (k 4),
          k 1 * Real.tan (k 2 / 2) * Real.sin (k 4)⟩] := by
  have hT : 0 < Real.tan (k 2 / 2) :=
    Real.tan_pos_of_pos_of_lt_pi_div_two (by linarith) (by linarith)
  have hcs : ∀ x, Real.sin x ^ 2 + Real.cos x ^ 2 = 1 := Real.sin_sq_add_cos_sq
  have hfg : ∀ x : ℝ, 1 - (k 1 * Real.cos x) ^ 2 - (k 1 * Real.sin x) ^ 2 = 1 - k 1 ^ 2 := by
    intro x; linear_combination -(k 1 ^ 2) * hcs x
  have hne : 1 - k 1 ^ 2 ≠ 0 := by nlinarith
  rw [mee2kep_real _ (by rw [kep2mee_real]; simp only [Matrix.cons_val]; rw [hfg]; exact hne)]
  rw [kep2mee_real]
  simp only [Matrix.cons_val]
  generalize hTd : Real.tan (k 2 / 2) = T at *
  have e1 : Real.sqrt ((k 1 * Real.cos (k 3 + k 4)) ^ 2 + (k 1 * Real.sin (k 3 + k 4)) ^ 2) = k 1 := by
    rw [show (k 1 * Real.cos (k 3 + k 4)) ^ 2 + (k 1 * Real.sin (k 3 + k 4)) ^ 2 = k 1 ^ 2 by
      linear_combination (k 1 ^ 2) * hcs (k 3 + k 4)]
    exact Real.sqrt_sq he0.le
  have e2 : Real.sqrt ((T * Real.cos (k 3)) ^ 2 + (T * Real.sin (k 3)) ^ 2) = T := by
    rw [show (T * Real.cos (k 3)) ^ 2 + (T * Real.sin (k 3)) ^ 2 = T ^ 2 by
      linear_combination (T ^ 2) * hcs (k 3)]
    exact Real.sqrt_sq hT.le
  have e3 : 1 - (T * Real.cos (k 3)) ^ 2 - (T * Real.sin (k 3)) ^ 2 = 1 - T ^ 2 := by
    linear_combination -(T ^ 2) * hcs (k 3)
  have e4 : k 1 * Real.cos (k 3 + k 4) * (T * Real.cos (k 3)) +
      k 1 * Real.sin (k 3 + k 4) * (T * Real.sin (k 3)) = k 1 * T * Real.cos (k 4) := by
    rw [Real.cos_add, Real.sin_add]; linear_combination (k 1 * T * Real.cos (k 4)) * hcs (k 3)
  have e5 : k 1 * Real.sin (k 3 + k 4) * (T * Real.cos (k 3)) -
      k 1 * Real.cos (k 3 + k 4) * (T * Real.sin (k 3)) = k 1 * T * Real.sin (k 4) := by
    rw [Real.cos_add, Real.sin_add]; linear_combination (k 1 * T * Real.sin (k 4)) * hcs (k 3)
  rw [hfg, e1, e2, e3, e4, e5, arg_double hT.le]
  have hat : Real.arctan T = k 2 / 2 := by
    rw [← hTd]; exact Real.arctan_tan (by linarith) (by linarith)
  rw [hat, mul_div_cancel_right₀ _ hne]
  congr 1
  funext i; fin_cases i <;> simp
  ring

/-- C45: on canonical elements the round trip is the identity. -/
theorem C45_canonical (k : Fin 6 → ℝ) (he0 : 0 < k 1) (he1 : k 1 < 1) (hi0 : 0 < k 2)
    (hi1 : k 2 < Real.pi) (hO1 : -Real.pi < k 3) (hO2 : k 3 ≤ Real.pi) (ho1 : -Real.pi < k 4)
    (ho2 : k 4 ≤ Real.pi) : mee2kep (kep2mee k) = .ok k := by
  have hT : 0 < Real.tan (k 2 / 2) :=
    Real.tan_pos_of_pos_of_lt_pi_div_two (by linarith) (by linarith)
  rw [roundtrip_core k he0 he1 hi0 hi1, arg_polar hT hO1 hO2, arg_polar (by positivity) ho1 ho2]
  congr 1
  funext i; fin_cases i <;> simp
  ring

/-- C45: for arbitrary angles the round trip is the identity up to full turns. -/
theorem C45_mod_turns (k : Fin 6 → ℝ) (he0 : 0 < k 1) (he1 : k 1 < 1) (hi0 : 0 < k 2)
    (hi1 : k 2 < Real.pi) : ∃ m n : ℤ, mee2kep (kep2mee k) =
      .ok ![k 0, k 1, k 2, k 3 + m * (2 * Real.pi), k 4 + n * (2 * Real.pi),
        k 5 + (-m - n : ℤ) * (2 * Real.pi)] := by
  have hT : 0 < Real.tan (k 2 / 2) :=
    Real.tan_pos_of_pos_of_lt_pi_div_two (by linarith) (by linarith)
  obtain ⟨m, hm⟩ := arg_polar_mod hT (k 3)
  obtain ⟨n, hn⟩ := arg_polar_mod (mul_pos he0 hT) (k 4)
  refine ⟨m, n, ?_⟩
  rw [roundtrip_core k he0 he1 hi0 hi1, hm, hn]
  congr 1
  funext i; fin_cases i <;> simp
  ring

example : mee2kep (kep2mee ![2, 1 / 2, 1, -3, 3, 10]) = .ok ![(2 : ℝ), 1 / 2, 1, -3, 3, 10] := by
  have := Real.pi_gt_three
  apply C45_canonical <;> simp <;> norm_num <;> linarith

/-! ## C46 -/

/-- C46: for every vector with `f² + g² < 1` (in fact `≠ 1`) and `(h, k) ≠ (0, 0)`. -/
theorem C46_roundtrip (m : Fin 6 → ℝ) (he : m 1 ^ 2 + m 2 ^ 2 ≠ 1)
    (hhk : m 3 ≠ 0 ∨ m 4 ≠ 0) :
    ∃ k, mee2kep m = .ok k ∧ kep2mee k = m := by
  have hne : 1 - m 1 ^ 2 - m 2 ^ 2 ≠ 0 := fun e => he (by linarith)
  refine ⟨_, mee2kep_real m hne, ?_⟩
  rw [kep2mee_real]
  have hH : 0 < m 3 ^ 2 + m 4 ^ 2 := by
    rcases hhk with h | h
    · have : 0 < m 3 ^ 2 := by positivity
      positivity
    · have : 0 < m 4 ^ 2 := by positivity
      positivity
  have hE : 0 ≤ m 1 ^ 2 + m 2 ^ 2 := by positivity
  obtain ⟨c1, s1⟩ := arg_sincos (m 3) (m 4) hH.ne'
  have hH2 := Real.sq_sqrt hH.le
  have hE2 := Real.sq_sqrt hE
  have hHp := Real.sqrt_pos.2 hH
  have hE0 := Real.sqrt_nonneg (m 1 ^ 2 + m 2 ^ 2)
  simp only [Matrix.cons_val]
  set H := Real.sqrt (m 3 ^ 2 + m 4 ^ 2) with hHd
  set e := Real.sqrt (m 1 ^ 2 + m 2 ^ 2) with hed
  have hi : Complex.arg ⟨1 - m 3 ^ 2 - m 4 ^ 2, 2 * H⟩ = 2 * Real.arctan H := by
    rw [show 1 - m 3 ^ 2 - m 4 ^ 2 = 1 - H ^ 2 by rw [hH2]; ring]; exact arg_double hHp.le
  have hhalf : 2 * Real.arctan H / 2 = Real.arctan H := by ring
  rw [hi, hhalf, Real.tan_arctan, c1, s1]
  have hp : m 0 / (1 - m 1 ^ 2 - m 2 ^ 2) * (1 - e ^ 2) = m 0 := by
    rw [hE2, show 1 - (m 1 ^ 2 + m 2 ^ 2) = 1 - m 1 ^ 2 - m 2 ^ 2 by ring]; field_simp
  rw [hp]
  have hfg : e * Real.cos (Complex.arg ⟨m 3, m 4⟩ +
        Complex.arg ⟨m 1 * m 3 + m 2 * m 4, m 2 * m 3 - m 1 * m 4⟩) = m 1 ∧
      e * Real.sin (Complex.arg ⟨m 3, m 4⟩ +
        Complex.arg ⟨m 1 * m 3 + m 2 * m 4, m 2 * m 3 - m 1 * m 4⟩) = m 2 := by
    rcases hE.eq_or_lt with h0 | hpos
    · have h1 : m 1 = 0 := by nlinarith [sq_nonneg (m 1), sq_nonneg (m 2)]
      have h2 : m 2 = 0 := by nlinarith [sq_nonneg (m 1), sq_nonneg (m 2)]
      have he : e = 0 := by rw [hed, ← h0, Real.sqrt_zero]
      rw [he, h1, h2]; simp
    · have hep : 0 < e := Real.sqrt_pos.2 hpos
      have hprod : (m 1 * m 3 + m 2 * m 4) ^ 2 + (m 2 * m 3 - m 1 * m 4) ^ 2 = (e * H) ^ 2 := by
        rw [mul_pow, hE2, hH2]; ring
      obtain ⟨c2, s2⟩ := arg_sincos (m 1 * m 3 + m 2 * m 4) (m 2 * m 3 - m 1 * m 4)
        (by rw [hprod]; positivity)
      rw [hprod, Real.sqrt_sq (by positivity)] at c2 s2
      rw [Real.cos_add, Real.sin_add, c1, s1, c2, s2]
      constructor
      · field_simp; rw [hH2]; ring
      · field_simp; rw [hH2]; ring
  rw [hfg.1, hfg.2]
  funext i; fin_cases i <;> simp
  · field_simp
  · field_simp

/-- an equatorial eccentric orbit with periapsis on the y-axis: the property fails there -/
theorem C46_violated : ∃ k, mee2kep ![1, 0, 1 / 2, 0, 0, (0 : ℝ)] = .ok k ∧
    kep2mee k = ![1, 1 / 2, 0, 0, 0, 0] := by
  refine ⟨_, mee2kep_real _ (by simp; norm_num), ?_⟩
  have h2 : Real.sqrt ((1 / 2 : ℝ) ^ 2) = 1 / 2 := Real.sqrt_sq (by norm_num)
  have h2' : Real.sqrt ((2 : ℝ)⁻¹ ^ 2) = 2⁻¹ := Real.sqrt_sq (by norm_num)
  have h1 : Complex.arg ⟨1, 0⟩ = 0 := by
    have : (⟨1, 0⟩ : ℂ) = 1 := rfl
    rw [this, Complex.arg_one]
  rw [kep2mee_real]
  funext i; fin_cases i <;> simp [arg_zero_zero, h1]
  norm_num

example : ∃ k, mee2kep ![1, -1 / 2, 0, 0, -1, (7 : ℝ)] = .ok k ∧
    kep2mee k = ![1, -1 / 2, 0, 0, -1, 7] :=
  C46_roundtrip _ (by simp; norm_num) (by simp)

/-! ## C47 -/

/-- C47: the two semi-latus-rectum / semi-major-axis conversions are mutually inverse. -/
theorem C47_inverse (x : Fin 6 → ℝ) (h : x 1 ^ 2 + x 2 ^ 2 ≠ 1) :
    mee2meeWithA (meeWithA2mee x) = .ok x ∧
    ∃ y, mee2meeWithA x = .ok y ∧ meeWithA2mee y = x := by
  have hne : 1 - x 1 ^ 2 - x 2 ^ 2 ≠ 0 := fun e => h (by linarith)
  constructor
  · simp only [mee2meeWithA, meeWithA2mee, Nat.cast_one, Matrix.cons_val]
    rw [ndiv_real hne]
    simp only [bind, Except.bind, pure, Except.pure]
    congr 1
    funext i; fin_cases i <;> simp
    field_simp
  · simp only [mee2meeWithA, Nat.cast_one]
    rw [ndiv_real hne]
    refine ⟨_, rfl, ?_⟩
    funext i; fin_cases i <;> simp [meeWithA2mee]
    field_simp

/-- C47: going to semi-major-axis MEE directly or through MEE is the same. -/
theorem C47_direct (k : Fin 6 → ℝ) (h : k 1 ^ 2 ≠ 1) :
    mee2meeWithA (kep2mee k) = .ok (kep2meeWithA k) := by
  have hcs := Real.sin_sq_add_cos_sq (k 3 + k 4)
  have e : 1 - (k 1 * Real.cos (k 3 + k 4)) ^ 2 - (k 1 * Real.sin (k 3 + k 4)) ^ 2 = 1 - k 1 ^ 2 := by
    linear_combination -(k 1 ^ 2) * hcs
  have hne : 1 - k 1 ^ 2 ≠ 0 := fun e => h (by linarith)
  simp only [mee2meeWithA, Nat.cast_one, kep2mee_real, Matrix.cons_val]
  rw [e, ndiv_real hne]
  simp only [bind, Except.bind, pure, Except.pure]
  congr 1
  funext i; fin_cases i <;> simp [kep2meeWithA]
  field_simp

/-- C47: and back to MEE. -/
theorem C47_direct_back (k : Fin 6 → ℝ) : meeWithA2mee (kep2meeWithA k) = kep2mee k := by
  have hcs := Real.sin_sq_add_cos_sq (k 3 + k 4)
  funext i; fin_cases i <;> simp [meeWithA2mee, kep2meeWithA, kep2mee]
  left; linear_combination -(k 1 ^ 2) * hcs

/-- C47: `mee_with_a2kep ∘ kep2mee_with_a` is the identity on canonical elements, and up to full turns
in general. -/
theorem C47_keplerian (k : Fin 6 → ℝ) (he0 : 0 < k 1) (he1 : k 1 < 1) (hi0 : 0 < k 2)
    (hi1 : k 2 < Real.pi) :
    (-Real.pi < k 3 → k 3 ≤ Real.pi → -Real.pi < k 4 → k 4 ≤ Real.pi →
      meeWithA2kep (kep2meeWithA k) = .ok k) ∧
    ∃ m n : ℤ, meeWithA2kep (kep2meeWithA k) =
      .ok ![k 0, k 1, k 2, k 3 + m * (2 * Real.pi), k 4 + n * (2 * Real.pi),
        k 5 + (-m - n : ℤ) * (2 * Real.pi)] := by
  simp only [meeWithA2kep, C47_direct_back]
  exact ⟨fun a b c d => C45_canonical k he0 he1 hi0 hi1 a b c d, C45_mod_turns k he0 he1 hi0 hi1⟩

example : meeWithA2kep (kep2meeWithA ![2, 1 / 2, 1, -3, 3, 10]) = .ok ![(2 : ℝ), 1 / 2, 1, -3, 3, 10] := by
  have := Real.pi_gt_three
  apply (C47_keplerian _ _ _ _ _).1 <;> simp <;> norm_num <;> linarith

end PyQ
