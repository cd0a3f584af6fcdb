import Verif.RealInst
import Mathlib.Analysis.SpecialFunctions.Complex.Arg
import Mathlib.Analysis.SpecialFunctions.Trigonometric.Bounds
import Mathlib.Tactic.LinearCombination
import Mathlib.Tactic.Positivity

/-! # `arctan2` in polar coordinates -/

namespace PyQ

theorem mk_polar (r θ : ℝ) : (⟨r * Real.cos θ, r * Real.sin θ⟩ : ℂ) =
    (r : ℂ) * (Complex.cos θ + Complex.sin θ * Complex.I) := by
  apply Complex.ext <;>
    simp [← Complex.ofReal_cos, ← Complex.ofReal_sin]

theorem arg_polar {r θ : ℝ} (hr : 0 < r) (h1 : -Real.pi < θ) (h2 : θ ≤ Real.pi) :
    Complex.arg ⟨r * Real.cos θ, r * Real.sin θ⟩ = θ := by
  rw [mk_polar]; exact Complex.arg_mul_cos_add_sin_mul_I hr ⟨h1, h2⟩

/-- for any angle the result is the angle up to full turns -/
theorem arg_polar_mod {r : ℝ} (hr : 0 < r) (θ : ℝ) :
    ∃ n : ℤ, Complex.arg ⟨r * Real.cos θ, r * Real.sin θ⟩ = θ + n * (2 * Real.pi) := by
  have hp := Real.pi_pos
  -- reduce the angle to (-π, π]
  set n : ℤ := -⌈(θ - Real.pi) / (2 * Real.pi)⌉ with hn
  refine ⟨n, ?_⟩
  have hc : Real.cos θ = Real.cos (θ + n * (2 * Real.pi)) := (Real.cos_add_int_mul_two_pi θ n).symm
  have hs : Real.sin θ = Real.sin (θ + n * (2 * Real.pi)) := (Real.sin_add_int_mul_two_pi θ n).symm
  rw [hc, hs]
  have c1 := Int.le_ceil ((θ - Real.pi) / (2 * Real.pi))
  have c2 := Int.ceil_lt_add_one ((θ - Real.pi) / (2 * Real.pi))
  have e : (n : ℝ) = -(⌈(θ - Real.pi) / (2 * Real.pi)⌉ : ℝ) := by rw [hn]; push_cast; ring
  rw [div_le_iff₀ (by positivity)] at c1
  rw [← sub_lt_iff_lt_add, lt_div_iff₀ (by positivity)] at c2
  apply arg_polar hr
  · rw [e]; nlinarith
  · rw [e]; nlinarith

theorem arg_sincos (x y : ℝ) (h : x ^ 2 + y ^ 2 ≠ 0) :
    Real.cos (Complex.arg ⟨x, y⟩) = x / Real.sqrt (x ^ 2 + y ^ 2) ∧
    Real.sin (Complex.arg ⟨x, y⟩) = y / Real.sqrt (x ^ 2 + y ^ 2) := by
  have hne : (⟨x, y⟩ : ℂ) ≠ 0 := by
    intro e
    have h1 := congrArg Complex.re e
    have h2 := congrArg Complex.im e
    simp at h1 h2
    apply h; rw [h1, h2]; ring
  have hn : ‖(⟨x, y⟩ : ℂ)‖ = Real.sqrt (x ^ 2 + y ^ 2) := by
    rw [Complex.norm_def, Complex.normSq_mk]; congr 1; ring
  exact ⟨by rw [Complex.cos_arg hne, hn], by rw [Complex.sin_arg, hn]⟩

theorem arg_zero_zero : Complex.arg ⟨0, 0⟩ = 0 := by
  have : (⟨0, 0⟩ : ℂ) = 0 := rfl
  rw [this, Complex.arg_zero]

/-- double-angle form of the inclination: `arctan2(2 T, 1 - T²) = 2 arctan T` for `T ≥ 0` -/
theorem arg_double {T : ℝ} (hT : 0 ≤ T) : Complex.arg ⟨1 - T ^ 2, 2 * T⟩ = 2 * Real.arctan T := by
  have h0 : 0 ≤ Real.arctan T := Real.arctan_nonneg.2 hT
  have h1 := Real.arctan_lt_pi_div_two T
  have hp := Real.pi_pos
  have hc := Real.cos_sq_arctan T
  have hs : Real.sin (Real.arctan T) = T * Real.cos (Real.arctan T) := by
    rw [Real.sin_arctan, Real.cos_arctan]; ring
  have e1 : (1 - T ^ 2) = (1 + T ^ 2) * Real.cos (2 * Real.arctan T) := by
    rw [Real.cos_two_mul, hc]; field_simp; ring
  have e2 : 2 * T = (1 + T ^ 2) * Real.sin (2 * Real.arctan T) := by
    rw [Real.sin_two_mul, hs, show 2 * (T * Real.cos (Real.arctan T)) * Real.cos (Real.arctan T) =
      2 * T * Real.cos (Real.arctan T) ^ 2 by ring, hc]; field_simp
  rw [e1, e2]
  exact arg_polar (by positivity) (by linarith) (by linarith)

/-- sine and cosine by the tangent of the half angle -/
theorem half_angle {x : ℝ} (h : Real.cos (x / 2) ≠ 0) :
    Real.cos x = (1 - Real.tan (x / 2) ^ 2) / (1 + Real.tan (x / 2) ^ 2) ∧
    Real.sin x = 2 * Real.tan (x / 2) / (1 + Real.tan (x / 2) ^ 2) := by
  have hx : x = 2 * (x / 2) := by ring
  have hcs := Real.sin_sq_add_cos_sq (x / 2)
  have ht : Real.tan (x / 2) = Real.sin (x / 2) / Real.cos (x / 2) := Real.tan_eq_sin_div_cos _
  have hden : 1 + Real.tan (x / 2) ^ 2 = 1 / Real.cos (x / 2) ^ 2 := by
    rw [ht]; field_simp; linarith
  constructor
  · conv_lhs => rw [hx, Real.cos_two_mul]
    rw [hden, ht]; field_simp; linear_combination hcs
  · conv_lhs => rw [hx, Real.sin_two_mul]
    rw [hden, ht]; field_simp

end PyQ
