import Verif.Model.Transformations
import Verif.RealInst
import Mathlib.LinearAlgebra.Matrix.Determinant.Basic
import Mathlib.LinearAlgebra.Matrix.Notation
import Mathlib.Analysis.Real.Pi.Bounds
import Mathlib.Tactic.LinearCombination
import Mathlib.Tactic.FinCases

/-! # C55 (rotation matrices) and C56 (`wrap`), over the reals -/

set_option linter.unusedSectionVars false

namespace PyQ

open Matrix

/-- what it means for a family of 3-by-3 matrices to be rotations about an axis: proper orthogonal,
additive in the angle, the identity at zero, the inverse at the opposite angle -/
structure IsRotationFamily (R : ℝ → Fin 3 → Fin 3 → ℝ) : Prop where
  orthogonal : ∀ φ, Matrix.of (R φ) * (Matrix.of (R φ))ᵀ = 1
  orthogonal' : ∀ φ, (Matrix.of (R φ))ᵀ * Matrix.of (R φ) = 1
  det : ∀ φ, (Matrix.of (R φ)).det = 1
  zero : Matrix.of (R 0) = 1
  add : ∀ φ ψ, Matrix.of (R (φ + ψ)) = Matrix.of (R φ) * Matrix.of (R ψ)
  neg : ∀ φ, Matrix.of (R (-φ)) = (Matrix.of (R φ))ᵀ
  inv : ∀ φ, Matrix.of (R (-φ)) * Matrix.of (R φ) = 1

/-- C55: the three matrices rotate; each fixes its own axis. -/
theorem C55_rotations :
    IsRotationFamily (rotmat1 (α := ℝ)) ∧ IsRotationFamily (rotmat2 (α := ℝ)) ∧
    IsRotationFamily (rotmat3 (α := ℝ)) := by
  refine ⟨⟨?_, ?_, ?_, ?_, ?_, ?_, ?_⟩, ⟨?_, ?_, ?_, ?_, ?_, ?_, ?_⟩, ⟨?_, ?_, ?_, ?_, ?_, ?_, ?_⟩⟩
  all_goals first
    | (intro φ ψ
       ext i j
       fin_cases i <;> fin_cases j <;>
         simp [rotmat1, rotmat2, rotmat3, Matrix.mul_apply, Fin.sum_univ_three, Real.cos_add,
           Real.sin_add] <;> ring)
    | (intro φ
       have h := Real.sin_sq_add_cos_sq φ
       first
       | (ext i j
          fin_cases i <;> fin_cases j <;>
           simp [rotmat1, rotmat2, rotmat3, Matrix.mul_apply, Fin.sum_univ_three] <;>
           first | ring1 | linear_combination h)
       | (simp [rotmat1, rotmat2, rotmat3, Matrix.det_fin_three]; linear_combination h))
    | (ext i j
       fin_cases i <;> fin_cases j <;> simp [rotmat1, rotmat2, rotmat3])

/-- C55: the axis and the sense of each rotation: `rotmat3 φ` maps the direction at angle `θ` of the
xy-plane to the one at angle `θ - φ`, and cyclically for the others. -/
theorem C55_axes (φ θ : ℝ) :
    mulVec3 (rotmat1 φ) ![1, Real.cos θ, Real.sin θ] = ![1, Real.cos (θ - φ), Real.sin (θ - φ)] ∧
    mulVec3 (rotmat2 φ) ![Real.sin θ, 1, Real.cos θ] = ![Real.sin (θ - φ), 1, Real.cos (θ - φ)] ∧
    mulVec3 (rotmat3 φ) ![Real.cos θ, Real.sin θ, 1] = ![Real.cos (θ - φ), Real.sin (θ - φ), 1] := by
  refine ⟨?_, ?_, ?_⟩ <;> ext i <;> fin_cases i <;>
    simp [rotmat1, rotmat2, rotmat3, mulVec3, dot3, Real.cos_sub, Real.sin_sub] <;> ring

/-- a quarter turn about z maps x to -y in the frame convention used -/
example : mulVec3 (rotmat3 (Real.pi / 2)) ![1, 0, (1 : ℝ)] = ![0, -1, 1] := by
  ext i; fin_cases i <;> simp [rotmat3, mulVec3, dot3]

/-- C56, the part that holds: the result lies in `[-π, π)`. -/
theorem C56_range_partial (a : ℝ) : -Real.pi ≤ wrap a ∧ wrap a < Real.pi := by
  have hp := Real.pi_pos
  have h0 : 0 ≤ (a + Real.pi) - 2 * ⌊(a + Real.pi) / 2⌋ := by
    have := Int.floor_le ((a + Real.pi) / 2); linarith
  have h1 : (a + Real.pi) - 2 * ⌊(a + Real.pi) / 2⌋ < 2 := by
    have := Int.lt_floor_add_one ((a + Real.pi) / 2); linarith
  simp only [wrap, pi_real, fmod_real, Nat.cast_ofNat]
  constructor
  · nlinarith
  · nlinarith

/-- the function actually computed has period 2 instead of `2π` -/
theorem C56_period_two (a : ℝ) : wrap (a + 2) = wrap a := by
  have : (a + 2 + Real.pi) / 2 = (a + Real.pi) / 2 + 1 := by ring
  simp only [wrap, pi_real, fmod_real, Nat.cast_ofNat, this, Int.floor_add_one]
  push_cast
  ring

/-- the value at the angle zero -/
theorem wrap_zero : wrap (0 : ℝ) = Real.pi * (Real.pi - 3) := by
  have h3 := Real.pi_gt_three
  have h4 := Real.pi_le_four
  have : ⌊(0 + Real.pi) / 2⌋ = 1 := by
    rw [Int.floor_eq_iff]; push_cast
    constructor
    · linarith
    · have := Real.pi_lt_d2; norm_num at this ⊢; linarith
  simp only [wrap, pi_real, fmod_real, Nat.cast_ofNat, this]
  push_cast
  ring

/-- C56 is violated: already the angle 0 is not sent to an equivalent angle. -/
theorem C56_violated : ¬ ∀ a : ℝ, ∃ k : ℤ, wrap a = a + 2 * Real.pi * k := by
  intro h
  obtain ⟨k, hk⟩ := h 0
  have h3 := Real.pi_gt_three
  have h4 := Real.pi_le_four
  rw [wrap_zero] at hk
  have hk' : Real.pi - 3 = 2 * (k : ℝ) := by
    have : Real.pi * (Real.pi - 3 - 2 * k) = 0 := by linear_combination hk
    rcases mul_eq_zero.1 this with h | h <;> linarith
  have hk0 : (0 : ℝ) < k := by linarith
  have hk1 : (k : ℝ) < 1 := by linarith
  have : (0 : ℤ) < k := by exact_mod_cast hk0
  have : k < (1 : ℤ) := by exact_mod_cast hk1
  omega

/-- a full turn changes the result: `wrap 0 ≠ wrap (2π)` -/
theorem C56_not_turn_invariant : wrap (0 : ℝ) ≠ wrap (2 * Real.pi) := by
  have h3 := Real.pi_gt_d2
  have h4 := Real.pi_lt_d2
  norm_num at h3 h4
  have : ⌊(2 * Real.pi + Real.pi) / 2⌋ = 4 := by
    rw [Int.floor_eq_iff]; push_cast
    constructor <;> linarith
  rw [wrap_zero]
  simp only [wrap, pi_real, fmod_real, Nat.cast_ofNat, this]
  push_cast
  intro h
  nlinarith

end PyQ
