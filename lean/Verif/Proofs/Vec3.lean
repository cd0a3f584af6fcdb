import Verif.RealInst
import Mathlib.Tactic.LinearCombination
import Mathlib.Tactic.FinCases
import Mathlib.Tactic.Positivity

/-! # Elementary facts about 3-vectors over the reals -/

namespace PyQ

theorem norm3_sq (v : Fin 3 → ℝ) : norm3 v ^ 2 = dot3 v v := by
  simp only [norm3, dot3, sqrt_real]
  rw [Real.sq_sqrt (by positivity)]; ring

theorem norm3_nonneg (v : Fin 3 → ℝ) : 0 ≤ norm3 v := Real.sqrt_nonneg _

theorem norm3_eq_sqrt (v : Fin 3 → ℝ) : norm3 v = Real.sqrt (dot3 v v) := by
  simp only [norm3, dot3, sqrt_real]; congr 1; ring

theorem dot3_self_nonneg (v : Fin 3 → ℝ) : 0 ≤ dot3 v v := by
  rw [← norm3_sq]; positivity

theorem dot3_self_eq_zero {v : Fin 3 → ℝ} : dot3 v v = 0 ↔ v = 0 := by
  constructor
  · intro h
    simp only [dot3] at h
    have h0 : v 0 = 0 := by nlinarith [mul_self_nonneg (v 0), mul_self_nonneg (v 1), mul_self_nonneg (v 2)]
    have h1 : v 1 = 0 := by nlinarith [mul_self_nonneg (v 0), mul_self_nonneg (v 1), mul_self_nonneg (v 2)]
    have h2 : v 2 = 0 := by nlinarith [mul_self_nonneg (v 0), mul_self_nonneg (v 1), mul_self_nonneg (v 2)]
    ext i; fin_cases i <;> simp [h0, h1, h2]
  · rintro rfl; simp [dot3]

theorem norm3_eq_zero {v : Fin 3 → ℝ} : norm3 v = 0 ↔ v = 0 := by
  rw [← dot3_self_eq_zero, ← norm3_sq]; simp

theorem norm3_pos {v : Fin 3 → ℝ} (h : v ≠ 0) : 0 < norm3 v :=
  lt_of_le_of_ne (norm3_nonneg v) (fun e => h (norm3_eq_zero.1 e.symm))

theorem norm3_smul (c : ℝ) (v : Fin 3 → ℝ) : norm3 (vsmul c v) = |c| * norm3 v := by
  rw [norm3_eq_sqrt, norm3_eq_sqrt, show dot3 (vsmul c v) (vsmul c v) = c ^ 2 * dot3 v v by
    simp only [dot3, vsmul]; ring, Real.sqrt_mul (sq_nonneg c), Real.sqrt_sq_eq_abs]

/-- Lagrange's identity -/
theorem dot3_cross3 (v w : Fin 3 → ℝ) :
    dot3 (cross3 v w) (cross3 v w) = dot3 v v * dot3 w w - dot3 v w ^ 2 := by
  simp [dot3, cross3]; ring

/-- Cauchy-Schwarz -/
theorem abs_dot3_le (v w : Fin 3 → ℝ) : |dot3 v w| ≤ norm3 v * norm3 w := by
  apply abs_le_of_sq_le_sq
  · rw [mul_pow, norm3_sq, norm3_sq]
    have := dot3_self_nonneg (cross3 v w)
    rw [dot3_cross3] at this; linarith
  · exact mul_nonneg (norm3_nonneg v) (norm3_nonneg w)

theorem cross3_zero_left (w : Fin 3 → ℝ) : cross3 0 w = 0 := by
  ext i; fin_cases i <;> simp [cross3]

theorem cross3_zero_right (w : Fin 3 → ℝ) : cross3 w 0 = 0 := by
  ext i; fin_cases i <;> simp [cross3]

theorem dot3_smul_left (c : ℝ) (v w : Fin 3 → ℝ) : dot3 (vsmul c v) w = c * dot3 v w := by
  simp only [dot3, vsmul]; ring

theorem dot3_smul_right (c : ℝ) (v w : Fin 3 → ℝ) : dot3 v (vsmul c w) = c * dot3 v w := by
  simp only [dot3, vsmul]; ring

theorem vdivs_eq_smul (v : Fin 3 → ℝ) (c : ℝ) : vdivs v c = vsmul (1 / c) v := by
  ext i; simp only [vdivs, vsmul]; ring

theorem dot3_comm (v w : Fin 3 → ℝ) : dot3 v w = dot3 w v := by simp only [dot3]; ring

theorem cross3_smul_left (c : ℝ) (v w : Fin 3 → ℝ) :
    cross3 (vsmul c v) w = vsmul c (cross3 v w) := by
  ext i; fin_cases i <;> simp [cross3, vsmul] <;> ring

theorem cross3_smul_right (c : ℝ) (v w : Fin 3 → ℝ) :
    cross3 v (vsmul c w) = vsmul c (cross3 v w) := by
  ext i; fin_cases i <;> simp [cross3, vsmul] <;> ring

theorem dot3_cross3_left (v w : Fin 3 → ℝ) : dot3 v (cross3 v w) = 0 := by
  simp [dot3, cross3]; ring

theorem dot3_cross3_right (v w : Fin 3 → ℝ) : dot3 w (cross3 v w) = 0 := by
  simp [dot3, cross3]; ring

/-- cyclic symmetry of the triple product -/
theorem dot3_cross3_cyc (a b c : Fin 3 → ℝ) : dot3 (cross3 a b) c = dot3 a (cross3 b c) := by
  simp [dot3, cross3]; ring

theorem cross3_self (v : Fin 3 → ℝ) : cross3 v v = 0 := by
  ext i; fin_cases i <;> simp [cross3] <;> ring

end PyQ
