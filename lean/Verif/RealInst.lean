import Verif.Num
import Mathlib.Analysis.SpecialFunctions.Complex.Arg
import Mathlib.Analysis.SpecialFunctions.Trigonometric.Inverse
import Mathlib.Analysis.SpecialFunctions.Trigonometric.Arctan
import Mathlib.Analysis.SpecialFunctions.Pow.Real
import Mathlib.Analysis.SpecialFunctions.Sqrt
import Mathlib.Analysis.Calculus.Deriv.Basic

/-!
# The real-number instance of the number interface

Real numbers with Mathlib's elementary functions. `np.arctan2(y, x)` is the argument of `x + iy`,
in `(-π, π]`, with value `0` at the origin as in C's `atan2(0, 0)` (zero is unsigned here).
`x % y` for `y > 0` is `x - y*⌊x/y⌋`. `sympy.diff` is the derivative.
-/

noncomputable section

open Classical

namespace PyQ

instance : PyTrans ℝ where
  pi := Real.pi
  sqrt := Real.sqrt
  sin := Real.sin
  cos := Real.cos
  tan := Real.tan
  arctan := Real.arctan
  arccos := Real.arccos
  exp := Real.exp
  arctan2 := fun y x => Complex.arg ⟨x, y⟩
  rpow := fun x y => x ^ y
  fmod := fun x y => x - y * ⌊x / y⌋

instance : PyOrd ℝ where
  lt := fun a b => decide (a < b)
  le := fun a b => decide (a ≤ b)
  eq := fun a b => decide (a = b)
  abs := fun a => |a|
  sign := fun a => if a < 0 then -1 else if 0 < a then 1 else 0

instance : SymDiff ℝ where
  diff := deriv

@[simp] theorem pi_real : (PyTrans.pi : ℝ) = Real.pi := rfl
@[simp] theorem sqrt_real (x : ℝ) : PyTrans.sqrt x = Real.sqrt x := rfl
@[simp] theorem sin_real (x : ℝ) : PyTrans.sin x = Real.sin x := rfl
@[simp] theorem cos_real (x : ℝ) : PyTrans.cos x = Real.cos x := rfl
@[simp] theorem tan_real (x : ℝ) : PyTrans.tan x = Real.tan x := rfl
@[simp] theorem arctan_real (x : ℝ) : PyTrans.arctan x = Real.arctan x := rfl
@[simp] theorem arccos_real (x : ℝ) : PyTrans.arccos x = Real.arccos x := rfl
@[simp] theorem exp_real (x : ℝ) : PyTrans.exp x = Real.exp x := rfl
@[simp] theorem arctan2_real (y x : ℝ) : PyTrans.arctan2 y x = Complex.arg ⟨x, y⟩ := rfl
@[simp] theorem rpow_real (x y : ℝ) : PyTrans.rpow x y = x ^ y := rfl
@[simp] theorem fmod_real (x y : ℝ) : PyTrans.fmod x y = x - y * ⌊x / y⌋ := rfl
@[simp] theorem diff_real (f : ℝ → ℝ) (x : ℝ) : SymDiff.diff f x = deriv f x := rfl
@[simp] theorem lt_real (a b : ℝ) : PyOrd.lt a b = decide (a < b) := rfl
@[simp] theorem le_real (a b : ℝ) : PyOrd.le a b = decide (a ≤ b) := rfl
@[simp] theorem eq_real (a b : ℝ) : PyOrd.eq a b = decide (a = b) := rfl
@[simp] theorem abs_real (a : ℝ) : PyOrd.abs a = |a| := rfl

theorem rat_real (p q : ℕ) : (rat p q : ℝ) = (p : ℝ) / (q : ℝ) := rfl

/-- checked division succeeds on a non-zero divisor -/
theorem ndiv_real {x y : ℝ} (h : y ≠ 0) : ndiv x y = .ok (x / y) := by
  simp [ndiv, h]

/-- checked division raises on zero -/
theorem ndiv_zero_real (x : ℝ) : ndiv x (0 : ℝ) = .error .zeroDivision := by
  simp [ndiv]

end PyQ
