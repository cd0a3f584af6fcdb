import Verif.Num

/-! # Model of `pyqlaw/_integrate.py` -/

set_option linter.unusedSectionVars false

namespace PyQ
variable {α : Type} [Add α] [Sub α] [Mul α] [Div α] [Neg α] [NatCast α] [Pow α ℕ]
  [PyTrans α] [PyOrd α]

local notation "ℓ" n:max => (Nat.cast (n : ℕ) : α)

open PyTrans

/-- `_integrate.py:8-26` `rk4(rhs, t, h, y, p)`, for states of any dimension `n` -/
def rk4 {n : ℕ} {P : Type} (rhs : α → (Fin n → α) → P → Except PyErr (Fin n → α))
    (t h : α) (y : Fin n → α) (p : P) : Except PyErr (Fin n → α) := do
  let k1 ← rhs t y p
  let k2 ← rhs (t + rat 1 2 * h) (vadd y (vsmul (h * rat 1 2) k1)) p
  let k3 ← rhs (t + rat 1 2 * h) (vadd y (vsmul (h * rat 1 2) k2)) p
  let k4 ← rhs (t + h) (vadd y (vsmul h k3)) p
  pure (vadd y (vsmul (h / ℓ 6)
    (vadd (vadd (vadd k1 (vsmul (ℓ 2) k2)) (vsmul (ℓ 2) k3)) k4)))

/-- `np.linalg.norm` of an `n`-vector: square root of the sum of squares -/
def normN {n : ℕ} (v : Fin n → α) : α :=
  sqrt (((List.finRange n).map fun i => v i ^ 2).foldl (· + ·) (ℓ 0))

/-- `_integrate.py:29-53` `rkf45(rhs, t, h, y, p, tol)`; returns `(y_next, h_next)`.
The stages are already multiplied by `h` and are multiplied by `h` again in the stage arguments,
and the third weight of `y_next` is `2197/4101`, as in the source. -/
def rkf45 {n : ℕ} {P : Type} (rhs : α → (Fin n → α) → P → Except PyErr (Fin n → α))
    (t h : α) (y : Fin n → α) (p : P) (tol : α) : Except PyErr ((Fin n → α) × α) := do
  let d1 ← rhs t y p
  let k1 := vsmul h d1
  let d2 ← rhs (t + rat 1 4 * h) (vadd y (vsmul (rat 1 4 * h) k1)) p
  let k2 := vsmul h d2
  let d3 ← rhs (t + rat 3 8 * h)
    (vadd (vadd y (vsmul (rat 3 32 * h) k1)) (vsmul (rat 9 32 * h) k2)) p
  let k3 := vsmul h d3
  let d4 ← rhs (t + rat 12 13 * h)
    (vadd (vsub (vadd y (vsmul (rat 1932 2197 * h) k1)) (vsmul (rat 7200 2197 * h) k2))
      (vsmul (rat 7296 2197 * h) k3)) p
  let k4 := vsmul h d4
  let d5 ← rhs (t + h)
    (vsub (vadd (vsub (vadd y (vsmul (rat 439 216 * h) k1)) (vsmul (ℓ 8 * h) k2))
      (vsmul (rat 3680 513 * h) k3)) (vsmul (rat 845 4104 * h) k4)) p
  let k5 := vsmul h d5
  let d6 ← rhs (t + rat 1 2 * h)
    (vsub (vadd (vsub (vadd (vsub y (vsmul (rat 8 27 * h) k1)) (vsmul (ℓ 2 * h) k2))
      (vsmul (rat 3544 2565 * h) k3)) (vsmul (rat 1859 4104 * h) k4)) (vsmul (rat 11 40 * h) k5)) p
  let k6 := vsmul h d6
  let yNext := vsub (vadd (vadd (vadd y (vsmul (rat 25 216) k1)) (vsmul (rat 1408 2565) k3))
    (vsmul (rat 2197 4101) k4)) (vsmul (rat 1 5) k5)
  let zNext := vadd (vsub (vadd (vadd (vadd y (vsmul (rat 16 135) k1))
    (vsmul (rat 6656 12825) k3)) (vsmul (rat 28561 56430) k4)) (vsmul (rat 9 50) k5))
    (vsmul (rat 2 55) k6)
  let q ← ndiv tol (normN (vsub zNext yNext))
  pure (yNext, h * rat 84 100 * rpow q (rat 1 4))

end PyQ
