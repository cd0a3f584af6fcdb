import Verif.Num

/-! # Model of `pyqlaw/_convergence.py` -/

set_option linter.unusedSectionVars false

namespace PyQ
variable {α : Type} [Add α] [Sub α] [Mul α] [Div α] [Neg α] [NatCast α] [Pow α ℕ]
  [PyTrans α] [PyOrd α]

open PyTrans

/-- The common tail of both checks, `_convergence.py:20-29` and `:37-46`: fill `check_array` with
`1` where the weight is `== 0.0` and with `doe[idx] <= tol_oe[idx]` elsewhere, and test
`np.sum(check_array) == len(tol_oe)`. The array of 0/1 flags is summed as natural numbers. -/
def checkFlags (doe woe tol : Fin 5 → α) : Bool :=
  let flags := (List.finRange 5).map fun idx =>
    if PyOrd.eq (woe idx) ((0 : ℕ) : α) then 1
    else if PyOrd.le (doe idx) (tol idx) then 1 else 0
  flags.sum == 5

/-- `_convergence.py:9-29` -/
def checkConvergenceKeplerian (oe : Fin 6 → α) (oeT woe tol : Fin 5 → α) : Bool :=
  let doe : Fin 5 → α := ![
    PyOrd.abs (oeT 0 - oe 0),
    PyOrd.abs (oeT 1 - oe 1),
    PyOrd.abs (oeT 2 - oe 2),
    PyOrd.abs (arccos (cos (oeT 3 - oe 3))),
    PyOrd.abs (arccos (cos (oeT 4 - oe 4)))]
  checkFlags doe woe tol

/-- `_convergence.py:32-46` -/
def checkConvergenceMee (oe : Fin 6 → α) (oeT woe tol : Fin 5 → α) : Bool :=
  let doe : Fin 5 → α := fun i => PyOrd.abs (oeT i - oe i.castSucc)
  checkFlags doe woe tol

/-- `_convergence.py:49-64`: the new contents of the array `oe` (which is modified in place and
returned). `oe_min`, `oe_max` are arrays of any length; reading past their end is undefined. -/
def elementsSafety (oe : Fin 6 → α) (oeMin oeMax : List α) : Except PyErr (Fin 6 → α) :=
  match oeMin, oeMax with
  | l0 :: l1 :: l2 :: l3 :: l4 :: _, u0 :: u1 :: u2 :: u3 :: u4 :: _ =>
    .ok ![pymin (pymax l0 (oe 0)) u0,
          pymin (pymax l1 (oe 1)) u1,
          pymin (pymax l2 (oe 2)) u2,
          pymin (pymax l3 (oe 3)) u3,
          pymin (pymax l4 (oe 4)) u4,
          oe 5]
  | _, _ => .error .outOfBounds

end PyQ
