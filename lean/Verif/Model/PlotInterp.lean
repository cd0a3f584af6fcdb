import Verif.Model.Report

/-! # Model of `plot_trajectory_2d(interpolate=True)` and of the default `plot_trajectory_3d()` in
`pyqlaw/_plot_methods.py` -/

set_option linter.unusedSectionVars false

namespace PyQ
variable {α : Type} [Add α] [Sub α] [Mul α] [Div α] [Neg α] [NatCast α] [Pow α ℕ]
  [PyTrans α] [PyOrd α] [PyNan α]

local notation "ℓ" n:max => (Nat.cast (n : ℕ) : α)

/-- what both functions do with the Cartesian history, `_plot_methods.py:159-173,195-209`: `cart[0,0]` and `cart[0,-1]`
are index errors if there is no column -/
def QLaw.drawTrajectory (Q : QLaw α) (cart : List (Fin 6 → α)) : Except PyErr (TrajectoryPlot α) := do
  let P ← Q.problem
  let k0 ← orbitElements Q.cfg P.oe0
  let orb0 ← getOrbitCoordinates k0 Q.cfg.mu 200
  let v ← asVec5 P.oeT
  let kT ← orbitElements Q.cfg ![v 0, v 1, v 2, v 3, v 4, ℓ 0]
  let orbT ← getOrbitCoordinates kT Q.cfg.mu 200
  let c0 ← match cart.head? with
    | some c => Except.ok c
    | none => Except.error PyErr.indexError
  let c1 ← last1 cart
  pure { initial := orb0, final := orbT, transfer := cart, start := c0, stop := c1 }

/-- `plot_trajectory_3d(interpolate=True, steps=steps)`, the default, and `plot_trajectory_2d(interpolate=True, steps=steps)`,
`_plot_methods.py:157,191`: `get_cartesian_history` interpolates with `kind="quadratic"` (`_qlaw.py:648-667`), for which
scipy's `interp1d` raises a `ValueError` unless it is given at least three points. -/
def QLaw.plotTrajectoryInterp (interp : List α → List α → α → α) (roundInt : α → ℤ) (Q : QLaw α) (steps : Option ℕ) :
    Except PyErr (TrajectoryPlot α) := do
  let h ← Q.histories
  if h.times.length < 3 then Except.error PyErr.valueError
  else do
    let cart ← Q.getCartesianHistoryInterp interp roundInt steps
    Q.drawTrajectory cart.1

end PyQ
