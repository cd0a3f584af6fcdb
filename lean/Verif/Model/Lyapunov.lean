import Verif.Num

/-! # Model of `pyqlaw/_lyapunov.py` -/

set_option linter.unusedSectionVars false

namespace PyQ
variable {α : Type} [Add α] [Sub α] [Mul α] [Div α] [Neg α] [NatCast α] [Pow α ℕ]
  [PyTrans α] [PyOrd α]

open PyTrans

/-- `_lyapunov.py:9-16` `_u_to_thrust_angles(u_float)`: returns `(u, alpha, beta)`.
`u_float/u_float_norm` is array division (never raises); the quotient in `beta` is a scalar
division in compiled code. -/
def uToThrustAngles (uf : Fin 3 → α) : Except PyErr ((Fin 3 → α) × α × α) := do
  let nrm := sqrt (uf 0 ^ 2 + uf 1 ^ 2 + uf 2 ^ 2)
  let u := vdivs uf nrm
  let alpha := arctan2 (-u 0) (-u 1)
  let q ← ndiv (-u 2) (sqrt (u 0 ^ 2 + u 1 ^ 2))
  pure (u, alpha, arctan q)

/-- Arguments of the generated functions, in the order of `_symbolic.py:159`:
`mu, f, oe, oeT, rpmin, m_petro, n_petro, r_petro, b_petro, k_petro, wp, woe`. -/
structure LyapArgs (α : Type) where
  mu : α
  f : α
  oe : Fin 6 → α
  oeT : Fin 5 → α
  rpmin : α
  m : α
  n : α
  r : α
  b : α
  k : α
  wp : α
  woe : Fin 5 → α

/-- Result of `fun_lyapunov_control`: `[[ux,uy,uz], psi, q, dqdoe]`; `psi c j` is column `c`
(direction), element `j`. -/
structure LyapOut (α : Type) where
  uRaw : Fin 3 → α
  psi : Fin 3 → Fin 5 → α
  q : α
  dqdoe : Fin 5 → α

/-- Result of `lyapunov_control_angles`, `_lyapunov.py:70`. -/
structure ControlOut (α : Type) where
  alpha : α
  beta : α
  u : Fin 3 → α
  psi : Fin 3 → Fin 5 → α
  q : α
  dqdt : α

/-- sum over five entries of a product, `np.array(dqdoe) @ column` -/
def dot5 (v w : Fin 5 → α) : α :=
  v 0 * w 0 + v 1 * w 1 + v 2 * w 2 + v 3 * w 3 + v 4 * w 4

/-- `_lyapunov.py:19-70` `lyapunov_control_angles(fun_lyapunov_control, ...)` -/
def lyapunovControlAngles (funLyap : LyapArgs α → LyapOut α) (A : LyapArgs α) :
    Except PyErr (ControlOut α) := do
  let o := funLyap A
  let (u, alpha, beta) ← uToThrustAngles o.uRaw
  -- dqdt = np.array(dqdoe) @ np.array(psi).T @ (f * u)
  let row : Fin 3 → α := fun c => dot5 o.dqdoe (o.psi c)
  let dqdt := dot3 row (vsmul A.f u)
  pure { alpha := alpha, beta := beta, u := u, psi := o.psi, q := o.q, dqdt := dqdt }

end PyQ
