import Verif.Num

/-! # Model of `pyqlaw/_eom.py`

`param = (mu, u, psi_c0, psi_c1, psi_c2, ptrb_RTN)`: the three 5-vectors are the columns of the Gauss
matrix for the five slow elements (radial, transverse, normal acceleration). -/

set_option linter.unusedSectionVars false

namespace PyQ
variable {α : Type} [Add α] [Sub α] [Mul α] [Div α] [Neg α] [NatCast α] [Pow α ℕ]
  [PyTrans α] [PyOrd α]

local notation "ℓ" n:max => (Nat.cast (n : ℕ) : α)

open PyTrans

/-- the tuple `ode_params`, `_qlaw.py:520` -/
structure OdeParams (α : Type) where
  mu : α
  u : Fin 3 → α
  psi0 : Fin 5 → α
  psi1 : Fin 5 → α
  psi2 : Fin 5 → α
  ptrb : Fin 3 → α

/-- `np.dot(psi, u + ptrb_RTN) + [0,0,0,0,0,rate]` for a 6-by-3 matrix whose first five rows are
`[psi_c0[i], psi_c1[i], psi_c2[i]]` and whose last row is `row5`; `_eom.py:29-38`, `:102-111`. -/
def gaussCombine (P : OdeParams α) (row5 : Fin 3 → α) (rate : α) : Fin 6 → α :=
  let w := vadd P.u P.ptrb
  ![dot3 ![P.psi0 0, P.psi1 0, P.psi2 0] w + ℓ 0,
    dot3 ![P.psi0 1, P.psi1 1, P.psi2 1] w + ℓ 0,
    dot3 ![P.psi0 2, P.psi1 2, P.psi2 2] w + ℓ 0,
    dot3 ![P.psi0 3, P.psi1 3, P.psi2 3] w + ℓ 0,
    dot3 ![P.psi0 4, P.psi1 4, P.psi2 4] w + ℓ 0,
    dot3 row5 w + rate]

/-- `_eom.py:9-39` `eom_kep_gauss(t, state, param)` (`t` is unused) -/
def eomKepGauss (_t : α) (state : Fin 6 → α) (P : OdeParams α) : Except PyErr (Fin 6 → α) := do
  let sma := state 0
  let ecc := state 1
  let ta := state 5
  let p := sma * (ℓ 1 - ecc ^ 2)
  let h := sqrt (sma * P.mu * (ℓ 1 - ecc ^ 2))
  let r ← ndiv (h ^ 2) (P.mu * (ℓ 1 + ecc * cos ta))
  let c0 ← ndiv (p * cos ta) (ecc * h)
  let c1 ← ndiv (-(p + r) * sin ta) (ecc * h)
  let rate ← ndiv h (r ^ 2)
  pure (gaussCombine P ![c0, c1, ℓ 0] rate)

/-- `_eom.py:42-72` `eom_mee_gauss(t, state, param)` (imported but not used by `QLaw`) -/
def eomMeeGauss (_t : α) (state : Fin 6 → α) (P : OdeParams α) : Except PyErr (Fin 6 → α) := do
  let p := state 0
  let f := state 1
  let g := state 2
  let h := state 3
  let k := state 4
  let l := state 5
  let sinL := sin l
  let cosL := cos l
  let w := ℓ 1 + f * cos l + g * sin l
  let q ← ndiv p P.mu
  let sqrtPmu := sqrt q
  let iw ← ndiv (ℓ 1) w
  let sw ← ndiv sqrtPmu w
  let gw ← ndiv (-g) w
  let fw ← ndiv f w
  let wp ← ndiv w p
  let acc := vadd P.u P.ptrb
  pure ![
    dot3 ![ℓ 0, iw * sqrtPmu * ℓ 2 * p, ℓ 0] acc + ℓ 0,
    dot3 ![sqrtPmu * sinL, sw * ((w + ℓ 1) * cosL + f), gw * sqrtPmu * (h * sinL - k * cosL)] acc + ℓ 0,
    dot3 ![-sqrtPmu * cosL, sw * ((w + ℓ 1) * sinL + g), fw * sqrtPmu * (h * sinL - k * cosL)] acc + ℓ 0,
    dot3 ![ℓ 0, ℓ 0, sw * rat 1 2 * (ℓ 1 + h ^ 2 + k ^ 2) * cosL] acc + ℓ 0,
    dot3 ![ℓ 0, ℓ 0, sw * rat 1 2 * (ℓ 1 + h ^ 2 + k ^ 2) * sinL] acc + ℓ 0,
    dot3 ![ℓ 0, ℓ 0, sw * (h * sinL - k * cosL)] acc + sqrt (P.mu * p) * wp ^ 2]

/-- `_eom.py:75-112` `eom_mee_with_a_gauss(t, state, param)`. The unused `r` is kept because its
divisions can raise. -/
def eomMeeWithAGauss (_t : α) (state : Fin 6 → α) (P : OdeParams α) :
    Except PyErr (Fin 6 → α) := do
  let sma := state 0
  let f := state 1
  let g := state 2
  let h := state 3
  let k := state 4
  let l := state 5
  let ecc := sqrt (f ^ 2 + g ^ 2)
  let angMom := sqrt (sma * P.mu * (ℓ 1 - ecc ^ 2))
  let gf ← ndiv g f
  let ta := l - arctan gf
  let _r ← ndiv (angMom ^ 2) (P.mu * (ℓ 1 + ecc * cos ta))
  let p := sma * (ℓ 1 - ecc ^ 2)
  let sinL := sin l
  let cosL := cos l
  let w := ℓ 1 + f * cosL + g * sinL
  let q ← ndiv p P.mu
  let sqrtPmu := sqrt q
  let sw ← ndiv sqrtPmu w
  let wp ← ndiv w p
  pure (gaussCombine P ![ℓ 0, ℓ 0, sw * (h * sinL - k * cosL)] (sqrt (P.mu * p) * wp ^ 2))

end PyQ
