import Verif.Model.Lyapunov

/-! # Model of `pyqlaw/_symbolic.py`

The lambdified functions are plain numpy expressions: divisions are not checked.
`sym.diff(q, oe[j])` is `SymDiff.diff` of the one-variable restriction of `q`. The power
`x**n_petro` is `rpow`; integer powers are `^`. `(1/4)`, `1/27`, `(1/3)` are Python floats. -/

set_option linter.unusedSectionVars false

namespace PyQ
variable {α : Type} [Add α] [Sub α] [Mul α] [Div α] [Neg α] [NatCast α] [Pow α ℕ]
  [PyTrans α] [PyOrd α]

local notation "ℓ" n:max => (Nat.cast (n : ℕ) : α)

open PyTrans

/-- the maximum rates `oedot` for Keplerian elements, `_symbolic.py:37-79` -/
def kepOedot (A : LyapArgs α) : Fin 5 → α :=
  let a := A.oe 0
  let e := A.oe 1
  let i := A.oe 2
  let om := A.oe 4
  let f := A.f
  let mu := A.mu
  let p := a * (ℓ 1 - e ^ 2)
  let h := sqrt (a * mu * (ℓ 1 - e ^ 2))
  let cosi := cos i
  let sini := sin i
  let cosom := cos om
  let sinom := sin om
  let radot := p * f / (h * sini * (sqrt (ℓ 1 - e ^ 2 * cosom ^ 2) - e * sqrt (sinom ^ 2)))
  let cosTaXxSqrt := sqrt (rat 1 4 * ((ℓ 1 - e ^ 2) / e ^ 3) ^ 2 + rat 1 27)
  let term1 := rpow ((ℓ 1 - e ^ 2) / (ℓ 2 * e ^ 3) + cosTaXxSqrt) (rat 1 3)
  let term2 := rpow (-(ℓ 1 - e ^ 2) / (ℓ 2 * e ^ 3) + cosTaXxSqrt) (rat 1 3)
  let cosTaXx := term1 - term2 - ℓ 1 / e
  let rXx := p / (ℓ 1 + e * cosTaXx)
  let omdotI := f / (e * h) * sqrt (p ^ 2 * cosTaXx ^ 2 + (p + rXx) ^ 2 * (ℓ 1 - cosTaXx ^ 2))
  let omdotO := radot * sqrt (cosi ^ 2)
  let omdot := (omdotI + A.b * omdotO) / (ℓ 1 + A.b)
  ![ℓ 2 * f * sqrt (a ^ 3 * (ℓ 1 + e) / (mu * (ℓ 1 - e))),
    ℓ 2 * p * f / h,
    p * f / (h * (sqrt (ℓ 1 - e ^ 2 * sinom ^ 2) - e * sqrt (cosom ^ 2))),
    radot,
    omdot]

/-- the periapsis penalty `exp(k (1 - rp/rpmin))`, `_symbolic.py:39,82` -/
def kepPenalty (A : LyapArgs α) : α :=
  exp (A.k * (ℓ 1 - A.oe 0 * (ℓ 1 - A.oe 1) / A.rpmin))

/-- the scaling of the semi-major axis term, `_symbolic.py:84` -/
def kepSoe (A : LyapArgs α) : α :=
  rpow (ℓ 1 + rpow ((A.oe 0 - A.oeT 0) / (A.m * A.oeT 0)) A.n) (ℓ 1 / A.r)

/-- `doe` for Keplerian elements, `_symbolic.py:52-57` -/
def kepDoe (A : LyapArgs α) : Fin 5 → α :=
  ![A.oe 0 - A.oeT 0, A.oe 1 - A.oeT 1, A.oe 2 - A.oeT 2,
    arccos (cos (A.oe 3 - A.oeT 3)), arccos (cos (A.oe 4 - A.oeT 4))]

/-- the quotient `q` for Keplerian elements, `_symbolic.py:89-95` -/
def kepQ (A : LyapArgs α) : α :=
  let doe := kepDoe A
  let oedot := kepOedot A
  let w := A.woe
  (ℓ 1 + A.wp * kepPenalty A) * (
    w 0 * kepSoe A * (doe 0 / oedot 0) ^ 2 +
    w 1 * ℓ 1 * (doe 1 / oedot 1) ^ 2 +
    w 2 * ℓ 1 * (doe 2 / oedot 2) ^ 2 +
    w 3 * ℓ 1 * (doe 3 / oedot 3) ^ 2 +
    w 4 * ℓ 1 * (doe 4 / oedot 4) ^ 2)

/-- Gauss matrix for Keplerian elements (columns: radial, transverse, normal),
`_symbolic.py:98-125` -/
def kepPsi (A : LyapArgs α) : Fin 3 → Fin 5 → α :=
  let a := A.oe 0
  let e := A.oe 1
  let i := A.oe 2
  let om := A.oe 4
  let ta := A.oe 5
  let mu := A.mu
  let p := a * (ℓ 1 - e ^ 2)
  let h := sqrt (a * mu * (ℓ 1 - e ^ 2))
  let cosTA := cos ta
  let sinTA := sin ta
  let cosi := cos i
  let sini := sin i
  let r := h ^ 2 / (mu * (ℓ 1 + e * cosTA))
  ![![ℓ 2 * a ^ 2 / h * e * sinTA,
      p / h * sinTA,
      ℓ 0,
      ℓ 0,
      -p / (e * h) * cosTA],
    ![ℓ 2 * a ^ 2 / h * p / r,
      ((p + r) * cosTA + r * e) / h,
      ℓ 0,
      ℓ 0,
      (p + r) * sinTA / (e * h)],
    ![ℓ 0,
      ℓ 0,
      r * cos (ta + om) / h,
      r * sin (ta + om) / (h * sini),
      -r * sin (ta + om) * cosi / (h * sini)]]

/-- the maximum rates `oedot` for MEE with semi-major axis, `_symbolic.py:217-251` -/
def meeOedot (A : LyapArgs α) : Fin 5 → α :=
  let a := A.oe 0
  let f := A.oe 1
  let g := A.oe 2
  let h := A.oe 3
  let k := A.oe 4
  let mu := A.mu
  let accel := A.f
  let p := a * (ℓ 1 - f ^ 2 - g ^ 2)
  let sSquared := ℓ 1 + h ^ 2 + k ^ 2
  let sqrtPmu := sqrt (p / mu)
  ![ℓ 2 * accel * a * sqrt (a / mu) *
      sqrt ((ℓ 1 + sqrt (f ^ 2 + g ^ 2)) / (ℓ 1 - sqrt (f ^ 2 + g ^ 2))),
    ℓ 2 * accel * sqrtPmu,
    ℓ 2 * accel * sqrtPmu,
    rat 1 2 * accel * sqrtPmu * sSquared / (sqrt (ℓ 1 - g ^ 2) + f),
    rat 1 2 * accel * sqrtPmu * sSquared / (sqrt (ℓ 1 - f ^ 2) + g)]

/-- the periapsis penalty for MEE, `_symbolic.py:222,224,254` -/
def meePenalty (A : LyapArgs α) : α :=
  exp (A.k * (ℓ 1 - A.oe 0 * (ℓ 1 - sqrt (A.oe 1 ^ 2 + A.oe 2 ^ 2)) / A.rpmin))

/-- the scaling of the semi-major axis term for MEE, `_symbolic.py:257` -/
def meeSoe (A : LyapArgs α) : α :=
  rpow (ℓ 1 + rpow (sqrt ((A.oe 0 - A.oeT 0) ^ 2) / (A.m * A.oeT 0)) A.n) (ℓ 1 / A.r)

/-- `doe` for MEE, `_symbolic.py:230-236` -/
def meeDoe (A : LyapArgs α) : Fin 5 → α :=
  ![A.oe 0 - A.oeT 0, A.oe 1 - A.oeT 1, A.oe 2 - A.oeT 2, A.oe 3 - A.oeT 3, A.oe 4 - A.oeT 4]

/-- the quotient `q` for MEE, `_symbolic.py:261-267` -/
def meeQ (A : LyapArgs α) : α :=
  let doe := meeDoe A
  let oedot := meeOedot A
  let w := A.woe
  (ℓ 1 + A.wp * meePenalty A) * (
    w 0 * meeSoe A * (doe 0 / oedot 0) ^ 2 +
    w 1 * ℓ 1 * (doe 1 / oedot 1) ^ 2 +
    w 2 * ℓ 1 * (doe 2 / oedot 2) ^ 2 +
    w 3 * ℓ 1 * (doe 3 / oedot 3) ^ 2 +
    w 4 * ℓ 1 * (doe 4 / oedot 4) ^ 2)

/-- Gauss matrix for MEE with semi-major axis, `_symbolic.py:221-227,270-299`; the true anomaly is
`l - atan(g/f)` as in the source. -/
def meePsi (A : LyapArgs α) : Fin 3 → Fin 5 → α :=
  let a := A.oe 0
  let f := A.oe 1
  let g := A.oe 2
  let h := A.oe 3
  let k := A.oe 4
  let l := A.oe 5
  let mu := A.mu
  let p := a * (ℓ 1 - f ^ 2 - g ^ 2)
  let e := sqrt (f ^ 2 + g ^ 2)
  let angMom := sqrt (a * mu * (ℓ 1 - e ^ 2))
  let ta := l - arctan (g / f)
  let r := angMom ^ 2 / (mu * (ℓ 1 + e * cos ta))
  let sqrtPmu := sqrt (p / mu)
  let cosL := cos l
  let sinL := sin l
  let w := ℓ 1 + f * cosL + g * sinL
  ![![ℓ 2 * a ^ 2 / angMom * e * sin ta,
      sqrtPmu * sinL,
      -sqrtPmu * cosL,
      ℓ 0,
      ℓ 0],
    ![ℓ 2 * a ^ 2 / angMom * p / r,
      sqrtPmu / w * ((w + ℓ 1) * cosL + f),
      sqrtPmu / w * ((w + ℓ 1) * sinL + g),
      ℓ 0,
      ℓ 0],
    ![ℓ 0,
      sqrtPmu / w * (-g * (h * sinL - k * cosL)),
      sqrtPmu / w * (f * (h * sinL - k * cosL)),
      sqrtPmu / w * rat 1 2 * (ℓ 1 + h ^ 2 + k ^ 2) * cosL,
      sqrtPmu / w * rat 1 2 * (ℓ 1 + h ^ 2 + k ^ 2) * sinL]]

section diff
variable [SymDiff α]

/-- replace element `j` (of the five slow ones) of the osculating elements -/
def LyapArgs.setOe (A : LyapArgs α) (j : Fin 5) (x : α) : LyapArgs α :=
  { A with oe := fun i => if i = j.castSucc then x else A.oe i }

/-- `sym.diff(q, oe[j])`, `_symbolic.py:135-140`, `:309-314` -/
def partialQ (Q : LyapArgs α → α) (A : LyapArgs α) (j : Fin 5) : α :=
  SymDiff.diff (fun x => Q (A.setOe j x)) (A.oe j.castSucc)

/-- `ux, uy, uz`: `_symbolic.py:142-144`, `:347-349` -/
def rawControl (psi : Fin 3 → Fin 5 → α) (dq : Fin 5 → α) : Fin 3 → α :=
  fun c => psi c 0 * dq 0 + psi c 1 * dq 1 + psi c 2 * dq 2 + psi c 3 * dq 3 + psi c 4 * dq 4

/-- `dqdt`: `_symbolic.py:146-156`, `:351-361` -/
def evalDqdt (f : α) (psi : Fin 3 → Fin 5 → α) (dq : Fin 5 → α) : α :=
  let u := rawControl psi dq
  let umag := sqrt (u 0 ^ 2 + u 1 ^ 2 + u 2 ^ 2)
  let uu : Fin 3 → α := vdivs u umag
  f * (
    dq 0 * (psi 0 0 * uu 0 + psi 1 0 * uu 1 + psi 2 0 * uu 2) +
    dq 1 * (psi 0 1 * uu 0 + psi 1 1 * uu 1 + psi 2 1 * uu 2) +
    dq 2 * (psi 0 2 * uu 0 + psi 1 2 * uu 1 + psi 2 2 * uu 2) +
    dq 3 * (psi 0 3 * uu 0 + psi 1 3 * uu 1 + psi 2 3 * uu 2) +
    dq 4 * (psi 0 4 * uu 0 + psi 1 4 * uu 1 + psi 2 4 * uu 2))

/-- `fun_lyapunov_control` of `symbolic_qlaw_keplerian`, `_symbolic.py:158-163` -/
def kepLyap (A : LyapArgs α) : LyapOut α :=
  let psi := kepPsi A
  let dq := partialQ kepQ A
  { uRaw := rawControl psi dq, psi := psi, q := kepQ A, dqdoe := dq }

/-- `fun_eval_dqdt` of `symbolic_qlaw_keplerian`, `_symbolic.py:179-184` -/
def kepDqdt (A : LyapArgs α) : α := evalDqdt A.f (kepPsi A) (partialQ kepQ A)

/-- `fun_lyapunov_control` of `symbolic_qlaw_mee_with_a`, `_symbolic.py:363-368` -/
def meeLyap (A : LyapArgs α) : LyapOut α :=
  let psi := meePsi A
  let dq := partialQ meeQ A
  { uRaw := rawControl psi dq, psi := psi, q := meeQ A, dqdoe := dq }

/-- `fun_eval_dqdt` of `symbolic_qlaw_mee_with_a`, `_symbolic.py:387-392` -/
def meeDqdt (A : LyapArgs α) : α := evalDqdt A.f (meePsi A) (partialQ meeQ A)

end diff

end PyQ
