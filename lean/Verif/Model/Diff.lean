import Verif.Model.Qlaw

/-! # Model of `sym.diff` and of the generated functions, `pyqlaw/_symbolic.py`

`symbolic_qlaw_keplerian` and `symbolic_qlaw_mee_with_a` run their code on symbols instead of numbers,
differentiate the resulting expression with `sym.diff` and turn the results into numpy code. Here the same code
(`kepQ`, `meeQ`, which are written for any number type) is run on *jets*: a jet is the value of an expression
together with the value of its derivative by the rules of `sym.diff`. An expression without the variable has the
symbolic derivative zero, which disappears from sums and products before any number is put in; such a jet has no
derivative part. `sqrt(x)` is `x**(1/2)`; a power with a general exponent is differentiated by
`(u**v)' = u**v * (v' * log(u) + u' * v/u)`. Products are differentiated factor by factor and a quotient as
the product with the inverse. How sympy arranges and shares the terms of a derivative (`cse`) is not modelled:
arrangements differ by rounding, and where one of them divides zero by zero. -/

set_option linter.unusedSectionVars false

namespace PyQ

/-- natural logarithm, in derivatives of powers -/
class PyLog (α : Type) where
  log : α → α

/-- the value of an expression and of its derivative; no derivative if the variable does not occur -/
structure SymJet (α : Type) where
  val : α
  der : Option α

namespace SymJet
variable {α : Type}

/-- an expression without the variable -/
def const (x : α) : SymJet α := ⟨x, none⟩

/-- sum of two derivatives, either of which may be the symbolic zero -/
def oadd [Add α] : Option α → Option α → Option α
  | none, y => y
  | some x, none => some x
  | some x, some y => some (x + y)

variable [Add α] [Sub α] [Mul α] [Div α] [Neg α] [NatCast α] [Pow α ℕ] [PyTrans α] [PyOrd α] [PyLog α]

instance : Add (SymJet α) := ⟨fun u v => ⟨u.val + v.val, oadd u.der v.der⟩⟩
instance : Neg (SymJet α) := ⟨fun u => ⟨-u.val, u.der.map fun d => -d⟩⟩
instance : Sub (SymJet α) := ⟨fun u v => ⟨u.val - v.val, oadd u.der (v.der.map fun d => -d)⟩⟩
instance : Mul (SymJet α) :=
  ⟨fun u v => ⟨u.val * v.val, oadd (u.der.map fun d => d * v.val) (v.der.map fun d => u.val * d)⟩⟩
instance : Div (SymJet α) :=
  ⟨fun u v => ⟨u.val / v.val,
    oadd (u.der.map fun d => d / v.val) (v.der.map fun d => -(u.val * d) / v.val ^ 2)⟩⟩
instance : NatCast (SymJet α) := ⟨fun n => const (n : α)⟩
instance : Pow (SymJet α) ℕ :=
  ⟨fun u n => match n with
    | 0 => const (u.val ^ 0)
    | k + 1 => ⟨u.val ^ (k + 1), u.der.map fun d => ((k + 1 : ℕ) : α) * u.val ^ k * d⟩⟩

open PyTrans

/-- the elementary functions; `arctan2` and `%` do not occur in the generated expressions -/
instance : PyTrans (SymJet α) where
  pi := const pi
  sqrt u := ⟨sqrt u.val, u.der.map fun d => d / (((2 : ℕ) : α) * sqrt u.val)⟩
  sin u := ⟨sin u.val, u.der.map fun d => cos u.val * d⟩
  cos u := ⟨cos u.val, u.der.map fun d => -sin u.val * d⟩
  tan u := ⟨tan u.val, u.der.map fun d => (((1 : ℕ) : α) + tan u.val ^ 2) * d⟩
  arctan u := ⟨arctan u.val, u.der.map fun d => d / (((1 : ℕ) : α) + u.val ^ 2)⟩
  arccos u := ⟨arccos u.val, u.der.map fun d => -d / sqrt (((1 : ℕ) : α) - u.val ^ 2)⟩
  exp u := ⟨exp u.val, u.der.map fun d => exp u.val * d⟩
  arctan2 u v := ⟨arctan2 u.val v.val,
    oadd (u.der.map fun d => v.val * d / (u.val ^ 2 + v.val ^ 2))
      (v.der.map fun d => -(u.val * d) / (u.val ^ 2 + v.val ^ 2))⟩
  rpow u v := ⟨rpow u.val v.val,
    (oadd (v.der.map fun d => d * PyLog.log u.val) (u.der.map fun d => d * v.val / u.val)).map
      fun d => rpow u.val v.val * d⟩
  fmod u v := ⟨fmod u.val v.val, u.der⟩

/-- comparisons do not occur in the generated expressions -/
instance : PyOrd (SymJet α) where
  lt u v := PyOrd.lt u.val v.val
  le u v := PyOrd.le u.val v.val
  eq u v := PyOrd.eq u.val v.val
  abs u := ⟨PyOrd.abs u.val, u.der.map fun d => PyOrd.sign u.val * d⟩
  sign u := const (PyOrd.sign u.val)

end SymJet

variable {α : Type} [Add α] [Sub α] [Mul α] [Div α] [Neg α] [NatCast α] [Pow α ℕ]
  [PyTrans α] [PyOrd α] [PyLog α]

/-- the arguments with `oe[j]` as the variable, `_symbolic.py:135-140`, `:309-314` -/
def LyapArgs.jet (A : LyapArgs α) (j : Fin 5) : LyapArgs (SymJet α) where
  mu := .const A.mu
  f := .const A.f
  oe := fun i => if i = j.castSucc then ⟨A.oe i, some ((1 : ℕ) : α)⟩ else .const (A.oe i)
  oeT := fun i => .const (A.oeT i)
  rpmin := .const A.rpmin
  m := .const A.m
  n := .const A.n
  r := .const A.r
  b := .const A.b
  k := .const A.k
  wp := .const A.wp
  woe := fun i => .const (A.woe i)

/-- the number computed for an expression's derivative -/
def SymJet.derivative (u : SymJet α) : α := u.der.getD ((0 : ℕ) : α)

/-- `dqdoe` of `symbolic_qlaw_keplerian`, `_symbolic.py:135-140` -/
def kepGrad (A : LyapArgs α) (j : Fin 5) : α := (kepQ (A.jet j)).derivative

/-- `dqdoe` of `symbolic_qlaw_mee_with_a`, `_symbolic.py:309-314` -/
def meeGrad (A : LyapArgs α) (j : Fin 5) : α := (meeQ (A.jet j)).derivative

/-- `ux, uy, uz`, `_symbolic.py:142-144`: products with the entries `0.0` of `psi` disappear -/
def kepControl (psi : Fin 3 → Fin 5 → α) (dq : Fin 5 → α) : Fin 3 → α :=
  ![psi 0 0 * dq 0 + psi 0 1 * dq 1 + psi 0 4 * dq 4,
    psi 1 0 * dq 0 + psi 1 1 * dq 1 + psi 1 4 * dq 4,
    psi 2 2 * dq 2 + psi 2 3 * dq 3 + psi 2 4 * dq 4]

/-- `ux, uy, uz`, `_symbolic.py:347-349`: products with the entries `0.0` of `psi` disappear -/
def meeControl (psi : Fin 3 → Fin 5 → α) (dq : Fin 5 → α) : Fin 3 → α :=
  ![psi 0 0 * dq 0 + psi 0 1 * dq 1 + psi 0 2 * dq 2,
    psi 1 0 * dq 0 + psi 1 1 * dq 1 + psi 1 2 * dq 2,
    psi 2 1 * dq 1 + psi 2 2 * dq 2 + psi 2 3 * dq 3 + psi 2 4 * dq 4]

/-- the rate of `symbolic_qlaw_keplerian`, `_symbolic.py:146-156`, likewise -/
def kepRate (f : α) (psi : Fin 3 → Fin 5 → α) (dq : Fin 5 → α) : α :=
  let u := kepControl psi dq
  let uu := vdivs u (PyTrans.sqrt (u 0 ^ 2 + u 1 ^ 2 + u 2 ^ 2))
  f * (dq 0 * (psi 0 0 * uu 0 + psi 1 0 * uu 1) + dq 1 * (psi 0 1 * uu 0 + psi 1 1 * uu 1) +
    dq 2 * (psi 2 2 * uu 2) + dq 3 * (psi 2 3 * uu 2) +
    dq 4 * (psi 0 4 * uu 0 + psi 1 4 * uu 1 + psi 2 4 * uu 2))

/-- the rate of `symbolic_qlaw_mee_with_a`, `_symbolic.py:351-361`, likewise -/
def meeRate (f : α) (psi : Fin 3 → Fin 5 → α) (dq : Fin 5 → α) : α :=
  let u := meeControl psi dq
  let uu := vdivs u (PyTrans.sqrt (u 0 ^ 2 + u 1 ^ 2 + u 2 ^ 2))
  f * (dq 0 * (psi 0 0 * uu 0 + psi 1 0 * uu 1) +
    dq 1 * (psi 0 1 * uu 0 + psi 1 1 * uu 1 + psi 2 1 * uu 2) +
    dq 2 * (psi 0 2 * uu 0 + psi 1 2 * uu 1 + psi 2 2 * uu 2) +
    dq 3 * (psi 2 3 * uu 2) + dq 4 * (psi 2 4 * uu 2))

/-- the functions generated by `symbolic_qlaw_keplerian`, `symbolic_qlaw_mee_with_a` and the other
function-valued attributes, `_qlaw.py:173-187` -/
def genDyn : ElemType → Dyn α
  | .keplerian =>
    { eom := eomKepGauss
      lyapFun := fun A => { uRaw := kepControl (kepPsi A) (kepGrad A), psi := kepPsi A, q := kepQ A,
                            dqdoe := kepGrad A }
      dqdtFun := fun A => kepRate A.f (kepPsi A) (kepGrad A)
      checkConv := checkConvergenceKeplerian }
  | .meeWithA =>
    { eom := eomMeeWithAGauss
      lyapFun := fun A => { uRaw := meeControl (meePsi A) (meeGrad A), psi := meePsi A, q := meeQ A,
                            dqdoe := meeGrad A }
      dqdtFun := fun A => meeRate A.f (meePsi A) (meeGrad A)
      checkConv := checkConvergenceMee }

end PyQ
